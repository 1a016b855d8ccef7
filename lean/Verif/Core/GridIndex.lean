import Verif.Geom.Container
import Mathlib.Algebra.Order.Ring.Int
import Mathlib.Tactic.Linarith
import Mathlib.Tactic.Ring
import Mathlib.Data.Fin.VecNotation

/-!
# Dense grid indexing (`index` / `unindex` of `mtao::geometry::grid`)

The grid containers come from the mtao core library, which is not part of the repository. All that is used
here is that `index` is a bijection from the valid coordinates of a shape to `0 .. size-1`; this file states
that as a structure and shows that the usual linear indexing has it.
-/
namespace Mandoline
variable {D : ℕ}

/-- a dense indexing of the valid coordinates of `shape`. -/
structure GridIndexer (shape : Coord D) where
  idx : Coord D → ℤ
  size : ℤ
  bound : ∀ c, ValidIndex shape c = true → 0 ≤ idx c ∧ idx c < size
  inj : ∀ c c', ValidIndex shape c = true → ValidIndex shape c' = true → idx c = idx c' → c = c'
  surj : ∀ k, 0 ≤ k → k < size → ∃ c, ValidIndex shape c = true ∧ idx c = k

theorem validIndex_iff (shape c : Coord D) : ValidIndex shape c = true ↔ ∀ i, 0 ≤ c i ∧ c i < shape i := by
  simp [ValidIndex]

/-- linear index, first axis fastest. -/
def linIndex : (D : ℕ) → (shape c : Coord D) → ℤ
  | 0, _, _ => 0
  | n + 1, s, c => c 0 + s 0 * linIndex n (fun i => s i.succ) (fun i => c i.succ)

/-- number of valid coordinates. -/
def linSize : (D : ℕ) → (shape : Coord D) → ℤ
  | 0, _ => 1
  | n + 1, s => s 0 * linSize n (fun i => s i.succ)

theorem linIndex_bound : ∀ (D : ℕ) (s c : Coord D), (∀ i, 0 ≤ c i ∧ c i < s i) →
    0 ≤ linIndex D s c ∧ linIndex D s c < linSize D s
  | 0, _, _, _ => by simp [linIndex, linSize]
  | n + 1, s, c, h => by
    have ih := linIndex_bound n (fun i => s i.succ) (fun i => c i.succ) fun i => h i.succ
    have h0 := h 0
    simp only [linIndex, linSize]
    constructor
    · have : 0 ≤ s 0 * linIndex n (fun i => s i.succ) (fun i => c i.succ) :=
        mul_nonneg (by omega) ih.1
      omega
    · have : s 0 * (linIndex n (fun i => s i.succ) (fun i => c i.succ) + 1) ≤
          s 0 * linSize n (fun i => s i.succ) := mul_le_mul_of_nonneg_left (by omega) (by omega)
      linarith

theorem linIndex_inj : ∀ (D : ℕ) (s c c' : Coord D), (∀ i, 0 ≤ c i ∧ c i < s i) →
    (∀ i, 0 ≤ c' i ∧ c' i < s i) → linIndex D s c = linIndex D s c' → c = c'
  | 0, _, _, _, _, _, _ => funext fun i => i.elim0
  | n + 1, s, c, c', h, h', he => by
    simp only [linIndex] at he
    have h0 := h 0
    have h0' := h' 0
    have hmod : c 0 = c' 0 := by
      have e1 : (c 0 + s 0 * linIndex n (fun i => s i.succ) (fun i => c i.succ)) % s 0 = c 0 := by
        rw [Int.add_mul_emod_self_left]; exact Int.emod_eq_of_lt h0.1 h0.2
      have e2 : (c' 0 + s 0 * linIndex n (fun i => s i.succ) (fun i => c' i.succ)) % s 0 = c' 0 := by
        rw [Int.add_mul_emod_self_left]; exact Int.emod_eq_of_lt h0'.1 h0'.2
      rw [← e1, he, e2]
    have hs : s 0 ≠ 0 := by omega
    have hrest : linIndex n (fun i => s i.succ) (fun i => c i.succ) =
        linIndex n (fun i => s i.succ) (fun i => c' i.succ) := by
      rw [hmod] at he
      exact mul_left_cancel₀ hs (by linarith)
    have ih := linIndex_inj n _ _ _ (fun i => h i.succ) (fun i => h' i.succ) hrest
    funext i
    rcases Fin.eq_zero_or_eq_succ i with rfl | ⟨k, rfl⟩
    · exact hmod
    · exact congrFun ih k

theorem linIndex_surj : ∀ (D : ℕ) (s : Coord D), (∀ i, 0 ≤ s i) → ∀ k, 0 ≤ k → k < linSize D s →
    ∃ c : Coord D, (∀ i, 0 ≤ c i ∧ c i < s i) ∧ linIndex D s c = k
  | 0, _, _, k, h0, h1 => ⟨fun i => i.elim0, fun i => i.elim0, by simp [linSize] at h1; simp [linIndex]; omega⟩
  | n + 1, s, hs, k, h0, h1 => by
    simp only [linSize] at h1
    have hpos : 0 < s 0 := by
      rcases (hs 0).lt_or_eq with h | h
      · exact h
      · rw [← h] at h1; simp at h1; omega
    obtain ⟨c, hc, hk⟩ := linIndex_surj n (fun i => s i.succ) (fun i => hs i.succ) (k / s 0)
      (Int.ediv_nonneg h0 hpos.le) (by
        rw [Int.ediv_lt_iff_lt_mul hpos]; linarith)
    refine ⟨Fin.cons (k % s 0) c, ?_, ?_⟩
    · intro i
      rcases Fin.eq_zero_or_eq_succ i with rfl | ⟨j, rfl⟩
      · simp only [Fin.cons_zero]
        exact ⟨Int.emod_nonneg _ hpos.ne', Int.emod_lt_of_pos _ hpos⟩
      · simp only [Fin.cons_succ]; exact hc j
    · simp only [linIndex, Fin.cons_zero, Fin.cons_succ, hk]
      exact Int.emod_add_mul_ediv k (s 0)

/-- the standard indexer. -/
def linIndexer (shape : Coord D) (h : ∀ i, 0 ≤ shape i) : GridIndexer shape where
  idx := linIndex D shape
  size := linSize D shape
  bound c hc := linIndex_bound D shape c ((validIndex_iff shape c).1 hc)
  inj c c' hc hc' he := linIndex_inj D shape c c' ((validIndex_iff shape c).1 hc) ((validIndex_iff shape c').1 hc') he
  surj k h0 h1 := by
    obtain ⟨c, hc, hk⟩ := linIndex_surj D shape h k h0 h1
    exact ⟨c, (validIndex_iff shape c).2 hc, hk⟩

example : linIndex 3 ![4, 5, 6] ![1, 2, 3] = 1 + 4 * (2 + 5 * 3) := by decide

end Mandoline
