import Verif.Geom.MaskLemmas
import Mathlib.Tactic.Linarith
import Mathlib.Tactic.NormNum
import Mathlib.Tactic.Push
import Mathlib.Tactic.FieldSimp
import Mathlib.Algebra.Order.Field.Basic

namespace Mandoline
namespace Vertex
variable {D : ℕ}

theorem repair_p (v : Vertex D) : v.repair.p = v.p := by
  funext i; simp only [repair, p]; push_cast; ring

theorem repair_normalised (v : Vertex D) : Normalised v.repair := by
  intro i
  simp only [repair]
  have h1 := Int.floor_le (v.quot i)
  have h2 := Int.lt_floor_add_one (v.quot i)
  constructor <;> linarith

theorem repair_of_normalised (v : Vertex D) (h : Normalised v) : v.repair = v := by
  have hf : ∀ i, ⌊v.quot i⌋ = 0 := fun i => by
    rw [Int.floor_eq_iff]; have := h i; simp; constructor <;> linarith [this.1, this.2]
  cases v with
  | mk c q cl =>
    simp only [repair] at *
    simp [hf]

theorem normalised_coord (v : Vertex D) (h : Normalised v) (i : Fin D) : v.coord i = ⌊v.p i⌋ := by
  symm
  rw [Int.floor_eq_iff]
  have := h i
  simp only [p]
  constructor <;> linarith [this.1, this.2]

theorem normalised_ext {a b : Vertex D} (ha : Normalised a) (hb : Normalised b) (h : a.p = b.p) :
    a.coord = b.coord ∧ a.quot = b.quot := by
  have hc : a.coord = b.coord := by
    funext i; rw [normalised_coord a ha, normalised_coord b hb, h]
  refine ⟨hc, ?_⟩
  funext i
  have := congrFun h i
  simp only [p, hc] at this
  linarith

theorem eq_iff (a b : Vertex D) : a.eq b = true ↔ a.coord = b.coord ∧ a.quot = b.quot := by
  simp [eq, and_comm]

theorem quot_zero_iff (v : Vertex D) (h : Normalised v) (i : Fin D) :
    v.quot i = 0 ↔ IntegralAt v.p i := by
  constructor
  · intro hq; exact ⟨v.coord i, by simp [p, hq]⟩
  · rintro ⟨n, hn⟩
    have h1 := normalised_coord v h i
    rw [hn, Int.floor_intCast] at h1
    simp only [p, h1] at hn
    linarith

theorem fromVertex_p (x : Pt D) : (fromVertex x).p = x := by
  have : (fromVertex x).p = ((ofQuot (fun _ => 0) x).repair).p := rfl
  rw [this, repair_p]; funext i; simp [ofQuot, p]

theorem fromVertex_normalised (x : Pt D) : Normalised (fromVertex x) :=
  repair_normalised (ofQuot (fun _ => 0) x)

/-! ### lexicographic comparisons as list recursions -/

theorem coordLt_finRange (a b : Fin D → ℤ) :
    coordLt ((List.finRange D).map fun i => (a i, b i)) = true ↔ LexLt a b := by
  induction D with
  | zero =>
    simp [coordLt, LexLt]
  | succ n ih =>
    rw [List.finRange_succ, List.map_cons, List.map_map]
    simp only [coordLt]
    have ih' := ih (fun i => a i.succ) (fun i => b i.succ)
    by_cases h1 : a 0 < b 0
    · simp only [h1, if_true, true_iff]
      exact ⟨0, fun j hj => absurd hj (Fin.not_lt_zero j), h1⟩
    · by_cases h2 : b 0 < a 0
      · simp only [h1, h2, if_true, if_false]
        constructor
        · intro h; exact absurd h (by simp)
        · rintro ⟨i, hi, hlt⟩
          rcases Fin.eq_zero_or_eq_succ i with rfl | ⟨k, rfl⟩
          · exact absurd hlt h1
          · have := hi 0 (Fin.succ_pos k); omega
      · have h3 : a 0 = b 0 := by omega
        simp only [h1, h2, if_false]
        have : (List.map ((fun i => (a i, b i)) ∘ Fin.succ) (List.finRange n)) =
            (List.finRange n).map fun i => (a i.succ, b i.succ) := rfl
        rw [this, ih']
        constructor
        · rintro ⟨i, hi, hlt⟩
          refine ⟨i.succ, ?_, hlt⟩
          intro j hj
          rcases Fin.eq_zero_or_eq_succ j with rfl | ⟨k, rfl⟩
          · exact h3
          · exact hi k (Fin.succ_lt_succ_iff.1 hj)
        · rintro ⟨i, hi, hlt⟩
          rcases Fin.eq_zero_or_eq_succ i with rfl | ⟨k, rfl⟩
          · exact absurd hlt h1
          · exact ⟨k, fun j hj => hi j.succ (Fin.succ_lt_succ_iff.2 hj), hlt⟩

theorem quotLt_finRange (a b : Fin D → ℚ) :
    quotLt ((List.finRange D).map fun i => (a i, b i)) = true ↔ LexLt a b := by
  induction D with
  | zero =>
    simp [quotLt, LexLt]
  | succ n ih =>
    rw [List.finRange_succ, List.map_cons, List.map_map]
    simp only [quotLt]
    have ih' := ih (fun i => a i.succ) (fun i => b i.succ)
    by_cases h1 : a 0 < b 0
    · simp only [h1, if_true, true_iff]
      exact ⟨0, fun j hj => absurd hj (Fin.not_lt_zero j), h1⟩
    · by_cases h3 : a 0 = b 0
      · simp only [h3, if_true, if_false, lt_irrefl]
        have : (List.map ((fun i => (a i, b i)) ∘ Fin.succ) (List.finRange n)) =
            (List.finRange n).map fun i => (a i.succ, b i.succ) := rfl
        rw [this, ih']
        constructor
        · rintro ⟨i, hi, hlt⟩
          refine ⟨i.succ, ?_, hlt⟩
          intro j hj
          rcases Fin.eq_zero_or_eq_succ j with rfl | ⟨k, rfl⟩
          · exact h3
          · exact hi k (Fin.succ_lt_succ_iff.1 hj)
        · rintro ⟨i, hi, hlt⟩
          rcases Fin.eq_zero_or_eq_succ i with rfl | ⟨k, rfl⟩
          · exact absurd hlt h1
          · exact ⟨k, fun j hj => hi j.succ (Fin.succ_lt_succ_iff.2 hj), hlt⟩
      · simp only [h1, h3, if_false]
        constructor
        · intro h; exact absurd h (by simp)
        · rintro ⟨i, hi, hlt⟩
          rcases Fin.eq_zero_or_eq_succ i with rfl | ⟨k, rfl⟩
          · exact absurd hlt h1
          · exact absurd (hi 0 (Fin.succ_pos k)) h3

end Vertex

section Lex
variable {α : Type*} [LinearOrder α] {D : ℕ}

theorem LexLt.irrefl (a : Fin D → α) : ¬ LexLt a a := fun ⟨_, _, h⟩ => lt_irrefl _ h

theorem LexLt.trans {a b c : Fin D → α} (h : LexLt a b) (h' : LexLt b c) : LexLt a c := by
  obtain ⟨i, hi, hlt⟩ := h
  obtain ⟨k, hk, hlt'⟩ := h'
  rcases lt_trichotomy i k with h | h | h
  · exact ⟨i, fun j hj => (hi j hj).trans (hk j (hj.trans h)), by rw [← hk i h]; exact hlt⟩
  · subst h
    exact ⟨i, fun j hj => (hi j hj).trans (hk j hj), hlt.trans hlt'⟩
  · exact ⟨k, fun j hj => (hi j (hj.trans h)).trans (hk j hj), by rw [hi k h]; exact hlt'⟩

theorem LexLt.trichotomy (a b : Fin D → α) : LexLt a b ∨ a = b ∨ LexLt b a := by
  induction D with
  | zero => right; left; funext i; exact i.elim0
  | succ n ih =>
    rcases lt_trichotomy (a 0) (b 0) with h | h | h
    · left; exact ⟨0, fun j hj => absurd hj (Fin.not_lt_zero j), h⟩
    · have lift : ∀ x y : Fin (n+1) → α, x 0 = y 0 →
          LexLt (fun i => x (Fin.succ i)) (fun i => y (Fin.succ i)) → LexLt x y := by
        rintro x y hxy ⟨i, hi, hlt⟩
        refine ⟨i.succ, ?_, hlt⟩
        intro j hj
        rcases Fin.eq_zero_or_eq_succ j with rfl | ⟨k, rfl⟩
        · exact hxy
        · exact hi k (Fin.succ_lt_succ_iff.1 hj)
      rcases ih (fun i => a i.succ) (fun i => b i.succ) with h1 | h1 | h1
      · left; exact lift a b h h1
      · right; left
        funext i
        rcases Fin.eq_zero_or_eq_succ i with rfl | ⟨k, rfl⟩
        · exact h
        · exact congrFun h1 k
      · right; right; exact lift b a h.symm h1
    · right; right; exact ⟨0, fun j hj => absurd hj (Fin.not_lt_zero j), h⟩

end Lex

namespace Vertex
variable {D : ℕ}

theorem lt_iff (a b : Vertex D) :
    a.lt b = true ↔ LexLt a.coord b.coord ∨ (a.coord = b.coord ∧ LexLt a.quot b.quot) := by
  unfold lt
  have h1 := coordLt_finRange a.coord b.coord
  have h2 := quotLt_finRange a.quot b.quot
  by_cases hc : LexLt a.coord b.coord
  · simp [h1.2 hc, hc]
  · have : ¬ (coordLt ((List.finRange D).map fun i => (a.coord i, b.coord i)) = true) :=
      fun h => hc (h1.1 h)
    simp only [this]
    by_cases he : a.coord = b.coord
    · simp only [he, if_true] at *
      simp [h2, LexLt.irrefl]
    · simp [he, hc]

theorem thresholdAxis_cases (t : ℚ) (c : ℤ) (q : ℚ) (cl : Bool) :
    (thresholdAxis t c q cl = (c, q, cl)) ∨
    (thresholdAxis t c q cl = (c, 0, true) ∧ q < 1/2 ∧ q < t) ∨
    (thresholdAxis t c q cl = (c + 1, 0, true) ∧ 1/2 ≤ q ∧ q - 1 > -t * |q + 1|) := by
  unfold thresholdAxis
  split_ifs with h1 h2 h3
  · exact Or.inr (Or.inl ⟨rfl, h1, h2⟩)
  · exact Or.inl rfl
  · exact Or.inr (Or.inr ⟨rfl, not_lt.1 h1, h3⟩)
  · exact Or.inl rfl

end Vertex
end Mandoline
