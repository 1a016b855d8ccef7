import Verif.Pipe2.Dup
import Mathlib.Tactic.FinCases
import Mathlib.Data.Fin.VecNotation

/-!
# C84: the boundary operator from the input alone, and a concrete input
-/
namespace Mandoline
namespace Pipe2
open Sched Planar

variable {n m : ℕ} {P : Input n m} {cs : List (CrossingI 2)} {es : List (EdgeInput.MeshEdge 2)} {ci : Coord 2 → ℤ}

/-- **C84.** No input edge on a grid line: no cut edge is doubled. -/
theorem C84_no_duplicates (h : Run P cs es) (pl : P.Planar)
    (off : ∀ i k (z : ℤ), ¬ (P.V (P.E i).1 k = z ∧ P.V (P.E i).2 k = z)) (i : ℕ) (e : CutEdge2)
    (hi : (P.gen cs es ci).edges[i]? = some e) : ¬ (P.gen cs es ci).Duplicated i e := by
  rw [C84_duplicated_iff h pl i e hi]
  rintro ⟨hm, k, z, h1, h2⟩
  rcases edges_getElem hi with ⟨hl, x, hx, rfl⟩ | ⟨x, hx, rfl⟩
  · obtain ⟨j, s, t, g⟩ := h.piece hx
    dsimp only at h1 h2
    have key : P.seg j s k = z ∧ P.seg j t k = z := by
      rcases g.ends with ⟨n1, n2⟩ | ⟨n1, n2⟩
      · rw [(h.posNat (ci := ci) n1).2] at h1
        rw [(h.posNat (ci := ci) n2).2] at h2
        exact ⟨h1, h2⟩
      · rw [(h.posNat (ci := ci) n2).2] at h1
        rw [(h.posNat (ci := ci) n1).2] at h2
        exact ⟨h2, h1⟩
    obtain ⟨k1, k2⟩ := key
    unfold Input.seg segPt at k1 k2
    have hst := g.st
    have h0 : (t - s) * (P.V (P.E j).2 k - P.V (P.E j).1 k) = 0 := by linear_combination k2 - k1
    rcases mul_eq_zero.1 h0 with h0 | h0
    · linarith
    · have he : P.V (P.E j).2 k = P.V (P.E j).1 k := by linarith
      rw [he] at k1
      have : P.V (P.E j).1 k = z := by linear_combination k1
      exact off j k z ⟨this, he.trans this⟩
  · cases hm

/-- **C84.** From the input to the boundary operator: an admissible planar input with no edge on a grid line. -/
theorem C84_boundary_operator (h : Run P cs es) (pl : P.Planar)
    (off : ∀ i k (z : ℤ), ¬ (P.V (P.E i).1 k = z ∧ P.V (P.E i).2 k = z)) {ord : ℤ → List ℤ}
    (perm : ∀ a, (ord a).Perm ((FaceCollapser.make (P.graph cs es)).ring a))
    (R : DsuRoots ((FaceCollapser.make (P.graph cs es)).unify ord).ds) (hci : ∀ c, (P.gen cs es ci).InGrid c → 0 ≤ ci c) :
    ∃ out, ((FaceCollapser.make (P.graph cs es)).bakeSimple ord R).faces = some out ∧
      ∀ faces, Grouped (P.gen cs es ci) (out.map Prod.snd) faces →
        (∀ e ∈ (P.gen cs es ci).edges, ¬ Gen2.Dangling faces e) →
          ∀ (O : GridOrder 2) (look : ℤ → ℤ) (nCells : ℤ) (k : ℚ) (r : ℕ),
          ∃ M, (P.gen cs es ci).mesh faces = some M ∧ matVec (M.boundary look (shiftTriplets M.nFacets nCells
            (boundaryTriplets (ExteriorGrid.make O P.shape (P.gen cs es ci).mask).pairs false)) false) (fun _ => k) r = 0 := by
  obtain ⟨out, h1, h2⟩ := C84_boundary_kills_constants h pl perm R hci
  refine ⟨out, h1, fun faces g hd O look nCells k r => (h2 faces g).2 ?_ O look nCells k r⟩
  exact fun i e hi => ⟨C84_no_duplicates h pl off i e hi, hd e (List.mem_of_getElem? hi)⟩

/-! ## a square around the inner vertex of a 2 x 2 grid -/

def squareV : Fin 4 → Pt 2 := ![![1/2, 1/2], ![3/2, 1/2], ![3/2, 3/2], ![1/2, 3/2]]

def square : Input 4 4 where
  V := squareV
  E := ![(0, 1), (1, 2), (2, 3), (3, 0)]
  shape := ![2, 2]
  index := linIndexer (D := 2) (fun i => (![2, 2] : Coord 2) i + 1) (by decide)
  unindex := fun k => ![k % 3, k / 3]
  unindex_idx := by
    intro c hc
    rw [validIndex_iff] at hc
    have h0 := hc 0
    have h1 := hc 1
    funext i
    have e0 : (![2, 2] : Coord 2) 0 = 2 := rfl
    have e1 : (![2, 2] : Coord 2) 1 = 2 := rfl
    rw [e0] at h0
    rw [e1] at h1
    have hidx : (linIndexer (D := 2) (fun i => (![2, 2] : Coord 2) i + 1) (by decide)).idx c = c 0 + 3 * c 1 := by
      simp [linIndexer, linIndex]
    rw [hidx]
    match i with
    | 0 => show (c 0 + 3 * c 1) % 3 = c 0; omega
    | 1 => show (c 0 + 3 * c 1) / 3 = c 1; omega

/-- a point with half-integer or integer coordinates is far from the other grid lines. -/
theorem half_sep (x : ℚ) (k : ℤ) (hx : 2 * x = k) (z : ℤ) : x = z ∨ 1 / 2 ≤ |x - z| := by
  by_cases h : k = 2 * z
  · left; rw [h] at hx; push_cast at hx; linarith
  · right
    have : (1 : ℤ) ≤ |k - 2 * z| := Int.one_le_abs (by omega)
    have h2 : (1 : ℚ) ≤ |(k : ℚ) - 2 * z| := by exact_mod_cast this
    rw [← hx, show 2 * x - 2 * (z : ℚ) = 2 * (x - z) by ring, abs_mul] at h2
    norm_num at h2
    linarith

def sqA : Fin 4 → ℚ × ℚ := ![(1/2, 1/2), (3/2, 1/2), (3/2, 3/2), (1/2, 3/2)]
def sqD : Fin 4 → ℚ × ℚ := ![(1, 0), (0, 1), (-1, 0), (0, -1)]

theorem square_seg (i : Fin 4) (t : ℚ) :
    square.seg i t 0 = (sqA i).1 + t * (sqD i).1 ∧ square.seg i t 1 = (sqA i).2 + t * (sqD i).2 := by
  unfold Input.seg segPt
  match i with
  | 0 => exact ⟨show (1 - t) * (1/2) + t * (3/2) = 1/2 + t * 1 by ring, show (1 - t) * (1/2) + t * (1/2) = 1/2 + t * 0 by ring⟩
  | 1 => exact ⟨show (1 - t) * (3/2) + t * (3/2) = 3/2 + t * 0 by ring, show (1 - t) * (1/2) + t * (3/2) = 1/2 + t * 1 by ring⟩
  | 2 => exact ⟨show (1 - t) * (3/2) + t * (1/2) = 3/2 + t * (-1) by ring, show (1 - t) * (3/2) + t * (3/2) = 3/2 + t * 0 by ring⟩
  | 3 => exact ⟨show (1 - t) * (1/2) + t * (1/2) = 1/2 + t * 0 by ring, show (1 - t) * (3/2) + t * (1/2) = 3/2 + t * (-1) by ring⟩

theorem square_half {i : Fin 4} {t : ℚ} (h0 : 0 < t) (h1 : t < 1) {d : Fin 2}
    (h : ∃ q : ℤ, square.seg i t d = q) : t = 1 / 2 := by
  obtain ⟨q, hq⟩ := h
  obtain ⟨s0, s1⟩ := square_seg i t
  have one : ∀ x : ℚ, x = q → 1 / 2 < x → x < 3 / 2 → x = 1 := by
    intro x hx a b
    rw [hx] at a b ⊢
    have a' : (0 : ℚ) < q := by linarith
    have b' : (q : ℚ) < 2 := by linarith
    have a'' : 0 < q := by exact_mod_cast a'
    have b'' : q < 2 := by exact_mod_cast b'
    have : q = 1 := by omega
    rw [this]; norm_num
  have nohalf : ∀ x : ℚ, x = q → x = 1 / 2 ∨ x = 3 / 2 → False := by
    intro x hx h
    rcases h with h | h
    · have : (2 * q : ℚ) = 1 := by linarith
      have : 2 * q = 1 := by exact_mod_cast this
      omega
    · have : (2 * q : ℚ) = 3 := by linarith
      have : 2 * q = 3 := by exact_mod_cast this
      omega
  match d with
  | 0 =>
    rw [hq] at s0
    match i with
    | 0 => have := one _ (show 1/2 + t * 1 = q from s0.symm) (by linarith) (by linarith); linarith
    | 1 => exact (nohalf _ (show 3/2 + t * 0 = q from s0.symm) (Or.inr (by ring))).elim
    | 2 => have := one _ (show 3/2 + t * (-1) = q from s0.symm) (by linarith) (by linarith); linarith
    | 3 => exact (nohalf _ (show 1/2 + t * 0 = q from s0.symm) (Or.inl (by ring))).elim
  | 1 =>
    rw [hq] at s1
    match i with
    | 0 => exact (nohalf _ (show 1/2 + t * 0 = q from s1.symm) (Or.inl (by ring))).elim
    | 1 => have := one _ (show 1/2 + t * 1 = q from s1.symm) (by linarith) (by linarith); linarith
    | 2 => exact (nohalf _ (show 3/2 + t * 0 = q from s1.symm) (Or.inr (by ring))).elim
    | 3 => have := one _ (show 3/2 + t * (-1) = q from s1.symm) (by linarith) (by linarith); linarith

theorem square_admissible : square.Admissible where
  box := by decide +kernel
  pos := by decide +kernel
  ne := by decide +kernel
  sep i t ht j z := by
    have tol : 2 * bakeTol (some square.shape) ≤ 1 / 2 := by decide +kernel
    obtain ⟨d, h0, h1, hd, hq⟩ := ht
    have hk : t = 1 / 2 := square_half (i := i) h0 h1 hq
    subst hk
    have half : ∀ (i : Fin 4) (j : Fin 2), (2 * segPt (square.V (square.E i).1) (square.V (square.E i).2) (1 / 2) j).den = 1 := by
      decide +kernel
    rcases half_sep _ _ (Rat.coe_int_num_of_den_eq_one (half i j)).symm z with h | h
    · exact Or.inl h
    · exact Or.inr (tol.trans h)

theorem square_planar : square.Planar where
  vertex k i t h0 h1 he := by
    obtain ⟨s0, s1⟩ := square_seg i t
    rw [← he] at s0 s1
    have hv : ∀ k, square.V k 0 = (sqA k).1 ∧ square.V k 1 = (sqA k).2 := by decide +kernel
    rw [(hv k).1] at s0
    rw [(hv k).2] at s1
    fin_cases k <;> fin_cases i <;> simp [sqA, sqD] at s0 s1 <;> linarith
  edge i j s t hij s0 s1 t0 t1 he := by
    obtain ⟨a0, a1⟩ := square_seg i s
    obtain ⟨b0, b1⟩ := square_seg j t
    rw [he, b0] at a0
    rw [he, b1] at a1
    fin_cases i <;> fin_cases j <;> simp [sqA, sqD] at a0 a1 hij <;> linarith

/-- all hypotheses of C84 are met by the square, for a run of `bake`, sorted neighbours and a union-find. -/
example : ∃ cs es, ∃ ord : ℤ → List ℤ, Run square cs es ∧ square.Planar ∧
    (∀ a, (ord a).Perm ((FaceCollapser.make (square.graph cs es)).ring a)) ∧
    (∀ a, (ord a).Pairwise fun b c => angleLt (dirTo (square.gen cs es fun _ => 0).pos a c)
      (dirTo (square.gen cs es fun _ => 0).pos a b) = false) ∧
    (∀ i k (z : ℤ), ¬ (square.V (square.E i).1 k = z ∧ square.V (square.E i).2 k = z)) ∧
    ∀ c : Coord 2, (∀ i, 0 ≤ c i ∧ c i < 2) → (square.gen cs es fun _ => 0).Active c := by
  obtain ⟨cs, es, hr, ord, h1, h2⟩ := C84_run_exists (ci := fun _ => 0) square_admissible square_planar
  refine ⟨cs, es, ord, hr, square_planar, h1, h2, ?_, fun c hc => ?_⟩
  · have : ∀ i k, (square.V (square.E i).1 k).den ≠ 1 := by decide +kernel
    rintro i k z ⟨h, _⟩
    apply this i k
    rw [h]; rfl
  · rw [C84_active_iff hr]
    refine ⟨fun i => ⟨(hc i).1, ?_⟩, Or.inl ?_⟩
    · have := (hc i).2
      match i with
      | 0 => exact this
      | 1 => exact this
    · have c0 := hc 0
      have c1 := hc 1
      have e0 : c 0 = 0 ∨ c 0 = 1 := by omega
      have e1 : c 1 = 0 ∨ c 1 = 1 := by omega
      have key : ∀ a b : Fin 2, ∃ k, (((a : ℕ) : ℚ) ≤ square.V k 0 ∧ square.V k 0 ≤ (a : ℕ) + 1) ∧
        ((b : ℕ) : ℚ) ≤ square.V k 1 ∧ square.V k 1 ≤ (b : ℕ) + 1 := by decide +kernel
      obtain ⟨a, ha⟩ : ∃ a : Fin 2, c 0 = ((a : ℕ) : ℤ) := by
        rcases e0 with h | h
        · exact ⟨0, h⟩
        · exact ⟨1, h⟩
      obtain ⟨b, hb⟩ : ∃ b : Fin 2, c 1 = ((b : ℕ) : ℤ) := by
        rcases e1 with h | h
        · exact ⟨0, h⟩
        · exact ⟨1, h⟩
      obtain ⟨k, k0, k1⟩ := key a b
      refine ⟨k, fun i => ?_⟩
      match i with
      | 0 => rw [ha]; exact_mod_cast k0
      | 1 => rw [hb]; exact_mod_cast k1

end Pipe2
end Mandoline
