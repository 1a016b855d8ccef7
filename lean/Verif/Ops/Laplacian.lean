import Verif.Ops.Incidence
import Mathlib.Algebra.BigOperators.Ring.Finset
import Mathlib.Algebra.Order.BigOperators.Ring.Finset
import Mathlib.Tactic.Positivity
import Mathlib.Tactic.Ring

/-!
# C30, C31: divergence and Laplacian

Transcription of src/operators/diffgeo2.cpp:9-20, 112-163, src/operators/diffgeo3.cpp:8-20 and
the Hodge star of src/operators/volume2.cpp:88-98 / volume3.cpp:98-108. A sparse matrix carries its dimensions, and a
product of matrices whose inner dimensions differ is `none` (an Eigen assertion; undefined in release builds).
-/
namespace Mandoline
open Finset

/-- a matrix with run-time dimensions (`Eigen::SparseMatrix<double>`). -/
structure DynMat where
  rows : ℕ
  cols : ℕ
  e : ℕ → ℕ → ℚ

/-- Eigen's product. -/
def DynMat.mul (A B : DynMat) : Option DynMat :=
  if A.cols = B.rows then some ⟨A.rows, B.cols, fun i j => ∑ k ∈ range A.cols, A.e i k * B.e k j⟩ else none

/-- `transpose()`. -/
def DynMat.transpose (A : DynMat) : DynMat := ⟨A.cols, A.rows, fun i j => A.e j i⟩

/-- `v.asDiagonal()` for a vector of size `n`. -/
def DynMat.diag (n : ℕ) (h : ℕ → ℚ) : DynMat := ⟨n, n, fun i j => if i = j then h i else 0⟩

/-- `setFromTriplets`. -/
def DynMat.ofTriplets (rows cols : ℕ) (t : List Triplet) : DynMat := ⟨rows, cols, fun i j => tripletEntry t i j⟩

/-- matrix times vector. -/
def DynMat.mulVec (A : DynMat) (v : ℕ → ℚ) (i : ℕ) : ℚ := ∑ j ∈ range A.cols, A.e i j * v j

/-- `divergence(ccm)` in 2D (diffgeo2.cpp:9-13): `B.transpose() * h1.asDiagonal()`, `h1` of size `n`. -/
def divergence2 (B : DynMat) (n : ℕ) (h : ℕ → ℚ) : Option DynMat := B.transpose.mul (.diag n h)

/-- `laplacian(ccm)` in 2D (diffgeo2.cpp:16-20). -/
def laplacian2 (B : DynMat) (n : ℕ) (h : ℕ → ℚ) : Option DynMat :=
  (B.transpose.mul (.diag n h)).bind fun A => A.mul B

/-- `divergence(ccm)` in 3D (diffgeo3.cpp:8-12): `B * h2.asDiagonal()`. -/
def divergence3 (B : DynMat) (n : ℕ) (h : ℕ → ℚ) : Option DynMat := B.mul (.diag n h)

/-- `laplacian(ccm)` in 3D (diffgeo3.cpp:15-19): `B * h2.asDiagonal() * B.transpose()`. -/
def laplacian3 (B : DynMat) (n : ℕ) (h : ℕ → ℚ) : Option DynMat :=
  (B.mul (.diag n h)).bind fun A => A.mul B.transpose

/-- `dual_hodge1` / `dual_hodge2` (volume2.cpp:88-98, volume3.cpp:98-108): `PV/DV` where `DV > 1e-5`, else zero.
The test for non-finite values cannot fire in exact arithmetic because of the threshold. -/
def dualHodge (PV DV : ℕ → ℚ) (i : ℕ) : ℚ := if DV i > 1 / 100000 then PV i / DV i else 0

/-! ## theorems -/

theorem divergence2_eq (B : DynMat) (h : ℕ → ℚ) :
    ∃ A, divergence2 B B.rows h = some A ∧ A.rows = B.cols ∧ A.cols = B.rows ∧
      ∀ i, ∀ j < B.rows, A.e i j = B.e j i * h j := by
  refine ⟨_, if_pos rfl, rfl, rfl, ?_⟩
  intro i j hj
  simp only [DynMat.transpose, DynMat.diag]
  rw [Finset.sum_eq_single j]
  · simp
  · intro k _ hk; rw [if_neg hk, mul_zero]
  · intro hn; exact absurd (Finset.mem_range.2 hj) hn

theorem laplacian2_eq (B : DynMat) (h : ℕ → ℚ) :
    ∃ L, laplacian2 B B.rows h = some L ∧ L.rows = B.cols ∧ L.cols = B.cols ∧
      ∀ i j, L.e i j = ∑ r ∈ range B.rows, h r * B.e r i * B.e r j := by
  obtain ⟨A, hA, h1, h2, h3⟩ := divergence2_eq B h
  unfold divergence2 at hA
  refine ⟨⟨A.rows, B.cols, fun i j => ∑ k ∈ range A.cols, A.e i k * B.e k j⟩, ?_, h1, rfl, ?_⟩
  · unfold laplacian2
    rw [hA, Option.bind_some]
    unfold DynMat.mul
    rw [if_pos h2]
  · intro i j
    simp only [h2]
    refine Finset.sum_congr rfl fun r hr => ?_
    rw [h3 i r (Finset.mem_range.1 hr)]; ring

/-- **C30.** With one Hodge weight per facet the 2D Laplacian is defined, square (cells × cells), symmetric, its
quadratic form is `Σ_f h_f (Bx)_f²`, hence non-negative for non-negative weights. -/
theorem C30_symmetric_psd (B : DynMat) (h : ℕ → ℚ) :
    ∃ L, laplacian2 B B.rows h = some L ∧ L.rows = B.cols ∧ L.cols = B.cols ∧
      (∀ i j, L.e i j = L.e j i) ∧
      (∀ x : ℕ → ℚ, ∑ i ∈ range B.cols, x i * L.mulVec x i = ∑ f ∈ range B.rows, h f * B.mulVec x f ^ 2) ∧
      ((∀ f < B.rows, 0 ≤ h f) → ∀ x : ℕ → ℚ, 0 ≤ ∑ i ∈ range B.cols, x i * L.mulVec x i) := by
  obtain ⟨L, hL, h1, h2, h3⟩ := laplacian2_eq B h
  have hq : ∀ x : ℕ → ℚ, ∑ i ∈ range B.cols, x i * L.mulVec x i =
      ∑ f ∈ range B.rows, h f * B.mulVec x f ^ 2 := by
    intro x
    unfold DynMat.mulVec
    rw [h2]
    simp only [h3, Finset.sum_mul, Finset.mul_sum]
    have e1 : ∀ f, h f * (∑ j ∈ range B.cols, B.e f j * x j) ^ 2 =
        ∑ i ∈ range B.cols, ∑ j ∈ range B.cols, h f * ((B.e f i * x i) * (B.e f j * x j)) := by
      intro f
      rw [sq, Finset.sum_mul_sum, Finset.mul_sum]
      refine Finset.sum_congr rfl fun i _ => ?_
      rw [Finset.mul_sum]
    simp only [e1]
    have e2 : ∀ i ∈ range B.cols, (∑ j ∈ range B.cols, ∑ r ∈ range B.rows, x i * (h r * B.e r i * B.e r j * x j)) =
        ∑ r ∈ range B.rows, ∑ j ∈ range B.cols, h r * ((B.e r i * x i) * (B.e r j * x j)) := by
      intro i _
      rw [Finset.sum_comm]
      exact Finset.sum_congr rfl fun r _ => Finset.sum_congr rfl fun j _ => by ring
    rw [Finset.sum_congr rfl e2, Finset.sum_comm]
  refine ⟨L, hL, h1, h2, ?_, hq, ?_⟩
  · intro i j
    rw [h3, h3]
    exact Finset.sum_congr rfl fun r _ => by ring
  · intro hh x
    rw [hq x]
    refine Finset.sum_nonneg fun f hf => mul_nonneg (hh f (Finset.mem_range.1 hf)) (sq_nonneg _)

/-- **C30.** If each row of the boundary operator sums to zero, the Laplacian maps constants to zero and the
total divergence of any flux is zero. -/
theorem C30_kills_constants (B : DynMat) (h : ℕ → ℚ) (hB : ∀ f < B.rows, B.mulVec (fun _ => 1) f = 0) :
    (∃ L, laplacian2 B B.rows h = some L ∧ ∀ k i, L.mulVec (fun _ => k) i = 0) ∧
    (∃ A, divergence2 B B.rows h = some A ∧ ∀ u, ∑ c ∈ range A.rows, A.mulVec u c = 0) := by
  constructor
  · obtain ⟨L, hL, _, h2, h3⟩ := laplacian2_eq B h
    refine ⟨L, hL, fun k i => ?_⟩
    unfold DynMat.mulVec
    rw [h2]
    simp only [h3, Finset.sum_mul]
    rw [Finset.sum_comm]
    refine Finset.sum_eq_zero fun f hf => ?_
    have := hB f (Finset.mem_range.1 hf)
    unfold DynMat.mulVec at this
    have e : ∀ j, h f * B.e f i * B.e f j * k = h f * B.e f i * k * (B.e f j * 1) := fun j => by ring
    simp only [e]
    rw [← Finset.mul_sum, this, mul_zero]
  · obtain ⟨A, hA, h1, h2, h3⟩ := divergence2_eq B h
    refine ⟨A, hA, fun u => ?_⟩
    unfold DynMat.mulVec
    rw [Finset.sum_comm]
    refine Finset.sum_eq_zero fun f hf => ?_
    rw [h2] at hf
    have hf' := Finset.mem_range.1 hf
    have := hB f hf'
    unfold DynMat.mulVec at this
    have e : ∀ i, A.e i f * u f = h f * u f * (B.e f i * 1) := fun i => by rw [h3 i f hf']; ring
    simp only [e]
    rw [h1, ← Finset.mul_sum, this, mul_zero]

/-- **C30.** Discrete divergence theorem in general: the total divergence is the weighted flux through the facets
whose row does not sum to zero. -/
theorem C30_total_divergence (B : DynMat) (h : ℕ → ℚ) :
    ∃ A, divergence2 B B.rows h = some A ∧
      ∀ u, ∑ c ∈ range A.rows, A.mulVec u c = ∑ f ∈ range B.rows, B.mulVec (fun _ => 1) f * (h f * u f) := by
  obtain ⟨A, hA, h1, h2, h3⟩ := divergence2_eq B h
  refine ⟨A, hA, fun u => ?_⟩
  unfold DynMat.mulVec
  rw [Finset.sum_comm, h2, h1]
  refine Finset.sum_congr rfl fun f hf => ?_
  rw [Finset.sum_mul]
  refine Finset.sum_congr rfl fun i _ => ?_
  rw [h3 i f (Finset.mem_range.1 hf)]; ring

/-- the Hodge weights are non-negative when the primal measures are. -/
theorem dualHodge_nonneg (PV DV : ℕ → ℚ) (i : ℕ) (h : 0 ≤ PV i) : 0 ≤ dualHodge PV DV i := by
  unfold dualHodge
  split
  · rename_i hd
    exact div_nonneg h (by linarith)
  · exact le_rfl

/-- **C30.** The Hodge weight of a facet is the ratio of its measure to the distance of the two cell centres it
separates: it is the number `w` with `w · dual = primal` when the dual length exceeds `1e-5`, zero for shorter dual
edges, and never negative for a non-negative primal measure. -/
theorem C30_hodge_weights (PV DV : ℕ → ℚ) (f : ℕ) :
    (1 / 100000 < DV f → dualHodge PV DV f * DV f = PV f) ∧ (DV f ≤ 1 / 100000 → dualHodge PV DV f = 0) ∧
    (0 ≤ PV f → 0 ≤ dualHodge PV DV f) := by
  refine ⟨fun h => ?_, fun h => ?_, dualHodge_nonneg PV DV f⟩
  · unfold dualHodge
    rw [if_pos h]
    have h0 : (0 : ℚ) < DV f := lt_trans (by norm_num) h
    exact div_mul_cancel₀ _ (ne_of_gt h0)
  · unfold dualHodge
    rw [if_neg (not_lt.2 h)]

/-- **C30.** With the Hodge weights of `dual_hodge1`, the energy of the Laplacian is `Σ PV_f/DV_f (Bx)_f²` over the
facets with dual length above `1e-5`, and non-negative. -/
theorem C30_hodge_energy (B : DynMat) (PV DV : ℕ → ℚ) (hp : ∀ f < B.rows, 0 ≤ PV f) :
    ∃ L, laplacian2 B B.rows (dualHodge PV DV) = some L ∧ ∀ x : ℕ → ℚ,
      ∑ i ∈ range B.cols, x i * L.mulVec x i =
        ∑ f ∈ (range B.rows).filter (fun f => 1 / 100000 < DV f), PV f / DV f * B.mulVec x f ^ 2 ∧
      0 ≤ ∑ i ∈ range B.cols, x i * L.mulVec x i := by
  obtain ⟨L, hL, _, _, _, h5, h6⟩ := C30_symmetric_psd B (dualHodge PV DV)
  refine ⟨L, hL, fun x => ⟨?_, h6 (fun f hf => dualHodge_nonneg _ _ _ (hp f hf)) x⟩⟩
  rw [h5 x, Finset.sum_filter]
  refine Finset.sum_congr rfl fun f _ => ?_
  unfold dualHodge
  by_cases h : 1 / 100000 < DV f
  · rw [if_pos h, if_pos h]
  · rw [if_neg h, if_neg h, zero_mul]

theorem sum_ite_entry (n : ℕ) (c : ℤ) (hc : 0 ≤ c ∧ c < n) (v : ℤ → ℚ) (q : ℚ) :
    ∑ j ∈ range n, (if c = (j : ℤ) then q else 0) * v j = q * v c := by
  obtain ⟨k, rfl⟩ := Int.eq_ofNat_of_zero_le hc.1
  rw [Finset.sum_eq_single k]
  · simp
  · intro j _ hj
    rw [if_neg (by intro h; exact hj (by omega)), zero_mul]
  · intro hn
    exact absurd (Finset.mem_range.2 (by omega)) hn

/-- multiplying the matrix built from triplets is the sum over the row's triplets. -/
theorem ofTriplets_mulVec (rows cols : ℕ) (t : List Triplet) (ht : ∀ x ∈ t, 0 ≤ x.2.1 ∧ x.2.1 < cols) (v : ℤ → ℚ)
    (r : ℕ) : (DynMat.ofTriplets rows cols t).mulVec (fun j => v j) r = matVec t v r := by
  unfold DynMat.mulVec DynMat.ofTriplets matVec
  simp only
  induction t with
  | nil => simp [tripletEntry, rowOf]
  | cons x l ih =>
    have ih' := ih fun y hy => ht y (List.mem_cons_of_mem _ hy)
    have hx := ht x List.mem_cons_self
    have hent : ∀ j : ℕ, tripletEntry (x :: l) r j =
        (if x.1 = r then (if x.2.1 = (j : ℤ) then x.2.2 else 0) else 0) + tripletEntry l r j := by
      intro j
      unfold tripletEntry
      rw [List.filter_cons]
      by_cases h1 : x.1 = r <;> by_cases h2 : x.2.1 = (j : ℤ) <;> simp [h1, h2]
    simp only [hent, add_mul, Finset.sum_add_distrib]
    rw [ih']
    unfold rowOf
    rw [List.filter_cons]
    by_cases h1 : x.1 = r
    · simp only [h1, decide_true, if_true, List.map_cons, List.sum_cons]
      rw [sum_ite_entry cols x.2.1 hx v x.2.2]
    · simp [h1]

/-- **C30, end to end.** For a mesh whose cut edges are two-sided or on the domain boundary, the 2D Laplacian and
divergence built from its boundary operator satisfy the above: the Laplacian kills constants and the total divergence
vanishes. -/
theorem C30_mesh {D : ℕ} (M : CutMesh) (O : GridOrder D) (shape : Coord D) (outside : Coord D → Bool)
    (hs : ∀ i, 1 ≤ shape i) (look : ℤ → ℤ) (nCells : ℤ) (rows cols : ℕ) (h : ℕ → ℚ)
    (hok : ∀ f < M.nFacets, M.FacetOk f) (hM : ∀ c ∈ M.cells, ∀ fs ∈ c.2, fs.1 < M.nFacets)
    (T : List Triplet) (hT : T = M.boundary look (shiftTriplets M.nFacets nCells
      (boundaryTriplets (ExteriorGrid.make O shape outside).pairs false)) false)
    (hcols : ∀ x ∈ T, 0 ≤ x.2.1 ∧ x.2.1 < cols) :
    (∃ L, laplacian2 (.ofTriplets rows cols T) rows h = some L ∧ ∀ k i, L.mulVec (fun _ => k) i = 0) ∧
    (∃ A, divergence2 (.ofTriplets rows cols T) rows h = some A ∧ ∀ u, ∑ c ∈ range A.rows, A.mulVec u c = 0) := by
  refine C30_kills_constants (.ofTriplets rows cols T) h fun f hf => ?_
  have := ofTriplets_mulVec rows cols T hcols (fun _ => 1) f
  rw [this, hT]
  exact C66_boundary2_kills_constants M O shape outside hs look nCells hok hM 1 f

/-- **C31, defect.** In 3D `divergence` and `laplacian` are only well formed when the number of faces equals the
number of cells, and the Laplacian is then indexed by faces, not by cells. -/
theorem C31_dimensions (B : DynMat) (h : ℕ → ℚ) :
    ((divergence3 B B.rows h).isSome ↔ B.rows = B.cols) ∧ ((laplacian3 B B.rows h).isSome ↔ B.rows = B.cols) ∧
    ∀ L, laplacian3 B B.rows h = some L → L.rows = B.rows ∧ L.cols = B.rows := by
  unfold divergence3 laplacian3 DynMat.mul DynMat.diag DynMat.transpose
  simp only
  by_cases hc : B.cols = B.rows
  · rw [if_pos hc, Option.bind_some, if_pos hc.symm]
    refine ⟨by simp [hc], by simp [hc], ?_⟩
    intro L hL
    cases hL
    exact ⟨rfl, rfl⟩
  · rw [if_neg hc]
    have hc' : ¬ B.rows = B.cols := fun h => hc h.symm
    simp [hc']

/-- **C31, refuted.** For a plain grid of `n³` cells (no cut cells, `3n²(n+1)` faces) neither operator is defined. -/
theorem C31_grid_refuted (n : ℕ) (hn : 0 < n) (B : DynMat) (h : ℕ → ℚ) (hr : B.rows = 3 * n ^ 2 * (n + 1))
    (hc : B.cols = n ^ 3) : divergence3 B B.rows h = none ∧ laplacian3 B B.rows h = none := by
  have hne : ¬ B.rows = B.cols := by
    rw [hr, hc]
    intro he
    have : n ^ 3 = n ^ 2 * n := by ring
    have h2 : 0 < n ^ 2 := by positivity
    nlinarith
  obtain ⟨h1, h2, _⟩ := C31_dimensions B h
  constructor
  · rw [← Option.not_isSome_iff_eq_none, h1]; exact hne
  · rw [← Option.not_isSome_iff_eq_none, h2]; exact hne

/-- the 2D Laplacian of the demo mesh's inner facet is `[[h,-h],[-h,h]]`. -/
example : ∃ L, laplacian2 (.ofTriplets 1 2 [(0, 0, -1), (0, 1, 1)]) 1 (fun _ => 3) = some L ∧
    L.e 0 0 = 3 ∧ L.e 0 1 = -3 ∧ L.e 1 0 = -3 ∧ L.e 1 1 = 3 := by
  obtain ⟨L, hL, _, _, h3⟩ := laplacian2_eq (.ofTriplets 1 2 [(0, 0, -1), (0, 1, 1)]) (fun _ => 3)
  refine ⟨L, hL, ?_⟩
  simp only [h3, DynMat.ofTriplets, Finset.sum_range_one]
  refine ⟨?_, ?_, ?_, ?_⟩ <;> simp [tripletEntry]

end Mandoline
