import Verif.Cell.Watertight

/-!
# C123: the winding number check of the validation tool

`pcwn_count`, `pcwn_check` (tools/validation/pcwn_count.cpp:6-33). The program calls `ccm.triangulated_cell(true,true)` for every cell; the
signature is `triangulated_cell(int cell_index, bool use_base = true, bool use_flap = true)` (include/mandoline/mesh3.hpp:142), so the cell asked
for is always cell number 1.
-/
namespace Mandoline.Pcwn
open CellCollapser Triangulate Watertight

/-- the conversion of the first argument `true` to `int cell_index` (pcwn_count.cpp:11, mesh3.hpp:142). -/
def boolToInt (b : Bool) : ℤ := if b then 1 else 0

/-- `pcwn_count` (pcwn_count.cpp:6-30): `n` is `ccm.cells().size()`, `mesh k base flap` is `ccm.triangulated_cell(k, base, flap)`, `test` is libigl's
`piecewise_constant_winding_number` (not in the repository). The third argument has its default `true`. -/
def pcwnCount {M : Type} (n : ℕ) (mesh : ℤ → Bool → Bool → M) (test : M → Bool) : ℕ × ℕ :=
  (List.range n).foldl (fun (acc : ℕ × ℕ) _cid =>
    let m := mesh (boolToInt true) true true
    if test m then (acc.1 + 1, acc.2) else (acc.1, acc.2 + 1)) (0, 0)

/-- `pcwn_check` (pcwn_count.cpp:31-33). -/
def pcwnCheck {M : Type} (n : ℕ) (mesh : ℤ → Bool → Bool → M) (test : M → Bool) : Bool := decide ((pcwnCount n mesh test).2 = 0)

/-- `ccm.triangulated_cell(k, base, flap)` (mesh3.cpp:546-587) for the cells of a collapser and, for the numbers from `cells.length` on, the meshes `ext` of the grid
cells (returned only when `base` is set). -/
def cellMesh (C : CellCollapser) (tri : ℤ → List Tri) (ext : ℤ → List Tri) (k : ℤ) (base flap : Bool) : List Tri :=
  if 0 ≤ k ∧ k < C.cells.length then Watertight.triangulatedCell C.foldedFaces tri base flap (C.cells.getD k.toNat [])
  else if base then ext k else []

/-! ## specification -/

/-- the intended count: how many of the cells `0, …, n-1` pass and how many fail. -/
def CountsCells {M : Type} (n : ℕ) (mesh : ℕ → M) (test : M → Bool) (r : ℕ × ℕ) : Prop :=
  r.1 = ((List.range n).filter fun k : ℕ => test (mesh k)).length ∧ r.2 = ((List.range n).filter fun k : ℕ => !test (mesh k)).length

/-- each edge is used equally often in both directions. -/
def IsClosed (T : List Tri) : Prop := ∀ a b : ℤ, (T.flatMap triEdges).count (a, b) = (T.flatMap triEdges).count (b, a)

/-- a test that accepts exactly the closed meshes. -/
def AcceptsClosed (test : List Tri → Bool) : Prop := ∀ T, test T = true ↔ IsClosed T

/-! ## theorems -/

/-- **C123.** The answer depends on the mesh of cell 1 (with flaps) alone: all cells are counted as good if that mesh passes, all as bad if not. -/
theorem C123_count {M : Type} (n : ℕ) (mesh : ℤ → Bool → Bool → M) (test : M → Bool) :
    pcwnCount n mesh test = if test (mesh 1 true true) = true then (n, 0) else (0, n) := by
  unfold pcwnCount boolToInt
  simp only [if_true]
  induction n with
  | zero => simp
  | succ n ih =>
    rw [List.range_succ, List.foldl_append, ih]
    by_cases h : test (mesh 1 true true) = true <;> simp [h]

/-- **C123.** The check passes iff there are no cells or cell 1 passes. -/
theorem C123_check {M : Type} (n : ℕ) (mesh : ℤ → Bool → Bool → M) (test : M → Bool) :
    pcwnCheck n mesh test = true ↔ n = 0 ∨ test (mesh 1 true true) = true := by
  unfold pcwnCheck
  rw [C123_count]
  by_cases h : test (mesh 1 true true) = true <;> simp [h]

/-- **C123, refuted: every bad cell is found.** Whatever mesh the cells other than cell 1 have, the result is the same. -/
theorem C123_other_cells_refuted {M : Type} (n : ℕ) (mesh mesh' : ℤ → Bool → Bool → M) (test : M → Bool)
    (h1 : mesh 1 = mesh' 1) : pcwnCount n mesh test = pcwnCount n mesh' test := by
  rw [C123_count, C123_count, h1]

/-- **C123, refuted: the numbers count the cells.** If one cell differs from cell 1 in passing, the returned pair is not the number of
passing and of failing cells. -/
theorem C123_counts_refuted {M : Type} (n : ℕ) (mesh : ℤ → Bool → Bool → M) (test : M → Bool) (k : ℕ) (hk : k < n)
    (hd : test (mesh k true true) ≠ test (mesh 1 true true)) :
    ¬ CountsCells n (fun k : ℕ => mesh k true true) test (pcwnCount n mesh test) := by
  intro hc
  rw [C123_count] at hc
  obtain ⟨h1, h2⟩ := hc
  have hmem : k ∈ List.range n := List.mem_range.2 hk
  cases ht : test (mesh 1 true true) with
  | true =>
    rw [ht] at hd h2
    have hk' : test (mesh k true true) = false := by simpa using hd
    have : k ∈ (List.range n).filter fun k : ℕ => !test (mesh k true true) := List.mem_filter.2 ⟨hmem, by simp [hk']⟩
    have hp := List.length_pos_of_mem this
    simp only [if_true] at h2
    omega
  | false =>
    rw [ht] at hd h1
    have hk' : test (mesh k true true) = true := by simpa using hd
    have : k ∈ (List.range n).filter fun k : ℕ => test (mesh k true true) := List.mem_filter.2 ⟨hmem, by simp [hk']⟩
    have hp := List.length_pos_of_mem this
    simp only [Bool.false_eq_true, if_false] at h1
    omega

/-- the intended count is what is returned when all cells behave like cell 1. -/
theorem C123_uniform {M : Type} (n : ℕ) (mesh : ℤ → Bool → Bool → M) (test : M → Bool)
    (hu : ∀ k : ℕ, k < n → test (mesh k true true) = test (mesh 1 true true)) :
    CountsCells n (fun k : ℕ => mesh k true true) test (pcwnCount n mesh test) := by
  rw [C123_count]
  unfold CountsCells
  have hf : ∀ b : Bool, test (mesh 1 true true) = b → ((List.range n).filter fun k : ℕ => test (mesh k true true)) = (List.range n).filter fun _ => b := by
    intro b hb
    apply List.filter_congr
    intro k hk
    rw [hu k (List.mem_range.1 hk), hb]
  have hf' : ∀ b : Bool, test (mesh 1 true true) = b → ((List.range n).filter fun k : ℕ => !test (mesh k true true)) = (List.range n).filter fun _ => !b := by
    intro b hb
    apply List.filter_congr
    intro k hk
    rw [hu k (List.mem_range.1 hk), hb]
  cases ht : test (mesh 1 true true) with
  | true => simp [hf true ht, hf' true ht]
  | false => simp [hf false ht, hf' false ht]

section
variable (faces : List (ℤ × List (List ℤ))) (h : Clean faces) (hedges : ∀ f, (edgesOf faces f).Nodup)
  (ord : DEdge → List ℤ) (hord : ∀ e, (ord e).Perm ((make faces).around e)) (R : DsuRoots ((make faces).merge ord).ds)
  (tri : ℤ → List Tri) (ext : ℤ → List Tri) (test : List Tri → Bool) (ht : AcceptsClosed test)
  (m : List (ℤ × Bool)) (hk : ((make faces).bake ord R).cells[1]? = some m)
  (htri : ∀ p ∈ m, HasBorder (tri p.1) (edgesOf faces p.1))

theorem cellMesh_one (C : CellCollapser) (hk : C.cells[1]? = some m) (base flap : Bool) :
    cellMesh C tri ext 1 base flap = Watertight.triangulatedCell C.foldedFaces tri base flap m := by
  have hlen : 1 < C.cells.length := (List.getElem?_eq_some_iff.1 hk).1
  unfold cellMesh
  rw [if_pos ⟨by norm_num, by exact_mod_cast hlen⟩]
  congr 1
  rw [List.getD_eq_getElem?_getD]
  show (C.cells[1]?).getD [] = m
  rw [hk]
  rfl

include h hedges hord ht hk htri in
/-- **C123, generated meshes.** On the cells found by the collapser the check passes when cell 1 has no face with both sides in it (all faces
triangulated with their loops as border). -/
theorem C123_generated (hn : ∀ p ∈ m, p.1 ∉ ((make faces).bake ord R).foldedFaces) :
    pcwnCheck ((make faces).bake ord R).cells.length (cellMesh ((make faces).bake ord R) tri ext) test = true := by
  rw [C123_check]
  right
  rw [cellMesh_one tri ext m _ hk, ht]
  intro a b
  have hf := C107_flaps faces h hedges ord hord R 1 m hk tri htri a b
  rw [List.filter_eq_nil_iff.2 (fun p hp => by simpa using hn p hp), List.map_nil, List.sum_nil] at hf
  dsimp only at hf
  omega

include h hedges hord ht hk htri in
/-- **C123, refuted: the meshes of generated cells pass.** If cell 1 has exactly one face with both sides in it, every cell is counted as bad —
also the cells without such a face — because the flaps are asked for. -/
theorem C123_flap_refuted (p : ℤ × Bool)
    (hp : (m.filter fun p => decide (p.1 ∈ ((make faces).bake ord R).foldedFaces)) = [p]) (a b : ℤ) (he : (a, b) ∈ edgesOf faces p.1) :
    pcwnCount ((make faces).bake ord R).cells.length (cellMesh ((make faces).bake ord R) tri ext) test =
      (0, ((make faces).bake ord R).cells.length) := by
  rw [C123_count, if_neg]
  rw [cellMesh_one tri ext m _ hk]
  intro hc
  exact C107_one_flap_refuted faces h hedges ord hord R 1 m hk tri htri p hp a b he ((ht _).1 hc a b)
end

/-! ## the tetrahedron with a dangling triangle -/

/-- the test that accepts exactly the closed meshes. -/
noncomputable def closedTest (T : List Tri) : Bool := @decide (IsClosed T) (Classical.propDecidable _)

theorem closedTest_accepts : AcceptsClosed closedTest := by
  intro T
  unfold closedTest
  simp only [decide_eq_true_eq]

theorem flappedBaked_one : flappedBaked.cells[1]? = some [(0, false), (1, false), (2, false), (3, false), (4, false)] := by decide +kernel

/-- cell 1 has the dangling triangle, and both cells are counted as bad … -/
example : pcwnCount flappedBaked.cells.length (cellMesh flappedBaked (fanOf flapped) fun _ => []) closedTest = (0, 2) := by
  have h := C123_flap_refuted flapped flapped_clean flapped_edges _ (fun _ => .refl _) _ (fanOf flapped) (fun _ => []) closedTest
    closedTest_accepts _ flappedBaked_one (fun p _ => C107_fan_faces flapped p.1) (4, false) (by decide +kernel) 0 1 (by decide +kernel)
  have h2 : flappedBaked.cells.length = 2 := by decide +kernel
  rw [← h2]
  exact h

/-- … although the mesh of cell 0 is closed. -/
example : closedTest (cellMesh flappedBaked (fanOf flapped) (fun _ => []) 0 true true) = true := by
  rw [closedTest_accepts]
  have h0 : flappedBaked.cells[0]? = some [(0, true), (1, true), (2, true), (3, true)] := by decide +kernel
  have hm : cellMesh flappedBaked (fanOf flapped) (fun _ => []) 0 true true =
      Watertight.triangulatedCell flappedBaked.foldedFaces (fanOf flapped) true false [(0, true), (1, true), (2, true), (3, true)] := by decide +kernel
  rw [hm]
  exact C107_watertight flapped flapped_clean flapped_edges _ (fun _ => .refl _) _ 0 _ h0 _ (fun p _ => C107_fan_faces flapped p.1)

/-- the baked collapser of the tetrahedron alone: no face has both sides in a cell, and the check passes. -/
example (R : DsuRoots ((make tetra).merge (make tetra).around).ds) (m : List (ℤ × Bool))
    (hk : ((make tetra).bake (make tetra).around R).cells[1]? = some m)
    (hn : ∀ p ∈ m, p.1 ∉ ((make tetra).bake (make tetra).around R).foldedFaces) :
    pcwnCheck ((make tetra).bake (make tetra).around R).cells.length
      (cellMesh ((make tetra).bake (make tetra).around R) (fanOf tetra) fun _ => []) closedTest = true :=
  C123_generated tetra (by refine ⟨?_, ?_, ?_, ?_, ?_⟩ <;> decide +kernel) (fun f => by
    have h := flapped_edges f
    unfold edgesOf flapped at h
    rw [List.filter_append, List.flatMap_append] at h
    exact (List.nodup_append.1 h).1) _ (fun _ => .refl _) R (fanOf tetra) _ closedTest closedTest_accepts m hk
    (fun p _ => C107_fan_faces tetra p.1) hn

/-- its hypotheses hold for the tetrahedron. -/
example : ((make tetra).bake (make tetra).around (merge_dsOk (raw_make tetra) _ fun _ => .refl _).roots).cells[1]? =
      some [(0, true), (1, true), (2, true), (3, true)] ∧
    ((make tetra).bake (make tetra).around (merge_dsOk (raw_make tetra) _ fun _ => .refl _).roots).foldedFaces = [] := by decide +kernel
end Mandoline.Pcwn
