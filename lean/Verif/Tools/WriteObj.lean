import Verif.Ops.Incidence
import Verif.Cell.Watertight
import Mathlib.Tactic.Ring

/-!
# C132: the surface written by `cutmesh_to_obj` (tools/cutmesh_to_obj.cpp:8-112, 147-186)
-/
namespace Mandoline
namespace WriteObj
open Triangulate

/-- an exterior face: axis, square, cells on the negative and on the positive side (`dual_edge`; negative numbers: no cell). -/
structure XFace where
  axis : Fin 3
  sq : ACell 3
  low : ℤ
  high : ℤ

/-- what the tool reads of a 3D mesh: the cut faces and cells (as for the boundary operator, C66), the column `look` of an exterior cell
number (`cell_ownership_grid().get`), the exterior faces, the triangles of each cut face, the number of a grid vertex. -/
structure OMesh where
  M : CutMesh
  look : ℤ → ℤ
  ext : List XFace
  tri : ℕ → List Tri
  vertexIndex : Coord 3 → ℤ

/-- the triplets of the exterior faces with the domain boundary included (boundary3.cpp:75-97). -/
def OMesh.extTriplets (O : OMesh) : List Triplet :=
  O.ext.zipIdx.flatMap fun fk =>
    (if fk.1.low ≥ 0 then [((O.M.nFacets : ℤ) + fk.2, O.look fk.1.low, -1)] else []) ++
    (if fk.1.high ≥ 0 then [((O.M.nFacets : ℤ) + fk.2, O.look fk.1.high, 1)] else [])

/-- `(ccm.boundary(true) * used)(f)` (cutmesh_to_obj.cpp:20). -/
def OMesh.faceSign (O : OMesh) (used : ℤ → ℚ) (f : ℕ) : ℚ := matVec (O.M.boundary O.look O.extTriplets true) used f

/-- `used_cells` (cutmesh_to_obj.cpp:14-19): first 1 at the given indices and 0 elsewhere, then `setConstant(1)`. -/
def usedCells (indices : List ℤ) : ℤ → ℚ :=
  let _asked : ℤ → ℚ := fun c => if c ∈ indices then 1 else 0
  fun _ => 1

/-- `used_faces` for a vector of used cells (cutmesh_to_obj.cpp:24-47): the faces with non-zero sign, and whether it is positive. -/
def OMesh.usedFaces (O : OMesh) (used : ℤ → ℚ) : List (ℕ × Bool) :=
  (List.range (O.M.nFacets + O.ext.length)).filterMap fun f =>
    if O.faceSign used f ≠ 0 then some (f, decide (O.faceSign used f > 0)) else none

/-- the triangles of one face (cutmesh_to_obj.cpp:60-76): those of a cut face with the first two rows exchanged if flipped, those of an
exterior face made with `invert` if flipped. -/
def OMesh.faceTris (O : OMesh) (p : ℕ × Bool) : List Tri :=
  if p.1 < O.M.nFacets then
    if p.2 then (O.tri p.1).map fun t => (t.2.1, t.1, t.2.2) else O.tri p.1
  else
    match O.ext[p.1 - O.M.nFacets]? with
    | none => []
    | some f => (triangulatedFace f.axis f.sq p.2).map fun t => (O.vertexIndex t.1, O.vertexIndex t.2.1, O.vertexIndex t.2.2)

/-- `write_obj(ccm, prefix, indices, suffix)` (cutmesh_to_obj.cpp:8-96): the triangles written, before vertices are compacted. -/
def OMesh.writeObj (O : OMesh) (indices : List ℤ) : List Tri := (O.usedFaces (usedCells indices)).flatMap O.faceTris

/-! ## theorems -/

theorem rowOf_extTriplets_cut (O : OMesh) : ∀ t ∈ O.extTriplets, (O.M.nFacets : ℤ) ≤ t.1 := by
  intro t ht
  unfold OMesh.extTriplets at ht
  obtain ⟨⟨f, k⟩, _, ht⟩ := List.mem_flatMap.1 ht
  rcases List.mem_append.1 ht with h | h <;>
    · split at h
      · rw [List.mem_singleton.1 h]; simp
      · cases h

/-- the row of exterior face `k`. -/
theorem rowOf_extTriplets (O : OMesh) (k : ℕ) (f : XFace) (hf : O.ext[k]? = some f) :
    rowOf O.extTriplets ((O.M.nFacets : ℤ) + k) =
      (if f.low ≥ 0 then [((O.M.nFacets : ℤ) + k, O.look f.low, (-1 : ℚ))] else []) ++
      (if f.high ≥ 0 then [((O.M.nFacets : ℤ) + k, O.look f.high, 1)] else []) := by
  unfold OMesh.extTriplets
  have key : ∀ (l : List XFace) (n : ℕ),
      rowOf ((l.zipIdx n).flatMap fun fk =>
        (if fk.1.low ≥ 0 then [((O.M.nFacets : ℤ) + fk.2, O.look fk.1.low, (-1 : ℚ))] else []) ++
        (if fk.1.high ≥ 0 then [((O.M.nFacets : ℤ) + fk.2, O.look fk.1.high, 1)] else [])) ((O.M.nFacets : ℤ) + k) =
      if n ≤ k then (match l[k - n]? with
        | none => []
        | some f => (if f.low ≥ 0 then [((O.M.nFacets : ℤ) + k, O.look f.low, (-1 : ℚ))] else []) ++
            (if f.high ≥ 0 then [((O.M.nFacets : ℤ) + k, O.look f.high, 1)] else [])) else [] := by
    intro l
    induction l with
    | nil => intro n; simp [rowOf]
    | cons a l ih =>
      intro n
      rw [List.zipIdx_cons, List.flatMap_cons, rowOf_append, ih]
      by_cases h : n = k
      · subst h
        have h1 : ¬ n + 1 ≤ n := by omega
        simp only [h1, if_false, List.append_nil, le_refl, if_true, Nat.sub_self, List.getElem?_cons_zero]
        unfold rowOf
        apply List.filter_eq_self.2
        intro t ht
        rcases List.mem_append.1 ht with h | h <;>
          · split at h
            · rw [List.mem_singleton.1 h]; simp
            · cases h
      · have hrow : rowOf ((if a.low ≥ 0 then [((O.M.nFacets : ℤ) + n, O.look a.low, (-1 : ℚ))] else []) ++
            (if a.high ≥ 0 then [((O.M.nFacets : ℤ) + n, O.look a.high, 1)] else [])) ((O.M.nFacets : ℤ) + k) = [] := by
          unfold rowOf
          rw [List.filter_eq_nil_iff]
          intro t ht
          have : t.1 = (O.M.nFacets : ℤ) + n := by
            rcases List.mem_append.1 ht with h | h <;>
              · split at h
                · rw [List.mem_singleton.1 h]
                · cases h
          simp only [decide_eq_true_eq]
          omega
        simp only at hrow ⊢
        rw [hrow, List.nil_append]
        by_cases h2 : n ≤ k
        · have h3 : n + 1 ≤ k := by omega
          rw [if_pos h2, if_pos h3]
          have : k - n = (k - (n + 1)) + 1 := by omega
          rw [this, List.getElem?_cons_succ]
        · have h3 : ¬ n + 1 ≤ k := by omega
          rw [if_neg h2, if_neg h3]
  have := key O.ext 0
  rw [if_pos (Nat.zero_le k), Nat.sub_zero, hf] at this
  exact this

/-- the row sum of a cut face, for any vector of used cells. -/
theorem faceSign_cut (O : OMesh) (used : ℤ → ℚ) (f : ℕ) (hf : f < O.M.nFacets) :
    (∀ c₁ c₂, (O.M.sides f).Perm [(c₁, true), (c₂, false)] → O.M.ext f = none → O.faceSign used f = used c₂ - used c₁) ∧
    (∀ c g, O.M.sides f = [(c, true)] → 0 ≤ g → O.M.ext f = some (g, false) → O.faceSign used f = used (O.look g) - used c) ∧
    (∀ c g, O.M.sides f = [(c, false)] → 0 ≤ g → O.M.ext f = some (g, true) → O.faceSign used f = used c - used (O.look g)) ∧
    (∀ c s s', O.M.sides f = [(c, s)] → O.M.ext f = some (-2, s') → O.faceSign used f = if s then - used c else used c) := by
  obtain ⟨h1, h2, h3, h4⟩ := C66_row_entries O.M O.look O.extTriplets true f hf (rowOf_extTriplets_cut O)
  unfold OMesh.faceSign matVec
  refine ⟨fun c₁ c₂ h he => ?_, fun c g h hg he => ?_, fun c g h hg he => ?_, fun c s s' h he => ?_⟩
  · rw [((h1 c₁ c₂ h he).map _).sum_eq]; simp; ring
  · rw [h2 c g h hg he]; simp; ring
  · rw [h3 c g h hg he]; simp; ring
  · rw [h4 c s s' h he rfl]; cases s <;> simp

/-- the row sum of an exterior face. -/
theorem faceSign_ext (O : OMesh) (used : ℤ → ℚ) (k : ℕ) (f : XFace) (hf : O.ext[k]? = some f) (hM : ∀ c ∈ O.M.cells, ∀ p ∈ c.2, p.1 < O.M.nFacets) :
    O.faceSign used (O.M.nFacets + k) =
      (if f.high ≥ 0 then used (O.look f.high) else 0) - (if f.low ≥ 0 then used (O.look f.low) else 0) := by
  unfold OMesh.faceSign matVec
  have hrow : rowOf (O.M.boundary O.look O.extTriplets true) ((O.M.nFacets + k : ℕ) : ℤ) = rowOf O.extTriplets ((O.M.nFacets : ℤ) + k) := by
    unfold CutMesh.boundary
    rw [rowOf_append, rowOf_append]
    have e1 : rowOf (O.M.cells.flatMap (O.M.cellTriplets true)) ((O.M.nFacets + k : ℕ) : ℤ) = [] := by
      unfold rowOf
      rw [List.filter_eq_nil_iff]
      intro t ht
      obtain ⟨c, hc, ht⟩ := List.mem_flatMap.1 ht
      unfold CutMesh.cellTriplets at ht
      obtain ⟨p, hp, h⟩ := List.mem_filterMap.1 ht
      have := hM c hc p hp
      split at h
      · cases h
        simp only [decide_eq_true_eq]; push_cast; omega
      · cases h
    have e2 : rowOf ((List.range O.M.nFacets).filterMap (O.M.extTriplet O.look)) ((O.M.nFacets + k : ℕ) : ℤ) = [] := by
      unfold rowOf
      rw [List.filter_eq_nil_iff]
      intro t ht
      obtain ⟨g, hg, h⟩ := List.mem_filterMap.1 ht
      have := List.mem_range.1 hg
      unfold CutMesh.extTriplet at h
      split at h
      · split at h
        · cases h; simp only [decide_eq_true_eq]; push_cast; omega
        · cases h
      · cases h
    rw [e1, e2, List.append_nil, List.append_nil]
    push_cast
    rfl
  rw [hrow, rowOf_extTriplets O k f hf]
  split <;> split <;> simp <;> ring

/-- **C132, defect.** Every call writes the same surface: the set of cells asked for (one region, one cell, the exterior) has no influence. -/
theorem C132_indices_ignored_refuted (O : OMesh) (I J : List ℤ) : O.writeObj I = O.writeObj J := rfl

/-- **C132.** Which faces are written: a cut face exactly if it lies on the side of the domain, and an exterior face exactly if it has a cell on
one side only. (The faces between two cells, in particular the whole cut surface, are not.) -/
theorem C132_faces (O : OMesh) (I : List ℤ) (hok : ∀ f < O.M.nFacets, O.M.FacetOk f)
    (hM : ∀ c ∈ O.M.cells, ∀ p ∈ c.2, p.1 < O.M.nFacets) :
    (∀ f < O.M.nFacets, ∀ b, (f, b) ∈ O.usedFaces (usedCells I) ↔ O.M.isDomain f = true ∧ ∃ c, O.M.sides f = [(c, !b)]) ∧
    (∀ k f, O.ext[k]? = some f → ∀ b, (O.M.nFacets + k, b) ∈ O.usedFaces (usedCells I) ↔
      (b = true ∧ 0 ≤ f.high ∧ f.low < 0) ∨ (b = false ∧ 0 ≤ f.low ∧ f.high < 0)) := by
  have mem : ∀ n b, (n, b) ∈ O.usedFaces (usedCells I) ↔ n < O.M.nFacets + O.ext.length ∧ O.faceSign (usedCells I) n ≠ 0 ∧
      b = decide (O.faceSign (usedCells I) n > 0) := by
    intro n b
    unfold OMesh.usedFaces
    rw [List.mem_filterMap]
    constructor
    · rintro ⟨f, hf, h⟩
      split at h
      · rename_i h0; cases h; exact ⟨List.mem_range.1 hf, h0, rfl⟩
      · cases h
    · rintro ⟨hn, h0, rfl⟩; exact ⟨n, List.mem_range.2 hn, by rw [if_pos h0]⟩
  constructor
  · intro f hf b
    rw [mem]
    obtain ⟨s1, s2, s3, s4⟩ := faceSign_cut O (usedCells I) f hf
    cases hok f hf with
    | inner c₁ c₂ h he =>
      rw [s1 c₁ c₂ h he]
      have : O.M.isDomain f = false := by unfold CutMesh.isDomain; rw [he]
      simp [usedCells, this]
    | outer c g s h hg he =>
      have hd : O.M.isDomain f = false := by unfold CutMesh.isDomain; rw [he]; simp; omega
      cases s
      · rw [s3 c g h hg he]; simp [usedCells, hd]
      · rw [s2 c g h hg he]; simp [usedCells, hd]
    | domain c s s' h he =>
      rw [s4 c s s' h he]
      have hd : O.M.isDomain f = true := by unfold CutMesh.isDomain; rw [he]; rfl
      rw [hd, h]
      have hlt : f < O.M.nFacets + O.ext.length := by omega
      cases s <;> cases b <;> simp [usedCells, hlt] <;> norm_num
  · intro k f hf b
    rw [mem, faceSign_ext O (usedCells I) k f hf hM]
    have hlt : O.M.nFacets + k < O.M.nFacets + O.ext.length := by
      have := (List.getElem?_eq_some_iff.1 hf).1; omega
    by_cases h1 : 0 ≤ f.high <;> by_cases h2 : 0 ≤ f.low <;> cases b <;> simp [usedCells, hlt, h1, h2] <;> norm_num <;> omega

/-- **C132.** What the vector of used cells would do if it were not overwritten: a cut face between two cells is written exactly if one of them
is asked for, flipped exactly if it is the one that sees the face with `false`. -/
theorem C132_indices_honoured (O : OMesh) (I : List ℤ) (f : ℕ) (hf : f < O.M.nFacets) (c₁ c₂ : ℤ)
    (h : (O.M.sides f).Perm [(c₁, true), (c₂, false)]) (he : O.M.ext f = none) (b : Bool) :
    (f, b) ∈ O.usedFaces (fun c => if c ∈ I then 1 else 0) ↔
      (b = false ∧ c₁ ∈ I ∧ c₂ ∉ I) ∨ (b = true ∧ c₂ ∈ I ∧ c₁ ∉ I) := by
  unfold OMesh.usedFaces
  rw [List.mem_filterMap]
  have hs := (faceSign_cut O (fun c => if c ∈ I then 1 else 0) f hf).1 c₁ c₂ h he
  have : (∃ a ∈ List.range (O.M.nFacets + O.ext.length),
      (if O.faceSign (fun c => if c ∈ I then 1 else 0) a ≠ 0 then
        some (a, decide (O.faceSign (fun c => if c ∈ I then 1 else 0) a > 0)) else none) = some (f, b)) ↔
      O.faceSign (fun c => if c ∈ I then 1 else 0) f ≠ 0 ∧ b = decide (O.faceSign (fun c => if c ∈ I then 1 else 0) f > 0) := by
    constructor
    · rintro ⟨a, _, h⟩
      split at h
      · rename_i h0; cases h; exact ⟨h0, rfl⟩
      · cases h
    · rintro ⟨h0, rfl⟩; exact ⟨f, List.mem_range.2 (by omega), by rw [if_pos h0]⟩
  rw [this, hs]
  by_cases h1 : c₁ ∈ I <;> by_cases h2 : c₂ ∈ I <;> cases b <;> simp [h1, h2] <;> norm_num

/-- **C132.** A written cut face has the orientation it has on the surface of its cell (`triangulated_cell`, C107). -/
theorem C132_cut_orientation (O : OMesh) (I : List ℤ) (hok : ∀ f < O.M.nFacets, O.M.FacetOk f)
    (hM : ∀ c ∈ O.M.cells, ∀ p ∈ c.2, p.1 < O.M.nFacets) (f : ℕ) (hf : f < O.M.nFacets) (b : Bool)
    (h : (f, b) ∈ O.usedFaces (usedCells I)) :
    ∃ c s, O.M.sides f = [(c, s)] ∧
      O.faceTris (f, b) = Watertight.triangulatedCell [] (fun g => O.tri g.toNat) true false [((f : ℤ), s)] := by
  obtain ⟨_, c, hc⟩ := ((C132_faces O I hok hM).1 f hf b).1 h
  refine ⟨c, !b, hc, ?_⟩
  unfold OMesh.faceTris Watertight.triangulatedCell
  rw [if_pos hf]
  cases b <;> simp

/-- **C132, defect.** A written exterior face is inside out. If its only cell lies on the negative side, the outward direction is the positive
axis, and the triangles written have total area vector `-width²` along it; if its only cell lies on the positive side, `+width²`. -/
theorem C132_exterior_inward_refuted (O : OMesh) (I : List ℤ) (hok : ∀ f < O.M.nFacets, O.M.FacetOk f)
    (hM : ∀ c ∈ O.M.cells, ∀ p ∈ c.2, p.1 < O.M.nFacets) (k : ℕ) (f : XFace) (hf : O.ext[k]? = some f) (b : Bool)
    (h : (O.M.nFacets + k, b) ∈ O.usedFaces (usedCells I)) :
    ∃ T : List (Coord 3 × Coord 3 × Coord 3),
      O.faceTris (O.M.nFacets + k, b) = T.map (fun t => (O.vertexIndex t.1, O.vertexIndex t.2.1, O.vertexIndex t.2.2)) ∧
      (0 ≤ f.low → (T.map fun t => cross3 t f.axis).sum = -(2 * f.sq.2 ^ 2)) ∧
      (0 ≤ f.high → (T.map fun t => cross3 t f.axis).sum = 2 * f.sq.2 ^ 2) := by
  refine ⟨triangulatedFace f.axis f.sq b, ?_, ?_⟩
  · unfold OMesh.faceTris
    rw [if_neg (by simp), show O.M.nFacets + k - O.M.nFacets = k by omega, hf]
  · have h2 := (C64_triangulated_face f.axis f.sq b).2 f.axis
    rw [if_pos rfl] at h2
    rw [h2]
    rcases ((C132_faces O I hok hM).2 k f hf b).1 h with ⟨rfl, h3, h4⟩ | ⟨rfl, h3, h4⟩
    · exact ⟨fun h => absurd h (by omega), fun _ => by simp⟩
    · exact ⟨fun _ => by simp, fun h => absurd h (by omega)⟩

/-- a mesh with one cut cell below one exterior cell along the z-axis: cut face 0 on the side of the domain, cut face 1 between the two cells,
exterior face 0 on the far side. -/
def demo : OMesh where
  M := { nFacets := 2, ext := fun f => if f = 0 then some (-2, true) else some (5, false), cells := [(0, [(0, false), (1, true)])] }
  look := fun _ => 1
  ext := [⟨2, (![0, 0, 2], 1), 5, -2⟩]
  tri := fun f => if f = 0 then [(0, 1, 2)] else [(3, 4, 5)]
  vertexIndex := fun c => 100 * c 0 + 10 * c 1 + c 2

/-- the cut face seen with `false` is flipped; the exterior face is written with its normal towards its cell. -/
example : demo.writeObj [0] = [(1, 0, 2), (2, 112, 102), (2, 12, 112)] ∧ (∀ f < demo.M.nFacets, demo.M.FacetOk f) := by
  refine ⟨by decide +kernel, ?_⟩
  intro f hf
  have : f = 0 ∨ f = 1 := by simp only [demo] at hf; omega
  rcases this with rfl | rfl
  · exact .domain 0 false true (by decide +kernel) rfl
  · exact .outer 0 5 true (by decide +kernel) (by norm_num) rfl

end WriteObj
end Mandoline
