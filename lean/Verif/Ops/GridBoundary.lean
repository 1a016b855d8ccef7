import Verif.Mesh.Regions3
import Verif.Adaptive.FaceGeom
import Verif.Exterior.Boundary
import Verif.Geom.Spec

/-!
# C92: `grid_boundary_faces` of a mesh

src/operators/boundary2.cpp:39-60, src/operators/boundary3.cpp:39-73, src/operators/boundary.cpp:5-13.
-/
namespace Mandoline
namespace GridBoundary

variable {D : ℕ}

/-- the test of the loop over the axes of one facet (boundary2.cpp:43-52, boundary3.cpp:43-52). -/
def maskOnBoundary (vshape : Coord D) (m : Mask D) : Bool :=
  (List.finRange D).any fun d => match m d with
    | none => false
    | some val => if val = 0 then true else decide (val = vshape d - 1)

/-- the loop over the cut facets (boundary2.cpp:40-53, boundary3.cpp:40-53); `masks` are their masks. -/
def cutPart (vshape : Coord D) (masks : List (Mask D)) : List ℤ :=
  ((masks.zipIdx).filter fun mi => maskOnBoundary vshape mi.1).foldl (fun s mi => setInsert intLt ((mi.2 : ℕ) : ℤ) s) []

/-- `ret.merge(adret)`. -/
def merge (ret adret : List ℤ) : List ℤ := adret.foldl (fun s k => setInsert intLt k s) ret

/-- `grid_boundary_faces(CutCellMesh<2>)` (boundary2.cpp:39-60); `pairs` are the facets of the exterior grid. -/
def mesh2 (vshape : Coord D) (masks : List (Mask D)) (pairs : List (ℤ × ℤ)) : List ℤ :=
  merge (cutPart vshape masks) (gridBoundaryFaces pairs masks.length)

/-- `grid_boundary_faces(AdaptiveGrid, offset)` (boundary3.cpp:60-73). -/
def adaptivePart (cshape : Coord D) (faces : List (AFace D)) (offset : ℤ) : List ℤ :=
  ((faces.zipIdx).filter fun fi => onGridBoundary cshape fi.1).foldl (fun s fi => setInsert intLt ((fi.2 : ℕ) + offset) s) []

/-- `grid_boundary_faces(CutCellMesh<3>)` (boundary3.cpp:39-59). -/
def mesh3 (vshape cshape : Coord D) (masks : List (Mask D)) (faces : List (AFace D)) : List ℤ :=
  merge (cutPart vshape masks) (adaptivePart cshape faces masks.length)

/-- the mask of a facet: the intersection of the masks of its vertices (C12). -/
def facetMask (v : Vertex D) (vs : List (Vertex D)) : Mask D := vs.foldl (fun m w => m.and w.mask) v.mask

/-! ## specification -/

/-- a facet with vertices `vs` lies in one of the planes that bound the domain `[0, vshape - 1]`. -/
def InDomainSide (vshape : Coord D) (vs : List (Vertex D)) : Prop :=
  ∃ d, (∀ v ∈ vs, v.p d = 0) ∨ (∀ v ∈ vs, v.p d = ((vshape d - 1 : ℤ) : ℚ))

/-! ## proofs -/

theorem mask_eq {v : Vertex D} (hn : Normalised v) (d : Fin D) (c : ℤ) : v.mask d = some c ↔ v.p d = (c : ℚ) := by
  obtain ⟨h0, h1⟩ := hn d
  simp only [Vertex.mask, Vertex.p]
  split_ifs with h
  · rw [h, Option.some.injEq]
    constructor
    · rintro rfl; simp
    · intro e
      have : (v.coord d : ℚ) = c := by simpa using e
      exact_mod_cast this
  · constructor
    · intro e; cases e
    · intro e
      exfalso
      apply h
      have hq : v.quot d = ((c - v.coord d : ℤ) : ℚ) := by push_cast; linarith
      have a0 : (0 : ℚ) ≤ ((c - v.coord d : ℤ) : ℚ) := by rw [← hq]; exact h0
      have a1 : ((c - v.coord d : ℤ) : ℚ) < 1 := by rw [← hq]; exact h1
      have b0 : 0 ≤ c - v.coord d := by exact_mod_cast a0
      have b1 : c - v.coord d < 1 := by exact_mod_cast a1
      have : c - v.coord d = 0 := by omega
      rw [hq, this]; simp

theorem and_some (a b : Mask D) (d : Fin D) (c : ℤ) : (a.and b) d = some c ↔ a d = some c ∧ b d = some c := by
  unfold Mask.and Mask.andEntry
  cases ha : a d with
  | none => simp
  | some x =>
    cases hb : b d with
    | none => simp
    | some y =>
      simp only [Option.isSome_some, Bool.and_self, Bool.true_and, Option.some.injEq]
      by_cases e : x = y
      · subst e; simp
      · simp only [beq_iff_eq, Option.some.injEq, e, if_false]
        constructor
        · intro h; cases h
        · rintro ⟨rfl, rfl⟩; exact absurd rfl e

theorem facetMask_some (v : Vertex D) (vs : List (Vertex D)) (d : Fin D) (c : ℤ) :
    facetMask v vs d = some c ↔ ∀ w ∈ v :: vs, w.mask d = some c := by
  have : ∀ m : Mask D, (vs.foldl (fun m w => m.and w.mask) m) d = some c ↔ m d = some c ∧ ∀ w ∈ vs, w.mask d = some c := by
    induction vs with
    | nil => intro m; simp
    | cons w l ih =>
      intro m
      rw [List.foldl_cons, ih, and_some]
      simp only [List.mem_cons, forall_eq_or_imp]
      constructor
      · rintro ⟨⟨a, b⟩, c⟩; exact ⟨a, b, c⟩
      · rintro ⟨a, b, c⟩; exact ⟨⟨a, b⟩, c⟩
  unfold facetMask
  rw [this]
  simp

theorem maskOnBoundary_iff (vshape : Coord D) (v : Vertex D) (vs : List (Vertex D)) (hn : ∀ w ∈ v :: vs, Normalised w) :
    maskOnBoundary vshape (facetMask v vs) = true ↔ InDomainSide vshape (v :: vs) := by
  have h1 : maskOnBoundary vshape (facetMask v vs) = true ↔
      ∃ d, facetMask v vs d = some 0 ∨ facetMask v vs d = some (vshape d - 1) := by
    unfold maskOnBoundary
    rw [List.any_eq_true]
    constructor
    · rintro ⟨d, _, h⟩
      refine ⟨d, ?_⟩
      cases hm : facetMask v vs d with
      | none => rw [hm] at h; simp at h
      | some c =>
        rw [hm] at h
        simp only at h
        split_ifs at h with h0
        · left; rw [h0]
        · right; rw [of_decide_eq_true h]
    · rintro ⟨d, h⟩
      refine ⟨d, List.mem_finRange d, ?_⟩
      rcases h with h | h <;> rw [h] <;> simp
  rw [h1]
  unfold InDomainSide
  refine exists_congr fun d => ?_
  rw [facetMask_some, facetMask_some]
  refine or_congr ?_ ?_
  · exact forall₂_congr fun w hw => by rw [mask_eq (hn w hw)]; simp
  · exact forall₂_congr fun w hw => by rw [mask_eq (hn w hw)]

theorem cutPart_spec (vshape : Coord D) (masks : List (Mask D)) :
    (cutPart vshape masks).Pairwise (· < ·) ∧
    ∀ k, k ∈ cutPart vshape masks ↔ ∃ (r : ℕ) (m : Mask D), k = r ∧ masks[r]? = some m ∧ maskOnBoundary vshape m = true := by
  obtain ⟨h1, h2⟩ := Regions3.fill_set (fun mi : Mask D × ℕ => ((mi.2 : ℕ) : ℤ)) ((masks.zipIdx).filter fun mi => maskOnBoundary vshape mi.1)
    [] List.Pairwise.nil
  refine ⟨h1, fun k => ?_⟩
  unfold cutPart
  rw [h2]
  simp only [List.not_mem_nil, false_or, List.mem_filter]
  constructor
  · rintro ⟨⟨m, r⟩, ⟨hm, hb⟩, rfl⟩
    exact ⟨r, m, rfl, by rw [List.mem_zipIdx_iff_getElem?] at hm; exact hm, hb⟩
  · rintro ⟨r, m, rfl, hm, hb⟩
    exact ⟨(m, r), ⟨List.mem_zipIdx_iff_getElem?.2 hm, hb⟩, rfl⟩

theorem merge_spec (ret adret : List ℤ) (h : ret.Pairwise (· < ·)) :
    (merge ret adret).Pairwise (· < ·) ∧ ∀ k, k ∈ merge ret adret ↔ k ∈ ret ∨ k ∈ adret := by
  obtain ⟨h1, h2⟩ := Regions3.fill_set (fun k : ℤ => k) adret ret h
  refine ⟨h1, fun k => ?_⟩
  unfold merge
  rw [h2]
  simp

/-- the masks of facets given by their vertices. -/
theorem cut_iff (vshape : Coord D) (facets : List (Vertex D × List (Vertex D)))
    (hn : ∀ f ∈ facets, ∀ w ∈ f.1 :: f.2, Normalised w) (k : ℤ) :
    k ∈ cutPart vshape (facets.map fun f => facetMask f.1 f.2) ↔
      ∃ (r : ℕ) (f : Vertex D × List (Vertex D)), k = r ∧ facets[r]? = some f ∧ InDomainSide vshape (f.1 :: f.2) := by
  rw [(cutPart_spec _ _).2]
  constructor
  · rintro ⟨r, m, rfl, hm, hb⟩
    rw [List.getElem?_map, Option.map_eq_some_iff] at hm
    obtain ⟨f, hf, rfl⟩ := hm
    exact ⟨r, f, rfl, hf, (maskOnBoundary_iff vshape f.1 f.2 (hn f (List.mem_of_getElem? hf))).1 hb⟩
  · rintro ⟨r, f, rfl, hf, hb⟩
    exact ⟨r, facetMask f.1 f.2, rfl, by rw [List.getElem?_map, hf]; rfl,
      (maskOnBoundary_iff vshape f.1 f.2 (hn f (List.mem_of_getElem? hf))).2 hb⟩

/-- **C92 (2D).** `grid_boundary_faces` of a mesh: the cut edges lying in a line that bounds the domain (all vertices at
coordinate 0 or at the last vertex coordinate of one axis), and, shifted by the number of cut edges, the exterior facets
with the outside of the domain on one side. Each index once, in increasing order. -/
theorem C92_mesh2 (vshape : Coord D) (facets : List (Vertex D × List (Vertex D)))
    (hn : ∀ f ∈ facets, ∀ w ∈ f.1 :: f.2, Normalised w) (pairs : List (ℤ × ℤ)) :
    let R := mesh2 vshape (facets.map fun f => facetMask f.1 f.2) pairs
    R.Pairwise (· < ·) ∧ ∀ k, k ∈ R ↔
      (∃ (r : ℕ) (f : Vertex D × List (Vertex D)), k = r ∧ facets[r]? = some f ∧
        ∃ d, (∀ v ∈ f.1 :: f.2, v.p d = 0) ∨ (∀ v ∈ f.1 :: f.2, v.p d = ((vshape d - 1 : ℤ) : ℚ))) ∨
      (∃ (r : ℕ) (pr : ℤ × ℤ), k = facets.length + r ∧ pairs[r]? = some pr ∧ (pr.1 = -2 ∨ pr.2 = -2)) := by
  intro R
  obtain ⟨h1, h2⟩ := merge_spec (cutPart vshape (facets.map fun f => facetMask f.1 f.2))
    (gridBoundaryFaces pairs (facets.map fun f => facetMask f.1 f.2).length) (cutPart_spec _ _).1
  refine ⟨h1, fun k => ?_⟩
  show k ∈ merge _ _ ↔ _
  rw [h2, cut_iff vshape facets hn, C29_grid_boundary_faces]
  refine or_congr Iff.rfl ?_
  rw [List.length_map]
  constructor
  · rintro ⟨n, hk, p, hp, hb⟩
    exact ⟨n, p, by omega, hp, hb⟩
  · rintro ⟨n, p, hk, hp, hb⟩
    exact ⟨n, by omega, p, hp, hb⟩

theorem adaptivePart_mem (cshape : Coord D) (faces : List (AFace D)) (offset k : ℤ) :
    k ∈ adaptivePart cshape faces offset ↔ ∃ (r : ℕ) (f : AFace D), k = offset + r ∧ faces[r]? = some f ∧ onGridBoundary cshape f = true := by
  obtain ⟨h1, h2⟩ := Regions3.fill_set (fun fi : AFace D × ℕ => ((fi.2 : ℕ) : ℤ) + offset)
    ((faces.zipIdx).filter fun fi => onGridBoundary cshape fi.1) [] List.Pairwise.nil
  unfold adaptivePart
  rw [h2]
  simp only [List.not_mem_nil, false_or, List.mem_filter]
  constructor
  · rintro ⟨⟨m, r⟩, ⟨hm, hb⟩, rfl⟩
    exact ⟨r, m, by omega, by rw [List.mem_zipIdx_iff_getElem?] at hm; exact hm, hb⟩
  · rintro ⟨r, m, rfl, hm, hb⟩
    exact ⟨(m, r), ⟨List.mem_zipIdx_iff_getElem?.2 hm, hb⟩, by simp only; omega⟩

/-- **C92 (3D).** `grid_boundary_faces` of a mesh whose exterior grid the factory made: the cut faces lying in a plane
that bounds the domain, and, shifted by the number of cut faces, the faces of the adaptive grid with the outside of the
domain on one side; both are recognised by coordinates only. -/
theorem C92_mesh3 (hD : 0 < D) (cshape : Coord D) (ix : GridIndexer cshape) (inactive : Coord D → Bool) (maxLevel : Option ℤ)
    (h : StopsAt cshape maxLevel 0 ∨ ((∀ i, cshape i = 2 ^ logSize cshape) ∧
      ((∃ L, StopsAt cshape maxLevel L) ∨ ∃ v, InGrid cshape v ∧ inactive v = false)))
    (facets : List (Vertex D × List (Vertex D))) (hn : ∀ f ∈ facets, ∀ w ∈ f.1 :: f.2, Normalised w) :
    let faces := adaptiveFaces cshape (factoryCells ix.idx cshape inactive maxLevel)
    let R := mesh3 (fun d => cshape d + 1) cshape (facets.map fun f => facetMask f.1 f.2) faces
    R.Pairwise (· < ·) ∧ ∀ k, k ∈ R ↔
      (∃ (r : ℕ) (f : Vertex D × List (Vertex D)), k = r ∧ facets[r]? = some f ∧
        ∃ d, (∀ v ∈ f.1 :: f.2, v.p d = 0) ∨ (∀ v ∈ f.1 :: f.2, v.p d = (cshape d : ℚ))) ∨
      (∃ (r : ℕ) (f : AFace D), k = facets.length + r ∧ faces[r]? = some f ∧ (f.1.2.1 = -2 ∨ f.1.2.2 = -2)) := by
  intro faces R
  obtain ⟨_, _, hagree⟩ := C27_factory hD cshape ix inactive maxLevel h
  obtain ⟨h1, h2⟩ := merge_spec (cutPart (fun d => cshape d + 1) (facets.map fun f => facetMask f.1 f.2))
    (adaptivePart cshape faces (facets.map fun f => facetMask f.1 f.2).length) (cutPart_spec _ _).1
  refine ⟨h1, fun k => ?_⟩
  show k ∈ merge _ _ ↔ _
  rw [h2, cut_iff _ facets hn, adaptivePart_mem]
  refine or_congr ?_ ?_
  · refine exists_congr fun r => exists_congr fun f => and_congr_right fun _ => and_congr_right fun _ => ?_
    unfold InDomainSide
    simp only [add_sub_cancel_right]
  · rw [List.length_map]
    refine exists_congr fun r => exists_congr fun f => and_congr_right fun _ => and_congr_right fun hf => ?_
    rw [hagree f (List.mem_of_getElem? hf)]
    simp [isBoundaryFace]

/-- an edge on the left side of a 3×3 vertex grid, one on the right side, one crossing the middle, one inside. -/
example : mesh2 ![3, 3] [facetMask (Vertex.ofCoord ![0, 0]) [Vertex.ofCoord ![0, 1]], facetMask (Vertex.ofCoord ![0, 1]) [Vertex.ofCoord ![1, 1]],
    facetMask (Vertex.ofCoord ![2, 0]) [Vertex.ofCoord ![2, 1]], facetMask (Vertex.ofCoord ![0, 0]) [Vertex.ofCoord ![1, 1]]]
    [(0, 1), (-2, 0)] = [0, 2, 5] := by decide +kernel

/-- the hypotheses of the 3D theorem hold for a 2×2×2 grid with one active cell and a cut face on the high side. -/
example := C92_mesh3 (D := 3) (by decide) ![2, 2, 2] (linIndexer ![2, 2, 2] (by decide)) (fun c => !decide (c = ![0, 0, 0])) none
  (Or.inr ⟨by decide, Or.inr ⟨![0, 0, 0], by unfold InGrid; decide, by decide⟩⟩)
  [(Vertex.ofCoord ![2, 0, 0], [Vertex.ofCoord ![2, 1, 0], Vertex.ofCoord ![2, 1, 1]])]
  (by intro f hf w hw i; simp only [List.mem_singleton] at hf; subst hf
      simp only [List.mem_cons, List.not_mem_nil, or_false] at hw
      rcases hw with rfl | rfl | rfl <;> simp [Vertex.ofCoord])

end GridBoundary
end Mandoline
