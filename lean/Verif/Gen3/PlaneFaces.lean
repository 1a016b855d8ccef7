import Verif.Gen3.External
import Verif.Gen3.BoundaryEdges
import Verif.Plane.Loop
import Verif.Core.Vec3

/-!
# C99: the faces made in a grid plane

Transcription of `CutCellGenerator<3>::compute_faces_axis(idx, cidx)`
(src/construction/generator3_make_faces.cpp:408-497). The half-edge mesh of the plane is a parameter: per cell its number, its
loops (`cells_multi_component_map`) and its signed area (`signed_areas`).
-/
namespace Mandoline
namespace Gen3

/-- one cell of the half-edge mesh of a plane, as `cells_multi_component_map()` and `signed_areas(VV)` give it. -/
structure HemCell where
  id : ℤ
  loops : List (List ℕ)
  area : ℚ

/-- the face made from a cell (`CutFace<3>`): `id`, `indices`, `N` and the mask. -/
structure PlaneFace where
  plane : Fin 3 × ℤ
  indices : List (List ℕ)
  N : Vec3
  mask : Mask 3

/-- what is known of plane `cidx` of axis `idx`: `ahd.boundary_edges`, `ahd.active_grid_cell_mask` and the keys of the input
faces (`axial_primal_faces`, through `PrimalFace`). -/
structure PlaneData where
  bd : List DEdge
  mask : Coord 2 → Bool
  primal : List PrimalFace

/-- `mtao::Vec3d::Unit(i)`. -/
def unitVec (i : Fin 3) : Vec3 := fun j => if j = i then 1 else 0

/-- the decision made for one loop (generator3_make_faces.cpp:463-491); `pc` lists `possible_cells(v)`. The code copies it
into an array of two entries; only the first is used here, the second only for an error message. -/
def keepLoop (P : PlaneData) (idx : Fin 3) (pc : List (Coord 3)) (area : ℚ) (v : List ℕ) : Bool :=
  let add := decide (0 ≤ area) && addLoop P.primal idx (v.map Int.ofNat)
  if isBoundaryCell P.bd (v.map Int.ofNat) then
    match pc with
    | [] => false
    | p :: _ => !P.mask ![p (idx + 1), p (idx + 2)] && add
  else add

/-- `compute_faces_axis(idx, cidx)` (generator3_make_faces.cpp:408-497); `pcs v` lists `possible_cells(v)`. The loops of a face
are kept in the order of the half-edge mesh; the code has them in a `std::set`. -/
def planeFaces (P : PlaneData) (V : ℕ → Vertex 3) (pcs : List ℕ → List (Coord 3)) (idx : Fin 3) (cidx : ℤ)
    (cells : List HemCell) : List (ℤ × PlaneFace) :=
  cells.filterMap fun c =>
    let kept := c.loops.filter fun v => keepLoop P idx (pcs v) c.area v
    if kept = [] then none
    else some (c.id, ⟨(idx, cidx), kept, vcross (unitVec (idx + 1)) (unitVec (idx + 2)), faceMask2 (fun i => (V i).mask) kept⟩)

/-! ## specification -/

/-- loop `v` goes along edges between the active and the inactive part of the plane only. -/
def OnBoundary (bd : List DEdge) (v : List ℕ) : Prop :=
  ∀ (i : ℕ) (h : i < v.length), ((v[i] : ℤ), (v[(i + 1) % v.length]'(Nat.mod_lt _ (by omega)) : ℤ)) ∈ bd ∨
    ((v[(i + 1) % v.length]'(Nat.mod_lt _ (by omega)) : ℤ), (v[i] : ℤ)) ∈ bd

/-- an input face lies in a plane of this axis, has its normal along the axis, and has the same least edge as loop `v`. -/
def CopyOf (fs : List PrimalFace) (idx : Fin 3) (v : List ℕ) : Prop :=
  ∃ f ∈ fs, f.active = true ∧ (f.mask idx).isSome = true ∧ 0 < f.normal idx ∧
    ∃ e : ℤ × ℤ, (IsLoopEdge f.indices e ∧ ∀ e', IsLoopEdge f.indices e' → PairLe e e') ∧
      (IsLoopEdge (v.map Int.ofNat) e ∧ ∀ e', IsLoopEdge (v.map Int.ofNat) e' → PairLe e e')

/-! ## proofs -/

theorem onBoundary_iff (bd : List DEdge) (hbd : ∀ e ∈ bd, e.1 < e.2) (v : List ℕ) :
    isBoundaryCell bd (v.map Int.ofNat) = true ↔ OnBoundary bd v := by
  rw [C96_is_boundary_cell bd hbd]
  unfold OnBoundary
  simp only [List.length_map, List.getElem_map]
  exact Iff.rfl

theorem copyOf_iff (fs : List PrimalFace) (idx : Fin 3) (v : List ℕ) (hv : 2 < v.length) (hvn : v.Nodup)
    (hfs : ∀ f ∈ fs, 2 ≤ f.indices.length ∧ f.indices.Nodup) :
    addLoop fs idx (v.map Int.ofNat) = true ↔ ¬ CopyOf fs idx v := by
  have hl : 3 ≤ (v.map Int.ofNat).length := by rw [List.length_map]; omega
  have hn : (v.map Int.ofNat).Nodup := hvn.map Int.ofNat_injective
  rw [← Bool.not_eq_false, C41_suppressed_only_by_positive fs idx _ hl hn hfs]
  refine not_congr ⟨?_, ?_⟩
  · rintro ⟨f, hf, h1, h2, h3, h4⟩
    have a := C41_smallest_is_minimum f.indices (hfs f hf).1
    have b := C41_smallest_is_minimum (v.map Int.ofNat) (by omega)
    rw [← h4] at b
    exact ⟨f, hf, h1, h2, h3, _, a, b⟩
  · rintro ⟨f, hf, h1, h2, h3, e, a, b⟩
    refine ⟨f, hf, h1, h2, h3, ?_⟩
    have a' := C41_smallest_is_minimum f.indices (hfs f hf).1
    have b' := C41_smallest_is_minimum (v.map Int.ofNat) (by omega)
    rw [(a'.2 e a.1).antisymm (a.2 _ a'.1), (b'.2 e b.1).antisymm (b.2 _ b'.1)]

/-- **C99.** A loop of plane `idx = k` between the cells `below` and `above` is made (part of) a face if and only if: the
half-edge cell has non-negative area; the loop has more than two vertices; no input face with its normal along the axis
already has the same least edge; and, if the loop goes along the boundary of the active part of the plane, one of the two
cells is cut. -/
theorem C99_loop_kept (shape : Coord 3) (cut : List (Coord 3)) (idx : Fin 3) (k : ℤ) (hk : 0 ≤ k ∧ k < shape idx)
    (P : PlaneData) (hm : (k, P.mask) ∈ planes shape cut idx) (hbd : ∀ e ∈ P.bd, e.1 < e.2)
    (hfs : ∀ f ∈ P.primal, 2 ≤ f.indices.length ∧ f.indices.Nodup)
    (V : ℕ → Vertex 3) (hV : ∀ i, Normalised (V i)) (v : List ℕ) (hvn : v.Nodup)
    (hp : InPlane V [v] idx k) (x : Coord 3) (hx : ∀ i ∈ v, InClosedCell x (V i).p)
    (hin : ∀ j, j ≠ idx → 0 ≤ x j ∧ x j < shape j - 1)
    (pc : List (Coord 3)) (hpc : SetOrder pc (genPossibleCells V v)) (area : ℚ) :
    keepLoop P idx pc area v = true ↔
      0 ≤ area ∧ 2 < v.length ∧ ¬ CopyOf P.primal idx v ∧
      (OnBoundary P.bd v → ∃ c ∈ cut, c = below idx k x ∨ c = above idx k x) := by
  have hne12 : idx + 1 ≠ idx ∧ idx + 2 ≠ idx := by clear * -; revert idx; decide
  have hax : ∀ j : Fin 3, j = idx ∨ j = idx + 1 ∨ j = idx + 2 := by clear * -; revert idx; decide
  have hv0 : v ≠ [] := by
    rintro rfl
    obtain ⟨l, hl, w, hw, -⟩ := hp.2 (idx + 1) hne12.1 0
    rw [List.mem_singleton.1 hl] at hw
    cases hw
  have h2 : genPossibleCells2 V [v] = some (genPossibleCells V v) := by
    cases v with
    | nil => exact absurd rfl hv0
    | cons a l => simp [genPossibleCells2, genPossibleCells]
  have hpair : pc = [below idx k x, above idx k x] :=
    list_pair hpc _ _ (lt_of_update x idx k) (C97_two_cells V hV [v] idx k hp x (by simpa using hx) _ h2)
  obtain ⟨c1, c2, c3⟩ := C95_flag_iff shape cut idx k hk
  have hmask : P.mask ![x (idx + 1), x (idx + 2)] = false ↔ ∃ c ∈ cut, c = below idx k x ∨ c = above idx k x := by
    have e1 : P.mask ![x (idx + 1), x (idx + 2)] = false ↔ Flagged (planes shape cut idx) k ![x (idx + 1), x (idx + 2)] := by
      constructor
      · exact fun h => ⟨_, hm, h⟩
      · rintro ⟨m, h1, h2⟩; rw [c3 _ _ hm h1]; exact h2
    rw [e1, c1]
    have r1 := hin (idx + 1) hne12.1
    have r2 := hin (idx + 2) hne12.2
    constructor
    · rintro ⟨-, c, hc, e0, e1, e2⟩
      have e0 : c (idx + 1) = x (idx + 1) := e0
      have e1 : c (idx + 2) = x (idx + 2) := e1
      refine ⟨c, hc, ?_⟩
      have hext : ∀ z, c idx = z → c = Function.update x idx z := by
        intro z hz
        funext j
        rcases hax j with h | h | h
        · subst h; rw [Function.update_self]; exact hz
        · subst h; rw [Function.update_of_ne hne12.1]; exact e0
        · subst h; rw [Function.update_of_ne hne12.2]; exact e1
      rcases e2 with h | h
      · exact Or.inr (hext _ h)
      · exact Or.inl (hext _ h)
    · rintro ⟨c, hc, h⟩
      refine ⟨⟨r1, r2⟩, c, hc, ?_⟩
      rcases h with rfl | rfl
      · unfold below
        rw [Function.update_of_ne hne12.1, Function.update_of_ne hne12.2, Function.update_self]
        exact ⟨rfl, rfl, Or.inr rfl⟩
      · unfold above
        rw [Function.update_of_ne hne12.1, Function.update_of_ne hne12.2, Function.update_self]
        exact ⟨rfl, rfl, Or.inl rfl⟩
  subst hpair
  have hb1 : below idx k x (idx + 1) = x (idx + 1) := Function.update_of_ne hne12.1 _ _
  have hb2 : below idx k x (idx + 2) = x (idx + 2) := Function.update_of_ne hne12.2 _ _
  have hadd : addLoop P.primal idx (v.map Int.ofNat) = true ↔ 2 < v.length ∧ ¬ CopyOf P.primal idx v := by
    by_cases hl : 2 < v.length
    · rw [copyOf_iff _ _ _ hl hvn hfs]; simp [hl]
    · simp [addLoop, hl]
  unfold keepLoop
  dsimp only
  rw [hb1, hb2]
  by_cases hbc : OnBoundary P.bd v
  · rw [if_pos ((onBoundary_iff P.bd hbd v).2 hbc)]
    rw [Bool.and_eq_true, Bool.and_eq_true, hadd, Bool.not_eq_true', hmask, decide_eq_true_eq]
    constructor
    · rintro ⟨a, b, c, d⟩; exact ⟨b, c, d, fun _ => a⟩
    · rintro ⟨b, c, d, a⟩; exact ⟨a hbc, b, c, d⟩
  · rw [if_neg (fun h => hbc ((onBoundary_iff P.bd hbd v).1 h)), Bool.and_eq_true, hadd, decide_eq_true_eq]
    constructor
    · rintro ⟨b, c, d⟩; exact ⟨b, c, d, fun h => absurd h hbc⟩
    · rintro ⟨b, c, d, -⟩; exact ⟨b, c, d⟩

/-- **C99.** The faces of plane `idx = k`: one for each cell of the half-edge mesh with at least one loop that is kept, under
the number of the cell, made of exactly those loops; its normal is the unit vector of the axis, it is recorded as lying in
the plane, and in a plane of another axis if and only if all its vertices do. -/
theorem C99_plane_faces (P : PlaneData) (V : ℕ → Vertex 3) (hV : ∀ i, Normalised (V i)) (pcs : List ℕ → List (Coord 3)) (idx : Fin 3)
    (k : ℤ) (cells : List HemCell) (hl : ∀ c ∈ cells, ∀ v ∈ c.loops, v ≠ [])
    (hp : ∀ c ∈ cells, ∀ v ∈ c.loops, ∀ i ∈ v, (V i).p idx = k) (id : ℤ) (F : PlaneFace)
    (h : (id, F) ∈ planeFaces P V pcs idx k cells) :
    (∃ c ∈ cells, c.id = id ∧ (∃ v ∈ c.loops, keepLoop P idx (pcs v) c.area v = true) ∧
      ∀ v, v ∈ F.indices ↔ v ∈ c.loops ∧ keepLoop P idx (pcs v) c.area v = true) ∧
    F.plane = (idx, k) ∧ (∀ j, F.N j = if j = idx then 1 else 0) ∧ F.mask idx = some k ∧
    ∀ j (z : ℤ), F.mask j = some z ↔ ∀ v ∈ F.indices, ∀ i ∈ v, (V i).p j = z := by
  unfold planeFaces at h
  obtain ⟨c, hc, he⟩ := List.mem_filterMap.1 h
  dsimp only at he
  split at he
  · cases he
  · rename_i hne
    have he := Option.some_inj.1 he
    rw [Prod.mk.injEq] at he
    obtain ⟨rfl, rfl⟩ := he
    have hmem : ∀ v, v ∈ c.loops.filter (fun v => keepLoop P idx (pcs v) c.area v) ↔
        v ∈ c.loops ∧ keepLoop P idx (pcs v) c.area v = true := fun v => List.mem_filter
    have hm := C12_face_mask_loops V hV (c.loops.filter fun v => keepLoop P idx (pcs v) c.area v) hne
      (fun v hv => hl c hc v (List.mem_of_mem_filter hv))
    refine ⟨⟨c, hc, rfl, ?_, hmem⟩, rfl, ?_, ?_, hm⟩
    · obtain ⟨v, hv⟩ := List.exists_mem_of_ne_nil _ hne
      exact ⟨v, (hmem v).1 hv⟩
    · dsimp only
      intro j
      clear * -
      revert idx j
      unfold vcross unitVec
      decide +kernel
    · exact (hm idx k).2 fun v hv i hi => hp c hc v (List.mem_of_mem_filter hv) i hi

/-- **C99.** Conversely every cell of the half-edge mesh with a kept loop is made a face, and nothing else is: the numbers of
the faces are those of these cells, in order. -/
theorem C99_every_cell (P : PlaneData) (V : ℕ → Vertex 3) (pcs : List ℕ → List (Coord 3)) (idx : Fin 3) (k : ℤ)
    (cells : List HemCell) :
    (planeFaces P V pcs idx k cells).map Prod.fst =
      (cells.filter fun c => c.loops.any fun v => keepLoop P idx (pcs v) c.area v).map HemCell.id := by
  unfold planeFaces
  induction cells with
  | nil => rfl
  | cons c cs ih =>
    rw [List.filterMap_cons, List.filter_cons]
    by_cases h : c.loops.filter (fun v => keepLoop P idx (pcs v) c.area v) = []
    · simp only [h, if_true]
      rw [ih, if_neg]
      rw [List.any_eq_true]
      rintro ⟨v, hv, hk⟩
      have : v ∈ c.loops.filter (fun v => keepLoop P idx (pcs v) c.area v) := List.mem_filter.2 ⟨hv, hk⟩
      rw [h] at this
      cases this
    · simp only [h, if_false]
      rw [List.map_cons, ih, if_pos, List.map_cons]
      rw [List.any_eq_true]
      obtain ⟨v, hv⟩ := List.exists_mem_of_ne_nil _ h
      have hv := List.mem_filter.1 hv
      exact ⟨v, hv.1, hv.2⟩

-- non-vacuity: the square between the cells (0,0,0), which is cut, and (1,0,0): plane 1 of axis 0
def demoPlane : PlaneData := ⟨[(0, 1), (1, 2), (2, 3), (0, 3)], fun x => decide (x ≠ ![0, 0]), []⟩

example : ∃ m, (1, m) ∈ planes ![3, 2, 2] [![0, 0, 0]] 0 ∧ m ![0, 0] = demoPlane.mask ![0, 0] := by
  obtain ⟨h, -, -⟩ := C95_flag_iff ![3, 2, 2] [![0, 0, 0]] 0 1 (by decide)
  obtain ⟨m, h1, h2⟩ := (h ![0, 0]).2 (by decide +kernel)
  exact ⟨m, h1, by rw [h2]; decide +kernel⟩
example : ∀ e ∈ demoPlane.bd, e.1 < e.2 := by decide
example : OnBoundary demoPlane.bd [0, 1, 2, 3] := by
  rw [← onBoundary_iff _ (by decide)]; decide +kernel
example : planeFaces demoPlane demoV3 (fun _ => [![0, 0, 0], ![1, 0, 0]]) 0 1 [⟨7, [[0, 1, 2, 3]], 1⟩, ⟨8, [[3, 2, 1, 0]], -1⟩] =
    [(7, ⟨(0, 1), [[0, 1, 2, 3]], vcross (unitVec 1) (unitVec 2), faceMask2 (fun i => (demoV3 i).mask) [[0, 1, 2, 3]]⟩)] := by
  have h1 : keepLoop demoPlane 0 [![0, 0, 0], ![1, 0, 0]] 1 [0, 1, 2, 3] = true := by decide +kernel
  have h2 : keepLoop demoPlane 0 [![0, 0, 0], ![1, 0, 0]] (-1) [3, 2, 1, 0] = false := by decide +kernel
  simp [planeFaces, h1, h2]

end Gen3
end Mandoline
