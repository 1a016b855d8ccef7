import Verif.Life.Gui
import Mathlib.Data.Finset.Lattice.Fold
import Mathlib.Data.Fintype.Basic
import Mathlib.Tactic.Ring
import Mathlib.Tactic.Linarith
import Mathlib.Tactic.FieldSimp
import Mathlib.Tactic.FinCases

/-!
# C133: the command line tool `obj_to_cutmesh` (tools/make_cutmesh_from_cmdline.cpp, tools/obj_to_cutmesh.cpp)

From the vertices and triangles of the file to what the generator bakes. A mesh has at least one vertex: `V : Fin (n+1) → P3`. The grids
`Grid3d(N, 1)` and `StaggeredGrid::from_bbox(box, N, true)` and the conversion of a vertex into grid coordinates are parameters; reading the
file, removing self-intersections, the timers and the optional checks (which only print) are not modelled. `double` is ℚ.
-/
namespace Mandoline
namespace Cmdline
open Life

variable {Gv Fc Gr : Type} {n : ℕ}

/-- lower and upper corner of `mtao::geometry::bounding_box(V)`. -/
def lo (V : Fin (n + 1) → P3) : P3 := fun i => Finset.univ.inf' Finset.univ_nonempty fun k => V k i
/-- upper corner. -/
def hi (V : Fin (n + 1) → P3) : P3 := fun i => Finset.univ.sup' Finset.univ_nonempty fun k => V k i

/-- `bbox.center()`. -/
def center (V : Fin (n + 1) → P3) : P3 := fun i => (lo V i + hi V i) / 2
/-- `bbox.sizes().maxCoeff()`. -/
def maxSize (V : Fin (n + 1) → P3) : ℚ := Finset.univ.sup' Finset.univ_nonempty fun i : Fin 3 => hi V i - lo V i

/-- `V.colwise() -= bbox.center()` (make_cutmesh_from_cmdline.cpp:147-150). -/
def recenter (V : Fin (n + 1) → P3) : Fin (n + 1) → P3 := fun k i => V k i - center V i
/-- the normalisation (make_cutmesh_from_cmdline.cpp:151-156); a mesh of size zero divides by zero, excluded below. -/
def normalized (V : Fin (n + 1) → P3) : Fin (n + 1) → P3 := fun k i => (V k i - center V i) / maxSize V

/-- the options read by `make_generator` (make_cutmesh_from_cmdline.cpp:36-45, 106-138). -/
structure Options where
  prescaled : Bool
  normalize : Bool
  shape : List Char
  level : ℤ

/-- the vertices given to the generator (make_cutmesh_from_cmdline.cpp:142-160). -/
def prepared (o : Options) (V : Fin (n + 1) → P3) : Fin (n + 1) → P3 :=
  let V := if !o.prescaled then recenter V else V
  if o.normalize then normalized V else V

/-- the box of the grid (make_cutmesh_from_cmdline.cpp:172-179): half sizes grown by a tenth. -/
def gridBox (V : Fin (n + 1) → P3) : Bx :=
  let s : P3 := fun i => (hi V i - lo V i) / 2
  (fun i => lo V i - 1 / 10 * s i, fun i => hi V i + 1 / 10 * s i)

/-- the text up to the next comma and what follows it (the lambda `step`, make_cutmesh_from_cmdline.cpp:126-131). -/
def field (s : List Char) : List Char × List Char := (s.takeWhile (· ≠ ','), (s.dropWhile (· ≠ ',')).drop 1)

/-- the shape (make_cutmesh_from_cmdline.cpp:112-136): `none` without exactly two commas, or if `stoi` throws. -/
def shapeOf (stoi : List Char → Option ℤ) (s : List Char) : Option (Fin 3 → ℤ) :=
  if s.count ',' ≠ 2 then none else
  let a := field s
  let b := field a.2
  let c := field b.2
  match stoi a.1, stoi b.1, stoi c.1 with
  | some x, some y, some z => some ![x, y, z]
  | _, _, _ => none

/-- the library functions. -/
structure Lib (Gv Gr : Type) where
  stoi : List Char → Option ℤ
  toGrid : Gr → Option ℚ → P3 → Gv
  unitGrid : (Fin 3 → ℤ) → Gr
  fromBox : Bx → (Fin 3 → ℤ) → Bool → Gr

/-- what the generator returned by `make_generator` has baked (make_cutmesh_from_cmdline.cpp:94-200); `none`: nothing was baked. -/
def makeGenerator (L : Lib Gv Gr) (o : Options) (V : Fin (n + 1) → P3) (F : Fc) : Option (Inputs Gv Fc Gr) :=
  match shapeOf L.stoi o.shape with
  | none => none
  | some N =>
    let W := prepared o V
    let g := if o.prescaled then L.unitGrid N else L.fromBox (gridBox W) N true
    some ⟨g, (List.ofFn W).map (L.toGrid g none), F, if o.level ≥ 0 then o.level else 0⟩

/-! ## bounding boxes -/

theorem lo_le (V : Fin (n + 1) → P3) (k : Fin (n + 1)) (i : Fin 3) : lo V i ≤ V k i := Finset.inf'_le _ (Finset.mem_univ k)
theorem le_hi (V : Fin (n + 1) → P3) (k : Fin (n + 1)) (i : Fin 3) : V k i ≤ hi V i := Finset.le_sup' (fun k => V k i) (Finset.mem_univ k)
theorem lo_eq_of (V : Fin (n + 1) → P3) (i : Fin 3) (a : ℚ) (h : ∀ k, a ≤ V k i) (k : Fin (n + 1)) (hk : V k i = a) : lo V i = a :=
  le_antisymm (hk ▸ lo_le V k i) (Finset.le_inf' _ _ fun k _ => h k)
theorem hi_eq_of (V : Fin (n + 1) → P3) (i : Fin 3) (a : ℚ) (h : ∀ k, V k i ≤ a) (k : Fin (n + 1)) (hk : V k i = a) : hi V i = a :=
  le_antisymm (Finset.sup'_le _ _ fun k _ => h k) (hk ▸ le_hi V k i)
theorem lo_attained (V : Fin (n + 1) → P3) (i : Fin 3) : ∃ k, V k i = lo V i := by
  obtain ⟨k, _, h⟩ := Finset.exists_mem_eq_inf' (s := Finset.univ) Finset.univ_nonempty (fun k => V k i)
  exact ⟨k, h.symm⟩
theorem hi_attained (V : Fin (n + 1) → P3) (i : Fin 3) : ∃ k, V k i = hi V i := by
  obtain ⟨k, _, h⟩ := Finset.exists_mem_eq_sup' (s := Finset.univ) Finset.univ_nonempty (fun k => V k i)
  exact ⟨k, h.symm⟩

/-- the box of an image under `x ↦ c x + t`, `c > 0`. -/
theorem box_affine (V W : Fin (n + 1) → P3) (c : ℚ) (t : P3) (hc : 0 < c) (h : ∀ k i, W k i = c * V k i + t i) (i : Fin 3) :
    lo W i = c * lo V i + t i ∧ hi W i = c * hi V i + t i := by
  obtain ⟨k, hk⟩ := lo_attained V i
  obtain ⟨l, hl⟩ := hi_attained V i
  refine ⟨lo_eq_of W i _ (fun m => ?_) k (by rw [h, hk]), hi_eq_of W i _ (fun m => ?_) l (by rw [h, hl])⟩
  · rw [h]; have := mul_le_mul_of_nonneg_left (lo_le V m i) hc.le; linarith
  · rw [h]; have := mul_le_mul_of_nonneg_left (le_hi V m i) hc.le; linarith

theorem center_affine (V W : Fin (n + 1) → P3) (c : ℚ) (t : P3) (hc : 0 < c) (h : ∀ k i, W k i = c * V k i + t i) (i : Fin 3) :
    center W i = c * center V i + t i := by
  unfold center
  rw [(box_affine V W c t hc h i).1, (box_affine V W c t hc h i).2]; ring

theorem maxSize_affine (V W : Fin (n + 1) → P3) (c : ℚ) (t : P3) (hc : 0 < c) (h : ∀ k i, W k i = c * V k i + t i) :
    maxSize W = c * maxSize V := by
  have e : ∀ i, hi W i - lo W i = c * (hi V i - lo V i) := fun i => by
    rw [(box_affine V W c t hc h i).1, (box_affine V W c t hc h i).2]; ring
  unfold maxSize
  obtain ⟨i, _, hi'⟩ := Finset.exists_mem_eq_sup' (s := (Finset.univ : Finset (Fin 3))) Finset.univ_nonempty (fun i => hi V i - lo V i)
  apply le_antisymm
  · refine Finset.sup'_le _ _ fun j _ => ?_
    rw [e]
    exact mul_le_mul_of_nonneg_left (Finset.le_sup' (fun i => hi V i - lo V i) (Finset.mem_univ j)) hc.le
  · rw [hi', ← e]
    exact Finset.le_sup' (fun i => hi W i - lo W i) (Finset.mem_univ i)

theorem normalized_affine (V W : Fin (n + 1) → P3) (c : ℚ) (t : P3) (hc : 0 < c) (h : ∀ k i, W k i = c * V k i + t i) :
    normalized W = normalized V := by
  funext k i
  unfold normalized
  rw [center_affine V W c t hc h, maxSize_affine V W c t hc h, h]
  rw [show c * V k i + t i - (c * center V i + t i) = c * (V k i - center V i) by ring]
  exact mul_div_mul_left _ _ hc.ne'

/-! ## C133 -/

/-- **C133.** Two meshes that differ by a translation give the same generator, unless the mesh is declared prescaled. -/
theorem C133_translation (L : Lib Gv Gr) (o : Options) (ho : o.prescaled = false) (V W : Fin (n + 1) → P3) (t : P3)
    (h : ∀ k i, W k i = V k i + t i) (F : Fc) : makeGenerator L o W F = makeGenerator L o V F := by
  have : recenter W = recenter V := by
    funext k i
    unfold recenter
    rw [center_affine V W 1 t one_pos (fun k i => by rw [h, one_mul]), h]; ring
  have : prepared o W = prepared o V := by unfold prepared; simp [ho, this]
  unfold makeGenerator
  rw [this]

/-- **C133.** With `--normalize`, two meshes that differ by a translation and a scaling give the same generator (prescaled or not). -/
theorem C133_scaling (L : Lib Gv Gr) (o : Options) (ho : o.normalize = true) (V W : Fin (n + 1) → P3) (c : ℚ) (hc : 0 < c) (t : P3)
    (h : ∀ k i, W k i = c * V k i + t i) (F : Fc) : makeGenerator L o W F = makeGenerator L o V F := by
  have : prepared o W = prepared o V := by
    unfold prepared
    simp only [ho, if_true]
    refine normalized_affine _ _ c (fun i => if o.prescaled then t i else 0) hc fun k i => ?_
    cases hp : o.prescaled
    · simp only [Bool.not_false, if_true, Bool.false_eq_true, if_false]
      unfold recenter
      rw [center_affine V W c t hc h, h]; ring
    · simp [h]
  unfold makeGenerator
  rw [this]

/-- **C133.** What is given to the generator: a prescaled mesh as it is; otherwise, with `m` the middle of its bounding box, `v - m`, or
`(v - m) / size` with `--normalize`, `size` the largest extent (centring twice changes nothing). The output is never moved back. -/
theorem C133_vertices (o : Options) (V : Fin (n + 1) → P3) (k : Fin (n + 1)) (i : Fin 3) :
    prepared o V k i =
      if o.normalize then (V k i - (lo V i + hi V i) / 2) / maxSize V
      else if o.prescaled then V k i else V k i - (lo V i + hi V i) / 2 := by
  unfold prepared
  cases hn : o.normalize
  · cases hp : o.prescaled <;> simp [recenter, center]
  · simp only [if_true]
    cases hp : o.prescaled
    · simp only [Bool.not_false, if_true]
      have := normalized_affine V (recenter V) 1 (fun i => - center V i) one_pos (fun k i => by unfold recenter; ring)
      rw [this]; rfl
    · rfl

/-- **C133.** Without `--prescaled` the grid's box is symmetric about the origin, every vertex lies in it, and strictly inside in every
direction in which the mesh has an extent: a twentieth of the extent away from each wall at least. In a direction in which the mesh is flat the
box is flat too. -/
theorem C133_box (V : Fin (n + 1) → P3) (o : Options) (ho : o.prescaled = false) (i : Fin 3) :
    (gridBox (prepared o V)).1 i = -(gridBox (prepared o V)).2 i ∧
    (∀ k, (gridBox (prepared o V)).1 i + (hi (prepared o V) i - lo (prepared o V) i) / 20 ≤ prepared o V k i ∧
      prepared o V k i ≤ (gridBox (prepared o V)).2 i - (hi (prepared o V) i - lo (prepared o V) i) / 20) ∧
    ((gridBox (prepared o V)).2 i - (gridBox (prepared o V)).1 i = 11 / 10 * (hi (prepared o V) i - lo (prepared o V) i)) := by
  have hc : lo (prepared o V) i + hi (prepared o V) i = 0 := by
    have hr : ∀ i, lo (recenter V) i + hi (recenter V) i = 0 := fun i => by
      obtain ⟨h1, h2⟩ := box_affine V (recenter V) 1 (fun i => - center V i) one_pos (fun k i => by unfold recenter; ring) i
      rw [h1, h2]; unfold center; ring
    unfold prepared
    cases hn : o.normalize
    · simpa [ho] using hr i
    · simp only [ho, Bool.not_false, if_true]
      rcases eq_or_ne (maxSize (recenter V)) 0 with h0 | h0
      · have hz : ∀ k, normalized (recenter V) k i = 0 := fun k => by unfold normalized; rw [h0, div_zero]
        rw [lo_eq_of _ i 0 (fun k => (hz k).ge) 0 (hz 0), hi_eq_of _ i 0 (fun k => (hz k).le) 0 (hz 0), add_zero]
      · have hpos : 0 < maxSize (recenter V) := by
          refine lt_of_le_of_ne ?_ (Ne.symm h0)
          exact le_trans (sub_nonneg.2 ((lo_le (recenter V) 0 0).trans (le_hi (recenter V) 0 0)))
            (Finset.le_sup' (fun i => hi (recenter V) i - lo (recenter V) i) (Finset.mem_univ 0))
        obtain ⟨h1, h2⟩ := box_affine (recenter V) (normalized (recenter V)) (maxSize (recenter V))⁻¹
          (fun i => -(center (recenter V) i / maxSize (recenter V))) (inv_pos.2 hpos) (fun k i => by unfold normalized; field_simp; ring) i
        rw [h1, h2]
        have hce : center (recenter V) i = 0 := by unfold center; rw [hr, zero_div]
        rw [hce, zero_div, neg_zero, add_zero, add_zero, ← mul_add, hr, mul_zero]
  unfold gridBox
  simp only
  refine ⟨by linarith, fun k => ?_, by ring⟩
  have h1 := lo_le (prepared o V) k i
  have h2 := le_hi (prepared o V) k i
  constructor <;> linarith

/-- **C133, defect.** `--prescaled --normalize`: the mesh is centred at the origin, while the grid has its corner there. If the mesh has a size, some
vertex has a negative coordinate: it lies outside the grid. -/
theorem C133_prescaled_normalize_refuted (V : Fin (n + 1) → P3) (o : Options) (hn : o.normalize = true) (hs : 0 < maxSize V) :
    ∃ k i, prepared o V k i = -1 / 2 := by
  obtain ⟨i, _, hi'⟩ := Finset.exists_mem_eq_sup' (s := (Finset.univ : Finset (Fin 3))) Finset.univ_nonempty (fun i => hi V i - lo V i)
  obtain ⟨k, hk⟩ := lo_attained V i
  refine ⟨k, i, ?_⟩
  rw [C133_vertices, if_pos hn, hk]
  have : maxSize V = hi V i - lo V i := hi'
  rw [div_eq_iff hs.ne', this]; ring

/-- **C133.** The shape `a,b,c`. -/
theorem C133_shape (stoi : List Char → Option ℤ) (a b c : List Char) (ha : ',' ∉ a) (hb : ',' ∉ b) (hc : ',' ∉ c) (x y z : ℤ)
    (hx : stoi a = some x) (hy : stoi b = some y) (hz : stoi c = some z) :
    shapeOf stoi (a ++ ',' :: b ++ ',' :: c) = some ![x, y, z] := by
  have hf : ∀ (u v : List Char), ',' ∉ u → field (u ++ ',' :: v) = (u, v) := by
    intro u v hu
    unfold field
    have h : ∀ x ∈ u, decide (x ≠ ',') = true := fun x hx => decide_eq_true fun e => hu (e ▸ hx)
    rw [List.takeWhile_append_of_pos h, List.dropWhile_append_of_pos h]
    simp
  have hl : field c = (c, []) := by
    unfold field
    have h : ∀ x ∈ c, decide (x ≠ ',') = true := fun x hx => decide_eq_true fun e => hc (e ▸ hx)
    have h1 : c.takeWhile (fun x => decide (x ≠ ',')) = c := by
      have := List.takeWhile_append_of_pos (l₂ := []) h
      simpa using this
    have h2 : c.dropWhile (fun x => decide (x ≠ ',')) = [] := by
      have := List.dropWhile_append_of_pos (l₂ := []) h
      simpa using this
    rw [h1, h2, List.drop_nil]
  unfold shapeOf
  have hcount : (a ++ ',' :: b ++ ',' :: c).count ',' = 2 := by
    simp [List.count_append, List.count_eq_zero.2 ha, List.count_eq_zero.2 hb, List.count_eq_zero.2 hc]
  rw [if_neg (by rw [hcount]; simp), List.append_assoc, List.cons_append]
  simp only [hf a _ ha, hf b _ hb, hl, hx, hy, hz]

/-- **C133.** Any other number of commas: nothing is baked, whatever else is asked. -/
theorem C133_no_shape (L : Lib Gv Gr) (o : Options) (h : o.shape.count ',' ≠ 2) (V : Fin (n + 1) → P3) (F : Fc) :
    makeGenerator L o V F = none := by
  unfold makeGenerator shapeOf
  rw [if_pos h]

/-- **C133.** The generator is baked once, with the triangles of the file and the level asked for, a negative one counting as zero; the grid has the
shape asked for. -/
theorem C133_inputs (L : Lib Gv Gr) (o : Options) (V : Fin (n + 1) → P3) (F : Fc) (N : Fin 3 → ℤ) (h : shapeOf L.stoi o.shape = some N) :
    ∃ I, makeGenerator L o V F = some I ∧ I.topo = F ∧ I.level = max 0 o.level ∧
      I.grid = (if o.prescaled then L.unitGrid N else L.fromBox (gridBox (prepared o V)) N true) ∧
      I.gv = List.ofFn fun k => L.toGrid I.grid none (prepared o V k) := by
  unfold makeGenerator
  rw [h]
  refine ⟨_, rfl, rfl, ?_, rfl, ?_⟩
  · simp only; split <;> omega
  · simp only [List.map_ofFn]; rfl

/-- two points, not prescaled. -/
def demoV : Fin 2 → P3 := ![![0, 0, 0], ![4, 2, 0]]

example : prepared ⟨false, true, [], 0⟩ demoV 1 = ![1 / 2, 1 / 4, 0] ∧ prepared ⟨true, true, [], 0⟩ demoV 0 0 = -1 / 2 ∧
    (gridBox (prepared ⟨false, false, [], 0⟩ demoV)).2 = ![11 / 5, 11 / 10, 0] ∧ 0 < maxSize demoV ∧
    shapeOf (fun s => some s.length) "12,3,".toList = some ![2, 1, 0] := by
  decide +kernel

end Cmdline
end Mandoline
