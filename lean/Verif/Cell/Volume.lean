import Verif.Core.Vec3
import Verif.Cell.Remove
import Mathlib.Tactic.LinearCombination
import Mathlib.Tactic.Abel
import Mathlib.Algebra.BigOperators.Ring.Finset
import Mathlib.Algebra.BigOperators.Group.Finset.Basic

/-!
# Volumes of cut cells, fan triangulations (C46, C47)

`volume_signed` of the simplex `[a, b, c, 0]` is a library call; it is `κ · det(a, b, c)` with `κ = 1/6` or `κ = -1/6`
according to the orientation convention of that library. All statements hold for every factor `κ`.
-/
namespace Mandoline
open CellCollapser

/-- the loop over `it = loop.begin() + 2 ..` of `CutFace<3>::brep_volume` (include/mandoline/cutface_impl.hpp:141-145):
`p0` is column 0, `prev` column 2 before the step, which becomes column 1. -/
def fanVolume (κ : ℚ) (V : ℤ → Vec3) (p0 : ℤ) : ℤ → List ℤ → ℚ
  | _, [] => 0
  | prev, q :: rest => κ * vdet (V p0) (V prev) (V q) + fanVolume κ V p0 q rest

/-- `loop_volume` (cutface_impl.hpp:133-148). Loops with fewer than two vertices are out of its domain (it would read past
the end); 0 here. -/
def loopVolume (κ : ℚ) (V : ℤ → Vec3) : List ℤ → ℚ
  | p0 :: p1 :: rest => fanVolume κ V p0 p1 rest
  | _ => 0

/-- `CutFace<3>::brep_volume(V, false)` (cutface_impl.hpp:125-152) of a face with the given loops. -/
def brepVolume (κ : ℚ) (V : ℤ → Vec3) (loops : List (List ℤ)) : ℚ := (loops.map (loopVolume κ V)).sum

/-- `face_brep_vols` of `operators::cell_volumes` (src/operators/volume3.cpp:11-14): the volume under face `f`. -/
def faceBrepVol (κ : ℚ) (V : ℤ → Vec3) (faces : List (ℤ × List (List ℤ))) (f : ℤ) : ℚ :=
  ((faces.filter fun p => decide (p.1 = f)).map fun p => brepVolume κ V p.2).sum

/-- `triangle_fan` of a loop, used by `CutFace<3>::triangulate_fan` (src/cutface3.cpp:54-57) and `CutMeshFace::triangulate`
(src/cutface3.cpp:49-52); the library function lists the triangles `(loop[0], loop[i], loop[i+1])`. -/
def triangleFan : List ℤ → List (ℤ × ℤ × ℤ)
  | p0 :: p1 :: rest => ((p1 :: rest).zip rest).map fun q => (p0, q.1, q.2)
  | _ => []

/-- `mtao::geometry::brep_volume(V, T)`: the signed volume under a list of triangles (called in cutface_impl.hpp:128-130).
-/
def triVolume (κ : ℚ) (V : ℤ → Vec3) (T : List (ℤ × ℤ × ℤ)) : ℚ :=
  (T.map fun t => κ * vdet (V t.1) (V t.2.1) (V t.2.2)).sum

/-- `CutCell::triangulated` (src/cutcell.cpp:80-98): the triangulations of the faces, rows 0 and 1 swapped if the face is
listed with `false`. Faces without a triangulation only print a message; here they have an empty one. -/
def cellTriangles (tri : ℤ → List (ℤ × ℤ × ℤ)) (m : List (ℤ × Bool)) : List (ℤ × ℤ × ℤ) :=
  m.flatMap fun p => if p.2 then tri p.1 else (tri p.1).map fun t => (t.2.1, t.1, t.2.2)

/-! ## specification -/

/-- twice the vector area swept by a list of directed edges: `Σ a × b`. -/
def areaVec (V : ℤ → Vec3) (E : List DEdge) : Vec3 := (E.map fun e => vcross (V e.1) (V e.2)).sum

/-- the points moved by `t`. -/
def shifted (V : ℤ → Vec3) (t : Vec3) : ℤ → Vec3 := fun v => V v + t

/-- the vertices of the loop lie in one plane. -/
def Planar (V : ℤ → Vec3) (C : List ℤ) : Prop := ∃ n : Vec3, ∃ d : ℚ, n ≠ 0 ∧ ∀ v ∈ C, vdot n (V v) = d

/-- net number of times face `f` is listed. -/
def net (m : List (ℤ × Bool)) (f : ℤ) : ℤ := (m.count (f, true) : ℤ) - m.count (f, false)

/-! ## vector algebra -/

theorem vcross_eq0 (u v : Vec3) : vcross u v 0 = u 1 * v 2 - u 2 * v 1 := rfl
theorem vcross_eq1 (u v : Vec3) : vcross u v 1 = u 2 * v 0 - u 0 * v 2 := rfl
theorem vcross_eq2 (u v : Vec3) : vcross u v 2 = u 0 * v 1 - u 1 * v 0 := rfl

theorem vdot_add_right (u v w : Vec3) : vdot u (v + w) = vdot u v + vdot u w := by
  simp only [vdot, Pi.add_apply]; ring

theorem vdot_zero_right (u : Vec3) : vdot u 0 = 0 := by simp [vdot]

theorem vec3_ext {u v : Vec3} (h0 : u 0 = v 0) (h1 : u 1 = v 1) (h2 : u 2 = v 2) : u = v := by
  funext j
  match j with
  | 0 => exact h0
  | 1 => exact h1
  | 2 => exact h2

theorem vcross_anti (u v : Vec3) : vcross v u = -vcross u v := by
  apply vec3_ext <;> simp only [Pi.neg_apply, vcross_eq0, vcross_eq1, vcross_eq2] <;> ring

theorem vdet_self_left (u v : Vec3) : vdet u u v = 0 := by rw [vdet_eq]; ring
theorem vdet_self_outer (u v : Vec3) : vdet u v u = 0 := by rw [vdet_eq]; ring
theorem vdet_swap12 (u v w : Vec3) : vdet v u w = -vdet u v w := by rw [vdet_eq, vdet_eq]; ring
theorem vdet_swap23 (u v w : Vec3) : vdet u w v = -vdet u v w := by rw [vdet_eq, vdet_eq]; ring

theorem areaVec_nil (V : ℤ → Vec3) : areaVec V [] = 0 := rfl
theorem areaVec_cons (V : ℤ → Vec3) (e : DEdge) (E : List DEdge) :
    areaVec V (e :: E) = vcross (V e.1) (V e.2) + areaVec V E := rfl
theorem areaVec_append (V : ℤ → Vec3) (E F : List DEdge) : areaVec V (E ++ F) = areaVec V E + areaVec V F := by
  unfold areaVec; rw [List.map_append, List.sum_append]
theorem areaVec_perm (V : ℤ → Vec3) {E F : List DEdge} (h : E.Perm F) : areaVec V E = areaVec V F :=
  (h.map _).sum_eq

theorem polyEdges_cons (p : ℤ) (l : List ℤ) : polyEdges (p :: l) = (p :: l).zip (l ++ [p]) := by
  unfold polyEdges; rw [List.rotate_cons_succ, List.rotate_zero]

theorem polyEdges_rotate (C : List ℤ) (k : ℕ) : polyEdges (C.rotate k) = (polyEdges C).rotate k := by
  unfold polyEdges
  rw [List.rotate_rotate, Nat.add_comm, ← List.rotate_rotate]
  apply List.ext_getElem
  · simp
  · intro i h1 h2
    have : i + (1 + k) = i + k + 1 := by omega
    simp [List.getElem_rotate, this]

/-- the fan sum is the scalar product of its apex with the area vector of the open chain. -/
theorem fanVolume_eq (κ : ℚ) (V : ℤ → Vec3) (p0 prev : ℤ) (rest : List ℤ) :
    fanVolume κ V p0 prev rest = κ * vdot (V p0) (areaVec V ((prev :: rest).zip (rest ++ [p0]))) := by
  induction rest generalizing prev with
  | nil =>
    have : vdot (V p0) (vcross (V prev) (V p0)) = 0 := vdet_self_outer _ _
    simp [fanVolume, areaVec, this]
  | cons q rest ih =>
    rw [fanVolume, ih, List.cons_append, List.zip_cons_cons, areaVec_cons, vdot_add_right]
    unfold vdet; ring

/-- `loop_volume` in closed form. -/
theorem loopVolume_eq (κ : ℚ) (V : ℤ → Vec3) (p0 : ℤ) (l : List ℤ) :
    loopVolume κ V (p0 :: l) = κ * vdot (V p0) (areaVec V (polyEdges (p0 :: l))) := by
  cases l with
  | nil =>
    have : vdot (V p0) (vcross (V p0) (V p0)) = 0 := vdet_self_left _ _
    simp [loopVolume, polyEdges, areaVec, this]
  | cons p1 rest =>
    rw [polyEdges_cons, List.cons_append, List.zip_cons_cons, areaVec_cons, vdot_add_right]
    have : vdot (V p0) (vcross (V p0) (V p1)) = 0 := vdet_self_left _ _
    rw [loopVolume, fanVolume_eq, this, zero_add]

/-- the area vector of a chain from `a` to `b`, moved by `t`. -/
theorem areaVec_chain_shift (V : ℤ → Vec3) (t : Vec3) (a b : ℤ) (l : List ℤ) :
    areaVec (shifted V t) ((a :: l).zip (l ++ [b])) =
      areaVec V ((a :: l).zip (l ++ [b])) + vcross (V a - V b) t := by
  induction l generalizing a with
  | nil =>
    apply vec3_ext <;> simp [areaVec, shifted, vcross_eq0, vcross_eq1, vcross_eq2] <;> ring
  | cons c l ih =>
    rw [List.cons_append, List.zip_cons_cons, areaVec_cons, areaVec_cons, ih]
    apply vec3_ext <;>
      simp only [shifted, Pi.add_apply, Pi.sub_apply, vcross_eq0, vcross_eq1, vcross_eq2] <;> ring

theorem areaVec_loop_shift (V : ℤ → Vec3) (t : Vec3) (C : List ℤ) :
    areaVec (shifted V t) (polyEdges C) = areaVec V (polyEdges C) := by
  cases C with
  | nil => rfl
  | cons p l =>
    rw [polyEdges_cons, areaVec_chain_shift]
    apply vec3_ext <;> simp [vcross_eq0, vcross_eq1, vcross_eq2]

/-- moving the points by `t` adds `κ t · A`. -/
theorem loopVolume_shift (κ : ℚ) (V : ℤ → Vec3) (t : Vec3) (C : List ℤ) :
    loopVolume κ (shifted V t) C = loopVolume κ V C + κ * vdot t (areaVec V (polyEdges C)) := by
  cases C with
  | nil => simp [loopVolume, polyEdges, areaVec, vdot_zero_right]
  | cons p l =>
    rw [loopVolume_eq, loopVolume_eq, areaVec_loop_shift]
    simp only [shifted, vdot, Pi.add_apply]; ring

theorem faceVolume_shift (κ : ℚ) (V : ℤ → Vec3) (t : Vec3) (loops : List (List ℤ)) :
    brepVolume κ (shifted V t) loops = brepVolume κ V loops + κ * vdot t (areaVec V (loops.flatMap polyEdges)) := by
  induction loops with
  | nil => simp [brepVolume, areaVec, vdot_zero_right]
  | cons C L ih =>
    unfold brepVolume at ih ⊢
    rw [List.map_cons, List.sum_cons, ih, List.flatMap_cons, areaVec_append, vdot_add_right, loopVolume_shift,
      List.map_cons, List.sum_cons]
    ring

theorem faceBrepVol_shift (κ : ℚ) (V : ℤ → Vec3) (t : Vec3) (faces : List (ℤ × List (List ℤ))) (f : ℤ) :
    faceBrepVol κ (shifted V t) faces f = faceBrepVol κ V faces f + κ * vdot t (areaVec V (edgesOf faces f)) := by
  unfold faceBrepVol edgesOf
  generalize faces.filter (fun p => decide (p.1 = f)) = L
  induction L with
  | nil => simp [areaVec, vdot_zero_right]
  | cons p L ih =>
    rw [List.map_cons, List.sum_cons, ih, List.flatMap_cons, areaVec_append, vdot_add_right, faceVolume_shift,
      List.map_cons, List.sum_cons]
    ring

/-! ## sums over the edges of a closed cell -/

theorem sum_list_eq_finset (L : List DEdge) (S : Finset DEdge) (hS : ∀ e ∈ L, e ∈ S) (g : DEdge → ℚ) :
    (L.map g).sum = ∑ e ∈ S, (L.count e : ℚ) * g e := by
  induction L with
  | nil => simp
  | cons a L ih =>
    rw [List.map_cons, List.sum_cons, ih fun e he => hS e (List.mem_cons_of_mem _ he)]
    have : ∀ e ∈ S, (((a :: L).count e : ℕ) : ℚ) * g e = (L.count e : ℚ) * g e + (if e = a then g a else 0) := by
      intro e _
      rw [List.count_cons]
      by_cases h : a = e
      · subst h; simp; ring
      · have h' : ¬ e = a := fun x => h x.symm
        simp [h, h']
    rw [Finset.sum_congr rfl this, Finset.sum_add_distrib, Finset.sum_ite_eq' S a, if_pos (hS a List.mem_cons_self)]
    ring

/-- an antisymmetric edge quantity adds to zero over a closed boundary. -/
theorem closed_sum_zero (m : List (ℤ × Bool)) (E : ℤ → List DEdge) (g : DEdge → ℚ) (hg : ∀ e, g e.rev = -g e)
    (hc : ∀ e, (m.map fun p => sgn p.2 * (((E p.1).count e : ℤ) - (E p.1).count e.rev)).sum = 0) :
    (m.map fun p => (sgn p.2 : ℚ) * ((E p.1).map g).sum).sum = 0 := by
  classical
  let S0 : Finset DEdge := (m.flatMap fun p => E p.1).toFinset
  let S : Finset DEdge := S0 ∪ S0.image DEdge.rev
  have hrev : ∀ e ∈ S, e.rev ∈ S := by
    intro e he
    rcases Finset.mem_union.1 he with h | h
    · exact Finset.mem_union_right _ (Finset.mem_image_of_mem _ h)
    · obtain ⟨e', h', rfl⟩ := Finset.mem_image.1 h
      rw [DEdge.rev_rev]; exact Finset.mem_union_left _ h'
  have hmem : ∀ p ∈ m, ∀ e ∈ E p.1, e ∈ S := by
    intro p hp e he
    exact Finset.mem_union_left _ (List.mem_toFinset.2 (List.mem_flatMap.2 ⟨p, hp, he⟩))
  -- symmetrise
  have hsym : ∀ p ∈ m, 2 * ((E p.1).map g).sum =
      ∑ e ∈ S, ((((E p.1).count e : ℤ) - (E p.1).count e.rev : ℤ) : ℚ) * g e := by
    intro p hp
    have h1 := sum_list_eq_finset (E p.1) S (hmem p hp) g
    have h2 : ∑ e ∈ S, ((E p.1).count e : ℚ) * g e = ∑ e ∈ S, ((E p.1).count e.rev : ℚ) * g e.rev :=
      Finset.sum_nbij' DEdge.rev DEdge.rev hrev hrev (fun e _ => DEdge.rev_rev e) (fun e _ => DEdge.rev_rev e)
        (fun e _ => by rw [DEdge.rev_rev])
    calc 2 * ((E p.1).map g).sum = ∑ e ∈ S, ((E p.1).count e : ℚ) * g e + ∑ e ∈ S, ((E p.1).count e.rev : ℚ) * g e.rev := by
          rw [← h2, ← h1]; ring
      _ = _ := by
          rw [← Finset.sum_add_distrib]
          refine Finset.sum_congr rfl fun e _ => ?_
          rw [hg]; push_cast; ring
  have hlin : ∀ l : List (ℤ × Bool), (∀ p ∈ l, p ∈ m) →
      2 * (l.map fun p => (sgn p.2 : ℚ) * ((E p.1).map g).sum).sum =
      ∑ e ∈ S, (((l.map fun p => sgn p.2 * (((E p.1).count e : ℤ) - (E p.1).count e.rev)).sum : ℤ) : ℚ) * g e := by
    intro l hl
    induction l with
    | nil => simp
    | cons p l ih =>
      have ih := ih fun q hq => hl q (List.mem_cons_of_mem _ hq)
      rw [List.map_cons, List.sum_cons, mul_add, ih]
      have h3 := hsym p (hl p List.mem_cons_self)
      have : 2 * ((sgn p.2 : ℚ) * ((E p.1).map g).sum) = (sgn p.2 : ℚ) * (2 * ((E p.1).map g).sum) := by ring
      rw [this, h3, Finset.mul_sum, ← Finset.sum_add_distrib]
      refine Finset.sum_congr rfl fun e _ => ?_
      rw [List.map_cons, List.sum_cons]; push_cast; ring
  have := hlin m fun p hp => hp
  have hz : ∑ e ∈ S, (((m.map fun p => sgn p.2 * (((E p.1).count e : ℤ) - (E p.1).count e.rev)).sum : ℤ) : ℚ) * g e = 0 := by
    refine Finset.sum_eq_zero fun e _ => ?_
    rw [hc e]; simp
  rw [hz] at this
  linarith

theorem vdot_areaVec (t : Vec3) (V : ℤ → Vec3) (E : List DEdge) :
    vdot t (areaVec V E) = (E.map fun e => vdet t (V e.1) (V e.2)).sum := by
  induction E with
  | nil => simp [areaVec, vdot_zero_right]
  | cons e E ih => rw [areaVec_cons, vdot_add_right, ih, List.map_cons, List.sum_cons]; rfl

/-! ## C46 -/

/-- **C46.** The volume of a cell whose boundary is closed does not depend on where the origin is. -/
theorem C46_origin_independent (κ : ℚ) (V : ℤ → Vec3) (t : Vec3) (faces : List (ℤ × List (List ℤ)))
    (m : List (ℤ × Bool)) (hc : ∀ e, (m.map fun p => sgn p.2 * incidence faces p.1 e).sum = 0) :
    cellVolume (faceBrepVol κ (shifted V t) faces) m = cellVolume (faceBrepVol κ V faces) m := by
  have h0 := closed_sum_zero m (edgesOf faces) (fun e => vdet t (V e.1) (V e.2))
    (fun e => vdet_swap23 t (V e.1) (V e.2)) hc
  have hgen : ∀ l : List (ℤ × Bool), cellVolume (faceBrepVol κ (shifted V t) faces) l =
      cellVolume (faceBrepVol κ V faces) l +
      κ * (l.map fun p => (sgn p.2 : ℚ) * ((edgesOf faces p.1).map fun e => vdet t (V e.1) (V e.2)).sum).sum := by
    intro l
    induction l with
    | nil => simp [cellVolume]
    | cons p l ih =>
      unfold cellVolume at ih ⊢
      rw [List.map_cons, List.sum_cons, ih, List.map_cons, List.sum_cons, List.map_cons, List.sum_cons,
        faceBrepVol_shift, vdot_areaVec]
      cases p.2 <;> simp [sgn] <;> ring
  rw [hgen, h0, mul_zero, add_zero]

/-- **C46.** In particular this holds for every cell built from clean faces that has no folded face. -/
theorem C46_baked_origin_independent (κ : ℚ) (V : ℤ → Vec3) (t : Vec3) (faces : List (ℤ × List (List ℤ))) (h : Clean faces)
    (hedges : ∀ f, (edgesOf faces f).Nodup) (ord : DEdge → List ℤ) (hord : ∀ e, (ord e).Perm ((make faces).around e))
    (R : DsuRoots ((make faces).merge ord).ds) (k : ℕ) (m : List (ℤ × Bool))
    (hk : ((make faces).bake ord R).cells[k]? = some m)
    (hnf : ∀ f b, (f, b) ∈ m → ¬ Folded faces ((make faces).bake ord R) f) :
    cellVolume (faceBrepVol κ (shifted V t) faces) m = cellVolume (faceBrepVol κ V faces) m :=
  C46_origin_independent κ V t faces m (C38_cells_closed faces h hedges ord hord R k m hk hnf)

/-- **C46.** Turning the boundary inside out changes the sign. -/
theorem C46_orientation (vol : ℤ → ℚ) (m : List (ℤ × Bool)) :
    cellVolume vol (m.map fun p => (p.1, !p.2)) = -cellVolume vol m := by
  unfold cellVolume
  induction m with
  | nil => simp
  | cons p m ih =>
    rw [List.map_cons, List.map_cons, List.sum_cons, ih, List.map_cons, List.sum_cons]
    cases p.2 <;> simp <;> ring

theorem cellVolume_append (vol : ℤ → ℚ) (l m : List (ℤ × Bool)) :
    cellVolume vol (l ++ m) = cellVolume vol l + cellVolume vol m := by
  unfold cellVolume; rw [List.map_append, List.sum_append]

/-- **C46.** Volumes of unions: if the faces of `m₃` are those of `m₁` and `m₂` up to faces listed with opposite signs, the
volume is the sum. -/
theorem C46_union (vol : ℤ → ℚ) (m₁ m₂ m₃ : List (ℤ × Bool)) (h : ∀ f, net m₃ f = net m₁ f + net m₂ f) :
    cellVolume vol m₃ = cellVolume vol m₁ + cellVolume vol m₂ := by
  have h0 : cellVolume vol (m₁ ++ m₂ ++ m₃.map fun p => (p.1, !p.2)) = 0 := by
    apply signed_sum_zero
    intro f
    have hinj : Function.Injective fun p : ℤ × Bool => (p.1, !p.2) := by
      rintro ⟨a, b⟩ ⟨c, d⟩ hh
      simp only [Prod.mk.injEq, Bool.not_eq_eq_eq_not, Bool.not_not] at hh
      exact Prod.ext hh.1 hh.2
    have e1 : (m₃.map fun p => (p.1, !p.2)).count (f, true) = m₃.count (f, false) :=
      List.count_map_of_injective m₃ _ hinj (f, false)
    have e2 : (m₃.map fun p => (p.1, !p.2)).count (f, false) = m₃.count (f, true) :=
      List.count_map_of_injective m₃ _ hinj (f, true)
    have hf := h f
    unfold net at hf
    rw [List.count_append, List.count_append, List.count_append, List.count_append, e1, e2]
    omega
  rw [cellVolume_append, cellVolume_append, C46_orientation] at h0
  linarith

/-! ### planar faces -/

theorem det_zero_of_planar {n a b c : Vec3} (hn : n ≠ 0) (ha : vdot n a = 0) (hb : vdot n b = 0) (hc : vdot n c = 0) :
    vdet a b c = 0 := by
  have key : ∀ j, n j * vdet a b c = 0 := by
    intro j
    rw [vdet_eq]
    unfold vdot at ha hb hc
    match j with
    | 0 => linear_combination (b 1 * c 2 - b 2 * c 1) * ha + (c 1 * a 2 - c 2 * a 1) * hb + (a 1 * b 2 - a 2 * b 1) * hc
    | 1 => linear_combination (b 2 * c 0 - b 0 * c 2) * ha + (c 2 * a 0 - c 0 * a 2) * hb + (a 2 * b 0 - a 0 * b 2) * hc
    | 2 => linear_combination (b 0 * c 1 - b 1 * c 0) * ha + (c 0 * a 1 - c 1 * a 0) * hb + (a 0 * b 1 - a 1 * b 0) * hc
  by_contra hd
  refine hn (funext fun j => ?_)
  rcases mul_eq_zero.1 (key j) with h | h
  · exact h
  · exact absurd h hd

/-- for a planar loop the scalar product with the area vector is the same at every point of the plane. -/
theorem planar_apex {V : ℤ → Vec3} {C : List ℤ} (h : Planar V C) {p q : ℤ} (hp : p ∈ C) (hq : q ∈ C) :
    vdot (V p) (areaVec V (polyEdges C)) = vdot (V q) (areaVec V (polyEdges C)) := by
  obtain ⟨n, d, hn, hd⟩ := h
  have hshift := areaVec_loop_shift V (-(V q)) C
  have hz : vdot (V p - V q) (areaVec (shifted V (-(V q))) (polyEdges C)) = 0 := by
    rw [vdot_areaVec]
    apply List.sum_eq_zero
    intro x hx
    obtain ⟨e, he, rfl⟩ := List.mem_map.1 hx
    have h1 : e.1 ∈ C := (List.of_mem_zip (show (e.1, e.2) ∈ C.zip (C.rotate 1) from he)).1
    have h2 : e.2 ∈ C := List.mem_rotate.1 (List.of_mem_zip (show (e.1, e.2) ∈ C.zip (C.rotate 1) from he)).2
    refine det_zero_of_planar hn ?_ ?_ ?_
    · have a := hd p hp; have b := hd q hq; simp only [vdot, Pi.sub_apply] at a b ⊢; linarith
    · have a := hd _ h1; have b := hd q hq; simp only [shifted, vdot, Pi.add_apply, Pi.neg_apply] at a b ⊢; linarith
    · have a := hd _ h2; have b := hd q hq; simp only [shifted, vdot, Pi.add_apply, Pi.neg_apply] at a b ⊢; linarith
  rw [hshift] at hz
  simp only [vdot, Pi.sub_apply] at hz ⊢
  linarith

/-- **C46.** For planar faces the volume does not depend on the vertex a loop starts with. -/
theorem C46_start_independent (κ : ℚ) (V : ℤ → Vec3) (C : List ℤ) (h : Planar V C) (k : ℕ) :
    loopVolume κ V (C.rotate k) = loopVolume κ V C := by
  cases hC : C with
  | nil => rw [List.rotate_nil]
  | cons p l =>
    cases hD : (p :: l).rotate k with
    | nil => exact absurd hD (by simp)
    | cons q r =>
      have hq : q ∈ (p :: l) := List.mem_rotate.1 (by rw [hD]; exact List.mem_cons_self)
      rw [loopVolume_eq, loopVolume_eq, ← hD, polyEdges_rotate, areaVec_perm V (List.rotate_perm _ k)]
      subst hC
      rw [planar_apex h hq List.mem_cons_self]

/-- **C46 (limit).** For loops that are not planar it does depend on the start. -/
theorem C46_start_dependent_refuted : ∃ (V : ℤ → Vec3) (C : List ℤ), C.length = 4 ∧
    ∀ κ, κ ≠ 0 → loopVolume κ V (C.rotate 1) ≠ loopVolume κ V C := by
  refine ⟨fun v => if v = 0 then ![0, 0, 1] else if v = 1 then ![1, 0, 0] else if v = 2 then ![1, 1, 1] else ![0, 1, 0],
    [0, 1, 2, 3], rfl, ?_⟩
  intro κ hκ h
  simp [loopVolume, fanVolume, vdet, vdot, vcross] at h
  apply hκ; linarith

/-! ### actual volumes -/

/-- the four faces of the tetrahedron with vertices 0, 1, 2, 3, oriented outwards. -/
def tetFaces : List (ℤ × List (List ℤ)) := [(0, [[0, 2, 1]]), (1, [[0, 1, 3]]), (2, [[1, 2, 3]]), (3, [[0, 3, 2]])]

/-- **C46.** A tetrahedron has volume `κ` times the determinant of its edge vectors, wherever it is. -/
theorem C46_tetrahedron (κ : ℚ) (V : ℤ → Vec3) :
    cellVolume (faceBrepVol κ V tetFaces) [(0, true), (1, true), (2, true), (3, true)] =
      κ * vdet (V 1 - V 0) (V 2 - V 0) (V 3 - V 0) := by
  simp [cellVolume, faceBrepVol, tetFaces, brepVolume, loopVolume, fanVolume]
  simp only [vdet_eq, Pi.sub_apply]
  ring

/-- corner number `i` (bits: z y x) of the box between `a` and `b`. -/
def boxCorner (a b : Vec3) (i : ℤ) : Vec3 :=
  ![if i % 2 = 0 then a 0 else b 0, if i / 2 % 2 = 0 then a 1 else b 1, if i / 4 % 2 = 0 then a 2 else b 2]

/-- the six faces of the box, oriented along the positive axes. -/
def boxFaces : List (ℤ × List (List ℤ)) :=
  [(0, [[0, 2, 6, 4]]), (1, [[1, 3, 7, 5]]), (2, [[0, 4, 5, 1]]), (3, [[2, 6, 7, 3]]), (4, [[0, 1, 3, 2]]), (5, [[4, 5, 7, 6]])]

/-- **C46.** An axis-aligned box has volume `6 κ` times the product of its sides, wherever it is. -/
theorem C46_box (κ : ℚ) (a b : Vec3) :
    cellVolume (faceBrepVol κ (boxCorner a b) boxFaces)
      [(0, false), (1, true), (2, false), (3, true), (4, false), (5, true)] =
      6 * κ * ((b 0 - a 0) * (b 1 - a 1) * (b 2 - a 2)) := by
  simp [cellVolume, faceBrepVol, boxFaces, brepVolume, loopVolume, fanVolume, vdet_eq, boxCorner]
  ring

/-- the hypotheses of C46 are met: the tetrahedron's boundary is closed. -/
example (e : DEdge) :
    ([((0 : ℤ), true), (1, true), (2, true), (3, true)].map fun p => sgn p.2 * incidence tetFaces p.1 e).sum = 0 := by
  obtain ⟨a, b⟩ := e
  simp [incidence, edgesOf, tetFaces, polyEdges, sgn, DEdge.rev, List.count_cons]
  have h : ∀ x y : ℤ, (x = b ∧ y = a) = (y = a ∧ x = b) := fun x y => propext and_comm
  simp only [h 0, h 1, h 2, h 3]
  ring

/-- a planar loop. -/
example : Planar (boxCorner 0 ![1, 2, 3]) [0, 2, 6, 4] :=
  ⟨![1, 0, 0], 0, fun h => by have := congrFun h 0; simp at this, by
    intro v hv; simp only [List.mem_cons, List.not_mem_nil, or_false] at hv
    rcases hv with rfl | rfl | rfl | rfl <;> simp [vdot, boxCorner]⟩

/-! ## C47 -/

/-- **C47.** A fan of an `n`-gon has `n - 2` triangles … -/
theorem C47_count (C : List ℤ) : (triangleFan C).length = C.length - 2 := by
  match C with
  | [] => rfl
  | [_] => rfl
  | p0 :: p1 :: rest => simp [triangleFan]

/-- … with corners among the polygon's vertices, the first being the first vertex … -/
theorem C47_vertices (C : List ℤ) (t : ℤ × ℤ × ℤ) (ht : t ∈ triangleFan C) :
    C.head? = some t.1 ∧ t.2.1 ∈ C ∧ t.2.2 ∈ C := by
  match C with
  | [] => cases ht
  | [_] => cases ht
  | p0 :: p1 :: rest =>
    obtain ⟨q, hq, rfl⟩ := List.mem_map.1 ht
    have h := List.of_mem_zip (show (q.1, q.2) ∈ (p1 :: rest).zip rest from hq)
    exact ⟨rfl, List.mem_cons_of_mem _ h.1, List.mem_cons_of_mem _ (List.mem_cons_of_mem _ h.2)⟩

theorem fan_area (V : ℤ → Vec3) (p0 p1 : ℤ) (rest : List ℤ) :
    areaVec V (((p1 :: rest).zip rest).flatMap fun q => [(p0, q.1), (q.1, q.2), (q.2, p0)]) =
      vcross (V p0) (V p1) + areaVec V ((p1 :: rest).zip (rest ++ [p0])) := by
  induction rest generalizing p1 with
  | nil =>
    apply vec3_ext <;> simp [areaVec, vcross_eq0, vcross_eq1, vcross_eq2] <;> ring
  | cons c rest ih =>
    rw [List.zip_cons_cons, List.flatMap_cons, areaVec_append, ih, List.cons_append, List.zip_cons_cons,
      areaVec_cons V (p1, c)]
    have : areaVec V [(p0, p1), (p1, c), (c, p0)] =
        vcross (V p0) (V p1) + (vcross (V p1) (V c) + (vcross (V c) (V p0) + 0)) := rfl
    show areaVec V [(p0, p1), (p1, c), (c, p0)] + _ = _
    rw [this, vcross_anti (V p0) (V c)]
    simp only
    abel

/-- … and the (vector) areas of the triangles add up to the area of the polygon: no matter how it is bent, in every
projection. -/
theorem C47_area (V : ℤ → Vec3) (C : List ℤ) (h : 3 ≤ C.length) :
    areaVec V ((triangleFan C).flatMap fun t => polyEdges [t.1, t.2.1, t.2.2]) = areaVec V (polyEdges C) := by
  match C, h with
  | p0 :: p1 :: rest, _ =>
    have := fan_area V p0 p1 rest
    rw [polyEdges_cons, List.cons_append, List.zip_cons_cons, areaVec_cons, ← this]
    unfold triangleFan
    rw [List.flatMap_map]
    rfl

/-- **C47.** `brep_volume` gives the same value with and without the fan triangulation. -/
theorem C47_volume (κ : ℚ) (V : ℤ → Vec3) (C : List ℤ) : triVolume κ V (triangleFan C) = loopVolume κ V C := by
  match C with
  | [] => rfl
  | [_] => rfl
  | p0 :: p1 :: rest =>
    unfold triVolume triangleFan loopVolume
    rw [List.map_map]
    induction rest generalizing p1 with
    | nil => rfl
    | cons c rest ih => 
      rw [List.zip_cons_cons, List.map_cons, List.sum_cons, ih]
      show _ = κ * vdet (V p0) (V p1) (V c) + fanVolume κ V p0 c rest
      cases rest <;> rfl

theorem triVolume_append (κ : ℚ) (V : ℤ → Vec3) (S T : List (ℤ × ℤ × ℤ)) :
    triVolume κ V (S ++ T) = triVolume κ V S + triVolume κ V T := by
  unfold triVolume; rw [List.map_append, List.sum_append]

theorem triVolume_swap (κ : ℚ) (V : ℤ → Vec3) (T : List (ℤ × ℤ × ℤ)) :
    triVolume κ V (T.map fun t => (t.2.1, t.1, t.2.2)) = -triVolume κ V T := by
  unfold triVolume
  induction T with
  | nil => simp
  | cons t T ih =>
    rw [List.map_cons, List.map_cons, List.sum_cons, ih, List.map_cons, List.sum_cons, vdet_swap12]; ring

/-- **C47.** The triangle mesh of a cell encloses the cell's volume, computed from the volumes under the triangulated
faces. -/
theorem C47_cell_triangles (κ : ℚ) (V : ℤ → Vec3) (tri : ℤ → List (ℤ × ℤ × ℤ)) (m : List (ℤ × Bool)) :
    triVolume κ V (cellTriangles tri m) = cellVolume (fun f => triVolume κ V (tri f)) m := by
  unfold cellTriangles cellVolume
  induction m with
  | nil => simp [triVolume]
  | cons p m ih =>
    rw [List.flatMap_cons, triVolume_append, ih, List.map_cons, List.sum_cons]
    cases p.2 <;> simp [triVolume_swap]

/-- **C47.** … in particular for cells all of whose faces are single loops triangulated as fans. -/
theorem C47_cell_fans (κ : ℚ) (V : ℤ → Vec3) (loop : ℤ → List ℤ) (m : List (ℤ × Bool)) :
    triVolume κ V (cellTriangles (fun f => triangleFan (loop f)) m) =
      cellVolume (fun f => brepVolume κ V [loop f]) m := by
  rw [C47_cell_triangles]
  congr 1
  funext f
  rw [C47_volume]
  simp [brepVolume]

example : triangleFan [4, 7, 9, 2, 5] = [(4, 7, 9), (4, 9, 2), (4, 2, 5)] := rfl

end Mandoline
