import Verif.Fill.Volume
import Verif.Fill.Frame2
import Mathlib.Tactic.LinearCombination

/-!
# C112: the faces made in the grid planes cover the walls of a grid cell

`compute_faces_axis` (src/construction/generator3_make_faces.cpp:408-497) makes faces of the loops of the planar graph that
`compute_planar_hem` (src/construction/generator.cpp:80-138) has built in each grid plane. C110 and C111 assume that the
walls of a grid cell are covered by faces and that these have the area of the wall; this file derives both from: the
boundary of the wall is part of the graph of the plane, and each half-edge of that graph with the wall on its left is on
exactly one face.
-/
namespace Mandoline
namespace CellCollapser
open Planar

/-! ## specification -/

/-- positions in a plane perpendicular to axis `i` (the axes that follow `i` cyclically, cf. C40). -/
def planePos (V : ℤ → Vec3) (i : Fin 3) : ℤ → Dir := fun v => (V v (i + 1), V v (i + 2))

/-- the square of the plane that is a wall of grid cell `c`. -/
def planeCell (c : Coord 3) (i : Fin 3) : Coord 2 := ![c (i + 1), c (i + 2)]

/-- the half-edges of face `f` seen against axis `i`, so that the face is on their left: its own ones if the normal points
along the axis, otherwise the reversed ones. -/
def seen (faces : List (ℤ × List (List ℤ))) (nrm : ℤ → Vec3) (i : Fin 3) (f : ℤ) : List DEdge :=
  if 0 < nrm f i then edgesOf faces f else (edgesOf faces f).map DEdge.rev

/-- the wall of `c` in the plane `x_i = k` is made of faces: `edges` are the edges of a planar graph in that plane, with the
neighbours of each vertex in the order `ord`; different vertices are at different places; the boundary of the wall is part of
the graph; every edge of a face that lies in the wall is an edge of the graph; and each half-edge of the graph with the wall
on its left is on exactly one face in the wall. -/
structure WallMade (faces : List (ℤ × List (List ℤ))) (V nrm : ℤ → Vec3) (c : Coord 3) (i : Fin 3) (k : ℚ) (edges : List DEdge)
    (ord : ℤ → List ℤ) : Prop where
  graph : PlanarGraph edges (planePos V i) ord
  inj : ∀ a b, IsNode (FaceCollapser.make edges).edgeList a → IsNode (FaceCollapser.make edges).edgeList b →
    planePos V i a = planePos V i b → a = b
  framed : Framed (planePos V i) (FaceCollapser.make edges).edgeList (planeCell c i)
  touch : ∃ v, IsNode (FaceCollapser.make edges).edgeList v ∧ InCell (planeCell c i) (planePos V i v) ∧
    ¬ InOpenCell (planeCell c i) (planePos V i v)
  all : ∀ f e, e ∈ edgesOf faces f → V e.1 i = k → V e.2 i = k → InClosedCell c (V e.1) → InClosedCell c (V e.2) →
    e ∈ (FaceCollapser.make edges).edgeList
  once : ∀ e ∈ (FaceCollapser.make edges).edgeList, LeftOf (planeCell c i) (planePos V i e.1) (planePos V i e.2) →
    ∃! f, FaceIn faces V c f ∧ InPlane faces V f i k ∧ e ∈ seen faces nrm i f

/-- all six walls of `c` are made of faces. -/
def WallsMade (faces : List (ℤ × List (List ℤ))) (V nrm : ℤ → Vec3) (c : Coord 3) : Prop :=
  ∀ i, (∃ edges ord, WallMade faces V nrm c i (c i) edges ord) ∧ ∃ edges ord, WallMade faces V nrm c i (c i + 1) edges ord

/-! ## proofs -/

theorem vcross_at (u v : Vec3) (i : Fin 3) : vcross u v i = u (i + 1) * v (i + 2) - u (i + 2) * v (i + 1) := by
  fin_cases i <;> rfl

theorem vcross_at1 (u v : Vec3) (i : Fin 3) : vcross u v (i + 1) = u (i + 2) * v i - u i * v (i + 2) := by
  fin_cases i <;> rfl

theorem vcross_at2 (u v : Vec3) (i : Fin 3) : vcross u v (i + 2) = u i * v (i + 1) - u (i + 1) * v i := by
  fin_cases i <;> rfl

theorem vdot_at (u v : Vec3) (i : Fin 3) : vdot u v = u i * v i + u (i + 1) * v (i + 1) + u (i + 2) * v (i + 2) := by
  unfold vdot
  fin_cases i
  · show _ = u 0 * v 0 + u 1 * v 1 + u 2 * v 2; ring
  · show _ = u 1 * v 1 + u 2 * v 2 + u 0 * v 0; ring
  · show _ = u 2 * v 2 + u 0 * v 0 + u 1 * v 1; ring

theorem axes (i j : Fin 3) : j = i ∨ j = i + 1 ∨ j = i + 2 := by revert i j; decide
theorem axis1_ne (i : Fin 3) : i + 1 ≠ i := by revert i; decide
theorem axis2_ne (i : Fin 3) : i + 2 ≠ i := by revert i; decide

theorem planeCell_0 (c : Coord 3) (i : Fin 3) : planeCell c i 0 = c (i + 1) := rfl
theorem planeCell_1 (c : Coord 3) (i : Fin 3) : planeCell c i 1 = c (i + 2) := rfl

theorem inCell_of_closed {c : Coord 3} {V : ℤ → Vec3} {v : ℤ} (i : Fin 3) (h : InClosedCell c (V v)) :
    InCell (planeCell c i) (planePos V i v) := by
  have h1 := h (i + 1)
  have h2 := h (i + 2)
  exact ⟨h1, h2⟩

/-- a direction `x` in the plane that does not cross a wall through the segment, to the left of the segment: the square is
on the left of the segment. -/
theorem leftOf_of_toward {c : Coord 3} {V : ℤ → Vec3} {i : Fin 3} {a b : ℤ} (hne : planePos V i a ≠ planePos V i b)
    (ha : InClosedCell c (V a)) (hb : InClosedCell c (V b)) (x : Vec3) (t : ℚ) (ht : 0 < t)
    (h1 : x (i + 1) = - (t * (V b (i + 2) - V a (i + 2)))) (h2 : x (i + 2) = t * (V b (i + 1) - V a (i + 1)))
    (htw : ∀ j, j ≠ i → ∀ s, InWall c (V a) (V b) j s → 0 ≤ s * x j) :
    LeftOf (planeCell c i) (planePos V i a) (planePos V i b) := by
  refine (leftOf_iff _ _ _ hne).2 ⟨inCell_of_closed i ha, inCell_of_closed i hb, ?_⟩
  unfold Clockwise planePos
  simp only [planeCell_0, planeCell_1]
  rintro (⟨e1, e2, e3⟩ | ⟨e1, e2, e3⟩ | ⟨e1, e2, e3⟩ | ⟨e1, e2, e3⟩)
  · have := htw (i + 2) (axis2_ne i) 1 (Or.inl ⟨rfl, e1, e2⟩)
    rw [h2] at this
    nlinarith
  · have := htw (i + 1) (axis1_ne i) (-1) (Or.inr ⟨rfl, e1, e2⟩)
    rw [h1] at this
    nlinarith
  · have := htw (i + 2) (axis2_ne i) (-1) (Or.inr ⟨rfl, e1, e2⟩)
    rw [h2] at this
    nlinarith
  · have := htw (i + 1) (axis1_ne i) 1 (Or.inl ⟨rfl, e1, e2⟩)
    rw [h1] at this
    nlinarith

theorem mem_seen {faces : List (ℤ × List (List ℤ))} {nrm : ℤ → Vec3} {i : Fin 3} {f : ℤ} {e : DEdge} (h : e ∈ seen faces nrm i f) :
    (0 < nrm f i ∧ e ∈ edgesOf faces f) ∨ (nrm f i ≤ 0 ∧ e.rev ∈ edgesOf faces f) := by
  unfold seen at h
  split at h
  · exact Or.inl ⟨by assumption, h⟩
  · obtain ⟨e', he', rfl⟩ := List.mem_map.1 h
    exact Or.inr ⟨by linarith, he'⟩

theorem face_of_seen {faces : List (ℤ × List (List ℤ))} {nrm : ℤ → Vec3} {i : Fin 3} {f : ℤ} {e : DEdge} (h : e ∈ seen faces nrm i f) :
    f ∈ faces.map Prod.fst := by
  rcases mem_seen h with ⟨_, h⟩ | ⟨_, h⟩ <;>
  · obtain ⟨loops, h1, _⟩ := mem_edgesOf.1 h
    exact List.mem_map.2 ⟨_, h1, rfl⟩

section
variable {faces : List (ℤ × List (List ℤ))} {V nrm : ℤ → Vec3} {c : Coord 3} {i : Fin 3} {k : ℚ} {edges : List DEdge} {ord : ℤ → List ℤ}

/-- walls of the home cell that are not the plane of the face itself are walls of any cell the face is in. -/
theorem FaceOk.toward {f : ℤ} (hok : FaceOk faces V nrm f) (hin : FaceIn faces V c f) (hp : InPlane faces V f i k)
    (e : DEdge) (he : e ∈ edgesOf faces f) (j : Fin 3) (hj : j ≠ i) (s : ℚ) (hw : InWall c (V e.1) (V e.2) j s) :
    0 ≤ s * intoFace (V e.2 - V e.1) (nrm f) j := by
  obtain ⟨c', hc', ht⟩ := hok.home
  have hno : ∀ k', ¬ InPlane faces V f j k' := fun k' hp' => hok.along hp' (hok.grid i k hp j hj)
  have hcc : c' j = c j := by
    by_contra hne
    rcases lt_or_gt_of_ne hne with hlt | hlt
    · refine hno (c j) fun v hv => ?_
      have h1 := hin v hv j
      have h2 := hc' v hv j
      have : ((c' j + 1 : ℤ) : ℚ) ≤ c j := by exact_mod_cast hlt
      push_cast at this
      linarith [h1.1, h2.2]
    · refine hno (c' j) fun v hv => ?_
      have h1 := hin v hv j
      have h2 := hc' v hv j
      have : ((c j + 1 : ℤ) : ℚ) ≤ c' j := by exact_mod_cast hlt
      push_cast at this
      linarith [h1.2, h2.1]
  refine ht e he j s ?_
  unfold InWall at hw ⊢
  rw [hcc]
  exact hw

/-- the half-edges of a face in the wall are half-edges of the graph with the wall on their left. -/
theorem WallMade.left (W : WallMade faces V nrm c i k edges ord) {f : ℤ} (hok : FaceOk faces V nrm f) (hin : FaceIn faces V c f)
    (hp : InPlane faces V f i k) (e : DEdge) (he : e ∈ seen faces nrm i f) :
    e ∈ (FaceCollapser.make edges).edgeList ∧ LeftOf (planeCell c i) (planePos V i e.1) (planePos V i e.2) := by
  have hsym := (FaceCollapser.ok_make edges).symm
  have g1 := hok.grid i k hp (i + 1) (axis1_ne i)
  have g2 := hok.grid i k hp (i + 2) (axis2_ne i)
  have hE : ∀ e ∈ edgesOf faces f, e ∈ (FaceCollapser.make edges).edgeList ∧ InClosedCell c (V e.1) ∧ InClosedCell c (V e.2) ∧
      V e.2 i - V e.1 i = 0 := by
    intro e he
    obtain ⟨v1, v2⟩ := isVertex_of_edge he
    refine ⟨W.all f e he (hp _ v1) (hp _ v2) (hin _ v1) (hin _ v2), hin _ v1, hin _ v2, ?_⟩
    rw [hp _ v1, hp _ v2, sub_self]
  rcases mem_seen he with ⟨hn, he'⟩ | ⟨hn, he'⟩
  · obtain ⟨h1, h2, h3, h4⟩ := hE e he'
    refine ⟨h1, leftOf_of_toward (W.graph.ne e h1) h2 h3 (intoFace (V e.2 - V e.1) (nrm f)) (nrm f i) hn ?_ ?_
      fun j hj s hw => hok.toward hin hp e he' j hj s hw⟩
    · unfold intoFace
      rw [vcross_at1, g2]
      simp only [Pi.sub_apply]; ring
    · unfold intoFace
      rw [vcross_at2, g1]
      simp only [Pi.sub_apply]; ring
  · obtain ⟨h1, h2, h3, h4⟩ := hE e.rev he'
    have hn' : nrm f i < 0 := lt_of_le_of_ne hn (hok.along hp)
    have h1' : e ∈ (FaceCollapser.make edges).edgeList := hsym _ _ h1
    refine ⟨h1', leftOf_of_toward (W.graph.ne e h1') h3 h2 (intoFace (V e.rev.2 - V e.rev.1) (nrm f)) (- nrm f i) (by linarith) ?_ ?_
      fun j hj s hw => hok.toward hin hp e.rev he' j hj s ?_⟩
    · unfold intoFace
      rw [vcross_at1, g2]
      simp only [Pi.sub_apply, DEdge.rev]; ring
    · unfold intoFace
      rw [vcross_at2, g1]
      simp only [Pi.sub_apply, DEdge.rev]; ring
    · rcases hw with ⟨a, b, d⟩ | ⟨a, b, d⟩
      · exact Or.inl ⟨a, d, b⟩
      · exact Or.inr ⟨a, d, b⟩

/-- one wall: the faces next to an edge in it. -/
theorem WallMade.next (W : WallMade faces V nrm c i k edges ord) (hok : ∀ f ∈ faces.map Prod.fst, FaceOk faces V nrm f) (f : ℤ) (e : DEdge)
    (he : e ∈ edgesOf faces f) (h1 : InClosedCell c (V e.1)) (h2 : InClosedCell c (V e.2)) (k1 : V e.1 i = k) (k2 : V e.2 i = k)
    (x : Vec3) (hx : x ≠ 0) (hd : vdot (V e.2 - V e.1) x = 0) (hxi : x i = 0) (ht : Toward c (V e.1) (V e.2) x) :
    ∃ g e', e' ∈ edgesOf faces g ∧ (e' = e ∨ e' = e.rev) ∧ ∃ t : ℚ, 0 < t ∧ intoFace (V e'.2 - V e'.1) (nrm g) = t • x := by
  have hsym := (FaceCollapser.ok_make edges).symm
  have hE := W.all f e he k1 k2 h1 h2
  have hne := W.graph.ne e hE
  -- the direction is to the left of the edge or of the reversed edge
  have hlam : ∃ l : ℚ, l ≠ 0 ∧ x (i + 1) = - (l * (V e.2 (i + 2) - V e.1 (i + 2))) ∧ x (i + 2) = l * (V e.2 (i + 1) - V e.1 (i + 1)) := by
    rw [vdot_at _ _ i, hxi] at hd
    simp only [Pi.sub_apply, mul_zero, zero_add] at hd
    set d1 := V e.2 (i + 1) - V e.1 (i + 1) with hd1
    set d2 := V e.2 (i + 2) - V e.1 (i + 2) with hd2
    have hx0 : ¬ (x (i + 1) = 0 ∧ x (i + 2) = 0) := by
      rintro ⟨a, b⟩
      apply hx
      funext j
      rcases axes i j with rfl | rfl | rfl
      · exact hxi
      · exact a
      · exact b
    by_cases h0 : d1 = 0
    · have h0' : d2 ≠ 0 := by
        intro h
        apply hne
        unfold planePos
        rw [Prod.mk.injEq]
        exact ⟨by linarith, by linarith⟩
      have hx2 : x (i + 2) = 0 := by
        rw [h0] at hd
        have : d2 * x (i + 2) = 0 := by linarith
        exact (mul_eq_zero.1 this).resolve_left h0'
      refine ⟨- (x (i + 1) / d2), ?_, ?_, ?_⟩
      · intro hc
        refine hx0 ⟨?_, hx2⟩
        have := neg_eq_zero.1 hc
        exact (div_eq_zero_iff.1 this).resolve_right h0'
      · rw [neg_mul, neg_neg, div_mul_cancel₀ _ h0']
      · rw [h0, mul_zero, hx2]
    · refine ⟨x (i + 2) / d1, ?_, ?_, ?_⟩
      · intro hc
        have h2 := (div_eq_zero_iff.1 hc).resolve_right h0
        refine hx0 ⟨?_, h2⟩
        rw [h2] at hd
        have : d1 * x (i + 1) = 0 := by linarith
        exact (mul_eq_zero.1 this).resolve_left h0
      · have : x (i + 1) = - (d2 * x (i + 2)) / d1 := by
          rw [eq_div_iff h0]; linarith
        rw [this]; ring
      · rw [div_mul_cancel₀ _ h0]
  obtain ⟨l, l0, x1, x2⟩ := hlam
  have hmain : ∀ (e0 : DEdge) (m : ℚ), 0 < m → e0 = e ∨ e0 = e.rev → x (i + 1) = - (m * (V e0.2 (i + 2) - V e0.1 (i + 2))) →
      x (i + 2) = m * (V e0.2 (i + 1) - V e0.1 (i + 1)) →
      ∃ g e', e' ∈ edgesOf faces g ∧ (e' = e ∨ e' = e.rev) ∧ ∃ t : ℚ, 0 < t ∧ intoFace (V e'.2 - V e'.1) (nrm g) = t • x := by
    intro e0 m hm h0 y1 y2
    have hE0 : e0 ∈ (FaceCollapser.make edges).edgeList := by
      rcases h0 with rfl | rfl
      · exact hE
      · exact hsym _ _ hE
    have hc0 : InClosedCell c (V e0.1) ∧ InClosedCell c (V e0.2) ∧ V e0.1 i = k ∧ V e0.2 i = k := by
      rcases h0 with rfl | rfl
      · exact ⟨h1, h2, k1, k2⟩
      · exact ⟨h2, h1, k2, k1⟩
    have ht0 : ∀ j, j ≠ i → ∀ s, InWall c (V e0.1) (V e0.2) j s → 0 ≤ s * x j := by
      intro j _ s hw
      rcases h0 with rfl | rfl
      · exact ht j s hw
      · refine ht j s ?_
        rcases hw with ⟨a, b, d⟩ | ⟨a, b, d⟩
        · exact Or.inl ⟨a, d, b⟩
        · exact Or.inr ⟨a, d, b⟩
    obtain ⟨g, ⟨gin, gp, gs⟩, -⟩ := W.once e0 hE0 (leftOf_of_toward (W.graph.ne e0 hE0) hc0.1 hc0.2.1 x m hm y1 y2 ht0)
    have gok := hok g (face_of_seen gs)
    have g1 := gok.grid i k gp (i + 1) (axis1_ne i)
    have g2 := gok.grid i k gp (i + 2) (axis2_ne i)
    have di : V e0.2 i - V e0.1 i = 0 := by rw [hc0.2.2.1, hc0.2.2.2, sub_self]
    have m0 : m ≠ 0 := hm.ne'
    rcases mem_seen gs with ⟨hn, he'⟩ | ⟨hn, he'⟩
    · refine ⟨g, e0, he', h0, nrm g i / m, div_pos hn hm, ?_⟩
      funext j
      rw [Pi.smul_apply, smul_eq_mul]
      unfold intoFace
      rcases axes i j with rfl | rfl | rfl
      · rw [vcross_at, g1, g2, hxi]; ring
      · rw [vcross_at1, g2, y1]
        simp only [Pi.sub_apply]
        field_simp; ring
      · rw [vcross_at2, g1, y2]
        simp only [Pi.sub_apply]
        field_simp; ring
    · have hn' : nrm g i < 0 := lt_of_le_of_ne hn (gok.along gp)
      refine ⟨g, e0.rev, he', ?_, - nrm g i / m, div_pos (by linarith) hm, ?_⟩
      · rcases h0 with rfl | rfl
        · exact Or.inr rfl
        · exact Or.inl rfl
      funext j
      rw [Pi.smul_apply, smul_eq_mul]
      unfold intoFace
      rcases axes i j with rfl | rfl | rfl
      · rw [vcross_at, g1, g2, hxi]; ring
      · rw [vcross_at1, g2, y1]
        simp only [Pi.sub_apply, DEdge.rev]
        field_simp; ring
      · rw [vcross_at2, g1, y2]
        simp only [Pi.sub_apply, DEdge.rev]
        field_simp; ring
  rcases lt_or_gt_of_ne l0 with hl | hl
  · exact hmain e.rev (- l) (by linarith) (Or.inr rfl) (by rw [x1]; simp only [DEdge.rev]; ring) (by rw [x2]; simp only [DEdge.rev]; ring)
  · exact hmain e l hl (Or.inl rfl) x1 x2

theorem areaVec_seen {f : ℤ} (hok : FaceOk faces V nrm f) :
    |areaVec V (edgesOf faces f) i| = ((seen faces nrm i f).map fun e => cross2 (planePos V i e.1) (planePos V i e.2)).sum := by
  obtain ⟨t, ht, ha⟩ := hok.area
  have h1 : areaVec V (edgesOf faces f) i = t * nrm f i := by rw [ha]; rfl
  have h2 : areaVec V (edgesOf faces f) i = ((edgesOf faces f).map fun e => cross2 (planePos V i e.1) (planePos V i e.2)).sum := by
    rw [areaVec_apply]
    congr 1
    refine List.map_congr_left fun e _ => ?_
    rw [vcross_at]; rfl
  unfold seen
  split
  · rename_i hn
    rw [abs_of_pos (by rw [h1]; exact mul_pos ht hn), h2]
  · rename_i hn
    rw [abs_of_nonpos (by rw [h1]; nlinarith), h2, List.map_map, ← neg_one_mul, ← map_neg_sum]
    congr 1
    refine List.map_congr_left fun e _ => ?_
    simp only [Function.comp, DEdge.rev, cross2]; ring

/-- one wall: the faces in it have area one. -/
theorem WallMade.area (W : WallMade faces V nrm c i k edges ord) (hc : Clean faces) (hedges : ∀ f, (edgesOf faces f).Nodup)
    (hok : ∀ f ∈ faces.map Prod.fst, FaceOk faces V nrm f) : wallArea faces V c i k = 1 := by
  classical
  set S := (faces.map Prod.fst).filter fun f => decide (FaceIn faces V c f ∧ InPlane faces V f i k) with hS
  have hSm : ∀ f, f ∈ S ↔ f ∈ faces.map Prod.fst ∧ FaceIn faces V c f ∧ InPlane faces V f i k := by
    intro f
    rw [hS, List.mem_filter, decide_eq_true_eq]
  set D : DEdge → Bool := fun e => decide (LeftOf (planeCell c i) (planePos V i e.1) (planePos V i e.2)) with hD
  have hseen : ∀ f, (seen faces nrm i f).Nodup := by
    intro f
    unfold seen
    split
    · exact hedges f
    · exact (hedges f).map fun a b h => by
        have := congrArg DEdge.rev h
        simpa using this
  have hperm : (S.flatMap (seen faces nrm i)).Perm ((FaceCollapser.make edges).edgeList.filter D) := by
    refine (List.perm_ext_iff_of_nodup ?_ ((make_nodup edges).filter _)).2 fun e => ?_
    · rw [List.nodup_flatMap]
      refine ⟨fun f _ => hseen f, ?_⟩
      refine List.Pairwise.imp_of_mem ?_ (hc.nodup.filter _)
      intro f g hf hg hfg e he1 he2
      obtain ⟨f1, f2, f3⟩ := (hSm f).1 hf
      obtain ⟨g1, g2, g3⟩ := (hSm g).1 hg
      obtain ⟨a1, a2⟩ := W.left (hok f f1) f2 f3 e he1
      obtain ⟨u, -, hu⟩ := W.once e a1 a2
      exact hfg ((hu f ⟨f2, f3, he1⟩).trans (hu g ⟨g2, g3, he2⟩).symm)
    · rw [List.mem_flatMap, List.mem_filter, hD, decide_eq_true_eq]
      constructor
      · rintro ⟨f, hf, he⟩
        obtain ⟨f1, f2, f3⟩ := (hSm f).1 hf
        exact W.left (hok f f1) f2 f3 e he
      · rintro ⟨h1, h2⟩
        obtain ⟨f, ⟨f1, f2, f3⟩, -⟩ := W.once e h1 h2
        exact ⟨f, (hSm f).2 ⟨face_of_seen f3, f1, f2⟩, f3⟩
  have harea := C112_area W.graph W.inj (planeCell c i) W.framed W.touch D (fun e _ => by rw [hD, decide_eq_true_eq])
  rw [← (hperm.map _).sum_eq, List.map_flatMap] at harea
  have hfl : ∀ (l : List ℤ) (g : ℤ → List ℚ), (l.flatMap g).sum = (l.map fun a => (g a).sum).sum := by
    intro l g
    induction l with
    | nil => rfl
    | cons a l ih => simp [ih]
  rw [hfl] at harea
  unfold wallArea
  rw [← filter_ite_sum (faces.map Prod.fst) (fun f => FaceIn faces V c f ∧ InPlane faces V f i k)]
  have : (S.map fun f => |areaVec V (edgesOf faces f) i| / 2).sum = (1 / 2) * (S.map fun f => ((seen faces nrm i f).map fun e => cross2 (planePos V i e.1) (planePos V i e.2)).sum).sum := by
    rw [← map_neg_sum]
    congr 1
    refine List.map_congr_left fun f hf => ?_
    rw [areaVec_seen (hok f ((hSm f).1 hf).1)]; ring
  rw [show ((List.filter (fun f => decide (FaceIn faces V c f ∧ InPlane faces V f i k)) (faces.map Prod.fst)) = S) from rfl, this, harea]
  norm_num

/-- **C112.** If each wall of a grid cell is made of faces, the walls are covered: from every edge of a face in a wall, in
both directions in the wall that stay in the cell, there is a face. -/
theorem C112_walled (hok : ∀ f ∈ faces.map Prod.fst, FaceOk faces V nrm f) (h : WallsMade faces V nrm c) : Walled faces V nrm c := by
  intro f e he h1 h2 i s hw x hx hd hxi ht
  rcases hw with ⟨-, a, b⟩ | ⟨-, a, b⟩
  · obtain ⟨edges, ord, W⟩ := (h i).1
    exact W.next hok f e he h1 h2 a b x hx hd hxi ht
  · obtain ⟨edges, ord, W⟩ := (h i).2
    exact W.next hok f e he h1 h2 a b x hx hd hxi ht

/-- **C112.** … and the faces in each wall have area one together. -/
theorem C112_wall_area (hc : Clean faces) (hedges : ∀ f, (edgesOf faces f).Nodup) (hok : ∀ f ∈ faces.map Prod.fst, FaceOk faces V nrm f)
    (h : WallsMade faces V nrm c) (i : Fin 3) : wallArea faces V c i (c i) = 1 ∧ wallArea faces V c i (c i + 1) = 1 := by
  obtain ⟨⟨edges, ord, W⟩, edges', ord', W'⟩ := h i
  exact ⟨W.area hc hedges hok, W'.area hc hedges hok⟩

end
end CellCollapser
end Mandoline
