import Verif.Fill.PlaneWalls
import Verif.Fill.UtilizeDemo

/-! # C112: the hypotheses hold for the unit cell cut in two -/
namespace Mandoline
namespace CellCollapser
open Planar

instance (c : Coord 2) (p : Dir) : Decidable (InCell c p) := by unfold InCell; infer_instance
instance (c : Coord 2) (p : Dir) : Decidable (InOpenCell c p) := by unfold InOpenCell; infer_instance
instance (c : Coord 2) (p q : Dir) : Decidable (Clockwise c p q) := by unfold Clockwise; infer_instance
instance (a b : Dir) : Decidable (SameDir a b) := by unfold SameDir; infer_instance

/-- the edges of the faces that lie in the plane `x_i = k`. -/
def halfEdgesIn (i : Fin 3) (k : ℚ) : List DEdge :=
  (((halfFaces.flatMap fun p => p.2.flatMap polyEdges).filter fun e => decide (halfV e.1 i = k ∧ halfV e.2 i = k)).map
    fun e => (min e.1 e.2, max e.1 e.2)).dedup

/-- neighbours by angle. -/
def halfRing (i : Fin 3) (k : ℚ) (a : ℤ) : List ℤ :=
  ((FaceCollapser.make (halfEdgesIn i k)).ring a).insertionSort fun b c => angleLt (dirTo (planePos halfV i) a c) (dirTo (planePos halfV i) a b) = false

/-- the conditions of `WallMade`, vertex by vertex and edge by edge. -/
def wallCheck (i : Fin 3) (k : ℚ) : Bool :=
  let E := (FaceCollapser.make (halfEdgesIn i k)).edgeList
  (FaceCollapser.make (halfEdgesIn i k)).ringKeys.all (fun a => decide ((halfRing i k a).Pairwise fun b c =>
    angleLt (dirTo (planePos halfV i) a c) (dirTo (planePos halfV i) a b) = false)) &&
  E.all (fun e => decide (planePos halfV i e.1 ≠ planePos halfV i e.2 ∧ InCell 0 (planePos halfV i e.1) ∧ InCell 0 (planePos halfV i e.2))) &&
  E.all (fun e => E.all fun e' => decide ((e.1 = e'.1 → e.2 ≠ e'.2 → ¬ SameDir (dirTo (planePos halfV i) e.1 e.2) (dirTo (planePos halfV i) e'.1 e'.2)) ∧
    (planePos halfV i e.1 = planePos halfV i e'.1 → e.1 = e'.1))) &&
  framedCheck (planePos halfV i) E (planeCell 0 i) &&
  E.any (fun e => decide (InCell (planeCell 0 i) (planePos halfV i e.1) ∧ ¬ InOpenCell (planeCell 0 i) (planePos halfV i e.1))) &&
  halfFaces.all (fun p => (p.2.flatMap polyEdges).all fun e => decide (halfV e.1 i = k → halfV e.2 i = k → e ∈ E)) &&
  E.all (fun e => decide (Clockwise (planeCell 0 i) (planePos halfV i e.1) (planePos halfV i e.2)) ||
    decide ((halfFaces.filter fun p => decide ((∀ v ∈ p.2.flatten, InClosedCell (0 : Coord 3) (halfV v)) ∧ (∀ v ∈ p.2.flatten, halfV v i = k) ∧
      e ∈ seen halfFaces halfN i p.1)).length = 1))

theorem wallMade_of_check (i : Fin 3) (k : ℚ) (h : wallCheck i k = true) :
    WallMade halfFaces halfV halfN 0 i k (halfEdgesIn i k) (halfRing i k) := by
  unfold wallCheck at h
  simp only [Bool.and_eq_true, List.all_eq_true, List.any_eq_true, decide_eq_true_eq, Bool.or_eq_true] at h
  obtain ⟨⟨⟨⟨⟨⟨h1, h2⟩, h3⟩, h4⟩, h5⟩, h6⟩, h7⟩ := h
  have hperm : ∀ a, (halfRing i k a).Perm ((FaceCollapser.make (halfEdgesIn i k)).ring a) := fun a => List.perm_insertionSort _ _
  refine ⟨⟨hperm, ?_, fun e he => (h2 e he).1, ?_, fun e he => ⟨0, (h2 e he).2⟩⟩, ?_, framed_of_check h4, ?_, ?_, ?_⟩
  · intro a
    by_cases ha : a ∈ (FaceCollapser.make (halfEdgesIn i k)).ringKeys
    · exact h1 a ha
    · have h0 : (halfRing i k a) = [] := by
        have : (FaceCollapser.make (halfEdgesIn i k)).ring a = [] := by
          unfold FaceCollapser.ring
          rw [List.map_eq_nil_iff, List.filter_eq_nil_iff]
          intro e he hea
          exact ha (List.mem_dedup.2 (List.mem_map.2 ⟨e, he, of_decide_eq_true hea⟩))
        have hp := hperm a
        rw [this] at hp
        exact hp.eq_nil
      rw [h0]
      exact List.Pairwise.nil
  · intro a b c hb hc hne
    exact (h3 _ hb _ hc).1 rfl hne
  · rintro a b ⟨a', ha⟩ ⟨b', hb⟩ hab
    exact (h3 _ ha _ hb).2 hab
  · obtain ⟨e, he, a1, a2⟩ := h5
    exact ⟨e.1, ⟨e.2, he⟩, a1, a2⟩
  · intro f e he k1 k2 _ _
    obtain ⟨loops, a1, a2⟩ := mem_edgesOf.1 he
    exact h6 _ a1 e a2 k1 k2
  · intro e he hL
    rw [leftOf_iff _ _ _ (h2 e he).1] at hL
    have hlen := (h7 e he).resolve_left hL.2.2
    have hiff : ∀ p ∈ halfFaces, (FaceIn halfFaces halfV 0 p.1 ∧ InPlane halfFaces halfV p.1 i k ∧ e ∈ seen halfFaces halfN i p.1 ↔
        (∀ v ∈ p.2.flatten, InClosedCell (0 : Coord 3) (halfV v)) ∧ (∀ v ∈ p.2.flatten, halfV v i = k) ∧ e ∈ seen halfFaces halfN i p.1) := by
      intro p hp
      unfold FaceIn InPlane
      simp only [isVertex_iff half_clean (f := p.1) (loops := p.2) hp]
    obtain ⟨p, hp⟩ := List.length_eq_one_iff.1 hlen
    have hpm : p ∈ halfFaces ∧ _ := List.mem_filter.1 (hp ▸ List.mem_singleton.2 rfl)
    refine ⟨p.1, (hiff p hpm.1).2 (of_decide_eq_true hpm.2), ?_⟩
    rintro f ⟨f1, f2, f3⟩
    obtain ⟨⟨f', l⟩, hq, rfl⟩ := List.mem_map.1 (face_of_seen f3)
    have : (f', l) ∈ halfFaces.filter fun p => decide ((∀ v ∈ p.2.flatten, InClosedCell (0 : Coord 3) (halfV v)) ∧
        (∀ v ∈ p.2.flatten, halfV v i = k) ∧ e ∈ seen halfFaces halfN i p.1) :=
      List.mem_filter.2 ⟨hq, decide_eq_true ((hiff _ hq).1 ⟨f1, f2, f3⟩)⟩
    rw [hp, List.mem_singleton] at this
    rw [← this]

/-- all six walls of the unit cell are made of faces; four of them of two faces each. -/
theorem half_walls : WallsMade halfFaces halfV halfN 0 := by
  have : ∀ i : Fin 3, wallCheck i ((0 : Coord 3) i) = true ∧ wallCheck i ((0 : Coord 3) i + 1) = true := by decide +kernel
  intro i
  exact ⟨⟨_, _, wallMade_of_check i _ (this i).1⟩, _, _, wallMade_of_check i _ (this i).2⟩

example : Walled halfFaces halfV halfN 0 := C112_walled half_ok half_walls

end CellCollapser

namespace Gen3
open CellCollapser Planar

/-- the plane `y = 0`: the outer loop (dropped), and the two loops inside the wall. -/
def halfHem : List HemCell := [⟨0, [[0, 8, 1, 5, 10, 4]], -1⟩, ⟨2, [[0, 4, 10, 8]], 1 / 2⟩, ⟨3, [[8, 10, 5, 1]], 1 / 2⟩]

/-- nothing is known about the plane but that both loops touch an active square. -/
def halfPlane : PlaneData := ⟨[], fun _ => false, []⟩

theorem half_hem : HemOf (halfEdgesIn 1 0) (planePos halfV 1) (planeCell 0 1) halfHem := by
  refine ⟨by decide, ?_, ?_⟩
  · rw [List.perm_ext_iff_of_nodup (by decide +kernel) (make_nodup _)]
    intro e
    have h1 : ∀ e ∈ halfHem.flatMap HemCell.halfEdges, e ∈ (FaceCollapser.make (halfEdgesIn 1 0)).edgeList := by decide +kernel
    have h2 : ∀ e ∈ (FaceCollapser.make (halfEdgesIn 1 0)).edgeList, e ∈ halfHem.flatMap HemCell.halfEdges := by decide +kernel
    exact ⟨h1 e, h2 e⟩
  · have hne : ∀ h ∈ halfHem, ∀ e ∈ h.halfEdges, planePos halfV 1 e.1 ≠ planePos halfV 1 e.2 := by decide +kernel
    have : ∀ h ∈ halfHem, ∀ e ∈ h.halfEdges, ¬ Clockwise (planeCell 0 1) (planePos halfV 1 e.1) (planePos halfV 1 e.2) → ∀ e' ∈ h.halfEdges,
        InCell (planeCell 0 1) (planePos halfV 1 e'.1) ∧ InCell (planeCell 0 1) (planePos halfV 1 e'.2) ∧
          ¬ Clockwise (planeCell 0 1) (planePos halfV 1 e'.1) (planePos halfV 1 e'.2) := by decide +kernel
    intro h hh e he hL e' he'
    rw [leftOf_iff _ _ _ (hne h hh e he)] at hL
    rw [leftOf_iff _ _ _ (hne h hh e' he')]
    exact this h hh e he hL.2.2 e' he'

/-- the two faces are those that the model of `compute_faces_axis` makes in the plane. -/
theorem half_fromPlane : FromPlane halfFaces halfV (fun _ => unitVec 1) 0 1 ((0 : ℤ) : ℚ)
    (planeFaces halfPlane (fun v => Vertex.fromVertex (halfV v)) (fun _ => []) 1 0 halfHem) where
  into := by
    have : ∀ p ∈ planeFaces halfPlane (fun v => Vertex.fromVertex (halfV v)) (fun _ => []) 1 0 halfHem,
        (p.1, p.2.indices.map fun l => l.map Int.ofNat) ∈ halfFaces ∧ ∀ j, unitVec 1 j = p.2.N j := by decide +kernel
    intro p hp
    exact ⟨(this p hp).1, funext (this p hp).2⟩
  only := by
    intro f hf _ hp
    obtain ⟨⟨f, l⟩, hfl, rfl⟩ := List.mem_map.1 hf
    have : ∀ p ∈ halfFaces, (∀ v ∈ p.2.flatten, halfV v 1 = ((0 : ℤ) : ℚ)) →
        p.1 ∈ (planeFaces halfPlane (fun v => Vertex.fromVertex (halfV v)) (fun _ => []) 1 0 halfHem).map Prod.fst := by decide +kernel
    refine this _ hfl fun v hv => hp v ?_
    rw [isVertex_iff half_clean hfl]; exact hv

/-- the hypotheses of C112_plane_faces hold. -/
example (e : DEdge) (he : e ∈ (FaceCollapser.make (halfEdgesIn 1 0)).edgeList)
    (hL : LeftOf (planeCell 0 1) (planePos halfV 1 e.1) (planePos halfV 1 e.2)) :
    ∃! f, FaceIn halfFaces halfV 0 f ∧ CellCollapser.InPlane halfFaces halfV f 1 ((0 : ℤ) : ℚ) ∧ e ∈ seen halfFaces (fun _ => unitVec 1) 1 f := by
  refine C112_plane_faces halfFaces half_clean halfV _ 0 1 0 (Or.inl rfl) (halfEdgesIn 1 0) ?_ halfHem half_hem halfPlane _ _ half_fromPlane ?_ e he hL
  · have : ∀ e ∈ (FaceCollapser.make (halfEdgesIn 1 0)).edgeList, halfV e.1 1 = ((0 : ℤ) : ℚ) := by decide +kernel
    rintro v ⟨w, hw⟩
    exact this _ hw
  · intro h hh hall
    have : ∀ h ∈ halfHem, (∀ e ∈ h.halfEdges, ¬ Clockwise (planeCell 0 1) (planePos halfV 1 e.1) (planePos halfV 1 e.2)) →
        ∀ l ∈ h.loops, keepLoop halfPlane 1 [] h.area l = true := by decide +kernel
    have hne : ∀ h ∈ halfHem, ∀ e ∈ h.halfEdges, planePos halfV 1 e.1 ≠ planePos halfV 1 e.2 := by decide +kernel
    exact this h hh fun e he => ((leftOf_iff _ _ _ (hne h hh e he)).1 (hall e he)).2.2

/-- the half-edge (10, 8) has the wall on its left. -/
example : (10, 8) ∈ (FaceCollapser.make (halfEdgesIn 1 0)).edgeList ∧ LeftOf (planeCell 0 1) (planePos halfV 1 10) (planePos halfV 1 8) :=
  ⟨by decide +kernel, (leftOf_iff _ _ _ (by decide +kernel)).2 (by decide +kernel)⟩

end Gen3
end Mandoline
