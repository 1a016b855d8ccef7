import Verif.Collapse.FaceWalk
import Verif.Collapse.Merge

/-! # Loops of the face collapser after one directed edge was marked for removal

`TriangleIntersections::vptr_faces` (include/mandoline/construction/facet_intersections_impl.hpp:483-487) marks one directed
edge of the outside before baking. -/

namespace Mandoline
open Function
namespace FaceCollapser

variable {edges : List DEdge} {ord : ℤ → List ℤ} {b : DEdge}

theorem setEdge_edgeList (s : FaceCollapser) (b : DEdge) : (s.setEdgeForRemoval b).edgeList = s.edgeList := by
  have : (s.setEdgeForRemoval b).etf = s.etf := mark_etf s.addMarker b
  unfold edgeList; rw [this]

theorem setEdge_ring (s : FaceCollapser) (b : DEdge) (a : ℤ) : (s.setEdgeForRemoval b).ring a = s.ring a := by
  unfold ring; rw [setEdge_edgeList]

theorem setEdge_deg (s : FaceCollapser) (b : DEdge) : (s.setEdgeForRemoval b).deg = s.deg := mark_deg s.addMarker b

theorem setEdge_face (s : FaceCollapser) (b e : DEdge) : (s.setEdgeForRemoval b).face e = s.face e := by
  have : (s.setEdgeForRemoval b).etf = s.etf := mark_etf s.addMarker b
  unfold face; rw [this]

/-- **C108.** After one directed edge `b` was marked: two directed edges have the same face id iff they are on the same loop,
and the id is `-1` iff the edge is on the loop of `b`. -/
theorem C108_marked_loops (hord : ∀ a, (ord a).Perm ((make edges).ring a)) (hb : b ∈ (make edges).edgeList)
    (R : DsuRoots (((make edges).setEdgeForRemoval b).unify ord).ds) (e e' : DEdge) (he : e ∈ (make edges).edgeList)
    (he' : e' ∈ (make edges).edgeList) :
    ((((make edges).setEdgeForRemoval b).bakeSimple ord R).face e = (((make edges).setEdgeForRemoval b).bakeSimple ord R).face e' ↔
      ∃ k, (((make edges).setEdgeForRemoval b).unify ord).next^[k] e = e') ∧
    ((((make edges).setEdgeForRemoval b).bakeSimple ord R).face e = -1 ↔
      ∃ k, (((make edges).setEdgeForRemoval b).unify ord).next^[k] b = e) ∧
    -1 ≤ (((make edges).setEdgeForRemoval b).bakeSimple ord R).face e := by
  obtain ⟨m1, m2, m3, m4, m5, m6, m7, m8⟩ := make_inv edges
  have h : ((make edges).setEdgeForRemoval b).Ok := ok_setEdgeForRemoval (ok_make edges) b
  have hd : ((make edges).setEdgeForRemoval b).deg = [] := by rw [setEdge_deg]; exact m1
  have hord' : ∀ a, (ord a).Perm (((make edges).setEdgeForRemoval b).ring a) := fun a => by rw [setEdge_ring]; exact hord a
  have hE : ((make edges).setEdgeForRemoval b).edgeList = (make edges).edgeList := setEdge_edgeList _ _
  have hF : ∀ x, ((make edges).setEdgeForRemoval b).face x = (make edges).face x := setEdge_face _ _
  have hfinj : ∀ x ∈ (make edges).edgeList, ∀ y ∈ (make edges).edgeList, (make edges).face x = (make edges).face y → x = y := by
    intro x hx y hy hxy
    obtain ⟨c, hc⟩ := (mem_edgeList_iff m5 x).1 hx
    obtain ⟨c', hc'⟩ := (mem_edgeList_iff m5 y).1 hy
    rw [join_conn_iff_of_find x c hc, join_conn_iff_of_find y c' hc'] at hxy
    have := m8 _ (OMap.mem_of_find strictTotal_edgeLt hc) _ (OMap.mem_of_find strictTotal_edgeLt hc') hxy
    exact congrArg Prod.fst this
  have hf0 : ∀ x ∈ (make edges).edgeList, 0 ≤ (make edges).face x := by
    intro x hx
    obtain ⟨c, hc⟩ := (mem_edgeList_iff m5 x).1 hx
    rw [join_conn_iff_of_find x c hc]
    exact (m7 _ (OMap.mem_of_find strictTotal_edgeLt hc)).1
  have hj : ((make edges).setEdgeForRemoval b).ds.joins = [((make edges).face b, -1)] := by
    obtain ⟨c, hc⟩ := (mem_edgeList_iff m5 b).1 hb
    unfold setEdgeForRemoval
    rw [mark_joins]
    have e1 : (make edges).addMarker.etf = (make edges).etf := rfl
    have e2 : (make edges).addMarker.ds.joins = [] := by
      show ((make edges).ds.addNode (-1)).joins = []
      rw [Dsu.joins_addNode]; exact m2
    rw [e1, e2, hc, join_conn_iff_of_find b c hc]
    rfl
  rw [← hE] at he he' hb hfinj hf0
  simp only [← hF] at hfinj hf0 hj
  generalize (make edges).setEdgeForRemoval b = s at *
  obtain ⟨q1, q2, q3⟩ := permMap_unify h hd ord hord'
  obtain ⟨h1, h2, h3, h4, h5⟩ := unify_spec h hd ord hord'
  have hel : (s.unify ord).edgeList = s.edgeList := by unfold edgeList; rw [h1]
  have hf : ∀ x, (s.unify ord).face x = s.face x := by intro x; unfold face; rw [h1]
  unfold bakeSimple
  have hok := ok_unify h hd ord hord'
  -- representatives
  have rep : ∀ c x y, (x ∈ s.edgeList ∧ (s.face x = c ∨ (c = -1 ∧ x = b))) → (y ∈ s.edgeList ∧ (s.face y = c ∨ (c = -1 ∧ y = b))) →
      x = y := by
    rintro c x y ⟨hx, h1 | ⟨h1, h2⟩⟩ ⟨hy, h3 | ⟨h3, h4⟩⟩
    · exact hfinj x hx y hy (h1.trans h3.symm)
    · have := hf0 x hx; omega
    · have := hf0 y hy; omega
    · rw [h2, h4]
  have key : ∀ c c', (s.unify ord).ds.Conn c c' → c = c' ∨ ∃ x y,
      (x ∈ s.edgeList ∧ (s.face x = c ∨ (c = -1 ∧ x = b))) ∧ (y ∈ s.edgeList ∧ (s.face y = c' ∨ (c' = -1 ∧ y = b))) ∧
      y ∈ orb (s.unify ord).deg x := by
    intro c c' hc
    induction hc with
    | rel x y hab =>
      rw [h3, hj] at hab
      rcases List.mem_append.1 hab with hab | hab
      · have := List.mem_singleton.1 hab
        obtain ⟨rfl, rfl⟩ := Prod.mk.inj this
        exact .inr ⟨b, b, ⟨hb, .inl rfl⟩, ⟨hb, .inr ⟨rfl, rfl⟩⟩, (mem_orb q1 ((q2 b).2 hb) b).2 ⟨0, rfl⟩⟩
      · obtain ⟨p, hp, hpe⟩ := List.mem_map.1 hab
        have hp' := (h5 p).2 hp
        have hk : p.1 ∈ (s.unify ord).deg.map Prod.fst := List.mem_map.2 ⟨p, hp', rfl⟩
        have hnx : degNext (s.unify ord).deg p.1 = p.2 := by
          unfold degNext
          rw [OMap.find_of_mem strictTotal_edgeLt h4 (k := p.1) (v := p.2) hp']; rfl
        refine .inr ⟨p.1, p.2, ⟨(q2 _).1 hk, .inl (Prod.mk.inj hpe).1⟩, ⟨?_, .inl (Prod.mk.inj hpe).2⟩, ?_⟩
        · rw [← hnx]; exact (q2 _).1 (degNext_key q1 hk)
        · rw [mem_orb q1 hk]; exact ⟨1, hnx⟩
    | refl a => exact .inl rfl
    | symm x y _ ih =>
      rcases ih with rfl | ⟨x, y, hx, hy, h3⟩
      · exact .inl rfl
      · exact .inr ⟨y, x, hy, hx, orb_symm q1 ((q2 _).2 hx.1) h3⟩
    | trans x y z _ _ i1 i2 =>
      rcases i1 with rfl | ⟨x, y, hx, hy, h3⟩
      · exact i2
      · rcases i2 with rfl | ⟨x', y', hx', hy', h3'⟩
        · exact .inr ⟨x, y, hx, hy, h3⟩
        · have := rep _ _ _ hy hx'
          subst this
          exact .inr ⟨x, y', hx, hy', orb_trans q1 ((q2 _).2 hx.1) h3 h3'⟩
  have along : ∀ x, x ∈ s.edgeList → ∀ k, (s.unify ord).ds.Conn (s.face x) (s.face ((s.unify ord).next^[k] x)) := by
    intro x hx k
    induction k with
    | zero => exact .refl _
    | succ k ih =>
      rw [iterate_succ_apply']
      refine Dsu.conn_trans ih (.rel _ _ ?_)
      rw [h3]
      have hk : ((s.unify ord).next)^[k] x ∈ (s.unify ord).deg.map Prod.fst := degIter_key q1 ((q2 _).2 hx) k
      exact List.mem_append_right _ (List.mem_map.2 ⟨_, (h5 _).1 (degNext_mem q1 hk), rfl⟩)
  refine ⟨?_, ?_, ?_⟩
  · rw [C36_same_face_iff_joined _ hok R _ _ (by rw [hel]; exact he) (by rw [hel]; exact he'), hf, hf]
    constructor
    · intro hc
      rcases key _ _ hc with heq | ⟨x, y, hx, hy, horb⟩
      · exact ⟨0, hfinj e he e' he' heq⟩
      · have := rep _ _ _ hx ⟨he, .inl rfl⟩
        subst this
        have := rep _ _ _ hy ⟨he', .inl rfl⟩
        subst this
        exact (mem_orb q1 ((q2 _).2 he) _).1 horb
    · rintro ⟨k, rfl⟩
      exact along e he k
  · rw [(C36_removed _ hok R e (by rw [hel]; exact he)).1, hf]
    constructor
    · intro hc
      rcases key _ _ hc with heq | ⟨x, y, hx, hy, horb⟩
      · have := hf0 e he; omega
      · have := rep _ _ _ hx ⟨he, .inl rfl⟩
        subst this
        have := rep _ _ _ hy ⟨hb, .inr ⟨rfl, rfl⟩⟩
        subst this
        exact (mem_orb q1 ((q2 _).2 hb) _).1 (orb_symm q1 ((q2 _).2 he) horb)
    · rintro ⟨k, rfl⟩
      refine Dsu.conn_trans (Dsu.conn_symm (along b hb k)) (.rel _ _ ?_)
      rw [h3, hj]
      exact List.mem_append_left _ (List.mem_singleton.2 rfl)
  · by_cases hc : (s.unify ord).ds.Conn ((s.unify ord).face e) (-1)
    · rw [((C36_removed _ hok R e (by rw [hel]; exact he)).1).2 hc]
    · have := (C36_removed _ hok R e (by rw [hel]; exact he)).2 hc
      omega

end FaceCollapser
end Mandoline
