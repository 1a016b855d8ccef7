import Verif.Face2.Planar

/-! # C76: loops of the planar cut graph stay inside one grid cell (continued) -/

namespace Mandoline
namespace Planar

/-- the boundary of `c` is part of the graph: from each vertex of the graph on a side of `c` an edge of the graph leads on
along the boundary of `c`, counter-clockwise. (For an active cell: its four grid edges are subdivided at every vertex
lying on them, C19.) -/
def Framed (V : ℤ → Dir) (E : List DEdge) (c : Coord 2) : Prop :=
  ∀ a b, (a, b) ∈ E → InCell c (V a) →
    ((V a).2 = c 1 → (V a).1 < c 0 + 1 → ∃ w, (a, w) ∈ E ∧ (V w).2 = c 1 ∧ (V a).1 < (V w).1) ∧
    ((V a).1 = c 0 + 1 → (V a).2 < c 1 + 1 → ∃ w, (a, w) ∈ E ∧ (V w).1 = c 0 + 1 ∧ (V a).2 < (V w).2) ∧
    ((V a).2 = c 1 + 1 → (c 0 : ℚ) < (V a).1 → ∃ w, (a, w) ∈ E ∧ (V w).2 = c 1 + 1 ∧ (V w).1 < (V a).1) ∧
    ((V a).1 = c 0 → (c 1 : ℚ) < (V a).2 → ∃ w, (a, w) ∈ E ∧ (V w).1 = c 0 ∧ (V w).2 < (V a).2)

/-- one step: `(u, a)` has `c` on its left, `(a, b)` is an edge, and no edge at `a` is inside the turn. -/
theorem step (V : ℤ → Dir) (E : List DEdge) (c : Coord 2) (hne : ∀ e ∈ E, V e.1 ≠ V e.2)
    (hcell : ∀ e ∈ E, ∃ c', InCell c' (V e.1) ∧ InCell c' (V e.2)) (hf : Framed V E c) (u a b : ℤ) (hu : (u, a) ∈ E)
    (hb : (a, b) ∈ E) (hL : LeftOf c (V u) (V a))
    (hs : ∀ w, (a, w) ∈ E → ¬ InSector (dir (V a) (V b)) (dir (V a) (V w)) (dir (V a) (V u))) :
    LeftOf c (V a) (V b) := by
  have hn1 : V u ≠ V a := hne _ hu
  have hn2 : V a ≠ V b := hne _ hb
  have hL' := (leftOf_iff c _ _ hn1).1 hL
  refine (leftOf_iff c _ _ hn2).2 ?_
  obtain ⟨f1, f2, f3, f4⟩ := hf a b hb hL'.2.1
  have hyp : ∀ w, (a, w) ∈ E → StepHyp c (V u) (V a) (V b) (V w) := fun w hw => ⟨hn1, hn2, hL', hcell _ hb, hs w hw⟩
  obtain ⟨⟨a1, a2⟩, a3, a4⟩ := hL'.2.1
  by_cases hin : InOpenCell c (V a)
  · obtain ⟨⟨o1, o2⟩, o3, o4⟩ := hin
    obtain ⟨c', ⟨⟨b1, b2⟩, b3, b4⟩, k2⟩ := hcell _ hb
    have h0 : c' = c := by
      have g1 : (c' 0 : ℚ) < c 0 + 1 := by linarith
      have g2 : (c 0 : ℚ) < c' 0 + 1 := by linarith
      have g3 : (c' 1 : ℚ) < c 1 + 1 := by linarith
      have g4 : (c 1 : ℚ) < c' 1 + 1 := by linarith
      norm_cast at g1 g2 g3 g4
      funext i
      match i with
      | 0 => omega
      | 1 => omega
    subst h0
    refine ⟨hL'.2.1, k2, ?_⟩
    rintro (⟨e1, e2, e3⟩ | ⟨e1, e2, e3⟩ | ⟨e1, e2, e3⟩ | ⟨e1, e2, e3⟩) <;> linarith
  · have hcases : ((V a).2 = c 1 ∧ (V a).1 < c 0 + 1) ∨ ((V a).1 = c 0 + 1 ∧ (V a).2 < c 1 + 1) ∨
        ((V a).2 = c 1 + 1 ∧ (c 0 : ℚ) < (V a).1) ∨ ((V a).1 = c 0 ∧ (c 1 : ℚ) < (V a).2) := by
      by_contra hn
      push Not at hn
      obtain ⟨n1, n2, n3, n4⟩ := hn
      refine hin ⟨⟨lt_of_le_of_ne a1 ?_, lt_of_le_of_ne a2 ?_⟩, lt_of_le_of_ne a3 ?_, lt_of_le_of_ne a4 ?_⟩
      · intro h
        have := n4 h.symm
        have h2 : (V a).2 = c 1 := le_antisymm this a3
        have := n1 h2
        linarith
      · intro h
        have := n2 h
        have h2 : (V a).2 = c 1 + 1 := le_antisymm a4 this
        have := n3 h2
        linarith
      · intro h
        have := n1 h.symm
        have h2 : (V a).1 = c 0 + 1 := le_antisymm a2 this
        have := n2 h2
        linarith
      · intro h
        have := n3 h
        have h2 : (V a).1 = c 0 := le_antisymm this a1
        have := n4 h2
        linarith
    rcases hcases with ⟨h1, h2⟩ | ⟨h1, h2⟩ | ⟨h1, h2⟩ | ⟨h1, h2⟩
    · obtain ⟨w, hw, w1, w2⟩ := f1 h1 h2
      have H := hyp w hw
      exact step_bottom H.hua H.hab H.hu H.hb h1 h2 w1 w2 H.hs
    · obtain ⟨w, hw, w1, w2⟩ := f2 h1 h2
      exact step_right (hyp w hw) h1 h2 w1 w2
    · obtain ⟨w, hw, w1, w2⟩ := f3 h1 h2
      exact step_top (hyp w hw) h1 h2 w1 w2
    · obtain ⟨w, hw, w1, w2⟩ := f4 h1 h2
      exact step_left (hyp w hw) h1 h2 w1 w2

/-- what the planar graph of the cut edges satisfies: `ord a` are the neighbours of `a` sorted by angle, edges have
distinct ends and distinct directions at each vertex, and each edge is inside one closed grid cell (C16, C19). -/
structure PlanarGraph (edges : List DEdge) (V : ℤ → Dir) (ord : ℤ → List ℤ) : Prop where
  perm : ∀ a, (ord a).Perm ((FaceCollapser.make edges).ring a)
  sort : ∀ a, (ord a).Pairwise fun b c => angleLt (dirTo V a c) (dirTo V a b) = false
  ne : ∀ e ∈ (FaceCollapser.make edges).edgeList, V e.1 ≠ V e.2
  dist : ∀ a b c, (a, b) ∈ (FaceCollapser.make edges).edgeList → (a, c) ∈ (FaceCollapser.make edges).edgeList → b ≠ c →
    ¬ SameDir (dirTo V a b) (dirTo V a c)
  cell : ∀ e ∈ (FaceCollapser.make edges).edgeList, ∃ c, InCell c (V e.1) ∧ InCell c (V e.2)

open FaceCollapser

variable {edges : List DEdge} {V : ℤ → Dir} {ord : ℤ → List ℤ}

theorem loop_in_cell (G : PlanarGraph edges V ord) (c : Coord 2) (hf : Framed V (make edges).edgeList c) (e : DEdge)
    (he : e ∈ (make edges).edgeList) (hL : LeftOf c (V e.1) (V e.2)) (k : ℕ) :
    ((make edges).unify ord).next^[k] e ∈ (make edges).edgeList ∧
    LeftOf c (V (((make edges).unify ord).next^[k] e).1) (V (((make edges).unify ord).next^[k] e).2) := by
  have h := ok_make edges
  have hdeg := (make_inv edges).1
  have hb := (C35_next_bijective _ h hdeg ord G.perm).1
  induction k with
  | zero => exact ⟨he, hL⟩
  | succ k ih =>
    rw [Function.iterate_succ_apply']
    generalize ((make edges).unify ord).next^[k] e = e' at ih ⊢
    obtain ⟨he', hL'⟩ := ih
    obtain ⟨h1, h2⟩ := hb e' he'
    refine ⟨h1, ?_⟩
    obtain ⟨u, a⟩ := e'
    have hnz : ∀ a b, (a, b) ∈ (make edges).edgeList → dirTo V a b ≠ 0 := by
      intro a b hab h0
      refine G.ne _ hab ?_
      unfold dirTo at h0
      have := Prod.ext_iff.1 h0
      exact Prod.ext (by have := this.1; simp at this; linarith) (by have := this.2; simp at this; linarith)
    have hs := fun w hw => (C67_loop_turns_left _ h hdeg V ord G.perm G.sort hnz G.dist u a he' w hw).2
    rcases hnx : ((make edges).unify ord).next (u, a) with ⟨a', b⟩
    rw [hnx] at h1 h2 hs
    dsimp only at h2 hs ⊢
    subst h2
    exact step V _ c G.ne G.cell hf u a' b he' h1 hL' hs

/-- **C76.** Half-edges with the same face id have the same cell on their left. -/
theorem C76_face_in_one_cell (G : PlanarGraph edges V ord) (R : DsuRoots ((make edges).unify ord).ds) (c : Coord 2)
    (hf : Framed V (make edges).edgeList c) (e e' : DEdge) (he : e ∈ (make edges).edgeList)
    (he' : e' ∈ (make edges).edgeList) (hL : LeftOf c (V e.1) (V e.2))
    (hface : ((make edges).bakeSimple ord R).face e = ((make edges).bakeSimple ord R).face e') :
    LeftOf c (V e'.1) (V e'.2) := by
  obtain ⟨k, rfl⟩ := (C35_face_iff_same_loop edges ord G.perm R e e' he he').1 hface
  exact (loop_in_cell G c hf e he hL k).2

/-- **C76.** `faces()` reports loops; a loop one of whose edges has a framed cell `c` on its left lies entirely in the
closed cell `c`, and all its edges have `c` on their left. -/
theorem C76_loop_in_one_cell (G : PlanarGraph edges V ord) (R : DsuRoots ((make edges).unify ord).ds) (c : Coord 2)
    (hf : Framed V (make edges).edgeList c) :
    ∃ out, ((make edges).bakeSimple ord R).faces = some out ∧ ∀ p ∈ out,
      (∃ e ∈ loopEdges p.2, LeftOf c (V e.1) (V e.2)) →
      (∀ e ∈ loopEdges p.2, LeftOf c (V e.1) (V e.2)) ∧ ∀ v ∈ p.2, InCell c (V v) := by
  obtain ⟨out, h1, h2, h3⟩ := C35_loops_partition_edges _ (ok_make edges) (make_inv edges).1 ord G.perm R
  refine ⟨out, h1, ?_⟩
  rintro p hp ⟨e, he, hL⟩
  have hmem : ∀ e ∈ loopEdges p.2, e ∈ (make edges).edgeList := fun e he =>
    (List.mem_filter.1 ((h2.mem_iff).1 (List.mem_flatMap.2 ⟨p, hp, he⟩))).1
  obtain ⟨_, _, h5⟩ := h3 p hp
  have hall : ∀ e' ∈ loopEdges p.2, LeftOf c (V e'.1) (V e'.2) := fun e' he' =>
    C76_face_in_one_cell G R c hf e e' (hmem e he) (hmem e' he') hL (by rw [h5 e he, h5 e' he'])
  refine ⟨hall, fun v hv => ?_⟩
  have : v ∈ (loopEdges p.2).map Prod.fst := by
    unfold loopEdges
    rw [List.map_fst_zip (by simp)]
    exact hv
  obtain ⟨e', he', rfl⟩ := List.mem_map.1 this
  exact (hall e' he').1

/-! ## A concrete case: the unit cell cut by one edge -/

/-- positions: the corners of the unit cell, and the vertices 4 and 5 in the middle of its lower and its upper side. -/
def demoV (v : ℤ) : Dir :=
  if v = 1 then (1, 0) else if v = 2 then (1, 1) else if v = 3 then (0, 1) else if v = 4 then (1 / 2, 0)
  else if v = 5 then (1 / 2, 1) else (0, 0)

/-- the six pieces of the boundary of the cell and the cut edge. -/
def demoEdges : List DEdge := [(0, 4), (4, 1), (1, 2), (2, 5), (5, 3), (3, 0), (4, 5)]

/-- neighbours by angle. -/
def demoOrd (a : ℤ) : List ℤ :=
  ((make demoEdges).ring a).insertionSort fun b c => angleLt (dirTo demoV a c) (dirTo demoV a b) = false

theorem demoOrd_perm (a : ℤ) : (demoOrd a).Perm ((make demoEdges).ring a) := List.perm_insertionSort _ _

theorem demo_planar : PlanarGraph demoEdges demoV demoOrd where
  perm := demoOrd_perm
  sort := by
    intro a
    by_cases h : a ∈ (make demoEdges).ringKeys
    · have : ∀ a ∈ (make demoEdges).ringKeys, (demoOrd a).Pairwise fun b c =>
        angleLt (dirTo demoV a c) (dirTo demoV a b) = false := by decide +kernel
      exact this a h
    · have h0 : (demoOrd a) = [] := by
        have : (make demoEdges).ring a = [] := by
          unfold FaceCollapser.ring
          rw [List.map_eq_nil_iff, List.filter_eq_nil_iff]
          intro e he hea
          exact h (List.mem_dedup.2 (List.mem_map.2 ⟨e, he, of_decide_eq_true hea⟩))
        have hp := demoOrd_perm a
        rw [this] at hp
        exact hp.eq_nil
      rw [h0]
      exact List.Pairwise.nil
  ne := by decide +kernel
  dist := by
    have : ∀ e ∈ (make demoEdges).edgeList, ∀ e' ∈ (make demoEdges).edgeList, e.1 = e'.1 → e.2 ≠ e'.2 →
        ¬ SameDir (dirTo demoV e.1 e.2) (dirTo demoV e'.1 e'.2) := by unfold SameDir; decide +kernel
    intro a b c hb hc hne
    exact this _ hb _ hc rfl hne
  cell := by
    have : ∀ e ∈ (make demoEdges).edgeList, InCell (fun _ => 0) (demoV e.1) ∧ InCell (fun _ => 0) (demoV e.2) := by
      unfold InCell; decide +kernel
    exact fun e he => ⟨_, this e he⟩

/-- a decidable form of `Framed` on all edges. -/
def framedCheck (V : ℤ → Dir) (E : List DEdge) (c : Coord 2) : Bool :=
  E.all fun e =>
    (!(decide ((V e.1).2 = c 1) && decide ((V e.1).1 < c 0 + 1)) ||
      E.any fun g => decide (g.1 = e.1 ∧ (V g.2).2 = c 1 ∧ (V e.1).1 < (V g.2).1)) &&
    (!(decide ((V e.1).1 = c 0 + 1) && decide ((V e.1).2 < c 1 + 1)) ||
      E.any fun g => decide (g.1 = e.1 ∧ (V g.2).1 = c 0 + 1 ∧ (V e.1).2 < (V g.2).2)) &&
    (!(decide ((V e.1).2 = c 1 + 1) && decide ((c 0 : ℚ) < (V e.1).1)) ||
      E.any fun g => decide (g.1 = e.1 ∧ (V g.2).2 = c 1 + 1 ∧ (V g.2).1 < (V e.1).1)) &&
    (!(decide ((V e.1).1 = c 0) && decide ((c 1 : ℚ) < (V e.1).2)) ||
      E.any fun g => decide (g.1 = e.1 ∧ (V g.2).1 = c 0 ∧ (V g.2).2 < (V e.1).2))

theorem framed_of_check {V : ℤ → Dir} {E : List DEdge} {c : Coord 2} (h : framedCheck V E c = true) : Framed V E c := by
  intro a b hab _
  have h' := List.all_eq_true.1 h _ hab
  simp only [Bool.and_eq_true, Bool.or_eq_true, Bool.not_eq_true', Bool.and_eq_false_iff, decide_eq_false_iff_not,
    List.any_eq_true, decide_eq_true_eq] at h'
  obtain ⟨⟨⟨h1, h2⟩, h3⟩, h4⟩ := h'
  refine ⟨fun x y => ?_, fun x y => ?_, fun x y => ?_, fun x y => ?_⟩
  · obtain ⟨⟨g, w⟩, hg, e, h⟩ := h1.resolve_left (by tauto); dsimp only at e h; subst e; exact ⟨w, hg, h⟩
  · obtain ⟨⟨g, w⟩, hg, e, h⟩ := h2.resolve_left (by tauto); dsimp only at e h; subst e; exact ⟨w, hg, h⟩
  · obtain ⟨⟨g, w⟩, hg, e, h⟩ := h3.resolve_left (by tauto); dsimp only at e h; subst e; exact ⟨w, hg, h⟩
  · obtain ⟨⟨g, w⟩, hg, e, h⟩ := h4.resolve_left (by tauto); dsimp only at e h; subst e; exact ⟨w, hg, h⟩

theorem demo_framed : Framed demoV (make demoEdges).edgeList (fun _ => 0) := framed_of_check (by decide +kernel)

/-- the hypotheses hold, and a loop with the cell on its left exists: the one through the half-edge (4, 1). -/
example : PlanarGraph demoEdges demoV demoOrd ∧ Framed demoV (make demoEdges).edgeList (fun _ => 0) ∧
    (4, 1) ∈ (make demoEdges).edgeList ∧ LeftOf (fun _ => 0) (demoV 4) (demoV 1) := by
  refine ⟨demo_planar, demo_framed, by decide +kernel, (leftOf_iff _ _ _ (by decide +kernel)).2 ?_⟩
  unfold InCell Clockwise
  decide +kernel

/-- two loops inside the cell and the outer one. -/
example : ((make demoEdges).bakeSimple demoOrd (ok_unify (ok_make _) rfl demoOrd demoOrd_perm).ds.roots).faces.map
    (fun l => l.map Prod.snd) = some [[0, 3, 5, 2, 1, 4], [0, 4, 5, 3], [1, 2, 5, 4]] := by decide +kernel

end Planar
end Mandoline
