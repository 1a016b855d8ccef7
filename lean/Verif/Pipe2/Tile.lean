import Verif.Pipe2.Frame
import Mathlib.Algebra.BigOperators.Group.List.Lemmas
import Mathlib.Algebra.BigOperators.Group.Finset.Basic
import Mathlib.Algebra.BigOperators.Ring.List

/-!
# The loops of an active cell tile the cell
-/
namespace Mandoline
namespace Pipe2
open Sched Planar

variable {n m : ℕ} {P : Input n m} {cs : List (CrossingI 2)} {es : List (EdgeInput.MeshEdge 2)} {ci : Coord 2 → ℤ}

/-- no face is marked for removal: all ids are non-negative. -/
theorem face_nonneg (edges : List DEdge) (ord : ℤ → List ℤ) (hord : ∀ a, (ord a).Perm ((FaceCollapser.make edges).ring a))
    (R : DsuRoots ((FaceCollapser.make edges).unify ord).ds) (e : DEdge) (he : e ∈ (FaceCollapser.make edges).edgeList) :
    0 ≤ ((FaceCollapser.make edges).bakeSimple ord R).face e := by
  obtain ⟨m1, m2, m3, m4, m5, m6, m7, m8⟩ := FaceCollapser.make_inv edges
  have h := FaceCollapser.ok_make edges
  obtain ⟨h1, h2, h3, h4, h5⟩ := FaceCollapser.unify_spec h m1 ord hord
  have hok := FaceCollapser.ok_unify h m1 ord hord
  have hel : ((FaceCollapser.make edges).unify ord).edgeList = (FaceCollapser.make edges).edgeList := by
    unfold FaceCollapser.edgeList; rw [h1]
  refine (FaceCollapser.C36_removed _ hok R e (by rw [hel]; exact he)).2 fun hc => ?_
  have hn : ((FaceCollapser.make edges).unify ord).ds.nodes = (List.range (2 * edges.length)).map (fun k : ℕ => (k : ℤ)) := by
    rw [h2, m4]
  have hmem := FaceCollapser.face_mem hok (e := e) (by rw [hel]; exact he)
  have h0 := (Dsu.conn_mem hok.ds hc).1 hmem
  rw [hn] at h0
  obtain ⟨k, _, hk⟩ := List.mem_map.1 h0
  omega

theorem edgeList_nodup (edges : List DEdge) : (FaceCollapser.make edges).edgeList.Nodup := by
  have h := (FaceCollapser.ok_make edges).sorted
  unfold FaceCollapser.edgeList OMap.Sorted at *
  rw [List.Nodup, List.pairwise_map]
  refine h.imp fun {a b} hab hc => ?_
  rw [hc, strictTotal_edgeLt.irrefl] at hab
  cases hab

/-- the vertices of one side of an active cell in order, as in the graph. -/
theorem Run.side_edges (h : Run P cs es) (pl : P.Planar) {d : Fin 2} {c : Coord 2} (hc : Handled P cs d c) :
    ∃ l : List (ℚ × ℤ), IsLine P cs d c l ∧
      ∀ a b, (∃ s t, ((s, a), (t, b)) ∈ l.zip l.tail) ↔ (a, b) ∈ (FaceCollapser.make (P.graph cs es)).edgeList ∧
        ∃ s t, 0 ≤ s ∧ s < t ∧ t ≤ 1 ∧ P.Node cs a (linePt c d s) ∧ P.Node cs b (linePt c d t) := by
  obtain ⟨L, l1, l2, l3, l4⟩ := h.lines d
  obtain ⟨q, hq, rfl⟩ := List.mem_map.1 ((l2 c).2 hc)
  have hl := l3 q hq
  refine ⟨q.2, hl, fun a b => ?_⟩
  constructor
  · rintro ⟨s, t, hz⟩
    obtain ⟨m1, m2⟩ := ListAdj.zip_mem hz
    have hlt := ListAdj.zip_lt Prod.fst hl.sorted hz
    have n1 := (hl.mem s a).1 m1
    have n2 := (hl.mem t b).1 m2
    refine ⟨?_, s, t, n1.1, hlt, n2.2.1, n1.2.2, n2.2.2⟩
    refine (mem_known _).2 (Or.inl ?_)
    have g : IsGridPiece P cs (fun k => if k = d then none else some (q.1 k)) (a, b) d q.1 s t :=
      ⟨hc, n1.1, hlt, n2.2.1, n1.2.2, n2.2.2, fun k r r1 r2 hk => by
        have := ListAdj.zip_none Prod.fst hl.sorted hz ((hl.mem r k).2 ⟨n1.1.trans r1.le, r2.le.trans n2.2.1, hk⟩) r1
        exact absurd (r2.trans_le this) (lt_irrefl _), rfl⟩
    exact g.mem h
  · rintro ⟨hab, s, t, s0, st, t1, na, nb⟩
    obtain ⟨p, p', np, np', sg⟩ := h.edge_seg pl ((mem_known _).1 hab)
    have e1 := (h.node_inj np na).1 rfl
    have e2 := (h.node_inj np' nb).1 rfl
    subst e1 e2
    refine ⟨s, t, ListAdj.of_none Prod.fst hl.sorted ((hl.mem _ _).2 ⟨s0, (st.trans_le t1).le, na⟩)
      ((hl.mem _ _).2 ⟨(s0.trans_lt st).le, t1, nb⟩) st ?_⟩
    rintro ⟨r, k⟩ hz hr
    dsimp only at hr ⊢
    by_contra hc
    push Not at hc
    have hk := ((hl.mem r k).1 hz).2.2
    refine sg.free k _ ((r - s) / (t - s)) hk (div_pos (by linarith) (by linarith)) ((div_lt_one (by linarith)).2 (by linarith)) ?_
    rw [segPt_linePt, div_mul_cancel₀ _ (by linarith : t - s ≠ 0)]
    congr 1
    ring

theorem linePt_inj {c : Coord 2} {d : Fin 2} {s t : ℚ} (h : linePt c d s = linePt c d t) : s = t := by
  have := congrFun h d
  rw [linePt_d, linePt_d] at this
  linarith

/-- the sum of a function over the edges along one side, walked up, is the sum over the consecutive vertices. -/
theorem Run.side_sum (h : Run P cs es) (pl : P.Planar) {d : Fin 2} {c : Coord 2} (hc : Handled P cs d c) (Q : DEdge → Prop)
    [DecidablePred Q] (f : DEdge → ℚ) (k : ℚ) (flip : DEdge → DEdge)
    (hflip : (∀ e, flip e = e) ∨ ∀ e, flip e = (e.2, e.1))
    (hQ : ∀ e ∈ (FaceCollapser.make (P.graph cs es)).edgeList, Q e ↔ ∃ s t, 0 ≤ s ∧ s < t ∧ t ≤ 1 ∧
      P.Node cs (flip e).1 (linePt c d s) ∧ P.Node cs (flip e).2 (linePt c d t))
    (hf : ∀ e s t, P.Node cs (flip e).1 (linePt c d s) → P.Node cs (flip e).2 (linePt c d t) → f e = k * (t - s)) :
    (((FaceCollapser.make (P.graph cs es)).edgeList.filter fun e => decide (Q e)).map f).sum = k := by
  obtain ⟨l, hl, hz⟩ := h.side_edges pl hc
  have hff : ∀ e, flip (flip e) = e := by
    rcases hflip with hh | hh <;> intro e <;> rw [hh, hh]
  have hE : ∀ e, e ∈ (FaceCollapser.make (P.graph cs es)).edgeList ↔ flip e ∈ (FaceCollapser.make (P.graph cs es)).edgeList := by
    intro e
    rcases hflip with hh | hh
    · rw [hh]
    · rw [hh]
      exact ⟨fun h => (FaceCollapser.ok_make _).symm _ _ h, fun h => (FaceCollapser.ok_make _).symm _ _ h⟩
  have hperm : ((FaceCollapser.make (P.graph cs es)).edgeList.filter fun e => decide (Q e)).Perm
      ((l.zip l.tail).map fun z => flip (z.1.2, z.2.2)) := by
    refine (List.perm_ext_iff_of_nodup ((edgeList_nodup _).filter _) ?_).2 fun e => ?_
    · refine List.Nodup.map_on ?_ (ListAdj.zip_nodup Prod.fst hl.sorted)
      rintro ⟨⟨s, a⟩, t, b⟩ hx ⟨⟨s', a'⟩, t', b'⟩ hy hxy
      have := congrArg flip hxy
      rw [hff, hff] at this
      dsimp only at this
      rw [Prod.mk.injEq] at this
      obtain ⟨rfl, rfl⟩ := this
      obtain ⟨m1, m2⟩ := ListAdj.zip_mem hx
      obtain ⟨m1', m2'⟩ := ListAdj.zip_mem hy
      rw [linePt_inj ((h.node_inj ((hl.mem _ _).1 m1).2.2 ((hl.mem _ _).1 m1').2.2).1 rfl),
        linePt_inj ((h.node_inj ((hl.mem _ _).1 m2).2.2 ((hl.mem _ _).1 m2').2.2).1 rfl)]
    · rw [List.mem_filter, decide_eq_true_eq, List.mem_map]
      constructor
      · rintro ⟨h1, h2⟩
        obtain ⟨s, t, hzz⟩ := (hz (flip e).1 (flip e).2).2 ⟨(hE e).1 h1, (hQ e h1).1 h2⟩
        exact ⟨_, hzz, hff e⟩
      · rintro ⟨⟨⟨s, a⟩, t, b⟩, hzz, rfl⟩
        obtain ⟨h1, h2⟩ := (hz a b).1 ⟨s, t, hzz⟩
        have h1' := (hE (flip (a, b))).2 (by rw [hff]; exact h1)
        exact ⟨h1', (hQ _ h1').2 (by rw [hff]; exact h2)⟩
  rw [(hperm.map f).sum_eq, List.map_map]
  have heq : (l.zip l.tail).map (f ∘ fun z => flip (z.1.2, z.2.2)) = (l.zip l.tail).map fun z => k * (z.2.1 - z.1.1) := by
    refine List.map_congr_left ?_
    rintro ⟨⟨s, a⟩, t, b⟩ hx
    obtain ⟨m1, m2⟩ := ListAdj.zip_mem hx
    refine hf _ s t ?_ ?_ <;> rw [hff]
    · exact ((hl.mem _ _).1 m1).2.2
    · exact ((hl.mem _ _).1 m2).2.2
  rw [heq, List.sum_map_mul_left, ListAdj.sum_diff Prod.fst hl.head hl.last]
  ring

theorem sum_filter_ite {α : Type*} (l : List α) (Q : α → Prop) [DecidablePred Q] (f : α → ℚ) :
    ((l.filter fun e => decide (Q e)).map f).sum = (l.map fun e => if Q e then f e else 0).sum := by
  induction l with
  | nil => rfl
  | cons a l ih =>
    by_cases h : Q a
    · simp [h, ih]
    · simp [h, ih]

theorem sum_map_add' {α : Type*} (l : List α) (f g : α → ℚ) : (l.map fun e => f e + g e).sum = (l.map f).sum + (l.map g).sum := by
  induction l with
  | nil => simp
  | cons a l ih => simp only [List.map_cons, List.sum_cons, ih]; ring

/-- an antisymmetric function cancels over a symmetric set of directed edges. -/
theorem sum_antisymm {E : List DEdge} (hn : E.Nodup) (hs : ∀ a b, (a, b) ∈ E → (b, a) ∈ E) (f : DEdge → ℚ)
    (hf : ∀ a b, f (b, a) = - f (a, b)) : (E.map f).sum = 0 := by
  have hp : E.Perm (E.map Prod.swap) := by
    refine (List.perm_ext_iff_of_nodup hn (hn.map Prod.swap_injective)).2 fun e => ?_
    rw [List.mem_map]
    constructor
    · intro he; exact ⟨(e.2, e.1), hs _ _ he, rfl⟩
    · rintro ⟨⟨a, b⟩, hx, rfl⟩; exact hs _ _ hx
  have h1 := (hp.map f).sum_eq
  rw [List.map_map] at h1
  have h2 : (E.map (f ∘ Prod.swap)).sum = - (E.map f).sum := by
    clear h1 hp hs hn
    induction E with
    | nil => simp
    | cons e l ih =>
      simp only [List.map_cons, List.sum_cons, ih, Function.comp, Prod.swap]
      rw [hf]; ring
  rw [h2] at h1
  linarith

/-- **C84.** Twice the signed area swept by the half-edges that have the active cell `c` on their left is twice the area of
the cell. -/
theorem Run.area_two (h : Run P cs es) (pl : P.Planar) (c : Coord 2) (hc : (P.gen cs es ci).Active c) (D : DEdge → Bool)
    (hD : ∀ e ∈ (FaceCollapser.make (P.graph cs es)).edgeList, D e = true ↔
      LeftOf c ((P.gen cs es ci).pos e.1) ((P.gen cs es ci).pos e.2)) :
    (((FaceCollapser.make (P.graph cs es)).edgeList.filter D).map
      fun e => cross2 ((P.gen cs es ci).pos e.1) ((P.gen cs es ci).pos e.2)).sum = 2 := by
  classical
  have hcc := (h.active_iff (ci := ci) c).1 hc
  set E := (FaceCollapser.make (P.graph cs es)).edgeList with hE
  set pos := (P.gen cs es ci).pos with hpos
  set f : DEdge → ℚ := fun e => cross2 (pos e.1) (pos e.2) with hfdef
  have hsym : ∀ a b, (a, b) ∈ E → (b, a) ∈ E := (FaceCollapser.ok_make _).symm
  have hne : ∀ e ∈ E, pos e.1 ≠ pos e.2 := by
    intro e he
    obtain ⟨p, q, np, nq, sq⟩ := h.edge_seg pl ((mem_known _).1 he)
    rw [hpos, h.pos np, h.pos nq]
    intro hh
    rw [Prod.mk.injEq] at hh
    exact sq.ne (pt_ext hh.1 hh.2)
  -- the four clockwise sides
  let T : DEdge → Prop := fun e => InCell c (pos e.1) ∧ InCell c (pos e.2)
  let C0 : DEdge → Prop := fun e => T e ∧ (pos e.1).2 = c 1 ∧ (pos e.2).2 = c 1 ∧ (pos e.2).1 < (pos e.1).1
  let C1 : DEdge → Prop := fun e => T e ∧ (pos e.1).1 = c 0 + 1 ∧ (pos e.2).1 = c 0 + 1 ∧ (pos e.2).2 < (pos e.1).2
  let C2 : DEdge → Prop := fun e => T e ∧ (pos e.1).2 = c 1 + 1 ∧ (pos e.2).2 = c 1 + 1 ∧ (pos e.1).1 < (pos e.2).1
  let C3 : DEdge → Prop := fun e => T e ∧ (pos e.1).1 = c 0 ∧ (pos e.2).1 = c 0 ∧ (pos e.1).2 < (pos e.2).2
  have hDe : ∀ e ∈ E, D e = true ↔ T e ∧ ¬ Clockwise c (pos e.1) (pos e.2) := by
    intro e he
    rw [hD e he, leftOf_iff c _ _ (hne e he)]
    exact and_assoc.symm
  have hTanti : (E.map fun e => if T e then f e else 0).sum = 0 := by
    refine sum_antisymm (edgeList_nodup _) hsym _ fun a b => ?_
    have : T (b, a) ↔ T (a, b) := and_comm
    by_cases ht : T (a, b)
    · rw [if_pos ht, if_pos (this.2 ht)]
      simp only [hfdef, cross2]; ring
    · rw [if_neg ht, if_neg (fun hh => ht (this.1 hh))]; ring
  have hsplit : ∀ e ∈ E, (if T e then f e else 0) = (if D e = true then f e else 0) + ((if C0 e then f e else 0) +
      ((if C1 e then f e else 0) + ((if C2 e then f e else 0) + (if C3 e then f e else 0)))) := by
    intro e he
    have hDe' := hDe e he
    by_cases ht : T e
    · rw [if_pos ht]
      by_cases hcw : Clockwise c (pos e.1) (pos e.2)
      · rw [if_neg (fun hh => (hDe'.1 hh).2 hcw)]
        have lt0 : (c 0 : ℚ) < c 0 + 1 := by linarith
        have lt1 : (c 1 : ℚ) < c 1 + 1 := by linarith
        rcases hcw with hw | hw | hw | hw
        · have k1 : ¬ C1 e := fun hh => by have := hh.2; linarith [hw.2.2, this.1, this.2.1]
          have k2 : ¬ C2 e := fun hh => by have := hh.2; linarith [hw.1, this.1]
          have k3 : ¬ C3 e := fun hh => by have := hh.2; linarith [hw.2.2, this.1, this.2.1]
          rw [if_pos (show C0 e from ⟨ht, hw⟩), if_neg k1, if_neg k2, if_neg k3]; ring
        · have k1 : ¬ C0 e := fun hh => by have := hh.2; linarith [hw.2.2, this.1, this.2.1]
          have k2 : ¬ C2 e := fun hh => by have := hh.2; linarith [hw.2.2, this.1, this.2.1]
          have k3 : ¬ C3 e := fun hh => by have := hh.2; linarith [hw.1, this.1]
          rw [if_pos (show C1 e from ⟨ht, hw⟩), if_neg k1, if_neg k2, if_neg k3]; ring
        · have k1 : ¬ C0 e := fun hh => by have := hh.2; linarith [hw.1, this.1]
          have k2 : ¬ C1 e := fun hh => by have := hh.2; linarith [hw.2.2, this.1, this.2.1]
          have k3 : ¬ C3 e := fun hh => by have := hh.2; linarith [hw.2.2, this.1, this.2.1]
          rw [if_pos (show C2 e from ⟨ht, hw⟩), if_neg k1, if_neg k2, if_neg k3]; ring
        · have k1 : ¬ C0 e := fun hh => by have := hh.2; linarith [hw.2.2, this.1, this.2.1]
          have k2 : ¬ C1 e := fun hh => by have := hh.2; linarith [hw.1, this.1]
          have k3 : ¬ C2 e := fun hh => by have := hh.2; linarith [hw.2.2, this.1, this.2.1]
          rw [if_pos (show C3 e from ⟨ht, hw⟩), if_neg k1, if_neg k2, if_neg k3]; ring
      · have k0 : ¬ C0 e := fun hh => hcw (Or.inl hh.2)
        have k1 : ¬ C1 e := fun hh => hcw (Or.inr (Or.inl hh.2))
        have k2 : ¬ C2 e := fun hh => hcw (Or.inr (Or.inr (Or.inl hh.2)))
        have k3 : ¬ C3 e := fun hh => hcw (Or.inr (Or.inr (Or.inr hh.2)))
        rw [if_pos (hDe'.2 ⟨ht, hcw⟩), if_neg k0, if_neg k1, if_neg k2, if_neg k3]; ring
    · rw [if_neg ht, if_neg (fun hh => ht (hDe'.1 hh).1), if_neg (fun hh : C0 e => ht hh.1), if_neg (fun hh : C1 e => ht hh.1),
        if_neg (fun hh : C2 e => ht hh.1), if_neg (fun hh : C3 e => ht hh.1)]; ring
  have hnode : ∀ e ∈ E, ∃ p q, P.Node cs e.1 p ∧ P.Node cs e.2 q ∧ pos e.1 = (p 0, p 1) ∧ pos e.2 = (q 0, q 1) := by
    intro e he
    obtain ⟨p, q, np, nq, _⟩ := h.edge_seg pl ((mem_known _).1 he)
    exact ⟨p, q, np, nq, h.pos np, h.pos nq⟩
  have npos : ∀ {k : ℤ} {x : Pt 2}, P.Node cs k x → pos k = (x 0, x 1) := fun hx => h.pos hx
  -- the sums over the sides
  have s0 : ((E.filter fun e => decide (C0 e)).map f).sum = c 1 := by
    refine h.side_sum pl (handled_side hcc 0 0 (Or.inl rfl)) C0 f _ (fun e => (e.2, e.1)) (Or.inr fun _ => rfl) ?_ ?_
    · intro e he
      obtain ⟨p, q, np, nq, ep, eq⟩ := hnode e he
      show T e ∧ _ ↔ _
      show (InCell c (pos e.1) ∧ InCell c (pos e.2)) ∧ _ ↔ _
      rw [ep, eq]
      constructor
      · rintro ⟨⟨⟨⟨a1, a2⟩, a3, a4⟩, ⟨b1, b2⟩, b3, b4⟩, w1, w2, w3⟩
        dsimp only at *
        refine ⟨q 0 - c 0, p 0 - c 0, by linarith, by linarith, by linarith, ?_, ?_⟩
        · rw [← side_0 c 0 q (by push_cast; linarith)]; exact nq
        · rw [← side_0 c 0 p (by push_cast; linarith)]; exact np
      · rintro ⟨s, t, g0, g1, g2, n1, n2⟩
        have e1 := (h.node_inj nq n1).1 rfl
        have e2 := (h.node_inj np n2).1 rfl
        subst e1 e2
        unfold InCell
        simp only [linePt_0_0, linePt_0_1, Int.cast_zero, add_zero]
        refine ⟨⟨⟨⟨?_, ?_⟩, ?_, ?_⟩, ⟨?_, ?_⟩, ?_, ?_⟩, ?_, ?_, ?_⟩ <;> first | exact trivial | linarith
    · intro e s t n1 n2
      show cross2 (pos e.1) (pos e.2) = _
      rw [npos n1, npos n2]
      simp only [cross2, linePt_0_0, linePt_0_1, Int.cast_zero]; ring
  have s2 : ((E.filter fun e => decide (C2 e)).map f).sum = - (c 1 + 1) := by
    refine h.side_sum pl (handled_side hcc 0 1 (Or.inr rfl)) C2 f _ (fun e => e) (Or.inl fun _ => rfl) ?_ ?_
    · intro e he
      obtain ⟨p, q, np, nq, ep, eq⟩ := hnode e he
      show (InCell c (pos e.1) ∧ InCell c (pos e.2)) ∧ _ ↔ _
      rw [ep, eq]
      constructor
      · rintro ⟨⟨⟨⟨a1, a2⟩, a3, a4⟩, ⟨b1, b2⟩, b3, b4⟩, w1, w2, w3⟩
        dsimp only at *
        refine ⟨p 0 - c 0, q 0 - c 0, by linarith, by linarith, by linarith, ?_, ?_⟩
        · rw [← side_0 c 1 p (by push_cast; linarith)]; exact np
        · rw [← side_0 c 1 q (by push_cast; linarith)]; exact nq
      · rintro ⟨s, t, g0, g1, g2, n1, n2⟩
        have e1 := (h.node_inj np n1).1 rfl
        have e2 := (h.node_inj nq n2).1 rfl
        subst e1 e2
        unfold InCell
        simp only [linePt_0_0, linePt_0_1, Int.cast_one]
        refine ⟨⟨⟨⟨?_, ?_⟩, ?_, ?_⟩, ⟨?_, ?_⟩, ?_, ?_⟩, ?_, ?_, ?_⟩ <;> first | exact trivial | linarith
    · intro e s t n1 n2
      show cross2 (pos e.1) (pos e.2) = _
      rw [npos n1, npos n2]
      simp only [cross2, linePt_0_0, linePt_0_1, Int.cast_one]; ring
  have s1 : ((E.filter fun e => decide (C1 e)).map f).sum = - (c 0 + 1) := by
    refine h.side_sum pl (handled_side hcc 1 1 (Or.inr rfl)) C1 f _ (fun e => (e.2, e.1)) (Or.inr fun _ => rfl) ?_ ?_
    · intro e he
      obtain ⟨p, q, np, nq, ep, eq⟩ := hnode e he
      show (InCell c (pos e.1) ∧ InCell c (pos e.2)) ∧ _ ↔ _
      rw [ep, eq]
      constructor
      · rintro ⟨⟨⟨⟨a1, a2⟩, a3, a4⟩, ⟨b1, b2⟩, b3, b4⟩, w1, w2, w3⟩
        dsimp only at *
        refine ⟨q 1 - c 1, p 1 - c 1, by linarith, by linarith, by linarith, ?_, ?_⟩
        · rw [← side_1 c 1 q (by push_cast; linarith)]; exact nq
        · rw [← side_1 c 1 p (by push_cast; linarith)]; exact np
      · rintro ⟨s, t, g0, g1, g2, n1, n2⟩
        have e1 := (h.node_inj nq n1).1 rfl
        have e2 := (h.node_inj np n2).1 rfl
        subst e1 e2
        unfold InCell
        simp only [linePt_1_0, linePt_1_1, Int.cast_one]
        refine ⟨⟨⟨⟨?_, ?_⟩, ?_, ?_⟩, ⟨?_, ?_⟩, ?_, ?_⟩, ?_, ?_, ?_⟩ <;> first | exact trivial | linarith
    · intro e s t n1 n2
      show cross2 (pos e.1) (pos e.2) = _
      rw [npos n1, npos n2]
      simp only [cross2, linePt_1_0, linePt_1_1, Int.cast_one]; ring
  have s3 : ((E.filter fun e => decide (C3 e)).map f).sum = c 0 := by
    refine h.side_sum pl (handled_side hcc 1 0 (Or.inl rfl)) C3 f _ (fun e => e) (Or.inl fun _ => rfl) ?_ ?_
    · intro e he
      obtain ⟨p, q, np, nq, ep, eq⟩ := hnode e he
      show (InCell c (pos e.1) ∧ InCell c (pos e.2)) ∧ _ ↔ _
      rw [ep, eq]
      constructor
      · rintro ⟨⟨⟨⟨a1, a2⟩, a3, a4⟩, ⟨b1, b2⟩, b3, b4⟩, w1, w2, w3⟩
        dsimp only at *
        refine ⟨p 1 - c 1, q 1 - c 1, by linarith, by linarith, by linarith, ?_, ?_⟩
        · rw [← side_1 c 0 p (by push_cast; linarith)]; exact np
        · rw [← side_1 c 0 q (by push_cast; linarith)]; exact nq
      · rintro ⟨s, t, g0, g1, g2, n1, n2⟩
        have e1 := (h.node_inj np n1).1 rfl
        have e2 := (h.node_inj nq n2).1 rfl
        subst e1 e2
        unfold InCell
        simp only [linePt_1_0, linePt_1_1, Int.cast_zero, add_zero]
        refine ⟨⟨⟨⟨?_, ?_⟩, ?_, ?_⟩, ⟨?_, ?_⟩, ?_, ?_⟩, ?_, ?_, ?_⟩ <;> first | exact trivial | linarith
    · intro e s t n1 n2
      show cross2 (pos e.1) (pos e.2) = _
      rw [npos n1, npos n2]
      simp only [cross2, linePt_1_0, linePt_1_1, Int.cast_zero]; ring
  rw [sum_filter_ite] at s0 s1 s2 s3
  have hDs : ((E.filter D).map f).sum = (E.map fun e => if D e = true then f e else 0).sum := by
    rw [← sum_filter_ite]; congr 2; refine List.filter_congr fun e _ => ?_; simp
  have htot := hTanti
  rw [List.map_congr_left hsplit, sum_map_add', sum_map_add', sum_map_add', sum_map_add', s0, s1, s2, s3] at htot
  rw [hDs]
  linarith

end Pipe2
end Mandoline
