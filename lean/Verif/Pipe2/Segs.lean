import Verif.Pipe2.Graph
import Mathlib.Tactic.FieldSimp
import Mathlib.Algebra.Order.Floor.Ring
import Mathlib.Algebra.Order.Round

/-!
# The segments of the planar cut graph

Every edge of the graph joins two mesh vertices, is inside one closed grid cell, and no mesh vertex is between its ends.
-/
namespace Mandoline
namespace Pipe2
open Sched

variable {n m : ℕ} {P : Input n m} {cs : List (CrossingI 2)} {es : List (EdgeInput.MeshEdge 2)}

theorem segPt_swap {D : ℕ} (p q : Pt D) (t : ℚ) : segPt q p t = segPt p q (1 - t) := by
  funext j; unfold segPt; ring

theorem segPt_zero {D : ℕ} (p q : Pt D) : segPt p q 0 = p := by funext j; unfold segPt; ring
theorem segPt_one {D : ℕ} (p q : Pt D) : segPt p q 1 = q := by funext j; unfold segPt; ring

theorem segPt_segPt {D : ℕ} (a b : Pt D) (s t r : ℚ) :
    segPt (segPt a b s) (segPt a b t) r = segPt a b (s + r * (t - s)) := by
  funext j; unfold segPt; ring

theorem segPt_inj {D : ℕ} {a b : Pt D} (h : a ≠ b) {s t : ℚ} (he : segPt a b s = segPt a b t) : s = t := by
  by_contra hne
  apply h
  funext j
  have := congrFun he j
  unfold segPt at this
  have h2 : (s - t) * (b j - a j) = 0 := by linear_combination this
  rcases mul_eq_zero.1 h2 with h3 | h3
  · exact absurd (by linarith) hne
  · linarith

/-- without a crossing strictly between, both ends are in the cell of the middle. -/
theorem cell_of_no_cross {D : ℕ} (a b : Pt D) (s t : ℚ) (h0 : 0 ≤ s) (hst : s < t) (h1 : t ≤ 1)
    (hn : ∀ r, s < r → r < t → ¬ Crosses a b r) :
    ∃ c : Coord D, InClosedCell c (segPt a b s) ∧ InClosedCell c (segPt a b t) := by
  have key : ∀ j, ∃ c : ℤ, (c : ℚ) ≤ segPt a b s j ∧ segPt a b s j ≤ c + 1 ∧ (c : ℚ) ≤ segPt a b t j ∧ segPt a b t j ≤ c + 1 := by
    intro j
    by_cases hab : a j = b j
    · refine ⟨⌊a j⌋, ?_⟩
      have e : ∀ r, segPt a b r j = a j := fun r => by unfold segPt; rw [← hab]; ring
      rw [e, e]
      exact ⟨Int.floor_le _, (Int.lt_floor_add_one _).le, Int.floor_le _, (Int.lt_floor_add_one _).le⟩
    · have cross : ∀ k : ℤ, ¬ ((segPt a b s j < k ∧ (k : ℚ) < segPt a b t j) ∨ (segPt a b t j < k ∧ (k : ℚ) < segPt a b s j)) := by
        intro k hk
        have hd : b j - a j ≠ 0 := fun h => hab (by linarith)
        have hr : segPt a b ((k - a j) / (b j - a j)) j = k := by
          unfold segPt; field_simp; ring
        have e : ∀ r, segPt a b r j = a j + r * (b j - a j) := fun r => by unfold segPt; ring
        have h2 : s < (k - a j) / (b j - a j) ∧ (k - a j) / (b j - a j) < t := by
          rw [e] at hr
          generalize (k - a j) / (b j - a j) = r at hr ⊢
          rw [e, e, ← hr] at hk
          rcases hk with ⟨k1, k2⟩ | ⟨k1, k2⟩
          · have : 0 < b j - a j := by nlinarith
            exact ⟨by nlinarith, by nlinarith⟩
          · have : 0 < a j - b j := by nlinarith
            exact ⟨by nlinarith, by nlinarith⟩
        exact hn _ h2.1 h2.2 ⟨j, by linarith, by linarith, hab, k, hr⟩
      rcases le_total (segPt a b s j) (segPt a b t j) with hle | hle
      · refine ⟨⌊segPt a b s j⌋, Int.floor_le _, (Int.lt_floor_add_one _).le, (Int.floor_le _).trans hle, ?_⟩
        by_contra hc
        push Not at hc
        refine cross (⌊segPt a b s j⌋ + 1) (Or.inl ⟨?_, ?_⟩)
        · push_cast; exact Int.lt_floor_add_one _
        · push_cast; exact hc
      · refine ⟨⌊segPt a b t j⌋, (Int.floor_le _).trans hle, ?_, Int.floor_le _, (Int.lt_floor_add_one _).le⟩
        by_contra hc
        push Not at hc
        refine cross (⌊segPt a b t j⌋ + 1) (Or.inr ⟨?_, ?_⟩)
        · push_cast; exact Int.lt_floor_add_one _
        · push_cast; exact hc
  choose c hc using key
  exact ⟨c, fun j => ⟨(hc j).1, (hc j).2.1⟩, fun j => ⟨(hc j).2.2.1, (hc j).2.2.2⟩⟩

theorem forall₂_adj {α β : Type*} {R : α → β → Prop} {xs : List α} {ys : List β} (h : List.Forall₂ R xs ys) {x x' : α}
    (hx : (x, x') ∈ xs.zip xs.tail) : ∃ y y', (y, y') ∈ ys.zip ys.tail ∧ R x y ∧ R x' y' := by
  induction h with
  | nil => simp at hx
  | @cons a b xs ys hab hr ih =>
    cases hr with
    | nil => simp at hx
    | @cons a' b' xs ys hab' hr =>
      rw [List.tail_cons, List.zip_cons_cons, List.mem_cons] at hx
      rcases hx with hx | hx
      · cases hx
        exact ⟨b, b', by simp, hab, hab'⟩
      · obtain ⟨y, y', h1, h2, h3⟩ := ih hx
        exact ⟨y, y', by rw [List.tail_cons, List.zip_cons_cons]; exact List.mem_cons_of_mem _ h1, h2, h3⟩

theorem mem_zero_one (ts : List ℚ) (z : ℚ) : z ∈ 0 :: ts ++ [1] ↔ z = 0 ∨ z = 1 ∨ z ∈ ts := by
  simp only [List.cons_append, List.mem_cons, List.mem_append, List.not_mem_nil, or_false]
  constructor
  · rintro (h | h | h)
    · exact Or.inl h
    · exact Or.inr (Or.inr h)
    · exact Or.inr (Or.inl h)
  · rintro (h | h | h)
    · exact Or.inl h
    · exact Or.inr (Or.inr h)
    · exact Or.inr (Or.inl h)

/-- `e` is a piece of input edge `i` from `s` to `t`. -/
structure IsPiece (P : Input n m) (cs : List (CrossingI 2)) (e : EdgeInput.MeshEdge 2) (i : Fin n) (s t : ℚ) : Prop where
  s0 : 0 ≤ s
  st : s < t
  t1 : t ≤ 1
  scross : s = 0 ∨ Crosses (P.V (P.E i).1) (P.V (P.E i).2) s
  tcross : t = 1 ∨ Crosses (P.V (P.E i).1) (P.V (P.E i).2) t
  none : ∀ r, s < r → r < t → ¬ Crosses (P.V (P.E i).1) (P.V (P.E i).2) r
  mask : e.mask = edgeMask (P.edgeInput.fst i) (P.edgeInput.snd i)
  parent : e.parent = ((i : ℕ) : ℤ)
  ends : (P.Node cs e.ends.1 (P.seg i s) ∧ P.Node cs e.ends.2 (P.seg i t)) ∨
    (P.Node cs e.ends.2 (P.seg i s) ∧ P.Node cs e.ends.1 (P.seg i t))

/-- every cut edge that comes from the input is a piece of an input edge. -/
theorem Run.piece (h : Run P cs es) {e : EdgeInput.MeshEdge 2} (he : e ∈ es) : ∃ i s t, IsPiece P cs e i s t := by
  obtain ⟨fs, hb⟩ := h.baked
  obtain ⟨_, hperm, hflt⟩ := P.edgeInput.C51_bake2 cs es fs hb
  obtain ⟨i, _, hi⟩ := List.mem_flatMap.1 (hperm.mem_iff.1 he)
  have hpar : e.parent = ((i : ℕ) : ℤ) := by
    rw [← hflt i] at hi
    exact of_decide_eq_true (List.mem_filter.1 hi).2
  have hne : (P.edgeInput.fst i).p ≠ (P.edgeInput.snd i).p := by rw [fst_p, snd_p]; exact h.adm.ne i
  obtain ⟨ts, xs, h1, h2, h3, h4, h5, h6⟩ := EdgeInput.C74_pieces (ok h.adm) cs es fs hb i hne
  rw [fst_p, snd_p] at h1 h3
  have hm : EdgeInput.sortPair e.ends ∈ (xs.zip xs.tail).map EdgeInput.sortPair :=
    h5.mem_iff.1 (List.mem_map.2 ⟨e, List.mem_filter.2 ⟨he, by simpa using hpar⟩, rfl⟩)
  obtain ⟨⟨x, x'⟩, hx, hsp⟩ := List.mem_map.1 hm
  obtain ⟨s, t, hst, hs, ht⟩ := forall₂_adj h3 hx
  have hlt := ListAdj.zip_lt (fun q : ℚ => q) h2 hst
  have hnone : ∀ z ∈ 0 :: ts ++ [1], s < z → t ≤ z := fun z hz => ListAdj.zip_none (fun q : ℚ => q) h2 hst hz
  obtain ⟨m1, m2⟩ := ListAdj.zip_mem hst
  have memc : ∀ z, z ∈ 0 :: ts ++ [1] ↔ z = 0 ∨ z = 1 ∨ Crosses (P.V (P.E i).1) (P.V (P.E i).2) z := by
    intro z
    rw [← h1, mem_zero_one]
  have rng : ∀ z ∈ 0 :: ts ++ [1], 0 ≤ z ∧ z ≤ 1 := by
    intro z hz
    rcases (memc z).1 hz with rfl | rfl | ⟨d, hd⟩
    · norm_num
    · norm_num
    · exact ⟨hd.1.le, hd.2.1.le⟩
  have den : ∀ k x, EdgeInput.Denotes cs k x → P.Node cs k x := fun k x hd => Or.inl hd
  refine ⟨i, s, t, (rng s m1).1, hlt, (rng t m2).2, ?_, ?_, ?_, h6 e he hpar, hpar, ?_⟩
  · rcases (memc s).1 m1 with hh | hh | hh
    · exact Or.inl hh
    · have := (rng t m2).2; linarith
    · exact Or.inr hh
  · rcases (memc t).1 m2 with hh | hh | hh
    · have := (rng s m1).1; linarith
    · exact Or.inl hh
    · exact Or.inr hh
  · intro r r1 r2 hc
    have := hnone r ((memc r).2 (Or.inr (Or.inr hc))) r1
    linarith
  · rcases EdgeInput.sortPair_eq _ _ hsp with hh | hh
    · rw [← hh]; exact Or.inl ⟨den _ _ hs, den _ _ ht⟩
    · have : e.ends = (x', x) := by rw [Prod.mk.injEq] at hh; exact Prod.ext hh.2.symm hh.1.symm
      rw [this]; exact Or.inr ⟨den _ _ hs, den _ _ ht⟩

/-! ## grid edges -/

/-- the point at parameter `t` of the grid edge from `c` along `d`. -/
def linePt (c : Coord 2) (d : Fin 2) (t : ℚ) : Pt 2 := fun j => if j = d then (c j : ℚ) + t else (c j : ℚ)

theorem linePt_zero (c : Coord 2) (d : Fin 2) : linePt c d 0 = fun j => (c j : ℚ) := by
  funext j; unfold linePt; split_ifs <;> simp

theorem linePt_one (c : Coord 2) (d : Fin 2) : linePt c d 1 = fun j => (Function.update c d (c d + 1) j : ℚ) := by
  funext j; unfold linePt
  by_cases h : j = d
  · subst h; simp
  · simp [h]

theorem linePt_mem (c : Coord 2) (d : Fin 2) (x : Pt 2) : OnOpenEdge c d x ↔ ∃ t, 0 < t ∧ t < 1 ∧ x = linePt c d t := by
  constructor
  · rintro ⟨h1, h2, h3⟩
    refine ⟨x d - c d, by linarith, by linarith, ?_⟩
    funext j
    unfold linePt
    by_cases h : j = d
    · subst h; simp
    · rw [if_neg h, h1 j h]
  · rintro ⟨t, h0, h1, rfl⟩
    refine ⟨fun i hi => by unfold linePt; rw [if_neg hi], ?_, ?_⟩ <;> · unfold linePt; rw [if_pos rfl]; linarith

/-- the grid edge from `c` along `d` is cut up: it is an edge of the grid, and a crossing is inside it or it is a side of an
active cell of the grid. -/
def Handled (P : Input n m) (cs : List (CrossingI 2)) (d : Fin 2) (c : Coord 2) : Prop :=
  ((∀ i, 0 ≤ c i ∧ c i ≤ P.shape i) ∧ c d < P.shape d) ∧
  ((∃ x ∈ cs, OnOpenEdge c d x.v.p) ∨
    ∃ a : Coord 2, (∃ x ∈ cs, InClosedCell a x.v.p) ∧ (∀ i, 0 ≤ a i ∧ a i < P.shape i) ∧ c d = a d ∧ ∀ j, c j = a j ∨ c j = a j + 1)

/-- the vertices on the grid edge from `c` along `d`, with their parameters, in order. -/
structure IsLine (P : Input n m) (cs : List (CrossingI 2)) (d : Fin 2) (c : Coord 2) (l : List (ℚ × ℤ)) : Prop where
  head : l.head? = some (0, P.index.idx c)
  last : l.getLast? = some (1, P.index.idx (Function.update c d (c d + 1)))
  sorted : l.Pairwise fun a b => a.1 < b.1
  mem : ∀ t k, (t, k) ∈ l ↔ 0 ≤ t ∧ t ≤ 1 ∧ P.Node cs k (linePt c d t)

/-- **the grid edges of the graph.** -/
theorem Run.lines (h : Run P cs es) (d : Fin 2) : ∃ L : List (Coord 2 × List (ℚ × ℤ)), (L.map Prod.fst).Nodup ∧
    (∀ c, c ∈ L.map Prod.fst ↔ Handled P cs d c) ∧ (∀ q ∈ L, IsLine P cs d q.1 q.2) ∧
    bakeEdgesAxis P.index.idx P.shape d (storeWithGrid P.shape (activeCells (cs.map CrossingI.v)).toList cs d) =
      L.flatMap fun q => (q.2.zip q.2.tail).map fun e => ((fun k => if k = d then none else some (q.1 k)), (e.1.2, e.2.2)) := by
  have hN : ∀ x ∈ cs, Normalised x.v := fun x hx => (h.norm x hx).1
  obtain ⟨L, l1, l2, l3, l4⟩ := C19_all_pieces P.index P.shape (fun _ => rfl) (activeCells (cs.map CrossingI.v)).toList cs
    hN (fun x hx => (h.norm x hx).2) h.consistent h.fuse_spec.2 d
  refine ⟨L, l1, fun c => ?_, fun q hq => ?_, l4⟩
  · rw [l2]
    unfold Handled
    have hact : ∀ a, a ∈ (activeCells (cs.map CrossingI.v)).toList ↔ ∃ x ∈ cs, InClosedCell a x.v.p := by
      intro a
      rw [Finset.mem_toList, C20_active_iff _ (by
        intro v hv
        obtain ⟨x, hx, rfl⟩ := List.mem_map.1 hv
        exact hN x hx)]
      constructor
      · rintro ⟨v, hv, hc⟩
        obtain ⟨x, hx, rfl⟩ := List.mem_map.1 hv
        exact ⟨x, hx, hc⟩
      · rintro ⟨x, hx, hc⟩
        exact ⟨x.v, List.mem_map.2 ⟨x, hx, rfl⟩, hc⟩
    simp only [hact]
  · obtain ⟨a1, a2, a3, a4⟩ := l3 q hq
    obtain ⟨⟨hb, hd⟩, _⟩ := (l2 q.1).1 (List.mem_map.2 ⟨q, hq, rfl⟩)
    have hb1 : ∀ i, 0 ≤ Function.update q.1 d (q.1 d + 1) i ∧ Function.update q.1 d (q.1 d + 1) i ≤ P.shape i := by
      intro i
      by_cases hi : i = d
      · subst hi; rw [Function.update_self]; have := hb i; omega
      · rw [Function.update_of_ne hi]; exact hb i
    have node0 : P.Node cs (P.index.idx q.1) (linePt q.1 d 0) := Or.inr ⟨q.1, hb, rfl, linePt_zero _ _⟩
    have node1 : P.Node cs (P.index.idx (Function.update q.1 d (q.1 d + 1))) (linePt q.1 d 1) :=
      Or.inr ⟨_, hb1, rfl, linePt_one _ _⟩
    refine ⟨a1, a2, a3, fun t k => ?_⟩
    rw [a4]
    constructor
    · rintro (hh | hh | ⟨x, hx, ho, ht, hk⟩)
      · rw [Prod.mk.injEq] at hh; obtain ⟨rfl, rfl⟩ := hh
        exact ⟨le_rfl, by norm_num, node0⟩
      · rw [Prod.mk.injEq] at hh; obtain ⟨rfl, rfl⟩ := hh
        exact ⟨by norm_num, le_rfl, node1⟩
      · obtain ⟨t', h0, h1, he⟩ := (linePt_mem _ _ _).1 ho
        have : t = t' := by
          rw [he] at ht; unfold linePt at ht; rw [if_pos rfl] at ht; linarith
        subst this
        exact ⟨h0.le, h1.le, Or.inl ⟨x, hx, hk, he⟩⟩
    · rintro ⟨h0, h1, hnode⟩
      rcases h0.eq_or_lt with rfl | h0
      · left
        rw [(h.node_inj hnode node0).2 rfl]
      · rcases h1.eq_or_lt with rfl | h1
        · right; left
          rw [(h.node_inj hnode node1).2 rfl]
        · right; right
          rcases hnode with ⟨x, hx, hk, he⟩ | ⟨c', _, _, he⟩
          · exact ⟨x, hx, (linePt_mem _ _ _).2 ⟨t, h0, h1, he⟩, by rw [he]; unfold linePt; rw [if_pos rfl], hk⟩
          · exfalso
            have := congrFun he d
            unfold linePt at this
            rw [if_pos rfl] at this
            have e1 : ((q.1 d : ℤ) : ℚ) < (c' d : ℚ) := by linarith
            have e2 : (c' d : ℚ) < ((q.1 d + 1 : ℤ) : ℚ) := by push_cast; linarith
            have e1' : q.1 d < c' d := by exact_mod_cast e1
            have e2' : c' d < q.1 d + 1 := by exact_mod_cast e2
            omega

/-- two consecutive vertices of a grid edge. -/
structure IsGridPiece (P : Input n m) (cs : List (CrossingI 2)) (mk : Mask 2) (e : ℤ × ℤ) (d : Fin 2) (c : Coord 2) (s t : ℚ) : Prop where
  handled : Handled P cs d c
  s0 : 0 ≤ s
  st : s < t
  t1 : t ≤ 1
  fst : P.Node cs e.1 (linePt c d s)
  snd : P.Node cs e.2 (linePt c d t)
  none : ∀ k r, s < r → r < t → ¬ P.Node cs k (linePt c d r)
  mask : mk = fun k => if k = d then Option.none else some (c k)

theorem Run.grid_piece (h : Run P cs es) (mk : Mask 2) (e : ℤ × ℤ) :
    (mk, e) ∈ P.gridEdges cs ↔ ∃ d c s t, IsGridPiece P cs mk e d c s t := by
  unfold Input.gridEdges
  rw [List.mem_flatMap]
  constructor
  · rintro ⟨d, _, hd⟩
    obtain ⟨L, l1, l2, l3, l4⟩ := h.lines d
    rw [l4, List.mem_flatMap] at hd
    obtain ⟨q, hq, hd⟩ := hd
    obtain ⟨⟨⟨s, a⟩, t, b⟩, hz, he⟩ := List.mem_map.1 hd
    rw [Prod.mk.injEq] at he
    obtain ⟨rfl, rfl⟩ := he
    have hl := l3 q hq
    obtain ⟨m1, m2⟩ := ListAdj.zip_mem hz
    have n1 := (hl.mem s a).1 m1
    have n2 := (hl.mem t b).1 m2
    have hlt := ListAdj.zip_lt Prod.fst hl.sorted hz
    refine ⟨d, q.1, s, t, (l2 q.1).1 (List.mem_map.2 ⟨q, hq, rfl⟩), n1.1, hlt, n2.2.1, n1.2.2, n2.2.2, ?_, rfl⟩
    intro k r r1 r2 hk
    have := ListAdj.zip_none Prod.fst hl.sorted hz ((hl.mem r k).2 ⟨n1.1.trans r1.le, r2.le.trans n2.2.1, hk⟩) r1
    exact absurd (r2.trans_le this) (lt_irrefl _)
  · rintro ⟨d, c, s, t, g⟩
    obtain ⟨L, l1, l2, l3, l4⟩ := h.lines d
    refine ⟨d, List.mem_finRange d, ?_⟩
    obtain ⟨q, hq, hqc⟩ := List.mem_map.1 ((l2 c).2 g.handled)
    subst hqc
    have hl := l3 q hq
    rw [l4, List.mem_flatMap]
    refine ⟨q, hq, List.mem_map.2 ⟨((s, e.1), (t, e.2)), ?_, by rw [g.mask]⟩⟩
    refine ListAdj.of_none Prod.fst hl.sorted ((hl.mem _ _).2 ⟨g.s0, (g.st.trans_le g.t1).le, g.fst⟩)
      ((hl.mem _ _).2 ⟨(g.s0.trans_lt g.st).le, g.t1, g.snd⟩) g.st ?_
    rintro ⟨r, k⟩ hz hr
    dsimp only at hr ⊢
    by_contra hc
    push Not at hc
    exact g.none k r hr hc ((hl.mem r k).1 hz).2.2

/-! ## no vertex inside an edge -/

/-- what holds for the positions of the ends of every edge of the graph. -/
structure Seg (P : Input n m) (cs : List (CrossingI 2)) (p q : Pt 2) : Prop where
  ne : p ≠ q
  cell : ∃ c : Coord 2, InClosedCell c p ∧ InClosedCell c q
  free : ∀ k z r, P.Node cs k z → 0 < r → r < 1 → z ≠ segPt p q r

theorem Seg.swap {p q : Pt 2} (h : Seg P cs p q) : Seg P cs q p := by
  refine ⟨h.ne.symm, ?_, fun k z r hz r0 r1 he => ?_⟩
  · obtain ⟨c, a, b⟩ := h.cell; exact ⟨c, b, a⟩
  · rw [segPt_swap] at he
    exact h.free k z (1 - r) hz (by linarith) (by linarith) he

theorem IsPiece.seg (h : Run P cs es) (pl : P.Planar) {e : EdgeInput.MeshEdge 2} {i : Fin n} {s t : ℚ} (g : IsPiece P cs e i s t) :
    Seg P cs (P.seg i s) (P.seg i t) := by
  refine ⟨fun he => ?_, cell_of_no_cross _ _ s t g.s0 g.st g.t1 g.none, fun k z r hz r0 r1 he => ?_⟩
  · have := segPt_inj (h.adm.ne i) he
    have := g.st
    linarith
  · unfold Input.seg at he
    rw [segPt_segPt] at he
    have u0 : s < s + r * (t - s) := by have := mul_pos r0 (sub_pos.2 g.st); linarith
    have u1 : s + r * (t - s) < t := by nlinarith [g.st]
    generalize s + r * (t - s) = u at he u0 u1
    have v0 : 0 < u := g.s0.trans_lt u0
    have v1 : u < 1 := u1.trans_le g.t1
    rcases hz with ⟨y, hy, _, rfl⟩ | ⟨c, _, _, rfl⟩
    · rcases (h.positions y.v.p).1 ⟨y, hy, rfl⟩ with ⟨k', hk'⟩ | ⟨j, t', ht', he'⟩
      · exact pl.vertex k' i u v0 v1 (hk'.trans he)
      · by_cases hij : j = i
        · subst hij
          have := segPt_inj (h.adm.ne j) (he'.trans he)
          subst this
          exact g.none t' u0 u1 ht'
        · obtain ⟨d, d0, d1, _⟩ := ht'
          exact pl.edge j i t' u hij d0 d1 v0 v1 (he'.trans he)
    · have hne := h.adm.ne i
      have : ∃ d, P.V (P.E i).1 d ≠ P.V (P.E i).2 d := by
        by_contra hc
        push Not at hc
        exact hne (funext hc)
      obtain ⟨d, hd⟩ := this
      exact g.none u u0 u1 ⟨d, v0, v1, hd, c d, (congrFun he d).symm⟩

theorem segPt_linePt (c : Coord 2) (d : Fin 2) (s t r : ℚ) :
    segPt (linePt c d s) (linePt c d t) r = linePt c d (s + r * (t - s)) := by
  funext j; unfold segPt linePt; split_ifs <;> ring

theorem linePt_d (c : Coord 2) (d : Fin 2) (t : ℚ) : linePt c d t d = c d + t := by unfold linePt; rw [if_pos rfl]

theorem linePt_cell (c : Coord 2) (d : Fin 2) (t : ℚ) (h0 : 0 ≤ t) (h1 : t ≤ 1) : InClosedCell c (linePt c d t) := by
  intro j
  unfold linePt
  split_ifs <;> constructor <;> linarith

theorem IsGridPiece.seg {mk : Mask 2} {e : ℤ × ℤ} {d : Fin 2} {c : Coord 2} {s t : ℚ} (g : IsGridPiece P cs mk e d c s t) :
    Seg P cs (linePt c d s) (linePt c d t) := by
  refine ⟨fun he => ?_, ⟨c, linePt_cell c d s g.s0 (g.st.le.trans g.t1), linePt_cell c d t (g.s0.trans g.st.le) g.t1⟩,
    fun k z r hz r0 r1 he => ?_⟩
  · have := congrFun he d
    rw [linePt_d, linePt_d] at this
    have := g.st
    linarith
  · rw [segPt_linePt] at he
    rw [he] at hz
    exact g.none k _ (by have := mul_pos r0 (sub_pos.2 g.st); linarith) (by nlinarith [g.st]) hz

/-- **every edge of the graph.** -/
theorem Run.edge_seg (h : Run P cs es) (pl : P.Planar) {e : DEdge} (he : e ∈ P.graph cs es ∨ (e.2, e.1) ∈ P.graph cs es) :
    ∃ p q, P.Node cs e.1 p ∧ P.Node cs e.2 q ∧ Seg P cs p q := by
  have key : ∀ f ∈ P.graph cs es, ∃ p q, P.Node cs f.1 p ∧ P.Node cs f.2 q ∧ Seg P cs p q := by
    intro f hf
    unfold Input.graph at hf
    rcases List.mem_append.1 hf with hf | hf
    · obtain ⟨x, hx, rfl⟩ := List.mem_map.1 hf
      obtain ⟨i, s, t, g⟩ := h.piece hx
      rcases g.ends with ⟨a, b⟩ | ⟨a, b⟩
      · exact ⟨_, _, a, b, g.seg h pl⟩
      · exact ⟨_, _, b, a, (g.seg h pl).swap⟩
    · obtain ⟨⟨mk, x⟩, hx, rfl⟩ := List.mem_map.1 hf
      obtain ⟨d, c, s, t, g⟩ := (h.grid_piece mk x).1 hx
      exact ⟨_, _, g.fst, g.snd, g.seg⟩
  rcases he with he | he
  · exact key e he
  · obtain ⟨p, q, a, b, hs⟩ := key _ he
    exact ⟨q, p, b, a, hs.swap⟩

end Pipe2
end Mandoline
