import Verif.Pipe2.Segs
import Verif.Face2.Select

/-!
# The hypotheses of C76 hold for every admissible planar input
-/
namespace Mandoline
namespace Pipe2
open Sched Planar

variable {n m : ℕ} {P : Input n m} {cs : List (CrossingI 2)} {es : List (EdgeInput.MeshEdge 2)} {ci : Coord 2 → ℤ}

theorem Run.pos (h : Run P cs es) {k : ℤ} {x : Pt 2} (hx : P.Node cs k x) : (P.gen cs es ci).pos k = (x 0, x 1) := by
  unfold Gen2.pos
  show ((P.vertexOf cs k.toNat).p 0, (P.vertexOf cs k.toNat).p 1) = _
  rw [(h.node_pos hx).2.1]

theorem Run.normalised (h : Run P cs es) (i : ℕ) : Normalised ((P.gen cs es ci).V i) := by
  show Normalised (P.vertexOf cs i)
  have hz : Normalised (⟨fun _ => 0, fun _ => 0, fun _ => false⟩ : Vertex 2) := fun j => by
    show (0 : ℚ) ≤ 0 ∧ (0 : ℚ) < 1; norm_num
  unfold Input.vertexOf
  split_ifs
  · intro j; show (0 : ℚ) ≤ 0 ∧ (0 : ℚ) < 1; norm_num
  · rcases hb : bakeVertices P.index.size cs (i - P.index.size) with _ | w
    · exact hz
    · show Normalised w
      unfold bakeVertices at hb
      have gen : ∀ (l : List (CrossingI 2)) (o : Option (Vertex 2)), (∀ u, o = some u → Normalised u) → (∀ z ∈ l, z ∈ cs) →
          ∀ u, l.foldl (fun cur c => if 0 ≤ c.index - P.index.size ∧ c.index - P.index.size = (i : ℤ) - P.index.size then some c.v else cur) o = some u →
          Normalised u := by
        intro l
        induction l with
        | nil => intro o ho _ u hu; exact ho u hu
        | cons z l ih =>
          intro o ho hl u hu
          rw [List.foldl_cons] at hu
          refine ih _ ?_ (fun z' hz' => hl z' (List.mem_cons_of_mem _ hz')) u hu
          intro u' hu'
          split_ifs at hu' with hc
          · cases hu'; exact (h.norm z (hl z List.mem_cons_self)).1
          · exact ho u' hu'
      exact gen cs none (by simp) (fun z hz => hz) w hb

theorem inCell_iff (c : Coord 2) (x : Pt 2) : InCell c (x 0, x 1) ↔ InClosedCell c x := by
  unfold InCell InClosedCell
  constructor
  · rintro ⟨h1, h2⟩ i
    match i with
    | 0 => exact h1
    | 1 => exact h2
  · intro h; exact ⟨h 0, h 1⟩

theorem pt_ext {x y : Pt 2} (h0 : x 0 = y 0) (h1 : x 1 = y 1) : x = y := by
  funext j
  match j with
  | 0 => exact h0
  | 1 => exact h1

/-- the directed edges the collapser knows. -/
theorem mem_known (e : DEdge) : e ∈ (FaceCollapser.make (P.graph cs es)).edgeList ↔
    e ∈ P.graph cs es ∨ (e.2, e.1) ∈ P.graph cs es := (FaceCollapser.make_inv _).2.2.2.2.2.1 e

/-- neighbours of a vertex in the same direction are the same. -/
theorem Run.same_dir (h : Run P cs es) (pl : P.Planar) {a b c : ℤ}
    (hb : (a, b) ∈ (FaceCollapser.make (P.graph cs es)).edgeList) (hc : (a, c) ∈ (FaceCollapser.make (P.graph cs es)).edgeList)
    (hs : SameDir (dirTo (P.gen cs es ci).pos a b) (dirTo (P.gen cs es ci).pos a c)) : b = c := by
  obtain ⟨p, q, np, nq, sq⟩ := h.edge_seg pl ((mem_known _).1 hb)
  obtain ⟨p', q', np', nq', sq'⟩ := h.edge_seg pl ((mem_known _).1 hc)
  dsimp only at np nq np' nq'
  have hpp := (h.node_inj np np').1 rfl
  subst hpp
  refine (h.node_inj nq nq').2 ?_
  unfold dirTo at hs
  rw [h.pos np, h.pos nq, h.pos nq'] at hs
  obtain ⟨h1, h2⟩ := hs
  unfold cross2 at h1
  unfold dot2 at h2
  dsimp only at h1 h2
  -- `q - p = lam (q' - p)`
  have hne' : (q' 0 - p 0) * (q' 0 - p 0) + (q' 1 - p 1) * (q' 1 - p 1) ≠ 0 := by
    intro h0
    have e0 : q' 0 - p 0 = 0 := by nlinarith [mul_self_nonneg (q' 0 - p 0), mul_self_nonneg (q' 1 - p 1)]
    have e1 : q' 1 - p 1 = 0 := by nlinarith [mul_self_nonneg (q' 0 - p 0), mul_self_nonneg (q' 1 - p 1)]
    exact sq'.ne (pt_ext (by linarith) (by linarith))
  have hpos' : 0 < (q' 0 - p 0) * (q' 0 - p 0) + (q' 1 - p 1) * (q' 1 - p 1) :=
    lt_of_le_of_ne (add_nonneg (mul_self_nonneg _) (mul_self_nonneg _)) (Ne.symm hne')
  obtain ⟨lam, hl0, e0, e1⟩ : ∃ lam : ℚ, 0 < lam ∧ q 0 - p 0 = lam * (q' 0 - p 0) ∧ q 1 - p 1 = lam * (q' 1 - p 1) := by
    refine ⟨((q 0 - p 0) * (q' 0 - p 0) + (q 1 - p 1) * (q' 1 - p 1)) / ((q' 0 - p 0) * (q' 0 - p 0) + (q' 1 - p 1) * (q' 1 - p 1)),
      div_pos h2 hpos', ?_, ?_⟩
    · rw [div_mul_eq_mul_div, eq_div_iff hne']; linear_combination (q' 1 - p 1) * h1
    · rw [div_mul_eq_mul_div, eq_div_iff hne']; linear_combination - (q' 0 - p 0) * h1
  rcases lt_trichotomy lam 1 with hl | hl | hl
  · exact absurd (pt_ext (by unfold segPt; linarith) (by unfold segPt; linarith)) (sq'.free b q lam nq hl0 hl)
  · subst hl
    exact pt_ext (by linarith) (by linarith)
  · exfalso
    have hl' : lam ≠ 0 := by linarith
    have hi : lam * (1 / lam) = 1 := by field_simp
    refine sq.free c q' (1 / lam) nq' (by positivity) ((div_lt_one hl0).2 hl) (pt_ext ?_ ?_)
    · unfold segPt; linear_combination (- (1 / lam)) * e0 + (p 0 - q' 0) * hi
    · unfold segPt; linear_combination (- (1 / lam)) * e1 + (p 1 - q' 1) * hi

/-- **C84.** The planar graph of the cut edges satisfies the hypotheses of C76 on the graph. -/
theorem C84_planar_graph (h : Run P cs es) (pl : P.Planar) {ord : ℤ → List ℤ}
    (perm : ∀ a, (ord a).Perm ((FaceCollapser.make (P.graph cs es)).ring a))
    (sort : ∀ a, (ord a).Pairwise fun b c => angleLt (dirTo (P.gen cs es ci).pos a c) (dirTo (P.gen cs es ci).pos a b) = false) :
    PlanarGraph (P.graph cs es) (P.gen cs es ci).pos ord where
  perm := perm
  sort := sort
  ne := by
    intro e he
    obtain ⟨p, q, np, nq, sq⟩ := h.edge_seg pl ((mem_known _).1 he)
    rw [h.pos np, h.pos nq]
    intro hh
    rw [Prod.mk.injEq] at hh
    exact sq.ne (pt_ext hh.1 hh.2)
  dist := fun a b c hb hc hbc hs => hbc (h.same_dir pl hb hc hs)
  cell := by
    intro e he
    obtain ⟨p, q, np, nq, sq⟩ := h.edge_seg pl ((mem_known _).1 he)
    rw [h.pos np, h.pos nq]
    obtain ⟨c, a, b⟩ := sq.cell
    exact ⟨c, (inCell_iff _ _).2 a, (inCell_iff _ _).2 b⟩

/-! ## the sides of active cells -/

/-- `c` is a cell of the grid that contains a crossing. -/
def CutCellAt (P : Input n m) (cs : List (CrossingI 2)) (c : Coord 2) : Prop :=
  (∀ i, 0 ≤ c i ∧ c i < P.shape i) ∧ ∃ x ∈ cs, InClosedCell c x.v.p

theorem Run.active_iff (h : Run P cs es) (c : Coord 2) : (P.gen cs es ci).Active c ↔ CutCellAt P cs c := by
  have hsp := C20_mask_spec P.shape (cs.map CrossingI.v) (by
    intro v hv
    obtain ⟨x, hx, rfl⟩ := List.mem_map.1 hv
    exact (h.norm x hx).1) c
  have hx : (∃ v ∈ cs.map CrossingI.v, InClosedCell c v.p) ↔ ∃ x ∈ cs, InClosedCell c x.v.p := by
    constructor
    · rintro ⟨v, hv, hc⟩
      obtain ⟨x, hx, rfl⟩ := List.mem_map.1 hv
      exact ⟨x, hx, hc⟩
    · rintro ⟨x, hx, hc⟩
      exact ⟨x.v, List.mem_map.2 ⟨x, hx, rfl⟩, hc⟩
  rw [hx] at hsp
  unfold Gen2.Active Gen2.InGrid CutCellAt
  show (∀ i, 0 ≤ c i ∧ c i < P.shape i) ∧ (activeGridCellMask P.shape (cs.map CrossingI.v) c).getD true = false ↔ _
  rw [← hsp.1]
  constructor
  · rintro ⟨_, h2⟩
    rcases hm : activeGridCellMask P.shape (cs.map CrossingI.v) c with _ | b
    · rw [hm] at h2; cases h2
    · rw [hm] at h2; rw [show b = false from h2]
  · intro h2
    exact ⟨(hsp.1.1 h2).1, by rw [h2]; rfl⟩

/-- the side of `c` along `d` at the lower (`o = 0`) or upper (`o = 1`) end of the other axis. -/
def sideOf (c : Coord 2) (d : Fin 2) (o : ℤ) : Coord 2 := fun k => if k = d then c k else c k + o

theorem handled_side {c : Coord 2} (hc : CutCellAt P cs c) (d : Fin 2) (o : ℤ) (ho : o = 0 ∨ o = 1) :
    Handled P cs d (sideOf c d o) := by
  obtain ⟨hb, hx⟩ := hc
  refine ⟨⟨fun i => ?_, ?_⟩, Or.inr ⟨c, hx, hb, ?_, fun j => ?_⟩⟩
  · have := hb i
    unfold sideOf
    split_ifs <;> omega
  · unfold sideOf; rw [if_pos rfl]; exact (hb d).2
  · unfold sideOf; rw [if_pos rfl]
  · unfold sideOf
    split_ifs
    · exact Or.inl rfl
    · rcases ho with rfl | rfl
      · left; omega
      · right; rfl

/-- from a vertex on a cut-up grid edge, not its upper end, a piece of it leads up. -/
theorem Run.up (h : Run P cs es) {d : Fin 2} {c : Coord 2} (hc : Handled P cs d c) {k : ℤ} {s : ℚ} (s0 : 0 ≤ s) (s1 : s < 1)
    (hk : P.Node cs k (linePt c d s)) : ∃ w t mk, IsGridPiece P cs mk (k, w) d c s t := by
  obtain ⟨L, l1, l2, l3, l4⟩ := h.lines d
  obtain ⟨q, hq, rfl⟩ := List.mem_map.1 ((l2 c).2 hc)
  have hl := l3 q hq
  obtain ⟨⟨t, w⟩, hz⟩ := ListAdj.succ Prod.fst hl.sorted ((hl.mem s k).2 ⟨s0, s1.le, hk⟩) hl.last s1
  obtain ⟨_, m2⟩ := ListAdj.zip_mem hz
  have hlt := ListAdj.zip_lt Prod.fst hl.sorted hz
  have n2 := (hl.mem t w).1 m2
  refine ⟨w, t, _, hc, s0, hlt, n2.2.1, hk, n2.2.2, ?_, rfl⟩
  intro k' r r1 r2 hk'
  have := ListAdj.zip_none Prod.fst hl.sorted hz ((hl.mem r k').2 ⟨s0.trans r1.le, r2.le.trans n2.2.1, hk'⟩) r1
  exact absurd (r2.trans_le this) (lt_irrefl _)

/-- and down, unless it is the lower end. -/
theorem Run.down (h : Run P cs es) {d : Fin 2} {c : Coord 2} (hc : Handled P cs d c) {k : ℤ} {t : ℚ} (t0 : 0 < t) (t1 : t ≤ 1)
    (hk : P.Node cs k (linePt c d t)) : ∃ w s mk, IsGridPiece P cs mk (w, k) d c s t := by
  obtain ⟨L, l1, l2, l3, l4⟩ := h.lines d
  obtain ⟨q, hq, rfl⟩ := List.mem_map.1 ((l2 c).2 hc)
  have hl := l3 q hq
  obtain ⟨⟨s, w⟩, hz⟩ := ListAdj.pred Prod.fst hl.sorted ((hl.mem t k).2 ⟨t0.le, t1, hk⟩) hl.head t0
  obtain ⟨m1, _⟩ := ListAdj.zip_mem hz
  have hlt := ListAdj.zip_lt Prod.fst hl.sorted hz
  have n1 := (hl.mem s w).1 m1
  refine ⟨w, s, _, hc, n1.1, hlt, t1, n1.2.2, hk, ?_, rfl⟩
  intro k' r r1 r2 hk'
  have := ListAdj.zip_none Prod.fst hl.sorted hz ((hl.mem r k').2 ⟨n1.1.trans r1.le, r2.le.trans t1, hk'⟩) r1
  exact absurd (r2.trans_le this) (lt_irrefl _)

theorem IsGridPiece.mem (h : Run P cs es) {mk : Mask 2} {e : ℤ × ℤ} {d : Fin 2} {c : Coord 2} {s t : ℚ} (g : IsGridPiece P cs mk e d c s t) :
    e ∈ P.graph cs es :=
  List.mem_append_right _ (List.mem_map.2 ⟨(mk, e), (h.grid_piece mk e).2 ⟨d, c, s, t, g⟩, rfl⟩)

theorem side_0 (c : Coord 2) (o : ℤ) (x : Pt 2) (h : x 1 = c 1 + o) : x = linePt (sideOf c 0 o) 0 (x 0 - c 0) := by
  refine pt_ext ?_ ?_
  · show x 0 = (c 0 : ℚ) + (x 0 - c 0); ring
  · show x 1 = ((c 1 + o : ℤ) : ℚ); push_cast; exact h

theorem side_1 (c : Coord 2) (o : ℤ) (x : Pt 2) (h : x 0 = c 0 + o) : x = linePt (sideOf c 1 o) 1 (x 1 - c 1) := by
  refine pt_ext ?_ ?_
  · show x 0 = ((c 0 + o : ℤ) : ℚ); push_cast; exact h
  · show x 1 = (c 1 : ℚ) + (x 1 - c 1); ring

theorem linePt_0_0 (c : Coord 2) (o : ℤ) (t : ℚ) : linePt (sideOf c 0 o) 0 t 0 = c 0 + t := rfl
theorem linePt_0_1 (c : Coord 2) (o : ℤ) (t : ℚ) : linePt (sideOf c 0 o) 0 t 1 = c 1 + o := by
  show ((c 1 + o : ℤ) : ℚ) = _; push_cast; rfl
theorem linePt_1_0 (c : Coord 2) (o : ℤ) (t : ℚ) : linePt (sideOf c 1 o) 1 t 0 = c 0 + o := by
  show ((c 0 + o : ℤ) : ℚ) = _; push_cast; rfl
theorem linePt_1_1 (c : Coord 2) (o : ℤ) (t : ℚ) : linePt (sideOf c 1 o) 1 t 1 = c 1 + t := rfl

/-- **C84.** The boundary of every active cell is part of the graph. -/
theorem C84_framed (h : Run P cs es) (pl : P.Planar) (c : Coord 2) (hc : (P.gen cs es ci).Active c) :
    Framed (P.gen cs es ci).pos (FaceCollapser.make (P.graph cs es)).edgeList c := by
  intro a b hab hin
  obtain ⟨p, q, np, nq, sq⟩ := h.edge_seg pl ((mem_known _).1 hab)
  dsimp only at np
  have hcc := h.active_iff (ci := ci) c |>.1 hc
  rw [h.pos np] at hin ⊢
  obtain ⟨⟨a1, a2⟩, a3, a4⟩ := hin
  dsimp only at a1 a2 a3 a4 ⊢
  refine ⟨fun e1 e2 => ?_, fun e1 e2 => ?_, fun e1 e2 => ?_, fun e1 e2 => ?_⟩
  · have hp := side_0 c 0 p (by push_cast; linarith)
    rw [hp] at np
    obtain ⟨w, t, mk, g⟩ := h.up (handled_side hcc 0 0 (Or.inl rfl)) (by linarith) (by linarith) np
    refine ⟨w, (mem_known _).2 (Or.inl (g.mem h)), ?_⟩
    rw [h.pos g.snd, linePt_0_0, linePt_0_1]
    have := g.st
    constructor <;> push_cast <;> linarith
  · have hp := side_1 c 1 p (by push_cast; linarith)
    rw [hp] at np
    obtain ⟨w, t, mk, g⟩ := h.up (handled_side hcc 1 1 (Or.inr rfl)) (by linarith) (by linarith) np
    refine ⟨w, (mem_known _).2 (Or.inl (g.mem h)), ?_⟩
    rw [h.pos g.snd, linePt_1_0, linePt_1_1]
    have := g.st
    constructor <;> push_cast <;> linarith
  · have hp := side_0 c 1 p (by push_cast; linarith)
    rw [hp] at np
    obtain ⟨w, t, mk, g⟩ := h.down (handled_side hcc 0 1 (Or.inr rfl)) (by linarith) (by linarith) np
    refine ⟨w, (mem_known _).2 (Or.inr (g.mem h)), ?_⟩
    rw [h.pos g.fst, linePt_0_0, linePt_0_1]
    have := g.st
    constructor <;> push_cast <;> linarith
  · have hp := side_1 c 0 p (by push_cast; linarith)
    rw [hp] at np
    obtain ⟨w, t, mk, g⟩ := h.down (handled_side hcc 1 0 (Or.inl rfl)) (by linarith) (by linarith) np
    refine ⟨w, (mem_known _).2 (Or.inr (g.mem h)), ?_⟩
    rw [h.pos g.fst, linePt_1_0, linePt_1_1]
    have := g.st
    constructor <;> push_cast <;> linarith

/-- **C84.** A cell is active iff it is in the grid and the closed cell meets the input. -/
theorem C84_active_iff (h : Run P cs es) (c : Coord 2) : (P.gen cs es ci).Active c ↔
    (∀ i, 0 ≤ c i ∧ c i < P.shape i) ∧ ((∃ k, InClosedCell c (P.V k)) ∨ ∃ i t, 0 ≤ t ∧ t ≤ 1 ∧ InClosedCell c (P.seg i t)) := by
  rw [h.active_iff]
  unfold CutCellAt
  refine and_congr_right fun _ => ?_
  constructor
  · rintro ⟨x, hx, hc⟩
    rcases (h.positions x.v.p).1 ⟨x, hx, rfl⟩ with ⟨k, hk⟩ | ⟨i, t, ⟨d, hd⟩, he⟩
    · exact Or.inl ⟨k, by rw [hk]; exact hc⟩
    · exact Or.inr ⟨i, t, hd.1.le, hd.2.1.le, by rw [he]; exact hc⟩
  · intro hx
    suffices ∃ y, ((∃ k, P.V k = y) ∨ ∃ i t, Crosses (P.V (P.E i).1) (P.V (P.E i).2) t ∧ P.seg i t = y) ∧ InClosedCell c y by
      obtain ⟨y, hy, hc⟩ := this
      obtain ⟨x, hx, rfl⟩ := (h.positions y).2 hy
      exact ⟨x, hx, hc⟩
    rcases hx with ⟨k, hk⟩ | ⟨i, u, u0, u1, hu⟩
    · exact ⟨_, Or.inl ⟨k, rfl⟩, hk⟩
    · rcases u1.eq_or_lt with rfl | u1
      · exact ⟨_, Or.inl ⟨(P.E i).2, (segPt_one _ _).symm⟩, hu⟩
      by_cases hcr : Crosses (P.V (P.E i).1) (P.V (P.E i).2) u
      · exact ⟨_, Or.inr ⟨i, u, hcr, rfl⟩, hu⟩
      · -- the last crossing before `u`
        obtain ⟨s, s0, su, hs, hn⟩ : ∃ s, 0 ≤ s ∧ s ≤ u ∧ (s = 0 ∨ Crosses (P.V (P.E i).1) (P.V (P.E i).2) s) ∧
            ∀ r, s < r → r ≤ u → ¬ Crosses (P.V (P.E i).1) (P.V (P.E i).2) r := by
          obtain ⟨ts, hts, hsorted, _⟩ := C15_path ((i : ℕ) : ℤ) P.edgeInput.grid (P.edgeInput.fst i) (P.edgeInput.snd i)
            ((ok h.adm).norm _) ((ok h.adm).norm _) ((ok h.adm).sep i)
          rw [fst_p, snd_p] at hts
          have : ∀ l : List ℚ, ∃ s, 0 ≤ s ∧ s ≤ u ∧ (s = 0 ∨ s ∈ l) ∧ ∀ r ∈ l, s < r → ¬ r ≤ u := by
            intro l
            induction l with
            | nil => exact ⟨0, le_rfl, u0, Or.inl rfl, by simp⟩
            | cons x l ih =>
              obtain ⟨s, h0, h1, h2, h3⟩ := ih
              by_cases hxx : s < x ∧ x ≤ u
              · refine ⟨x, by linarith, hxx.2, Or.inr (by simp), fun r hr hlt => ?_⟩
                rcases List.mem_cons.1 hr with rfl | hr
                · exact absurd hlt (lt_irrefl _)
                · exact h3 r hr (by linarith)
              · refine ⟨s, h0, h1, h2.imp id (List.mem_cons_of_mem _), fun r hr hlt => ?_⟩
                rcases List.mem_cons.1 hr with rfl | hr
                · exact fun hle => hxx ⟨hlt, hle⟩
                · exact h3 r hr hlt
          obtain ⟨s, h0, h1, h2, h3⟩ := this ts
          exact ⟨s, h0, h1, h2.imp id (fun hh => (hts s).1 hh), fun r r1 r2 hc => h3 r ((hts r).2 hc) r1 r2⟩
        refine ⟨P.seg i s, ?_, fun j => ?_⟩
        · rcases hs with rfl | hs
          · exact Or.inl ⟨(P.E i).1, (segPt_zero _ _).symm⟩
          · exact Or.inr ⟨i, s, hs, rfl⟩
        · rcases su.eq_or_lt with rfl | su
          · exact hu j
          obtain ⟨h1, h2⟩ := hu j
          by_cases hab : P.V (P.E i).1 j = P.V (P.E i).2 j
          · have e : ∀ r, P.seg i r j = P.V (P.E i).1 j := fun r => by unfold Input.seg segPt; rw [← hab]; ring
            rw [e] at h1 h2 ⊢
            exact ⟨h1, h2⟩
          · have e : ∀ r, P.seg i r j = P.V (P.E i).1 j + r * (P.V (P.E i).2 j - P.V (P.E i).1 j) := fun r => by
              unfold Input.seg segPt; ring
            have hd : P.V (P.E i).2 j - P.V (P.E i).1 j ≠ 0 := fun hh => hab (by linarith)
            -- no integer strictly between, or at `u`
            have cross : ∀ k : ℤ, ∀ r, s < r → r ≤ u → P.seg i r j ≠ k := by
              intro k r r1 r2 hk
              exact hn r r1 r2 ⟨j, by linarith, by linarith, hab, k, hk⟩
            have root : ∀ k : ℤ, P.seg i (((k : ℚ) - P.V (P.E i).1 j) / (P.V (P.E i).2 j - P.V (P.E i).1 j)) j = k := by
              intro k; rw [e]; field_simp; ring
            constructor
            · by_contra hc
              push Not at hc
              have hr := root (c j)
              generalize ((c j : ℚ) - P.V (P.E i).1 j) / (P.V (P.E i).2 j - P.V (P.E i).1 j) = r at hr
              have hr' := hr
              rw [e] at h1 hc hr
              have hpos : 0 < P.V (P.E i).2 j - P.V (P.E i).1 j := by nlinarith
              exact cross (c j) r (by nlinarith) (by nlinarith) hr'
            · by_contra hc
              push Not at hc
              have hr := root (c j + 1)
              generalize (((c j + 1 : ℤ) : ℚ) - P.V (P.E i).1 j) / (P.V (P.E i).2 j - P.V (P.E i).1 j) = r at hr
              have hr' := hr
              push_cast at hr
              rw [e] at h2 hc hr
              have hneg : P.V (P.E i).2 j - P.V (P.E i).1 j < 0 := by nlinarith
              exact cross (c j + 1) r (by nlinarith) (by nlinarith) hr'

end Pipe2
end Mandoline
