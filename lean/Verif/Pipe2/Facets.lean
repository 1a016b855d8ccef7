import Verif.Pipe2.Loops2
import Verif.Face2.Defects

/-!
# C84: the cut edges and the boundary operator, from the input
-/
namespace Mandoline
namespace Pipe2
open Sched Planar

variable {n m : ℕ} {P : Input n m} {cs : List (CrossingI 2)} {es : List (EdgeInput.MeshEdge 2)} {ci : Coord 2 → ℤ}

theorem edgeMask_isSome (i : Fin n) (k : Fin 2) :
    (edgeMask (P.edgeInput.fst i) (P.edgeInput.snd i) k).isSome = true ↔
      ∃ z : ℤ, P.V (P.E i).1 k = z ∧ P.V (P.E i).2 k = z := by
  have h1 : ∀ z, (P.edgeInput.fst i).mask k = some z ↔ P.V (P.E i).1 k = z := fun z => by
    rw [← fst_p]; exact vertex_mask_eq_some (P.edgeInput.fst i) (Vertex.fromVertex_normalised _) k z
  have h2 : ∀ z, (P.edgeInput.snd i).mask k = some z ↔ P.V (P.E i).2 k = z := fun z => by
    rw [← snd_p]; exact vertex_mask_eq_some (P.edgeInput.snd i) (Vertex.fromVertex_normalised _) k z
  unfold edgeMask Mask.and Mask.andEntry
  rcases e1 : (P.edgeInput.fst i).mask k with _ | z1 <;> rcases e2 : (P.edgeInput.snd i).mask k with _ | z2
  · simp only [Option.isSome_none, Bool.false_and, Bool.false_eq_true, if_false, false_iff, not_exists, not_and]
    intro z hz; rw [← h1, e1] at hz; cases hz
  · simp only [Option.isSome_none, Bool.false_and, Bool.false_eq_true, if_false, false_iff, not_exists, not_and]
    intro z hz; rw [← h1, e1] at hz; cases hz
  · simp only [Option.isSome_none, Bool.and_false, Bool.false_and, Bool.false_eq_true, if_false, false_iff, not_exists, not_and]
    intro z _ hz; rw [← h2, e2] at hz; cases hz
  · by_cases hz : z1 = z2
    · subst hz
      simp only [Option.isSome_some, Bool.and_self, beq_self_eq_true, if_true, true_iff]
      exact ⟨z1, (h1 z1).1 e1, (h2 z1).1 e2⟩
    · have : (some z1 == some z2) = false := by simpa using hz
      rw [this]
      simp only [Bool.and_false, Bool.false_eq_true, if_false, Option.isSome_none, false_iff, not_exists, not_and]
      intro z a b
      rw [← h1, e1] at a
      rw [← h2, e2] at b
      cases a; cases b; exact hz rfl

theorem other_axis {k d : Fin 2} (h : k ≠ d) (j : Fin 2) : j = k ∨ j = d := by
  match k, d, j with
  | 0, 0, _ => exact absurd rfl h
  | 1, 1, _ => exact absurd rfl h
  | 0, 1, 0 => exact Or.inl rfl
  | 0, 1, 1 => exact Or.inr rfl
  | 1, 0, 0 => exact Or.inr rfl
  | 1, 0, 1 => exact Or.inl rfl

/-- a grid edge that a crossing touches is a side of an active cell of the grid. -/
theorem Run.touch (h : Run P cs es) {d : Fin 2} {c : Coord 2} (hb : ∀ i, 0 ≤ c i ∧ c i ≤ P.shape i) (hd : c d < P.shape d)
    {x : CrossingI 2} (hx : x ∈ cs) {t : ℚ} (t0 : 0 ≤ t) (t1 : t ≤ 1) (he : x.v.p = linePt c d t) :
    ∃ a, CutCellAt P cs a ∧ c d = a d ∧ ∀ j, c j = a j ∨ c j = a j + 1 := by
  let a : Coord 2 := fun j => if j = d then c j else if c j < P.shape j then c j else c j - 1
  have ha : ∀ j, c j = a j ∨ c j = a j + 1 := by
    intro j
    show c j = (if j = d then c j else if c j < P.shape j then c j else c j - 1) ∨ c j = (if j = d then c j else if c j < P.shape j then c j else c j - 1) + 1
    split_ifs
    · exact Or.inl rfl
    · exact Or.inl rfl
    · right; omega
  refine ⟨a, ⟨fun j => ?_, x, hx, fun j => ?_⟩, ?_, ha⟩
  · have h1 := hb j
    have h2 := h.adm.pos j
    show 0 ≤ (if j = d then c j else if c j < P.shape j then c j else c j - 1) ∧ (if j = d then c j else if c j < P.shape j then c j else c j - 1) < P.shape j
    by_cases hj : j = d
    · subst hj; rw [if_pos rfl]; exact ⟨h1.1, hd⟩
    · rw [if_neg hj]; split_ifs <;> omega
  · rw [he]
    unfold linePt
    by_cases hj : j = d
    · have hv : a j = c j := by show (if j = d then _ else _) = _; rw [if_pos hj]
      rw [if_pos hj, hv]; constructor <;> linarith
    · rw [if_neg hj]
      rcases ha j with hh | hh
      · rw [← hh]; constructor <;> linarith
      · rw [hh]; push_cast; constructor <;> linarith
  · show c d = if d = d then c d else _
    rw [if_pos rfl]

/-- every cut-up grid edge is a side of an active cell of the grid. -/
theorem Handled.side (h : Run P cs es) {d : Fin 2} {c : Coord 2} (hc : Handled P cs d c) :
    ∃ a, CutCellAt P cs a ∧ ∀ t, 0 ≤ t → t ≤ 1 → InClosedCell a (linePt c d t) := by
  have key : ∃ a, CutCellAt P cs a ∧ c d = a d ∧ ∀ j, c j = a j ∨ c j = a j + 1 := by
    obtain ⟨⟨hb, hd⟩, ⟨x, hx, ho⟩ | ⟨a, hx, ha, h1, h2⟩⟩ := hc
    · obtain ⟨t, t0, t1, he⟩ := (linePt_mem _ _ _).1 ho
      exact h.touch hb hd hx t0.le t1.le he
    · exact ⟨a, ⟨ha, hx⟩, h1, h2⟩
  obtain ⟨a, ha, h1, h2⟩ := key
  refine ⟨a, ha, fun t t0 t1 j => ?_⟩
  unfold linePt
  by_cases hj : j = d
  · subst hj; rw [if_pos rfl, h1]; constructor <;> linarith
  · rw [if_neg hj]
    rcases h2 j with hh | hh
    · rw [hh]; constructor <;> linarith
    · rw [hh]; push_cast; constructor <;> linarith

/-- two vertices on a grid line, one of them a crossing, with nothing between them, are joined by a grid edge. -/
theorem Run.line_piece (h : Run P cs es) {a b : ℤ} {p q : Pt 2} (na : P.Node cs a p) (nb : P.Node cs b q) (sg : Seg P cs p q)
    {k d : Fin 2} (hkd : k ≠ d) (z : ℤ) (hp : p k = z) (hq : q k = z) (hlt : p d < q d) (hcr : ∃ x ∈ cs, x.v.p = p ∨ x.v.p = q) :
    ∃ mk c s t, IsGridPiece P cs mk (a, b) d c s t := by
  obtain ⟨c', hc1, hc2⟩ := sg.cell
  let c : Coord 2 := fun j => if j = d then c' j else z
  have cd : c d = c' d := if_pos rfl
  have ck : c k = z := if_neg hkd
  have ep : p = linePt c d (p d - c' d) := by
    funext j
    rcases other_axis hkd j with rfl | rfl
    · unfold linePt; rw [if_neg hkd, hp, ck]
    · rw [linePt_d, cd]; ring
  have eq : q = linePt c d (q d - c' d) := by
    funext j
    rcases other_axis hkd j with rfl | rfl
    · unfold linePt; rw [if_neg hkd, hq, ck]
    · rw [linePt_d, cd]; ring
  have bp := h.node_box na
  have bq := h.node_box nb
  have hb : ∀ i, 0 ≤ c i ∧ c i ≤ P.shape i := by
    intro i
    rcases other_axis hkd i with rfl | rfl
    · rw [ck]
      have := bp i
      rw [hp] at this
      exact ⟨by exact_mod_cast this.1, by exact_mod_cast this.2⟩
    · rw [cd]
      have h1 := (bp i).1
      have h2 := (hc1 i)
      have h3 := (bq i).2
      have h4 := (hc2 i)
      have g1 : (-1 : ℚ) < c' i := by linarith
      have g2 : (c' i : ℚ) < P.shape i := by linarith
      have g1' : -1 < c' i := by exact_mod_cast g1
      have g2' : c' i < P.shape i := by exact_mod_cast g2
      omega
  have hd : c d < P.shape d := by
    rw [cd]
    have h2 := (hc1 d)
    have h3 := (bq d).2
    have g2 : (c' d : ℚ) < P.shape d := by linarith
    exact_mod_cast g2
  have r1 := hc1 d
  have r2 := hc2 d
  refine ⟨_, c, p d - c' d, q d - c' d, ⟨⟨hb, hd⟩, Or.inr ?_⟩, by linarith, by linarith, by linarith, by rw [← ep]; exact na,
    by rw [← eq]; exact nb, ?_, rfl⟩
  · obtain ⟨x, hx, hxp | hxp⟩ := hcr
    · obtain ⟨a, ha, h1, h2⟩ := h.touch hb hd hx (t := p d - c' d) (by linarith) (by linarith) (hxp.trans ep)
      exact ⟨a, ha.2, ha.1, h1, h2⟩
    · obtain ⟨a, ha, h1, h2⟩ := h.touch hb hd hx (t := q d - c' d) (by linarith) (by linarith) (hxp.trans eq)
      exact ⟨a, ha.2, ha.1, h1, h2⟩
  · intro k' r r1' r2' hk'
    refine sg.free k' _ ((r - (p d - c' d)) / (q d - p d)) hk' (div_pos (by linarith) (by linarith))
      ((div_lt_one (by linarith)).2 (by linarith)) ?_
    conv_rhs => rw [ep, eq]
    rw [segPt_linePt]
    congr 1
    have : q d - p d ≠ 0 := by linarith
    have e : q d - c' d - (p d - c' d) = q d - p d := by ring
    rw [e, linePt_d, linePt_d, cd]
    have e2 : (c' d : ℚ) + (q d - c' d) - (c' d + (p d - c' d)) = q d - p d := by ring
    rw [e2, div_mul_cancel₀ _ this]; ring

theorem edges_getElem {i : ℕ} {e : CutEdge2} (hi : (P.gen cs es ci).edges[i]? = some e) :
    (i < es.length ∧ ∃ x ∈ es, e = CutEdge2.mk x.mask x.ends.1.toNat x.ends.2.toNat true) ∨
    (∃ x ∈ P.gridEdges cs, e = CutEdge2.mk x.1 x.2.1.toNat x.2.2.toNat false) := by
  have hi' : ((es.map fun e => CutEdge2.mk e.mask e.ends.1.toNat e.ends.2.toNat true) ++
    (P.gridEdges cs).map fun e => CutEdge2.mk e.1 e.2.1.toNat e.2.2.toNat false)[i]? = some e := hi
  by_cases hl : i < es.length
  · rw [List.getElem?_append_left (by simpa using hl)] at hi'
    obtain ⟨x, hx, rfl⟩ := List.mem_map.1 (List.mem_of_getElem? hi')
    exact Or.inl ⟨hl, x, hx, rfl⟩
  · rw [List.getElem?_append_right (by simpa using hl)] at hi'
    obtain ⟨x, hx, rfl⟩ := List.mem_map.1 (List.mem_of_getElem? hi')
    exact Or.inr ⟨x, hx, rfl⟩

theorem grid_index {x : Mask 2 × (ℤ × ℤ)} (hx : x ∈ P.gridEdges cs) :
    ∃ j, es.length ≤ j ∧ (P.gen cs es ci).edges[j]? = some (CutEdge2.mk x.1 x.2.1.toNat x.2.2.toNat false) := by
  obtain ⟨j, hj⟩ := List.mem_iff_getElem?.1 hx
  refine ⟨es.length + j, by omega, ?_⟩
  show ((es.map fun e => CutEdge2.mk e.mask e.ends.1.toNat e.ends.2.toNat true) ++
    (P.gridEdges cs).map fun e => CutEdge2.mk e.1 e.2.1.toNat e.2.2.toNat false)[es.length + j]? = _
  rw [List.getElem?_append_right (by simp)]
  simp [hj]

/-- the position read through the natural number that the cut edge stores. -/
theorem Run.posNat (h : Run P cs es) {k : ℤ} {x : Pt 2} (hx : P.Node cs k x) :
    (P.gen cs es ci).pos (k.toNat : ℤ) = (x 0, x 1) ∧ ((P.gen cs es ci).V k.toNat).p = x := by
  have h0 := h.node_pos hx
  rw [Int.toNat_of_nonneg h0.1]
  exact ⟨h.pos hx, h0.2.1⟩

theorem IsPiece.crossing (h : Run P cs es) {e : EdgeInput.MeshEdge 2} {i : Fin n} {s t : ℚ} (g : IsPiece P cs e i s t) :
    ∃ x ∈ cs, x.v.p = P.seg i s := by
  refine (h.positions _).2 ?_
  rcases g.scross with rfl | hc
  · exact Or.inl ⟨(P.E i).1, (segPt_zero _ _).symm⟩
  · exact Or.inr ⟨i, s, hc, rfl⟩

/-- a piece of an input edge on a grid line is listed again as a grid edge. -/
theorem Run.on_line_duplicated (h : Run P cs es) (pl : P.Planar) {i : ℕ} (hl : i < es.length) {x : EdgeInput.MeshEdge 2}
    {k : Fin n} {s t : ℚ} (g : IsPiece P cs x k s t) : ∀ (ax : Fin 2) (z : ℤ), P.seg k s ax = z → P.seg k t ax = z →
    (P.gen cs es ci).Duplicated i ⟨x.mask, x.ends.1.toNat, x.ends.2.toNat, true⟩ := by
  have sg := g.seg h pl
  have off : ∀ ax dd : Fin 2, ax ≠ dd → ∀ z : ℤ, P.seg k s ax = z → P.seg k t ax = z →
      (P.gen cs es ci).Duplicated i ⟨x.mask, x.ends.1.toNat, x.ends.2.toNat, true⟩ := by
    intro ax dd hax z hs ht
    have hne : P.seg k s dd ≠ P.seg k t dd := by
      intro heq
      refine sg.ne ?_
      funext j
      rcases other_axis hax j with rfl | rfl
      · rw [hs, ht]
      · exact heq
    obtain ⟨y, hy, hyp⟩ := g.crossing h
    have fin : ∀ a b : ℤ, (a = x.ends.1 ∧ b = x.ends.2 ∨ a = x.ends.2 ∧ b = x.ends.1) →
        (∃ mk c s' t', IsGridPiece P cs mk (a, b) dd c s' t') →
        (P.gen cs es ci).Duplicated i ⟨x.mask, x.ends.1.toNat, x.ends.2.toNat, true⟩ := by
      rintro a b hab ⟨mk, c, s', t', gp⟩
      obtain ⟨j, hj, hjj⟩ := grid_index (es := es) (ci := ci) ((h.grid_piece mk (a, b)).2 ⟨dd, c, s', t', gp⟩)
      refine ⟨j, _, by omega, hjj, ?_⟩
      unfold Gen2.Joins
      rcases hab with ⟨rfl, rfl⟩ | ⟨rfl, rfl⟩
      · left; rfl
      · right; rfl
    rcases lt_or_gt_of_ne hne with hlt | hlt
    · rcases g.ends with ⟨n1, n2⟩ | ⟨n1, n2⟩
      · exact fin _ _ (Or.inl ⟨rfl, rfl⟩) (h.line_piece n1 n2 sg hax z hs ht hlt ⟨y, hy, Or.inl hyp⟩)
      · exact fin _ _ (Or.inr ⟨rfl, rfl⟩) (h.line_piece n1 n2 sg hax z hs ht hlt ⟨y, hy, Or.inl hyp⟩)
    · rcases g.ends with ⟨n1, n2⟩ | ⟨n1, n2⟩
      · exact fin _ _ (Or.inr ⟨rfl, rfl⟩) (h.line_piece n2 n1 sg.swap hax z ht hs hlt ⟨y, hy, Or.inr hyp⟩)
      · exact fin _ _ (Or.inl ⟨rfl, rfl⟩) (h.line_piece n2 n1 sg.swap hax z ht hs hlt ⟨y, hy, Or.inr hyp⟩)
  intro ax
  match ax with
  | 0 => exact off 0 1 (by decide)
  | 1 => exact off 1 0 (by decide)

/-- **C84.** Every cut edge either satisfies what C78 asks for, or runs along a grid line and is listed again as a grid edge. -/
theorem C84_edge_ok (h : Run P cs es) (pl : P.Planar) (i : ℕ) (e : CutEdge2) (hi : (P.gen cs es ci).edges[i]? = some e)
    (hdup : ¬ (P.gen cs es ci).Duplicated i e) : (P.gen cs es ci).EdgeOk e := by
  rcases edges_getElem hi with ⟨hl, x, hx, rfl⟩ | ⟨x, hx, rfl⟩
  · -- a piece of an input edge
    obtain ⟨k, s, t, g⟩ := h.piece hx
    have sg := g.seg h pl
    have off' : ∀ ax : Fin 2, ∀ z : ℤ, P.seg k s ax = z → P.seg k t ax = z → False := fun ax z h1 h2 =>
      hdup (h.on_line_duplicated pl hl g ax z h1 h2)
    -- the cell of the piece is in the grid and contains a crossing
    obtain ⟨c, hc1, hc2⟩ := sg.cell
    have hin : CutCellAt P cs c := by
      obtain ⟨y, hy, hyp⟩ := g.crossing h
      refine ⟨fun j => ?_, y, hy, by rw [hyp]; exact hc1⟩
      have b1 := box_seg h.adm k s g.s0 (g.st.le.trans g.t1) j
      have b2 := box_seg h.adm k t (g.s0.trans g.st.le) g.t1 j
      have q1 := hc1 j
      have q2 := hc2 j
      constructor
      · by_contra hneg
        push Not at hneg
        have h1 : c j ≤ -1 := by omega
        have h1' : (c j : ℚ) ≤ -1 := by exact_mod_cast h1
        exact off' j 0 (by push_cast; linarith) (by push_cast; linarith)
      · by_contra hneg
        push Not at hneg
        have h1' : (P.shape j : ℚ) ≤ c j := by exact_mod_cast hneg
        exact off' j (P.shape j) (by linarith) (by linarith)
    have hmask : ∀ ax, (x.mask ax).isSome = true → False := by
      intro ax hm
      rw [g.mask, edgeMask_isSome] at hm
      obtain ⟨z, z1, z2⟩ := hm
      have e : ∀ r, P.seg k r ax = z := fun r => by unfold Input.seg segPt; rw [z1, z2]; ring
      exact off' ax z (e s) (e t)
    have hact := (h.active_iff (ci := ci) c).2 hin
    rcases g.ends with ⟨n1, n2⟩ | ⟨n1, n2⟩
    · obtain ⟨p1, v1⟩ := h.posNat (ci := ci) n1
      obtain ⟨p2, v2⟩ := h.posNat (ci := ci) n2
      refine ⟨?_, fun ax => ?_, fun ax j _ hm => (hmask ax hm).elim, c, hact, ?_, ?_⟩
      · show (P.gen cs es ci).pos (x.ends.1.toNat : ℤ) ≠ (P.gen cs es ci).pos (x.ends.2.toNat : ℤ)
        rw [p1, p2]
        intro hh
        rw [Prod.mk.injEq] at hh
        exact sg.ne (pt_ext hh.1 hh.2)
      · refine ⟨fun hm => (hmask ax hm).elim, ?_⟩
        rintro ⟨z, z1, z2⟩
        rw [v1] at z1
        rw [v2] at z2
        exact (off' ax z z1 z2).elim
      · show InCell c ((P.gen cs es ci).pos (x.ends.1.toNat : ℤ)); rw [p1]; exact (inCell_iff _ _).2 hc1
      · show InCell c ((P.gen cs es ci).pos (x.ends.2.toNat : ℤ)); rw [p2]; exact (inCell_iff _ _).2 hc2
    · obtain ⟨p1, v1⟩ := h.posNat (ci := ci) n1
      obtain ⟨p2, v2⟩ := h.posNat (ci := ci) n2
      refine ⟨?_, fun ax => ?_, fun ax j _ hm => (hmask ax hm).elim, c, hact, ?_, ?_⟩
      · show (P.gen cs es ci).pos (x.ends.1.toNat : ℤ) ≠ (P.gen cs es ci).pos (x.ends.2.toNat : ℤ)
        rw [p1, p2]
        intro hh
        rw [Prod.mk.injEq] at hh
        exact sg.ne (pt_ext hh.1.symm hh.2.symm)
      · refine ⟨fun hm => (hmask ax hm).elim, ?_⟩
        rintro ⟨z, z1, z2⟩
        rw [v2] at z1
        rw [v1] at z2
        exact (off' ax z z2 z1).elim
      · show InCell c ((P.gen cs es ci).pos (x.ends.1.toNat : ℤ)); rw [p2]; exact (inCell_iff _ _).2 hc2
      · show InCell c ((P.gen cs es ci).pos (x.ends.2.toNat : ℤ)); rw [p1]; exact (inCell_iff _ _).2 hc1
  · -- a piece of a grid edge
    obtain ⟨mk, ab⟩ := x
    obtain ⟨d, c, s, t, g⟩ := (h.grid_piece mk ab).1 hx
    obtain ⟨p1, v1⟩ := h.posNat (ci := ci) g.fst
    obtain ⟨p2, v2⟩ := h.posNat (ci := ci) g.snd
    obtain ⟨a, ha, hin⟩ := g.handled.side h
    have st := g.st
    refine ⟨?_, fun ax => ?_, fun ax j haj hm => ?_, a, (h.active_iff (ci := ci) a).2 ha, ?_, ?_⟩
    · show (P.gen cs es ci).pos (ab.1.toNat : ℤ) ≠ (P.gen cs es ci).pos (ab.2.toNat : ℤ)
      rw [p1, p2]
      intro hh
      rw [Prod.mk.injEq] at hh
      exact g.seg.ne (pt_ext hh.1 hh.2)
    · show (mk ax).isSome = true ↔ ∃ z : ℤ, ((P.gen cs es ci).V ab.1.toNat).p ax = z ∧ ((P.gen cs es ci).V ab.2.toNat).p ax = z
      rw [v1, v2, g.mask]
      by_cases hax : ax = d
      · subst hax
        simp only [if_true, Option.isSome_none, Bool.false_eq_true, false_iff, not_exists, not_and]
        intro z h1 h2
        rw [linePt_d] at h1 h2
        linarith
      · simp only [if_neg hax, Option.isSome_some, true_iff]
        exact ⟨c ax, by unfold linePt; rw [if_neg hax], by unfold linePt; rw [if_neg hax]⟩
    · show ((P.gen cs es ci).V ab.1.toNat).p j < ((P.gen cs es ci).V ab.2.toNat).p j
      rw [v1, v2]
      have hax : ax ≠ d := by
        rintro rfl
        have hm' : (mk ax).isSome = true := hm
        rw [g.mask] at hm'
        simp at hm'
      rcases other_axis hax j with rfl | rfl
      · exact absurd rfl haj
      · rw [linePt_d, linePt_d]; linarith
    · show InCell a ((P.gen cs es ci).pos (ab.1.toNat : ℤ)); rw [p1]
      exact (inCell_iff _ _).2 (hin s g.s0 (g.st.le.trans g.t1))
    · show InCell a ((P.gen cs es ci).pos (ab.2.toNat : ℤ)); rw [p2]
      exact (inCell_iff _ _).2 (hin t (g.s0.trans g.st.le) g.t1)

end Pipe2
end Mandoline
