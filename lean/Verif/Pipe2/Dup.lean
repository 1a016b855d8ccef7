import Verif.Pipe2.Boundary2

/-!
# C84: which cut edges are doubled

A cut edge is followed by another one with the same ends iff it is a piece of an input edge on a grid line.
-/
namespace Mandoline
namespace Pipe2
open Sched Planar

variable {n m : ℕ} {P : Input n m} {cs : List (CrossingI 2)} {es : List (EdgeInput.MeshEdge 2)} {ci : Coord 2 → ℤ}

theorem linePt_off (c : Coord 2) {d j : Fin 2} (h : j ≠ d) (t : ℚ) : linePt c d t j = c j := by unfold linePt; rw [if_neg h]

/-- a piece of a grid edge is determined by the positions of its ends, in either order. -/
theorem grid_unique {d d' : Fin 2} {c c' : Coord 2} {s t s' t' : ℚ} (s0 : 0 ≤ s) (st : s < t) (t1 : t ≤ 1)
    (s0' : 0 ≤ s') (st' : s' < t') (t1' : t' ≤ 1)
    (he : (linePt c d s = linePt c' d' s' ∧ linePt c d t = linePt c' d' t') ∨
      (linePt c d s = linePt c' d' t' ∧ linePt c d t = linePt c' d' s')) : d = d' ∧ c = c' ∧ s = s' ∧ t = t' := by
  have hd : d = d' := by
    by_contra hne
    have e1 : linePt c d s d = linePt c d t d := by
      rcases he with ⟨h1, h2⟩ | ⟨h1, h2⟩ <;> rw [h1, h2, linePt_off c' hne, linePt_off c' hne]
    rw [linePt_d, linePt_d] at e1
    linarith
  subst hd
  have hoff : ∀ j, j ≠ d → c j = c' j := by
    intro j hj
    have : linePt c d s j = (c' j : ℚ) := by
      rcases he with ⟨h1, _⟩ | ⟨h1, _⟩ <;> rw [h1, linePt_off c' hj]
    rw [linePt_off c hj] at this
    exact_mod_cast this
  rcases he with ⟨h1, h2⟩ | ⟨h1, h2⟩
  · have e1 := congrFun h1 d
    have e2 := congrFun h2 d
    rw [linePt_d, linePt_d] at e1 e2
    have hcd : c d = c' d := by
      have q1 : (c d : ℚ) < c' d + 1 := by linarith
      have q2 : (c' d : ℚ) < c d + 1 := by linarith
      have q1' : c d < c' d + 1 := by exact_mod_cast q1
      have q2' : c' d < c d + 1 := by exact_mod_cast q2
      omega
    have hcd' : (c d : ℚ) = c' d := by rw [hcd]
    refine ⟨rfl, ?_, by linarith, by linarith⟩
    funext j
    by_cases hj : j = d
    · rw [hj]; exact hcd
    · exact hoff j hj
  · have e1 := congrFun h1 d
    have e2 := congrFun h2 d
    rw [linePt_d, linePt_d] at e1 e2
    exfalso
    linarith

theorem Run.gridEdges_unique (h : Run P cs es) {x y : Mask 2 × (ℤ × ℤ)} (hx : x ∈ P.gridEdges cs) (hy : y ∈ P.gridEdges cs)
    (he : x.2 = y.2 ∨ x.2 = (y.2.2, y.2.1)) : x = y := by
  obtain ⟨mx, ex⟩ := x
  obtain ⟨my, ey⟩ := y
  obtain ⟨d, c, s, t, g⟩ := (h.grid_piece mx ex).1 hx
  obtain ⟨d', c', s', t', g'⟩ := (h.grid_piece my ey).1 hy
  dsimp only at he
  have hpos : (linePt c d s = linePt c' d' s' ∧ linePt c d t = linePt c' d' t') ∨
      (linePt c d s = linePt c' d' t' ∧ linePt c d t = linePt c' d' s') := by
    rcases he with he | he
    · exact Or.inl ⟨(h.node_inj g.fst g'.fst).1 (by rw [he]), (h.node_inj g.snd g'.snd).1 (by rw [he])⟩
    · exact Or.inr ⟨(h.node_inj g.fst g'.snd).1 (by rw [he]), (h.node_inj g.snd g'.fst).1 (by rw [he])⟩
  obtain ⟨rfl, rfl, rfl, rfl⟩ := grid_unique g.s0 g.st g.t1 g'.s0 g'.st g'.t1 hpos
  have e1 : ex.1 = ey.1 := (h.node_inj g.fst g'.fst).2 rfl
  have e2 : ex.2 = ey.2 := (h.node_inj g.snd g'.snd).2 rfl
  rw [g.mask, g'.mask]
  exact Prod.ext rfl (Prod.ext e1 e2)

theorem Run.gridEdges_nodup (h : Run P cs es) : (P.gridEdges cs).Nodup := by
  unfold Input.gridEdges
  have hmask : ∀ {d d' : Fin 2} {c c' : Coord 2}, (fun k => if k = d then (none : Option ℤ) else some (c k)) =
      (fun k => if k = d' then none else some (c' k)) → d = d' := by
    intro d d' c c' he
    have := congrFun he d
    by_contra hne
    simp [hne] at this
  rw [List.nodup_flatMap]
  constructor
  · intro d _
    obtain ⟨L, l1, l2, l3, l4⟩ := h.lines d
    rw [l4, List.nodup_flatMap]
    constructor
    · intro q hq
      refine List.Nodup.map_on ?_ (ListAdj.zip_nodup Prod.fst (l3 q hq).sorted)
      rintro ⟨⟨s, a⟩, t, b⟩ hx ⟨⟨s', a'⟩, t', b'⟩ hy he
      rw [Prod.mk.injEq, Prod.mk.injEq] at he
      obtain ⟨_, e1, e2⟩ := he
      dsimp only at e1 e2
      obtain ⟨m1, m2⟩ := ListAdj.zip_mem hx
      obtain ⟨m3, m4⟩ := ListAdj.zip_mem hy
      have k1 := ((l3 q hq).mem _ _).1 m1
      have k2 := ((l3 q hq).mem _ _).1 m2
      have k3 := ((l3 q hq).mem _ _).1 m3
      have k4 := ((l3 q hq).mem _ _).1 m4
      have p1 := congrFun ((h.node_inj k1.2.2 k3.2.2).1 e1) d
      have p2 := congrFun ((h.node_inj k2.2.2 k4.2.2).1 e2) d
      rw [linePt_d, linePt_d] at p1 p2
      rw [e1, e2, show s = s' by linarith, show t = t' by linarith]
    · have l1' : L.Pairwise fun a b => a.1 ≠ b.1 := List.pairwise_map.1 l1
      refine l1'.imp_of_mem ?_
      intro q q' hq hq' hne
      show List.Disjoint _ _
      rintro ⟨mk, e⟩ h1 h2
      obtain ⟨⟨⟨s, a⟩, t, b⟩, hz, he⟩ := List.mem_map.1 h1
      obtain ⟨⟨⟨s', a'⟩, t', b'⟩, hz', he'⟩ := List.mem_map.1 h2
      rw [Prod.mk.injEq] at he he'
      obtain ⟨m1, m2⟩ := ListAdj.zip_mem hz
      obtain ⟨m3, m4⟩ := ListAdj.zip_mem hz'
      have k1 := ((l3 q hq).mem _ _).1 m1
      have k2 := ((l3 q hq).mem _ _).1 m2
      have k3 := ((l3 q' hq').mem _ _).1 m3
      have k4 := ((l3 q' hq').mem _ _).1 m4
      have lt1 := ListAdj.zip_lt Prod.fst (l3 q hq).sorted hz
      have lt2 := ListAdj.zip_lt Prod.fst (l3 q' hq').sorted hz'
      have hh := he.2.trans he'.2.symm
      rw [Prod.mk.injEq] at hh
      have := grid_unique k1.1 lt1 k2.2.1 k3.1 lt2 k4.2.1
        (Or.inl ⟨(h.node_inj k1.2.2 k3.2.2).1 hh.1, (h.node_inj k2.2.2 k4.2.2).1 hh.2⟩)
      exact hne this.2.1
  · refine (List.nodup_finRange 2).imp_of_mem ?_
    intro d d' _ _ hne
    show List.Disjoint _ _
    rintro ⟨mk, e⟩ h1 h2
    obtain ⟨L, _, _, _, l4⟩ := h.lines d
    obtain ⟨L', _, _, _, l4'⟩ := h.lines d'
    dsimp only at h1 h2
    rw [l4] at h1
    rw [l4'] at h2
    obtain ⟨q, _, h1⟩ := List.mem_flatMap.1 h1
    obtain ⟨q', _, h2⟩ := List.mem_flatMap.1 h2
    obtain ⟨_, _, he⟩ := List.mem_map.1 h1
    obtain ⟨_, _, he'⟩ := List.mem_map.1 h2
    rw [Prod.mk.injEq] at he he'
    exact hne (hmask (he.1.trans he'.1.symm))

theorem sortPair_swap (e : ℤ × ℤ) : EdgeInput.sortPair (e.2, e.1) = EdgeInput.sortPair e := by
  obtain ⟨a, b⟩ := e
  unfold EdgeInput.sortPair
  dsimp only
  split_ifs <;> rw [Prod.mk.injEq] <;> omega

/-- two cut edges from the input do not have the same ends. -/
theorem Run.mesh_pairwise (h : Run P cs es) (pl : P.Planar) :
    es.Pairwise fun x y => ¬ (x.ends = y.ends ∨ x.ends = (y.ends.2, y.ends.1)) := by
  obtain ⟨fs, hb⟩ := h.baked
  have hsame : ∀ i : Fin n, es.Pairwise fun x y => x.parent = ((i : ℕ) : ℤ) → y.parent = ((i : ℕ) : ℤ) →
      EdgeInput.sortPair x.ends ≠ EdgeInput.sortPair y.ends := by
    intro i
    have hne : (P.edgeInput.fst i).p ≠ (P.edgeInput.snd i).p := by rw [fst_p, snd_p]; exact h.adm.ne i
    obtain ⟨ts, xs, h1, h2, h3, h4, h5, h6⟩ := EdgeInput.C74_pieces (ok h.adm) cs es fs hb i hne
    have hnd : ((xs.zip xs.tail).map EdgeInput.sortPair).Nodup := (EdgeInput.intervals_nodup xs h4).1
    rw [← h5.nodup_iff] at hnd
    have := List.pairwise_filter.1 (List.pairwise_map.1 hnd)
    refine this.imp ?_
    intro x y hxy h1 h2
    exact hxy (by simpa using h1) (by simpa using h2)
  rw [List.pairwise_iff_getElem]
  intro a b ha hb' hab hends
  obtain ⟨i, s, t, g⟩ := h.piece (List.getElem_mem ha)
  obtain ⟨j, s', t', g'⟩ := h.piece (List.getElem_mem hb')
  by_cases hij : i = j
  · subst hij
    refine List.pairwise_iff_getElem.1 (hsame i) a b ha hb' hab g.parent g'.parent ?_
    rcases hends with he | he
    · rw [he]
    · rw [he]; exact sortPair_swap _
  · have pos : ∀ p q p' q' : Pt 2, ((p = p' ∧ q = q') ∨ (p = q' ∧ q = p')) → segPt p q (1 / 2) = segPt p' q' (1 / 2) := by
      rintro p q p' q' (⟨rfl, rfl⟩ | ⟨rfl, rfl⟩)
      · rfl
      · rw [segPt_swap]; norm_num
    have hpos : (P.seg i s = P.seg j s' ∧ P.seg i t = P.seg j t') ∨ (P.seg i s = P.seg j t' ∧ P.seg i t = P.seg j s') := by
      rcases hends with he | he <;> rcases g.ends with ⟨n1, n2⟩ | ⟨n1, n2⟩ <;> rcases g'.ends with ⟨n3, n4⟩ | ⟨n3, n4⟩
      · exact Or.inl ⟨(h.node_inj n1 n3).1 (by rw [he]), (h.node_inj n2 n4).1 (by rw [he])⟩
      · exact Or.inr ⟨(h.node_inj n1 n4).1 (by rw [he]), (h.node_inj n2 n3).1 (by rw [he])⟩
      · exact Or.inr ⟨(h.node_inj n1 n4).1 (by rw [he]), (h.node_inj n2 n3).1 (by rw [he])⟩
      · exact Or.inl ⟨(h.node_inj n1 n3).1 (by rw [he]), (h.node_inj n2 n4).1 (by rw [he])⟩
      · exact Or.inr ⟨(h.node_inj n1 n4).1 (by rw [he]), (h.node_inj n2 n3).1 (by rw [he])⟩
      · exact Or.inl ⟨(h.node_inj n1 n3).1 (by rw [he]), (h.node_inj n2 n4).1 (by rw [he])⟩
      · exact Or.inl ⟨(h.node_inj n1 n3).1 (by rw [he]), (h.node_inj n2 n4).1 (by rw [he])⟩
      · exact Or.inr ⟨(h.node_inj n1 n4).1 (by rw [he]), (h.node_inj n2 n3).1 (by rw [he])⟩
    have hmid := pos _ _ _ _ hpos
    unfold Input.seg at hmid
    rw [segPt_segPt, segPt_segPt] at hmid
    have := g.s0; have := g.st; have := g.t1; have := g'.s0; have := g'.st; have := g'.t1
    exact pl.edge i j _ _ hij (by linarith) (by linarith) (by linarith) (by linarith) hmid

/-- **C84.** A cut edge is doubled by a later one iff it comes from the input and lies on a grid line. -/
theorem C84_duplicated_iff (h : Run P cs es) (pl : P.Planar) (i : ℕ) (e : CutEdge2) (hi : (P.gen cs es ci).edges[i]? = some e) :
    (P.gen cs es ci).Duplicated i e ↔ e.isMesh = true ∧
      ∃ (k : Fin 2) (z : ℤ), ((P.gen cs es ci).V e.a).p k = z ∧ ((P.gen cs es ci).V e.b).p k = z := by
  have hi' : ((es.map fun e => CutEdge2.mk e.mask e.ends.1.toNat e.ends.2.toNat true) ++
    (P.gridEdges cs).map fun e => CutEdge2.mk e.1 e.2.1.toNat e.2.2.toNat false)[i]? = some e := hi
  have nn : ∀ f : DEdge, f ∈ P.graph cs es → (f.1.toNat : ℤ) = f.1 ∧ (f.2.toNat : ℤ) = f.2 := by
    intro f hf
    obtain ⟨p, q, np, nq, _⟩ := h.edge_seg pl (Or.inl hf)
    exact ⟨Int.toNat_of_nonneg (h.node_pos np).1, Int.toNat_of_nonneg (h.node_pos nq).1⟩
  have nm : ∀ y ∈ es, (y.ends.1.toNat : ℤ) = y.ends.1 ∧ (y.ends.2.toNat : ℤ) = y.ends.2 := fun y hy =>
    nn _ (List.mem_append_left _ (List.mem_map.2 ⟨y, hy, rfl⟩))
  have ng : ∀ y ∈ P.gridEdges cs, (y.2.1.toNat : ℤ) = y.2.1 ∧ (y.2.2.toNat : ℤ) = y.2.2 := fun y hy =>
    nn _ (List.mem_append_right _ (List.mem_map.2 ⟨y, hy, rfl⟩))
  constructor
  · rintro ⟨j, e', hij, hj, hJ⟩
    have hj' : ((es.map fun e => CutEdge2.mk e.mask e.ends.1.toNat e.ends.2.toNat true) ++
      (P.gridEdges cs).map fun e => CutEdge2.mk e.1 e.2.1.toNat e.2.2.toNat false)[j]? = some e' := hj
    unfold Gen2.Joins at hJ
    by_cases hl : i < es.length
    · rw [List.getElem?_append_left (by simpa using hl), List.getElem?_map, List.getElem?_eq_getElem hl, Option.map_some,
        Option.some.injEq] at hi'
      subst hi'
      refine ⟨rfl, ?_⟩
      have hmi := nm _ (List.getElem_mem hl)
      dsimp only at hJ
      rw [hmi.1, hmi.2] at hJ
      by_cases hlj : j < es.length
      · rw [List.getElem?_append_left (by simpa using hlj), List.getElem?_map, List.getElem?_eq_getElem hlj, Option.map_some,
          Option.some.injEq] at hj'
        subst hj'
        have hmj := nm _ (List.getElem_mem hlj)
        dsimp only at hJ
        rw [hmj.1, hmj.2] at hJ
        exact (List.pairwise_iff_getElem.1 (h.mesh_pairwise pl) i j hl hlj hij hJ).elim
      · rw [List.getElem?_append_right (by simpa using hlj), List.getElem?_map, Option.map_eq_some_iff] at hj'
        obtain ⟨y, hy, rfl⟩ := hj'
        have hy' := List.mem_of_getElem? hy
        have hmj := ng y hy'
        dsimp only at hJ
        rw [hmj.1, hmj.2] at hJ
        obtain ⟨mk, f⟩ := y
        obtain ⟨d, c, s, t, g⟩ := (h.grid_piece mk f).1 hy'
        obtain ⟨_, v1⟩ := h.posNat (ci := ci) g.fst
        obtain ⟨_, v2⟩ := h.posNat (ci := ci) g.snd
        obtain ⟨k, hk⟩ : ∃ k : Fin 2, k ≠ d := by
          match d with
          | 0 => exact ⟨1, by decide⟩
          | 1 => exact ⟨0, by decide⟩
        refine ⟨k, c k, ?_⟩
        dsimp only at hJ ⊢
        rcases hJ with hJ | hJ <;> rw [Prod.mk.injEq] at hJ <;> rw [hJ.1, hJ.2, v1, v2, linePt_off c hk, linePt_off c hk] <;>
          exact ⟨rfl, rfl⟩
    · exfalso
      have hlj : ¬ j < es.length := by omega
      rw [List.getElem?_append_right (by simpa using hl), List.getElem?_map, Option.map_eq_some_iff] at hi'
      rw [List.getElem?_append_right (by simpa using hlj), List.getElem?_map, Option.map_eq_some_iff] at hj'
      obtain ⟨x, hx, rfl⟩ := hi'
      obtain ⟨y, hy, rfl⟩ := hj'
      have hmi := ng x (List.mem_of_getElem? hx)
      have hmj := ng y (List.mem_of_getElem? hy)
      dsimp only at hJ
      rw [hmi.1, hmi.2, hmj.1, hmj.2] at hJ
      have hxy := h.gridEdges_unique (List.mem_of_getElem? hx) (List.mem_of_getElem? hy) (by
        rcases hJ with hJ | hJ
        · exact Or.inl hJ
        · exact Or.inr hJ)
      subst hxy
      rw [List.length_map] at hx hy
      obtain ⟨hx1, hx2⟩ := List.getElem?_eq_some_iff.1 hx
      obtain ⟨hy1, hy2⟩ := List.getElem?_eq_some_iff.1 hy
      have := (List.Nodup.getElem_inj_iff h.gridEdges_nodup).1 (hx2.trans hy2.symm)
      omega
  · rintro ⟨hm, k, z, h1, h2⟩
    by_contra hdup
    rcases edges_getElem hi with ⟨hl, x, hx, rfl⟩ | ⟨x, hx, rfl⟩
    · obtain ⟨j, s, t, g⟩ := h.piece hx
      dsimp only at h1 h2
      rcases g.ends with ⟨n1, n2⟩ | ⟨n1, n2⟩
      · rw [(h.posNat (ci := ci) n1).2] at h1
        rw [(h.posNat (ci := ci) n2).2] at h2
        exact hdup (h.on_line_duplicated pl hl g k z h1 h2)
      · rw [(h.posNat (ci := ci) n2).2] at h1
        rw [(h.posNat (ci := ci) n1).2] at h2
        exact hdup (h.on_line_duplicated pl hl g k z h2 h1)
    · cases hm

end Pipe2
end Mandoline
