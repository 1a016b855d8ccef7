import Verif.Cell.Cells
import Mathlib.Algebra.BigOperators.Group.List.Basic

/-!
# C38: cells partition the sides of the faces
-/
namespace Mandoline
namespace CellCollapser

/-- **C38.** After `bake`, for any cyclic order of the faces around each edge, two half-faces are in the same cell iff
their sides are linked by turning around edges. In particular all half-faces of one side of a face are in one cell. -/
theorem C38_same_cell_iff_linked (faces : List (ℤ × List (List ℤ))) (hpos : ∀ hf ∈ (make faces).hfList, 0 ≤ hf.1)
    (ord : DEdge → List ℤ) (hord : ∀ e, (ord e).Perm ((make faces).around e)) (R : DsuRoots ((make faces).merge ord).ds)
    (hf hf' : HalfFace) (hm : hf ∈ (make faces).hfList) (hm' : hf' ∈ (make faces).hfList) :
    ((make faces).bake ord R).cell hf = ((make faces).bake ord R).cell hf' ↔
      Relation.EqvGen ((make faces).Turn ord) (hf.1, (make faces).side hf) (hf'.1, (make faces).side hf') := by
  have h := raw_make faces
  generalize make faces = s at *
  have hok := merge_dsOk h ord hord
  have hn : ∀ x, x ∈ (s.merge ord).ds.nodes ↔ x ∈ s.ds.nodes := by rw [(merge_fields s ord).2.2.2.1]; simp
  have hcell : ∀ x ∈ s.hfList, 0 ≤ s.cell x := by
    intro x hx
    rw [cell_raw h hx]; unfold sideId; have := hpos x hx
    simp only; split <;> omega
  rw [(cell_bake h ord R hm).1, (cell_bake h ord R hm').1]
  obtain ⟨a1, a2⟩ := newCell_spec hok R ((hn _).2 (cell_node h hm)) (hcell _ hm)
  obtain ⟨b1, b2⟩ := newCell_spec hok R ((hn _).2 (cell_node h hm')) (hcell _ hm')
  rw [a2, b2, ← conn_merge h ord hord, ← R.root_eq_iff, ← cell_raw h hm, ← cell_raw h hm']
  constructor
  · intro he
    exact (List.idxOf_inj a1).1 (by exact_mod_cast he)
  · intro he; rw [he]

/-- **C38.** Cells are numbered `0 .. n-1` where `n` is the number of cell boundaries: each half-face has a cell in
range, and each cell has a half-face. -/
theorem C38_contiguous (faces : List (ℤ × List (List ℤ))) (hpos : ∀ hf ∈ (make faces).hfList, 0 ≤ hf.1)
    (hnd : ∀ hf ∈ (make faces).hfList, hf.2.1 ≠ hf.2.2)
    (ord : DEdge → List ℤ) (hord : ∀ e, (ord e).Perm ((make faces).around e)) (R : DsuRoots ((make faces).merge ord).ds)
    (c : ℤ) : (0 ≤ c ∧ c < ((make faces).bake ord R).cells.length) ↔
      ∃ hf ∈ (make faces).hfList, ((make faces).bake ord R).cell hf = c := by
  have h := raw_make faces
  generalize make faces = s at *
  have hok := merge_dsOk h ord hord
  have hn : ∀ x, x ∈ (s.merge ord).ds.nodes ↔ x ∈ s.ds.nodes := by rw [(merge_fields s ord).2.2.2.1]; simp
  have hcell : ∀ x ∈ s.hfList, 0 ≤ s.cell x := by
    intro x hx
    rw [cell_raw h hx]; unfold sideId; have := hpos x hx
    simp only; split <;> omega
  have hlen : (s.bake ord R).cells.length = R.rootData.length := by
    have gen : ∀ (l : List (HalfFace × (ℤ × Bool))) (cs : List (List (ℤ × Bool))),
        (l.foldl ((s.merge ord).fillStep R) cs).length = cs.length := by
      intro l
      induction l with
      | nil => intro cs; rfl
      | cons p l ih =>
        intro cs
        rw [List.foldl_cons, ih]
        unfold fillStep
        split
        · simp
        · rfl
    unfold bake fill
    simp only [gen]
    rw [reindexer_length hok R, List.length_take, List.length_append, List.length_replicate]
    omega
  rw [hlen]
  constructor
  · rintro ⟨h0, h1⟩
    obtain ⟨k, rfl⟩ := Int.eq_ofNat_of_zero_le h0
    have hk : k < R.rootData.length := by exact_mod_cast h1
    have hr := (R.mem_rootData _).1 (List.getElem_mem hk)
    obtain ⟨f, e, c, b, hm, hx⟩ := h.owned _ ((hn _).1 hr.1)
    -- a half-face of the face with the wanted side
    have hex : ∃ hf ∈ s.hfList, s.cell hf = R.rootData[k] := by
      have hm1 : (f, e) ∈ s.hfList := (mem_hfList_iff _).2 ⟨c, b, hm⟩
      have hm2 := rev_mem h hm1
      have hs := side_rev h hm1 (hnd _ hm1)
      rcases hx with hx | hx
      · cases hb : s.side (f, e)
        · exact ⟨_, hm2, by rw [cell_raw h hm2, hs, hb, hx]; simp [sideId]⟩
        · exact ⟨_, hm1, by rw [cell_raw h hm1, hb, hx]; simp [sideId]⟩
      · cases hb : s.side (f, e)
        · exact ⟨_, hm1, by rw [cell_raw h hm1, hb, hx]; simp [sideId]⟩
        · exact ⟨_, hm2, by rw [cell_raw h hm2, hs, hb, hx]; simp [sideId]⟩
    obtain ⟨hf, hm, hc⟩ := hex
    refine ⟨hf, hm, ?_⟩
    rw [(cell_bake h ord R hm).1, (newCell_spec hok R ((hn _).2 (cell_node h hm)) (hcell _ hm)).2, hc, hr.2]
    rw [List.Nodup.idxOf_getElem (R.rootData_nodup hok)]
  · rintro ⟨hf, hm, rfl⟩
    rw [(cell_bake h ord R hm).1]
    obtain ⟨a1, a2⟩ := newCell_spec hok R ((hn _).2 (cell_node h hm)) (hcell _ hm)
    rw [a2]
    exact ⟨by omega, by exact_mod_cast List.idxOf_lt_length_iff.2 a1⟩

/-! ## boundaries -/

theorem fold_assign_sorted (l : List (HalfFace × (ℤ × Bool))) (m : List (ℤ × Bool)) (hm : OMap.Sorted intLt m) :
    OMap.Sorted intLt (l.foldl (fun m p => OMap.assign intLt p.1.1 p.2.2 m) m) := by
  induction l generalizing m with
  | nil => exact hm
  | cons p l ih => exact ih _ (OMap.sorted_alter strictTotal_intLt hm)

theorem fold_assign_mem (l : List (HalfFace × (ℤ × Bool))) (m : List (ℤ × Bool)) (hm : OMap.Sorted intLt m) :
    (∀ f b, (f, b) ∈ l.foldl (fun m p => OMap.assign intLt p.1.1 p.2.2 m) m →
      (f, b) ∈ m ∨ ∃ p ∈ l, p.1.1 = f ∧ p.2.2 = b) ∧
    (∀ f, ((∃ b, (f, b) ∈ m) ∨ ∃ p ∈ l, p.1.1 = f) → ∃ b, (f, b) ∈ l.foldl (fun m p => OMap.assign intLt p.1.1 p.2.2 m) m) := by
  induction l generalizing m with
  | nil => exact ⟨fun f b h => .inl h, by rintro f (h | ⟨p, hp, _⟩); exacts [h, by cases hp]⟩
  | cons p l ih =>
    obtain ⟨i1, i2⟩ := ih _ (OMap.sorted_alter strictTotal_intLt (k := p.1.1) (f := fun _ => p.2.2) hm)
    refine ⟨fun f b h => ?_, fun f h => ?_⟩
    · rcases i1 f b h with h | ⟨q, hq, hq'⟩
      · rcases (OMap.mem_alter strictTotal_intLt hm).1 h with ⟨_, h'⟩ | ⟨hk, hv⟩
        · exact .inl h'
        · exact .inr ⟨p, List.mem_cons_self, hk.symm, hv.symm⟩
      · exact .inr ⟨q, List.mem_cons_of_mem _ hq, hq'⟩
    · apply i2
      by_cases hf : f = p.1.1
      · subst hf
        exact .inl ⟨p.2.2, (OMap.mem_alter strictTotal_intLt hm).2 (.inr ⟨rfl, rfl⟩)⟩
      · rcases h with ⟨b, hb⟩ | ⟨q, hq, hq'⟩
        · exact .inl ⟨b, (OMap.mem_alter strictTotal_intLt hm).2 (.inl ⟨hf, hb⟩)⟩
        · rcases List.mem_cons.1 hq with rfl | hq
          · exact absurd hq'.symm hf
          · exact .inr ⟨q, hq, hq'⟩

theorem fill_fold (s : CellCollapser) (R : DsuRoots s.ds) (l : List (HalfFace × (ℤ × Bool)))
    (hl : ∀ p ∈ l, 0 ≤ p.2.1) (cs : List (List (ℤ × Bool))) (k : ℕ) :
    (l.foldl (s.fillStep R) cs)[k]? = cs[k]?.map fun m =>
      (l.filter fun p => decide ((s.newCell R p.2.1).toNat = k)).foldl (fun m p => OMap.assign intLt p.1.1 p.2.2 m) m := by
  induction l generalizing cs with
  | nil => simp
  | cons p l ih =>
    rw [List.foldl_cons, ih (fun q hq => hl q (List.mem_cons_of_mem _ hq))]
    unfold fillStep
    rw [if_pos (hl p List.mem_cons_self), List.getElem?_modify]
    by_cases hk : (s.newCell R p.2.1).toNat = k
    · rw [List.filter_cons_of_pos (by simpa using hk)]
      cases cs[k]? <;> simp [hk]
    · rw [List.filter_cons_of_neg (by simpa using hk)]
      cases cs[k]? <;> simp [hk]

/-- **C38.** The boundary of a cell lists each face at most once; it lists a face iff one of its half-faces is in the
cell, with the side of such a half-face. -/
theorem C38_boundary (faces : List (ℤ × List (List ℤ))) (hpos : ∀ hf ∈ (make faces).hfList, 0 ≤ hf.1)
    (ord : DEdge → List ℤ) (hord : ∀ e, (ord e).Perm ((make faces).around e)) (R : DsuRoots ((make faces).merge ord).ds)
    (k : ℕ) (m : List (ℤ × Bool)) (hk : ((make faces).bake ord R).cells[k]? = some m) :
    (m.map Prod.fst).Nodup ∧
    (∀ f b, (f, b) ∈ m → ∃ e, (f, e) ∈ (make faces).hfList ∧ ((make faces).bake ord R).cell (f, e) = k ∧
      (make faces).side (f, e) = b) ∧
    (∀ f e, (f, e) ∈ (make faces).hfList → ((make faces).bake ord R).cell (f, e) = k → ∃ b, (f, b) ∈ m) := by
  have h := raw_make faces
  generalize make faces = s at *
  have hok := merge_dsOk h ord hord
  have hn : ∀ x, x ∈ (s.merge ord).ds.nodes ↔ x ∈ s.ds.nodes := by rw [(merge_fields s ord).2.2.2.1]; simp
  have hcell : ∀ x ∈ s.hfList, 0 ≤ s.cell x := by
    intro x hx
    rw [cell_raw h hx]; unfold sideId; have := hpos x hx
    simp only; split <;> omega
  have hl : ∀ p ∈ (s.merge ord).h2c, 0 ≤ p.2.1 := by
    rw [(merge_fields s ord).1]
    rintro ⟨hf, c, b⟩ hp
    have hm : hf ∈ s.hfList := (mem_hfList_iff _).2 ⟨c, b, hp⟩
    have := hcell hf hm
    rw [(cell_of_mem h.sorted hp).1] at this
    exact this
  have hent : ∀ p ∈ s.h2c, p.1 ∈ s.hfList ∧ (s.bake ord R).cell p.1 = (s.merge ord).newCell R p.2.1 ∧
      0 ≤ (s.merge ord).newCell R p.2.1 ∧ s.side p.1 = p.2.2 := by
    rintro ⟨hf, c, b⟩ hp
    have hm : hf ∈ s.hfList := (mem_hfList_iff _).2 ⟨c, b, hp⟩
    have h1 := (cell_of_mem h.sorted hp).1
    refine ⟨hm, by rw [(cell_bake h ord R hm).1, h1], ?_, (cell_of_mem h.sorted hp).2⟩
    have := (newCell_spec hok R ((hn _).2 (cell_node h hm)) (hcell _ hm)).2
    rw [h1] at this
    simp only
    rw [this]; omega
  have hk' : (s.bake ord R).cells[k]? = _ := fill_fold (s.merge ord) R _ hl _ k
  rw [hk, (merge_fields s ord).1, (merge_fields s ord).2.2.1, h.noCells, List.nil_append] at hk'
  have hnil : ∀ (n : ℕ) (m' : List (ℤ × Bool)), (List.take n (List.replicate n ([] : List (ℤ × Bool))))[k]? = some m' → m' = [] := by
    intro n m' hh
    have := List.mem_of_mem_take (List.mem_of_getElem? hh)
    exact List.eq_of_mem_replicate this
  obtain ⟨m', hm', he⟩ := Option.map_eq_some_iff.1 hk'.symm
  rw [hnil _ _ hm'] at he
  subst he
  have hsort := fold_assign_sorted (s.h2c.filter fun p => decide (((s.merge ord).newCell R p.2.1).toNat = k)) [] OMap.sorted_nil
  obtain ⟨i1, i2⟩ := fold_assign_mem (s.h2c.filter fun p => decide (((s.merge ord).newCell R p.2.1).toNat = k)) []
    OMap.sorted_nil
  refine ⟨?_, ?_, ?_⟩
  · rw [List.nodup_iff_pairwise_ne, List.pairwise_map]
    refine hsort.imp ?_
    intro a b hab heq
    rw [heq, strictTotal_intLt.irrefl] at hab; cases hab
  · intro f b hfb
    rcases i1 f b hfb with h' | ⟨p, hp, rfl, rfl⟩
    · cases h'
    · rw [List.mem_filter, decide_eq_true_eq] at hp
      obtain ⟨a1, a2, a3, a4⟩ := hent p hp.1
      exact ⟨p.1.2, a1, by rw [a2]; omega, a4⟩
  · intro f e hfe hc
    obtain ⟨c, b, hp⟩ := (mem_hfList_iff _).1 hfe
    obtain ⟨a1, a2, a3, a4⟩ := hent _ hp
    refine i2 f (.inr ⟨((f, e), (c, b)), ?_, rfl⟩)
    rw [List.mem_filter, decide_eq_true_eq]
    refine ⟨hp, ?_⟩
    rw [a2] at hc
    simp only at hc ⊢
    omega

/-- the two sides of face `f` are in one cell. -/
def Folded (faces : List (ℤ × List (List ℤ))) (s : CellCollapser) (f : ℤ) : Prop :=
  ∃ e e', (f, e) ∈ (make faces).hfList ∧ (f, e') ∈ (make faces).hfList ∧ (make faces).side (f, e) = true ∧
    (make faces).side (f, e') = false ∧ s.cell (f, e) = s.cell (f, e')

/-- all half-faces of one side are in the same cell. -/
theorem C38_side_in_one_cell (faces : List (ℤ × List (List ℤ))) (hpos : ∀ hf ∈ (make faces).hfList, 0 ≤ hf.1)
    (ord : DEdge → List ℤ) (hord : ∀ e, (ord e).Perm ((make faces).around e)) (R : DsuRoots ((make faces).merge ord).ds)
    (f : ℤ) (e e' : DEdge) (hm : (f, e) ∈ (make faces).hfList) (hm' : (f, e') ∈ (make faces).hfList)
    (hs : (make faces).side (f, e) = (make faces).side (f, e')) :
    ((make faces).bake ord R).cell (f, e) = ((make faces).bake ord R).cell (f, e') := by
  rw [C38_same_cell_iff_linked faces hpos ord hord R _ _ hm hm', hs]
  exact .refl _

/-- **C38.** A face whose two sides are in different cells is listed in exactly these two cells, with opposite signs. -/
theorem C38_opposite_signs (faces : List (ℤ × List (List ℤ))) (hpos : ∀ hf ∈ (make faces).hfList, 0 ≤ hf.1)
    (hnd : ∀ hf ∈ (make faces).hfList, hf.2.1 ≠ hf.2.2)
    (ord : DEdge → List ℤ) (hord : ∀ e, (ord e).Perm ((make faces).around e)) (R : DsuRoots ((make faces).merge ord).ds)
    (f : ℤ) (e : DEdge) (hm : (f, e) ∈ (make faces).hfList) (hnf : ¬ Folded faces ((make faces).bake ord R) f) :
    ∃ k k' : ℕ, k ≠ k' ∧ k < ((make faces).bake ord R).cells.length ∧ k' < ((make faces).bake ord R).cells.length ∧
      ∀ (j : ℕ) m b, ((make faces).bake ord R).cells[j]? = some m →
      ((f, b) ∈ m ↔ (j = k ∧ b = true) ∨ (j = k' ∧ b = false)) := by
  -- a half-face on each side
  have h := raw_make faces
  have hboth : ∃ e₁ e₂, (f, e₁) ∈ (make faces).hfList ∧ (f, e₂) ∈ (make faces).hfList ∧
      (make faces).side (f, e₁) = true ∧ (make faces).side (f, e₂) = false := by
    have hs := side_rev h hm (hnd _ hm)
    cases hb : (make faces).side (f, e)
    · exact ⟨_, _, rev_mem h hm, hm, by rw [hs, hb]; rfl, hb⟩
    · exact ⟨_, _, hm, rev_mem h hm, hb, by rw [hs, hb]; rfl⟩
  obtain ⟨e₁, e₂, m₁, m₂, s₁, s₂⟩ := hboth
  have r₁ := (C38_contiguous faces hpos hnd ord hord R _).2 ⟨_, m₁, rfl⟩
  have r₂ := (C38_contiguous faces hpos hnd ord hord R _).2 ⟨_, m₂, rfl⟩
  have hne : ((make faces).bake ord R).cell (f, e₁) ≠ ((make faces).bake ord R).cell (f, e₂) :=
    fun he => hnf ⟨e₁, e₂, m₁, m₂, s₁, s₂, he⟩
  refine ⟨(((make faces).bake ord R).cell (f, e₁)).toNat, (((make faces).bake ord R).cell (f, e₂)).toNat, by omega,
    by omega, by omega, ?_⟩
  intro j m b hj
  obtain ⟨d1, d2, d3⟩ := C38_boundary faces hpos ord hord R j m hj
  constructor
  · intro hfb
    obtain ⟨e', hm', hc, hb⟩ := d2 f b hfb
    cases b
    · refine .inr ⟨?_, rfl⟩
      rw [C38_side_in_one_cell faces hpos ord hord R f e₂ e' m₂ hm' (s₂.trans hb.symm), hc]; rfl
    · refine .inl ⟨?_, rfl⟩
      rw [C38_side_in_one_cell faces hpos ord hord R f e₁ e' m₁ hm' (s₁.trans hb.symm), hc]; rfl
  · rintro (⟨rfl, rfl⟩ | ⟨rfl, rfl⟩)
    · obtain ⟨b, hb⟩ := d3 f e₁ m₁ (by omega)
      obtain ⟨e', hm', hc, hb'⟩ := d2 f b hb
      cases b
      · exfalso; apply hne
        rw [C38_side_in_one_cell faces hpos ord hord R f e₂ e' m₂ hm' (s₂.trans hb'.symm), hc]; omega
      · exact hb
    · obtain ⟨b, hb⟩ := d3 f e₂ m₂ (by omega)
      obtain ⟨e', hm', hc, hb'⟩ := d2 f b hb
      cases b
      · exact hb
      · exfalso; apply hne
        rw [C38_side_in_one_cell faces hpos ord hord R f e₁ e' m₁ hm' (s₁.trans hb'.symm), hc]; omega

theorem mem_foldedFaces (s : CellCollapser) (f : ℤ) :
    f ∈ s.foldedFaces ↔ ∃ p ∈ s.h2c, s.dualCell p.1 = p.2.1 ∧ p.1.1 = f := by
  unfold foldedFaces
  have gen : ∀ (l : List (HalfFace × (ℤ × Bool))) (a : List ℤ),
      f ∈ l.foldl (fun l p => if s.dualCell p.1 = p.2.1 then setInsert intLt p.1.1 l else l) a ↔
        f ∈ a ∨ ∃ p ∈ l, s.dualCell p.1 = p.2.1 ∧ p.1.1 = f := by
    intro l
    induction l with
    | nil => intro a; simp
    | cons p l ih =>
      intro a
      rw [List.foldl_cons, ih]
      split
      · rename_i hc
        rw [mem_setInsert strictTotal_intLt]
        constructor
        · rintro ((rfl | h) | ⟨q, hq, h⟩)
          · exact .inr ⟨p, List.mem_cons_self, hc, rfl⟩
          · exact .inl h
          · exact .inr ⟨q, List.mem_cons_of_mem _ hq, h⟩
        · rintro (h | ⟨q, hq, h⟩)
          · exact .inl (.inr h)
          · rcases List.mem_cons.1 hq with rfl | hq
            · exact .inl (.inl h.2.symm)
            · exact .inr ⟨q, hq, h⟩
      · rename_i hc
        constructor
        · rintro (h | ⟨q, hq, h⟩)
          · exact .inl h
          · exact .inr ⟨q, List.mem_cons_of_mem _ hq, h⟩
        · rintro (h | ⟨q, hq, h⟩)
          · exact .inl h
          · rcases List.mem_cons.1 hq with rfl | hq
            · exact absurd h.1 hc
            · exact .inr ⟨q, hq, h⟩
  rw [gen]; simp

/-- **C38.** `folded_faces()` lists exactly the faces whose two sides are in one cell. -/
theorem C38_folded_faces (faces : List (ℤ × List (List ℤ))) (hpos : ∀ hf ∈ (make faces).hfList, 0 ≤ hf.1)
    (hnd : ∀ hf ∈ (make faces).hfList, hf.2.1 ≠ hf.2.2)
    (ord : DEdge → List ℤ) (hord : ∀ e, (ord e).Perm ((make faces).around e)) (R : DsuRoots ((make faces).merge ord).ds)
    (f : ℤ) : f ∈ ((make faces).bake ord R).foldedFaces ↔ Folded faces ((make faces).bake ord R) f := by
  have h := raw_make faces
  have hsort : OMap.Sorted hfLt ((make faces).bake ord R).h2c := by
    unfold bake fill OMap.Sorted
    simp only
    rw [(merge_fields _ ord).1, List.pairwise_map]
    exact h.sorted
  have hl := hfList_bake (make faces) ord R
  rw [mem_foldedFaces]
  constructor
  · rintro ⟨⟨⟨f', e⟩, c, b⟩, hp, hd, rfl⟩
    have hm : (f', e) ∈ (make faces).hfList := by rw [← hl]; exact (mem_hfList_iff _).2 ⟨c, b, hp⟩
    have hc := (cell_of_mem hsort hp).1
    have hs := side_rev h hm (hnd _ hm)
    have heq : ((make faces).bake ord R).cell (f', e) = ((make faces).bake ord R).cell (f', e.rev) := by
      rw [hc]; exact hd.symm
    cases hb : (make faces).side (f', e)
    · exact ⟨e.rev, e, rev_mem h hm, hm, by rw [hs, hb]; rfl, hb, heq.symm⟩
    · exact ⟨e, e.rev, hm, rev_mem h hm, hb, by rw [hs, hb]; rfl, heq⟩
  · rintro ⟨e, e', hm, hm', hs, hs', heq⟩
    have hme : (f, e) ∈ ((make faces).bake ord R).hfList := by rw [hl]; exact hm
    refine ⟨_, mem_of_hfList hsort hme, ?_, rfl⟩
    show ((make faces).bake ord R).cell (f, e.rev) = ((make faces).bake ord R).cell (f, e)
    rw [heq]
    refine C38_side_in_one_cell faces hpos ord hord R f _ _ (rev_mem h hm) hm' ?_
    rw [side_rev h hm (hnd _ hm), hs, hs']; rfl

end CellCollapser
end Mandoline
