import Verif.Exterior.Number
import Mathlib.Data.List.Perm.Basic
import Mathlib.Data.List.Nodup

/-! # C22, C24: the facets of the exterior grid -/
namespace Mandoline
variable {D : ℕ}

/-- the cell above `c` along axis `i`. -/
def above (c : Coord D) (i : Fin D) : Coord D := Function.update c i (c i + 1)

/-- The facets a user expects, as (negative side, positive side, axis), where `idx` is the cell index:
a low domain facet, a high domain facet, or a facet between two adjacent exterior cells. -/
inductive ExpectedFacet (shape : Coord D) (outside : Coord D → Bool) (idx : Coord D → ℤ) : Facet D → Prop
  | low (c : Coord D) (i : Fin D) (h : ExteriorCell shape outside c) (h0 : c i = 0) :
      ExpectedFacet shape outside idx ((-2, idx c), i)
  | mid (c : Coord D) (i : Fin D) (h : ExteriorCell shape outside c)
      (h' : ExteriorCell shape outside (above c i)) : ExpectedFacet shape outside idx ((idx c, idx (above c i)), i)
  | high (c : Coord D) (i : Fin D) (h : ExteriorCell shape outside c) (h1 : c i = shape i - 1) :
      ExpectedFacet shape outside idx ((idx c, -2), i)

section
variable (O : GridOrder D) (shape : Coord D) (o : Coord D → Bool)

/-- `m_cell_indices` of the constructed grid. -/
private abbrev G : Coord D → ℤ := gridGet (ExteriorGrid.make O shape o).cellIndices

theorem G_nonneg_iff {c : Coord D} (hv : ∀ i, 0 ≤ c i ∧ c i < shape i) :
    G O shape o c ≥ 0 ↔ ExteriorCell shape o c := by
  constructor
  · intro h
    refine ⟨hv, ?_⟩
    cases ho : o c
    · have := gridGet_masked O shape o c hv ho; simp only [G] at h; omega
    · rfl
  · intro h
    obtain ⟨n, hn, _⟩ := exterior_has_index O shape o c h
    simp only [G]; omega

theorem G_neg_one_iff {c : Coord D} (hv : ∀ i, 0 ≤ c i ∧ c i < shape i) :
    G O shape o c = -1 ↔ ¬ ExteriorCell shape o c := by
  constructor
  · intro h he
    have := (G_nonneg_iff O shape o hv).2 he; omega
  · intro h
    refine gridGet_masked O shape o c hv ?_
    cases ho : o c
    · rfl
    · exact absurd ⟨hv, ho⟩ h

theorem G_inj {c c' : Coord D} (h : ExteriorCell shape o c) (h' : ExteriorCell shape o c')
    (he : G O shape o c = G O shape o c') : c = c' := by
  obtain ⟨n, hn, hn'⟩ := exterior_has_index O shape o c h
  obtain ⟨m, hm, hm'⟩ := exterior_has_index O shape o c' h'
  simp only [G] at he
  have : n = m := by omega
  subst this
  rw [hn'] at hm'; exact Option.some.inj hm'

theorem cellIndex_eq_G {c : Coord D} (h : ExteriorCell shape o c) :
    (ExteriorGrid.make O shape o).cellIndex c = G O shape o c := by
  have : ValidIndex (ExteriorGrid.make O shape o).shape c = true := (validIndex_iff shape c).2 h.1
  simp [ExteriorGrid.cellIndex, this]

theorem mem_lowFacets (i : Fin D) (hs : 1 ≤ shape i) (f : Facet D) :
    f ∈ lowFacets O shape (G O shape o) i ↔
      ∃ c, ExteriorCell shape o c ∧ c i = 0 ∧ f = ((-2, G O shape o c), i) := by
  simp only [lowFacets, List.mem_filterMap, O.mem]
  constructor
  · rintro ⟨c, hc, h⟩
    have hv : ∀ j, 0 ≤ c j ∧ c j < shape j := by
      intro j
      have := hc j
      by_cases hj : j = i
      · subst hj; simp at this; omega
      · simpa [hj] using this
    split at h
    · rename_i hp
      refine ⟨c, (G_nonneg_iff O shape o hv).1 hp, ?_, (Option.some.inj h).symm⟩
      have := hc i; simp at this; omega
    · cases h
  · rintro ⟨c, hc, h0, rfl⟩
    refine ⟨c, ?_, ?_⟩
    · intro j
      by_cases hj : j = i
      · subst hj; simp [h0]
      · simpa [hj] using hc.1 j
    · rw [if_pos ((G_nonneg_iff O shape o hc.1).2 hc)]

theorem mem_midFacets (i : Fin D) (f : Facet D) :
    f ∈ midFacets O shape (G O shape o) i ↔
      ∃ c, ExteriorCell shape o c ∧ ExteriorCell shape o (above c i) ∧
        f = ((G O shape o c, G O shape o (above c i)), i) := by
  simp only [midFacets, List.mem_filterMap, O.mem]
  constructor
  · rintro ⟨c, hc, h⟩
    have hv : ∀ j, 0 ≤ c j ∧ c j < shape j := by
      intro j
      have := hc j
      by_cases hj : j = i
      · subst hj; simp at this; omega
      · simpa [hj] using this
    have hv2 : ∀ j, 0 ≤ above c i j ∧ above c i j < shape j := by
      intro j
      have := hc j
      by_cases hj : j = i
      · subst hj; simp [above] at this ⊢; omega
      · simpa [hj, above] using this
    split at h
    · cases h
    · rename_i hp
      rw [not_or] at hp
      refine ⟨c, ?_, ?_, (Option.some.inj h).symm⟩
      · by_contra hx; exact hp.1 ((G_neg_one_iff O shape o hv).2 hx)
      · by_contra hx; exact hp.2 ((G_neg_one_iff O shape o hv2).2 hx)
  · rintro ⟨c, hc, hc2, rfl⟩
    refine ⟨c, ?_, ?_⟩
    · intro j
      by_cases hj : j = i
      · subst hj
        have := hc2.1 j; have h0 := hc.1 j; simp [above] at this ⊢; omega
      · simpa [hj] using hc.1 j
    · rw [if_neg]
      · rfl
      · rintro (h | h)
        · exact (G_neg_one_iff O shape o hc.1).1 h hc
        · exact (G_neg_one_iff O shape o hc2.1).1 h hc2

theorem mem_highFacets (i : Fin D) (hs : 1 ≤ shape i) (f : Facet D) :
    f ∈ highFacets O shape (G O shape o) i ↔
      ∃ c, ExteriorCell shape o c ∧ c i = shape i - 1 ∧ f = ((G O shape o c, -2), i) := by
  simp only [highFacets, List.mem_filterMap, O.mem]
  constructor
  · rintro ⟨c, hc, h⟩
    have hv : ∀ j, 0 ≤ Function.update c i (shape i - 1) j ∧ Function.update c i (shape i - 1) j < shape j := by
      intro j
      have := hc j
      by_cases hj : j = i
      · subst hj; simp; omega
      · simpa [hj] using this
    split at h
    · rename_i hp
      exact ⟨_, (G_nonneg_iff O shape o hv).1 hp, by simp, (Option.some.inj h).symm⟩
    · cases h
  · rintro ⟨c, hc, h0, rfl⟩
    refine ⟨Function.update c i 0, ?_, ?_⟩
    · intro j
      by_cases hj : j = i
      · subst hj; simp
      · simpa [hj] using hc.1 j
    · have : Function.update (Function.update c i 0) i (shape i - 1) = c := by
        rw [Function.update_idem, ← h0, Function.update_eq_self]
      rw [this, if_pos ((G_nonneg_iff O shape o hc.1).2 hc)]

theorem mem_facets (hs : ∀ i, 1 ≤ shape i) (f : Facet D) :
    f ∈ (ExteriorGrid.make O shape o).facets ↔
      ((∃ c i, ExteriorCell shape o c ∧ c i = 0 ∧ f = ((-2, G O shape o c), i)) ∨
       (∃ c i, ExteriorCell shape o c ∧ ExteriorCell shape o (above c i) ∧
          f = ((G O shape o c, G O shape o (above c i)), i)) ∨
       (∃ c i, ExteriorCell shape o c ∧ c i = shape i - 1 ∧ 2 ≤ shape i ∧ f = ((G O shape o c, -2), i))) := by
  have : (ExteriorGrid.make O shape o).facets =
    (List.finRange D).flatMap (axisFacets O shape (G O shape o)) := rfl
  rw [this, List.mem_flatMap]
  simp only [List.mem_finRange, true_and, axisFacets]
  constructor
  · rintro ⟨i, hi⟩
    split at hi
    · obtain ⟨c, h⟩ := (mem_lowFacets O shape o i (hs i) f).1 hi
      exact .inl ⟨c, i, h⟩
    · rw [List.mem_append, List.mem_append, mem_lowFacets O shape o i (hs i), mem_midFacets,
        mem_highFacets O shape o i (hs i)] at hi
      rcases hi with (⟨c, h⟩ | ⟨c, h⟩) | ⟨c, h1, h2, h3⟩
      · exact .inl ⟨c, i, h⟩
      · exact .inr (.inl ⟨c, i, h⟩)
      · exact .inr (.inr ⟨c, i, h1, h2, by omega, h3⟩)
  · rintro (⟨c, i, h⟩ | ⟨c, i, h⟩ | ⟨c, i, h1, h2, h3, h4⟩)
    · refine ⟨i, ?_⟩
      have hm := (mem_lowFacets O shape o i (hs i) f).2 ⟨c, h⟩
      split
      · exact hm
      · exact List.mem_append_left _ (List.mem_append_left _ hm)
    · refine ⟨i, ?_⟩
      have hm := (mem_midFacets O shape o i f).2 ⟨c, h⟩
      rw [if_neg]
      · exact List.mem_append_left _ (List.mem_append_right _ hm)
      · have a := h.1.1 i; have b := h.2.1.1 i; simp [above] at b; omega
    · refine ⟨i, ?_⟩
      have hm := (mem_highFacets O shape o i (hs i) f).2 ⟨c, h1, h2, h4⟩
      rw [if_neg (by omega)]
      exact List.mem_append_right _ hm

theorem facets_axis (f : Facet D) (i : Fin D) (h : f ∈ axisFacets O shape (G O shape o) i) : f.2 = i := by
  have hl : f ∈ lowFacets O shape (G O shape o) i → f.2 = i := by
    simp only [lowFacets, List.mem_filterMap]
    rintro ⟨c, _, h⟩; split at h <;> cases h; rfl
  have hm : f ∈ midFacets O shape (G O shape o) i → f.2 = i := by
    simp only [midFacets, List.mem_filterMap]
    rintro ⟨c, _, h⟩; split at h <;> cases h; rfl
  have hh : f ∈ highFacets O shape (G O shape o) i → f.2 = i := by
    simp only [highFacets, List.mem_filterMap]
    rintro ⟨c, _, h⟩; split at h <;> cases h; rfl
  simp only [axisFacets] at h
  split at h
  · exact hl h
  · rcases List.mem_append.1 h with h | h
    · rcases List.mem_append.1 h with h | h
      · exact hl h
      · exact hm h
    · exact hh h

theorem nodup_filterMap_on {α β : Type*} {f : α → Option β} {l : List α}
    (h : ∀ a ∈ l, ∀ a' ∈ l, ∀ b, f a = some b → f a' = some b → a = a') (hn : l.Nodup) :
    (l.filterMap f).Nodup := by
  induction l with
  | nil => simp
  | cons a l ih =>
    rw [List.nodup_cons] at hn
    have ih' := ih (fun x hx y hy => h x (List.mem_cons_of_mem _ hx) y (List.mem_cons_of_mem _ hy)) hn.2
    rw [List.filterMap_cons]
    split
    · exact ih'
    · rename_i b hb
      rw [List.nodup_cons]
      refine ⟨?_, ih'⟩
      intro hm
      obtain ⟨a', ha', hb'⟩ := List.mem_filterMap.1 hm
      have := h a List.mem_cons_self a' (List.mem_cons_of_mem _ ha') b hb hb'
      subst this; exact hn.1 ha'

theorem nodup_axisFacets (i : Fin D) (hs : 1 ≤ shape i) : (axisFacets O shape (G O shape o) i).Nodup := by
  have hlow : (lowFacets O shape (G O shape o) i).Nodup := by
    unfold lowFacets
    refine nodup_filterMap_on ?_ (O.nodup _)
    intro a ha a' ha' b hb hb'
    rw [O.mem] at ha ha'
    have hv : ∀ c : Coord D, (∀ j, 0 ≤ c j ∧ c j < Function.update shape i 1 j) →
        ∀ j, 0 ≤ c j ∧ c j < shape j := by
      intro c hc j
      have := hc j
      by_cases hj : j = i
      · subst hj; simp at this; omega
      · simpa [hj] using this
    dsimp only at hb hb'
    split at hb <;> split at hb' <;> simp only [reduceCtorEq, Option.some.injEq] at hb hb'
    rename_i h1 h2
    subst hb
    simp only [Prod.mk.injEq, true_and, and_true] at hb'
    exact G_inj O shape o ((G_nonneg_iff O shape o (hv a ha)).1 h1)
      ((G_nonneg_iff O shape o (hv a' ha')).1 h2) hb'.symm
  have hmid : (midFacets O shape (G O shape o) i).Nodup := by
    unfold midFacets
    refine nodup_filterMap_on ?_ (O.nodup _)
    intro a ha a' ha' b hb hb'
    rw [O.mem] at ha ha'
    have hv : ∀ c : Coord D, (∀ j, 0 ≤ c j ∧ c j < Function.update shape i (shape i - 1) j) →
        ∀ j, 0 ≤ c j ∧ c j < shape j := by
      intro c hc j
      have := hc j
      by_cases hj : j = i
      · subst hj; simp at this; omega
      · simpa [hj] using this
    have hx : ∀ c : Coord D, (∀ j, 0 ≤ c j ∧ c j < shape j) → ¬ G O shape o c = -1 → ExteriorCell shape o c := by
      intro c hc h; by_contra hh; exact h ((G_neg_one_iff O shape o hc).2 hh)
    dsimp only at hb hb'
    split at hb <;> split at hb' <;> simp only [reduceCtorEq, Option.some.injEq] at hb hb'
    rename_i h1 h2
    rw [not_or] at h1 h2
    subst hb
    simp only [Prod.mk.injEq, and_true] at hb'
    exact G_inj O shape o (hx a (hv a ha) h1.1) (hx a' (hv a' ha') h2.1) hb'.1.symm
  have hhigh : (highFacets O shape (G O shape o) i).Nodup := by
    unfold highFacets
    refine nodup_filterMap_on ?_ (O.nodup _)
    intro a ha a' ha' b hb hb'
    rw [O.mem] at ha ha'
    have hv : ∀ c : Coord D, (∀ j, 0 ≤ c j ∧ c j < Function.update shape i 1 j) →
        ∀ j, 0 ≤ Function.update c i (shape i - 1) j ∧ Function.update c i (shape i - 1) j < shape j := by
      intro c hc j
      have := hc j
      by_cases hj : j = i
      · subst hj; simp; omega
      · simpa [hj] using this
    dsimp only at hb hb'
    split at hb <;> split at hb' <;> simp only [reduceCtorEq, Option.some.injEq] at hb hb'
    rename_i h1 h2
    subst hb
    simp only [Prod.mk.injEq, and_true] at hb'
    have e := G_inj O shape o ((G_nonneg_iff O shape o (hv a ha)).1 h1)
      ((G_nonneg_iff O shape o (hv a' ha')).1 h2) hb'.symm
    funext j
    by_cases hj : j = i
    · subst hj
      have h3 := ha j; have h4 := ha' j; simp at h3 h4; omega
    · have := congrFun e j; simpa [hj] using this
  unfold axisFacets
  split
  · exact hlow
  · rw [List.nodup_append, List.nodup_append]
    refine ⟨⟨hlow, hmid, ?_⟩, hhigh, ?_⟩
    · intro a ha b hb hab
      subst hab
      obtain ⟨c, _, _, rfl⟩ := (mem_lowFacets O shape o i hs _).1 ha
      obtain ⟨c', h1, _, he⟩ := (mem_midFacets O shape o i _).1 hb
      have := (G_nonneg_iff O shape o h1.1).2 h1
      simp only [Prod.mk.injEq] at he; omega
    · intro a ha b hb hab
      subst hab
      obtain ⟨c', h1, _, he⟩ := (mem_highFacets O shape o i hs _).1 hb
      have hp := (G_nonneg_iff O shape o h1.1).2 h1
      rcases List.mem_append.1 ha with ha | ha
      · obtain ⟨c, _, _, rfl⟩ := (mem_lowFacets O shape o i hs _).1 ha
        simp only [Prod.mk.injEq] at he; omega
      · obtain ⟨c, _, h2, rfl⟩ := (mem_midFacets O shape o i _).1 ha
        have := (G_nonneg_iff O shape o h2.1).2 h2
        simp only [Prod.mk.injEq] at he; omega

theorem nodup_facets (hs : ∀ i, 1 ≤ shape i) : (ExteriorGrid.make O shape o).facets.Nodup := by
  show ((List.finRange D).flatMap (axisFacets O shape (G O shape o))).Nodup
  rw [List.nodup_flatMap]
  refine ⟨fun i _ => nodup_axisFacets O shape o i (hs i), ?_⟩
  have : (List.finRange D).Pairwise (· ≠ ·) := List.nodup_finRange D
  refine this.imp ?_
  intro a b hab x hx hx'
  exact hab ((facets_axis O shape o x a hx).symm.trans (facets_axis O shape o x b hx'))

/-- **C22.** The facets are exactly the expected ones, each once — except that on an axis with a single cell
the high-side domain facets are missing. -/
theorem C22_facets (hs : ∀ i, 1 ≤ shape i) :
    (ExteriorGrid.make O shape o).facets.Nodup ∧
    ∀ f, f ∈ (ExteriorGrid.make O shape o).facets ↔
      ExpectedFacet shape o (ExteriorGrid.make O shape o).cellIndex f ∧ ¬ (f.1.2 = -2 ∧ shape f.2 = 1) := by
  refine ⟨nodup_facets O shape o hs, fun f => ?_⟩
  rw [mem_facets O shape o hs]
  constructor
  · rintro (⟨c, i, h, h0, rfl⟩ | ⟨c, i, h, h', rfl⟩ | ⟨c, i, h, h1, h2, rfl⟩)
    · rw [← cellIndex_eq_G O shape o h]
      refine ⟨.low c i h h0, ?_⟩
      rintro ⟨hx, _⟩
      have := (G_nonneg_iff O shape o h.1).2 h
      rw [← cellIndex_eq_G O shape o h] at this
      simp only at hx; omega
    · rw [← cellIndex_eq_G O shape o h, ← cellIndex_eq_G O shape o h']
      refine ⟨.mid c i h h', ?_⟩
      rintro ⟨hx, _⟩
      have := (G_nonneg_iff O shape o h'.1).2 h'
      rw [← cellIndex_eq_G O shape o h'] at this
      simp only at hx; omega
    · rw [← cellIndex_eq_G O shape o h]
      refine ⟨.high c i h h1, ?_⟩
      rintro ⟨_, hx⟩
      simp only at hx; omega
  · rintro ⟨hf, hn⟩
    cases hf with
    | low c i h h0 => exact .inl ⟨c, i, h, h0, by rw [← cellIndex_eq_G O shape o h]⟩
    | mid c i h h' =>
      exact .inr (.inl ⟨c, i, h, h', by rw [← cellIndex_eq_G O shape o h, ← cellIndex_eq_G O shape o h']⟩)
    | high c i h h1 =>
      refine .inr (.inr ⟨c, i, h, h1, ?_, by rw [← cellIndex_eq_G O shape o h]⟩)
      have := hs i
      by_contra hx
      exact hn ⟨rfl, by show shape i = 1; omega⟩

/-- **C22** when every axis has at least two cells: exactly the expected facets. -/
theorem C22_facets_exact (hs : ∀ i, 2 ≤ shape i) (f : Facet D) :
    f ∈ (ExteriorGrid.make O shape o).facets ↔
      ExpectedFacet shape o (ExteriorGrid.make O shape o).cellIndex f := by
  rw [(C22_facets O shape o fun i => le_trans (by norm_num) (hs i)).2]
  refine ⟨fun h => h.1, fun h => ⟨h, fun hx => ?_⟩⟩
  have := hs f.2
  omega
end

/-- **C22, defect.** On every grid with a single layer of cells along an axis, every exterior cell lacks its
high-side domain facet on that axis, although the specification asks for it. -/
theorem C22_high_facets_refuted (O : GridOrder D) (shape : Coord D) (o : Coord D → Bool)
    (hs : ∀ i, 1 ≤ shape i) (i : Fin D) (h1 : shape i = 1) (c : Coord D) (hc : ExteriorCell shape o c) :
    let E := ExteriorGrid.make O shape o
    ExpectedFacet shape o E.cellIndex ((E.cellIndex c, -2), i) ∧ ((E.cellIndex c, -2), i) ∉ E.facets := by
  intro E
  refine ⟨.high c i hc ?_, ?_⟩
  · have := hc.1 i; omega
  · rw [(C22_facets O shape o hs).2]
    rintro ⟨_, h⟩
    exact h ⟨rfl, h1⟩

/-- the hypotheses of `C22_high_facets_refuted` are met by a 3×1 grid. -/
example : ExteriorCell ![3, 1] (fun _ => true) ![2, 0] := by
  refine ⟨?_, rfl⟩; decide

/-- **C24.** In a full grid with at least two cells along each axis, each cell is on the lower side of exactly
`D` facets and on the upper side of exactly `D` facets, one of each per axis. -/
theorem C24_full_grid (O : GridOrder D) (shape : Coord D) (hs : ∀ i, 2 ≤ shape i) (k : ℕ)
    (hk : k < (ExteriorGrid.make O shape fun _ => true).numCells) :
    let E := ExteriorGrid.make O shape fun _ => true
    (E.facets.filter fun f => decide (f.1.1 = (k : ℤ))).length = D ∧
    (E.facets.filter fun f => decide (f.1.2 = (k : ℤ))).length = D ∧
    ∀ i : Fin D, (E.facets.filter fun f => decide (f.1.1 = (k : ℤ) ∧ f.2 = i)).length = 1 ∧
      (E.facets.filter fun f => decide (f.1.2 = (k : ℤ) ∧ f.2 = i)).length = 1 := by
  intro E
  have hnd : E.facets.Nodup := nodup_facets O shape _ fun i => le_trans (by norm_num) (hs i)
  obtain ⟨c, ⟨hc, hck⟩, -⟩ := (C21_bijection O shape fun _ => true).2.1 k hk
  have hext : ∀ d : Coord D, (∀ j, 0 ≤ d j ∧ d j < shape j) → ExteriorCell shape (fun _ => true) d :=
    fun d h => ⟨h, rfl⟩
  have hnn : ∀ d, ExteriorCell shape (fun _ => true) d → 0 ≤ E.cellIndex d := by
    intro d hd
    rw [cellIndex_eq_G O shape _ hd]; exact (G_nonneg_iff O shape _ hd.1).2 hd
  have hinj : ∀ d, ExteriorCell shape (fun _ => true) d → E.cellIndex d = k → d = c := by
    intro d hd h
    refine G_inj O shape _ hd hc ?_
    rw [← cellIndex_eq_G O shape _ hd, ← cellIndex_eq_G O shape _ hc]; exact h.trans hck.symm
  -- the unique facet above / below `c` on axis `i`
  let up : Fin D → Facet D := fun i => ((k, if c i = shape i - 1 then -2 else E.cellIndex (above c i)), i)
  let dn : Fin D → Facet D := fun i =>
    ((if c i = 0 then -2 else E.cellIndex (Function.update c i (c i - 1)), k), i)
  have hup : ∀ f, (f ∈ E.facets ∧ f.1.1 = k) ↔ ∃ i, f = up i := by
    intro f
    rw [C22_facets_exact O shape _ hs]
    constructor
    · rintro ⟨hf, h1⟩
      cases hf with
      | low d i hd h0 => simp only at h1; omega
      | mid d i hd hd' =>
        have := hinj d hd h1
        subst this
        refine ⟨i, ?_⟩
        have h2 := hd'.1 i
        simp [above] at h2
        simp only [up]
        rw [if_neg (by omega)]
        simp only [Prod.mk.injEq, and_true]
        exact ⟨hck, rfl⟩
      | high d i hd h2 =>
        have := hinj d hd h1
        subst this
        refine ⟨i, ?_⟩
        simp only [up]
        rw [if_pos h2]
        simp only [Prod.mk.injEq, and_true]
        exact hck
    · rintro ⟨i, rfl⟩
      refine ⟨?_, rfl⟩
      simp only [up]
      split
      · rename_i h; rw [← hck]; exact .high c i hc h
      · rename_i h
        rw [← hck]
        refine .mid c i hc (hext _ ?_)
        intro j
        have hj := hc.1 j
        by_cases hji : j = i
        · subst hji; simp [above]; omega
        · simpa [above, hji] using hj
  have hdn : ∀ f, (f ∈ E.facets ∧ f.1.2 = k) ↔ ∃ i, f = dn i := by
    intro f
    rw [C22_facets_exact O shape _ hs]
    constructor
    · rintro ⟨hf, h1⟩
      cases hf with
      | high d i hd h0 => simp only at h1; omega
      | mid d i hd hd' =>
        have := hinj _ hd' h1
        refine ⟨i, ?_⟩
        have h2 := hd.1 i
        have h3 : c i = d i + 1 := by rw [← this]; simp [above]
        have h4 : Function.update c i (c i - 1) = d := by
          rw [h3, ← this]; simp [above]
        simp only [dn]
        rw [if_neg (by omega), h4]
        simp only [Prod.mk.injEq, and_true]
        exact ⟨rfl, h1⟩
      | low d i hd h2 =>
        have := hinj d hd h1
        subst this
        refine ⟨i, ?_⟩
        simp only [dn]
        rw [if_pos h2]
        simp only [Prod.mk.injEq, and_true]
        exact ⟨trivial, hck⟩
    · rintro ⟨i, rfl⟩
      refine ⟨?_, rfl⟩
      simp only [dn]
      split
      · rename_i h; rw [← hck]; exact .low c i hc h
      · rename_i h
        have hx : above (Function.update c i (c i - 1)) i = c := by
          simp [above]
        have hd : ExteriorCell shape (fun _ => true) (Function.update c i (c i - 1)) := by
          refine hext _ ?_
          intro j
          have hj := hc.1 j
          by_cases hji : j = i
          · subst hji; simp; omega
          · simpa [hji] using hj
        have := ExpectedFacet.mid (outside := fun _ => true) (idx := E.cellIndex) _ i hd (by rw [hx]; exact hc)
        rw [hx] at this
        rw [← hck]; exact this
  have key : ∀ (g : Fin D → Facet D) (p : Facet D → Prop) [DecidablePred p], (∀ i, (g i).2 = i) →
      (∀ f, (f ∈ E.facets ∧ p f) ↔ ∃ i, f = g i) →
      (E.facets.filter fun f => decide (p f)).length = D ∧
      ∀ i : Fin D, (E.facets.filter fun f => decide (p f ∧ f.2 = i)).length = 1 := by
    intro g p _ hg h
    constructor
    · have hperm : (E.facets.filter fun f => decide (p f)).Perm ((List.finRange D).map g) := by
        rw [List.perm_ext_iff_of_nodup (hnd.filter _)
          ((List.nodup_finRange D).map fun a b hab => by rw [← hg a, hab, hg b])]
        intro f
        rw [List.mem_filter, decide_eq_true_iff, h]
        simp [eq_comm]
      rw [hperm.length_eq]; simp
    · intro i
      have hperm : (E.facets.filter fun f => decide (p f ∧ f.2 = i)).Perm [g i] := by
        rw [List.perm_ext_iff_of_nodup (hnd.filter _) (by simp)]
        intro f
        rw [List.mem_filter, decide_eq_true_iff, ← and_assoc, h]
        simp only [List.mem_singleton]
        constructor
        · rintro ⟨⟨j, rfl⟩, hj⟩; rw [hg] at hj; rw [hj]
        · rintro rfl; exact ⟨⟨i, rfl⟩, hg i⟩
      rw [hperm.length_eq]; rfl
  have k1 := key up (fun f => f.1.1 = k) (fun _ => rfl) hup
  have k2 := key dn (fun f => f.1.2 = k) (fun _ => rfl) hdn
  exact ⟨k1.1, k2.1, fun i => ⟨k1.2 i, k2.2 i⟩⟩

/-- `C24_full_grid` applies to the middle cell of a 3×3 grid. -/
example : 4 < (ExteriorGrid.make (lexOrder 2) ![3, 3] fun _ => true).numCells := by decide +kernel

end Mandoline
