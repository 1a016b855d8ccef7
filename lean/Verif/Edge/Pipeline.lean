import Verif.Edge.Raw
import Mathlib.Tactic.Linarith

/-! # Lemmas: the whole `EdgeIntersections::bake` pipeline -/
namespace Mandoline
variable {D : ℕ}

/-- `t` is the parameter of a proper crossing with some grid plane. -/
def Crosses (a b : Pt D) (t : ℚ) : Prop := ∃ d, CrossesAt a b d t

/-- `v` has the integer and fractional parts of `w`, and its clamped flags only mark integral coordinates. -/
def SamePos (v w : Vertex D) : Prop := v.coord = w.coord ∧ v.quot = w.quot ∧ FlagsSound v

theorem SamePos.mask {v w : Vertex D} (h : SamePos v w) : v.mask = w.mask := mask_congr h.1 h.2.1
theorem SamePos.p {v w : Vertex D} (h : SamePos v w) : v.p = w.p := by
  funext i; simp only [Vertex.p, h.1, h.2.1]

theorem clampBy_flags (m : Mask D) (v : Vertex D) (h : FlagsSound v) : FlagsSound (Vertex.clampBy m v) := by
  intro i hi
  simp only [Vertex.clampBy, Mask.asBitset] at hi ⊢
  cases hm : m i with
  | none => simp [hm] at hi; exact h i hi
  | some c => rfl

theorem pointAt_flags (a b : Vertex D) (t : ℚ) : FlagsSound (pointAt a b t) := by
  intro i hi
  simp [pointAt, Vertex.add, Vertex.repair, Vertex.smul] at hi

theorem sectAt_flags (a b : Vertex D) (d : Fin D) (i : ℕ) : FlagsSound (sectAt a b d i) := by
  unfold sectAt
  simp only
  apply clampBy_flags
  intro k hk
  by_cases hkd : k = d
  · subst hkd; simp
  · simp only [Function.update_of_ne hkd] at hk ⊢
    exact clampBy_flags _ _ (pointAt_flags a b _) k hk

theorem threshold_flags (t : ℚ) (v : Vertex D) (h : FlagsSound v) : FlagsSound (v.applyThresholding t) := by
  intro i hi
  simp only [Vertex.applyThresholding] at hi ⊢
  rcases Vertex.thresholdAxis_cases t (v.coord i) (v.quot i) (v.clamped i) with
    h' | ⟨h', _⟩ | ⟨h', _⟩ <;> rw [h'] at hi ⊢
  exact h i hi

section
variable (a b : Vertex D)

theorem mOf_eq_some (t : ℚ) (i : Fin D) (c : ℤ) :
    (pointAt a b t).mask i = some c ↔ segPt a.p b.p t i = (c : ℚ) := by
  rw [vertex_mask_eq_some _ (pointAt_normalised a b t), pointAt_p]

theorem mask_inj_at {t t' : ℚ} {d : Fin D} (h : CrossesAt a.p b.p d t)
    (hm : ∀ c, (pointAt a b t).mask d = some c → (pointAt a b t').mask d = some c) : t = t' := by
  obtain ⟨_, _, hne, n, hn⟩ := h
  have h1 := (mOf_eq_some a b t d n).2 hn
  have h2 := (mOf_eq_some a b t' d n).1 (hm n h1)
  exact seg_inj a.p b.p d hne t t' (hn.trans h2.symm)

theorem mask_inj {t t' : ℚ} (h : Crosses a.p b.p t)
    (hm : (pointAt a b t).mask = (pointAt a b t').mask) : t = t' := by
  obtain ⟨d, hd⟩ := h
  exact mask_inj_at a b hd fun c hc => by rw [← hm]; exact hc

/-- state of the bins after the crossings in `C` have been recorded. -/
structure BinInv (C : ℚ → Prop) (E : ℕ → Bin D) : Prop where
  sorted : ∀ j, OMap.Sorted maskLt (E j)
  sound : ∀ j m es, (m, es) ∈ E j → ∃ t v, es = [(t, v)] ∧ C t ∧ m = (pointAt a b t).mask ∧
    SamePos v (pointAt a b t)
  complete : ∀ t, C t → ∃ v, ((pointAt a b t).mask, [(t, v)]) ∈ E ((pointAt a b t).mask.count - 1)

theorem BinInv.congr {C C' : ℚ → Prop} {E : ℕ → Bin D} (h : BinInv a b C E) (hc : ∀ t, C t ↔ C' t) :
    BinInv a b C' E := by
  have : C = C' := funext fun t => propext (hc t)
  rwa [← this]

theorem binEmplace_inv {C : ℚ → Prop} {E : ℕ → Bin D} (h : BinInv a b C E)
    (hC : ∀ t, C t → Crosses a.p b.p t) {t : ℚ} (ht : Crosses a.p b.p t) {v : Vertex D}
    (hv : SamePos v (pointAt a b t)) :
    BinInv a b (fun s => C s ∨ s = t) (binEmplace E v t) := by
  have hm := hv.mask
  have hST := strictTotal_maskLt (D := D)
  set j0 := v.mask.count - 1 with hj0
  -- the new value stored under the mask
  have hnew : ∃ w, OMap.insertNew ratLt t v ((OMap.find maskLt v.mask (E j0)).getD []) = [(t, w)] ∧
      SamePos w (pointAt a b t) := by
    cases hf : OMap.find maskLt v.mask (E j0) with
    | none => exact ⟨v, by simp [OMap.insertNew, OMap.alter], hv⟩
    | some es =>
      obtain ⟨t1, v1, hes, hC1, hm1, hv1⟩ := h.sound j0 _ _ (OMap.mem_of_find hST hf)
      have : t1 = t := mask_inj a b (hC t1 hC1) (by rw [← hm1, hm])
      subst this
      exact ⟨v1, by simp [hes, OMap.insertNew, OMap.alter, ratLt], hv1⟩
  obtain ⟨w, hw, hwp⟩ := hnew
  refine ⟨?_, ?_, ?_⟩
  · intro j
    by_cases hj : j = j0
    · subst hj; simp only [binEmplace, ← hj0, Function.update_self]
      exact OMap.sorted_alter hST (h.sorted _)
    · simp only [binEmplace, ← hj0, Function.update_of_ne hj]; exact h.sorted j
  · intro j m es hmem
    by_cases hj : j = j0
    · subst hj
      simp only [binEmplace, ← hj0, Function.update_self] at hmem
      rcases (OMap.mem_alter hST (h.sorted _)).1 hmem with ⟨_, h2⟩ | ⟨h1, h2⟩
      · obtain ⟨t1, v1, h3, h4, h5⟩ := h.sound _ _ _ h2
        exact ⟨t1, v1, h3, Or.inl h4, h5⟩
      · exact ⟨t, w, by rw [h2, hw], Or.inr rfl, by rw [h1, hm], hwp⟩
    · simp only [binEmplace, ← hj0, Function.update_of_ne hj] at hmem
      obtain ⟨t1, v1, h3, h4, h5⟩ := h.sound _ _ _ hmem
      exact ⟨t1, v1, h3, Or.inl h4, h5⟩
  · intro s hs
    have hnewmem : (v.mask, [(t, w)]) ∈ binEmplace E v t j0 := by
      simp only [binEmplace, ← hj0, Function.update_self]
      exact (OMap.mem_alter hST (h.sorted _)).2 (Or.inr ⟨rfl, hw.symm⟩)
    by_cases hst : s = t
    · subst hst
      exact ⟨w, by rw [← hm]; exact hnewmem⟩
    · have hCs : C s := by tauto
      obtain ⟨v1, h1⟩ := h.complete s hCs
      refine ⟨v1, ?_⟩
      by_cases hj : (pointAt a b s).mask.count - 1 = j0
      · rw [hj] at h1 ⊢
        simp only [binEmplace, ← hj0, Function.update_self]
        refine (OMap.mem_alter hST (h.sorted _)).2 (Or.inl ⟨?_, h1⟩)
        intro he
        exact hst (mask_inj a b (hC s hCs) (by rw [he, hm]))
      · simp only [binEmplace, ← hj0, Function.update_of_ne hj]
        exact h1

theorem gridRangeOk_true (shape : Coord D) (np : Vertex D) : gridRangeOk shape np = true := by
  simp [gridRangeOk]

theorem active_iff (m : Mask D) : m.active = true ↔ ∃ i c, m i = some c := by
  simp [Mask.active, Mask.isBound, Option.isSome_iff_exists]

/-- in exact arithmetic the `invalid_isect` filter never rejects a proper crossing. -/
theorem invalidIsect_false (ha : Normalised a) (hb : Normalised b) {t : ℚ} (ht : 0 < t ∧ t < 1)
    {v : Vertex D} (hv : SamePos v (pointAt a b t)) : invalidIsect a b v = false := by
  have key : ∀ x : Vertex D, (x = a ∨ x = b) →
      ((x.mask.sub (edgeMask a b)).and (v.mask.sub (edgeMask a b))).active = false := by
    intro x hx
    rw [← Bool.not_eq_true, active_iff]
    rintro ⟨i, c, h⟩
    rw [Mask.and_eq_some, C02_sub_spec, C02_sub_spec, hv.mask, mOf_eq_some] at h
    obtain ⟨⟨h1, h2⟩, h3, _⟩ := h
    have hpx : x.p i = (c : ℚ) := by
      rcases hx with rfl | rfl
      · exact (vertex_mask_eq_some _ ha i c).1 h1
      · exact (vertex_mask_eq_some _ hb i c).1 h1
    apply h2 c
    rw [edgeMask, Mask.and_eq_some, vertex_mask_eq_some _ ha, vertex_mask_eq_some _ hb]
    unfold segPt at h3
    rcases hx with rfl | rfl
    · refine ⟨hpx, ?_⟩
      rw [hpx] at h3
      have : t * (b.p i - c) = 0 := by linarith
      rcases mul_eq_zero.1 this with h | h
      · linarith
      · linarith
    · refine ⟨?_, hpx⟩
      rw [hpx] at h3
      have : (1 - t) * (a.p i - c) = 0 := by linarith
      rcases mul_eq_zero.1 this with h | h
      · linarith
      · linarith
  simp only [invalidIsect, key a (Or.inl rfl), key b (Or.inr rfl), Bool.or_self]

theorem bakeStep_inv (grid : Option (Coord D)) (ha : Normalised a) (hb : Normalised b)
    {C : ℚ → Prop} {E : ℕ → Bin D} (h : BinInv a b C E) (hC : ∀ t, C t → Crosses a.p b.p t)
    (d : Fin D) (hdir : dirAt a b d ≠ 0) (i : ℕ)
    (hi : ∀ t, tAt a b d i = t → ¬ (t ≤ 0 ∨ t ≥ 1) → CrossesAt a.p b.p d t) :
    BinInv a b (fun s => C s ∨ (tAt a b d i = s ∧ ¬ (s ≤ 0 ∨ s ≥ 1))) (bakeStep grid a b d E i) := by
  unfold bakeStep
  simp only
  split_ifs with ht
  · refine h.congr a b fun s => ?_
    constructor
    · exact Or.inl
    · rintro (h1 | ⟨rfl, h1⟩)
      · exact h1
      · exact absurd ht h1
  · have hcr := hi _ rfl ht
    have hsp : SamePos (sectAt a b d i) (pointAt a b (tAt a b d i)) :=
      ⟨(sectAt_eq a b ha hb d hdir i).1, (sectAt_eq a b ha hb d hdir i).2, sectAt_flags a b d i⟩
    have hnew := binEmplace_inv a b h hC ⟨d, hcr⟩ hsp
    have hcong : ∀ s, (C s ∨ s = tAt a b d i) ↔ (C s ∨ (tAt a b d i = s ∧ ¬ (s ≤ 0 ∨ s ≥ 1))) := by
      intro s
      constructor
      · rintro (h1 | rfl)
        · exact Or.inl h1
        · exact Or.inr ⟨rfl, ht⟩
      · rintro (h1 | ⟨rfl, _⟩)
        · exact Or.inl h1
        · exact Or.inr rfl
    cases grid with
    | none => exact hnew.congr a b hcong
    | some shape =>
      simp only [gridRangeOk_true, invalidIsect_false a b ha hb ⟨hcr.1, hcr.2.1⟩ hsp, Bool.not_false,
        Bool.and_self, if_true]
      exact hnew.congr a b hcong

theorem bakeAxis_inv (grid : Option (Coord D)) (ha : Normalised a) (hb : Normalised b)
    {C : ℚ → Prop} {E : ℕ → Bin D} (h : BinInv a b C E) (hC : ∀ t, C t → Crosses a.p b.p t)
    (d : Fin D) : BinInv a b (fun s => C s ∨ CrossesAt a.p b.p d s) (bakeAxis grid a b E d) := by
  unfold bakeAxis
  split_ifs with hdir
  · refine h.congr a b fun s => ?_
    constructor
    · exact Or.inl
    · rintro (h1 | h1)
      · exact h1
      · exact absurd hdir ((dir_ne_iff a b ha hb d).2 h1.2.2.1)
  · have hloop := loop_iff a b ha hb d hdir
    generalize hl : List.range (endAt a b d - beginAt a b d + 1).toNat = l at hloop
    have hsub : ∀ i ∈ l, ∀ t, tAt a b d i = t → ¬ (t ≤ 0 ∨ t ≥ 1) → CrossesAt a.p b.p d t :=
      fun i hi t h1 h2 => (hloop t).1 ⟨i, hi, h1, h2⟩
    have gen : ∀ (l : List ℕ) (C : ℚ → Prop) (E : ℕ → Bin D), BinInv a b C E →
        (∀ t, C t → Crosses a.p b.p t) →
        (∀ i ∈ l, ∀ t, tAt a b d i = t → ¬ (t ≤ 0 ∨ t ≥ 1) → CrossesAt a.p b.p d t) →
        BinInv a b (fun s => C s ∨ ∃ i ∈ l, tAt a b d i = s ∧ ¬ (s ≤ 0 ∨ s ≥ 1))
          (l.foldl (bakeStep grid a b d) E) := by
      intro l
      induction l with
      | nil => intro C E h _ _; simpa using h
      | cons i l ih =>
        intro C E h hC hs
        have h1 := bakeStep_inv a b grid ha hb h hC d hdir i (hs i (by simp))
        have h2 := ih _ _ h1 (by
          rintro t (h2 | ⟨h2, h3⟩)
          · exact hC t h2
          · exact ⟨d, hs i (by simp) t h2 h3⟩) (fun k hk => hs k (by simp [hk]))
        refine h2.congr a b fun s => ?_
        simp only [List.mem_cons, exists_eq_or_imp]
        exact or_assoc
    exact (gen l C E h hC hsub).congr a b fun s => or_congr_right (hloop s)

theorem bakeBins_inv (grid : Option (Coord D)) (ha : Normalised a) (hb : Normalised b) :
    BinInv a b (Crosses a.p b.p) (bakeBins grid a b) := by
  have gen : ∀ (l : List (Fin D)) (C : ℚ → Prop) (E : ℕ → Bin D), BinInv a b C E →
      (∀ t, C t → Crosses a.p b.p t) →
      BinInv a b (fun s => C s ∨ ∃ d ∈ l, CrossesAt a.p b.p d s) (l.foldl (bakeAxis grid a b) E) := by
    intro l
    induction l with
    | nil => intro C E h _; simpa using h
    | cons d l ih =>
      intro C E h hC
      have h1 := bakeAxis_inv a b grid ha hb h hC d
      have h2 := ih _ _ h1 (by
        rintro t (h2 | h2)
        · exact hC t h2
        · exact ⟨d, h2⟩)
      refine h2.congr a b fun s => ?_
      simp only [List.mem_cons, exists_eq_or_imp]
      tauto
  have h0 : BinInv a b (fun _ => False) (fun _ => ([] : Bin D)) :=
    ⟨fun _ => OMap.sorted_nil, fun _ _ _ h => by simp at h, fun _ h => h.elim⟩
  refine (gen (List.finRange D) _ _ h0 (fun _ h => h.elim)).congr a b fun s => ?_
  simp [Crosses]

/-- condensation is the identity in exact arithmetic. -/
theorem condenseEntry_id {E : ℕ → Bin D} (h : BinInv a b (Crosses a.p b.p) E) (i : ℕ) (c : Mask D)
    (es : IsectSet D) {j : ℕ} (hc : (c, es) ∈ E j) : condenseEntry c es (E i) = (es, E i) := by
  have hST := strictTotal_maskLt (D := D)
  obtain ⟨t', v', _, ht', hm', _⟩ := h.sound j c es hc
  have hnone : ∀ k, c.isBound k = true → OMap.find maskLt (Function.update c k none) (E i) = none := by
    intro k hk
    rw [OMap.find_none_iff hST (h.sorted i)]
    intro es' hmem
    obtain ⟨t, v, _, ⟨d, hd⟩, hm, _⟩ := h.sound i _ _ hmem
    have htt : t = t' := by
      refine mask_inj_at a b hd fun x hx => ?_
      rw [← hm] at hx
      rw [← hm']
      by_cases hdk : d = k
      · subst hdk; simp at hx
      · rwa [Function.update_of_ne hdk] at hx
    subst htt
    have h1 : Function.update c k none = c := hm.trans hm'.symm
    have h2 := congrFun h1 k
    simp only [Function.update_self] at h2
    rw [Mask.isBound, ← h2] at hk
    simp at hk
  unfold condenseEntry
  generalize List.finRange D = l
  induction l with
  | nil => rfl
  | cons k l ih =>
    rw [List.foldl_cons]
    by_cases hk : c.isBound k = true
    · simp only [hk, if_true, hnone k hk]; exact ih
    · simp only [hk]; exact ih

theorem condenseLevel_id {E : ℕ → Bin D} (h : BinInv a b (Crosses a.p b.p) E) (i : ℕ) :
    condenseLevel E i = E := by
  have gen : ∀ (l pre : Bin D), (∀ p ∈ l, p ∈ E (i + 1)) →
      l.foldl (fun (st : Bin D × Bin D) p =>
        ((st.1 ++ [(p.1, (condenseEntry p.1 p.2 st.2).1)], (condenseEntry p.1 p.2 st.2).2) : Bin D × Bin D))
        (pre, E i) = (pre ++ l, E i) := by
    intro l
    induction l with
    | nil => intro pre _; simp
    | cons p l ih =>
      intro pre hp
      rw [List.foldl_cons]
      have hp1 := condenseEntry_id a b h i p.1 p.2 (hp p (by simp))
      simp only [hp1]
      rw [ih (pre ++ [(p.1, p.2)]) fun q hq => hp q (by simp [hq])]
      simp
  have h1 := gen (E (i + 1)) [] fun p hp => hp
  unfold condenseLevel
  simp only
  rw [h1]
  funext j
  by_cases hj : j = i + 1
  · subst hj; simp
  · rw [Function.update_of_ne hj]
    by_cases hj' : j = i
    · subst hj'; simp
    · rw [Function.update_of_ne hj']

theorem condense_id {E : ℕ → Bin D} (h : BinInv a b (Crosses a.p b.p) E) : condense E = E := by
  unfold condense
  generalize List.range (D - 1) = l
  induction l with
  | nil => rfl
  | cons i l ih => rw [List.foldl_cons, condenseLevel_id a b h i]; exact ih

theorem mask_count_le (m : Mask D) : m.count ≤ D := by
  unfold Mask.count
  exact (List.countP_le_length).trans (by simp)

theorem average_spec {E : ℕ → Bin D} (h : BinInv a b (Crosses a.p b.p) E) (edgeIndex : ℤ) :
    OMap.Sorted ratLt (average edgeIndex E) ∧
    (∀ t v, (t, v) ∈ average edgeIndex E → Crosses a.p b.p t ∧ SamePos v (pointAt a b t)) ∧
    (∀ t, Crosses a.p b.p t → ∃ v, (t, v) ∈ average edgeIndex E) := by
  have hST := strictTotal_ratLt
  have hall : ∀ p ∈ (List.range D).flatMap E, ∃ t v, p.2 = [(t, v)] ∧ Crosses a.p b.p t ∧
      SamePos v (pointAt a b t) := by
    intro p hp
    obtain ⟨j, _, hj⟩ := List.mem_flatMap.1 hp
    obtain ⟨t, v, h1, h2, _, h4⟩ := h.sound j p.1 p.2 hj
    exact ⟨t, v, h1, h2, h4⟩
  have gen : ∀ (l : Bin D) (mm : List (ℚ × Vertex D)), OMap.Sorted ratLt mm →
      (∀ t v, (t, v) ∈ mm → Crosses a.p b.p t ∧ SamePos v (pointAt a b t)) →
      (∀ p ∈ l, ∃ t v, p.2 = [(t, v)] ∧ Crosses a.p b.p t ∧ SamePos v (pointAt a b t)) →
      OMap.Sorted ratLt (l.foldl (averageStep edgeIndex) mm) ∧
      (∀ t v, (t, v) ∈ l.foldl (averageStep edgeIndex) mm →
        Crosses a.p b.p t ∧ SamePos v (pointAt a b t)) ∧
      (∀ t, ((∃ v, (t, v) ∈ mm) ∨ ∃ p ∈ l, ∃ v, p.2 = [(t, v)]) →
        ∃ v, (t, v) ∈ l.foldl (averageStep edgeIndex) mm) := by
    intro l
    induction l with
    | nil => intro mm h1 h2 _; exact ⟨h1, h2, fun t ht => by simpa using ht⟩
    | cons p l ih =>
      intro mm h1 h2 h3
      obtain ⟨t0, v0, hp, hc0, hs0⟩ := h3 p (by simp)
      have hstep : averageStep edgeIndex mm p = OMap.alter ratLt t0 (fun o => match o with
          | none => v0
          | some old => if edgeIndex = -1 then v0
            else Vertex.repair { old with clamped := fun i => old.clamped i || v0.clamped i }) mm := by
        simp only [averageStep, hp, List.getLast?_singleton, List.map_cons, List.map_nil, List.sum_cons,
          List.sum_nil, add_zero, List.length_singleton, Nat.cast_one, div_one]
        rfl
      rw [List.foldl_cons, hstep]
      set mm' := OMap.alter ratLt t0 (fun o => match o with
          | none => v0
          | some old => if edgeIndex = -1 then v0
            else Vertex.repair { old with clamped := fun i => old.clamped i || v0.clamped i }) mm with hmm'
      have hs1 : OMap.Sorted ratLt mm' := OMap.sorted_alter hST h1
      have hs2 : ∀ t v, (t, v) ∈ mm' → Crosses a.p b.p t ∧ SamePos v (pointAt a b t) := by
        intro t v hm
        rcases (OMap.mem_alter hST h1).1 hm with ⟨_, h5⟩ | ⟨rfl, h5⟩
        · exact h2 t v h5
        · refine ⟨hc0, ?_⟩
          cases hf : OMap.find ratLt t mm with
          | none => rw [hf] at h5; simp only at h5; rw [h5]; exact hs0
          | some old =>
            rw [hf] at h5; simp only at h5
            split_ifs at h5 with hi
            · rw [h5]; exact hs0
            · have ho := (h2 t old (OMap.mem_of_find hST hf)).2
              have hn : Normalised (⟨old.coord, old.quot, fun i => old.clamped i || v0.clamped i⟩ : Vertex D) := by
                intro i; simp only [ho.2.1]; exact pointAt_normalised a b t i
              rw [Vertex.repair_of_normalised _ hn] at h5
              rw [h5]
              refine ⟨ho.1, ho.2.1, fun i hi => ?_⟩
              simp only [Bool.or_eq_true] at hi
              rcases hi with hi | hi
              · exact ho.2.2 i hi
              · have := hs0.2.2 i hi
                rw [hs0.2.1] at this
                simp only [ho.2.1]; exact this
      obtain ⟨r1, r2, r3⟩ := ih mm' hs1 hs2 fun q hq => h3 q (by simp [hq])
      refine ⟨r1, r2, ?_⟩
      intro t ht
      apply r3
      by_cases htt : t = t0
      · left
        exact ⟨_, (OMap.mem_alter hST h1).2 (Or.inr ⟨htt, rfl⟩)⟩
      · rcases ht with ⟨v, hv⟩ | ⟨q, hq, v, hv⟩
        · left; exact ⟨v, (OMap.mem_alter hST h1).2 (Or.inl ⟨htt, hv⟩)⟩
        · rcases List.mem_cons.1 hq with rfl | hq
          · rw [hp] at hv; simp at hv; exact absurd hv.1.symm htt
          · exact Or.inr ⟨q, hq, v, hv⟩
  obtain ⟨r1, r2, r3⟩ := gen _ [] OMap.sorted_nil (by simp) hall
  refine ⟨r1, r2, fun t ht => r3 t (Or.inr ?_)⟩
  obtain ⟨v, hv⟩ := h.complete t ht
  refine ⟨_, List.mem_flatMap.2 ⟨(pointAt a b t).mask.count - 1, ?_, hv⟩, v, rfl⟩
  obtain ⟨d, _⟩ := ht
  have := mask_count_le (pointAt a b t).mask
  have := d.isLt
  rw [List.mem_range]; omega

/-- the recorded position of the crossing at `t` after thresholding. -/
def snapped (a b : Vertex D) (thresh t : ℚ) : Vertex D := (pointAt a b t).applyThresholding thresh

theorem threshold_samePos {v w : Vertex D} (h : SamePos v w) (thr : ℚ) :
    SamePos (v.applyThresholding thr) (w.applyThresholding thr) := by
  have key : ∀ c q cl cl', (Vertex.thresholdAxis thr c q cl).1 = (Vertex.thresholdAxis thr c q cl').1 ∧
      (Vertex.thresholdAxis thr c q cl).2.1 = (Vertex.thresholdAxis thr c q cl').2.1 := by
    intro c q cl cl'
    unfold Vertex.thresholdAxis
    split_ifs <;> simp
  refine ⟨?_, ?_, threshold_flags _ _ h.2.2⟩
  · funext i
    simp only [Vertex.applyThresholding, h.1, h.2.1]
    exact (key _ _ _ _).1
  · funext i
    simp only [Vertex.applyThresholding, h.1, h.2.1]
    exact (key _ _ _ _).2

theorem selectPerMask_spec (ha : Normalised a) (hb : Normalised b) (thr : ℚ) (mm : List (ℚ × Vertex D))
    (hmm : ∀ t v, (t, v) ∈ mm → Crosses a.p b.p t ∧ SamePos v (pointAt a b t)) :
    OMap.Sorted maskLt (selectPerMask thr (edgeMask a b) mm) ∧
    (∀ m e, (m, e) ∈ selectPerMask thr (edgeMask a b) mm →
      Crosses a.p b.p e.t ∧ SamePos e.v (snapped a b thr e.t) ∧ m = (snapped a b thr e.t).mask) ∧
    (∀ t v, (t, v) ∈ mm → ∃ e, ((snapped a b thr t).mask, e) ∈ selectPerMask thr (edgeMask a b) mm) := by
  have hST := strictTotal_maskLt (D := D)
  have hpos : ∀ t v, (t, v) ∈ mm →
      SamePos ((Vertex.clampBy (edgeMask a b) v).applyThresholding thr) (snapped a b thr t) := by
    intro t v hv
    apply threshold_samePos
    obtain ⟨_, h2⟩ := hmm t v hv
    have hN : Normalised v := by intro i; rw [h2.2.1]; exact pointAt_normalised a b t i
    obtain ⟨c, q⟩ := clampBy_edgeMask_id a b ha hb v hN t (by rw [h2.p, pointAt_p])
    exact ⟨c.trans h2.1, q.trans h2.2.1, clampBy_flags _ _ h2.2.2⟩
  unfold selectPerMask
  have gen : ∀ (l : List (ℚ × Vertex D)) (cem : List (Mask D × Isect D)), (∀ p ∈ l, p ∈ mm) →
      OMap.Sorted maskLt cem →
      (∀ m e, (m, e) ∈ cem →
        Crosses a.p b.p e.t ∧ SamePos e.v (snapped a b thr e.t) ∧ m = (snapped a b thr e.t).mask) →
      OMap.Sorted maskLt ((l.map fun p =>
        (Isect.mk p.1 ((Vertex.clampBy (edgeMask a b) p.2).applyThresholding thr) : Isect D)).foldl
        (fun cem e => OMap.assign maskLt e.v.mask e cem) cem) ∧
      (∀ m e, (m, e) ∈ ((l.map fun p =>
        (Isect.mk p.1 ((Vertex.clampBy (edgeMask a b) p.2).applyThresholding thr) : Isect D)).foldl
        (fun cem e => OMap.assign maskLt e.v.mask e cem) cem) →
        Crosses a.p b.p e.t ∧ SamePos e.v (snapped a b thr e.t) ∧ m = (snapped a b thr e.t).mask) ∧
      (∀ m, ((∃ e, (m, e) ∈ cem) ∨ ∃ p ∈ l, m = (snapped a b thr p.1).mask) →
        ∃ e, (m, e) ∈ ((l.map fun p =>
        (Isect.mk p.1 ((Vertex.clampBy (edgeMask a b) p.2).applyThresholding thr) : Isect D)).foldl
        (fun cem e => OMap.assign maskLt e.v.mask e cem) cem)) := by
    intro l
    induction l with
    | nil => intro cem _ h1 h2; exact ⟨h1, h2, fun m hm => by simpa using hm⟩
    | cons p l ih =>
      intro cem hl h1 h2
      rw [List.map_cons, List.foldl_cons]
      have hp := hl p (by simp)
      have hp1 := hpos p.1 p.2 hp
      have hc := (hmm p.1 p.2 hp).1
      set e0 : Isect D := ⟨p.1, (Vertex.clampBy (edgeMask a b) p.2).applyThresholding thr⟩
      have hs1 : OMap.Sorted maskLt (OMap.assign maskLt e0.v.mask e0 cem) := OMap.sorted_alter hST h1
      have hs2 : ∀ m e, (m, e) ∈ OMap.assign maskLt e0.v.mask e0 cem →
          Crosses a.p b.p e.t ∧ SamePos e.v (snapped a b thr e.t) ∧ m = (snapped a b thr e.t).mask := by
        intro m e hm
        rcases (OMap.mem_alter hST h1).1 hm with ⟨_, h5⟩ | ⟨h4, h5⟩
        · exact h2 m e h5
        · subst h5; exact ⟨hc, hp1, by rw [h4]; exact hp1.mask⟩
      obtain ⟨r1, r2, r3⟩ := ih _ (fun q hq => hl q (by simp [hq])) hs1 hs2
      refine ⟨r1, r2, ?_⟩
      intro m hm
      apply r3
      by_cases hme : m = e0.v.mask
      · left; exact ⟨e0, (OMap.mem_alter hST h1).2 (Or.inr ⟨hme, rfl⟩)⟩
      · rcases hm with ⟨e, he⟩ | ⟨q, hq, hq'⟩
        · left; exact ⟨e, (OMap.mem_alter hST h1).2 (Or.inl ⟨hme, he⟩)⟩
        · rcases List.mem_cons.1 hq with rfl | hq
          · exact absurd (hq'.trans hp1.mask.symm) hme
          · exact Or.inr ⟨q, hq, hq'⟩
  obtain ⟨r1, r2, r3⟩ := gen mm [] (fun _ h => h) OMap.sorted_nil (by simp)
  exact ⟨r1, r2, fun t v h => r3 _ (Or.inr ⟨(t, v), h, rfl⟩)⟩

/-- everything about the result of `bake`, for every threshold. -/
theorem bakeEdge_spec (edgeIndex : ℤ) (grid : Option (Coord D)) (ha : Normalised a) (hb : Normalised b) :
    let thr := myThresh (grid.map fun s => fun i => s i + 1)
    (bakeEdge edgeIndex grid a b).Pairwise (fun x y => x.t < y.t) ∧
    (∀ e ∈ bakeEdge edgeIndex grid a b, Crosses a.p b.p e.t ∧ SamePos e.v (snapped a b thr e.t)) ∧
    (∀ t, Crosses a.p b.p t → ∃ e ∈ bakeEdge edgeIndex grid a b,
      e.v.mask = (snapped a b thr t).mask) ∧
    (∀ e ∈ bakeEdge edgeIndex grid a b, ∀ e' ∈ bakeEdge edgeIndex grid a b,
      e.v.mask = e'.v.mask → e.t = e'.t) := by
  intro thr
  have hinv := bakeBins_inv a b grid ha hb
  have havg := average_spec a b hinv edgeIndex
  have hsel := selectPerMask_spec a b ha hb thr (average edgeIndex (bakeBins grid a b)) havg.2.1
  have hdef : bakeEdge edgeIndex grid a b = sortIsects
      ((selectPerMask thr (edgeMask a b) (average edgeIndex (bakeBins grid a b))).map Prod.snd) := by
    unfold bakeEdge
    simp only
    rw [condense_id a b hinv]
  have hST := strictTotal_maskLt (D := D)
  set S := selectPerMask thr (edgeMask a b) (average edgeIndex (bakeBins grid a b)) with hS
  have hmem : ∀ e, e ∈ bakeEdge edgeIndex grid a b ↔ ∃ m, (m, e) ∈ S := by
    intro e
    rw [hdef, sortIsects, List.mem_insertionSort, List.mem_map]
    constructor
    · rintro ⟨p, hp, rfl⟩; exact ⟨p.1, hp⟩
    · rintro ⟨m, hm⟩; exact ⟨(m, e), hm, rfl⟩
  refine ⟨?_, ?_, ?_, ?_⟩
  · have hne : (S.map Prod.snd).Pairwise fun x y => x.t ≠ y.t := by
      rw [List.pairwise_map]
      refine List.Pairwise.imp_of_mem ?_ hsel.1
      intro x y hx hy hxy he
      have h1 := (hsel.2.1 x.1 x.2 hx).2.2
      have h2 := (hsel.2.1 y.1 y.2 hy).2.2
      rw [h1, h2, he, hST.irrefl] at hxy
      cases hxy
    have hne' : (bakeEdge edgeIndex grid a b).Pairwise fun x y => x.t ≠ y.t := by
      rw [hdef, sortIsects]
      exact (List.perm_insertionSort _ _).symm.pairwise hne (fun h => Ne.symm h)
    have hle : (bakeEdge edgeIndex grid a b).Pairwise fun x y => x.t ≤ y.t := by
      rw [hdef, sortIsects]
      have : Std.Total (fun x y : Isect D => x.t ≤ y.t) := ⟨fun x y => le_total x.t y.t⟩
      have : IsTrans (Isect D) (fun x y : Isect D => x.t ≤ y.t) := ⟨fun x y z => le_trans⟩
      exact List.pairwise_insertionSort _ _
    exact (hle.and hne').imp fun h => lt_of_le_of_ne h.1 h.2
  · intro e he
    obtain ⟨m, hm⟩ := (hmem e).1 he
    exact ⟨(hsel.2.1 m e hm).1, (hsel.2.1 m e hm).2.1⟩
  · intro t ht
    obtain ⟨v, hv⟩ := havg.2.2 t ht
    obtain ⟨e, he⟩ := hsel.2.2 t v hv
    refine ⟨e, (hmem e).2 ⟨_, he⟩, ?_⟩
    have h1 := hsel.2.1 _ e he
    rw [h1.2.1.mask, ← h1.2.2]
  · intro e he e' he' hmask
    obtain ⟨m, hm⟩ := (hmem e).1 he
    obtain ⟨m', hm'⟩ := (hmem e').1 he'
    have h1 := hsel.2.1 _ e hm
    have h2 := hsel.2.1 _ e' hm'
    have : m = m' := by rw [h1.2.2, h2.2.2, ← h1.2.1.mask, ← h2.2.1.mask, hmask]
    subst this
    rw [OMap.sorted_unique hST hsel.1 hm hm']

/-- every reported vertex is the result of a thresholding step. -/
theorem bakeEdge_clamped (edgeIndex : ℤ) (grid : Option (Coord D)) :
    ∀ e ∈ bakeEdge edgeIndex grid a b,
      ∃ w : Vertex D, e.v = w.applyThresholding (myThresh (grid.map fun s => fun i => s i + 1)) := by
  intro e he
  unfold bakeEdge at he
  simp only [sortIsects, List.mem_insertionSort, List.mem_map] at he
  obtain ⟨p, hp, rfl⟩ := he
  revert hp
  unfold selectPerMask
  generalize average edgeIndex (condense (bakeBins grid a b)) = mm
  have hST := strictTotal_maskLt (D := D)
  suffices H : ∀ (l : List (ℚ × Vertex D)) (cem : List (Mask D × Isect D)), OMap.Sorted maskLt cem →
      (∀ q ∈ cem, ∃ w : Vertex D,
        q.2.v = w.applyThresholding (myThresh (grid.map fun s => fun i => s i + 1))) →
      ∀ q ∈ ((l.map fun p => (Isect.mk p.1 ((Vertex.clampBy (edgeMask a b) p.2).applyThresholding
        (myThresh (grid.map fun s => fun i => s i + 1))) : Isect D)).foldl
        (fun cem e => OMap.assign maskLt e.v.mask e cem) cem), ∃ w : Vertex D,
        q.2.v = w.applyThresholding (myThresh (grid.map fun s => fun i => s i + 1)) by
    exact fun hp => H mm [] OMap.sorted_nil (by simp) p hp
  intro l
  induction l with
  | nil => intro cem _ h q hq; exact h q hq
  | cons x l ih =>
    intro cem hs h
    rw [List.map_cons, List.foldl_cons]
    refine ih _ (OMap.sorted_alter hST hs) ?_
    intro q hq
    rcases (OMap.mem_alter hST hs (k₁ := q.1) (v₁ := q.2)).1 hq with ⟨_, h5⟩ | ⟨_, h5⟩
    · exact h q h5
    · exact ⟨_, by rw [h5]⟩

end
end Mandoline
