import Verif.Edge.Props
import Verif.Tri.Model

/-!
# Condensation of crossings, for arbitrary groups

In exact arithmetic the condensation step of `EdgeIntersections::bake` and of `convex_grid_condensation` is the identity
(`condense_id`): it is there to repair rounding. These theorems therefore do not assume anything about the groups: they
hold for whatever parameters and masks rounding produced.
-/
namespace Mandoline

variable {D : ℕ}

/-! ## generic absorption -/

namespace OMap
variable {K V : Type*} {lt : K → K → Bool}

theorem key_mem_alter (h : StrictTotal lt) {k : K} {f : Option V → V} {l : List (K × V)} (x : K) :
    (∃ v, (x, v) ∈ alter lt k f l) ↔ x = k ∨ ∃ v, (x, v) ∈ l := by
  induction l with
  | nil => simp [alter]
  | cons q l ih =>
    obtain ⟨k', v'⟩ := q
    simp only [alter]
    split_ifs with h1 h2
    · simp only [List.mem_cons, Prod.mk.injEq, exists_or, exists_eq_right']
      constructor
      · rintro (⟨_, h, _⟩ | h); exacts [Or.inl h, Or.inr h]
      · rintro (h | h); exacts [Or.inl ⟨_, h, rfl⟩, Or.inr h]
    · have e1 : (∃ v, (x, v) ∈ (k', v') :: alter lt k f l) ↔ x = k' ∨ ∃ v, (x, v) ∈ alter lt k f l := by
        simp [exists_or]
      have e2 : (∃ v, (x, v) ∈ (k', v') :: l) ↔ x = k' ∨ ∃ v, (x, v) ∈ l := by
        simp [exists_or]
      rw [e1, e2, ih]; tauto
    · have hk : k = k' := by
        rcases h.tri k k' with h | h | h
        · exact absurd h h1
        · exact h
        · exact absurd h h2
      have e1 : (∃ v, (x, v) ∈ (k', f (some v')) :: l) ↔ x = k' ∨ ∃ v, (x, v) ∈ l := by simp [exists_or]
      have e2 : (∃ v, (x, v) ∈ (k', v') :: l) ↔ x = k' ∨ ∃ v, (x, v) ∈ l := by simp [exists_or]
      rw [e1, e2, hk]; tauto

theorem mem_erase (h : StrictTotal lt) {k : K} {l : List (K × V)} (hs : Sorted lt l) (p : K × V) :
    p ∈ erase lt k l ↔ p ∈ l ∧ p.1 ≠ k := by
  induction l with
  | nil => simp [erase]
  | cons q l ih =>
    obtain ⟨k', v'⟩ := q
    unfold Sorted at hs
    rw [List.pairwise_cons] at hs
    have ih := ih hs.2
    simp only [erase]
    split_ifs with h1 h2
    · constructor
      · intro hp
        refine ⟨hp, fun he => ?_⟩
        rcases List.mem_cons.1 hp with hp | hp
        · rw [hp] at he; dsimp only at he; rw [he, h.irrefl] at h1; cases h1
        · have := h.trans _ _ _ h1 (hs.1 p hp)
          rw [he, h.irrefl] at this; cases this
      · exact fun hp => hp.1
    · rw [List.mem_cons, ih, List.mem_cons]
      constructor
      · rintro (hp | hp)
        · refine ⟨Or.inl hp, fun he => ?_⟩
          rw [hp] at he; dsimp only at he; rw [he, h.irrefl] at h2; cases h2
        · exact ⟨Or.inr hp.1, hp.2⟩
      · rintro ⟨hp | hp, he⟩
        · exact Or.inl hp
        · exact Or.inr ⟨hp, he⟩
    · have hk : k = k' := by
        rcases h.tri k k' with h | h | h
        · exact absurd h h1
        · exact h
        · exact absurd h h2
      rw [List.mem_cons]
      constructor
      · intro hp
        refine ⟨Or.inr hp, fun he => ?_⟩
        have := hs.1 p hp
        dsimp only at this
        rw [he, hk, h.irrefl] at this; cases this
      · rintro ⟨hp | hp, he⟩
        · rw [hp] at he; exact absurd hk.symm he
        · exact hp

theorem sorted_erase {k : K} {l : List (K × V)} (hs : Sorted lt l) : Sorted lt (erase lt k l) := by
  have : (erase lt k l).Sublist l := by
    clear hs
    induction l with
    | nil => exact List.Sublist.refl _
    | cons q l ih =>
      obtain ⟨k', v'⟩ := q
      simp only [erase]
      split_ifs
      · exact List.Sublist.refl _
      · exact ih.cons_cons _
      · exact List.sublist_cons_self _ _
  exact List.Pairwise.sublist this hs

end OMap

section Generic
variable {G T : Type*} (join : Mask D → G → G → G)

/-- the common form of `condenseEntry` and `groupCondenseEntry`. -/
def absorbEntry (c : Mask D) (g : G) (Ei : List (Mask D × G)) : G × List (Mask D × G) :=
  (List.finRange D).foldl
    (fun (st : G × List (Mask D × G)) k =>
      if c.isBound k then
        match OMap.find maskLt (Function.update c k none) st.2 with
        | some o => (join c st.1 o, OMap.erase maskLt (Function.update c k none) st.2)
        | none => st
      else st) (g, Ei)

/-- the common form of `condenseLevel` and `groupCondenseLevel`. -/
def absorbLevel (E : ℕ → List (Mask D × G)) (i : ℕ) : ℕ → List (Mask D × G) :=
  let r := (E (i + 1)).foldl
    (fun (st : List (Mask D × G) × List (Mask D × G)) p =>
      let q := absorbEntry join p.1 p.2 st.2
      (st.1 ++ [(p.1, q.1)], q.2)) ([], E i)
  Function.update (Function.update E i r.2) (i + 1) r.1

/-- `m` is `c` with one bound axis released. -/
def Drops (c m : Mask D) : Prop := ∃ k, c.isBound k = true ∧ m = Function.update c k none

variable {join} {has : T → G → Prop}

theorem absorbEntry_spec (hj : ∀ x c g o, has x (join c g o) ↔ has x g ∨ has x o) (c : Mask D) (g : G)
    (Ei : List (Mask D × G)) (hs : OMap.Sorted maskLt Ei) :
    OMap.Sorted maskLt (absorbEntry join c g Ei).2 ∧
    (∀ p, p ∈ (absorbEntry join c g Ei).2 ↔ p ∈ Ei ∧ ¬ Drops c p.1) ∧
    ∀ x, has x (absorbEntry join c g Ei).1 ↔ has x g ∨ ∃ p ∈ Ei, Drops c p.1 ∧ has x p.2 := by
  have hST := strictTotal_maskLt (D := D)
  have gen : ∀ (l : List (Fin D)) (st : G × List (Mask D × G)), OMap.Sorted maskLt st.2 →
      let r := l.foldl (fun (st : G × List (Mask D × G)) k =>
        if c.isBound k then
          match OMap.find maskLt (Function.update c k none) st.2 with
          | some o => (join c st.1 o, OMap.erase maskLt (Function.update c k none) st.2)
          | none => st
        else st) st
      OMap.Sorted maskLt r.2 ∧
      (∀ p, p ∈ r.2 ↔ p ∈ st.2 ∧ ¬ ∃ k ∈ l, c.isBound k = true ∧ p.1 = Function.update c k none) ∧
      ∀ x, has x r.1 ↔ has x st.1 ∨ ∃ p ∈ st.2, (∃ k ∈ l, c.isBound k = true ∧ p.1 = Function.update c k none) ∧
        has x p.2 := by
    intro l
    induction l with
    | nil => intro st h; simpa using h
    | cons k l ih =>
      intro st h
      rw [List.foldl_cons]
      by_cases hk : c.isBound k = true
      · rw [if_pos hk]
        rcases hf : OMap.find maskLt (Function.update c k none) st.2 with _ | o
        · have hno := (OMap.find_none_iff hST h).1 hf
          obtain ⟨h1, h2, h3⟩ := ih st h
          have key : ∀ p ∈ st.2, ((∃ k' ∈ l, c.isBound k' = true ∧ p.1 = Function.update c k' none) ↔
              ∃ k' ∈ k :: l, c.isBound k' = true ∧ p.1 = Function.update c k' none) := by
            intro p hp
            constructor
            · rintro ⟨k', h1, h2⟩; exact ⟨k', List.mem_cons_of_mem _ h1, h2⟩
            · rintro ⟨k', h1, h2⟩
              rcases List.mem_cons.1 h1 with rfl | h1
              · exact absurd (by rw [← h2.2]; exact hp) (hno p.2)
              · exact ⟨k', h1, h2⟩
          refine ⟨h1, fun p => ?_, fun x => ?_⟩
          · rw [h2]
            exact and_congr_right fun hp => not_congr (key p hp)
          · rw [h3]
            exact or_congr_right (exists_congr fun p => and_congr_right fun hp => and_congr_left fun _ => key p hp)
        · have hmem := OMap.mem_of_find hST hf
          obtain ⟨h1, h2, h3⟩ := ih (join c st.1 o, OMap.erase maskLt (Function.update c k none) st.2)
            (OMap.sorted_erase h)
          refine ⟨h1, fun p => ?_, fun x => ?_⟩
          · rw [h2, OMap.mem_erase hST h]
            constructor
            · rintro ⟨⟨h4, h5⟩, h6⟩
              refine ⟨h4, ?_⟩
              rintro ⟨k', h7, h8⟩
              rcases List.mem_cons.1 h7 with rfl | h7
              · exact h5 h8.2
              · exact h6 ⟨k', h7, h8⟩
            · rintro ⟨h4, h5⟩
              exact ⟨⟨h4, fun he => h5 ⟨k, by simp, hk, he⟩⟩, fun ⟨k', h7, h8⟩ => h5 ⟨k', List.mem_cons_of_mem _ h7, h8⟩⟩
          · rw [h3, hj]
            constructor
            · rintro ((h4 | h4) | ⟨p, h4, ⟨k', h5, h6⟩, h7⟩)
              · exact Or.inl h4
              · exact Or.inr ⟨_, hmem, ⟨k, by simp, hk, rfl⟩, h4⟩
              · exact Or.inr ⟨p, ((OMap.mem_erase hST h _).1 h4).1, ⟨k', List.mem_cons_of_mem _ h5, h6⟩, h7⟩
            · rintro (h4 | ⟨p, h4, ⟨k', h5, h6⟩, h7⟩)
              · exact Or.inl (Or.inl h4)
              · by_cases he : p.1 = Function.update c k none
                · have : p.2 = o := OMap.sorted_unique hST h (k := p.1) h4 (by rw [he]; exact hmem)
                  exact Or.inl (Or.inr (this ▸ h7))
                · rcases List.mem_cons.1 h5 with rfl | h5
                  · exact absurd h6.2 he
                  · exact Or.inr ⟨p, (OMap.mem_erase hST h _).2 ⟨h4, he⟩, ⟨k', h5, h6⟩, h7⟩
      · rw [if_neg hk]
        obtain ⟨h1, h2, h3⟩ := ih st h
        have key : ∀ p : Mask D × G, ((∃ k' ∈ l, c.isBound k' = true ∧ p.1 = Function.update c k' none) ↔
            ∃ k' ∈ k :: l, c.isBound k' = true ∧ p.1 = Function.update c k' none) := by
          intro p
          constructor
          · rintro ⟨k', h1, h2⟩; exact ⟨k', List.mem_cons_of_mem _ h1, h2⟩
          · rintro ⟨k', h1, h2⟩
            rcases List.mem_cons.1 h1 with rfl | h1
            · exact absurd h2.1 hk
            · exact ⟨k', h1, h2⟩
        refine ⟨h1, fun p => ?_, fun x => ?_⟩
        · rw [h2, key]
        · rw [h3]
          simp only [key]
  obtain ⟨h1, h2, h3⟩ := gen (List.finRange D) (g, Ei) hs
  unfold absorbEntry Drops
  refine ⟨h1, fun p => ?_, fun x => ?_⟩
  · rw [h2]; simp
  · rw [h3]; simp

theorem shuffle1 (A B C D E : Prop) : ((A ∨ B ∨ C) ∨ D ∨ E) ↔ A ∨ (B ∨ D) ∨ C ∨ E := by tauto

theorem shuffle2 (L N E L' M : Prop) (h : L ∨ N ↔ L' ∨ M) : (L ∨ E ∨ N) ↔ L' ∨ E ∨ M := by
  rw [or_left_comm, h, or_left_comm]

theorem absorbFold_spec (hj : ∀ x c g o, has x (join c g o) ↔ has x g ∨ has x o) (L pre Ei : List (Mask D × G))
    (hs : OMap.Sorted maskLt Ei) :
    let r := L.foldl (fun (st : List (Mask D × G) × List (Mask D × G)) p =>
      let q := absorbEntry join p.1 p.2 st.2
      (st.1 ++ [(p.1, q.1)], q.2)) (pre, Ei)
    OMap.Sorted maskLt r.2 ∧ r.1.map Prod.fst = pre.map Prod.fst ++ L.map Prod.fst ∧
    (∀ p, p ∈ r.2 ↔ p ∈ Ei ∧ ∀ q ∈ L, ¬ Drops q.1 p.1) ∧
    ∀ x, ((∃ p ∈ r.1, has x p.2) ∨ ∃ p ∈ r.2, has x p.2) ↔
      (∃ p ∈ pre, has x p.2) ∨ (∃ p ∈ L, has x p.2) ∨ ∃ p ∈ Ei, has x p.2 := by
  induction L generalizing pre Ei with
  | nil => exact ⟨hs, by simp, by simp, by simp⟩
  | cons q L ih =>
    intro r
    obtain ⟨e1, e2, e3⟩ := absorbEntry_spec hj q.1 q.2 Ei hs
    obtain ⟨h1, h2, h3, h4⟩ := ih (pre ++ [(q.1, (absorbEntry join q.1 q.2 Ei).1)]) _ e1
    refine ⟨h1, ?_, fun p => ?_, fun x => ?_⟩
    · rw [show r.1.map Prod.fst = _ from h2]; simp
    · rw [show p ∈ r.2 ↔ _ from h3 p, e2]
      simp only [List.mem_cons, forall_eq_or_imp, and_assoc]
    · rw [show ((∃ p ∈ r.1, has x p.2) ∨ ∃ p ∈ r.2, has x p.2) ↔ _ from h4 x]
      have a1 : (∃ p ∈ pre ++ [(q.1, (absorbEntry join q.1 q.2 Ei).1)], has x p.2) ↔
          (∃ p ∈ pre, has x p.2) ∨ has x (absorbEntry join q.1 q.2 Ei).1 := by
        simp only [List.mem_append, List.mem_singleton, or_and_right, exists_or, exists_eq_left]
      have a2 : (∃ p ∈ q :: L, has x p.2) ↔ has x q.2 ∨ ∃ p ∈ L, has x p.2 := by
        simp only [List.mem_cons, or_and_right, exists_or, exists_eq_left]
      have a3 : (∃ p ∈ (absorbEntry join q.1 q.2 Ei).2, has x p.2) ↔ ∃ p ∈ Ei, ¬ Drops q.1 p.1 ∧ has x p.2 := by
        simp only [e2, and_assoc]
      have a4 : (∃ p ∈ Ei, has x p.2) ↔ (∃ p ∈ Ei, Drops q.1 p.1 ∧ has x p.2) ∨ ∃ p ∈ Ei, ¬ Drops q.1 p.1 ∧ has x p.2 := by
        constructor
        · rintro ⟨p, h5, h6⟩
          by_cases hd : Drops q.1 p.1
          · exact Or.inl ⟨p, h5, hd, h6⟩
          · exact Or.inr ⟨p, h5, hd, h6⟩
        · rintro (⟨p, h5, _, h6⟩ | ⟨p, h5, _, h6⟩) <;> exact ⟨p, h5, h6⟩
      rw [a1, a2, a3, a4, e3]
      exact shuffle1 _ _ _ _ _

theorem absorbLevel_spec (hj : ∀ x c g o, has x (join c g o) ↔ has x g ∨ has x o) (E : ℕ → List (Mask D × G)) (i : ℕ)
    (hs : ∀ j, OMap.Sorted maskLt (E j)) :
    (∀ j, OMap.Sorted maskLt (absorbLevel join E i j)) ∧
    (∀ j, ∀ p ∈ absorbLevel join E i j, ∃ g, (p.1, g) ∈ E j) ∧
    (∀ j, j ≠ i → j ≠ i + 1 → absorbLevel join E i j = E j) ∧
    (∀ p ∈ absorbLevel join E i i, ∀ q ∈ absorbLevel join E i (i + 1), ¬ Drops q.1 p.1) ∧
    ∀ x, ((∃ p ∈ absorbLevel join E i (i + 1), has x p.2) ∨ ∃ p ∈ absorbLevel join E i i, has x p.2) ↔
      (∃ p ∈ E (i + 1), has x p.2) ∨ ∃ p ∈ E i, has x p.2 := by
  obtain ⟨h1, h2, h3, h4⟩ := absorbFold_spec hj (E (i + 1)) [] (E i) (hs i)
  set r := (E (i + 1)).foldl (fun (st : List (Mask D × G) × List (Mask D × G)) p =>
      let q := absorbEntry join p.1 p.2 st.2
      (st.1 ++ [(p.1, q.1)], q.2)) ([], E i) with hr
  have hlev : absorbLevel join E i = Function.update (Function.update E i r.2) (i + 1) r.1 := rfl
  have hi : absorbLevel join E i i = r.2 := by
    rw [hlev, Function.update_of_ne (by omega), Function.update_self]
  have hi1 : absorbLevel join E i (i + 1) = r.1 := by rw [hlev, Function.update_self]
  have hother : ∀ j, j ≠ i → j ≠ i + 1 → absorbLevel join E i j = E j := by
    intro j a b
    rw [hlev, Function.update_of_ne b, Function.update_of_ne a]
  rw [List.map_nil, List.nil_append] at h2
  have hkeys : ∀ p ∈ r.1, ∃ g, (p.1, g) ∈ E (i + 1) := by
    intro p hp
    have : p.1 ∈ (E (i + 1)).map Prod.fst := by rw [← h2]; exact List.mem_map_of_mem hp
    obtain ⟨q, hq, he⟩ := List.mem_map.1 this
    exact ⟨q.2, by rw [← he]; exact hq⟩
  refine ⟨fun j => ?_, fun j p hp => ?_, hother, ?_, fun x => ?_⟩
  · by_cases a : j = i
    · subst a; rw [hi]; exact h1
    · by_cases b : j = i + 1
      · subst b
        rw [hi1]
        have hE := hs (i + 1)
        unfold OMap.Sorted at hE ⊢
        rw [← List.pairwise_map (f := Prod.fst) (R := fun a b => maskLt a b = true)] at hE ⊢
        rw [h2]; exact hE
      · rw [hother j a b]; exact hs j
  · by_cases a : j = i
    · subst a; rw [hi, h3] at hp; exact ⟨p.2, hp.1⟩
    · by_cases b : j = i + 1
      · subst b; rw [hi1] at hp; exact hkeys p hp
      · rw [hother j a b] at hp; exact ⟨p.2, hp⟩
  · rw [hi, hi1]
    intro p hp q hq
    obtain ⟨g, hg⟩ := hkeys q hq
    exact ((h3 p).1 hp).2 (q.1, g) hg
  · rw [hi, hi1, h4]; simp

/-- the loop over the levels. -/
theorem absorb_spec (hj : ∀ x c g o, has x (join c g o) ↔ has x g ∨ has x o) (n : ℕ) (E : ℕ → List (Mask D × G))
    (hs : ∀ j, OMap.Sorted maskLt (E j)) :
    let R := (List.range n).foldl (absorbLevel join) E
    (∀ j, OMap.Sorted maskLt (R j)) ∧ (∀ j, ∀ p ∈ R j, ∃ g, (p.1, g) ∈ E j) ∧ (∀ j, n < j → R j = E j) ∧
    (∀ i < n, ∀ p ∈ R i, ∀ q ∈ R (i + 1), ¬ Drops q.1 p.1) ∧
    ∀ x, (∃ j, j ≤ n ∧ ∃ p ∈ R j, has x p.2) ↔ ∃ j, j ≤ n ∧ ∃ p ∈ E j, has x p.2 := by
  induction n with
  | zero => exact ⟨hs, fun j p hp => ⟨p.2, hp⟩, fun _ _ => rfl, nofun, fun _ => Iff.rfl⟩
  | succ n ih =>
    intro R
    have hR : R = absorbLevel join ((List.range n).foldl (absorbLevel join) E) n := by
      show (List.range (n + 1)).foldl _ _ = _
      rw [List.range_succ, List.foldl_append]; rfl
    obtain ⟨i1, i2, i3, i4, i5⟩ := ih
    set Q := (List.range n).foldl (absorbLevel join) E with hQ
    obtain ⟨l1, l2, l3, l4, l5⟩ := absorbLevel_spec hj Q n i1
    rw [← hR] at l1 l2 l3 l4 l5
    refine ⟨l1, fun j p hp => ?_, fun j hj' => ?_, fun i hi p hp q hq => ?_, fun x => ?_⟩
    · obtain ⟨g, hg⟩ := l2 j p hp; exact i2 j (p.1, g) hg
    · rw [l3 j (by omega) (by omega)]; exact i3 j (by omega)
    · by_cases h : i = n
      · subst h; exact l4 p hp q hq
      · obtain ⟨g, hg⟩ := l2 (i + 1) q hq
        rw [l3 i h (by omega)] at hp
        exact i4 i (by omega) p hp (q.1, g) hg
    · have split : ∀ F : ℕ → List (Mask D × G), (∃ j, j ≤ n + 1 ∧ ∃ p ∈ F j, has x p.2) ↔
          (∃ j, j < n ∧ ∃ p ∈ F j, has x p.2) ∨ ((∃ p ∈ F (n + 1), has x p.2) ∨ ∃ p ∈ F n, has x p.2) := by
        intro F
        constructor
        · rintro ⟨j, hj', h⟩
          by_cases a : j = n + 1
          · subst a; exact Or.inr (Or.inl h)
          · by_cases b : j = n
            · subst b; exact Or.inr (Or.inr h)
            · exact Or.inl ⟨j, by omega, h⟩
        · rintro (⟨j, hj', h⟩ | h | h)
          · exact ⟨j, by omega, h⟩
          · exact ⟨_, le_refl _, h⟩
          · exact ⟨n, by omega, h⟩
      have splitn : ∀ F : ℕ → List (Mask D × G), (∃ j, j ≤ n ∧ ∃ p ∈ F j, has x p.2) ↔
          (∃ j, j < n ∧ ∃ p ∈ F j, has x p.2) ∨ ∃ p ∈ F n, has x p.2 := by
        intro F
        constructor
        · rintro ⟨j, hj', h⟩
          by_cases b : j = n
          · subst b; exact Or.inr h
          · exact Or.inl ⟨j, by omega, h⟩
        · rintro (⟨j, hj', h⟩ | h)
          · exact ⟨j, by omega, h⟩
          · exact ⟨n, le_refl _, h⟩
      have hlow : (∃ j, j < n ∧ ∃ p ∈ R j, has x p.2) ↔ ∃ j, j < n ∧ ∃ p ∈ Q j, has x p.2 :=
        exists_congr fun j => and_congr_right fun h => by rw [l3 j (by omega) (by omega)]
      have h5 := i5 x
      rw [splitn Q, splitn E] at h5
      have e1 : Q (n + 1) = E (n + 1) := i3 _ (by omega)
      rw [split R, split E, hlow, l5, e1]
      exact shuffle2 _ _ _ _ _ h5

end Generic

/-! ## edges -/

theorem condense_eq (E : ℕ → Bin D) : condense E = (List.range (D - 1)).foldl
    (absorbLevel fun c es o => o.foldl (fun es p => OMap.insertNew ratLt p.1 (Vertex.clampBy c p.2) es) es) E := by
  have he : ∀ (c : Mask D) es Ei, condenseEntry c es Ei = absorbEntry
      (fun c es o => o.foldl (fun es p => OMap.insertNew ratLt p.1 (Vertex.clampBy c p.2) es) es) c es Ei := by
    intro c es Ei
    unfold condenseEntry absorbEntry
    congr 1
    funext st k
    split_ifs
    · dsimp only
      rcases OMap.find maskLt (Function.update c k none) st.2 with _ | o <;> rfl
    · rfl
  unfold condense
  congr 1
  funext E i
  unfold condenseLevel absorbLevel
  simp only [he]

theorem join_keys (t : ℚ) (c : Mask D) (es o : IsectSet D) :
    (∃ v, (t, v) ∈ o.foldl (fun es p => OMap.insertNew ratLt p.1 (Vertex.clampBy c p.2) es) es) ↔
      (∃ v, (t, v) ∈ es) ∨ ∃ v, (t, v) ∈ o := by
  induction o generalizing es with
  | nil => simp
  | cons p o ih =>
    rw [List.foldl_cons, ih]
    unfold OMap.insertNew
    rw [OMap.key_mem_alter strictTotal_ratLt]
    obtain ⟨t', v'⟩ := p
    have : (∃ v, (t, v) ∈ (t', v') :: o) ↔ t = t' ∨ ∃ v, (t, v) ∈ o := by simp [exists_or]
    rw [this]; tauto

/-- **C80.** Whatever the groups of crossings of an edge are, condensation loses no crossing and invents none, it only
merges groups, and afterwards no group remains whose planes are those of a finer group minus one. -/
theorem C80_edge_condensation (E : ℕ → Bin D) (hs : ∀ j, OMap.Sorted maskLt (E j)) :
    (∀ t : ℚ, (∃ j, j < D ∧ ∃ g ∈ condense E j, t ∈ g.2.map Prod.fst) ↔ ∃ j, j < D ∧ ∃ g ∈ E j, t ∈ g.2.map Prod.fst) ∧
    (∀ j, ∀ g ∈ condense E j, g.1 ∈ (E j).map Prod.fst) ∧
    (∀ j, j + 1 < D → ∀ g ∈ condense E j, ∀ g' ∈ condense E (j + 1), ∀ k, (g'.1 k).isSome → g.1 ≠ Function.update g'.1 k none) := by
  obtain ⟨_, h2, h3, h4, h5⟩ := absorb_spec (has := fun (t : ℚ) (es : IsectSet D) => ∃ v, (t, v) ∈ es)
    (fun t c es o => join_keys t c es o) (D - 1) E hs
  rw [← condense_eq] at h2 h3 h4 h5
  have hmem : ∀ (t : ℚ) (es : IsectSet D), t ∈ es.map Prod.fst ↔ ∃ v, (t, v) ∈ es := by
    intro t es; simp
  refine ⟨fun t => ?_, fun j g hg => ?_, fun j hj g hg g' hg' k hk he => ?_⟩
  · by_cases hD : D = 0
    · subst hD; simp
    · simp only [hmem]
      have e : ∀ j, j < D ↔ j ≤ D - 1 := fun j => by omega
      simp only [e]
      exact h5 t
  · obtain ⟨es, h⟩ := h2 j g hg
    exact List.mem_map.2 ⟨_, h, rfl⟩
  · exact h4 j (by omega) g hg g' hg' ⟨k, hk, he⟩

/-- **C80.** The parameter reported for a group lies between two parameters of crossings in the group. -/
theorem C80_edge_average (ei : ℤ) (E : ℕ → Bin D) (t : ℚ) (v : Vertex D) (h : (t, v) ∈ average ei E) :
    ∃ j < D, ∃ g ∈ E j, (∃ t₁ ∈ g.2.map Prod.fst, t₁ ≤ t) ∧ (∃ t₂ ∈ g.2.map Prod.fst, t ≤ t₂) := by
  have mean : ∀ l : List ℚ, l ≠ [] → (∃ t₁ ∈ l, t₁ ≤ l.sum / (l.length : ℚ)) ∧ ∃ t₂ ∈ l, l.sum / (l.length : ℚ) ≤ t₂ := by
    intro l hl
    have hpos : (0 : ℚ) < l.length := by
      have : 0 < l.length := List.length_pos_iff.2 hl
      exact_mod_cast this
    constructor
    · by_contra hc
      push Not at hc
      have : ∀ (l' : List ℚ) (m : ℚ), l' ≠ [] → (∀ x ∈ l', m < x) → l'.length * m < l'.sum := by
        intro l' m
        induction l' with
        | nil => intro h; exact absurd rfl h
        | cons a l' ih =>
          intro _ h
          have ha := h a (by simp)
          by_cases hl' : l' = []
          · subst hl'; simpa using ha
          · have := ih hl' fun x hx => h x (by simp [hx])
            rw [List.sum_cons, List.length_cons]; push_cast; linarith
      have := this l _ hl hc
      rw [mul_div_cancel₀ _ hpos.ne'] at this
      exact lt_irrefl _ this
    · by_contra hc
      push Not at hc
      have : ∀ (l' : List ℚ) (m : ℚ), l' ≠ [] → (∀ x ∈ l', x < m) → l'.sum < l'.length * m := by
        intro l' m
        induction l' with
        | nil => intro h; exact absurd rfl h
        | cons a l' ih =>
          intro _ h
          have ha := h a (by simp)
          by_cases hl' : l' = []
          · subst hl'; simpa using ha
          · have := ih hl' fun x hx => h x (by simp [hx])
            rw [List.sum_cons, List.length_cons]; push_cast; linarith
      have := this l _ hl hc
      rw [mul_div_cancel₀ _ hpos.ne'] at this
      exact lt_irrefl _ this
  have gen : ∀ (l : List (Mask D × IsectSet D)) (mm : List (ℚ × Vertex D)) (t : ℚ),
      (∃ v, (t, v) ∈ l.foldl (averageStep ei) mm) → (∃ v, (t, v) ∈ mm) ∨
        ∃ g ∈ l, (∃ t₁ ∈ g.2.map Prod.fst, t₁ ≤ t) ∧ (∃ t₂ ∈ g.2.map Prod.fst, t ≤ t₂) := by
    intro l
    induction l with
    | nil => intro mm t h; exact Or.inl h
    | cons g l ih =>
      intro mm t h
      rw [List.foldl_cons] at h
      rcases ih _ _ h with h | ⟨g', h1, h2⟩
      · unfold averageStep at h
        rcases hg : g.2.getLast? with _ | ⟨t0, v0⟩
        · rw [hg] at h; exact Or.inl h
        · rw [hg] at h
          dsimp only at h
          rw [OMap.key_mem_alter strictTotal_ratLt] at h
          rcases h with h | h
          · have hne : g.2.map Prod.fst ≠ [] := by
              intro he
              rw [List.map_eq_nil_iff] at he
              rw [he] at hg; cases hg
            have hm := mean _ hne
            rw [List.length_map, ← h] at hm
            exact Or.inr ⟨g, by simp, hm⟩
          · exact Or.inl h
      · exact Or.inr ⟨g', List.mem_cons_of_mem _ h1, h2⟩
  rcases gen _ _ _ ⟨v, h⟩ with ⟨v, h⟩ | ⟨g, hg, h⟩
  · cases h
  · obtain ⟨j, hj, hg⟩ := List.mem_flatMap.1 hg
    exact ⟨j, List.mem_range.1 hj, g, hg, h⟩

/-- two crossings of the corner (1,1) that rounding has put into different groups are merged into one group, whose
parameter is the mean. -/
example : let v : Vertex 2 := ⟨![1, 1], ![0, 0], ![true, true]⟩
    let w : Vertex 2 := ⟨![0, 1], ![99 / 100, 0], ![false, true]⟩
    let E : ℕ → Bin 2 := fun j => if j = 0 then [(![none, some 1], [(49 / 100, w)])] else
      if j = 1 then [(![some 1, some 1], [(1 / 2, v)])] else []
    condense E 0 = [] ∧ (average 0 (condense E)).map Prod.fst = [99 / 200] := by
  decide +kernel

/-! ## triangles -/

theorem gridCondensation_eq (l : List (Vertex D × (Fin 3 → ℚ))) : gridCondensation l = (List.range D).foldl
    (absorbLevel fun _ vs o => vs ++ o) (l.foldl groupInsert fun _ => []) := by
  have he : ∀ (c : Mask D) vs Ei, groupCondenseEntry c vs Ei = absorbEntry (fun _ vs o => vs ++ o) c vs Ei := by
    intro c es Ei
    unfold groupCondenseEntry absorbEntry
    congr 1
    funext st k
    split_ifs
    · dsimp only
      rcases OMap.find maskLt (Function.update c k none) st.2 with _ | o <;> rfl
    · rfl
  unfold gridCondensation
  congr 1
  funext E i
  unfold groupCondenseLevel absorbLevel
  simp only [he]

theorem groupInsert_spec (l : List (Vertex D × (Fin 3 → ℚ))) :
    (∀ j, OMap.Sorted maskLt (l.foldl groupInsert (fun _ => []) j)) ∧
    (∀ j, ∀ g ∈ l.foldl groupInsert (fun _ => []) j, ∀ x ∈ g.2, x ∈ l ∧ x.1.mask = g.1 ∧ j = x.1.mask.count) ∧
    ∀ x ∈ l, ∃ g ∈ l.foldl groupInsert (fun _ => []) x.1.mask.count, x ∈ g.2 := by
  have hST := strictTotal_maskLt (D := D)
  induction l using List.reverseRecOn with
  | nil => exact ⟨fun _ => OMap.sorted_nil, fun j g h => absurd h List.not_mem_nil, fun x h => absurd h List.not_mem_nil⟩
  | append_singleton l y ih =>
    obtain ⟨h1, h2, h3⟩ := ih
    rw [List.foldl_append, List.foldl_cons, List.foldl_nil]
    set E := l.foldl groupInsert (fun _ => []) with hE
    have hmem : ∀ g, g ∈ groupInsert E y y.1.mask.count ↔ (g ∈ E y.1.mask.count ∧ g.1 ≠ y.1.mask) ∨
        (g.1 = y.1.mask ∧ g.2 = (OMap.find maskLt y.1.mask (E y.1.mask.count)).getD [] ++ [y]) := by
      rintro ⟨m, vs⟩
      unfold groupInsert
      rw [Function.update_self, OMap.mem_alter hST (h1 _)]
      dsimp only
      constructor
      · rintro (⟨a, b⟩ | ⟨a, b⟩)
        · exact Or.inl ⟨b, a⟩
        · exact Or.inr ⟨a, b⟩
      · rintro (⟨a, b⟩ | ⟨a, b⟩)
        · exact Or.inl ⟨b, a⟩
        · exact Or.inr ⟨a, b⟩
    have hother : ∀ j, j ≠ y.1.mask.count → groupInsert E y j = E j := fun j hj => Function.update_of_ne hj _ _
    refine ⟨fun j => ?_, fun j g hg x hx => ?_, fun x hx => ?_⟩
    · by_cases hj : j = y.1.mask.count
      · subst hj
        unfold groupInsert
        rw [Function.update_self]
        exact OMap.sorted_alter hST (h1 _)
      · rw [hother j hj]; exact h1 j
    · by_cases hj : j = y.1.mask.count
      · subst hj
        rcases (hmem g).1 hg with ⟨a, _⟩ | ⟨a, b⟩
        · obtain ⟨c1, c2⟩ := h2 _ g a x hx
          exact ⟨by simp [c1], c2⟩
        · rw [b, List.mem_append, List.mem_singleton] at hx
          rcases hx with hx | rfl
          · rcases hf : OMap.find maskLt y.1.mask (E y.1.mask.count) with _ | vs
            · rw [hf] at hx; cases hx
            · rw [hf] at hx
              obtain ⟨c1, c2, c3⟩ := h2 _ _ (OMap.mem_of_find hST hf) x hx
              exact ⟨by simp [c1], by rw [a]; exact c2, c3⟩
          · exact ⟨by simp, a.symm, rfl⟩
      · rw [hother j hj] at hg
        obtain ⟨c1, c2⟩ := h2 j g hg x hx
        exact ⟨by simp [c1], c2⟩
    · rw [List.mem_append, List.mem_singleton] at hx
      rcases hx with hx | rfl
      · obtain ⟨g, a, b⟩ := h3 x hx
        by_cases hj : x.1.mask.count = y.1.mask.count
        · rw [hj] at a ⊢
          by_cases hm : g.1 = y.1.mask
          · refine ⟨(y.1.mask, (OMap.find maskLt y.1.mask (E y.1.mask.count)).getD [] ++ [y]), (hmem _).2 (Or.inr ⟨rfl, rfl⟩), ?_⟩
            have : OMap.find maskLt y.1.mask (E y.1.mask.count) = some g.2 :=
              (OMap.find_iff hST (h1 _)).2 (hm ▸ a : (y.1.mask, g.2) ∈ E y.1.mask.count)
            rw [this]
            exact List.mem_append_left _ b
          · exact ⟨g, (hmem g).2 (Or.inl ⟨a, hm⟩), b⟩
        · rw [hother _ hj]; exact ⟨g, a, b⟩
      · exact ⟨(x.1.mask, _), (hmem _).2 (Or.inr ⟨rfl, rfl⟩), List.mem_append_right _ (by simp)⟩

/-- **C80.** The same for the crossings inside a triangle: every crossing of two chords ends up in exactly the groups of
the result, none is invented, and no group remains whose planes are those of a finer group minus one. -/
theorem C80_triangle_condensation (l : List (Vertex D × (Fin 3 → ℚ))) :
    (∀ x, (∃ j, j ≤ D ∧ ∃ g ∈ gridCondensation l j, x ∈ g.2) ↔ x ∈ l) ∧
    (∀ j < D, ∀ g ∈ gridCondensation l j, ∀ g' ∈ gridCondensation l (j + 1), ∀ k, (g'.1 k).isSome →
      g.1 ≠ Function.update g'.1 k none) := by
  obtain ⟨s1, s2, s3⟩ := groupInsert_spec l
  obtain ⟨_, _, _, h4, h5⟩ := absorb_spec (has := fun (x : Vertex D × (Fin 3 → ℚ)) (vs : List (Vertex D × (Fin 3 → ℚ))) => x ∈ vs)
    (join := fun _ vs o => vs ++ o) (fun x c es o => List.mem_append) D _ s1
  rw [← gridCondensation_eq] at h4 h5
  refine ⟨fun x => ?_, fun j hj g hg g' hg' k hk he => h4 j hj g hg g' hg' ⟨k, hk, he⟩⟩
  rw [h5]
  constructor
  · rintro ⟨j, _, g, hg, hx⟩; exact (s2 j g hg x hx).1
  · intro hx
    obtain ⟨g, hg, h⟩ := s3 x hx
    exact ⟨_, mask_count_le _, g, hg, h⟩

end Mandoline
