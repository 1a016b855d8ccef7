import Verif.Tri.Bins

/-! # `convex_grid_condensation` on crossings whose masks are incomparable -/
namespace Mandoline
variable {D : ℕ}

/-- the items with a given mask, in order. -/
def itemsAt (l : List (Vertex D × (Fin 3 → ℚ))) (m : Mask D) : List (Vertex D × (Fin 3 → ℚ)) :=
  l.filter fun x => decide (x.1.mask = m)

/-- the levels hold the items grouped by mask. -/
structure LevelsOf (E : ℕ → List (TriGroup D)) (l : List (Vertex D × (Fin 3 → ℚ))) : Prop where
  sorted : ∀ c, OMap.Sorted maskLt (E c)
  find : ∀ c m, OMap.find maskLt m (E c) = if m.count = c ∧ itemsAt l m ≠ [] then some (itemsAt l m) else none

theorem levelsOf_insert {E : ℕ → List (TriGroup D)} {l : List (Vertex D × (Fin 3 → ℚ))} (h : LevelsOf E l)
    (x : Vertex D × (Fin 3 → ℚ)) : LevelsOf (groupInsert E x) (l ++ [x]) := by
  have hST := strictTotal_maskLt (D := D)
  refine ⟨fun c => ?_, fun c m => ?_⟩
  · unfold groupInsert
    by_cases hc : c = x.1.mask.count
    · subst hc; rw [Function.update_self]; exact OMap.sorted_alter hST (h.sorted _)
    · rw [Function.update_of_ne hc]; exact h.sorted c
  · have happ : itemsAt (l ++ [x]) m = itemsAt l m ++ if x.1.mask = m then [x] else [] := by
      unfold itemsAt
      rw [List.filter_append]
      congr 1
      by_cases hm : x.1.mask = m <;> simp [hm]
    unfold groupInsert
    by_cases hc : c = x.1.mask.count
    · subst hc
      rw [Function.update_self, OMap.find_alter hST (h.sorted _), h.find, h.find, happ]
      by_cases hm : m = x.1.mask
      · subst hm
        simp only [if_true, true_and]
        by_cases he : itemsAt l x.1.mask = []
        · simp [he]
        · simp [he]
      · simp [hm, Ne.symm hm]
    · rw [Function.update_of_ne hc, h.find, happ]
      by_cases hm : x.1.mask = m
      · subst hm
        simp [Ne.symm hc]
      · simp [hm]

theorem levelsOf_fold (l pre : List (Vertex D × (Fin 3 → ℚ))) (E : ℕ → List (TriGroup D)) (h : LevelsOf E pre) :
    LevelsOf (l.foldl groupInsert E) (pre ++ l) := by
  induction l generalizing pre E with
  | nil => simpa using h
  | cons x l ih =>
    rw [List.foldl_cons]
    have := ih (pre ++ [x]) _ (levelsOf_insert h x)
    rwa [List.append_assoc] at this

theorem levelsOf_init (l : List (Vertex D × (Fin 3 → ℚ))) : LevelsOf (l.foldl groupInsert fun _ => []) l := by
  have := levelsOf_fold l [] (fun _ => []) ⟨fun _ => OMap.sorted_nil, fun c m => by simp [OMap.find, itemsAt]⟩
  simpa using this

/-- no item's mask is obtained from another's by dropping a bound coordinate. -/
def Incomparable (l : List (Vertex D × (Fin 3 → ℚ))) : Prop :=
  ∀ x ∈ l, ∀ y ∈ l, ∀ k, x.1.mask.isBound k = true → y.1.mask ≠ Function.update x.1.mask k none

theorem itemsAt_ne_nil {l : List (Vertex D × (Fin 3 → ℚ))} {m : Mask D} :
    itemsAt l m ≠ [] ↔ ∃ x ∈ l, x.1.mask = m := by
  unfold itemsAt
  rw [Ne, List.filter_eq_nil_iff]
  push Not
  constructor
  · rintro ⟨x, h1, h2⟩; exact ⟨x, h1, by simpa using h2⟩
  · rintro ⟨x, h1, h2⟩; exact ⟨x, h1, by simpa using h2⟩

theorem groupCondenseEntry_id {E : ℕ → List (TriGroup D)} {l : List (Vertex D × (Fin 3 → ℚ))} (h : LevelsOf E l)
    (hinc : Incomparable l) (i : ℕ) (c : Mask D) (vs : List (Vertex D × (Fin 3 → ℚ))) (hc : ∃ x ∈ l, x.1.mask = c) :
    groupCondenseEntry c vs (E i) = (vs, E i) := by
  obtain ⟨x, hx, rfl⟩ := hc
  have hnone : ∀ k, x.1.mask.isBound k = true → OMap.find maskLt (Function.update x.1.mask k none) (E i) = none := by
    intro k hk
    rw [h.find, if_neg]
    rintro ⟨_, h2⟩
    obtain ⟨y, hy, hm⟩ := itemsAt_ne_nil.1 h2
    exact hinc x hx y hy k hk hm
  unfold groupCondenseEntry
  generalize List.finRange D = L
  induction L with
  | nil => rfl
  | cons k L ih =>
    rw [List.foldl_cons]
    by_cases hk : x.1.mask.isBound k = true
    · simp only [hk, if_true, hnone k hk]; exact ih
    · simp only [hk]; exact ih

theorem groupCondenseLevel_id {E : ℕ → List (TriGroup D)} {l : List (Vertex D × (Fin 3 → ℚ))} (h : LevelsOf E l)
    (hinc : Incomparable l) (i : ℕ) : groupCondenseLevel E i = E := by
  have hST := strictTotal_maskLt (D := D)
  have key : ∀ (L acc : List (TriGroup D)), (∀ p ∈ L, ∃ x ∈ l, x.1.mask = p.1) →
      L.foldl (fun (st : List (TriGroup D) × List (TriGroup D)) p =>
        let q := groupCondenseEntry p.1 p.2 st.2
        (st.1 ++ [(p.1, q.1)], q.2)) (acc, E i) = (acc ++ L, E i) := by
    intro L
    induction L with
    | nil => intro acc _; simp
    | cons p L ih =>
      intro acc hL
      rw [List.foldl_cons]
      simp only [groupCondenseEntry_id h hinc i p.1 p.2 (hL p List.mem_cons_self)]
      rw [ih _ fun q hq => hL q (List.mem_cons_of_mem _ hq)]
      simp
  unfold groupCondenseLevel
  rw [key (E (i + 1)) [] (by
    intro p hp
    have := OMap.find_of_mem hST (h.sorted _) hp
    rw [h.find] at this
    split_ifs at this with hc
    exact itemsAt_ne_nil.1 hc.2)]
  simp

theorem gridCondensation_spec {l : List (Vertex D × (Fin 3 → ℚ))} (hinc : Incomparable l) :
    LevelsOf (gridCondensation l) l := by
  unfold gridCondensation
  generalize hE : l.foldl groupInsert (fun _ => []) = E
  have h : LevelsOf E l := hE ▸ levelsOf_init l
  have : ∀ L : List ℕ, L.foldl groupCondenseLevel E = E := by
    intro L
    induction L with
    | nil => rfl
    | cons i L ih => rw [List.foldl_cons, groupCondenseLevel_id h hinc]; exact ih
  rw [this]
  exact h

/-- one group per mask occurring among the items, containing exactly the items with that mask. -/
theorem mem_groups {l : List (Vertex D × (Fin 3 → ℚ))} (hinc : Incomparable l) (g : TriGroup D) :
    g ∈ (List.range (D + 1)).flatMap (gridCondensation l) ↔ g.2 = itemsAt l g.1 ∧ g.2 ≠ [] := by
  have hST := strictTotal_maskLt (D := D)
  have h := gridCondensation_spec hinc
  rw [List.mem_flatMap]
  constructor
  · rintro ⟨c, _, hg⟩
    have := OMap.find_of_mem (k := g.1) (v := g.2) hST (h.sorted _) hg
    rw [h.find] at this
    split_ifs at this with hc
    have := Option.some.inj this
    exact ⟨this.symm, this ▸ hc.2⟩
  · rintro ⟨h1, h2⟩
    refine ⟨g.1.count, ?_, ?_⟩
    · rw [List.mem_range]
      have : g.1.count ≤ (List.finRange D).length := List.countP_le_length
      rw [List.length_finRange] at this
      omega
    · apply OMap.mem_of_find (k := g.1) (v := g.2) hST
      rw [h.find, if_pos ⟨rfl, h1 ▸ h2⟩, h1]

theorem groups_pairwise {l : List (Vertex D × (Fin 3 → ℚ))} (hinc : Incomparable l) :
    ((List.range (D + 1)).flatMap (gridCondensation l)).Pairwise fun g g' => g.1 ≠ g'.1 := by
  have hST := strictTotal_maskLt (D := D)
  have h := gridCondensation_spec hinc
  have hcount : ∀ c, ∀ g ∈ gridCondensation l c, g.1.count = c := by
    intro c g hg
    have := OMap.find_of_mem (k := g.1) (v := g.2) hST (h.sorted _) hg
    rw [h.find] at this
    split_ifs at this with hc
    exact hc.1
  rw [List.pairwise_flatMap]
  refine ⟨fun c _ => ?_, ?_⟩
  · apply List.Pairwise.imp _ (h.sorted c)
    intro a b hab he
    rw [he, hST.irrefl] at hab
    exact absurd hab (by simp)
  · apply List.Pairwise.imp _ List.nodup_range
    intro c c' hne a ha b hb he
    exact hne (by rw [← hcount c a ha, ← hcount c' b hb, he])

end Mandoline
