import Mathlib.Data.List.Pairwise
import Mathlib.Order.Defs.LinearOrder
import Mathlib.Tactic.Tauto

/-!
# `std::map` / `std::set` as sorted association lists

`std::map<K,V,lt>` (and `std::set`, with `V = Unit`, or a set whose comparison only looks at a part `K` of
the element) is modelled by the list of its entries in iteration order. The only insertion primitive is
`alter`, which walks the list exactly as an ordered lookup does. `lt` is the C++ comparison.
-/
namespace Mandoline

/-- the requirements C++ puts on a key comparison, for keys where equivalence is equality. -/
structure StrictTotal {K : Type*} (lt : K → K → Bool) : Prop where
  irrefl : ∀ a, lt a a = false
  trans : ∀ a b c, lt a b = true → lt b c = true → lt a c = true
  tri : ∀ a b, lt a b = true ∨ a = b ∨ lt b a = true

namespace OMap
variable {K V : Type*} (lt : K → K → Bool)

/-- look up `k`, replace its value by `f (old value)`, inserting if absent. -/
def alter (k : K) (f : Option V → V) : List (K × V) → List (K × V)
  | [] => [(k, f none)]
  | (k', v) :: l =>
    if lt k k' then (k, f none) :: (k', v) :: l
    else if lt k' k then (k', v) :: alter k f l
    else (k', f (some v)) :: l

/-- `find(k)`. -/
def find (k : K) : List (K × V) → Option V
  | [] => none
  | (k', v) :: l =>
    if lt k k' then none
    else if lt k' k then find k l
    else some v

/-- `m.erase(k)`. -/
def erase (k : K) : List (K × V) → List (K × V)
  | [] => []
  | (k', v) :: l =>
    if lt k k' then (k', v) :: l
    else if lt k' k then (k', v) :: erase k l
    else l

/-- `m.emplace(k,v)` / `m.insert` / `std::inserter`: an existing entry is kept. -/
def insertNew (k : K) (v : V) (l : List (K × V)) : List (K × V) := alter lt k (fun o => o.getD v) l

/-- `m[k] = v`. -/
def assign (k : K) (v : V) (l : List (K × V)) : List (K × V) := alter lt k (fun _ => v) l

/-- entries in strictly increasing key order. -/
def Sorted (l : List (K × V)) : Prop := l.Pairwise fun a b => lt a.1 b.1 = true

variable {lt}

theorem sorted_nil : Sorted lt ([] : List (K × V)) := List.Pairwise.nil

theorem mem_of_find {k : K} {v : V} {l : List (K × V)} (h : StrictTotal lt)
    (hf : find lt k l = some v) : (k, v) ∈ l := by
  induction l with
  | nil => simp [find] at hf
  | cons p l ih =>
    obtain ⟨k', v'⟩ := p
    simp only [find] at hf
    split_ifs at hf with h1 h2
    · exact List.mem_cons_of_mem _ (ih hf)
    · simp only [Option.some.injEq] at hf
      have : k = k' := by rcases h.tri k k' with h' | h' | h'
                          · exact absurd h' h1
                          · exact h'
                          · exact absurd h' h2
      subst this; subst hf; simp

theorem find_of_mem {k : K} {v : V} {l : List (K × V)} (h : StrictTotal lt) (hs : Sorted lt l)
    (hm : (k, v) ∈ l) : find lt k l = some v := by
  induction l with
  | nil => simp at hm
  | cons p l ih =>
    obtain ⟨k', v'⟩ := p
    rw [Sorted, List.pairwise_cons] at hs
    rcases List.mem_cons.1 hm with he | hm
    · obtain ⟨rfl, rfl⟩ := Prod.mk.injEq _ _ _ _ ▸ he
      simp [find, h.irrefl]
    · have h1 : lt k' k = true := hs.1 _ hm
      have h2 : ¬ lt k k' = true := fun h' => by
        have := h.trans _ _ _ h' h1; rw [h.irrefl] at this; cases this
      simp only [find, h1, h2]
      exact ih hs.2 hm

theorem find_iff {k : K} {v : V} {l : List (K × V)} (h : StrictTotal lt) (hs : Sorted lt l) :
    find lt k l = some v ↔ (k, v) ∈ l := ⟨mem_of_find h, find_of_mem h hs⟩

theorem find_none_iff {k : K} {l : List (K × V)} (h : StrictTotal lt) (hs : Sorted lt l) :
    find lt k l = none ↔ ∀ v, (k, v) ∉ l := by
  constructor
  · intro hf v hm; rw [find_of_mem h hs hm] at hf; cases hf
  · intro hm
    cases hf : find lt k l with
    | none => rfl
    | some v => exact absurd (mem_of_find h hf) (hm v)

theorem sorted_unique {k : K} {v v' : V} {l : List (K × V)} (h : StrictTotal lt) (hs : Sorted lt l)
    (h1 : (k, v) ∈ l) (h2 : (k, v') ∈ l) : v = v' := by
  have := (find_of_mem h hs h1).symm.trans (find_of_mem h hs h2)
  simpa using this

theorem mem_alter_key {k : K} {f : Option V → V} {l : List (K × V)} {p : K × V}
    (hp : p ∈ alter lt k f l) : p.1 = k ∨ p.1 ∈ l.map Prod.fst := by
  induction l with
  | nil => simp [alter] at hp; simp [hp]
  | cons q l ih =>
    obtain ⟨k', v'⟩ := q
    simp only [alter] at hp
    split_ifs at hp with h1 h2
    · rcases List.mem_cons.1 hp with h | h
      · simp [h]
      · right; exact List.mem_map_of_mem h
    · rcases List.mem_cons.1 hp with h | h
      · simp [h]
      · rcases ih h with h | h
        · exact Or.inl h
        · right; simp only [List.map_cons, List.mem_cons]; exact Or.inr h
    · rcases List.mem_cons.1 hp with h | h
      · simp [h]
      · right; simp only [List.map_cons, List.mem_cons]; right; exact List.mem_map_of_mem h

theorem sorted_alter {k : K} {f : Option V → V} {l : List (K × V)} (h : StrictTotal lt)
    (hs : Sorted lt l) : Sorted lt (alter lt k f l) := by
  induction l with
  | nil => simp [alter, Sorted]
  | cons q l ih =>
    obtain ⟨k', v'⟩ := q
    have hs' := hs
    rw [Sorted, List.pairwise_cons] at hs
    simp only [alter]
    split_ifs with h1 h2
    · rw [Sorted, List.pairwise_cons]
      refine ⟨?_, hs'⟩
      intro p hp
      rcases List.mem_cons.1 hp with rfl | hp
      · exact h1
      · exact h.trans _ _ _ h1 (hs.1 p hp)
    · rw [Sorted, List.pairwise_cons]
      refine ⟨?_, ih hs.2⟩
      intro p hp
      rcases mem_alter_key hp with h3 | h3
      · rw [h3]; exact h2
      · obtain ⟨q, hq, hqe⟩ := List.mem_map.1 h3
        rw [← hqe]; exact hs.1 q hq
    · rw [Sorted, List.pairwise_cons]
      exact ⟨fun p hp => hs.1 p hp, hs.2⟩

theorem mem_alter {k k₁ : K} {v₁ : V} {f : Option V → V} {l : List (K × V)} (h : StrictTotal lt)
    (hs : Sorted lt l) :
    (k₁, v₁) ∈ alter lt k f l ↔ (k₁ ≠ k ∧ (k₁, v₁) ∈ l) ∨ (k₁ = k ∧ v₁ = f (find lt k l)) := by
  induction l with
  | nil => simp [alter, find]
  | cons q l ih =>
    obtain ⟨k', v'⟩ := q
    rw [Sorted, List.pairwise_cons] at hs
    simp only [alter, find]
    split_ifs with h1 h2
    · have hne : k' ≠ k := by rintro rfl; rw [h.irrefl] at h1; cases h1
      have hnl : ∀ v, (k, v) ∉ l := by
        intro v hv
        have := h.trans _ _ _ h1 (hs.1 _ hv)
        simp only at this
        rw [h.irrefl] at this; cases this
      simp only [List.mem_cons, Prod.mk.injEq]
      constructor
      · rintro (⟨rfl, rfl⟩ | ⟨rfl, rfl⟩ | h3)
        · exact Or.inr ⟨rfl, rfl⟩
        · exact Or.inl ⟨hne, Or.inl ⟨rfl, rfl⟩⟩
        · left; refine ⟨?_, Or.inr h3⟩; rintro rfl; exact hnl _ h3
      · tauto
    · have hne : k' ≠ k := by rintro rfl; rw [h.irrefl] at h2; cases h2
      simp only [List.mem_cons, Prod.mk.injEq, ih hs.2]
      constructor
      · rintro (⟨rfl, rfl⟩ | ⟨h3, h4⟩ | ⟨h3, h4⟩)
        · exact Or.inl ⟨hne, Or.inl ⟨rfl, rfl⟩⟩
        · exact Or.inl ⟨h3, Or.inr h4⟩
        · exact Or.inr ⟨h3, h4⟩
      · tauto
    · have hke : k = k' := by
        rcases h.tri k k' with h' | h' | h'
        · exact absurd h' h1
        · exact h'
        · exact absurd h' h2
      subst hke
      have hnl : ∀ v, (k, v) ∉ l := by
        intro v hv
        have := hs.1 _ hv
        simp only at this
        rw [h.irrefl] at this; cases this
      simp only [List.mem_cons, Prod.mk.injEq]
      constructor
      · rintro (⟨rfl, rfl⟩ | h3)
        · exact Or.inr ⟨rfl, rfl⟩
        · left; refine ⟨?_, Or.inr h3⟩; rintro rfl; exact hnl _ h3
      · rintro (⟨h3, (⟨h4, _⟩ | h4)⟩ | ⟨h3, h4⟩)
        · exact absurd h4 h3
        · exact Or.inr h4
        · exact Or.inl ⟨h3, h4⟩

theorem find_alter {k k₁ : K} {f : Option V → V} {l : List (K × V)} (h : StrictTotal lt)
    (hs : Sorted lt l) [DecidableEq K] :
    find lt k₁ (alter lt k f l) = if k₁ = k then some (f (find lt k l)) else find lt k₁ l := by
  split_ifs with hk
  · exact (find_iff h (sorted_alter h hs)).2 ((mem_alter h hs).2 (Or.inr ⟨hk, rfl⟩))
  · cases hf : find lt k₁ l with
    | none =>
      rw [find_none_iff h (sorted_alter h hs)]
      intro v hv
      rcases (mem_alter h hs).1 hv with ⟨_, h2⟩ | ⟨h1, _⟩
      · exact (find_none_iff h hs).1 hf v h2
      · exact hk h1
    | some v =>
      exact (find_iff h (sorted_alter h hs)).2
        ((mem_alter h hs).2 (Or.inl ⟨hk, mem_of_find h hf⟩))

/-- two sorted maps with the same entries are equal. -/
theorem sorted_ext {l l' : List (K × V)} (h : StrictTotal lt) (hs : Sorted lt l) (hs' : Sorted lt l')
    (he : ∀ p, p ∈ l ↔ p ∈ l') : l = l' := by
  induction l generalizing l' with
  | nil =>
    cases l' with
    | nil => rfl
    | cons q l' => have := (he q).2 (by simp); simp at this
  | cons p l ih =>
    cases l' with
    | nil => have := (he p).1 (by simp); simp at this
    | cons q l' =>
      rw [Sorted, List.pairwise_cons] at hs hs'
      have hpq : p = q := by
        rcases List.mem_cons.1 ((he p).1 (by simp)) with h1 | h1
        · exact h1
        · rcases List.mem_cons.1 ((he q).2 (by simp)) with h2 | h2
          · exact h2.symm
          · have h3 := h.trans _ _ _ (hs'.1 p h1) (hs.1 q h2)
            rw [h.irrefl] at h3; cases h3
      subst hpq
      have hnp : ∀ {r : List (K × V)}, (∀ a ∈ r, lt p.1 a.1 = true) → p ∉ r := by
        intro r hr hp
        have := hr p hp; rw [h.irrefl] at this; cases this
      congr 1
      refine ih hs.2 hs'.2 fun r => ?_
      constructor
      · intro hr
        rcases List.mem_cons.1 ((he r).1 (List.mem_cons_of_mem _ hr)) with h1 | h1
        · subst h1; exact absurd hr (hnp hs.1)
        · exact h1
      · intro hr
        rcases List.mem_cons.1 ((he r).2 (List.mem_cons_of_mem _ hr)) with h1 | h1
        · subst h1; exact absurd hr (hnp hs'.1)
        · exact h1

/-- a linear order's `<` is a legal comparison. -/
theorem strictTotal_of_linearOrder {K : Type*} [LinearOrder K] :
    StrictTotal (fun a b : K => decide (a < b)) where
  irrefl a := by simp
  trans a b c := by simp only [decide_eq_true_eq]; exact lt_trans
  tri a b := by simp only [decide_eq_true_eq]; exact lt_trichotomy a b

end OMap
end Mandoline
