import Verif.Geom.Spec
import Mathlib.Tactic.Linarith
import Mathlib.Tactic.Ring
import Mathlib.Algebra.BigOperators.Ring.Finset

namespace Mandoline
namespace Mask
variable {D : ℕ}

/-- `a` binds at least as much as `b`, with the same values. -/
def Le (a b : Mask D) : Prop := ∀ i c, b i = some c → a i = some c

theorem onMask_imp_iff_le (a b : Mask D) : (∀ x, OnMask a x → OnMask b x) ↔ Le a b := by
  constructor
  · intro h i c hb
    by_contra hne
    -- a point on `a` that differs from `c` at axis `i`
    let x : Pt D := fun j => match a j with | some d => (d : ℚ) | none => (c : ℚ) + 1
    have hx : OnMask a x := by
      intro j d hd; simp [x, hd]
    have h2 := h x hx i c hb
    cases hai : a i with
    | none => simp [x, hai] at h2
    | some d =>
      simp [x, hai] at h2
      exact hne (by rw [hai, h2])
  · intro h x hx i c hb
    exact hx i c (h i c hb)

def pairLe (p : Option ℤ × Option ℤ) : Prop := ∀ c, p.2 = some c → p.1 = some c
def pairGe (p : Option ℤ × Option ℤ) : Prop := ∀ c, p.1 = some c → p.2 = some c

theorem poLoop_greater (l : List (Option ℤ × Option ℤ)) :
    (poLoop .Greater l = .Greater ↔ ∀ p ∈ l, pairLe p) ∧
    (poLoop .Greater l = .Greater ∨ poLoop .Greater l = .Unknown) := by
  induction l with
  | nil => simp [poLoop]
  | cons p l ih =>
    obtain ⟨a, b⟩ := p
    rcases a with _ | a <;> rcases b with _ | b <;> simp [poLoop, pairLe]
    · simpa [pairLe] using ih
    · simpa [pairLe] using ih
    · by_cases hab : a = b
      · subst hab; simpa [pairLe] using ih
      · simp [hab]

theorem poLoop_less (l : List (Option ℤ × Option ℤ)) :
    (poLoop .Less l = .Less ↔ ∀ p ∈ l, pairGe p) ∧
    (poLoop .Less l = .Less ∨ poLoop .Less l = .Unknown) := by
  induction l with
  | nil => simp [poLoop]
  | cons p l ih =>
    obtain ⟨a, b⟩ := p
    rcases a with _ | a <;> rcases b with _ | b <;> simp [poLoop, pairGe]
    · simpa [pairGe] using ih
    · simpa [pairGe] using ih
    · by_cases hab : a = b
      · subst hab; simpa [pairGe] using ih
      · simp [hab, Ne.symm hab]

theorem poLoop_equal (l : List (Option ℤ × Option ℤ)) :
    (poLoop .Equal l = .Equal ↔ ∀ p ∈ l, p.1 = p.2) ∧
    (poLoop .Equal l = .Greater ↔ (∀ p ∈ l, pairLe p) ∧ ∃ p ∈ l, p.1 ≠ p.2) ∧
    (poLoop .Equal l = .Less ↔ (∀ p ∈ l, pairGe p) ∧ ∃ p ∈ l, p.1 ≠ p.2) := by
  induction l with
  | nil => simp [poLoop]
  | cons p l ih =>
    obtain ⟨a, b⟩ := p
    have hg := poLoop_greater l
    have hl := poLoop_less l
    rcases a with _ | a <;> rcases b with _ | b
    · simpa [poLoop, pairLe, pairGe] using ih
    · simp only [poLoop]
      refine ⟨?_, ?_, ?_⟩
      · rcases hl.2 with h | h <;> simp [h]
      · rcases hl.2 with h | h <;> simp [h, pairLe]
      · rw [hl.1]; simp [pairGe]
    · simp only [poLoop]
      refine ⟨?_, ?_, ?_⟩
      · rcases hg.2 with h | h <;> simp [h]
      · rw [hg.1]; simp [pairLe]
      · rcases hg.2 with h | h <;> simp [h, pairGe]
    · by_cases hab : a = b
      · subst hab; simpa [poLoop, pairLe, pairGe] using ih
      · simp [poLoop, hab, pairLe, pairGe, Ne.symm hab]

theorem partialOrdering_equal (a b : Mask D) : a.partialOrdering b = .Equal ↔ a = b := by
  unfold partialOrdering
  rw [(poLoop_equal _).1]
  simp [funext_iff]

theorem partialOrdering_greater (a b : Mask D) :
    a.partialOrdering b = .Greater ↔ Le a b ∧ a ≠ b := by
  unfold partialOrdering
  rw [(poLoop_equal _).2.1]
  simp [pairLe, Le, funext_iff]

theorem partialOrdering_less (a b : Mask D) :
    a.partialOrdering b = .Less ↔ Le b a ∧ a ≠ b := by
  unfold partialOrdering
  rw [(poLoop_equal _).2.2]
  simp [pairGe, Le, funext_iff]

theorem Le.refl (a : Mask D) : Le a a := fun _ _ h => h
theorem Le.trans {a b c : Mask D} (h : Le a b) (h' : Le b c) : Le a c :=
  fun i x hx => h i x (h' i x hx)
theorem Le.antisymm {a b : Mask D} (h : Le a b) (h' : Le b a) : a = b := by
  funext i
  cases hb : b i with
  | some c => exact h i c hb
  | none =>
    cases ha : a i with
    | none => rfl
    | some c => have := h' i c ha; simp [hb] at this

theorem subsumes_iff_le (a b : Mask D) : a.subsumes b = true ↔ Le a b := by
  simp only [subsumes, Bool.or_eq_true, beq_iff_eq, partialOrdering_greater, partialOrdering_equal]
  constructor
  · rintro (h | h)
    · exact h.1
    · subst h; exact Le.refl _
  · intro h
    by_cases hab : a = b
    · exact Or.inr hab
    · exact Or.inl ⟨h, hab⟩

theorem andEntry_eq_some (a b : Option ℤ) (c : ℤ) :
    andEntry a b = some c ↔ a = some c ∧ b = some c := by
  unfold andEntry
  rcases a with _ | a <;> rcases b with _ | b <;> simp
  constructor
  · rintro ⟨h, h'⟩; subst h; exact ⟨h', h'⟩
  · rintro ⟨h, h'⟩; subst h; subst h'; exact ⟨rfl, rfl⟩

theorem and_eq_some (a b : Mask D) (i : Fin D) (c : ℤ) :
    a.and b i = some c ↔ a i = some c ∧ b i = some c := andEntry_eq_some _ _ _

theorem mask_ext {a b : Mask D} (h : ∀ i c, a i = some c ↔ b i = some c) : a = b :=
  Le.antisymm (fun i c => (h i c).2) (fun i c => (h i c).1)

theorem exists_bits (f : Fin D → Bool) : ∃ i < 2 <<< D, bitset D i = f := by
  refine ⟨Nat.ofBits f, ?_, ?_⟩
  · have := Nat.ofBits_lt_two_pow f
    rw [Nat.shiftLeft_eq]; omega
  · funext j
    simp [bitset]

theorem mem_possibleCells (m : Mask D) (coord c : Coord D) :
    c ∈ m.possibleCells coord ↔
      ∀ j, c j = coord j ∨ ((m j).isSome = true ∧ c j = coord j - 1) := by
  unfold possibleCells
  simp only [List.mem_toFinset, List.mem_map, List.mem_filter, List.mem_range, decide_eq_true_eq]
  constructor
  · rintro ⟨i, ⟨_, hi⟩, rfl⟩ j
    have := hi j
    cases hb : bitset D i j
    · left; simp [hb]
    · right; simp [hb, asBitset] at this ⊢; exact this
  · intro h
    obtain ⟨i, hi, hbit⟩ := exists_bits (fun j => decide (c j ≠ coord j))
    refine ⟨i, ⟨hi, ?_⟩, ?_⟩
    · intro j
      rw [hbit]
      rcases h j with h1 | ⟨h1, h2⟩
      · simp [h1]
      · simp [asBitset, h1]
    · funext j
      rw [hbit]
      rcases h j with h1 | ⟨h1, h2⟩
      · simp [h1]
      · simp [h2]

theorem card_possibleCells (m : Mask D) (coord : Coord D) :
    (m.possibleCells coord).card = 2 ^ (Finset.univ.filter fun i => (m i).isSome = true).card := by
  rw [← Finset.card_powerset]
  symm
  refine Finset.card_bij (fun s _ => fun j => if j ∈ s then coord j - 1 else coord j) ?_ ?_ ?_
  · intro s hs
    rw [mem_possibleCells]
    intro j
    by_cases hj : j ∈ s
    · right
      have := Finset.mem_powerset.1 hs hj
      simp at this
      simp [hj, this]
    · left; simp [hj]
  · intro s _ t _ hst
    ext j
    have := congrFun hst j
    by_cases h1 : j ∈ s <;> by_cases h2 : j ∈ t <;> simp [h1, h2] at this ⊢
    omega
  · intro c hc
    rw [mem_possibleCells] at hc
    refine ⟨Finset.univ.filter fun j => c j ≠ coord j, ?_, ?_⟩
    · rw [Finset.mem_powerset]
      intro j hj
      simp at hj ⊢
      rcases hc j with h | h
      · exact absurd h hj
      · exact h.1
    · funext j
      by_cases hj : c j = coord j
      · simp [hj]
      · rcases hc j with h | h
        · exact absurd h hj
        · simp [h.2]

end Mask
end Mandoline
