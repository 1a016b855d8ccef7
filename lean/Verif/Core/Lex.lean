import Verif.Core.OMap
import Verif.Geom.VertexLemmas
import Mathlib.Order.WithBot

/-! # `operator<` of `std::array` (lexicographic), as used for map keys -/
namespace Mandoline

/-- `std::lexicographical_compare` on arrays of equal length. -/
def lexCmp {α : Type*} [LinearOrder α] : List (α × α) → Bool
  | [] => false
  | (a, b) :: l => if a < b then true else if b < a then false else lexCmp l

theorem lexCmp_finRange {α : Type*} [LinearOrder α] {D : ℕ} (a b : Fin D → α) :
    lexCmp ((List.finRange D).map fun i => (a i, b i)) = true ↔ LexLt a b := by
  induction D with
  | zero => simp [lexCmp, LexLt]
  | succ n ih =>
    rw [List.finRange_succ, List.map_cons, List.map_map]
    simp only [lexCmp]
    have ih' := ih (fun i => a i.succ) (fun i => b i.succ)
    by_cases h1 : a 0 < b 0
    · simp only [h1, if_true, true_iff]
      exact ⟨0, fun j hj => absurd hj (Fin.not_lt_zero j), h1⟩
    · by_cases h2 : b 0 < a 0
      · simp only [h1, h2, if_true, if_false]
        constructor
        · intro h; exact absurd h (by simp)
        · rintro ⟨i, hi, hlt⟩
          rcases Fin.eq_zero_or_eq_succ i with rfl | ⟨k, rfl⟩
          · exact absurd hlt h1
          · have := hi 0 (Fin.succ_pos k); rw [this] at h2; exact absurd h2 (lt_irrefl _)
      · have h3 : a 0 = b 0 := le_antisymm (not_lt.1 h2) (not_lt.1 h1)
        simp only [h1, h2, if_false]
        have : (List.map ((fun i => (a i, b i)) ∘ Fin.succ) (List.finRange n)) =
            (List.finRange n).map fun i => (a i.succ, b i.succ) := rfl
        rw [this, ih']
        constructor
        · rintro ⟨i, hi, hlt⟩
          refine ⟨i.succ, ?_, hlt⟩
          intro j hj
          rcases Fin.eq_zero_or_eq_succ j with rfl | ⟨k, rfl⟩
          · exact h3
          · exact hi k (Fin.succ_lt_succ_iff.1 hj)
        · rintro ⟨i, hi, hlt⟩
          rcases Fin.eq_zero_or_eq_succ i with rfl | ⟨k, rfl⟩
          · exact absurd hlt h1
          · exact ⟨k, fun j hj => hi j.succ (Fin.succ_lt_succ_iff.2 hj), hlt⟩

theorem strictTotal_lexCmp {α : Type*} [LinearOrder α] {D : ℕ} :
    StrictTotal fun a b : Fin D → α => lexCmp ((List.finRange D).map fun i => (a i, b i)) where
  irrefl a := by
    rw [← Bool.not_eq_true, lexCmp_finRange]; exact LexLt.irrefl a
  trans a b c := by simp only [lexCmp_finRange]; exact LexLt.trans
  tri a b := by simp only [lexCmp_finRange]; exact LexLt.trichotomy a b

/-- `operator<` of `coord_mask<D>` (inherited from `std::array<std::optional<int>,D>`): lexicographic,
`nullopt` below every value. -/
def maskLt {D : ℕ} (a b : Mask D) : Bool :=
  lexCmp (α := WithBot ℤ) ((List.finRange D).map fun i => (a i, b i))

theorem strictTotal_maskLt {D : ℕ} : StrictTotal (maskLt (D := D)) :=
  strictTotal_lexCmp (α := WithBot ℤ) (D := D)

/-- `operator<` of `coord_type = std::array<int,D>`. -/
def coordLtB {D : ℕ} (a b : Coord D) : Bool := lexCmp ((List.finRange D).map fun i => (a i, b i))

theorem strictTotal_coordLtB {D : ℕ} : StrictTotal (coordLtB (D := D)) := strictTotal_lexCmp (α := ℤ)

/-- `operator<` on `double` keys. -/
def ratLt (a b : ℚ) : Bool := decide (a < b)

theorem strictTotal_ratLt : StrictTotal ratLt := OMap.strictTotal_of_linearOrder

/-- `operator<` on `int` keys. -/
def intLt (a b : ℤ) : Bool := decide (a < b)

theorem strictTotal_intLt : StrictTotal intLt := OMap.strictTotal_of_linearOrder

/-- `operator<` on index keys. -/
def natLt (a b : ℕ) : Bool := decide (a < b)

theorem strictTotal_natLt : StrictTotal natLt := OMap.strictTotal_of_linearOrder

end Mandoline
