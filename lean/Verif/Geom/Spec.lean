import Verif.Geom.Vertex

/-!
# Specification vocabulary for masks, vertices and cells (independent of the code)
-/
namespace Mandoline

/-- A point of D-dimensional (grid) space. -/
abbrev Pt (D : ℕ) := Fin D → ℚ

/-- `x` lies on the grid element described by mask `m` (a plane, edge, vertex or all of space). -/
def OnMask {D : ℕ} (m : Mask D) (x : Pt D) : Prop := ∀ i c, m i = some c → x i = (c : ℚ)

/-- The closed unit cube with lower corner `c` contains `x`. -/
def InClosedCell {D : ℕ} (c : Coord D) (x : Pt D) : Prop :=
  ∀ i, (c i : ℚ) ≤ x i ∧ x i ≤ (c i : ℚ) + 1

/-- the fractional parts lie in `[0,1)`. -/
def Normalised {D : ℕ} (v : Vertex D) : Prop := ∀ i, 0 ≤ v.quot i ∧ v.quot i < 1

/-- `x` has an integer `i`-th coordinate. -/
def IntegralAt {D : ℕ} (x : Pt D) (i : Fin D) : Prop := ∃ n : ℤ, x i = (n : ℚ)

/-- every coordinate flagged clamped has zero fractional part. -/
def FlagsSound {D : ℕ} (v : Vertex D) : Prop := ∀ i, v.clamped i = true → v.quot i = 0

/-- lexicographic strict order on tuples: first difference decides. -/
def LexLt {α : Type*} [LT α] {D : ℕ} (a b : Fin D → α) : Prop :=
  ∃ i, (∀ j, j < i → a j = b j) ∧ a i < b i

end Mandoline
