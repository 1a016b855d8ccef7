import Mathlib.Algebra.Order.Field.Rat
import Mathlib.Data.Fin.VecNotation
import Mathlib.Tactic.Ring
import Mathlib.Tactic.Linarith
import Mathlib.Tactic.FinCases
import Mathlib.Data.Fintype.Basic
import Mathlib.Data.Fin.Tuple.Basic

/-!
# Vectors in space (specification vocabulary)
-/
namespace Mandoline

/-- a vector in space. -/
abbrev Vec3 := Fin 3 → ℚ

/-- scalar product. -/
def vdot (u v : Vec3) : ℚ := u 0 * v 0 + u 1 * v 1 + u 2 * v 2

/-- vector product. -/
def vcross (u v : Vec3) : Vec3 := ![u 1 * v 2 - u 2 * v 1, u 2 * v 0 - u 0 * v 2, u 0 * v 1 - u 1 * v 0]

/-- signed area of `u`, `v` seen with `d` pointing to the viewer, times the length of `d`; also the determinant with
columns `d`, `u`, `v`. -/
def vdet (d u v : Vec3) : ℚ := vdot d (vcross u v)

theorem vdet_eq (d u v : Vec3) :
    vdet d u v = d 0 * (u 1 * v 2 - u 2 * v 1) + d 1 * (u 2 * v 0 - u 0 * v 2) + d 2 * (u 0 * v 1 - u 1 * v 0) := rfl

theorem vdot_self_nonneg (u : Vec3) : 0 ≤ vdot u u := by
  unfold vdot; nlinarith [mul_self_nonneg (u 0), mul_self_nonneg (u 1), mul_self_nonneg (u 2)]

theorem vdot_self_pos {u : Vec3} {m : Fin 3} (h : u m ≠ 0) : 0 < vdot u u := by
  have h1 : 0 < u m * u m := mul_self_pos.2 h
  unfold vdot
  have h0 := mul_self_nonneg (u 0)
  have h1 := mul_self_nonneg (u 1)
  have h2 := mul_self_nonneg (u 2)
  have : u m * u m = u 0 * u 0 ∨ u m * u m = u 1 * u 1 ∨ u m * u m = u 2 * u 2 := by fin_cases m <;> simp
  rcases this with h | h | h <;> linarith

end Mandoline
