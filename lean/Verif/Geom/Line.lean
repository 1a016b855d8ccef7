import Mathlib.Data.Real.Sqrt
import Mathlib.Data.Fin.VecNotation
import Mathlib.Algebra.BigOperators.Fin
import Mathlib.Algebra.Order.BigOperators.Ring.Finset
import Mathlib.Tactic.Positivity
import Mathlib.Tactic.Linarith
import Mathlib.Tactic.Ring
import Mathlib.Tactic.FieldSimp

/-!
# C81: line segments

Transcription of `Line<D>` (include/mandoline/line.hpp, line_impl.hpp). Here `double` is ℝ, because lengths need square
roots.
-/
namespace Mandoline

/-- `Line<D>` (line.hpp:6-38): `m_start_end`. -/
structure Line (D : ℕ) where
  start : Fin D → ℝ
  stop : Fin D → ℝ

namespace Line
variable {D : ℕ}

/-- `a.dot(b)`. -/
def dot (a b : Fin D → ℝ) : ℝ := ∑ i, a i * b i

/-- `a.norm()`. -/
noncomputable def norm (a : Fin D → ℝ) : ℝ := Real.sqrt (dot a a)

/-- `direction()` (line.hpp:20). -/
def direction (l : Line D) : Fin D → ℝ := fun i => l.stop i - l.start i

/-- `length()` (line.hpp:21). -/
noncomputable def length (l : Line D) : ℝ := norm l.direction

/-- `interp(t)` (line_impl.hpp:58-61). -/
def interp (l : Line D) (t : ℝ) : Fin D → ℝ := fun i => l.start i + t * l.direction i

/-- Eigen's `normalize()`: the zero vector is left alone. -/
noncomputable def normalize (d : Fin D → ℝ) : Fin D → ℝ := if 0 < dot d d then fun i => d i / norm d else d

/-- `std::clamp(v, lo, hi)`. -/
noncomputable def clamp (v lo hi : ℝ) : ℝ := if v < lo then lo else if hi < v then hi else v

/-- `project(p)` (line_impl.hpp:63-76). -/
noncomputable def project (l : Line D) (p : Fin D → ℝ) : Fin D → ℝ :=
  let pa := fun i => p i - l.start i
  let d := l.direction
  let len := norm d
  let u := normalize d
  fun i => clamp (dot pa u) 0 len * u i + l.start i

/-- `distance(p)` (line_impl.hpp:77-81). -/
noncomputable def distance (l : Line D) (p : Fin D → ℝ) : ℝ := norm fun i => l.project p i - p i

/-- `l + T` (line_impl.hpp:18-24). -/
def translate (l : Line D) (T : Fin D → ℝ) : Line D := ⟨fun i => l.start i + T i, fun i => l.stop i + T i⟩

/-- `s * l` (line_impl.hpp:44-51). -/
def scale (s : ℝ) (l : Line D) : Line D := ⟨fun i => s * l.start i, fun i => s * l.stop i⟩

/-- `l / s` (line_impl.hpp:52-55). -/
noncomputable def divide (l : Line D) (s : ℝ) : Line D := ⟨fun i => l.start i / s, fun i => l.stop i / s⟩

/-- `cwiseProduct(p)` (line_impl.hpp:82-87). -/
def cwiseProduct (l : Line D) (p : Fin D → ℝ) : Line D := ⟨fun i => p i * l.start i, fun i => p i * l.stop i⟩

/-- `cwiseQuotient(p)` (line_impl.hpp:88-92). -/
noncomputable def cwiseQuotient (l : Line D) (p : Fin D → ℝ) : Line D :=
  ⟨fun i => 1 / p i * l.start i, fun i => 1 / p i * l.stop i⟩

/-! ## Specification -/

/-- the points of the segment. -/
def OnSegment (l : Line D) (q : Fin D → ℝ) : Prop :=
  ∃ t : ℝ, 0 ≤ t ∧ t ≤ 1 ∧ ∀ i, q i = (1 - t) * l.start i + t * l.stop i

/-- Euclidean distance. -/
noncomputable def dist (p q : Fin D → ℝ) : ℝ := Real.sqrt (∑ i, (p i - q i) ^ 2)

theorem dot_self_nonneg (d : Fin D → ℝ) : 0 ≤ dot d d := Finset.sum_nonneg fun i _ => mul_self_nonneg _

theorem clamp_mul (v n : ℝ) (hn : 0 < n) : clamp (v / n) 0 n = n * clamp (v / n ^ 2) 0 1 := by
  have e : v / n = n * (v / n ^ 2) := by field_simp
  have hn2 : 0 < n ^ 2 := by positivity
  unfold clamp
  by_cases h1 : v < 0
  · rw [if_pos (div_neg_of_neg_of_pos h1 hn), if_pos (div_neg_of_neg_of_pos h1 hn2), mul_zero]
  · push Not at h1
    rw [if_neg (not_lt.2 (div_nonneg h1 hn.le)), if_neg (not_lt.2 (div_nonneg h1 hn2.le))]
    by_cases h2 : n < v / n
    · have : 1 < v / n ^ 2 := by
        rw [e] at h2
        by_contra hc
        push Not at hc
        nlinarith
      rw [if_pos h2, if_pos this, mul_one]
    · have : ¬ 1 < v / n ^ 2 := by
        intro hc
        apply h2
        rw [e]
        nlinarith
      rw [if_neg h2, if_neg this, e]

/-- the parameter of the projection. -/
theorem project_eq (l : Line D) (p : Fin D → ℝ) (h : 0 < dot l.direction l.direction) :
    l.project p = l.interp (clamp (dot (fun i => p i - l.start i) l.direction / dot l.direction l.direction) 0 1) := by
  have hs : norm l.direction ^ 2 = dot l.direction l.direction := Real.sq_sqrt h.le
  have hn : 0 < norm l.direction := Real.sqrt_pos.2 h
  have hd : dot (fun i => p i - l.start i) (normalize l.direction) =
      dot (fun i => p i - l.start i) l.direction / norm l.direction := by
    unfold normalize
    rw [if_pos h]
    unfold dot
    rw [div_eq_mul_inv, Finset.sum_mul]
    exact Finset.sum_congr rfl fun i _ => by ring
  funext i
  unfold project interp
  rw [hd, clamp_mul _ _ hn, hs]
  have hnd : normalize l.direction i = l.direction i / norm l.direction := by unfold normalize; rw [if_pos h]
  rw [hnd]
  generalize clamp _ 0 1 = t
  field_simp
  ring

theorem clamp_range (v : ℝ) : 0 ≤ clamp v 0 1 ∧ clamp v 0 1 ≤ 1 := by
  unfold clamp
  split
  · exact ⟨le_rfl, zero_le_one⟩
  · split
    · exact ⟨zero_le_one, le_rfl⟩
    · exact ⟨by linarith, by linarith⟩

/-- squared distance along the line. -/
theorem sq_dist_interp (l : Line D) (p : Fin D → ℝ) (t : ℝ) : ∑ i, (p i - l.interp t i) ^ 2 =
    ∑ i, (p i - l.start i) ^ 2 - 2 * t * dot (fun i => p i - l.start i) l.direction + t ^ 2 * dot l.direction l.direction := by
  unfold dot interp
  rw [Finset.mul_sum, Finset.mul_sum, ← Finset.sum_sub_distrib, ← Finset.sum_add_distrib]
  exact Finset.sum_congr rfl fun i _ => by ring

theorem best (u n t s : ℝ) (hn : 0 < n) (ht : t = clamp (u / n) 0 1) (hs0 : 0 ≤ s) (hs1 : s ≤ 1) :
    - 2 * t * u + t ^ 2 * n ≤ - 2 * s * u + s ^ 2 * n := by
  have hu : u = n * (u / n) := by field_simp
  set w := u / n with hw
  rw [hu]
  have key : t ^ 2 - 2 * t * w ≤ s ^ 2 - 2 * s * w := by
    rw [ht]
    unfold clamp
    split
    · rename_i h; nlinarith
    · split
      · rename_i h; nlinarith
      · nlinarith [sq_nonneg (s - w)]
  nlinarith

/-- **C81.** `project(p)` is a point of the segment and no point of the segment is closer to `p`; `distance(p)` is the
distance to it. This includes degenerate segments. -/
theorem C81_project_nearest (l : Line D) (p : Fin D → ℝ) :
    l.OnSegment (l.project p) ∧ (∀ q, l.OnSegment q → dist p (l.project p) ≤ dist p q) ∧
    l.distance p = dist p (l.project p) := by
  have hdist : l.distance p = dist p (l.project p) := by
    unfold distance norm dist dot
    congr 1
    exact Finset.sum_congr rfl fun i _ => by ring
  have hseg : ∀ t, l.interp t = fun i => (1 - t) * l.start i + t * l.stop i := by
    intro t; funext i; unfold interp direction; ring
  rcases (dot_self_nonneg l.direction).eq_or_lt with h | h
  · have hz : ∀ i, l.direction i = 0 := by
      intro i
      have := (Finset.sum_eq_zero_iff_of_nonneg (fun i _ => mul_self_nonneg (l.direction i))).1 h.symm i (Finset.mem_univ i)
      exact mul_self_eq_zero.1 this
    have hp : l.project p = l.start := by
      funext i
      unfold project normalize
      rw [if_neg (by rw [← h]; exact lt_irrefl _), hz i, mul_zero, zero_add]
    refine ⟨⟨0, le_rfl, zero_le_one, fun i => by rw [hp]; ring⟩, ?_, hdist⟩
    rintro q ⟨t, _, _, hq⟩
    have : q = l.start := by
      funext i
      rw [hq i]
      have := hz i
      unfold direction at this
      have e : l.stop i = l.start i := by linarith
      rw [e]; ring
    rw [hp, this]
  · rw [hdist, project_eq l p h]
    refine ⟨⟨_, (clamp_range _).1, (clamp_range _).2, fun i => by rw [hseg]⟩, ?_, rfl⟩
    rintro q ⟨s, hs0, hs1, hq⟩
    have hq' : q = l.interp s := by rw [hseg]; funext i; exact hq i
    rw [hq']
    unfold dist
    apply Real.sqrt_le_sqrt
    rw [sq_dist_interp, sq_dist_interp]
    have := best (dot (fun i => p i - l.start i) l.direction) _ _ s h rfl hs0 hs1
    linarith

/-- **C81.** `interp` runs from the start to the end of the segment, and the operators on lines act point by point. -/
theorem C81_interp (l : Line D) (t : ℝ) :
    l.interp 0 = l.start ∧ l.interp 1 = l.stop ∧ (0 ≤ t → t ≤ 1 → l.OnSegment (l.interp t)) ∧
    (∀ T i, (l.translate T).interp t i = l.interp t i + T i) ∧ (∀ s i, (scale s l).interp t i = s * l.interp t i) ∧
    (∀ s i, (l.divide s).interp t i = l.interp t i / s) ∧ (∀ p i, (l.cwiseProduct p).interp t i = p i * l.interp t i) ∧
    (∀ p i, (l.cwiseQuotient p).interp t i = l.interp t i / p i) := by
  refine ⟨?_, ?_, fun h0 h1 => ⟨t, h0, h1, fun i => ?_⟩, ?_, ?_, ?_, ?_, ?_⟩
  · funext i; unfold interp; ring
  · funext i; unfold interp direction; ring
  · unfold interp direction; ring
  · intro T i; unfold translate interp direction; ring
  · intro s i; unfold scale interp direction; ring
  · intro s i; unfold divide interp direction; ring
  · intro p i; unfold cwiseProduct interp direction; ring
  · intro p i; unfold cwiseQuotient interp direction; ring

/-- **C81.** `length()` is the distance of the end points. -/
theorem C81_length (l : Line D) : l.length = dist l.start l.stop := by
  unfold length norm dist dot direction
  congr 1
  exact Finset.sum_congr rfl fun i _ => by ring

/-- projecting `(1, 3)` on the segment from `(0,0)` to `(2,0)`. -/
example : (Line.mk ![0, 0] ![2, 0]).project ![1, 3] = ![1, 0] := by
  rw [project_eq _ _ (by simp [dot, direction, Fin.sum_univ_two])]
  funext i
  simp only [dot, direction, Fin.sum_univ_two, interp, clamp]
  match i with
  | 0 => norm_num
  | 1 => norm_num

end Line
end Mandoline
