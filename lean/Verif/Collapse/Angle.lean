import Verif.Collapse.FaceWalk
import Mathlib.Tactic.Linarith
import Mathlib.Tactic.Positivity
import Mathlib.Algebra.Order.Field.Rat
import Mathlib.Tactic.Ring

/-!
# C67: neighbours are sorted counter-clockwise

Transcription of the comparison of include/mandoline/construction/face_collapser.hpp:129-147. `std::signbit` is
modelled by `< 0` (no negative zero in ℚ).
-/
namespace Mandoline

/-- a 2D direction. -/
abbrev Dir := ℚ × ℚ

/-- `__quadrants[2*signbit(y)+signbit(x)]` with `__quadrants = {4,1,3,2}` (face_collapser.hpp:130-135). -/
def quadrant (d : Dir) : ℕ :=
  if d.2 < 0 then (if d.1 < 0 then 2 else 3) else (if d.1 < 0 then 1 else 4)

/-- `comp` (face_collapser.hpp:137-147). -/
def angleLt (a b : Dir) : Bool :=
  if quadrant a = quadrant b then decide (b.1 * a.2 < a.1 * b.2) else decide (quadrant a < quadrant b)

/-! ## specification -/

/-- `a.x b.y - a.y b.x`. -/
def cross2 (a b : Dir) : ℚ := a.1 * b.2 - a.2 * b.1

/-- `a.x b.x + a.y b.y`. -/
def dot2 (a b : Dir) : ℚ := a.1 * b.1 + a.2 * b.2

/-- `a` and `b` point in the same direction. -/
def SameDir (a b : Dir) : Prop := cross2 a b = 0 ∧ 0 < dot2 a b

/-- turning counter-clockwise from `u` one meets `v` strictly before `w`, and strictly after leaving `u`. Stated by
cases on the angle from `u` to `w`: less than a half turn (`v` is strictly inside the convex cone), exactly a half turn,
more than a half turn (`v` is not in the closed convex cone from `w` to `u`), a full turn. -/
def InSector (u v w : Dir) : Prop :=
  (0 < cross2 u w ∧ 0 < cross2 u v ∧ 0 < cross2 v w) ∨
  (cross2 u w = 0 ∧ dot2 u w < 0 ∧ 0 < cross2 u v) ∨
  (cross2 u w < 0 ∧ ¬ (0 ≤ cross2 w v ∧ 0 ≤ cross2 v u)) ∨
  (SameDir u w ∧ ¬ SameDir u v)

/-! ## scaling -/

/-- `c • d`. -/
def sc (c : ℚ) (d : Dir) : Dir := (c * d.1, c * d.2)

/-- representatives of the directions: the two vertical unit vectors and the vectors with first coordinate `±1`. -/
inductive NF : Dir → Prop
  | left (t : ℚ) : NF (-1, t)
  | right (t : ℚ) : NF (1, t)
  | up : NF (0, 1)
  | down : NF (0, -1)

theorem exists_nf (d : Dir) (hd : d ≠ 0) : ∃ c n, 0 < c ∧ NF n ∧ d = sc c n := by
  obtain ⟨x, y⟩ := d
  rcases lt_trichotomy x 0 with hx | hx | hx
  · refine ⟨-x, (-1, y / (-x)), by linarith, .left _, ?_⟩
    refine Prod.ext (by simp [sc]) ?_
    simp only [sc]
    rw [mul_div_cancel₀ y (by linarith : -x ≠ 0)]
  · subst hx
    rcases lt_trichotomy y 0 with hy | hy | hy
    · exact ⟨-y, (0, -1), by linarith, .down, Prod.ext (by simp [sc]) (by simp [sc])⟩
    · subst hy; exact absurd rfl hd
    · exact ⟨y, (0, 1), hy, .up, Prod.ext (by simp [sc]) (by simp [sc])⟩
  · refine ⟨x, (1, y / x), hx, .right _, ?_⟩
    refine Prod.ext (by simp [sc]) ?_
    simp only [sc]
    rw [mul_div_cancel₀ y (by linarith : x ≠ 0)]

theorem cross2_sc (c d : ℚ) (a b : Dir) : cross2 (sc c a) (sc d b) = (c * d) * cross2 a b := by
  unfold cross2 sc; ring

theorem dot2_sc (c d : ℚ) (a b : Dir) : dot2 (sc c a) (sc d b) = (c * d) * dot2 a b := by
  unfold dot2 sc; ring

theorem sgn_pos {k x : ℚ} (hk : 0 < k) : 0 < k * x ↔ 0 < x := mul_pos_iff_of_pos_left hk
theorem sgn_neg {k x : ℚ} (hk : 0 < k) : k * x < 0 ↔ x < 0 := by
  constructor
  · intro h; by_contra hx; push Not at hx; have := mul_nonneg hk.le hx; linarith
  · intro h; exact mul_neg_of_pos_of_neg hk h
theorem sgn_nonneg {k x : ℚ} (hk : 0 < k) : 0 ≤ k * x ↔ 0 ≤ x := by
  rw [← not_lt, ← not_lt, sgn_neg hk]
theorem sgn_zero {k x : ℚ} (hk : 0 < k) : k * x = 0 ↔ x = 0 := by
  rw [mul_eq_zero]; exact ⟨fun h => h.resolve_left hk.ne', .inr⟩

theorem sameDir_sc {c d : ℚ} (hc : 0 < c) (hd : 0 < d) (a b : Dir) : SameDir (sc c a) (sc d b) ↔ SameDir a b := by
  unfold SameDir
  rw [cross2_sc, dot2_sc, sgn_zero (mul_pos hc hd), sgn_pos (mul_pos hc hd)]

theorem inSector_sc {c d e : ℚ} (hc : 0 < c) (hd : 0 < d) (he : 0 < e) (u v w : Dir) :
    InSector (sc c u) (sc d v) (sc e w) ↔ InSector u v w := by
  unfold InSector
  rw [sameDir_sc hc he, sameDir_sc hc hd]
  simp only [cross2_sc, dot2_sc]
  rw [sgn_pos (mul_pos hc he), sgn_pos (mul_pos hc hd), sgn_pos (mul_pos hd he), sgn_zero (mul_pos hc he),
    sgn_neg (mul_pos hc he), sgn_neg (mul_pos hc he), sgn_nonneg (mul_pos he hd), sgn_nonneg (mul_pos hd hc)]

theorem quadrant_sc {c : ℚ} (hc : 0 < c) (a : Dir) : quadrant (sc c a) = quadrant a := by
  unfold quadrant sc
  simp only [sgn_neg hc]

theorem angleLt_sc {c d : ℚ} (hc : 0 < c) (hd : 0 < d) (a b : Dir) : angleLt (sc c a) (sc d b) = angleLt a b := by
  unfold angleLt
  rw [quadrant_sc hc, quadrant_sc hd]
  split
  · rw [decide_eq_decide]
    have h1 : (sc d b).1 * (sc c a).2 = (c * d) * (b.1 * a.2) := by simp only [sc]; ring
    have h2 : (sc c a).1 * (sc d b).2 = (c * d) * (a.1 * b.2) := by simp only [sc]; ring
    rw [h1, h2]
    exact mul_lt_mul_iff_right₀ (mul_pos hc hd)
  · rfl

theorem alt_LL (s t : ℚ) : angleLt (-1, s) (-1, t) = true ↔ t < s := by
  unfold angleLt quadrant; simp only
  by_cases hs : s < 0 <;> by_cases ht : t < 0 <;> simp [hs, ht] <;> linarith
theorem alt_LR (s t : ℚ) : angleLt (-1, s) (1, t) = true := by
  unfold angleLt quadrant; simp only
  by_cases hs : s < 0 <;> by_cases ht : t < 0 <;> simp [hs, ht] <;> norm_num
theorem alt_LU (s : ℚ) : angleLt (-1, s) (0, 1) = true := by
  unfold angleLt quadrant; simp only
  by_cases hs : s < 0 <;> simp [hs] <;> norm_num
theorem alt_LD (s : ℚ) : angleLt (-1, s) (0, -1) = true := by
  unfold angleLt quadrant; simp only
  by_cases hs : s < 0 <;> simp [hs]
theorem alt_RL (s t : ℚ) : angleLt (1, s) (-1, t) = false := by
  unfold angleLt quadrant; simp only
  by_cases hs : s < 0 <;> by_cases ht : t < 0 <;> simp [hs, ht] <;> norm_num
theorem alt_RR (s t : ℚ) : angleLt (1, s) (1, t) = true ↔ s < t := by
  unfold angleLt quadrant; simp only
  have h1 : ¬ (1 : ℚ) < 0 := by norm_num
  by_cases hs : s < 0 <;> by_cases ht : t < 0 <;> simp [hs, ht, h1] <;> linarith
theorem alt_RU (s : ℚ) : angleLt (1, s) (0, 1) = true := by
  unfold angleLt quadrant; simp only
  have h1 : ¬ (1 : ℚ) < 0 := by norm_num
  by_cases hs : s < 0 <;> simp [hs, h1]
theorem alt_RD (s : ℚ) : angleLt (1, s) (0, -1) = false := by
  unfold angleLt quadrant; simp only
  have h1 : ¬ (1 : ℚ) < 0 := by norm_num
  by_cases hs : s < 0 <;> simp [hs, h1]
theorem alt_UL (t : ℚ) : angleLt (0, 1) (-1, t) = false := by
  unfold angleLt quadrant; simp only
  have h1 : ¬ (1 : ℚ) < 0 := by norm_num
  by_cases ht : t < 0 <;> simp [ht, h1]
theorem alt_UR (t : ℚ) : angleLt (0, 1) (1, t) = false := by
  unfold angleLt quadrant; simp only
  have h1 : ¬ (1 : ℚ) < 0 := by norm_num
  by_cases ht : t < 0 <;> simp [ht, h1]
theorem alt_UU : angleLt (0, 1) (0, 1) = false := by decide +kernel
theorem alt_UD : angleLt (0, 1) (0, -1) = false := by decide +kernel
theorem alt_DL (t : ℚ) : angleLt (0, -1) (-1, t) = false := by
  unfold angleLt quadrant; simp only
  by_cases ht : t < 0 <;> simp [ht]
theorem alt_DR (t : ℚ) : angleLt (0, -1) (1, t) = true := by
  unfold angleLt quadrant; simp only
  have h1 : ¬ (1 : ℚ) < 0 := by norm_num
  by_cases ht : t < 0 <;> simp [ht, h1]
theorem alt_DU : angleLt (0, -1) (0, 1) = true := by decide +kernel
theorem alt_DD : angleLt (0, -1) (0, -1) = false := by decide +kernel

theorem nf_sameDir {a b : Dir} (ha : NF a) (hb : NF b) : SameDir a b ↔ a = b := by
  unfold SameDir cross2 dot2
  cases ha with
  | left s =>
    cases hb with
    | left t =>
      simp only [Prod.mk.injEq]
      constructor
      · rintro ⟨h1, _⟩; exact ⟨trivial, by linarith⟩
      · rintro ⟨_, rfl⟩; constructor <;> nlinarith [sq_nonneg s]
    | right t =>
      simp only [Prod.mk.injEq]
      constructor
      · rintro ⟨h1, h2⟩
        have : t = -s := by linarith
        subst this; nlinarith [sq_nonneg s]
      · rintro ⟨h, _⟩; norm_num at h
    | up => simp
    | down => simp
  | right s =>
    cases hb with
    | left t =>
      simp only [Prod.mk.injEq]
      constructor
      · rintro ⟨h1, h2⟩
        have : t = -s := by linarith
        subst this; nlinarith [sq_nonneg s]
      · rintro ⟨h, _⟩; norm_num at h
    | right t =>
      simp only [Prod.mk.injEq]
      constructor
      · rintro ⟨h1, _⟩; exact ⟨trivial, by linarith⟩
      · rintro ⟨_, rfl⟩; constructor <;> nlinarith [sq_nonneg s]
    | up => simp
    | down => simp
  | up => cases hb <;> norm_num
  | down => cases hb <;> norm_num

theorem nf_opposite {a b : Dir} (ha : NF a) (hb : NF b) : (cross2 a b = 0 ∧ dot2 a b < 0) ↔ b = -a := by
  unfold cross2 dot2
  cases ha with
  | left s =>
    cases hb with
    | left t =>
      simp only [Prod.neg_mk, Prod.mk.injEq]
      constructor
      · rintro ⟨h1, h2⟩
        have : t = s := by linarith
        subst this; nlinarith [sq_nonneg t]
      · rintro ⟨h, _⟩; norm_num at h
    | right t =>
      simp only [Prod.neg_mk, Prod.mk.injEq]
      constructor
      · rintro ⟨h1, _⟩; exact ⟨by norm_num, by linarith⟩
      · rintro ⟨_, rfl⟩; constructor <;> nlinarith [sq_nonneg s]
    | up => simp
    | down => simp
  | right s =>
    cases hb with
    | left t =>
      simp only [Prod.neg_mk, Prod.mk.injEq]
      constructor
      · rintro ⟨h1, _⟩; exact ⟨by norm_num, by linarith⟩
      · rintro ⟨_, rfl⟩; constructor <;> nlinarith [sq_nonneg s]
    | right t =>
      simp only [Prod.neg_mk, Prod.mk.injEq]
      constructor
      · rintro ⟨h1, h2⟩
        have : t = s := by linarith
        subst this; nlinarith [sq_nonneg t]
      · rintro ⟨h, _⟩; norm_num at h
    | up => simp
    | down => simp
  | up => cases hb <;> norm_num
  | down => cases hb <;> norm_num

theorem inSector_nf {u v w : Dir} (hu : NF u) (hv : NF v) (hw : NF w) : InSector u v w ↔
    (0 < cross2 u w ∧ 0 < cross2 u v ∧ 0 < cross2 v w) ∨ (w = -u ∧ 0 < cross2 u v) ∨
    (cross2 u w < 0 ∧ ¬ (0 ≤ cross2 w v ∧ 0 ≤ cross2 v u)) ∨ (u = w ∧ u ≠ v) := by
  unfold InSector
  rw [nf_sameDir hu hw, nf_sameDir hu hv, ← nf_opposite hu hw, and_assoc]

/-- cyclically ordered directions: nothing strictly between the consecutive ones. -/
theorem nf_sector {u v w : Dir} (hu : NF u) (hv : NF v) (hw : NF w)
    (h : (angleLt u w = true ∧ angleLt w v = true) ∨ (angleLt v u = true ∧ angleLt u w = true) ∨
      (angleLt w v = true ∧ angleLt v u = true)) : ¬ InSector u v w := by
  rw [inSector_nf hu hv hw]
  unfold cross2
  cases hu <;> cases hv <;> cases hw <;>
    simp only [alt_LL, alt_LR, alt_LU, alt_LD, alt_RL, alt_RR, alt_RU, alt_RD, alt_UL, alt_UR, alt_UU, alt_UD, alt_DL,
      alt_DR, alt_DU, alt_DD, and_true, true_and, or_false, false_or, false_and,
      and_false, Bool.false_eq_true, or_self] at h
  all_goals (try casesm* _ ∨ _, _ ∧ _)
  all_goals
    rintro (⟨a, b, c⟩ | ⟨a, b⟩ | ⟨a, b⟩ | ⟨a, b⟩)
  all_goals
    first
      | linarith
      | (apply b; constructor <;> linarith)
      | (rw [Prod.ext_iff] at a
         obtain ⟨a1, a2⟩ := a
         simp only [Prod.fst_neg, Prod.snd_neg] at a1 a2
         linarith)

/-- **C67.** On nonzero directions the comparison is a strict weak ordering (as `std::sort` requires) whose ties are the
equal directions. -/
theorem C67_strict_weak_order :
    (∀ a : Dir, angleLt a a = false) ∧
    (∀ a b c : Dir, a ≠ 0 → b ≠ 0 → c ≠ 0 → angleLt a b = true → angleLt b c = true → angleLt a c = true) ∧
    (∀ a b : Dir, a ≠ 0 → b ≠ 0 → ((angleLt a b = false ∧ angleLt b a = false) ↔ SameDir a b)) ∧
    (∀ a b c : Dir, a ≠ 0 → b ≠ 0 → c ≠ 0 → SameDir a b → SameDir b c → SameDir a c) := by
  refine ⟨?_, ?_, ?_, ?_⟩
  · intro a; unfold angleLt; rw [if_pos rfl, decide_eq_false_iff_not]; rw [mul_comm]; exact lt_irrefl _
  · intro a b c ha hb hc
    obtain ⟨k, a, hk, na, rfl⟩ := exists_nf a ha
    obtain ⟨l, b, hl, nb, rfl⟩ := exists_nf b hb
    obtain ⟨m, c, hm, nc, rfl⟩ := exists_nf c hc
    rw [angleLt_sc hk hl, angleLt_sc hl hm, angleLt_sc hk hm]
    cases na <;> cases nb <;> cases nc <;>
      simp only [alt_LL, alt_LR, alt_LU, alt_LD, alt_RL, alt_RR, alt_RU, alt_RD, alt_UL, alt_UR, alt_UU, alt_UD, alt_DL,
        alt_DR, alt_DU, alt_DD, Bool.false_eq_true, IsEmpty.forall_iff, implies_true] <;> intro h1 h2 <;> linarith
  · intro a b ha hb
    obtain ⟨k, a, hk, na, rfl⟩ := exists_nf a ha
    obtain ⟨l, b, hl, nb, rfl⟩ := exists_nf b hb
    rw [angleLt_sc hk hl, angleLt_sc hl hk, sameDir_sc hk hl, nf_sameDir na nb, ← Bool.not_eq_true, ← Bool.not_eq_true]
    cases na <;> cases nb <;>
      simp only [alt_LL, alt_LR, alt_LU, alt_LD, alt_RL, alt_RR, alt_RU, alt_RD, alt_UL, alt_UR, alt_UU, alt_UD, alt_DL,
        alt_DR, alt_DU, alt_DD, Prod.mk.injEq, not_lt, true_and, Bool.false_eq_true, not_true_eq_false, not_false_eq_true,
        false_and, and_false, and_true]
    case left.left => exact ⟨fun h => le_antisymm h.1 h.2, fun h => ⟨h.le, h.ge⟩⟩
    case right.right => exact ⟨fun h => le_antisymm h.2 h.1, fun h => ⟨h.ge, h.le⟩⟩
    all_goals norm_num
  · intro a b c ha hb hc
    obtain ⟨k, a, hk, na, rfl⟩ := exists_nf a ha
    obtain ⟨l, b, hl, nb, rfl⟩ := exists_nf b hb
    obtain ⟨m, c, hm, nc, rfl⟩ := exists_nf c hc
    rw [sameDir_sc hk hl, sameDir_sc hl hm, sameDir_sc hk hm, nf_sameDir na nb, nf_sameDir nb nc, nf_sameDir na nc]
    exact fun h1 h2 => h1.trans h2

theorem not_inSector_left {u w : Dir} (hu : u ≠ 0) : ¬ InSector u u w := by
  have h0 : cross2 u u = 0 := by unfold cross2; ring
  have hd : 0 < dot2 u u := by
    unfold dot2
    have : u.1 ≠ 0 ∨ u.2 ≠ 0 := by
      by_contra h; push Not at h; exact hu (Prod.ext h.1 h.2)
    rcases this with h | h
    · have := mul_self_pos.2 h; nlinarith [mul_self_nonneg u.2]
    · have := mul_self_pos.2 h; nlinarith [mul_self_nonneg u.1]
  rintro (⟨_, b, _⟩ | ⟨_, _, b⟩ | ⟨a, b⟩ | ⟨_, b⟩)
  · linarith
  · linarith
  · refine b ⟨?_, h0.ge⟩
    have : cross2 w u = - cross2 u w := by unfold cross2; ring
    linarith
  · exact b ⟨h0, hd⟩

theorem not_inSector_right {u w : Dir} (hw : w ≠ 0) : ¬ InSector u w w := by
  have h0 : cross2 w w = 0 := by unfold cross2; ring
  rintro (⟨_, _, b⟩ | ⟨a, _, b⟩ | ⟨a, b⟩ | ⟨a, b⟩)
  · linarith
  · linarith
  · refine b ⟨h0.ge, ?_⟩
    have : cross2 w u = - cross2 u w := by unfold cross2; ring
    linarith
  · exact b a

/-- three directions in cyclic order. -/
theorem sector_of_cyclic {u v w : Dir} (hu : u ≠ 0) (hv : v ≠ 0) (hw : w ≠ 0)
    (h : (angleLt u w = true ∧ angleLt w v = true) ∨ (angleLt v u = true ∧ angleLt u w = true) ∨
      (angleLt w v = true ∧ angleLt v u = true)) : ¬ InSector u v w := by
  obtain ⟨k, a, hk, na, rfl⟩ := exists_nf u hu
  obtain ⟨l, b, hl, nb, rfl⟩ := exists_nf v hv
  obtain ⟨m, c, hm, nc, rfl⟩ := exists_nf w hw
  rw [inSector_sc hk hl hm]
  rw [angleLt_sc hk hm, angleLt_sc hm hl, angleLt_sc hl hk] at h
  exact nf_sector na nb nc h

/-- **C67.** In a list of pairwise different nonzero directions sorted by the comparison, turning counter-clockwise from an
element to its cyclic successor one meets no other element. -/
theorem C67_sorted_is_ccw (l : List Dir) (hnz : ∀ d ∈ l, d ≠ 0) (hsort : l.Pairwise fun a b => angleLt b a = false)
    (hdist : l.Pairwise fun a b => ¬ SameDir a b) (i : ℕ) (hi : i < l.length) (v : Dir) (hv : v ∈ l) :
    ¬ InSector l[i] v (l[(i + 1) % l.length]'(Nat.mod_lt _ (by omega))) := by
  obtain ⟨_, _, htie, _⟩ := C67_strict_weak_order
  have hlt : ∀ (i j : ℕ) (hi : i < l.length) (hj : j < l.length), i < j → angleLt l[i] l[j] = true := by
    intro i j hi hj hij
    have h1 := List.pairwise_iff_getElem.1 hsort i j hi hj hij
    have h2 := List.pairwise_iff_getElem.1 hdist i j hi hj hij
    by_contra hn
    rw [Bool.not_eq_true] at hn
    exact h2 ((htie _ _ (hnz _ (List.getElem_mem hi)) (hnz _ (List.getElem_mem hj))).1 ⟨hn, h1⟩)
  obtain ⟨j, hj, rfl⟩ := List.mem_iff_getElem.1 hv
  have nz : ∀ (k : ℕ) (hk : k < l.length), l[k] ≠ 0 := fun k hk => hnz _ (List.getElem_mem hk)
  have hk : (i + 1) % l.length < l.length := Nat.mod_lt _ (by omega)
  by_cases hji : j = i
  · subst hji; exact not_inSector_left (nz _ _)
  by_cases hjk : j = (i + 1) % l.length
  · have : l[j] = l[(i + 1) % l.length] := by congr 1
    rw [this]; exact not_inSector_right (nz _ _)
  refine sector_of_cyclic (nz _ _) (nz _ _) (nz _ _) ?_
  by_cases hlast : i + 1 < l.length
  · have e : (i + 1) % l.length = i + 1 := Nat.mod_eq_of_lt hlast
    simp only [e] at hjk ⊢
    by_cases hlt' : j < i
    · exact .inr (.inl ⟨hlt j i hj hi hlt', hlt i (i + 1) hi hlast (by omega)⟩)
    · exact .inl ⟨hlt i (i + 1) hi hlast (by omega), hlt (i + 1) j hlast hj (by omega)⟩
  · have e : (i + 1) % l.length = 0 := by
      have : i + 1 = l.length := by omega
      rw [this]; exact Nat.mod_self _
    simp only [e] at hjk ⊢
    exact .inr (.inr ⟨hlt 0 j (by omega) hj (by omega), hlt j i hj hi (by omega)⟩)

/-- directions of the neighbours of `a` (face_collapser.hpp:124-128). -/
def dirTo (V : ℤ → Dir) (a b : ℤ) : Dir := (V b).1 - (V a).1 |> fun x => (x, (V b).2 - (V a).2)

/-- **C67, in the collapser.** If at each vertex the neighbours lie in different directions and `std::sort` returned them
sorted, then after the edge `u → a` the loop continues with the edge `a → w` that is first when turning clockwise from
`u`: no neighbour lies strictly between `w` and `u` counter-clockwise, so the loop keeps its face on the left. -/
theorem C67_loop_turns_left (s : FaceCollapser) (h : s.Ok) (hdeg : s.deg = []) (V : ℤ → Dir) (ord : ℤ → List ℤ)
    (hord : ∀ a, (ord a).Perm (s.ring a))
    (hsort : ∀ a, (ord a).Pairwise fun b c => angleLt (dirTo V a c) (dirTo V a b) = false)
    (hnz : ∀ a b, (a, b) ∈ s.edgeList → dirTo V a b ≠ 0)
    (hdist : ∀ a b c, (a, b) ∈ s.edgeList → (a, c) ∈ s.edgeList → b ≠ c → ¬ SameDir (dirTo V a b) (dirTo V a c))
    (u a : ℤ) (he : (u, a) ∈ s.edgeList) (b : ℤ) (hb : (a, b) ∈ s.edgeList) :
    ((s.unify ord).next (u, a)).1 = a ∧
    ¬ InSector (dirTo V a ((s.unify ord).next (u, a)).2) (dirTo V a b) (dirTo V a u) := by
  obtain ⟨h1, h2, h3, h4⟩ := FaceCollapser.C35_next_bijective s h hdeg ord hord
  have hmem : ∀ c, c ∈ ord a ↔ (a, c) ∈ s.edgeList := fun c => by rw [(hord a).mem_iff, FaceCollapser.mem_ring]
  have hu : u ∈ ord a := (hmem u).2 (h.symm _ _ he)
  obtain ⟨k, hk, hku⟩ := List.mem_iff_getElem.1 hu
  -- the preceding index
  obtain ⟨i, hi, hik⟩ : ∃ i, ∃ _ : i < (ord a).length, (i + 1) % (ord a).length = k := by
    by_cases hk0 : k = 0
    · refine ⟨(ord a).length - 1, by omega, ?_⟩
      rw [Nat.sub_add_cancel (by omega), Nat.mod_self]; exact hk0.symm
    · exact ⟨k - 1, by omega, by rw [Nat.sub_add_cancel (by omega)]; exact Nat.mod_eq_of_lt hk⟩
  have hnext := h4 a i hi
  have hget : (ord a)[(i + 1) % (ord a).length]'(Nat.mod_lt _ (by omega)) = u := by
    rw [← hku]; congr 1
  rw [hget] at hnext
  rw [hnext]
  refine ⟨rfl, ?_⟩
  have key := C67_sorted_is_ccw ((ord a).map (dirTo V a)) ?_ ?_ ?_ i (by simpa using hi) (dirTo V a b)
    (List.mem_map.2 ⟨b, (hmem b).2 hb, rfl⟩)
  · simp only [List.getElem_map, List.length_map] at key
    rw [hget] at key
    exact key
  · intro d hd
    obtain ⟨c, hc, rfl⟩ := List.mem_map.1 hd
    exact hnz a c ((hmem c).1 hc)
  · rw [List.pairwise_map]; exact hsort a
  · rw [List.pairwise_map]
    have hnd : (ord a).Nodup := (hord a).nodup_iff.2 (FaceCollapser.ring_nodup h.sorted a)
    refine List.Pairwise.imp_of_mem ?_ hnd
    intro x y hx hy hxy
    exact hdist a x y ((hmem x).1 hx) ((hmem y).1 hy) hxy

/-- the demo graph with its vertices at (0,0), (1,0), (0,1), (1,1) meets the hypotheses. -/
example : (∀ a ∈ [0, 1, 2, 3], (FaceCollapser.demoOrd a).Pairwise fun b c =>
    angleLt (dirTo (fun v => if v = 1 then (1, 0) else if v = 2 then (0, 1) else if v = 3 then (1, 1) else (0, 0)) a c)
      (dirTo (fun v => if v = 1 then (1, 0) else if v = 2 then (0, 1) else if v = 3 then (1, 1) else (0, 0)) a b)
      = false) := by decide +kernel

end Mandoline
