import Verif.Cell.Wedge
import Mathlib.Tactic.LinearCombination

/-! # Sectors and cones in the plane -/
namespace Mandoline

theorem cross2_anti (a b : Dir) : cross2 a b = - cross2 b a := by unfold cross2; ring

theorem cross2_basis (x u r w : Dir) : cross2 x w * cross2 u r = cross2 x u * cross2 w r + cross2 x r * cross2 u w := by
  unfold cross2; ring

theorem dir_zero {u : Dir} (h : dot2 u u = 0) : u = 0 := by
  unfold dot2 at h
  have h1 := mul_self_nonneg u.1
  have h2 := mul_self_nonneg u.2
  have e1 : u.1 = 0 := mul_self_eq_zero.1 (by linarith)
  have e2 : u.2 = 0 := mul_self_eq_zero.1 (by linarith)
  exact Prod.ext e1 e2

theorem dot2_pos {u : Dir} (h : u ≠ 0) : 0 < dot2 u u := by
  have h1 : 0 ≤ dot2 u u := by
    unfold dot2; linarith [mul_self_nonneg u.1, mul_self_nonneg u.2]
  rcases h1.lt_or_eq with h' | h'
  · exact h'
  · exact absurd (dir_zero h'.symm) h

/-- along a line: if `a`, `b` are parallel then `x × b` is `x × a` times a factor with the sign of `a · b`. -/
theorem cross2_parallel {a b : Dir} (h : cross2 a b = 0) (x : Dir) : cross2 x b * dot2 a a = cross2 x a * dot2 a b := by
  unfold cross2 dot2 at *
  linear_combination (x.1 * a.1 + x.2 * a.2) * h

theorem cross2_parallel' {a b : Dir} (h : cross2 a b = 0) (x : Dir) : dot2 x b * dot2 a a = dot2 x a * dot2 a b := by
  unfold cross2 dot2 at *
  linear_combination (x.2 * a.1 - x.1 * a.2) * h

theorem parallel_cases {a b : Dir} (ha : a ≠ 0) (hb : b ≠ 0) (h : cross2 a b = 0) : 0 < dot2 a b ∨ dot2 a b < 0 := by
  rcases lt_trichotomy (dot2 a b) 0 with h' | h' | h'
  · exact .inr h'
  · exfalso
    have := cross2_parallel' h b
    rw [h', mul_zero] at this
    rcases mul_eq_zero.1 this with h1 | h1
    · exact hb (dir_zero h1)
    · exact ha (dir_zero h1)
  · exact .inl h'

theorem dot2_comm (a b : Dir) : dot2 a b = dot2 b a := by unfold dot2; ring

/-- a proper cone: the angle from `a` to `b`, counter-clockwise, is positive and at most a half turn. -/
def ConeDirs (a b : Dir) : Prop := 0 < cross2 a b ∨ (cross2 a b = 0 ∧ dot2 a b < 0)

theorem ConeDirs.ne {a b : Dir} (h : ConeDirs a b) : a ≠ 0 ∧ b ≠ 0 := by
  constructor
  · rintro rfl; rcases h with h | h <;> simp [cross2, dot2] at h
  · rintro rfl; rcases h with h | h <;> simp [cross2, dot2] at h

/-- `u` is in the cone from `a` to `b` but not along `b`, and turning counter-clockwise from `u` one does not meet `b` before `w`: then
`w` is in the cone, but not along `a`. -/
theorem cone_ccw {a b u w : Dir} (hr : ConeDirs a b) (h1 : 0 ≤ cross2 a u) (h2 : 0 ≤ cross2 u b) (hu : u ≠ 0) (hw : w ≠ 0)
    (hn : ¬ SameDir u b) (hs : ¬ InSector u b w) : 0 ≤ cross2 a w ∧ 0 ≤ cross2 w b ∧ ¬ SameDir w a := by
  obtain ⟨ha0, hb0⟩ := hr.ne
  unfold InSector at hs
  push Not at hs
  obtain ⟨s1, s2, s3, s4⟩ := hs
  have s4 : ¬ SameDir u w := fun h => hn (s4 h)
  have haa := dot2_pos ha0
  -- parallel case: `u` is along `a`, and `b` opposite
  have hpar : cross2 u b = 0 → cross2 a b = 0 ∧ dot2 a b < 0 ∧ cross2 a u = 0 ∧ 0 < dot2 a u := by
    intro h0
    have hneg : dot2 u b < 0 := by
      rcases parallel_cases hu hb0 h0 with h | h
      · exact absurd ⟨h0, h⟩ hn
      · exact h
    rcases hr with hr | ⟨hr, hd⟩
    · -- `a × u` would be negative
      exfalso
      have := cross2_parallel h0 a
      have h3 : 0 < cross2 a b * dot2 u u := mul_pos hr (dot2_pos hu)
      rw [this] at h3
      nlinarith
    · refine ⟨hr, hd, ?_, ?_⟩
      · have := cross2_parallel h0 a
        rw [hr, zero_mul] at this
        rcases mul_eq_zero.1 this.symm with h | h
        · exact h
        · linarith
      · have h3 := cross2_parallel' hr u
        rw [dot2_comm u a] at h3
        have : dot2 u b * dot2 a a < 0 := mul_neg_of_neg_of_pos hneg haa
        rw [h3] at this
        by_contra hc
        nlinarith [mul_nonneg_of_nonpos_of_nonpos (not_lt.1 hc) hd.le]
  rcases lt_trichotomy (cross2 u w) 0 with h | h | h
  · -- more than a half turn
    obtain ⟨h3, h4⟩ := s3 h
    have h0 : cross2 u b = 0 := by rw [cross2_anti] at h4; linarith
    obtain ⟨p1, p2, p3, p4⟩ := hpar h0
    exfalso
    have e1 := cross2_parallel p1 w
    have e2 := cross2_parallel p3 w
    -- w × u > 0, so w × a > 0, so w × b < 0
    have h5 : 0 < cross2 w u := by rw [cross2_anti]; linarith
    have h6 : 0 < cross2 w a * dot2 a u := by rw [← e2]; exact mul_pos h5 haa
    have h7 : 0 < cross2 w a := by
      by_contra hc; nlinarith [mul_nonneg_of_nonpos_of_nonpos (not_lt.1 hc) (by linarith : -dot2 a u ≤ 0)]
    have h8 : cross2 w b * dot2 a a < 0 := by rw [e1]; exact mul_neg_of_pos_of_neg h7 p2
    nlinarith [mul_nonneg h3 haa.le]
  · -- half turn
    have hneg : dot2 u w < 0 := by
      rcases parallel_cases hu hw h with h' | h'
      · exact absurd ⟨h, h'⟩ s4
      · exact h'
    have h0 : cross2 u b = 0 := le_antisymm (s2 h hneg) h2
    obtain ⟨p1, p2, p3, p4⟩ := hpar h0
    have e1 := cross2_parallel h a
    rw [p3, zero_mul] at e1
    have e2 : cross2 a w = 0 := by
      rcases mul_eq_zero.1 e1 with h' | h'
      · exact h'
      · exact absurd h' (dot2_pos hu).ne'
    have e3 : cross2 w b = 0 := by
      have := cross2_parallel p1 w
      rw [cross2_anti w a, e2, neg_zero, zero_mul] at this
      rcases mul_eq_zero.1 this with h' | h'
      · exact h'
      · exact absurd h' haa.ne'
    refine ⟨e2.ge, e3.ge, fun hsd => ?_⟩
    have e4 := cross2_parallel' p3 w
    -- w·u a·a = w·a a·u
    have h5 : 0 < dot2 w a * dot2 a u := mul_pos hsd.2 p4
    rw [← e4, dot2_comm w u] at h5
    nlinarith
  · -- less than a half turn
    rcases h2.lt_or_eq with h2' | h2'
    · have h3 : 0 ≤ cross2 w b := by
        have := s1 h h2'
        rw [cross2_anti] at this; linarith
      have hb := cross2_basis a u b w
      have hab : 0 ≤ cross2 a b := by
        rcases hr with hr | hr
        · exact hr.le
        · exact hr.1.ge
      have h4 : 0 ≤ cross2 a w := by
        by_contra hc
        have := mul_neg_of_neg_of_pos (not_le.1 hc) h2'
        rw [hb] at this
        nlinarith [mul_nonneg h1 h3, mul_nonneg hab h.le]
      refine ⟨h4, h3, fun hsd => ?_⟩
      have hz : cross2 a w = 0 := by rw [cross2_anti, hsd.1, neg_zero]
      rw [hz, zero_mul] at hb
      have z1 : cross2 a b * cross2 u w = 0 := by nlinarith [mul_nonneg h1 h3, mul_nonneg hab h.le]
      have z2 : cross2 a u * cross2 w b = 0 := by linarith
      rcases hr with hr | ⟨hr, hd⟩
      · rcases mul_eq_zero.1 z1 with h' | h'
        · linarith
        · linarith
      · -- half plane: `a × u > 0`
        have e1 := cross2_parallel hr u
        have h5 : cross2 u a * dot2 a b ≠ 0 := by rw [← e1]; exact (mul_pos h2' haa).ne'
        have h6 : cross2 a u ≠ 0 := fun h' => h5 (by rw [cross2_anti, h', neg_zero, zero_mul])
        have h7 : cross2 w b = 0 := by
          rcases mul_eq_zero.1 z2 with h' | h'
          · exact absurd h' h6
          · exact h'
        -- w along a, but `u × w > 0 ` forces w along b
        have e2 := cross2_parallel hsd.1 u
        -- u × a · w·w = u × w · w·a
        have h8 : 0 < cross2 u a * dot2 w w := by rw [e2]; exact mul_pos h hsd.2
        have h9 : 0 < cross2 u a := by
          by_contra hc; nlinarith [mul_nonneg_of_nonpos_of_nonpos (not_lt.1 hc) (by linarith [dot2_pos hw] : -dot2 w w ≤ 0)]
        rw [cross2_anti] at h9
        linarith
    · obtain ⟨p1, p2, p3, p4⟩ := hpar h2'.symm
      have e1 := cross2_parallel p3 w
      -- w × u a·a = w × a a·u
      have h5 : 0 < cross2 a w := by
        have h6 : cross2 w u * dot2 a a < 0 := mul_neg_of_neg_of_pos (by rw [cross2_anti]; linarith) haa
        rw [e1] at h6
        rw [cross2_anti]
        by_contra hc
        nlinarith [mul_nonneg (by linarith : 0 ≤ cross2 w a) p4.le]
      refine ⟨h5.le, ?_, fun hsd => ?_⟩
      · have e2 := cross2_parallel p1 w
        have h6 : 0 < cross2 w b * dot2 a a := by
          rw [e2]; exact mul_pos_of_neg_of_neg (by rw [cross2_anti]; linarith) p2
        by_contra hc
        nlinarith
      · have := hsd.1
        rw [cross2_anti] at this
        linarith

/-- mirror image. -/
def mir (a : Dir) : Dir := (a.1, -a.2)

theorem cross2_mir (a b : Dir) : cross2 (mir a) (mir b) = cross2 b a := by unfold mir cross2; ring
theorem dot2_mir (a b : Dir) : dot2 (mir a) (mir b) = dot2 b a := by unfold mir dot2; ring
theorem sameDir_mir (a b : Dir) : SameDir (mir a) (mir b) ↔ SameDir b a := by
  unfold SameDir; rw [cross2_mir, dot2_mir]
theorem mir_ne {a : Dir} (h : a ≠ 0) : mir a ≠ 0 := by
  intro h'; apply h
  have h1 := congrArg Prod.fst h'
  have h2 := congrArg Prod.snd h'
  exact Prod.ext h1 (by have : -a.2 = 0 := h2; show a.2 = 0; linarith)
theorem SameDir.symm' {a b : Dir} (h : SameDir a b) : SameDir b a := ⟨by rw [cross2_anti, h.1, neg_zero], by rw [dot2_comm]; exact h.2⟩

theorem inSector_mir {u v w : Dir} (hu : u ≠ 0) (hw : w ≠ 0) : InSector (mir w) (mir v) (mir u) ↔ InSector u v w := by
  unfold InSector
  rw [cross2_mir, cross2_mir, cross2_mir, cross2_mir, cross2_mir, dot2_mir, sameDir_mir, sameDir_mir]
  refine or_congr (by tauto) (or_congr ?_ (or_congr (by tauto) ?_))
  · refine and_congr_right fun h0 => and_congr_right fun hd => ?_
    -- u, w opposite
    have e1 := cross2_parallel h0 v
    have huu := dot2_pos hu
    constructor
    · intro h
      have h2 : cross2 v w * dot2 u u > 0 := mul_pos h huu
      rw [e1] at h2
      rw [cross2_anti]
      by_contra hc
      nlinarith [mul_nonneg (by linarith : 0 ≤ cross2 v u) (by linarith : 0 ≤ -dot2 u w)]
    · intro h
      rw [cross2_anti] at h
      have h2 : cross2 v u * dot2 u w > 0 := mul_pos_of_neg_of_neg (by linarith) hd
      rw [← e1] at h2
      by_contra hc
      nlinarith
  · refine and_congr_right fun hs => not_congr ?_
    have key : ∀ a b c : Dir, a ≠ 0 → b ≠ 0 → SameDir a b → SameDir b c → SameDir a c := by
      intro a b c ha hb hab hbc
      have hbb := dot2_pos hb
      refine ⟨?_, ?_⟩
      · have := cross2_parallel hbc.1 a
        rw [hab.1, zero_mul] at this
        rcases mul_eq_zero.1 this with h | h
        · exact h
        · exact absurd h hbb.ne'
      · have := cross2_parallel' hbc.1 a
        have h2 : 0 < dot2 a c * dot2 b b := by rw [this]; exact mul_pos hab.2 hbc.2
        by_contra hc
        nlinarith
    constructor
    · intro h; exact key _ _ _ hu hw hs h.symm'
    · intro h; exact (key _ _ _ hw hu hs.symm' h).symm'

/-- the same, clockwise. -/
theorem cone_cw {a b u w : Dir} (hr : ConeDirs a b) (h1 : 0 ≤ cross2 a w) (h2 : 0 ≤ cross2 w b) (hu : u ≠ 0) (hw : w ≠ 0)
    (hn : ¬ SameDir w a) (hs : ¬ InSector u a w) : 0 ≤ cross2 a u ∧ 0 ≤ cross2 u b ∧ ¬ SameDir u b := by
  have := cone_ccw (a := mir b) (b := mir a) (u := mir w) (w := mir u) ?_ (by rw [cross2_mir]; exact h2) (by rw [cross2_mir]; exact h1)
    (mir_ne hw) (mir_ne hu) (fun h => hn ((sameDir_mir _ _).1 h).symm') (fun h => hs ((inSector_mir hu hw).1 h))
  · rw [cross2_mir, cross2_mir, sameDir_mir] at this
    exact ⟨this.2.1, this.1, fun h => this.2.2 h.symm'⟩
  · unfold ConeDirs
    rw [cross2_mir, dot2_mir]
    exact hr

end Mandoline
