import Verif.Fill.Cone
import Mathlib.Tactic.LinearCombination
import Mathlib.Tactic.Positivity

/-! # The directions from an edge into a box form a cone with two extreme rays -/
namespace Mandoline

/-- rays `a`, `b` bound, counter-clockwise about `d`, the directions `x ⟂ d` with `0 ≤ s * x i` for the constraints `P`. -/
structure Rays (d : Vec3) (P : Fin 3 → ℚ → Prop) (a b : Vec3) : Prop where
  pa : vdot d a = 0
  pb : vdot d b = 0
  cone : 0 < vdet d a b ∨ (vdet d a b = 0 ∧ vdot a b < 0)
  mem : ∀ x, vdot d x = 0 → ((∀ i s, P i s → 0 ≤ s * x i) ↔ 0 ≤ vdet d a x ∧ 0 ≤ vdet d x b)
  la : ∃ i s, P i s ∧ a i = 0 ∧ 0 < s * vcross d a i
  lb : ∃ i s, P i s ∧ b i = 0 ∧ s * vcross d b i < 0
  fa : ∀ x i s, vdot d x = 0 → (∀ i s, P i s → 0 ≤ s * x i) → P i s → x i = 0 → 0 < s * vcross d x i → vdet d a x = 0 ∧ 0 < vdot a x
  fb : ∀ x i s, vdot d x = 0 → (∀ i s, P i s → 0 ≤ s * x i) → P i s → x i = 0 → s * vcross d x i < 0 → vdet d b x = 0 ∧ 0 < vdot b x

theorem Rays.smulA {d a b : Vec3} {P} (h : Rays d P a b) {t : ℚ} (ht : 0 < t) : Rays d P (t • a) b := by
  have e1 : ∀ x, vdet d (t • a) x = t * vdet d a x := fun x => by simp only [vdet_eq, Pi.smul_apply, smul_eq_mul]; ring
  have e2 : ∀ x, vdot (t • a) x = t * vdot a x := fun x => by simp only [vdot, Pi.smul_apply, smul_eq_mul]; ring
  have e3 : vdot d (t • a) = t * vdot d a := by simp only [vdot, Pi.smul_apply, smul_eq_mul]; ring
  have e4 : ∀ i, vcross d (t • a) i = t * vcross d a i := fun i => by
    fin_cases i <;> simp [vcross] <;> ring
  refine ⟨by rw [e3, h.pa, mul_zero], h.pb, ?_, ?_, ?_, h.lb, ?_, h.fb⟩
  · rw [e1, e2]
    rcases h.cone with h' | ⟨h1, h2⟩
    · exact .inl (mul_pos ht h')
    · exact .inr ⟨by rw [h1, mul_zero], mul_neg_of_pos_of_neg ht h2⟩
  · intro x hx
    rw [h.mem x hx, e1]
    exact and_congr_left fun _ => (sgn_nonneg ht).symm
  · obtain ⟨i, s, h1, h2, h3⟩ := h.la
    refine ⟨i, s, h1, by simp [h2], ?_⟩
    rw [e4]
    have := mul_pos ht h3
    linarith
  · intro x i s h1 h2 h3 h4 h5
    obtain ⟨k1, k2⟩ := h.fa x i s h1 h2 h3 h4 h5
    exact ⟨by rw [e1, k1, mul_zero], by rw [e2]; exact mul_pos ht k2⟩

theorem Rays.smulB {d a b : Vec3} {P} (h : Rays d P a b) {t : ℚ} (ht : 0 < t) : Rays d P a (t • b) := by
  have e0 : ∀ x, vdet d x (t • b) = t * vdet d x b := fun x => by simp only [vdet_eq, Pi.smul_apply, smul_eq_mul]; ring
  have e1 : ∀ x, vdet d (t • b) x = t * vdet d b x := fun x => by simp only [vdet_eq, Pi.smul_apply, smul_eq_mul]; ring
  have e2 : ∀ x, vdot (t • b) x = t * vdot b x := fun x => by simp only [vdot, Pi.smul_apply, smul_eq_mul]; ring
  have e2' : ∀ x, vdot x (t • b) = t * vdot x b := fun x => by simp only [vdot, Pi.smul_apply, smul_eq_mul]; ring
  have e4 : ∀ i, vcross d (t • b) i = t * vcross d b i := fun i => by
    fin_cases i <;> simp [vcross] <;> ring
  refine ⟨h.pa, by rw [e2', h.pb, mul_zero], ?_, ?_, h.la, ?_, h.fa, ?_⟩
  · rw [e0, e2']
    rcases h.cone with h' | ⟨h1, h2⟩
    · exact .inl (mul_pos ht h')
    · exact .inr ⟨by rw [h1, mul_zero], mul_neg_of_pos_of_neg ht h2⟩
  · intro x hx
    rw [h.mem x hx, e0]
    exact and_congr_right fun _ => (sgn_nonneg ht).symm
  · obtain ⟨i, s, h1, h2, h3⟩ := h.lb
    refine ⟨i, s, h1, by simp [h2], ?_⟩
    rw [e4]
    have := mul_neg_of_pos_of_neg ht h3
    linarith
  · intro x i s h1 h2 h3 h4 h5
    obtain ⟨k1, k2⟩ := h.fb x i s h1 h2 h3 h4 h5
    exact ⟨by rw [e1, k1, mul_zero], by rw [e2]; exact mul_pos ht k2⟩

/-- one constraint: a half plane. -/
theorem rays_one {d : Vec3} (hd : d ≠ 0) {P : Fin 3 → ℚ → Prop} {i : Fin 3} {s : ℚ} (hs : s * s = 1) (hi : d i = 0)
    (hP : ∀ j t, P j t ↔ j = i ∧ t = s) : ∃ a b, Rays d P a b := by
  have hdd : 0 < vdot d d := by
    obtain ⟨j, hj⟩ : ∃ i, d i ≠ 0 := by by_contra h; push Not at h; exact hd (funext h)
    exact vdot_self_pos hj
  have hq : ∀ x : Vec3, (∀ j t, P j t → 0 ≤ t * x j) ↔ 0 ≤ s * x i := by
    intro x
    constructor
    · intro h; exact h i s ((hP i s).2 ⟨rfl, rfl⟩)
    · intro h j t hj
      obtain ⟨rfl, rfl⟩ := (hP j t).1 hj
      exact h
  have hmem : P i s := (hP i s).2 ⟨rfl, rfl⟩
  -- b = s (d × e_i)
  obtain ⟨b, hb, hb1, hb2, hb3, hb4, hb5⟩ : ∃ b : Vec3, b i = 0 ∧ (∀ x, vdot d x = 0 → vdet d b x = - (s * x i) * vdot d d) ∧
      (∀ x, vdot b x = - s * vcross d x i) ∧ vdot d b = 0 ∧ vdot b b = vdot d d ∧ s * vcross d b i = - vdot d d := by
    refine ⟨s • vcross d (Pi.single i 1), ?_, ?_, ?_, ?_, ?_, ?_⟩
    · fin_cases i <;> simp [vcross]
    · intro x hx
      unfold vdot at hx ⊢
      rw [vdet_eq]
      fin_cases i <;> simp [vcross] at hi ⊢ <;> simp [hi] at hx ⊢
      · linear_combination (0 : ℚ) * hx
      · linear_combination (0 : ℚ) * hx
      · linear_combination (0 : ℚ) * hx
    · intro x
      unfold vdot
      fin_cases i <;> simp [vcross] <;> ring
    · unfold vdot
      fin_cases i <;> simp [vcross] <;> ring
    · unfold vdot
      fin_cases i <;> simp [vcross] at hi ⊢ <;> simp [hi]
      · linear_combination (d 1 * d 1 + d 2 * d 2) * hs
      · linear_combination (d 0 * d 0 + d 2 * d 2) * hs
      · linear_combination (d 0 * d 0 + d 1 * d 1) * hs
    · unfold vdot
      fin_cases i <;> simp [vcross] at hi ⊢ <;> simp [hi]
      · linear_combination -(d 1 * d 1 + d 2 * d 2) * hs
      · linear_combination -(d 0 * d 0 + d 2 * d 2) * hs
      · linear_combination -(d 0 * d 0 + d 1 * d 1) * hs
  have n1 : ∀ x, vdet d (-b) x = - vdet d b x := fun x => by simp only [vdet_eq, Pi.neg_apply]; ring
  have n2 : ∀ x, vdot (-b) x = - vdot b x := fun x => by simp only [vdot, Pi.neg_apply]; ring
  have n3 : ∀ x, vdet d x b = - vdet d b x := fun x => by simp only [vdet_eq]; ring
  have n4 : vcross d (-b) i = - vcross d b i := by fin_cases i <;> simp [vcross] <;> ring
  have n5 : vdot d (-b) = - vdot d b := by simp only [vdot, Pi.neg_apply]; ring
  have n6 : vdet d b b = 0 := by simp only [vdet_eq]; ring
  refine ⟨-b, b, by rw [n5, hb3, neg_zero], hb3, ?_, ?_, ?_, ?_, ?_, ?_⟩
  · right
    rw [n1, n2, n6, hb4]
    exact ⟨neg_zero, by linarith⟩
  · intro x hx
    rw [hq, n1, n3, hb1 x hx]
    constructor
    · intro h
      have := mul_nonneg h hdd.le
      constructor <;> linarith
    · intro h
      by_contra hc
      have := mul_neg_of_neg_of_pos (not_le.1 hc) hdd
      linarith [h.1]
  · refine ⟨i, s, hmem, by simp [hb], ?_⟩
    rw [n4, mul_neg, hb5]; linarith
  · refine ⟨i, s, hmem, hb, ?_⟩
    rw [hb5]; linarith
  · intro x j t hx _ hj h0 hpos
    obtain ⟨rfl, rfl⟩ := (hP j t).1 hj
    rw [n1, n2, hb1 x hx, hb2, h0]
    exact ⟨by ring, by linarith⟩
  · intro x j t hx _ hj h0 hpos
    obtain ⟨rfl, rfl⟩ := (hP j t).1 hj
    rw [hb1 x hx, hb2, h0]
    exact ⟨by ring, by linarith⟩

/-- two constraints: a quadrant. -/
theorem rays_two {d : Vec3} (hd : d ≠ 0) {P : Fin 3 → ℚ → Prop} {i : Fin 3} {s t : ℚ} (hs : s * s = 1) (ht : t * t = 1) (hi : d i = 0)
    (hi1 : d (i + 1) = 0) (hP : ∀ j r, P j r ↔ (j = i ∧ r = s) ∨ (j = i + 1 ∧ r = t)) : ∃ a b, Rays d P a b := by
  have hk : d (i + 2) ≠ 0 := by
    intro h0
    apply hd
    funext j
    fin_cases i <;> fin_cases j <;> simp at hi hi1 h0 ⊢ <;> assumption
  have hkk : 0 < d (i + 2) * d (i + 2) := mul_self_pos.2 hk
  have hq : ∀ x : Vec3, (∀ j r, P j r → 0 ≤ r * x j) ↔ 0 ≤ s * x i ∧ 0 ≤ t * x (i + 1) := by
    intro x
    constructor
    · intro h; exact ⟨h i s ((hP i s).2 (.inl ⟨rfl, rfl⟩)), h _ t ((hP _ t).2 (.inr ⟨rfl, rfl⟩))⟩
    · intro h j r hj
      rcases (hP j r).1 hj with ⟨rfl, rfl⟩ | ⟨rfl, rfl⟩
      · exact h.1
      · exact h.2
  have m1 : P i s := (hP i s).2 (.inl ⟨rfl, rfl⟩)
  have m2 : P (i + 1) t := (hP _ t).2 (.inr ⟨rfl, rfl⟩)
  have hne : i ≠ i + 1 := by fin_cases i <;> decide
  have hx2 : ∀ x : Vec3, vdot d x = 0 → x (i + 2) = 0 := by
    intro x hx
    unfold vdot at hx
    have : d (i + 2) * x (i + 2) = 0 := by
      fin_cases i <;> simp at hi hi1 ⊢ <;> simp [hi, hi1] at hx ⊢ <;> exact hx
    rcases mul_eq_zero.1 this with h | h
    · exact absurd h hk
    · exact h
  -- components
  have hdet : ∀ x y : Vec3, vdet d x y = d (i + 2) * (x i * y (i + 1) - x (i + 1) * y i) := by
    intro x y
    rw [vdet_eq]
    fin_cases i <;> simp at hi hi1 ⊢ <;> simp [hi, hi1] <;> ring
  have hdot : ∀ x y : Vec3, vdot x y = x i * y i + x (i + 1) * y (i + 1) + x (i + 2) * y (i + 2) := by
    intro x y
    unfold vdot
    fin_cases i <;> simp <;> ring
  have hcr : ∀ x : Vec3, vcross d x i = - d (i + 2) * x (i + 1) ∧ vcross d x (i + 1) = d (i + 2) * x i := by
    intro x
    fin_cases i <;> simp [vcross] at hi hi1 ⊢ <;> simp [hi, hi1]
  -- n1 = s e_i, n2 = t e_{i+1}
  obtain ⟨n1, a1, a2, a3⟩ : ∃ n : Vec3, n i = s ∧ n (i + 1) = 0 ∧ n (i + 2) = 0 :=
    ⟨s • Pi.single i 1, by simp, by fin_cases i <;> simp, by fin_cases i <;> simp⟩
  obtain ⟨n2, b1, b2, b3⟩ : ∃ n : Vec3, n i = 0 ∧ n (i + 1) = t ∧ n (i + 2) = 0 :=
    ⟨t • Pi.single (i + 1) 1, by fin_cases i <;> simp, by simp, by fin_cases i <;> simp⟩
  have hk0 : d (i + 2) * s * t ≠ 0 := by
    refine mul_ne_zero (mul_ne_zero hk ?_) ?_
    · rintro rfl; simp at hs
    · rintro rfl; simp at ht
  have e1 : ∀ z, d (i + 2) * (s * z) = (d (i + 2) * s * t) * (t * z) := fun z => by linear_combination -(d (i + 2) * s * z) * ht
  have e2 : ∀ z, d (i + 2) * (t * z) = (d (i + 2) * s * t) * (s * z) := fun z => by linear_combination -(d (i + 2) * t * z) * hs
  rcases lt_or_gt_of_ne hk0 with hneg | hpos
  · have hk' : 0 < - (d (i + 2) * s * t) := by linarith
    refine ⟨n2, n1, by rw [hdot, b1, b2, b3, hi1]; ring, by rw [hdot, a1, a2, a3, hi]; ring, ?_, ?_, ?_, ?_, ?_, ?_⟩
    · left; rw [hdet, a1, a2, b1, b2]; linarith
    · intro x hx
      rw [hq, hdet, hdet, a1, a2, b1, b2]
      have f1 : d (i + 2) * (0 * x (i + 1) - t * x i) = - (d (i + 2) * s * t) * (s * x i) := by linear_combination - e2 (x i)
      have f2 : d (i + 2) * (x i * 0 - x (i + 1) * s) = - (d (i + 2) * s * t) * (t * x (i + 1)) := by linear_combination - e1 (x (i + 1))
      rw [f1, f2, sgn_nonneg hk', sgn_nonneg hk']
    · refine ⟨i, s, m1, b1, ?_⟩
      rw [(hcr _).1, b2]; linarith
    · refine ⟨i + 1, t, m2, a2, ?_⟩
      rw [(hcr _).2, a1]; linarith
    · intro x j r hx hK hj h0 hp
      obtain ⟨k1, k2⟩ := (hq x).1 hK
      rcases (hP j r).1 hj with ⟨rfl, rfl⟩ | ⟨rfl, rfl⟩
      · rw [hdet, hdot, b1, b2, b3, h0]
        rw [(hcr _).1] at hp
        refine ⟨by ring, ?_⟩
        have : 0 < - (d (j + 2) * r * t) * (t * x (j + 1)) := by have := e1 (x (j + 1)); linarith
        have := (sgn_pos hk').1 this
        linarith
      · exfalso
        rw [(hcr _).2] at hp
        have := e2 (x i)
        have h5 : 0 < (d (i + 2) * s * r) * (s * x i) := by linarith
        have := mul_nonneg hk'.le k1
        linarith
    · intro x j r hx hK hj h0 hp
      obtain ⟨k1, k2⟩ := (hq x).1 hK
      rcases (hP j r).1 hj with ⟨rfl, rfl⟩ | ⟨rfl, rfl⟩
      · exfalso
        rw [(hcr _).1] at hp
        have := e1 (x (j + 1))
        have h5 : 0 < (d (j + 2) * r * t) * (t * x (j + 1)) := by linarith
        have := mul_nonneg hk'.le k2
        linarith
      · rw [hdet, hdot, a1, a2, a3, h0]
        rw [(hcr _).2] at hp
        refine ⟨by ring, ?_⟩
        have : 0 < - (d (i + 2) * s * r) * (s * x i) := by have := e2 (x i); linarith
        have := (sgn_pos hk').1 this
        linarith
  · refine ⟨n1, n2, by rw [hdot, a1, a2, a3, hi]; ring, by rw [hdot, b1, b2, b3, hi1]; ring, ?_, ?_, ?_, ?_, ?_, ?_⟩
    · left; rw [hdet, a1, a2, b1, b2]; linarith
    · intro x hx
      rw [hq, hdet, hdet, a1, a2, b1, b2]
      have f1 : d (i + 2) * (s * x (i + 1) - 0 * x i) = (d (i + 2) * s * t) * (t * x (i + 1)) := by linear_combination e1 (x (i + 1))
      have f2 : d (i + 2) * (x i * t - x (i + 1) * 0) = (d (i + 2) * s * t) * (s * x i) := by linear_combination e2 (x i)
      rw [f1, f2, sgn_nonneg hpos, sgn_nonneg hpos]
      exact and_comm
    · refine ⟨i + 1, t, m2, a2, ?_⟩
      rw [(hcr _).2, a1]; linarith
    · refine ⟨i, s, m1, b1, ?_⟩
      rw [(hcr _).1, b2]; linarith
    · intro x j r hx hK hj h0 hp
      obtain ⟨k1, k2⟩ := (hq x).1 hK
      rcases (hP j r).1 hj with ⟨rfl, rfl⟩ | ⟨rfl, rfl⟩
      · exfalso
        rw [(hcr _).1] at hp
        have := e1 (x (j + 1))
        have h5 : (d (j + 2) * r * t) * (t * x (j + 1)) < 0 := by linarith
        have := mul_nonneg hpos.le k2
        linarith
      · rw [hdet, hdot, a1, a2, a3, h0]
        rw [(hcr _).2] at hp
        refine ⟨by ring, ?_⟩
        have : 0 < (d (i + 2) * s * r) * (s * x i) := by have := e2 (x i); linarith
        have := (sgn_pos hpos).1 this
        linarith
    · intro x j r hx hK hj h0 hp
      obtain ⟨k1, k2⟩ := (hq x).1 hK
      rcases (hP j r).1 hj with ⟨rfl, rfl⟩ | ⟨rfl, rfl⟩
      · rw [hdet, hdot, b1, b2, b3, h0]
        rw [(hcr _).1] at hp
        refine ⟨by ring, ?_⟩
        have : 0 < (d (j + 2) * r * t) * (t * x (j + 1)) := by have := e1 (x (j + 1)); linarith
        have := (sgn_pos hpos).1 this
        linarith
      · exfalso
        rw [(hcr _).2] at hp
        have := e2 (x i)
        have h5 : (d (i + 2) * s * r) * (s * x i) < 0 := by linarith
        have := mul_nonneg hpos.le k1
        linarith

/-- the constraints at an edge: at least one of them. -/
theorem rays_exist {d : Vec3} (hd : d ≠ 0) {P : Fin 3 → ℚ → Prop} (h1 : ∀ i s, P i s → s * s = 1 ∧ d i = 0)
    (h2 : ∀ i s t, P i s → P i t → s = t) (h3 : ∃ i s, P i s) : ∃ a b, Rays d P a b := by
  by_cases htwo : ∃ i s t, P i s ∧ P (i + 1) t
  · obtain ⟨i, s, t, p1, p2⟩ := htwo
    refine rays_two hd (h1 _ _ p1).1 (h1 _ _ p2).1 (h1 _ _ p1).2 (h1 _ _ p2).2 (i := i) (s := s) (t := t) fun j r => ?_
    constructor
    · intro hj
      have hj3 : j = i ∨ j = i + 1 ∨ j = i + 2 := by fin_cases i <;> fin_cases j <;> decide
      rcases hj3 with rfl | rfl | rfl
      · exact .inl ⟨rfl, h2 _ _ _ hj p1⟩
      · exact .inr ⟨rfl, h2 _ _ _ hj p2⟩
      · exfalso
        apply hd
        have q1 := (h1 _ _ p1).2
        have q2 := (h1 _ _ p2).2
        have q3 := (h1 _ _ hj).2
        funext j
        fin_cases i <;> fin_cases j <;> simp at q1 q2 q3 ⊢ <;> assumption
    · rintro (⟨rfl, rfl⟩ | ⟨rfl, rfl⟩)
      · exact p1
      · exact p2
  · obtain ⟨i, s, p⟩ := h3
    refine rays_one hd (h1 _ _ p).1 (h1 _ _ p).2 (i := i) (s := s) fun j r => ?_
    constructor
    · intro hj
      have hj3 : j = i ∨ j = i + 1 ∨ i = j + 1 := by fin_cases i <;> fin_cases j <;> decide
      rcases hj3 with rfl | rfl | rfl
      · exact ⟨rfl, h2 _ _ _ hj p⟩
      · exact absurd ⟨_, _, _, p, hj⟩ htwo
      · exact absurd ⟨_, _, _, hj, p⟩ htwo
    · rintro ⟨rfl, rfl⟩
      exact p

end Mandoline
