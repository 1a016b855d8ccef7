import Verif.Edge.Model
import Verif.Geom.ContainerProps

set_option linter.unusedSectionVars false

/-! # Lemmas about the raw crossings generated by `EdgeIntersections::bake` -/
namespace Mandoline
variable {D : ℕ}

/-- the point of the segment at parameter `t`. -/
def segPt (a b : Pt D) (t : ℚ) : Pt D := fun i => (1 - t) * a i + t * b i

/-- `t` is the parameter of a proper crossing of the segment with a grid plane of axis `d`. -/
def CrossesAt (a b : Pt D) (d : Fin D) (t : ℚ) : Prop :=
  0 < t ∧ t < 1 ∧ a d ≠ b d ∧ IntegralAt (segPt a b t) d

theorem pointAt_p (a b : Vertex D) (t : ℚ) : (pointAt a b t).p = segPt a.p b.p t := by
  unfold pointAt segPt
  rw [(C07_add _ _).1, (C07_smul _ _).1, (C07_smul _ _).1]

theorem pointAt_normalised (a b : Vertex D) (t : ℚ) : Normalised (pointAt a b t) := (C07_add _ _).2

theorem reflectAxis_spec (r : Bool) (c : ℤ) (q : ℚ) (h : 0 ≤ q ∧ q < 1) :
    ((reflectAxis r c q).1 : ℚ) + (reflectAxis r c q).2 = (if r then -1 else 1) * ((c : ℚ) + q) ∧
    0 ≤ (reflectAxis r c q).2 ∧ (reflectAxis r c q).2 < 1 := by
  unfold reflectAxis
  cases r
  · simp [h.1, h.2]
  · by_cases hq : q = 0
    · simp [hq]
    · have : 0 < q := lt_of_le_of_ne h.1 (Ne.symm hq)
      simp only [hq, if_true, if_false]
      refine ⟨by push_cast; ring, by linarith [h.2], by linarith⟩

theorem reflectionBit_iff (a b : Vertex D) (ha : Normalised a) (hb : Normalised b) (d : Fin D) :
    reflectionBit a b d = true ↔ b.p d ≤ a.p d := by
  have h1 := ha d
  have h2 := hb d
  have key : (b.coord d > a.coord d ∨ (b.coord d = a.coord d ∧ b.quot d > a.quot d)) ↔ a.p d < b.p d := by
    simp only [Vertex.p]
    constructor
    · rintro (h | ⟨h, h'⟩)
      · have : (a.coord d : ℚ) + 1 ≤ b.coord d := by exact_mod_cast h
        linarith
      · rw [h]; linarith
    · intro h
      rcases lt_trichotomy (a.coord d) (b.coord d) with h' | h' | h'
      · exact Or.inl h'
      · right; refine ⟨h'.symm, ?_⟩; rw [h'] at h; linarith
      · have : (b.coord d : ℚ) + 1 ≤ a.coord d := by exact_mod_cast h'
        linarith
  rw [← not_lt, ← key]
  simp [reflectionBit]
  tauto

/-- the sign applied by the reflection. -/
def sgn (r : Bool) : ℚ := if r then -1 else 1

theorem sgn_sq (r : Bool) : sgn r * sgn r = 1 := by cases r <;> simp [sgn]

section Axis
variable (a b : Vertex D) (ha : Normalised a) (hb : Normalised b) (d : Fin D)
include ha hb

theorem dirAt_eq : dirAt a b d = sgn (reflectionBit a b d) * b.p d - sgn (reflectionBit a b d) * a.p d := by
  unfold dirAt sgn
  cases h : reflectionBit a b d
  · have : a.p d < b.p d := by
      by_contra hn; rw [← Bool.not_eq_true, reflectionBit_iff a b ha hb] at h; exact h (not_lt.1 hn)
    rw [abs_of_pos (by linarith)]; simp
  · have := (reflectionBit_iff a b ha hb d).1 h
    rw [abs_of_nonpos (by linarith)]; simp; ring

theorem beginAt_eq : beginAt a b d = ⌈sgn (reflectionBit a b d) * a.p d⌉ := by
  obtain ⟨h1, h2, h3⟩ := reflectAxis_spec (reflectionBit a b d) (a.coord d) (a.quot d) (ha d)
  unfold beginAt sgn Vertex.p
  rw [← h1]
  simp

theorem endAt_eq : endAt a b d = ⌊sgn (reflectionBit a b d) * b.p d⌋ := by
  obtain ⟨h1, h2, h3⟩ := reflectAxis_spec (reflectionBit a b d) (b.coord d) (b.quot d) (hb d)
  unfold endAt sgn Vertex.p
  rw [← h1]
  simp

theorem offsetAt_eq : offsetAt a b d = (beginAt a b d : ℚ) - sgn (reflectionBit a b d) * a.p d := by
  obtain ⟨h1, h2, h3⟩ := reflectAxis_spec (reflectionBit a b d) (a.coord d) (a.quot d) (ha d)
  unfold offsetAt beginAt sgn Vertex.p
  rw [← h1]
  push_cast; ring

theorem seg_sgn (hdir : dirAt a b d ≠ 0) (i : ℕ) :
    segPt a.p b.p (tAt a b d i) d =
      sgn (reflectionBit a b d) * ((i : ℚ) + (beginAt a b d : ℚ)) := by
  have h1 := dirAt_eq a b ha hb d
  have h2 := offsetAt_eq a b ha hb d
  have ht : tAt a b d i * dirAt a b d = offsetAt a b d + i := by
    unfold tAt; field_simp
  have hs := sgn_sq (reflectionBit a b d)
  unfold segPt
  set s := sgn (reflectionBit a b d)
  have h3 : tAt a b d i * (s * b.p d - s * a.p d) = (beginAt a b d : ℚ) - s * a.p d + i := by
    rw [← h1, ← h2, ht]
  have h4 : tAt a b d i * (b.p d - a.p d) = s * ((beginAt a b d : ℚ) + i) - a.p d := by
    calc tAt a b d i * (b.p d - a.p d)
        = s * s * (tAt a b d i * (b.p d - a.p d)) := by rw [hs]; ring
      _ = s * (tAt a b d i * (s * b.p d - s * a.p d)) := by ring
      _ = s * ((beginAt a b d : ℚ) + i) - s * s * a.p d := by rw [h3]; ring
      _ = _ := by rw [hs]; ring
  linarith

theorem dir_ne_iff : dirAt a b d ≠ 0 ↔ a.p d ≠ b.p d := by
  unfold dirAt
  rw [ne_eq, abs_eq_zero, sub_eq_zero]
  exact ⟨fun h h' => h h'.symm, fun h h' => h h'.symm⟩

/-- completeness and soundness of the `t` loop on one axis. -/
theorem loop_iff (hdir : dirAt a b d ≠ 0) (t : ℚ) :
    (∃ i ∈ List.range (endAt a b d - beginAt a b d + 1).toNat, tAt a b d i = t ∧ ¬ (t ≤ 0 ∨ t ≥ 1)) ↔
      CrossesAt a.p b.p d t := by
  have hne := (dir_ne_iff a b ha hb d).1 hdir
  constructor
  · rintro ⟨i, _, rfl, h⟩
    push Not at h
    refine ⟨h.1, h.2, hne, ?_⟩
    have := seg_sgn a b ha hb d hdir i
    unfold sgn at this
    cases hr : reflectionBit a b d
    · exact ⟨(i : ℤ) + beginAt a b d, by rw [this, hr]; push_cast; simp⟩
    · exact ⟨-((i : ℤ) + beginAt a b d), by rw [this, hr]; push_cast; simp⟩
  · rintro ⟨h0, h1, _, n, hn⟩
    -- reflected integer
    have hd := dirAt_eq a b ha hb d
    have hdpos : 0 < dirAt a b d := lt_of_le_of_ne (abs_nonneg _) (Ne.symm hdir)
    have hs := sgn_sq (reflectionBit a b d)
    obtain ⟨m, hm⟩ : ∃ m : ℤ, (m : ℚ) = sgn (reflectionBit a b d) * n := by
      unfold sgn
      cases reflectionBit a b d
      · exact ⟨n, by simp⟩
      · exact ⟨-n, by simp⟩
    have hb' := beginAt_eq a b ha hb d
    have he' := endAt_eq a b ha hb d
    have hoff := offsetAt_eq a b ha hb d
    set s := sgn (reflectionBit a b d)
    unfold segPt at hn
    have hmt : (m : ℚ) = s * a.p d + t * dirAt a b d := by
      rw [hm, ← hn, hd]; ring
    have hlow : s * a.p d < m := by rw [hmt]; linarith [mul_pos h0 hdpos]
    have hhigh : (m : ℚ) < s * b.p d := by
      have : t * dirAt a b d < dirAt a b d := by nlinarith
      rw [hmt]; linarith
    have h2 : beginAt a b d ≤ m := by rw [hb', Int.ceil_le]; exact hlow.le
    have h3 : m ≤ endAt a b d := by rw [he', Int.le_floor]; exact hhigh.le
    refine ⟨(m - beginAt a b d).toNat, ?_, ?_, by push Not; exact ⟨h0, h1⟩⟩
    · rw [List.mem_range]; omega
    · unfold tAt
      rw [div_eq_iff hdir, hoff]
      have : (((m - beginAt a b d).toNat : ℕ) : ℚ) = (m : ℚ) - beginAt a b d := by
        have h4 : (((m - beginAt a b d).toNat : ℕ) : ℤ) = m - beginAt a b d := Int.toNat_of_nonneg (by omega)
        have : ((((m - beginAt a b d).toNat : ℕ) : ℤ) : ℚ) = ((m - beginAt a b d : ℤ) : ℚ) := by rw [h4]
        push_cast at this ⊢
        exact this
      rw [this, hmt]; ring

omit ha hb in
theorem clampBy_edgeMask_id (ha : Normalised a) (hb : Normalised b) (v : Vertex D) (hv : Normalised v)
    (t : ℚ) (hp : v.p = segPt a.p b.p t) :
    (Vertex.clampBy (edgeMask a b) v).coord = v.coord ∧ (Vertex.clampBy (edgeMask a b) v).quot = v.quot := by
  have key : ∀ i c, edgeMask a b i = some c → v.coord i = c ∧ v.quot i = 0 := by
    intro i c h
    rw [edgeMask, Mask.and_eq_some, vertex_mask_eq_some _ ha, vertex_mask_eq_some _ hb] at h
    have hpi : v.p i = (c : ℚ) := by
      rw [hp]; unfold segPt; rw [h.1, h.2]; ring
    have hm := (vertex_mask_eq_some v hv i c).2 hpi
    unfold Vertex.mask at hm
    split_ifs at hm with hq
    exact ⟨by simpa using hm, hq⟩
  constructor
  · funext i
    simp only [Vertex.clampBy]
    cases h : edgeMask a b i with
    | none => rfl
    | some c => exact (key i c h).1.symm
  · funext i
    simp only [Vertex.clampBy]
    cases h : edgeMask a b i with
    | none => rfl
    | some c => exact (key i c h).2.symm

/-- the created intersection is, as a position in normal form, the point of the segment at `t`. -/
theorem sectAt_eq (hdir : dirAt a b d ≠ 0) (i : ℕ) :
    (sectAt a b d i).coord = (pointAt a b (tAt a b d i)).coord ∧
    (sectAt a b d i).quot = (pointAt a b (tAt a b d i)).quot := by
  set t := tAt a b d i with ht
  have hP := pointAt_p a b t
  have hN := pointAt_normalised a b t
  obtain ⟨c1, q1⟩ := clampBy_edgeMask_id a b ha hb (pointAt a b t) hN t hP
  -- coordinate along d
  have hpd : (pointAt a b t).p d =
      (((if reflectionBit a b d then -((i : ℤ) + beginAt a b d) else (i : ℤ) + beginAt a b d) : ℤ) : ℚ) := by
    rw [hP, ht, seg_sgn a b ha hb d hdir i]
    unfold sgn
    cases reflectionBit a b d <;> simp
  generalize hn : (if reflectionBit a b d then -((i : ℤ) + beginAt a b d) else (i : ℤ) + beginAt a b d) = n
    at hpd
  have hm := (vertex_mask_eq_some _ hN d _).2 hpd
  unfold Vertex.mask at hm
  split_ifs at hm with hq
  simp only [Option.some.injEq] at hm
  set w : Vertex D :=
    { coord := Function.update (Vertex.clampBy (edgeMask a b) (pointAt a b t)).coord d
        n
      quot := Function.update (Vertex.clampBy (edgeMask a b) (pointAt a b t)).quot d 0
      clamped := Function.update (Vertex.clampBy (edgeMask a b) (pointAt a b t)).clamped d true } with hw
  have hwc : w.coord = (pointAt a b t).coord := by
    rw [hw]; simp only [c1]
    rw [← hm]; exact Function.update_eq_self _ _
  have hwq : w.quot = (pointAt a b t).quot := by
    rw [hw]; simp only [q1]
    rw [← hq]; exact Function.update_eq_self _ _
  have hwN : Normalised w := by intro k; rw [hwq]; exact hN k
  have hwp : w.p = segPt a.p b.p t := by
    rw [← hP]; funext k; simp only [Vertex.p, hwc, hwq]
  obtain ⟨c2, q2⟩ := clampBy_edgeMask_id a b ha hb w hwN t hwp
  have hs : sectAt a b d i = Vertex.clampBy (edgeMask a b) w := by
    rw [hw, ← hn]; rfl
  rw [hs, c2, q2]
  exact ⟨hwc, hwq⟩

end Axis

/-- parameter is determined by the plane crossed. -/
theorem seg_inj (a b : Pt D) (d : Fin D) (hne : a d ≠ b d) (t t' : ℚ)
    (h : segPt a b t d = segPt a b t' d) : t = t' := by
  unfold segPt at h
  have : (t - t') * (b d - a d) = 0 := by linarith
  rcases mul_eq_zero.1 this with h' | h'
  · linarith
  · exact absurd (by linarith) hne

theorem mask_congr {v w : Vertex D} (hc : v.coord = w.coord) (hq : v.quot = w.quot) : v.mask = w.mask := by
  funext i; simp [Vertex.mask, hc, hq]

end Mandoline
