import Verif.Fill.Rays

/-! # Turning about an edge from one direction of the cone to the next -/
namespace Mandoline
open CellCollapser

/-- `x` and `y`, both perpendicular to `d`, point the same way. -/
def Along (d x y : Vec3) : Prop := vdet d x y = 0 ∧ 0 < vdot x y

theorem vdet_swap (d x y : Vec3) : vdet d y x = - vdet d x y := by simp only [vdet_eq]; ring

theorem vdot_comm' (x y : Vec3) : vdot x y = vdot y x := by unfold vdot; ring

theorem Along.symm {d x y : Vec3} (h : Along d x y) : Along d y x :=
  ⟨by rw [vdet_swap, h.1, neg_zero], by rw [vdot_comm']; exact h.2⟩

theorem sameDir_project {d u x : Vec3} {m : Fin 3} (hm : d m ≠ 0) (hu : vdot d u = 0) (hx : vdot d x = 0) (hun : u ≠ 0) :
    SameDir (project (-d) m u) (project (-d) m x) ↔ Along d u x := by
  have hc : 0 < |d m| / vdot d d := div_pos (abs_pos.2 hm) (vdot_self_pos hm)
  unfold SameDir Along
  rw [cross2_project hm hu hx, sgn_zero hc]
  refine and_congr_right fun h0 => ?_
  obtain ⟨c, hc, he⟩ := dot2_project hm hu hx hun h0
  rw [he]; exact sgn_pos hc

theorem project_ne {d u : Vec3} {m : Fin 3} (hm : d m ≠ 0) (hu : vdot d u = 0) (hun : u ≠ 0) : project (-d) m u ≠ 0 := by
  have h := (sameDir_project hm hu hu hun).2 ⟨by simp only [vdet_eq]; ring, ?_⟩
  · intro h0
    rw [h0] at h
    have := h.2
    simp [dot2] at this
  · obtain ⟨j, hj⟩ : ∃ i, u i ≠ 0 := by by_contra h; push Not at h; exact hun (funext h)
    exact vdot_self_pos hj

theorem Rays.ne {d a b : Vec3} {P} (h : Rays d P a b) : a ≠ 0 ∧ b ≠ 0 := by
  constructor
  · rintro rfl
    rcases h.cone with h | h <;> simp [vdet_eq, vdot] at h
  · rintro rfl
    rcases h.cone with h | h <;> simp [vdet_eq, vdot] at h

theorem Rays.coneDirs {d a b : Vec3} {P} (h : Rays d P a b) {m : Fin 3} (hm : d m ≠ 0) :
    ConeDirs (project (-d) m a) (project (-d) m b) := by
  have hc : 0 < |d m| / vdot d d := div_pos (abs_pos.2 hm) (vdot_self_pos hm)
  unfold ConeDirs
  rw [cross2_project hm h.pa h.pb]
  rcases h.cone with h' | ⟨h1, h2⟩
  · exact .inl (mul_pos hc h')
  · obtain ⟨c, hc', he⟩ := dot2_project hm h.pa h.pb h.ne.1 h1
    exact .inr ⟨by rw [h1, mul_zero], by rw [he]; exact mul_neg_of_pos_of_neg hc' h2⟩

theorem rays_ccw {d a b u w : Vec3} {P} (h : Rays d P a b) {m : Fin 3} (hm : d m ≠ 0) (pu : vdot d u = 0) (pw : vdot d w = 0)
    (hu0 : u ≠ 0) (hw0 : w ≠ 0) (hu : ∀ i s, P i s → 0 ≤ s * u i) (hn : ¬ Along d u b) (hs : ¬ InWedge d u b w) :
    (∀ i s, P i s → 0 ≤ s * w i) ∧ ¬ Along d w a := by
  have hc : 0 < |d m| / vdot d d := div_pos (abs_pos.2 hm) (vdot_self_pos hm)
  rw [h.mem w pw]
  obtain ⟨k1, k2⟩ := (h.mem u pu).1 hu
  have := cone_ccw (h.coneDirs hm) (u := project (-d) m u) (w := project (-d) m w)
    (by rw [cross2_project hm h.pa pu]; exact mul_nonneg hc.le k1) (by rw [cross2_project hm pu h.pb]; exact mul_nonneg hc.le k2)
    (project_ne hm pu hu0) (project_ne hm pw hw0) (fun h' => hn ((sameDir_project hm pu h.pb hu0).1 h'))
    (fun h' => hs ((inSector_project hm pu h.pb pw hu0).1 h'))
  rw [cross2_project hm h.pa pw, cross2_project hm pw h.pb, sgn_nonneg hc, sgn_nonneg hc, sameDir_project hm pw h.pa hw0] at this
  exact ⟨⟨this.1, this.2.1⟩, this.2.2⟩

theorem rays_cw {d a b u w : Vec3} {P} (h : Rays d P a b) {m : Fin 3} (hm : d m ≠ 0) (pu : vdot d u = 0) (pw : vdot d w = 0)
    (hu0 : u ≠ 0) (hw0 : w ≠ 0) (hw : ∀ i s, P i s → 0 ≤ s * w i) (hn : ¬ Along d w a) (hs : ¬ InWedge d u a w) :
    (∀ i s, P i s → 0 ≤ s * u i) ∧ ¬ Along d u b := by
  have hc : 0 < |d m| / vdot d d := div_pos (abs_pos.2 hm) (vdot_self_pos hm)
  rw [h.mem u pu]
  obtain ⟨k1, k2⟩ := (h.mem w pw).1 hw
  have := cone_cw (h.coneDirs hm) (u := project (-d) m u) (w := project (-d) m w)
    (by rw [cross2_project hm h.pa pw]; exact mul_nonneg hc.le k1) (by rw [cross2_project hm pw h.pb]; exact mul_nonneg hc.le k2)
    (project_ne hm pu hu0) (project_ne hm pw hw0) (fun h' => hn ((sameDir_project hm pw h.pa hw0).1 h'))
    (fun h' => hs ((inSector_project hm pu h.pa pw hu0).1 h'))
  rw [cross2_project hm h.pa pu, cross2_project hm pu h.pb, sgn_nonneg hc, sgn_nonneg hc, sameDir_project hm pu h.pb hu0] at this
  exact ⟨⟨this.1, this.2.1⟩, this.2.2⟩

end Mandoline
