import Verif.Fill.Volume
import Mathlib.Tactic.FieldSimp

/-! # C110: a grid cell cut in two -/
namespace Mandoline
namespace CellCollapser

/-! ## the hypotheses, checked edge by edge -/

theorem toward_iff (c : Coord 3) (p q x : Vec3) : Toward c p q x ↔
    ∀ i, (p i = c i ∧ q i = c i → 0 ≤ x i) ∧ (p i = c i + 1 ∧ q i = c i + 1 → x i ≤ 0) := by
  unfold Toward InWall
  constructor
  · intro h i
    refine ⟨fun hp => ?_, fun hp => ?_⟩
    · have := h i 1 (.inl ⟨rfl, hp.1, hp.2⟩); linarith
    · have := h i (-1) (.inr ⟨rfl, hp.1, hp.2⟩); linarith
  · intro h i s hs
    rcases hs with ⟨rfl, a, b⟩ | ⟨rfl, a, b⟩
    · have := (h i).1 ⟨a, b⟩; linarith
    · have := (h i).2 ⟨a, b⟩; linarith

instance (c : Coord 3) (p q x : Vec3) : Decidable (Toward c p q x) := decidable_of_iff _ (toward_iff c p q x).symm

instance (u v w : Dir) : Decidable (InSector u v w) := by unfold InSector SameDir; infer_instance

instance (l : List Dir) : Decidable (Ccw l) := by unfold Ccw; infer_instance

instance (c : Coord 3) (x : Vec3) : Decidable (InClosedCell c x) := by unfold InClosedCell; infer_instance

theorem isVertex_iff {faces : List (ℤ × List (List ℤ))} (hc : Clean faces) {f : ℤ} {loops : List (List ℤ)} (h : (f, loops) ∈ faces) (v : ℤ) :
    IsVertex faces f v ↔ v ∈ loops.flatten := by
  constructor
  · rintro ⟨l, C, h1, h2, h3⟩
    have : (f, l) = (f, loops) := List.inj_on_of_nodup_map hc.nodup h1 h rfl
    have : l = loops := congrArg Prod.snd this
    subst this
    exact List.mem_flatten.2 ⟨C, h2, h3⟩
  · intro hv
    obtain ⟨C, h2, h3⟩ := List.mem_flatten.1 hv
    exact ⟨loops, C, h, h2, h3⟩

theorem faceOk_of_check {faces : List (ℤ × List (List ℤ))} (hc : Clean faces) (V nrm : ℤ → Vec3) (c : Coord 3)
    (h : ∀ p ∈ faces, nrm p.1 ≠ 0 ∧ (∀ v ∈ p.2.flatten, InClosedCell c (V v) ∧ ∀ v' ∈ p.2.flatten, vdot (nrm p.1) (V v' - V v) = 0) ∧
      (∀ e ∈ p.2.flatMap polyEdges, V e.1 ≠ V e.2 ∧ Toward c (V e.1) (V e.2) (intoFace (V e.2 - V e.1) (nrm p.1))) ∧
      areaVec V (p.2.flatMap polyEdges) = nrm p.1) : ∀ f ∈ faces.map Prod.fst, FaceOk faces V nrm f := by
  intro f hf
  obtain ⟨⟨f, loops⟩, hp, rfl⟩ := List.mem_map.1 hf
  obtain ⟨h1, h2, h3, h4⟩ := h _ hp
  have he := edgesOf_eq hc hp
  refine ⟨h1, ?_, ?_, ⟨1, one_pos, by rw [one_smul, he]; exact h4⟩, c, ?_, ?_⟩
  · intro v v' hv hv'
    rw [isVertex_iff hc hp] at hv hv'
    exact (h2 v hv).2 v' hv'
  · intro e hm; rw [he] at hm; exact (h3 e hm).1
  · intro v hv; rw [isVertex_iff hc hp] at hv; exact (h2 v hv).1
  · intro e hm; rw [he] at hm; exact (h3 e hm).2

/-- the direction `d × e_i`. -/
def wallDir (d : Vec3) (i : Fin 3) : Vec3 := fun j => if j = i + 1 then d (i + 2) else if j = i + 2 then - d (i + 1) else 0

theorem wallDir_self (d : Vec3) (i : Fin 3) : wallDir d i i = 0 := by fin_cases i <;> simp [wallDir]
theorem wallDir_one (d : Vec3) (i : Fin 3) : wallDir d i (i + 1) = d (i + 2) := by fin_cases i <;> simp [wallDir]
theorem wallDir_two (d : Vec3) (i : Fin 3) : wallDir d i (i + 2) = - d (i + 1) := by fin_cases i <;> simp [wallDir]

theorem walled_of_check {faces : List (ℤ × List (List ℤ))} (hc : Clean faces) (V nrm : ℤ → Vec3) (c : Coord 3)
    (h : ∀ e ∈ (make faces).hfList.map Prod.snd, V e.1 ≠ V e.2 ∧ ∀ i, ∀ σ ∈ [(1 : ℚ), -1], (V e.1 i = V e.2 i) →
      Toward c (V e.1) (V e.2) (σ • wallDir (V e.2 - V e.1) i) → ∃ p ∈ faces, ∃ e' ∈ p.2.flatMap polyEdges, (e' = e ∨ e' = e.rev) ∧
        vcross (intoFace (V e'.2 - V e'.1) (nrm p.1)) (wallDir (V e.2 - V e.1) i) = 0 ∧
        0 < vdot (intoFace (V e'.2 - V e'.1) (nrm p.1)) (σ • wallDir (V e.2 - V e.1) i)) : Walled faces V nrm c := by
  intro f e he _ _ i s hw x hx0 hx hxi htw
  have hmem : e ∈ (make faces).hfList.map Prod.snd := List.mem_map.2 ⟨(f, e), ((C38_halffaces faces hc f e true).2 he).1, rfl⟩
  obtain ⟨hne, hchk⟩ := h e hmem
  have hdi : V e.1 i = V e.2 i := by
    have := (inWall_sq hw).2
    rw [Pi.sub_apply] at this; linarith
  -- x is a multiple of the wall direction
  obtain ⟨t, hxt⟩ : ∃ t : ℚ, x = t • wallDir (V e.2 - V e.1) i := by
    have hd0 : V e.2 - V e.1 ≠ 0 := fun h0 => hne (sub_eq_zero.1 h0).symm
    have hdi' : (V e.2 - V e.1) i = 0 := (inWall_sq hw).2
    generalize V e.2 - V e.1 = d at *
    have hx' : d (i + 1) * x (i + 1) + d (i + 2) * x (i + 2) = 0 := by
      unfold vdot at hx
      fin_cases i <;> simp at hx hdi' hxi ⊢ <;> simp [hdi', hxi] at hx ⊢ <;> linarith
    by_cases h2 : d (i + 2) = 0
    · have h1 : d (i + 1) ≠ 0 := by
        intro h1; apply hd0
        funext j
        fin_cases i <;> fin_cases j <;> simp at h1 h2 hdi' ⊢ <;> assumption
      refine ⟨- x (i + 2) / d (i + 1), ?_⟩
      have hz : x (i + 1) = 0 := by
        rw [h2, zero_mul, add_zero] at hx'
        rcases mul_eq_zero.1 hx' with h | h
        · exact absurd h h1
        · exact h
      funext j
      have hj : j = i ∨ j = i + 1 ∨ j = i + 2 := by fin_cases i <;> fin_cases j <;> decide
      rcases hj with rfl | rfl | rfl
      · rw [Pi.smul_apply, wallDir_self, smul_zero, hxi]
      · rw [Pi.smul_apply, wallDir_one, h2, smul_zero, hz]
      · rw [Pi.smul_apply, wallDir_two, smul_eq_mul]
        field_simp
    · refine ⟨x (i + 1) / d (i + 2), ?_⟩
      funext j
      have hj : j = i ∨ j = i + 1 ∨ j = i + 2 := by fin_cases i <;> fin_cases j <;> decide
      rcases hj with rfl | rfl | rfl
      · rw [Pi.smul_apply, wallDir_self, smul_zero, hxi]
      · rw [Pi.smul_apply, wallDir_one, smul_eq_mul]
        field_simp
      · rw [Pi.smul_apply, wallDir_two, smul_eq_mul, div_mul_eq_mul_div, eq_div_iff h2]
        linarith
  have ht0 : t ≠ 0 := by intro h0; apply hx0; funext j; rw [hxt, h0]; exact zero_mul _
  obtain ⟨σ, r, hσ, hr, hx1⟩ : ∃ σ r : ℚ, σ ∈ [(1 : ℚ), -1] ∧ 0 < r ∧ x = r • σ • wallDir (V e.2 - V e.1) i := by
    rcases lt_or_gt_of_ne ht0 with h | h
    · exact ⟨-1, -t, by simp, by linarith, by rw [hxt]; funext j; simp only [Pi.smul_apply, smul_eq_mul]; ring⟩
    · exact ⟨1, t, by simp, h, by rw [hxt]; funext j; simp only [Pi.smul_apply, smul_eq_mul]; ring⟩
  have htw' : Toward c (V e.1) (V e.2) (σ • wallDir (V e.2 - V e.1) i) := by
    intro j u hj
    have := htw j u hj
    rw [hx1, Pi.smul_apply, smul_eq_mul] at this
    have h2 : 0 ≤ r * (u * (σ • wallDir (V e.2 - V e.1) i) j) := by linarith
    exact (sgn_nonneg hr).1 h2
  obtain ⟨p, hp, e', he', hor, hcr, hdot⟩ := hchk i σ hσ hdi htw'
  refine ⟨p.1, e', mem_edgesOf.2 ⟨p.2, hp, he'⟩, hor, ?_⟩
  generalize intoFace (V e'.2 - V e'.1) (nrm p.1) = u at *
  generalize hw' : wallDir (V e.2 - V e.1) i = w at *
  have hww : 0 < vdot (σ • w) (σ • w) := by
    by_contra hc
    have : σ • w = 0 := by
      funext j
      by_contra hj
      exact hc (vdot_self_pos hj)
    rw [this] at hdot
    simp [vdot] at hdot
  have hσ2 : σ * σ = 1 := by
    simp only [List.mem_cons, List.not_mem_nil, or_false] at hσ
    rcases hσ with rfl | rfl <;> norm_num
  refine ⟨vdot u (σ • w) / vdot (σ • w) (σ • w) / r, by positivity, ?_⟩
  funext j
  rw [hx1, Pi.smul_apply, Pi.smul_apply, smul_eq_mul, smul_eq_mul]
  have hr0 := hr.ne'
  have hww0 := hww.ne'
  rw [div_mul_eq_mul_div, eq_div_iff hr0, div_mul_eq_mul_div, eq_div_iff hww0]
  have z0 := congrFun hcr 0
  have z1 := congrFun hcr 1
  have z2 := congrFun hcr 2
  simp [vcross] at z0 z1 z2
  have hvv : vdot (σ • w) (σ • w) = vdot w w := by
    have : vdot (σ • w) (σ • w) = σ * σ * vdot w w := by unfold vdot; simp only [Pi.smul_apply, smul_eq_mul]; ring
    rw [this, hσ2, one_mul]
  have huv : vdot u (σ • w) = σ * vdot u w := by unfold vdot; simp only [Pi.smul_apply, smul_eq_mul]; ring
  rw [hvv, huv, Pi.smul_apply, smul_eq_mul]
  have key : u j * vdot w w = vdot u w * w j := by
    unfold vdot
    fin_cases j <;> simp
    · linear_combination w 1 * z2 - w 2 * z1
    · linear_combination -(w 0) * z2 + w 2 * z0
    · linear_combination w 0 * z1 - w 1 * z0
  linear_combination r * key - (r * vdot u w * w j) * hσ2

theorem ordered_of_check {faces : List (ℤ × List (List ℤ))} (V nrm : ℤ → Vec3) (ord : DEdge → List ℤ)
    (hord : ∀ e, (ord e).Perm ((make faces).around e))
    (h : ∀ e ∈ (make faces).hfList.map Prod.snd, e.1 < e.2 → ∃ m, (V e.2 - V e.1) m ≠ 0 ∧
      Ccw ((ord e).map fun f => project (V e.1 - V e.2) m ((make faces).signedNormal nrm e f))) : Ordered faces V nrm ord := by
  intro e he hne
  refine h e ?_ he
  obtain ⟨f, hf⟩ := List.exists_mem_of_ne_nil _ hne
  exact List.mem_map.2 ⟨(f, e), mem_around.1 ((hord e).mem_iff.1 hf), rfl⟩

theorem wallArea_eq {faces : List (ℤ × List (List ℤ))} (hc : Clean faces) (V : ℤ → Vec3) (c : Coord 3) (i : Fin 3) (k : ℚ) :
    wallArea faces V c i k = (faces.map fun p => if (∀ v ∈ p.2.flatten, InClosedCell c (V v)) ∧ (∀ v ∈ p.2.flatten, V v i = k) then
      |areaVec V (p.2.flatMap polyEdges) i| / 2 else 0).sum := by
  unfold wallArea
  rw [List.map_map]
  congr 1
  apply List.map_congr_left
  intro p hp
  simp only [Function.comp]
  rw [edgesOf_eq hc (f := p.1) (loops := p.2) hp]
  have h1 : FaceIn faces V c p.1 ↔ ∀ v ∈ p.2.flatten, InClosedCell c (V v) := by
    unfold FaceIn; simp only [isVertex_iff hc (f := p.1) (loops := p.2) hp]
  have h2 : InPlane faces V p.1 i k ↔ ∀ v ∈ p.2.flatten, V v i = k := by
    unfold InPlane; simp only [isVertex_iff hc (f := p.1) (loops := p.2) hp]
  congr 1
  rw [h1, h2]

/-! ## the unit cell cut by the plane `x = 1/2` -/

/-- corners 0–7 (bits z y x) and the midpoints 8–11 of the edges along the first axis. -/
def halfV (v : ℤ) : Vec3 :=
  if v < 8 then ![(v % 2 : ℤ), (v / 2 % 2 : ℤ), (v / 4 % 2 : ℤ)] else ![1 / 2, ((v - 8) % 2 : ℤ), ((v - 8) / 2 % 2 : ℤ)]

/-- two uncut walls, four walls in two pieces, the cut. -/
def halfFaces : List (ℤ × List (List ℤ)) :=
  [(0, [[0, 2, 6, 4]]), (1, [[1, 3, 7, 5]]),
   (2, [[0, 4, 10, 8]]), (3, [[8, 10, 5, 1]]), (4, [[2, 6, 11, 9]]), (5, [[9, 11, 7, 3]]),
   (6, [[0, 8, 9, 2]]), (7, [[8, 1, 3, 9]]), (8, [[4, 10, 11, 6]]), (9, [[10, 5, 7, 11]]),
   (10, [[8, 9, 11, 10]])]

/-- the area vectors as normals. -/
def halfN (f : ℤ) : Vec3 := areaVec halfV (edgesOf halfFaces f)

theorem half_clean : Clean halfFaces := by
  refine ⟨?_, ?_, ?_, ?_, ?_⟩ <;> decide +kernel

/-- cyclic orders around the edges: with three faces one of the two possible ones. -/
def halfOrd (e : DEdge) : List ℤ :=
  if (∃ m : Fin 3, (halfV e.2 - halfV e.1) m ≠ 0 ∧
    Ccw (((make halfFaces).around e).map fun f => project (halfV e.1 - halfV e.2) m ((make halfFaces).signedNormal halfN e f)))
  then (make halfFaces).around e else ((make halfFaces).around e).reverse

theorem halfOrd_perm (e : DEdge) : (halfOrd e).Perm ((make halfFaces).around e) := by
  unfold halfOrd
  split
  · exact .refl _
  · exact List.reverse_perm _

theorem half_ordered : Ordered halfFaces halfV halfN halfOrd := by
  apply ordered_of_check _ _ _ halfOrd_perm
  decide +kernel

theorem half_ok : ∀ f ∈ halfFaces.map Prod.fst, FaceOk halfFaces halfV halfN f := by
  apply faceOk_of_check half_clean _ _ 0
  decide +kernel

theorem half_walled : Walled halfFaces halfV halfN 0 := by
  apply walled_of_check half_clean
  decide +kernel

theorem half_full (i : Fin 3) : wallArea halfFaces halfV 0 i ((0 : Coord 3) i) = 1 ∧ wallArea halfFaces halfV 0 i ((0 : Coord 3) i + 1) = 1 := by
  rw [wallArea_eq half_clean, wallArea_eq half_clean]
  revert i
  decide +kernel

/-- the collapser after `bake`. -/
def halfBaked : CellCollapser :=
  (make halfFaces).bake halfOrd (merge_dsOk (raw_make halfFaces) _ halfOrd_perm).roots

example : halfBaked.cells.length = 3 ∧ halfBaked.foldedFaces = [] := by decide +kernel

/-- all hypotheses of C110 hold in this example: its two inner cells fill the unit cell. -/
example (κ : ℚ) (o dx : Vec3) :
    volumeIn halfFaces halfV halfN (faceBrepVol κ (worldPos o dx halfV) halfFaces) 0 halfBaked.cells = - 6 * κ * (dx 0 * dx 1 * dx 2) := by
  refine C110_volume halfFaces half_clean halfV halfN half_ok halfOrd halfOrd_perm half_ordered _ 0 half_walled ?_ half_full κ o dx
  intro f b _ hf
  obtain ⟨hpos, hnd⟩ := clean_hf half_clean
  have := (C38_folded_faces halfFaces hpos hnd halfOrd halfOrd_perm (merge_dsOk (raw_make halfFaces) _ halfOrd_perm).roots f).2 hf
  have h0 : halfBaked.foldedFaces = [] := by decide +kernel
  unfold halfBaked at h0
  rw [h0] at this
  simp at this

end CellCollapser
end Mandoline
