import Verif.Cell.Closed
import Verif.Collapse.Angle
import Verif.Core.Vec3
import Mathlib.Tactic.LinearCombination

/-!
# C70: the faces around an edge are visited in geometric order

Transcription of the projection of `merge_around_edge`
(include/mandoline/construction/cell_collapser.hpp:72-146). Simplifications: the branch for edges shorter than `1e-8`
(eigenvector analysis) is not modelled; `mtao::geometry::cyclic_order` is a library function, modelled by its contract
`Ccw`. Scaling of the normals (`normalized`) does not change the statements and is left out.
-/
namespace Mandoline
namespace CellCollapser

/-- the column handed to `cyclic_order` for a signed normal `N` (cell_collapser.hpp:107,122-128): `vba` is
`V(a) - V(b)`, `m` its largest coefficient. -/
def project (vba : Vec3) (m : Fin 3) (N : Vec3) : Dir :=
  if vba m < 0 then (N (m + 1), N (m + 2)) else (N (m + 2), N (m + 1))

/-- contract of `cyclic_order`: from each direction to its cyclic successor, counter-clockwise, no other direction. -/
def Ccw (l : List Dir) : Prop :=
  ∀ i, ∀ hi : i < l.length, ∀ v ∈ l, ¬ InSector l[i] v (l[(i + 1) % l.length]'(Nat.mod_lt _ (by omega)))

/-! ## specification -/

/-- turning counter-clockwise about the axis `d` from `u` one meets `v` strictly before `w`, and strictly after leaving `u`
(the cases are those of `InSector`). -/
def InWedge (d u v w : Vec3) : Prop :=
  (0 < vdet d u w ∧ 0 < vdet d u v ∧ 0 < vdet d v w) ∨
  (vdet d u w = 0 ∧ vdot u w < 0 ∧ 0 < vdet d u v) ∨
  (vdet d u w < 0 ∧ ¬ (0 ≤ vdet d w v ∧ 0 ≤ vdet d v u)) ∨
  ((vdet d u w = 0 ∧ 0 < vdot u w) ∧ ¬ (vdet d u v = 0 ∧ 0 < vdot u v))

/-- direction from an edge `d` into a face with normal `N` whose boundary runs along `d` (counter-clockwise about
`N`). -/
def intoFace (d N : Vec3) : Vec3 := vcross N d

/-! ## proofs -/

theorem cross2_project {d u v : Vec3} {m : Fin 3} (hm : d m ≠ 0) (hu : vdot d u = 0) (hv : vdot d v = 0) :
    cross2 (project (-d) m u) (project (-d) m v) = |d m| / vdot d d * vdet d u v := by
  have hdd : vdot d d ≠ 0 := (vdot_self_pos hm).ne'
  rw [div_mul_eq_mul_div, eq_div_iff hdd]
  unfold vdot at hu hv
  have key : (u (m + 1) * v (m + 2) - u (m + 2) * v (m + 1)) * vdot d d = d m * vdet d u v := by
    rw [vdet_eq]
    unfold vdot
    fin_cases m <;> simp
    · linear_combination (d 1 * v 2 - d 2 * v 1) * hu - (d 1 * u 2 - d 2 * u 1) * hv
    · linear_combination (d 2 * v 0 - d 0 * v 2) * hu - (d 2 * u 0 - d 0 * u 2) * hv
    · linear_combination (d 0 * v 1 - d 1 * v 0) * hu - (d 0 * u 1 - d 1 * u 0) * hv
  unfold project
  simp only [Pi.neg_apply, neg_lt_zero]
  rcases lt_or_gt_of_ne hm with h | h
  · rw [if_neg (by linarith), if_neg (by linarith), abs_of_neg h]
    unfold cross2; simp only
    linear_combination -key
  · rw [if_pos h, if_pos h, abs_of_pos h]
    unfold cross2; simp only
    linear_combination key

theorem vcross_zero {d u v : Vec3} {m : Fin 3} (hm : d m ≠ 0) (hu : vdot d u = 0) (hv : vdot d v = 0)
    (h0 : vdet d u v = 0) (i : Fin 3) : v i * vdot u u = vdot u v * u i := by
  have hdd : vdot d d ≠ 0 := (vdot_self_pos hm).ne'
  -- u × v is parallel to d, hence zero
  have hc : ∀ i, vcross u v i * vdot d d = 0 := by
    have key : ∀ i, vcross u v i * vdot d d = d i * vdet d u v := by
      unfold vdot at hu hv
      intro i
      rw [vdet_eq]
      unfold vdot vcross
      fin_cases i <;> simp
      · linear_combination (d 1 * v 2 - d 2 * v 1) * hu - (d 1 * u 2 - d 2 * u 1) * hv
      · linear_combination (d 2 * v 0 - d 0 * v 2) * hu - (d 2 * u 0 - d 0 * u 2) * hv
      · linear_combination (d 0 * v 1 - d 1 * v 0) * hu - (d 0 * u 1 - d 1 * u 0) * hv
    intro i; rw [key, h0, mul_zero]
  have hz : ∀ i, vcross u v i = 0 := fun i => by
    rcases mul_eq_zero.1 (hc i) with h | h
    · exact h
    · exact absurd h hdd
  have z0 := hz 0
  have z1 := hz 1
  have z2 := hz 2
  simp [vcross] at z0 z1 z2
  unfold vdot
  fin_cases i <;> simp
  · linear_combination -(u 1) * z2 + (u 2) * z1
  · linear_combination (u 0) * z2 - (u 2) * z0
  · linear_combination -(u 0) * z1 + (u 1) * z0

theorem dot2_project {d u v : Vec3} {m : Fin 3} (hm : d m ≠ 0) (hu : vdot d u = 0) (hv : vdot d v = 0)
    (hun : u ≠ 0) (h0 : vdet d u v = 0) :
    ∃ c : ℚ, 0 < c ∧ dot2 (project (-d) m u) (project (-d) m v) = c * vdot u v := by
  have hex : ∃ i, u i ≠ 0 := by by_contra h; push Not at h; exact hun (funext h)
  obtain ⟨j, hj⟩ := hex
  have huu := vdot_self_pos hj
  have hlin := vcross_zero hm hu hv h0
  have hp : 0 < u (m + 1) * u (m + 1) + u (m + 2) * u (m + 2) := by
    by_contra hn
    have h1 : u (m + 1) = 0 := by nlinarith [mul_self_nonneg (u (m + 1)), mul_self_nonneg (u (m + 2))]
    have h2 : u (m + 2) = 0 := by nlinarith [mul_self_nonneg (u (m + 1)), mul_self_nonneg (u (m + 2))]
    unfold vdot at hu
    have h3 : d m * u m = 0 := by
      fin_cases m <;> simp at h1 h2 ⊢ <;> simp [h1, h2] at hu <;> simpa using hu
    have h4 : u m = 0 := by
      rcases mul_eq_zero.1 h3 with h | h
      · exact absurd h hm
      · exact h
    exact hun (by funext i; fin_cases m <;> fin_cases i <;> simp at h1 h2 h4 ⊢ <;> assumption)
  refine ⟨(u (m + 1) * u (m + 1) + u (m + 2) * u (m + 2)) / vdot u u, by positivity, ?_⟩
  rw [div_mul_eq_mul_div, eq_div_iff huu.ne']
  have e1 := hlin (m + 1)
  have e2 := hlin (m + 2)
  unfold project dot2
  split
  · simp only; linear_combination u (m + 1) * e1 + u (m + 2) * e2
  · simp only; linear_combination u (m + 1) * e1 + u (m + 2) * e2

/-- the projection preserves the cyclic order about the edge. -/
theorem inSector_project {d u v w : Vec3} {m : Fin 3} (hm : d m ≠ 0) (hu : vdot d u = 0) (hv : vdot d v = 0)
    (hw : vdot d w = 0) (hun : u ≠ 0) :
    InSector (project (-d) m u) (project (-d) m v) (project (-d) m w) ↔ InWedge d u v w := by
  have hc : 0 < |d m| / vdot d d := div_pos (abs_pos.2 hm) (vdot_self_pos hm)
  have hpos : ∀ x, 0 < |d m| / vdot d d * x ↔ 0 < x := fun x => sgn_pos hc
  have hneg : ∀ x, |d m| / vdot d d * x < 0 ↔ x < 0 := fun x => sgn_neg hc
  have hnn : ∀ x, 0 ≤ |d m| / vdot d d * x ↔ 0 ≤ x := fun x => sgn_nonneg hc
  have hz : ∀ x, |d m| / vdot d d * x = 0 ↔ x = 0 := fun x => sgn_zero hc
  have hsame : ∀ x, vdot d x = 0 → (SameDir (project (-d) m u) (project (-d) m x) ↔ (vdet d u x = 0 ∧ 0 < vdot u x)) := by
    intro x hx
    unfold SameDir
    rw [cross2_project hm hu hx, hz]
    refine and_congr_right fun h0 => ?_
    obtain ⟨c, hc, he⟩ := dot2_project hm hu hx hun h0
    rw [he]; exact sgn_pos hc
  have hopp : (vdet d u w = 0 ∧ dot2 (project (-d) m u) (project (-d) m w) < 0 ∧ 0 < vdet d u v) ↔
      (vdet d u w = 0 ∧ vdot u w < 0 ∧ 0 < vdet d u v) := by
    refine and_congr_right fun h0 => ?_
    obtain ⟨c, hc, he⟩ := dot2_project hm hu hw hun h0
    rw [he, sgn_neg hc]
  unfold InSector InWedge
  rw [hsame v hv, hsame w hw, cross2_project hm hu hw, cross2_project hm hu hv, cross2_project hm hv hw,
    cross2_project hm hw hv, cross2_project hm hv hu]
  simp only [hpos, hneg, hnn, hz, hopp]

theorem vdet_intoFace {d u v : Vec3} (hu : vdot d u = 0) :
    vdet d (intoFace d u) (intoFace d v) = vdot d d * vdet d u v := by
  unfold vdot at hu
  simp only [vdet_eq, intoFace, vcross, vdot]
  simp
  linear_combination 0 * hu

theorem vdot_intoFace {d u v : Vec3} (hu : vdot d u = 0) :
    vdot (intoFace d u) (intoFace d v) = vdot d d * vdot u v := by
  unfold vdot at hu
  simp only [intoFace, vcross, vdot]
  simp
  linear_combination -(d 0 * v 0 + d 1 * v 1 + d 2 * v 2) * hu

theorem inWedge_intoFace {d u v w : Vec3} (hd : 0 < vdot d d) (hu : vdot d u = 0) (hv : vdot d v = 0)
    (hw : vdot d w = 0) : InWedge d (intoFace d u) (intoFace d v) (intoFace d w) ↔ InWedge d u v w := by
  unfold InWedge
  simp only [vdet_intoFace hu, vdet_intoFace hv, vdet_intoFace hw, vdot_intoFace hu, sgn_pos hd, sgn_neg hd,
    sgn_nonneg hd, sgn_zero hd]

/-- **C70.** Let `d` be the vector of an edge, `m` a coordinate in which it does not vanish, and `Ns` the signed normals
of the faces along it, in the order found by `cyclic_order`. Turning counter-clockwise about the edge from a face to its
successor one meets no other face. -/
theorem C70_faces_in_order (d : Vec3) (m : Fin 3) (hm : d m ≠ 0) (Ns : List Vec3) (hperp : ∀ N ∈ Ns, vdot d N = 0)
    (hnz : ∀ N ∈ Ns, N ≠ 0) (hccw : Ccw (Ns.map (project (-d) m))) (i : ℕ) (hi : i < Ns.length) (N : Vec3) (hN : N ∈ Ns) :
    ¬ InWedge d (intoFace d Ns[i]) (intoFace d N) (intoFace d (Ns[(i + 1) % Ns.length]'(Nat.mod_lt _ (by omega)))) := by
  have h1 := hperp _ (List.getElem_mem hi)
  have h2 := hperp N hN
  have h3 := hperp _ (List.getElem_mem (Nat.mod_lt (i + 1) (by omega : 0 < Ns.length)))
  rw [inWedge_intoFace (vdot_self_pos hm) h1 h2 h3, ← inSector_project hm h1 h2 h3 (hnz _ (List.getElem_mem hi))]
  have := hccw i (by simpa using hi) (project (-d) m N) (List.mem_map.2 ⟨N, hN, rfl⟩)
  simpa only [List.getElem_map, List.length_map] using this

/-- **C70.** The wedge after a face starts on the side its signed normal points to, the wedge before a face ends on the
other side. -/
theorem C70_wedge_sides (d N x : Vec3) (hd : d ≠ 0) (hx : vdot d x = 0) :
    (0 < vdet d (intoFace d N) x ↔ 0 < vdot N x) ∧ (0 < vdet d x (intoFace d N) ↔ vdot N x < 0) := by
  obtain ⟨j, hj⟩ : ∃ i, d i ≠ 0 := by by_contra h; push Not at h; exact hd (funext h)
  have hdd := vdot_self_pos hj
  have h1 : vdet d (intoFace d N) x = vdot d d * vdot N x := by
    unfold vdot at hx
    simp only [vdet_eq, intoFace, vcross, vdot]
    simp
    linear_combination -(d 0 * N 0 + d 1 * N 1 + d 2 * N 2) * hx
  have h2 : vdet d x (intoFace d N) = -(vdot d d * vdot N x) := by
    rw [← h1]; simp only [vdet_eq]; ring
  refine ⟨by rw [h1, sgn_pos hdd], ?_⟩
  rw [h2, neg_pos, sgn_neg hdd]

/-- the normal of face `f` signed as in `merge_around_edge` for the half-face along `e` (cell_collapser.hpp:118-119). -/
def signedNormal (s : CellCollapser) (nrm : ℤ → Vec3) (e : DEdge) (f : ℤ) : Vec3 :=
  fun i => (if s.side (f, e) then 1 else -1) * nrm f i

/-- the point `x` (relative to the edge) is on side `b` of face `f`: `true` is the side the normal points to. -/
def OnSide (nrm : ℤ → Vec3) (f : ℤ) (b : Bool) (x : Vec3) : Prop := if b then 0 < vdot (nrm f) x else vdot (nrm f) x < 0

/-- **C70, in the collapser.** If `f'` follows `f` around an edge, in the order computed from the normals, then
* no face along the edge lies strictly between them,
* a cell contains both the side of `f` and the side of `f'` that face the wedge between them,
* and these are really the sides facing it: if the wedge is less than a half turn, all its points are on these sides. -/
theorem C70_wedge_in_one_cell (faces : List (ℤ × List (List ℤ))) (hc : Clean faces) (V nrm : ℤ → Vec3) (ord : DEdge → List ℤ)
    (hord : ∀ e, (ord e).Perm ((make faces).around e)) (R : DsuRoots ((make faces).merge ord).ds)
    (e : DEdge) (he : e.1 < e.2) (m : Fin 3) (hm : (V e.2 - V e.1) m ≠ 0)
    (hperp : ∀ f ∈ ord e, vdot (V e.2 - V e.1) (nrm f) = 0) (hnz : ∀ f ∈ ord e, nrm f ≠ 0)
    (hccw : Ccw ((ord e).map fun f => project (V e.1 - V e.2) m ((make faces).signedNormal nrm e f)))
    (i : ℕ) (hi : i < (ord e).length) (f f' : ℤ) (hf : f = (ord e)[i])
    (hf' : f' = (ord e)[(i + 1) % (ord e).length]'(Nat.mod_lt _ (by omega))) :
    (∀ g ∈ ord e, ¬ InWedge (V e.2 - V e.1) (intoFace (V e.2 - V e.1) ((make faces).signedNormal nrm e f))
      (intoFace (V e.2 - V e.1) ((make faces).signedNormal nrm e g))
      (intoFace (V e.2 - V e.1) ((make faces).signedNormal nrm e f'))) ∧
    ((make faces).bake ord R).cell (f, e) = ((make faces).bake ord R).cell (f', e.rev) ∧
    ∀ x, vdot (V e.2 - V e.1) x = 0 →
      0 < vdet (V e.2 - V e.1) (intoFace (V e.2 - V e.1) ((make faces).signedNormal nrm e f)) x →
      0 < vdet (V e.2 - V e.1) x (intoFace (V e.2 - V e.1) ((make faces).signedNormal nrm e f')) →
      OnSide nrm f ((make faces).side (f, e)) x ∧ OnSide nrm f' ((make faces).side (f', e.rev)) x := by
  obtain ⟨hpos, hnd⟩ := clean_hf hc
  have hraw := raw_make faces
  obtain ⟨hinv, _⟩ := make_clean faces hc
  have hfm : f ∈ ord e := hf ▸ List.getElem_mem hi
  have hfm' : f' ∈ ord e := hf' ▸ List.getElem_mem _
  have hm1 : (f, e) ∈ (make faces).hfList := mem_around.1 ((hord e).mem_iff.1 hfm)
  have hm2 : (f', e) ∈ (make faces).hfList := mem_around.1 ((hord e).mem_iff.1 hfm')
  have hdot : ∀ (f : ℤ) (x : Vec3), vdot ((make faces).signedNormal nrm e f) x =
      (if (make faces).side (f, e) then 1 else -1) * vdot (nrm f) x := by
    intro f x; unfold vdot signedNormal; ring
  have hdot' : ∀ (f : ℤ) (x : Vec3), vdot x ((make faces).signedNormal nrm e f) =
      (if (make faces).side (f, e) then 1 else -1) * vdot x (nrm f) := by
    intro f x; unfold vdot signedNormal; ring
  refine ⟨?_, ?_, ?_⟩
  · intro g hg
    have := C70_faces_in_order (V e.2 - V e.1) m hm ((ord e).map ((make faces).signedNormal nrm e)) ?_ ?_ ?_ i
      (by simpa using hi) ((make faces).signedNormal nrm e g) (List.mem_map.2 ⟨g, hg, rfl⟩)
    · simp only [List.getElem_map, List.length_map] at this
      rw [hf, hf']; exact this
    · intro N hN
      obtain ⟨h, hh, rfl⟩ := List.mem_map.1 hN
      rw [hdot', hperp h hh, mul_zero]
    · intro N hN h0
      obtain ⟨h, hh, rfl⟩ := List.mem_map.1 hN
      apply hnz h hh
      funext k
      have := congrFun h0 k
      unfold signedNormal at this
      simp only [Pi.zero_apply] at this ⊢
      split at this <;> linarith
    · rw [List.map_map, neg_sub]; exact hccw
  · refine (C38_same_cell_iff_linked faces hpos ord hord R _ _ hm1 (rev_mem hraw hm2)).2 (.rel _ _ ?_)
    refine ⟨e, f, f', by rw [hinv]; simp, he, ?_, rfl, rfl⟩
    unfold FaceCollapser.cyclicPairs
    rw [List.mem_iff_getElem]
    refine ⟨i, by simpa using hi, ?_⟩
    rw [List.getElem_zip, List.getElem_rotate, hf, hf']
  · intro x hx h1 h2
    have hd : V e.2 - V e.1 ≠ 0 := fun h => hm (by rw [h]; rfl)
    have k1 := (C70_wedge_sides _ ((make faces).signedNormal nrm e f) x hd hx).1.1 h1
    have k2 := (C70_wedge_sides _ ((make faces).signedNormal nrm e f') x hd hx).2.1 h2
    rw [hdot] at k1 k2
    have hs := side_rev hraw hm2 (hnd _ hm2)
    unfold OnSide
    rw [hs]
    constructor
    · split <;> rename_i hb
      · rw [hb, if_pos rfl] at k1; linarith
      · rw [if_neg hb] at k1; linarith
    · cases hb : (make faces).side (f', e)
      · rw [hb, if_neg (by simp)] at k2
        simp only [Bool.not_false, if_true]; linarith
      · rw [hb, if_pos rfl] at k2
        simp only [Bool.not_true, Bool.false_eq_true, if_false]; linarith

end CellCollapser
end Mandoline
