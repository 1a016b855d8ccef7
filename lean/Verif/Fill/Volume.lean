import Verif.Fill.Cells
import Mathlib.Algebra.BigOperators.Ring.List
import Verif.Cell.Remove
import Mathlib.Data.List.Perm.Basic
import Mathlib.Data.List.Count
import Mathlib.Algebra.BigOperators.Fin

/-!
# C110: the cut cells of a grid cell fill it

Volumes as reported by `operators::cell_volumes` (src/operators/volume3.cpp:6-28).
-/
namespace Mandoline
namespace CellCollapser

/-! ## specification -/

/-- positions in the world: `origin + dx * x` (the grid's `world_coord`, mtao `GridD`). -/
def worldPos (o dx : Vec3) (V : ℤ → Vec3) : ℤ → Vec3 := fun v i => o i + dx i * V v i

open Classical in
/-- area, in grid units, of the faces lying in the wall of cell `c` at `x_i = k`. -/
noncomputable def wallArea (faces : List (ℤ × List (List ℤ))) (V : ℤ → Vec3) (c : Coord 3) (i : Fin 3) (k : ℚ) : ℚ :=
  ((faces.map Prod.fst).map fun f =>
    if FaceIn faces V c f ∧ InPlane faces V f i k then |areaVec V (edgesOf faces f) i| / 2 else 0).sum

open Classical in
/-- total reported volume of the cells with a side facing grid cell `c`. -/
noncomputable def volumeIn (faces : List (ℤ × List (List ℤ))) (V nrm : ℤ → Vec3) (vol : ℤ → ℚ) (c : Coord 3) (cells : List (List (ℤ × Bool))) : ℚ :=
  (cells.map fun m => if ∃ x ∈ m, SideIn faces V nrm c x.1 x.2 then cellVolume vol m else 0).sum

/-! ## proofs -/

theorem areaVec_scaled (dx : Vec3) (V : ℤ → Vec3) (E : List DEdge) (i : Fin 3) :
    areaVec (fun v i => dx i * V v i) E i = dx (i + 1) * dx (i + 2) * areaVec V E i := by
  induction E with
  | nil => simp [areaVec]
  | cons e E ih =>
    rw [areaVec_cons, areaVec_cons, Pi.add_apply, Pi.add_apply, ih]
    have : vcross (fun i => dx i * V e.1 i) (fun i => dx i * V e.2 i) i = dx (i + 1) * dx (i + 2) * vcross (V e.1) (V e.2) i := by
      fin_cases i <;> simp [vcross] <;> ring
    rw [this]; ring

theorem areaVec_world (o dx : Vec3) (V : ℤ → Vec3) (C : List ℤ) (i : Fin 3) :
    areaVec (worldPos o dx V) (polyEdges C) i = dx (i + 1) * dx (i + 2) * areaVec V (polyEdges C) i := by
  have : worldPos o dx V = shifted (fun v i => dx i * V v i) o := by
    funext v j; simp [worldPos, shifted, add_comm]
  rw [this, areaVec_loop_shift, areaVec_scaled]

theorem loopVolume_plane (κ : ℚ) (o dx : Vec3) (V : ℤ → Vec3) (C : List ℤ) (i : Fin 3) (k : ℚ) (h : ∀ v ∈ C, V v i = k) :
    loopVolume κ (worldPos o dx V) C = κ * (o i + dx i * k) * (dx (i + 1) * dx (i + 2)) * areaVec V (polyEdges C) i := by
  cases C with
  | nil => simp [loopVolume, polyEdges, areaVec]
  | cons p l =>
    rw [loopVolume_eq]
    have hz : ∀ j, j ≠ i → areaVec (worldPos o dx V) (polyEdges (p :: l)) j = 0 := by
      intro j hj
      rw [areaVec_world, areaVec_loop_plane V _ i k h j hj, mul_zero]
    have hp : worldPos o dx V p i = o i + dx i * k := by simp [worldPos, h p (by simp)]
    have hd : vdot (worldPos o dx V p) (areaVec (worldPos o dx V) (polyEdges (p :: l))) =
        worldPos o dx V p i * areaVec (worldPos o dx V) (polyEdges (p :: l)) i := by
      unfold vdot
      fin_cases i
      · rw [hz 1 (by decide), hz 2 (by decide)]; simp
      · rw [hz 0 (by decide), hz 2 (by decide)]; simp
      · rw [hz 0 (by decide), hz 1 (by decide)]; simp
    rw [hd, hp, areaVec_world]; ring

theorem faceVolume_plane {faces : List (ℤ × List (List ℤ))} {V : ℤ → Vec3} {f : ℤ} {i : Fin 3} {k : ℚ} (h : InPlane faces V f i k)
    (κ : ℚ) (o dx : Vec3) :
    faceBrepVol κ (worldPos o dx V) faces f = κ * (o i + dx i * k) * (dx (i + 1) * dx (i + 2)) * areaVec V (edgesOf faces f) i := by
  unfold faceBrepVol edgesOf
  have hall : ∀ p ∈ faces.filter fun p => decide (p.1 = f), ∀ C ∈ p.2, ∀ v ∈ C, V v i = k := by
    intro p hp C hC v hv
    rw [List.mem_filter, decide_eq_true_eq] at hp
    exact h v ⟨p.2, C, by rw [← hp.2]; exact hp.1, hC, hv⟩
  have hloop : ∀ C : List ℤ, (∀ v ∈ C, V v i = k) → loopVolume κ (worldPos o dx V) C = _ := fun C hC => loopVolume_plane κ o dx V C i k hC
  generalize κ * (o i + dx i * k) * (dx (i + 1) * dx (i + 2)) = q at hloop ⊢
  generalize faces.filter (fun p => decide (p.1 = f)) = L at hall
  induction L with
  | nil => simp [areaVec]
  | cons p L ih =>
    rw [List.flatMap_cons, areaVec_append, Pi.add_apply, List.map_cons, List.sum_cons,
      ih fun p hp => hall p (List.mem_cons_of_mem _ hp), mul_add]
    congr 1
    have h2 := hall p (by simp)
    unfold brepVolume
    generalize p.2 = M at h2
    induction M with
    | nil => simp [areaVec]
    | cons C M ih2 =>
      rw [List.flatMap_cons, areaVec_append, Pi.add_apply, List.map_cons, List.sum_cons,
        ih2 fun C hC => h2 C (List.mem_cons_of_mem _ hC), mul_add, hloop C (h2 C (by simp))]

theorem sideIn_unique {faces : List (ℤ × List (List ℤ))} {V nrm : ℤ → Vec3} {f : ℤ} {b : Bool} {c1 c2 : Coord 3}
    (h1 : SideIn faces V nrm c1 f b) (h2 : SideIn faces V nrm c2 f b) : c1 = c2 := by
  funext i
  by_contra hcc
  rcases slab_common hcc with h | h
  · have p1 : InPlane faces V f i (c1 i + 1) := fun v hv => (h _ (h1.1 v hv i) (h2.1 v hv i)).1
    have p2 : InPlane faces V f i (c2 i) := fun v hv => (h _ (h1.1 v hv i) (h2.1 v hv i)).2
    have := (h1.2 i).2 p1
    have := (h2.2 i).1 p2
    linarith
  · have p1 : InPlane faces V f i (c1 i) := fun v hv => (h _ (h1.1 v hv i) (h2.1 v hv i)).2
    have p2 : InPlane faces V f i (c2 i + 1) := fun v hv => (h _ (h1.1 v hv i) (h2.1 v hv i)).1
    have := (h1.2 i).1 p1
    have := (h2.2 i).2 p2
    linarith

theorem exists_vertex {faces : List (ℤ × List (List ℤ))} (hc : Clean faces) {f : ℤ} (hf : f ∈ faces.map Prod.fst) : ∃ v, IsVertex faces f v := by
  obtain ⟨⟨f', loops⟩, hp, rfl⟩ := List.mem_map.1 hf
  obtain ⟨C, hC⟩ := List.exists_mem_of_ne_nil _ (hc.nonempty _ hp)
  have hsz := hc.size _ hp C hC
  have : C ≠ [] := by rintro rfl; simp at hsz
  obtain ⟨v, hv⟩ := List.exists_mem_of_ne_nil _ this
  exact ⟨v, loops, C, hp, hC, hv⟩

theorem sideSign_sq (b : Bool) : sideSign b * sideSign b = 1 := by cases b <;> norm_num [sideSign]

theorem FaceOk.along {faces : List (ℤ × List (List ℤ))} {V nrm : ℤ → Vec3} {f : ℤ} (hok : FaceOk faces V nrm f) {i : Fin 3} {k : ℚ}
    (hp : InPlane faces V f i k) : nrm f i ≠ 0 := by
  intro h0
  apply hok.nz
  funext j
  by_cases hj : j = i
  · rw [hj]; exact h0
  · exact hok.grid i k hp j hj

/-- **C110.** The grid cell a side of a face faces is unique. -/
theorem C110_side_cell_unique (faces : List (ℤ × List (List ℤ))) (hc : Clean faces) (V nrm : ℤ → Vec3) (f : ℤ) (hf : f ∈ faces.map Prod.fst)
    (hok : FaceOk faces V nrm f) (b : Bool) : ∃! c : Coord 3, SideIn faces V nrm c f b := by
  obtain ⟨v0, hv0⟩ := exists_vertex hc hf
  have hne : ∀ i k, InPlane faces V f i k → sideSign b * nrm f i ≠ 0 := by
    intro i k hp
    exact mul_ne_zero (by unfold sideSign; split <;> norm_num) (hok.along hp)
  obtain ⟨c, hin, _⟩ := hok.home
  classical
  suffices hex : SideIn faces V nrm (fun i => if InPlane faces V f i (c i) ∧ sideSign b * nrm f i < 0 then c i - 1
      else if InPlane faces V f i (c i + 1) ∧ 0 < sideSign b * nrm f i then c i + 1 else c i) f b from
    ⟨_, hex, fun c' hs => sideIn_unique hs hex⟩
  refine ⟨?_, ?_⟩
  · intro v hv i
    have := hin v hv i
    simp only
    split
    · rename_i h
      have := h.1 v hv
      push_cast
      constructor <;> linarith
    · split
      · rename_i h
        have := h.1 v hv
        push_cast
        constructor <;> linarith
      · exact this
  · intro i
    simp only
    split
    · rename_i h
      have h0 := h.1 v0 hv0
      push_cast
      refine ⟨fun hp => ?_, fun _ => h.2⟩
      have := hp v0 hv0
      exfalso; linarith
    · rename_i hn
      split
      · rename_i h
        have h0 := h.1 v0 hv0
        push_cast
        refine ⟨fun _ => h.2, fun hp => ?_⟩
        have := hp v0 hv0
        exfalso; linarith
      · rename_i hn'
        refine ⟨fun hp => ?_, fun hp => ?_⟩
        · rcases lt_or_gt_of_ne (hne _ _ hp) with h | h
          · exact absurd ⟨hp, h⟩ hn
          · exact h
        · rcases lt_or_gt_of_ne (hne _ _ hp) with h | h
          · exact h
          · exact absurd ⟨hp, h⟩ hn'

open Classical in
/-- what face `f` contributes to grid cell `c` through its sides. -/
theorem face_contribution {faces : List (ℤ × List (List ℤ))} {V nrm : ℤ → Vec3} (hc : Clean faces) {f : ℤ} (hf : f ∈ faces.map Prod.fst)
    (hok : FaceOk faces V nrm f) (κ : ℚ) (o dx : Vec3) (c : Coord 3) :
    ((if SideIn faces V nrm c f true then faceBrepVol κ (worldPos o dx V) faces f else 0) -
      if SideIn faces V nrm c f false then faceBrepVol κ (worldPos o dx V) faces f else 0) =
    ∑ i : Fin 3, 2 * κ * (dx (i + 1) * dx (i + 2)) * ((o i + dx i * c i) *
        (if FaceIn faces V c f ∧ InPlane faces V f i (c i) then |areaVec V (edgesOf faces f) i| / 2 else 0) -
      (o i + dx i * (c i + 1)) *
        (if FaceIn faces V c f ∧ InPlane faces V f i (c i + 1) then |areaVec V (edgesOf faces f) i| / 2 else 0)) := by
  obtain ⟨v0, hv0⟩ := exists_vertex hc hf
  by_cases hin : FaceIn faces V c f
  swap
  · rw [if_neg fun h => hin h.1, if_neg fun h => hin h.1]
    simp [hin]
  by_cases hw : ∃ i, InPlane faces V f i (c i) ∨ InPlane faces V f i (c i + 1)
  · obtain ⟨i, hi⟩ := hw
    have hother : ∀ j, j ≠ i → ∀ k, ¬ InPlane faces V f j k := by
      intro j hj k hk
      rcases hi with hi | hi
      · exact hok.along hi (hok.grid j k hk i (Ne.symm hj))
      · exact hok.along hi (hok.grid j k hk i (Ne.symm hj))
    rw [Finset.sum_eq_single i]
    rotate_left
    · intro j _ hj
      rw [if_neg fun h => hother j hj _ h.2, if_neg fun h => hother j hj _ h.2]; ring
    · simp
    obtain ⟨t, ht, harea⟩ := hok.area
    have hai : areaVec V (edgesOf faces f) i = t * nrm f i := by rw [harea]; rfl
    rcases hi with hi | hi
    · have hno : ¬ InPlane faces V f i (c i + 1) := fun h => by
        have := h v0 hv0; have := hi v0 hv0; linarith
      have hs : ∀ b, SideIn faces V nrm c f b ↔ 0 < sideSign b * nrm f i := by
        intro b
        refine ⟨fun h => (h.2 i).1 hi, fun h => ⟨hin, fun j => ?_⟩⟩
        by_cases hj : j = i
        · subst hj; exact ⟨fun _ => h, fun h' => absurd h' hno⟩
        · exact ⟨fun h' => absurd h' (hother j hj _), fun h' => absurd h' (hother j hj _)⟩
      rw [faceVolume_plane hi, hai]
      simp only [hs, hin, hi, hno, and_self, and_false, if_true, if_false]
      rcases lt_or_gt_of_ne (hok.along hi) with h | h
      · rw [if_neg (by simp [sideSign]; linarith), if_pos (by simp [sideSign]; linarith), abs_of_neg (mul_neg_of_pos_of_neg ht h)]
        ring
      · rw [if_pos (by simp [sideSign]; linarith), if_neg (by simp [sideSign]; linarith), abs_of_pos (mul_pos ht h)]
        ring
    · have hno : ¬ InPlane faces V f i (c i) := fun h => by
        have := h v0 hv0; have := hi v0 hv0; linarith
      have hs : ∀ b, SideIn faces V nrm c f b ↔ sideSign b * nrm f i < 0 := by
        intro b
        refine ⟨fun h => (h.2 i).2 hi, fun h => ⟨hin, fun j => ?_⟩⟩
        by_cases hj : j = i
        · subst hj; exact ⟨fun h' => absurd h' hno, fun _ => h⟩
        · exact ⟨fun h' => absurd h' (hother j hj _), fun h' => absurd h' (hother j hj _)⟩
      rw [faceVolume_plane hi, hai]
      simp only [hs, hin, hi, hno, and_self, and_false, if_true, if_false]
      rcases lt_or_gt_of_ne (hok.along hi) with h | h
      · rw [if_pos (by simp [sideSign]; linarith), if_neg (by simp [sideSign]; linarith), abs_of_neg (mul_neg_of_pos_of_neg ht h)]
        ring
      · rw [if_neg (by simp [sideSign]; linarith), if_pos (by simp [sideSign]; linarith), abs_of_pos (mul_pos ht h)]
        ring
  · push Not at hw
    have hs : ∀ b, SideIn faces V nrm c f b := fun b => ⟨hin, fun i => ⟨fun h => absurd h (hw i).1, fun h => absurd h (hw i).2⟩⟩
    rw [if_pos (hs _), if_pos (hs _), sub_self]
    symm
    apply Finset.sum_eq_zero
    intro i _
    rw [if_neg fun h => (hw i).1 h.2, if_neg fun h => (hw i).2 h.2]; ring

theorem sum_sum_list {α : Type} (l : List α) (g : α → Fin 3 → ℚ) : (l.map fun a => ∑ i, g a i).sum = ∑ i, (l.map fun a => g a i).sum := by
  induction l with
  | nil => simp
  | cons a l ih => simp only [List.map_cons, List.sum_cons, ih, Finset.sum_add_distrib]

theorem sum_lin {α : Type} (l : List α) (a b q : ℚ) (g h : α → ℚ) :
    (l.map fun x => q * (a * g x - b * h x)).sum = q * (a * (l.map g).sum - b * (l.map h).sum) := by
  induction l with
  | nil => simp
  | cons x l ih => simp only [List.map_cons, List.sum_cons, ih]; ring

open Classical in
/-- **C110.** If the walls of grid cell `c` are covered by faces (of total area 1 each, in grid units) and no face facing `c` has both
sides in one cell, the reported volumes of the cut cells facing `c` add up to the volume of the grid cell (`κ = ±1/6`; sides are listed
`true` where the normal points into the cell, whence the sign). -/
theorem C110_volume (faces : List (ℤ × List (List ℤ))) (hc : Clean faces) (V nrm : ℤ → Vec3)
    (hok : ∀ f ∈ faces.map Prod.fst, FaceOk faces V nrm f) (ord : DEdge → List ℤ) (hord : ∀ e, (ord e).Perm ((make faces).around e))
    (hccw : Ordered faces V nrm ord) (R : DsuRoots ((make faces).merge ord).ds) (c : Coord 3) (hwall : Walled faces V nrm c)
    (hfold : ∀ f b, SideIn faces V nrm c f b → ¬ Folded faces ((make faces).bake ord R) f)
    (hfull : ∀ i, wallArea faces V c i (c i) = 1 ∧ wallArea faces V c i (c i + 1) = 1) (κ : ℚ) (o dx : Vec3) :
    volumeIn faces V nrm (faceBrepVol κ (worldPos o dx V) faces) c ((make faces).bake ord R).cells =
      - 6 * κ * (dx 0 * dx 1 * dx 2) := by
  obtain ⟨hpos, hnd⟩ := clean_hf hc
  set vol := faceBrepVol κ (worldPos o dx V) faces with hvol
  set cells := ((make faces).bake ord R).cells with hcells
  let S : ℤ × Bool → Bool := fun p => decide (SideIn faces V nrm c p.1 p.2)
  -- a cell faces `c` with all its sides or none
  have hall : ∀ m ∈ cells, (if ∃ x ∈ m, SideIn faces V nrm c x.1 x.2 then cellVolume vol m else 0) = cellVolume vol (m.filter S) := by
    intro m hm
    obtain ⟨k, hk, hkm⟩ := List.mem_iff_getElem.1 hm
    split
    · rename_i h
      obtain ⟨x, hx, hs⟩ := h
      have : m.filter S = m := List.filter_eq_self.2 fun y hy =>
        decide_eq_true (C110_same_grid_cell faces hc V nrm hok ord hord hccw R c hwall k m
          (by rw [← hkm]; exact List.getElem?_eq_getElem hk) x y hx hy hs)
      rw [this]
    · rename_i h
      push Not at h
      have : m.filter S = [] := List.filter_eq_nil_iff.2 fun y hy => by
        simpa [S] using h y hy
      rw [this]; rfl
  have hflat : ∀ L : List (List (ℤ × Bool)), (L.map fun m => cellVolume vol (m.filter S)).sum = cellVolume vol (L.flatten.filter S) := by
    intro L
    induction L with
    | nil => rfl
    | cons m L ih => rw [List.map_cons, List.sum_cons, ih]; unfold cellVolume; simp
  unfold volumeIn
  rw [List.map_congr_left hall, hflat]
  -- all sides facing `c`, once each
  let T : List (ℤ × Bool) := (faces.map Prod.fst).flatMap fun f => [(f, true), (f, false)]
  have hTc : ∀ p : ℤ × Bool, T.count p = if p.1 ∈ faces.map Prod.fst then 1 else 0 := by
    intro p
    have hnd := hc.nodup
    show ((faces.map Prod.fst).flatMap fun f => [(f, true), (f, false)]).count p = _
    generalize faces.map Prod.fst = l at hnd
    induction l with
    | nil => simp
    | cons a l ih =>
      rw [List.nodup_cons] at hnd
      rw [List.flatMap_cons, List.count_append, ih hnd.2]
      obtain ⟨f, b⟩ := p
      by_cases hfa : f = a
      · subst hfa
        rw [if_neg hnd.1]
        cases b <;> simp
      · have hfa' : a ≠ f := Ne.symm hfa
        simp [hfa, hfa']
  have hperm : (cells.flatten.filter S).Perm (T.filter S) := by
    rw [List.perm_iff_count]
    intro p
    by_cases hp : S p = true
    · rw [List.count_filter hp, List.count_filter hp, hTc]
      have hs : SideIn faces V nrm c p.1 p.2 := by simpa [S] using hp
      split
      · rename_i hf
        exact C71_listed_once faces hc ord hord R p.1 hf (hfold _ _ hs) p.2
      · rename_i hf
        refine List.count_eq_zero_of_not_mem fun hin => hf ?_
        obtain ⟨m, hm, hx⟩ := List.mem_flatten.1 hin
        obtain ⟨j, hj, rfl⟩ := List.mem_iff_getElem.1 hm
        obtain ⟨e, he, _, _⟩ := (C38_boundary faces hpos ord hord R j _ (List.getElem?_eq_getElem hj)).2.1 p.1 p.2 hx
        exact face_of_hf hc he
    · rw [List.count_eq_zero_of_not_mem, List.count_eq_zero_of_not_mem]
      · intro h; exact hp (List.mem_filter.1 h).2
      · intro h; exact hp (List.mem_filter.1 h).2
  have hperm' : cellVolume vol (cells.flatten.filter S) = cellVolume vol (T.filter S) := by
    unfold cellVolume; exact (hperm.map _).sum_eq
  rw [hperm']
  have hsum : cellVolume vol (T.filter S) = ((faces.map Prod.fst).map fun f =>
      ((if SideIn faces V nrm c f true then vol f else 0) - if SideIn faces V nrm c f false then vol f else 0)).sum := by
    show cellVolume vol (((faces.map Prod.fst).flatMap fun f => [(f, true), (f, false)]).filter S) = _
    generalize faces.map Prod.fst = l
    induction l with
    | nil => rfl
    | cons a l ih =>
      rw [List.flatMap_cons, List.filter_append, cellVolume_append, ih, List.map_cons, List.sum_cons]
      congr 1
      by_cases h1 : SideIn faces V nrm c a true <;> by_cases h2 : SideIn faces V nrm c a false <;>
        simp [S, h1, h2, cellVolume]
  rw [hsum, List.map_congr_left fun f hf => face_contribution hc hf (hok f hf) κ o dx c, sum_sum_list]
  have hax : ∀ i : Fin 3, ((faces.map Prod.fst).map fun f => 2 * κ * (dx (i + 1) * dx (i + 2)) * ((o i + dx i * c i) *
        (if FaceIn faces V c f ∧ InPlane faces V f i (c i) then |areaVec V (edgesOf faces f) i| / 2 else 0) -
      (o i + dx i * (c i + 1)) *
        (if FaceIn faces V c f ∧ InPlane faces V f i (c i + 1) then |areaVec V (edgesOf faces f) i| / 2 else 0))).sum =
      - 2 * κ * (dx 0 * dx 1 * dx 2) := by
    intro i
    rw [sum_lin]
    obtain ⟨h1, h2⟩ := hfull i
    unfold wallArea at h1 h2
    rw [h1, h2]
    fin_cases i <;> simp <;> ring
  rw [Finset.sum_congr rfl fun i _ => hax i]
  simp; ring

theorem sum_pos_of_mem {α : Type} (l : List α) (g : α → ℚ) (h : ∀ a ∈ l, 0 < g a) (hne : l ≠ []) : 0 < (l.map g).sum := by
  induction l with
  | nil => exact absurd rfl hne
  | cons a l ih =>
    rw [List.map_cons, List.sum_cons]
    have h1 := h a (by simp)
    by_cases hl : l = []
    · subst hl; simpa using h1
    · have := ih (fun b hb => h b (List.mem_cons_of_mem _ hb)) hl
      linarith

theorem areaVec_apply (V : ℤ → Vec3) (E : List DEdge) (i : Fin 3) : areaVec V E i = (E.map fun e => vcross (V e.1) (V e.2) i).sum := by
  induction E with
  | nil => rfl
  | cons e E ih => rw [areaVec_cons, Pi.add_apply, ih, List.map_cons, List.sum_cons]

/-- **C110.** The grid cell `generate` stores for a cut cell (the only grid cell containing the vertices of all its unfolded faces, cf.
C100) exists and is the one the cell faces, as soon as the cell has an unfolded face. -/
theorem C110_grid_cell (faces : List (ℤ × List (List ℤ))) (hc : Clean faces) (hedges : ∀ f, (edgesOf faces f).Nodup) (V nrm : ℤ → Vec3)
    (hok : ∀ f ∈ faces.map Prod.fst, FaceOk faces V nrm f) (ord : DEdge → List ℤ) (hord : ∀ e, (ord e).Perm ((make faces).around e))
    (hccw : Ordered faces V nrm ord) (R : DsuRoots ((make faces).merge ord).ds) (c : Coord 3) (hwall : Walled faces V nrm c)
    (k : ℕ) (m : List (ℤ × Bool)) (hk : ((make faces).bake ord R).cells[k]? = some m) (x : ℤ × Bool) (hx : x ∈ m)
    (h : SideIn faces V nrm c x.1 x.2) (y : ℤ × Bool) (hy : y ∈ m) (hyf : y.1 ∉ ((make faces).bake ord R).foldedFaces) (c' : Coord 3) :
    (∀ z ∈ m, z.1 ∉ ((make faces).bake ord R).foldedFaces → FaceIn faces V c' z.1) ↔ c' = c := by
  obtain ⟨hpos, hnd⟩ := clean_hf hc
  have hall : ∀ z ∈ m, SideIn faces V nrm c z.1 z.2 := fun z hz =>
    C110_same_grid_cell faces hc V nrm hok ord hord hccw R c hwall k m hk x z hx hz h
  have hface : ∀ z ∈ m, z.1 ∈ faces.map Prod.fst := by
    intro z hz
    obtain ⟨e, he, _, _⟩ := (C38_boundary faces hpos ord hord R k m hk).2.1 z.1 z.2 hz
    exact face_of_hf hc he
  constructor
  swap
  · rintro rfl z hz _
    exact (hall z hz).1
  intro hin
  funext i
  by_contra hcc
  -- all unfolded faces lie in one wall
  obtain ⟨s, hs⟩ : ∃ s : ℚ, ∀ z ∈ m, z.1 ∉ ((make faces).bake ord R).foldedFaces → (∃ k, InPlane faces V z.1 i k) ∧ 0 < s * (sideSign z.2 * nrm z.1 i) := by
    rcases slab_common hcc with hsl | hsl
    · refine ⟨1, fun z hz hzf => ?_⟩
      have p : InPlane faces V z.1 i (c i) := fun v hv => (hsl _ (hin z hz hzf v hv i) ((hall z hz).1 v hv i)).2
      exact ⟨⟨_, p⟩, by have := ((hall z hz).2 i).1 p; linarith⟩
    · refine ⟨-1, fun z hz hzf => ?_⟩
      have p : InPlane faces V z.1 i (c i + 1) := fun v hv => (hsl _ (hin z hz hzf v hv i) ((hall z hz).1 v hv i)).1
      exact ⟨⟨_, p⟩, by have := ((hall z hz).2 i).2 p; linarith⟩
  have hclosed := C107_closed_without_folded faces hc hedges ord hord R k m hk
  set m' := m.filter fun p => !decide (p.1 ∈ ((make faces).bake ord R).foldedFaces) with hm'
  have hm'm : ∀ z ∈ m', z ∈ m ∧ z.1 ∉ ((make faces).bake ord R).foldedFaces := by
    intro z hz
    rw [hm', List.mem_filter] at hz
    exact ⟨hz.1, by simpa using hz.2⟩
  have hanti : ∀ e : DEdge, vcross (V e.rev.1) (V e.rev.2) i = - vcross (V e.1) (V e.2) i := by
    intro e
    show vcross (V e.2) (V e.1) i = _
    fin_cases i <;> simp [vcross] <;> ring
  have hsum := closed_sum_zero m' (edgesOf faces) (fun e => vcross (V e.1) (V e.2) i) hanti hclosed
  have hpos' : 0 < (m'.map fun p => s * ((sgn p.2 : ℚ) * ((edgesOf faces p.1).map fun e => vcross (V e.1) (V e.2) i).sum)).sum := by
    refine sum_pos_of_mem m' _ ?_ ?_
    · intro z hz
      obtain ⟨hz1, hz2⟩ := hm'm z hz
      obtain ⟨t, ht, harea⟩ := (hok z.1 (hface z hz1)).area
      have h1 := (hs z hz1 hz2).2
      rw [← areaVec_apply, harea, Pi.smul_apply, smul_eq_mul]
      have : (sgn z.2 : ℚ) = sideSign z.2 := by cases z.2 <;> simp [sgn, sideSign]
      rw [this]
      have := mul_pos ht h1
      linarith
    · exact List.ne_nil_of_mem (a := y) (by rw [hm', List.mem_filter]; exact ⟨hy, by simpa using hyf⟩)
  rw [List.sum_map_mul_left, hsum, mul_zero] at hpos'
  exact lt_irrefl _ hpos'

end CellCollapser
end Mandoline
