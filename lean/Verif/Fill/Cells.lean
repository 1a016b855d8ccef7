import Verif.Fill.Step
import Verif.Cell.Volume
import Verif.Geom.Spec
import Mathlib.Tactic.LinearCombination

/-!
# C110: a cut cell stays in its grid cell

`CellCollapser` never compares grid cells: the two sides of the faces are joined by turning around edges
(include/mandoline/construction/cell_collapser.hpp:66-163). The generator nevertheless attaches one grid cell to each cut
cell (src/construction/generator3.cpp:104-147), and volumes are later compared per grid cell
(tools/validation/grid_cells.cpp:7-47). This file proves that turning around edges cannot leave a grid cell whose
boundary squares are covered by faces.
-/
namespace Mandoline
namespace CellCollapser

/-! ## specification -/

/-- `v` is a vertex of face `f`. -/
def IsVertex (faces : List (ℤ × List (List ℤ))) (f v : ℤ) : Prop := ∃ loops C, (f, loops) ∈ faces ∧ C ∈ loops ∧ v ∈ C

/-- face `f` lies in the closed grid cell `c`. -/
def FaceIn (faces : List (ℤ × List (List ℤ))) (V : ℤ → Vec3) (c : Coord 3) (f : ℤ) : Prop :=
  ∀ v, IsVertex faces f v → InClosedCell c (V v)

/-- face `f` lies in the plane `x_i = k`. -/
def InPlane (faces : List (ℤ × List (List ℤ))) (V : ℤ → Vec3) (f : ℤ) (i : Fin 3) (k : ℚ) : Prop :=
  ∀ v, IsVertex faces f v → V v i = k

/-- sign of a side: the side `true` is the one the normal points to. -/
def sideSign (b : Bool) : ℚ := if b then 1 else -1

/-- side `b` of face `f` faces the inside of grid cell `c`: the face is in the closed cell, and if it lies in a wall of the
cell the side is the one towards the cell. -/
def SideIn (faces : List (ℤ × List (List ℤ))) (V nrm : ℤ → Vec3) (c : Coord 3) (f : ℤ) (b : Bool) : Prop :=
  FaceIn faces V c f ∧ ∀ i, (InPlane faces V f i (c i) → 0 < sideSign b * nrm f i) ∧
    (InPlane faces V f i (c i + 1) → sideSign b * nrm f i < 0)

/-- the segment `pq` lies in a wall of cell `c` perpendicular to axis `i`; `s` is the direction from the wall into the cell. -/
def InWall (c : Coord 3) (p q : Vec3) (i : Fin 3) (s : ℚ) : Prop :=
  (s = 1 ∧ p i = c i ∧ q i = c i) ∨ (s = -1 ∧ p i = c i + 1 ∧ q i = c i + 1)

/-- moving from the segment `pq` in direction `x` one does not cross a wall of cell `c` containing the segment. -/
def Toward (c : Coord 3) (p q x : Vec3) : Prop := ∀ i s, InWall c p q i s → 0 ≤ s * x i

/-- a face as the generator makes them: a flat polygon inside one grid cell, with edges of positive length, whose normal
points along its area vector; from an edge in a wall of the cell the polygon goes to the inside. -/
structure FaceOk (faces : List (ℤ × List (List ℤ))) (V nrm : ℤ → Vec3) (f : ℤ) : Prop where
  nz : nrm f ≠ 0
  flat : ∀ v v', IsVertex faces f v → IsVertex faces f v' → vdot (nrm f) (V v' - V v) = 0
  edge : ∀ e ∈ edgesOf faces f, V e.1 ≠ V e.2
  area : ∃ t : ℚ, 0 < t ∧ areaVec V (edgesOf faces f) = t • nrm f
  home : ∃ c, FaceIn faces V c f ∧ ∀ e ∈ edgesOf faces f, Toward c (V e.1) (V e.2) (intoFace (V e.2 - V e.1) (nrm f))

/-- the walls of cell `c` are covered by faces: from an edge of a face that lies in a wall, in both directions within the
wall's plane that stay in the cell, there is a face. -/
def Walled (faces : List (ℤ × List (List ℤ))) (V nrm : ℤ → Vec3) (c : Coord 3) : Prop :=
  ∀ f e, e ∈ edgesOf faces f → InClosedCell c (V e.1) → InClosedCell c (V e.2) → ∀ i s, InWall c (V e.1) (V e.2) i s →
    ∀ x : Vec3, x ≠ 0 → vdot (V e.2 - V e.1) x = 0 → x i = 0 → Toward c (V e.1) (V e.2) x →
      ∃ g e', e' ∈ edgesOf faces g ∧ (e' = e ∨ e' = e.rev) ∧ ∃ t : ℚ, 0 < t ∧ intoFace (V e'.2 - V e'.1) (nrm g) = t • x

/-! ## proofs -/

theorem mem_polyEdges_vertex {C : List ℤ} {e : DEdge} (h : e ∈ polyEdges C) : e.1 ∈ C ∧ e.2 ∈ C := by
  unfold polyEdges at h
  have := List.of_mem_zip (a := e.1) (b := e.2) h
  exact ⟨this.1, by simpa using this.2⟩

theorem isVertex_of_edge {faces : List (ℤ × List (List ℤ))} {f : ℤ} {e : DEdge} (h : e ∈ edgesOf faces f) :
    IsVertex faces f e.1 ∧ IsVertex faces f e.2 := by
  obtain ⟨loops, h1, h2⟩ := mem_edgesOf.1 h
  obtain ⟨C, h3, h4⟩ := List.mem_flatMap.1 h2
  obtain ⟨h5, h6⟩ := mem_polyEdges_vertex h4
  exact ⟨⟨loops, C, h1, h3, h5⟩, ⟨loops, C, h1, h3, h6⟩⟩

theorem isVertex_of_hf {faces : List (ℤ × List (List ℤ))} (hc : Clean faces) {f : ℤ} {e : DEdge} (h : (f, e) ∈ (make faces).hfList) :
    IsVertex faces f e.1 ∧ IsVertex faces f e.2 := by
  have := (C38_halffaces faces hc f e _).1 ⟨h, rfl⟩
  split at this
  · exact isVertex_of_edge this
  · exact (isVertex_of_edge this).symm

theorem inWall_sq {c : Coord 3} {p q : Vec3} {i : Fin 3} {s : ℚ} (h : InWall c p q i s) : s * s = 1 ∧ (q - p) i = 0 := by
  rcases h with ⟨rfl, h1, h2⟩ | ⟨rfl, h1, h2⟩
  · exact ⟨by norm_num, by rw [Pi.sub_apply, h1, h2, sub_self]⟩
  · exact ⟨by norm_num, by rw [Pi.sub_apply, h1, h2, sub_self]⟩

theorem inWall_unique {c : Coord 3} {p q : Vec3} {i : Fin 3} {s t : ℚ} (h : InWall c p q i s) (h' : InWall c p q i t) : s = t := by
  rcases h with ⟨rfl, h1, h2⟩ | ⟨rfl, h1, h2⟩ <;> rcases h' with ⟨rfl, h3, h4⟩ | ⟨rfl, h3, h4⟩
  · rfl
  · exfalso; linarith
  · exfalso; linarith
  · rfl

/-- two different integers, a number in both unit intervals. -/
theorem slab_common {a b : ℤ} (h : a ≠ b) :
    (∀ x : ℚ, (a : ℚ) ≤ x ∧ x ≤ a + 1 → (b : ℚ) ≤ x ∧ x ≤ b + 1 → x = a + 1 ∧ x = b) ∨
    (∀ x : ℚ, (a : ℚ) ≤ x ∧ x ≤ a + 1 → (b : ℚ) ≤ x ∧ x ≤ b + 1 → x = b + 1 ∧ x = a) := by
  rcases lt_or_gt_of_ne h with h | h
  · left
    intro x h1 h2
    have : (a : ℚ) + 1 ≤ b := by exact_mod_cast h
    constructor <;> linarith
  · right
    intro x h1 h2
    have : (b : ℚ) + 1 ≤ a := by exact_mod_cast h
    constructor <;> linarith

/-- a loop in a plane `x_i = k` has its area vector along axis `i`. -/
theorem areaVec_loop_plane (V : ℤ → Vec3) (C : List ℤ) (i : Fin 3) (k : ℚ) (h : ∀ v ∈ C, V v i = k) (j : Fin 3) (hj : j ≠ i) :
    areaVec V (polyEdges C) j = 0 := by
  rw [← areaVec_loop_shift V (fun l => if l = i then -k else 0) C]
  unfold areaVec
  have h1 : ∀ E : List DEdge, (∀ e ∈ E, e.1 ∈ C ∧ e.2 ∈ C) →
      (E.map fun e => vcross (shifted V (fun l => if l = i then -k else 0) e.1) (shifted V (fun l => if l = i then -k else 0) e.2)).sum j = 0 := by
    intro E hE
    induction E with
    | nil => rfl
    | cons e E ih =>
      rw [List.map_cons, List.sum_cons, Pi.add_apply, ih fun e he => hE e (List.mem_cons_of_mem _ he), add_zero]
      obtain ⟨a, b⟩ := hE e (by simp)
      have z1 : shifted V (fun l => if l = i then -k else 0) e.1 i = 0 := by simp [shifted, h _ a]
      have z2 : shifted V (fun l => if l = i then -k else 0) e.2 i = 0 := by simp [shifted, h _ b]
      generalize shifted V (fun l => if l = i then -k else 0) e.1 = x at *
      generalize shifted V (fun l => if l = i then -k else 0) e.2 = y at *
      fin_cases i <;> fin_cases j <;> simp [vcross] at z1 z2 hj ⊢ <;> simp [z1, z2]
  exact h1 _ fun e he => mem_polyEdges_vertex he

theorem areaVec_flatMap (V : ℤ → Vec3) (L : List (List ℤ)) : areaVec V (L.flatMap polyEdges) = (L.map fun C => areaVec V (polyEdges C)).sum := by
  induction L with
  | nil => rfl
  | cons C L ih => rw [List.flatMap_cons, areaVec_append, ih, List.map_cons, List.sum_cons]

theorem edgesOf_eq {faces : List (ℤ × List (List ℤ))} (hc : Clean faces) {f : ℤ} {loops : List (List ℤ)}
    (h : (f, loops) ∈ faces) : edgesOf faces f = loops.flatMap polyEdges := by
  unfold edgesOf
  have : (faces.filter fun p => decide (p.1 = f)) = [(f, loops)] := by
    have hnd : (faces.map Prod.fst).Nodup := hc.nodup
    clear hc
    induction faces with
    | nil => simp at h
    | cons p l ih =>
      rw [List.map_cons, List.nodup_cons] at hnd
      rcases List.mem_cons.1 h with rfl | h'
      · rw [List.filter_cons_of_pos (by simp), List.filter_eq_nil_iff.2]
        intro q hq
        simp only [decide_eq_true_eq]
        rintro rfl
        exact hnd.1 (List.mem_map.2 ⟨_, hq, rfl⟩)
      · rw [List.filter_cons_of_neg, ih h' hnd.2]
        simp only [decide_eq_true_eq]
        rintro rfl
        exact hnd.1 (List.mem_map.2 ⟨_, h', rfl⟩)
  rw [this]; simp

theorem areaVec_plane {faces : List (ℤ × List (List ℤ))} {V : ℤ → Vec3} {f : ℤ} {i : Fin 3} {k : ℚ} (h : InPlane faces V f i k) {j : Fin 3} (hj : j ≠ i) :
    areaVec V (edgesOf faces f) j = 0 := by
  unfold edgesOf
  have hall : ∀ p ∈ faces.filter fun p => decide (p.1 = f), ∀ C ∈ p.2, ∀ v ∈ C, V v i = k := by
    intro p hp C hC v hv
    rw [List.mem_filter, decide_eq_true_eq] at hp
    exact h v ⟨p.2, C, by rw [← hp.2]; exact hp.1, hC, hv⟩
  generalize faces.filter (fun p => decide (p.1 = f)) = L at hall
  induction L with
  | nil => rfl
  | cons p L ih =>
    rw [List.flatMap_cons, areaVec_append, Pi.add_apply, ih fun p hp => hall p (List.mem_cons_of_mem _ hp), add_zero]
    have h2 := hall p (by simp)
    generalize p.2 = M at h2
    induction M with
    | nil => rfl
    | cons C M ih2 =>
      rw [List.flatMap_cons, areaVec_append, Pi.add_apply, ih2 fun C hC => h2 C (List.mem_cons_of_mem _ hC), add_zero]
      exact areaVec_loop_plane V C i k (h2 C (by simp)) j hj

theorem FaceOk.grid {faces : List (ℤ × List (List ℤ))} {V nrm : ℤ → Vec3} {f : ℤ} (hok : FaceOk faces V nrm f) (i : Fin 3) (k : ℚ)
    (h : InPlane faces V f i k) (j : Fin 3) (hj : j ≠ i) : nrm f j = 0 := by
  obtain ⟨t, ht, he⟩ := hok.area
  have h1 := areaVec_plane h hj
  rw [he, Pi.smul_apply, smul_eq_mul] at h1
  rcases mul_eq_zero.1 h1 with h2 | h2
  · exact absurd h2 ht.ne'
  · exact h2

section
variable {faces : List (ℤ × List (List ℤ))} {V nrm : ℤ → Vec3} {f : ℤ} {e : DEdge}

/-- the direction from edge `e` into face `f`. -/
def into (faces : List (ℤ × List (List ℤ))) (V nrm : ℤ → Vec3) (e : DEdge) (f : ℤ) : Vec3 :=
  intoFace (V e.2 - V e.1) ((make faces).signedNormal nrm e f)

theorem into_of_edge (hc : Clean faces) (h : e ∈ edgesOf faces f) :
    into faces V nrm e f = intoFace (V e.2 - V e.1) (nrm f) ∧ into faces V nrm e.rev f = intoFace (V e.2 - V e.1) (nrm f) := by
  have h1 := ((C38_halffaces faces hc f e true).2 h).2
  have h2 := ((C38_halffaces faces hc f e.rev false).2 h).2
  unfold into signedNormal
  rw [h1, h2]
  constructor
  · simp
  · unfold DEdge.rev intoFace vcross
    funext i
    fin_cases i <;> simp <;> ring

theorem into_facts (hc : Clean faces) (hok : FaceOk faces V nrm f) (hm : (f, e) ∈ (make faces).hfList) :
    V e.2 - V e.1 ≠ 0 ∧ vdot (V e.2 - V e.1) ((make faces).signedNormal nrm e f) = 0 ∧
    vdot (V e.2 - V e.1) (into faces V nrm e f) = 0 ∧
    (∀ i, vcross (V e.2 - V e.1) (into faces V nrm e f) i =
      vdot (V e.2 - V e.1) (V e.2 - V e.1) * (make faces).signedNormal nrm e f i) ∧
    (∃ c, FaceIn faces V c f ∧ Toward c (V e.1) (V e.2) (into faces V nrm e f)) := by
  obtain ⟨v1, v2⟩ := isVertex_of_hf hc hm
  have hperp : vdot (V e.2 - V e.1) ((make faces).signedNormal nrm e f) = 0 := by
    have h1 := hok.flat _ _ v1 v2
    have : vdot (V e.2 - V e.1) ((make faces).signedNormal nrm e f) =
        (if (make faces).side (f, e) then 1 else -1) * vdot (nrm f) (V e.2 - V e.1) := by
      unfold signedNormal vdot; ring
    rw [this, h1, mul_zero]
  have hside := (C38_halffaces faces hc f e _).1 ⟨hm, rfl⟩
  refine ⟨?_, hperp, ?_, ?_, ?_⟩
  · intro h0
    have h1 : V e.2 = V e.1 := sub_eq_zero.1 h0
    split at hside
    · exact hok.edge _ hside h1.symm
    · exact hok.edge _ hside h1
  · unfold into intoFace vdot vcross; simp; ring
  · intro i
    unfold into
    generalize V e.2 - V e.1 = d at *
    generalize (make faces).signedNormal nrm e f = N at *
    unfold intoFace
    unfold vdot at hperp ⊢
    fin_cases i <;> simp [vcross]
    · linear_combination -(d 0) * hperp
    · linear_combination -(d 1) * hperp
    · linear_combination -(d 2) * hperp
  · obtain ⟨c, h1, h2⟩ := hok.home
    refine ⟨c, h1, ?_⟩
    split at hside
    · rw [(into_of_edge hc hside).1]; exact h2 e hside
    · have := (into_of_edge (V := V) (nrm := nrm) hc hside).2
      rw [DEdge.rev_rev] at this
      rw [this]
      have h3 := h2 _ hside
      intro i s hw
      refine h3 i s ?_
      rcases hw with ⟨a, b, c⟩ | ⟨a, b, c⟩
      · exact .inl ⟨a, c, b⟩
      · exact .inr ⟨a, c, b⟩

theorem signedNormal_apply (i : Fin 3) :
    (make faces).signedNormal nrm e f i = sideSign ((make faces).side (f, e)) * nrm f i := rfl

/-- a face in a grid plane has its direction in the plane. -/
theorem into_of_inPlane (hc : Clean faces) (hok : FaceOk faces V nrm f) {i : Fin 3} {k : ℚ}
    (hp : InPlane faces V f i k) : into faces V nrm e f i = 0 := by
  have h := hok.grid i k hp
  have h1 : ∀ j, j ≠ i → (make faces).signedNormal nrm e f j = 0 := fun j hj => by rw [signedNormal_apply, h j hj, mul_zero]
  unfold into
  generalize (make faces).signedNormal nrm e f = N at *
  unfold intoFace
  fin_cases i <;> simp [vcross]
  · rw [h1 1 (by decide), h1 2 (by decide)]; ring
  · rw [h1 0 (by decide), h1 2 (by decide)]; ring
  · rw [h1 0 (by decide), h1 1 (by decide)]; ring

/-- a face whose edge lies in a grid plane and whose direction at this edge does too lies in the plane. -/
theorem inPlane_of_into (hc : Clean faces) (hok : FaceOk faces V nrm f) (hm : (f, e) ∈ (make faces).hfList) {i : Fin 3}
    (hd : (V e.2 - V e.1) i = 0) (hu : into faces V nrm e f i = 0) : InPlane faces V f i (V e.1 i) ∧ nrm f i ≠ 0 := by
  obtain ⟨h1, _, _, h4, _⟩ := into_facts hc hok hm
  obtain ⟨v1, _⟩ := isVertex_of_hf hc hm
  have hdd : vdot (V e.2 - V e.1) (V e.2 - V e.1) ≠ 0 := by
    obtain ⟨j, hj⟩ : ∃ i, (V e.2 - V e.1) i ≠ 0 := by by_contra h; push Not at h; exact h1 (funext h)
    exact (vdot_self_pos hj).ne'
  have hs : sideSign ((make faces).side (f, e)) ≠ 0 := by unfold sideSign; split <;> norm_num
  have hz : ∀ j, j ≠ i → nrm f j = 0 := by
    intro j hj
    have h5 : vcross (V e.2 - V e.1) (into faces V nrm e f) j = 0 := by
      generalize into faces V nrm e f = u at *
      generalize V e.2 - V e.1 = d at *
      fin_cases i <;> fin_cases j <;> simp [vcross] at hd hu hj ⊢ <;> simp [hd, hu]
    rw [h4, signedNormal_apply] at h5
    rcases mul_eq_zero.1 h5 with h | h
    · exact absurd h hdd
    · rcases mul_eq_zero.1 h with h | h
      · exact absurd h hs
      · exact h
  have hi : nrm f i ≠ 0 := by
    intro h0
    apply hok.nz
    funext j
    by_cases hj : j = i
    · rw [hj]; exact h0
    · exact hz j hj
  refine ⟨fun v hv => ?_, hi⟩
  have := hok.flat _ _ v1 hv
  have h6 : vdot (nrm f) (V v - V e.1) = nrm f i * (V v i - V e.1 i) := by
    unfold vdot
    fin_cases i
    · simp [hz 1 (by decide), hz 2 (by decide)]
    · simp [hz 0 (by decide), hz 2 (by decide)]
    · simp [hz 0 (by decide), hz 1 (by decide)]
  rw [h6] at this
  rcases mul_eq_zero.1 this with h | h
  · exact absurd h hi
  · linarith

/-- in terms of the direction from an edge: being on a side that faces a grid cell. -/
theorem sideIn_iff (hc : Clean faces) (hok : FaceOk faces V nrm f) (hm : (f, e) ∈ (make faces).hfList) (c : Coord 3) (b : Bool) :
    SideIn faces V nrm c f b ↔ (InClosedCell c (V e.1) ∧ InClosedCell c (V e.2)) ∧ Toward c (V e.1) (V e.2) (into faces V nrm e f) ∧
      ∀ i s, InWall c (V e.1) (V e.2) i s → into faces V nrm e f i = 0 →
        0 < sideSign b * sideSign ((make faces).side (f, e)) * (s * vcross (V e.2 - V e.1) (into faces V nrm e f) i) := by
  obtain ⟨h1, _, _, h4, c', h5, h6⟩ := into_facts hc hok hm
  obtain ⟨v1, v2⟩ := isVertex_of_hf hc hm
  have hdd : 0 < vdot (V e.2 - V e.1) (V e.2 - V e.1) := by
    obtain ⟨j, hj⟩ : ∃ i, (V e.2 - V e.1) i ≠ 0 := by by_contra h; push Not at h; exact h1 (funext h)
    exact vdot_self_pos hj
  have hss : ∀ b, sideSign b * sideSign b = 1 := fun b => by cases b <;> norm_num [sideSign]
  have hval : ∀ i s, sideSign b * sideSign ((make faces).side (f, e)) * (s * vcross (V e.2 - V e.1) (into faces V nrm e f) i) =
      vdot (V e.2 - V e.1) (V e.2 - V e.1) * (s * (sideSign b * nrm f i)) := by
    intro i s
    rw [h4, signedNormal_apply]
    linear_combination (sideSign b * s * vdot (V e.2 - V e.1) (V e.2 - V e.1) * nrm f i) * hss ((make faces).side (f, e))
  constructor
  · rintro ⟨g1, g2⟩
    refine ⟨⟨g1 _ v1, g1 _ v2⟩, ?_, ?_⟩
    · intro i s hw
      by_cases hcc : c' i = c i
      · refine h6 i s ?_
        unfold InWall
        rw [hcc]; exact hw
      · have : InPlane faces V f i (V e.1 i) := by
          rcases slab_common hcc with h | h
          · intro v hv
            rw [(h _ (h5 v hv i) (g1 v hv i)).1, (h _ (h5 _ v1 i) (g1 _ v1 i)).1]
          · intro v hv
            rw [(h _ (h5 v hv i) (g1 v hv i)).1, (h _ (h5 _ v1 i) (g1 _ v1 i)).1]
        rw [into_of_inPlane hc hok this, mul_zero]
    · intro i s hw hu
      rw [hval, sgn_pos hdd]
      obtain ⟨hp, _⟩ := inPlane_of_into hc hok hm (inWall_sq hw).2 hu
      rcases hw with ⟨rfl, a, _⟩ | ⟨rfl, a, _⟩
      · rw [a] at hp
        have := (g2 i).1 hp
        linarith
      · rw [a] at hp
        have := (g2 i).2 hp
        linarith
  · rintro ⟨⟨g1, g2⟩, g3, g4⟩
    refine ⟨?_, ?_⟩
    · intro v hv i
      by_cases hcc : c' i = c i
      · have := h5 v hv i
        rw [hcc] at this; exact this
      · have hw : ∃ s, InWall c (V e.1) (V e.2) i s ∧ InWall c' (V e.1) (V e.2) i (-s) := by
          rcases slab_common hcc with h | h
          · obtain ⟨a, b⟩ := h _ (h5 _ v1 i) (g1 i)
            obtain ⟨a', b'⟩ := h _ (h5 _ v2 i) (g2 i)
            exact ⟨1, .inl ⟨rfl, b, b'⟩, .inr ⟨rfl, a, a'⟩⟩
          · obtain ⟨a, b⟩ := h _ (h5 _ v1 i) (g1 i)
            obtain ⟨a', b'⟩ := h _ (h5 _ v2 i) (g2 i)
            exact ⟨-1, .inr ⟨rfl, a, a'⟩, .inl ⟨by norm_num, b, b'⟩⟩
        obtain ⟨s, w1, w2⟩ := hw
        have k1 := g3 i s w1
        have k2 := h6 i _ w2
        have k3 : into faces V nrm e f i = 0 := by
          have : s * into faces V nrm e f i = 0 := by linarith
          rcases mul_eq_zero.1 this with h | h
          · exfalso
            have := (inWall_sq w1).1
            rw [h] at this; norm_num at this
          · exact h
        obtain ⟨hp, _⟩ := inPlane_of_into hc hok hm (inWall_sq w1).2 k3
        rw [hp v hv]
        exact g1 i
    · intro i
      constructor
      · intro hp
        have := g4 i 1 (.inl ⟨rfl, hp _ v1, hp _ v2⟩) (into_of_inPlane hc hok hp)
        rw [hval, sgn_pos hdd] at this
        linarith
      · intro hp
        have := g4 i (-1) (.inr ⟨rfl, hp _ v1, hp _ v2⟩) (into_of_inPlane hc hok hp)
        rw [hval, sgn_pos hdd] at this
        linarith

end

/-- how `merge_around_edge` orders the faces around an edge, cf. C70: projected along a coordinate in which the edge does
not vanish, the signed normals are in counter-clockwise order. -/
def Ordered (faces : List (ℤ × List (List ℤ))) (V nrm : ℤ → Vec3) (ord : DEdge → List ℤ) : Prop :=
  ∀ e : DEdge, e.1 < e.2 → ord e ≠ [] → ∃ m, (V e.2 - V e.1) m ≠ 0 ∧
    Ccw ((ord e).map fun f => project (V e.1 - V e.2) m ((make faces).signedNormal nrm e f))

theorem along_facts {d u b : Vec3} (hd : d ≠ 0) (pu : vdot d u = 0) (pb : vdot d b = 0) (hb : b ≠ 0) (h : Along d u b) :
    ∃ t : ℚ, 0 < t ∧ u = t • b := by
  obtain ⟨m, hm⟩ : ∃ i, d i ≠ 0 := by by_contra h; push Not at h; exact hd (funext h)
  obtain ⟨j, hj⟩ : ∃ i, b i ≠ 0 := by by_contra h; push Not at h; exact hb (funext h)
  have hbb := vdot_self_pos hj
  have := vcross_zero hm pb pu h.symm.1
  refine ⟨vdot b u / vdot b b, div_pos h.symm.2 hbb, ?_⟩
  funext i
  rw [Pi.smul_apply, smul_eq_mul, div_mul_eq_mul_div, eq_div_iff hbb.ne']
  exact this i

theorem vcross_smul (d b : Vec3) (t : ℚ) (i : Fin 3) : vcross d (t • b) i = t * vcross d b i := by
  fin_cases i <;> simp [vcross] <;> ring

theorem face_of_hf {faces : List (ℤ × List (List ℤ))} (hc : Clean faces) {f : ℤ} {e : DEdge} (hm : (f, e) ∈ (make faces).hfList) :
    f ∈ faces.map Prod.fst := by
  obtain ⟨⟨l, _, h, _⟩, _⟩ := isVertex_of_hf hc hm
  exact List.mem_map.2 ⟨_, h, rfl⟩

/-- one turn. -/
theorem turn_sideIn (faces : List (ℤ × List (List ℤ))) (hc : Clean faces) (V nrm : ℤ → Vec3) (hok : ∀ f ∈ faces.map Prod.fst, FaceOk faces V nrm f)
    (ord : DEdge → List ℤ) (hord : ∀ e, (ord e).Perm ((make faces).around e)) (hccw : Ordered faces V nrm ord)
    (c : Coord 3) (hwall : Walled faces V nrm c) (x y : Side) (h : (make faces).Turn ord x y) :
    SideIn faces V nrm c x.1 x.2 ↔ SideIn faces V nrm c y.1 y.2 := by
  obtain ⟨e, f, f', _, hlt, hpair, rfl, rfl⟩ := h
  obtain ⟨hfm, hfm'⟩ := mem_cyclicPairs hpair
  have hmem : ∀ g ∈ ord e, (g, e) ∈ (make faces).hfList := fun g hg => mem_around.1 ((hord e).mem_iff.1 hg)
  have hokg : ∀ g ∈ ord e, FaceOk faces V nrm g := fun g hg => hok g (face_of_hf hc (hmem g hg))
  have hm1 := hmem f hfm
  have hm2 := hmem f' hfm'
  obtain ⟨m, hm, hcc⟩ := hccw e hlt (List.ne_nil_of_mem hfm)
  have hsn0 : ∀ g ∈ ord e, (make faces).signedNormal nrm e g ≠ 0 := by
    intro g hg h0
    apply (hokg g hg).nz
    funext k
    have := congrFun h0 k
    rw [signedNormal_apply] at this
    unfold sideSign at this
    simp only [Pi.zero_apply] at this ⊢
    split at this <;> linarith
  -- no face strictly between
  have hnw : ∀ g ∈ ord e, ¬ InWedge (V e.2 - V e.1) (into faces V nrm e f) (into faces V nrm e g) (into faces V nrm e f') := by
    intro g hg
    obtain ⟨i, hi, hf, hf'⟩ : ∃ i, ∃ hi : i < (ord e).length, f = (ord e)[i] ∧
        f' = (ord e)[(i + 1) % (ord e).length]'(Nat.mod_lt _ (by omega)) := by
      unfold FaceCollapser.cyclicPairs at hpair
      obtain ⟨i, hi, he⟩ := List.mem_iff_getElem.1 hpair
      simp only [List.length_zip, List.length_rotate, min_self] at hi
      rw [List.getElem_zip, List.getElem_rotate] at he
      exact ⟨i, hi, (congrArg Prod.fst he).symm, (congrArg Prod.snd he).symm⟩
    have := C70_faces_in_order (V e.2 - V e.1) m hm ((ord e).map ((make faces).signedNormal nrm e)) ?_ ?_ ?_ i
      (by simpa using hi) ((make faces).signedNormal nrm e g) (List.mem_map.2 ⟨g, hg, rfl⟩)
    · simp only [List.getElem_map, List.length_map] at this
      unfold into
      rw [hf, hf']; exact this
    · intro N hN
      obtain ⟨k, hk, rfl⟩ := List.mem_map.1 hN
      exact (into_facts hc (hokg k hk) (hmem k hk)).2.1
    · intro N hN
      obtain ⟨k, hk, rfl⟩ := List.mem_map.1 hN
      exact hsn0 k hk
    · rw [List.map_map, neg_sub]; exact hcc
  obtain ⟨hpos, hnd⟩ := clean_hf hc
  have hrev := side_rev (raw_make faces) hm2 (hnd _ hm2)
  have hss : ∀ b, sideSign b * sideSign b = 1 := fun b => by cases b <;> norm_num [sideSign]
  have hsr : sideSign ((make faces).side (f', e.rev)) * sideSign ((make faces).side (f', e)) = -1 := by
    rw [hrev]; cases (make faces).side (f', e) <;> norm_num [sideSign]
  simp only
  rw [sideIn_iff hc (hokg f hfm) hm1, sideIn_iff hc (hokg f' hfm') hm2, hss, hsr]
  refine and_congr_right fun hcell => ?_
  obtain ⟨hd0, _, pu, qu, _⟩ := into_facts hc (hokg f hfm) hm1
  obtain ⟨_, _, pw, qw, _⟩ := into_facts hc (hokg f' hfm') hm2
  have hdd : 0 < vdot (V e.2 - V e.1) (V e.2 - V e.1) := vdot_self_pos hm
  have hnz : ∀ g ∈ ord e, into faces V nrm e g ≠ 0 := by
    intro g hg h0
    obtain ⟨_, _, _, q, _⟩ := into_facts hc (hokg g hg) (hmem g hg)
    apply hsn0 g hg
    funext i
    have := q i
    rw [h0] at this
    have h1 : vcross (V e.2 - V e.1) 0 i = 0 := by fin_cases i <;> simp [vcross]
    rw [h1] at this
    rcases mul_eq_zero.1 this.symm with h | h
    · exact absurd h hdd.ne'
    · exact h
  have hu0 := hnz f hfm
  have hw0 := hnz f' hfm'
  by_cases hT : ∃ i s, InWall c (V e.1) (V e.2) i s
  swap
  · push Not at hT
    exact ⟨fun _ => ⟨fun i s hw => absurd hw (hT i s), fun i s hw => absurd hw (hT i s)⟩,
      fun _ => ⟨fun i s hw => absurd hw (hT i s), fun i s hw => absurd hw (hT i s)⟩⟩
  obtain ⟨a, b, hr⟩ := rays_exist hd0 (P := InWall c (V e.1) (V e.2)) (fun i s hw => inWall_sq hw) (fun i s t => inWall_unique) hT
  -- an edge of some face along `e`
  obtain ⟨f0, e0, he0, hee⟩ : ∃ f0 e0, e0 ∈ edgesOf faces f0 ∧ (e0 = e ∨ e0 = e.rev) := by
    have := (C38_halffaces faces hc f e _).1 ⟨hm1, rfl⟩
    split at this
    · exact ⟨f, e, this, .inl rfl⟩
    · exact ⟨f, e.rev, this, .inr rfl⟩
  have hfind : ∀ x : Vec3, x ≠ 0 → vdot (V e.2 - V e.1) x = 0 → (∃ i s, InWall c (V e.1) (V e.2) i s ∧ x i = 0) →
      Toward c (V e.1) (V e.2) x → ∃ g ∈ ord e, ∃ t : ℚ, 0 < t ∧ into faces V nrm e g = t • x := by
    intro x hx px ⟨i, s, hw, hi⟩ htw
    have hfin : ∀ g e', e' ∈ edgesOf faces g → (e' = e ∨ e' = e.rev) → ∀ t : ℚ, 0 < t → intoFace (V e'.2 - V e'.1) (nrm g) = t • x →
        ∃ g ∈ ord e, ∃ t : ℚ, 0 < t ∧ into faces V nrm e g = t • x := by
      intro g e' he' hor t ht heq
      rcases hor with rfl | rfl
      · refine ⟨g, (hord _).mem_iff.2 (mem_around.2 ((C38_halffaces faces hc g e' true).2 he').1), t, ht, ?_⟩
        rw [(into_of_edge hc he').1]; exact heq
      · refine ⟨g, (hord _).mem_iff.2 (mem_around.2 ((C38_halffaces faces hc g e false).2 he').1), t, ht, ?_⟩
        have := (into_of_edge (V := V) (nrm := nrm) hc he').2
        rw [DEdge.rev_rev] at this
        rw [this]; exact heq
    rcases hee with rfl | rfl
    · obtain ⟨g, e', he', hor, t, ht, heq⟩ := hwall f0 e0 he0 hcell.1 hcell.2 i s hw x hx px hi htw
      exact hfin g e' he' hor t ht heq
    · have hsw : ∀ i s, InWall c (V e.rev.1) (V e.rev.2) i s → InWall c (V e.1) (V e.2) i s := by
        intro i s hw
        rcases hw with ⟨a, b, c⟩ | ⟨a, b, c⟩
        · exact .inl ⟨a, c, b⟩
        · exact .inr ⟨a, c, b⟩
      have hsw' : ∀ i s, InWall c (V e.1) (V e.2) i s → InWall c (V e.rev.1) (V e.rev.2) i s := by
        intro i s hw
        rcases hw with ⟨a, b, c⟩ | ⟨a, b, c⟩
        · exact .inl ⟨a, c, b⟩
        · exact .inr ⟨a, c, b⟩
      have px' : vdot (V e.rev.2 - V e.rev.1) x = 0 := by
        have : vdot (V e.rev.2 - V e.rev.1) x = - vdot (V e.2 - V e.1) x := by
          show vdot (V e.1 - V e.2) x = _
          unfold vdot; simp only [Pi.sub_apply]; ring
        rw [this, px, neg_zero]
      obtain ⟨g, e', he', hor, t, ht, heq⟩ := hwall f0 e.rev he0 hcell.2 hcell.1 i s (hsw' i s hw) x hx px' hi
        (fun j r hj => htw j r (hsw j r hj))
      exact hfin g e' he' (by rw [DEdge.rev_rev] at hor; exact hor.symm) t ht heq
  -- sign of the normal component of a direction in a wall
  have hsig : ∀ g ∈ ord e, ∀ i s, InWall c (V e.1) (V e.2) i s → into faces V nrm e g i = 0 →
      s * vcross (V e.2 - V e.1) (into faces V nrm e g) i ≠ 0 := by
    intro g hg i s hw hz
    obtain ⟨_, _, _, q, _⟩ := into_facts hc (hokg g hg) (hmem g hg)
    obtain ⟨_, hn⟩ := inPlane_of_into hc (hokg g hg) (hmem g hg) (inWall_sq hw).2 hz
    rw [q, signedNormal_apply]
    have h1 : s ≠ 0 := by rintro rfl; have := (inWall_sq hw).1; norm_num at this
    have h2 : sideSign ((make faces).side (g, e)) ≠ 0 := by unfold sideSign; split <;> norm_num
    exact mul_ne_zero h1 (mul_ne_zero hdd.ne' (mul_ne_zero h2 hn))
  have hray : ∀ x, Along (V e.2 - V e.1) x b → vdot (V e.2 - V e.1) x = 0 → ∃ i s, InWall c (V e.1) (V e.2) i s ∧ x i = 0 ∧
      s * vcross (V e.2 - V e.1) x i < 0 := by
    intro x hx px
    obtain ⟨t, ht, rfl⟩ := along_facts hd0 px hr.pb hr.ne.2 hx
    obtain ⟨i, s, h1, h2, h3⟩ := hr.lb
    refine ⟨i, s, h1, by simp [h2], ?_⟩
    rw [vcross_smul]
    have := mul_neg_of_pos_of_neg ht h3
    linarith
  have hray' : ∀ x, Along (V e.2 - V e.1) x a → vdot (V e.2 - V e.1) x = 0 → ∃ i s, InWall c (V e.1) (V e.2) i s ∧ x i = 0 ∧
      0 < s * vcross (V e.2 - V e.1) x i := by
    intro x hx px
    obtain ⟨t, ht, rfl⟩ := along_facts hd0 px hr.pa hr.ne.1 hx
    obtain ⟨i, s, h1, h2, h3⟩ := hr.la
    refine ⟨i, s, h1, by simp [h2], ?_⟩
    rw [vcross_smul]
    have := mul_pos ht h3
    linarith
  have hself : ∀ z : Vec3, vdet (V e.2 - V e.1) z z = 0 := fun z => by simp only [vdet_eq]; ring
  have hcone : 0 ≤ vdet (V e.2 - V e.1) a b := by
    rcases hr.cone with h | h
    · exact h.le
    · exact h.1.ge
  constructor
  · rintro ⟨k1, k2⟩
    have hbT : Toward c (V e.1) (V e.2) b := (hr.mem b hr.pb).2 ⟨hcone, (hself b).ge⟩
    obtain ⟨i0, s0, w0, z0, _⟩ := hr.lb
    obtain ⟨g, hg, t, ht, heq⟩ := hfind b hr.ne.2 hr.pb ⟨i0, s0, w0, z0⟩ hbT
    have hr' := hr.smulB ht
    rw [← heq] at hr'
    have hna : ¬ Along (V e.2 - V e.1) (into faces V nrm e f) (into faces V nrm e g) := by
      intro hal
      have hal' : Along (V e.2 - V e.1) (into faces V nrm e f) b := by
        rw [heq] at hal
        obtain ⟨l1, l2⟩ := hal
        have e1 : vdet (V e.2 - V e.1) (into faces V nrm e f) (t • b) = t * vdet (V e.2 - V e.1) (into faces V nrm e f) b := by
          simp only [vdet_eq, Pi.smul_apply, smul_eq_mul]; ring
        have e2 : vdot (into faces V nrm e f) (t • b) = t * vdot (into faces V nrm e f) b := by
          simp only [vdot, Pi.smul_apply, smul_eq_mul]; ring
        rw [e1, sgn_zero ht] at l1
        rw [e2, sgn_pos ht] at l2
        exact ⟨l1, l2⟩
      obtain ⟨i, s, hw, hi, hneg⟩ := hray _ hal' pu
      have := k2 i s hw hi
      linarith
    obtain ⟨j1, j2⟩ := rays_ccw hr' hm pu pw hu0 hw0 k1 hna (hnw g hg)
    refine ⟨j1, fun i s hw hi => ?_⟩
    have hne := hsig f' hfm' i s hw hi
    rcases lt_or_gt_of_ne hne with hl | hl
    · linarith
    · exact absurd (Along.symm (hr.fa _ i s pw j1 hw hi hl)) j2
  · rintro ⟨k1, k2⟩
    have haT : Toward c (V e.1) (V e.2) a := (hr.mem a hr.pa).2 ⟨(hself a).ge, hcone⟩
    obtain ⟨i0, s0, w0, z0, _⟩ := hr.la
    obtain ⟨g, hg, t, ht, heq⟩ := hfind a hr.ne.1 hr.pa ⟨i0, s0, w0, z0⟩ haT
    have hr' := hr.smulA ht
    rw [← heq] at hr'
    have hna : ¬ Along (V e.2 - V e.1) (into faces V nrm e f') (into faces V nrm e g) := by
      intro hal
      have hal' : Along (V e.2 - V e.1) (into faces V nrm e f') a := by
        rw [heq] at hal
        obtain ⟨l1, l2⟩ := hal
        have e1 : vdet (V e.2 - V e.1) (into faces V nrm e f') (t • a) = t * vdet (V e.2 - V e.1) (into faces V nrm e f') a := by
          simp only [vdet_eq, Pi.smul_apply, smul_eq_mul]; ring
        have e2 : vdot (into faces V nrm e f') (t • a) = t * vdot (into faces V nrm e f') a := by
          simp only [vdot, Pi.smul_apply, smul_eq_mul]; ring
        rw [e1, sgn_zero ht] at l1
        rw [e2, sgn_pos ht] at l2
        exact ⟨l1, l2⟩
      obtain ⟨i, s, hw, hi, hneg⟩ := hray' _ hal' pw
      have := k2 i s hw hi
      linarith
    obtain ⟨j1, j2⟩ := rays_cw hr' hm pu pw hu0 hw0 k1 hna (hnw g hg)
    refine ⟨j1, fun i s hw hi => ?_⟩
    have hne := hsig f hfm i s hw hi
    rcases lt_or_gt_of_ne hne with hl | hl
    · exact absurd (Along.symm (hr.fb _ i s pu j1 hw hi hl)) j2
    · linarith

/-- **C110.** Two half-faces in one baked cell: if the side of one faces the inside of a grid cell with covered walls, so does the side
of the other. -/
theorem C110_same_grid_cell (faces : List (ℤ × List (List ℤ))) (hc : Clean faces) (V nrm : ℤ → Vec3)
    (hok : ∀ f ∈ faces.map Prod.fst, FaceOk faces V nrm f) (ord : DEdge → List ℤ) (hord : ∀ e, (ord e).Perm ((make faces).around e))
    (hccw : Ordered faces V nrm ord) (R : DsuRoots ((make faces).merge ord).ds) (c : Coord 3) (hwall : Walled faces V nrm c)
    (k : ℕ) (m : List (ℤ × Bool)) (hk : ((make faces).bake ord R).cells[k]? = some m) (x y : ℤ × Bool) (hx : x ∈ m) (hy : y ∈ m)
    (h : SideIn faces V nrm c x.1 x.2) : SideIn faces V nrm c y.1 y.2 := by
  obtain ⟨hpos, hnd⟩ := clean_hf hc
  obtain ⟨_, hb, _⟩ := C38_boundary faces hpos ord hord R k m hk
  obtain ⟨e1, a1, a2, a3⟩ := hb x.1 x.2 hx
  obtain ⟨e2, b1, b2, b3⟩ := hb y.1 y.2 hy
  have hl := (C38_same_cell_iff_linked faces hpos ord hord R _ _ a1 b1).1 (a2.trans b2.symm)
  simp only [a3, b3] at hl
  have key : ∀ x y : Side, Relation.EqvGen ((make faces).Turn ord) x y → (SideIn faces V nrm c x.1 x.2 ↔ SideIn faces V nrm c y.1 y.2) := by
    intro x y hxy
    induction hxy with
    | rel x y h => exact turn_sideIn faces hc V nrm hok ord hord hccw c hwall x y h
    | refl x => exact Iff.rfl
    | symm x y _ ih => exact ih.symm
    | trans x y z _ _ ih1 ih2 => exact ih1.trans ih2
  exact (key _ _ hl).1 h

end CellCollapser
end Mandoline
