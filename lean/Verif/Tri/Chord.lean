import Verif.Tri.Model

/-! # Chords of a triangle: where grid planes meet it -/
namespace Mandoline
variable {D : ℕ}

/-! ## barycentric geometry -/

/-- `b` is on the boundary of the triangle. -/
def OnBoundary (b : Fin 3 → ℚ) : Prop := ∃ j, b j = 0

/-- value of an affine function with corner values `h`. -/
def heightAt (h b : Fin 3 → ℚ) : ℚ := ∑ j, b j * h j

theorem collinear (h u w : Fin 3 → ℚ) (hne : ∃ i j, h i ≠ h j) (hu : ∑ j, u j = 0) (hw : ∑ j, w j = 0)
    (hhu : heightAt h u = 0) (hhw : heightAt h w = 0) (j k : Fin 3) : w j * u k = u j * w k := by
  unfold heightAt at hhu hhw
  rw [Fin.sum_univ_three] at hu hw hhu hhw
  have e01 : w 0 * u 1 - u 0 * w 1 = 0 := by
    have h1 : (h 1 - h 2) * (w 0 * u 1 - u 0 * w 1) = 0 := by
      linear_combination w 0 * hhu - w 0 * h 2 * hu - u 0 * hhw + u 0 * h 2 * hw
    have h2 : (h 0 - h 2) * (w 0 * u 1 - u 0 * w 1) = 0 := by
      linear_combination -w 1 * hhu + w 1 * h 2 * hu + u 1 * hhw - u 1 * h 2 * hw
    by_contra hc
    have h1 := (mul_eq_zero.1 h1).resolve_right hc
    have h2 := (mul_eq_zero.1 h2).resolve_right hc
    obtain ⟨i, j, hij⟩ := hne
    apply hij
    fin_cases i <;> fin_cases j <;> simp <;> linarith
  have e02 : w 0 * u 2 - u 0 * w 2 = 0 := by linear_combination -e01 + w 0 * hu - u 0 * hw
  have e12 : w 1 * u 2 - u 1 * w 2 = 0 := by linear_combination e01 + w 1 * hu - u 1 * hw
  fin_cases j <;> fin_cases k <;> simp <;> linarith

/-- a line meets the triangle in a chord: an interior point of the line lies strictly between two different boundary
points of the line. -/
theorem between_boundary (h p q b : Fin 3 → ℚ) (hne : ∃ i j, h i ≠ h j) (hp : IsBary p) (hq : IsBary q)
    (hb : ∀ j, 0 < b j) (hbs : ∑ j, b j = 1) (hpB : OnBoundary p) (hqB : OnBoundary q) (hpq : p ≠ q)
    (h0 : heightAt h p = heightAt h b) (h1 : heightAt h q = heightAt h b) :
    ∃ t, 0 < t ∧ t < 1 ∧ ∀ j, b j = (1 - t) * p j + t * q j := by
  have hu : ∑ j, (q j - p j) = 0 := by rw [Finset.sum_sub_distrib, hq.sum, hp.sum]; ring
  have hw : ∑ j, (b j - p j) = 0 := by rw [Finset.sum_sub_distrib, hbs, hp.sum]; ring
  have hlin : ∀ x y : Fin 3 → ℚ, heightAt h (fun j => x j - y j) = heightAt h x - heightAt h y := by
    intro x y
    simp only [heightAt, sub_mul, Finset.sum_sub_distrib]
  have hcol := collinear h (fun j => q j - p j) (fun j => b j - p j) hne hu hw
    (by rw [hlin]; linarith) (by rw [hlin]; linarith)
  obtain ⟨k, hk⟩ : ∃ k, q k ≠ p k := by
    by_contra hc; push Not at hc; exact hpq (funext fun j => (hc j).symm)
  have hk' : q k - p k ≠ 0 := sub_ne_zero.2 hk
  refine ⟨(b k - p k) / (q k - p k), ?_, ?_, ?_⟩
  · by_contra hc
    push Not at hc
    obtain ⟨j, hj⟩ := hpB
    have e : (b j - p j) * (q k - p k) = (q j - p j) * (b k - p k) := hcol j k
    rw [hj, sub_zero, sub_zero] at e
    have : b j = q j * ((b k - p k) / (q k - p k)) := by field_simp; linarith
    have := mul_nonpos_of_nonneg_of_nonpos (hq.nonneg j) hc
    linarith [hb j]
  · by_contra hc
    push Not at hc
    obtain ⟨j, hj⟩ := hqB
    have e : (b j - p j) * (q k - p k) = (q j - p j) * (b k - p k) := hcol j k
    rw [hj] at e
    have e2 : b j = p j * (1 - (b k - p k) / (q k - p k)) := by field_simp; linarith
    have := mul_nonpos_of_nonneg_of_nonpos (hp.nonneg j) (show 1 - (b k - p k) / (q k - p k) ≤ 0 by linarith)
    linarith [hb j]
  · intro j
    have e : (b j - p j) * (q k - p k) = (q j - p j) * (b k - p k) := hcol j k
    field_simp
    linarith

theorem isBary_single (j : Fin 3) : IsBary (Pi.single j 1) := by
  refine ⟨fun i => ?_, by simp⟩
  by_cases h : i = j
  · subst h; simp
  · simp [h]

theorem baryPoint_single (V : Fin 3 → Fin D → ℚ) (j : Fin 3) : baryPoint V (Pi.single j 1) = V j := by
  funext d
  simp [baryPoint, Pi.single_apply]

theorem baryPoint_lerp (V : Fin 3 → Fin D → ℚ) (p q b : Fin 3 → ℚ) (t : ℚ) (h : ∀ j, b j = (1 - t) * p j + t * q j)
    (d : Fin D) : baryPoint V b d = (1 - t) * baryPoint V p d + t * baryPoint V q d := by
  simp only [baryPoint, h, Fin.sum_univ_three]
  ring

/-! ## the boundary points -/

/-- an input vertex as created by `Vertex::from_vertex`: normalised, flags exact. -/
def VertexOk (v : Vertex D) : Prop := Normalised v ∧ ∀ i, v.clamped i = true ↔ IntegralAt v.p i

theorem bakeTol_pos (grid : Option (Coord D)) : 0 < bakeTol grid := by
  unfold bakeTol myThresh
  cases grid with
  | none => simp
  | some s =>
    simp only [Option.map_some]
    apply div_pos _ (by norm_num)
    have : (1 : ℤ) ≤ max 1 ((List.finRange D).foldl (fun m i => max m (s i + 1)) 0) := le_max_left _ _
    exact_mod_cast (by omega : 0 < 2 * max 1 ((List.finRange D).foldl (fun m i => max m (s i + 1)) 0))

theorem coord_of_integral {v : Vertex D} (hN : Normalised v) {i : Fin D} {n : ℤ} (h : v.p i = n) :
    v.coord i = n ∧ v.quot i = 0 := by
  have h1 := hN i
  simp only [Vertex.p] at h
  have h2 : v.coord i = n := by
    have a : (v.coord i : ℚ) ≤ n := by linarith
    have b : (n : ℚ) < v.coord i + 1 := by linarith
    have a' : v.coord i ≤ n := by exact_mod_cast a
    have b' : n < v.coord i + 1 := by exact_mod_cast b
    omega
  refine ⟨h2, ?_⟩
  rw [h2] at h
  linarith

theorem VertexOk.onPlane {v : Vertex D} (h : VertexOk v) (i : Fin D) (n : ℤ) :
    (v.clamped i && decide (v.coord i = n)) = true ↔ v.p i = n := by
  rw [Bool.and_eq_true, decide_eq_true_eq]
  constructor
  · rintro ⟨h1, h2⟩
    obtain ⟨m, hm⟩ := (h.2 i).1 h1
    have := (coord_of_integral h.1 hm).1
    rw [hm, ← this, h2]
  · intro hp
    exact ⟨(h.2 i).2 ⟨n, hp⟩, (coord_of_integral h.1 hp).1⟩

theorem isect_ok (ei : ℤ) (grid : Option (Coord D)) (a b : Vertex D) (ha : Normalised a) (hb : Normalised b)
    (hs : Separated (bakeTol grid) a.p b.p) (e : Isect D) (he : e ∈ bakeEdge ei grid a b) :
    VertexOk e.v ∧ 0 < e.t ∧ e.t < 1 ∧ e.v.p = segPt a.p b.p e.t := by
  have h1 := C14_position_exact ei grid a b ha hb hs e he
  obtain ⟨d, hd⟩ := (C13_crossings_represented ei grid a b ha hb).1 e he
  exact ⟨⟨h1.1, (C14_flags_exact ei grid a b ha hb (bakeTol_pos grid) e he).1⟩, hd.1, hd.2.1, funext h1.2⟩

/-- the crossings of an edge with one plane that does not contain the edge. -/
theorem edge_plane (ei : ℤ) (grid : Option (Coord D)) (a b : Vertex D) (ha : Normalised a) (hb : Normalised b)
    (hs : Separated (bakeTol grid) a.p b.p) (i : Fin D) (n : ℤ) (hne : a.p i ≠ n ∨ b.p i ≠ n) :
    if (a.p i - n) * (b.p i - n) < 0 then
      ∃ e k, (e, k) ∈ (bakeEdge ei grid a b).zipIdx ∧
        (bakeEdge ei grid a b).zipIdx.filter (fun p => p.1.v.clamped i && decide (p.1.v.coord i = n)) = [(e, k)]
    else (bakeEdge ei grid a b).zipIdx.filter (fun p => p.1.v.clamped i && decide (p.1.v.coord i = n)) = [] := by
  have hok := isect_ok ei grid a b ha hb hs
  have hmem : ∀ p ∈ (bakeEdge ei grid a b).zipIdx, p.1 ∈ bakeEdge ei grid a b := by
    rintro ⟨e, k⟩ hp
    exact List.fst_mem_of_mem_zipIdx hp
  have hpred : ∀ p ∈ (bakeEdge ei grid a b).zipIdx,
      ((p.1.v.clamped i && decide (p.1.v.coord i = n)) = true ↔ segPt a.p b.p p.1.t i = n) := by
    intro p hp
    obtain ⟨h1, _, _, h4⟩ := hok p.1 (hmem p hp)
    rw [h1.onPlane, h4]
  split
  · rename_i hlt
    have hd : a.p i - b.p i ≠ 0 := by
      intro h
      have : a.p i = b.p i := by linarith
      rw [this] at hlt
      linarith [mul_self_nonneg (b.p i - n)]
    have hne' : a.p i ≠ b.p i := fun h => hd (by rw [h]; ring)
    have hcr : Crosses a.p b.p ((a.p i - n) / (a.p i - b.p i)) := by
      refine ⟨i, ?_, ?_, hne', n, ?_⟩
      · rcases lt_or_gt_of_ne hd with h | h
        · apply div_pos_of_neg_of_neg _ h; nlinarith
        · apply div_pos _ h; nlinarith
      · rcases lt_or_gt_of_ne hd with h | h
        · rw [div_lt_one_of_neg h]; nlinarith
        · rw [div_lt_one h]; nlinarith
      · unfold segPt; field_simp; ring
    obtain ⟨hall, hsorted⟩ := C13_crossings_exact ei grid a b ha hb hs
    obtain ⟨e, he, het⟩ := List.mem_map.1 ((hall _).2 hcr)
    obtain ⟨k, hk⟩ := List.mem_iff_getElem?.1 he
    have hek : (e, k) ∈ (bakeEdge ei grid a b).zipIdx := by
      rw [List.mem_zipIdx_iff_getElem?]; exact hk
    refine ⟨e, k, hek, ?_⟩
    have hseg : ∀ t, segPt a.p b.p t i = n ↔ t = e.t := by
      intro t
      have h0 : segPt a.p b.p e.t i = n := by rw [het]; unfold segPt; field_simp; ring
      constructor
      · intro h; exact seg_inj a.p b.p i hne' t e.t (by rw [h, h0])
      · rintro rfl; exact h0
    -- the parameters are strictly increasing, so only one element passes
    have hnd : (bakeEdge ei grid a b).zipIdx.Pairwise fun p q => p.1.t < q.1.t := by
      rw [List.pairwise_map] at hsorted
      have : ((bakeEdge ei grid a b).zipIdx.map Prod.fst).Pairwise fun x y => x.t < y.t := by
        rw [List.zipIdx_map_fst]; exact hsorted
      rwa [List.pairwise_map] at this
    have hf : ((bakeEdge ei grid a b).zipIdx.filter (fun p => p.1.v.clamped i && decide (p.1.v.coord i = n))).Pairwise
        fun p q => p.1.t < q.1.t := List.Pairwise.filter _ hnd
    have hin : ∀ p ∈ (bakeEdge ei grid a b).zipIdx.filter (fun p => p.1.v.clamped i && decide (p.1.v.coord i = n)),
        p.1.t = e.t := by
      intro p hp
      rw [List.mem_filter] at hp
      exact (hseg _).1 ((hpred p hp.1).1 hp.2)
    have hek' : (e, k) ∈ (bakeEdge ei grid a b).zipIdx.filter (fun p => p.1.v.clamped i && decide (p.1.v.coord i = n)) := by
      rw [List.mem_filter]
      exact ⟨hek, (hpred _ hek).2 ((hseg _).2 rfl)⟩
    generalize (bakeEdge ei grid a b).zipIdx.filter (fun p => p.1.v.clamped i && decide (p.1.v.coord i = n)) = L at hf hin hek'
    match L, hf, hin, hek' with
    | [x], _, _, hk => rw [List.mem_singleton] at hk; rw [hk]
    | x :: y :: L, hf, hin, _ =>
      have h1 := hin x List.mem_cons_self
      have h2 := hin y (List.mem_cons_of_mem _ List.mem_cons_self)
      have h3 := (List.pairwise_cons.1 hf).1 y List.mem_cons_self
      linarith
  · rename_i hge
    rw [List.filter_eq_nil_iff]
    intro p hp hc
    have h1 := (hpred p hp).1 hc
    obtain ⟨_, h2, h3, _⟩ := hok p.1 (hmem p hp)
    unfold segPt at h1
    have h4 : (1 - p.1.t) * (a.p i - n) = -(p.1.t * (b.p i - n)) := by linear_combination h1
    apply hge
    have h5 : 0 < 1 - p.1.t := by linarith
    by_cases ha0 : a.p i - n = 0
    · rw [ha0, mul_zero] at h4
      have : b.p i - n = 0 := by
        rcases mul_eq_zero.1 (neg_eq_zero.1 h4.symm) with h | h
        · linarith
        · exact h
      rcases hne with h | h
      · exact absurd (by linarith) h
      · exact absurd (by linarith) h
    · have hsq : 0 < (a.p i - n) * (a.p i - n) := mul_self_pos.2 ha0
      have h6 : p.1.t * ((a.p i - n) * (b.p i - n)) = -((1 - p.1.t) * ((a.p i - n) * (a.p i - n))) := by
        linear_combination (a.p i - n) * h4
      have h7 := mul_pos h5 hsq
      by_contra hcon
      push Not at hcon
      have := mul_nonneg h2.le hcon
      linarith

end Mandoline
