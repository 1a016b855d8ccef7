import Verif.Tri.Chord

/-! # The bins and chords of `TriangleIntersections::bake` -/
namespace Mandoline
variable {D : ℕ}
namespace TriInput
variable (T : TriInput D)

/-- positions of the corners. -/
def P (j : Fin 3) : Pt D := (T.V j).p

/-- corners are proper input vertices, and the edges cross the grid without near misses. -/
structure Ok : Prop where
  verts : ∀ j, VertexOk (T.V j)
  sep : ∀ e, Separated (bakeTol T.grid) (T.V (T.src e)).p (T.V (T.tgt e)).p

theorem src_tgt (e : Fin 3) : (T.src e = e + 1 ∧ T.tgt e = e + 2) ∨ (T.src e = e + 2 ∧ T.tgt e = e + 1) := by
  unfold src tgt
  cases T.rev e <;> simp

theorem src_ne_tgt (e : Fin 3) : T.src e ≠ T.tgt e := by
  rcases T.src_tgt e with ⟨h1, h2⟩ | ⟨h1, h2⟩ <;> rw [h1, h2] <;> fin_cases e <;> decide

variable {T}

/-- what is known about a boundary point. -/
structure PtOk (T : TriInput D) (p : TriPt D) : Prop where
  vok : VertexOk p.v
  bary : IsBary p.b
  pos : baryPoint T.P p.b = p.v.p

theorem edgePt_spec (hT : T.Ok) (e : Fin 3) (p : TriPt D) (hp : p ∈ T.edgePts e) :
    PtOk T p ∧ p.b e = 0 ∧ (∀ j, j ≠ e → 0 < p.b j) ∧ p.id.1 = e := by
  unfold edgePts at hp
  obtain ⟨⟨x, k⟩, hx, rfl⟩ := List.mem_map.1 hp
  have hxm : x ∈ T.edgeIsects e := List.fst_mem_of_mem_zipIdx hx
  obtain ⟨h1, h2, h3, h4⟩ := isect_ok _ _ _ _ (hT.verts _).1 (hT.verts _).1 (hT.sep e) x hxm
  have hb := C34_edge_bary (D := D) (T.src e) (T.tgt e) (T.src_ne_tgt e) x.t
  refine ⟨⟨h1, ⟨hb.2.1.2 ⟨h2.le, h3.le⟩, hb.1⟩, ?_⟩, ?_, ?_, rfl⟩
  · funext d
    simp only
    rw [hb.2.2 T.P d, h4]
    rfl
  · have : e ≠ T.tgt e ∧ e ≠ T.src e := by
      rcases T.src_tgt e with ⟨h1, h2⟩ | ⟨h1, h2⟩ <;> rw [h1, h2] <;> fin_cases e <;> decide
    simp [edgeBary, this.1, this.2]
  · intro j hj
    have : j = T.tgt e ∨ j = T.src e := by
      rcases T.src_tgt e with ⟨h1, h2⟩ | ⟨h1, h2⟩ <;> rw [h1, h2] <;> revert hj <;> fin_cases e <;> fin_cases j <;> decide
    unfold edgeBary
    dsimp only
    rcases this with h | h
    · rw [if_pos h]; exact h2
    · rw [if_neg (fun h' => T.src_ne_tgt e (h ▸ h')), if_pos h]; linarith

theorem cornerPt_spec (hT : T.Ok) (p : TriPt D) (hp : p ∈ T.cornerPts) :
    PtOk T p ∧ ∃ j, p.v = T.V j ∧ p.b = Pi.single j 1 ∧ p.id = (3, (j : ℕ)) := by
  obtain ⟨j, _, rfl⟩ := List.mem_map.1 hp
  exact ⟨⟨hT.verts j, isBary_single j, baryPoint_single _ j⟩, j, rfl, rfl, rfl⟩

theorem bpts_spec (hT : T.Ok) (p : TriPt D) (hp : p ∈ T.bpts) : PtOk T p ∧ OnBoundary p.b := by
  unfold bpts at hp
  rcases List.mem_append.1 hp with hp | hp
  · obtain ⟨e, _, hp⟩ := List.mem_flatMap.1 hp
    have := edgePt_spec hT e p hp
    exact ⟨this.1, e, this.2.1⟩
  · obtain ⟨h, j, _, hb, _⟩ := cornerPt_spec hT p hp
    refine ⟨h, j + 1, ?_⟩
    rw [hb]
    fin_cases j <;> simp

theorem bpts_id_inj (p q : TriPt D) (hp : p ∈ T.bpts) (hq : q ∈ T.bpts) (h : p.id = q.id) : p = q := by
  have key : ∀ p ∈ T.bpts, (∃ e : Fin 3, ∃ x k, (x, k) ∈ (T.edgeIsects e).zipIdx ∧
      p = ⟨((e : ℕ), k), x.v, edgeBary (T.src e) (T.tgt e) x.t⟩) ∨
      ∃ j : Fin 3, p = ⟨(3, (j : ℕ)), T.V j, Pi.single j 1⟩ := by
    intro p hp
    unfold bpts at hp
    rcases List.mem_append.1 hp with hp | hp
    · obtain ⟨e, _, hp⟩ := List.mem_flatMap.1 hp
      obtain ⟨⟨x, k⟩, hx, rfl⟩ := List.mem_map.1 hp
      exact Or.inl ⟨e, x, k, hx, rfl⟩
    · obtain ⟨j, _, rfl⟩ := List.mem_map.1 hp
      exact Or.inr ⟨j, rfl⟩
  rcases key p hp with ⟨e, x, k, hx, rfl⟩ | ⟨j, rfl⟩ <;> rcases key q hq with ⟨e', x', k', hx', rfl⟩ | ⟨j', rfl⟩
  · simp only [Prod.mk.injEq] at h
    have he : e = e' := Fin.ext h.1
    subst he
    obtain ⟨_, rfl⟩ := h
    rw [List.mem_zipIdx_iff_getElem?] at hx hx'
    simp only at hx hx'
    rw [hx] at hx'
    cases hx'
    rfl
  · simp only [Prod.mk.injEq] at h; have := e.2; omega
  · simp only [Prod.mk.injEq] at h; have := e'.2; omega
  · simp only [Prod.mk.injEq, true_and] at h
    have : j = j' := Fin.ext h
    subst this; rfl

/-- heights of the corners over a plane. -/
def hgt (T : TriInput D) (i : Fin D) (n : ℤ) (j : Fin 3) : ℚ := T.P j i - n

theorem heightAt_hgt (i : Fin D) (n : ℤ) (b : Fin 3 → ℚ) (hb : ∑ j, b j = 1) :
    heightAt (T.hgt i n) b = baryPoint T.P b i - n := by
  simp only [heightAt, hgt, baryPoint, Fin.sum_univ_three] at hb ⊢
  linear_combination (-(n : ℚ)) * hb

theorem edgePts_filter (e : Fin 3) (i : Fin D) (n : ℤ) :
    (T.edgePts e).filter (fun p => p.v.clamped i && decide (p.v.coord i = n)) =
      ((T.edgeIsects e).zipIdx.filter (fun p => p.1.v.clamped i && decide (p.1.v.coord i = n))).map
        fun p => ⟨((e : ℕ), p.2), p.1.v, edgeBary (T.src e) (T.tgt e) p.1.t⟩ := by
  unfold edgePts
  rw [List.filter_map]
  rfl

/-- the crossings of edge `e` in the plane, when the edge is not in the plane. -/
theorem edge_bin (hT : T.Ok) (e : Fin 3) (i : Fin D) (n : ℤ)
    (hne : T.hgt i n (e + 1) ≠ 0 ∨ T.hgt i n (e + 2) ≠ 0) :
    if T.hgt i n (e + 1) * T.hgt i n (e + 2) < 0 then
      ∃ p ∈ T.edgePts e, (T.edgePts e).filter (fun p => p.v.clamped i && decide (p.v.coord i = n)) = [p]
    else (T.edgePts e).filter (fun p => p.v.clamped i && decide (p.v.coord i = n)) = [] := by
  rw [edgePts_filter]
  have h := edge_plane (T.edgeIndex e) T.grid (T.V (T.src e)) (T.V (T.tgt e)) (hT.verts _).1 (hT.verts _).1 (hT.sep e) i n (by
    rcases T.src_tgt e with ⟨h1, h2⟩ | ⟨h1, h2⟩ <;> rw [h1, h2] <;> unfold hgt P at hne
    · rcases hne with h | h
      · exact Or.inl fun h' => h (by rw [h']; ring)
      · exact Or.inr fun h' => h (by rw [h']; ring)
    · rcases hne with h | h
      · exact Or.inr fun h' => h (by rw [h']; ring)
      · exact Or.inl fun h' => h (by rw [h']; ring))
  have hprod : ((T.V (T.src e)).p i - n) * ((T.V (T.tgt e)).p i - n) = T.hgt i n (e + 1) * T.hgt i n (e + 2) := by
    rcases T.src_tgt e with ⟨h1, h2⟩ | ⟨h1, h2⟩ <;> rw [h1, h2] <;> unfold hgt P <;> ring
  rw [hprod] at h
  change (if _ then ∃ x k, (x, k) ∈ (T.edgeIsects e).zipIdx ∧ (T.edgeIsects e).zipIdx.filter _ = [(x, k)]
    else (T.edgeIsects e).zipIdx.filter _ = []) at h
  split at h
  · obtain ⟨x, k, hx, hf⟩ := h
    rw [if_pos (by assumption), hf]
    exact ⟨_, List.mem_map.2 ⟨(x, k), hx, rfl⟩, rfl⟩
  · rw [if_neg (by assumption), h]
    rfl

theorem corner_bin (hT : T.Ok) (i : Fin D) (n : ℤ) :
    T.cornerPts.filter (fun p => p.v.clamped i && decide (p.v.coord i = n)) =
      ((List.finRange 3).filter fun j => decide (T.hgt i n j = 0)).map fun (j : Fin 3) =>
        (⟨(3, (j : ℕ)), T.V j, Pi.single j 1⟩ : TriPt D) := by
  unfold cornerPts
  rw [List.filter_map]
  congr 1
  apply List.filter_congr
  intro j _
  simp only [Function.comp]
  rw [Bool.eq_iff_iff, (hT.verts j).onPlane, decide_eq_true_eq]
  unfold hgt P
  constructor <;> intro h <;> linarith

theorem bin_eq (i : Fin D) (n : ℤ) :
    T.bin i n = (T.edgePts 0).filter (fun p => p.v.clamped i && decide (p.v.coord i = n)) ++
      ((T.edgePts 1).filter (fun p => p.v.clamped i && decide (p.v.coord i = n)) ++
        (T.edgePts 2).filter (fun p => p.v.clamped i && decide (p.v.coord i = n))) ++
      T.cornerPts.filter (fun p => p.v.clamped i && decide (p.v.coord i = n)) := by
  unfold bin bpts
  rw [List.filter_append]
  congr 1
  simp [List.finRange_succ, List.filter_append]

/-- **plane sections**: a plane through an interior point of the triangle, not containing the triangle, has exactly two
points in its bin; they are different and not both corners. -/
theorem bin_two (hT : T.Ok) (i : Fin D) (n : ℤ) (b : Fin 3 → ℚ) (hb : ∀ j, 0 < b j) (hbs : ∑ j, b j = 1)
    (hx : baryPoint T.P b i = n) (hplane : ∃ j, T.hgt i n j ≠ 0) :
    ∃ p q, T.bin i n = [p, q] ∧ p.b ≠ q.b ∧ (p.id.1 ≠ 3 ∨ q.id.1 ≠ 3) ∧ (∃ j k, T.hgt i n j ≠ T.hgt i n k) := by
  have hh : heightAt (T.hgt i n) b = 0 := by rw [heightAt_hgt i n b hbs, hx]; ring
  unfold heightAt at hh
  rw [Fin.sum_univ_three] at hh
  have h0 := hb 0
  have h1 := hb 1
  have h2 := hb 2
  rw [bin_eq, corner_bin hT]
  have E0 := edge_bin hT 0 i n
  have E1 := edge_bin hT 1 i n
  have E2 := edge_bin hT 2 i n
  have S0 := edgePt_spec hT 0
  have S1 := edgePt_spec hT 1
  have S2 := edgePt_spec hT 2
  simp only [show (0 : Fin 3) + 1 = 1 from rfl, show (0 : Fin 3) + 2 = 2 from rfl, show (1 : Fin 3) + 1 = 2 from rfl,
    show (1 : Fin 3) + 2 = 0 from rfl, show (2 : Fin 3) + 1 = 0 from rfl, show (2 : Fin 3) + 2 = 1 from rfl] at E0 E1 E2
  generalize T.hgt i n = h at *
  have hsgn : ∀ x y : ℚ, ¬ (x < 0 ∧ 0 < y ∨ 0 < x ∧ y < 0) → ¬ x * y < 0 := by
    intro x y hn hc
    apply hn
    rcases mul_neg_iff.1 hc with h | h
    · exact Or.inr h
    · exact Or.inl h
  have single : ∀ (a c : Fin 3) (p : TriPt D), p.b a = 0 → (Pi.single a 1 : Fin 3 → ℚ) a = 1 → p.b ≠ (Pi.single a 1 : Fin 3 → ℚ) := by
    intro a c p hp h1 he
    rw [he, h1] at hp
    norm_num at hp
  -- case A: a corner in the plane
  by_cases z0 : h 0 = 0
  · have hn1 : h 1 ≠ 0 := by
      intro z; have : h 2 = 0 := by
        rw [z0, z] at hh; simp only [mul_zero, zero_add] at hh
        exact (mul_eq_zero.1 hh).resolve_left h2.ne'
      obtain ⟨j, hj⟩ := hplane; fin_cases j <;> simp_all
    have hn2 : h 2 ≠ 0 := by
      intro z; rw [z0, z] at hh; simp only [mul_zero, zero_add, add_zero] at hh
      exact hn1 ((mul_eq_zero.1 hh).resolve_left h1.ne')
    have hlt : h 1 * h 2 < 0 := by
      rw [z0] at hh
      have e : b 1 * (h 1 * h 2) = -(b 2 * (h 2 * h 2)) := by linear_combination h 2 * hh
      have := mul_pos h2 (mul_self_pos.2 hn2)
      by_contra hc; push Not at hc
      have := mul_nonneg h1.le hc; linarith
    have E0' := E0 (Or.inl hn1)
    rw [if_pos hlt] at E0'
    obtain ⟨p, hp, hE0⟩ := E0'
    have hE1 := E1 (Or.inl hn2)
    rw [if_neg (by rw [z0]; simp)] at hE1
    have hE2 := E2 (Or.inr hn1)
    rw [if_neg (by rw [z0]; simp)] at hE2
    rw [hE0, hE1, hE2]
    refine ⟨p, ⟨(3, 0), T.V 0, Pi.single 0 1⟩, ?_, ?_, Or.inl ?_, 0, 1, by rw [z0]; exact hn1.symm⟩
    · simp [List.finRange_succ, z0, hn1, hn2]
    · exact single 0 0 p (S0 p hp).2.1 (by simp)
    · rw [(S0 p hp).2.2.2]; decide
  by_cases z1 : h 1 = 0
  · have hn2 : h 2 ≠ 0 := by
      intro z; rw [z1, z] at hh; simp only [mul_zero, add_zero] at hh
      exact z0 ((mul_eq_zero.1 hh).resolve_left h0.ne')
    have hlt : h 2 * h 0 < 0 := by
      rw [z1] at hh
      have e : b 0 * (h 2 * h 0) = -(b 2 * (h 2 * h 2)) := by linear_combination h 2 * hh
      have := mul_pos h2 (mul_self_pos.2 hn2)
      by_contra hc; push Not at hc
      have := mul_nonneg h0.le hc; linarith
    have E1' := E1 (Or.inl hn2)
    rw [if_pos hlt] at E1'
    obtain ⟨p, hp, hE1⟩ := E1'
    have hE0 := E0 (Or.inr hn2)
    rw [if_neg (by rw [z1]; simp)] at hE0
    have hE2 := E2 (Or.inl z0)
    rw [if_neg (by rw [z1]; simp)] at hE2
    rw [hE0, hE1, hE2]
    refine ⟨p, ⟨(3, 1), T.V 1, Pi.single 1 1⟩, ?_, ?_, Or.inl ?_, 0, 1, by rw [z1]; exact z0⟩
    · simp [List.finRange_succ, z0, z1, hn2]
    · exact single 1 1 p (S1 p hp).2.1 (by simp)
    · rw [(S1 p hp).2.2.2]; decide
  by_cases z2 : h 2 = 0
  · have hlt : h 0 * h 1 < 0 := by
      rw [z2] at hh
      have e : b 0 * (h 0 * h 1) = -(b 1 * (h 1 * h 1)) := by linear_combination h 1 * hh
      have := mul_pos h1 (mul_self_pos.2 z1)
      by_contra hc; push Not at hc
      have := mul_nonneg h0.le hc; linarith
    have E2' := E2 (Or.inl z0)
    rw [if_pos hlt] at E2'
    obtain ⟨p, hp, hE2⟩ := E2'
    have hE0 := E0 (Or.inl z1)
    rw [if_neg (by rw [z2]; simp)] at hE0
    have hE1 := E1 (Or.inr z0)
    rw [if_neg (by rw [z2]; simp)] at hE1
    rw [hE0, hE1, hE2]
    refine ⟨p, ⟨(3, 2), T.V 2, Pi.single 2 1⟩, ?_, ?_, Or.inl ?_, 0, 2, by rw [z2]; exact z0⟩
    · simp [List.finRange_succ, z0, z1, z2]
    · exact single 2 2 p (S2 p hp).2.1 (by simp)
    · rw [(S2 p hp).2.2.2]; decide
  -- case B: no corner in the plane
  have hcorner : ((List.finRange 3).filter fun j => decide (h j = 0)) = [] := by
    simp [List.finRange_succ, z0, z1, z2]
  rw [hcorner, List.map_nil, List.append_nil]
  have E0' := E0 (Or.inl z1)
  have E1' := E1 (Or.inl z2)
  have E2' := E2 (Or.inl z0)
  have differ : ∀ (a c : Fin 3) (p q : TriPt D), a ≠ c → p.b a = 0 → (∀ j, j ≠ c → 0 < q.b j) → p.b ≠ q.b := by
    intro a c p q hac hp hq he
    have := hq a hac
    rw [← he, hp] at this
    exact absurd this (lt_irrefl _)
  rcases lt_or_gt_of_ne z0 with s0 | s0 <;> rcases lt_or_gt_of_ne z1 with s1 | s1 <;> rcases lt_or_gt_of_ne z2 with s2 | s2
  · have := mul_neg_of_pos_of_neg h0 s0; have := mul_neg_of_pos_of_neg h1 s1; have := mul_neg_of_pos_of_neg h2 s2; linarith
  · rw [if_pos (mul_neg_of_neg_of_pos s1 s2)] at E0'
    rw [if_pos (mul_neg_of_pos_of_neg s2 s0)] at E1'
    rw [if_neg (hsgn _ _ (by rintro (h | h) <;> linarith [h.1, h.2]))] at E2'
    obtain ⟨p, hp, hE0⟩ := E0'
    obtain ⟨q, hq, hE1⟩ := E1'
    rw [hE0, hE1, E2']
    exact ⟨p, q, rfl, differ 0 1 p q (by decide) (S0 p hp).2.1 (S1 q hq).2.2.1,
      Or.inl (by rw [(S0 p hp).2.2.2]; decide), 0, 2, by intro h; linarith⟩
  · rw [if_pos (mul_neg_of_pos_of_neg s1 s2)] at E0'
    rw [if_neg (hsgn _ _ (by rintro (h | h) <;> linarith [h.1, h.2]))] at E1'
    rw [if_pos (mul_neg_of_neg_of_pos s0 s1)] at E2'
    obtain ⟨p, hp, hE0⟩ := E0'
    obtain ⟨q, hq, hE2⟩ := E2'
    rw [hE0, hE2, E1']
    exact ⟨p, q, rfl, differ 0 2 p q (by decide) (S0 p hp).2.1 (S2 q hq).2.2.1,
      Or.inl (by rw [(S0 p hp).2.2.2]; decide), 0, 1, by intro h; linarith⟩
  · rw [if_neg (hsgn _ _ (by rintro (h | h) <;> linarith [h.1, h.2]))] at E0'
    rw [if_pos (mul_neg_of_pos_of_neg s2 s0)] at E1'
    rw [if_pos (mul_neg_of_neg_of_pos s0 s1)] at E2'
    obtain ⟨p, hp, hE1⟩ := E1'
    obtain ⟨q, hq, hE2⟩ := E2'
    rw [hE1, hE2, E0']
    exact ⟨p, q, rfl, differ 1 2 p q (by decide) (S1 p hp).2.1 (S2 q hq).2.2.1,
      Or.inl (by rw [(S1 p hp).2.2.2]; decide), 0, 1, by intro h; linarith⟩
  · rw [if_neg (hsgn _ _ (by rintro (h | h) <;> linarith [h.1, h.2]))] at E0'
    rw [if_pos (mul_neg_of_neg_of_pos s2 s0)] at E1'
    rw [if_pos (mul_neg_of_pos_of_neg s0 s1)] at E2'
    obtain ⟨p, hp, hE1⟩ := E1'
    obtain ⟨q, hq, hE2⟩ := E2'
    rw [hE1, hE2, E0']
    exact ⟨p, q, rfl, differ 1 2 p q (by decide) (S1 p hp).2.1 (S2 q hq).2.2.1,
      Or.inl (by rw [(S1 p hp).2.2.2]; decide), 0, 1, by intro h; linarith⟩
  · rw [if_pos (mul_neg_of_neg_of_pos s1 s2)] at E0'
    rw [if_neg (hsgn _ _ (by rintro (h | h) <;> linarith [h.1, h.2]))] at E1'
    rw [if_pos (mul_neg_of_pos_of_neg s0 s1)] at E2'
    obtain ⟨p, hp, hE0⟩ := E0'
    obtain ⟨q, hq, hE2⟩ := E2'
    rw [hE0, hE2, E1']
    exact ⟨p, q, rfl, differ 0 2 p q (by decide) (S0 p hp).2.1 (S2 q hq).2.2.1,
      Or.inl (by rw [(S0 p hp).2.2.2]; decide), 0, 1, by intro h; linarith⟩
  · rw [if_pos (mul_neg_of_pos_of_neg s1 s2)] at E0'
    rw [if_pos (mul_neg_of_neg_of_pos s2 s0)] at E1'
    rw [if_neg (hsgn _ _ (by rintro (h | h) <;> linarith [h.1, h.2]))] at E2'
    obtain ⟨p, hp, hE0⟩ := E0'
    obtain ⟨q, hq, hE1⟩ := E1'
    rw [hE0, hE1, E2']
    exact ⟨p, q, rfl, differ 0 1 p q (by decide) (S0 p hp).2.1 (S1 q hq).2.2.1,
      Or.inl (by rw [(S0 p hp).2.2.2]; decide), 0, 2, by intro h; linarith⟩
  · have := mul_pos h0 s0; have := mul_pos h1 s1; have := mul_pos h2 s2; linarith

end TriInput
end Mandoline
