import Verif.Tri.Condense

/-! # The crossings of a triangle with the grid lines -/
namespace Mandoline
variable {D : ℕ}
namespace TriInput
variable (T : TriInput D)

/-! ## specification -/

/-- `b` (barycentric coordinates) is an interior point of the triangle at which a grid line `x_i = n, x_j = m` (in three
dimensions; a codimension-two grid plane in general) passes through the triangle, meeting it in that point only. -/
def Transversal (b : Fin 3 → ℚ) : Prop :=
  (∀ j, 0 < b j) ∧ ∑ j, b j = 1 ∧ ∃ (i j : Fin D) (n m : ℤ), i ≠ j ∧
    baryPoint T.P b i = n ∧ baryPoint T.P b j = m ∧
    ∀ b', IsBary b' → baryPoint T.P b' i = n → baryPoint T.P b' j = m → b' = b

/-- no near misses inside the triangle: for any two boundary points in a common grid plane that does not contain the
triangle, the segment between them crosses the grid without near misses. -/
def ChordsSeparated : Prop :=
  ∀ p q, IsBary p → IsBary q → OnBoundary p → OnBoundary q →
    (∃ (i : Fin D) (n : ℤ), baryPoint T.P p i = n ∧ baryPoint T.P q i = n ∧ ∃ j, T.P j i ≠ n) →
    Separated (bakeTol T.grid) (baryPoint T.P p) (baryPoint T.P q)

/-! ## lines in the triangle -/

theorem line_param (h p q b : Fin 3 → ℚ) (hne : ∃ i j, h i ≠ h j) (hp : ∑ j, p j = 1) (hq : ∑ j, q j = 1)
    (hbs : ∑ j, b j = 1) (hpq : p ≠ q) (h0 : heightAt h p = 0) (h1 : heightAt h q = 0) (h2 : heightAt h b = 0) :
    ∃ s, ∀ j, b j = (1 - s) * p j + s * q j := by
  have hu : ∑ j, (q j - p j) = 0 := by rw [Finset.sum_sub_distrib, hq, hp]; ring
  have hw : ∑ j, (b j - p j) = 0 := by rw [Finset.sum_sub_distrib, hbs, hp]; ring
  have hlin : ∀ x y : Fin 3 → ℚ, heightAt h (fun j => x j - y j) = heightAt h x - heightAt h y := by
    intro x y
    simp only [heightAt, sub_mul, Finset.sum_sub_distrib]
  have hcol := collinear h (fun j => q j - p j) (fun j => b j - p j) hne hu hw
    (by rw [hlin]; linarith) (by rw [hlin]; linarith)
  obtain ⟨k, hk⟩ : ∃ k, q k ≠ p k := by
    by_contra hc; push Not at hc; exact hpq (funext fun j => (hc j).symm)
  have hk' : q k - p k ≠ 0 := sub_ne_zero.2 hk
  refine ⟨(b k - p k) / (q k - p k), fun j => ?_⟩
  have e : (b j - p j) * (q k - p k) = (q j - p j) * (b k - p k) := hcol j k
  field_simp
  linarith

/-- heights of both signs: the plane passes through the interior. -/
theorem exists_interior (h : Fin 3 → ℚ) (a k : Fin 3) (ha : h a < 0) (hk : 0 < h k) :
    ∃ b : Fin 3 → ℚ, (∀ j, 0 < b j) ∧ ∑ j, b j = 1 ∧ heightAt h b = 0 := by
  have hak : a ≠ k := by rintro rfl; linarith
  obtain ⟨c, hca, hck⟩ : ∃ c : Fin 3, c ≠ a ∧ c ≠ k := by
    revert hak; clear ha hk; revert a k; decide
  obtain ⟨y, hy, hy'⟩ : ∃ y, 0 < y ∧ y * h k = 1 + |h c| :=
    ⟨(1 + |h c|) / h k, div_pos (by positivity) hk, by field_simp⟩
  have hc := neg_abs_le (h c)
  obtain ⟨x, hx, hx'⟩ : ∃ x, 0 < x ∧ x * h a = -(1 + |h c| + h c) :=
    ⟨-(1 + |h c| + h c) / h a, div_pos_of_neg_of_neg (by linarith) ha, div_mul_cancel₀ _ ha.ne⟩
  have hs : 0 < x + y + 1 := by linarith
  have sum3 : ∀ f : Fin 3 → ℚ, ∑ j, f j = f a + f k + f c := by
    intro f
    rw [Fin.sum_univ_three]
    revert hak hca hck; clear * -
    fin_cases a <;> fin_cases k <;> fin_cases c <;> simp <;> ring
  refine ⟨fun j => (if j = a then x else if j = k then y else 1) / (x + y + 1), fun j => ?_, ?_, ?_⟩
  · apply div_pos _ hs
    split_ifs <;> first | assumption | norm_num
  · rw [sum3]
    simp only [if_true, if_neg hak.symm, if_neg hca, if_neg hck]
    field_simp
  · unfold heightAt
    rw [sum3]
    simp only [if_true, if_neg hak.symm, if_neg hca, if_neg hck]
    field_simp
    linarith

theorem chordBary_eq (a b : Fin 3 → ℚ) (ha : IsBary a) (hb : IsBary b) (t : ℚ) (h0 : 0 ≤ t) (h1 : t ≤ 1) :
    chordBary a b t = fun j => (1 - t) * a j + t * b j := by
  have := (C34_chord_bary (D := 3) a b ha hb t h0 h1).2 (fun j i => if j = i then 1 else 0)
  funext i
  simpa [baryPoint] using this i

theorem mask_eq_some {v : Vertex D} (h : Normalised v) (i : Fin D) (n : ℤ) : v.mask i = some n ↔ v.p i = n := by
  unfold Vertex.mask
  constructor
  · intro hm
    split_ifs at hm with hq
    rw [Vertex.p, hq, Option.some.inj hm, add_zero]
  · intro hp
    obtain ⟨h1, h2⟩ := coord_of_integral h hp
    rw [if_pos h2, h1]

/-! ## chords -/

variable {T}

/-- what is known about a chord: its ends are boundary points in a common plane crossing the interior. -/
structure ChordOk (T : TriInput D) (p q : TriPt D) : Prop where
  pok : PtOk T p
  qok : PtOk T q
  pB : OnBoundary p.b
  qB : OnBoundary q.b
  ne : p.b ≠ q.b
  disj : ∀ j, 0 < p.b j ∨ 0 < q.b j
  plane : ∃ (i : Fin D) (n : ℤ), p.v.p i = n ∧ q.v.p i = n ∧ (∃ j k, T.hgt i n j ≠ T.hgt i n k)

theorem ChordOk.symm {p q : TriPt D} (h : ChordOk T p q) : ChordOk T q p := by
  obtain ⟨i, n, h1, h2, h3⟩ := h.plane
  exact ⟨h.qok, h.pok, h.qB, h.pB, h.ne.symm, fun j => (h.disj j).symm, i, n, h2, h1, h3⟩

theorem mem_bin {i : Fin D} {n : ℤ} {p : TriPt D} (hT : T.Ok) : p ∈ T.bin i n ↔ p ∈ T.bpts ∧ p.v.p i = n := by
  unfold bin
  rw [List.mem_filter]
  constructor
  · rintro ⟨h1, h2⟩; exact ⟨h1, ((bpts_spec hT p h1).1.vok.onPlane i n).1 h2⟩
  · rintro ⟨h1, h2⟩; exact ⟨h1, ((bpts_spec hT p h1).1.vok.onPlane i n).2 h2⟩

theorem chordOk_of_bin (hT : T.Ok) (i : Fin D) (n : ℤ) (p q : TriPt D) (hbin : T.bin i n = [p, q])
    (hid : p.id.1 ≠ 3 ∨ q.id.1 ≠ 3) : ChordOk T p q := by
  have hp := (mem_bin hT).1 (hbin ▸ List.mem_cons_self : p ∈ T.bin i n)
  have hq := (mem_bin hT).1 (hbin ▸ List.mem_cons_of_mem _ List.mem_cons_self : q ∈ T.bin i n)
  have hps := bpts_spec hT p hp.1
  have hqs := bpts_spec hT q hq.1
  -- one of them is on the open edge `e`
  obtain ⟨r, hr, hrid⟩ : ∃ r ∈ T.bin i n, r.id.1 ≠ 3 := by
    rcases hid with h | h
    · exact ⟨p, hbin ▸ List.mem_cons_self, h⟩
    · exact ⟨q, hbin ▸ List.mem_cons_of_mem _ List.mem_cons_self, h⟩
  have hr' := (mem_bin hT).1 hr
  have hrs := bpts_spec hT r hr'.1
  have hredge : ∃ e : Fin 3, r ∈ T.edgePts e := by
    have := hr'.1
    unfold bpts at this
    rcases List.mem_append.1 this with h | h
    · obtain ⟨e, _, h⟩ := List.mem_flatMap.1 h; exact ⟨e, h⟩
    · obtain ⟨_, j, _, _, h⟩ := cornerPt_spec hT r h
      exact absurd (by rw [h]) hrid
  obtain ⟨e, he⟩ := hredge
  obtain ⟨_, hre, hrpos, _⟩ := edgePt_spec hT e r he
  have hrh : heightAt (T.hgt i n) r.b = 0 := by
    rw [heightAt_hgt i n r.b hrs.1.bary.sum, hrs.1.pos, hr'.2]; ring
  have hcorner : ∀ j, T.hgt i n j = 0 → (⟨(3, (j : ℕ)), T.V j, Pi.single j 1⟩ : TriPt D) ∈ T.bin i n := by
    intro j hj
    rw [mem_bin hT]
    refine ⟨?_, ?_⟩
    · unfold bpts cornerPts
      exact List.mem_append_right _ (List.mem_map.2 ⟨j, List.mem_finRange j, rfl⟩)
    · have : T.P j i - n = 0 := hj
      change T.P j i = n
      linarith
  have hpos1 := hrpos (e + 1) (by fin_cases e <;> decide)
  have hpos2 := hrpos (e + 2) (by fin_cases e <;> decide)
  have hsum : r.b (e + 1) * T.hgt i n (e + 1) + r.b (e + 2) * T.hgt i n (e + 2) = 0 := by
    unfold heightAt at hrh
    rw [Fin.sum_univ_three] at hrh
    revert hre hrh
    clear * -
    fin_cases e <;> simp <;> intro h1 h2 <;> rw [h1] at h2 <;> linarith
  have hnz : T.hgt i n (e + 1) ≠ 0 := by
    intro hz
    have hz2 : T.hgt i n (e + 2) = 0 := by
      rw [hz, mul_zero, zero_add] at hsum
      exact (mul_eq_zero.1 hsum).resolve_left hpos2.ne'
    have c1 := hcorner _ hz
    have c2 := hcorner _ hz2
    rw [hbin] at c1 c2 hr
    have hne12 : (((e + 1 : Fin 3) : ℕ)) ≠ ((e + 2 : Fin 3) : ℕ) := by fin_cases e <;> decide
    simp only [List.mem_cons, List.not_mem_nil, or_false] at c1 c2 hr
    rcases hr with rfl | rfl
    · rcases c1 with c1 | c1
      · exact hrid (by rw [← c1])
      · rcases c2 with c2 | c2
        · exact hrid (by rw [← c2])
        · have := congrArg TriPt.id (c1.trans c2.symm)
          simp only [Prod.mk.injEq, true_and] at this
          exact hne12 this
    · rcases c1 with c1 | c1
      · rcases c2 with c2 | c2
        · have := congrArg TriPt.id (c1.trans c2.symm)
          simp only [Prod.mk.injEq, true_and] at this
          exact hne12 this
        · exact hrid (by rw [← c2])
      · exact hrid (by rw [← c1])
  obtain ⟨b, hb, hbs, hbh⟩ : ∃ b : Fin 3 → ℚ, (∀ j, 0 < b j) ∧ ∑ j, b j = 1 ∧ heightAt (T.hgt i n) b = 0 := by
    rcases lt_or_gt_of_ne hnz with h | h
    · apply exists_interior _ (e + 1) (e + 2) h
      have := mul_neg_of_pos_of_neg hpos1 h
      exact pos_of_mul_pos_right (show 0 < r.b (e + 2) * T.hgt i n (e + 2) by linarith) hpos2.le
    · apply exists_interior _ (e + 2) (e + 1) _ h
      have := mul_pos hpos1 h
      by_contra hc
      push Not at hc
      have := mul_nonneg hpos2.le hc
      linarith
  have hbx : baryPoint T.P b i = n := by
    have := heightAt_hgt (T := T) i n b hbs
    rw [hbh] at this
    linarith
  obtain ⟨p', q', hbin', hne, _, hpl⟩ := bin_two hT i n b hb hbs hbx ⟨_, hnz⟩
  rw [hbin] at hbin'
  obtain ⟨rfl, rfl⟩ : p = p' ∧ q = q' := by simpa using hbin'
  have hph : heightAt (T.hgt i n) p.b = 0 := by
    rw [heightAt_hgt i n p.b hps.1.bary.sum, hps.1.pos, hp.2]; ring
  have hqh : heightAt (T.hgt i n) q.b = 0 := by
    rw [heightAt_hgt i n q.b hqs.1.bary.sum, hqs.1.pos, hq.2]; ring
  obtain ⟨t, ht0, ht1, ht⟩ := between_boundary (T.hgt i n) p.b q.b b hpl hps.1.bary hqs.1.bary hb hbs hps.2 hqs.2 hne
    (by rw [hph, hbh]) (by rw [hqh, hbh])
  refine ⟨hps.1, hqs.1, hps.2, hqs.2, hne, fun j => ?_, i, n, hp.2, hq.2, hpl⟩
  by_contra hc
  push Not at hc
  have h1 := le_antisymm hc.1 (hps.1.bary.nonneg j)
  have h2 := le_antisymm hc.2 (hqs.1.bary.nonneg j)
  have := ht j
  rw [h1, h2] at this
  have := hb j
  linarith

theorem chordOf_spec (ptrLt : ℕ × ℕ → ℕ × ℕ → Bool) (l : List (TriPt D)) (c : TriPt D × TriPt D)
    (h : chordOf ptrLt l = some c) :
    ∃ p q, l = [p, q] ∧ (p.id.1 ≠ 3 ∨ q.id.1 ≠ 3) ∧ (c = (p, q) ∨ c = (q, p)) := by
  unfold chordOf at h
  split_ifs at h with h1
  split at h
  · rename_i p q
    split_ifs at h with h2 h3
    · exact ⟨p, q, rfl, h2, Or.inl (Option.some.inj h).symm⟩
    · exact ⟨p, q, rfl, h2, Or.inr (Option.some.inj h).symm⟩
  · exact absurd h (by simp)

theorem addChord_sub (L acc : List (TriPt D × TriPt D)) (c : TriPt D × TriPt D) (h : c ∈ L.foldl addChord acc) :
    c ∈ acc ∨ c ∈ L := by
  induction L generalizing acc with
  | nil => exact Or.inl h
  | cons d L ih =>
    rw [List.foldl_cons] at h
    rcases ih _ h with h | h
    · unfold addChord at h
      split_ifs at h
      · exact Or.inl h
      · rcases List.mem_append.1 h with h | h
        · exact Or.inl h
        · rw [List.mem_singleton] at h; exact Or.inr (h ▸ List.mem_cons_self)
    · exact Or.inr (List.mem_cons_of_mem _ h)

theorem addChord_mono (L acc : List (TriPt D × TriPt D)) (c : TriPt D × TriPt D) (h : c ∈ acc) :
    c ∈ L.foldl addChord acc := by
  induction L generalizing acc with
  | nil => exact h
  | cons d L ih =>
    rw [List.foldl_cons]
    apply ih
    unfold addChord
    split_ifs
    · exact h
    · exact List.mem_append_left _ h

theorem addChord_complete (L acc : List (TriPt D × TriPt D)) (c : TriPt D × TriPt D) (h : c ∈ L) :
    ∃ d ∈ L.foldl addChord acc, d.1.id = c.1.id ∧ d.2.id = c.2.id := by
  induction L generalizing acc with
  | nil => exact absurd h List.not_mem_nil
  | cons d L ih =>
    rw [List.foldl_cons]
    rcases List.mem_cons.1 h with rfl | h
    · by_cases hany : (acc.any fun d => decide (d.1.id = c.1.id) && decide (d.2.id = c.2.id)) = true
      · obtain ⟨d, hd, he⟩ := List.any_eq_true.1 hany
        simp only [Bool.and_eq_true, decide_eq_true_eq] at he
        refine ⟨d, addChord_mono _ _ _ ?_, he⟩
        unfold addChord
        rw [if_pos hany]
        exact hd
      · refine ⟨c, addChord_mono _ _ _ ?_, rfl, rfl⟩
        unfold addChord
        rw [if_neg hany]
        exact List.mem_append_right _ (List.mem_singleton.2 rfl)
    · exact ih _ h

theorem mem_planes (i : Fin D) (n : ℤ) : n ∈ T.planes i ↔ T.bin i n ≠ [] := by
  unfold planes bin
  rw [List.mem_dedup, List.mem_map]
  constructor
  · rintro ⟨p, hp, rfl⟩
    rw [List.mem_filter] at hp
    exact List.ne_nil_of_mem (List.mem_filter.2 ⟨hp.1, by simp [hp.2]⟩ : p ∈ _)
  · intro h
    obtain ⟨p, hp⟩ := List.exists_mem_of_ne_nil _ h
    rw [List.mem_filter, Bool.and_eq_true, decide_eq_true_eq] at hp
    exact ⟨p, List.mem_filter.2 ⟨hp.1, hp.2.1⟩, hp.2.2⟩

theorem chords_ok (hT : T.Ok) (ptrLt : ℕ × ℕ → ℕ × ℕ → Bool) (c : TriPt D × TriPt D) (hc : c ∈ T.chords ptrLt) :
    ChordOk T c.1 c.2 := by
  unfold chords at hc
  rcases addChord_sub _ _ _ hc with h | h
  · exact absurd h List.not_mem_nil
  · obtain ⟨i, _, h⟩ := List.mem_flatMap.1 h
    obtain ⟨n, _, h⟩ := List.mem_filterMap.1 h
    obtain ⟨p, q, h1, h2, rfl | rfl⟩ := chordOf_spec _ _ _ h
    · exact chordOk_of_bin hT i n p q h1 h2
    · exact (chordOk_of_bin hT i n p q h1 h2).symm

theorem chords_complete (hT : T.Ok) (ptrLt : ℕ × ℕ → ℕ × ℕ → Bool) (i : Fin D) (n : ℤ) (p q : TriPt D)
    (hbin : T.bin i n = [p, q]) (hid : p.id.1 ≠ 3 ∨ q.id.1 ≠ 3) :
    (p, q) ∈ T.chords ptrLt ∨ (q, p) ∈ T.chords ptrLt := by
  have hp := (mem_bin hT).1 (hbin ▸ List.mem_cons_self : p ∈ T.bin i n)
  have hq := (mem_bin hT).1 (hbin ▸ List.mem_cons_of_mem _ List.mem_cons_self : q ∈ T.bin i n)
  have hcount : ¬ [p, q].countP (fun p => decide (p.id.1 = 3)) = 2 := by
    rcases hid with h | h <;> simp only [List.countP_cons, List.countP_nil, decide_eq_true_eq, h, if_false]
    · split_ifs <;> omega
    · split_ifs <;> omega
  have hch : chordOf ptrLt (T.bin i n) = some (if ptrLt p.id q.id then (p, q) else (q, p)) := by
    rw [hbin, chordOf, if_neg hcount]
    simp only [if_pos hid]
  have hmem : (if ptrLt p.id q.id then (p, q) else (q, p)) ∈
      (List.finRange D).flatMap fun i => (T.planes i).filterMap fun n => chordOf ptrLt (T.bin i n) := by
    rw [List.mem_flatMap]
    refine ⟨i, List.mem_finRange i, List.mem_filterMap.2 ⟨n, (mem_planes i n).2 ?_, hch⟩⟩
    rw [hbin]; exact List.cons_ne_nil _ _
  obtain ⟨d, hd, h1, h2⟩ := addChord_complete _ [] _ hmem
  have hd' : d.1 ∈ T.bpts ∧ d.2 ∈ T.bpts := by
    rcases addChord_sub _ _ _ hd with h | h
    · exact absurd h List.not_mem_nil
    · obtain ⟨i', _, h⟩ := List.mem_flatMap.1 h
      obtain ⟨n', _, h⟩ := List.mem_filterMap.1 h
      obtain ⟨p', q', hb, _, hpq⟩ := chordOf_spec _ _ _ h
      have hp' := (mem_bin hT).1 (hb ▸ List.mem_cons_self : p' ∈ T.bin i' n')
      have hq' := (mem_bin hT).1 (hb ▸ List.mem_cons_of_mem _ List.mem_cons_self : q' ∈ T.bin i' n')
      rcases hpq with rfl | rfl
      · exact ⟨hp'.1, hq'.1⟩
      · exact ⟨hq'.1, hp'.1⟩
  by_cases hlt : ptrLt p.id q.id = true
  · left
    rw [if_pos hlt] at h1 h2
    have e1 := bpts_id_inj _ _ hd'.1 hp.1 h1
    have e2 := bpts_id_inj _ _ hd'.2 hq.1 h2
    rw [← e1, ← e2]; exact hd
  · right
    rw [if_neg hlt] at h1 h2
    have e1 := bpts_id_inj _ _ hd'.1 hq.1 h1
    have e2 := bpts_id_inj _ _ hd'.2 hp.1 h2
    rw [← e1, ← e2]; exact hd

theorem ChordOk.sep {p q : TriPt D} (h : ChordOk T p q) (hs : T.ChordsSeparated) :
    Separated (bakeTol T.grid) p.v.p q.v.p := by
  obtain ⟨i, n, h1, h2, j, k, h3⟩ := h.plane
  have := hs p.b q.b h.pok.bary h.qok.bary h.pB h.qB ⟨i, n, by rw [h.pok.pos, h1], by rw [h.qok.pos, h2], by
    by_contra hc
    push Not at hc
    exact h3 (by unfold hgt; rw [hc j, hc k])⟩
  rwa [h.pok.pos, h.qok.pos] at this

/-- the points of a chord, and what meets it. -/
theorem ChordOk.inside {p q : TriPt D} (h : ChordOk T p q) (t : ℚ) (ht : Crosses p.v.p q.v.p t) :
    T.Transversal (fun j => (1 - t) * p.b j + t * q.b j) := by
  obtain ⟨d, ht0, ht1, hd, m, hm⟩ := ht
  obtain ⟨i, n, h1, h2, hpl⟩ := h.plane
  have hbs : ∑ j, ((1 - t) * p.b j + t * q.b j) = 1 := by
    rw [Finset.sum_add_distrib, ← Finset.mul_sum, ← Finset.mul_sum, h.pok.bary.sum, h.qok.bary.sum]; ring
  have hpt : ∀ k, baryPoint T.P (fun j => (1 - t) * p.b j + t * q.b j) k = (1 - t) * p.v.p k + t * q.v.p k := by
    intro k
    rw [baryPoint_lerp T.P p.b q.b _ t (fun _ => rfl), h.pok.pos, h.qok.pos]
  refine ⟨fun j => ?_, hbs, i, d, n, m, ?_, ?_, ?_, ?_⟩
  · have a := h.pok.bary.nonneg j
    have b := h.qok.bary.nonneg j
    rcases h.disj j with h | h
    · have := mul_pos (show 0 < 1 - t by linarith) h
      have := mul_nonneg ht0.le b
      linarith
    · have := mul_pos ht0 h
      have := mul_nonneg (show 0 ≤ 1 - t by linarith) a
      linarith
  · rintro rfl; exact hd (by rw [h1, h2])
  · rw [hpt, h1, h2]; ring
  · rw [hpt]; exact hm
  · intro b' hb' hi hd'
    have hheight : ∀ b : Fin 3 → ℚ, ∑ j, b j = 1 → baryPoint T.P b i = n → heightAt (T.hgt i n) b = 0 := by
      intro b hb hx
      rw [heightAt_hgt i n b hb, hx]; ring
    obtain ⟨s, hs⟩ := line_param (T.hgt i n) p.b q.b b' hpl h.pok.bary.sum h.qok.bary.sum hb'.sum h.ne
      (hheight _ h.pok.bary.sum (by rw [h.pok.pos, h1])) (hheight _ h.qok.bary.sum (by rw [h.qok.pos, h2]))
      (hheight _ hb'.sum hi)
    have e := baryPoint_lerp T.P p.b q.b b' s hs d
    rw [hd', h.pok.pos, h.qok.pos, ← hm] at e
    have : s = t := seg_inj p.v.p q.v.p d hd s t e.symm
    subst this
    exact funext hs

/-! ## the items -/

theorem item_spec (hT : T.Ok) (hS : T.ChordsSeparated) (ptrLt : ℕ × ℕ → ℕ × ℕ → Bool)
    (x : Vertex D × (Fin 3 → ℚ)) (hx : x ∈ T.chordItems ptrLt) :
    VertexOk x.1 ∧ x.1.p = baryPoint T.P x.2 ∧ T.Transversal x.2 := by
  unfold chordItems at hx
  obtain ⟨c, hc, hx⟩ := List.mem_flatMap.1 hx
  obtain ⟨e, he, rfl⟩ := List.mem_map.1 hx
  have h := chords_ok hT ptrLt c hc
  have hn1 := h.pok.vok.1
  have hn2 := h.qok.vok.1
  obtain ⟨h1, h2, h3, h4⟩ := isect_ok _ _ _ _ hn1 hn2 (h.sep hS) e he
  have hcr := (C13_crossings_represented _ _ _ _ hn1 hn2).1 e he
  simp only [chordBary_eq c.1.b c.2.b h.pok.bary h.qok.bary e.t h2.le h3.le]
  refine ⟨h1, ?_, h.inside e.t hcr⟩
  rw [h4]
  funext k
  rw [baryPoint_lerp T.P c.1.b c.2.b _ e.t (fun _ => rfl), h.pok.pos, h.qok.pos]
  rfl

theorem items_complete (hT : T.Ok) (hS : T.ChordsSeparated) (ptrLt : ℕ × ℕ → ℕ × ℕ → Bool) (b : Fin 3 → ℚ)
    (hb : T.Transversal b) : ∃ x ∈ T.chordItems ptrLt, x.2 = b := by
  obtain ⟨hpos, hbs, i, j, n, m, hij, hi, hj, huniq⟩ := hb
  have hplane : ∃ k, T.hgt i n k ≠ 0 := by
    by_contra hc
    push Not at hc
    have hall : ∀ b' : Fin 3 → ℚ, ∑ k, b' k = 1 → baryPoint T.P b' i = n := by
      intro b' hb'
      have := heightAt_hgt (T := T) i n b' hb'
      simp only [heightAt, hc, mul_zero, Finset.sum_const_zero] at this
      linarith
    by_cases hcj : ∃ k, T.hgt j m k ≠ 0
    · obtain ⟨p, q, hbin, hne, _⟩ := bin_two hT j m b hpos hbs hj hcj
      have hp := (mem_bin hT).1 (hbin ▸ List.mem_cons_self : p ∈ T.bin j m)
      have hps := bpts_spec hT p hp.1
      have := huniq p.b hps.1.bary (hall _ hps.1.bary.sum) (by rw [hps.1.pos]; exact hp.2)
      obtain ⟨k, hk⟩ := hps.2
      have h2 := hpos k
      rw [← this, hk] at h2
      exact absurd h2 (lt_irrefl _)
    · push Not at hcj
      have := huniq (Pi.single 0 1) (isBary_single 0) (hall _ (isBary_single 0).sum) (by
        rw [baryPoint_single]
        have : T.P 0 j - m = 0 := hcj 0
        linarith)
      have h2 := hpos 1
      rw [← this] at h2
      simp at h2
  obtain ⟨p, q, hbin, hne, hid, hpl⟩ := bin_two hT i n b hpos hbs hi hplane
  have key : ∀ p q : TriPt D, (p, q) ∈ T.chords ptrLt → p.v.p i = n → q.v.p i = n → ∃ x ∈ T.chordItems ptrLt, x.2 = b := by
    intro p q hc hp hq
    have h := chords_ok hT ptrLt _ hc
    simp only at h
    have hheight : ∀ b : Fin 3 → ℚ, ∑ j, b j = 1 → baryPoint T.P b i = n → heightAt (T.hgt i n) b = 0 := by
      intro b hb hx
      rw [heightAt_hgt i n b hb, hx]; ring
    have e1 := hheight _ h.pok.bary.sum (by rw [h.pok.pos, hp])
    have e2 := hheight _ h.qok.bary.sum (by rw [h.qok.pos, hq])
    have e3 := hheight b hbs hi
    obtain ⟨t, ht0, ht1, ht⟩ := between_boundary (T.hgt i n) p.b q.b b hpl h.pok.bary h.qok.bary hpos hbs h.pB h.qB h.ne
      (by rw [e1, e3]) (by rw [e2, e3])
    have hxj := baryPoint_lerp T.P p.b q.b b t ht j
    rw [h.pok.pos, h.qok.pos, hj] at hxj
    have hcr : Crosses p.v.p q.v.p t := by
      refine ⟨j, ht0, ht1, ?_, m, hxj.symm⟩
      intro heq
      have hpj : p.v.p j = m := by rw [hxj, ← heq]; ring
      have := huniq p.b h.pok.bary (by rw [h.pok.pos, hp]) (by rw [h.pok.pos, hpj])
      obtain ⟨k, hk⟩ := h.pB
      have h2 := hpos k
      rw [← this, hk] at h2
      exact absurd h2 (lt_irrefl _)
    obtain ⟨hall, _⟩ := C13_crossings_exact (-1) T.grid p.v q.v h.pok.vok.1 h.qok.vok.1 (h.sep hS)
    obtain ⟨e, he, het⟩ := List.mem_map.1 ((hall _).2 hcr)
    refine ⟨_, List.mem_flatMap.2 ⟨(p, q), hc, List.mem_map.2 ⟨e, he, rfl⟩⟩, ?_⟩
    simp only
    rw [het, chordBary_eq p.b q.b h.pok.bary h.qok.bary t ht0.le ht1.le]
    exact (funext ht).symm
  have hp := (mem_bin hT).1 (hbin ▸ List.mem_cons_self : p ∈ T.bin i n)
  have hq := (mem_bin hT).1 (hbin ▸ List.mem_cons_of_mem _ List.mem_cons_self : q ∈ T.bin i n)
  rcases chords_complete hT ptrLt i n p q hbin hid with h | h
  · exact key p q h hp.2 hq.2
  · exact key q p h hq.2 hp.2

/-- items whose masks are comparable are the same point. -/
theorem item_mask (hT : T.Ok) (hS : T.ChordsSeparated) (ptrLt : ℕ × ℕ → ℕ × ℕ → Bool)
    (x y : Vertex D × (Fin 3 → ℚ)) (hx : x ∈ T.chordItems ptrLt) (hy : y ∈ T.chordItems ptrLt)
    (hm : ∀ i n, y.1.mask i = some n → x.1.mask i = some n) : x.2 = y.2 := by
  obtain ⟨hx1, hx2, hx3⟩ := item_spec hT hS ptrLt x hx
  obtain ⟨hy1, hy2, hy3⟩ := item_spec hT hS ptrLt y hy
  obtain ⟨_, _, i, j, n, m, _, hi, hj, huniq⟩ := hy3
  apply huniq x.2 ⟨fun k => (hx3.1 k).le, hx3.2.1⟩
  · rw [← hx2, ← mask_eq_some hx1.1]
    exact hm _ _ ((mask_eq_some hy1.1 _ _).2 (by rw [hy2, hi]))
  · rw [← hx2, ← mask_eq_some hx1.1]
    exact hm _ _ ((mask_eq_some hy1.1 _ _).2 (by rw [hy2, hj]))

theorem items_incomparable (hT : T.Ok) (hS : T.ChordsSeparated) (ptrLt : ℕ × ℕ → ℕ × ℕ → Bool) :
    Incomparable (T.chordItems ptrLt) := by
  intro x hx y hy k hk he
  have hsub : ∀ i n, y.1.mask i = some n → x.1.mask i = some n := by
    intro i n h
    rw [he] at h
    by_cases hik : i = k
    · subst hik; rw [Function.update_self] at h; exact absurd h (by simp)
    · rwa [Function.update_of_ne hik] at h
  have hb := item_mask hT hS ptrLt x y hx hy hsub
  obtain ⟨hx1, hx2, _⟩ := item_spec hT hS ptrLt x hx
  obtain ⟨hy1, hy2, _⟩ := item_spec hT hS ptrLt y hy
  unfold Mask.isBound at hk
  obtain ⟨n, hn⟩ := Option.isSome_iff_exists.1 hk
  have h1 := (mask_eq_some hx1.1 k n).1 hn
  rw [hx2, hb, ← hy2] at h1
  have h2 := (mask_eq_some hy1.1 k n).2 h1
  rw [he, Function.update_self] at h2
  exact absurd h2 (by simp)

theorem meanBary_const (l : List (Fin 3 → ℚ)) (b : Fin 3 → ℚ) (hne : l ≠ []) (h : ∀ x ∈ l, x = b) : meanBary l = b := by
  rw [List.eq_replicate_of_mem h]
  have : l.length ≠ 0 := by simpa using hne
  funext j
  simp [meanBary]
  field_simp

/-- the result: for each mask occurring among the items, the last item with that mask. -/
theorem mem_bake (hT : T.Ok) (hS : T.ChordsSeparated) (ptrLt : ℕ × ℕ → ℕ × ℕ → Bool) (r : TriIsect D) (g : TriGroup D)
    (hg : g ∈ (List.range (D + 1)).flatMap (gridCondensation (T.chordItems ptrLt))) (hr : groupIsect g = some r) :
    (r.v, r.b) ∈ T.chordItems ptrLt ∧ r.v.mask = g.1 := by
  obtain ⟨h1, h2⟩ := (mem_groups (items_incomparable hT hS ptrLt) g).1 hg
  unfold groupIsect at hr
  obtain ⟨x, hx, rfl⟩ := Option.map_eq_some_iff.1 hr
  have hxm : x ∈ g.2 := List.mem_of_getLast? hx
  have hmem : ∀ y ∈ g.2, y ∈ T.chordItems ptrLt ∧ y.1.mask = g.1 := by
    intro y hy
    rw [h1] at hy
    unfold itemsAt at hy
    rw [List.mem_filter, decide_eq_true_eq] at hy
    exact hy
  have hmean : meanBary (g.2.map Prod.snd) = x.2 := by
    apply meanBary_const
    · simpa using h2
    · intro b hb
      obtain ⟨y, hy, rfl⟩ := List.mem_map.1 hb
      exact item_mask hT hS ptrLt y x (hmem y hy).1 (hmem x hxm).1 (by
        intro i n h; rw [(hmem y hy).2, ← (hmem x hxm).2]; exact h)
  simp only [hmean]
  exact hmem x hxm

/-- **C73.** The crossings found in a triangle are exactly the interior points where a grid line passes through the
triangle transversally: every such point is found, nothing else is reported, each point is reported once, and the
reported vertex and barycentric coordinates are exact. For any dimension, any triangle (also degenerate ones and ones
lying in a grid plane), any stored direction of its edges and any address order. -/
theorem C73_crossings_exact (hT : T.Ok) (hS : T.ChordsSeparated) (ptrLt : ℕ × ℕ → ℕ × ℕ → Bool) :
    (∀ b, (∃ r ∈ T.bake ptrLt, r.b = b) ↔ T.Transversal b) ∧
    (∀ r ∈ T.bake ptrLt, Normalised r.v ∧ r.v.p = baryPoint T.P r.b ∧
      ∀ i, r.v.clamped i = true ↔ IntegralAt (baryPoint T.P r.b) i) ∧
    (T.bake ptrLt).Pairwise (fun r r' => r.b ≠ r'.b ∧ r.v.p ≠ r'.v.p) := by
  have hinc := items_incomparable hT hS ptrLt
  refine ⟨fun b => ⟨?_, fun hb => ?_⟩, ?_, ?_⟩
  · rintro ⟨r, hr, rfl⟩
    obtain ⟨g, hg, hr⟩ := List.mem_filterMap.1 hr
    exact (item_spec hT hS ptrLt _ (mem_bake hT hS ptrLt r g hg hr).1).2.2
  · obtain ⟨x, hx, rfl⟩ := items_complete hT hS ptrLt b hb
    have hne : itemsAt (T.chordItems ptrLt) x.1.mask ≠ [] := itemsAt_ne_nil.2 ⟨x, hx, rfl⟩
    have hg := (mem_groups hinc (x.1.mask, itemsAt (T.chordItems ptrLt) x.1.mask)).2 ⟨rfl, hne⟩
    obtain ⟨y, hy⟩ : ∃ y, (itemsAt (T.chordItems ptrLt) x.1.mask).getLast? = some y :=
      ⟨_, List.getLast?_eq_some_getLast hne⟩
    have hgi : groupIsect (x.1.mask, itemsAt (T.chordItems ptrLt) x.1.mask) =
        some ⟨y.1, meanBary ((itemsAt (T.chordItems ptrLt) x.1.mask).map Prod.snd)⟩ := by
      simp [groupIsect, hy]
    refine ⟨_, List.mem_filterMap.2 ⟨_, hg, hgi⟩, ?_⟩
    obtain ⟨h1, h2⟩ := mem_bake hT hS ptrLt _ _ hg hgi
    exact item_mask hT hS ptrLt _ x h1 hx (by intro i n h; rw [h2]; exact h)
  · intro r hr
    obtain ⟨g, hg, hr⟩ := List.mem_filterMap.1 hr
    obtain ⟨h1, h2, _⟩ := item_spec hT hS ptrLt _ (mem_bake hT hS ptrLt r g hg hr).1
    exact ⟨h1.1, h2, fun i => by rw [← h2]; exact h1.2 i⟩
  · unfold bake
    rw [List.pairwise_filterMap]
    have hp := groups_pairwise hinc
    apply List.Pairwise.imp_of_mem _ hp
    intro g g' hg hg' hne r hr r' hr'
    obtain ⟨h1, h2⟩ := mem_bake hT hS ptrLt r g hg hr
    obtain ⟨h1', h2'⟩ := mem_bake hT hS ptrLt r' g' hg' hr'
    obtain ⟨ok, pos, _⟩ := item_spec hT hS ptrLt _ h1
    obtain ⟨ok', pos', _⟩ := item_spec hT hS ptrLt _ h1'
    have hpne : r.v.p ≠ r'.v.p := by
      intro he
      apply hne
      rw [← h2, ← h2']
      apply Mask.mask_ext
      intro i c
      rw [mask_eq_some ok.1, mask_eq_some ok'.1, he]
    refine ⟨fun he => hpne ?_, hpne⟩
    simp only at pos pos'
    rw [pos, pos', he]

/-- **C73.** The result does not depend on the order of addresses: the same points with the same coordinates are found. -/
theorem C73_address_independent (hT : T.Ok) (hS : T.ChordsSeparated) (lt lt' : ℕ × ℕ → ℕ × ℕ → Bool) :
    (∀ r ∈ T.bake lt, ∃ r' ∈ T.bake lt', r'.b = r.b ∧ r'.v.p = r.v.p) ∧ (T.bake lt).length = (T.bake lt').length := by
  have h := C73_crossings_exact hT hS lt
  have h' := C73_crossings_exact hT hS lt'
  refine ⟨fun r hr => ?_, ?_⟩
  · obtain ⟨r', hr', he⟩ := (h'.1 r.b).2 ((h.1 r.b).1 ⟨r, hr, rfl⟩)
    exact ⟨r', hr', he, by rw [(h.2.1 r hr).2.1, (h'.2.1 r' hr').2.1, he]⟩
  · have hp : ((T.bake lt).map TriIsect.b).Perm ((T.bake lt').map TriIsect.b) := by
      rw [List.perm_ext_iff_of_nodup]
      · intro b
        rw [List.mem_map, List.mem_map, h.1 b, h'.1 b]
      · rw [List.Nodup, List.pairwise_map]; exact h.2.2.imp fun h => h.1
      · rw [List.Nodup, List.pairwise_map]; exact h'.2.2.imp fun h => h.1
    simpa using hp.length_eq

/-! ## a concrete triangle meeting the hypotheses -/

/-- a triangle in the plane `z = 1/2` with one interior grid-line crossing, at `(1, 1, 1/2)`. -/
def exTri : TriInput 3 where
  V := ![Vertex.fromVertex ![1/2, 1/2, 1/2], Vertex.fromVertex ![5/2, 1/2, 1/2], Vertex.fromVertex ![1/2, 5/2, 1/2]]
  rev := ![false, true, false]
  edgeIndex := ![0, 1, 2]
  grid := some ![5, 5, 5]

theorem fromVertex_ok (x : Pt D) : VertexOk (Vertex.fromVertex x) :=
  ⟨Vertex.fromVertex_normalised x, fun i => by
    rw [← Vertex.quot_zero_iff _ (Vertex.fromVertex_normalised x)]
    simp [Vertex.fromVertex, Vertex.bsFromQuot]⟩

/-- crossings with integral or half-integral coordinates are well separated. -/
theorem separated_half (tol : ℚ) (ht : tol ≤ 1 / 4) (a b : Pt D)
    (h : ∀ t, Crosses a b t → ∀ i, ∃ k : ℤ, 2 * segPt a b t i = k) : Separated tol a b := by
  intro t hc i n
  obtain ⟨k, hk⟩ := h t hc i
  by_cases he : k = 2 * n
  · left
    rw [he] at hk
    push_cast at hk
    linarith
  · right
    have h1 : (1 : ℤ) ≤ |k - 2 * n| := Int.one_le_abs (by omega)
    have h2 : (1 : ℚ) ≤ |(k : ℚ) - 2 * n| := by exact_mod_cast h1
    have h3 : (k : ℚ) - 2 * n = 2 * (segPt a b t i - n) := by rw [← hk]; ring
    rw [h3, abs_mul] at h2
    norm_num at h2
    linarith

theorem exTri_tol : bakeTol exTri.grid ≤ 1 / 4 := by decide +kernel

theorem exTri_P : exTri.P = ![![1/2, 1/2, 1/2], ![5/2, 1/2, 1/2], ![1/2, 5/2, 1/2]] := by
  funext j
  match j with
  | 0 => exact Vertex.fromVertex_p _
  | 1 => exact Vertex.fromVertex_p _
  | 2 => exact Vertex.fromVertex_p _

theorem exTri_point (b : Fin 3 → ℚ) (hb : ∑ j, b j = 1) :
    baryPoint exTri.P b 0 = 1/2 + 2 * b 1 ∧ baryPoint exTri.P b 1 = 1/2 + 2 * b 2 ∧ baryPoint exTri.P b 2 = 1/2 := by
  rw [Fin.sum_univ_three] at hb
  rw [exTri_P]
  refine ⟨?_, ?_, ?_⟩
  · have : baryPoint ![![1/2, 1/2, 1/2], ![5/2, 1/2, 1/2], ![1/2, 5/2, 1/2]] b (0 : Fin 3) =
        b 0 * (1/2) + b 1 * (5/2) + b 2 * (1/2) := Fin.sum_univ_three _
    rw [this]; linarith
  · have : baryPoint ![![1/2, 1/2, 1/2], ![5/2, 1/2, 1/2], ![1/2, 5/2, 1/2]] b (1 : Fin 3) =
        b 0 * (1/2) + b 1 * (1/2) + b 2 * (5/2) := Fin.sum_univ_three _
    rw [this]; linarith
  · have : baryPoint ![![1/2, 1/2, 1/2], ![5/2, 1/2, 1/2], ![1/2, 5/2, 1/2]] b (2 : Fin 3) =
        b 0 * (1/2) + b 1 * (1/2) + b 2 * (1/2) := Fin.sum_univ_three _
    rw [this]; linarith

theorem half_not_int (n : ℤ) : ((1 : ℚ) / 2) ≠ n := by
  intro h
  have : (1 : ℚ) = 2 * n := by linarith
  have : (1 : ℤ) = 2 * n := by exact_mod_cast this
  omega

theorem exTri_sep (p q : Fin 3 → ℚ) (hp : ∑ j, p j = 1) (hq : ∑ j, q j = 1)
    (h : ∀ t, Crosses (baryPoint exTri.P p) (baryPoint exTri.P q) t →
      ∀ i : Fin 3, i ≠ 2 → ∃ k : ℤ, 2 * segPt (baryPoint exTri.P p) (baryPoint exTri.P q) t i = k) :
    Separated (bakeTol exTri.grid) (baryPoint exTri.P p) (baryPoint exTri.P q) := by
  apply separated_half _ exTri_tol
  intro t ht i
  by_cases hi : i = 2
  · subst hi
    refine ⟨1, ?_⟩
    unfold segPt
    rw [(exTri_point p hp).2.2, (exTri_point q hq).2.2]
    push_cast
    ring
  · exact h t ht i hi

theorem exTri_edge (p q : Fin 3 → ℚ) (hp : ∑ j, p j = 1) (hq : ∑ j, q j = 1)
    (h : ∃ e, p e = 0 ∧ q e = 0) : Separated (bakeTol exTri.grid) (baryPoint exTri.P p) (baryPoint exTri.P q) := by
  apply exTri_sep p q hp hq
  obtain ⟨p0, p1, p2⟩ := exTri_point p hp
  obtain ⟨q0, q1, q2⟩ := exTri_point q hq
  rw [Fin.sum_univ_three] at hp hq
  rintro t ⟨d, ht0, ht1, hd, m, hm⟩ i hi
  unfold segPt at hm ⊢
  obtain ⟨e, he, he'⟩ := h
  -- the other coordinate is integral or 1/2
  have h2 : d ≠ 2 := by rintro rfl; exact hd (by rw [p2, q2])
  by_cases hid : i = d
  · subst hid; exact ⟨2 * m, by push_cast; rw [← hm]⟩
  match e, he, he' with
  | 0, he, he' =>
    refine ⟨6 - 2 * m, ?_⟩
    push_cast
    rw [← hm]
    have hcase : (i = 0 ∧ d = 1) ∨ (i = 1 ∧ d = 0) := by
      revert hi h2 hid; clear * -; revert i d; decide
    rcases hcase with ⟨rfl, rfl⟩ | ⟨rfl, rfl⟩
    · rw [p0, p1, q0, q1]; linear_combination (4 - 4 * t) * hp + 4 * t * hq - 4 * (1 - t) * he - 4 * t * he'
    · rw [p0, p1, q0, q1]; linear_combination (4 - 4 * t) * hp + 4 * t * hq - 4 * (1 - t) * he - 4 * t * he'
  | 1, he, he' =>
    have : d = 1 := by
      match d, h2, hd with
      | 0, _, hd => exact absurd (by rw [p0, q0, he, he']) hd
      | 1, _, _ => rfl
      | 2, h, _ => exact absurd rfl h
    subst this
    match i, hi, hid with
    | 0, _, _ => exact ⟨1, by rw [p0, q0, he, he']; push_cast; ring⟩
    | 1, _, h => exact absurd rfl h
    | 2, h, _ => exact absurd rfl h
  | 2, he, he' =>
    have : d = 0 := by
      match d, h2, hd with
      | 0, _, _ => rfl
      | 1, _, hd => exact absurd (by rw [p1, q1, he, he']) hd
      | 2, h, _ => exact absurd rfl h
    subst this
    match i, hi, hid with
    | 0, _, h => exact absurd rfl h
    | 1, _, _ => exact ⟨1, by rw [p1, q1, he, he']; push_cast; ring⟩
    | 2, h, _ => exact absurd rfl h

theorem exTri_ok : exTri.Ok := by
  refine ⟨fun j => ?_, fun e => ?_⟩
  · match j with
    | 0 => exact fromVertex_ok _
    | 1 => exact fromVertex_ok _
    | 2 => exact fromVertex_ok _
  · have key := exTri_edge (Pi.single (exTri.src e) 1) (Pi.single (exTri.tgt e) 1) (by simp) (by simp) ⟨e, by
      have : e ≠ exTri.src e ∧ e ≠ exTri.tgt e := by revert e; decide
      simp [this.1, this.2]⟩
    rwa [baryPoint_single, baryPoint_single] at key

theorem exTri_chords : exTri.ChordsSeparated := by
  rintro p q hp hq _ _ ⟨i, n, hpi, hqi, _⟩
  apply exTri_sep p q hp.sum hq.sum
  rintro t ⟨d, ht0, ht1, hd, m, hm⟩ k hk
  have hik : i ≠ 2 := by
    rintro rfl
    rw [(exTri_point p hp.sum).2.2] at hpi
    exact half_not_int n hpi
  have hd2 : d ≠ 2 := by
    rintro rfl
    rw [(exTri_point p hp.sum).2.2, (exTri_point q hq.sum).2.2] at hd
    exact hd rfl
  have hdi : d ≠ i := by rintro rfl; exact hd (by rw [hpi, hqi])
  have : k = d ∨ k = i := by
    revert hik hd2 hdi hk
    clear * -
    revert i d k; decide
  rcases this with rfl | rfl
  · exact ⟨2 * m, by push_cast; rw [← hm]⟩
  · refine ⟨2 * n, ?_⟩
    unfold segPt
    rw [hpi, hqi]
    push_cast; ring

/-- the hypotheses of `C73` hold for the example, which has the crossing `(1, 1, 1/2)`; so it is found. -/
example (lt : ℕ × ℕ → ℕ × ℕ → Bool) :
    ∃ r ∈ exTri.bake lt, r.b = ![1/2, 1/4, 1/4] ∧ r.v.p 0 = 1 ∧ r.v.p 1 = 1 ∧ r.v.p 2 = 1/2 := by
  have h := C73_crossings_exact exTri_ok exTri_chords lt
  have e0 : (![1/2, 1/4, 1/4] : Fin 3 → ℚ) 0 = 1/2 := rfl
  have e1 : (![1/2, 1/4, 1/4] : Fin 3 → ℚ) 1 = 1/4 := rfl
  have e2 : (![1/2, 1/4, 1/4] : Fin 3 → ℚ) 2 = 1/4 := rfl
  have hs : ∑ j, (![1/2, 1/4, 1/4] : Fin 3 → ℚ) j = 1 := by rw [Fin.sum_univ_three, e0, e1, e2]; ring
  obtain ⟨h0, h1, h2⟩ := exTri_point _ hs
  rw [e1] at h0
  rw [e2] at h1
  obtain ⟨r, hr, hb⟩ := (h.1 ![1/2, 1/4, 1/4]).2 (by
    refine ⟨?_, hs, 0, 1, 1, 1, by decide, ?_, ?_, ?_⟩
    · decide +kernel
    · rw [h0]; norm_num
    · rw [h1]; norm_num
    · intro b hb h0 h1
      rw [(exTri_point _ hb.sum).1] at h0
      rw [(exTri_point _ hb.sum).2.1] at h1
      have hsum := hb.sum
      rw [Fin.sum_univ_three] at hsum
      push_cast at h0 h1
      funext j
      match j with
      | 0 => rw [e0]; linarith
      | 1 => rw [e1]; linarith
      | 2 => rw [e2]; linarith)
  refine ⟨r, hr, hb, ?_, ?_, ?_⟩ <;> rw [(h.2.1 r hr).2.1, hb]
  · rw [h0]; norm_num
  · rw [h1]; norm_num
  · exact h2

end TriInput
end Mandoline
