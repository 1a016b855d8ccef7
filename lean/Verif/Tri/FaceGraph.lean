import Verif.Tri.FaceSegs

/-! # C108: the graph given to the collapser is the graph of the triangle cut along the grid planes -/
namespace Mandoline
variable {D : ℕ}
namespace TriInput
open Arr
open Planar (dir)
variable {T : TriInput D}

theorem kind_bary {b : Fin 3 → ℚ} (h : VertKind T b) : IsBary b := by
  rcases h with ⟨j, rfl⟩ | ⟨e, t, ⟨d, h1, h2, _⟩, rfl⟩ | h
  · exact isBary_single j
  · have hb := C34_edge_bary (D := D) (T.src e) (T.tgt e) (T.src_ne_tgt e) t
    exact ⟨hb.2.1.2 ⟨h1.le, h2.le⟩, hb.1⟩
  · exact ⟨fun j => (h.1 j).le, h.2.1⟩

/-- on a side, any direction along the side that stays in the triangle is continued. -/
theorem complete_side (hT : T.Ok) {ptrLt : ℕ × ℕ → ℕ × ℕ → Bool} {x : Dir} (hx : VertKind T (ofDir x)) {d : Dir} (hd : d ≠ 0)
    (hside : ∀ j, ofDir x j = 0 → 0 ≤ ofVec d j) (e : Fin 3) (he : ofDir x e = 0) (hde : ofVec d e = 0) :
    ∃ s ∈ T.segs ptrLt, ∃ t ∈ s.ts, x = s.pt t ∧ ((t < 1 ∧ SameDir d (dir s.p s.q)) ∨ (0 < t ∧ SameDir d (dir s.q s.p))) := by
  have e0 := on_side (T := T) e x he
  obtain ⟨v1, v2⟩ := vec_side (T := T) e d hde
  have hb := kind_bary hx
  have hsrc : ofDir x (T.src e) = 1 - ofDir x (T.tgt e) := by
    have := congrArg (fun y => ofDir y (T.src e)) e0
    rw [ofDir_side, (edgeBary_vals (T := T) e _).2.1] at this
    exact this
  refine ⟨T.sideSeg e, (mem_segs _).2 (.inr ⟨e, rfl⟩), _, vert_on_side hT e hx he, e0, ?_⟩
  have hk : ofVec d (T.tgt e) ≠ 0 := by
    intro h0
    rw [h0] at v1
    apply hd
    rw [v1]; simp
  rcases lt_or_gt_of_ne hk with hk | hk
  · right
    refine ⟨lt_of_le_of_ne (hb.nonneg _) fun h0 => ?_, ?_⟩
    · exact absurd (hside _ h0.symm) (not_le.2 hk)
    · refine sameDir_smul hd (k := - ofVec d (T.tgt e)) (by linarith) ?_
      refine v1.trans (Prod.ext ?_ ?_) <;> unfold dir <;> dsimp only <;> ring
  · left
    refine ⟨?_, sameDir_smul hd hk v1⟩
    have h1 := hb.nonneg (T.src e)
    rw [hsrc] at h1
    refine lt_of_le_of_ne (by linarith) fun h0 => ?_
    have := hside (T.src e) (by rw [hsrc, h0]; ring)
    rw [v2] at this
    linarith

/-- the chord through an interior point of a plane. -/
theorem exists_chord (hT : T.Ok) (ptrLt : ℕ × ℕ → ℕ × ℕ → Bool) (i : Fin D) (n : ℤ) (hpl : ∃ j k, T.hgt i n j ≠ T.hgt i n k)
    (b : Fin 3 → ℚ) (hb : ∀ j, 0 < b j) (hbs : ∑ j, b j = 1) (hx : baryPoint T.P b i = n) :
    ∃ c ∈ T.chords ptrLt, c.1.v.p i = n ∧ c.2.v.p i = n := by
  have hplane : ∃ j, T.hgt i n j ≠ 0 := by
    obtain ⟨j, k, h⟩ := hpl
    by_cases h0 : T.hgt i n j = 0
    · exact ⟨k, fun h1 => h (by rw [h0, h1])⟩
    · exact ⟨j, h0⟩
  obtain ⟨p, q, hbin, hne, hid, _⟩ := bin_two hT i n b hb hbs hx hplane
  have hp := (mem_bin hT).1 (hbin ▸ List.mem_cons_self : p ∈ T.bin i n)
  have hq := (mem_bin hT).1 (hbin ▸ List.mem_cons_of_mem _ List.mem_cons_self : q ∈ T.bin i n)
  rcases chords_complete hT ptrLt i n p q hbin hid with h | h
  · exact ⟨_, h, hp.2, hq.2⟩
  · exact ⟨_, h, hq.2, hp.2⟩

theorem height_zero (i : Fin D) (n : ℤ) {b : Fin 3 → ℚ} (hb : ∑ j, b j = 1) (hx : baryPoint T.P b i = n) :
    heightAt (T.hgt i n) b = 0 := by rw [heightAt_hgt i n b hb, hx]; ring

/-- every point of the triangle on the line of a chord is a point of the chord. -/
theorem on_chord {c : TriPt D × TriPt D} (h : ChordOk T c.1 c.2) (i : Fin D) (n : ℤ)
    (hpl : ∃ j k, T.hgt i n j ≠ T.hgt i n k) (h1 : c.1.v.p i = n) (h2 : c.2.v.p i = n) {x : Dir} (hx : ∀ j, 0 ≤ ofDir x j)
    (hxi : baryPoint T.P (ofDir x) i = n) : ∃ t, 0 ≤ t ∧ t ≤ 1 ∧ x = (T.chordSeg c).pt t := by
  obtain ⟨s, hs⟩ := line_param (T.hgt i n) c.1.b c.2.b (ofDir x) hpl h.pok.bary.sum h.qok.bary.sum (sum_ofDir x) h.ne
    (height_zero i n h.pok.bary.sum (by rw [h.pok.pos, h1])) (height_zero i n h.qok.bary.sum (by rw [h.qok.pos, h2]))
    (height_zero i n (sum_ofDir x) hxi)
  refine ⟨s, ?_, ?_, ?_⟩
  · by_contra hc
    push Not at hc
    obtain ⟨j, hj⟩ := h.pB
    have h3 := hs j
    have h4 := hx j
    have h5 : 0 < c.2.b j := (h.disj j).resolve_left (by rw [hj]; exact lt_irrefl _)
    rw [hj] at h3
    have := mul_neg_of_neg_of_pos hc h5
    linarith
  · by_contra hc
    push Not at hc
    obtain ⟨j, hj⟩ := h.qB
    have h3 := hs j
    have h4 := hx j
    have h5 : 0 < c.1.b j := (h.disj j).resolve_right (by rw [hj]; exact lt_irrefl _)
    rw [hj] at h3
    have := mul_neg_of_neg_of_pos (show 1 - s < 0 by linarith) h5
    linarith
  · apply ofDir_inj
    rw [chord_ofDir h]
    exact funext hs

theorem vert_on_chord' (hS : T.ChordsSeparated) {c : TriPt D × TriPt D} (h : ChordOk T c.1 c.2) {t : ℚ} (h0 : 0 ≤ t)
    (h1 : t ≤ 1) (hx : VertKind T (ofDir ((T.chordSeg c).pt t))) : t ∈ (T.chordSeg c).ts := by
  rcases eq_or_lt_of_le h0 with h' | h'
  · rw [ts_chord hS h]; exact .inl h'.symm
  · rcases eq_or_lt_of_le h1 with h'' | h''
    · rw [ts_chord hS h]; exact .inr (.inr h'')
    · exact vert_on_chord hS h h' h'' hx

theorem segs_complete (hT : T.Ok) (hS : T.ChordsSeparated) (ptrLt : ℕ × ℕ → ℕ × ℕ → Bool) (x : Dir) (hx : IsV (T.segs ptrLt) x)
    (l : Aff) (hl : l ∈ T.lines ++ sides) (hlx : l.at x = 0) (d : Dir) (hd : d ≠ 0) (hld : l.lin d = 0)
    (hside : ∀ f ∈ sides, f.at x = 0 → 0 ≤ f.lin d) :
    ∃ s ∈ T.segs ptrLt, ∃ t ∈ s.ts, x = s.pt t ∧ ((t < 1 ∧ SameDir d (dir s.p s.q)) ∨ (0 < t ∧ SameDir d (dir s.q s.p))) := by
  have hk := isV_kind hT hS hx
  have hb := kind_bary hk
  have hside' : ∀ j, ofDir x j = 0 → 0 ≤ ofVec d j := fun j hj => by
    rw [← side_lin]; exact hside _ ((mem_sides _).2 ⟨j, rfl⟩) (by rw [side_at, hj])
  by_cases hA : ∃ e, ofDir x e = 0 ∧ ofVec d e = 0
  · obtain ⟨e, h1, h2⟩ := hA
    exact complete_side hT hk hd hside' e h1 h2
  · push Not at hA
    rcases List.mem_append.1 hl with hl | hl
    · obtain ⟨i, n, _, hpl, rfl⟩ := (mem_lines l).1 hl
      obtain ⟨ε, hε, hy⟩ := step_inside hb.nonneg fun j hj => lt_of_le_of_ne (hside' j hj) (hA j hj).symm
      set y : Dir := (x.1 + ε * d.1, x.2 + ε * d.2) with hydef
      have hly : (T.cut i n).at y = 0 := by
        rw [at_dir _ x y, hlx, zero_add]
        have : dir x y = (ε * d.1, ε * d.2) := by rw [hydef]; unfold dir; refine Prod.ext ?_ ?_ <;> dsimp only <;> ring
        rw [this]
        unfold Aff.lin at *
        dsimp only
        linear_combination ε * hld
      rw [cut_at] at hly hlx
      obtain ⟨c, hc, c1, c2⟩ := exists_chord hT ptrLt i n hpl (ofDir y) hy (sum_ofDir y) (by linarith)
      have h := chords_ok hT ptrLt c hc
      obtain ⟨t, t0, t1, ht⟩ := on_chord h i n hpl c1 c2 hb.nonneg (by linarith)
      obtain ⟨u, u0, u1, hu⟩ := on_chord h i n hpl c1 c2 (fun j => (hy j).le) (by linarith)
      have hmem := vert_on_chord' hS h t0 t1 (by rw [← ht]; exact hk)
      refine ⟨_, (mem_segs _).2 (.inl ⟨c, hc, rfl⟩), t, hmem, ht, ?_⟩
      have hdir := dir_pt (T.chordSeg c) t u
      rw [← ht, ← hu] at hdir
      have hxy : dir x y = (ε * d.1, ε * d.2) := by rw [hydef]; unfold dir; refine Prod.ext ?_ ?_ <;> dsimp only <;> ring
      rw [hxy] at hdir
      have hd1 : d = (((u - t) / ε) * (dir (T.chordSeg c).p (T.chordSeg c).q).1, ((u - t) / ε) * (dir (T.chordSeg c).p (T.chordSeg c).q).2) := by
        simp only [Prod.mk.injEq] at hdir
        refine Prod.ext ?_ ?_ <;> dsimp only
        · rw [div_mul_eq_mul_div, ← hdir.1]; field_simp
        · rw [div_mul_eq_mul_div, ← hdir.2]; field_simp
      rcases lt_trichotomy t u with h1 | h1 | h1
      · exact .inl ⟨by linarith, sameDir_smul hd (div_pos (by linarith) hε) hd1⟩
      · exfalso
        apply hd
        rw [hd1, h1]; simp
      · right
        refine ⟨by linarith, sameDir_smul hd (k := (t - u) / ε) (div_pos (by linarith) hε) ?_⟩
        have e : dir (T.chordSeg c).q (T.chordSeg c).p = (-(dir (T.chordSeg c).p (T.chordSeg c).q).1, -(dir (T.chordSeg c).p (T.chordSeg c).q).2) := by
          unfold dir; refine Prod.ext ?_ ?_ <;> dsimp only <;> ring
        rw [e]
        refine hd1.trans (Prod.ext ?_ ?_) <;> dsimp only <;> ring
    · obtain ⟨e, rfl⟩ := (mem_sides l).1 hl
      rw [side_at] at hlx
      rw [side_lin] at hld
      exact absurd hld (hA e hlx)

/-- the chords and sides of a triangle form a subdivision along the grid planes. -/
theorem segs_ok (hT : T.Ok) (hS : T.ChordsSeparated) (ptrLt : ℕ × ℕ → ℕ × ℕ → Bool) : Segs (T.segs ptrLt) T.lines where
  grad := by
    intro l hl
    obtain ⟨i, n, _, ⟨j, k, h⟩, rfl⟩ := (mem_lines l).1 hl
    by_contra hc
    push Not at hc
    obtain ⟨h1, h2⟩ := hc
    apply h
    simp only [cut] at h1 h2
    fin_cases j <;> fin_cases k <;> simp <;> linarith
  sorted := by
    intro s hs
    rcases (mem_segs s).1 hs with ⟨c, hc, rfl⟩ | ⟨e, rfl⟩
    · have h := chords_ok hT ptrLt c hc
      exact sorted_ts _ _ _ _ h.pok.vok.1 h.qok.vok.1
    · exact sorted_ts _ _ _ _ (hT.verts _).1 (hT.verts _).1
  zero := by
    intro s hs
    rcases (mem_segs s).1 hs with ⟨c, hc, rfl⟩ | ⟨e, rfl⟩ <;> exact List.mem_cons_self
  one := by
    intro s hs
    rcases (mem_segs s).1 hs with ⟨c, hc, rfl⟩ | ⟨e, rfl⟩ <;> exact List.mem_append_right _ List.mem_cons_self
  range := by
    intro s hs t ht
    rcases (mem_segs s).1 hs with ⟨c, hc, rfl⟩ | ⟨e, rfl⟩
    · rcases (ts_chord hS (chords_ok hT ptrLt c hc) t).1 ht with rfl | ⟨d, h1, h2, _⟩ | rfl
      · norm_num
      · exact ⟨h1.le, h2.le⟩
      · norm_num
    · rcases (ts_side hT e t).1 ht with rfl | ⟨d, h1, h2, _⟩ | rfl
      · norm_num
      · exact ⟨h1.le, h2.le⟩
      · norm_num
  ne := by
    intro s hs
    rcases (mem_segs s).1 hs with ⟨c, hc, rfl⟩ | ⟨e, rfl⟩
    · have h := chords_ok hT ptrLt c hc
      intro heq
      apply h.ne
      rw [← ofDir_toDir h.pok.bary.sum, ← ofDir_toDir h.qok.bary.sum]
      exact congrArg ofDir heq
    · intro heq
      have h : (Pi.single (T.src e) 1 : Fin 3 → ℚ) = Pi.single (T.tgt e) 1 := by
        rw [← ofDir_toDir (isBary_single (T.src e)).sum, ← ofDir_toDir (isBary_single (T.tgt e)).sum]
        exact congrArg ofDir heq
      have := congrFun h (T.src e)
      rw [Pi.single_eq_same, Pi.single_eq_of_ne (T.src_ne_tgt e)] at this
      exact one_ne_zero this
  inP := by
    intro s hs f hf
    obtain ⟨j, rfl⟩ := (mem_sides f).1 hf
    rw [side_at, side_at]
    rcases (mem_segs s).1 hs with ⟨c, hc, rfl⟩ | ⟨e, rfl⟩
    · have h := chords_ok hT ptrLt c hc
      unfold chordSeg
      dsimp only
      rw [ofDir_toDir h.pok.bary.sum, ofDir_toDir h.qok.bary.sum]
      exact ⟨h.pok.bary.nonneg j, h.qok.bary.nonneg j⟩
    · unfold sideSeg
      dsimp only
      rw [ofDir_toDir (isBary_single _).sum, ofDir_toDir (isBary_single _).sum]
      exact ⟨(isBary_single _).nonneg j, (isBary_single _).nonneg j⟩
  on := by
    intro s hs
    rcases (mem_segs s).1 hs with ⟨c, hc, rfl⟩ | ⟨e, rfl⟩
    · have h := chords_ok hT ptrLt c hc
      obtain ⟨i, n, h1, h2, hpl⟩ := h.plane
      refine ⟨T.cut i n, List.mem_append_left _ ((mem_lines _).2 ⟨i, n, ?_, hpl, rfl⟩), ?_, ?_⟩
      · exact mem_reach i n c.1.b h.pok.bary (by rw [h.pok.pos, h1])
      · rw [cut_at]
        unfold chordSeg
        dsimp only
        rw [ofDir_toDir h.pok.bary.sum, h.pok.pos, h1, sub_self]
      · rw [cut_at]
        unfold chordSeg
        dsimp only
        rw [ofDir_toDir h.qok.bary.sum, h.qok.pos, h2, sub_self]
    · refine ⟨side e, List.mem_append_right _ ((mem_sides _).2 ⟨e, rfl⟩), ?_, ?_⟩
      · rw [side_at]
        unfold sideSeg
        dsimp only
        rw [ofDir_toDir (isBary_single _).sum, Pi.single_eq_of_ne (src_ne e).1.symm]
      · rw [side_at]
        unfold sideSeg
        dsimp only
        rw [ofDir_toDir (isBary_single _).sum, Pi.single_eq_of_ne (src_ne e).2.symm]
  fullV := by
    intro s hs t t0 t1 hv
    have hk := isV_kind hT hS hv
    rcases (mem_segs s).1 hs with ⟨c, hc, rfl⟩ | ⟨e, rfl⟩
    · exact vert_on_chord hS (chords_ok hT ptrLt c hc) t0 t1 hk
    · have := vert_on_side hT e hk (by rw [ofDir_side]; exact (edgeBary_vals (T := T) e t).1)
      rw [ofDir_side, (edgeBary_vals (T := T) e t).2.2] at this
      exact this
  fullL := by
    intro s hs l hl t t0 t1 hp hz
    obtain ⟨i, n, _, _, rfl⟩ := (mem_lines l).1 hl
    rw [cut_at] at hp hz
    rcases (mem_segs s).1 hs with ⟨c, hc, rfl⟩ | ⟨e, rfl⟩
    · have h := chords_ok hT ptrLt c hc
      rw [ts_chord hS h]
      rw [chord_point h] at hz
      refine .inr (.inl ⟨i, t0, t1, ?_, n, by linarith⟩)
      intro heq
      apply hp
      unfold chordSeg
      dsimp only
      rw [ofDir_toDir h.pok.bary.sum, h.pok.pos]
      unfold segPt at hz
      rw [← heq] at hz
      linarith
    · rw [ts_side hT]
      rw [side_point] at hz
      refine .inr (.inl ⟨i, t0, t1, ?_, n, by linarith⟩)
      intro heq
      apply hp
      unfold sideSeg
      dsimp only
      rw [ofDir_toDir (isBary_single _).sum, baryPoint_single]
      unfold segPt at hz
      rw [← heq] at hz
      show (T.V (T.src e)).p i - n = 0
      linarith
  complete := segs_complete hT hS ptrLt
  meet := fun l hl m hm => segs_meet hT hS ptrLt l hl m hm

end TriInput
end Mandoline
