import Verif.Tri.FaceTiles
import Verif.Cell.Watertight

/-! # C108, C109: the sides of the polygons of a triangle -/
namespace Mandoline
variable {D : ℕ}
namespace TriInput
open Arr Watertight
variable {T : TriInput D}

/-- a directed piece is on the boundary of the triangle. -/
def OnBorder (x : TriPt D × TriPt D) : Prop := ∃ j : Fin 3, x.1.b j = 0 ∧ x.2.b j = 0

instance (x : TriPt D × TriPt D) : Decidable (OnBorder x) := inferInstanceAs (Decidable (∃ j : Fin 3, x.1.b j = 0 ∧ x.2.b j = 0))

/-- the pieces of the three sides, directed such that the triangle is on their left. -/
def border (T : TriInput D) : List (TriPt D × TriPt D) :=
  (List.finRange 3).flatMap fun e => if T.src e + 1 = T.tgt e then intervals (T.sidePts e) else (intervals (T.sidePts e)).map Prod.swap

/-- the sides of the polygons. -/
theorem faces_sides (hT : T.Ok) (hS : T.ChordsSeparated) {ptrLt : ℕ × ℕ → ℕ × ℕ → Bool} {e : Fin 3} (r : T.FacesRun ptrLt e) :
    ∃ polys, r.faces = some polys ∧ (∀ p ∈ polys, ∀ v ∈ p, v ∈ T.vptrs ptrLt) ∧ (polys.flatMap ringOf).Nodup ∧
      ∀ x, x ∈ polys.flatMap ringOf ↔ x.1 ∈ T.vptrs ptrLt ∧ x.2 ∈ T.vptrs ptrLt ∧
        (T.index ptrLt x.1, T.index ptrLt x.2) ∈ (FaceCollapser.make (T.faceEdges ptrLt)).edgeList ∧
        ¬ Outer (toDir x.1.b) (toDir x.2.b) := by
  obtain ⟨loops, ho, _, hn, hi⟩ := loops_tile r (setup hT hS r)
  have G := (setup hT hS r).graph
  have hfl := flatMap_ringOf (T.vptrAt ptrLt) loops
  have hidx : ∀ a b, (a, b) ∈ (FaceCollapser.make (T.faceEdges ptrLt)).edgeList → T.index ptrLt (T.vptrAt ptrLt a) = a := by
    intro a b h
    obtain ⟨p, hp, rfl⟩ := half_vertex hT hS h
    rw [vptrAt_index hT hS hp]
  have hinj : ∀ e e', e ∈ (FaceCollapser.make (T.faceEdges ptrLt)).edgeList → e' ∈ (FaceCollapser.make (T.faceEdges ptrLt)).edgeList →
      Prod.map (T.vptrAt ptrLt) (T.vptrAt ptrLt) e = Prod.map (T.vptrAt ptrLt) (T.vptrAt ptrLt) e' → e = e' := by
    rintro ⟨a, b⟩ ⟨a', b'⟩ h h' he
    have h1 := congrArg Prod.fst he
    have h2 := congrArg Prod.snd he
    simp only [Prod.map_fst, Prod.map_snd] at h1 h2
    refine Prod.ext ?_ ?_
    · show a = a'
      rw [← hidx a b h, h1, hidx a' b' h']
    · show b = b'
      rw [← hidx b a (G.symm _ _ h), h2, hidx b' a' (G.symm _ _ h')]
  refine ⟨loops.map fun p => p.map (T.vptrAt ptrLt), ?_, ?_, ?_, ?_⟩
  · unfold FacesRun.faces
    rw [ho]; rfl
  · intro _ hp v hv
    obtain ⟨p, hp, rfl⟩ := List.mem_map.1 hp
    obtain ⟨i, hi, rfl⟩ := List.mem_map.1 hv
    exact vptrAt_mem _ _
  · rw [hfl]
    exact hn.map_on fun e he e' he' h => hinj e e' ((hi e).1 he).1 ((hi e').1 he').1 h
  · rw [hfl]
    intro x
    constructor
    · intro hx
      obtain ⟨⟨a, b⟩, he, rfl⟩ := List.mem_map.1 hx
      obtain ⟨h1, h2⟩ := (hi _).1 he
      refine ⟨vptrAt_mem _ _, vptrAt_mem _ _, ?_, h2⟩
      show (T.index ptrLt (T.vptrAt ptrLt a), T.index ptrLt (T.vptrAt ptrLt b)) ∈ _
      rw [hidx a b h1, hidx b a (G.symm _ _ h1)]
      exact h1
    · rintro ⟨m1, m2, h1, h2⟩
      refine List.mem_map.2 ⟨_, (hi (T.index ptrLt x.1, T.index ptrLt x.2)).2 ⟨h1, ?_⟩, ?_⟩
      · dsimp only
        rw [pos_index hT hS m1, pos_index hT hS m2]; exact h2
      · exact Prod.ext (vptrAt_index hT hS m1) (vptrAt_index hT hS m2)

theorem side_interval (hT : T.Ok) (hS : T.ChordsSeparated) (ptrLt : ℕ × ℕ → ℕ × ℕ → Bool) {e : Fin 3} {P : TriPt D × TriPt D}
    (hP : P ∈ intervals (T.sidePts e)) :
    P.1 ∈ T.vptrs ptrLt ∧ P.2 ∈ T.vptrs ptrLt ∧ ∃ s t : ℚ, s < t ∧
      P.1.b = edgeBary (T.src e) (T.tgt e) s ∧ P.2.b = edgeBary (T.src e) (T.tgt e) t := by
  have G := segs_ok hT hS ptrLt
  have hseg : T.sideSeg e ∈ T.segs ptrLt := (mem_segs _).2 (.inr ⟨e, rfl⟩)
  obtain ⟨m1, m2, i, hi, e1, e2⟩ := (side_pts hT ptrLt e).pieces.1 _ hP
  refine ⟨m1, m2, i.1, i.2, (intervals_mem (G.sorted _ hseg) hi).1, ?_, ?_⟩
  · rw [← ofDir_side, ← e1, ofDir_toDir (vptrs_bary hT hS m1).1.sum]
  · rw [← ofDir_side, ← e2, ofDir_toDir (vptrs_bary hT hS m2).1.sum]

theorem chord_interval (hT : T.Ok) (hS : T.ChordsSeparated) (ptrLt : ℕ × ℕ → ℕ × ℕ → Bool) {c : TriPt D × TriPt D}
    (hc : c ∈ T.chords ptrLt) {P : TriPt D × TriPt D} (hP : P ∈ intervals (T.chordPts ptrLt c)) :
    P.1 ∈ T.vptrs ptrLt ∧ P.2 ∈ T.vptrs ptrLt ∧ P.1 ≠ P.2 ∧ ¬ OnBorder P := by
  have G := segs_ok hT hS ptrLt
  have hseg : T.chordSeg c ∈ T.segs ptrLt := (mem_segs _).2 (.inl ⟨c, hc, rfl⟩)
  obtain ⟨m1, m2, i, hi, e1, e2⟩ := (chord_pts hT hS ptrLt hc).pieces.1 _ hP
  obtain ⟨hlt, t1, t2, _⟩ := intervals_mem (G.sorted _ hseg) hi
  have r1 := G.range _ hseg _ t1
  have r2 := G.range _ hseg _ t2
  refine ⟨m1, m2, fun h => ?_, ?_⟩
  · rw [h, e2] at e1
    exact absurd (pt_inj (G.ne _ hseg) e1) (ne_of_gt hlt)
  · rintro ⟨j, h1, h2⟩
    have hpos := chord_interior (chords_ok hT ptrLt c hc) (show 0 < (i.1 + i.2) / 2 by linarith) (show (i.1 + i.2) / 2 < 1 by linarith) j
    have b1 : ofDir ((T.chordSeg c).pt i.1) j = 0 := by rw [← e1, ofDir_toDir (vptrs_bary hT hS m1).1.sum]; exact h1
    have b2 : ofDir ((T.chordSeg c).pt i.2) j = 0 := by rw [← e2, ofDir_toDir (vptrs_bary hT hS m2).1.sum]; exact h2
    rw [ofDir_pt] at hpos b1 b2
    linarith

theorem edgeBary_inj (e : Fin 3) {s t : ℚ} (h : edgeBary (T.src e) (T.tgt e) s = edgeBary (T.src e) (T.tgt e) t) : s = t := by
  have := congrFun h (T.tgt e)
  rwa [(edgeBary_vals (T := T) e s).2.2, (edgeBary_vals (T := T) e t).2.2] at this

theorem outer_asymm {p q : Dir} (h : Outer p q) (hp : 0 ≤ p.1 ∧ 0 ≤ p.2 ∧ p.1 + p.2 ≤ 1) (hq : 0 ≤ q.1 ∧ 0 ≤ q.2 ∧ q.1 + q.2 ≤ 1) : ¬ Outer q p := by
  intro h'
  rw [outer_iff] at h h'
  rcases h with ⟨a1, a2, a3⟩ | ⟨a1, a2, a3⟩ | ⟨a1, a2, a3⟩ <;> rcases h' with ⟨b1, b2, b3⟩ | ⟨b1, b2, b3⟩ | ⟨b1, b2, b3⟩ <;> linarith

theorem bary_range {b : Fin 3 → ℚ} (h : IsBary b) : 0 ≤ (toDir b).1 ∧ 0 ≤ (toDir b).2 ∧ (toDir b).1 + (toDir b).2 ≤ 1 := by
  have hs := h.sum
  rw [Fin.sum_univ_three] at hs
  have := h.nonneg 2
  exact ⟨h.nonneg 0, h.nonneg 1, by show b 0 + b 1 ≤ 1; linarith⟩

theorem mem_border (x : TriPt D × TriPt D) : x ∈ T.border ↔ ∃ e, (T.src e + 1 = T.tgt e ∧ x ∈ intervals (T.sidePts e)) ∨
    (¬ T.src e + 1 = T.tgt e ∧ x.swap ∈ intervals (T.sidePts e)) := by
  unfold border
  rw [List.mem_flatMap]
  refine exists_congr fun e => ?_
  simp only [List.mem_finRange, true_and]
  split_ifs with h
  · simp [h]
  · simp only [h, false_and, not_false_eq_true, true_and, false_or]
    rw [List.mem_map]
    constructor
    · rintro ⟨y, hy, rfl⟩; rwa [Prod.swap_swap]
    · intro h; exact ⟨_, h, Prod.swap_swap x⟩

/-- the pieces of a side, in the order of the parameter. -/
theorem sidePts_nodup (hT : T.Ok) (hS : T.ChordsSeparated) (ptrLt : ℕ × ℕ → ℕ × ℕ → Bool) (e : Fin 3) : (T.sidePts e).Nodup := by
  have G := segs_ok hT hS ptrLt
  have hseg : T.sideSeg e ∈ T.segs ptrLt := (mem_segs _).2 (.inr ⟨e, rfl⟩)
  have h1 : ((T.sidePts e).map fun p => toDir p.b).Nodup := by
    rw [(side_pts hT ptrLt e).eq]
    refine List.Nodup.map_on (fun s _ t _ h => pt_inj (G.ne _ hseg) h) ((G.sorted _ hseg).imp fun h => h.ne)
  exact List.Nodup.of_map _ h1

theorem intervals_nodup' {α : Type} (l : List α) (h : l.Nodup) : (intervals l).Nodup := by
  have : ((intervals l).map Prod.snd).Nodup := by
    unfold intervals
    rw [List.map_snd_zip (by simp)]
    exact h.sublist (List.tail_sublist _)
  exact List.Nodup.of_map _ this

theorem border_nodup (hT : T.Ok) (hS : T.ChordsSeparated) (ptrLt : ℕ × ℕ → ℕ × ℕ → Bool) : T.border.Nodup := by
  unfold border
  rw [List.nodup_flatMap]
  refine ⟨fun e _ => ?_, ?_⟩
  · split_ifs
    · exact intervals_nodup' _ (sidePts_nodup hT hS ptrLt e)
    · exact (intervals_nodup' _ (sidePts_nodup hT hS ptrLt e)).map Prod.swap_injective
  · refine (List.nodup_finRange 3).imp_of_mem fun {e e'} _ _ hne x hx hx' => ?_
    have key : ∀ e, x ∈ (if T.src e + 1 = T.tgt e then intervals (T.sidePts e) else (intervals (T.sidePts e)).map Prod.swap) →
        x.1 ∈ T.vptrs ptrLt ∧ x.2 ∈ T.vptrs ptrLt ∧ x.1 ≠ x.2 ∧ x.1.b e = 0 ∧ x.2.b e = 0 := by
      intro e hx
      have main : ∀ P ∈ intervals (T.sidePts e), P.1 ∈ T.vptrs ptrLt ∧ P.2 ∈ T.vptrs ptrLt ∧ P.1 ≠ P.2 ∧ P.1.b e = 0 ∧ P.2.b e = 0 := by
        intro P hP
        obtain ⟨m1, m2, s, t, hlt, h1, h2⟩ := side_interval hT hS ptrLt hP
        refine ⟨m1, m2, fun h => ?_, ?_, ?_⟩
        · rw [h, h2] at h1
          exact absurd (edgeBary_inj e h1) hlt.ne'
        · rw [h1]; exact (edgeBary_vals (T := T) e s).1
        · rw [h2]; exact (edgeBary_vals (T := T) e t).1
      split_ifs at hx
      · exact main x hx
      · obtain ⟨y, hy, rfl⟩ := List.mem_map.1 hx
        obtain ⟨a1, a2, a3, a4, a5⟩ := main y hy
        exact ⟨a2, a1, a3.symm, a5, a4⟩
    obtain ⟨m1, m2, h3, h4, h5⟩ := key e hx
    obtain ⟨_, _, _, h4', h5'⟩ := key e' hx'
    apply h3
    refine vptrs_b_inj hT hS m1 m2 ?_
    have s1 := (vptrs_bary hT hS m1).1.sum
    have s2 := (vptrs_bary hT hS m2).1.sum
    rw [Fin.sum_univ_three] at s1 s2
    funext j
    by_cases j1 : j = e
    · rw [j1, h4, h5]
    by_cases j2 : j = e'
    · rw [j2, h4', h5']
    · clear * - s1 s2 h4 h5 h4' h5' hne j1 j2
      have he : e = 0 ∨ e = 1 ∨ e = 2 := by clear * -; revert e; decide
      have he' : e' = 0 ∨ e' = 1 ∨ e' = 2 := by clear * -; revert e'; decide
      have hj : j = 0 ∨ j = 1 ∨ j = 2 := by clear * -; revert j; decide
      rcases he with rfl | rfl | rfl <;> rcases he' with rfl | rfl | rfl <;> first | exact absurd rfl hne | skip
      all_goals rcases hj with rfl | rfl | rfl <;> first | exact absurd rfl j1 | exact absurd rfl j2 | linarith

/-- the half-edges: pieces in both directions. -/
theorem half_iff (hT : T.Ok) (hS : T.ChordsSeparated) {ptrLt : ℕ × ℕ → ℕ × ℕ → Bool} {x : TriPt D × TriPt D}
    (m1 : x.1 ∈ T.vptrs ptrLt) (m2 : x.2 ∈ T.vptrs ptrLt) :
    (T.index ptrLt x.1, T.index ptrLt x.2) ∈ (FaceCollapser.make (T.faceEdges ptrLt)).edgeList ↔
      x ∈ T.vptrPieces ptrLt ∨ x.swap ∈ T.vptrPieces ptrLt := by
  have inj : ∀ p ∈ T.vptrs ptrLt, ∀ q ∈ T.vptrs ptrLt, T.index ptrLt p = T.index ptrLt q → p = q := fun p hp q hq h => by
    rw [← vptrAt_index hT hS hp, h, vptrAt_index hT hS hq]
  have pm : ∀ P ∈ T.vptrPieces ptrLt, P.1 ∈ T.vptrs ptrLt ∧ P.2 ∈ T.vptrs ptrLt ∧ P.1 ≠ P.2 := by
    intro P hP
    unfold vptrPieces at hP
    rcases List.mem_append.1 hP with hP | hP
    · obtain ⟨c, hc, hP⟩ := List.mem_flatMap.1 hP
      obtain ⟨a, b, c, _⟩ := chord_interval hT hS ptrLt hc hP
      exact ⟨a, b, c⟩
    · obtain ⟨e, _, hP⟩ := List.mem_flatMap.1 hP
      obtain ⟨a, b, s, t, hlt, h1, h2⟩ := side_interval hT hS ptrLt hP
      refine ⟨a, b, fun h => ?_⟩
      rw [h, h2] at h1
      exact absurd (edgeBary_inj e h1) hlt.ne'
  rw [mem_halfEdges]
  constructor
  · rintro ⟨_, P, hP, ⟨h1, h2⟩ | ⟨h1, h2⟩⟩
    · obtain ⟨a, b, _⟩ := pm P hP
      left
      rwa [show x = P from Prod.ext (inj _ m1 _ a h1) (inj _ m2 _ b h2)]
    · obtain ⟨a, b, _⟩ := pm P hP
      right
      rwa [show x.swap = P from Prod.ext (inj _ m2 _ a h2) (inj _ m1 _ b h1)]
  · rintro (h | h)
    · exact ⟨fun h' => (pm x h).2.2 (inj _ m1 _ m2 h'), x, h, .inl ⟨rfl, rfl⟩⟩
    · exact ⟨fun h' => (pm _ h).2.2 (inj _ m2 _ m1 h'.symm), _, h, .inr ⟨rfl, rfl⟩⟩

/-- the sides of the polygons on the boundary of the triangle are the pieces of its sides, each once, in the direction of the
corners; the others come in pairs. -/
theorem faces_border (hT : T.Ok) (hS : T.ChordsSeparated) {ptrLt : ℕ × ℕ → ℕ × ℕ → Bool} {e : Fin 3} (r : T.FacesRun ptrLt e) :
    ∃ polys, r.faces = some polys ∧ (∀ p ∈ polys, ∀ v ∈ p, v ∈ T.vptrs ptrLt) ∧ (polys.flatMap ringOf).Nodup ∧
      ((polys.flatMap ringOf).filter fun x => decide (OnBorder x)).Perm T.border ∧
      (∀ x ∈ polys.flatMap ringOf, ¬ OnBorder x → x.swap ∈ polys.flatMap ringOf) ∧
      ∀ x, (x ∈ polys.flatMap ringOf ∨ x.swap ∈ polys.flatMap ringOf) ↔ (x ∈ T.vptrPieces ptrLt ∨ x.swap ∈ T.vptrPieces ptrLt) := by
  obtain ⟨polys, h1, h2, h3, h4⟩ := faces_sides hT hS r
  have hswap : ∀ x ∈ polys.flatMap ringOf, ¬ OnBorder x → x.swap ∈ polys.flatMap ringOf := by
    intro x hx hb
    obtain ⟨m1, m2, h5, h6⟩ := (h4 x).1 hx
    refine (h4 _).2 ⟨m2, m1, (half_iff hT hS (x := x.swap) m2 m1).2 ?_, fun ho => ?_⟩
    · rw [Prod.swap_swap]; exact ((half_iff hT hS m1 m2).1 h5).symm
    · apply hb
      rw [outer_iff] at ho
      have s1 := (vptrs_bary hT hS m1).1.sum
      have s2 := (vptrs_bary hT hS m2).1.sum
      rw [Fin.sum_univ_three] at s1 s2
      unfold toDir at ho
      dsimp only [Prod.fst_swap, Prod.snd_swap] at ho
      rcases ho with ⟨k1, k2, _⟩ | ⟨k1, k2, _⟩ | ⟨k1, k2, _⟩
      · exact ⟨0, k2, k1⟩
      · exact ⟨1, k2, k1⟩
      · exact ⟨2, by linarith, by linarith⟩
  have piece_mem : ∀ P ∈ T.vptrPieces ptrLt, P.1 ∈ T.vptrs ptrLt ∧ P.2 ∈ T.vptrs ptrLt := by
    intro P hP
    unfold vptrPieces at hP
    rcases List.mem_append.1 hP with hP | hP
    · obtain ⟨c, hc, hP⟩ := List.mem_flatMap.1 hP
      obtain ⟨a, b, c, _⟩ := chord_interval hT hS ptrLt hc hP
      exact ⟨a, b⟩
    · obtain ⟨e, _, hP⟩ := List.mem_flatMap.1 hP
      obtain ⟨a, b, _⟩ := side_interval hT hS ptrLt hP
      exact ⟨a, b⟩
  have side_sides : ∀ (e' : Fin 3) (P : TriPt D × TriPt D), P ∈ intervals (T.sidePts e') →
      (T.src e' + 1 = T.tgt e' ∧ P ∈ polys.flatMap ringOf ∧ P.swap ∉ polys.flatMap ringOf) ∨
      (¬ T.src e' + 1 = T.tgt e' ∧ P.swap ∈ polys.flatMap ringOf ∧ P ∉ polys.flatMap ringOf) := by
    intro e' P hP
    obtain ⟨m1, m2, s, t, hlt, b1, b2⟩ := side_interval hT hS ptrLt hP
    have hp : P ∈ T.vptrPieces ptrLt := by
      unfold vptrPieces
      exact List.mem_append_right _ (List.mem_flatMap.2 ⟨e', List.mem_finRange e', hP⟩)
    have r1 := bary_range (vptrs_bary hT hS m1).1
    have r2 := bary_range (vptrs_bary hT hS m2).1
    rcases outer_side (T := T) e' hlt with ⟨hc, ho⟩ | ⟨hc, ho⟩
    · rw [← b1, ← b2] at ho
      refine .inl ⟨hc, (h4 P).2 ⟨m1, m2, (half_iff hT hS m1 m2).2 (.inl hp), outer_asymm ho r2 r1⟩, fun h => ?_⟩
      exact ((h4 _).1 h).2.2.2 ho
    · rw [← b1, ← b2] at ho
      refine .inr ⟨hc, (h4 _).2 ⟨m2, m1, (half_iff hT hS (x := P.swap) m2 m1).2 (.inr (by rwa [Prod.swap_swap])), outer_asymm ho r1 r2⟩, fun h => ?_⟩
      exact ((h4 _).1 h).2.2.2 ho
  refine ⟨polys, h1, h2, h3, ?_, hswap, fun x => ?_⟩
  · rw [List.perm_ext_iff_of_nodup (h3.filter _) (border_nodup hT hS ptrLt)]
    intro x
    rw [List.mem_filter, decide_eq_true_eq, mem_border]
    constructor
    · rintro ⟨hx, hb⟩
      obtain ⟨m1, m2, h5, h6⟩ := (h4 x).1 hx
      have cases_ : ∀ P ∈ T.vptrPieces ptrLt, OnBorder P → ∃ e, P ∈ intervals (T.sidePts e) := by
        intro P hP hb
        unfold vptrPieces at hP
        rcases List.mem_append.1 hP with hP | hP
        · obtain ⟨c, hc, hP⟩ := List.mem_flatMap.1 hP
          exact absurd hb (chord_interval hT hS ptrLt hc hP).2.2.2
        · obtain ⟨e, _, hP⟩ := List.mem_flatMap.1 hP
          exact ⟨e, hP⟩
      rcases (half_iff hT hS m1 m2).1 h5 with hP | hP
      · obtain ⟨e', he'⟩ := cases_ x hP hb
        rcases side_sides e' x he' with ⟨hc, _⟩ | ⟨_, _, hn⟩
        · exact ⟨e', .inl ⟨hc, he'⟩⟩
        · exact absurd hx hn
      · obtain ⟨e', he'⟩ := cases_ x.swap hP (by obtain ⟨j, a, b⟩ := hb; exact ⟨j, b, a⟩)
        rcases side_sides e' _ he' with ⟨_, _, hn⟩ | ⟨hc, _⟩
        · rw [Prod.swap_swap] at hn; exact absurd hx hn
        · exact ⟨e', .inr ⟨hc, he'⟩⟩
    · have onb : ∀ e, ∀ P ∈ intervals (T.sidePts e), OnBorder P := by
        intro e P hP
        obtain ⟨_, _, s, t, _, b1, b2⟩ := side_interval hT hS ptrLt hP
        exact ⟨e, by rw [b1]; exact (edgeBary_vals (T := T) e s).1, by rw [b2]; exact (edgeBary_vals (T := T) e t).1⟩
      rintro ⟨e', ⟨hc, hP⟩ | ⟨hc, hP⟩⟩
      · refine ⟨?_, onb e' x hP⟩
        rcases side_sides e' x hP with ⟨_, h, _⟩ | ⟨hn, _⟩
        · exact h
        · exact absurd hc hn
      · refine ⟨?_, ?_⟩
        · rcases side_sides e' _ hP with ⟨hn, _⟩ | ⟨_, h, _⟩
          · exact absurd hn hc
          · rwa [Prod.swap_swap] at h
        · obtain ⟨j, a, b⟩ := onb e' _ hP
          exact ⟨j, b, a⟩
  · constructor
    · rintro (h | h)
      · obtain ⟨m1, m2, h5, _⟩ := (h4 x).1 h
        exact (half_iff hT hS m1 m2).1 h5
      · obtain ⟨m1, m2, h5, _⟩ := (h4 _).1 h
        have := (half_iff hT hS m1 m2).1 h5
        rw [Prod.swap_swap] at this
        exact this.symm
    · intro h
      have hm : x.1 ∈ T.vptrs ptrLt ∧ x.2 ∈ T.vptrs ptrLt := by
        rcases h with h | h
        · exact piece_mem x h
        · exact (piece_mem _ h).symm
      obtain ⟨m1, m2⟩ := hm
      by_cases ho : Outer (toDir x.1.b) (toDir x.2.b)
      · right
        refine (h4 _).2 ⟨m2, m1, (half_iff hT hS (x := x.swap) m2 m1).2 ?_,
          outer_asymm ho (bary_range (vptrs_bary hT hS m1).1) (bary_range (vptrs_bary hT hS m2).1)⟩
        rw [Prod.swap_swap]; exact h.symm
      · left
        exact (h4 _).2 ⟨m1, m2, (half_iff hT hS m1 m2).2 h, ho⟩

/-- pairs that are closed under reversal cancel. -/
theorem netE_closed {α : Type} [DecidableEq α] (g : α → ℤ) (I : List (α × α)) (hn : I.Nodup) (hs : ∀ x ∈ I, x.swap ∈ I) (e : DEdge) :
    netE (I.map (Prod.map g g)) e = 0 := by
  have hp : (I.map Prod.swap).Perm I := by
    rw [List.perm_ext_iff_of_nodup (hn.map Prod.swap_injective) hn]
    intro x
    rw [List.mem_map]
    constructor
    · rintro ⟨y, hy, rfl⟩; exact hs y hy
    · intro h; exact ⟨_, hs x h, Prod.swap_swap x⟩
  have h1 : ((I.map (Prod.map g g)).map DEdge.rev).Perm (I.map (Prod.map g g)) := by
    have := hp.map (Prod.map g g)
    rw [List.map_map] at this ⊢
    exact this
  have hrev : Function.Injective DEdge.rev := fun a b h => by
    have h1 := congrArg Prod.fst h
    have h2 := congrArg Prod.snd h
    exact Prod.ext h2 h1
  have h2 := h1.count_eq e.rev
  rw [List.count_map_of_injective _ _ hrev] at h2
  unfold netE
  rw [h2]; simp

/-- seen through any numbering of the vertices, the polygons have the border of the triangle. -/
theorem netE_faces {α : Type} (g : α → ℤ) (R B : List (α × α)) (P : α × α → Prop) [DecidablePred P]
    (hn : R.Nodup) (hB : (R.filter fun x => decide (P x)).Perm B) (hs : ∀ x ∈ R, ¬ P x → x.swap ∈ R) (hP : ∀ x, P x → P x.swap) (e : DEdge) :
    netE (R.map (Prod.map g g)) e = netE (B.map (Prod.map g g)) e := by
  classical
  have hsplit : (R.filter (fun x => decide (P x)) ++ R.filter fun x => !decide (P x)).Perm R := List.filter_append_perm _ _
  have h1 : netE (R.map (Prod.map g g)) e = netE ((R.filter (fun x => decide (P x)) ++ R.filter fun x => !decide (P x)).map (Prod.map g g)) e := by
    unfold netE
    rw [(hsplit.map _).count_eq, (hsplit.map _).count_eq]
  rw [h1, List.map_append, netE_append, netE_closed g (R.filter fun x => !decide (P x)) (hn.filter _), add_zero]
  · unfold netE
    rw [(hB.map _).count_eq, (hB.map _).count_eq]
  · intro x hx
    rw [List.mem_filter] at hx ⊢
    have hx2 : ¬ P x := by simpa using hx.2
    refine ⟨hs x hx.1 hx2, ?_⟩
    have : ¬ P x.swap := fun h => hx2 (by have := hP _ h; rwa [Prod.swap_swap] at this)
    simpa using this

end TriInput
end Mandoline
