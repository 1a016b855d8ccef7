import Verif.Tri.FacePieces
import Verif.Pipe2.Loops2

/-! # C108: the polygons an input triangle is cut into, theorems -/
namespace Mandoline
variable {D : ℕ}
namespace TriInput
open Arr
open Planar (dir shoelace)
variable {T : TriInput D}

theorem loops_tile {edges : List DEdge} {V : ℤ → Dir} {b : DEdge} {L : List Aff} (r : CollapseRun edges V b)
    (S : Setup edges V L r.ord b) :
    ∃ loops, r.loops = some loops ∧ Arr.Tiles V L loops ∧ (loops.flatMap loopEdges).Nodup ∧
      ∀ e, e ∈ loops.flatMap loopEdges ↔ e ∈ (FaceCollapser.make edges).edgeList ∧ ¬ Outer (V e.1) (V e.2) := by
  obtain ⟨out, ho, h1, h2, h3⟩ := S.pieces r.R r.M
  refine ⟨out.map Prod.snd, ?_, h1, h2, h3⟩
  unfold CollapseRun.loops
  exact congrArg (Option.map fun l => l.map Prod.snd) ho

theorem flatMap_ringOf {β : Type} (f : ℤ → β) (l : List (List ℤ)) :
    (l.map fun p => p.map f).flatMap ringOf = (l.flatMap loopEdges).map (Prod.map f f) := by
  rw [List.flatMap_map, List.map_flatMap]
  congr 1
  funext p
  exact ringOf_map _ _

/-- on a side, the direction that has the triangle on its right. -/
theorem outer_side (e : Fin 3) {s t : ℚ} (h : s < t) :
    (T.src e + 1 = T.tgt e ∧ Outer (toDir (edgeBary (T.src e) (T.tgt e) t)) (toDir (edgeBary (T.src e) (T.tgt e) s))) ∨
    (¬ T.src e + 1 = T.tgt e ∧ Outer (toDir (edgeBary (T.src e) (T.tgt e) s)) (toDir (edgeBary (T.src e) (T.tgt e) t))) := by
  simp only [outer_iff, toDir]
  rcases T.src_tgt e with ⟨h1, h2⟩ | ⟨h1, h2⟩ <;> rw [h1, h2] <;> fin_cases e
  · exact .inl ⟨by decide, .inl ⟨rfl, rfl, show 1 - t < 1 - s by linarith⟩⟩
  · exact .inl ⟨by decide, .inr (.inl ⟨rfl, rfl, show s < t by linarith⟩)⟩
  · exact .inl ⟨by decide, .inr (.inr ⟨show 1 - t + t = 1 by ring, show 1 - s + s = 1 by ring, show 1 - t < 1 - s by linarith⟩)⟩
  · exact .inr ⟨by decide, .inl ⟨rfl, rfl, show s < t by linarith⟩⟩
  · exact .inr ⟨by decide, .inr (.inl ⟨rfl, rfl, show 1 - t < 1 - s by linarith⟩)⟩
  · exact .inr ⟨by decide, .inr (.inr ⟨show s + (1 - s) = 1 by ring, show t + (1 - t) = 1 by ring, show s < t by linarith⟩)⟩

theorem boundary_ok (hT : T.Ok) (hS : T.ChordsSeparated) (ptrLt : ℕ × ℕ → ℕ × ℕ → Bool) (e : Fin 3) :
    T.boundaryEdge ptrLt e ∈ (FaceCollapser.make (T.faceEdges ptrLt)).edgeList ∧
      Outer (T.pos ptrLt (T.boundaryEdge ptrLt e).1) (T.pos ptrLt (T.boundaryEdge ptrLt e).2) := by
  have G := segs_ok hT hS ptrLt
  have hseg : T.sideSeg e ∈ T.segs ptrLt := (mem_segs _).2 (.inr ⟨e, rfl⟩)
  obtain ⟨y, l, hl⟩ : ∃ y l, T.sidePts e = T.corner (T.src e) :: y :: l := by
    rw [sidePts_eq hT]
    cases T.edgePts e with
    | nil => exact ⟨_, _, rfl⟩
    | cons y l => exact ⟨_, _, rfl⟩
  have hint : (T.corner (T.src e), y) ∈ intervals (T.sidePts e) := by
    rw [hl]; unfold intervals; simp
  obtain ⟨m1, m2, i, hi, e1, e2⟩ := (side_pts hT ptrLt e).pieces.1 _ hint
  dsimp only at m1 m2 e1 e2
  have hlt := (intervals_mem (G.sorted _ hseg) hi).1
  have hz : i.1 = 0 := by
    have : (T.sideSeg e).pt i.1 = (T.sideSeg e).pt 0 := by rw [← e1, pt_zero]; rfl
    exact pt_inj (G.ne _ hseg) this
  rw [hz] at hlt
  have hpiece : (T.corner (T.src e), y) ∈ T.vptrPieces ptrLt := by
    unfold vptrPieces
    exact List.mem_append_right _ (List.mem_flatMap.2 ⟨e, List.mem_finRange e, hint⟩)
  have hne : T.index ptrLt (T.corner (T.src e)) ≠ T.index ptrLt y := by
    intro heq
    have : T.corner (T.src e) = y := by rw [← vptrAt_index hT hS m1, heq, vptrAt_index hT hS m2]
    rw [this, e2] at e1
    have := pt_inj (G.ne _ hseg) e1
    rw [hz] at this
    linarith
  have p1 := pos_index hT hS m1
  have p2 := pos_index hT hS m2
  have hyb : y.b = edgeBary (T.src e) (T.tgt e) i.2 := by
    rw [← ofDir_side, ← e2, ofDir_toDir (vptrs_bary hT hS m2).1.sum]
  unfold boundaryEdge
  simp only [hl, List.getElem?_cons_zero, List.getElem?_cons_succ, Option.getD_some]
  have hfst : toDir (T.corner (T.src e)).b = toDir (edgeBary (T.src e) (T.tgt e) 0) := by
    rw [← ofDir_side, toDir_ofDir, pt_zero]; rfl
  have key : (T.src e + 1 = T.tgt e ∧ Outer (toDir y.b) (toDir (T.corner (T.src e)).b)) ∨
      (¬ T.src e + 1 = T.tgt e ∧ Outer (toDir (T.corner (T.src e)).b) (toDir y.b)) := by
    rw [hyb, hfst]
    exact outer_side e hlt
  rcases key with ⟨hc, ho⟩ | ⟨hc, ho⟩
  · rw [if_pos hc]
    refine ⟨(mem_halfEdges ptrLt _ _).2 ⟨hne.symm, _, hpiece, .inr ⟨rfl, rfl⟩⟩, ?_⟩
    rw [p1, p2]; exact ho
  · rw [if_neg hc]
    refine ⟨(mem_halfEdges ptrLt _ _).2 ⟨hne, _, hpiece, .inl ⟨rfl, rfl⟩⟩, ?_⟩
    rw [p1, p2]; exact ho

theorem setup (hT : T.Ok) (hS : T.ChordsSeparated) {ptrLt : ℕ × ℕ → ℕ × ℕ → Bool} {e : Fin 3} (r : T.FacesRun ptrLt e) :
    Setup (T.faceEdges ptrLt) (T.pos ptrLt) T.lines (CollapseRun.ord r) (T.boundaryEdge ptrLt e) where
  graph := (segs_ok hT hS ptrLt).graph (piecesOf hT hS ptrLt)
  perm := CollapseRun.perm r
  sort := CollapseRun.sort r
  mem := (boundary_ok hT hS ptrLt e).1
  outer := (boundary_ok hT hS ptrLt e).2

theorem vptrAt_mem (ptrLt : ℕ × ℕ → ℕ × ℕ → Bool) (i : ℤ) : T.vptrAt ptrLt i ∈ T.vptrs ptrLt := by
  unfold vptrAt
  cases h : (T.vptrs ptrLt)[i.toNat]? with
  | none => exact corner_mem _ _
  | some p => exact List.mem_of_getElem? h

theorem generic_of_off {b : Fin 3 → ℚ} (h : T.OffGrid b) : Generic T.lines (toDir b) := by
  have e := ofDir_toDir h.sum
  refine ⟨?_, ?_⟩
  · intro s hs
    obtain ⟨j, rfl⟩ := (mem_sides s).1 hs
    rw [side_at, e]; exact h.pos j
  · intro l hl h0
    obtain ⟨i, n, _, ⟨j, k, hjk⟩, rfl⟩ := (mem_lines l).1 hl
    rw [cut_at, e] at h0
    have := h.off i n (by linarith)
    apply hjk
    unfold hgt
    rw [this j, this k]

theorem off_of_generic {q : Dir} (h : Generic T.lines q) : T.OffGrid (ofDir q) := by
  have hpos : ∀ j, 0 < ofDir q j := fun j => by rw [← side_at]; exact h.inside _ ((mem_sides _).2 ⟨j, rfl⟩)
  refine ⟨hpos, sum_ofDir q, fun i n hn => ?_⟩
  by_cases hc : ∃ j k, T.hgt i n j ≠ T.hgt i n k
  · have hr := mem_reach i n (ofDir q) ⟨fun j => (hpos j).le, sum_ofDir q⟩ hn
    have := h.off _ ((mem_lines _).2 ⟨i, n, hr, hc, rfl⟩)
    rw [cut_at, hn] at this
    exact absurd (sub_self _) this
  · push Not at hc
    intro j
    have hall : ∀ k, T.P k i = T.P j i := fun k => by have := hc k j; unfold hgt at this; linarith
    have hs := sum_ofDir q
    unfold baryPoint at hn
    rw [Fin.sum_univ_three] at hs hn
    rw [hall 0, hall 1, hall 2] at hn
    rw [← hn]
    linear_combination (- T.P j i) * hs

theorem vdet_bary {a b c : Fin 3 → ℚ} (ha : ∑ j, a j = 1) (hb : ∑ j, b j = 1) (hc : ∑ j, c j = 1) :
    vdet a b c = cross2 (dir (toDir a) (toDir b)) (dir (toDir a) (toDir c)) := by
  rw [Fin.sum_univ_three] at ha hb hc
  rw [vdet_eq]
  unfold cross2 dir toDir
  dsimp only
  have e1 : a 2 = 1 - a 0 - a 1 := by linarith
  have e2 : b 2 = 1 - b 0 - b 1 := by linarith
  have e3 : c 2 = 1 - c 0 - c 1 := by linarith
  rw [e1, e2, e3]; ring

theorem inPoly_iff (hT : T.Ok) (hS : T.ChordsSeparated) (ptrLt : ℕ × ℕ → ℕ × ℕ → Bool) (p : List ℤ) {b : Fin 3 → ℚ}
    (hb : ∑ j, b j = 1) :
    InPoly (p.map (T.vptrAt ptrLt)) b ↔ ∀ e ∈ loopEdges p, OnLeft (toDir b) (T.pos ptrLt e.1) (T.pos ptrLt e.2) := by
  unfold InPoly
  rw [ringOf_map, List.forall_mem_map]
  refine forall₂_congr fun e _ => ?_
  have h1 := (vptrs_bary hT hS (vptrAt_mem (T := T) ptrLt e.1)).1
  have h2 := (vptrs_bary hT hS (vptrAt_mem (T := T) ptrLt e.2)).1
  unfold OnLeft
  rw [Prod.map_fst, Prod.map_snd, vdet_bary h1.sum h2.sum hb]
  rfl

theorem share_map (ptrLt : ℕ × ℕ → ℕ × ℕ → Bool) (p : List ℤ) :
    share (p.map (T.vptrAt ptrLt)) = 2 * shoelace (T.pos ptrLt) p := by
  unfold share shoelace
  rw [ringOf_map, List.map_map, ← List.sum_map_mul_left]
  unfold ringOf
  congr 1
  refine List.map_congr_left fun e _ => ?_
  simp only [Function.comp, Prod.map_fst, Prod.map_snd, pos]
  ring

/-- a vertex and a point of the same cell of the arrangement are not separated by a grid plane. -/
theorem not_separated {q : Dir} (hq : Generic T.lines q) {b : Fin 3 → ℚ} (hb : IsBary b) (hc : SameCell T.lines q (toDir b))
    (i : Fin D) (n : ℤ) (h1 : (baryPoint T.P (ofDir q) i - n) * (baryPoint T.P b i - n) ≤ 0) (h2 : baryPoint T.P b i ≠ n)
    (h3 : baryPoint T.P (ofDir q) i ≠ baryPoint T.P b i) : False := by
  have hq0 := off_of_generic hq
  have eb := ofDir_toDir hb.sum
  have hnc : ∃ j k, T.hgt i n j ≠ T.hgt i n k := by
    by_contra hcn
    push Not at hcn
    have hall : ∀ k, T.P k i = T.P 0 i := fun k => by have := hcn k 0; unfold hgt at this; linarith
    have hs := hb.sum
    have hs' := sum_ofDir q
    rw [Fin.sum_univ_three] at hs hs'
    apply h3
    unfold baryPoint
    rw [Fin.sum_univ_three, Fin.sum_univ_three, hall 1, hall 2]
    linear_combination T.P 0 i * hs' - T.P 0 i * hs
  have hr : n ∈ T.reach i := by
    set x := baryPoint T.P (ofDir q) i with hx
    set y := baryPoint T.P b i with hy
    set t : ℚ := (n - y) / (x - y) with ht
    have hxy : x - y ≠ 0 := sub_ne_zero.2 h3
    have ht01 : 0 ≤ t ∧ t ≤ 1 := by
      rcases lt_or_gt_of_ne h3 with h | h
      · rw [ht, div_nonneg_iff, div_le_one_of_neg (by linarith)]
        have hn : x ≤ n ∧ (n : ℚ) ≤ y := by constructor <;> nlinarith
        exact ⟨.inr ⟨by linarith, by linarith⟩, by linarith⟩
      · rw [ht, div_nonneg_iff, div_le_one (by linarith)]
        have hn : y ≤ n ∧ (n : ℚ) ≤ x := by constructor <;> nlinarith
        exact ⟨.inl ⟨by linarith, by linarith⟩, by linarith⟩
    refine mem_reach i n (fun j => (1 - t) * b j + t * ofDir q j) ⟨fun j => ?_, ?_⟩ ?_
    · have a1 := mul_nonneg (sub_nonneg.2 ht01.2) (hb.nonneg j)
      have a2 := mul_nonneg ht01.1 (hq0.pos j).le
      exact add_nonneg a1 a2
    · rw [Finset.sum_add_distrib, ← Finset.mul_sum, ← Finset.mul_sum, hb.sum, sum_ofDir]; ring
    · rw [baryPoint_lerp T.P b (ofDir q) _ t (fun _ => rfl), ← hx, ← hy, ht]
      field_simp
      ring
  have hl := (mem_lines _).2 ⟨i, n, hr, hnc, rfl⟩
  have k1 := hq.off _ hl
  have k2 := hc _ hl
  rw [cut_at] at k1
  rw [cut_at, cut_at, eb] at k2
  have k3 : baryPoint T.P b i - n ≠ 0 := sub_ne_zero.2 h2
  have := mul_ne_zero k1 k3
  exact this (le_antisymm h1 k2)

/-- **C108.** For every triangle in general position, whatever the addresses of the vertices and the choices of the library:
`vptr_faces` returns the polygons into which the grid planes cut the triangle. -/
theorem C108_pieces_tile_triangle (hT : T.Ok) (hS : T.ChordsSeparated) {ptrLt : ℕ × ℕ → ℕ × ℕ → Bool} {e : Fin 3} (r : T.FacesRun ptrLt e) :
    ∃ polys, r.faces = some polys ∧ T.Cuts polys := by
  obtain ⟨loops, ho, ht, _, _⟩ := loops_tile r (setup hT hS r)
  refine ⟨loops.map fun p => p.map (T.vptrAt ptrLt), ?_, ?_⟩
  · unfold FacesRun.faces
    rw [ho]; rfl
  · refine ⟨?_, ?_, ?_, ?_, ?_, ?_, ?_⟩
    · intro b hb
      obtain ⟨p, ⟨h1, h2⟩, h3⟩ := ht.cover (toDir b) (generic_of_off hb)
      refine ⟨p.map (T.vptrAt ptrLt), ⟨List.mem_map.2 ⟨p, h1, rfl⟩, (inPoly_iff hT hS ptrLt p hb.sum).2 h2⟩, ?_⟩
      rintro _ ⟨hm, hi⟩
      obtain ⟨p', hp', rfl⟩ := List.mem_map.1 hm
      rw [h3 p' ⟨hp', (inPoly_iff hT hS ptrLt p' hb.sum).1 hi⟩]
    · intro _ hpm
      obtain ⟨p, hp, rfl⟩ := List.mem_map.1 hpm
      obtain ⟨q, h1, h2, _⟩ := ht.cell p hp
      refine ⟨ofDir q, off_of_generic h1, (inPoly_iff hT hS ptrLt p (sum_ofDir q)).2 ?_⟩
      rw [toDir_ofDir]; exact h2
    · refine ht.nodup.map_on fun p hp p' hp' he => ?_
      obtain ⟨q, h1, h2, _⟩ := ht.cell p hp
      have h2' := (inPoly_iff hT hS ptrLt p (sum_ofDir q)).2 (by rw [toDir_ofDir]; exact h2)
      rw [he] at h2'
      have h3 := (inPoly_iff hT hS ptrLt p' (sum_ofDir q)).1 h2'
      rw [toDir_ofDir] at h3
      exact (ht.cover q h1).unique ⟨hp, h2⟩ ⟨hp', h3⟩
    · intro _ hpm
      obtain ⟨p, hp, rfl⟩ := List.mem_map.1 hpm
      obtain ⟨q, h1, _, h3⟩ := ht.cell p hp
      refine ⟨fun i => ⌊baryPoint T.P (ofDir q) i⌋, fun v hv i => ?_⟩
      obtain ⟨k, hk, rfl⟩ := List.mem_map.1 hv
      obtain ⟨hb, hp⟩ := vptrs_bary hT hS (vptrAt_mem (T := T) ptrLt k)
      have hcell : SameCell T.lines q (toDir (T.vptrAt ptrLt k).b) := h3 k hk
      rw [hp]
      have f1 := Int.floor_le (baryPoint T.P (ofDir q) i)
      have f2 := Int.lt_floor_add_one (baryPoint T.P (ofDir q) i)
      constructor
      · by_contra hc
        push Not at hc
        exact not_separated h1 hb hcell i ⌊baryPoint T.P (ofDir q) i⌋
          (mul_nonpos_of_nonneg_of_nonpos (by linarith) (by linarith)) hc.ne (by linarith)
      · by_contra hc
        push Not at hc
        exact not_separated h1 hb hcell i (⌊baryPoint T.P (ofDir q) i⌋ + 1)
          (mul_nonpos_of_nonpos_of_nonneg (by push_cast; linarith) (by push_cast; linarith)) (by push_cast; exact hc.ne')
          (by linarith)
    · intro _ hp v hv
      obtain ⟨p, hp, rfl⟩ := List.mem_map.1 hp
      obtain ⟨k, hk, rfl⟩ := List.mem_map.1 hv
      exact vptrs_bary hT hS (vptrAt_mem (T := T) ptrLt k)
    · intro _ hpm
      obtain ⟨p, hp, rfl⟩ := List.mem_map.1 hpm
      rw [share_map]
      exact mul_pos two_pos (ht.positive p hp)
    · have := ht.total
      rw [List.map_map]
      have e : (share ∘ fun p : List ℤ => p.map (T.vptrAt ptrLt)) = fun p => 2 * shoelace (T.pos ptrLt) p :=
        funext fun p => share_map ptrLt p
      rw [e, List.sum_map_mul_left, this]; norm_num

/-- **C108.** The polygons fit together: no directed side occurs twice, in one polygon or in different ones, and a side also
occurs reversed exactly if it is not on the boundary of the triangle. -/
theorem C108_sides_paired (hT : T.Ok) (hS : T.ChordsSeparated) {ptrLt : ℕ × ℕ → ℕ × ℕ → Bool} {e : Fin 3} (r : T.FacesRun ptrLt e) :
    ∃ polys, r.faces = some polys ∧ (polys.flatMap ringOf).Nodup ∧
      ∀ e ∈ polys.flatMap ringOf, (e.2, e.1) ∈ polys.flatMap ringOf ↔ ¬ ∃ j, e.1.b j = 0 ∧ e.2.b j = 0 := by
  obtain ⟨loops, ho, _, hn, hi⟩ := loops_tile r (setup hT hS r)
  have G := (setup hT hS r).graph
  have hfl := flatMap_ringOf (T.vptrAt ptrLt) loops
  have hidx : ∀ a b, (a, b) ∈ (FaceCollapser.make (T.faceEdges ptrLt)).edgeList → T.index ptrLt (T.vptrAt ptrLt a) = a := by
    intro a b h
    obtain ⟨p, hp, rfl⟩ := half_vertex hT hS h
    rw [vptrAt_index hT hS hp]
  have hinj : ∀ e e', e ∈ (FaceCollapser.make (T.faceEdges ptrLt)).edgeList → e' ∈ (FaceCollapser.make (T.faceEdges ptrLt)).edgeList →
      Prod.map (T.vptrAt ptrLt) (T.vptrAt ptrLt) e = Prod.map (T.vptrAt ptrLt) (T.vptrAt ptrLt) e' → e = e' := by
    rintro ⟨a, b⟩ ⟨a', b'⟩ h h' he
    have h1 := congrArg Prod.fst he
    have h2 := congrArg Prod.snd he
    simp only [Prod.map_fst, Prod.map_snd] at h1 h2
    refine Prod.ext ?_ ?_
    · show a = a'
      rw [← hidx a b h, h1, hidx a' b' h']
    · show b = b'
      rw [← hidx b a (G.symm _ _ h), h2, hidx b' a' (G.symm _ _ h')]
  refine ⟨loops.map fun p => p.map (T.vptrAt ptrLt), ?_, ?_, ?_⟩
  · unfold FacesRun.faces
    rw [ho]; rfl
  · rw [hfl]
    exact hn.map_on fun e he e' he' h => hinj e e' ((hi e).1 he).1 ((hi e').1 he').1 h
  · rw [hfl]
    intro e' he'
    obtain ⟨⟨a, b⟩, he, rfl⟩ := List.mem_map.1 he'
    obtain ⟨hE, hO⟩ := (hi _).1 he
    have hE' := G.symm _ _ hE
    have hab : (T.vptrAt ptrLt b, T.vptrAt ptrLt a) ∈ (loops.flatMap loopEdges).map (Prod.map (T.vptrAt ptrLt) (T.vptrAt ptrLt)) ↔
        ¬ Outer (T.pos ptrLt b) (T.pos ptrLt a) := by
      constructor
      · intro h
        obtain ⟨e, hm, h⟩ := List.mem_map.1 h
        have h' := (hi e).1 hm
        have := hinj e (b, a) h'.1 hE' h
        rw [this] at h'
        exact h'.2
      · intro h
        exact List.mem_map.2 ⟨(b, a), (hi _).2 ⟨hE', h⟩, rfl⟩
    show (T.vptrAt ptrLt b, T.vptrAt ptrLt a) ∈ _ ↔ _
    rw [hab]
    apply not_congr
    have h1 := (vptrs_bary hT hS (vptrAt_mem (T := T) ptrLt a)).1
    have h2 := (vptrs_bary hT hS (vptrAt_mem (T := T) ptrLt b)).1
    have hne := G.ne _ hE
    have s1 := h1.sum
    have s2 := h2.sum
    rw [Fin.sum_univ_three] at s1 s2
    dsimp only at hO hne
    rw [outer_iff] at hO ⊢
    simp only [Prod.map_fst, Prod.map_snd]
    unfold pos at hO hne ⊢
    dsimp only at hO hne ⊢
    generalize (T.vptrAt ptrLt a).b = x at *
    generalize (T.vptrAt ptrLt b).b = y at *
    constructor
    · rintro (⟨k1, k2, _⟩ | ⟨k1, k2, _⟩ | ⟨k1, k2, _⟩)
      · exact ⟨0, k2, k1⟩
      · exact ⟨1, k2, k1⟩
      · exact ⟨2, by linarith, by linarith⟩
    · rintro ⟨j, k1, k2⟩
      push Not at hO
      obtain ⟨o1, o2, o3⟩ := hO
      have hj : j = 0 ∨ j = 1 ∨ j = 2 := by clear * -; revert j; decide
      rcases hj with rfl | rfl | rfl
      · left
        refine ⟨k2, k1, lt_of_le_of_ne (o1 k1 k2) fun h => hne (Prod.ext ?_ h.symm)⟩
        rw [k1, k2]
      · right; left
        refine ⟨k2, k1, lt_of_le_of_ne (o2 k1 k2) fun h => hne (Prod.ext h ?_)⟩
        rw [k1, k2]
      · right; right
        refine ⟨by linarith, by linarith, lt_of_le_of_ne (o3 (by linarith) (by linarith)) fun h => hne (Prod.ext h.symm ?_)⟩
        show x 1 = y 1
        linarith

/-! ## Executions exist -/

/-- the neighbours of each vertex can be sorted by angle. -/
theorem exists_order {E : List DEdge} (V : ℤ → Dir) (hne : ∀ a b, (a, b) ∈ (FaceCollapser.make E).edgeList → V a ≠ V b) :
    ∃ ord : ℤ → List ℤ, (∀ a, (ord a).Perm ((FaceCollapser.make E).ring a)) ∧
      ∀ a, (ord a).Pairwise fun x y => angleLt (dirTo V a y) (dirTo V a x) = false := by
  obtain ⟨c1, c2, c3, c4⟩ := C67_strict_weak_order
  have key : ∀ a, ∃ l' : List ℤ, l'.Perm ((FaceCollapser.make E).ring a) ∧
      l'.Pairwise fun x y => angleLt (dirTo V a y) (dirTo V a x) = false := by
    intro a
    have hnz : ∀ b ∈ (FaceCollapser.make E).ring a, dirTo V a b ≠ 0 := fun b hb =>
      Arr.dir_ne (hne a b (FaceCollapser.mem_ring.1 hb))
    refine Pipe2.exists_sorted _ _ (fun b hb c hc => ?_) fun b hb c hc d hd h1 h2 => ?_
    · by_contra hn
      push Not at hn
      obtain ⟨n1, n2⟩ := hn
      have n1' : angleLt (dirTo V a c) (dirTo V a b) = true := by simpa using n1
      have n2' : angleLt (dirTo V a b) (dirTo V a c) = true := by simpa using n2
      have := c2 _ _ _ (hnz b hb) (hnz c hc) (hnz b hb) n2' n1'
      rw [c1] at this
      cases this
    · by_contra hn
      have hn' : angleLt (dirTo V a d) (dirTo V a b) = true := by simpa using hn
      by_cases h3 : angleLt (dirTo V a b) (dirTo V a c) = true
      · have := c2 _ _ _ (hnz d hd) (hnz b hb) (hnz c hc) hn' h3
        rw [this] at h2; cases h2
      · have s1 := (c3 _ _ (hnz b hb) (hnz c hc)).1 ⟨by simpa using h3, h1⟩
        by_cases h4 : angleLt (dirTo V a c) (dirTo V a d) = true
        · have := c2 _ _ _ (hnz c hc) (hnz d hd) (hnz b hb) h4 hn'
          rw [this] at h1; cases h1
        · have s2 := (c3 _ _ (hnz c hc) (hnz d hd)).1 ⟨by simpa using h4, h2⟩
          have s3 := c4 _ _ _ (hnz b hb) (hnz c hc) (hnz d hd) s1 s2
          have := ((c3 _ _ (hnz b hb) (hnz d hd)).2 s3).2
          rw [this] at hn'; cases hn'
  choose ord h1 h2 using key
  exact ⟨ord, h1, h2⟩

theorem exists_mergeRun (s : FaceCollapser) (V : ℤ → Dir) (inside : ℤ → ℤ → Bool) :
    ∃ M : MergeRun s V, M.inside = inside := by
  have hs : OMap.Sorted intLt (s.volumes V) := FaceCollapser.map_half_sorted (FaceCollapser.volumes_fold V s.etf [] OMap.sorted_nil).1
  obtain ⟨neg, n1, n2⟩ := Pipe2.exists_sorted (FaceCollapser.negativeAreas (s.volumes V))
    (fun a b => ¬ (FaceCollapser.volAt (s.volumes V) b > FaceCollapser.volAt (s.volumes V) a))
    (fun a _ b _ => by rcases le_total (FaceCollapser.volAt (s.volumes V) a) (FaceCollapser.volAt (s.volumes V) b) with h | h
                       · exact .inr (not_lt.2 h)
                       · exact .inl (not_lt.2 h))
    (fun a _ b _ c _ h1 h2 => by push Not at *; exact h2.trans h1)
  have hok : (FaceCollapser.mergeDsu (s.volumes V) (FaceCollapser.positiveAreas (s.volumes V)) neg inside).Ok := by
    refine ⟨?_, ?_⟩
    · show ((s.volumes V).map Prod.fst).Nodup
      rw [List.Nodup, List.pairwise_map]
      refine hs.imp fun h he => ?_
      rw [he] at h
      exact absurd h (by rw [strictTotal_intLt.irrefl]; decide)
    · rintro ⟨f, n⟩ hfn
      unfold FaceCollapser.mergeDsu FaceCollapser.mergePairs at hfn
      obtain ⟨f', hf', hfn⟩ := List.mem_flatMap.1 hfn
      obtain ⟨n', hn', hfn⟩ := List.mem_map.1 hfn
      cases hfn
      have hn'' := n1.subset (List.takeWhile_subset _ (List.mem_of_mem_filter hn'))
      unfold FaceCollapser.mergeDsu
      unfold FaceCollapser.positiveAreas at hf'
      unfold FaceCollapser.negativeAreas at hn''
      obtain ⟨x, hx, rfl⟩ := List.mem_map.1 hf'
      obtain ⟨y, hy, rfl⟩ := List.mem_map.1 hn''
      exact ⟨List.mem_map.2 ⟨x, List.mem_of_mem_filter hx, rfl⟩, List.mem_map.2 ⟨y, List.mem_of_mem_filter hy, rfl⟩⟩
  exact ⟨⟨inside, _, neg, List.Perm.refl _, n1, n2, hok.roots⟩, rfl⟩

theorem exists_collapseRun {E : List DEdge} (V : ℤ → Dir) (b : DEdge)
    (hne : ∀ a b, (a, b) ∈ (FaceCollapser.make E).edgeList → V a ≠ V b) : Nonempty (CollapseRun E V b) := by
  obtain ⟨ord, h1, h2⟩ := exists_order V hne
  have hok := (FaceCollapser.ok_unify (Setup.colOk E b) (Setup.colDeg E b) ord (fun a => by
    rw [show (col E b).ring a = (FaceCollapser.make E).ring a from FaceCollapser.setEdge_ring _ _ _]; exact h1 a)).ds
  obtain ⟨M, _⟩ := exists_mergeRun ((col E b).bakeSimple ord hok.roots) V fun _ _ => false
  exact ⟨⟨ord, h1, h2, hok.roots, M⟩⟩

/-- **C108.** Executions exist, so the theorems above are about something. -/
theorem C108_run_exists (hT : T.Ok) (hS : T.ChordsSeparated) (ptrLt : ℕ × ℕ → ℕ × ℕ → Bool) (e : Fin 3) :
    Nonempty (T.FacesRun ptrLt e) :=
  exists_collapseRun _ _ fun _ _ h => ((segs_ok hT hS ptrLt).graph (piecesOf hT hS ptrLt)).ne _ h

/-- the hypotheses hold for the triangle `(1/2,1/2,1/2), (5/2,1/2,1/2), (1/2,5/2,1/2)`; the point with coordinates
`(1/3,1/3,1/3)`, at `(7/6, 7/6, 1/2)`, is in the polygon of the cell `(1,1,0)`. -/
example (lt : ℕ × ℕ → ℕ × ℕ → Bool) (e : Fin 3) : ∃ r : exTri.FacesRun lt e, ∃ polys, r.faces = some polys ∧
    ∃ p ∈ polys, InPoly p ![1/3, 1/3, 1/3] := by
  obtain ⟨r⟩ := C108_run_exists exTri_ok exTri_chords lt e
  obtain ⟨polys, h1, h2⟩ := C108_pieces_tile_triangle exTri_ok exTri_chords r
  refine ⟨r, polys, h1, ?_⟩
  have hs : ∑ j, (![1/3, 1/3, 1/3] : Fin 3 → ℚ) j = 1 := by
    rw [Fin.sum_univ_three]; show (1/3 : ℚ) + 1/3 + 1/3 = 1; norm_num
  have e1 : (![1/3, 1/3, 1/3] : Fin 3 → ℚ) 1 = 1/3 := rfl
  have e2 : (![1/3, 1/3, 1/3] : Fin 3 → ℚ) 2 = 1/3 := rfl
  obtain ⟨h0, h1', h2'⟩ := exTri_point _ hs
  rw [e1] at h0
  rw [e2] at h1'
  obtain ⟨p, ⟨hp, hi⟩, _⟩ := h2.cover ![1/3, 1/3, 1/3] ⟨by decide +kernel, hs, fun i n hn => by
    exfalso
    match i with
    | 0 =>
      rw [h0] at hn
      have : ((6 * n : ℤ) : ℚ) = (7 : ℤ) := by push_cast; linarith
      have := Int.cast_injective this
      omega
    | 1 =>
      rw [h1'] at hn
      have : ((6 * n : ℤ) : ℚ) = (7 : ℤ) := by push_cast; linarith
      have := Int.cast_injective this
      omega
    | 2 =>
      rw [h2'] at hn
      have : ((2 * n : ℤ) : ℚ) = (1 : ℤ) := by push_cast; linarith
      have := Int.cast_injective this
      omega⟩
  exact ⟨p, hp, hi⟩

end TriInput
end Mandoline
