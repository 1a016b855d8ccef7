import Verif.Pipe2.Tile
import Mathlib.Data.List.Sort

/-!
# C84: the faces of the planar cut graph, from the input
-/
namespace Mandoline
namespace Pipe2
open Sched Planar

variable {n m : ℕ} {P : Input n m} {cs : List (CrossingI 2)} {es : List (EdgeInput.MeshEdge 2)} {ci : Coord 2 → ℤ}

theorem exists_sorted {α : Type*} (l : List α) (r : α → α → Prop) (ht : ∀ a ∈ l, ∀ b ∈ l, r a b ∨ r b a)
    (htr : ∀ a ∈ l, ∀ b ∈ l, ∀ c ∈ l, r a b → r b c → r a c) : ∃ l' : List α, l'.Perm l ∧ l'.Pairwise r := by
  classical
  let r' : {x // x ∈ l} → {x // x ∈ l} → Prop := fun a b => r a.1 b.1
  haveI : Std.Total r' := ⟨fun a b => ht a.1 a.2 b.1 b.2⟩
  haveI : IsTrans {x // x ∈ l} r' := ⟨fun a b c => htr a.1 a.2 b.1 b.2 c.1 c.2⟩
  refine ⟨(l.attach.insertionSort r').map Subtype.val, ?_, ?_⟩
  · have := (List.perm_insertionSort r' l.attach).map Subtype.val
    rwa [List.attach_map_subtype_val] at this
  · rw [List.pairwise_map]
    exact List.pairwise_insertionSort r' l.attach

/-- the neighbours of each vertex can be sorted by angle, as the code does with `std::sort`. -/
theorem Run.exists_order (h : Run P cs es) (pl : P.Planar) : ∃ ord : ℤ → List ℤ,
    (∀ a, (ord a).Perm ((FaceCollapser.make (P.graph cs es)).ring a)) ∧
    ∀ a, (ord a).Pairwise fun b c => angleLt (dirTo (P.gen cs es ci).pos a c) (dirTo (P.gen cs es ci).pos a b) = false := by
  obtain ⟨c1, c2, c3, c4⟩ := C67_strict_weak_order
  have key : ∀ a, ∃ l' : List ℤ, l'.Perm ((FaceCollapser.make (P.graph cs es)).ring a) ∧
      l'.Pairwise fun b c => angleLt (dirTo (P.gen cs es ci).pos a c) (dirTo (P.gen cs es ci).pos a b) = false := by
    intro a
    have hnz : ∀ b ∈ (FaceCollapser.make (P.graph cs es)).ring a, dirTo (P.gen cs es ci).pos a b ≠ 0 := by
      intro b hb h0
      obtain ⟨p, q, np, nq, sq⟩ := h.edge_seg pl ((mem_known _).1 (FaceCollapser.mem_ring.1 hb))
      unfold dirTo at h0
      rw [h.pos np, h.pos nq] at h0
      have h0' := Prod.ext_iff.1 h0
      dsimp only at h0'
      exact sq.ne (pt_ext (by have := h0'.1; simp at this; linarith) (by have := h0'.2; simp at this; linarith))
    refine exists_sorted _ _ (fun b hb c hc => ?_) fun b hb c hc d hd h1 h2 => ?_
    · by_contra hn
      push Not at hn
      obtain ⟨n1, n2⟩ := hn
      have n1' : angleLt (dirTo (P.gen cs es ci).pos a c) (dirTo (P.gen cs es ci).pos a b) = true := by simpa using n1
      have n2' : angleLt (dirTo (P.gen cs es ci).pos a b) (dirTo (P.gen cs es ci).pos a c) = true := by simpa using n2
      have := c2 _ _ _ (hnz b hb) (hnz c hc) (hnz b hb) n2' n1'
      rw [c1] at this
      cases this
    · by_contra hn
      have hn' : angleLt (dirTo (P.gen cs es ci).pos a d) (dirTo (P.gen cs es ci).pos a b) = true := by simpa using hn
      -- d < b, ¬ c < b, ¬ d < c
      by_cases h3 : angleLt (dirTo (P.gen cs es ci).pos a b) (dirTo (P.gen cs es ci).pos a c) = true
      · have := c2 _ _ _ (hnz d hd) (hnz b hb) (hnz c hc) hn' h3
        rw [this] at h2; cases h2
      · have s1 := (c3 _ _ (hnz b hb) (hnz c hc)).1 ⟨by simpa using h3, h1⟩
        by_cases h4 : angleLt (dirTo (P.gen cs es ci).pos a c) (dirTo (P.gen cs es ci).pos a d) = true
        · have := c2 _ _ _ (hnz c hc) (hnz d hd) (hnz b hb) h4 hn'
          rw [this] at h1; cases h1
        · have s2 := (c3 _ _ (hnz c hc) (hnz d hd)).1 ⟨by simpa using h4, h2⟩
          have s3 := c4 _ _ _ (hnz b hb) (hnz c hc) (hnz d hd) s1 s2
          have := ((c3 _ _ (hnz b hb) (hnz d hd)).2 s3).2
          rw [this] at hn'; cases hn'
  choose ord h1 h2 using key
  exact ⟨ord, h1, h2⟩

/-- **C84.** For every admissible planar input, every schedule of `bake` and every way the sorting and the union-find break
ties: the loops of the face computation partition the half-edges; and for every active cell `c`, each loop with `c` on the left
of one of its half-edges has `c` on the left of all of them, stays in the closed cell, is assigned to `c` and kept unless its
signed area is below -1/2; and the signed areas of these loops add up to the area of the cell. -/
theorem C84_loops_tile_active_cells (h : Run P cs es) (pl : P.Planar) {ord : ℤ → List ℤ}
    (perm : ∀ a, (ord a).Perm ((FaceCollapser.make (P.graph cs es)).ring a))
    (sort : ∀ a, (ord a).Pairwise fun b c => angleLt (dirTo (P.gen cs es ci).pos a c) (dirTo (P.gen cs es ci).pos a b) = false)
    (R : DsuRoots ((FaceCollapser.make (P.graph cs es)).unify ord).ds) :
    ∃ out, ((FaceCollapser.make (P.graph cs es)).bakeSimple ord R).faces = some out ∧
      (out.flatMap fun p => loopEdges p.2).Perm (FaceCollapser.make (P.graph cs es)).edgeList ∧
      ∀ c, (P.gen cs es ci).Active c →
        (∀ p ∈ out, (∃ e ∈ loopEdges p.2, LeftOf c ((P.gen cs es ci).pos e.1) ((P.gen cs es ci).pos e.2)) →
          (∀ e ∈ loopEdges p.2, LeftOf c ((P.gen cs es ci).pos e.1) ((P.gen cs es ci).pos e.2)) ∧
          (∀ v ∈ p.2, InCell c ((P.gen cs es ci).pos v)) ∧ (P.gen cs es ci).ownerCell [p.2] = some c ∧
          ((P.gen cs es ci).keep [p.2] = true ↔ -1 / 2 ≤ shoelace (P.gen cs es ci).pos p.2)) ∧
        ∀ D : ℤ × List ℤ → Bool, (∀ p ∈ out, D p = true ↔
            ∃ e ∈ loopEdges p.2, LeftOf c ((P.gen cs es ci).pos e.1) ((P.gen cs es ci).pos e.2)) →
          ((out.filter D).map fun p => shoelace (P.gen cs es ci).pos p.2).sum = 1 := by
  classical
  have hG := C84_planar_graph (ci := ci) h pl perm sort
  obtain ⟨out, h1, h2, h3⟩ := FaceCollapser.C35_loops_partition_edges _ (FaceCollapser.ok_make _)
    (FaceCollapser.make_inv _).1 ord perm R
  have hall : ((FaceCollapser.make (P.graph cs es)).edgeList.filter fun e =>
      decide (0 ≤ ((FaceCollapser.make (P.graph cs es)).bakeSimple ord R).face e)) = (FaceCollapser.make (P.graph cs es)).edgeList :=
    List.filter_eq_self.2 fun e he => decide_eq_true (face_nonneg _ ord perm R e he)
  rw [hall] at h2
  refine ⟨out, h1, h2, fun c hc => ?_⟩
  have hf := C84_framed h pl c hc
  obtain ⟨out1, g1, g2⟩ := C76_loop_in_one_cell hG R c hf
  rw [h1] at g1
  cases g1
  obtain ⟨out2, k1, k2⟩ := Gen2.C77_loops_of_active_cells (G := P.gen cs es ci) (ord := ord) h.normalised hG R c hf
  rw [h1] at k1
  cases k1
  refine ⟨fun p hp hex => ?_, fun D hD => ?_⟩
  · obtain ⟨a1, a2⟩ := g2 p hp hex
    obtain ⟨b1, b2⟩ := k2 p hp hex
    refine ⟨a1, a2, b2, ?_⟩
    rw [b1]
    exact ⟨fun hh => hh.1, fun hh => ⟨hh, hc.2⟩⟩
  · have ha := h.area_two pl c hc (fun e => decide (LeftOf c ((P.gen cs es ci).pos e.1) ((P.gen cs es ci).pos e.2)))
      (fun e _ => decide_eq_true_iff)
    have hp2 := (h2.filter fun e => decide (LeftOf c ((P.gen cs es ci).pos e.1) ((P.gen cs es ci).pos e.2))).map
      fun e => cross2 ((P.gen cs es ci).pos e.1) ((P.gen cs es ci).pos e.2)
    rw [← hp2.sum_eq] at ha
    have gen : ∀ l : List (ℤ × List ℤ), (∀ p ∈ l, p ∈ out) →
        (((l.flatMap fun p => loopEdges p.2).filter fun e => decide (LeftOf c ((P.gen cs es ci).pos e.1) ((P.gen cs es ci).pos e.2))).map
          fun e => cross2 ((P.gen cs es ci).pos e.1) ((P.gen cs es ci).pos e.2)).sum =
        2 * ((l.filter D).map fun p => shoelace (P.gen cs es ci).pos p.2).sum := by
      intro l hl
      induction l with
      | nil => simp
      | cons p l ih =>
        rw [List.flatMap_cons, List.filter_append, List.map_append, List.sum_append, ih fun q hq => hl q (List.mem_cons_of_mem _ hq)]
        have hp := hl p List.mem_cons_self
        by_cases hx : ∃ e ∈ loopEdges p.2, LeftOf c ((P.gen cs es ci).pos e.1) ((P.gen cs es ci).pos e.2)
        · rw [List.filter_eq_self.2 fun e he => decide_eq_true ((g2 p hp hx).1 e he), List.filter_cons_of_pos ((hD p hp).2 hx),
            List.map_cons, List.sum_cons, mul_add]
          congr 1
          unfold shoelace loopEdges
          rw [← List.sum_map_mul_left]
          congr 1
          refine List.map_congr_left fun e _ => ?_
          unfold cross2
          ring
        · have hnil : ((loopEdges p.2).filter fun e => decide (LeftOf c ((P.gen cs es ci).pos e.1) ((P.gen cs es ci).pos e.2))) = [] :=
            List.filter_eq_nil_iff.2 fun e he hd => hx ⟨e, he, of_decide_eq_true hd⟩
          rw [hnil, List.filter_cons_of_neg (fun hh => hx ((hD p hp).1 hh))]
          simp
    rw [gen out fun p hp => hp] at ha
    linarith

/-- **C84.** Such a run exists for every admissible input, and so does a sorted order of the neighbours. -/
theorem C84_run_exists (hA : P.Admissible) (pl : P.Planar) : ∃ cs es, Run P cs es ∧ ∃ ord : ℤ → List ℤ,
    (∀ a, (ord a).Perm ((FaceCollapser.make (P.graph cs es)).ring a)) ∧
    ∀ a, (ord a).Pairwise fun b c => angleLt (dirTo (P.gen cs es ci).pos a c) (dirTo (P.gen cs es ci).pos a b) = false := by
  obtain ⟨⟨cs, es, fs, hb⟩, _⟩ := C51_no_deadlock P.edgeInput.tasks _ _ P.edgeInput.tasks_tagged
  have hr : Run P cs es := ⟨hA, fs, hb⟩
  exact ⟨cs, es, hr, hr.exists_order pl⟩

end Pipe2
end Mandoline
