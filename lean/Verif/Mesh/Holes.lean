import Verif.Cell.Watertight
import Mathlib.Tactic.LinearCombination

/-!
# C82, C107: the triangulation of a face with holes covers the face

`triangulate_triangle` (src/cutface.cpp:63-193) keeps the triangles of the library whose centre has a total winding number above one half. Here
the winding numbers are those of the loops, the library's triangles form a triangulation of the plane region, and it is shown that the triangles
kept have the loops of the face as their border and the area of the face.
-/
namespace Mandoline.Triangulate
open Watertight CellCollapser

/-! ## specification -/

/-- the total winding number of the loops of a face around the centre of the triangle `t`. -/
def windAt (wn : List ℤ → Dir → ℚ) (V : ℤ → Dir) (loops : List (List ℤ)) (t : Tri) : ℚ :=
  (loops.map fun c => wn c (centre (V t.1) (V t.2.1) (V t.2.2))).sum

/-- the edges of all loops. -/
def loopEdges (loops : List (List ℤ)) : List DEdge := loops.flatMap fun c => c.zip (c.rotate 1)

/-- how winding numbers behave on a triangulation with counter-clockwise triangles: from the right to the left of the directed edge `a → b` the winding
number grows by the number of times the loops pass `a → b`, less the number of times they pass `b → a`; where no triangle is, it is zero. -/
def Jumps (T : List Tri) (w : Tri → ℚ) (E : List DEdge) : Prop :=
  ∀ a b, ((T.filter fun t => decide ((a, b) ∈ triEdges t)).map w).sum - ((T.filter fun t => decide ((b, a) ∈ triEdges t)).map w).sum =
    (E.count (a, b) : ℚ) - E.count (b, a)

/-- the three corners differ. -/
def Proper (t : Tri) : Prop := t.1 ≠ t.2.1 ∧ t.2.1 ≠ t.2.2 ∧ t.2.2 ≠ t.1

/-- twice the signed area enclosed by a chain of directed edges. -/
def area2 (V : ℤ → Dir) (E : List DEdge) : ℚ := (E.map fun e => (V e.1).1 * (V e.2).2 - (V e.1).2 * (V e.2).1).sum

/-- twice the signed area of a triangle. -/
def triArea2 (V : ℤ → Dir) (t : Tri) : ℚ :=
  ((V t.2.1).1 - (V t.1).1) * ((V t.2.2).2 - (V t.1).2) - ((V t.2.1).2 - (V t.1).2) * ((V t.2.2).1 - (V t.1).1)

/-! ## lemmas -/

theorem count_triEdges (t : Tri) (h : Proper t) (e : DEdge) : (triEdges t).count e = if e ∈ triEdges t then 1 else 0 := by
  obtain ⟨a, b, c⟩ := t
  obtain ⟨h1, h2, h3⟩ := h
  dsimp only at h1 h2 h3
  have hn : (triEdges ((a, b, c) : Tri)).Nodup := by
    unfold triEdges
    simp only [List.nodup_cons, List.mem_cons, List.not_mem_nil, or_false, Prod.mk.injEq, not_or, not_and, not_false_eq_true, List.nodup_nil, and_true]
    exact ⟨⟨fun h => absurd h h1, fun h => absurd h.symm h3⟩, fun h => absurd h h2⟩
  split
  · exact List.count_eq_one_of_mem hn ‹_›
  · exact List.count_eq_zero_of_not_mem ‹_›

theorem count_flatMap_triEdges (T : List Tri) (h : ∀ t ∈ T, Proper t) (e : DEdge) :
    (T.flatMap triEdges).count e = (T.filter fun t => decide (e ∈ triEdges t)).length := by
  induction T with
  | nil => rfl
  | cons t T ih =>
    rw [List.flatMap_cons, List.count_append, ih fun t ht => h t (List.mem_cons_of_mem _ ht), count_triEdges t (h t List.mem_cons_self)]
    by_cases he : e ∈ triEdges t
    · rw [List.filter_cons_of_pos (by simpa using he), List.length_cons, if_pos he]; omega
    · rw [List.filter_cons_of_neg (by simpa using he), if_neg he]; omega

theorem kept_sum (T : List Tri) (w : Tri → ℚ) (s : ℚ) (hs : |s| = 1) (h01 : ∀ t ∈ T, w t = 0 ∨ w t = s) (q : Tri → Bool) :
    ((T.filter q).map w).sum = s * (((T.filter fun t => decide (1 / 2 < |w t|)).filter q).length : ℚ) := by
  induction T with
  | nil => simp
  | cons t T ih =>
    have ih := ih fun t ht => h01 t (List.mem_cons_of_mem _ ht)
    have ht := h01 t List.mem_cons_self
    by_cases hq : q t = true
    · rw [List.filter_cons_of_pos hq, List.map_cons, List.sum_cons, ih]
      rcases ht with ht | ht
      · rw [List.filter_cons_of_neg (a := t) (by simp [ht]), ht, zero_add]
      · rw [List.filter_cons_of_pos (a := t) (by rw [ht, hs]; norm_num), List.filter_cons_of_pos hq, List.length_cons, ht]
        push_cast; ring
    · rw [List.filter_cons_of_neg hq, ih]
      rcases ht with ht | ht
      · rw [List.filter_cons_of_neg (a := t) (by simp [ht])]
      · rw [List.filter_cons_of_pos (a := t) (by rw [ht, hs]; norm_num), List.filter_cons_of_neg hq]

theorem area2_eq_of_border (V : ℤ → Dir) (E F : List DEdge) (s : Bool) (h : ∀ e, netE E e = sgn s * netE F e) :
    area2 V E = (sgn s : ℚ) * area2 V F := by
  have h0 := closed_sum_zero [(0, true), (1, !s)] (fun f => if f = 0 then E else F)
    (fun e => (V e.1).1 * (V e.2).2 - (V e.1).2 * (V e.2).1) (fun e => by show _ = _; unfold DEdge.rev; ring) (by
      intro e
      have := h e
      unfold netE at this
      simp only [List.map_cons, List.map_nil, List.sum_cons, List.sum_nil, if_true, if_neg one_ne_zero]
      rw [this]
      cases s <;> simp [sgn])
  simp only [List.map_cons, List.map_nil, List.sum_cons, List.sum_nil, if_true, if_neg one_ne_zero] at h0
  unfold area2
  cases s <;> simp [sgn] at h0 ⊢ <;> linarith

theorem area2_triEdges (V : ℤ → Dir) (T : List Tri) : area2 V (T.flatMap triEdges) = (T.map (triArea2 V)).sum := by
  induction T with
  | nil => rfl
  | cons t T ih =>
    rw [List.map_cons, List.sum_cons, ← ih]
    unfold area2
    rw [List.flatMap_cons, List.map_append, List.sum_append]
    congr 1
    unfold triEdges triArea2
    simp only [List.map_cons, List.map_nil, List.sum_cons, List.sum_nil]
    ring

/-! ## theorems -/

variable (lib : List Dir → List (ℤ × ℤ) → List Dir × List Tri) (wn : List ℤ → Dir → ℚ) (V : ℤ → Dir)
  (loops : List (List ℤ)) (axis : Fin 3) (coord : ℤ) (add : Bool)

/-- **C82, the face is covered.** Let the library add no vertex, let `T` be its triangles on the vertices of the face, with distinct corners, and let the
winding numbers of the loops be zero or `s` (`true` for one, `false` for minus one) on all triangles and not zero everywhere. Then the
triangles returned have as their border exactly the loops of the face – reversed if the winding number is minus one – and their areas add
up to the area the loops enclose. -/
theorem C82_face_covered (hne : ∃ c ∈ loops, c ≠ [])
    (hV : (lib (compactV V (used loops)) (compactE loops)).1.length ≤ (used loops).length)
    (hF : ∀ t ∈ (lib (compactV V (used loops)) (compactE loops)).2, ∀ i ∈ Tri.corners t, 0 ≤ i ∧ i < (used loops).length)
    (T : List Tri) (hT : T.map (Tri.map some) = (lib (compactV V (used loops)) (compactE loops)).2.map (Tri.map (col (used loops))))
    (hp : ∀ t ∈ T, Proper t) (hj : Jumps T (windAt wn V loops) (loopEdges loops)) (s : Bool)
    (h01 : ∀ t ∈ T, windAt wn V loops t = 0 ∨ windAt wn V loops t = (sgn s : ℚ)) (hsome : ∃ t ∈ T, windAt wn V loops t ≠ 0) :
    ∃ FF, triangulateTriangle lib wn V loops axis coord add = some ([], FF) ∧
      (∀ t, t ∈ FF ↔ t ∈ T ∧ windAt wn V loops t ≠ 0) ∧
      (∀ a b, ((FF.flatMap triEdges).count (a, b) : ℤ) - (FF.flatMap triEdges).count (b, a) =
        (if s then 1 else -1) * (((loopEdges loops).count (a, b) : ℤ) - (loopEdges loops).count (b, a))) ∧
      (FF.map (triArea2 V)).sum = (if s then 1 else -1) * area2 V (loopEdges loops) := by
  obtain ⟨FF, h1, -, T', hT', hFF⟩ := C82_no_vertex_added lib wn V loops axis coord add hne hV hF
  have hTT : T' = T := by
    have hinj : Function.Injective (Tri.map (some : ℤ → Option ℤ)) := by
      rintro ⟨a, b, c⟩ ⟨a', b', c'⟩ h
      simpa [Tri.map] using h
    exact List.map_injective_iff.2 hinj (hT'.trans hT.symm)
  subst hTT
  have hs : |(sgn s : ℚ)| = 1 := by cases s <;> simp [sgn]
  have hmem : ∀ t ∈ T', (1 / 2 < |windAt wn V loops t| ↔ windAt wn V loops t ≠ 0) := by
    intro t ht
    rcases h01 t ht with h | h
    · rw [h]; norm_num
    · rw [h, hs]
      refine ⟨fun _ h0 => ?_, fun _ => by norm_num⟩
      rw [h0] at hs; norm_num at hs
  have hFF' : FF = T'.filter fun t => decide (1 / 2 < |windAt wn V loops t|) := by
    have hin : (T'.filter fun t => decide (1 / 2 < |windAt wn V loops t|)) ≠ [] := by
      obtain ⟨t, ht, hw⟩ := hsome
      exact List.ne_nil_of_mem (List.mem_filter.2 ⟨ht, by simpa using (hmem t ht).2 hw⟩)
    dsimp only at hFF
    rw [hFF]
    exact if_neg hin
  have hpF : ∀ t ∈ FF, Proper t := fun t ht => hp t (List.mem_of_mem_filter (hFF' ▸ ht))
  have hsgn : ((if s then 1 else -1 : ℤ)) = sgn s := by cases s <;> rfl
  have hborder : ∀ a b, ((FF.flatMap triEdges).count (a, b) : ℤ) - (FF.flatMap triEdges).count (b, a) =
      sgn s * (((loopEdges loops).count (a, b) : ℤ) - (loopEdges loops).count (b, a)) := by
    intro a b
    have h := hj a b
    rw [kept_sum T' _ (sgn s : ℚ) hs h01, kept_sum T' _ (sgn s : ℚ) hs h01, ← hFF', ← count_flatMap_triEdges FF hpF, ← count_flatMap_triEdges FF hpF] at h
    have h2 : (((FF.flatMap triEdges).count (a, b) : ℤ) - (FF.flatMap triEdges).count (b, a) : ℚ) =
        (sgn s : ℚ) * (((loopEdges loops).count (a, b) : ℚ) - (loopEdges loops).count (b, a)) := by
      have hss : (sgn s : ℚ) * (sgn s : ℚ) = 1 := by cases s <;> simp [sgn]
      push_cast
      linear_combination (sgn s : ℚ) * h - (((FF.flatMap triEdges).count (a, b) : ℚ) - (FF.flatMap triEdges).count (b, a)) * hss
    exact_mod_cast h2
  refine ⟨FF, h1, fun t => ?_, fun a b => by rw [hsgn]; exact hborder a b, ?_⟩
  · rw [hFF', List.mem_filter, decide_eq_true_iff]
    exact ⟨fun h => ⟨h.1, (hmem t h.1).1 h.2⟩, fun h => ⟨h.1, (hmem t h.1).2 h.2⟩⟩
  · rw [← area2_triEdges, area2_eq_of_border V _ _ s (fun e => hborder e.1 e.2)]
    congr 1
    cases s <;> simp [sgn]

/-- **C107, faces with holes.** For a face with counter-clockwise outer loops and clockwise holes the triangulation meets the hypothesis of the theorems about
the mesh of a cell. -/
theorem C107_hole_faces (faces : List (ℤ × List (List ℤ))) (f : ℤ) (hf : (faces.filter fun p => decide (p.1 = f)) = [(f, loops)])
    (hne : ∃ c ∈ loops, c ≠ [])
    (hV : (lib (compactV V (used loops)) (compactE loops)).1.length ≤ (used loops).length)
    (hF : ∀ t ∈ (lib (compactV V (used loops)) (compactE loops)).2, ∀ i ∈ Tri.corners t, 0 ≤ i ∧ i < (used loops).length)
    (T : List Tri) (hT : T.map (Tri.map some) = (lib (compactV V (used loops)) (compactE loops)).2.map (Tri.map (col (used loops))))
    (hp : ∀ t ∈ T, Proper t) (hj : Jumps T (windAt wn V loops) (loopEdges loops))
    (h01 : ∀ t ∈ T, windAt wn V loops t = 0 ∨ windAt wn V loops t = 1) (hsome : ∃ t ∈ T, windAt wn V loops t ≠ 0) :
    ∃ FF, triangulateTriangle lib wn V loops axis coord add = some ([], FF) ∧ HasBorder FF (edgesOf faces f) := by
  obtain ⟨FF, h1, -, h3, -⟩ := C82_face_covered lib wn V loops axis coord add hne hV hF T hT hp hj true
    (fun t ht => by simpa [sgn] using h01 t ht) hsome
  refine ⟨FF, h1, fun a b => ?_⟩
  have : edgesOf faces f = loopEdges loops := by
    unfold edgesOf loopEdges
    rw [hf]
    simp only [List.flatMap_cons, List.flatMap_nil, List.append_nil]
    rfl
  rw [this, h3 a b, if_pos rfl, one_mul]

/-! ## a square with a square hole -/

/-- corners of a square of side 3 and of a square hole of side 1. -/
def ringV : ℤ → Dir := fun i => ![(0, 0), (3, 0), (3, 3), (0, 3), (1, 1), (2, 1), (2, 2), (1, 2)] (Fin.ofNat 8 i.toNat)

/-- outer loop counter-clockwise, hole clockwise. -/
def ringLoops : List (List ℤ) := [[0, 1, 2, 3], [4, 7, 6, 5]]

/-- the triangles of the square, including the hole. -/
def ringTris : List Tri :=
  [(0, 1, 5), (0, 5, 4), (1, 2, 6), (1, 6, 5), (2, 3, 7), (2, 7, 6), (3, 0, 4), (3, 4, 7), (4, 5, 6), (4, 6, 7)]

/-- winding numbers of the two loops inside the square of side 3. -/
def ringWn (c : List ℤ) (p : Dir) : ℚ :=
  if c = [0, 1, 2, 3] then 1 else if 1 < p.1 ∧ p.1 < 2 ∧ 1 < p.2 ∧ p.2 < 2 then -1 else 0

theorem ring_jumps : Jumps ringTris (windAt ringWn ringV ringLoops) (loopEdges ringLoops) := by
  have key : ∀ e ∈ ringTris.flatMap triEdges ++ (ringTris.flatMap triEdges).map DEdge.rev,
      ((ringTris.filter fun t => decide (e ∈ triEdges t)).map (windAt ringWn ringV ringLoops)).sum -
        ((ringTris.filter fun t => decide (DEdge.rev e ∈ triEdges t)).map (windAt ringWn ringV ringLoops)).sum =
      ((loopEdges ringLoops).count e : ℚ) - (loopEdges ringLoops).count (DEdge.rev e) := by decide +kernel
  have sub : ∀ e ∈ loopEdges ringLoops, e ∈ ringTris.flatMap triEdges ++ (ringTris.flatMap triEdges).map DEdge.rev := by decide +kernel
  intro a b
  by_cases h : (a, b) ∈ ringTris.flatMap triEdges ++ (ringTris.flatMap triEdges).map DEdge.rev
  · exact key _ h
  · have hrev : ∀ e : DEdge, e.rev ∈ ringTris.flatMap triEdges ++ (ringTris.flatMap triEdges).map DEdge.rev →
        e ∈ ringTris.flatMap triEdges ++ (ringTris.flatMap triEdges).map DEdge.rev := by
      intro e he
      rcases List.mem_append.1 he with h | h
      · exact List.mem_append_right _ (List.mem_map.2 ⟨_, h, DEdge.rev_rev e⟩)
      · obtain ⟨x, hx, hxe⟩ := List.mem_map.1 h
        have : x = e := by rw [← DEdge.rev_rev x, hxe, DEdge.rev_rev]
        exact List.mem_append_left _ (this ▸ hx)
    have h' : (b, a) ∉ ringTris.flatMap triEdges ++ (ringTris.flatMap triEdges).map DEdge.rev := fun hh => h (hrev (a, b) hh)
    have none : ∀ e : DEdge, e ∉ ringTris.flatMap triEdges ++ (ringTris.flatMap triEdges).map DEdge.rev →
        (ringTris.filter fun t => decide (e ∈ triEdges t)) = [] := by
      intro e he
      rw [List.filter_eq_nil_iff]
      intro t ht hd
      exact he (List.mem_append_left _ (List.mem_flatMap.2 ⟨t, ht, by simpa using hd⟩))
    rw [none _ h, none _ h', List.count_eq_zero_of_not_mem fun hh => h (sub _ hh), List.count_eq_zero_of_not_mem fun hh => h' (sub _ hh)]
    simp

/-- the hypotheses are met by the square with a hole: the eight triangles around the hole are returned, with twice the area 16. -/
example : ∃ FF, triangulateTriangle (fun V _ => (V, ringTris)) ringWn ringV ringLoops 2 0 false = some ([], FF) ∧
    FF.length = 8 ∧ (FF.map (triArea2 ringV)).sum = 16 := by
  obtain ⟨FF, h1, -, -, h4⟩ := C82_face_covered (fun V _ => (V, ringTris)) ringWn ringV ringLoops 2 0 false
    ⟨[0, 1, 2, 3], by decide, by decide⟩ (by decide +kernel) (by decide +kernel) ringTris (by decide +kernel)
    (by unfold Proper; decide +kernel) ring_jumps true (by decide +kernel) ⟨(0, 1, 5), by decide, by decide +kernel⟩
  refine ⟨FF, h1, ?_, ?_⟩
  · have : ((triangulateTriangle (fun V _ => (V, ringTris)) ringWn ringV ringLoops 2 0 false).map fun r => r.2.length) = some 8 := by decide +kernel
    rw [h1] at this
    simpa using this
  · rw [h4]; decide +kernel

end Mandoline.Triangulate
