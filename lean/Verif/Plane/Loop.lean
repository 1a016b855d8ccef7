import Verif.Collapse.Dsu
import Verif.Geom.Mask
import Mathlib.Data.List.Rotate
import Mathlib.Data.Fin.VecNotation
import Mathlib.Data.List.Nodup
import Mathlib.Tactic.Linarith

/-!
# Canonical edge of a loop, and its use to suppress duplicated faces in grid planes

`smallest_ordered_edge`, `smallest_ordered_edge_reverse` (src/construction/generator.cpp:44-64), the set
`axial_primal_faces` filled by `bake_faces` (src/construction/generator3_make_faces.cpp:46-71) and the test made on every
loop of a grid plane (generator3_make_faces.cpp:436-452).
-/
namespace Mandoline

/-- `std::min(e, m)` on `std::array<int,2>`: `m` if `m < e`, otherwise `e`. -/
def edgeMin (e m : DEdge) : DEdge := if edgeLt m e then m else e

/-- entry `i` of the loop (`v[i]`). -/
def loopAt (v : List ℤ) (i : ℕ) : ℤ := v.getD i 0

/-- the pair `(v[i], v[(i+1) % v.size()])` (generator.cpp:48-49). -/
def loopPair (v : List ℤ) (i : ℕ) : DEdge := (loopAt v i, loopAt v ((i + 1) % v.length))

/-- `smallest_ordered_edge` (generator.cpp:44-53). -/
def smallestOrderedEdge (v : List ℤ) : DEdge :=
  (List.range v.length).foldl (fun m i => edgeMin (loopPair v i) m) (loopAt v 0, loopAt v 1)

/-- `smallest_ordered_edge_reverse` (generator.cpp:54-64), with the final `std::swap`. -/
def smallestOrderedEdgeReverse (v : List ℤ) : DEdge :=
  ((List.range v.length).foldl (fun m i => edgeMin (loopPair v i).swap m) (loopAt v 1, loopAt v 0)).swap

/-- what `bake_faces` reads of a cut face of the input mesh (generator3_make_faces.cpp:53-58): its loop, its mask, the normal
of its parent triangle and whether the parent triangle is active (lies in a grid plane). -/
structure PrimalFace where
  indices : List ℤ
  mask : Mask 3
  normal : Fin 3 → ℚ
  active : Bool

/-- the entry made for axis `i` (generator3_make_faces.cpp:55-68). -/
def primalKey (f : PrimalFace) (i : Fin 3) : Option DEdge :=
  if f.active ∧ (f.mask i).isSome then
    some (if 0 < f.normal i then smallestOrderedEdge f.indices else smallestOrderedEdgeReverse f.indices)
  else none

/-- `axial_primal_faces[i]` after the loop of generator3_make_faces.cpp:53-71. -/
def axialPrimalFaces (fs : List PrimalFace) (i : Fin 3) : List DEdge := fs.filterMap fun f => primalKey f i

/-- the test of `add_loop` (generator3_make_faces.cpp:436-452): is the loop made a face of the plane? -/
def addLoop (fs : List PrimalFace) (i : Fin 3) (v : List ℤ) : Bool :=
  decide (2 < v.length) && decide (smallestOrderedEdge v ∉ axialPrimalFaces fs i)

/-! ## specification -/

/-- `(a,b)` is a directed edge of the closed loop `v`. -/
def IsLoopEdge (v : List ℤ) (e : DEdge) : Prop := ∃ i, i < v.length ∧ v[i]? = some e.1 ∧ v[(i + 1) % v.length]? = some e.2

/-- lexicographic order on pairs. -/
def PairLe (e f : DEdge) : Prop := e.1 < f.1 ∨ (e.1 = f.1 ∧ e.2 ≤ f.2)

theorem PairLe.antisymm {e f : DEdge} (h : PairLe e f) (h' : PairLe f e) : e = f := by
  rcases e with ⟨a, b⟩; rcases f with ⟨c, d⟩
  simp only [PairLe] at h h'
  rw [Prod.mk.injEq]; omega

theorem pairLe_iff (e f : DEdge) : PairLe e f ↔ edgeLt f e = false := by
  simp only [PairLe, edgeLt, decide_eq_false_iff_not]; omega

/-! ## lemmas -/

theorem edgeMin_or (e m : DEdge) : edgeMin e m = e ∨ edgeMin e m = m := by unfold edgeMin; split <;> simp
theorem edgeMin_le (e m : DEdge) : PairLe (edgeMin e m) e ∧ PairLe (edgeMin e m) m := by
  unfold edgeMin PairLe
  split
  · rename_i h; simp only [edgeLt, decide_eq_true_eq] at h; omega
  · rename_i h; simp only [edgeLt, decide_eq_true_eq] at h; omega

theorem PairLe.trans {a b c : DEdge} (h : PairLe a b) (h' : PairLe b c) : PairLe a c := by
  simp only [PairLe] at *; omega

theorem foldMin_spec {ι : Type*} (f : ι → DEdge) : ∀ (l : List ι) (m : DEdge),
    let r := l.foldl (fun m i => edgeMin (f i) m) m
    (r = m ∨ ∃ i ∈ l, r = f i) ∧ PairLe r m ∧ ∀ i ∈ l, PairLe r (f i)
  | [], m => ⟨Or.inl rfl, Or.inr ⟨rfl, le_refl _⟩, by simp⟩
  | i :: l, m => by
    obtain ⟨h1, h2, h3⟩ := foldMin_spec f l (edgeMin (f i) m)
    have hm := edgeMin_le (f i) m
    refine ⟨?_, h2.trans hm.2, ?_⟩
    · rcases h1 with h1 | ⟨j, hj, h1⟩
      · rcases edgeMin_or (f i) m with h | h
        · exact Or.inr ⟨i, by simp, by rw [List.foldl_cons, h1, h]⟩
        · exact Or.inl (by rw [List.foldl_cons, h1, h])
      · exact Or.inr ⟨j, List.mem_cons_of_mem _ hj, h1⟩
    · intro j hj
      rcases List.mem_cons.1 hj with rfl | hj
      · exact h2.trans hm.1
      · exact h3 j hj

theorem isLoopEdge_iff (v : List ℤ) (e : DEdge) : IsLoopEdge v e ↔ ∃ i, i < v.length ∧ e = loopPair v i := by
  constructor
  · rintro ⟨i, hi, h1, h2⟩
    refine ⟨i, hi, ?_⟩
    simp [loopPair, loopAt, List.getD_eq_getElem?_getD, h1, h2]
  · rintro ⟨i, hi, rfl⟩
    have hj : (i + 1) % v.length < v.length := Nat.mod_lt _ (by omega)
    exact ⟨i, hi, by simp [loopPair, loopAt, List.getD_eq_getElem?_getD, hi],
      by simp [loopPair, loopAt, List.getD_eq_getElem?_getD, hj]⟩

/-- **C41** for a loop of at least two vertices, the canonical edge is one of its directed edges and no directed edge
is lexicographically smaller. -/
theorem C41_smallest_is_minimum (v : List ℤ) (h : 2 ≤ v.length) :
    IsLoopEdge v (smallestOrderedEdge v) ∧ ∀ e, IsLoopEdge v e → PairLe (smallestOrderedEdge v) e := by
  obtain ⟨h1, _, h3⟩ := foldMin_spec (loopPair v) (List.range v.length) (loopAt v 0, loopAt v 1)
  have h0 : (loopAt v 0, loopAt v 1) = loopPair v 0 := by
    simp [loopPair, Nat.mod_eq_of_lt (show 1 < v.length by omega)]
  constructor
  · rw [isLoopEdge_iff]
    rcases h1 with h1 | ⟨i, hi, h1⟩
    · exact ⟨0, by omega, by rw [← h0]; exact h1⟩
    · exact ⟨i, List.mem_range.1 hi, h1⟩
  · intro e he
    obtain ⟨i, hi, rfl⟩ := (isLoopEdge_iff v e).1 he
    exact h3 i (List.mem_range.2 hi)

theorem isLoopEdge_rotate (v : List ℤ) (k : ℕ) (e : DEdge) : IsLoopEdge (v.rotate k) e ↔ IsLoopEdge v e := by
  unfold IsLoopEdge
  rw [List.length_rotate]
  rcases Nat.eq_zero_or_pos v.length with h0 | hp
  · simp [h0]
  constructor
  · rintro ⟨i, hi, h1, h2⟩
    rw [List.getElem?_rotate hi] at h1
    rw [List.getElem?_rotate (Nat.mod_lt _ hp)] at h2
    refine ⟨(i + k) % v.length, Nat.mod_lt _ hp, h1, ?_⟩
    rw [← h2]; congr 1
    rw [Nat.mod_add_mod, Nat.mod_add_mod]; congr 1; omega
  · rintro ⟨i, hi, h1, h2⟩
    -- the position i' with (i' + k) % n = i
    obtain ⟨i', hi', he⟩ : ∃ i', i' < v.length ∧ (i' + k) % v.length = i := by
      refine ⟨(i + (v.length - k % v.length)) % v.length, Nat.mod_lt _ hp, ?_⟩
      have hk : k % v.length < v.length := Nat.mod_lt _ hp
      have hk2 : k = k % v.length + v.length * (k / v.length) := (Nat.mod_add_div k v.length).symm
      rw [Nat.mod_add_mod]
      have : i + (v.length - k % v.length) + k = i + v.length * (1 + k / v.length) := by
        conv_lhs => rw [hk2]
        have e1 : v.length * (1 + k / v.length) = v.length + v.length * (k / v.length) := by rw [Nat.mul_add, Nat.mul_one]
        rw [e1]
        simp only [Nat.add_mul_mod_self_left, Nat.mod_mod]
        omega
      rw [this, Nat.add_mul_mod_self_left, Nat.mod_eq_of_lt hi]
    refine ⟨i', hi', ?_, ?_⟩
    · rw [List.getElem?_rotate hi', he]; exact h1
    · rw [List.getElem?_rotate (Nat.mod_lt _ hp), ← h2, ← he]; congr 1
      rw [Nat.mod_add_mod, Nat.mod_add_mod]; congr 1; omega

theorem smallest_unique {v w : List ℤ} (hv : 2 ≤ v.length) (hw : 2 ≤ w.length)
    (h : ∀ e, IsLoopEdge v e ↔ IsLoopEdge w e) : smallestOrderedEdge v = smallestOrderedEdge w := by
  obtain ⟨a1, a2⟩ := C41_smallest_is_minimum v hv
  obtain ⟨b1, b2⟩ := C41_smallest_is_minimum w hw
  exact (a2 _ ((h _).2 b1)).antisymm (b2 _ ((h _).1 a1))

/-- **C41** the canonical edge does not depend on where the loop is started. -/
theorem C41_rotation_invariant (v : List ℤ) (h : 2 ≤ v.length) (k : ℕ) :
    smallestOrderedEdge (v.rotate k) = smallestOrderedEdge v :=
  smallest_unique (by rwa [List.length_rotate]) h (isLoopEdge_rotate v k)

theorem isLoopEdge_reverse (v : List ℤ) (e : DEdge) : IsLoopEdge v.reverse e ↔ IsLoopEdge v e.swap := by
  have key : ∀ (v : List ℤ) (e : DEdge), IsLoopEdge v.reverse e → IsLoopEdge v e.swap := by
    rintro v e ⟨i, hi, h1, h2⟩
    rw [List.length_reverse] at hi h2
    have hp : 0 < v.length := by omega
    rw [List.getElem?_reverse hi] at h1
    rw [List.getElem?_reverse (Nat.mod_lt _ hp)] at h2
    rcases Nat.lt_or_ge (i + 1) v.length with hlt | hge
    · rw [Nat.mod_eq_of_lt hlt] at h2
      refine ⟨v.length - 1 - (i + 1), by omega, h2, ?_⟩
      rw [← Prod.snd_swap] at h1
      rw [show v.length - 1 - (i + 1) + 1 = v.length - 1 - i by omega, Nat.mod_eq_of_lt (by omega)]
      exact h1
    · have : i + 1 = v.length := by omega
      rw [this, Nat.mod_self] at h2
      refine ⟨v.length - 1 - 0, by omega, h2, ?_⟩
      rw [show v.length - 1 - 0 + 1 = v.length by omega, Nat.mod_self]
      rw [show v.length - 1 - i = 0 by omega] at h1
      exact h1
  constructor
  · exact key v e
  · intro h
    have := key v.reverse e.swap (by rwa [List.reverse_reverse])
    rwa [Prod.swap_swap] at this

/-- **C41** the reverse variant is the canonical edge of the reversed loop, with its two ends exchanged. -/
theorem C41_reverse_variant (v : List ℤ) (h : 2 ≤ v.length) :
    smallestOrderedEdgeReverse v = (smallestOrderedEdge v.reverse).swap := by
  have hf := foldMin_spec (fun i => (loopPair v i).swap) (List.range v.length) (loopAt v 1, loopAt v 0)
  generalize hr : (List.range v.length).foldl (fun m i => edgeMin (loopPair v i).swap m) (loopAt v 1, loopAt v 0) = r at hf
  obtain ⟨h1, _, h3⟩ := hf
  obtain ⟨a1, a2⟩ := C41_smallest_is_minimum v.reverse (by rwa [List.length_reverse])
  have hmem : IsLoopEdge v.reverse r := by
    rw [isLoopEdge_reverse, isLoopEdge_iff]
    rcases h1 with h1 | ⟨i, hi, h1⟩
    · refine ⟨0, by omega, ?_⟩
      rw [h1]; simp [loopPair, Nat.mod_eq_of_lt (show 1 < v.length by omega)]
    · exact ⟨i, List.mem_range.1 hi, by rw [h1, Prod.swap_swap]⟩
  have hle : PairLe r (smallestOrderedEdge v.reverse) := by
    obtain ⟨i, hi, he⟩ := (isLoopEdge_iff v _).1 ((isLoopEdge_reverse v _).1 a1)
    have := h3 i (List.mem_range.2 hi)
    rwa [← he, Prod.swap_swap] at this
  unfold smallestOrderedEdgeReverse
  rw [hr, hle.antisymm (a2 r hmem)]

/-- **C41** the canonical edge of a loop without repeated vertices starts at its smallest vertex and goes up. -/
theorem C41_simple_loop (v : List ℤ) (h : 2 ≤ v.length) (hn : v.Nodup) :
    (smallestOrderedEdge v).1 ∈ v ∧ (∀ x ∈ v, (smallestOrderedEdge v).1 ≤ x) ∧
      (smallestOrderedEdge v).1 < (smallestOrderedEdge v).2 := by
  obtain ⟨⟨i, hi, e1, e2⟩, a2⟩ := C41_smallest_is_minimum v h
  have hmin : ∀ x ∈ v, (smallestOrderedEdge v).1 ≤ x := by
    intro x hx
    obtain ⟨j, hj⟩ := List.mem_iff_getElem?.1 hx
    have hjl : j < v.length := (List.getElem?_eq_some_iff.1 hj).1
    have hj2 : (j + 1) % v.length < v.length := Nat.mod_lt _ (by omega)
    have := a2 (x, v[(j + 1) % v.length]) ⟨j, hjl, hj, List.getElem?_eq_getElem hj2⟩
    simp only [PairLe] at this; omega
  refine ⟨List.mem_of_getElem? e1, hmin, ?_⟩
  refine lt_of_le_of_ne (hmin _ (List.mem_of_getElem? e2)) fun he => ?_
  have hj2 : (i + 1) % v.length < v.length := Nat.mod_lt _ (by omega)
  rw [List.getElem?_eq_getElem hi] at e1
  rw [List.getElem?_eq_getElem hj2] at e2
  have : v[i] = v[(i + 1) % v.length] := by
    rw [Option.some.inj e1, Option.some.inj e2, he]
  have := (List.Nodup.getElem_inj_iff hn).1 this
  rcases Nat.lt_or_ge (i + 1) v.length with hlt | hge
  · rw [Nat.mod_eq_of_lt hlt] at this; omega
  · rw [show i + 1 = v.length by omega, Nat.mod_self] at this; omega

/-- **C41** the plane's copy of an input face whose normal points along the axis is not made a second face, wherever the
plane's loop starts. -/
theorem C41_positive_face_suppressed (fs : List PrimalFace) (i : Fin 3) (f : PrimalFace) (hf : f ∈ fs)
    (ha : f.active = true) (hm : (f.mask i).isSome = true) (hN : 0 < f.normal i) (h2 : 2 ≤ f.indices.length) (k : ℕ) :
    addLoop fs i (f.indices.rotate k) = false := by
  have : smallestOrderedEdge (f.indices.rotate k) ∈ axialPrimalFaces fs i := by
    rw [C41_rotation_invariant _ h2]
    exact List.mem_filterMap.2 ⟨f, hf, by simp [primalKey, ha, hm, hN]⟩
  simp [addLoop, this]

/-- **C41** a loop of the plane without repeated vertices is suppressed only by an input face in that plane whose normal
points along the axis and which shares a directed edge with it. -/
theorem C41_suppressed_only_by_positive (fs : List PrimalFace) (i : Fin 3) (w : List ℤ) (hw : 3 ≤ w.length) (hwn : w.Nodup)
    (hfs : ∀ f ∈ fs, 2 ≤ f.indices.length ∧ f.indices.Nodup) :
    addLoop fs i w = false ↔ ∃ f ∈ fs, f.active = true ∧ (f.mask i).isSome = true ∧ 0 < f.normal i ∧
      smallestOrderedEdge f.indices = smallestOrderedEdge w := by
  have hlen : decide (2 < w.length) = true := by simp; omega
  simp only [addLoop, hlen, Bool.true_and, decide_eq_false_iff_not, not_not, axialPrimalFaces, List.mem_filterMap]
  constructor
  · rintro ⟨f, hf, hk⟩
    unfold primalKey at hk
    split at hk
    · rename_i hc
      split at hk
      · rename_i hN
        exact ⟨f, hf, hc.1, hc.2, hN, Option.some.inj hk⟩
      · exfalso
        have hk := Option.some.inj hk
        have h2 := (hfs f hf).1
        rw [C41_reverse_variant _ h2] at hk
        have s1 := C41_simple_loop w (by omega) hwn
        have s2 := C41_simple_loop f.indices.reverse (by rwa [List.length_reverse]) (List.nodup_reverse.2 (hfs f hf).2)
        rw [← hk] at s1
        simp only [Prod.fst_swap, Prod.snd_swap] at s1
        exact absurd s1.2.2 (not_lt.2 s2.2.2.le)
    · exact absurd hk (by simp)
  · rintro ⟨f, hf, ha, hm, hN, he⟩
    exact ⟨f, hf, by simp [primalKey, ha, hm, hN, he]⟩

theorem C41_suppressed_shares_edge (v w : List ℤ) (hv : 2 ≤ v.length) (hw : 2 ≤ w.length)
    (h : smallestOrderedEdge v = smallestOrderedEdge w) : ∃ e, IsLoopEdge v e ∧ IsLoopEdge w e :=
  ⟨_, (C41_smallest_is_minimum v hv).1, h ▸ (C41_smallest_is_minimum w hw).1⟩

/-- **C41, defect** an input face lying in a grid plane with its normal against (or orthogonal to) the axis never
suppresses the plane's own copy (the reversed loop): unless some *other* face of positive normal has the same canonical
edge, the plane adds a duplicate. The reason is the `std::swap` at the end of `smallest_ordered_edge_reverse`. -/
theorem C41_negative_face_duplicated_refuted (f : PrimalFace) (i : Fin 3) (hN : ¬ 0 < f.normal i)
    (h3 : 3 ≤ f.indices.length) (hn : f.indices.Nodup) (k : ℕ) : addLoop [f] i (f.indices.reverse.rotate k) = true := by
  rw [← Bool.not_eq_false, C41_suppressed_only_by_positive [f] i _ (by simpa using h3)
    (List.nodup_rotate.2 (List.nodup_reverse.2 hn)) (by simpa using ⟨by omega, hn⟩)]
  rintro ⟨g, hg, -, -, hN', -⟩
  rw [List.mem_singleton.1 hg] at hN'
  exact hN hN'

/-- a unit square in the plane `z = 2`. -/
def exSquareUp : PrimalFace := ⟨[7, 3, 9, 5], ![none, none, some 2], ![0, 0, 1], true⟩
/-- the same square with the opposite orientation. -/
def exSquareDown : PrimalFace := ⟨[5, 9, 3, 7], ![none, none, some 2], ![0, 0, -1], true⟩

example : smallestOrderedEdge [7, 3, 9, 5] = (3, 9) ∧ smallestOrderedEdgeReverse [5, 9, 3, 7] = (9, 3) := by decide
example : addLoop [exSquareUp] 2 [9, 5, 7, 3] = false ∧ addLoop [exSquareDown] 2 [9, 5, 7, 3] = true := by decide +kernel

end Mandoline
