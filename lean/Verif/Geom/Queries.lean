import Verif.Geom.MaskLemmas
import Verif.Geom.VertexLemmas
import Mathlib.Data.List.FinRange
import Mathlib.Data.Fintype.Card

/-!
# C75: queries on masks and vertices

`count`, `all`, `active`, `bound_axis`, `unbound_axis`, `as_array`, `clamp` (coord_mask_impl.hpp:32-80, 201-219),
`is_grid_vertex`, `clamped_count`, `optional_index` (vertex_impl.hpp:116-163).
-/
namespace Mandoline
variable {D : ℕ}

/-- the axes a mask binds. -/
def boundAxes (m : Mask D) : Finset (Fin D) := Finset.univ.filter fun i => m i ≠ none

theorem mem_boundAxes (m : Mask D) (i : Fin D) : i ∈ boundAxes m ↔ ∃ c, m i = some c := by
  unfold boundAxes
  simp only [Finset.mem_filter, Finset.mem_univ, true_and]
  cases m i <;> simp

theorem isBound_iff (m : Mask D) (i : Fin D) : m.isBound i = true ↔ ∃ c, m i = some c := by
  unfold Mask.isBound; rw [Option.isSome_iff_exists]

/-- counting over `finRange` is the cardinality. -/
theorem countP_finRange (p : Fin D → Bool) : (List.finRange D).countP p = (Finset.univ.filter fun i => p i = true).card := by
  rw [List.countP_eq_length_filter, ← List.toFinset_card_of_nodup ((List.nodup_finRange D).filter p)]
  congr 1
  ext i
  simp

/-- **C75.** `count` is the number of bound axes; `all` holds iff every axis is bound, i.e. iff `count` is `D`; `active` holds iff some
axis is bound, i.e. iff `count` is positive. -/
theorem C75_count (m : Mask D) :
    m.count = (boundAxes m).card ∧ (m.all = true ↔ ∀ i, ∃ c, m i = some c) ∧ (m.all = true ↔ m.count = D) ∧
    (m.active = true ↔ ∃ i c, m i = some c) ∧ (m.active = true ↔ 0 < m.count) := by
  have hc : m.count = (boundAxes m).card := by
    unfold Mask.count
    rw [countP_finRange]
    congr 1
    ext i
    rw [mem_boundAxes]
    simp [isBound_iff]
  have ha : m.all = true ↔ ∀ i, ∃ c, m i = some c := by
    unfold Mask.all
    rw [List.all_eq_true]
    exact ⟨fun h i => (isBound_iff m i).1 (h i (List.mem_finRange i)), fun h i _ => (isBound_iff m i).2 (h i)⟩
  have hb : m.active = true ↔ ∃ i c, m i = some c := by
    unfold Mask.active
    rw [List.any_eq_true]
    exact ⟨fun ⟨i, _, h⟩ => ⟨i, (isBound_iff m i).1 h⟩, fun ⟨i, h⟩ => ⟨i, List.mem_finRange i, (isBound_iff m i).2 h⟩⟩
  refine ⟨hc, ha, ?_, hb, ?_⟩
  · rw [ha, hc]
    have hcard : (Finset.univ : Finset (Fin D)).card = D := by simp
    constructor
    · intro h
      have : boundAxes m = Finset.univ := Finset.eq_univ_iff_forall.2 fun i => (mem_boundAxes m i).2 (h i)
      rw [this, hcard]
    · intro h i
      have : boundAxes m = Finset.univ := Finset.eq_univ_of_card _ (by rw [h]; simp)
      have hi := Finset.mem_univ i
      rw [← this] at hi
      exact (mem_boundAxes m i).1 hi
  · rw [hb, hc, Finset.card_pos]
    constructor
    · rintro ⟨i, h⟩; exact ⟨i, (mem_boundAxes m i).2 h⟩
    · rintro ⟨i, h⟩; exact ⟨i, (mem_boundAxes m i).1 h⟩

/-- **C75.** When all axes but one are bound (the documented precondition), `unbound_axis` is that axis; when exactly one is bound,
`bound_axis` is that axis. -/
theorem C75_axis (m : Mask D) :
    (m.count + 1 = D → ∃ i, m.unboundAxis = some i ∧ m i = none ∧ ∀ j, j ≠ i → ∃ c, m j = some c) ∧
    (m.count = 1 → ∃ i, m.boundAxis = some i ∧ (∃ c, m i = some c) ∧ ∀ j, j ≠ i → m j = none) := by
  have hc := (C75_count m).1
  constructor
  · intro h
    have h1 : (boundAxes m)ᶜ.card = 1 := by
      rw [Finset.card_compl, Fintype.card_fin, ← hc]; omega
    obtain ⟨i, hi⟩ := Finset.card_eq_one.1 h1
    have hmem : ∀ j, m j = none ↔ j = i := by
      intro j
      have : j ∈ (boundAxes m)ᶜ ↔ j = i := by rw [hi, Finset.mem_singleton]
      rw [← this, Finset.mem_compl, mem_boundAxes]
      cases m j <;> simp
    refine ⟨i, ?_, (hmem i).2 rfl, fun j hj => ?_⟩
    · unfold Mask.unboundAxis
      cases hf : (List.finRange D).find? fun i => !m.isBound i with
      | none =>
        rw [List.find?_eq_none] at hf
        have := hf i (List.mem_finRange i)
        simp [Mask.isBound, (hmem i).2 rfl] at this
      | some k =>
        have := List.find?_some hf
        rw [show k = i from (hmem k).1 (by simpa [Mask.isBound] using this)]
    · cases hj2 : m j with
      | none => exact absurd ((hmem j).1 hj2) hj
      | some c => exact ⟨c, rfl⟩
  · intro h
    rw [hc] at h
    obtain ⟨i, hi⟩ := Finset.card_eq_one.1 h
    have hmem : ∀ j, (∃ c, m j = some c) ↔ j = i := by
      intro j
      have : j ∈ boundAxes m ↔ j = i := by rw [hi, Finset.mem_singleton]
      rw [← this, mem_boundAxes]
    refine ⟨i, ?_, (hmem i).2 rfl, fun j hj => ?_⟩
    · unfold Mask.boundAxis
      cases hf : (List.finRange D).find? fun i => m.isBound i with
      | none =>
        rw [List.find?_eq_none] at hf
        exact absurd ((isBound_iff m i).2 ((hmem i).2 rfl)) (hf i (List.mem_finRange i))
      | some k =>
        have := List.find?_some hf
        rw [(hmem k).1 ((isBound_iff m k).1 this)]
    · cases hj2 : m j with
      | none => rfl
      | some c => exact absurd ((hmem j).1 ⟨c, hj2⟩) hj

/-- **C75.** `as_array` is defined exactly on the masks of points, and inverts the construction of a mask from a point; `clamp` moves a
coordinate into the grid element of the mask, changes nothing there, and leaves the unbound axes alone. -/
theorem C75_array_clamp (m : Mask D) (c : Coord D) :
    (m.asArray = some c ↔ m = Mask.full c) ∧
    (∀ i, (∀ k, m i = some k → m.clamp c i = k) ∧ (m i = none → m.clamp c i = c i)) ∧
    (m.clamp c = c ↔ ∀ i k, m i = some k → c i = k) := by
  refine ⟨?_, fun i => ⟨fun k h => by simp [Mask.clamp, h], fun h => by simp [Mask.clamp, h]⟩, ?_⟩
  · unfold Mask.asArray
    constructor
    · intro h
      split_ifs at h with ha
      have hall := (C75_count m).2.1.1 ha
      have h := Option.some.inj h
      funext i
      obtain ⟨k, hk⟩ := hall i
      have := congrFun h i
      rw [hk] at this
      simp only [Option.getD_some] at this
      rw [hk, Mask.full, this]
    · rintro rfl
      rw [if_pos ((C75_count (Mask.full c)).2.1.2 fun i => ⟨c i, rfl⟩)]
      rfl
  · constructor
    · intro h i k hk
      have := congrFun h i
      simp only [Mask.clamp, hk, Option.getD_some] at this
      exact this.symm
    · intro h
      funext i
      unfold Mask.clamp
      cases hk : m i with
      | none => rfl
      | some k => exact (h i k hk).symm

/-- **C75.** `is_grid_vertex` holds iff all axes are flagged, i.e. iff `clamped_count` is `D`; `optional_index` binds exactly the flagged
axes, to the coordinate. -/
theorem C75_vertex (v : Vertex D) :
    (v.isGridVertex = true ↔ ∀ i, v.clamped i = true) ∧ (v.isGridVertex = true ↔ v.clampedCount = D) ∧
    ∀ i k, v.optionalIndex i = some k ↔ v.clamped i = true ∧ v.coord i = k := by
  have h1 : v.isGridVertex = true ↔ ∀ i, v.clamped i = true := by
    unfold Vertex.isGridVertex
    rw [List.all_eq_true]
    exact ⟨fun h i => h i (List.mem_finRange i), fun h i _ => h i⟩
  refine ⟨h1, ?_, fun i k => ?_⟩
  · rw [h1]
    unfold Vertex.clampedCount
    rw [countP_finRange]
    constructor
    · intro h
      rw [Finset.filter_true_of_mem fun i _ => h i]; simp
    · intro h i
      have : (Finset.univ.filter fun i => v.clamped i = true) = Finset.univ := Finset.eq_univ_of_card _ (by rw [h]; simp)
      have hi := Finset.mem_univ i
      rw [← this] at hi
      exact (Finset.mem_filter.1 hi).2
  · unfold Vertex.optionalIndex
    split_ifs with h <;> simp [h]

example : (Mask.plane (D := 3) 1 7).count = 1 ∧ (Mask.plane (D := 3) 1 7).boundAxis = some 1 := by decide
example : (Mask.count (D := 3) fun i => if i = 2 then none else some 5) + 1 = 3 := by decide
example : (Mask.full (D := 2) fun _ => 4).asArray = some fun _ => 4 := ((C75_array_clamp _ _).1).2 rfl

end Mandoline
