import Verif.Edge.Props

/-!
# C14, C16: the value of the snapping tolerance

`bakeTol (some shape)` was used above as the tolerance with which crossings are snapped to the grid; here it is
pinned to the number the code uses: twice `10⁻¹⁰` times the largest number of grid vertices along an axis.
-/
namespace Mandoline
variable {D : ℕ}

theorem tol_foldl_max (f : Fin D → ℤ) (l : List (Fin D)) (a : ℤ) :
    (a ≤ l.foldl (fun m i => max m (f i)) a ∧ ∀ i ∈ l, f i ≤ l.foldl (fun m i => max m (f i)) a) ∧
      (l.foldl (fun m i => max m (f i)) a = a ∨ ∃ i ∈ l, f i = l.foldl (fun m i => max m (f i)) a) := by
  induction l generalizing a with
  | nil => exact ⟨⟨le_rfl, by simp⟩, Or.inl rfl⟩
  | cons x l ih =>
    simp only [List.foldl_cons]
    obtain ⟨⟨h1, h2⟩, h3⟩ := ih (max a (f x))
    refine ⟨⟨le_trans (le_max_left _ _) h1, ?_⟩, ?_⟩
    · intro i hi
      rcases List.mem_cons.1 hi with rfl | hi
      · exact le_trans (le_max_right _ _) h1
      · exact h2 i hi
    · rcases h3 with h3 | ⟨i, hi, h3⟩
      · rw [h3]
        rcases max_choice a (f x) with h | h
        · exact Or.inl h
        · exact Or.inr ⟨x, List.mem_cons_self, h.symm⟩
      · exact Or.inr ⟨i, List.mem_cons_of_mem _ hi, h3⟩

/-- **C14, the tolerance.** With a grid of `shape` cells (so `shape i + 1` vertices along axis `i`) the
snapping tolerance is exactly `2·10⁻¹⁰·m`, `m` the largest number of vertices along an axis and at least one;
in particular it is positive. Without a grid it is one. -/
theorem C14_tolerance (shape : Coord D) :
    (∃ m : ℤ, 1 ≤ m ∧ (∀ i, shape i + 1 ≤ m) ∧ (m = 1 ∨ ∃ i, shape i + 1 = m) ∧
      bakeTol (some shape) = 2 * m * (1 / 10 ^ 10)) ∧
    0 < bakeTol (some shape) ∧ bakeTol (none : Option (Coord D)) = 1 := by
  obtain ⟨⟨h1, h2⟩, h3⟩ := tol_foldl_max (fun i => shape i + 1) (List.finRange D) 0
  set M := (List.finRange D).foldl (fun m i => max m (shape i + 1)) 0 with hM
  have hv : bakeTol (some shape) = 2 * (max 1 M : ℤ) * (1 / 10 ^ 10) := by
    unfold bakeTol myThresh
    simp only [Option.map_some, ← hM]
    push_cast
    ring
  have hm : (1 : ℤ) ≤ max 1 M := le_max_left _ _
  refine ⟨⟨max 1 M, hm, fun i => le_trans (h2 i (List.mem_finRange i)) (le_max_right _ _), ?_, hv⟩, ?_, rfl⟩
  · rcases max_choice 1 M with h | h
    · exact Or.inl h
    · rcases h3 with h3 | ⟨i, -, h3⟩
      · rw [h3] at h; simp at h
      · exact Or.inr ⟨i, by rw [h, ← h3]⟩
  · rw [hv]
    have : (1 : ℚ) ≤ (max 1 M : ℤ) := by exact_mod_cast hm
    have h0 : (0 : ℚ) < (max 1 M : ℤ) := by linarith
    positivity

/-- **C14, for a grid with at most `N` vertices along an axis.** Every reported crossing is within
`4·10⁻¹⁰·N` of the point of the segment at its parameter. -/
theorem C14_position_within (ei : ℤ) (shape : Coord D) (a b : Vertex D) (ha : Normalised a) (hb : Normalised b)
    (N : ℤ) (h1 : 1 ≤ N) (hN : ∀ i, shape i + 1 ≤ N) :
    ∀ e ∈ bakeEdge ei (some shape) a b, ∀ i,
      |e.v.p i - ((1 - e.t) * a.p i + e.t * b.p i)| < 4 * N * (1 / 10 ^ 10) := by
  obtain ⟨⟨m, -, -, hm, hv⟩, hpos, -⟩ := C14_tolerance shape
  intro e he i
  have h := ((C14_position_tolerance ei (some shape) a b ha hb hpos e he).1 i).1
  have hmN : m ≤ N := by
    rcases hm with rfl | ⟨j, rfl⟩
    · exact h1
    · exact hN j
  have hq : (m : ℚ) ≤ N := by exact_mod_cast hmN
  refine lt_of_lt_of_le h ?_
  rw [hv]
  linarith

/-- a grid of 3 × 3 cells has tolerance `8·10⁻¹⁰`. -/
example : bakeTol (some (![3, 3] : Coord 2)) = 8 / 10 ^ 10 := by decide +kernel

end Mandoline
