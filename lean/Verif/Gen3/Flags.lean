import Verif.Plane.SubGrid
import Verif.Geom.ContainerProps
import Verif.Cell.Model

/-!
# C95: which cells of a grid plane are active

Transcription of the loop "Flagging active cells" of `CutCellGenerator<3>::bake_faces`
(src/construction/generator3_make_faces.cpp:96-129) and of the boundary edges computed from the flags by
`compute_planar_hem` (src/construction/generator.cpp:198-226), with their renumbering (generator3_make_faces.cpp:227-238)
and the test `is_boundary_cell` (generator3_make_faces.cpp:23-33).
-/
namespace Mandoline
namespace Gen3

/-- `active_grid_cell_mask` of the planes of one axis: `axis_hem_data[i]`, a map from the plane to its mask
(`true` = inactive). -/
abbrev Planes := List (ℤ × (Coord 2 → Bool))

/-- the lambda `flag` (generator3_make_faces.cpp:113-121): a missing plane is created with a constant mask. -/
def flag (c2 : Coord 2) (idx : ℤ) (m : Planes) : Planes :=
  OMap.alter intLt idx (fun o => Function.update (o.getD fun _ => true) c2 false) m

/-- the iteration for one active cell (generator3_make_faces.cpp:102-128) and axis `i`; `shape` is `vertex_shape()`,
`cell_shape()` is one less. -/
def flagCell (shape : Coord 3) (i : Fin 3) (m : Planes) (c : Coord 3) : Planes :=
  if c (i + 1) < 0 ∨ shape (i + 1) - 1 ≤ c (i + 1) then m
  else if c (i + 2) < 0 ∨ shape (i + 2) - 1 ≤ c (i + 2) then m
  else
    let c2 : Coord 2 := ![c (i + 1), c (i + 2)]
    let m1 := if 0 ≤ c i then flag c2 (c i) m else m
    if c i + 1 < shape i then flag c2 (c i + 1) m1 else m1

/-- the planes of axis `i` after the loop; `cells` are the active cells in the order of the set. -/
def planes (shape : Coord 3) (cells : List (Coord 3)) (i : Fin 3) : Planes := cells.foldl (flagCell shape i) []

/-! ## specification -/

/-- plane `k` of axis `i` has a flag for the plane cell `x`. -/
def Flagged (P : Planes) (k : ℤ) (x : Coord 2) : Prop := ∃ m, (k, m) ∈ P ∧ m x = false

/-! ## proofs -/

theorem sorted_flagCell (shape : Coord 3) (i : Fin 3) (m : Planes) (hm : OMap.Sorted intLt m) (c : Coord 3) :
    OMap.Sorted intLt (flagCell shape i m c) := by
  unfold flagCell flag
  have h := strictTotal_intLt
  split
  · exact hm
  split
  · exact hm
  dsimp only
  split <;> split <;> first | exact OMap.sorted_alter h (OMap.sorted_alter h hm) | exact OMap.sorted_alter h hm | exact hm

theorem sorted_planes (shape : Coord 3) (i : Fin 3) (cells : List (Coord 3)) (m : Planes) (hm : OMap.Sorted intLt m) :
    OMap.Sorted intLt (cells.foldl (flagCell shape i) m) := by
  induction cells generalizing m with
  | nil => exact hm
  | cons c cs ih => exact ih _ (sorted_flagCell shape i m hm c)

/-- what one active cell contributes to plane `k`. -/
def Touches (shape : Coord 3) (i : Fin 3) (c : Coord 3) (k : ℤ) : Prop :=
  (0 ≤ c (i + 1) ∧ c (i + 1) < shape (i + 1) - 1) ∧ (0 ≤ c (i + 2) ∧ c (i + 2) < shape (i + 2) - 1) ∧
    ((c i = k ∧ 0 ≤ k) ∨ (c i + 1 = k ∧ k < shape i))

theorem find_flag (c2 : Coord 2) (idx : ℤ) (m : Planes) (hm : OMap.Sorted intLt m) (k : ℤ) :
    OMap.find intLt k (flag c2 idx m) =
      if k = idx then some (Function.update ((OMap.find intLt k m).getD fun _ => true) c2 false) else OMap.find intLt k m := by
  unfold flag
  rw [OMap.find_alter strictTotal_intLt hm]
  by_cases h : k = idx
  · subst h; simp
  · simp [h]

theorem find_flagCell (shape : Coord 3) (i : Fin 3) (m : Planes) (hm : OMap.Sorted intLt m) (c : Coord 3) (k : ℤ) :
    (¬ Touches shape i c k → OMap.find intLt k (flagCell shape i m c) = OMap.find intLt k m) ∧
    (Touches shape i c k → OMap.find intLt k (flagCell shape i m c) =
      some (Function.update ((OMap.find intLt k m).getD fun _ => true) ![c (i + 1), c (i + 2)] false)) := by
  have h := strictTotal_intLt
  have hs : ∀ x, OMap.Sorted intLt (flag ![c (i + 1), c (i + 2)] x m) := fun x => OMap.sorted_alter h hm
  unfold flagCell Touches
  constructor
  · intro hn
    split
    · rfl
    split
    · rfl
    dsimp only
    rename_i h1 h2
    have e1 : ¬ ((c i = k ∧ 0 ≤ k) ∨ (c i + 1 = k ∧ k < shape i)) := fun hh => hn ⟨by omega, by omega, hh⟩
    have a1 : 0 ≤ c i → k ≠ c i := by omega
    have a2 : c i + 1 < shape i → k ≠ c i + 1 := by omega
    split
    · rename_i h4
      split
      · rename_i h3
        rw [find_flag _ _ _ (hs _), if_neg (a2 h4), find_flag _ _ _ hm, if_neg (a1 h3)]
      · rw [find_flag _ _ _ hm, if_neg (a2 h4)]
    · split
      · rename_i h3
        rw [find_flag _ _ _ hm, if_neg (a1 h3)]
      · rfl
  · rintro ⟨h1, h2, h3⟩
    rw [if_neg (by omega), if_neg (by omega)]
    dsimp only
    rcases h3 with ⟨rfl, h4⟩ | ⟨rfl, h4⟩
    · rw [if_pos h4]
      split
      · rw [find_flag _ _ _ (hs _), if_neg (by omega), find_flag _ _ _ hm, if_pos rfl]
      · rw [find_flag _ _ _ hm, if_pos rfl]
    · rw [if_pos h4]
      split
      · rw [find_flag _ _ _ (hs _), if_pos rfl, find_flag _ _ _ hm, if_neg (by omega)]
      · rw [find_flag _ _ _ hm, if_pos rfl]

theorem find_planes (shape : Coord 3) (i : Fin 3) (cells : List (Coord 3)) (m : Planes) (hm : OMap.Sorted intLt m) (k : ℤ) :
    ((∀ c ∈ cells, ¬ Touches shape i c k) → OMap.find intLt k (cells.foldl (flagCell shape i) m) = OMap.find intLt k m) ∧
    ((∃ c ∈ cells, Touches shape i c k) → ∃ f, OMap.find intLt k (cells.foldl (flagCell shape i) m) = some f ∧
      ∀ x, f x = false ↔ ((OMap.find intLt k m).getD fun _ => true) x = false ∨
        ∃ c ∈ cells, Touches shape i c k ∧ x = ![c (i + 1), c (i + 2)]) := by
  induction cells generalizing m with
  | nil => exact ⟨fun _ => rfl, by simp⟩
  | cons c cs ih =>
    obtain ⟨i1, i2⟩ := ih (flagCell shape i m c) (sorted_flagCell shape i m hm c)
    obtain ⟨f1, f2⟩ := find_flagCell shape i m hm c k
    constructor
    · intro hn
      rw [List.foldl_cons, i1 (fun d hd => hn d (List.mem_cons_of_mem _ hd)), f1 (hn c (by simp))]
    · intro hex
      rw [List.foldl_cons]
      by_cases hc : Touches shape i c k
      · have hfd := f2 hc
        have key : ∀ x, (Function.update ((OMap.find intLt k m).getD fun _ => true) ![c (i + 1), c (i + 2)] false) x = false ↔
            ((OMap.find intLt k m).getD fun _ => true) x = false ∨ x = ![c (i + 1), c (i + 2)] := by
          intro x
          by_cases hx : x = ![c (i + 1), c (i + 2)]
          · rw [hx, Function.update_self]; simp
          · rw [Function.update_of_ne hx]; simp [hx]
        by_cases hex2 : ∃ d ∈ cs, Touches shape i d k
        · obtain ⟨f, hf, hx⟩ := i2 hex2
          refine ⟨f, hf, fun x => ?_⟩
          rw [hx, hfd, Option.getD_some, key]
          constructor
          · rintro ((h | h) | ⟨d, hd, h⟩)
            · exact Or.inl h
            · exact Or.inr ⟨c, by simp, hc, h⟩
            · exact Or.inr ⟨d, by simp [hd], h⟩
          · rintro (h | ⟨d, hd, h⟩)
            · exact Or.inl (Or.inl h)
            · rcases List.mem_cons.1 hd with rfl | hd
              · exact Or.inl (Or.inr h.2)
              · exact Or.inr ⟨d, hd, h⟩
        · refine ⟨_, by rw [i1 (fun d hd ht => hex2 ⟨d, hd, ht⟩), hfd], fun x => ?_⟩
          rw [key]
          constructor
          · rintro (h | h)
            · exact Or.inl h
            · exact Or.inr ⟨c, by simp, hc, h⟩
          · rintro (h | ⟨d, hd, h⟩)
            · exact Or.inl h
            · rcases List.mem_cons.1 hd with rfl | hd
              · exact Or.inr h.2
              · exact absurd ⟨d, hd, h.1⟩ hex2
      · obtain ⟨d, hd, hT⟩ := hex
        have hd' : d ∈ cs := by
          rcases List.mem_cons.1 hd with rfl | hd
          · exact absurd hT hc
          · exact hd
        obtain ⟨f, hf, hx⟩ := i2 ⟨d, hd', hT⟩
        refine ⟨f, hf, fun x => ?_⟩
        rw [hx, f1 hc]
        refine or_congr_right ?_
        constructor
        · rintro ⟨d, hd, h⟩; exact ⟨d, by simp [hd], h⟩
        · rintro ⟨d, hd, h⟩
          rcases List.mem_cons.1 hd with rfl | hd
          · exact absurd h.1 hc
          · exact ⟨d, hd, h⟩

theorem vec2_eq (x : Coord 2) (a b : ℤ) : x = ![a, b] ↔ x 0 = a ∧ x 1 = b := by
  constructor
  · rintro rfl; exact ⟨rfl, rfl⟩
  · rintro ⟨h1, h2⟩
    funext j
    match j with
    | 0 => exact h1
    | 1 => exact h2

/-- **C95.** In a plane `k` of the grid orthogonal to axis `i`, a cell `x` of the plane grid is flagged iff one of the two
grid cells on its sides is active; cells outside the plane grid are never flagged. The plane has data iff it has a flagged
cell, and its data is unique. -/
theorem C95_flag_iff (shape : Coord 3) (cells : List (Coord 3)) (i : Fin 3) (k : ℤ) (hk : 0 ≤ k ∧ k < shape i) :
    (∀ x, Flagged (planes shape cells i) k x ↔
      ((0 ≤ x 0 ∧ x 0 < shape (i + 1) - 1) ∧ (0 ≤ x 1 ∧ x 1 < shape (i + 2) - 1)) ∧
      ∃ c ∈ cells, c (i + 1) = x 0 ∧ c (i + 2) = x 1 ∧ (c i = k ∨ c i = k - 1)) ∧
    ((∃ m, (k, m) ∈ planes shape cells i) ↔ ∃ x, Flagged (planes shape cells i) k x) ∧
    ∀ m m', (k, m) ∈ planes shape cells i → (k, m') ∈ planes shape cells i → m = m' := by
  have hs : OMap.Sorted intLt (planes shape cells i) := sorted_planes shape i cells [] OMap.sorted_nil
  have hfi : ∀ m, OMap.find intLt k (planes shape cells i) = some m ↔ (k, m) ∈ planes shape cells i :=
    fun m => OMap.find_iff strictTotal_intLt hs
  obtain ⟨h1, h2⟩ := find_planes shape i cells [] OMap.sorted_nil k
  have hfl : ∀ x, Flagged (planes shape cells i) k x ↔ ∃ c ∈ cells, Touches shape i c k ∧ x = ![c (i + 1), c (i + 2)] := by
    intro x
    by_cases hex : ∃ c ∈ cells, Touches shape i c k
    · obtain ⟨f, hf, hx⟩ := h2 hex
      constructor
      · rintro ⟨m, hm, hmx⟩
        have : m = f := by
          have := (hfi m).2 hm
          unfold planes at this
          rw [hf] at this
          exact (Option.some_inj.1 this).symm
        subst this
        rcases (hx x).1 hmx with h | h
        · simp [OMap.find] at h
        · exact h
      · intro h
        exact ⟨f, (hfi f).1 hf, (hx x).2 (Or.inr h)⟩
    · constructor
      · rintro ⟨m, hm, -⟩
        have := (hfi m).2 hm
        unfold planes at this
        rw [h1 (fun c hc ht => hex ⟨c, hc, ht⟩)] at this
        simp [OMap.find] at this
      · rintro ⟨c, hc, ht, -⟩; exact absurd ⟨c, hc, ht⟩ hex
  refine ⟨fun x => ?_, ?_, fun m m' hm hm' => ?_⟩
  · rw [hfl]
    constructor
    · rintro ⟨c, hc, ⟨t1, t2, t3⟩, he⟩
      obtain ⟨e0, e1⟩ := (vec2_eq x _ _).1 he
      exact ⟨⟨by omega, by omega⟩, c, hc, e0.symm, e1.symm, by omega⟩
    · rintro ⟨⟨a, b⟩, c, hc, e0, e1, h⟩
      exact ⟨c, hc, ⟨by omega, by omega, by omega⟩, (vec2_eq x _ _).2 ⟨e0.symm, e1.symm⟩⟩
  · constructor
    · rintro ⟨m, hm⟩
      by_contra hn
      have : ∀ c ∈ cells, ¬ Touches shape i c k := fun c hc ht => hn ⟨_, (hfl _).2 ⟨c, hc, ht, rfl⟩⟩
      have h3 := (hfi m).2 hm
      unfold planes at h3
      rw [h1 this] at h3
      simp [OMap.find] at h3
    · rintro ⟨x, m, hm, -⟩; exact ⟨m, hm⟩
  · exact OMap.sorted_unique strictTotal_intLt hs hm hm'

/-- **C95.** In terms of the cut vertices: with the active cells computed by the generator, a cell of plane `k` is flagged
iff one of the grid cells on its two sides, as a closed cube, contains a cut vertex. -/
theorem C95_flag_geometric (shape : Coord 3) (crossings : List (Vertex 3)) (h : ∀ v ∈ crossings, Normalised v)
    (cells : List (Coord 3)) (hc : ∀ c, c ∈ cells ↔ c ∈ activeCells crossings) (i : Fin 3) (k : ℤ)
    (hk : 0 ≤ k ∧ k < shape i) (x : Coord 2) (hx : (0 ≤ x 0 ∧ x 0 < shape (i + 1) - 1) ∧ (0 ≤ x 1 ∧ x 1 < shape (i + 2) - 1)) :
    Flagged (planes shape cells i) k x ↔
      ∃ v ∈ crossings, ((k : ℚ) - 1 ≤ v.p i ∧ v.p i ≤ k + 1) ∧ ((x 0 : ℚ) ≤ v.p (i + 1) ∧ v.p (i + 1) ≤ x 0 + 1) ∧
        ((x 1 : ℚ) ≤ v.p (i + 2) ∧ v.p (i + 2) ≤ x 1 + 1) := by
  rw [(C95_flag_iff shape cells i k hk).1 x]
  have hax : ∀ j : Fin 3, j = i ∨ j = i + 1 ∨ j = i + 2 := by clear * -; revert i; decide
  have hne : i + 1 ≠ i ∧ i + 2 ≠ i ∧ i + 1 ≠ i + 2 := by clear * -; revert i; decide
  constructor
  · rintro ⟨-, c, hcm, e0, e1, h3⟩
    obtain ⟨v, hv, hin⟩ := (C20_active_iff crossings h c).1 ((hc c).1 hcm)
    have a := hin i
    have b := hin (i + 1)
    have d := hin (i + 2)
    rw [e0] at b
    rw [e1] at d
    refine ⟨v, hv, ?_, b, d⟩
    rcases h3 with h3 | h3 <;> rw [h3] at a
    · exact ⟨by linarith [a.1], a.2⟩
    · push_cast at a; exact ⟨a.1, by linarith [a.2]⟩
  · rintro ⟨v, hv, a, b, d⟩
    refine ⟨hx, ?_⟩
    have key : ∀ z : ℤ, (z : ℚ) ≤ v.p i → v.p i ≤ z + 1 →
        (fun j => if j = i then z else if j = i + 1 then x 0 else x 1) ∈ cells := by
      intro z z1 z2
      rw [hc, C20_active_iff crossings h]
      refine ⟨v, hv, fun j => ?_⟩
      rcases hax j with rfl | rfl | rfl
      · simpa using ⟨z1, z2⟩
      · simpa [hne.1] using b
      · simpa [hne.2.1, hne.2.2.symm] using d
    by_cases hz : (k : ℚ) ≤ v.p i
    · exact ⟨_, key k hz a.2, by simp [hne.1], by simp [hne.2.1, hne.2.2.symm], Or.inl (by simp)⟩
    · refine ⟨_, key (k - 1) (by push_cast; exact a.1) (by push_cast; linarith), by simp [hne.1], by simp [hne.2.1, hne.2.2.symm],
        Or.inr (by simp)⟩

/-- **C95.** Active cells outside the grid make planes outside the grid: one behind the last cells of the axis makes the plane
in front of it, one more than a cell before the first plane makes the plane behind it. -/
theorem C95_outside (shape : Coord 3) (cells : List (Coord 3)) (i : Fin 3) (hi : 0 ≤ shape i) (k : ℤ) :
    (shape i ≤ k → ((∃ m, (k, m) ∈ planes shape cells i) ↔ ∃ c ∈ cells, c i = k ∧
      (0 ≤ c (i + 1) ∧ c (i + 1) < shape (i + 1) - 1) ∧ (0 ≤ c (i + 2) ∧ c (i + 2) < shape (i + 2) - 1))) ∧
    (k < 0 → ((∃ m, (k, m) ∈ planes shape cells i) ↔ ∃ c ∈ cells, c i = k - 1 ∧
      (0 ≤ c (i + 1) ∧ c (i + 1) < shape (i + 1) - 1) ∧ (0 ≤ c (i + 2) ∧ c (i + 2) < shape (i + 2) - 1))) := by
  have hs : OMap.Sorted intLt (planes shape cells i) := sorted_planes shape i cells [] OMap.sorted_nil
  have hfi : ∀ m, OMap.find intLt k (planes shape cells i) = some m ↔ (k, m) ∈ planes shape cells i :=
    fun m => OMap.find_iff strictTotal_intLt hs
  obtain ⟨h1, h2⟩ := find_planes shape i cells [] OMap.sorted_nil k
  have : (∃ m, (k, m) ∈ planes shape cells i) ↔ ∃ c ∈ cells, Touches shape i c k := by
    constructor
    · rintro ⟨m, hm⟩
      by_contra hn
      have h3 := (hfi m).2 hm
      unfold planes at h3
      rw [h1 (fun c hc ht => hn ⟨c, hc, ht⟩)] at h3
      simp [OMap.find] at h3
    · intro h
      obtain ⟨f, hf, -⟩ := h2 h
      exact ⟨f, (hfi f).1 hf⟩
  rw [this]
  constructor
  · intro hk
    constructor
    · rintro ⟨c, hc, t1, t2, t3⟩
      exact ⟨c, hc, by omega, t1, t2⟩
    · rintro ⟨c, hc, e, t1, t2⟩
      exact ⟨c, hc, t1, t2, Or.inl ⟨e, by omega⟩⟩
  · intro hk
    constructor
    · rintro ⟨c, hc, t1, t2, t3⟩
      exact ⟨c, hc, by omega, t1, t2⟩
    · rintro ⟨c, hc, e, t1, t2⟩
      exact ⟨c, hc, t1, t2, Or.inr ⟨by omega, by omega⟩⟩

-- one active cell (1,0,1) of a 3 x 2 x 3 cell grid
example : Flagged (planes ![4, 3, 4] [![1, 0, 1]] 0) 2 ![0, 1] ∧ ¬ Flagged (planes ![4, 3, 4] [![1, 0, 1]] 0) 3 ![0, 1] ∧
    Flagged (planes ![4, 3, 4] [![1, 0, 1]] 1) 0 ![1, 1] := by
  refine ⟨((C95_flag_iff _ _ _ _ (by decide)).1 _).2 (by decide +kernel), fun h => ?_,
    ((C95_flag_iff _ _ _ _ (by decide)).1 _).2 (by decide +kernel)⟩
  exact absurd (((C95_flag_iff _ _ _ _ (by decide)).1 _).1 h) (by decide +kernel)

end Gen3
end Mandoline
