import Verif.Adaptive.FaceGeom
import Verif.Exterior.Boundary
import Mathlib.Data.List.Perm.Basic
import Mathlib.Data.List.Nodup
import Mathlib.Algebra.BigOperators.Group.List.Lemmas
import Mathlib.Algebra.BigOperators.Ring.List
import Mathlib.Algebra.BigOperators.Fin
import Mathlib.Tactic.FinCases
import Mathlib.Tactic.FieldSimp

/-!
# C28: volumes of adaptive cells and the projection onto the unit grid

Transcription of src/adaptive_grid.cpp:344-357 (`cell_volumes`) and 462-480 (`grid_cell_projection`).
The code is for three dimensions (`w*w*w`); the model is generic in `D` (`w^D`).
-/
namespace Mandoline
variable {D : ℕ}

/-- the nested loops `for i in [c0, c0+w) for j … for k …` (adaptive_grid.cpp:469-472). -/
def cubeCoords (c : ACell D) : List (Coord D) :=
  (lexCoords D fun _ => c.2).map fun v i => c.1 i + v i

/-- `grid_cell_projection()` (adaptive_grid.cpp:462-480). `idx` is `cell_index`. -/
def cellProjection (idx : Coord D → ℤ) (cells : List (ℤ × ACell D)) : List Triplet :=
  cells.flatMap fun e => (cubeCoords e.2).map fun a => (idx a, e.1, 1 / (e.2.2 : ℚ) ^ D)

/-- one iteration of the loop of `cell_volumes()` (adaptive_grid.cpp:351-354): `R(i - offset) = vol * w^D`. -/
def volStep (vol : ℚ) (offset : ℤ) (R : Option (List (Option ℚ))) (e : ℤ × ACell D) : Option (List (Option ℚ)) :=
  R.bind fun R =>
    if 0 ≤ e.1 - offset ∧ e.1 - offset < R.length then
      some (R.set (e.1 - offset).toNat (some (vol * (e.2.2 : ℚ) ^ D))) else none

/-- `cell_volumes()` (adaptive_grid.cpp:344-357): an array of `num_cells` entries, written at `id - offset`
where `offset` is the first id. `none` = a write outside the array (undefined in C++); the entries that are
never written are uninitialised in C++ and modelled by `none`. -/
def cellVolumes (vol : ℚ) (cells : List (ℤ × ACell D)) : Option (List (Option ℚ)) :=
  match cells with
  | [] => some []
  | (offset, _) :: _ =>
    cells.foldl (volStep vol offset) (some (List.replicate cells.length none))

theorem mem_cubeCoords (c : ACell D) (u : Coord D) : u ∈ cubeCoords c ↔ InCube c u := by
  unfold cubeCoords InCube
  simp only [List.mem_map, mem_lexCoords]
  constructor
  · rintro ⟨v, hv, rfl⟩ i
    have := hv i
    dsimp only; omega
  · intro h
    refine ⟨fun i => u i - c.1 i, fun i => ?_, ?_⟩
    · have := h i; dsimp only; omega
    · funext i; dsimp only; omega

theorem nodup_cubeCoords (c : ACell D) : (cubeCoords c).Nodup := by
  refine (nodup_lexCoords D _).map ?_
  intro a b h
  funext i
  have := congrFun h i
  dsimp only at this; omega

theorem length_lexCoords_const : ∀ (D : ℕ) (w : ℤ), (lexCoords D fun _ => w).length = w.toNat ^ D
  | 0, w => by simp [lexCoords]
  | n + 1, w => by
    have ih := length_lexCoords_const n w
    simp only [lexCoords, List.length_flatMap, List.length_map, ih]
    simp [List.map_const', pow_succ, mul_comm]

theorem length_cubeCoords (c : ACell D) (h : 0 < c.2) : ((cubeCoords c).length : ℚ) = (c.2 : ℚ) ^ D := by
  unfold cubeCoords
  rw [List.length_map, length_lexCoords_const]
  push_cast
  congr 1
  have : ((c.2.toNat : ℤ) : ℚ) = (c.2 : ℚ) := by rw [Int.toNat_of_nonneg h.le]
  exact_mod_cast this

/-- the unit cells covered by all cells, in order. -/
theorem cover_perm (shape : Coord D) (inactive : Coord D → Bool) (cells : List (ℤ × ACell D))
    (ht : Tiles shape inactive cells) (hnd : cells.Nodup) :
    (cells.flatMap fun e => cubeCoords e.2).Perm ((lexCoords D shape).filter inactive) := by
  rw [List.perm_ext_iff_of_nodup]
  · intro u
    simp only [List.mem_flatMap, mem_cubeCoords, List.mem_filter, mem_lexCoords]
    constructor
    · rintro ⟨e, he, hu⟩
      exact (ht.1 e he).2 u hu
    · rintro ⟨h1, h2⟩
      obtain ⟨e, he, _⟩ := ht.2 u h1 h2
      exact ⟨e, he⟩
  · rw [List.nodup_flatMap]
    refine ⟨fun e _ => nodup_cubeCoords _, ?_⟩
    have : cells.Pairwise fun a b => a ∈ cells ∧ b ∈ cells ∧ a ≠ b := by
      have := hnd.imp (R := (· ≠ ·)) (fun h => h)
      exact (List.Pairwise.and_mem.1 this).imp fun ⟨a, b, c⟩ => ⟨a, b, c⟩
    refine this.imp ?_
    rintro a b ⟨ha, hb, hab⟩
    simp only [Function.onFun, List.disjoint_left, mem_cubeCoords]
    intro u hu hu'
    obtain ⟨h1, h2⟩ := (ht.1 a ha).2 u hu
    obtain ⟨x, _, hx⟩ := ht.2 u h1 h2
    exact hab ((hx a ⟨ha, hu⟩).trans (hx b ⟨hb, hu'⟩).symm)
  · exact (nodup_lexCoords D shape).filter _

/-- **C28.** The widths account for exactly the inactive unit cells: `Σ w^D` is their number. -/
theorem C28_total_volume (shape : Coord D) (inactive : Coord D → Bool) (cells : List (ℤ × ACell D))
    (ht : Tiles shape inactive cells) (hnd : cells.Nodup) :
    (cells.map fun e => (e.2.2 : ℚ) ^ D).sum = ((lexCoords D shape).filter inactive).length := by
  rw [← (cover_perm shape inactive cells ht hnd).length_eq, List.length_flatMap]
  have : cells.map (fun e => (e.2.2 : ℚ) ^ D) = cells.map fun e => ((cubeCoords e.2).length : ℚ) :=
    List.map_congr_left fun e he => (length_cubeCoords e.2 (ht.1 e he).1).symm
  rw [this, Nat.cast_list_sum, List.map_map]
  rfl

/-- contiguous ids, as produced by the generator (generator3.cpp:325-334). -/
def Contiguous (cells : List (ℤ × ACell D)) (n : ℤ) : Prop :=
  ∀ (k : ℕ) (h : k < cells.length), (cells[k]).1 = n + k

theorem set_fold (vol : ℚ) (off : ℤ) (R : List (Option ℚ)) (cells : List (ℤ × ACell D)) (k : ℕ)
    (hc : ∀ (j : ℕ) (h : j < cells.length), (cells[j]).1 = off + (k + j : ℕ))
    (hl : R.length = k + cells.length) :
    cells.foldl (volStep vol off) (some R)
      = some (R.take k ++ cells.map fun e => some (vol * (e.2.2 : ℚ) ^ D)) := by
  induction cells generalizing R k with
  | nil => simp only [List.length_nil, Nat.add_zero] at hl; simp [← hl]
  | cons e l ih =>
    rw [List.foldl_cons]
    have h0 := hc 0 (by simp)
    simp only [List.getElem_cons_zero, Nat.add_zero] at h0
    rw [List.length_cons] at hl
    have hk : e.1 - off = (k : ℤ) := by omega
    have hstep : volStep vol off (some R) e = some (R.set k (some (vol * (e.2.2 : ℚ) ^ D))) := by
      simp only [volStep, Option.bind_some, hk]
      rw [if_pos ⟨by omega, by rw [hl]; omega⟩, Int.toNat_natCast]
    rw [hstep]
    rw [ih (R.set k _) (k + 1)]
    · congr 1
      rw [List.map_cons, List.take_add_one, List.append_assoc]
      rw [List.getElem?_set_self (by omega), List.take_set_of_le le_rfl]
      simp
    · intro j hj
      have := hc (j + 1) (by simpa using hj)
      simp only [List.getElem_cons_succ] at this
      rw [this]; congr 2; omega
    · simp; omega

/-- **C28.** With contiguous ids `cell_volumes()` returns, in order, unit volume times `w^D`. -/
theorem C28_cell_volumes (vol : ℚ) (cells : List (ℤ × ACell D)) (n : ℤ) (hc : Contiguous cells n) :
    cellVolumes vol cells = some (cells.map fun e => some (vol * (e.2.2 : ℚ) ^ D)) := by
  unfold cellVolumes
  cases cells with
  | nil => rfl
  | cons e l =>
    have h0 := hc 0 (by simp)
    simp only [List.getElem_cons_zero, Nat.cast_zero, add_zero] at h0
    obtain ⟨id, c⟩ := e
    simp only at h0 ⊢
    rw [set_fold vol id _ _ 0]
    · rfl
    · intro j hj; rw [hc j hj, h0, Nat.zero_add]
    · simp

/-- **C28, defect.** With the ids the factory assigns (dense corner indices, not contiguous) `cell_volumes()`
writes outside its array: an octree cell of width 2 next to another one. -/
theorem C28_cell_volumes_noncontiguous_refuted : ∃ cells : List (ℤ × ACell 3),
    cells = factoryCells (linIndex 3 ![4, 4, 4]) ![4, 4, 4] (fun c => !decide (c = ![0, 0, 0])) none ∧
    cellVolumes 1 cells = none := ⟨_, rfl, by decide +kernel⟩

/-- **C28.** Total of `cell_volumes()`: number of inactive unit cells times the unit volume. -/
theorem C28_volumes_sum (shape : Coord D) (inactive : Coord D → Bool) (cells : List (ℤ × ACell D)) (n : ℤ)
    (vol : ℚ) (ht : Tiles shape inactive cells) (hc : Contiguous cells n) :
    ∃ R : List ℚ, cellVolumes vol cells = some (R.map some) ∧
      R.sum = vol * ((lexCoords D shape).filter inactive).length := by
  have hnd : cells.Nodup := by
    rw [List.nodup_iff_getElem?_ne_getElem?]
    intro i j hij hj he
    rw [List.getElem?_eq_getElem (by omega), List.getElem?_eq_getElem hj] at he
    have h1 := hc i (by omega)
    have h2 := hc j hj
    rw [Option.some.inj he] at h1
    omega
  refine ⟨cells.map fun e => vol * (e.2.2 : ℚ) ^ D, ?_, ?_⟩
  · rw [C28_cell_volumes vol cells n hc, List.map_map]; rfl
  · rw [List.sum_map_mul_left, C28_total_volume shape inactive cells ht hnd]

theorem sum_map_const (l : List (Coord D)) (q : ℚ) : (l.map fun _ => q).sum = l.length * q := by
  simp [List.map_const']

/-- entries of a flatMap in one column. -/
theorem filter_column (idx : Coord D → ℤ) (cells : List (ℤ × ACell D)) (hs : OMap.Sorted intLt cells)
    (e : ℤ × ACell D) (he : e ∈ cells) :
    (cellProjection idx cells).filter (fun t => decide (t.2.1 = e.1)) =
      (cubeCoords e.2).map fun a => (idx a, e.1, 1 / (e.2.2 : ℚ) ^ D) := by
  unfold cellProjection
  have hblock : ∀ x : ℤ × ACell D, ((cubeCoords x.2).map fun a => ((idx a, x.1, 1 / (x.2.2 : ℚ) ^ D) : Triplet)).filter
      (fun t => decide (t.2.1 = e.1)) = if x.1 = e.1 then
        ((cubeCoords x.2).map fun a => ((idx a, x.1, 1 / (x.2.2 : ℚ) ^ D) : Triplet)) else [] := by
    intro x
    split
    · rename_i h
      rw [List.filter_eq_self]
      intro t ht
      obtain ⟨a, _, rfl⟩ := List.mem_map.1 ht
      simpa using h
    · rename_i h
      rw [List.filter_eq_nil_iff]
      intro t ht
      obtain ⟨a, _, rfl⟩ := List.mem_map.1 ht
      simpa using h
  induction cells with
  | nil => cases he
  | cons x l ih =>
    rw [List.flatMap_cons, List.filter_append, hblock]
    unfold OMap.Sorted at hs
    rw [List.pairwise_cons] at hs
    rcases List.mem_cons.1 he with rfl | hel
    · rw [if_pos rfl]
      convert List.append_nil _ using 2
      rw [List.filter_eq_nil_iff]
      intro t ht
      obtain ⟨y, hy, ht⟩ := List.mem_flatMap.1 ht
      obtain ⟨a, _, rfl⟩ := List.mem_map.1 ht
      have := hs.1 y hy
      simp only [intLt, decide_eq_true_eq] at this ⊢
      omega
    · have := hs.1 e hel
      simp only [intLt, decide_eq_true_eq] at this
      rw [if_neg (by omega), List.nil_append]
      exact ih hs.2 hel

/-- **C28.** The column of an adaptive cell in the cell projection sums to one. -/
theorem C28_cell_projection_column_sum (idx : Coord D → ℤ) (cells : List (ℤ × ACell D))
    (hs : OMap.Sorted intLt cells) (e : ℤ × ACell D) (he : e ∈ cells) (hw : 0 < e.2.2) :
    (((cellProjection idx cells).filter fun t => decide (t.2.1 = e.1)).map fun t => t.2.2).sum = 1 := by
  rw [filter_column idx cells hs e he, List.map_map]
  have : (fun t : Triplet => t.2.2) ∘ (fun a => ((idx a, e.1, 1 / (e.2.2 : ℚ) ^ D) : Triplet)) =
      fun _ : Coord D => 1 / (e.2.2 : ℚ) ^ D := rfl
  rw [this, sum_map_const, length_cubeCoords _ hw]
  have : (e.2.2 : ℚ) ^ D ≠ 0 := pow_ne_zero _ (by exact_mod_cast hw.ne')
  field_simp

/-- **C28.** In the row of an inactive unit cell the projection has exactly one entry, in the column of the cell
containing it, with weight `1/w^D`; rows of active cells are empty. -/
theorem C28_cell_projection_row (shape : Coord D) (ix : GridIndexer shape) (inactive : Coord D → Bool)
    (cells : List (ℤ × ACell D)) (ht : Tiles shape inactive cells) (hnd : cells.Nodup) (u : Coord D)
    (hu : InGrid shape u) :
    (∀ e ∈ cells, InCube e.2 u →
      rowOf (cellProjection ix.idx cells) (ix.idx u) = [(ix.idx u, e.1, 1 / (e.2.2 : ℚ) ^ D)]) ∧
    (inactive u = false → rowOf (cellProjection ix.idx cells) (ix.idx u) = []) := by
  have hmem : ∀ t, t ∈ rowOf (cellProjection ix.idx cells) (ix.idx u) ↔
      ∃ e ∈ cells, InCube e.2 u ∧ t = (ix.idx u, e.1, 1 / (e.2.2 : ℚ) ^ D) := by
    intro t
    unfold rowOf cellProjection
    simp only [List.mem_filter, List.mem_flatMap, List.mem_map, mem_cubeCoords, decide_eq_true_eq]
    constructor
    · rintro ⟨⟨e, he, a, ha, rfl⟩, h⟩
      have : a = u := ix.inj a u ((validIndex_iff _ _).2 ((ht.1 e he).2 a ha).1) ((validIndex_iff _ _).2 hu) h
      subst this
      exact ⟨e, he, ha, rfl⟩
    · rintro ⟨e, he, h, rfl⟩
      exact ⟨⟨e, he, u, h, rfl⟩, rfl⟩
  constructor
  · intro e he hue
    -- count the entries by counting the coordinates equal to `u`
    have hlen : (rowOf (cellProjection ix.idx cells) (ix.idx u)).length ≤ 1 := by
      have h1 : (rowOf (cellProjection ix.idx cells) (ix.idx u)).length =
          ((cells.flatMap fun e => cubeCoords e.2).filter fun a => decide (ix.idx a = ix.idx u)).length := by
        unfold rowOf cellProjection
        clear hmem hue he ht hnd
        induction cells with
        | nil => rfl
        | cons x l ih =>
          rw [List.flatMap_cons, List.flatMap_cons, List.filter_append, List.filter_append, List.length_append,
            List.length_append, ih, List.filter_map, List.length_map]
          rfl
      rw [h1]
      have hp := (cover_perm shape inactive cells ht hnd).nodup_iff.2 ((nodup_lexCoords D shape).filter _)
      have h2 : ((cells.flatMap fun e => cubeCoords e.2).filter fun a => decide (ix.idx a = ix.idx u)).Sublist
          (cells.flatMap fun e => cubeCoords e.2) := List.filter_sublist
      by_contra hc
      push Not at hc
      have hnd2 := hp.sublist h2
      have hall : ∀ a ∈ (cells.flatMap fun e => cubeCoords e.2).filter fun a => decide (ix.idx a = ix.idx u), a = u := by
        intro a ha
        simp only [List.mem_filter, List.mem_flatMap, mem_cubeCoords, decide_eq_true_eq] at ha
        obtain ⟨⟨x, hx, hax⟩, h⟩ := ha
        exact ix.inj a u ((validIndex_iff _ _).2 ((ht.1 x hx).2 a hax).1) ((validIndex_iff _ _).2 hu) h
      rw [List.nodup_iff_getElem?_ne_getElem?] at hnd2
      refine hnd2 0 1 (by omega) hc ?_
      rw [List.getElem?_eq_getElem (by omega), List.getElem?_eq_getElem hc]
      rw [hall _ (List.getElem_mem _), hall _ (List.getElem_mem _)]
    have hm := (hmem _).2 ⟨e, he, hue, rfl⟩
    match hr : rowOf (cellProjection ix.idx cells) (ix.idx u) with
    | [] => rw [hr] at hm; cases hm
    | [x] => rw [hr] at hm; rw [List.mem_singleton.1 hm]
    | x :: y :: l => rw [hr] at hlen; simp at hlen
  · intro hi
    rw [List.eq_nil_iff_forall_not_mem]
    intro t h
    obtain ⟨e, he, hue, _⟩ := (hmem t).1 h
    have := ((ht.1 e he).2 u hue).2
    rw [hi] at this; cases this

/-- a 2-cell grid: the hypotheses hold for the two unit cells. -/
example : Tiles (![2] : Coord 1) (fun _ => true) [(0, (![0], 1)), (1, (![1], 1))] ∧
    Contiguous ([(0, (![0], 1)), (1, (![1], 1))] : List (ℤ × ACell 1)) 0 ∧
    cellVolumes 3 ([(0, (![0], 1)), (1, (![1], 1))] : List (ℤ × ACell 1)) = some [some 3, some 3] := by
  refine ⟨?_, ?_, by decide +kernel⟩
  · constructor
    · intro e he
      simp only [List.mem_cons, List.not_mem_nil, or_false] at he
      rcases he with rfl | rfl <;> refine ⟨by decide, fun u hu => ⟨fun i => ?_, rfl⟩⟩ <;>
        have := hu i <;> fin_cases i <;> simp at this ⊢ <;> omega
    · intro u hu _
      have h0 := hu 0
      simp only [Matrix.cons_val_zero] at h0
      have : u 0 = 0 ∨ u 0 = 1 := by omega
      rcases this with h | h
      · refine ⟨(0, (![0], 1)), ⟨by simp, fun i => by fin_cases i; simp [h]⟩, ?_⟩
        rintro y ⟨hy, hc⟩
        simp only [List.mem_cons, List.not_mem_nil, or_false] at hy
        rcases hy with rfl | rfl
        · rfl
        · have := hc 0; simp [h] at this
      · refine ⟨(1, (![1], 1)), ⟨by simp, fun i => by fin_cases i; simp [h]⟩, ?_⟩
        rintro y ⟨hy, hc⟩
        simp only [List.mem_cons, List.not_mem_nil, or_false] at hy
        rcases hy with rfl | rfl
        · have := hc 0; simp [h] at this
        · rfl
  · intro k hk
    match k, hk with
    | 0, _ => rfl
    | 1, _ => rfl

end Mandoline
