import Verif.Exterior.Model
import Mathlib.Tactic.Ring

/-! # C21: numbering of the exterior cells -/
namespace Mandoline
variable {D : ℕ}

theorem numberCells_keys (o : Coord D → Bool) (k : ℤ) (l : List (Coord D)) :
    (numberCells o k l).map (·.1) = l := by
  induction l generalizing k with
  | nil => rfl
  | cons c l ih =>
    simp only [numberCells]
    split <;> simp [ih]

theorem counterAfter_eq (o : Coord D → Bool) (k : ℤ) (l : List (Coord D)) :
    counterAfter o k l = k + (l.filter o).length := by
  induction l generalizing k with
  | nil => simp [counterAfter]
  | cons c l ih =>
    simp only [counterAfter, List.filter_cons]
    cases h : o c <;> simp [ih] 
    all_goals ring

theorem mem_numberCells (o : Coord D → Bool) (k : ℤ) (l : List (Coord D)) (c : Coord D) (v : ℤ) :
    (c, v) ∈ numberCells o k l ↔
      (c ∈ l ∧ o c = false ∧ v = -1) ∨ ∃ n : ℕ, v = k + n ∧ (l.filter o)[n]? = some c := by
  induction l generalizing k with
  | nil => simp [numberCells]
  | cons d l ih =>
    simp only [numberCells, List.filter_cons]
    cases h : o d
    · simp only [Bool.not_false, if_true, Bool.false_eq_true, if_false, List.mem_cons, Prod.mk.injEq, ih]
      constructor
      · rintro (⟨rfl, rfl⟩ | ⟨h1, h2⟩ | h1)
        · exact .inl ⟨.inl rfl, h, rfl⟩
        · exact .inl ⟨.inr h1, h2⟩
        · exact .inr h1
      · rintro (⟨rfl | h1, h2, rfl⟩ | h1)
        · exact .inl ⟨rfl, rfl⟩
        · exact .inr (.inl ⟨h1, h2, rfl⟩)
        · exact .inr (.inr h1)
    · simp only [Bool.not_true, Bool.false_eq_true, if_false, if_true, List.mem_cons, Prod.mk.injEq, ih]
      constructor
      · rintro (⟨rfl, rfl⟩ | ⟨h1, h2⟩ | ⟨n, hv, hn⟩)
        · exact .inr ⟨0, by simp, by simp⟩
        · exact .inl ⟨.inr h1, h2⟩
        · exact .inr ⟨n + 1, by push_cast; omega, by simpa using hn⟩
      · rintro (⟨rfl | h1, h2, h3⟩ | ⟨n, hv, hn⟩)
        · rw [h] at h2; cases h2
        · exact .inr (.inl ⟨h1, h2, h3⟩)
        · cases n with
          | zero => simp only [List.getElem?_cons_zero, Option.some.injEq] at hn; subst hn; left; simp [hv]
          | succ n => right; right; exact ⟨n, by push_cast at hv; omega, by simpa using hn⟩

theorem gridGet_of_mem {g : List (Coord D × ℤ)} (hn : (g.map (·.1)).Nodup) {c : Coord D} {v : ℤ}
    (h : (c, v) ∈ g) : gridGet g c = v := by
  unfold gridGet
  induction g with
  | nil => cases h
  | cons p g ih =>
    rw [List.map_cons, List.nodup_cons] at hn
    rw [List.find?_cons]
    by_cases hp : p.1 = c
    · rw [decide_eq_true hp]
      rcases List.mem_cons.1 h with h | h
      · rw [← h]
      · exact absurd (List.mem_map.2 ⟨_, h, rfl⟩) (by rw [← hp] at *; exact hn.1)
    · rw [decide_eq_false hp]
      rcases List.mem_cons.1 h with h | h
      · rw [← h] at hp; exact absurd rfl hp
      · exact ih hn.2 h

theorem fillCoords_number (o : Coord D → Bool) (l : List (Coord D)) (k : ℕ) (v : List (Coord D))
    (hv : v.length = k + (l.filter o).length) :
    fillCoords (numberCells o k l) v = v.take k ++ l.filter o := by
  unfold fillCoords
  induction l generalizing k v with
  | nil => simp only [numberCells, List.foldl_nil, List.filter_nil, List.append_nil]
           rw [List.take_of_length_le]; simpa using hv.le
  | cons c l ih =>
    simp only [numberCells]
    simp only [List.filter_cons] at hv ⊢
    cases h : o c
    · simp only [h, Bool.not_false, if_true, Bool.false_eq_true, if_false, List.foldl_cons] at hv ⊢
      have : ¬ ((-1 : ℤ) ≥ 0) := by omega
      rw [if_neg this]
      exact ih k v hv
    · simp only [h, Bool.not_true, Bool.false_eq_true, if_false, if_true, List.foldl_cons, List.length_cons] at hv ⊢
      have hk : ((k : ℤ) ≥ 0) := by omega
      rw [if_pos hk, Int.toNat_natCast]
      have := ih (k + 1) (v.set k c) (by rw [List.length_set, hv]; omega)
      push_cast at this
      rw [this, List.take_add_one, List.take_set]
      have hlt : k < v.length := by omega
      rw [List.getElem?_set_self hlt, List.set_eq_of_length_le (by simp)]
      simp

/-- a cell of the grid outside the stencil: a valid coordinate whose mask is `true`. -/
def ExteriorCell (shape : Coord D) (outside : Coord D → Bool) (c : Coord D) : Prop :=
  (∀ i, 0 ≤ c i ∧ c i < shape i) ∧ outside c = true

theorem cellCoords_make (O : GridOrder D) (shape : Coord D) (o : Coord D → Bool) :
    (ExteriorGrid.make O shape o).cellCoords = (O.coords shape).filter o := by
  simp only [ExteriorGrid.make]
  rw [counterAfter_eq]
  have := fillCoords_number o (O.coords shape) 0
    (List.replicate ((0 : ℤ) + ((O.coords shape).filter o).length).toNat fun _ => 0) (by simp)
  simpa using this

theorem mem_filter_coords (O : GridOrder D) (shape : Coord D) (o : Coord D → Bool) (c : Coord D) :
    c ∈ (O.coords shape).filter o ↔ ExteriorCell shape o c := by
  rw [List.mem_filter, O.mem]; rfl

theorem gridGet_exterior_iff (O : GridOrder D) (shape : Coord D) (o : Coord D → Bool) (c : Coord D) (n : ℕ) :
    ((∀ i, 0 ≤ c i ∧ c i < shape i) ∧ gridGet (ExteriorGrid.make O shape o).cellIndices c = n) ↔
      ((O.coords shape).filter o)[n]? = some c := by
  have hkeys : ((numberCells o 0 (O.coords shape)).map (·.1)).Nodup := by
    rw [numberCells_keys]; exact O.nodup shape
  simp only [ExteriorGrid.make]
  constructor
  · rintro ⟨hv, hg⟩
    have hc : c ∈ (numberCells o 0 (O.coords shape)).map (·.1) := by
      rw [numberCells_keys]; exact (O.mem shape c).2 hv
    obtain ⟨⟨c', v⟩, hm, rfl⟩ := List.mem_map.1 hc
    have := gridGet_of_mem hkeys hm
    simp only at this hg
    rw [this] at hg; subst hg
    rcases (mem_numberCells o 0 _ _ _).1 hm with ⟨_, _, h⟩ | ⟨m, h1, h2⟩
    · omega
    · have : n = m := by omega
      rw [this]; exact h2
  · intro h
    have hm : (c, (n : ℤ)) ∈ numberCells o 0 (O.coords shape) :=
      (mem_numberCells o 0 _ _ _).2 (.inr ⟨n, by simp, h⟩)
    refine ⟨?_, gridGet_of_mem hkeys hm⟩
    have := List.mem_of_getElem? h
    exact ((mem_filter_coords O shape o c).1 this).1

theorem gridGet_masked (O : GridOrder D) (shape : Coord D) (o : Coord D → Bool) (c : Coord D)
    (hv : ∀ i, 0 ≤ c i ∧ c i < shape i) (ho : o c = false) :
    gridGet (ExteriorGrid.make O shape o).cellIndices c = -1 := by
  refine gridGet_of_mem ?_ ((mem_numberCells o 0 _ _ _).2 (.inl ⟨(O.mem shape c).2 hv, ho, rfl⟩))
  show ((numberCells o 0 (O.coords shape)).map (·.1)).Nodup
  rw [numberCells_keys]; exact O.nodup shape

/-- the cell index of an exterior cell is its position in `cell_coords()`. -/
theorem exterior_has_index (O : GridOrder D) (shape : Coord D) (o : Coord D → Bool) (c : Coord D)
    (h : ExteriorCell shape o c) :
    ∃ n : ℕ, gridGet (ExteriorGrid.make O shape o).cellIndices c = n ∧
      ((O.coords shape).filter o)[n]? = some c := by
  obtain ⟨n, hn⟩ := List.mem_iff_getElem?.1 ((mem_filter_coords O shape o c).2 h)
  exact ⟨n, ((gridGet_exterior_iff O shape o c n).2 hn).2, hn⟩

/-- **C21.** `cell_index(c)` is `-1` exactly for coordinates outside the grid or masked. -/
theorem C21_index_minus_one (O : GridOrder D) (shape : Coord D) (o : Coord D → Bool) (c : Coord D) :
    (ExteriorGrid.make O shape o).cellIndex c = -1 ↔ ¬ ExteriorCell shape o c := by
  unfold ExteriorGrid.cellIndex
  show (if (!ValidIndex shape c) = true then (-1 : ℤ) else _) = -1 ↔ _
  by_cases hv : ValidIndex shape c = true
  · rw [hv]
    simp only [Bool.not_true, Bool.false_eq_true, if_false]
    have hv' := (validIndex_iff shape c).1 hv
    constructor
    · intro h he
      obtain ⟨n, hn, _⟩ := exterior_has_index O shape o c he
      omega
    · intro h
      refine gridGet_masked O shape o c hv' ?_
      cases hh : o c
      · rfl
      · exact absurd ⟨hv', hh⟩ h
  · rw [Bool.not_eq_true] at hv
    rw [hv]
    simp only [Bool.not_false, if_true, true_iff]
    intro h
    rw [(validIndex_iff shape c).2 h.1] at hv; cases hv

/-- **C21.** On the exterior cells `cell_index` is a bijection onto `0 .. num_cells-1` and `cell_coord` is its
inverse: `cell_coord(k) = c` iff `c` is an exterior cell with index `k`. -/
theorem C21_bijection (O : GridOrder D) (shape : Coord D) (o : Coord D → Bool) :
    (∀ c, ExteriorCell shape o c → ∃ k, k < (ExteriorGrid.make O shape o).numCells ∧
        (ExteriorGrid.make O shape o).cellIndex c = k) ∧
    (∀ k, k < (ExteriorGrid.make O shape o).numCells →
        ∃! c, ExteriorCell shape o c ∧ (ExteriorGrid.make O shape o).cellIndex c = k) ∧
    (∀ (k : ℕ) c, (ExteriorGrid.make O shape o).cellCoords[k]? = some c ↔
        ExteriorCell shape o c ∧ (ExteriorGrid.make O shape o).cellIndex c = k) := by
  have hidx : ∀ c, ExteriorCell shape o c → (ExteriorGrid.make O shape o).cellIndex c =
      gridGet (ExteriorGrid.make O shape o).cellIndices c := by
    intro c hc
    have : ValidIndex (ExteriorGrid.make O shape o).shape c = true := (validIndex_iff shape c).2 hc.1
    simp [ExteriorGrid.cellIndex, this]
  have hinv : ∀ (k : ℕ) c, (ExteriorGrid.make O shape o).cellCoords[k]? = some c ↔
        ExteriorCell shape o c ∧ (ExteriorGrid.make O shape o).cellIndex c = k := by
    intro k c
    rw [cellCoords_make]
    constructor
    · intro h
      have hc := (mem_filter_coords O shape o c).1 (List.mem_of_getElem? h)
      exact ⟨hc, by rw [hidx c hc]; exact ((gridGet_exterior_iff O shape o c k).2 h).2⟩
    · rintro ⟨hc, h⟩
      rw [hidx c hc] at h
      exact (gridGet_exterior_iff O shape o c k).1 ⟨hc.1, h⟩
  refine ⟨?_, ?_, hinv⟩
  · intro c hc
    obtain ⟨n, hn, hn'⟩ := exterior_has_index O shape o c hc
    refine ⟨n, ?_, by rw [hidx c hc, hn]⟩
    rw [ExteriorGrid.numCells, cellCoords_make]
    exact (List.getElem?_eq_some_iff.1 hn').1
  · intro k hk
    rw [ExteriorGrid.numCells] at hk
    refine ⟨_, (hinv k _).1 (List.getElem?_eq_getElem hk), ?_⟩
    intro c hc
    have := (hinv k c).2 hc
    rw [List.getElem?_eq_getElem hk] at this
    exact (Option.some.inj this).symm

/-- a 3×2 grid with one masked cell has five exterior cells. -/
example : let E := ExteriorGrid.make (lexOrder 2) ![3, 2] fun c => !decide (c = ![1, 0])
    E.numCells = 5 ∧ E.cellIndex ![1, 0] = -1 ∧ E.cellIndex ![3, 0] = -1 ∧ E.cellIndex ![1, 1] = 2 ∧
      E.cellCoords[2]? = some ![1, 1] := by decide +kernel

end Mandoline
