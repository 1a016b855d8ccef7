import Verif.Exterior.Model
import Verif.Core.Lex
import Mathlib.Data.Nat.Log
import Mathlib.Algebra.Order.Ring.Pow
import Mathlib.Tactic.Ring

/-!
# The adaptive grid factory (`AdaptiveGridFactory`)

Transcription of src/construction/adaptive_grid_factory.cpp:308-467 (levels and cells; the edge part of the
factory is not modelled). The code is for three dimensions; the model is generic in the dimension `D`.
-/
namespace Mandoline
variable {D : ℕ}

/-- `2 b + a`, the position one level down of child `a` of block `b` (`width = 2`). -/
def childOf (b a : Coord D) : Coord D := fun i => 2 * b i + a i

/-- `levelBit l q`: at level 0 the flag `original(q)` (false in the padding outside the shape, because the
initialisation loop stops at the shape, adaptive_grid_factory.cpp:319-346); at level `l+1` the flag
`levels[l](q).any()`, where the bit of child `a` of block `b` in `levels[l]` is `levelBit l (2b+a)`
(adaptive_grid_factory.cpp:340, 364-381). -/
def levelBit (shape : Coord D) (orig : Coord D → Bool) : ℕ → Coord D → Bool
  | 0, c => ValidIndex shape c && orig c
  | l + 1, b => (lexCoords D fun _ => 2).any fun a => levelBit shape orig l (childOf b a)

/-- `int(std::ceil(std::log2(size)))` for the largest extent (adaptive_grid_factory.cpp:311-312; `log2` is
taken to be exact), the exponent of the padded size. -/
def logSize (shape : Coord D) : ℕ :=
  Nat.clog 2 (((List.finRange D).map fun i => (shape i).toNat).foldr max 0)

/-- `level_count` (adaptive_grid_factory.cpp:314-315). -/
def levelCount (shape : Coord D) : ℕ := max 1 (logSize shape)

/-- a cell `(corner, width)` (adaptive_grid.hpp:22-28). -/
abbrev ACell (D : ℕ) := Coord D × ℤ

/-- `make_cells(const ActiveMask&, int level, const coord_type&)` (adaptive_grid_factory.cpp:432-448): the
`add_cell` calls, in order. -/
def blockCells (mask : Coord D → Bool) (level : ℕ) (coord : Coord D) : List (ACell D) :=
  (lexCoords D fun _ => 2).filterMap fun a =>
    if !(mask a) then some ((fun i => 2 ^ level * a i + 2 ^ (level + 1) * coord i), 2 ^ level) else none

/-- `make_cells(const GridData3&, int level)` (adaptive_grid_factory.cpp:449-467). -/
def maskCells (mask : Coord D → Bool) (mshape : Coord D) (level : ℕ) : List (ACell D) :=
  (lexCoords D mshape).filterMap fun a =>
    if !(mask a) then some ((fun i => 2 ^ level * a i), 2 ^ level) else none

/-- the loop over the blocks of one level (adaptive_grid_factory.cpp:406-415). -/
def levelCells (shape : Coord D) (orig : Coord D → Bool) (level : ℕ) : List (ACell D) :=
  (lexCoords D fun _ => ((2 ^ logSize shape / 2 ^ (level + 1) : ℕ) : ℤ)).flatMap fun b =>
    if (lexCoords D fun _ => 2).any fun a => levelBit shape orig level (childOf b a) then
      blockCells (fun a => levelBit shape orig level (childOf b a)) level b
    else []

/-- the cells added when `max_level == level` (adaptive_grid_factory.cpp:390-403). -/
def topCells (shape : Coord D) (orig : Coord D → Bool) (level : ℕ) : List (ACell D) :=
  if level = 0 then maskCells orig shape 0
  else maskCells (levelBit shape orig level) (fun _ => ((2 ^ logSize shape / 2 ^ level : ℕ) : ℤ)) level

/-- the loop over levels with its `break` (adaptive_grid_factory.cpp:388-417). -/
def emitFrom (shape : Coord D) (orig : Coord D → Bool) (maxLevel : Option ℤ) : ℕ → ℕ → List (ACell D)
  | 0, _ => []
  | fuel + 1, level =>
    if maxLevel = some (level : ℤ) then topCells shape orig level
    else levelCells shape orig level ++ emitFrom shape orig maxLevel fuel (level + 1)

/-- all `add_cell` calls of `make_cells(max_level)`. -/
def emitted (shape : Coord D) (orig : Coord D → Bool) (maxLevel : Option ℤ) : List (ACell D) :=
  emitFrom shape orig maxLevel (levelCount shape) 0

/-- `add_cell` (adaptive_grid_factory.cpp:426-430): `cells[original.index(corner)] = (corner, jump)` (the
`assert` is not modelled; a second insertion overwrites). -/
def addCell (idx : Coord D → ℤ) (cells : List (ℤ × ACell D)) (c : ACell D) : List (ℤ × ACell D) :=
  OMap.assign intLt (idx c.1) c cells

/-- `AdaptiveGridFactory(mask)` followed by `make_cells(max_level)`
(adaptive_grid_factory.cpp:308-420): the map `cells`. `inactive` is the constructor's argument;
`original = !mask`. -/
def factoryCells (idx : Coord D → ℤ) (shape : Coord D) (inactive : Coord D → Bool) (maxLevel : Option ℤ) :
    List (ℤ × ACell D) :=
  (emitted shape (fun c => !(inactive c)) maxLevel).foldl (addCell idx) []

/-! ## Specification -/

/-- the unit cell `u` is part of the cube of `c`. -/
def InCube (c : ACell D) (u : Coord D) : Prop := ∀ i, c.1 i ≤ u i ∧ u i < c.1 i + c.2

/-- `u` is a cell of the grid. -/
def InGrid (shape : Coord D) (u : Coord D) : Prop := ∀ i, 0 ≤ u i ∧ u i < shape i

/-- the level at which `make_cells` stops early, if it does. -/
def StopsAt (shape : Coord D) (maxLevel : Option ℤ) (L : ℕ) : Prop :=
  maxLevel = some (L : ℤ) ∧ L < levelCount shape

/-! ## Level flags -/

theorem div_pow_succ (u : ℤ) (l : ℕ) : u / 2 ^ (l + 1) = u / 2 ^ l / 2 := by
  have hp : (0 : ℤ) ≤ 2 ^ l := by positivity
  rw [pow_succ, Int.ediv_ediv_of_nonneg hp]

section
variable (shape : Coord D) (orig : Coord D → Bool)

theorem levelBit_zero (q : Coord D) : levelBit shape orig 0 q = true ↔ InGrid shape q ∧ orig q = true := by
  simp only [levelBit, Bool.and_eq_true, validIndex_iff]; rfl

theorem any_child (p : Coord D → Bool) : (lexCoords D fun _ => 2).any p = true ↔
    ∃ a : Coord D, (∀ i, 0 ≤ a i ∧ a i < 2) ∧ p a = true := by
  rw [List.any_eq_true]
  simp only [mem_lexCoords]

/-- a block is flagged at level `l` iff it contains an active unit cell. -/
theorem levelBit_iff (l : ℕ) (q : Coord D) : levelBit shape orig l q = true ↔
    ∃ u : Coord D, (∀ i, u i / 2 ^ l = q i) ∧ InGrid shape u ∧ orig u = true := by
  induction l generalizing q with
  | zero =>
    rw [levelBit_zero]
    constructor
    · rintro ⟨h1, h2⟩; exact ⟨q, by simp, h1, h2⟩
    · rintro ⟨u, hu, h⟩
      have : u = q := funext fun i => by simpa using hu i
      rw [← this]; exact h
  | succ l ih =>
    rw [levelBit, any_child]
    constructor
    · rintro ⟨a, ha, h⟩
      obtain ⟨u, hu, hu'⟩ := (ih _).1 h
      refine ⟨u, fun i => ?_, hu'⟩
      have h1 := hu i
      have h2 := ha i
      rw [div_pow_succ, h1]
      simp only [childOf]
      omega
    · rintro ⟨u, hu, hu'⟩
      refine ⟨fun i => (u i / 2 ^ l) % 2, fun i => by dsimp only; omega, (ih _).2 ⟨u, fun i => ?_, hu'⟩⟩
      have h1 := hu i
      rw [div_pow_succ] at h1
      simp only [childOf]
      omega

theorem levelBit_mono (l : ℕ) (u : Coord D) (h : levelBit shape orig l (fun i => u i / 2 ^ l) = true) :
    levelBit shape orig (l + 1) (fun i => u i / 2 ^ (l + 1)) = true := by
  obtain ⟨v, hv, hv'⟩ := (levelBit_iff shape orig l _).1 h
  refine (levelBit_iff shape orig (l + 1) _).2 ⟨v, fun i => ?_, hv'⟩
  rw [div_pow_succ, div_pow_succ, hv i]

theorem levelBit_mono_le {l m : ℕ} (hlm : l ≤ m) (u : Coord D)
    (h : levelBit shape orig l (fun i => u i / 2 ^ l) = true) :
    levelBit shape orig m (fun i => u i / 2 ^ m) = true := by
  induction hlm with
  | refl => exact h
  | step _ ih => exact levelBit_mono shape orig _ u ih

/-! ## Cells of one level -/

theorem mem_levelCells (l : ℕ) (hl : l < logSize shape) (x : ACell D) :
    x ∈ levelCells shape orig l ↔ ∃ q : Coord D, (∀ i, 0 ≤ q i ∧ q i < 2 ^ (logSize shape - l)) ∧
      x = ((fun i => 2 ^ l * q i), 2 ^ l) ∧ levelBit shape orig l q = false ∧
      levelBit shape orig (l + 1) (fun i => q i / 2) = true := by
  have hpow : (2 ^ logSize shape / 2 ^ (l + 1) : ℕ) = 2 ^ (logSize shape - (l + 1)) :=
    Nat.pow_div (by omega) (by norm_num)
  have hp2 : (2 : ℤ) ^ (logSize shape - l) = 2 * 2 ^ (logSize shape - (l + 1)) := by
    have : logSize shape - l = (logSize shape - (l + 1)) + 1 := by omega
    rw [this, pow_succ]; ring
  simp only [levelCells, List.mem_flatMap, mem_lexCoords, hpow]
  push_cast
  constructor
  · rintro ⟨b, hb, hx⟩
    split at hx
    · rename_i hany
      simp only [blockCells, List.mem_filterMap, mem_lexCoords] at hx
      obtain ⟨a, ha, hx⟩ := hx
      split at hx
      · rename_i hm
        refine ⟨childOf b a, fun i => ?_, ?_, by simpa using hm, ?_⟩
        · have h1 := hb i; have h2 := ha i; rw [hp2]; simp only [childOf]; omega
        · rw [← Option.some.inj hx]
          congr 1
          funext i; simp only [childOf, pow_succ]; ring
        · rw [levelBit]
          have : (fun i => childOf b a i / 2) = b := by
            funext i; have h2 := ha i; simp only [childOf]; omega
          rw [this]; exact hany
      · cases hx
    · cases hx
  · rintro ⟨q, hq, rfl, h1, h2⟩
    refine ⟨fun i => q i / 2, fun i => ?_, ?_⟩
    · have := hq i; rw [hp2] at this; dsimp only; omega
    · have hc : childOf (fun i => q i / 2) (fun i => q i % 2) = q := by
        funext i; simp only [childOf]; omega
      rw [levelBit] at h2
      rw [if_pos h2]
      simp only [blockCells, List.mem_filterMap, mem_lexCoords]
      refine ⟨fun i => q i % 2, fun i => by dsimp only; omega, ?_⟩
      rw [hc, h1]
      simp only [Bool.not_false, if_true, Option.some.injEq, Prod.mk.injEq, and_true]
      funext i
      have : q i = 2 * (q i / 2) + q i % 2 := by omega
      conv_rhs => rw [this]
      rw [pow_succ]; ring

theorem mem_topCells_pos (L : ℕ) (h0 : L ≠ 0) (hL : L ≤ logSize shape) (x : ACell D) :
    x ∈ topCells shape orig L ↔ ∃ q : Coord D, (∀ i, 0 ≤ q i ∧ q i < 2 ^ (logSize shape - L)) ∧
      x = ((fun i => 2 ^ L * q i), 2 ^ L) ∧ levelBit shape orig L q = false := by
  have hpow : (2 ^ logSize shape / 2 ^ L : ℕ) = 2 ^ (logSize shape - L) := Nat.pow_div hL (by norm_num)
  rw [topCells, if_neg h0]
  simp only [maskCells, List.mem_filterMap, mem_lexCoords, hpow]
  push_cast
  constructor
  · rintro ⟨a, ha, hx⟩
    split at hx
    · rename_i hm
      exact ⟨a, ha, (Option.some.inj hx).symm, by simpa using hm⟩
    · cases hx
  · rintro ⟨q, hq, rfl, h1⟩
    exact ⟨q, hq, by rw [h1]; rfl⟩

theorem mem_topCells_zero (x : ACell D) :
    x ∈ topCells shape orig 0 ↔ ∃ u : Coord D, InGrid shape u ∧ x = (u, 1) ∧ orig u = false := by
  rw [topCells, if_pos rfl]
  simp only [maskCells, List.mem_filterMap, mem_lexCoords, pow_zero, one_mul]
  constructor
  · rintro ⟨a, ha, hx⟩
    split at hx
    · rename_i hm
      exact ⟨a, ha, (Option.some.inj hx).symm, by simpa using hm⟩
    · cases hx
  · rintro ⟨q, hq, rfl, h1⟩
    exact ⟨q, hq, by rw [h1]; rfl⟩

theorem mem_emitFrom (maxLevel : Option ℤ) (fuel level : ℕ) (x : ACell D) :
    x ∈ emitFrom shape orig maxLevel fuel level ↔
      (∃ l, level ≤ l ∧ l < level + fuel ∧ (∀ k : ℕ, level ≤ k → k ≤ l → maxLevel ≠ some (k : ℤ)) ∧
        x ∈ levelCells shape orig l) ∨
      (∃ L : ℕ, level ≤ L ∧ L < level + fuel ∧ maxLevel = some (L : ℤ) ∧ x ∈ topCells shape orig L) := by
  induction fuel generalizing level with
  | zero =>
    simp only [emitFrom, List.not_mem_nil, Nat.add_zero, false_iff, not_or, not_exists, not_and]
    exact ⟨fun l h1 h2 => by omega, fun l h1 h2 => by omega⟩
  | succ f ih =>
    rw [emitFrom]
    split
    · rename_i hm
      constructor
      · intro hx; exact .inr ⟨level, le_rfl, by omega, hm, hx⟩
      · rintro (⟨l, h1, h2, h3, h4⟩ | ⟨L, h1, h2, h3, h4⟩)
        · exact absurd hm (h3 level le_rfl h1)
        · have : L = level := by rw [hm] at h3; have := Option.some.inj h3; omega
          rw [← this]; exact h4
    · rename_i hm
      rw [List.mem_append, ih]
      constructor
      · rintro (hx | ⟨l, h1, h2, h3, h4⟩ | ⟨L, h1, h2, h3, h4⟩)
        · refine .inl ⟨level, le_rfl, by omega, ?_, hx⟩
          intro k hk hk'
          have : k = level := by omega
          rw [this]; exact hm
        · refine .inl ⟨l, by omega, by omega, ?_, h4⟩
          intro k hk hk'
          rcases Nat.eq_or_lt_of_le hk with h | h
          · rw [← h]; exact hm
          · exact h3 k h hk'
        · exact .inr ⟨L, by omega, by omega, h3, h4⟩
      · rintro (⟨l, h1, h2, h3, h4⟩ | ⟨L, h1, h2, h3, h4⟩)
        · rcases Nat.eq_or_lt_of_le h1 with h | h
          · subst h; exact .inl h4
          · exact .inr (.inl ⟨l, h, by omega, fun k hk hk' => h3 k (by omega) hk', h4⟩)
        · rcases Nat.eq_or_lt_of_le h1 with h | h
          · subst h; exact absurd h3 hm
          · exact .inr (.inr ⟨L, h, by omega, h3, h4⟩)

theorem inCube_pow (l : ℕ) (q u : Coord D) :
    InCube ((fun i => 2 ^ l * q i), 2 ^ l) u ↔ ∀ i, u i / 2 ^ l = q i := by
  have hp : (0 : ℤ) < 2 ^ l := by positivity
  unfold InCube
  refine forall_congr' fun i => ?_
  simp only
  rw [Int.ediv_eq_iff_of_pos hp] 
  constructor
  · rintro ⟨h1, h2⟩; exact ⟨by linarith, by linarith⟩
  · rintro ⟨h1, h2⟩; exact ⟨by linarith, by linarith⟩
end

end Mandoline
