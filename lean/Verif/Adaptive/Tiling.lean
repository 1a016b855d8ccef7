import Verif.Adaptive.Factory
import Mathlib.Tactic.Linarith

/-! # C25: the adaptive cells tile the inactive part of the grid -/
namespace Mandoline
variable {D : ℕ}

section
variable (shape : Coord D) (orig : Coord D → Bool)

/-- the padded cube of side `2^logSize`. -/
def InPadded (u : Coord D) : Prop := ∀ i, 0 ≤ u i ∧ u i < 2 ^ logSize shape

theorem le_foldr_max (l : List ℕ) (a : ℕ) (h : a ∈ l) : a ≤ l.foldr max 0 := by
  induction l with
  | nil => cases h
  | cons b l ih =>
    rw [List.foldr_cons]
    rcases List.mem_cons.1 h with h | h
    · subst h; exact le_max_left _ _
    · exact le_trans (ih h) (le_max_right _ _)

theorem shape_le (i : Fin D) : shape i ≤ 2 ^ logSize shape := by
  have h1 : (shape i).toNat ≤ ((List.finRange D).map fun i => (shape i).toNat).foldr max 0 :=
    le_foldr_max _ _ (List.mem_map.2 ⟨i, List.mem_finRange i, rfl⟩)
  have h2 : ((List.finRange D).map fun i => (shape i).toNat).foldr max 0 ≤ 2 ^ logSize shape :=
    Nat.le_pow_clog (by norm_num) _
  have h3 : ((2 ^ logSize shape : ℕ) : ℤ) = 2 ^ logSize shape := by push_cast; rfl
  have h4 : (shape i).toNat ≤ 2 ^ logSize shape := le_trans h1 h2
  omega

theorem inPadded_of_inGrid {u : Coord D} (h : InGrid shape u) : InPadded shape u := fun i =>
  ⟨(h i).1, lt_of_lt_of_le (h i).2 (shape_le shape i)⟩

theorem block_range (n l : ℕ) (hl : l ≤ n) (x : ℤ) :
    (0 ≤ x / 2 ^ l ∧ x / 2 ^ l < 2 ^ (n - l)) ↔ (0 ≤ x ∧ x < 2 ^ n) := by
  have hp : (0 : ℤ) < 2 ^ l := by positivity
  have : (2 : ℤ) ^ n = 2 ^ (n - l) * 2 ^ l := by rw [← pow_add]; congr 1; omega
  rw [Int.ediv_lt_iff_lt_mul hp, ← this, Int.le_ediv_iff_mul_le hp, zero_mul]

/-- which emitted cells contain `u`. -/
theorem emitted_at (hn : 1 ≤ logSize shape) (maxLevel : Option ℤ) (h0 : ¬ StopsAt shape maxLevel 0)
    (x : ACell D) (u : Coord D) :
    (x ∈ emitted shape orig maxLevel ∧ InCube x u) ↔
      ∃ l : ℕ, x = ((fun i => 2 ^ l * (u i / 2 ^ l)), 2 ^ l) ∧ InPadded shape u ∧ l < logSize shape ∧
        levelBit shape orig l (fun i => u i / 2 ^ l) = false ∧
        ((levelBit shape orig (l + 1) (fun i => u i / 2 ^ (l + 1)) = true ∧
            ∀ k : ℕ, k ≤ l → maxLevel ≠ some (k : ℤ)) ∨ maxLevel = some (l : ℤ)) := by
  have hlc : levelCount shape = logSize shape := by unfold levelCount; omega
  have hstop : maxLevel ≠ some ((0 : ℕ) : ℤ) := fun h => h0 ⟨h, by rw [hlc]; omega⟩
  unfold emitted
  rw [mem_emitFrom, hlc]
  simp only [Nat.zero_add, Nat.zero_le, true_and, true_implies]
  constructor
  · rintro ⟨⟨l, hl, hk, hx⟩ | ⟨L, hL, hm, hx⟩, hu⟩
    · obtain ⟨q, hq, rfl, h1, h2⟩ := (mem_levelCells shape orig l hl x).1 hx
      rw [inCube_pow] at hu
      have hqe : q = fun i => u i / 2 ^ l := funext fun i => (hu i).symm
      subst hqe
      refine ⟨l, rfl, fun i => (block_range _ l hl.le _).1 (hq i), hl, h1, .inl ⟨?_, hk⟩⟩
      have : (fun i => u i / 2 ^ (l + 1)) = fun i => u i / 2 ^ l / 2 := funext fun i => div_pow_succ _ _
      rw [this]; exact h2
    · have hL0 : L ≠ 0 := by rintro rfl; exact hstop hm
      obtain ⟨q, hq, rfl, h1⟩ := (mem_topCells_pos shape orig L hL0 hL.le x).1 hx
      rw [inCube_pow] at hu
      have hqe : q = fun i => u i / 2 ^ L := funext fun i => (hu i).symm
      subst hqe
      exact ⟨L, rfl, fun i => (block_range _ L hL.le _).1 (hq i), hL, h1, .inr hm⟩
  · rintro ⟨l, rfl, hu, hl, h1, h2⟩
    refine ⟨?_, (inCube_pow l _ u).2 fun i => rfl⟩
    have hq : ∀ i, 0 ≤ u i / 2 ^ l ∧ u i / 2 ^ l < 2 ^ (logSize shape - l) :=
      fun i => (block_range _ l hl.le _).2 (hu i)
    rcases h2 with ⟨h2, h3⟩ | h2
    · refine .inl ⟨l, hl, h3, (mem_levelCells shape orig l hl _).2 ⟨_, hq, rfl, h1, ?_⟩⟩
      have : (fun i => u i / 2 ^ (l + 1)) = fun i => u i / 2 ^ l / 2 := funext fun i => div_pow_succ _ _
      rw [← this]; exact h2
    · have hL0 : l ≠ 0 := by rintro rfl; exact hstop h2
      exact .inr ⟨l, hl, h2, (mem_topCells_pos shape orig l hL0 hl.le _).2 ⟨_, hq, rfl, h1⟩⟩

theorem emitted_unique (hn : 1 ≤ logSize shape) (maxLevel : Option ℤ) (h0 : ¬ StopsAt shape maxLevel 0)
    (x y : ACell D) (u : Coord D) (hx : x ∈ emitted shape orig maxLevel) (hy : y ∈ emitted shape orig maxLevel)
    (hxu : InCube x u) (hyu : InCube y u) : x = y := by
  obtain ⟨l, rfl, _, hl, h1, h2⟩ := (emitted_at shape orig hn maxLevel h0 x u).1 ⟨hx, hxu⟩
  obtain ⟨m, rfl, _, hm, h3, h4⟩ := (emitted_at shape orig hn maxLevel h0 y u).1 ⟨hy, hyu⟩
  have key : ∀ l m : ℕ, l < m →
      ((levelBit shape orig (l + 1) (fun i => u i / 2 ^ (l + 1)) = true ∧
            ∀ k : ℕ, k ≤ l → maxLevel ≠ some (k : ℤ)) ∨ maxLevel = some (l : ℤ)) →
      levelBit shape orig m (fun i => u i / 2 ^ m) = false →
      ((levelBit shape orig (m + 1) (fun i => u i / 2 ^ (m + 1)) = true ∧
            ∀ k : ℕ, k ≤ m → maxLevel ≠ some (k : ℤ)) ∨ maxLevel = some (m : ℤ)) → False := by
    intro l m hlm h2 h3 h4
    rcases h2 with ⟨h2, _⟩ | h2
    · have := levelBit_mono_le shape orig (show l + 1 ≤ m from hlm) u h2
      rw [this] at h3; cases h3
    · rcases h4 with ⟨_, h4⟩ | h4
      · exact h4 l hlm.le h2
      · rw [h2] at h4; have := Option.some.inj h4; omega
  rcases lt_trichotomy l m with h | h | h
  · exact (key l m h h2 h3 h4).elim
  · subst h; rfl
  · exact (key m l h h4 h1 h2).elim

theorem emitted_cover (hn : 1 ≤ logSize shape) (maxLevel : Option ℤ) (h0 : ¬ StopsAt shape maxLevel 0)
    (hc : (∃ L, StopsAt shape maxLevel L) ∨ ∃ v, InGrid shape v ∧ orig v = true)
    (u : Coord D) (hu : InPadded shape u) (ha : ¬ (InGrid shape u ∧ orig u = true)) :
    ∃ x ∈ emitted shape orig maxLevel, InCube x u := by
  have hlc : levelCount shape = logSize shape := by unfold levelCount; omega
  have hs0 : levelBit shape orig 0 (fun i => u i / 2 ^ 0) = false := by
    rw [← Bool.not_eq_true, levelBit_zero]; simpa using ha
  by_cases hk : ∃ k : ℕ, k ≤ logSize shape ∧ (∀ L, StopsAt shape maxLevel L → k ≤ L) ∧
      levelBit shape orig k (fun i => u i / 2 ^ k) = true
  · classical
    obtain ⟨h1, h2, h3⟩ := Nat.find_spec hk
    have hmin := fun m hm => Nat.find_min hk (m := m) hm
    obtain ⟨l, hl⟩ : ∃ l, Nat.find hk = l + 1 := by
      cases h : Nat.find hk with
      | zero => rw [h] at h3; rw [h3] at hs0; cases hs0
      | succ l => exact ⟨l, rfl⟩
    rw [hl] at h1 h2 h3 hmin
    have hml := hmin l (by omega)
    refine ⟨_, (emitted_at shape orig hn maxLevel h0 _ u).2 ⟨l, rfl, hu, by omega, ?_, .inl ⟨h3, ?_⟩⟩⟩
    · by_contra hb
      rw [Bool.not_eq_false] at hb
      exact hml ⟨by omega, fun L hL => by have := h2 L hL; omega, hb⟩
    · intro k hk' hmx
      have := h2 k ⟨hmx, by rw [hlc]; omega⟩
      omega
  · push Not at hk
    rcases hc with ⟨L, hL⟩ | ⟨v, hv, hv'⟩
    · have hLn : L < logSize shape := by rw [← hlc]; exact hL.2
      refine ⟨_, (emitted_at shape orig hn maxLevel h0 _ u).2 ⟨L, rfl, hu, hLn, ?_, .inr hL.1⟩⟩
      have := hk L hLn.le (fun L' hL' => by
        have := Option.some.inj (hL.1.symm.trans hL'.1); omega)
      exact Bool.not_eq_true _ ▸ this
    · by_cases hst : ∃ L, StopsAt shape maxLevel L
      · obtain ⟨L, hL⟩ := hst
        have hLn : L < logSize shape := by rw [← hlc]; exact hL.2
        refine ⟨_, (emitted_at shape orig hn maxLevel h0 _ u).2 ⟨L, rfl, hu, hLn, ?_, .inr hL.1⟩⟩
        have := hk L hLn.le (fun L' hL' => by
          have := Option.some.inj (hL.1.symm.trans hL'.1); omega)
        exact Bool.not_eq_true _ ▸ this
      · refine absurd ?_ (hk (logSize shape) le_rfl fun L hL => absurd ⟨L, hL⟩ hst)
        rw [levelBit_iff]
        refine ⟨v, fun i => ?_, hv, hv'⟩
        have h1 := inPadded_of_inGrid shape hv i
        have h2 := hu i
        rw [Int.ediv_eq_zero_of_lt h1.1 h1.2, Int.ediv_eq_zero_of_lt h2.1 h2.2]

theorem mem_emitted_stop_zero (maxLevel : Option ℤ) (h0 : StopsAt shape maxLevel 0) (x : ACell D) :
    x ∈ emitted shape orig maxLevel ↔ ∃ u : Coord D, InGrid shape u ∧ x = (u, 1) ∧ orig u = false := by
  unfold emitted
  rw [mem_emitFrom, ← mem_topCells_zero]
  constructor
  · rintro (⟨l, h1, h2, h3, _⟩ | ⟨L, h1, h2, h3, h4⟩)
    · exact absurd h0.1 (h3 0 le_rfl h1)
    · have : L = 0 := by have := Option.some.inj (h3.symm.trans h0.1); omega
      subst this; exact h4
  · intro h
    exact .inr ⟨0, le_rfl, by have := h0.2; omega, h0.1, h⟩
end

/-! ## From the `add_cell` calls to the map -/

theorem foldl_assign_spec {V : Type*} (key : V → ℤ) (l : List V)
    (hinj : ∀ x ∈ l, ∀ y ∈ l, key x = key y → x = y) :
    OMap.Sorted intLt (l.foldl (fun m c => OMap.assign intLt (key c) c m) []) ∧
    ∀ k v, (k, v) ∈ l.foldl (fun m c => OMap.assign intLt (key c) c m) [] ↔ v ∈ l ∧ k = key v := by
  induction l using List.reverseRecOn with
  | nil => exact ⟨OMap.sorted_nil, by simp⟩
  | append_singleton l x ih =>
    have ih' := ih fun a ha b hb => hinj a (List.mem_append_left _ ha) b (List.mem_append_left _ hb)
    rw [List.foldl_append, List.foldl_cons, List.foldl_nil]
    refine ⟨OMap.sorted_alter strictTotal_intLt ih'.1, fun k v => ?_⟩
    unfold OMap.assign at ih' ⊢
    rw [OMap.mem_alter strictTotal_intLt ih'.1, ih'.2]
    constructor
    · rintro (⟨_, h1, h2⟩ | ⟨h1, h2⟩)
      · exact ⟨List.mem_append_left _ h1, h2⟩
      · subst h2; exact ⟨by simp, h1⟩
    · rintro ⟨h1, h2⟩
      by_cases hk : k = key x
      · right
        refine ⟨hk, ?_⟩
        exact hinj v h1 x (by simp) (h2.symm.trans hk)
      · left
        refine ⟨hk, ?_, h2⟩
        rcases List.mem_append.1 h1 with h | h
        · exact h
        · simp only [List.mem_singleton] at h; subst h; exact absurd h2 hk

/-- The cells tile the inactive part: each cell is a non-empty cube of inactive grid cells, and each inactive
grid cell is in exactly one cell. -/
def Tiles (shape : Coord D) (inactive : Coord D → Bool) (cells : List (ℤ × ACell D)) : Prop :=
  (∀ e ∈ cells, 0 < e.2.2 ∧ ∀ u, InCube e.2 u → InGrid shape u ∧ inactive u = true) ∧
  (∀ u, InGrid shape u → inactive u = true → ∃! e, e ∈ cells ∧ InCube e.2 u)

/-- the facts about the emitted list needed for the map. -/
theorem tiles_of_emitted (shape : Coord D) (ix : GridIndexer shape) (inactive : Coord D → Bool)
    (l : List (ACell D)) (hpos : ∀ x ∈ l, 0 < x.2)
    (hin : ∀ x ∈ l, ∀ u, InCube x u → InGrid shape u ∧ inactive u = true)
    (hun : ∀ x ∈ l, ∀ y ∈ l, ∀ u, InCube x u → InCube y u → x = y)
    (hcov : ∀ u, InGrid shape u → inactive u = true → ∃ x ∈ l, InCube x u) :
    let cells := l.foldl (addCell ix.idx) []
    Tiles shape inactive cells ∧ OMap.Sorted intLt cells ∧ ∀ e, e ∈ cells ↔ e.2 ∈ l ∧ e.1 = ix.idx e.2.1 := by
  intro cells
  have hcorner : ∀ x ∈ l, InCube x x.1 := fun x hx i => ⟨le_rfl, by have := hpos x hx; omega⟩
  have hinj : ∀ x ∈ l, ∀ y ∈ l, ix.idx x.1 = ix.idx y.1 → x = y := by
    intro x hx y hy h
    have hxv := (hin x hx _ (hcorner x hx)).1
    have hyv := (hin y hy _ (hcorner y hy)).1
    have := ix.inj x.1 y.1 ((validIndex_iff _ _).2 hxv) ((validIndex_iff _ _).2 hyv) h
    exact hun x hx y hy x.1 (hcorner x hx) (by rw [this]; exact hcorner y hy)
  have spec := foldl_assign_spec (fun c : ACell D => ix.idx c.1) l hinj
  have hmem : ∀ e, e ∈ cells ↔ e.2 ∈ l ∧ e.1 = ix.idx e.2.1 := fun e => spec.2 e.1 e.2
  refine ⟨⟨?_, ?_⟩, spec.1, hmem⟩
  · intro e he
    have := ((hmem e).1 he).1
    exact ⟨hpos _ this, hin _ this⟩
  · intro u hu hi
    obtain ⟨x, hx, hxu⟩ := hcov u hu hi
    refine ⟨(ix.idx x.1, x), ⟨(hmem _).2 ⟨hx, rfl⟩, hxu⟩, ?_⟩
    rintro e ⟨he, heu⟩
    obtain ⟨h1, h2⟩ := (hmem e).1 he
    have := hun e.2 h1 x hx u heu hxu
    exact Prod.ext (by rw [h2, this]) this

/-- facts about the emitted list in the two good cases. -/
theorem emitted_good (hD : 0 < D) (shape : Coord D) (inactive : Coord D → Bool)
    (maxLevel : Option ℤ)
    (h : StopsAt shape maxLevel 0 ∨ ((∀ i, shape i = 2 ^ logSize shape) ∧
      ((∃ L, StopsAt shape maxLevel L) ∨ ∃ v, InGrid shape v ∧ inactive v = false))) :
    let l := emitted shape (fun c => !(inactive c)) maxLevel
    (∀ x ∈ l, 0 < x.2) ∧
    (∀ x ∈ l, ∀ u, InCube x u → InGrid shape u ∧ inactive u = true) ∧
    (∀ x ∈ l, ∀ y ∈ l, ∀ u, InCube x u → InCube y u → x = y) ∧
    (∀ u, InGrid shape u → inactive u = true → ∃ x ∈ l, InCube x u) := by
  intro l
  by_cases h0 : StopsAt shape maxLevel 0
  · have hm := mem_emitted_stop_zero shape (fun c => !(inactive c)) maxLevel h0
    have hcube : ∀ v u : Coord D, InCube (v, 1) u → v = u := by
      intro v u hu; funext i; have := hu i; simp only at this; omega
    refine ⟨?_, ?_, ?_, ?_⟩
    · intro x hx; obtain ⟨u, _, rfl, _⟩ := (hm x).1 hx; norm_num
    · intro x hx u hu
      obtain ⟨v, hv, rfl, hv'⟩ := (hm x).1 hx
      have := hcube v u hu; subst this
      exact ⟨hv, by simpa using hv'⟩
    · intro x hx y hy u hxu hyu
      obtain ⟨v, _, rfl, _⟩ := (hm x).1 hx
      obtain ⟨w, _, rfl, _⟩ := (hm y).1 hy
      rw [hcube v u hxu, hcube w u hyu]
    · intro u hu hi
      exact ⟨(u, 1), (hm _).2 ⟨u, hu, rfl, by simp [hi]⟩, fun i => by simp⟩
  · obtain ⟨hs, hc⟩ := h.resolve_left h0
    have hc' : (∃ L, StopsAt shape maxLevel L) ∨ ∃ v, InGrid shape v ∧ (fun c => !(inactive c)) v = true := by
      rcases hc with hc | ⟨v, hv, hv'⟩
      · exact .inl hc
      · exact .inr ⟨v, hv, by simp [hv']⟩
    by_cases hn : 1 ≤ logSize shape
    · have hpad : ∀ u, InPadded shape u → InGrid shape u := fun u hu i => by rw [hs i]; exact hu i
      refine ⟨?_, ?_, ?_, ?_⟩
      · intro x hx
        unfold l emitted at hx
        rw [mem_emitFrom] at hx
        have hlc : levelCount shape = logSize shape := by unfold levelCount; omega
        rw [hlc] at hx
        rcases hx with ⟨l, _, hl, _, hx⟩ | ⟨L, _, hL, hm, hx⟩
        · obtain ⟨q, _, rfl, _⟩ := (mem_levelCells shape _ l (by omega) x).1 hx
          positivity
        · have hL0 : L ≠ 0 := by
            rintro rfl; exact h0 ⟨hm, by rw [hlc]; omega⟩
          obtain ⟨q, _, rfl, _⟩ := (mem_topCells_pos shape _ L hL0 (by omega) x).1 hx
          positivity
      · intro x hx u hu
        obtain ⟨l, _, hu', _, h1, _⟩ := (emitted_at shape _ hn maxLevel h0 x u).1 ⟨hx, hu⟩
        refine ⟨hpad u hu', ?_⟩
        by_contra hi
        rw [Bool.not_eq_true] at hi
        have : levelBit shape (fun c => !(inactive c)) l (fun i => u i / 2 ^ l) = true :=
          (levelBit_iff _ _ _ _).2 ⟨u, fun _ => rfl, hpad u hu', by simp [hi]⟩
        rw [this] at h1; cases h1
      · intro x hx y hy u hxu hyu
        exact emitted_unique shape _ hn maxLevel h0 x y u hx hy hxu hyu
      · intro u hu hi
        exact emitted_cover shape _ hn maxLevel h0 hc' u (inPadded_of_inGrid shape hu) (by simp [hi])
    · -- a single cell, which must be active: nothing is emitted
      have hn0 : logSize shape = 0 := by omega
      have hlc : levelCount shape = 1 := by unfold levelCount; omega
      have hemp : ∀ x, x ∉ l := by
        intro x hx
        unfold l emitted at hx
        rw [mem_emitFrom, hlc] at hx
        rcases hx with ⟨l, _, hl, _, hx⟩ | ⟨L, _, hL, hm, hx⟩
        · simp only [levelCells, List.mem_flatMap, mem_lexCoords, hn0] at hx
          obtain ⟨b, hb, _⟩ := hx
          have := hb ⟨0, hD⟩
          have : l = 0 := by omega
          subst this
          simp at *
          omega
        · have : L = 0 := by omega
          subst this
          exact h0 ⟨hm, by rw [hlc]; omega⟩
      have hz : ∀ u, InGrid shape u → u = fun _ => 0 := by
        intro u hu; funext i; have := hu i; rw [hs i, hn0] at this; omega
      refine ⟨fun x hx => absurd hx (hemp x), fun x hx => absurd hx (hemp x),
        fun x hx => absurd hx (hemp x), ?_⟩
      intro u hu hi
      rcases hc with ⟨L, hL⟩ | ⟨v, hv, hv'⟩
      · have : L = 0 := by have := hL.2; omega
        subst this; exact absurd hL h0
      · rw [hz u hu, ← hz v hv, hv'] at hi; cases hi

/-- **C25.** The cells of `make_cells(max_level)` tile the inactive grid cells — every cell is a cube of
inactive grid cells, every inactive grid cell is in exactly one of them — when `max_level = 0` (the default;
any shape), or when the grid is a cube of `2^n` cells per side and either `max_level` is one of the levels or
at least one grid cell is active. The id of a cell is the grid index of its corner. -/
theorem C25_tiling (hD : 0 < D) (shape : Coord D) (ix : GridIndexer shape) (inactive : Coord D → Bool)
    (maxLevel : Option ℤ)
    (h : StopsAt shape maxLevel 0 ∨ ((∀ i, shape i = 2 ^ logSize shape) ∧
      ((∃ L, StopsAt shape maxLevel L) ∨ ∃ v, InGrid shape v ∧ inactive v = false))) :
    Tiles shape inactive (factoryCells ix.idx shape inactive maxLevel) ∧
    ∀ e ∈ factoryCells ix.idx shape inactive maxLevel, e.1 = ix.idx e.2.1 := by
  obtain ⟨h1, h2, h3, h4⟩ := emitted_good hD shape inactive maxLevel h
  have := tiles_of_emitted shape ix inactive _ h1 h2 h3 h4
  exact ⟨this.1, fun e he => ((this.2.2 e).1 he).2⟩

/-- the default `max_level = 0` is always a level. -/
theorem C25_default_level (shape : Coord D) : StopsAt shape (some 0) 0 :=
  ⟨rfl, by unfold levelCount; omega⟩

/-- **C25, defect.** If no grid cell is active and `max_level` is not a level, no cells are made at all, and
the whole (inactive) grid is uncovered. -/
theorem C25_empty_geometry_refuted (idx : Coord D → ℤ) (shape : Coord D) (hs : ∀ i, 1 ≤ shape i)
    (inactive : Coord D → Bool) (maxLevel : Option ℤ) (hstop : ∀ L, ¬ StopsAt shape maxLevel L)
    (hall : ∀ u, InGrid shape u → inactive u = true) :
    factoryCells idx shape inactive maxLevel = [] ∧
      ¬ Tiles shape inactive (factoryCells idx shape inactive maxLevel) := by
  have hbit : ∀ l q, levelBit shape (fun c => !(inactive c)) l q = false := by
    intro l q
    rw [← Bool.not_eq_true, levelBit_iff]
    rintro ⟨u, _, hu, h⟩
    rw [hall u hu] at h; simp at h
  have hemp : emitted shape (fun c => !(inactive c)) maxLevel = [] := by
    rw [List.eq_nil_iff_forall_not_mem]
    intro x hx
    unfold emitted at hx
    rw [mem_emitFrom] at hx
    rcases hx with ⟨l, _, _, _, hx⟩ | ⟨L, _, hL, hm, _⟩
    · simp only [levelCells, List.mem_flatMap] at hx
      obtain ⟨b, _, hx⟩ := hx
      rw [if_neg] at hx
      · cases hx
      · rw [any_child]
        rintro ⟨a, _, ha⟩
        rw [hbit] at ha; cases ha
    · exact hstop L ⟨hm, by omega⟩
  have he : factoryCells idx shape inactive maxLevel = [] := by
    unfold factoryCells; rw [hemp]; rfl
  refine ⟨he, ?_⟩
  rw [he]
  rintro ⟨_, h⟩
  have hz : InGrid shape fun _ => 0 := fun i => ⟨le_rfl, by have := hs i; dsimp only; omega⟩
  obtain ⟨e, ⟨hm, _⟩, _⟩ := h _ hz (hall _ hz)
  cases hm

/-- **C25, defect.** If the grid is not a cube of `2^n` cells per side and `max_level ≠ 0` (with some active
cell, or a level to stop at), some cell passed to `add_cell` sticks out of the grid. -/
theorem C25_padding_refuted (shape : Coord D) (hs : ∀ i, 1 ≤ shape i)
    (inactive : Coord D → Bool) (maxLevel : Option ℤ) (h0 : ¬ StopsAt shape maxLevel 0)
    (hc : (∃ L, StopsAt shape maxLevel L) ∨ ∃ v, InGrid shape v ∧ inactive v = false)
    (i : Fin D) (hi : shape i ≠ 2 ^ logSize shape) :
    ∃ x ∈ emitted shape (fun c => !(inactive c)) maxLevel, ∃ u, InCube x u ∧ ¬ InGrid shape u := by
  have hlt : shape i < 2 ^ logSize shape := lt_of_le_of_ne (shape_le shape i) hi
  have hn : 1 ≤ logSize shape := by
    by_contra h
    have : logSize shape = 0 := by omega
    rw [this] at hlt
    have := hs i
    omega
  have hng : ¬ InGrid shape (Function.update (fun _ => 0) i (shape i)) := by
    intro h; have := h i; simp at this
  obtain ⟨x, hx, hxu⟩ := emitted_cover shape (fun c => !(inactive c)) hn maxLevel h0
    (hc.imp id fun ⟨v, hv, h⟩ => ⟨v, hv, by simp [h]⟩)
    (Function.update (fun _ => 0) i (shape i)) (by
      intro j
      by_cases hj : j = i
      · subst hj; simp; exact ⟨by have := hs j; omega, hlt⟩
      · simp [hj]) (fun h => hng h.1)
  exact ⟨x, hx, _, hxu, hng⟩

/-- a 4×4×4 grid with one active corner cell is tiled by 7 unit cells and 7 cells of width 2. -/
example : (factoryCells (linIndex 3 ![4, 4, 4]) ![4, 4, 4] (fun c => !decide (c = ![0, 0, 0])) none).length = 14 ∧
    (21, (![1, 1, 1], 1)) ∈
      factoryCells (linIndex 3 ![4, 4, 4]) ![4, 4, 4] (fun c => !decide (c = ![0, 0, 0])) none ∧
    (42, (![2, 2, 2], 2)) ∈
      factoryCells (linIndex 3 ![4, 4, 4]) ![4, 4, 4] (fun c => !decide (c = ![0, 0, 0])) none := by
  decide +kernel

/-- the hypotheses of `C25_tiling` hold for it. -/
example : (∀ i, (![4, 4, 4] : Coord 3) i = 2 ^ logSize (![4, 4, 4] : Coord 3)) ∧
    InGrid (![4, 4, 4] : Coord 3) ![0, 0, 0] := by
  constructor
  · decide +kernel
  · unfold InGrid; decide

/-- and those of `C25_padding_refuted` for a 3×3×3 grid with an active cell; a unit cell at (2,2,3) is added. -/
example : (![3, 3, 3] : Coord 3) 0 ≠ 2 ^ logSize (![3, 3, 3] : Coord 3) ∧
    ((![2, 2, 3] : Coord 3), (1 : ℤ)) ∈ emitted ![3, 3, 3] (fun c => decide (c = ![2, 2, 2])) none := by
  constructor <;> decide +kernel

end Mandoline
