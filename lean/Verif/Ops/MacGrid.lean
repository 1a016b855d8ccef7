import Verif.Exterior.Boundary
import Mathlib.Data.List.Range
import Mathlib.Data.List.Nodup
import Mathlib.Tactic.FieldSimp

/-!
# C48: the MAC-grid divergence stencil `grid_boundary(ni, nj, dirichlet)` (src/diffgeo_utils.cpp:7-45)

Rows are faces (first the `(ni+1)·nj` u-faces, then the `ni·(nj+1)` v-faces), columns are cells.
-/
namespace Mandoline

/-- `u_ind` (diffgeo_utils.cpp:12-14). -/
def uInd (ni : ℕ) (i j : ℕ) : ℤ := i + j * (ni + 1)

/-- `v_ind` (diffgeo_utils.cpp:16-18). -/
def vInd (ni nj : ℕ) (i j : ℕ) : ℤ := i + j * ni + (ni + 1) * nj

/-- `index` (diffgeo_utils.cpp:26). -/
def macCell (ni : ℕ) (i j : ℕ) : ℤ := i + ni * j

/-- the triplets of one cell (diffgeo_utils.cpp:26-40). Line 38 tests `j == ni - 1`. -/
def macTriplets (ni nj : ℕ) (dirichlet : Bool) (p : ℕ × ℕ) : List Triplet :=
  (if !(dirichlet && decide (p.1 = 0)) then [(uInd ni p.1 p.2, macCell ni p.1 p.2, 1)] else []) ++
  (if !(dirichlet && decide ((p.1 : ℤ) = ni - 1)) then [(uInd ni (p.1 + 1) p.2, macCell ni p.1 p.2, -1)] else []) ++
  (if !(dirichlet && decide (p.2 = 0)) then [(vInd ni nj p.1 p.2, macCell ni p.1 p.2, 1)] else []) ++
  (if !(dirichlet && decide ((p.2 : ℤ) = ni - 1)) then [(vInd ni nj p.1 (p.2 + 1), macCell ni p.1 p.2, -1)] else [])

/-- the cells in visiting order (diffgeo_utils.cpp:24-25). -/
def macCells (ni nj : ℕ) : List (ℕ × ℕ) := (List.range nj).flatMap fun j => (List.range ni).map fun i => (i, j)

/-- `grid_boundary` (diffgeo_utils.cpp:7-45). -/
def gridBoundary (ni nj : ℕ) (dirichlet : Bool) : List Triplet := (macCells ni nj).flatMap (macTriplets ni nj dirichlet)

/-- entry of the transposed product: `Dᵀ x` at column `c`. -/
def colDot (t : List Triplet) (x : ℤ → ℚ) (c : ℤ) : ℚ := ((t.filter fun e => decide (e.2.1 = c)).map fun e => e.2.2 * x e.1).sum

theorem mem_macCells (ni nj : ℕ) (p : ℕ × ℕ) : p ∈ macCells ni nj ↔ p.1 < ni ∧ p.2 < nj := by
  simp only [macCells, List.mem_flatMap, List.mem_map, List.mem_range]
  constructor
  · rintro ⟨j, hj, i, hi, rfl⟩; exact ⟨hi, hj⟩
  · rintro ⟨hi, hj⟩; exact ⟨p.2, hj, p.1, hi, rfl⟩

theorem nodup_macCells (ni nj : ℕ) : (macCells ni nj).Nodup := by
  unfold macCells
  rw [List.nodup_flatMap]
  refine ⟨fun j _ => (List.nodup_range).map fun a b h => (Prod.mk.inj h).1, ?_⟩
  refine List.nodup_range.imp ?_
  intro a b hab
  rw [Function.onFun, List.disjoint_left]
  rintro p h1 h2
  obtain ⟨_, _, rfl⟩ := List.mem_map.1 h1
  obtain ⟨_, _, h⟩ := List.mem_map.1 h2
  exact hab (Prod.mk.inj h).2.symm

theorem macCell_inj {ni : ℕ} {i j i' j' : ℕ} (hi : i < ni) (hi' : i' < ni) (h : macCell ni i j = macCell ni i' j') :
    i = i' ∧ j = j' := by
  have h : i + ni * j = i' + ni * j' := by simp only [macCell] at h; exact_mod_cast h
  have h1 : (i + ni * j) % ni = (i' + ni * j') % ni := by rw [h]
  rw [Nat.add_mul_mod_self_left, Nat.add_mul_mod_self_left, Nat.mod_eq_of_lt hi, Nat.mod_eq_of_lt hi'] at h1
  refine ⟨h1, ?_⟩
  subst h1
  exact Nat.eq_of_mul_eq_mul_left (by omega : 0 < ni) (by omega)

theorem uInd_inj {ni : ℕ} {i j i' j' : ℕ} (hi : i ≤ ni) (hi' : i' ≤ ni) (h : uInd ni i j = uInd ni i' j') : i = i' ∧ j = j' := by
  apply macCell_inj (ni := ni + 1) (by omega) (by omega)
  simp only [uInd, macCell] at h ⊢; push_cast; rw [mul_comm ((ni : ℤ) + 1), mul_comm ((ni : ℤ) + 1)]; exact h

theorem vInd_inj {ni nj : ℕ} {i j i' j' : ℕ} (hi : i < ni) (hi' : i' < ni) (h : vInd ni nj i j = vInd ni nj i' j') :
    i = i' ∧ j = j' := by
  apply macCell_inj (ni := ni) hi hi'
  simp only [vInd, macCell] at h ⊢; rw [mul_comm (ni : ℤ), mul_comm (ni : ℤ)]; omega

theorem uInd_lt {ni nj i j : ℕ} (hi : i ≤ ni) (hj : j < nj) : uInd ni i j < (ni + 1) * nj := by
  have : (j : ℤ) + 1 ≤ nj := by exact_mod_cast hj
  have h2 : ((j : ℤ) + 1) * (ni + 1) ≤ nj * (ni + 1) := mul_le_mul_of_nonneg_right this (by positivity)
  simp only [uInd]; nlinarith [(by exact_mod_cast hi : (i : ℤ) ≤ ni)]

theorem vInd_ge (ni nj i j : ℕ) : ((ni : ℤ) + 1) * nj ≤ vInd ni nj i j := by
  simp only [vInd]; have : (0 : ℤ) ≤ (i : ℤ) + j * ni := by positivity
  linarith

theorem uInd_ne_vInd {ni nj i j i' j' : ℕ} (hi : i ≤ ni) (hj : j < nj) : uInd ni i j ≠ vInd ni nj i' j' := by
  have := uInd_lt (ni := ni) (nj := nj) hi hj
  have := vInd_ge ni nj i' j'
  omega

theorem filter_flatMap_unique {α β : Type*} (l : List α) (f : α → List β) (q : β → Bool) (a : α) (hn : l.Nodup) (ha : a ∈ l)
    (hz : ∀ b ∈ l, b ≠ a → ∀ x ∈ f b, q x = false) : (l.flatMap f).filter q = (f a).filter q := by
  induction l with
  | nil => exact absurd ha (by simp)
  | cons b l ih =>
    rw [List.flatMap_cons, List.filter_append]
    have hn' := List.nodup_cons.1 hn
    rcases List.mem_cons.1 ha with rfl | ha
    · have : (l.flatMap f).filter q = [] := by
        rw [List.filter_eq_nil_iff]
        intro x hx
        obtain ⟨b, hb, hx⟩ := List.mem_flatMap.1 hx
        rw [hz b (List.mem_cons_of_mem _ hb) (fun h => hn'.1 (h ▸ hb)) x hx]; simp
      rw [this, List.append_nil]
    · have : (f b).filter q = [] := by
        rw [List.filter_eq_nil_iff]
        intro x hx
        rw [hz b (by simp) (fun h => hn'.1 (h ▸ ha)) x hx]; simp
      rw [this, List.nil_append]
      exact ih hn'.2 ha fun c hc => hz c (List.mem_cons_of_mem _ hc)

theorem macTriplets_col (ni nj : ℕ) (d : Bool) (p : ℕ × ℕ) : ∀ x ∈ macTriplets ni nj d p, x.2.1 = macCell ni p.1 p.2 := by
  intro x hx
  simp only [macTriplets, List.mem_append] at hx
  rcases hx with ((hx | hx) | hx) | hx <;> split at hx <;> simp at hx <;> rw [hx]

theorem gridBoundary_col (ni nj : ℕ) (d : Bool) (i j : ℕ) (hi : i < ni) (hj : j < nj) :
    (gridBoundary ni nj d).filter (fun e => decide (e.2.1 = macCell ni i j)) = macTriplets ni nj d (i, j) := by
  unfold gridBoundary
  rw [filter_flatMap_unique _ _ _ (i, j) (nodup_macCells ni nj) ((mem_macCells ni nj _).2 ⟨hi, hj⟩)]
  · rw [List.filter_eq_self]; intro x hx; simpa using macTriplets_col ni nj d (i, j) x hx
  · intro b hb hne x hx
    rw [macTriplets_col ni nj d b x hx, decide_eq_false_iff_not]
    intro h
    have := macCell_inj ((mem_macCells _ _ _).1 hb).1 hi h
    exact hne (Prod.ext this.1 this.2)

/-- **C48** without boundary conditions, the transposed operator is the divergence stencil: at cell `(i,j)` it gives the
difference of the values on its two u-faces plus the difference of the values on its two v-faces. -/
theorem C48_divergence (ni nj : ℕ) (x : ℤ → ℚ) (i j : ℕ) (hi : i < ni) (hj : j < nj) :
    colDot (gridBoundary ni nj false) x (macCell ni i j) =
      x (uInd ni i j) - x (uInd ni (i + 1) j) + (x (vInd ni nj i j) - x (vInd ni nj i (j + 1))) := by
  unfold colDot
  rw [gridBoundary_col ni nj false i j hi hj]
  simp [macTriplets]; ring

/-- **C48** with Dirichlet conditions on a *square* grid, the four faces of a cell enter the stencil iff they are not on the
domain boundary. -/
theorem C48_divergence_dirichlet_square (n : ℕ) (x : ℤ → ℚ) (i j : ℕ) (hi : i < n) (hj : j < n) :
    colDot (gridBoundary n n true) x (macCell n i j) =
      (if i = 0 then 0 else x (uInd n i j)) - (if i + 1 = n then 0 else x (uInd n (i + 1) j)) +
      ((if j = 0 then 0 else x (vInd n n i j)) - (if j + 1 = n then 0 else x (vInd n n i (j + 1)))) := by
  unfold colDot
  rw [gridBoundary_col n n true i j hi hj]
  have h1 : ((i : ℤ) = n - 1) ↔ i + 1 = n := by omega
  have h2 : ((j : ℤ) = n - 1) ↔ j + 1 = n := by omega
  simp only [macTriplets, h1, h2, Bool.true_and]
  split_ifs <;> simp_all <;> ring

/-- **C48** what the code does on any grid: the upper v-face is left out exactly for cells in row `ni - 1`. -/
theorem C48_divergence_dirichlet (ni nj : ℕ) (x : ℤ → ℚ) (i j : ℕ) (hi : i < ni) (hj : j < nj) :
    colDot (gridBoundary ni nj true) x (macCell ni i j) =
      (if i = 0 then 0 else x (uInd ni i j)) - (if i + 1 = ni then 0 else x (uInd ni (i + 1) j)) +
      ((if j = 0 then 0 else x (vInd ni nj i j)) - (if j + 1 = ni then 0 else x (vInd ni nj i (j + 1)))) := by
  unfold colDot
  rw [gridBoundary_col ni nj true i j hi hj]
  have h1 : ((i : ℤ) = ni - 1) ↔ i + 1 = ni := by omega
  have h2 : ((j : ℤ) = ni - 1) ↔ j + 1 = ni := by omega
  simp only [macTriplets, h1, h2, Bool.true_and]
  split_ifs <;> simp_all <;> ring

/-- **C48** the faces are numbered without gaps or collisions: u-faces `0 .. (ni+1)nj - 1`, then v-faces. -/
theorem C48_face_numbering (ni nj : ℕ) :
    (∀ i j i' j', i ≤ ni → i' ≤ ni → uInd ni i j = uInd ni i' j' → i = i' ∧ j = j') ∧
    (∀ i j i' j', i < ni → i' < ni → vInd ni nj i j = vInd ni nj i' j' → i = i' ∧ j = j') ∧
    (∀ i j i' j', i ≤ ni → j < nj → uInd ni i j ≠ vInd ni nj i' j') ∧
    (∀ k : ℕ, k < (ni + 1) * nj → ∃ i j, i ≤ ni ∧ j < nj ∧ uInd ni i j = k) ∧
    (∀ k : ℕ, (ni + 1) * nj ≤ k → k < (ni + 1) * nj + ni * (nj + 1) → ∃ i j, i < ni ∧ j ≤ nj ∧ vInd ni nj i j = k) := by
  refine ⟨fun i j i' j' h h' => uInd_inj h h', fun i j i' j' h h' => vInd_inj h h', fun i j i' j' h h' => uInd_ne_vInd h h', ?_, ?_⟩
  · intro k hk
    refine ⟨k % (ni + 1), k / (ni + 1), by have := Nat.mod_lt k (show 0 < ni + 1 by omega); omega,
      Nat.div_lt_of_lt_mul hk, ?_⟩
    have := Nat.mod_add_div k (ni + 1)
    simp only [uInd]; rw [mul_comm]; exact_mod_cast this
  · intro k hk hk2
    obtain ⟨m, rfl⟩ := Nat.exists_eq_add_of_le hk
    have hm : m < ni * (nj + 1) := by omega
    have hni : 0 < ni := by by_contra h; have : ni = 0 := by omega
                            subst this; omega
    refine ⟨m % ni, m / ni, Nat.mod_lt _ hni, by have := Nat.div_lt_of_lt_mul hm; omega, ?_⟩
    have := Nat.mod_add_div m ni
    have h : (m % ni : ℕ) + (m / ni : ℕ) * ni = m := by rw [mul_comm]; exact this
    simp only [vInd]; push_cast; push_cast at h; linarith [(by exact_mod_cast h : ((m % ni : ℕ) : ℤ) + ((m / ni : ℕ) : ℤ) * ni = m)]

/-- **C48, defect** on a wide grid (`nj < ni`) no upper domain boundary face is removed: each still enters the stencil of
its cell. -/
theorem C48_wide_grid_refuted (ni nj : ℕ) (h : nj < ni) (h0 : 0 < nj) (i : ℕ) (hi : i < ni) :
    colDot (gridBoundary ni nj true) (fun r => if r = vInd ni nj i nj then 1 else 0) (macCell ni i (nj - 1)) = -1 := by
  obtain ⟨m, rfl⟩ : ∃ m, nj = m + 1 := ⟨nj - 1, by omega⟩
  rw [Nat.add_sub_cancel, C48_divergence_dirichlet ni (m + 1) _ i m hi (by omega)]
  have e1 : uInd ni i m ≠ vInd ni (m + 1) i (m + 1) := uInd_ne_vInd (by omega) (by omega)
  have e2 : uInd ni (i + 1) m ≠ vInd ni (m + 1) i (m + 1) := uInd_ne_vInd (by omega) (by omega)
  have e3 : vInd ni (m + 1) i m ≠ vInd ni (m + 1) i (m + 1) := fun h => by have := (vInd_inj hi hi h).2; omega
  have e4 : m + 1 ≠ ni := by omega
  simp [e1, e2, e3, e4]

/-- **C48, defect** on a tall grid (`ni < nj`) the *interior* v-faces in row `ni` enter only the cell above them, so that the
two cells sharing such a face do not exchange the same amount. -/
theorem C48_tall_grid_refuted (ni nj : ℕ) (h : ni < nj) (i : ℕ) (hi : i < ni) :
    colDot (gridBoundary ni nj true) (fun r => if r = vInd ni nj i ni then 1 else 0) (macCell ni i (ni - 1)) = 0 ∧
    colDot (gridBoundary ni nj true) (fun r => if r = vInd ni nj i ni then 1 else 0) (macCell ni i ni) = 1 := by
  obtain ⟨m, rfl⟩ : ∃ m, ni = m + 1 := ⟨ni - 1, by omega⟩
  constructor
  · rw [Nat.add_sub_cancel, C48_divergence_dirichlet _ _ _ i m hi (by omega)]
    have e1 : uInd (m + 1) i m ≠ vInd (m + 1) nj i (m + 1) := uInd_ne_vInd (by omega) (by omega)
    have e2 : uInd (m + 1) (i + 1) m ≠ vInd (m + 1) nj i (m + 1) := uInd_ne_vInd (by omega) (by omega)
    have e3 : vInd (m + 1) nj i m ≠ vInd (m + 1) nj i (m + 1) := fun h => by have := (vInd_inj hi hi h).2; omega
    simp [e1, e2, e3]
  · rw [C48_divergence_dirichlet _ _ _ i (m + 1) hi (by omega)]
    have e1 : uInd (m + 1) i (m + 1) ≠ vInd (m + 1) nj i (m + 1) := uInd_ne_vInd (by omega) (by omega)
    have e2 : uInd (m + 1) (i + 1) (m + 1) ≠ vInd (m + 1) nj i (m + 1) := uInd_ne_vInd (by omega) (by omega)
    have e3 : vInd (m + 1) nj i (m + 1 + 1) ≠ vInd (m + 1) nj i (m + 1) := fun h => by have := (vInd_inj hi hi h).2; omega
    simp [e1, e2, e3]

example : (gridBoundary 2 2 true).length = 8 ∧ (gridBoundary 2 3 false).length = 24 := by decide +kernel
example : colDot (gridBoundary 3 3 true) (fun r => r) (macCell 3 1 1) = (5 : ℚ) - 6 + (16 - 19) := by decide +kernel

end Mandoline
