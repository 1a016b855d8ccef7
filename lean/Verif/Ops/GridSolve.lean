import Verif.Ops.MacGrid
import Verif.Cross.MeshVerts
import Mathlib.Algebra.BigOperators.Ring.Finset
import Mathlib.Algebra.Order.BigOperators.Group.Finset
import Mathlib.Tactic.Ring
import Mathlib.Tactic.Linarith
import Mathlib.Tactic.Positivity
import Mathlib.Tactic.IntervalCases

/-!
# C120: preparing the pressure system: `fix_axis_aligned_indefiniteness` and `grid_edgeratio`

src/diffgeo_utils.cpp:46-94 (`fix_axis_aligned_indefiniteness` again in examples/laplacian/setup.cpp:34-46).

A column-major `Eigen::SparseMatrix` is the list of its inner vectors; an inner vector is the ascending list of
its stored `(row, value)` entries. `phi` is a vector with one value per vertex; `levelset::fraction_inside`
(mtao core, not in the repository) is the parameter `frac`.
-/
namespace Mandoline
namespace GridSolve

/-- one inner vector: the stored entries, in ascending row order. -/
abbrev InnerVec := List (ℕ × ℚ)

/-- comparison of row numbers. -/
def rowLt (a b : ℕ) : Bool := decide (a < b)

/-- `M.pruned()` (diffgeo_utils.cpp:83): entries whose value is zero are no longer stored. -/
def prune (M : List InnerVec) : List InnerVec := M.map fun col => col.filter fun e => decide (e.2 ≠ 0)

/-- one turn of the loop over the inner vectors (diffgeo_utils.cpp:85-92); the state is the matrix and the right-hand side. -/
def fixStep (s : List InnerVec × List ℚ) (row : ℕ) : List InnerVec × List ℚ :=
  let count := (s.1.getD row []).length
  if count = 0 then
    (s.1.set row (OMap.insertNew rowLt row 1 (s.1.getD row [])), s.2.set row 0)
  else s

/-- `fix_axis_aligned_indefiniteness` (diffgeo_utils.cpp:82-94). -/
def fixIndefinite (M : List InnerVec) (rhs : List ℚ) : List InnerVec × List ℚ :=
  (List.range M.length).foldl fixStep (prune M, rhs)

/-- `p_ind` (diffgeo_utils.cpp:51-53). -/
def pInd (ni : ℕ) (i j : ℕ) : ℕ := i + j * (ni + 1)

/-- the writes of the first double loop (diffgeo_utils.cpp:70-74): place, and the value `fraction_inside` of the two reads. -/
def uWrites (ni nj : ℕ) (frac : ℚ → ℚ → ℚ) (phi : List ℚ) : List (ℕ × Option ℚ) :=
  (List.range nj).flatMap fun j => (List.range (ni + 1)).map fun i =>
    ((uInd ni i j).toNat, do return frac (← phi[pInd ni i j]?) (← phi[pInd ni i (j + 1)]?))

/-- the writes of the second double loop (diffgeo_utils.cpp:75-79). -/
def vWrites (ni nj : ℕ) (frac : ℚ → ℚ → ℚ) (phi : List ℚ) : List (ℕ × Option ℚ) :=
  (List.range (nj + 1)).flatMap fun j => (List.range ni).map fun i =>
    ((vInd ni nj i j).toNat, do return frac (← phi[pInd ni i j]?) (← phi[pInd ni (i + 1) j]?))

/-- `grid_edgeratio` (diffgeo_utils.cpp:46-81); the vector starts uninitialised (`none`), and a read of `phi` outside of the
vector leaves the written value undefined (`none`). -/
def edgeRatio (ni nj : ℕ) (frac : ℚ → ℚ → ℚ) (phi : List ℚ) : List (Option ℚ) :=
  (uWrites ni nj frac phi ++ vWrites ni nj frac phi).foldl (fun M w => M.set w.1 w.2)
    (List.replicate ((ni + 1) * nj + (nj + 1) * ni) none)

/-! ## specification -/

/-- the value of the matrix at `(r, c)`: the stored one, 0 if none is stored. -/
def entry (M : List InnerVec) (r c : ℕ) : ℚ := (OMap.find rowLt r (M.getD c [])).getD 0

/-- the inner vectors are stored in ascending row order, rows are in range: what an Eigen matrix of size `n × n` guarantees. -/
def WellFormed (M : List InnerVec) : Prop :=
  ∀ col ∈ M, OMap.Sorted rowLt col ∧ ∀ e ∈ col, e.1 < M.length

/-- every entry of column `c` is zero. -/
def ZeroColumn (M : List InnerVec) (c : ℕ) : Prop := ∀ r, entry M r c = 0

/-- `(M x)_r`. -/
def mulVec (M : List InnerVec) (x : ℕ → ℚ) (r : ℕ) : ℚ := ∑ c ∈ Finset.range M.length, entry M r c * x c

/-- `xᵀ M x`. -/
def quad (M : List InnerVec) (x : ℕ → ℚ) : ℚ := ∑ r ∈ Finset.range M.length, x r * mulVec M x r

/-- `M` is symmetric. -/
def Symmetric (M : List InnerVec) : Prop := ∀ r c, r < M.length → c < M.length → entry M r c = entry M c r

/-! ## proofs -/

theorem strictTotal_rowLt : StrictTotal rowLt := by
  refine ⟨fun a => by simp [rowLt], fun a b c h h' => ?_, fun a b => ?_⟩
  · simp only [rowLt, decide_eq_true_eq] at *; omega
  · simp only [rowLt, decide_eq_true_eq]; omega

theorem length_fixStep (s : List InnerVec × List ℚ) (r : ℕ) : (fixStep s r).1.length = s.1.length ∧ (fixStep s r).2.length = s.2.length := by
  unfold fixStep
  dsimp only
  split_ifs <;> simp

/-- the state after the first `k` turns. -/
theorem loop_state (P : List InnerVec) (rhs : List ℚ) (k : ℕ) :
    ((List.range k).foldl fixStep (P, rhs)).1.length = P.length ∧
    ((List.range k).foldl fixStep (P, rhs)).2.length = rhs.length ∧
    (∀ c, c < P.length → ((List.range k).foldl fixStep (P, rhs)).1.getD c [] =
      if c < k ∧ P.getD c [] = [] then [(c, 1)] else P.getD c []) ∧
    (∀ c, c < P.length → ((List.range k).foldl fixStep (P, rhs)).2[c]? =
      if c < k ∧ P.getD c [] = [] then rhs[c]?.map (fun _ => 0) else rhs[c]?) := by
  induction k with
  | zero => simp
  | succ k ih =>
    rw [List.range_succ, List.foldl_append]
    generalize (List.range k).foldl fixStep (P, rhs) = s at ih
    obtain ⟨h1, h2, h3, h4⟩ := ih
    simp only [List.foldl_cons, List.foldl_nil]
    refine ⟨by rw [(length_fixStep s k).1, h1], by rw [(length_fixStep s k).2, h2], fun c hc => ?_, fun c hc => ?_⟩
    · have e1 := h3 c hc
      by_cases hck : c = k
      · subst hck
        have e0 : s.1.getD c [] = P.getD c [] := by rw [e1, if_neg (by omega)]
        unfold fixStep
        by_cases hz : P.getD c [] = []
        · rw [if_pos (by rw [e0, hz]; rfl), if_pos ⟨by omega, hz⟩, List.getD_eq_getElem?_getD, List.getElem?_set, if_pos rfl,
            if_pos (by rw [h1]; exact hc), e0, hz]
          rfl
        · rw [if_neg (by rw [e0]; exact fun h => hz (List.length_eq_zero_iff.1 h)), if_neg (fun h => hz h.2), e0]
      · have : (fixStep s k).1.getD c [] = s.1.getD c [] := by
          unfold fixStep
          dsimp only
          split_ifs
          · rw [List.getD_eq_getElem?_getD, List.getElem?_set_ne (by omega), ← List.getD_eq_getElem?_getD]
          · rfl
        rw [this, e1]
        have hiff : (c < k ∧ P.getD c [] = []) ↔ (c < k + 1 ∧ P.getD c [] = []) := by
          constructor <;> rintro ⟨a, b⟩ <;> exact ⟨by omega, b⟩
        simp only [hiff]
    · have e1 := h4 c hc
      have e3 := h3 c hc
      by_cases hck : c = k
      · subst hck
        have e0 : s.1.getD c [] = P.getD c [] := by rw [e3, if_neg (by omega)]
        have e2 : s.2[c]? = rhs[c]? := by rw [e1, if_neg (by omega)]
        unfold fixStep
        by_cases hz : P.getD c [] = []
        · rw [if_pos (by rw [e0, hz]; rfl), if_pos ⟨by omega, hz⟩, List.getElem?_set, if_pos rfl, h2]
          by_cases hl : c < rhs.length
          · rw [if_pos hl, List.getElem?_eq_getElem hl]; rfl
          · rw [if_neg hl, List.getElem?_eq_none (by omega)]; rfl
        · rw [if_neg (by rw [e0]; exact fun h => hz (List.length_eq_zero_iff.1 h)), if_neg (fun h => hz h.2), e2]
      · have : (fixStep s k).2[c]? = s.2[c]? := by
          unfold fixStep
          dsimp only
          split_ifs
          · rw [List.getElem?_set_ne (by omega)]
          · rfl
        rw [this, e1]
        have hiff : (c < k ∧ P.getD c [] = []) ↔ (c < k + 1 ∧ P.getD c [] = []) := by
          constructor <;> rintro ⟨a, b⟩ <;> exact ⟨by omega, b⟩
        simp only [hiff]

theorem prune_getD (M : List InnerVec) (c : ℕ) : (prune M).getD c [] = (M.getD c []).filter fun e => decide (e.2 ≠ 0) := by
  unfold prune
  rw [List.getD_eq_getElem?_getD, List.getD_eq_getElem?_getD, List.getElem?_map]
  cases M[c]? <;> rfl

theorem sorted_getD {M : List InnerVec} (h : WellFormed M) (c : ℕ) : OMap.Sorted rowLt (M.getD c []) := by
  rw [List.getD_eq_getElem?_getD]
  cases hc : M[c]? with
  | none => exact OMap.sorted_nil
  | some col => exact (h col (List.mem_of_getElem? hc)).1

theorem find_prune {col : InnerVec} (hs : OMap.Sorted rowLt col) (r : ℕ) :
    (OMap.find rowLt r (col.filter fun e => decide (e.2 ≠ 0))).getD 0 = (OMap.find rowLt r col).getD 0 := by
  have hs' : OMap.Sorted rowLt (col.filter fun e => decide (e.2 ≠ 0)) := hs.filter _
  cases hf : OMap.find rowLt r col with
  | none =>
    have : OMap.find rowLt r (col.filter fun e => decide (e.2 ≠ 0)) = none := by
      rw [OMap.find_none_iff strictTotal_rowLt hs'] at *
      rw [OMap.find_none_iff strictTotal_rowLt hs] at hf
      intro p hp
      exact hf p (List.mem_of_mem_filter hp)
    rw [this]
  | some v =>
    have hm := OMap.mem_of_find strictTotal_rowLt hf
    by_cases hv : v = 0
    · subst hv
      cases hf' : OMap.find rowLt r (col.filter fun e => decide (e.2 ≠ 0)) with
      | none => rfl
      | some w =>
        have hw := OMap.mem_of_find strictTotal_rowLt hf'
        have := OMap.sorted_unique strictTotal_rowLt hs (List.mem_of_mem_filter hw) hm
        simp [this]
    · have : (r, v) ∈ col.filter fun e => decide (e.2 ≠ 0) := List.mem_filter.2 ⟨hm, by simpa using hv⟩
      rw [OMap.find_of_mem strictTotal_rowLt hs' this]

theorem zeroColumn_iff {M : List InnerVec} (h : WellFormed M) (c : ℕ) : (prune M).getD c [] = [] ↔ ZeroColumn M c := by
  rw [prune_getD]
  have hs := sorted_getD h c
  constructor
  · intro he r
    unfold entry
    rw [← find_prune hs, he]; rfl
  · intro hz
    rw [List.filter_eq_nil_iff]
    rintro ⟨r, v⟩ hm
    have := hz r
    unfold entry at this
    rw [OMap.find_of_mem strictTotal_rowLt hs hm] at this
    simpa using this

theorem fix_length (M : List InnerVec) (rhs : List ℚ) : (fixIndefinite M rhs).1.length = M.length ∧
    (fixIndefinite M rhs).2.length = rhs.length := by
  unfold fixIndefinite
  obtain ⟨a, b, _⟩ := loop_state (prune M) rhs M.length
  exact ⟨by rw [a]; simp [prune], b⟩

open Classical in
/-- **C120** entry by entry: a column that is entirely zero (stored zeros included) receives a one on the diagonal and a zero on
the right-hand side; every other column and every other component of the right-hand side keeps its value. -/
theorem C120_fix_entries (M : List InnerVec) (rhs : List ℚ) (hM : WellFormed M) (hr : rhs.length = M.length) :
    (fixIndefinite M rhs).1.length = M.length ∧ (fixIndefinite M rhs).2.length = M.length ∧
    ∀ c, c < M.length →
      (∀ r, entry (fixIndefinite M rhs).1 r c = if ZeroColumn M c then (if r = c then 1 else 0) else entry M r c) ∧
      (fixIndefinite M rhs).2[c]? = if ZeroColumn M c then some 0 else rhs[c]? := by
  refine ⟨(fix_length M rhs).1, by rw [(fix_length M rhs).2, hr], fun c hc => ?_⟩
  have hpl : (prune M).length = M.length := by simp [prune]
  obtain ⟨_, _, h3, h4⟩ := loop_state (prune M) rhs M.length
  have e3 := h3 c (by rw [hpl]; exact hc)
  have e4 := h4 c (by rw [hpl]; exact hc)
  simp only [hc, true_and, zeroColumn_iff hM] at e3 e4
  constructor
  · intro r
    unfold entry fixIndefinite
    rw [e3]
    by_cases hz : ZeroColumn M c
    · rw [if_pos hz, if_pos hz]
      simp only [OMap.find, rowLt, decide_eq_true_eq]
      split_ifs with h1 h2 h3 <;> first | rfl | omega
    · rw [if_neg hz, if_neg hz, prune_getD, find_prune (sorted_getD hM c)]
  · unfold fixIndefinite
    rw [e4]
    by_cases hz : ZeroColumn M c
    · rw [if_pos hz, if_pos hz, List.getElem?_eq_getElem (by omega)]; rfl
    · rw [if_neg hz, if_neg hz]

/-- the fixed matrix is stored in order and in range again. -/
theorem fix_wellFormed (M : List InnerVec) (rhs : List ℚ) (hM : WellFormed M) : WellFormed (fixIndefinite M rhs).1 := by
  intro col hcol
  obtain ⟨c, hc, rfl⟩ := List.getElem_of_mem hcol
  have hc' : c < M.length := by rw [(fix_length M rhs).1] at hc; exact hc
  have hpl : (prune M).length = M.length := by simp [prune]
  obtain ⟨_, _, h3, _⟩ := loop_state (prune M) rhs M.length
  have e3 := h3 c (by rw [hpl]; exact hc')
  have e : (fixIndefinite M rhs).1[c] = (fixIndefinite M rhs).1.getD c [] := by
    rw [List.getD_eq_getElem?_getD, List.getElem?_eq_getElem hc]; rfl
  rw [e, (fix_length M rhs).1]
  have : (fixIndefinite M rhs).1.getD c [] = if c < M.length ∧ (prune M).getD c [] = [] then [(c, 1)] else (prune M).getD c [] := e3
  rw [this]
  split_ifs with h
  · exact ⟨List.pairwise_singleton _ _, by simp [hc']⟩
  · rw [prune_getD]
    refine ⟨(sorted_getD hM c).filter _, fun e he => ?_⟩
    have hm := List.mem_of_mem_filter he
    rw [List.getD_eq_getElem?_getD, List.getElem?_eq_getElem hc'] at hm
    exact (hM _ (List.getElem_mem hc')).2 e hm

open Classical in
theorem mulVec_fix (M : List InnerVec) (rhs : List ℚ) (hM : WellFormed M) (hr : rhs.length = M.length) (x : ℕ → ℚ) (r : ℕ)
    (hrl : r < M.length) :
    mulVec (fixIndefinite M rhs).1 x r = mulVec M x r + if ZeroColumn M r then x r else 0 := by
  obtain ⟨hl, _, he⟩ := C120_fix_entries M rhs hM hr
  unfold mulVec
  rw [hl]
  have : ∀ c ∈ Finset.range M.length, entry (fixIndefinite M rhs).1 r c * x c =
      entry M r c * x c + if c = r then (if ZeroColumn M r then x r else 0) else 0 := by
    intro c hc
    rw [(he c (Finset.mem_range.1 hc)).1 r]
    by_cases hz : ZeroColumn M c
    · rw [if_pos hz, hz r]
      by_cases hrc : r = c
      · subst hrc; simp [hz]
      · rw [if_neg hrc, if_neg (fun h => hrc h.symm)]; ring
    · rw [if_neg hz]
      by_cases hrc : c = r
      · subst hrc; simp [hz]
      · rw [if_neg hrc]; ring
  rw [Finset.sum_congr rfl this, Finset.sum_add_distrib, Finset.sum_ite_eq' (Finset.range M.length) r, if_pos (Finset.mem_range.2 hrl)]

open Classical in
/-- **C120** the energy `xᵀ M x` grows by the squares of the unknowns with an empty column, and by nothing else. -/
theorem C120_energy (M : List InnerVec) (rhs : List ℚ) (hM : WellFormed M) (hr : rhs.length = M.length) (x : ℕ → ℚ) :
    quad (fixIndefinite M rhs).1 x = quad M x + ∑ r ∈ Finset.range M.length, if ZeroColumn M r then x r ^ 2 else 0 := by
  unfold quad
  rw [(fix_length M rhs).1, ← Finset.sum_add_distrib]
  refine Finset.sum_congr rfl fun r hrr => ?_
  rw [mulVec_fix M rhs hM hr x r (Finset.mem_range.1 hrr)]
  split_ifs <;> ring

/-- **C120** a positive semi-definite system stays positive semi-definite; if the unknowns with an empty column are the only
reason why it is not definite, the result is positive definite (so that the conjugate gradient solver applies). -/
theorem C120_definite (M : List InnerVec) (rhs : List ℚ) (hM : WellFormed M) (hr : rhs.length = M.length)
    (hpsd : ∀ x, 0 ≤ quad M x) :
    (∀ x, 0 ≤ quad (fixIndefinite M rhs).1 x) ∧
    ((∀ x, quad M x = 0 → ∀ r, r < M.length → ¬ ZeroColumn M r → x r = 0) →
      ∀ x, (∃ r, r < M.length ∧ x r ≠ 0) → 0 < quad (fixIndefinite M rhs).1 x) := by
  classical
  have hnn : ∀ x : ℕ → ℚ, 0 ≤ ∑ r ∈ Finset.range M.length, if ZeroColumn M r then x r ^ 2 else 0 := fun x =>
    Finset.sum_nonneg fun r _ => by split_ifs <;> positivity
  refine ⟨fun x => ?_, fun hk x hx => ?_⟩
  · rw [C120_energy M rhs hM hr]; have := hpsd x; have := hnn x; linarith
  · rw [C120_energy M rhs hM hr]
    obtain ⟨r, hrl, hxr⟩ := hx
    rcases (hpsd x).lt_or_eq with h | h
    · have := hnn x; linarith
    · have hz : ZeroColumn M r := by
        by_contra hz
        exact hxr (hk x h.symm r hrl hz)
      rw [← h, zero_add]
      refine Finset.sum_pos' (fun r _ => by split_ifs <;> positivity) ⟨r, Finset.mem_range.2 hrl, ?_⟩
      rw [if_pos hz]; positivity

/-- **C120** for a symmetric matrix the fixed system says: the old equations of all non-empty rows, and zero for the unknowns of
the empty ones. -/
theorem C120_solutions (M : List InnerVec) (rhs : List ℚ) (hM : WellFormed M) (hr : rhs.length = M.length) (hs : Symmetric M)
    (x : ℕ → ℚ) :
    (∀ r, r < M.length → mulVec (fixIndefinite M rhs).1 x r = (fixIndefinite M rhs).2.getD r 0) ↔
      (∀ r, r < M.length → ¬ ZeroColumn M r → mulVec M x r = rhs.getD r 0) ∧ ∀ r, r < M.length → ZeroColumn M r → x r = 0 := by
  classical
  obtain ⟨_, _, he⟩ := C120_fix_entries M rhs hM hr
  have key : ∀ r, r < M.length → (mulVec (fixIndefinite M rhs).1 x r = (fixIndefinite M rhs).2.getD r 0 ↔
      if ZeroColumn M r then x r = 0 else mulVec M x r = rhs.getD r 0) := by
    intro r hrl
    rw [mulVec_fix M rhs hM hr x r hrl, List.getD_eq_getElem?_getD, (he r hrl).2]
    by_cases hz : ZeroColumn M r
    · rw [if_pos hz, if_pos hz, if_pos hz]
      have : mulVec M x r = 0 := by
        unfold mulVec
        refine Finset.sum_eq_zero fun c hc => ?_
        rw [hs r c hrl (Finset.mem_range.1 hc), hz c, zero_mul]
      rw [this, zero_add]; rfl
    · rw [if_neg hz, if_neg hz, if_neg hz, add_zero, List.getD_eq_getElem?_getD]
  constructor
  · intro h
    refine ⟨fun r hrl hz => ?_, fun r hrl hz => ?_⟩
    · have := (key r hrl).1 (h r hrl); rwa [if_neg hz] at this
    · have := (key r hrl).1 (h r hrl); rwa [if_pos hz] at this
  · rintro ⟨h1, h2⟩ r hrl
    rw [key r hrl]
    split_ifs with hz
    · exact h2 r hrl hz
    · exact h1 r hrl hz

/-- **C120** the fixed matrix has no empty column, so that a second application changes no value. -/
theorem C120_idempotent (M : List InnerVec) (rhs : List ℚ) (hM : WellFormed M) (hr : rhs.length = M.length) :
    (∀ c, c < M.length → ¬ ZeroColumn (fixIndefinite M rhs).1 c) ∧
    (∀ r c, c < M.length → entry (fixIndefinite (fixIndefinite M rhs).1 (fixIndefinite M rhs).2).1 r c = entry (fixIndefinite M rhs).1 r c) ∧
    ∀ c, c < M.length → (fixIndefinite (fixIndefinite M rhs).1 (fixIndefinite M rhs).2).2[c]? = (fixIndefinite M rhs).2[c]? := by
  classical
  obtain ⟨h1, h2, he⟩ := C120_fix_entries M rhs hM hr
  have hnz : ∀ c, c < M.length → ¬ ZeroColumn (fixIndefinite M rhs).1 c := by
    intro c hc hz
    by_cases hzc : ZeroColumn M c
    · have := hz c
      rw [(he c hc).1 c, if_pos hzc, if_pos rfl] at this
      exact one_ne_zero this
    · apply hzc
      intro r
      have := hz r
      rwa [(he c hc).1 r, if_neg hzc] at this
  obtain ⟨_, _, he'⟩ := C120_fix_entries (fixIndefinite M rhs).1 (fixIndefinite M rhs).2 (fix_wellFormed M rhs hM) (by rw [h1, h2])
  refine ⟨hnz, fun r c hc => ?_, fun c hc => ?_⟩
  · rw [(he' c (by rw [h1]; exact hc)).1 r, if_neg (hnz c hc)]
  · rw [(he' c (by rw [h1]; exact hc)).2, if_neg (hnz c hc)]

/-- a 3-unknown Laplacian whose last unknown is untouched (its diagonal is a stored zero): the hypotheses hold, the last column is fixed. -/
def demo : List InnerVec := [[(0, 1), (1, -1)], [(0, -1), (1, 1)], [(2, 0)]]

theorem demo_wf : WellFormed demo := by
  intro col hcol
  fin_cases hcol <;> exact ⟨by unfold OMap.Sorted; decide, by decide⟩

theorem demo_sym : Symmetric demo := by
  intro r c hr hc
  change r < 3 at hr
  change c < 3 at hc
  interval_cases r <;> interval_cases c <;> rfl

example : fixIndefinite demo [5, -5, 7] = ([[(0, 1), (1, -1)], [(0, -1), (1, 1)], [(2, 1)]], [5, -5, 0]) := by decide +kernel

example : ∀ x, 0 ≤ quad demo x := by
  intro x
  have : quad demo x = (x 0 - x 1) ^ 2 := by
    unfold quad mulVec
    simp only [demo, List.length_cons, List.length_nil, Finset.sum_range_succ, Finset.sum_range_zero]
    have : entry demo 0 0 = 1 ∧ entry demo 0 1 = -1 ∧ entry demo 0 2 = 0 ∧ entry demo 1 0 = -1 ∧ entry demo 1 1 = 1 ∧ entry demo 1 2 = 0 ∧
      entry demo 2 0 = 0 ∧ entry demo 2 1 = 0 ∧ entry demo 2 2 = 0 := by decide +kernel
    unfold demo at this
    obtain ⟨a, b, c, d, e, f, g, h, i⟩ := this
    simp only [zero_add, a, b, c, d, e, f, g, h, i]
    ring
  rw [this]; positivity

/-- **C120, limit** only the columns are examined. In a matrix that is not symmetric an unknown with an empty column whose row is
not empty is not set to zero: here `x = (-1, 1)` is the only solution of the fixed system. -/
theorem C120_column_only_refuted :
    ∃ (M : List InnerVec) (rhs : List ℚ), WellFormed M ∧ rhs.length = M.length ∧ ZeroColumn M 0 ∧
      ∀ x : ℕ → ℚ, (∀ r, r < M.length → mulVec (fixIndefinite M rhs).1 x r = (fixIndefinite M rhs).2.getD r 0) ↔ x 0 = -1 ∧ x 1 = 1 := by
  refine ⟨[[], [(0, 1), (1, 1)]], [1, 1], ?_, rfl, ?_, fun x => ?_⟩
  · intro col hcol
    fin_cases hcol <;> exact ⟨by unfold OMap.Sorted; decide, by decide⟩
  · intro r; rfl
  · have e : fixIndefinite [[], [(0, 1), (1, 1)]] [1, 1] = ([[(0, 1)], [(0, 1), (1, 1)]], [0, 1]) := by decide +kernel
    rw [e]
    have m0 : mulVec [[(0, 1)], [(0, 1), (1, 1)]] x 0 = x 0 + x 1 := by
      have : entry [[(0, 1)], [(0, 1), (1, 1)]] 0 0 = 1 ∧ entry [[(0, 1)], [(0, 1), (1, 1)]] 0 1 = 1 := by decide +kernel
      simp [mulVec, Finset.sum_range_succ, this.1, this.2]
    have m1 : mulVec [[(0, 1)], [(0, 1), (1, 1)]] x 1 = x 1 := by
      have : entry [[(0, 1)], [(0, 1), (1, 1)]] 1 0 = 0 ∧ entry [[(0, 1)], [(0, 1), (1, 1)]] 1 1 = 1 := by decide +kernel
      simp [mulVec, Finset.sum_range_succ, this.1, this.2]
    constructor
    · intro h
      have h0 := h 0 (by decide)
      have h1 := h 1 (by decide)
      rw [m0] at h0; rw [m1] at h1
      simp at h0 h1
      exact ⟨by linarith, h1⟩
    · rintro ⟨h0, h1⟩ r hr
      change r < 2 at hr
      interval_cases r
      · rw [m0, h0, h1]; simp
      · rw [m1, h1]; rfl

/-! ### `grid_edgeratio` -/

theorem pInd_lt {ni nj i j : ℕ} (hi : i ≤ ni) (hj : j ≤ nj) : pInd ni i j < (ni + 1) * (nj + 1) := by
  unfold pInd
  have : j * (ni + 1) ≤ nj * (ni + 1) := Nat.mul_le_mul_right _ hj
  have e : (ni + 1) * (nj + 1) = nj * (ni + 1) + (ni + 1) := by ring
  omega

theorem mem_writes {ni nj : ℕ} {frac : ℚ → ℚ → ℚ} {phi : List ℚ} {w : ℕ × Option ℚ}
    (h : w ∈ uWrites ni nj frac phi ++ vWrites ni nj frac phi) :
    (∃ i j, i ≤ ni ∧ j < nj ∧ w = ((uInd ni i j).toNat, do return frac (← phi[pInd ni i j]?) (← phi[pInd ni i (j + 1)]?))) ∨
    (∃ i j, i < ni ∧ j ≤ nj ∧ w = ((vInd ni nj i j).toNat, do return frac (← phi[pInd ni i j]?) (← phi[pInd ni (i + 1) j]?))) := by
  rcases List.mem_append.1 h with h | h
  · obtain ⟨j, hj, h⟩ := List.mem_flatMap.1 h
    obtain ⟨i, hi, rfl⟩ := List.mem_map.1 h
    rw [List.mem_range] at hi hj
    exact Or.inl ⟨i, j, by omega, hj, rfl⟩
  · obtain ⟨j, hj, h⟩ := List.mem_flatMap.1 h
    obtain ⟨i, hi, rfl⟩ := List.mem_map.1 h
    rw [List.mem_range] at hi hj
    exact Or.inr ⟨i, j, hi, by omega, rfl⟩

theorem mem_uWrites {ni nj i j : ℕ} (frac : ℚ → ℚ → ℚ) (phi : List ℚ) (hi : i ≤ ni) (hj : j < nj) :
    ((uInd ni i j).toNat, do return frac (← phi[pInd ni i j]?) (← phi[pInd ni i (j + 1)]?)) ∈ uWrites ni nj frac phi ++ vWrites ni nj frac phi :=
  List.mem_append_left _ (List.mem_flatMap.2 ⟨j, List.mem_range.2 hj, List.mem_map.2 ⟨i, List.mem_range.2 (by omega), rfl⟩⟩)

theorem mem_vWrites {ni nj i j : ℕ} (frac : ℚ → ℚ → ℚ) (phi : List ℚ) (hi : i < ni) (hj : j ≤ nj) :
    ((vInd ni nj i j).toNat, do return frac (← phi[pInd ni i j]?) (← phi[pInd ni (i + 1) j]?)) ∈ uWrites ni nj frac phi ++ vWrites ni nj frac phi :=
  List.mem_append_right _ (List.mem_flatMap.2 ⟨j, List.mem_range.2 (by omega), List.mem_map.2 ⟨i, List.mem_range.2 hi, rfl⟩⟩)

theorem uInd_nonneg (ni i j : ℕ) : 0 ≤ uInd ni i j := by unfold uInd; positivity

theorem vInd_nonneg (ni nj i j : ℕ) : 0 ≤ vInd ni nj i j := by unfold vInd; positivity

theorem vInd_lt {ni nj i j : ℕ} (hi : i < ni) (hj : j ≤ nj) : vInd ni nj i j < (ni + 1) * nj + (nj + 1) * ni := by
  unfold vInd
  have : (j : ℤ) * ni ≤ nj * ni := mul_le_mul_of_nonneg_right (by exact_mod_cast hj) (by positivity)
  have h2 : (i : ℤ) < ni := by exact_mod_cast hi
  nlinarith

theorem write_unique {ni nj : ℕ} {frac : ℚ → ℚ → ℚ} {phi : List ℚ} {w w' : ℕ × Option ℚ}
    (h : w ∈ uWrites ni nj frac phi ++ vWrites ni nj frac phi) (h' : w' ∈ uWrites ni nj frac phi ++ vWrites ni nj frac phi)
    (e : w.1 = w'.1) : w = w' := by
  have cast : ∀ a b : ℤ, 0 ≤ a → 0 ≤ b → a.toNat = b.toNat → a = b := by intro a b; omega
  rcases mem_writes h with ⟨i, j, hi, hj, rfl⟩ | ⟨i, j, hi, hj, rfl⟩ <;>
    rcases mem_writes h' with ⟨i', j', hi', hj', rfl⟩ | ⟨i', j', hi', hj', rfl⟩
  · obtain ⟨rfl, rfl⟩ := uInd_inj hi hi' (cast _ _ (uInd_nonneg ..) (uInd_nonneg ..) e); rfl
  · exact absurd (cast _ _ (uInd_nonneg ..) (vInd_nonneg ..) e) (uInd_ne_vInd hi hj)
  · exact absurd (cast _ _ (uInd_nonneg ..) (vInd_nonneg ..) e.symm) (uInd_ne_vInd hi' hj')
  · obtain ⟨rfl, rfl⟩ := vInd_inj hi hi' (cast _ _ (vInd_nonneg ..) (vInd_nonneg ..) e); rfl

theorem edgeRatio_of_write {ni nj : ℕ} {frac : ℚ → ℚ → ℚ} {phi : List ℚ} {w : ℕ × Option ℚ}
    (h : w ∈ uWrites ni nj frac phi ++ vWrites ni nj frac phi) (hl : w.1 < (ni + 1) * nj + (nj + 1) * ni) :
    (edgeRatio ni nj frac phi)[w.1]? = some w.2 := by
  have := foldl_set_spec (fun _ : ℕ × Option ℚ => True) (fun w => w.1) (fun w => w.2) (uWrites ni nj frac phi ++ vWrites ni nj frac phi)
    (List.replicate ((ni + 1) * nj + (nj + 1) * ni) none) w.1 (by rw [List.length_replicate]; exact hl)
  simp only [if_true] at this
  rcases this with ⟨c, hc, _, e, hv⟩ | ⟨hno, _⟩
  · unfold edgeRatio
    rw [hv, write_unique hc h e]
  · exact absurd rfl (hno w h trivial)

theorem edgeRatio_length (ni nj : ℕ) (frac : ℚ → ℚ → ℚ) (phi : List ℚ) :
    (edgeRatio ni nj frac phi).length = (ni + 1) * nj + (nj + 1) * ni := by
  unfold edgeRatio
  have : ∀ (l : List (ℕ × Option ℚ)) (m : List (Option ℚ)), (l.foldl (fun M w => M.set w.1 w.2) m).length = m.length := by
    intro l
    induction l with
    | nil => intro m; rfl
    | cons a l ih => intro m; rw [List.foldl_cons, ih]; simp
  rw [this, List.length_replicate]

/-- **C120** `grid_edgeratio`: with one value per vertex of the `ni × nj` grid (first axis fastest), the entry of every face, in the
numbering of the divergence stencil (C48), is `fraction_inside` of the values at the two end vertices of that face, the lower
vertex first; every entry is written, and no vertex outside of the grid is read. -/
theorem C120_edge_ratio (ni nj : ℕ) (frac : ℚ → ℚ → ℚ) (φ : ℕ → ℕ → ℚ) (phi : List ℚ)
    (hphi : ∀ i j, i ≤ ni → j ≤ nj → phi[i + j * (ni + 1)]? = some (φ i j)) :
    (edgeRatio ni nj frac phi).length = (ni + 1) * nj + ni * (nj + 1) ∧
    (∀ i j, i ≤ ni → j < nj → (edgeRatio ni nj frac phi)[(uInd ni i j).toNat]? = some (some (frac (φ i j) (φ i (j + 1))))) ∧
    (∀ i j, i < ni → j ≤ nj → (edgeRatio ni nj frac phi)[(vInd ni nj i j).toNat]? = some (some (frac (φ i j) (φ (i + 1) j)))) ∧
    ∀ k, k < (ni + 1) * nj + ni * (nj + 1) → ∃ v, (edgeRatio ni nj frac phi)[k]? = some (some v) := by
  have hu : ∀ i j, i ≤ ni → j < nj → (edgeRatio ni nj frac phi)[(uInd ni i j).toNat]? = some (some (frac (φ i j) (φ i (j + 1)))) := by
    intro i j hi hj
    rw [edgeRatio_of_write (mem_uWrites frac phi hi hj)
      (by have := uInd_lt (ni := ni) (nj := nj) hi hj; have := uInd_nonneg ni i j; dsimp only; zify; rw [Int.toNat_of_nonneg (by omega)]; nlinarith)]
    unfold pInd
    rw [hphi i j hi (by omega), hphi i (j + 1) hi hj]
    rfl
  have hv : ∀ i j, i < ni → j ≤ nj → (edgeRatio ni nj frac phi)[(vInd ni nj i j).toNat]? = some (some (frac (φ i j) (φ (i + 1) j))) := by
    intro i j hi hj
    rw [edgeRatio_of_write (mem_vWrites frac phi hi hj)
      (by have := vInd_lt (ni := ni) (nj := nj) hi hj; have := vInd_nonneg ni nj i j; dsimp only; zify; rw [Int.toNat_of_nonneg (by omega)]; nlinarith)]
    unfold pInd
    rw [hphi i j (by omega) hj, hphi (i + 1) j hi hj]
    rfl
  refine ⟨by rw [edgeRatio_length]; ring, hu, hv, fun k hk => ?_⟩
  obtain ⟨_, _, _, h4, h5⟩ := C48_face_numbering ni nj
  by_cases h : k < (ni + 1) * nj
  · obtain ⟨i, j, hi, hj, e⟩ := h4 k h
    have := hu i j hi hj
    rw [e, Int.toNat_natCast] at this
    exact ⟨_, this⟩
  · obtain ⟨i, j, hi, hj, e⟩ := h5 k (by omega) hk
    have := hv i j hi hj
    rw [e, Int.toNat_natCast] at this
    exact ⟨_, this⟩

/-- on a 2×1 grid: seven faces, all with the difference of their end values here. -/
example : edgeRatio 2 1 (fun a b => b - a) [0, 1, 3, 10, 20, 40] =
    [some 10, some 19, some 37, some 1, some 2, some 10, some 20] := by decide +kernel

end GridSolve
end Mandoline
