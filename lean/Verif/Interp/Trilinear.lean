import Verif.Ops.Incidence
import Verif.Core.GridIndex
import Mathlib.Algebra.BigOperators.Fin
import Mathlib.Algebra.BigOperators.Ring.List
import Mathlib.Algebra.Order.BigOperators.Ring.Finset
import Mathlib.Tactic.LinearCombination

/-!
# C32: multilinear interpolation from grid vertices

Transcription of `trilinear_matrix` (src/operators/interpolation2.cpp:58-84, src/operators/interpolation3.cpp:56-86).
-/
namespace Mandoline
open Finset
variable {D : ℕ}

/-- the values `(i,j)` / `(i,j,k)` taken by the nested loops `for i<2 for j<2 (for k<2)`, in loop order
(interpolation2.cpp:72-80, interpolation3.cpp:70-82). -/
def cornerOffsets : (D : ℕ) → List (Coord D)
  | 0 => [fun i => i.elim0]
  | n + 1 => [(0 : ℤ), 1].flatMap fun i => (cornerOffsets n).map fun r => Fin.cons i r

/-- one factor of the weight: `i == 0 ? (1 - v.quot(0)) : v.quot(0)` (interpolation2.cpp:74,77). -/
def cornerFactor (q : ℚ) (i : ℤ) : ℚ := if i = 0 then 1 - q else q

/-- `vij` / `vijk`: the product of the factors. -/
def cornerWeight (q : Fin D → ℚ) (b : Coord D) : ℚ := ∏ i, cornerFactor (q i) (b i)

/-- the triplets of one cut vertex in row `index` (interpolation2.cpp:70-80); `vidx` is `ccm.vertex_index`. -/
def cornerTriplets (vidx : Coord D → ℤ) (index : ℤ) (v : Vertex D) : List Triplet :=
  (cornerOffsets D).map fun b => (index, vidx (fun i => v.coord i + b i), cornerWeight v.quot b)

/-- `trilinear_matrix(ccm)` (interpolation2.cpp:58-84, interpolation3.cpp:56-86): the list handed to
`setFromTriplets`. `n` is `StaggeredGrid::vertex_size()`, `vs` are `ccm.cut_vertices()`. -/
def trilinearMatrix (n : ℕ) (vidx : Coord D → ℤ) (vs : List (Vertex D)) : List Triplet :=
  (List.range n).map (fun (i : ℕ) => ((i : ℤ), (i : ℤ), (1 : ℚ))) ++
    vs.zipIdx.flatMap fun p => cornerTriplets vidx (p.2 + n) p.1

/-! ## the weights -/

theorem sum_cornerOffsets_succ (n : ℕ) (f : Coord (n + 1) → ℚ) :
    ((cornerOffsets (n + 1)).map f).sum =
      ((cornerOffsets n).map fun r => f (Fin.cons 0 r)).sum + ((cornerOffsets n).map fun r => f (Fin.cons 1 r)).sum := by
  simp [cornerOffsets, List.map_map, Function.comp_def]

theorem cornerWeight_cons {n : ℕ} (q : Fin (n + 1) → ℚ) (i : ℤ) (r : Coord n) :
    cornerWeight q (Fin.cons i r) = cornerFactor (q 0) i * cornerWeight (fun k => q k.succ) r := by
  simp [cornerWeight, Fin.prod_univ_succ]

theorem sum_cornerWeight : ∀ (D : ℕ) (q : Fin D → ℚ), ((cornerOffsets D).map (cornerWeight q)).sum = 1
  | 0, q => by simp [cornerOffsets, cornerWeight]
  | n + 1, q => by
    rw [sum_cornerOffsets_succ]
    simp only [cornerWeight_cons, List.sum_map_mul_left]
    rw [sum_cornerWeight n]
    simp [cornerFactor]

theorem sum_cornerWeight_coord : ∀ (D : ℕ) (q : Fin D → ℚ) (i : Fin D),
    ((cornerOffsets D).map fun b => cornerWeight q b * (b i : ℚ)).sum = q i
  | 0, _, i => i.elim0
  | n + 1, q, i => by
    rw [sum_cornerOffsets_succ]
    simp only [cornerWeight_cons]
    rcases Fin.eq_zero_or_eq_succ i with rfl | ⟨k, rfl⟩
    · simp only [Fin.cons_zero, Int.cast_zero, mul_zero, Int.cast_one, mul_one, List.sum_map_mul_left]
      rw [sum_cornerWeight n]
      simp [cornerFactor]
    · simp only [Fin.cons_succ, mul_assoc, List.sum_map_mul_left]
      rw [sum_cornerWeight_coord n]
      simp [cornerFactor]
      ring

theorem mem_cornerOffsets : ∀ (D : ℕ) (b : Coord D), b ∈ cornerOffsets D ↔ ∀ i, b i = 0 ∨ b i = 1
  | 0, b => by simp [cornerOffsets, funext_iff]
  | n + 1, b => by
    simp only [cornerOffsets, List.mem_flatMap, List.mem_map]
    constructor
    · rintro ⟨i, hi, r, hr, rfl⟩ k
      rcases Fin.eq_zero_or_eq_succ k with rfl | ⟨j, rfl⟩
      · simpa using hi
      · simpa using (mem_cornerOffsets n r).1 hr j
    · intro h
      refine ⟨b 0, by simpa using h 0, fun i => b i.succ, (mem_cornerOffsets n _).2 fun i => h i.succ, ?_⟩
      exact Fin.cons_self_tail b

theorem cornerWeight_nonneg (q : Fin D → ℚ) (hq : ∀ i, 0 ≤ q i ∧ q i ≤ 1) (b : Coord D) : 0 ≤ cornerWeight q b := by
  refine Finset.prod_nonneg fun i _ => ?_
  unfold cornerFactor
  split <;> linarith [(hq i).1, (hq i).2]

/-! ## rows -/

/-- the rows of a matrix whose blocks come from an enumeration, one row per element. -/
theorem rowOf_enumerate {α : Type*} (g : ℤ → α → List Triplet) (hg : ∀ r a, ∀ x ∈ g r a, x.1 = r) (off : ℕ)
    (l : List α) (n r : ℕ) :
    rowOf ((l.zipIdx n).flatMap fun p => g (p.2 + off) p.1) (r + off : ℕ) =
      if n ≤ r then (match l[r - n]? with | some a => g (r + off) a | none => []) else [] := by
  induction l generalizing n with
  | nil => simp [rowOf]
  | cons a l ih =>
    rw [List.zipIdx_cons, List.flatMap_cons, rowOf_append, ih (n + 1)]
    by_cases h : n = r
    · subst h
      rw [if_neg (by omega), if_pos le_rfl]
      simp only [Nat.sub_self, List.getElem?_cons_zero, List.append_nil]
      unfold rowOf
      rw [List.filter_eq_self]
      intro x hx
      simpa using hg _ _ x hx
    · have h1 : rowOf (g (n + off) a) ((r + off : ℕ) : ℤ) = [] := by
        unfold rowOf
        rw [List.filter_eq_nil_iff]
        intro x hx
        rw [hg _ _ x hx]
        simp only [decide_eq_true_eq]
        push_cast
        omega
      rw [h1, List.nil_append]
      by_cases h2 : n ≤ r
      · rw [if_pos h2, if_pos (by omega)]
        have : r - n = (r - (n + 1)) + 1 := by omega
        rw [this, List.getElem?_cons_succ]
      · rw [if_neg h2, if_neg (by omega)]

theorem rowOf_eq_nil {t : List Triplet} {r : ℤ} (h : ∀ x ∈ t, x.1 ≠ r) : rowOf t r = [] := by
  unfold rowOf
  rw [List.filter_eq_nil_iff]
  intro x hx
  simpa using h x hx

theorem cornerTriplets_row (vidx : Coord D → ℤ) (r : ℤ) (v : Vertex D) : ∀ x ∈ cornerTriplets vidx r v, x.1 = r := by
  intro x hx
  simp only [cornerTriplets, List.mem_map] at hx
  obtain ⟨b, _, rfl⟩ := hx
  rfl

theorem rowOf_range_diag (n k : ℕ) :
    rowOf ((List.range n).map fun (i : ℕ) => ((i : ℤ), (i : ℤ), (1 : ℚ))) k = if k < n then [((k : ℤ), (k : ℤ), 1)] else [] := by
  induction n with
  | zero => simp [rowOf]
  | succ n ih =>
    rw [List.range_succ, List.map_append, rowOf_append, ih]
    by_cases h : k = n
    · subst h; simp [rowOf]
    · have : ¬ ((n : ℤ) = k) := by omega
      rcases Nat.lt_or_ge k n with h' | h'
      · rw [if_pos h', if_pos (by omega)]; simp [rowOf, this]
      · rw [if_neg (by omega), if_neg (by omega)]; simp [rowOf, this]

/-- the row of a grid vertex. -/
theorem trilinear_grid_row (n : ℕ) (vidx : Coord D → ℤ) (vs : List (Vertex D)) (k : ℕ) (hk : k < n) :
    rowOf (trilinearMatrix n vidx vs) k = [((k : ℤ), (k : ℤ), 1)] := by
  unfold trilinearMatrix
  rw [rowOf_append, rowOf_range_diag, if_pos hk, rowOf_eq_nil, List.append_nil]
  intro x hx
  simp only [List.mem_flatMap] at hx
  obtain ⟨p, _, hx⟩ := hx
  rw [cornerTriplets_row vidx _ _ x hx]
  omega

/-- the row of a cut vertex. -/
theorem trilinear_cut_row (n : ℕ) (vidx : Coord D → ℤ) (vs : List (Vertex D)) (k : ℕ) (v : Vertex D)
    (hv : vs[k]? = some v) :
    rowOf (trilinearMatrix n vidx vs) (k + n : ℕ) = cornerTriplets vidx (k + n : ℕ) v := by
  unfold trilinearMatrix
  rw [rowOf_append, rowOf_range_diag, if_neg (by omega), List.nil_append]
  have := rowOf_enumerate (fun r v => cornerTriplets vidx r v) (cornerTriplets_row vidx) n vs 0 k
  rw [this, if_pos (Nat.zero_le k), Nat.sub_zero, hv]
  push_cast
  rfl

/-! ## properties -/

/-- **C32.** Grid vertices get identity rows: applying the matrix to any field on the grid vertices leaves the grid
vertices' values unchanged, and the row's entries are exactly one `1` on the diagonal. -/
theorem C32_grid_rows_identity (n : ℕ) (vidx : Coord D → ℤ) (vs : List (Vertex D)) (k : ℕ) (hk : k < n) :
    (∀ X : ℤ → ℚ, matVec (trilinearMatrix n vidx vs) X k = X k) ∧
    (∀ c : ℤ, tripletEntry (trilinearMatrix n vidx vs) k c = if c = k then 1 else 0) := by
  have hr := trilinear_grid_row n vidx vs k hk
  refine ⟨fun X => by simp [matVec, hr], fun c => ?_⟩
  have : tripletEntry (trilinearMatrix n vidx vs) k c =
      (((rowOf (trilinearMatrix n vidx vs) k).filter fun x => decide (x.2.1 = c)).map (·.2.2)).sum := by
    unfold tripletEntry rowOf
    rw [List.filter_filter]
    congr 3
    funext x
    rw [Bool.and_comm]
  rw [this, hr]
  by_cases h : c = k
  · subst h; simp
  · simp [h, Ne.symm h]

/-- **C32.** Partition of unity: the weights in the row of a cut vertex sum to one, and they are all non-negative when
the vertex's fractions are in `[0,1]`. -/
theorem C32_partition_of_unity (n : ℕ) (vidx : Coord D → ℤ) (vs : List (Vertex D)) (k : ℕ) (v : Vertex D)
    (hv : vs[k]? = some v) :
    matVec (trilinearMatrix n vidx vs) (fun _ => 1) (k + n : ℕ) = 1 ∧
    ((∀ i, 0 ≤ v.quot i ∧ v.quot i ≤ 1) → ∀ x ∈ rowOf (trilinearMatrix n vidx vs) (k + n : ℕ), 0 ≤ x.2.2) := by
  rw [matVec, trilinear_cut_row n vidx vs k v hv]
  refine ⟨?_, fun hq x hx => ?_⟩
  · simp only [cornerTriplets, List.map_map, Function.comp_def, mul_one]
    exact sum_cornerWeight D v.quot
  · simp only [cornerTriplets, List.mem_map] at hx
    obtain ⟨b, _, rfl⟩ := hx
    exact cornerWeight_nonneg v.quot hq b

theorem sum_affine_corner (v : Vertex D) (α : ℚ) (β : Fin D → ℚ) :
    ((cornerOffsets D).map fun b => cornerWeight v.quot b * (α + ∑ i, β i * ((v.coord i + b i : ℤ) : ℚ))).sum =
      α + ∑ i, β i * v.p i := by
  have key : ∀ (l : List (Coord D)), (l.map fun b => cornerWeight v.quot b * (α + ∑ i, β i * ((v.coord i + b i : ℤ) : ℚ))).sum =
      (l.map (cornerWeight v.quot)).sum * (α + ∑ i, β i * (v.coord i : ℚ)) +
        ∑ i, β i * (l.map fun b => cornerWeight v.quot b * (b i : ℚ)).sum := by
    intro l
    induction l with
    | nil => simp
    | cons b l ih =>
      simp only [List.map_cons, List.sum_cons]
      rw [ih]
      simp only [mul_add, Int.cast_add, Finset.sum_add_distrib, add_mul]
      rw [Finset.mul_sum, Finset.mul_sum]
      have : ∀ i, β i * (cornerWeight v.quot b * (b i : ℚ)) = cornerWeight v.quot b * (β i * (b i : ℚ)) := fun i => by ring
      simp only [this]
      ring
  rw [key, sum_cornerWeight]
  simp only [sum_cornerWeight_coord, Vertex.p, mul_add, Finset.sum_add_distrib]
  ring

/-- **C32.** Interpolation reproduces positions, and every affine function: if a field on the grid vertices is
`α + Σ βᵢ xᵢ` at grid vertex `x`, its value at a cut vertex is `α + Σ βᵢ pᵢ` with `p` the vertex's position. World
positions are affine (`origin + p ∘ dx`, mesh_impl.hpp:6-11), so each world coordinate of the cut vertex is reproduced.
The vertex may lie on the high side of the domain: there `quot = 0` and the weight of the missing vertex is zero. -/
theorem C32_reproduces_affine (shape : Coord D) (G : GridIndexer shape) (n : ℕ) (vs : List (Vertex D)) (k : ℕ)
    (v : Vertex D) (hv : vs[k]? = some v)
    (hin : ∀ i, 0 ≤ v.coord i ∧ (v.coord i + 1 < shape i ∨ (v.coord i + 1 = shape i ∧ v.quot i = 0)))
    (α : ℚ) (β : Fin D → ℚ) (X : ℤ → ℚ)
    (hX : ∀ c, ValidIndex shape c = true → X (G.idx c) = α + ∑ i, β i * (c i : ℚ)) :
    matVec (trilinearMatrix n G.idx vs) X (k + n : ℕ) = α + ∑ i, β i * v.p i := by
  rw [matVec, trilinear_cut_row n G.idx vs k v hv, ← sum_affine_corner]
  simp only [cornerTriplets, List.map_map, Function.comp_def]
  congr 1
  apply List.map_congr_left
  intro b hb
  rw [mem_cornerOffsets] at hb
  by_cases hval : ValidIndex shape (fun i => v.coord i + b i) = true
  · rw [hX _ hval]
  · have : ∃ i, b i = 1 ∧ v.quot i = 0 := by
      by_contra hno
      push Not at hno
      apply hval
      rw [validIndex_iff]
      intro i
      have h1 := hin i
      have h2 := hb i
      have h3 := hno i
      rcases h2 with h2 | h2
      · omega
      · rcases h1.2 with h4 | h4
        · omega
        · exact absurd h4.2 (h3 h2)
    obtain ⟨i, h1, h2⟩ := this
    have : cornerWeight v.quot b = 0 := by
      unfold cornerWeight
      exact Finset.prod_eq_zero (Finset.mem_univ i) (by simp [cornerFactor, h1, h2])
    rw [this, zero_mul, zero_mul]

/-- **C32.** World positions: with `origin` and `dx` of the grid, the cut vertex's world coordinate `j` is the
interpolation of the grid vertices' world coordinates. -/
theorem C32_reproduces_world (shape : Coord D) (G : GridIndexer shape) (n : ℕ) (vs : List (Vertex D)) (k : ℕ)
    (v : Vertex D) (hv : vs[k]? = some v)
    (hin : ∀ i, 0 ≤ v.coord i ∧ (v.coord i + 1 < shape i ∨ (v.coord i + 1 = shape i ∧ v.quot i = 0)))
    (origin dx : Fin D → ℚ) (j : Fin D) (X : ℤ → ℚ)
    (hX : ∀ c, ValidIndex shape c = true → X (G.idx c) = origin j + (c j : ℚ) * dx j) :
    matVec (trilinearMatrix n G.idx vs) X (k + n : ℕ) = origin j + v.p j * dx j := by
  have h := C32_reproduces_affine shape G n vs k v hv hin (origin j) (fun i => if i = j then dx j else 0) X (by
    intro c hc
    rw [hX c hc]
    simp [mul_comm])
  rw [h]
  simp [ite_mul, mul_comm]

/-- **C32.** Every column written for a vertex strictly inside the grid exists. -/
theorem C32_columns_valid (shape : Coord D) (G : GridIndexer shape) (n : ℕ) (vs : List (Vertex D)) (k : ℕ)
    (v : Vertex D) (hv : vs[k]? = some v) (hin : ∀ i, 0 ≤ v.coord i ∧ v.coord i + 1 < shape i) :
    ∀ x ∈ rowOf (trilinearMatrix n G.idx vs) (k + n : ℕ), 0 ≤ x.2.1 ∧ x.2.1 < G.size := by
  intro x hx
  rw [trilinear_cut_row n G.idx vs k v hv] at hx
  simp only [cornerTriplets, List.mem_map] at hx
  obtain ⟨b, hb, rfl⟩ := hx
  rw [mem_cornerOffsets] at hb
  apply G.bound
  rw [validIndex_iff]
  intro i
  have := hin i
  have := hb i
  omega

/-- **C32, refuted part.** For a vertex on the high side of the domain a triplet (with weight zero) is still written,
and its column can lie beyond the matrix: with linear indexing, any vertex on the high side of the last axis produces a
column `≥ vertex_size`, which Eigen's `setFromTriplets` does not accept. -/
theorem C32_high_side_column_refuted (n : ℕ) (shape : Coord (n + 1)) (hs : ∀ i, 1 ≤ shape i) (N : ℕ)
    (vs : List (Vertex (n + 1))) (k : ℕ) (v : Vertex (n + 1)) (hv : vs[k]? = some v)
    (h0 : ∀ i, 0 ≤ v.coord i) (hlast : v.coord (Fin.last n) + 1 = shape (Fin.last n)) :
    ∃ x ∈ rowOf (trilinearMatrix N (linIndex (n + 1) shape) vs) (k + N : ℕ), linSize (n + 1) shape ≤ x.2.1 := by
  rw [trilinear_cut_row N _ vs k v hv]
  have key : ∀ (n : ℕ) (s c : Coord (n + 1)), (∀ i, 1 ≤ s i) → (∀ i, 0 ≤ c i) → c (Fin.last n) = s (Fin.last n) →
      linSize (n + 1) s ≤ linIndex (n + 1) s c := by
    intro n
    induction n with
    | zero =>
      intro s c hs hc h
      have h : c 0 = s 0 := h
      simp only [linSize, linIndex]
      omega
    | succ n ih =>
      intro s c hs hc h
      have := ih (fun i => s i.succ) (fun i => c i.succ) (fun i => hs i.succ) (fun i => hc i.succ) h
      rw [linSize, linIndex]
      have h1 := mul_le_mul_of_nonneg_left this (show 0 ≤ s 0 from by have := hs 0; omega)
      have := hc 0
      linarith
  refine ⟨_, List.mem_map.2 ⟨fun i => if i = Fin.last n then 1 else 0, ?_, rfl⟩, ?_⟩
  · rw [mem_cornerOffsets]
    intro i
    by_cases h : i = Fin.last n <;> simp [h]
  · refine key n shape (fun i => v.coord i + if i = Fin.last n then 1 else 0) hs ?_ ?_
    · intro i
      have := h0 i
      split <;> omega
    · simpa using hlast

/-! ## a concrete case -/

/-- a cut vertex at `(1.25, 0.5)` in a grid with `3 × 3` vertices. -/
example : let v : Vertex 2 := ⟨![1, 0], ![1/4, 1/2], ![false, false]⟩
    rowOf (trilinearMatrix 9 (linIndex 2 ![3, 3]) [v]) 9 =
      [(9, 1, 3/8), (9, 4, 3/8), (9, 2, 1/8), (9, 5, 1/8)] := by decide +kernel

example : let v : Vertex 2 := ⟨![1, 0], ![1/4, 1/2], ![false, false]⟩
    ∀ i, 0 ≤ v.coord i ∧ (v.coord i + 1 < (![3, 3] : Coord 2) i ∨ (v.coord i + 1 = (![3, 3] : Coord 2) i ∧ v.quot i = 0)) := by
  decide +kernel

end Mandoline
