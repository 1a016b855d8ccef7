import Verif.Interp.Trilinear
import Verif.Core.OMap
import Mathlib.Algebra.BigOperators.Group.List.Basic
import Mathlib.Data.Fin.VecNotation
import Mathlib.Tactic.FieldSimp

/-!
# C33: the barycentric interpolation matrix

Transcription of `barycentric_matrix` (src/operators/interpolation2.cpp:11-29, src/operators/interpolation3.cpp:9-27),
`InterpolatedEdge::sparse_matrix_entries` (src/interpolated_edge.cpp:5-20) and
`BarycentricTriangleFace::sparse_matrix_entries` (src/barycentric_triangle_face.cpp:5-20).
-/
namespace Mandoline

/-- `operator<` of `std::array<int,2>`. -/
def pairLt (a b : ℤ × ℤ) : Bool := decide (a.1 < b.1) || (decide (a.1 = b.1) && decide (a.2 < b.2))

theorem strictTotal_pairLt : StrictTotal pairLt where
  irrefl a := by simp [pairLt]
  trans a b c := by
    simp only [pairLt, Bool.or_eq_true, decide_eq_true_eq, Bool.and_eq_true]
    omega
  tri a b := by
    obtain ⟨a1, a2⟩ := a
    obtain ⟨b1, b2⟩ := b
    simp only [pairLt, Bool.or_eq_true, decide_eq_true_eq, Bool.and_eq_true, Prod.mk.injEq]
    omega

/-- `std::map<std::array<int,2>,double>`. -/
abbrev EntryMap := List ((ℤ × ℤ) × ℚ)

/-- the assignments `ret[{row, e[0]}] = 1 - t; ret[{row, e[1]}] = t` executed by
`InterpolatedEdge::sparse_matrix_entries` (interpolated_edge.cpp:9-18), in order. -/
def edgeAssignments (indices : Fin 2 → ℤ) (ts : Fin 2 → ℚ) (e : Fin 2 → ℤ) : EntryMap :=
  (List.finRange 2).flatMap fun i =>
    (if ts i ≠ 1 then [((indices i, e 0), 1 - ts i)] else []) ++
    (if ts i ≠ 0 then [((indices i, e 1), ts i)] else [])

/-- the assignments executed by `BarycentricTriangleFace::sparse_matrix_entries`
(barycentric_triangle_face.cpp:9-18), in order. `corners` pairs `indices[i]` with column `i` of `barys` (the code
asserts that the sizes agree). -/
def triAssignments (corners : List (ℤ × (Fin 3 → ℚ))) (f : Fin 3 → ℤ) : EntryMap :=
  corners.flatMap fun c => (List.finRange 3).filterMap fun j => if c.2 j ≠ 0 then some ((c.1, f j), c.2 j) else none

/-- executing assignments on an empty map. -/
def runAssignments (l : EntryMap) : EntryMap := l.foldl (fun m x => OMap.assign pairLt x.1 x.2 m) []

/-- `std::copy(t.begin(), t.end(), std::inserter(mp, mp.end()))` (interpolation2.cpp:17). -/
def insertAll (mp t : EntryMap) : EntryMap := t.foldl (fun m x => OMap.insertNew pairLt x.1 x.2 m) mp

/-- the loop over `mesh_cut_edges()` / `mesh_cut_faces()` (interpolation2.cpp:15-18). -/
def mergeFaces (faces : List EntryMap) : EntryMap := faces.foldl insertAll []

/-- `trips.emplace_back(a, b, v)` (interpolation2.cpp:20-23). -/
def entryTriplets (mp : EntryMap) : List Triplet := mp.map fun x => (x.1.1, x.1.2, x.2)

/-- `(sums.array().abs() > 1e-10).select(1.0 / sums.array(), 0)` (interpolation2.cpp:26). -/
def rowScale (s : ℚ) : ℚ := if |s| > 1 / 10000000000 then 1 / s else 0

/-- `A = sums.asDiagonal() * A` with `sums = A * Ones` (interpolation2.cpp:25-27). -/
def normaliseRows (t : List Triplet) : List Triplet :=
  t.map fun x => (x.1, x.2.1, rowScale (matVec t (fun _ => 1) x.1) * x.2.2)

/-- `barycentric_matrix(ccm)` (interpolation2.cpp:11-29, interpolation3.cpp:9-27). -/
def barycentricMatrix (faces : List EntryMap) : List Triplet := normaliseRows (entryTriplets (mergeFaces faces))

/-! ## rows -/

theorem rowOf_normalise (t : List Triplet) (r : ℤ) :
    rowOf (normaliseRows t) r =
      (rowOf t r).map fun x => (x.1, x.2.1, rowScale (matVec t (fun _ => 1) r) * x.2.2) := by
  have : ∀ (s : ℤ → ℚ) (l : List Triplet), rowOf (l.map fun x => (x.1, x.2.1, s x.1 * x.2.2)) r =
      (rowOf l r).map fun x => (x.1, x.2.1, s r * x.2.2) := by
    intro s l
    unfold rowOf
    induction l with
    | nil => rfl
    | cons x l ih =>
      simp only [List.map_cons, List.filter_cons]
      by_cases h : x.1 = r
      · subst h; simp [ih]
      · simp [h, ih]
  exact this (fun r => rowScale (matVec t (fun _ => 1) r)) t

theorem matVec_normalise (t : List Triplet) (X : ℤ → ℚ) (r : ℤ) :
    matVec (normaliseRows t) X r = rowScale (matVec t (fun _ => 1) r) * matVec t X r := by
  rw [matVec, rowOf_normalise, matVec.eq_def t X r]
  rw [List.map_map, ← List.sum_map_mul_left]
  congr 1
  apply List.map_congr_left
  intro x _
  simp only [Function.comp]
  ring

/-- **C33.** For every mesh and every row of the barycentric matrix: the row sums to one if its raw sum exceeds `1e-10`
in absolute value, and otherwise all its entries are zero (so it sums to zero). -/
theorem C33_rows_normalised (faces : List EntryMap) (r : ℤ) :
    let raw := matVec (entryTriplets (mergeFaces faces)) (fun _ => 1) r
    (|raw| > 1 / 10000000000 → matVec (barycentricMatrix faces) (fun _ => 1) r = 1) ∧
    (¬ |raw| > 1 / 10000000000 → ∀ x ∈ rowOf (barycentricMatrix faces) r, x.2.2 = 0) := by
  refine ⟨fun h => ?_, fun h x hx => ?_⟩
  · rw [barycentricMatrix, matVec_normalise, rowScale, if_pos h, one_div_mul_cancel]
    intro h0
    rw [h0] at h
    norm_num at h
  · rw [barycentricMatrix, rowOf_normalise, List.mem_map] at hx
    obtain ⟨y, _, rfl⟩ := hx
    simp only [rowScale, if_neg h, zero_mul]

/-- **C33.** so every row sums to one or to zero. -/
theorem C33_row_sums (faces : List EntryMap) (r : ℤ) :
    matVec (barycentricMatrix faces) (fun _ => 1) r = 1 ∨ matVec (barycentricMatrix faces) (fun _ => 1) r = 0 := by
  by_cases h : |matVec (entryTriplets (mergeFaces faces)) (fun _ => 1) r| > 1 / 10000000000
  · exact Or.inl ((C33_rows_normalised faces r).1 h)
  · right
    rw [barycentricMatrix, matVec_normalise, rowScale, if_neg h, zero_mul]

/-! ## contents of the maps -/

theorem sorted_insertAll (mp t : EntryMap) (h : OMap.Sorted pairLt mp) : OMap.Sorted pairLt (insertAll mp t) := by
  induction t generalizing mp with
  | nil => exact h
  | cons x t ih => exact ih _ (OMap.sorted_alter strictTotal_pairLt h)

theorem sorted_mergeFaces (faces : List EntryMap) : OMap.Sorted pairLt (mergeFaces faces) := by
  have : ∀ (m : EntryMap), OMap.Sorted pairLt m → OMap.Sorted pairLt (faces.foldl insertAll m) := by
    induction faces with
    | nil => exact fun m h => h
    | cons f l ih => exact fun m h => ih _ (sorted_insertAll m f h)
  exact this [] OMap.sorted_nil

theorem find_insertAll (mp t : EntryMap) (h : OMap.Sorted pairLt mp) (k : ℤ × ℤ) :
    OMap.find pairLt k (insertAll mp t) =
      match OMap.find pairLt k mp with
      | some v => some v
      | none => (t.find? fun x => decide (x.1 = k)).map (·.2) := by
  induction t generalizing mp with
  | nil => simp only [insertAll, List.foldl_nil]; cases OMap.find pairLt k mp <;> rfl
  | cons x t ih =>
    have : insertAll mp (x :: t) = insertAll (OMap.insertNew pairLt x.1 x.2 mp) t := rfl
    rw [this, ih (OMap.insertNew pairLt x.1 x.2 mp) (OMap.sorted_alter strictTotal_pairLt h), OMap.insertNew, OMap.find_alter strictTotal_pairLt h]
    by_cases hk : k = x.1
    · subst hk
      rw [if_pos rfl]
      simp only [List.find?_cons, decide_true]
      cases OMap.find pairLt x.1 mp <;> rfl
    · rw [if_neg hk]
      have : (x :: t).find? (fun y => decide (y.1 = k)) = t.find? fun y => decide (y.1 = k) := by
        rw [List.find?_cons_of_neg]; simpa using Ne.symm hk
      rw [this]

/-- the entries of row `r`. -/
def rowEntries (m : EntryMap) (r : ℤ) : EntryMap := m.filter fun x => decide (x.1.1 = r)

theorem rowOf_entryTriplets (m : EntryMap) (r : ℤ) :
    rowOf (entryTriplets m) r = entryTriplets (rowEntries m r) := by
  unfold rowOf entryTriplets rowEntries
  rw [List.filter_map]
  rfl

theorem mem_mergeFaces_sub (faces : List EntryMap) (x : (ℤ × ℤ) × ℚ) (hx : x ∈ mergeFaces faces) :
    ∃ G ∈ faces, x ∈ G := by
  have key : ∀ (m : EntryMap), OMap.Sorted pairLt m → x ∈ faces.foldl insertAll m → x ∈ m ∨ ∃ G ∈ faces, x ∈ G := by
    clear hx
    induction faces with
    | nil => exact fun m _ h => Or.inl h
    | cons f l ih =>
      intro m hm h
      rcases ih (insertAll m f) (sorted_insertAll m f hm) h with h | ⟨G, hG, h⟩
      · have hf := (OMap.find_iff strictTotal_pairLt (sorted_insertAll m f hm)).2 (show (x.1, x.2) ∈ _ from h)
        rw [find_insertAll m f hm] at hf
        cases hm' : OMap.find pairLt x.1 m with
        | some v =>
          rw [hm'] at hf
          simp only [Option.some.injEq] at hf
          subst hf
          exact Or.inl (OMap.mem_of_find strictTotal_pairLt hm')
        | none =>
          rw [hm'] at hf
          simp only [Option.map_eq_some_iff] at hf
          obtain ⟨y, hy, hyx⟩ := hf
          have h1 := List.mem_of_find?_eq_some hy
          have h2 := List.find?_some hy
          simp only [decide_eq_true_eq] at h2
          have : y = x := Prod.ext h2 hyx
          exact Or.inr ⟨f, List.mem_cons_self, this ▸ h1⟩
      · exact Or.inr ⟨G, List.mem_cons_of_mem _ hG, h⟩
  rcases key [] OMap.sorted_nil hx with h | h
  · cases h
  · exact h

theorem key_mergeFaces (faces : List EntryMap) (G : EntryMap) (hG : G ∈ faces) (x : (ℤ × ℤ) × ℚ) (hx : x ∈ G) :
    ∃ v, (x.1, v) ∈ mergeFaces faces := by
  have key : ∀ (m : EntryMap), OMap.Sorted pairLt m → ((∃ v, (x.1, v) ∈ m) ∨ G ∈ faces) →
      ∃ v, (x.1, v) ∈ faces.foldl insertAll m := by
    clear hG
    induction faces with
    | nil =>
      rintro m _ (h | h)
      · exact h
      · cases h
    | cons f l ih =>
      intro m hm h
      have hstep : (∃ v, (x.1, v) ∈ m) ∨ x ∈ f → ∃ v, (x.1, v) ∈ insertAll m f := by
        intro h
        have : ∃ v, OMap.find pairLt x.1 (insertAll m f) = some v := by
          rw [find_insertAll m f hm]
          cases hm' : OMap.find pairLt x.1 m with
          | some v => exact ⟨v, rfl⟩
          | none =>
            rcases h with ⟨v, h⟩ | h
            · rw [(OMap.find_iff strictTotal_pairLt hm).2 h] at hm'; cases hm'
            · have : (f.find? fun y => decide (y.1 = x.1)).isSome := by
                rw [List.find?_isSome]; exact ⟨x, h, by simp⟩
              obtain ⟨y, hy⟩ := Option.isSome_iff_exists.1 this
              exact ⟨y.2, by simp [hy]⟩
        obtain ⟨v, hv⟩ := this
        exact ⟨v, OMap.mem_of_find strictTotal_pairLt hv⟩
      refine ih (insertAll m f) (sorted_insertAll m f hm) ?_
      rcases h with h | h
      · exact Or.inl (hstep (Or.inl h))
      · rcases List.mem_cons.1 h with rfl | h
        · exact Or.inl (hstep (Or.inr hx))
        · exact Or.inr h
  exact key [] OMap.sorted_nil (Or.inr hG)

theorem sorted_filter {m : EntryMap} (h : OMap.Sorted pairLt m) (p : (ℤ × ℤ) × ℚ → Bool) :
    OMap.Sorted pairLt (m.filter p) := List.Pairwise.filter p h

/-- if every face's row `r` is contained in the row of one of the faces, the merged row is that face's row. -/
theorem rowEntries_merge (faces : List EntryMap) (F : EntryMap) (hF : F ∈ faces) (hs : OMap.Sorted pairLt F) (r : ℤ)
    (hsub : ∀ G ∈ faces, ∀ x ∈ G, x.1.1 = r → x ∈ F) :
    rowEntries (mergeFaces faces) r = rowEntries F r := by
  apply OMap.sorted_ext strictTotal_pairLt (sorted_filter (sorted_mergeFaces faces) _) (sorted_filter hs _)
  intro x
  simp only [List.mem_filter, decide_eq_true_eq]
  constructor
  · rintro ⟨h1, h2⟩
    obtain ⟨G, hG, hx⟩ := mem_mergeFaces_sub faces x h1
    exact ⟨hsub G hG x hx h2, h2⟩
  · rintro ⟨h1, h2⟩
    refine ⟨?_, h2⟩
    obtain ⟨v, hv⟩ := key_mergeFaces faces F hF x h1
    obtain ⟨G, hG, hx⟩ := mem_mergeFaces_sub faces _ hv
    have := hsub G hG _ hx h2
    have hvx : v = x.2 := OMap.sorted_unique strictTotal_pairLt hs this h1
    subst hvx
    exact hv

/-! ## the assignments of one face -/

theorem sorted_run (l : EntryMap) : OMap.Sorted pairLt (runAssignments l) := by
  have : ∀ m, OMap.Sorted pairLt m → OMap.Sorted pairLt (l.foldl (fun m x => OMap.assign pairLt x.1 x.2 m) m) := by
    induction l with
    | nil => exact fun m h => h
    | cons x l ih => exact fun m h => ih _ (OMap.sorted_alter strictTotal_pairLt h)
  exact this [] OMap.sorted_nil

theorem mem_run (l : EntryMap) (x : (ℤ × ℤ) × ℚ) (hfun : ∀ y ∈ l, y.1 = x.1 → y.2 = x.2) :
    x ∈ runAssignments l ↔ x ∈ l := by
  have : ∀ m, OMap.Sorted pairLt m → (∀ v, (x.1, v) ∈ m → v = x.2) →
      (x ∈ l.foldl (fun m x => OMap.assign pairLt x.1 x.2 m) m ↔ x ∈ m ∨ x ∈ l) := by
    induction l with
    | nil => intro m _ _; simp
    | cons y l ih =>
      intro m hm hv
      rw [List.foldl_cons, ih (fun z hz => hfun z (List.mem_cons_of_mem _ hz)) (OMap.assign pairLt y.1 y.2 m) (OMap.sorted_alter strictTotal_pairLt hm)]
      · obtain ⟨k, v⟩ := x
        rw [OMap.assign, OMap.mem_alter strictTotal_pairLt hm]
        by_cases hk : k = y.1
        · have hy := hfun y List.mem_cons_self hk.symm
          have hyx : (k, v) = y := Prod.ext hk hy.symm
          simp only [← hyx, ne_eq, not_true_eq_false, false_and, false_or, true_and, List.mem_cons, true_or, or_true]
        · have : ¬ (k, v) = y := fun h => hk (by rw [← h])
          simp only [hk, ne_eq, not_false_eq_true, true_and, false_and, or_false, List.mem_cons, this, false_or]
      · intro v hv'
        rw [OMap.assign, OMap.mem_alter strictTotal_pairLt hm] at hv'
        rcases hv' with ⟨_, h⟩ | ⟨h1, h2⟩
        · exact hv v h
        · rw [h2]; exact hfun y List.mem_cons_self h1.symm
  rw [runAssignments, this [] OMap.sorted_nil (by nofun)]
  simp

theorem mem_run_sub (l : EntryMap) (x : (ℤ × ℤ) × ℚ) (hx : x ∈ runAssignments l) : x ∈ l := by
  have : ∀ m, OMap.Sorted pairLt m → x ∈ l.foldl (fun m x => OMap.assign pairLt x.1 x.2 m) m → x ∈ m ∨ x ∈ l := by
    clear hx
    induction l with
    | nil => exact fun m _ h => Or.inl h
    | cons y l ih =>
      intro m hm h
      rcases ih _ (OMap.sorted_alter strictTotal_pairLt hm) h with h | h
      · rcases (OMap.mem_alter strictTotal_pairLt hm).1 (show (x.1, x.2) ∈ _ from h) with ⟨_, h⟩ | ⟨h1, h2⟩
        · exact Or.inl h
        · exact Or.inr (List.mem_cons.2 (Or.inl (Prod.ext h1 h2)))
      · exact Or.inr (List.mem_cons_of_mem _ h)
  rcases this [] OMap.sorted_nil hx with h | h
  · cases h
  · exact h

/-- the common shape of `edgeAssignments` and `triAssignments`: one block per corner, zero weights skipped. -/
def simplexAssignments {n : ℕ} (corners : List (ℤ × (Fin n → ℚ))) (f : Fin n → ℤ) : EntryMap :=
  corners.flatMap fun c => (List.finRange n).filterMap fun j => if c.2 j ≠ 0 then some ((c.1, f j), c.2 j) else none

theorem triAssignments_eq (corners : List (ℤ × (Fin 3 → ℚ))) (f : Fin 3 → ℤ) :
    triAssignments corners f = simplexAssignments corners f := rfl

theorem edgeAssignments_eq (indices : Fin 2 → ℤ) (ts : Fin 2 → ℚ) (e : Fin 2 → ℤ) :
    edgeAssignments indices ts e =
      simplexAssignments ((List.finRange 2).map fun i => (indices i, ![1 - ts i, ts i])) e := by
  unfold edgeAssignments simplexAssignments
  rw [List.flatMap_map]
  congr 1
  funext i
  have h1 : (1 - ts i ≠ 0) ↔ ts i ≠ 1 := by rw [ne_eq, sub_eq_zero, eq_comm]
  by_cases h0 : ts i = 0 <;> by_cases h : ts i = 1 <;>
    simp [List.finRange_succ, h0, h, sub_eq_zero, Ne.symm]

theorem mem_simplexAssignments {n : ℕ} (corners : List (ℤ × (Fin n → ℚ))) (f : Fin n → ℤ) (x : (ℤ × ℤ) × ℚ) :
    x ∈ simplexAssignments corners f ↔ ∃ c ∈ corners, ∃ j, c.2 j ≠ 0 ∧ x = ((c.1, f j), c.2 j) := by
  simp only [simplexAssignments, List.mem_flatMap, List.mem_filterMap, List.mem_finRange, true_and]
  constructor
  · rintro ⟨c, hc, j, hj⟩
    split at hj
    · rename_i h; cases hj; exact ⟨c, hc, j, h, rfl⟩
    · cases hj
  · rintro ⟨c, hc, j, h, rfl⟩
    exact ⟨c, hc, j, by rw [if_pos h]⟩

/-- a mesh cut-edge (`n = 2`) or mesh cut-face (`n = 3`): its cut vertices with their barycentric coordinates in the
parent simplex, and the parent's vertices. -/
structure SimplexPiece (n : ℕ) where
  corners : List (ℤ × (Fin n → ℚ))
  parent : Fin n → ℤ

/-- its `sparse_matrix_entries`. -/
def SimplexPiece.entries {n : ℕ} (P : SimplexPiece n) : EntryMap := runAssignments (simplexAssignments P.corners P.parent)

theorem sum_row_entries {n : ℕ} (P : SimplexPiece n) (hinj : Function.Injective P.parent) (r : ℤ) (B : Fin n → ℚ)
    (hB : (r, B) ∈ P.corners) (hcons : ∀ B', (r, B') ∈ P.corners → B' = B) (X : ℤ → ℚ) :
    matVec (entryTriplets P.entries) X r = ∑ j, B j * X (P.parent j) := by
  have hmem : ∀ x : (ℤ × ℤ) × ℚ, x.1.1 = r →
      (x ∈ P.entries ↔ ∃ j, B j ≠ 0 ∧ x = ((r, P.parent j), B j)) := by
    intro x hx
    constructor
    · intro h
      obtain ⟨c, hc, j, hj, rfl⟩ := (mem_simplexAssignments _ _ _).1 (mem_run_sub _ _ h)
      obtain ⟨c1, c2⟩ := c
      simp only at hx hj
      subst hx
      have := hcons c2 hc
      subst this
      exact ⟨j, hj, rfl⟩
    · rintro ⟨j, hj, rfl⟩
      refine (mem_run _ _ ?_).2 ((mem_simplexAssignments _ _ _).2 ⟨_, hB, j, hj, rfl⟩)
      intro y hy hyk
      obtain ⟨c, hc, i, hi, rfl⟩ := (mem_simplexAssignments _ _ _).1 hy
      obtain ⟨c1, c2⟩ := c
      simp only [Prod.mk.injEq] at hyk
      obtain ⟨rfl, h2⟩ := hyk
      have := hcons c2 hc
      subst this
      rw [hinj h2]
  have hperm : (rowEntries P.entries r).Perm
      ((List.finRange n).filterMap fun j => if B j ≠ 0 then some ((r, P.parent j), B j) else none) := by
    rw [List.perm_ext_iff_of_nodup]
    · intro x
      simp only [rowEntries, List.mem_filter, decide_eq_true_eq, List.mem_filterMap, List.mem_finRange, true_and]
      constructor
      · rintro ⟨h1, h2⟩
        obtain ⟨j, hj, rfl⟩ := (hmem x h2).1 h1
        exact ⟨j, by rw [if_pos hj]⟩
      · rintro ⟨j, hj⟩
        split at hj
        · rename_i h
          cases hj
          exact ⟨(hmem _ rfl).2 ⟨j, h, rfl⟩, rfl⟩
        · cases hj
    · refine List.Pairwise.imp ?_ (sorted_filter (sorted_run _) _)
      intro a b hab he
      subst he
      rw [strictTotal_pairLt.irrefl] at hab
      cases hab
    · refine List.Nodup.filterMap ?_ (List.nodup_finRange n)
      intro i j x hi hj
      simp only [Option.mem_def] at hi hj
      split at hi
      · cases hi
        split at hj
        · simp only [Option.some.injEq, Prod.mk.injEq, true_and] at hj
          exact (hinj hj.1).symm
        · cases hj
      · cases hi
  rw [matVec, rowOf_entryTriplets, entryTriplets, List.map_map, (hperm.map _).sum_eq]
  rw [← List.sum_ofFn, List.ofFn_eq_map]
  generalize List.finRange n = l
  induction l with
  | nil => rfl
  | cons j l ih =>
    rw [List.filterMap_cons]
    by_cases h : B j = 0
    · simp only [h, ne_eq, not_true_eq_false, if_false, List.map_cons, List.sum_cons, zero_mul, zero_add]
      exact ih
    · simp only [ne_eq, h, not_false_eq_true, if_true, List.map_cons, List.sum_cons, Function.comp]
      rw [← ih]

/-- **C33.** The normalised matrix interpolates: take a cut vertex `r` with barycentric coordinates `B` (summing to one)
in piece `P`, and suppose the input mesh is conforming at `r`: whenever another piece also contains `r`, its non-zero
coordinates sit at vertices of `P`'s parent, with the same values (the point lies on the common sub-simplex). Then row
`r` of the matrix applied to any field `X` on the input vertices is `Σ Bⱼ X(vⱼ)`. In particular it reproduces positions.
This covers `barycentric_matrix` in 2D (`n = 2`) and 3D (`n = 3`). -/
theorem C33_interpolates {n : ℕ} (pieces : List (SimplexPiece n)) (P : SimplexPiece n) (hP : P ∈ pieces)
    (hinj : Function.Injective P.parent) (r : ℤ) (B : Fin n → ℚ) (hB : (r, B) ∈ P.corners)
    (hcons : ∀ B', (r, B') ∈ P.corners → B' = B) (hsum : ∑ j, B j = 1)
    (hconf : ∀ Q ∈ pieces, ∀ B', (r, B') ∈ Q.corners → ∀ j, B' j ≠ 0 → ∃ i, P.parent i = Q.parent j ∧ B i = B' j)
    (X : ℤ → ℚ) :
    matVec (barycentricMatrix (pieces.map SimplexPiece.entries)) X r = ∑ j, B j * X (P.parent j) := by
  have hrow : rowEntries (mergeFaces (pieces.map SimplexPiece.entries)) r = rowEntries P.entries r := by
    apply rowEntries_merge _ P.entries (List.mem_map_of_mem hP) (sorted_run _)
    intro G hG x hx hxr
    obtain ⟨Q, hQ, rfl⟩ := List.mem_map.1 hG
    obtain ⟨⟨c1, c2⟩, hc, j, hj, rfl⟩ := (mem_simplexAssignments _ _ _).1 (mem_run_sub _ _ hx)
    simp only at hxr hj
    subst hxr
    obtain ⟨i, h1, h2⟩ := hconf Q hQ c2 hc j hj
    simp only [← h1, ← h2]
    refine (mem_run _ _ ?_).2 ((mem_simplexAssignments _ _ _).2 ⟨_, hB, i, by simpa [h2] using hj, rfl⟩)
    intro y hy hyk
    obtain ⟨⟨d1, d2⟩, hd, k, hk, rfl⟩ := (mem_simplexAssignments _ _ _).1 hy
    simp only [Prod.mk.injEq] at hyk
    obtain ⟨rfl, h4⟩ := hyk
    have := hcons d2 hd
    subst this
    rw [hinj h4]
  have hmv : ∀ X, matVec (entryTriplets (mergeFaces (pieces.map SimplexPiece.entries))) X r = ∑ j, B j * X (P.parent j) := by
    intro X
    rw [← sum_row_entries P hinj r B hB hcons X, matVec, rowOf_entryTriplets, hrow, ← rowOf_entryTriplets]
    rfl
  rw [barycentricMatrix, matVec_normalise, hmv, hmv]
  simp [hsum, rowScale]
  norm_num

/-- the 2D piece of a mesh cut-edge `indices` with parameters `ts` on the input edge `e`. -/
def edgePiece (indices : Fin 2 → ℤ) (ts : Fin 2 → ℚ) (e : Fin 2 → ℤ) : SimplexPiece 2 :=
  ⟨(List.finRange 2).map fun i => (indices i, ![1 - ts i, ts i]), e⟩

theorem edgePiece_entries (indices : Fin 2 → ℤ) (ts : Fin 2 → ℚ) (e : Fin 2 → ℤ) :
    (edgePiece indices ts e).entries = runAssignments (edgeAssignments indices ts e) := by
  rw [edgeAssignments_eq]; rfl

/-- **C33 (2D), as computed by `barycentric_matrix(CutCellMesh<2>)`.** Every mesh cut-edge `(indices, ts, e)` writes its
entries; a cut vertex `r` at parameter `t` of the input edge `(e 0, e 1)` gets the row
`(1 - t) X(e 0) + t X(e 1)`, if the other cut-edges containing `r` see it at the same input vertices with the same
weights. -/
theorem C33_interpolates_edges (edges : List ((Fin 2 → ℤ) × (Fin 2 → ℚ) × (Fin 2 → ℤ))) (E : (Fin 2 → ℤ) × (Fin 2 → ℚ) × (Fin 2 → ℤ))
    (hE : E ∈ edges) (hne : E.2.2 0 ≠ E.2.2 1) (k : Fin 2)
    (hcons : ∀ j, E.1 j = E.1 k → E.2.1 j = E.2.1 k)
    (hconf : ∀ Q ∈ edges, ∀ j, Q.1 j = E.1 k →
      (1 - Q.2.1 j ≠ 0 → (Q.2.2 0 = E.2.2 0 ∧ 1 - Q.2.1 j = 1 - E.2.1 k) ∨ (Q.2.2 0 = E.2.2 1 ∧ 1 - Q.2.1 j = E.2.1 k)) ∧
      (Q.2.1 j ≠ 0 → (Q.2.2 1 = E.2.2 0 ∧ Q.2.1 j = 1 - E.2.1 k) ∨ (Q.2.2 1 = E.2.2 1 ∧ Q.2.1 j = E.2.1 k)))
    (X : ℤ → ℚ) :
    matVec (barycentricMatrix (edges.map fun Q => runAssignments (edgeAssignments Q.1 Q.2.1 Q.2.2))) X (E.1 k) =
      (1 - E.2.1 k) * X (E.2.2 0) + E.2.1 k * X (E.2.2 1) := by
  have hmap : edges.map (fun Q => runAssignments (edgeAssignments Q.1 Q.2.1 Q.2.2)) =
      (edges.map fun Q => edgePiece Q.1 Q.2.1 Q.2.2).map SimplexPiece.entries := by
    rw [List.map_map]
    refine List.map_congr_left fun Q _ => ?_
    exact (edgePiece_entries _ _ _).symm
  have hcorner : ∀ (Q : (Fin 2 → ℤ) × (Fin 2 → ℚ) × (Fin 2 → ℤ)) (r : ℤ) (B : Fin 2 → ℚ),
      (r, B) ∈ (edgePiece Q.1 Q.2.1 Q.2.2).corners ↔ ∃ j, Q.1 j = r ∧ B = ![1 - Q.2.1 j, Q.2.1 j] := by
    intro Q r B
    simp only [edgePiece, List.mem_map, List.mem_finRange, true_and, Prod.mk.injEq]
    exact exists_congr fun j => and_congr_right fun _ => eq_comm
  rw [hmap, C33_interpolates (edges.map fun Q => edgePiece Q.1 Q.2.1 Q.2.2) (edgePiece E.1 E.2.1 E.2.2)
    (List.mem_map_of_mem hE) ?_ (E.1 k) ![1 - E.2.1 k, E.2.1 k] ((hcorner _ _ _).2 ⟨k, rfl, rfl⟩) ?_ ?_ ?_ X]
  · rw [Fin.sum_univ_two]; rfl
  · intro i j hij
    match i, j with
    | 0, 0 => rfl
    | 1, 1 => rfl
    | 0, 1 => exact absurd hij hne
    | 1, 0 => exact absurd hij.symm hne
  · intro B' hB'
    obtain ⟨j, h1, rfl⟩ := (hcorner _ _ _).1 hB'
    rw [hcons j h1]
  · rw [Fin.sum_univ_two]
    show 1 - E.2.1 k + E.2.1 k = 1
    ring
  · intro Q' hQ' B' hB' j hj
    obtain ⟨Q, hQ, rfl⟩ := List.mem_map.1 hQ'
    obtain ⟨l, h1, rfl⟩ := (hcorner _ _ _).1 hB'
    obtain ⟨c0, c1⟩ := hconf Q hQ l h1
    match j with
    | 0 =>
      rcases c0 hj with ⟨a, b⟩ | ⟨a, b⟩
      · exact ⟨0, a.symm, b.symm⟩
      · exact ⟨1, a.symm, b.symm⟩
    | 1 =>
      rcases c1 hj with ⟨a, b⟩ | ⟨a, b⟩
      · exact ⟨0, a.symm, b.symm⟩
      · exact ⟨1, a.symm, b.symm⟩

/-- **C33 (3D), as computed by `barycentric_matrix(CutCellMesh<3>)`.** A cut vertex `r` with barycentric coordinates `B`
in the input triangle `f` gets the row `Σ Bⱼ X(fⱼ)`. -/
theorem C33_interpolates_triangles (faces : List (List (ℤ × (Fin 3 → ℚ)) × (Fin 3 → ℤ))) (F : List (ℤ × (Fin 3 → ℚ)) × (Fin 3 → ℤ))
    (hF : F ∈ faces) (hinj : Function.Injective F.2) (r : ℤ) (B : Fin 3 → ℚ) (hB : (r, B) ∈ F.1)
    (hcons : ∀ B', (r, B') ∈ F.1 → B' = B) (hsum : B 0 + B 1 + B 2 = 1)
    (hconf : ∀ Q ∈ faces, ∀ B', (r, B') ∈ Q.1 → ∀ j, B' j ≠ 0 → ∃ i, F.2 i = Q.2 j ∧ B i = B' j) (X : ℤ → ℚ) :
    matVec (barycentricMatrix (faces.map fun Q => runAssignments (triAssignments Q.1 Q.2))) X r =
      B 0 * X (F.2 0) + B 1 * X (F.2 1) + B 2 * X (F.2 2) := by
  have hmap : faces.map (fun Q => runAssignments (triAssignments Q.1 Q.2)) =
      (faces.map fun Q => (⟨Q.1, Q.2⟩ : SimplexPiece 3)).map SimplexPiece.entries := by
    rw [List.map_map]
    rfl
  rw [hmap, C33_interpolates (faces.map fun Q => (⟨Q.1, Q.2⟩ : SimplexPiece 3)) ⟨F.1, F.2⟩
    (List.mem_map.2 ⟨F, hF, rfl⟩) hinj r B hB hcons ?_ ?_ X]
  · rw [Fin.sum_univ_three]
  · rw [Fin.sum_univ_three]; exact hsum
  · intro Q' hQ' B' hB' j hj
    obtain ⟨Q, hQ, rfl⟩ := List.mem_map.1 hQ'
    exact hconf Q hQ B' hB' j hj

/-- the hypotheses of `C33_interpolates_edges` at the shared vertex `10` of the curve below. -/
example (X : ℤ → ℚ) :
    matVec (barycentricMatrix ([(![11, 10], ![1/4, 1], ![0, 1]), (![10, 12], ![0, 2/3], ![1, 2])].map
      fun (Q : (Fin 2 → ℤ) × (Fin 2 → ℚ) × (Fin 2 → ℤ)) => runAssignments (edgeAssignments Q.1 Q.2.1 Q.2.2))) X 11 =
      (1 - 1/4) * X 0 + 1/4 * X 1 := by
  have := C33_interpolates_edges [(![11, 10], ![1/4, 1], ![0, 1]), (![10, 12], ![0, 2/3], ![1, 2])]
    (![11, 10], ![1/4, 1], ![0, 1]) List.mem_cons_self (by decide) 0 (by decide +kernel) (by decide +kernel) X
  exact this

/-- **C33 (2D).** A curve in which each cut vertex lies on one input edge, or is an input vertex: an example with a
vertex shared by two input edges. Input vertices `0,1,2`, input edges `(0,1)` and `(1,2)`; cut vertices `10 = ` vertex
1, `11` at parameter `1/4` of the first edge, `12` at `2/3` of the second. -/
example : barycentricMatrix [(edgePiece ![11, 10] ![1/4, 1] ![0, 1]).entries, (edgePiece ![10, 12] ![0, 2/3] ![1, 2]).entries] =
    [(10, 1, 1), (11, 0, 3/4), (11, 1, 1/4), (12, 1, 1/3), (12, 2, 2/3)] := by decide +kernel

example : let P := edgePiece ![11, 10] ![1/4, 1] ![0, 1]
    let Q := edgePiece ![10, 12] ![0, 2/3] ![1, 2]
    (10, ![1 - 1, 1]) ∈ P.corners ∧ (10, ![1 - 0, 0]) ∈ Q.corners ∧ ∃ i, P.parent i = Q.parent 0 := by
  refine ⟨?_, ?_, 1, rfl⟩ <;> decide +kernel

/-- **C33, refuted without the conformity assumption.** Two triangles `(0,1,2)` and `(0,3,4)` share only vertex `0` and
both pass through the point `p = (1,1,0)`, which is cut vertex `9`. Each of them reproduces `p` from its own barycentric
coordinates, yet the matrix row (first entry kept per column, then normalised) gives `6/5 p`. -/
theorem C33_self_contact_refuted :
    ∃ (P Q : SimplexPiece 3) (V : Fin 3 → ℤ → ℚ) (B B' : Fin 3 → ℚ),
      (9, B) ∈ P.corners ∧ (9, B') ∈ Q.corners ∧ (∑ j, B j) = 1 ∧ (∑ j, B' j) = 1 ∧
      (∀ d, ∑ j, B j * V d (P.parent j) = (![1, 1, 0] : Fin 3 → ℚ) d) ∧
      (∀ d, ∑ j, B' j * V d (Q.parent j) = (![1, 1, 0] : Fin 3 → ℚ) d) ∧
      ∀ d, matVec (barycentricMatrix [P.entries, Q.entries]) (V d) 9 = 6 / 5 * (![1, 1, 0] : Fin 3 → ℚ) d := by
  refine ⟨⟨[(9, ![1/2, 1/4, 1/4])], ![0, 1, 2]⟩, ⟨[(9, ![1/3, 1/3, 1/3])], ![0, 3, 4]⟩,
    fun d v => if v = 1 then ![4, 0, 0] d else if v = 2 then ![0, 4, 0] d else if v = 3 then ![3, 0, 3] d
      else if v = 4 then ![0, 3, -3] d else 0, ![1/2, 1/4, 1/4], ![1/3, 1/3, 1/3], ?_, ?_, ?_, ?_, ?_, ?_, ?_⟩ <;>
    decide +kernel

end Mandoline
