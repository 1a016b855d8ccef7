import Verif.Exterior.Facets
import Mathlib.Tactic.Linarith
import Mathlib.Algebra.Order.Ring.Rat

/-! # C23, C29: signed incidence and facet queries of `DomainBoundary` -/
namespace Mandoline
variable {D : ℕ}

/-- the triplets in one row. -/
def rowOf (t : List Triplet) (r : ℤ) : List Triplet := t.filter fun x => decide (x.1 = r)

/-- the product of the matrix with a field `v` on the columns, at row `r`. -/
def matVec (t : List Triplet) (v : ℤ → ℚ) (r : ℤ) : ℚ := ((rowOf t r).map fun x => x.2.2 * v x.2.1).sum

theorem facetTriplets_row (inc : Bool) (r : ℤ) (p : ℤ × ℤ) : ∀ x ∈ facetTriplets inc r p, x.1 = r := by
  intro x hx
  unfold facetTriplets at hx
  split at hx
  · rw [List.mem_append] at hx
    rcases hx with hx | hx <;> split at hx <;> simp at hx <;> rw [hx]
  · cases hx

theorem rowOf_zipIdx (inc : Bool) (pairs : List (ℤ × ℤ)) (n r : ℕ) :
    rowOf ((pairs.zipIdx n).flatMap fun pi => facetTriplets inc pi.2 pi.1) r =
      if n ≤ r then (match pairs[r - n]? with | some p => facetTriplets inc r p | none => []) else [] := by
  induction pairs generalizing n with
  | nil => simp [rowOf]
  | cons p l ih =>
    rw [List.zipIdx_cons, List.flatMap_cons]
    unfold rowOf at ih ⊢
    rw [List.filter_append, ih (n + 1)]
    dsimp only
    by_cases h : n = r
    · subst h
      rw [if_neg (by omega), if_pos le_rfl]
      simp only [Nat.sub_self, List.getElem?_cons_zero, List.append_nil]
      rw [List.filter_eq_self]
      intro x hx
      simpa using facetTriplets_row inc n p x hx
    · have h1 : (facetTriplets inc (n : ℤ) p).filter (fun x => decide (x.1 = (r : ℤ))) = [] := by
        rw [List.filter_eq_nil_iff]
        intro x hx
        rw [facetTriplets_row inc n p x hx]
        simpa using h
      rw [h1, List.nil_append]
      by_cases h2 : n ≤ r
      · rw [if_pos h2, if_pos (by omega)]
        have : r - n = (r - (n + 1)) + 1 := by omega
        rw [this, List.getElem?_cons_succ]
      · rw [if_neg h2, if_neg (by omega)]

theorem rowOf_boundary (inc : Bool) (pairs : List (ℤ × ℤ)) (r : ℕ) :
    rowOf (boundaryTriplets pairs inc) r =
      match pairs[r]? with | some p => facetTriplets inc r p | none => [] := by
  have := rowOf_zipIdx inc pairs 0 r
  simpa [boundaryTriplets] using this

/-- the pairs that the exterior grid produces. -/
theorem exterior_pairs (O : GridOrder D) (shape : Coord D) (o : Coord D → Bool) (hs : ∀ i, 1 ≤ shape i)
    (p : ℤ × ℤ) (hp : p ∈ (ExteriorGrid.make O shape o).pairs) :
    let n : ℤ := (ExteriorGrid.make O shape o).numCells
    (p.1 = -2 ∧ 0 ≤ p.2 ∧ p.2 < n) ∨ (0 ≤ p.1 ∧ p.1 < n ∧ p.2 = -2) ∨
      (0 ≤ p.1 ∧ p.1 < n ∧ 0 ≤ p.2 ∧ p.2 < n ∧ p.1 ≠ p.2) := by
  intro n
  obtain ⟨f, hf, rfl⟩ := List.mem_map.1 hp
  have hr : ∀ c, ExteriorCell shape o c → 0 ≤ (ExteriorGrid.make O shape o).cellIndex c ∧
      (ExteriorGrid.make O shape o).cellIndex c < n := by
    intro c hc
    obtain ⟨k, hk, he⟩ := (C21_bijection O shape o).1 c hc
    rw [he]; omega
  cases (((C22_facets O shape o hs).2 f).1 hf).1 with
  | low c i h h0 => exact .inl ⟨rfl, hr c h⟩
  | high c i h h0 => exact .inr (.inl ⟨(hr c h).1, (hr c h).2, rfl⟩)
  | mid c i h h' =>
    refine .inr (.inr ⟨(hr c h).1, (hr c h).2, (hr _ h').1, (hr _ h').2, ?_⟩)
    intro he
    rw [cellIndex_eq_G O shape o h, cellIndex_eq_G O shape o h'] at he
    have := congrFun (G_inj O shape o h h' he) i
    simp [above] at this

/-- **C23.** Without the domain boundary, every row of the incidence matrix of the exterior grid is empty
(domain facets) or has exactly one `-1` (negative side) and one `+1` (positive side), in different columns,
both of them cells of the grid. -/
theorem C23_rows_interior (O : GridOrder D) (shape : Coord D) (o : Coord D → Bool) (hs : ∀ i, 1 ≤ shape i)
    (r : ℕ) :
    let E := ExteriorGrid.make O shape o
    rowOf (boundaryTriplets E.pairs false) r = [] ∨
    ∃ a b : ℤ, E.pairs[r]? = some (a, b) ∧ a ≠ b ∧ 0 ≤ a ∧ a < E.numCells ∧ 0 ≤ b ∧ b < E.numCells ∧
      rowOf (boundaryTriplets E.pairs false) r = [((r : ℤ), a, -1), ((r : ℤ), b, 1)] := by
  intro E
  rw [rowOf_boundary]
  cases hp : E.pairs[r]? with
  | none => left; rfl
  | some p =>
    rcases exterior_pairs O shape o hs p (List.mem_of_getElem? hp) with ⟨h1, _⟩ | ⟨_, _, h1⟩ | ⟨h1, h2, h3, h4, h5⟩
    · left; simp [facetTriplets, isBoundaryPair, h1]
    · left; simp [facetTriplets, isBoundaryPair, h1]
    · right
      refine ⟨p.1, p.2, rfl, h5, h1, h2, h3, h4, ?_⟩
      have e1 : p.1 ≠ -2 := by omega
      have e2 : p.2 ≠ -2 := by omega
      simp [facetTriplets, isBoundaryPair, h1, h3, e1, e2]

/-- **C23.** With the domain boundary included, the row of a domain facet has exactly one entry — `+1` for a
low-side facet, `-1` for a high-side one — and the other rows are as before. -/
theorem C23_rows_domain (O : GridOrder D) (shape : Coord D) (o : Coord D → Bool) (hs : ∀ i, 1 ≤ shape i)
    (r : ℕ) (p : ℤ × ℤ) (hp : (ExteriorGrid.make O shape o).pairs[r]? = some p) :
    rowOf (boundaryTriplets (ExteriorGrid.make O shape o).pairs true) r =
      if p.1 = -2 then [((r : ℤ), p.2, 1)]
      else if p.2 = -2 then [((r : ℤ), p.1, -1)] else [((r : ℤ), p.1, -1), ((r : ℤ), p.2, 1)] := by
  rw [rowOf_boundary, hp]
  rcases exterior_pairs O shape o hs p (List.mem_of_getElem? hp) with
    ⟨h1, h2, _⟩ | ⟨h2, _, h1⟩ | ⟨h1, h2, h3, h4, h5⟩
  · simp [facetTriplets, h1, h2]
  · have : p.1 ≠ -2 := by omega
    simp [facetTriplets, h1, h2, this]
  · have e1 : p.1 ≠ -2 := by omega
    have e2 : p.2 ≠ -2 := by omega
    simp [facetTriplets, h1, h3, e1, e2]

/-- **C23.** For any list of facet pairs in which every non-domain facet has two cells, the incidence matrix
without the domain boundary annihilates constant fields. -/
theorem C23_kills_constants (pairs : List (ℤ × ℤ))
    (h : ∀ p ∈ pairs, isBoundaryPair p = false → 0 ≤ p.1 ∧ 0 ≤ p.2) (k : ℚ) (r : ℕ) :
    matVec (boundaryTriplets pairs false) (fun _ => k) r = 0 := by
  unfold matVec
  rw [rowOf_boundary]
  cases hp : pairs[r]? with
  | none => rfl
  | some p =>
    cases hb : isBoundaryPair p
    · have := h p (List.mem_of_getElem? hp) hb
      simp [facetTriplets, hb, this.1, this.2]
    · simp [facetTriplets, hb]

/-- **C23.** in particular the incidence matrix of the exterior grid annihilates constants. -/
theorem C23_exterior_kills_constants (O : GridOrder D) (shape : Coord D) (o : Coord D → Bool)
    (hs : ∀ i, 1 ≤ shape i) (k : ℚ) (r : ℕ) :
    matVec (boundaryTriplets (ExteriorGrid.make O shape o).pairs false) (fun _ => k) r = 0 := by
  refine C23_kills_constants _ ?_ k r
  intro p hp hb
  simp only [isBoundaryPair, Bool.or_eq_false_iff, decide_eq_false_iff_not] at hb
  rcases exterior_pairs O shape o hs p hp with h | h | h <;> omega

/-- a 2×2 grid: four interior facets, eight domain facets, and the boundary of the coordinate field `x`. -/
example : let E := ExteriorGrid.make (lexOrder 2) ![2, 2] fun _ => true
    E.pairs.length = 12 ∧ E.pairs[2]? = some (0, 2) ∧
    rowOf (boundaryTriplets E.pairs false) 2 = [(2, 0, -1), (2, 2, 1)] ∧
    matVec (boundaryTriplets E.pairs false) (fun c => c) 2 = 2 := by decide +kernel

/-! ## C29 -/

theorem boundaryFacets_throws (pairs : List (ℤ × ℤ)) (p : ℤ × ℤ) (hneg : p.2 < 0) (l : List (ℤ × ℤ)) (hp : p ∈ l) :
    boundaryFacetsLoop pairs l = none ∧ interiorFacetsLoop pairs l = none := by
  induction l with
  | nil => cases hp
  | cons q l ih =>
    obtain ⟨a, b⟩ := q
    simp only [boundaryFacetsLoop, interiorFacetsLoop]
    rcases List.mem_cons.1 hp with h | h
    · subst h
      have : isBoundaryFacet pairs b = none := by
        unfold isBoundaryFacet; rw [if_neg (by simp only at hneg; omega)]
      simp [this]
    · obtain ⟨h1, h2⟩ := ih h
      rw [h1, h2]
      cases isBoundaryFacet pairs b <;> simp

/-- **C29, defect.** If any facet has `-2` on its positive side, `boundary_facets()` and `interior_facets()`
throw `std::out_of_range` instead of returning the facets. -/
theorem C29_throws (pairs : List (ℤ × ℤ)) (p : ℤ × ℤ) (hp : p ∈ pairs) (hneg : p.2 = -2) :
    boundaryFacets pairs = none ∧ interiorFacets pairs = none :=
  boundaryFacets_throws pairs p (by omega) pairs hp

/-- **C29, defect.** In particular they throw on every exterior grid with at least two cells along each axis
that has an exterior cell on a high side of the domain. -/
theorem C29_exterior_throws (O : GridOrder D) (shape : Coord D) (o : Coord D → Bool) (hs : ∀ i, 2 ≤ shape i)
    (c : Coord D) (i : Fin D) (hc : ExteriorCell shape o c) (hi : c i = shape i - 1) :
    boundaryFacets (ExteriorGrid.make O shape o).pairs = none ∧
    interiorFacets (ExteriorGrid.make O shape o).pairs = none := by
  refine C29_throws _ ((ExteriorGrid.make O shape o).cellIndex c, -2) ?_ rfl
  exact List.mem_map.2 ⟨_, (C22_facets_exact O shape o hs _).2 (.high c i hc hi), rfl⟩

theorem boundaryFacetsLoop_spec (pairs l : List (ℤ × ℤ)) (R : List ℤ) (h : boundaryFacetsLoop pairs l = some R) (a : ℤ) :
    a ∈ R ↔ ∃ b : ℕ, (a, (b : ℤ)) ∈ l ∧ ∃ q, pairs[b]? = some q ∧ isBoundaryPair q = true := by
  induction l generalizing R with
  | nil => simp only [boundaryFacetsLoop, Option.some.injEq] at h; subst h; simp
  | cons p l ih =>
    obtain ⟨x, y⟩ := p
    simp only [boundaryFacetsLoop] at h
    split at h
    · cases h
    · rename_i bb hb
      obtain ⟨R', hR', rfl⟩ := Option.map_eq_some_iff.1 h
      have ih' := ih R' hR'
      unfold isBoundaryFacet at hb
      split at hb
      · rename_i hy
        obtain ⟨q, hq, rfl⟩ := Option.map_eq_some_iff.1 hb
        have hyn : ((y.toNat : ℕ) : ℤ) = y := by omega
        have hback : (∃ b : ℕ, (a, (b : ℤ)) ∈ (x, y) :: l ∧ ∃ q, pairs[b]? = some q ∧ isBoundaryPair q = true) ↔
            (a = x ∧ isBoundaryPair q = true) ∨ a ∈ R' := by
          rw [ih']
          constructor
          · rintro ⟨b, hb, q', hq', h3⟩
            rcases List.mem_cons.1 hb with e | e
            · simp only [Prod.mk.injEq] at e
              obtain ⟨rfl, rfl⟩ := e
              rw [Int.toNat_natCast] at hq
              rw [hq] at hq'; cases hq'
              exact .inl ⟨rfl, h3⟩
            · exact .inr ⟨b, e, q', hq', h3⟩
          · rintro (⟨rfl, h3⟩ | ⟨b, hb, h3⟩)
            · exact ⟨y.toNat, by rw [hyn]; exact List.mem_cons_self, q, hq, h3⟩
            · exact ⟨b, List.mem_cons_of_mem _ hb, h3⟩
        rw [hback]
        cases isBoundaryPair q <;> simp
      · cases hb

/-- **C29.** Exactly what `boundary_facets()` computes when it does not throw: the *negative-side cells* `a` of
the facets `(a, b)` such that facet number `b` (a *cell* index used as a facet index) is a domain facet. -/
theorem C29_boundary_facets_value (pairs : List (ℤ × ℤ)) (R : List ℤ) (h : boundaryFacets pairs = some R) (a : ℤ) :
    a ∈ R ↔ ∃ b : ℕ, (a, (b : ℤ)) ∈ pairs ∧ ∃ q, pairs[b]? = some q ∧ isBoundaryPair q = true :=
  boundaryFacetsLoop_spec pairs pairs R h a

/-- the intended answer: the indices of the domain facets. -/
def IsDomainFacetIndex (pairs : List (ℤ × ℤ)) (k : ℤ) : Prop :=
  ∃ n : ℕ, k = n ∧ ∃ p, pairs[n]? = some p ∧ (p.1 = -2 ∨ p.2 = -2)

/-- **C29, defect.** Even when it does not throw, `boundary_facets()` is not the set of domain facets: on the
1×1 grid it returns `{-2}` where facets 0 and 1 are domain facets. -/
theorem C29_boundary_facets_refuted :
    ∃ E : ExteriorGrid 2, E = ExteriorGrid.make (lexOrder 2) ![1, 1] (fun _ => true) ∧
      boundaryFacets E.pairs = some [-2, -2] ∧ IsDomainFacetIndex E.pairs 0 := by
  refine ⟨_, rfl, by decide +kernel, 0, by norm_num, (-2, 0), by decide +kernel, by norm_num⟩

theorem mem_filterMap_zipIdx (pairs : List (ℤ × ℤ)) (offset k : ℤ) (n : ℕ) :
    k ∈ ((pairs.zipIdx n).filterMap fun pi => if isBoundaryPair pi.1 then some ((pi.2 : ℤ) + offset) else none) ↔
      ∃ m : ℕ, k = ((n + m : ℕ) : ℤ) + offset ∧ ∃ p, pairs[m]? = some p ∧ isBoundaryPair p = true := by
  rw [List.mem_filterMap]
  constructor
  · rintro ⟨⟨p, m⟩, hm, h⟩
    rw [List.mem_zipIdx_iff_le_and_getElem?_sub] at hm
    split at h
    · rename_i hb
      refine ⟨m - n, ?_, p, hm.2, hb⟩
      have e := Option.some.inj h
      have h1 := hm.1
      simp only at e h1
      rw [← e]; push_cast [Nat.add_sub_cancel' h1]
      omega
    · cases h
  · rintro ⟨m, rfl, p, hp, hb⟩
    refine ⟨(p, n + m), ?_, by simp [hb]⟩
    rw [List.mem_zipIdx_iff_le_and_getElem?_sub]
    exact ⟨by simp, by simpa using hp⟩

/-- **C29.** The free function `grid_boundary_faces(db, offset)`, by contrast, returns exactly the indices of
the domain facets, shifted by the offset. -/
theorem C29_grid_boundary_faces (pairs : List (ℤ × ℤ)) (offset k : ℤ) :
    k ∈ gridBoundaryFaces pairs offset ↔ IsDomainFacetIndex pairs (k - offset) := by
  have := mem_filterMap_zipIdx pairs offset k 0
  unfold gridBoundaryFaces IsDomainFacetIndex
  rw [this]
  simp only [isBoundaryPair, Bool.or_eq_true, decide_eq_true_eq, Nat.zero_add]
  constructor
  · rintro ⟨m, rfl, h⟩; exact ⟨m, by omega, h⟩
  · rintro ⟨m, hm, h⟩; exact ⟨m, by omega, h⟩

example : gridBoundaryFaces [(-2, 0), (0, 1), (1, -2)] 10 = [10, 12] := by decide

end Mandoline
