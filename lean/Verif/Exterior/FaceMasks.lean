import Verif.Exterior.Boundary
import Mathlib.Data.List.Range

/-!
# C129: `boundary_face_mask()` and `interior_face_mask()` of a domain boundary (src/domain_boundary.cpp:15-31)
-/
namespace Mandoline
variable {D : ℕ}

/-- the loop `for (auto &&ind : boundary_facets()) R(ind) = v;` (domain_boundary.cpp:18-20, 27-29) on a vector with an entry per
facet; `none` = an index outside the vector (Eigen's assertion, or undefined behaviour in a release build). -/
def writeAll (v : ℚ) : List ℚ → List ℤ → Option (List ℚ)
  | R, [] => some R
  | R, k :: ks => if 0 ≤ k ∧ k < R.length then writeAll v (R.set k.toNat v) ks else none

/-- `boundary_face_mask()` (domain_boundary.cpp:15-22); `none` = exception or index out of range. -/
def domainFaceMask (pairs : List (ℤ × ℤ)) : Option (List ℚ) :=
  (boundaryFacets pairs).bind (writeAll 1 (List.replicate pairs.length 0))

/-- `interior_face_mask()` (domain_boundary.cpp:23-31); it too loops over the *boundary* facets. -/
def domainInteriorMask (pairs : List (ℤ × ℤ)) : Option (List ℚ) :=
  (boundaryFacets pairs).bind (writeAll 0 (List.replicate pairs.length 1))

theorem writeAll_spec (v : ℚ) (ks : List ℤ) (R R' : List ℚ) (h : writeAll v R ks = some R') :
    (∀ k ∈ ks, 0 ≤ k ∧ k < R.length) ∧ R'.length = R.length ∧
    ∀ n : ℕ, R'[n]? = if (n : ℤ) ∈ ks ∧ n < R.length then some v else R[n]? := by
  induction ks generalizing R with
  | nil => cases h; exact ⟨by simp, rfl, by simp⟩
  | cons k ks ih =>
    simp only [writeAll] at h
    split at h
    · rename_i hk
      obtain ⟨h1, h2, h3⟩ := ih _ h
      rw [List.length_set] at h1 h2 h3
      refine ⟨List.forall_mem_cons.2 ⟨hk, h1⟩, h2, fun n => ?_⟩
      rw [h3 n, List.getElem?_set]
      have e : (k.toNat = n) ↔ ((n : ℤ) = k) := by omega
      by_cases hn : (n : ℤ) ∈ ks
      · by_cases hl : n < R.length
        · simp [hn, hl]
        · have : R[n]? = none := List.getElem?_eq_none (by omega)
          have h4 : ¬ k.toNat = n := by omega
          simp [hl, h4]
      · by_cases he : (n : ℤ) = k
        · have hl : n < R.length := by omega
          have hk' : k.toNat < R.length := by omega
          simp [hn, e.2 he, hl, he, hk']
        · have h4 : ¬ k.toNat = n := fun h => he (e.1 h)
          simp [hn, h4, he]
    · cases h

theorem writeAll_isSome (v : ℚ) (ks : List ℤ) (R : List ℚ) :
    (writeAll v R ks).isSome ↔ ∀ k ∈ ks, 0 ≤ k ∧ k < R.length := by
  induction ks generalizing R with
  | nil => simp [writeAll]
  | cons k ks ih =>
    simp only [writeAll]
    by_cases hk : 0 ≤ k ∧ k < (R.length : ℤ)
    · rw [if_pos hk, ih, List.length_set]; simp [hk]
    · rw [if_neg hk]; simp; intro h0 h1; exact absurd ⟨h0, h1⟩ hk

/-- facet number `k` is marked: some facet `(k, b)` has as its positive side a cell whose number `b` is the number of a facet on the
side of the domain. (What is meant is "facet number `k` is on the side of the domain".) -/
def Marked (pairs : List (ℤ × ℤ)) (k : ℤ) : Prop :=
  ∃ b : ℕ, (k, (b : ℤ)) ∈ pairs ∧ ∃ q, pairs[b]? = some q ∧ (q.1 = -2 ∨ q.2 = -2)

theorem mem_boundaryFacets (pairs : List (ℤ × ℤ)) (K : List ℤ) (h : boundaryFacets pairs = some K) (k : ℤ) :
    k ∈ K ↔ Marked pairs k := by
  rw [C29_boundary_facets_value pairs K h k]
  simp [Marked, isBoundaryPair]

/-- **C129.** The two masks fail together (same exception, same bad index). -/
theorem C129_fail_together (pairs : List (ℤ × ℤ)) : (domainFaceMask pairs).isSome ↔ (domainInteriorMask pairs).isSome := by
  unfold domainFaceMask domainInteriorMask
  cases boundaryFacets pairs with
  | none => simp
  | some K => simp [writeAll_isSome]

/-- **C129.** When they return, the masks have one entry per facet, the boundary mask is 1 at the marked facets and 0 elsewhere, and
the interior mask is exactly its complement. -/
theorem C129_masks (pairs : List (ℤ × ℤ)) (B I : List ℚ) (hB : domainFaceMask pairs = some B) (hI : domainInteriorMask pairs = some I) :
    B.length = pairs.length ∧ I.length = pairs.length ∧
    ∀ n < pairs.length, (Marked pairs n → B[n]? = some 1 ∧ I[n]? = some 0) ∧ (¬ Marked pairs n → B[n]? = some 0 ∧ I[n]? = some 1) := by
  unfold domainFaceMask at hB
  unfold domainInteriorMask at hI
  cases hK : boundaryFacets pairs with
  | none => rw [hK] at hB; cases hB
  | some K =>
    rw [hK] at hB hI
    obtain ⟨_, b2, b3⟩ := writeAll_spec _ _ _ _ hB
    obtain ⟨_, i2, i3⟩ := writeAll_spec _ _ _ _ hI
    rw [List.length_replicate] at b2 i2
    refine ⟨b2, i2, fun n hn => ⟨fun hm => ?_, fun hm => ?_⟩⟩ <;>
      · rw [← mem_boundaryFacets pairs K hK] at hm
        rw [b3, i3]
        simp [hm, hn]

/-- **C129, defect.** If some facet has `-2` on its positive side, both masks throw; and if some facet `(-2, b)` lies on the low side
of the domain with `b` the number of a facet on the side of the domain, both write outside their vector. -/
theorem C129_fails (pairs : List (ℤ × ℤ)) (h : (∃ p ∈ pairs, p.2 = -2) ∨ Marked pairs (-2)) :
    domainFaceMask pairs = none ∧ domainInteriorMask pairs = none := by
  have key : domainFaceMask pairs = none := by
    rcases h with ⟨p, hp, hn⟩ | h
    · unfold domainFaceMask
      rw [(C29_throws pairs p hp hn).1]; rfl
    · unfold domainFaceMask
      cases hK : boundaryFacets pairs with
      | none => rfl
      | some K =>
        have hm := (mem_boundaryFacets pairs K hK (-2)).2 h
        rw [← Option.not_isSome_iff_eq_none]
        show ¬ (writeAll 1 _ K).isSome = true
        rw [writeAll_isSome]
        intro hall
        have := (hall _ hm).1
        omega
  refine ⟨key, ?_⟩
  have h2 := C129_fail_together pairs
  rw [key] at h2
  rw [← Option.not_isSome_iff_eq_none]
  intro h3
  have h4 := h2.2 h3
  cases h4

/-- **C129, defect.** On every exterior grid with at least two cells along each axis and an exterior cell on a high side of the domain
(for a stencil that does not touch the domain's sides: always), neither mask can be computed. -/
theorem C129_exterior_fails (O : GridOrder D) (shape : Coord D) (o : Coord D → Bool) (hs : ∀ i, 2 ≤ shape i)
    (c : Coord D) (i : Fin D) (hc : ExteriorCell shape o c) (hi : c i = shape i - 1) :
    domainFaceMask (ExteriorGrid.make O shape o).pairs = none ∧ domainInteriorMask (ExteriorGrid.make O shape o).pairs = none :=
  C129_fails _ (.inl ⟨((ExteriorGrid.make O shape o).cellIndex c, -2),
    List.mem_map.2 ⟨_, (C22_facets_exact O shape o hs _).2 (.high c i hc hi), rfl⟩, rfl⟩)

/-- **C129, defect.** The intended mask (1 exactly at the facets with a `-2` side) is not what is returned even when something is:
with facets `(0,1), (-2,0)` the mask is 1 at facet 0, which is inside, and 0 at facet 1, which is on the side of the domain. -/
theorem C129_intended_refuted :
    domainFaceMask [(0, 1), (-2, 0)] = some [1, 0] ∧ domainInteriorMask [(0, 1), (-2, 0)] = some [0, 1] ∧
    ¬ IsDomainFacetIndex [(0, 1), (-2, 0)] 0 ∧ IsDomainFacetIndex [(0, 1), (-2, 0)] 1 := by
  refine ⟨by decide +kernel, by decide +kernel, ?_, 1, by norm_num, (-2, 0), by simp, by norm_num⟩
  rintro ⟨n, hn, p, hp, h⟩
  have : n = 0 := by omega
  subst this
  simp at hp
  subst hp
  simp at h

/-- hypotheses of `C129_fails` in a 1×1 grid. -/
example : Marked (ExteriorGrid.make (lexOrder 2) ![1, 1] fun _ => true).pairs (-2) :=
  ⟨0, by decide +kernel, (-2, 0), by decide +kernel, .inl rfl⟩

end Mandoline
