import Verif.Ops.Surface2
import Mathlib.Tactic.Linarith

/-!
# C91: operators on the cut curve (2D): dual lengths, boundary, divergence, Laplacian

src/operators/diffgeo2.cpp:112-164.
-/
namespace Mandoline
namespace Surface2
open Finset

/-- one of the two additions of the inner loop of `surface_dual_lengths` (diffgeo2.cpp:131-135). -/
def slotLength (vols : ℤ → ℚ) (idx : ℤ) : ℚ := if 0 ≤ idx then vols idx else 0

/-- entry `v` of `surface_dual_lengths(ccm, adj)` (diffgeo2.cpp:124-139). `vols` is `edge_lengths(ccm)` (C90). -/
def dualLengths (vols : ℤ → ℚ) (adj : Adj) (v : ℤ) : ℚ :=
  (adj.map fun p => if p.1 = v then slotLength vols p.2.1 + slotLength vols p.2.2 else 0).sum / 2

/-- the triplets of `surface_boundary` (diffgeo2.cpp:141-151). -/
def surfaceTriplets (adj : Adj) : List Triplet :=
  adj.flatMap fun p => (if 0 ≤ p.2.1 then [(p.2.1, p.1, -1)] else []) ++ (if 0 ≤ p.2.2 then [(p.2.2, p.1, 1)] else [])

/-- `surface_boundary` (diffgeo2.cpp:140-155): cut edges × vertices. -/
def surfaceBoundary (nE nV : ℕ) (adj : Adj) : DynMat := .ofTriplets nE nV (surfaceTriplets adj)

/-- `surface_divergence` (diffgeo2.cpp:156-160). -/
def surfaceDivergence (nE nV : ℕ) (vols : ℤ → ℚ) (adj : Adj) : Option DynMat :=
  (surfaceBoundary nE nV adj).mul (.diag nV fun v => dualLengths vols adj v)

/-- `surface_laplacian` (diffgeo2.cpp:161-166). -/
def surfaceLaplacian (nE nV : ℕ) (vols : ℤ → ℚ) (adj : Adj) : Option DynMat :=
  ((surfaceBoundary nE nV adj).mul (.diag nV fun v => dualLengths vols adj v)).bind fun A =>
    A.mul (surfaceBoundary nE nV adj).transpose

/-! ## lookups in the adjacency -/

theorem sum_none (adj : Adj) (v : ℤ) (f : ℤ × ℤ → ℚ) (h : v ∉ adj.map Prod.fst) :
    (adj.map fun p => if p.1 = v then f p.2 else 0).sum = 0 := by
  induction adj with
  | nil => rfl
  | cons p l ih =>
    simp only [List.map_cons, List.mem_cons, not_or] at h
    rw [List.map_cons, List.sum_cons, ih h.2, if_neg (fun e => h.1 e.symm), add_zero]

theorem sum_one (adj : Adj) (v : ℤ) (pr : ℤ × ℤ) (f : ℤ × ℤ → ℚ) (hs : (adj.map Prod.fst).Pairwise (· < ·))
    (h : (v, pr) ∈ adj) : (adj.map fun p => if p.1 = v then f p.2 else 0).sum = f pr := by
  induction adj with
  | nil => simp at h
  | cons p l ih =>
    rw [List.map_cons, List.pairwise_cons] at hs
    rw [List.map_cons, List.sum_cons]
    rcases List.mem_cons.1 h with rfl | h
    · rw [sum_none l v f (fun hv => absurd (hs.1 v hv) (lt_irrefl _)), if_pos rfl, add_zero]
    · have hlt := hs.1 v (List.mem_map.2 ⟨_, h, rfl⟩)
      rw [ih hs.2 h, if_neg (ne_of_lt hlt), zero_add]

theorem entry_sum (adj : Adj) (i v : ℤ) :
    tripletEntry (surfaceTriplets adj) i v = (adj.map fun p => if p.1 = v then
      (if 0 ≤ p.2.1 ∧ p.2.1 = i then (-1 : ℚ) else 0) + (if 0 ≤ p.2.2 ∧ p.2.2 = i then 1 else 0) else 0).sum := by
  have happ : ∀ a b : List Triplet, tripletEntry (a ++ b) i v = tripletEntry a i v + tripletEntry b i v := by
    intro a b; simp [tripletEntry]
  unfold surfaceTriplets
  induction adj with
  | nil => simp [tripletEntry]
  | cons p l ih =>
    rw [List.flatMap_cons, happ, happ, ih, List.map_cons, List.sum_cons]
    congr 1
    obtain ⟨u, n, q⟩ := p
    simp only
    by_cases hu : u = v
    · subst hu
      rw [if_pos rfl]
      congr 1
      · by_cases hn : 0 ≤ n
        · by_cases hi : n = i
          · subst hi; simp [hn, tripletEntry]
          · simp [hn, hi, tripletEntry]
        · simp [hn, tripletEntry]
      · by_cases hn : 0 ≤ q
        · by_cases hi : q = i
          · subst hi; simp [hn, tripletEntry]
          · simp [hn, hi, tripletEntry]
        · simp [hn, tripletEntry]
    · rw [if_neg hu]
      split_ifs <;> simp [tripletEntry, hu]

/-- what a result of `surface_adjacency` guarantees. -/
structure Good (edges : List SEdge) (adj : Adj) : Prop where
  sorted : (adj.map Prod.fst).Pairwise (· < ·)
  keys : ∀ v, v ∈ adj.map Prod.fst ↔ incident edges v ≠ []
  holds : ∀ v pr, (v, pr) ∈ adj → Holds (incident edges v) pr

theorem good_of {edges : List SEdge} {fuel : ℕ} {adj : Adj} (hf : 2 * edges.length + 2 ≤ fuel)
    (h : surfaceAdjacency fuel edges = some adj) : Good edges adj := by
  obtain ⟨adj', h1, h2, h3, h4⟩ := C91_adjacency edges fuel hf
  rw [h1] at h
  cases h
  exact ⟨h2, h3, h4⟩

/-- a column of the boundary matrix of a vertex with at most two different pieces. -/
theorem column {edges : List SEdge} {adj : Adj} (hG : Good edges adj) (v : ℤ) (h2 : (incident edges v).length ≤ 2)
    (hnd : (incident edges v).Nodup) :
    ∃ s : ℤ → ℚ, (∀ i, tripletEntry (surfaceTriplets adj) i v = if i ∈ incident edges v then s i else 0) ∧
      (∀ i, s i * s i = 1) ∧ (∀ i ∈ incident edges v, ∀ j ∈ incident edges v, i ≠ j → s i * s j = -1) := by
  by_cases hv : incident edges v = []
  · refine ⟨fun _ => 1, fun i => ?_, fun _ => by norm_num, by rw [hv]; simp⟩
    rw [entry_sum, hv]
    have := sum_none adj v (fun pr => (if 0 ≤ pr.1 ∧ pr.1 = i then (-1 : ℚ) else 0) + (if 0 ≤ pr.2 ∧ pr.2 = i then 1 else 0))
      (fun hk => (hG.keys v).1 hk hv)
    simpa using this
  · obtain ⟨⟨v', pr⟩, hp, hv'⟩ := List.mem_map.1 ((hG.keys v).2 hv)
    simp only at hv'
    subst hv'
    have hent : ∀ i, tripletEntry (surfaceTriplets adj) i v' =
        (if 0 ≤ pr.1 ∧ pr.1 = i then (-1 : ℚ) else 0) + (if 0 ≤ pr.2 ∧ pr.2 = i then 1 else 0) := by
      intro i
      rw [entry_sum]
      exact sum_one adj v' pr (fun pr => (if 0 ≤ pr.1 ∧ pr.1 = i then (-1 : ℚ) else 0) + (if 0 ≤ pr.2 ∧ pr.2 = i then 1 else 0))
        hG.sorted hp
    have hnn : ∀ i ∈ incident edges v', 0 ≤ i := fun i hi => incident_nonneg hi
    rcases hG.holds v' pr hp with ⟨i, e, rfl | rfl⟩ | ⟨i, m, j, e, hpr⟩
    · rw [e] at hnn ⊢
      have hi := hnn i (by simp)
      refine ⟨fun _ => -1, fun k => ?_, fun _ => by norm_num, ?_⟩
      · rw [hent]
        by_cases hk : k = i
        · subst hk; simp [hi]
        · simp [hk, Ne.symm hk]
      · simp
    · rw [e] at hnn ⊢
      have hi := hnn i (by simp)
      refine ⟨fun _ => 1, fun k => ?_, fun _ => by norm_num, ?_⟩
      · rw [hent]
        by_cases hk : k = i
        · subst hk; simp [hi]
        · simp [hk, Ne.symm hk]
      · simp
    · rw [e] at h2 hnd hnn ⊢
      have hm : m = [] := by
        cases m with
        | nil => rfl
        | cons a t => simp at h2
      subst hm
      simp only [List.nil_append] at hnd hnn ⊢
      have hij : i ≠ j := by simpa using hnd
      have hi := hnn i (by simp)
      have hj := hnn j (by simp)
      rcases hpr with rfl | rfl
      · refine ⟨fun k => if k = i then -1 else 1, fun k => ?_, fun k => by simp only; split_ifs <;> norm_num, ?_⟩
        · rw [hent]
          by_cases hk : k = i
          · subst hk; simp [hi, hij.symm]
          · by_cases hk' : k = j
            · subst hk'; simp [hj, hij, hk]
            · simp [hk, hk', Ne.symm hk, Ne.symm hk']
        · intro a ha b hb hab
          simp only [List.mem_cons, List.not_mem_nil, or_false] at ha hb
          rcases ha with rfl | rfl <;> rcases hb with rfl | rfl
          · exact absurd rfl hab
          · simp [Ne.symm hab]
          · simp [hab]
          · exact absurd rfl hab
      · refine ⟨fun k => if k = i then 1 else -1, fun k => ?_, fun k => by simp only; split_ifs <;> norm_num, ?_⟩
        · rw [hent]
          by_cases hk : k = i
          · subst hk; simp [hi, hij.symm]
          · by_cases hk' : k = j
            · subst hk'; simp [hj, hij, hk]
            · simp [hk, hk', Ne.symm hk, Ne.symm hk']
        · intro a ha b hb hab
          simp only [List.mem_cons, List.not_mem_nil, or_false] at ha hb
          rcases ha with rfl | rfl <;> rcases hb with rfl | rfl
          · exact absurd rfl hab
          · simp [Ne.symm hab]
          · simp [hab]
          · exact absurd rfl hab

/-- **C91.** `surface_dual_lengths`: half the length of the only piece ending at an end of the curve, half the sum of the
lengths of the two pieces ending at an inner vertex, zero off the curve; where more than two pieces end, only the first
and the last one count. -/
theorem C91_dual_lengths {edges : List SEdge} {fuel : ℕ} {adj : Adj} (hf : 2 * edges.length + 2 ≤ fuel)
    (h : surfaceAdjacency fuel edges = some adj) (vols : ℤ → ℚ) (v : ℤ) :
    ((incident edges v).length ≤ 2 → dualLengths vols adj v = ((incident edges v).map vols).sum / 2) ∧
    (∀ i m j, incident edges v = i :: (m ++ [j]) → dualLengths vols adj v = (vols i + vols j) / 2) := by
  have hG := good_of hf h
  have key : ∀ pr, (v, pr) ∈ adj → dualLengths vols adj v = (slotLength vols pr.1 + slotLength vols pr.2) / 2 := by
    intro pr hp
    unfold dualLengths
    rw [sum_one adj v pr (fun pr => slotLength vols pr.1 + slotLength vols pr.2) hG.sorted hp]
  have long : ∀ i m j, incident edges v = i :: (m ++ [j]) → dualLengths vols adj v = (vols i + vols j) / 2 := by
    intro i m j e
    obtain ⟨⟨v', pr⟩, hp, hv'⟩ := List.mem_map.1 ((hG.keys v).2 (by rw [e]; simp))
    simp only at hv'
    subst hv'
    have hi : 0 ≤ i := incident_nonneg (edges := edges) (v := v') (by rw [e]; simp)
    have hj : 0 ≤ j := incident_nonneg (edges := edges) (v := v') (by rw [e]; simp)
    rw [key pr hp]
    rcases hG.holds v' pr hp with ⟨k, e', _⟩ | ⟨i', m', j', e', hpr⟩
    · rw [e] at e'
      have := congrArg List.length e'
      simp at this
    · rw [e] at e'
      have e1 : i = i' ∧ j = j' := by
        rw [List.cons.injEq] at e'
        exact ⟨e'.1, (List.append_inj' e'.2 rfl).2 |> fun x => by simpa using x⟩
      obtain ⟨rfl, rfl⟩ := e1
      rcases hpr with rfl | rfl
      · simp [slotLength, hi, hj]
      · simp [slotLength, hi, hj, add_comm]
  refine ⟨fun h2 => ?_, long⟩
  match hl : incident edges v, h2 with
  | [], _ =>
    unfold dualLengths
    rw [sum_none adj v (fun pr => slotLength vols pr.1 + slotLength vols pr.2) (fun hk => (hG.keys v).1 hk hl)]
    simp
  | [i], _ =>
    obtain ⟨⟨v', pr⟩, hp, hv'⟩ := List.mem_map.1 ((hG.keys v).2 (by rw [hl]; simp))
    simp only at hv'
    subst hv'
    have hi : 0 ≤ i := incident_nonneg (edges := edges) (v := v') (by rw [hl]; simp)
    rw [key pr hp]
    rcases hG.holds v' pr hp with ⟨k, e', hpr⟩ | ⟨i', m', j', e', hpr⟩
    · rw [hl] at e'
      have : i = k := by simpa using e'
      subst this
      rcases hpr with rfl | rfl <;> simp [slotLength, hi]
    · rw [hl] at e'
      have := congrArg List.length e'
      simp at this
  | [i, j], _ =>
    rw [long i [] j (by rw [hl]; rfl)]
    simp

/-- **C91.** `surface_boundary`, column of a vertex where at most two pieces end, both different: entries ±1 at the pieces
ending there, of opposite sign if there are two, zero elsewhere. -/
theorem C91_boundary {edges : List SEdge} {fuel : ℕ} {adj : Adj} (hf : 2 * edges.length + 2 ≤ fuel)
    (h : surfaceAdjacency fuel edges = some adj) (nV : ℕ) (v : ℕ) (h2 : (incident edges v).length ≤ 2)
    (hnd : (incident edges v).Nodup) :
    (∀ i : ℕ, ((i : ℤ) ∉ incident edges v → (surfaceBoundary edges.length nV adj).e i v = 0) ∧
      ((i : ℤ) ∈ incident edges v → (surfaceBoundary edges.length nV adj).e i v = 1 ∨ (surfaceBoundary edges.length nV adj).e i v = -1)) ∧
    (∀ i j : ℕ, (i : ℤ) ∈ incident edges v → (j : ℤ) ∈ incident edges v → i ≠ j →
      (surfaceBoundary edges.length nV adj).e i v + (surfaceBoundary edges.length nV adj).e j v = 0) := by
  obtain ⟨s, s1, s2, s3⟩ := column (good_of hf h) v h2 hnd
  have hs : ∀ i, s i = 1 ∨ s i = -1 := fun i => mul_self_eq_one_iff.1 (s2 i)
  refine ⟨fun i => ⟨fun hi => ?_, fun hi => ?_⟩, fun i j hi hj hij => ?_⟩
  · show tripletEntry _ _ _ = 0
    rw [s1, if_neg hi]
  · show tripletEntry _ _ _ = 1 ∨ tripletEntry _ _ _ = -1
    rw [s1, if_pos hi]; exact hs i
  · show tripletEntry _ _ _ + tripletEntry _ _ _ = 0
    rw [s1, s1, if_pos hi, if_pos hj]
    have := s3 i hi j hj (by exact_mod_cast hij)
    rcases hs i with e | e <;> rw [e] at this ⊢ <;> linarith

theorem divergence_eq (nE nV : ℕ) (vols : ℤ → ℚ) (adj : Adj) :
    ∃ A, surfaceDivergence nE nV vols adj = some A ∧ A.rows = nE ∧ A.cols = nV ∧
      ∀ i, ∀ v < nV, A.e i v = tripletEntry (surfaceTriplets adj) i v * dualLengths vols adj v := by
  refine ⟨_, if_pos rfl, rfl, rfl, ?_⟩
  intro i v hv
  simp only [DynMat.diag, surfaceBoundary, DynMat.ofTriplets]
  rw [Finset.sum_eq_single v]
  · simp
  · intro k _ hk; rw [if_neg hk, mul_zero]
  · intro hn; exact absurd (Finset.mem_range.2 hv) hn

theorem laplacian_eq (nE nV : ℕ) (vols : ℤ → ℚ) (adj : Adj) :
    ∃ L, surfaceLaplacian nE nV vols adj = some L ∧ L.rows = nE ∧ L.cols = nE ∧
      ∀ i j, L.e i j = ∑ v ∈ range nV, dualLengths vols adj v *
        (tripletEntry (surfaceTriplets adj) i v * tripletEntry (surfaceTriplets adj) j v) := by
  obtain ⟨A, hA, h1, h2, h3⟩ := divergence_eq nE nV vols adj
  unfold surfaceDivergence at hA
  refine ⟨⟨A.rows, nE, fun i j => ∑ k ∈ range A.cols, A.e i k * (surfaceBoundary nE nV adj).transpose.e k j⟩, ?_, h1, rfl, ?_⟩
  · unfold surfaceLaplacian
    rw [hA, Option.bind_some]
    unfold DynMat.mul
    rw [if_pos (by rw [h2]; rfl)]
    rfl
  · intro i j
    simp only [h2]
    refine Finset.sum_congr rfl fun r hr => ?_
    rw [h3 i r (Finset.mem_range.1 hr)]
    simp only [DynMat.transpose, surfaceBoundary, DynMat.ofTriplets]
    ring

/-- the curve has no branchings and no piece starts where it ends. -/
def Manifold (edges : List SEdge) : Prop := ∀ v, (incident edges v).length ≤ 2 ∧ (incident edges v).Nodup

/-- **C91.** On a curve without branchings `surface_laplacian` does not depend on the orientation the adjacency chose:
its entry for two pieces is the sum over the vertices both end at of half the length of the pieces there, positive on the
diagonal, negative off it. It is symmetric and positive semidefinite for non-negative lengths, and it grows in proportion
to the lengths (a Laplacian would shrink). -/
theorem C91_laplacian {edges : List SEdge} {fuel : ℕ} {adj : Adj} (hf : 2 * edges.length + 2 ≤ fuel)
    (h : surfaceAdjacency fuel edges = some adj) (hM : Manifold edges) (nV : ℕ) (vols : ℤ → ℚ) :
    ∃ L, surfaceLaplacian edges.length nV vols adj = some L ∧ L.rows = edges.length ∧ L.cols = edges.length ∧
      (∀ i j : ℕ, L.e i j = ∑ v ∈ range nV, ((incident edges v).map vols).sum / 2 *
        (if (i : ℤ) ∈ incident edges v ∧ (j : ℤ) ∈ incident edges v then (if i = j then 1 else -1) else 0)) ∧
      (∀ i j, L.e i j = L.e j i) ∧
      ((∀ i, 0 ≤ vols i) → ∀ x : ℕ → ℚ, 0 ≤ ∑ i ∈ range edges.length, x i * L.mulVec x i) ∧
      (∀ c : ℚ, ∃ L', surfaceLaplacian edges.length nV (fun i => c * vols i) adj = some L' ∧ ∀ i j, L'.e i j = c * L.e i j) := by
  obtain ⟨L, hL, h1, h2, h3⟩ := laplacian_eq edges.length nV vols adj
  have hG := good_of hf h
  have hd : ∀ (vols : ℤ → ℚ) (v : ℤ), dualLengths vols adj v = ((incident edges v).map vols).sum / 2 :=
    fun vols v => (C91_dual_lengths hf h vols v).1 (hM v).1
  refine ⟨L, hL, h1, h2, ?_, ?_, ?_, ?_⟩
  · intro i j
    rw [h3]
    refine Finset.sum_congr rfl fun v _ => ?_
    rw [hd]
    congr 1
    obtain ⟨s, s1, s2, s3⟩ := column hG v (hM v).1 (hM v).2
    rw [s1, s1]
    by_cases hi : (i : ℤ) ∈ incident edges v
    · by_cases hj : (j : ℤ) ∈ incident edges v
      · rw [if_pos hi, if_pos hj, if_pos ⟨hi, hj⟩]
        by_cases hij : i = j
        · subst hij; rw [if_pos rfl, s2]
        · rw [if_neg hij]
          exact s3 i hi j hj (by exact_mod_cast hij)
      · simp [hj]
    · simp [hi]
  · intro i j
    rw [h3, h3]
    exact Finset.sum_congr rfl fun v _ => by ring
  · intro hv x
    have e : ∑ i ∈ range edges.length, x i * L.mulVec x i = ∑ v ∈ range nV, dualLengths vols adj v *
        (∑ i ∈ range edges.length, tripletEntry (surfaceTriplets adj) i v * x i) ^ 2 := by
      unfold DynMat.mulVec
      rw [h2]
      simp only [h3, Finset.sum_mul, Finset.mul_sum]
      have e1 : ∀ v : ℕ, dualLengths vols adj v * (∑ i ∈ range edges.length, tripletEntry (surfaceTriplets adj) i v * x i) ^ 2 =
          ∑ i ∈ range edges.length, ∑ j ∈ range edges.length, dualLengths vols adj v *
            ((tripletEntry (surfaceTriplets adj) i v * x i) * (tripletEntry (surfaceTriplets adj) j v * x j)) := by
        intro v
        rw [sq, Finset.sum_mul_sum, Finset.mul_sum]
        exact Finset.sum_congr rfl fun i _ => by rw [Finset.mul_sum]
      simp only [e1]
      rw [Finset.sum_comm (s := range nV)]
      refine Finset.sum_congr rfl fun i _ => ?_
      rw [Finset.sum_comm]
      exact Finset.sum_congr rfl fun v _ => Finset.sum_congr rfl fun j _ => by ring
    rw [e]
    refine Finset.sum_nonneg fun v _ => mul_nonneg ?_ (sq_nonneg _)
    rw [hd]
    refine div_nonneg (List.sum_nonneg ?_) (by norm_num)
    intro y hy
    obtain ⟨i, _, rfl⟩ := List.mem_map.1 hy
    exact hv i
  · intro c
    obtain ⟨L', hL', _, _, h3'⟩ := laplacian_eq edges.length nV (fun i => c * vols i) adj
    refine ⟨L', hL', fun i j => ?_⟩
    rw [h3, h3', Finset.mul_sum]
    refine Finset.sum_congr rfl fun v _ => ?_
    rw [hd, hd, List.sum_map_mul_left]
    ring

/-- **C91.** On a closed curve (two pieces end at each of its vertices) the surface Laplacian maps constants to zero on
every piece. -/
theorem C91_closed {edges : List SEdge} {fuel : ℕ} {adj : Adj} (hf : 2 * edges.length + 2 ≤ fuel)
    (h : surfaceAdjacency fuel edges = some adj) (nV : ℕ) (vols : ℤ → ℚ)
    (hM : ∀ v, incident edges v = [] ∨ ∃ i j, i ≠ j ∧ incident edges v = [i, j]) :
    ∃ L, surfaceLaplacian edges.length nV vols adj = some L ∧ ∀ (c : ℚ) (i : ℕ), L.mulVec (fun _ => c) i = 0 := by
  obtain ⟨L, hL, h1, h2, h3⟩ := laplacian_eq edges.length nV vols adj
  have hG := good_of hf h
  refine ⟨L, hL, fun c i => ?_⟩
  unfold DynMat.mulVec
  rw [h2, ← Finset.sum_mul]
  have : ∑ j ∈ range edges.length, L.e i j = 0 := by
    simp only [h3]
    rw [Finset.sum_comm]
    refine Finset.sum_eq_zero fun v _ => ?_
    rw [← Finset.mul_sum, ← Finset.mul_sum]
    have hz : ∑ j ∈ range edges.length, tripletEntry (surfaceTriplets adj) j v = 0 := by
      rcases hM v with e | ⟨p, q, hpq, e⟩
      · obtain ⟨s, s1, _⟩ := column hG v (by rw [e]; simp) (by rw [e]; simp)
        refine Finset.sum_eq_zero fun j _ => ?_
        rw [s1, e]; simp
      · obtain ⟨s, s1, s2, s3⟩ := column hG v (by rw [e]; simp) (by rw [e]; simpa using hpq)
        obtain ⟨kp, ep, rfl, hkp, _⟩ := mem_incident.1 (show p ∈ incident edges v by rw [e]; simp)
        obtain ⟨kq, eq, rfl, hkq, _⟩ := mem_incident.1 (show q ∈ incident edges v by rw [e]; simp)
        have hkp' : kp < edges.length := (List.getElem?_eq_some_iff.1 hkp).1
        have hkq' : kq < edges.length := (List.getElem?_eq_some_iff.1 hkq).1
        have hne : kp ≠ kq := by exact_mod_cast hpq
        have hs := s3 kp (by rw [e]; simp) kq (by rw [e]; simp) hpq
        have hsum : s kp + s kq = 0 := by
          rcases mul_self_eq_one_iff.1 (s2 kp) with x | x <;> rw [x] at hs ⊢ <;> linarith
        rw [← Finset.sum_subset (s₁ := {kp, kq})]
        · rw [Finset.sum_pair hne, s1, s1, e]
          simpa using hsum
        · intro x hx
          simp only [Finset.mem_insert, Finset.mem_singleton] at hx
          rw [Finset.mem_range]
          rcases hx with rfl | rfl <;> assumption
        · intro x _ hx
          simp only [Finset.mem_insert, Finset.mem_singleton, not_or] at hx
          rw [s1, e, if_neg]
          simp only [List.mem_cons, List.not_mem_nil, or_false, not_or]
          exact ⟨by exact_mod_cast hx.1, by exact_mod_cast hx.2⟩
    rw [hz]; ring
  rw [this, zero_mul]

/-! ## the orientation is not consistent -/

/-- a triangle, each piece running to the start of the next one. -/
def triEdges : List SEdge := [⟨0, 1, true⟩, ⟨1, 2, true⟩, ⟨2, 0, true⟩]

/-- **C91, defect.** The walk along the curve looks at its first piece in every round, so it never gets beyond it and
the pieces are not oriented along the curve: on a triangle with sides of length one the first piece has +1 at both of its
ends, and `surface_divergence` of the constant one is two there. -/
theorem C91_orientation_refuted :
    surfaceAdjacency 10 triEdges = some [(0, (2, 0)), (1, (1, 0)), (2, (2, 1))] ∧
    (∀ v, (incident triEdges v).length ≤ 2 ∧ (incident triEdges v).Nodup) ∧
    ∃ A, surfaceDivergence 3 3 (fun _ => 1) [(0, (2, 0)), (1, (1, 0)), (2, (2, 1))] = some A ∧
      A.mulVec (fun _ => 1) 0 = 2 := by
  refine ⟨by decide +kernel, ?_, ?_⟩
  · intro v
    by_cases h0 : v = 0
    · subst h0; decide
    by_cases h1 : v = 1
    · subst h1; decide
    by_cases h2 : v = 2
    · subst h2; decide
    have : incident triEdges v = [] := by
      rw [List.eq_nil_iff_forall_not_mem]
      intro i hi
      obtain ⟨k, e, _, hk, _, hv⟩ := mem_incident.1 hi
      have he : e ∈ triEdges := List.mem_of_getElem? hk
      simp only [triEdges, List.mem_cons, List.not_mem_nil, or_false] at he
      rcases he with rfl | rfl | rfl <;> simp only at hv <;> omega
    rw [this]; simp
  · obtain ⟨A, hA, h1, h2, h3⟩ := divergence_eq 3 3 (fun _ => 1) [(0, (2, 0)), (1, (1, 0)), (2, (2, 1))]
    refine ⟨A, hA, ?_⟩
    unfold DynMat.mulVec
    rw [h2, Finset.sum_range_succ, Finset.sum_range_succ, Finset.sum_range_succ, Finset.sum_range_zero,
      h3 0 0 (by omega), h3 0 1 (by omega), h3 0 2 (by omega)]
    decide +kernel

end Surface2
end Mandoline
