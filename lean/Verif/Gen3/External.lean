import Verif.Gen3.Flags
import Mathlib.Tactic.FinCases
import Mathlib.Data.Fintype.Prod
import Mathlib.Data.Fintype.Sum

/-!
# C97: which faces get an exterior neighbour

Transcription of the second half of `CutCellGenerator<3>::compute_faces`
(src/construction/generator3_make_faces.cpp:298-361) and of `is_active_cell` (generator_impl.hpp:1089-1091).
-/
namespace Mandoline
namespace Gen3

/-- what `compute_faces` reads of the generator: `cell_shape()`, `m_active_grid_cell_mask` (`true` = not cut) and
`cell_index`. -/
structure Gen where
  cellShape : Coord 3
  mask : Coord 3 → Bool
  cellIndex : Coord 3 → ℤ

/-- `is_active_cell` (generator_impl.hpp:1089-1091). In spite of its name it tells whether the cell is in the grid and *not*
cut. -/
def Gen.isActiveCell (G : Gen) (c : Coord 3) : Bool := ValidIndex G.cellShape c && G.mask c

/-- `external_boundary` set for a face with the given mask and loops (generator3_make_faces.cpp:300-361); `pc` are the elements
of the `std::set` `possible_cells(I)` in order. The sign written here is always 0. For equal cells (which a set does not
contain) the axis loop would run out of the array; it stops at the last axis here. -/
def Gen.externalOf (G : Gen) (mask : Mask 3) (loops : List (List ℕ)) (pc : List (Coord 3)) : Option (ℤ × Bool) :=
  if mask.count = 1 then
    match pc with
    | [p, n] =>
      let idx : Fin 3 := if p 0 ≠ n 0 then 0 else if p 1 ≠ n 1 then 1 else 2
      if p idx < 0 then some (-2, false)
      else if G.cellShape idx ≤ n idx then some (-2, false)
      else if loops.length = 1 ∧ (loops.headD []).length = 4 then
        let pa := G.isActiveCell p
        let na := G.isActiveCell n
        if na ^^ pa then
          if pa then
            if ValidIndex G.cellShape p then some (G.cellIndex p, false) else some (-2, false)
          else
            if ValidIndex G.cellShape n then some (G.cellIndex n, false) else some (-2, false)
        else none
      else none
    | _ => none
  else none

/-! ## specification -/

/-- `l` lists the set `s` in the order of `std::set`. -/
def SetOrder (l : List (Coord 3)) (s : Finset (Coord 3)) : Prop :=
  l.Pairwise (fun a b => coordLtB a b = true) ∧ ∀ c, c ∈ l ↔ c ∈ s

/-- `c` is a cell of the grid that is not cut. -/
def Gen.Uncut (G : Gen) (c : Coord 3) : Prop := (∀ i, 0 ≤ c i ∧ c i < G.cellShape i) ∧ G.mask c = true

/-- the face lies in the plane `axis = k`, and in no other grid plane. -/
def InPlane (V : ℕ → Vertex 3) (loops : List (List ℕ)) (axis : Fin 3) (k : ℤ) : Prop :=
  (∀ l ∈ loops, ∀ v ∈ l, (V v).p axis = k) ∧
  ∀ j, j ≠ axis → ∀ z : ℤ, ∃ l ∈ loops, ∃ v ∈ l, (V v).p j ≠ z

/-- the two cells on the sides of plane cell `x` of plane `k`. -/
def below (axis : Fin 3) (k : ℤ) (x : Coord 3) : Coord 3 := Function.update x axis (k - 1)
def above (axis : Fin 3) (k : ℤ) (x : Coord 3) : Coord 3 := Function.update x axis k

/-! ## proofs -/

theorem count_one_iff (m : Mask 3) : m.count = 1 ↔ ∃ axis k, m axis = some k ∧ ∀ j, j ≠ axis → m j = none := by
  unfold Mask.count Mask.isBound
  have e : List.finRange 3 = [0, 1, 2] := rfl
  rw [e]
  have all : ∀ (P : Fin 3 → Prop), (∃ axis, P axis) ↔ P 0 ∨ P 1 ∨ P 2 := by
    intro P
    constructor
    · rintro ⟨a, h⟩
      match a with
      | 0 => exact Or.inl h
      | 1 => exact Or.inr (Or.inl h)
      | 2 => exact Or.inr (Or.inr h)
    · rintro (h | h | h) <;> exact ⟨_, h⟩
  have alls : ∀ (P : Fin 3 → Prop), (∀ axis, P axis) ↔ P 0 ∧ P 1 ∧ P 2 := by
    intro P
    constructor
    · exact fun h => ⟨h 0, h 1, h 2⟩
    · rintro ⟨h0, h1, h2⟩ a
      match a with
      | 0 => exact h0
      | 1 => exact h1
      | 2 => exact h2
  rw [all]
  simp only [alls]
  rcases h0 : m 0 with _ | a <;> rcases h1 : m 1 with _ | b <;> rcases h2 : m 2 with _ | c <;> simp [h0, h1, h2]

theorem lt_of_update (x : Coord 3) (axis : Fin 3) (k : ℤ) : coordLtB (below axis k x) (above axis k x) = true := by
  unfold coordLtB below above
  have e : List.finRange 3 = [0, 1, 2] := rfl
  rw [e]
  match axis with
  | 0 => simp [lexCmp]
  | 1 => simp [lexCmp]
  | 2 => simp [lexCmp]

theorem list_pair {l : List (Coord 3)} {s : Finset (Coord 3)} (h : SetOrder l s) (p n : Coord 3) (hlt : coordLtB p n = true)
    (hs : ∀ c, c ∈ s ↔ c = p ∨ c = n) : l = [p, n] := by
  have hst := strictTotal_coordLtB (D := 3)
  have h2 : ([p, n] : List (Coord 3)).Pairwise (fun a b => coordLtB a b = true) := by simp [hlt]
  have e : ∀ c, c ∈ l ↔ c ∈ [p, n] := fun c => by rw [h.2, hs]; simp
  have hnd : ∀ {l : List (Coord 3)}, l.Pairwise (fun a b => coordLtB a b = true) → l.Nodup := by
    intro l hl
    refine hl.imp fun {a b} hab hc => ?_
    rw [hc] at hab
    exact absurd hab (by rw [hst.irrefl]; simp)
  have hperm : l.Perm [p, n] := (List.perm_ext_iff_of_nodup (hnd h.1) (hnd h2)).2 e
  exact hperm.eq_of_pairwise (fun a b _ _ h1 h2 => by
    have := hst.trans a b a h1 h2
    rw [hst.irrefl] at this
    cases this) h.1 h2

/-- **C97.** A face that lies in one grid plane only and inside some grid cell has exactly two possible cells, the cells on
the two sides of the plane. -/
theorem C97_two_cells (V : ℕ → Vertex 3) (hV : ∀ i, Normalised (V i)) (loops : List (List ℕ)) (axis : Fin 3) (k : ℤ)
    (hp : InPlane V loops axis k) (x : Coord 3) (hx : ∀ l ∈ loops, ∀ v ∈ l, InClosedCell x (V v).p)
    (s : Finset (Coord 3)) (hs : genPossibleCells2 V loops = some s) (c : Coord 3) :
    c ∈ s ↔ c = below axis k x ∨ c = above axis k x := by
  have hne : loops ≠ [] := by
    rintro rfl
    obtain ⟨j, hj⟩ : ∃ j : Fin 3, j ≠ axis := ⟨axis + 1, by clear * -; revert axis; decide⟩
    obtain ⟨l, hl, -⟩ := hp.2 j hj 0
    cases hl
  rw [C11_possibleCells_loops V hV loops s hne hs]
  -- the coordinate off the axis is determined
  have huniq : ∀ d : Coord 3, (∀ l ∈ loops, ∀ v ∈ l, InClosedCell d (V v).p) → ∀ j, j ≠ axis → d j = x j := by
    intro d hd j hj
    obtain ⟨l, hl, v, hv, h1⟩ := hp.2 j hj (x j)
    obtain ⟨l', hl', v', hv', h2⟩ := hp.2 j hj (x j + 1)
    have a := hx l hl v hv j
    have b := hd l hl v hv j
    have a' := hx l' hl' v' hv' j
    have b' := hd l' hl' v' hv' j
    have c1 : (x j : ℚ) < (V v).p j := lt_of_le_of_ne a.1 (Ne.symm h1)
    have c2 : (V v').p j < x j + 1 := lt_of_le_of_ne a'.2 (by push_cast at h2; exact h2)
    have d1 : (x j : ℚ) < d j + 1 := by linarith
    have d2 : (d j : ℚ) < x j + 1 := by linarith
    norm_cast at d1 d2
    omega
  obtain ⟨j, hj⟩ : ∃ j : Fin 3, j ≠ axis := ⟨axis + 1, by clear * -; revert axis; decide⟩
  obtain ⟨l, hl, v, hv, -⟩ := hp.2 j hj 0
  constructor
  · intro hc
    have h1 := hc l hl v hv axis
    rw [hp.1 l hl v hv] at h1
    have h2 : c axis ≤ k := by exact_mod_cast h1.1
    have h3 : k ≤ c axis + 1 := by exact_mod_cast h1.2
    have hfix : ∀ z, c axis = z → c = Function.update x axis z := by
      intro z hz
      funext i
      by_cases hi : i = axis
      · subst hi; rw [Function.update_self]; exact hz
      · rw [Function.update_of_ne hi]; exact huniq c hc i hi
    rcases (show c axis = k - 1 ∨ c axis = k by omega) with h | h
    · exact Or.inl (hfix _ h)
    · exact Or.inr (hfix _ h)
  · have hin : ∀ z : ℤ, (z : ℚ) ≤ k → (k : ℚ) ≤ z + 1 → ∀ l ∈ loops, ∀ v ∈ l, InClosedCell (Function.update x axis z) (V v).p := by
      intro z z1 z2 l hl v hv i
      by_cases hi : i = axis
      · subst hi; rw [Function.update_self, hp.1 l hl v hv]; exact ⟨z1, z2⟩
      · rw [Function.update_of_ne hi]; exact hx l hl v hv i
    rintro (rfl | rfl)
    · exact hin (k - 1) (by push_cast; linarith) (by push_cast; linarith)
    · exact hin k le_rfl (by linarith)

theorem idx_eq (axis : Fin 3) (k : ℤ) (x : Coord 3) :
    (if below axis k x 0 ≠ above axis k x 0 then (0 : Fin 3) else if below axis k x 1 ≠ above axis k x 1 then 1 else 2) = axis := by
  unfold below above
  match axis with
  | 0 => simp
  | 1 => simp
  | 2 => simp

/-- **C97.** The exterior neighbour recorded for a face that lies in the grid plane `axis = k` and between the cells `below`
and `above`: the outside of the domain (`-2`) on the first and last plane of the grid; otherwise, for a face that is a
single loop of four vertices, the one of the two cells that is in the grid and not cut, if exactly one is; nothing in all
other cases. -/
theorem C97_external (G : Gen) (V : ℕ → Vertex 3) (hV : ∀ i, Normalised (V i)) (loops : List (List ℕ)) (hl : ∀ l ∈ loops, l ≠ [])
    (axis : Fin 3) (k : ℤ) (hp : InPlane V loops axis k) (x : Coord 3) (hx : ∀ l ∈ loops, ∀ v ∈ l, InClosedCell x (V v).p)
    (s : Finset (Coord 3)) (hs : genPossibleCells2 V loops = some s) (pc : List (Coord 3)) (hpc : SetOrder pc s) :
    ((k ≤ 0 ∨ G.cellShape axis ≤ k) →
      G.externalOf (faceMask2 (fun i => (V i).mask) loops) loops pc = some (-2, false)) ∧
    (0 < k → k < G.cellShape axis →
      ((∃ l, loops = [l] ∧ l.length = 4) → G.Uncut (below axis k x) → ¬ G.Uncut (above axis k x) →
        G.externalOf (faceMask2 (fun i => (V i).mask) loops) loops pc = some (G.cellIndex (below axis k x), false)) ∧
      ((∃ l, loops = [l] ∧ l.length = 4) → ¬ G.Uncut (below axis k x) → G.Uncut (above axis k x) →
        G.externalOf (faceMask2 (fun i => (V i).mask) loops) loops pc = some (G.cellIndex (above axis k x), false)) ∧
      (¬ (∃ l, loops = [l] ∧ l.length = 4) ∨ (G.Uncut (below axis k x) ↔ G.Uncut (above axis k x)) →
        G.externalOf (faceMask2 (fun i => (V i).mask) loops) loops pc = none)) := by
  have hne : loops ≠ [] := by
    rintro rfl
    obtain ⟨j, hj⟩ : ∃ j : Fin 3, j ≠ axis := ⟨axis + 1, by clear * -; revert axis; decide⟩
    obtain ⟨l, hl, -⟩ := hp.2 j hj 0
    cases hl
  have hcount : (faceMask2 (fun i => (V i).mask) loops).count = 1 := by
    rw [count_one_iff]
    refine ⟨axis, k, (C12_face_mask_loops V hV loops hne hl axis k).2 hp.1, fun j hj => ?_⟩
    by_contra hn
    obtain ⟨z, hz⟩ := Option.ne_none_iff_exists'.1 hn
    have := (C12_face_mask_loops V hV loops hne hl j z).1 hz
    obtain ⟨l, hl, v, hv, hne⟩ := hp.2 j hj z
    exact hne (this l hl v hv)
  have hpair : pc = [below axis k x, above axis k x] :=
    list_pair hpc _ _ (lt_of_update x axis k) (C97_two_cells V hV loops axis k hp x hx s hs)
  have hact : ∀ c, G.isActiveCell c = true ↔ G.Uncut c := by
    intro c
    unfold Gen.isActiveCell Gen.Uncut
    rw [Bool.and_eq_true, validIndex_iff]
  have hval : ∀ c, G.isActiveCell c = true → ValidIndex G.cellShape c = true := by
    intro c h
    unfold Gen.isActiveCell at h
    rw [Bool.and_eq_true] at h
    exact h.1
  have h1 : below axis k x axis = k - 1 := by unfold below; rw [Function.update_self]
  have h2 : above axis k x axis = k := by unfold above; rw [Function.update_self]
  have hfour : (loops.length = 1 ∧ (loops.headD []).length = 4) ↔ ∃ l, loops = [l] ∧ l.length = 4 := by
    constructor
    · rintro ⟨a, b⟩
      obtain ⟨l, rfl⟩ := List.length_eq_one_iff.1 a
      exact ⟨l, rfl, b⟩
    · rintro ⟨l, rfl, h⟩; exact ⟨rfl, h⟩
  subst hpair
  unfold Gen.externalOf
  rw [if_pos hcount]
  dsimp only
  rw [idx_eq, h1, h2]
  constructor
  · rintro (h | h)
    · rw [if_pos (by omega)]
    · by_cases h' : k - 1 < 0
      · rw [if_pos h']
      · rw [if_neg h', if_pos h]
  · intro hk1 hk2
    rw [if_neg (by omega), if_neg (by omega)]
    refine ⟨fun h4 hb ha => ?_, fun h4 hb ha => ?_, fun h => ?_⟩
    · rw [if_pos (hfour.2 h4)]
      have e1 := (hact _).2 hb
      have e2 : G.isActiveCell (above axis k x) = false := by rw [← Bool.not_eq_true, hact]; exact ha
      rw [e1, e2, if_pos (by rfl), if_pos rfl, if_pos (hval _ e1)]
    · rw [if_pos (hfour.2 h4)]
      have e1 : G.isActiveCell (below axis k x) = false := by rw [← Bool.not_eq_true, hact]; exact hb
      have e2 := (hact _).2 ha
      rw [e1, e2, if_pos (by rfl), if_neg (by simp), if_pos (hval _ e2)]
    · by_cases h4 : ∃ l, loops = [l] ∧ l.length = 4
      · rw [if_pos (hfour.2 h4)]
        have hiff := h.resolve_left (not_not.2 h4)
        rw [← hact, ← hact] at hiff
        have : G.isActiveCell (above axis k x) = G.isActiveCell (below axis k x) := by
          rw [Bool.eq_iff_iff]; exact hiff.symm
        rw [this, Bool.xor_self, if_neg (by simp)]
      · rw [if_neg (fun hh => h4 (hfour.1 hh))]

/-- **C97.** Faces that do not lie in a grid plane, or lie in two of them, or are in no grid cell, get no exterior
neighbour. -/
theorem C97_no_external (G : Gen) (V : ℕ → Vertex 3) (hV : ∀ i, Normalised (V i)) (loops : List (List ℕ)) (hne : loops ≠ [])
    (hl : ∀ l ∈ loops, l ≠ []) (s : Finset (Coord 3)) (hs : genPossibleCells2 V loops = some s) (pc : List (Coord 3))
    (hpc : SetOrder pc s)
    (h : (∀ axis k, ¬ InPlane V loops axis k) ∨ ∀ x, ¬ ∀ l ∈ loops, ∀ v ∈ l, InClosedCell x (V v).p) :
    G.externalOf (faceMask2 (fun i => (V i).mask) loops) loops pc = none := by
  unfold Gen.externalOf
  rcases h with h | h
  · rw [if_neg]
    rw [count_one_iff]
    rintro ⟨axis, k, h1, h2⟩
    refine h axis k ⟨(C12_face_mask_loops V hV loops hne hl axis k).1 h1, fun j hj z => ?_⟩
    by_contra hn
    push Not at hn
    have := (C12_face_mask_loops V hV loops hne hl j z).2 hn
    rw [h2 j hj] at this
    cases this
  · have : pc = [] := by
      rw [List.eq_nil_iff_forall_not_mem]
      intro c hc
      exact h c ((C11_possibleCells_loops V hV loops s hne hs c).1 ((hpc.2 c).1 hc))
    subst this
    split <;> rfl

/-! ### the test for four vertices loses nothing -/

/-- one step between corners of a square flips exactly one coordinate. -/
def CornerStep (a b : Bool × Bool) : Prop := (a.1 ≠ b.1 ∧ a.2 = b.2) ∨ (a.1 = b.1 ∧ a.2 ≠ b.2)

/-- **C97.** A face next to a cell without cut vertices has only grid vertices; if its loops have no repeated vertices, at
least three vertices each, and go along grid lines, it is one loop of four vertices: the test on the number of vertices
excludes no such face. -/
theorem C97_four_vertices (V : ℕ → Vertex 3) (loops : List (List ℕ)) (hne : loops ≠ []) (axis : Fin 3) (k : ℤ)
    (hk : ∀ l ∈ loops, ∀ v ∈ l, (V v).p axis = k)
    (x : Coord 3) (hx : ∀ l ∈ loops, ∀ v ∈ l, InClosedCell x (V v).p)
    (hgrid : ∀ l ∈ loops, ∀ v ∈ l, ∀ j, IntegralAt (V v).p j) (hinj : ∀ l ∈ loops, ∀ v ∈ l, ∀ l' ∈ loops, ∀ w ∈ l', (V v).p = (V w).p → v = w)
    (hnd : loops.flatten.Nodup) (hlen : ∀ l ∈ loops, 2 < l.length)
    (hline : ∀ l ∈ loops, ∀ i (h : i < l.length), ∃ j, ∀ m, m ≠ j →
      (V l[i]).p m = (V (l[(i + 1) % l.length]'(Nat.mod_lt _ (by omega)))).p m) :
    ∃ l, loops = [l] ∧ l.length = 4 := by
  have hax : ∀ j : Fin 3, j = axis ∨ j = axis + 1 ∨ j = axis + 2 := by clear * -; revert axis; decide
  have hne12 : axis + 1 ≠ axis ∧ axis + 2 ≠ axis ∧ axis + 1 ≠ axis + 2 := by clear * -; revert axis; decide
  let key : ℕ → Bool × Bool := fun v => (decide ((V v).p (axis + 1) = x (axis + 1)), decide ((V v).p (axis + 2) = x (axis + 2)))
  have hcorner : ∀ l ∈ loops, ∀ v ∈ l, ∀ j, (V v).p j = x j ∨ (V v).p j = x j + 1 := by
    intro l hl v hv j
    obtain ⟨z, hz⟩ := hgrid l hl v hv j
    have h := hx l hl v hv j
    rw [hz] at h ⊢
    have h1 : x j ≤ z := by exact_mod_cast h.1
    have h2 : z ≤ x j + 1 := by exact_mod_cast h.2
    rcases (show z = x j ∨ z = x j + 1 by omega) with h | h
    · left; rw [h]
    · right; rw [h]; push_cast; rfl
  have hkey : ∀ l ∈ loops, ∀ v ∈ l, ∀ l' ∈ loops, ∀ w ∈ l', key v = key w → v = w := by
    intro l hl v hv l' hl' w hw he
    refine hinj l hl v hv l' hl' w hw ?_
    simp only [key, Prod.mk.injEq, decide_eq_decide] at he
    funext j
    rcases hax j with h | h | h
    · subst h; rw [hk l hl v hv, hk l' hl' w hw]
    · subst h
      rcases hcorner l hl v hv (axis + 1) with h1 | h1
      · rw [h1, he.1.1 h1]
      · rcases hcorner l' hl' w hw (axis + 1) with h2 | h2
        · rw [h2, he.1.2 h2]
        · rw [h1, h2]
    · subst h
      rcases hcorner l hl v hv (axis + 2) with h1 | h1
      · rw [h1, he.2.1 h1]
      · rcases hcorner l' hl' w hw (axis + 2) with h2 | h2
        · rw [h2, he.2.2 h2]
        · rw [h1, h2]
  have htotal : loops.flatten.length ≤ 4 := by
    have h1 : (loops.flatten.map key).Nodup := by
      refine List.Nodup.map_on ?_ hnd
      intro v hv w hw he
      obtain ⟨l, hl, hv⟩ := List.mem_flatten.1 hv
      obtain ⟨l', hl', hw⟩ := List.mem_flatten.1 hw
      exact hkey l hl v hv l' hl' w hw he
    have h2 := h1.length_le_card
    rw [List.length_map] at h2
    exact h2
  -- one loop only
  obtain ⟨l, ls, rfl⟩ := List.exists_cons_of_ne_nil hne
  have hls : ls = [] := by
    cases ls with
    | nil => rfl
    | cons l' ls =>
      have h1 := hlen l (by simp)
      have h2 := hlen l' (by simp)
      simp at htotal
      omega
  subst hls
  have hl4 : l.length ≤ 4 := by simpa using htotal
  have hl3 := hlen l (by simp)
  refine ⟨l, rfl, ?_⟩
  -- the steps
  have hstep : ∀ i (h : i < l.length), CornerStep (key l[i]) (key (l[(i + 1) % l.length]'(Nat.mod_lt _ (by omega)))) := by
    intro i h
    obtain ⟨j, hj⟩ := hline l (by simp) i h
    have hd : key l[i] ≠ key (l[(i + 1) % l.length]'(Nat.mod_lt _ (by omega))) := by
      intro he
      have := hkey l (by simp) _ (List.getElem_mem h) l (by simp) _ (List.getElem_mem (Nat.mod_lt _ (by omega))) he
      have hnd' : l.Nodup := by simpa using hnd
      have := (List.Nodup.getElem_inj_iff hnd').1 this
      by_cases hw : i + 1 < l.length
      · rw [Nat.mod_eq_of_lt hw] at this; omega
      · have hw' : i + 1 = l.length := by omega
        simp only [hw', Nat.mod_self] at this
        omega
    unfold CornerStep
    by_cases h1 : (key l[i]).1 = (key (l[(i + 1) % l.length]'(Nat.mod_lt _ (by omega)))).1
    · exact Or.inr ⟨h1, fun h2 => hd (Prod.ext h1 h2)⟩
    · refine Or.inl ⟨h1, ?_⟩
      by_contra h2
      have hj1 : j = axis + 1 := by
        by_contra hn
        exact h1 (by simp only [key]; rw [hj (axis + 1) (Ne.symm hn)])
      have hj2 : j = axis + 2 := by
        by_contra hn
        exact h2 (by simp only [key]; rw [hj (axis + 2) (Ne.symm hn)])
      exact hne12.2.2 (hj1.symm.trans hj2)
  have hodd : l.length ≠ 3 := by
    intro h3
    have s0 := hstep 0 (by omega)
    have s1 := hstep 1 (by omega)
    have s2 := hstep 2 (by omega)
    have e0 : (0 + 1) % l.length = 1 := by rw [h3]
    have e1 : (1 + 1) % l.length = 2 := by rw [h3]
    have e2 : (2 + 1) % l.length = 0 := by rw [h3]
    simp only [e0] at s0
    simp only [e1] at s1
    simp only [e2] at s2
    clear * - s0 s1 s2
    generalize key l[0] = a at *
    generalize key l[1] = b at *
    generalize key l[2] = c at *
    unfold CornerStep at *
    revert a b c
    decide
  omega

-- non-vacuity: a grid with 2 x 1 x 1 cells, only cell (0,0,0) cut; vertices 0..3 are the corners of the square between the
-- two cells, 4..7 those of the first plane
def demoGen : Gen where
  cellShape := ![2, 1, 1]
  mask := fun c => decide (c = ![1, 0, 0])
  cellIndex := linIndex 3 ![2, 1, 1]

def demoV3 (i : ℕ) : Vertex 3 :=
  Vertex.ofCoord ![if i < 4 then 1 else 0, if i % 4 = 1 ∨ i % 4 = 2 then 1 else 0, if i % 4 = 2 ∨ i % 4 = 3 then 1 else 0]

theorem demoV3_normalised (i : ℕ) : Normalised (demoV3 i) := fun j => ⟨le_refl _, by norm_num [demoV3, Vertex.ofCoord]⟩

example : genPossibleCells2 demoV3 [[0, 1, 2, 3]] = some {![0, 0, 0], ![1, 0, 0]} := by decide +kernel

theorem demo_inPlane : InPlane demoV3 [[0, 1, 2, 3]] 0 1 := by
  constructor
  · intro l hl v hv
    rw [List.mem_singleton] at hl; subst hl
    simp only [List.mem_cons, List.not_mem_nil, or_false] at hv
    rcases hv with rfl | rfl | rfl | rfl <;> decide +kernel
  · intro j hj z
    refine ⟨_, List.mem_singleton_self _, ?_⟩
    by_cases hz : z = 0
    · subst hz
      refine ⟨2, by simp, ?_⟩
      match j with
      | 0 => exact absurd rfl hj
      | 1 => decide +kernel
      | 2 => decide +kernel
    · refine ⟨0, by simp, fun h => hz ?_⟩
      have h0 : (demoV3 0).p j = 0 := by
        match j with
        | 0 => exact absurd rfl hj
        | 1 => decide +kernel
        | 2 => decide +kernel
      rw [h0] at h
      exact_mod_cast h.symm

example : demoGen.externalOf (faceMask2 (fun i => (demoV3 i).mask) [[0, 1, 2, 3]]) [[0, 1, 2, 3]] [![0, 0, 0], ![1, 0, 0]] =
    some (1, false) := by decide +kernel

example : demoGen.Uncut ![1, 0, 0] ∧ ¬ demoGen.Uncut ![0, 0, 0] := by
  refine ⟨⟨fun i => ?_, by decide +kernel⟩, fun h => absurd h.2 (by decide +kernel)⟩
  match i with
  | 0 => decide
  | 1 => decide
  | 2 => decide

end Gen3
end Mandoline
