import Verif.Cell.Model
import Verif.Core.OMap
import Mathlib.Tactic.Linarith

/-!
# C85: regions and the mesh faces around each region (3D)

`CutCellMesh<3>::regions`, `face_regions`, `orig_face_regions`, `cell_faces`, `boundary_faces` (src/mesh3.cpp:124-228).
-/
namespace Mandoline
namespace Regions3

/-- one step of the count in `regions(true)` (src/mesh3.cpp:175-181). -/
def countStep (isMesh : ℤ → Bool) (k : ℤ × ℤ) (p : ℤ × Bool) : ℤ × ℤ :=
  if isMesh p.1 then (if p.2 then (k.1 + 1, k.2) else (k.1, k.2 + 1)) else k

/-- the region given to one cut cell by `regions(true)` (src/mesh3.cpp:174-189), `isMesh` being `is_mesh_face`. -/
def signRegion (isMesh : ℤ → Bool) (c : List (ℤ × Bool)) : ℤ :=
  let k := c.foldl (countStep isMesh) (0, 0)
  if k.1 + k.2 > 0 then (if k.1 > k.2 then 2 else 3) else 1

/-- `regions(true)` (src/mesh3.cpp:170-189) of a mesh with `n` cells: all cells start with 1. -/
def signRegions (isMesh : ℤ → Bool) (cells : List (List (ℤ × Bool))) (n : ℕ) : List ℤ :=
  cells.zipIdx.foldl (fun R ck =>
    if signRegion isMesh ck.1 = 1 then R else R.set ck.2 (signRegion isMesh ck.1)) (List.replicate n 1)

/-- `cell_faces(index)` (src/mesh3.cpp:135-144). -/
def cellFaces (c : List (ℤ × Bool)) : List ℤ := c.foldl (fun s p => setInsert intLt p.1 s) []

/-- `boundary_faces()` (src/mesh3.cpp:162-168): `keys` are the keys of `m_mesh_cut_faces`, `n` the number of faces. `none`
for a write out of bounds. -/
def boundaryFaces (n : ℕ) (keys : List ℤ) : Option (List Bool) :=
  keys.foldl (fun (R : Option (List Bool)) k => R.bind fun R =>
    if 0 ≤ k ∧ k < (R.length : ℤ) then some (R.set k.toNat true) else none) (some (List.replicate n false))

/-- sets of faces on the two sides of a region: `std::array<std::set<int>, 2>`. -/
abbrev Sides := List ℤ × List ℤ

/-- `rset[s ? 0 : 1].insert(fidx)` (src/mesh3.cpp:209-211). -/
def addSide (isMesh : ℤ → Bool) (S : Sides) (p : ℤ × Bool) : Sides :=
  if isMesh p.1 then (if p.2 then (setInsert intLt p.1 S.1, S.2) else (S.1, setInsert intLt p.1 S.2)) else S

/-- `face_regions()` (src/mesh3.cpp:200-214): `R` is `regions()`, `isMesh f` is `faces()[f].is_mesh_face()`. `none` for an
undefined access: no cell at all, a cell without region, a region out of range. -/
def faceRegions (isMesh : ℤ → Bool) (R : List ℤ) (cells : List (List (ℤ × Bool))) : Option (List Sides) :=
  match R.max? with
  | none => none
  | some m =>
    cells.zipIdx.foldl (fun (ret : Option (List Sides)) ck =>
      ck.1.foldl (fun (ret : Option (List Sides)) p => ret.bind fun ret =>
        match R[ck.2]? with
        | none => none
        | some r => if 0 ≤ r ∧ r < (ret.length : ℤ) then some (ret.modify r.toNat fun S => addSide isMesh S p) else none)
        ret) (some (List.replicate (m + 1).toNat ([], [])))

/-- `orig_face_regions()` (src/mesh3.cpp:215-228): `orig f` is `faces()[f].as_face_id()`. -/
def origFaceRegions (orig : ℤ → ℤ) (F : List Sides) : List Sides :=
  F.map fun S => (S.1.foldl (fun s f => setInsert intLt (orig f) s) [], S.2.foldl (fun s f => setInsert intLt (orig f) s) [])

/-! ## specification -/

/-- cut cell number `k` has the face `f` on its boundary with sign `s`. -/
def HasFace (cells : List (List (ℤ × Bool))) (k : ℕ) (f : ℤ) (s : Bool) : Prop := ∃ c, cells[k]? = some c ∧ (f, s) ∈ c

/-- number of mesh faces on the boundary `c` with sign `s`. -/
def numSide (isMesh : ℤ → Bool) (c : List (ℤ × Bool)) (s : Bool) : ℕ :=
  (c.filter fun p => isMesh p.1 && p.2 == s).length

/-- the side of a region named by a sign. -/
def side (S : Sides) (s : Bool) : List ℤ := if s then S.1 else S.2

/-! ## sets -/

/-- inserting keeps a `std::set<int>` strictly increasing. -/
theorem sorted_setInsert (x : ℤ) (l : List ℤ) (h : l.Pairwise (· < ·)) : (setInsert intLt x l).Pairwise (· < ·) := by
  induction l with
  | nil => simp [setInsert]
  | cons y l ih =>
    rw [List.pairwise_cons] at h
    unfold setInsert
    by_cases h1 : x < y
    · rw [if_pos (by simpa [intLt] using h1), List.pairwise_cons]
      refine ⟨?_, List.pairwise_cons.2 h⟩
      intro z hz
      rcases List.mem_cons.1 hz with rfl | hz
      · exact h1
      · exact h1.trans (h.1 z hz)
    · rw [if_neg (by simpa [intLt] using h1)]
      by_cases h2 : y < x
      · rw [if_pos (by simpa [intLt] using h2), List.pairwise_cons]
        refine ⟨?_, ih h.2⟩
        intro z hz
        rcases (mem_setInsert strictTotal_intLt _ _ _).1 hz with rfl | hz
        · exact h2
        · exact h.1 z hz
      · rw [if_neg (by simpa [intLt] using h2)]
        exact List.pairwise_cons.2 h

/-- filling a set with the images of a list. -/
theorem fill_set {α : Type*} (g : α → ℤ) (l : List α) (s : List ℤ) (hs : s.Pairwise (· < ·)) :
    (l.foldl (fun s p => setInsert intLt (g p) s) s).Pairwise (· < ·) ∧
    ∀ x, x ∈ l.foldl (fun s p => setInsert intLt (g p) s) s ↔ x ∈ s ∨ ∃ p ∈ l, g p = x := by
  induction l generalizing s with
  | nil => exact ⟨hs, fun x => by simp⟩
  | cons a l ih =>
    rw [List.foldl_cons]
    obtain ⟨h1, h2⟩ := ih _ (sorted_setInsert (g a) s hs)
    refine ⟨h1, fun x => ?_⟩
    rw [h2, mem_setInsert strictTotal_intLt]
    simp only [List.mem_cons]
    constructor
    · rintro ((rfl | h) | ⟨p, hp, h⟩)
      · exact Or.inr ⟨a, Or.inl rfl, rfl⟩
      · exact Or.inl h
      · exact Or.inr ⟨p, Or.inr hp, h⟩
    · rintro (h | ⟨p, rfl | hp, h⟩)
      · exact Or.inl (Or.inr h)
      · exact Or.inl (Or.inl h.symm)
      · exact Or.inr ⟨p, hp, h⟩

/-! ## regions(true) -/

theorem count_fold (isMesh : ℤ → Bool) (c : List (ℤ × Bool)) (k : ℤ × ℤ) :
    c.foldl (countStep isMesh) k = (k.1 + numSide isMesh c true, k.2 + numSide isMesh c false) := by
  induction c generalizing k with
  | nil => simp [numSide]
  | cons p c ih =>
    rw [List.foldl_cons, ih]
    obtain ⟨f, s⟩ := p
    unfold countStep numSide
    cases hm : isMesh f <;> cases s <;> simp [hm, List.filter_cons] <;> ring_nf

/-- **C85.** the sign region of a cut cell: 1 if it has no face of the input surface, 2 if it has more such faces with
positive than with negative sign, 3 otherwise. -/
theorem C85_sign_region (isMesh : ℤ → Bool) (c : List (ℤ × Bool)) :
    (signRegion isMesh c = 1 ↔ ∀ p ∈ c, isMesh p.1 = false) ∧
    (signRegion isMesh c = 2 ↔ (c.filter fun p => isMesh p.1 && !p.2).length < (c.filter fun p => isMesh p.1 && p.2).length) ∧
    (signRegion isMesh c = 1 ∨ signRegion isMesh c = 2 ∨ signRegion isMesh c = 3) := by
  have hT : numSide isMesh c true = (c.filter fun p => isMesh p.1 && p.2).length := by simp [numSide]
  have hF : numSide isMesh c false = (c.filter fun p => isMesh p.1 && !p.2).length := by simp [numSide]
  have h0 : numSide isMesh c true + numSide isMesh c false = 0 ↔ ∀ p ∈ c, isMesh p.1 = false := by
    rw [hT, hF]
    constructor
    · intro h p hp
      have h1 : (c.filter fun p => isMesh p.1 && p.2) = [] := List.eq_nil_of_length_eq_zero (by omega)
      have h2 : (c.filter fun p => isMesh p.1 && !p.2) = [] := List.eq_nil_of_length_eq_zero (by omega)
      rw [List.filter_eq_nil_iff] at h1 h2
      have := h1 p hp
      have := h2 p hp
      cases hm : isMesh p.1
      · rfl
      · cases hb : p.2 <;> simp_all
    · intro h
      have h1 : (c.filter fun p => isMesh p.1 && p.2) = [] := by
        rw [List.filter_eq_nil_iff]; intro p hp; simp [h p hp]
      have h2 : (c.filter fun p => isMesh p.1 && !p.2) = [] := by
        rw [List.filter_eq_nil_iff]; intro p hp; simp [h p hp]
      rw [h1, h2]; rfl
  rw [← h0, ← hT, ← hF]
  unfold signRegion
  rw [count_fold]
  simp only [zero_add]
  refine ⟨?_, ?_, ?_⟩
  · split_ifs <;> constructor <;> intro h <;> first | omega | rfl
  · split_ifs <;> constructor <;> intro h <;> first | omega | rfl
  · split_ifs <;> simp

theorem sign_fold (isMesh : ℤ → Bool) (cells : List (List (ℤ × Bool))) (a : ℕ) (R : List ℤ) (hR : a + cells.length ≤ R.length)
    (h1 : ∀ k, a ≤ k → k < R.length → R[k]? = some 1) :
    let R' := (cells.zipIdx a).foldl (fun R ck =>
      if signRegion isMesh ck.1 = 1 then R else R.set ck.2 (signRegion isMesh ck.1)) R
    R'.length = R.length ∧ (∀ k, k < a → R'[k]? = R[k]?) ∧
    (∀ (k : ℕ) c, cells[k]? = some c → R'[a + k]? = some (signRegion isMesh c)) ∧
    (∀ k, a + cells.length ≤ k → k < R.length → R'[k]? = some 1) := by
  induction cells generalizing a R with
  | nil => exact ⟨rfl, fun _ _ => rfl, fun k c h => by simp at h, fun k hk hk2 => h1 k (by simpa using hk) hk2⟩
  | cons c cells ih =>
    intro R'
    rw [List.length_cons] at hR
    set Ra := if signRegion isMesh c = 1 then R else R.set a (signRegion isMesh c) with hRa
    have hlen : Ra.length = R.length := by rw [hRa]; split_ifs <;> simp
    have hat : Ra[a]? = some (signRegion isMesh c) := by
      rw [hRa]; split_ifs with hc
      · rw [hc]; exact h1 a le_rfl (by omega)
      · rw [List.getElem?_set_self (by omega)]
    have hne : ∀ k, k ≠ a → Ra[k]? = R[k]? := by
      intro k hk
      rw [hRa]; split_ifs
      · rfl
      · rw [List.getElem?_set_ne (by omega)]
    obtain ⟨e1, e2, e3, e4⟩ := ih (a + 1) Ra (by omega) (fun k hk hk2 => by rw [hne k (by omega)]; exact h1 k (by omega) (by omega))
    have hR' : R' = (cells.zipIdx (a + 1)).foldl (fun R ck =>
      if signRegion isMesh ck.1 = 1 then R else R.set ck.2 (signRegion isMesh ck.1)) Ra := by
      simp only [R', List.zipIdx_cons, List.foldl_cons, hRa]
    rw [hR']
    refine ⟨by rw [e1, hlen], ?_, ?_, ?_⟩
    · intro k hk
      rw [e2 k (by omega), hne k (by omega)]
    · intro k d hk
      cases k with
      | zero =>
        simp only [List.getElem?_cons_zero, Option.some.injEq] at hk
        subst hk
        exact (e2 a (by omega)).trans hat
      | succ k =>
        rw [List.getElem?_cons_succ] at hk
        rw [show a + (k + 1) = a + 1 + k by omega]
        exact e3 k d hk
    · intro k hk hk2
      rw [List.length_cons] at hk
      exact e4 k (by omega) (by omega)

/-- **C85.** `regions(true)` gives every cut cell its sign region, and every other cell region 1. -/
theorem C85_sign_regions (isMesh : ℤ → Bool) (cells : List (List (ℤ × Bool))) (n : ℕ) (hn : cells.length ≤ n) :
    (signRegions isMesh cells n).length = n ∧
    (∀ (k : ℕ) c, cells[k]? = some c → (signRegions isMesh cells n)[k]? = some (signRegion isMesh c)) ∧
    (∀ k, cells.length ≤ k → k < n → (signRegions isMesh cells n)[k]? = some 1) := by
  obtain ⟨h1, -, h3, h4⟩ := sign_fold isMesh cells 0 (List.replicate n 1) (by simpa using hn)
    (fun k _ hk => by rw [List.getElem?_replicate, if_pos (by simpa using hk)])
  refine ⟨by simpa [signRegions] using h1, fun k c hk => by simpa [signRegions] using h3 k c hk, fun k hk hk2 => ?_⟩
  exact h4 k (by omega) (by simpa using hk2)

/-! ## cell_faces, boundary_faces -/

/-- **C85.** `cell_faces` lists, in increasing order and once each, the faces on the boundary of the cell. -/
theorem C85_cell_faces (c : List (ℤ × Bool)) :
    (cellFaces c).Pairwise (· < ·) ∧ ∀ f, f ∈ cellFaces c ↔ ∃ s, (f, s) ∈ c := by
  obtain ⟨h1, h2⟩ := fill_set (fun p : ℤ × Bool => p.1) c [] List.Pairwise.nil
  refine ⟨h1, fun f => ?_⟩
  unfold cellFaces
  rw [h2]
  constructor
  · rintro (h | ⟨⟨f', s⟩, hp, rfl⟩)
    · simp at h
    · exact ⟨s, hp⟩
  · rintro ⟨s, h⟩
    exact Or.inr ⟨_, h, rfl⟩

theorem boundary_fold (keys : List ℤ) (R : List Bool) (hk : ∀ k ∈ keys, 0 ≤ k ∧ k < (R.length : ℤ)) :
    ∃ R', keys.foldl (fun (R : Option (List Bool)) k => R.bind fun R =>
        if 0 ≤ k ∧ k < (R.length : ℤ) then some (R.set k.toNat true) else none) (some R) = some R' ∧
      R'.length = R.length ∧ ∀ i : ℕ, i < R.length → (R'[i]? = some true ↔ R[i]? = some true ∨ (i : ℤ) ∈ keys) := by
  induction keys generalizing R with
  | nil => exact ⟨R, rfl, rfl, fun i _ => by simp⟩
  | cons k keys ih =>
    have hk0 := hk k List.mem_cons_self
    rw [List.foldl_cons, Option.bind_some, if_pos hk0]
    obtain ⟨R', h1, h2, h3⟩ := ih (R.set k.toNat true) (fun j hj => by simpa using hk j (List.mem_cons_of_mem _ hj))
    refine ⟨R', h1, by simpa using h2, fun i hi => ?_⟩
    rw [h3 i (by simpa using hi), List.mem_cons]
    by_cases e : i = k.toNat
    · subst e
      rw [List.getElem?_set_self (by omega)]
      have : ((k.toNat : ℕ) : ℤ) = k := by omega
      simp [this]
    · rw [List.getElem?_set_ne (by omega)]
      have : (i : ℤ) ≠ k := by omega
      simp [this]

/-- **C85.** `boundary_faces()` marks exactly the faces listed in the map of mesh faces. -/
theorem C85_boundary_faces (n : ℕ) (keys : List ℤ) (hk : ∀ k ∈ keys, 0 ≤ k ∧ k < (n : ℤ)) :
    ∃ R, boundaryFaces n keys = some R ∧ R.length = n ∧ ∀ i : ℕ, i < n → (R[i]? = some true ↔ (i : ℤ) ∈ keys) := by
  obtain ⟨R, h1, h2, h3⟩ := boundary_fold keys (List.replicate n false) (by simpa using hk)
  refine ⟨R, h1, by simpa using h2, fun i hi => ?_⟩
  rw [h3 i (by simpa using hi), List.getElem?_replicate, if_pos hi]
  simp

/-! ## face_regions -/

/-- the sets of one region while the loop runs. -/
structure Inv (isMesh : ℤ → Bool) (Seen : ℤ → ℤ → Bool → Prop) (n : ℕ) (F : List Sides) : Prop where
  len : F.length = n
  sorted : ∀ (r : ℕ) S, F[r]? = some S → S.1.Pairwise (· < ·) ∧ S.2.Pairwise (· < ·)
  mem : ∀ (r : ℕ) S, F[r]? = some S → ∀ f s, f ∈ side S s ↔ isMesh f = true ∧ Seen r f s

theorem addSide_spec (isMesh : ℤ → Bool) (S : Sides) (p : ℤ × Bool) (h : S.1.Pairwise (· < ·) ∧ S.2.Pairwise (· < ·)) :
    ((addSide isMesh S p).1.Pairwise (· < ·) ∧ (addSide isMesh S p).2.Pairwise (· < ·)) ∧
    ∀ f s, f ∈ side (addSide isMesh S p) s ↔ f ∈ side S s ∨ (isMesh f = true ∧ p = (f, s)) := by
  obtain ⟨f0, s0⟩ := p
  unfold addSide
  cases hm : isMesh f0
  · refine ⟨h, fun f s => ?_⟩
    constructor
    · exact fun hx => Or.inl hx
    · rintro (hx | ⟨hf, hp⟩)
      · exact hx
      · simp only [Prod.mk.injEq] at hp
        rw [hp.1, hf] at hm; simp at hm
  · cases s0
    · refine ⟨⟨h.1, sorted_setInsert _ _ h.2⟩, fun f s => ?_⟩
      cases s
      · simp only [side, Bool.false_eq_true, if_false, if_true, mem_setInsert strictTotal_intLt, Prod.mk.injEq, and_true]
        constructor
        · rintro (rfl | hx)
          · exact Or.inr ⟨hm, rfl⟩
          · exact Or.inl hx
        · rintro (hx | ⟨_, rfl⟩)
          · exact Or.inr hx
          · exact Or.inl rfl
      · simp [side]
    · refine ⟨⟨sorted_setInsert _ _ h.1, h.2⟩, fun f s => ?_⟩
      cases s
      · simp [side]
      · simp only [side, if_true, mem_setInsert strictTotal_intLt, Prod.mk.injEq, and_true]
        constructor
        · rintro (rfl | hx)
          · exact Or.inr ⟨hm, rfl⟩
          · exact Or.inl hx
        · rintro (hx | ⟨_, rfl⟩)
          · exact Or.inr hx
          · exact Or.inl rfl

theorem cell_step (isMesh : ℤ → Bool) (R : List ℤ) (k : ℕ) (r : ℤ) (hr : R[k]? = some r) (n : ℕ) (h0 : 0 ≤ r) (hn : r < n)
    (c : List (ℤ × Bool)) (Seen : ℤ → ℤ → Bool → Prop) (F : List Sides) (hI : Inv isMesh Seen n F) :
    ∃ F', c.foldl (fun (ret : Option (List Sides)) p => ret.bind fun ret =>
        match R[k]? with
        | none => none
        | some r => if 0 ≤ r ∧ r < (ret.length : ℤ) then some (ret.modify r.toNat fun S => addSide isMesh S p) else none)
        (some F) = some F' ∧ Inv isMesh (fun q f s => Seen q f s ∨ (q = r ∧ (f, s) ∈ c)) n F' := by
  induction c generalizing F Seen with
  | nil => exact ⟨F, rfl, hI.len, hI.sorted, fun q S hS f s => by rw [hI.mem q S hS]; simp⟩
  | cons p c ih =>
    rw [List.foldl_cons]
    simp only [hr, Option.bind_some]
    rw [if_pos ⟨h0, by rw [hI.len]; exact hn⟩]
    have hI' : Inv isMesh (fun q f s => Seen q f s ∨ (q = r ∧ (f, s) = p)) n (F.modify r.toNat fun S => addSide isMesh S p) := by
      refine ⟨by rw [List.length_modify, hI.len], ?_, ?_⟩
      · intro q S hS
        rw [List.getElem?_modify] at hS
        cases hq : F[q]? with
        | none => simp [hq] at hS
        | some S0 =>
          simp only [hq, Option.map_eq_map, Option.map_some, Option.some.injEq] at hS
          subst hS
          have := hI.sorted q S0 hq
          split_ifs
          · exact (addSide_spec isMesh S0 p this).1
          · exact this
      · intro q S hS f s
        rw [List.getElem?_modify] at hS
        cases hq : F[q]? with
        | none => simp [hq] at hS
        | some S0 =>
          simp only [hq, Option.map_eq_map, Option.map_some, Option.some.injEq] at hS
          subst hS
          have hs := hI.sorted q S0 hq
          have hm := hI.mem q S0 hq f s
          by_cases e : r.toNat = q
          · rw [if_pos e, (addSide_spec isMesh S0 p hs).2, hm]
            have e2 : (q : ℤ) = r := by omega
            constructor
            · rintro (⟨a, b⟩ | ⟨a, b⟩)
              · exact ⟨a, Or.inl b⟩
              · exact ⟨a, Or.inr ⟨e2, b.symm⟩⟩
            · rintro ⟨a, b | ⟨_, b⟩⟩
              · exact Or.inl ⟨a, b⟩
              · exact Or.inr ⟨a, b.symm⟩
          · rw [if_neg e]
            have e2 : (q : ℤ) ≠ r := by omega
            rw [hm]
            simp [e2]
    obtain ⟨F', h1, h2⟩ := ih _ _ hI'
    simp only [hr] at h1
    refine ⟨F', h1, h2.len, h2.sorted, ?_⟩
    intro q S hS f s
    rw [h2.mem q S hS]
    simp only [List.mem_cons]
    constructor
    · rintro ⟨a, (b | b) | b⟩
      · exact ⟨a, Or.inl b⟩
      · exact ⟨a, Or.inr ⟨b.1, Or.inl b.2⟩⟩
      · exact ⟨a, Or.inr ⟨b.1, Or.inr b.2⟩⟩
    · rintro ⟨a, b | ⟨b, c | c⟩⟩
      · exact ⟨a, Or.inl (Or.inl b)⟩
      · exact ⟨a, Or.inl (Or.inr ⟨b, c⟩)⟩
      · exact ⟨a, Or.inr ⟨b, c⟩⟩

theorem cells_fold (isMesh : ℤ → Bool) (R : List ℤ) (n : ℕ) (hR : ∀ r ∈ R, 0 ≤ r ∧ r < (n : ℤ)) (cells : List (List (ℤ × Bool)))
    (a : ℕ) (hlen : a + cells.length ≤ R.length) (Seen : ℤ → ℤ → Bool → Prop) (F : List Sides) (hI : Inv isMesh Seen n F) :
    ∃ F', (cells.zipIdx a).foldl (fun (ret : Option (List Sides)) ck =>
      ck.1.foldl (fun (ret : Option (List Sides)) p => ret.bind fun ret =>
        match R[ck.2]? with
        | none => none
        | some r => if 0 ≤ r ∧ r < (ret.length : ℤ) then some (ret.modify r.toNat fun S => addSide isMesh S p) else none)
        ret) (some F) = some F' ∧
      Inv isMesh (fun q f s => Seen q f s ∨ ∃ (k : ℕ) (c : List (ℤ × Bool)), cells[k]? = some c ∧ R[a + k]? = some q ∧ (f, s) ∈ c) n F' := by
  induction cells generalizing a Seen F with
  | nil => exact ⟨F, rfl, hI.len, hI.sorted, fun q S hS f s => by rw [hI.mem q S hS]; simp⟩
  | cons c cells ih =>
    rw [List.length_cons] at hlen
    rw [List.zipIdx_cons, List.foldl_cons]
    have hr : R[a]? = some R[a] := List.getElem?_eq_getElem (by omega)
    have hb := hR R[a] (List.getElem_mem _)
    obtain ⟨F1, h1, hI1⟩ := cell_step isMesh R a R[a] hr n hb.1 hb.2 c Seen F hI
    simp only [h1]
    obtain ⟨F', h2, hI2⟩ := ih (a + 1) (by omega) _ F1 hI1
    refine ⟨F', h2, hI2.len, hI2.sorted, ?_⟩
    intro q S hS f s
    rw [hI2.mem q S hS]
    constructor
    · rintro ⟨x, (b | ⟨b, d⟩) | ⟨k, d, hk, hk2, hk3⟩⟩
      · exact ⟨x, Or.inl b⟩
      · exact ⟨x, Or.inr ⟨0, c, rfl, by rw [Nat.add_zero, hr, b], d⟩⟩
      · exact ⟨x, Or.inr ⟨k + 1, d, by rw [List.getElem?_cons_succ]; exact hk, by rw [← hk2]; congr 1; omega, hk3⟩⟩
    · rintro ⟨x, b | ⟨k, d, hk, hk2, hk3⟩⟩
      · exact ⟨x, Or.inl (Or.inl b)⟩
      · cases k with
        | zero =>
          rw [List.getElem?_cons_zero, Option.some.injEq] at hk
          subst hk
          rw [Nat.add_zero, hr, Option.some.injEq] at hk2
          exact ⟨x, Or.inl (Or.inr ⟨hk2.symm, hk3⟩)⟩
        | succ k =>
          rw [List.getElem?_cons_succ] at hk
          exact ⟨x, Or.inr ⟨k, d, hk, by rw [← hk2]; congr 1; omega, hk3⟩⟩

/-- **C85.** `face_regions()` has one entry for every region number up to the largest one; the two sets of region `r` are
strictly increasing and hold exactly the mesh faces on the boundary of a cut cell of region `r`, the first those with
positive sign, the second those with negative sign. -/
theorem C85_face_regions (isMesh : ℤ → Bool) (R : List ℤ) (cells : List (List (ℤ × Bool))) (hne : R ≠ [])
    (hR : ∀ r ∈ R, 0 ≤ r) (hlen : cells.length ≤ R.length) :
    ∃ F, faceRegions isMesh R cells = some F ∧
      (∀ r : ℕ, r < F.length ↔ ∃ q ∈ R, (r : ℤ) ≤ q) ∧
      ∀ (r : ℕ) P N, F[r]? = some (P, N) → P.Pairwise (· < ·) ∧ N.Pairwise (· < ·) ∧
        (∀ f, f ∈ P ↔ isMesh f = true ∧ ∃ k : ℕ, R[k]? = some (r : ℤ) ∧ HasFace cells k f true) ∧
        (∀ f, f ∈ N ↔ isMesh f = true ∧ ∃ k : ℕ, R[k]? = some (r : ℤ) ∧ HasFace cells k f false) := by
  unfold faceRegions
  cases hm : R.max? with
  | none => rw [List.max?_eq_none_iff] at hm; exact absurd hm hne
  | some m =>
    obtain ⟨hmem, hle⟩ := List.max?_eq_some_iff.1 hm
    have hm0 := hR m hmem
    have hI0 : Inv isMesh (fun _ _ _ => False) (m + 1).toNat (List.replicate (m + 1).toNat (([], []) : Sides)) := by
      refine ⟨by simp, ?_, ?_⟩
      · intro r S hS
        rw [List.getElem?_replicate] at hS
        split_ifs at hS
        · simp only [Option.some.injEq] at hS
          subst hS; exact ⟨List.Pairwise.nil, List.Pairwise.nil⟩
      · intro r S hS f s
        rw [List.getElem?_replicate] at hS
        split_ifs at hS
        · simp only [Option.some.injEq] at hS
          subst hS; simp [side]
    obtain ⟨F, h1, hI⟩ := cells_fold isMesh R (m + 1).toNat (fun r hr => ⟨hR r hr, by have := hle r hr; omega⟩) cells 0 (by omega)
      _ _ hI0
    refine ⟨F, h1, ?_, ?_⟩
    · intro r
      rw [hI.len]
      constructor
      · intro h
        exact ⟨m, hmem, by omega⟩
      · rintro ⟨q, hq, hrq⟩
        have := hle q hq
        omega
    · intro r P N hr
      obtain ⟨s1, s2⟩ := hI.sorted r _ hr
      have hM := hI.mem r _ hr
      have key : ∀ f s, (False ∨ ∃ (k : ℕ) (c : List (ℤ × Bool)), cells[k]? = some c ∧ R[0 + k]? = some (r : ℤ) ∧ (f, s) ∈ c) ↔
          ∃ k : ℕ, R[k]? = some (r : ℤ) ∧ HasFace cells k f s := by
        intro f s
        simp only [false_or, Nat.zero_add]
        constructor
        · rintro ⟨k, c, a, b, d⟩
          exact ⟨k, b, c, a, d⟩
        · rintro ⟨k, b, c, a, d⟩
          exact ⟨k, c, a, b, d⟩
      refine ⟨s1, s2, fun f => ?_, fun f => ?_⟩
      · have := hM f true
        simp only [side, if_true] at this
        rw [this, key]
      · have := hM f false
        simp only [side, Bool.false_eq_true, if_false] at this
        rw [this, key]

/-- **C85.** If a mesh face is on the boundary of exactly one cut cell with positive sign, it is in the positive set of
exactly one region, that of this cell (and likewise for the other sign). -/
theorem C85_one_region (isMesh : ℤ → Bool) (R : List ℤ) (cells : List (List (ℤ × Bool))) (F : List Sides)
    (hR : ∀ r ∈ R, 0 ≤ r) (hlen : cells.length ≤ R.length) (h : faceRegions isMesh R cells = some F)
    (f : ℤ) (hf : isMesh f = true) (k : ℕ) (s : Bool) (hk : HasFace cells k f s) (huniq : ∀ j, HasFace cells j f s → j = k)
    (r : ℕ) (hr : r < F.length) : f ∈ (if s then F[r].1 else F[r].2) ↔ R[k]? = some (r : ℤ) := by
  have hne : R ≠ [] := by
    rintro rfl
    simp [faceRegions] at h
  obtain ⟨F', h1, h2, h3⟩ := C85_face_regions isMesh R cells hne hR hlen
  rw [h] at h1
  cases h1
  obtain ⟨-, -, hP, hN⟩ := h3 r F[r].1 F[r].2 (by rw [List.getElem?_eq_getElem hr])
  cases s
  · simp only [Bool.false_eq_true, if_false]
    rw [hN]
    constructor
    · rintro ⟨_, j, hj, hj2⟩
      rwa [← huniq j hj2]
    · exact fun hx => ⟨hf, k, hx, hk⟩
  · simp only [if_true]
    rw [hP]
    constructor
    · rintro ⟨_, j, hj, hj2⟩
      rwa [← huniq j hj2]
    · exact fun hx => ⟨hf, k, hx, hk⟩

/-- **C85.** `orig_face_regions()` replaces each set of faces by the set of the input triangles they are pieces of. -/
theorem C85_orig_face_regions (orig : ℤ → ℤ) (F : List Sides) :
    (origFaceRegions orig F).length = F.length ∧
    ∀ (r : ℕ) P N, F[r]? = some (P, N) → ∃ P' N', (origFaceRegions orig F)[r]? = some (P', N') ∧
      P'.Pairwise (· < ·) ∧ N'.Pairwise (· < ·) ∧ (∀ t, t ∈ P' ↔ ∃ f ∈ P, orig f = t) ∧ (∀ t, t ∈ N' ↔ ∃ f ∈ N, orig f = t) := by
  refine ⟨by simp [origFaceRegions], ?_⟩
  intro r P N hr
  obtain ⟨a1, a2⟩ := fill_set orig P [] List.Pairwise.nil
  obtain ⟨b1, b2⟩ := fill_set orig N [] List.Pairwise.nil
  refine ⟨_, _, by unfold origFaceRegions; rw [List.getElem?_map, hr]; rfl, a1, b1, ?_, ?_⟩
  · intro t; rw [a2]; simp
  · intro t; rw [b2]; simp

/-- two cut cells (regions 0 and 2) on the two sides of the mesh face 7, a cell without mesh face, and an exterior cell. -/
example : faceRegions (fun f => f == 7) [0, 2, 0, 1] [[(3, true), (7, true)], [(7, false), (8, true)], [(3, false)]] =
      some [([7], []), ([], []), ([], [7])] ∧
    signRegions (fun f => f == 7) [[(3, true), (7, true)], [(7, false), (8, true)], [(3, false)]] 4 = [2, 3, 1, 1] ∧
    origFaceRegions (fun f => f - 5) [([7], []), ([], []), ([], [7])] = [([2], []), ([], []), ([], [2])] ∧
    boundaryFaces 9 [7] = some [false, false, false, false, false, false, false, true, false] := by decide +kernel

/-- the hypotheses of `C85_one_region` hold there. -/
example : HasFace [[(3, true), (7, true)], [(7, false), (8, true)], [(3, false)]] 0 7 true := ⟨_, rfl, by simp⟩

end Regions3
end Mandoline
