import Verif.Mesh.Locate
import Verif.Adaptive.Measure

/-!
# Global cell and face numbers in 3D (C52)
-/
namespace Mandoline.Number3
open Locate (gridCell LeastOr)

/-- the parts of `CutCellMesh<3>` used here: the grid cells of the cut cells, the number of cut faces and the exterior
adaptive grid. -/
structure Mesh3 where
  cells : List (Coord 3)
  cutFaces : ℕ
  shape : Coord 3
  ext : List (ℤ × ACell 3)
  extFaces : List (AFace 3)

/-- `num_cells()`, `cell_size()` (src/mesh3.cpp:23-31). -/
def numCells (M : Mesh3) : ℕ := M.ext.length + M.cells.length

/-- `num_faces()`, `face_size()` (src/mesh3.cpp:38-44). -/
def numFaces (M : Mesh3) : ℕ := M.extFaces.length + M.cutFaces

/-- `is_cut_cell(index)` (src/mesh3.cpp:52-54). -/
def isCutCell (M : Mesh3) (i : ℤ) : Bool := decide (i ≥ 0 ∧ i < M.cells.length)

/-- `is_exterior_cell(index)` (src/mesh3.cpp:55-57). -/
def isExteriorCell (M : Mesh3) (i : ℤ) : Bool := decide (i ≥ 0 ∧ i ≥ M.cells.length)

/-- `is_cut_face(index)` (src/mesh3.cpp:49-51). -/
def isCutFace (M : Mesh3) (i : ℕ) : Bool := decide (i < M.cutFaces)

/-- `cells_in_grid_cell(c)` (src/mesh3.cpp:627-635). -/
def cellsInGridCell (M : Mesh3) (c : Coord 3) : List ℕ :=
  M.cells.zipIdx.foldl (fun R ci => if ci.1 = c then Locate.setInsert ci.2 R else R) []

/-- `get_cell_index(p)` (src/mesh3.cpp:636-663), `p` in grid coordinates; `contains k` is `cells()[k].contains(..)`. -/
def getCell (M : Mesh3) (contains : ℕ → Bool) (p : Pt 3) : ℤ :=
  let ret := getCellIndex M.shape M.ext p
  if ret ≠ -1 then ret
  else match (cellsInGridCell M (gridCell p)).find? contains with
    | some k => k
    | none => -1

/-- `cell_volumes()` (src/operators/volume3.cpp:7-25): the cut cells' volumes, then those of the exterior grid. `none` for
an undefined access. -/
def volumes (M : Mesh3) (cut : List ℚ) (vol : ℚ) : Option (List (Option ℚ)) :=
  (cellVolumes vol M.ext).map fun E => cut.map some ++ E

/-- `regions(false)` (src/mesh3.cpp:184-192): `cut` are the regions of the cut cells, `ext` the map of the adaptive cells'
regions. `none` for a write out of bounds. -/
def regions (M : Mesh3) (cut : List ℤ) (ext : List (ℤ × ℤ)) : Option (List ℤ) :=
  let a := (List.range M.cells.length).foldl (fun (R : Option (List ℤ)) i => R.bind fun R =>
    match cut[i]? with
    | some r => if i < R.length then some (R.set i r) else none
    | none => none) (some (List.replicate (numCells M) 1))
  ext.foldl (fun (R : Option (List ℤ)) (cr : ℤ × ℤ) => R.bind fun R =>
    if 0 ≤ cr.1 ∧ cr.1 < (R.length : ℤ) then some (R.set cr.1.toNat cr.2) else none) a

/-! ## specification -/

/-- number `i` denotes cut cell `i`. -/
def DenotesCut (M : Mesh3) (i : ℤ) : Prop := ∃ k : ℕ, i = k ∧ k < M.cells.length

/-- number `i` denotes the adaptive cell `c`. -/
def DenotesExt (M : Mesh3) (i : ℤ) (c : ACell 3) : Prop := (i, c) ∈ M.ext

/-- the mesh as the generator leaves it: the adaptive cells are renumbered after the cut cells. -/
def Generated (M : Mesh3) (made : List (ℤ × ACell 3)) : Prop := M.ext = renumber M.cells.length made

/-! ## proofs -/

/-- **C52.** Every number in `0 .. num_cells - 1` denotes exactly one cell: either a cut cell, recognised by
`is_cut_cell`, or exactly one adaptive cell, recognised by `is_exterior_cell`. -/
theorem C52_each_number_one_cell (M : Mesh3) (made : List (ℤ × ACell 3)) (h : Generated M made) (i : ℤ) :
    (0 ≤ i ∧ i < numCells M) ↔
      ((DenotesCut M i ∧ isCutCell M i = true ∧ isExteriorCell M i = false ∧ ∀ c, ¬ DenotesExt M i c) ∨
       ((¬ DenotesCut M i) ∧ isCutCell M i = false ∧ isExteriorCell M i = true ∧ ∃! c, DenotesExt M i c)) := by
  have hlen : M.ext.length = made.length := by rw [h]; simp [renumber]
  have hext : ∀ c, DenotesExt M i c ↔ ∃ (k : ℕ) (hk : k < made.length), i = M.cells.length + k ∧ c = (made[k]).2 := by
    intro c; unfold DenotesExt; rw [h]; exact mem_renumber _ _ _ _
  unfold DenotesCut isCutCell isExteriorCell numCells
  rw [hlen]
  constructor
  · rintro ⟨h0, h1⟩
    by_cases hi : i < M.cells.length
    · left
      refine ⟨⟨i.toNat, by omega, by omega⟩, by simp; omega, by simp; omega, fun c hc => ?_⟩
      obtain ⟨k, _, hk, _⟩ := (hext c).1 hc
      omega
    · right
      refine ⟨?_, by simp; omega, by simp; omega, ?_⟩
      · rintro ⟨k, h2, h3⟩; omega
      · have hk : (i - M.cells.length).toNat < made.length := by push_cast at h1; omega
        refine ⟨(made[(i - M.cells.length).toNat]).2, (hext _).2 ⟨_, hk, by omega, rfl⟩, ?_⟩
        intro c hc
        obtain ⟨k, hk', e1, e2⟩ := (hext c).1 hc
        rw [e2]
        have : k = (i - M.cells.length).toNat := by omega
        subst this; rfl
  · rintro (⟨⟨k, h2, h3⟩, _⟩ | ⟨_, _, _, c, hc, _⟩)
    · push_cast; omega
    · obtain ⟨k, hk', e1, e2⟩ := (hext c).1 hc
      push_cast; omega

/-- **C52 (limit).** `is_exterior_cell` has no upper bound: it accepts numbers that denote no cell. -/
theorem C52_exterior_unbounded_refuted (M : Mesh3) (i : ℤ) (h : (numCells M : ℤ) ≤ i) : isExteriorCell M i = true := by
  unfold isExteriorCell
  unfold numCells at h
  push_cast at h
  simp; omega

/-- **C52.** Faces: the cut faces are `0 .. num_cut_faces - 1`, and `num_faces` counts both kinds. -/
theorem C52_faces (M : Mesh3) (i : ℕ) (h : i < numFaces M) :
    (isCutFace M i = true ∧ i < M.cutFaces) ∨
      (isCutFace M i = false ∧ ∃ f, M.extFaces[i - M.cutFaces]? = some f) := by
  unfold isCutFace
  unfold numFaces at h
  by_cases hi : i < M.cutFaces
  · left; simp [hi]
  · right; exact ⟨by simp [hi], _, List.getElem?_eq_getElem (by omega)⟩

/-- `cells_in_grid_cell` lists the cut cells of a grid cell in order. -/
theorem C52_cells_in_grid_cell (M : Mesh3) (c : Coord 3) :
    cellsInGridCell M c = (List.range M.cells.length).filter fun k => decide (M.cells[k]? = some c) := by
  unfold cellsInGridCell
  generalize M.cells = L
  induction L using List.reverseRecOn with
  | nil => rfl
  | append_singleton L x ih =>
    rw [List.zipIdx_append, List.foldl_append, ih]
    simp only [List.zipIdx_cons, List.zipIdx_nil, List.foldl_cons, List.foldl_nil]
    rw [List.length_append, List.length_singleton, List.range_succ, List.filter_append]
    have hold : ((List.range L.length).filter fun k => decide ((L ++ [x])[k]? = some c)) =
        (List.range L.length).filter fun k => decide (L[k]? = some c) := by
      refine List.filter_congr fun k hk => ?_
      rw [List.mem_range] at hk
      rw [List.getElem?_append_left hk]
    have hlast : (L ++ [x])[L.length]? = some x := by simp
    rw [hold]
    by_cases hx : x = c
    · subst hx
      rw [if_pos rfl, Locate.setInsert_last]
      · simp
      · intro y hy
        have := (List.mem_filter.1 hy).1
        rw [List.mem_range] at this; omega
    · rw [if_neg hx]
      simp [hx]

/-- **C52.** Point location: a point of an adaptive cell gets that cell's number, … -/
theorem C52_locate_exterior (M : Mesh3) (hd : DisjointCells M.ext) (contains : ℕ → Bool) (p : Pt 3) (i : ℤ) (c : ACell 3)
    (hc : DenotesExt M i c) (hp : ∀ j, 0 ≤ p j ∧ p j ≤ M.shape j) (hin : ∀ j, (c.1 j : ℚ) ≤ p j ∧ p j < c.1 j + c.2)
    (h0 : 0 ≤ i) : getCell M contains p = i := by
  have : getCellIndex M.shape M.ext p = i := by
    rw [C26_get_cell_index M.shape M.ext hd]
    right
    refine ⟨fun j => ⟨(hp j).1, ?_⟩, .inl ⟨c, hc, hin⟩⟩
    have := (hp j).2
    push_cast; linarith
  unfold getCell
  simp only [this]
  rw [if_pos (by omega)]

/-- … a point of the domain in no adaptive cell gets the first cut cell of its grid cell that contains it, or -1, … -/
theorem C52_locate_cut (M : Mesh3) (hd : DisjointCells M.ext) (contains : ℕ → Bool) (p : Pt 3)
    (hp : ∀ j, 0 ≤ p j ∧ p j ≤ M.shape j)
    (hno : ∀ e ∈ M.ext, ¬ ∀ j, (e.2.1 j : ℚ) ≤ p j ∧ p j < e.2.1 j + e.2.2) :
    LeastOr M.cells.length (fun k => M.cells[k]? = some (gridCell p) ∧ contains k = true) (getCell M contains p) := by
  have : getCellIndex M.shape M.ext p = -1 := by
    rw [C26_get_cell_index M.shape M.ext hd]
    right
    refine ⟨fun j => ⟨(hp j).1, ?_⟩, .inr ⟨rfl, hno⟩⟩
    have := (hp j).2
    push_cast; linarith
  unfold getCell
  simp only [this]
  rw [if_neg (by simp), C52_cells_in_grid_cell]
  rcases Locate.find?_filter_range M.cells.length (fun k => decide (M.cells[k]? = some (gridCell p))) contains with
    ⟨k, h1, h2, h3, h4, h5⟩ | ⟨h1, h2⟩
  · left
    rw [h1]
    exact ⟨k, rfl, h2, ⟨of_decide_eq_true h3, h4⟩, fun j hj hh => h5 j hj ⟨decide_eq_true hh.1, hh.2⟩⟩
  · right
    rw [h1]
    exact ⟨rfl, fun j hj hh => h2 j hj ⟨decide_eq_true hh.1, hh.2⟩⟩

/-- … and whatever the point, the answer is -2, -1 or a number below `num_cells`. -/
theorem C52_locate_range (M : Mesh3) (made : List (ℤ × ACell 3)) (h : Generated M made) (contains : ℕ → Bool) (p : Pt 3) :
    getCell M contains p = -2 ∨ getCell M contains p = -1 ∨
      (0 ≤ getCell M contains p ∧ getCell M contains p < numCells M) := by
  unfold getCell
  by_cases hr : getCellIndex M.shape M.ext p = -1
  · simp only [hr]
    rw [if_neg (by simp)]
    cases hf : (cellsInGridCell M (gridCell p)).find? contains with
    | none => right; left; rfl
    | some k =>
      right; right
      have hm := List.mem_of_find?_eq_some hf
      rw [C52_cells_in_grid_cell, List.mem_filter, List.mem_range] at hm
      unfold numCells
      simp only
      push_cast; omega
  · simp only [ne_eq, hr, not_false_eq_true, if_true]
    unfold getCellIndex at hr ⊢
    split at hr
    · left; rename_i hh; rw [if_pos hh]
    · rename_i hh
      rw [if_neg hh]
      cases hf : M.ext.find? (fun e => decide (cellInside e.2 p)) with
      | none => rw [hf] at hr; exact absurd rfl hr
      | some e =>
        right; right
        have hm := List.mem_of_find?_eq_some hf
        have := (C52_each_number_one_cell M made h e.1).2
        simp only
        obtain ⟨id, c⟩ := e
        rw [h] at hm
        obtain ⟨k, hk, e1, _⟩ := (mem_renumber _ _ _ _).1 hm
        have hlen : M.ext.length = made.length := by rw [h]; simp [renumber]
        unfold numCells
        rw [hlen]
        simp only
        push_cast; omega

/-- **C52.** `cell_volumes()` is indexed by the global numbers: entry `i` is the volume of the cell that `i` denotes. -/
theorem C52_volumes (M : Mesh3) (made : List (ℤ × ACell 3)) (h : Generated M made) (cut : List ℚ)
    (hcut : cut.length = M.cells.length) (vol : ℚ) :
    ∃ V, volumes M cut vol = some V ∧ V.length = numCells M ∧
      (∀ k : ℕ, k < M.cells.length → V[k]? = (cut[k]?).map some) ∧
      (∀ (i : ℤ) c, DenotesExt M i c → V[i.toNat]? = some (some (vol * (c.2 : ℚ) ^ 3))) := by
  have hlen : M.ext.length = made.length := by rw [h]; simp [renumber]
  have hc : Contiguous M.ext M.cells.length := by rw [h]; exact renumber_contiguous _ _
  refine ⟨cut.map some ++ M.ext.map fun e => some (vol * (e.2.2 : ℚ) ^ 3), ?_, ?_, ?_, ?_⟩
  · unfold volumes
    rw [C28_cell_volumes vol M.ext _ hc]
    rfl
  · unfold numCells; simp [hcut]; omega
  · intro k hk
    rw [List.getElem?_append_left (by simpa [hcut] using hk), List.getElem?_map]
  · intro i c hi
    unfold DenotesExt at hi
    obtain ⟨k, hk, hek⟩ := List.mem_iff_getElem.1 hi
    have h1 := hc k hk
    rw [hek] at h1
    simp only at h1
    have hin : i.toNat = M.cells.length + k := by omega
    rw [hin, List.getElem?_append_right (by simp [hcut])]
    simp [hcut, hk, hek]

theorem fill_fold (cut : List ℤ) (R : List ℤ) (n : ℕ) (hn : n ≤ cut.length) (hR : n ≤ R.length) :
    (List.range n).foldl (fun (R : Option (List ℤ)) i => R.bind fun R =>
      match cut[i]? with
      | some r => if i < R.length then some (R.set i r) else none
      | none => none) (some R) = some (cut.take n ++ R.drop n) := by
  induction n with
  | zero => simp
  | succ n ih =>
    rw [List.range_succ, List.foldl_append, ih (by omega) (by omega)]
    have h1 : cut[n]? = some cut[n] := List.getElem?_eq_getElem (by omega)
    have h2 : n < (cut.take n ++ R.drop n).length := by simp; omega
    simp only [List.foldl_cons, List.foldl_nil, Option.bind_some, h1, h2, if_true, Option.some.injEq]
    rw [List.set_append_right _ _ (by simp), List.length_take, Nat.min_eq_left (by omega), Nat.sub_self]
    rw [List.drop_eq_getElem_cons (by omega), List.set_cons_zero, List.take_succ_eq_append_getElem (show n < cut.length by omega),
      List.append_assoc, List.singleton_append]

theorem ext_fold (n : ℕ) (ext : List (ℤ × ℤ)) (R : List ℤ) (hR : R.length = n)
    (hk : ∀ p ∈ ext, 0 ≤ p.1 ∧ p.1 < n) (hnd : (ext.map Prod.fst).Nodup) :
    ∃ R', ext.foldl (fun (R : Option (List ℤ)) (cr : ℤ × ℤ) => R.bind fun R =>
        if 0 ≤ cr.1 ∧ cr.1 < (R.length : ℤ) then some (R.set cr.1.toNat cr.2) else none) (some R) = some R' ∧
      R'.length = n ∧ (∀ p ∈ ext, R'[p.1.toNat]? = some p.2) ∧
      (∀ i : ℕ, (i : ℤ) ∉ ext.map Prod.fst → R'[i]? = R[i]?) := by
  induction ext generalizing R with
  | nil => exact ⟨R, rfl, hR, by simp, fun _ _ => rfl⟩
  | cons q ext ih =>
    rw [List.map_cons, List.nodup_cons] at hnd
    obtain ⟨q0, q1⟩ := hk q List.mem_cons_self
    obtain ⟨R', h1, h2, h3, h4⟩ := ih (R.set q.1.toNat q.2) (by simpa using hR)
      (fun p hp => hk p (List.mem_cons_of_mem _ hp)) hnd.2
    refine ⟨R', ?_, h2, ?_, ?_⟩
    · rw [List.foldl_cons, Option.bind_some, if_pos ⟨q0, by omega⟩, h1]
    · intro p hp
      rcases List.mem_cons.1 hp with rfl | hp
      · rw [h4 _ (by rw [Int.toNat_of_nonneg q0]; exact hnd.1), List.getElem?_set_self (by omega)]
      · exact h3 p hp
    · intro i hi
      rw [List.map_cons, List.mem_cons, not_or] at hi
      rw [h4 i hi.2, List.getElem?_set_ne (by omega)]

/-- **C52.** `regions()` is indexed by the global numbers as well: the cut cells have their own region, each adaptive cell
listed in the region map has the region given there, the others have region 1. -/
theorem C52_regions (M : Mesh3) (made : List (ℤ × ACell 3)) (h : Generated M made) (cut : List ℤ)
    (hcut : cut.length = M.cells.length) (ext : List (ℤ × ℤ)) (hs : (ext.map Prod.fst).Nodup)
    (hkeys : ∀ p ∈ ext, ∃ c, DenotesExt M p.1 c) :
    ∃ R, regions M cut ext = some R ∧ R.length = numCells M ∧
      (∀ k : ℕ, k < M.cells.length → R[k]? = cut[k]?) ∧ (∀ p ∈ ext, R[p.1.toNat]? = some p.2) ∧
      (∀ i : ℕ, M.cells.length ≤ i → i < numCells M → (i : ℤ) ∉ ext.map Prod.fst → R[i]? = some 1) := by
  have hge : ∀ p ∈ ext, (M.cells.length : ℤ) ≤ p.1 ∧ p.1 < numCells M := by
    intro p hp
    obtain ⟨c, hc⟩ := hkeys p hp
    have hc' := hc
    unfold DenotesExt at hc'
    rw [h] at hc'
    obtain ⟨k, hk, e1, _⟩ := (mem_renumber _ _ _ _).1 hc'
    have hlen : M.ext.length = made.length := by rw [h]; simp [renumber]
    unfold numCells
    rw [hlen]; push_cast; omega
  have hn : M.cells.length ≤ numCells M := by unfold numCells; omega
  have hfill := fill_fold cut (List.replicate (numCells M) 1) M.cells.length (by omega) (by simpa using hn)
  obtain ⟨R', h1, h2, h3, h4⟩ := ext_fold (numCells M) ext
    (cut.take M.cells.length ++ (List.replicate (numCells M) (1 : ℤ)).drop M.cells.length)
    (by simp [hcut]; omega) (fun p hp => ⟨by have := (hge p hp).1; omega, (hge p hp).2⟩) hs
  refine ⟨R', ?_, h2, ?_, h3, ?_⟩
  · unfold regions
    simp only [hfill]
    exact h1
  · intro k hk
    rw [h4 k ?_, List.getElem?_append_left (by simp [hcut]; omega), List.getElem?_take_of_lt hk]
    intro hx
    obtain ⟨p, hp, hpk⟩ := List.mem_map.1 hx
    have := (hge p hp).1
    omega
  · intro i hi hi2 hx
    rw [h4 i hx, List.getElem?_append_right (by simp [hcut]; omega), List.getElem?_drop, List.getElem?_replicate,
      if_pos]
    simp [hcut]; omega

/-- a mesh with two cut cells and two adaptive cells. -/
example : let M : Mesh3 := ⟨[![0, 0, 0], ![0, 0, 0]], 5, ![2, 1, 1], renumber 2 [(1, (![1, 0, 0], 1))], []⟩
    Generated M [(1, (![1, 0, 0], 1))] ∧ numCells M = 3 ∧ isCutCell M 1 = true ∧ isCutCell M 2 = false ∧
    getCell M (fun k => k == 1) ![1 / 2, 1 / 2, 1 / 2] = 1 ∧ getCell M (fun k => k == 1) ![3 / 2, 1 / 2, 1 / 2] = 2 := by
  refine ⟨rfl, rfl, rfl, rfl, ?_, ?_⟩ <;> decide +kernel

end Mandoline.Number3
