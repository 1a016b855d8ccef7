import Verif.Gen3.Flags
import Verif.Exterior.Model

/-!
# C96: the boundary of the active part of a grid plane

Transcription of the boundary edges of `compute_planar_hem` (src/construction/generator.cpp:198-226), of their renumbering in
`bake_faces` (src/construction/generator3_make_faces.cpp:227-238) and of `is_boundary_cell`
(generator3_make_faces.cpp:23-33).
-/
namespace Mandoline
namespace Gen3

/-- `std::sort` of an edge. -/
def sortEdge (e : DEdge) : DEdge := if e.2 < e.1 then (e.2, e.1) else e

/-- `(!mask.valid_index(c)) || mask(c)` (generator.cpp:214-215). -/
def offActive (n : Coord 2) (mask : Coord 2 → Bool) (c : Coord 2) : Bool := !ValidIndex n c || mask c

/-- `StaggeredGrid::edge(axis, c)` of the grid library: the edge from vertex `c` in direction `axis`. -/
def gridEdge (ix : Coord 2 → ℤ) (axis : Fin 2) (c : Coord 2) : DEdge := (ix c, ix (Function.update c axis (c axis + 1)))

/-- the edges that one vertex `c` of the loop contributes (generator.cpp:209-221). -/
def edgesAt (n : Coord 2) (mask : Coord 2 → Bool) (ix : Coord 2 → ℤ) (c : Coord 2) : List DEdge :=
  [(0 : Fin 2), 1].filterMap fun i =>
    if offActive n mask c ^^ offActive n mask (Function.update c i (c i - 1)) then some (sortEdge (gridEdge ix (1 - i) c)) else none

/-- `boundary_edges` of `compute_planar_hem` (generator.cpp:198-226) for a non-empty mask with cell shape `n`; the loop runs
over the vertices of the plane grid. -/
def planeBoundary (O : GridOrder 2) (n : Coord 2) (mask : Coord 2 → Bool) (ix : Coord 2 → ℤ) : List DEdge :=
  ((O.coords fun i => n i + 1).flatMap (edgesAt n mask ix)).foldl (fun s e => setInsert edgeLt e s) []

/-- the lambda of generator3_make_faces.cpp:230-238: 2D vertex indices become 3D vertex indices, the order of the two ends is
kept. -/
def liftEdge (un2 : ℤ → Coord 2) (ix3 : Coord 3 → ℤ) (axis : Fin 3) (ic : Coord 3) (k : ℤ) (e : DEdge) : DEdge :=
  (ix3 (sgUp axis ic (un2 e.1) k), ix3 (sgUp axis ic (un2 e.2) k))

/-- `ahd.boundary_edges` (generator3_make_faces.cpp:227-238). -/
def liftBoundary (un2 : ℤ → Coord 2) (ix3 : Coord 3 → ℤ) (axis : Fin 3) (ic : Coord 3) (k : ℤ) (l : List DEdge) : List DEdge :=
  (l.map (liftEdge un2 ix3 axis ic k)).foldl (fun s e => setInsert edgeLt e s) []

/-- `is_boundary_cell` (generator3_make_faces.cpp:23-33). -/
def isBoundaryCell (bd : List DEdge) (C : List ℤ) : Bool := (polyEdges C).all fun e => decide (sortEdge e ∈ bd)

/-! ## specification -/

/-- the index of neighbouring vertices grows along each axis (so it does for the linear index of the grid library,
`steps_linIndex`). -/
def Steps {D : ℕ} (shape : Coord D) (ix : Coord D → ℤ) : Prop :=
  ∀ c j, (∀ i, 0 ≤ c i ∧ c i < shape i) → c j + 1 < shape j → ix c < ix (Function.update c j (c j + 1))

/-- plane cell `c` is in the plane grid and active. -/
def ActiveIn (n : Coord 2) (mask : Coord 2 → Bool) (c : Coord 2) : Prop := (∀ i, 0 ≤ c i ∧ c i < n i) ∧ mask c = false

/-- the grid edge from vertex `a` in direction `j` lies between an active plane cell and a cell that is not active. -/
def Between (n : Coord 2) (mask : Coord 2 → Bool) (a : Coord 2) (j : Fin 2) : Prop :=
  ((∀ i, 0 ≤ a i ∧ a i ≤ n i) ∧ a j < n j) ∧
  ((ActiveIn n mask a ∧ ¬ ActiveIn n mask (Function.update a (1 - j) (a (1 - j) - 1))) ∨
   (¬ ActiveIn n mask a ∧ ActiveIn n mask (Function.update a (1 - j) (a (1 - j) - 1))))

/-! ## proofs -/

theorem steps_linIndex : ∀ (D : ℕ) (shape : Coord D), Steps shape (linIndex D shape)
  | 0, _ => fun _ j => j.elim0
  | n + 1, s => by
    intro c j hc hj
    have ih := steps_linIndex n (fun i => s i.succ)
    simp only [linIndex]
    rcases Fin.eq_zero_or_eq_succ j with rfl | ⟨k, rfl⟩
    · have e : (fun i : Fin n => Function.update c 0 (c 0 + 1) i.succ) = fun i => c i.succ := by
        funext i; rw [Function.update_of_ne (Fin.succ_ne_zero i)]
      rw [e, Function.update_self]; omega
    · have e : (fun i : Fin n => Function.update c k.succ (c k.succ + 1) i.succ) =
          Function.update (fun i : Fin n => c i.succ) k (c k.succ + 1) := by
        funext i
        by_cases h : i = k
        · subst h; simp
        · rw [Function.update_of_ne (fun h' => h (Fin.succ_injective _ h')), Function.update_of_ne h]
      rw [e, Function.update_of_ne (Fin.succ_ne_zero k).symm]
      have := ih (fun i => c i.succ) k (fun i => hc i.succ) hj
      have h0 : 0 < s 0 := by have := hc 0; omega
      have h1 := mul_lt_mul_of_pos_left this h0
      linarith

theorem offActive_iff (n : Coord 2) (mask : Coord 2 → Bool) (c : Coord 2) :
    offActive n mask c = false ↔ ActiveIn n mask c := by
  unfold offActive ActiveIn
  rw [← validIndex_iff]
  simp

theorem mem_fold_setInsert (l : List DEdge) (s : List DEdge) (e : DEdge) :
    e ∈ l.foldl (fun s e => setInsert edgeLt e s) s ↔ e ∈ l ∨ e ∈ s := by
  induction l generalizing s with
  | nil => simp
  | cons a l ih =>
    rw [List.foldl_cons, ih, mem_setInsert strictTotal_edgeLt]
    simp only [List.mem_cons]
    tauto

theorem mem_edgesAt (n : Coord 2) (mask : Coord 2 → Bool) (ix : Coord 2 → ℤ) (c : Coord 2) (e : DEdge) :
    e ∈ edgesAt n mask ix c ↔ ∃ j : Fin 2, e = sortEdge (gridEdge ix j c) ∧
      ((ActiveIn n mask c ∧ ¬ ActiveIn n mask (Function.update c (1 - j) (c (1 - j) - 1))) ∨
       (¬ ActiveIn n mask c ∧ ActiveIn n mask (Function.update c (1 - j) (c (1 - j) - 1)))) := by
  have key : ∀ i : Fin 2, (offActive n mask c ^^ offActive n mask (Function.update c i (c i - 1))) = true ↔
      ((ActiveIn n mask c ∧ ¬ ActiveIn n mask (Function.update c i (c i - 1))) ∨
       (¬ ActiveIn n mask c ∧ ActiveIn n mask (Function.update c i (c i - 1)))) := by
    intro i
    rw [← offActive_iff, ← offActive_iff]
    cases offActive n mask c <;> cases offActive n mask (Function.update c i (c i - 1)) <;> simp
  unfold edgesAt
  rw [List.mem_filterMap]
  constructor
  · rintro ⟨i, -, h⟩
    split at h
    · rename_i hx
      refine ⟨1 - i, (Option.some_inj.1 h).symm, ?_⟩
      have : (1 : Fin 2) - (1 - i) = i := by clear * -; revert i; decide
      rw [this]
      exact (key i).1 hx
    · cases h
  · rintro ⟨j, rfl, h⟩
    refine ⟨1 - j, by clear * -; revert j; decide, ?_⟩
    rw [if_pos ((key (1 - j)).2 h)]
    have : (1 : Fin 2) - (1 - j) = j := by clear * -; revert j; decide
    rw [this]

/-- an edge of the loop that separates active from inactive is inside the vertex grid. -/
theorem inside_of_xor (n : Coord 2) (mask : Coord 2 → Bool) (c : Coord 2) (j : Fin 2)
    (h : (ActiveIn n mask c ∧ ¬ ActiveIn n mask (Function.update c (1 - j) (c (1 - j) - 1))) ∨
       (¬ ActiveIn n mask c ∧ ActiveIn n mask (Function.update c (1 - j) (c (1 - j) - 1)))) : c j < n j := by
  rcases h with ⟨h, -⟩ | ⟨-, h⟩
  · exact (h.1 j).2
  · have := (h.1 j).2
    rwa [Function.update_of_ne (by clear * -; revert j; decide)] at this

theorem mem_planeBoundary (O : GridOrder 2) (n : Coord 2) (mask : Coord 2 → Bool) (ix : Coord 2 → ℤ)
    (hix : Steps (fun i => n i + 1) ix) (e : DEdge) :
    e ∈ planeBoundary O n mask ix ↔ ∃ a j, Between n mask a j ∧ e = gridEdge ix j a := by
  unfold planeBoundary
  rw [mem_fold_setInsert, List.mem_flatMap]
  simp only [List.not_mem_nil, or_false]
  have hsort : ∀ (a : Coord 2) (j : Fin 2), (∀ i, 0 ≤ a i ∧ a i < n i + 1) → a j < n j →
      sortEdge (gridEdge ix j a) = gridEdge ix j a := by
    intro a j ha hj
    have := hix a j ha (by show a j + 1 < n j + 1; omega)
    unfold sortEdge
    rw [if_neg]
    unfold gridEdge
    dsimp only
    omega
  constructor
  · rintro ⟨c, hc, he⟩
    have hc := (O.mem _ c).1 hc
    obtain ⟨j, rfl, h⟩ := (mem_edgesAt n mask ix c e).1 he
    have hj := inside_of_xor n mask c j h
    exact ⟨c, j, ⟨⟨fun i => by have := hc i; omega, hj⟩, h⟩, hsort c j hc hj⟩
  · rintro ⟨a, j, ⟨⟨h1, h2⟩, h3⟩, rfl⟩
    have hc : ∀ i, 0 ≤ a i ∧ a i < n i + 1 := fun i => by have := h1 i; omega
    exact ⟨a, (O.mem _ a).2 hc, (mem_edgesAt n mask ix a _).2 ⟨j, (hsort a j hc h2).symm, h3⟩⟩

theorem sgUp_update (axis : Fin 3) (ic : Coord 3) (a : Coord 2) (j : Fin 2) (k x : ℤ) :
    sgUp axis ic (Function.update a j x) k = Function.update (sgUp axis ic a k) (planeAxis axis j) x := by
  funext l
  rcases planeAxis_cover axis l with rfl | ⟨i, rfl⟩
  · rw [sgUp_axis, Function.update_of_ne (planeAxis_ne _ j).symm, sgUp_axis]
  · rw [sgUp_plane]
    by_cases h : i = j
    · subst h; simp
    · rw [Function.update_of_ne h, Function.update_of_ne (fun h' => h (planeAxis_inj _ _ _ h')), sgUp_plane]

/-- **C96.** The boundary edges kept for plane `k` of axis `axis` are exactly the grid edges of the plane that lie between an
active plane cell and one that is inactive or outside the grid, given by the indices of their two grid vertices in growing
order. (`ix2`, `ix3` are the vertex indices of the plane grid and of the 3D grid, `un2` undoes `ix2`.) -/
theorem C96_boundary_edges (O : GridOrder 2) (n : Coord 2) (mask : Coord 2 → Bool) (ix2 : Coord 2 → ℤ) (un2 : ℤ → Coord 2)
    (ix3 : Coord 3 → ℤ) (axis : Fin 3) (ic : Coord 3) (k : ℤ) (shape : Coord 3)
    (hn : ∀ i, shape (planeAxis axis i) = n i + 1) (hk : 0 ≤ k ∧ k < shape axis)
    (h2 : Steps (fun i => n i + 1) ix2) (hu : ∀ c, (∀ i, 0 ≤ c i ∧ c i ≤ n i) → un2 (ix2 c) = c) (h3 : Steps shape ix3)
    (e : DEdge) :
    (e ∈ liftBoundary un2 ix3 axis ic k (planeBoundary O n mask ix2) ↔
      ∃ a j, Between n mask a j ∧ ∃ p q : Coord 3, e = (ix3 p, ix3 q) ∧ p axis = k ∧ q axis = k ∧
        (∀ i, p (planeAxis axis i) = a i) ∧ ∀ i, q (planeAxis axis i) = if i = j then a i + 1 else a i) ∧
    (e ∈ liftBoundary un2 ix3 axis ic k (planeBoundary O n mask ix2) → e.1 < e.2) := by
  have hlift : ∀ a j, Between n mask a j → liftEdge un2 ix3 axis ic k (gridEdge ix2 j a) =
      (ix3 (sgUp axis ic a k), ix3 (sgUp axis ic (Function.update a j (a j + 1)) k)) := by
    rintro a j ⟨⟨h4, h5⟩, -⟩
    unfold liftEdge gridEdge
    dsimp only
    rw [hu a h4, hu (Function.update a j (a j + 1))]
    intro i
    by_cases h : i = j
    · subst h; rw [Function.update_self]; have := h4 i; omega
    · rw [Function.update_of_ne h]; exact h4 i
  have hmem : e ∈ liftBoundary un2 ix3 axis ic k (planeBoundary O n mask ix2) ↔ ∃ a j, Between n mask a j ∧
      e = (ix3 (sgUp axis ic a k), ix3 (sgUp axis ic (Function.update a j (a j + 1)) k)) := by
    unfold liftBoundary
    rw [mem_fold_setInsert, List.mem_map]
    simp only [List.not_mem_nil, or_false, mem_planeBoundary O n mask ix2 h2]
    constructor
    · rintro ⟨f, ⟨a, j, h, rfl⟩, rfl⟩; exact ⟨a, j, h, hlift a j h⟩
    · rintro ⟨a, j, h, rfl⟩; exact ⟨_, ⟨a, j, h, rfl⟩, hlift a j h⟩
  have hval : ∀ (p : Coord 3) (a : Coord 2), p axis = k → (∀ i, p (planeAxis axis i) = a i) → p = sgUp axis ic a k := by
    intro p a h4 h5
    funext l
    rcases planeAxis_cover axis l with rfl | ⟨i, rfl⟩
    · rw [h4, sgUp_axis]
    · rw [h5, sgUp_plane]
  constructor
  · rw [hmem]
    refine exists_congr fun a => exists_congr fun j => and_congr_right fun hb => ?_
    constructor
    · rintro rfl
      refine ⟨_, _, rfl, sgUp_axis _ _ _ _, sgUp_axis _ _ _ _, fun i => sgUp_plane _ _ _ _ i, fun i => ?_⟩
      rw [sgUp_plane]
      by_cases h : i = j
      · subst h; simp
      · rw [Function.update_of_ne h, if_neg h]
    · rintro ⟨p, q, rfl, h4, h5, h6, h7⟩
      rw [← hval p a h4 h6, ← hval q (Function.update a j (a j + 1)) h5]
      intro i
      rw [h7]
      by_cases h : i = j
      · subst h; simp
      · rw [Function.update_of_ne h, if_neg h]
  · intro he
    obtain ⟨a, j, ⟨⟨h4, h5⟩, -⟩, rfl⟩ := hmem.1 he
    dsimp only
    rw [sgUp_update]
    have hs := h3 (sgUp axis ic a k) (planeAxis axis j) (fun l => by
      rcases planeAxis_cover axis l with rfl | ⟨i, rfl⟩
      · rw [sgUp_axis]; exact hk
      · rw [sgUp_plane, hn]; have := h4 i; omega) (by rw [sgUp_plane, hn]; omega)
    rwa [sgUp_plane] at hs

/-- **C96.** A loop is treated as part of the boundary of the active region iff each of its sides is, in one of its two
directions, one of those edges. -/
theorem C96_is_boundary_cell (bd : List DEdge) (hbd : ∀ e ∈ bd, e.1 < e.2) (C : List ℤ) :
    isBoundaryCell bd C = true ↔ ∀ (i : ℕ) (h : i < C.length),
      (C[i], C[(i + 1) % C.length]'(Nat.mod_lt _ (by omega))) ∈ bd ∨ (C[(i + 1) % C.length]'(Nat.mod_lt _ (by omega)), C[i]) ∈ bd := by
  have hs : ∀ e : DEdge, sortEdge e ∈ bd ↔ e ∈ bd ∨ (e.2, e.1) ∈ bd := by
    intro e
    unfold sortEdge
    split
    · rename_i h
      constructor
      · exact Or.inr
      · rintro (h' | h')
        · exact absurd (hbd e h') (by omega)
        · exact h'
    · rename_i h
      constructor
      · exact Or.inl
      · rintro (h' | h')
        · exact h'
        · exact absurd (hbd _ h') (by simpa using h)
  have hlen : (polyEdges C).length = C.length := by unfold polyEdges; simp
  have hget : ∀ (i : ℕ) (h : i < C.length), (polyEdges C)[i]'(by omega) =
      (C[i], C[(i + 1) % C.length]'(Nat.mod_lt _ (by omega))) := by
    intro i h
    unfold polyEdges
    rw [List.getElem_zip, List.getElem_rotate]
  unfold isBoundaryCell
  rw [List.all_eq_true]
  constructor
  · intro h i hi
    have := h _ (List.getElem_mem (l := polyEdges C) (n := i) (by omega))
    rw [decide_eq_true_eq, hs, hget i hi] at this
    exact this
  · intro h e he
    obtain ⟨i, hi, rfl⟩ := List.mem_iff_getElem.1 he
    rw [decide_eq_true_eq, hs, hget i (by omega)]
    exact h i (by omega)

-- non-vacuity: plane 2 of axis 0 of a grid with 3 x 2 x 2 cells, plane cell (0, 1) active. The four sides of the cell are the
-- boundary edges, and its loop is a boundary loop.
def demoOrder : GridOrder 2 where
  coords s := (List.range (s 1).toNat).flatMap fun (y : ℕ) => (List.range (s 0).toNat).map fun (x : ℕ) => ![(x : ℤ), (y : ℤ)]
  nodup s := by
    rw [List.nodup_flatMap]
    constructor
    · intro y _
      refine List.Nodup.map (fun a b h => ?_) List.nodup_range
      have : (a : ℤ) = b := congrFun h 0
      exact_mod_cast this
    · refine List.Pairwise.imp (fun {a b} hab => ?_) List.nodup_range
      simp only [Function.onFun, List.disjoint_left, List.mem_map]
      rintro c ⟨x, -, rfl⟩ ⟨x', -, h⟩
      have : (x' : ℤ) = x ∧ (b : ℤ) = a := ⟨congrFun h 0, congrFun h 1⟩
      exact hab (by exact_mod_cast this.2.symm)
  mem s c := by
    simp only [List.mem_flatMap, List.mem_map, List.mem_range]
    constructor
    · rintro ⟨y, hy, x, hx, rfl⟩ i
      match i with
      | 0 => exact ⟨by show (0 : ℤ) ≤ (x : ℤ); omega, by show (x : ℤ) < s 0; omega⟩
      | 1 => exact ⟨by show (0 : ℤ) ≤ (y : ℤ); omega, by show (y : ℤ) < s 1; omega⟩
    · intro h
      have h0 := h 0
      have h1 := h 1
      refine ⟨(c 1).toNat, by omega, (c 0).toNat, by omega, ?_⟩
      funext i
      match i with
      | 0 => show ((c 0).toNat : ℤ) = c 0; omega
      | 1 => show ((c 1).toNat : ℤ) = c 1; omega

/-- the inverse of the linear index of the 3 x 3 vertices. -/
def demoUn (k : ℤ) : Coord 2 := ![k % 3, k / 3]

def demoBoundary : List DEdge :=
  liftBoundary demoUn (linIndex 3 ![4, 3, 3]) 0 (fun _ => 7) 2
    (planeBoundary demoOrder ![2, 2] (fun c => decide (c ≠ ![0, 1])) (linIndex 2 ![3, 3]))

example : (∀ c : Coord 2, (∀ i, 0 ≤ c i ∧ c i ≤ (![2, 2] : Coord 2) i) → demoUn (linIndex 2 ![3, 3] c) = c) ∧
    Steps (fun i => (![2, 2] : Coord 2) i + 1) (linIndex 2 ![3, 3]) ∧ Steps ![4, 3, 3] (linIndex 3 ![4, 3, 3]) := by
  refine ⟨fun c hc => ?_, ?_, steps_linIndex 3 _⟩
  · have h0 := hc 0
    have h1 := hc 1
    simp at h0 h1
    have e : linIndex 2 ![3, 3] c = c 0 + 3 * c 1 := by simp [linIndex]
    rw [e]
    funext i
    match i with
    | 0 => show (c 0 + 3 * c 1) % 3 = c 0; omega
    | 1 => show (c 0 + 3 * c 1) / 3 = c 1; omega
  · have : (fun i => (![2, 2] : Coord 2) i + 1) = ![3, 3] := by funext i; match i with | 0 => rfl | 1 => rfl
    rw [this]; exact steps_linIndex 2 _

example : demoBoundary = [(14, 18), (14, 26), (18, 30), (26, 30)] ∧ isBoundaryCell demoBoundary [14, 18, 30, 26] = true ∧
    isBoundaryCell demoBoundary [14, 18, 30] = false := by decide +kernel

end Gen3
end Mandoline
