import Verif.Face2.Generate

/-!
# C77: which faces of the planar graph become cut faces, and of which grid cell

A face none of whose half-edges leaves the closed cell `c`, with `c` on the left, is stored iff `c` is active, and it is
assigned to `c`. A face outside the active cells is recognised by the componentwise minimum of its vertices only: an
L-shaped hole of exterior cells is stored as a cut face of an unrelated active cell.
-/
namespace Mandoline
namespace Gen2
open Planar

variable {G : Gen2}

theorem inCell_pos (c : Coord 2) (v : ℤ) : InCell c (G.pos v) ↔ InClosedCell c (G.V v.toNat).p := by
  unfold InCell InClosedCell pos
  constructor
  · rintro ⟨h1, h2⟩ i
    match i with
    | 0 => exact h1
    | 1 => exact h2
  · intro h; exact ⟨h 0, h 1⟩

theorem getMinCoord_spec {D : ℕ} (f : ℕ → Coord D) (l : List ℕ) (h : l ≠ []) : ∃ m, getMinCoord f l = some m ∧
    ∀ k, (∀ j ∈ l, m k ≤ f j k) ∧ ∃ j ∈ l, m k = f j k := by
  cases l with
  | nil => exact absurd rfl h
  | cons a l =>
    refine ⟨_, rfl, fun k => ?_⟩
    obtain ⟨h1, h2, h3⟩ := getMinCoord_fold f l (f a) k
    constructor
    · intro j hj
      rcases List.mem_cons.1 hj with rfl | hj
      · exact h1
      · exact h2 j hj
    · rcases h3 with h3 | ⟨j, hj, h3⟩
      · exact ⟨a, by simp, h3⟩
      · exact ⟨j, List.mem_cons_of_mem _ hj, h3⟩

theorem getMinCoord2_spec {D : ℕ} (f : ℕ → Coord D) (ls : List (List ℕ)) (h : ls ≠ []) (hne : ∀ l ∈ ls, l ≠ []) :
    ∃ m, getMinCoord2 f ls = some m ∧ ∀ k, (∀ l ∈ ls, ∀ j ∈ l, m k ≤ f j k) ∧ ∃ l ∈ ls, ∃ j ∈ l, m k = f j k := by
  cases ls with
  | nil => exact absurd rfl h
  | cons l ls =>
    obtain ⟨m0, e0, h0⟩ := getMinCoord_spec f l (hne l (by simp))
    unfold getMinCoord2
    dsimp only
    rw [e0]
    clear e0 h
    have key : ∀ (ls done : List (List ℕ)) (m0 : Coord D), (∀ l ∈ ls, l ≠ []) →
        (∀ k, (∀ l ∈ done, ∀ j ∈ l, m0 k ≤ f j k) ∧ ∃ l ∈ done, ∃ j ∈ l, m0 k = f j k) →
        ∃ m, ls.foldl (fun o l' => do
          let c ← o
          let v ← getMinCoord f l'
          pure fun k => min (c k) (v k)) (some m0) = some m ∧
          ∀ k, (∀ l ∈ done ++ ls, ∀ j ∈ l, m k ≤ f j k) ∧ ∃ l ∈ done ++ ls, ∃ j ∈ l, m k = f j k := by
      intro ls
      induction ls with
      | nil => intro done m0 _ h; exact ⟨m0, rfl, by simpa using h⟩
      | cons l' ls ih =>
        intro done m0 hne h
        obtain ⟨m1, e1, h1⟩ := getMinCoord_spec f l' (hne l' (by simp))
        rw [List.foldl_cons]
        simp only [Option.bind_eq_bind, Option.bind_some, e1, Option.pure_def]
        have hnew : ∀ k, (∀ l ∈ done ++ [l'], ∀ j ∈ l, min (m0 k) (m1 k) ≤ f j k) ∧
            ∃ l ∈ done ++ [l'], ∃ j ∈ l, min (m0 k) (m1 k) = f j k := by
          intro k
          constructor
          · intro l hl j hj
            rcases List.mem_append.1 hl with hl | hl
            · exact (min_le_left _ _).trans ((h k).1 l hl j hj)
            · rw [List.mem_singleton] at hl; subst hl
              exact (min_le_right _ _).trans ((h1 k).1 j hj)
          · rcases min_choice (m0 k) (m1 k) with hc | hc
            · obtain ⟨l, hl, j, hj, he⟩ := (h k).2
              exact ⟨l, by simp [hl], j, hj, by rw [hc]; exact he⟩
            · obtain ⟨j, hj, he⟩ := (h1 k).2
              exact ⟨l', by simp, j, hj, by rw [hc]; exact he⟩
        obtain ⟨m, e, hm⟩ := ih (done ++ [l']) (fun k => min (m0 k) (m1 k)) (fun l hl => hne l (List.mem_cons_of_mem _ hl)) hnew
        rw [List.append_assoc] at hm
        exact ⟨m, e, hm⟩
    obtain ⟨m, e, hm⟩ := key ls [l] m0 (fun l hl => hne l (List.mem_cons_of_mem _ hl)) (fun k =>
      ⟨fun l' hl' j hj => by rw [List.mem_singleton] at hl'; subst hl'; exact (h0 k).1 j hj,
        l, by simp, (h0 k).2⟩)
    exact ⟨m, e, hm⟩

theorem empty_possible {D : ℕ} (c : Coord D) : Mask.empty.possibleSorted c = [c] := by
  refine possibleSorted_single _ _ _ fun c' => ?_
  rw [Mask.mem_possibleCells]
  constructor
  · intro h; funext j
    rcases h j with h | ⟨h, _⟩
    · exact h
    · simp [Mask.empty] at h
  · rintro rfl j; exact Or.inl rfl

/-- a closed loop has an edge whose first coordinate does not increase. -/
theorem exists_not_lt (g : ℤ → ℚ) (p : List ℤ) (hp : p ≠ []) : ∃ e ∈ loopEdges p, g e.2 ≤ g e.1 := by
  by_contra hn
  push Not at hn
  have h1 : ((loopEdges p).map fun e => g e.2).sum = ((loopEdges p).map fun e => g e.1).sum := by
    have a : (loopEdges p).map (fun e => g e.2) = (p.rotate 1).map g := by
      unfold loopEdges
      rw [show (fun e : ℤ × ℤ => g e.2) = g ∘ Prod.snd from rfl, ← List.map_map, List.map_snd_zip (by simp)]
    have b : (loopEdges p).map (fun e => g e.1) = p.map g := by
      unfold loopEdges
      rw [show (fun e : ℤ × ℤ => g e.1) = g ∘ Prod.fst from rfl, ← List.map_map, List.map_fst_zip (by simp)]
    rw [a, b]
    exact ((List.rotate_perm p 1).map g).sum_eq
  have h2 : ((loopEdges p).map fun e => g e.1).sum < ((loopEdges p).map fun e => g e.2).sum := by
    refine List.sum_lt_sum _ _ (fun e he => (hn e he).le) ?_
    have : loopEdges p ≠ [] := by
      unfold loopEdges
      cases p with
      | nil => exact absurd rfl hp
      | cons a l => 
        intro h
        have := congrArg List.length h
        simp at this
    obtain ⟨e, he⟩ := List.exists_mem_of_ne_nil _ this
    exact ⟨e, he, hn e he⟩
  linarith

theorem mem_loopEdges_fst {p : List ℤ} {v : ℤ} (hv : v ∈ p) : ∃ e ∈ loopEdges p, e.1 = v := by
  have : v ∈ (loopEdges p).map Prod.fst := by
    unfold loopEdges
    rw [List.map_fst_zip (by simp)]
    exact hv
  obtain ⟨e, he, rfl⟩ := List.mem_map.1 this
  exact ⟨e, he, rfl⟩

theorem loopEdges_mem {p : List ℤ} {e : DEdge} (he : e ∈ loopEdges p) : e.1 ∈ p ∧ e.2 ∈ p := by
  unfold loopEdges at he
  have := List.of_mem_zip he
  exact ⟨this.1, List.mem_rotate.1 this.2⟩

/-- a loop with `c` on its left has a vertex off the upper line of `c`, in each direction. -/
theorem below_upper (c : Coord 2) (p : List ℤ) (hp : p ≠ []) (hne : ∀ e ∈ loopEdges p, G.pos e.1 ≠ G.pos e.2)
    (h : ∀ e ∈ loopEdges p, LeftOf c (G.pos e.1) (G.pos e.2)) :
    (∃ v ∈ p, (G.pos v).1 < c 0 + 1) ∧ ∃ v ∈ p, (G.pos v).2 < c 1 + 1 := by
  have h' := fun e he => (leftOf_iff c _ _ (hne e he)).1 (h e he)
  constructor
  · by_contra hn
    push Not at hn
    have hx : ∀ v ∈ p, (G.pos v).1 = c 0 + 1 := fun v hv => by
      obtain ⟨e, he, rfl⟩ := mem_loopEdges_fst hv
      exact le_antisymm (h' e he).1.1.2 (hn _ hv)
    obtain ⟨e, he, hle⟩ := exists_not_lt (fun v => (G.pos v).2) p hp
    have hm := loopEdges_mem he
    refine (h' e he).2.2 (Or.inr (Or.inl ⟨hx _ hm.1, hx _ hm.2, lt_of_le_of_ne hle ?_⟩))
    intro heq
    exact hne e he (Prod.ext ((hx _ hm.1).trans (hx _ hm.2).symm) heq.symm)
  · by_contra hn
    push Not at hn
    have hx : ∀ v ∈ p, (G.pos v).2 = c 1 + 1 := fun v hv => by
      obtain ⟨e, he, rfl⟩ := mem_loopEdges_fst hv
      exact le_antisymm (h' e he).1.2.2 (hn _ hv)
    obtain ⟨e, he, hle⟩ := exists_not_lt (fun v => -(G.pos v).1) p hp
    have hm := loopEdges_mem he
    refine (h' e he).2.2 (Or.inr (Or.inr (Or.inl ⟨hx _ hm.1, hx _ hm.2, ?_⟩)))
    have hle' : (G.pos e.1).1 ≤ (G.pos e.2).1 := by simpa using hle
    refine lt_of_le_of_ne hle' ?_
    intro heq
    exact hne e he (Prod.ext heq ((hx _ hm.1).trans (hx _ hm.2).symm))

theorem coord_of_inCell {v : Vertex 2} (hv : Normalised v) {c : Coord 2} (h : InClosedCell c v.p) (k : Fin 2) :
    c k ≤ v.coord k ∧ (v.p k < c k + 1 → v.coord k = c k) := by
  have h1 := (h k).1
  have h2 := (h k).2
  have hq := hv k
  unfold Vertex.p at h1 h2 ⊢
  have a : (c k : ℚ) < v.coord k + 1 := by linarith
  have a' : c k < v.coord k + 1 := by exact_mod_cast a
  refine ⟨by omega, fun h3 => ?_⟩
  have b : (v.coord k : ℚ) < c k + 1 := by linarith
  have b' : v.coord k < c k + 1 := by exact_mod_cast b
  omega

/-- **C77.** A face all of whose half-edges have cell `c` on their left has `c` as its only possible cell: the minimum
corner of its vertices is the corner of `c`. -/
theorem C77_face_cell (hV : ∀ i, Normalised (G.V i)) (c : Coord 2) (F : List (List ℤ)) (hF : F ≠ []) (hl : ∀ p ∈ F, p ≠ [])
    (hne : ∀ e ∈ halfEdges F, G.pos e.1 ≠ G.pos e.2) (h : ∀ e ∈ halfEdges F, LeftOf c (G.pos e.1) (G.pos e.2)) :
    G.faceCells F = some [c] := by
  have hsub : ∀ p ∈ F, ∀ e ∈ loopEdges p, e ∈ halfEdges F := fun p hp e he => List.mem_flatMap.2 ⟨p, hp, he⟩
  have hin : ∀ p ∈ F, ∀ v ∈ p, InCell c (G.pos v) := by
    intro p hp v hv
    obtain ⟨e, he, rfl⟩ := mem_loopEdges_fst hv
    exact (h e (hsub p hp e he)).1
  obtain ⟨m, e, hm⟩ := getMinCoord2_spec (fun i => (G.V i).coord) (F.map fun l => l.map Int.toNat) (by simpa using hF)
    (by
      intro l hl'
      obtain ⟨p, hp, rfl⟩ := List.mem_map.1 hl'
      simpa using hl p hp)
  have hmc : m = c := by
    funext k
    refine le_antisymm ?_ ?_
    · obtain ⟨p, hp⟩ := List.exists_mem_of_ne_nil _ hF
      obtain ⟨h0, h1⟩ := below_upper c p (hl p hp) (fun e he => hne e (hsub p hp e he)) (fun e he => h e (hsub p hp e he))
      have hex : ∃ v ∈ p, (G.V v.toNat).p k < c k + 1 := by
        match k with
        | 0 => exact h0
        | 1 => exact h1
      obtain ⟨v, hv, hlt⟩ := hex
      have := (coord_of_inCell (hV v.toNat) ((inCell_pos c v).1 (hin p hp v hv)) k).2 hlt
      rw [← this]
      exact (hm k).1 _ (List.mem_map.2 ⟨p, hp, rfl⟩) _ (List.mem_map.2 ⟨v, hv, rfl⟩)
    · obtain ⟨l, hl', j, hj, he⟩ := (hm k).2
      obtain ⟨p, hp, rfl⟩ := List.mem_map.1 hl'
      obtain ⟨v, hv, rfl⟩ := List.mem_map.1 hj
      rw [he]
      exact (coord_of_inCell (hV v.toNat) ((inCell_pos c v).1 (hin p hp v hv)) k).1
  unfold faceCells
  rw [e, hmc, Option.map_some, empty_possible]

theorem curveVolume_eq (pos : ℤ → Dir) (p : List ℤ) : curveVolume pos p = shoelace pos p := by
  unfold curveVolume shoelace
  show ((p.zip (p.rotate 1)).map _).sum / 2 = _
  generalize p.zip (p.rotate 1) = l
  induction l with
  | nil => simp
  | cons e l ih =>
    simp only [List.map_cons, List.sum_cons]
    rw [← ih]
    simp only [cross2]
    ring

theorem faceVolume_eq (F : List (List ℤ)) : G.faceVolume F = (F.map (shoelace G.pos)).sum := by
  unfold faceVolume
  congr 1
  exact List.map_congr_left fun p _ => curveVolume_eq _ p

/-- **C77.** Such a face is stored as a cut face iff `c` is an active cell (and the sum of the signed areas of its loops
is at least -1/2), and it is assigned to cell `c`. -/
theorem C77_kept_iff (hV : ∀ i, Normalised (G.V i)) (c : Coord 2) (F : List (List ℤ)) (hF : F ≠ []) (hl : ∀ p ∈ F, p ≠ [])
    (hne : ∀ e ∈ halfEdges F, G.pos e.1 ≠ G.pos e.2) (h : ∀ e ∈ halfEdges F, LeftOf c (G.pos e.1) (G.pos e.2)) :
    (G.keep F = true ↔ -1 / 2 ≤ (F.map (shoelace G.pos)).sum ∧ G.mask c = false) ∧ G.ownerCell F = some c := by
  have hc := C77_face_cell hV c F hF hl hne h
  rw [← faceVolume_eq]
  constructor
  · unfold keep isBoundaryFacet
    rw [hc]
    have : F.isEmpty = false := by cases F with
      | nil => exact absurd rfl hF
      | cons _ _ => rfl
    simp [this]
  · unfold ownerCell
    rw [hc]; rfl

/-- **C77.** In general only the minimum corner of the vertices decides: a face (on whichever side of its edges it lies)
is stored iff its signed area is at least -1/2 and the cell at the minimum corner is not exterior, and it is assigned to
that cell. -/
theorem C77_corner_decides (F : List (List ℤ)) (hF : F ≠ []) (hl : ∀ p ∈ F, p ≠ []) : ∃ m : Coord 2,
    (∀ k, (∀ p ∈ F, ∀ v ∈ p, m k ≤ (G.V v.toNat).coord k) ∧ ∃ p ∈ F, ∃ v ∈ p, m k = (G.V v.toNat).coord k) ∧
    (G.keep F = true ↔ -1 / 2 ≤ (F.map (shoelace G.pos)).sum ∧ G.mask m = false) ∧ G.ownerCell F = some m := by
  rw [← faceVolume_eq]
  obtain ⟨m, e, hm⟩ := getMinCoord2_spec (fun i => (G.V i).coord) (F.map fun l => l.map Int.toNat) (by simpa using hF)
    (by
      intro l hl'
      obtain ⟨p, hp, rfl⟩ := List.mem_map.1 hl'
      simpa using hl p hp)
  have hc : G.faceCells F = some [m] := by
    unfold faceCells
    rw [e, Option.map_some, empty_possible]
  refine ⟨m, fun k => ⟨fun p hp v hv => (hm k).1 _ (List.mem_map.2 ⟨p, hp, rfl⟩) _ (List.mem_map.2 ⟨v, hv, rfl⟩), ?_⟩, ?_, ?_⟩
  · obtain ⟨l, hl', j, hj, he⟩ := (hm k).2
    obtain ⟨p, hp, rfl⟩ := List.mem_map.1 hl'
    obtain ⟨v, hv, rfl⟩ := List.mem_map.1 hj
    exact ⟨p, hp, v, hv, he⟩
  · unfold keep isBoundaryFacet
    rw [hc]
    have : F.isEmpty = false := by cases F with
      | nil => exact absurd rfl hF
      | cons _ _ => rfl
    simp [this]
  · unfold ownerCell
    rw [hc]; rfl

/-! ## an L-shaped hole -/

/-- a grid vertex with index `5 x + y`. -/
def demoVertex (i : ℕ) : Vertex 2 := Vertex.ofCoord ![((i / 5 : ℕ) : ℤ), ((i % 5 : ℕ) : ℤ)]

/-- the 4 x 4 grid in which the cells (1,2), (2,2), (2,1) are exterior and all others are active. -/
def demoHole : Gen2 where
  shape := ![4, 4]
  V := demoVertex
  edges :=
    ((List.range 4).flatMap fun (x : ℕ) => (List.range 5).map fun (y : ℕ) => CutEdge2.mk ![none, some (y : ℤ)] (5 * x + y) (5 * (x + 1) + y) false) ++
    ((List.range 5).flatMap fun (x : ℕ) => (List.range 4).map fun (y : ℕ) => CutEdge2.mk ![some (x : ℤ), none] (5 * x + y) (5 * x + y + 1) false)
    |>.filter fun e => !(decide (e.a = 12 ∧ e.b = 17) || decide (e.a = 12 ∧ e.b = 13))
  mask := fun c => decide ((c 0 = 1 ∧ c 1 = 2) ∨ (c 0 = 2 ∧ c 1 = 2) ∨ (c 0 = 2 ∧ c 1 = 1))
  cellIndex := fun c => 4 * c 0 + c 1

/-- the counter-clockwise loop around the hole. -/
def holeLoop : List ℤ := [7, 12, 11, 16, 17, 18, 13, 8]

/-- the half-edges of the graph. -/
def directed (G : Gen2) : List DEdge := G.edges.flatMap fun e => [((e.a : ℤ), (e.b : ℤ)), ((e.b : ℤ), (e.a : ℤ))]

/-- **C77 refuted for exterior faces.** The loop around the hole is a loop of the planar graph (its edges are edges of the
graph and it turns left as sharply as possible everywhere), all its half-edges have
exterior cells on their left, and yet it is stored as a cut face of the active cell (1,1). -/
theorem C77_exterior_hole_refuted :
    (∀ e ∈ loopEdges holeLoop, e ∈ demoHole.directed) ∧
    (∀ x ∈ (loopEdges holeLoop).zip ((loopEdges holeLoop).rotate 1), ∀ e ∈ demoHole.directed, e.1 = x.1.2 →
      ¬ InSector (dir (demoHole.pos e.1) (demoHole.pos x.2.2)) (dir (demoHole.pos e.1) (demoHole.pos e.2))
        (dir (demoHole.pos e.1) (demoHole.pos x.1.1))) ∧
    (∀ e ∈ loopEdges holeLoop, ∀ c, LeftOf c (demoHole.pos e.1) (demoHole.pos e.2) → demoHole.mask c = true) ∧
    demoHole.keep [holeLoop] = true ∧ demoHole.ownerCell [holeLoop] = some ![1, 1] ∧ demoHole.Active ![1, 1] := by
  refine ⟨by decide +kernel, by unfold InSector SameDir; decide +kernel, ?_, by decide +kernel, by decide +kernel, by unfold Active Gen2.InGrid; decide +kernel⟩
  have hL : ∀ x ∈ (loopEdges holeLoop).zip [(![1, 2] : Coord 2), ![2, 1], ![2, 1], ![2, 1], ![2, 2], ![2, 2], ![1, 2], ![1, 2]],
      (demoHole.pos x.1.1 ≠ demoHole.pos x.1.2) ∧ (InCell x.2 (demoHole.pos x.1.1) ∧ InCell x.2 (demoHole.pos x.1.2) ∧
      ¬ Clockwise x.2 (demoHole.pos x.1.1) (demoHole.pos x.1.2)) ∧ demoHole.mask x.2 = true := by
    unfold InCell Clockwise
    decide +kernel
  intro e he c hc
  have he' : e ∈ ((loopEdges holeLoop).zip [(![1, 2] : Coord 2), ![2, 1], ![2, 1], ![2, 1], ![2, 2], ![2, 2], ![1, 2], ![1, 2]]).map Prod.fst := by
    rw [List.map_fst_zip (by decide)]; exact he
  obtain ⟨x, hx, rfl⟩ := List.mem_map.1 he'
  obtain ⟨h1, h2, h3⟩ := hL x hx
  obtain ⟨c', _, hu⟩ := C76_left_cell _ _ h1 ⟨x.2, h2.1, h2.2.1⟩
  rw [hu c hc, ← hu x.2 ((leftOf_iff _ _ _ h1).2 h2)]
  exact h3

/-- the loop around cell (0,0) meets the hypotheses of `C77_kept_iff`: it is stored, and assigned to (0,0). -/
example : (∀ e ∈ halfEdges [[(0 : ℤ), 5, 6, 1]], demoHole.pos e.1 ≠ demoHole.pos e.2 ∧
    LeftOf ![0, 0] (demoHole.pos e.1) (demoHole.pos e.2)) ∧ demoHole.keep [[0, 5, 6, 1]] = true ∧
    demoHole.ownerCell [[0, 5, 6, 1]] = some ![0, 0] := by
  refine ⟨?_, by decide +kernel, by decide +kernel⟩
  have h : ∀ e ∈ halfEdges [[(0 : ℤ), 5, 6, 1]], demoHole.pos e.1 ≠ demoHole.pos e.2 ∧
      (InCell ![0, 0] (demoHole.pos e.1) ∧ InCell ![0, 0] (demoHole.pos e.2) ∧
        ¬ Clockwise ![0, 0] (demoHole.pos e.1) (demoHole.pos e.2)) := by unfold InCell Clockwise; decide +kernel
  exact fun e he => ⟨(h e he).1, (leftOf_iff _ _ _ (h e he).1).2 (h e he).2⟩

/-- **C77 with C76.** Every loop that the collapser reports for the cut edges and that has a framed cell `c` on the left of
one of its half-edges is, as a face of its own, stored iff `c` is active, and assigned to `c`. -/
theorem C77_loops_of_active_cells {ord : ℤ → List ℤ} (hV : ∀ i, Normalised (G.V i)) {edges : List DEdge}
    (hG : PlanarGraph edges G.pos ord) (R : DsuRoots ((FaceCollapser.make edges).unify ord).ds) (c : Coord 2)
    (hf : Framed G.pos (FaceCollapser.make edges).edgeList c) :
    ∃ out, ((FaceCollapser.make edges).bakeSimple ord R).faces = some out ∧ ∀ p ∈ out,
      (∃ e ∈ loopEdges p.2, LeftOf c (G.pos e.1) (G.pos e.2)) →
      (G.keep [p.2] = true ↔ -1 / 2 ≤ shoelace G.pos p.2 ∧ G.mask c = false) ∧ G.ownerCell [p.2] = some c := by
  obtain ⟨out, h1, h2, h3⟩ := FaceCollapser.C35_loops_partition_edges _ (FaceCollapser.ok_make edges)
    (FaceCollapser.make_inv edges).1 ord hG.perm R
  obtain ⟨out', h1', h4⟩ := C76_loop_in_one_cell hG R c hf
  rw [h1] at h1'
  cases h1'
  refine ⟨out, h1, fun p hp hex => ?_⟩
  obtain ⟨h5, h6⟩ := h4 p hp hex
  obtain ⟨e, he, _⟩ := hex
  have hmem : ∀ e ∈ loopEdges p.2, e ∈ (FaceCollapser.make edges).edgeList := fun e he =>
    (List.mem_filter.1 ((h2.mem_iff).1 (List.mem_flatMap.2 ⟨p, hp, he⟩))).1
  have hhe : halfEdges [p.2] = loopEdges p.2 := by simp [halfEdges]
  have := C77_kept_iff hV c [p.2] (by simp) (by
    intro q hq
    rw [List.mem_singleton] at hq
    subst hq
    intro h0
    rw [h0] at he
    simp [loopEdges] at he) (by rw [hhe]; exact fun e he => hG.ne e (hmem e he)) (by rw [hhe]; exact h5)
  simpa using this

end Gen2
end Mandoline
