import Verif.Face2.Incidence2

/-!
# C78, C79: the generated 2D mesh is a well-formed complex at every edge that is not dangling or duplicated
-/
namespace Mandoline
namespace Gen2
open Planar

variable {G : Gen2}

/-- what edge generation guarantees for a cut edge: different ends, its mask is what its ends have in common (C12), edges
on a grid line run in the direction of increasing coordinates (C19), and one of the cells at the edge is active. -/
structure EdgeOk (G : Gen2) (e : CutEdge2) : Prop where
  ne : G.pos e.a ≠ G.pos e.b
  mask : ∀ k, (e.mask k).isSome = true ↔ ∃ n : ℤ, (G.V e.a).p k = n ∧ (G.V e.b).p k = n
  asc : ∀ k j : Fin 2, k ≠ j → (e.mask k).isSome = true → (G.V e.a).p j < (G.V e.b).p j
  act : ∃ c, G.Active c ∧ InCell c (G.pos e.a) ∧ InCell c (G.pos e.b)

theorem mem_edgeCells (hV : ∀ i, Normalised (G.V i)) (e : CutEdge2) (h : G.EdgeOk e) (c : Coord 2) :
    c ∈ e.mask.possibleCells (fun k => min ((G.V e.a).coord k) ((G.V e.b).coord k)) ↔
      InCell c (G.pos e.a) ∧ InCell c (G.pos e.b) := by
  rw [Mask.mem_possibleCells]
  obtain ⟨c0, _, hc1, hc2⟩ := h.act
  simp only [inCell_pos] at hc1 hc2 ⊢
  simp only [Int.toNat_natCast] at hc1 hc2 ⊢
  unfold InClosedCell at hc1 hc2 ⊢
  rw [← forall_and]
  refine forall_congr' fun k => ?_
  rw [h.mask k]
  have qa := hV e.a k
  have qb := hV e.b k
  have a1 := hc1 k
  have a2 := hc2 k
  unfold Vertex.p at a1 a2 ⊢
  generalize (G.V e.a).coord k = x at *
  generalize (G.V e.b).coord k = y at *
  generalize (G.V e.a).quot k = p at *
  generalize (G.V e.b).quot k = q at *
  obtain ⟨⟨b1, b2⟩, b3, b4⟩ := And.intro a1 a2
  have i1 : (c0 k : ℚ) < x + 1 := by linarith [qa.2]
  have i2 : (c0 k : ℚ) < y + 1 := by linarith [qb.2]
  have i3 : (x : ℚ) ≤ c0 k + 1 := by linarith [qa.1]
  have i4 : (y : ℚ) ≤ c0 k + 1 := by linarith [qb.1]
  norm_cast at i1 i2 i3 i4
  constructor
  · rintro (h | ⟨⟨n, h1, h2⟩, h⟩)
    · rw [h]
      have m1 : min x y ≤ x := min_le_left _ _
      have m2 : min x y ≤ y := min_le_right _ _
      have hx : x = min x y ∨ x = min x y + 1 := by rcases min_choice x y with h | h <;> omega
      have hy : y = min x y ∨ y = min x y + 1 := by rcases min_choice x y with h | h <;> omega
      have key : ∀ z : ℤ, ∀ r : ℚ, 0 ≤ r → r < 1 → (z = min x y ∨ (z = min x y + 1 ∧ r ≤ 0)) →
          ((min x y : ℤ) : ℚ) ≤ z + r ∧ (z : ℚ) + r ≤ ((min x y : ℤ) : ℚ) + 1 := by
        rintro z r h1 h2 (h | ⟨h, h3⟩) <;> rw [h] <;> push_cast <;> constructor <;> linarith
      refine ⟨key x p qa.1 qa.2 ?_, key y q qb.1 qb.2 ?_⟩
      · rcases hx with hx | hx
        · exact Or.inl hx
        · refine Or.inr ⟨hx, ?_⟩
          have : x = c0 k + 1 := by omega
          rw [this] at b2; push_cast at b2; linarith
      · rcases hy with hy | hy
        · exact Or.inl hy
        · refine Or.inr ⟨hy, ?_⟩
          have : y = c0 k + 1 := by omega
          rw [this] at b4; push_cast at b4; linarith
    · have e1 : (x : ℚ) ≤ n := by linarith [qa.1]
      have e2 : (n : ℚ) < x + 1 := by linarith [qa.2]
      have e3 : (y : ℚ) ≤ n := by linarith [qb.1]
      have e4 : (n : ℚ) < y + 1 := by linarith [qb.2]
      norm_cast at e1 e2 e3 e4
      have hx : x = n := by omega
      have hy : y = n := by omega
      rw [h, h1, h2, hx, hy]
      push_cast
      simp
  · rintro ⟨⟨d1, d2⟩, d3, d4⟩
    have j1 : (c k : ℚ) < x + 1 := by linarith [qa.2]
    have j2 : (c k : ℚ) < y + 1 := by linarith [qb.2]
    have j3 : (x : ℚ) ≤ c k + 1 := by linarith [qa.1]
    have j4 : (y : ℚ) ≤ c k + 1 := by linarith [qb.1]
    norm_cast at j1 j2 j3 j4
    by_cases hc : c k = min x y
    · exact Or.inl hc
    · have hm : x = c k + 1 ∧ y = c k + 1 := by
        rcases min_choice x y with h | h <;> rw [h] at hc
        · have : min x y ≤ y := min_le_right _ _
          omega
        · have : min x y ≤ x := min_le_left _ _
          omega
      have hp : p = 0 := by rw [hm.1] at d2; push_cast at d2; linarith [qa.1]
      have hq : q = 0 := by rw [hm.2] at d4; push_cast at d4; linarith [qb.1]
      refine Or.inr ⟨⟨c k + 1, ?_, ?_⟩, ?_⟩
      · rw [hm.1, hp]; push_cast; ring
      · rw [hm.2, hq]; push_cast; ring
      · rw [hm.1, hm.2]; simp

/-- the two cells on the two sides of an edge. -/
theorem cells_of_edge (e : CutEdge2) (h : G.EdgeOk e) : ∃ L R : Coord 2,
    LeftOf L (G.pos e.a) (G.pos e.b) ∧ LeftOf R (G.pos e.b) (G.pos e.a) ∧
    (∀ c, InCell c (G.pos e.a) ∧ InCell c (G.pos e.b) ↔ c = L ∨ c = R) ∧
    (L = R ∨ (R 0 = L 0 + 1 ∧ R 1 = L 1) ∨ (L 0 = R 0 ∧ L 1 = R 1 + 1)) := by
  obtain ⟨c0, _, hc1, hc2⟩ := h.act
  obtain ⟨L, hL, hLu⟩ := C76_left_cell _ _ h.ne ⟨c0, hc1, hc2⟩
  obtain ⟨R, hR, hRu⟩ := C76_left_cell _ _ h.ne.symm ⟨c0, hc2, hc1⟩
  have hL' := (leftOf_iff _ _ _ h.ne).1 hL
  have hR' := (leftOf_iff _ _ _ h.ne.symm).1 hR
  refine ⟨L, R, hL, hR, fun c => ⟨fun ⟨h1, h2⟩ => ?_, ?_⟩, ?_⟩
  · by_cases hcw : Clockwise c (G.pos e.a) (G.pos e.b)
    · right
      refine hRu c ((leftOf_iff _ _ _ h.ne.symm).2 ⟨h2, h1, ?_⟩)
      have hne := h.ne
      rcases hcw with ⟨e1, e2, e3⟩ | ⟨e1, e2, e3⟩ | ⟨e1, e2, e3⟩ | ⟨e1, e2, e3⟩ <;>
      rintro (⟨f1, f2, f3⟩ | ⟨f1, f2, f3⟩ | ⟨f1, f2, f3⟩ | ⟨f1, f2, f3⟩) <;> linarith
    · exact Or.inl (hLu c ((leftOf_iff _ _ _ h.ne).2 ⟨h1, h2, hcw⟩))
  · rintro (rfl | rfl)
    · exact ⟨hL'.1, hL'.2.1⟩
    · exact ⟨hR'.2.1, hR'.1⟩
  · by_cases heq : L = R
    · exact Or.inl heq
    · right
      have hcw : Clockwise R (G.pos e.a) (G.pos e.b) := by
        by_contra hn
        exact heq (hLu R ((leftOf_iff _ _ _ h.ne).2 ⟨hR'.2.1, hR'.1, hn⟩)).symm
      have masc : ∀ (k j : Fin 2) (n : ℤ), k ≠ j → (G.V e.a).p k = n → (G.V e.b).p k = n → (G.V e.a).p j < (G.V e.b).p j :=
        fun k j n hkj h1 h2 => h.asc k j hkj ((h.mask k).2 ⟨n, h1, h2⟩)
      have pa : G.pos e.a = ((G.V e.a).p 0, (G.V e.a).p 1) := by unfold pos; simp
      have pb : G.pos e.b = ((G.V e.b).p 0, (G.V e.b).p 1) := by unfold pos; simp
      have hRin := hR'.2.1
      have hRin2 := hR'.1
      have hne := h.ne
      rw [pa, pb] at hcw hne
      rw [pa] at hRin
      rw [pb] at hRin2
      unfold Clockwise at hcw
      dsimp only at hcw
      rcases hcw with ⟨e1, e2, e3⟩ | ⟨e1, e2, e3⟩ | ⟨e1, e2, e3⟩ | ⟨e1, e2, e3⟩
      · have := masc 1 0 (R 1) (by decide) e1 e2; linarith
      · have := masc 0 1 (R 0 + 1) (by decide) (by rw [e1]; push_cast; ring) (by rw [e2]; push_cast; ring); linarith
      · right
        have : (![R 0, R 1 + 1] : Coord 2) = L := by
          refine hLu _ ((leftOf_iff _ _ _ h.ne).2 ?_)
          rw [pa, pb]
          unfold InCell Clockwise at *
          simp only [Matrix.cons_val_zero, Matrix.cons_val_one] at *
          push_cast
          obtain ⟨⟨r1, r2⟩, r3, r4⟩ := hRin
          obtain ⟨⟨s1, s2⟩, s3, s4⟩ := hRin2
          refine ⟨⟨⟨r1, r2⟩, by linarith, by linarith⟩, ⟨⟨s1, s2⟩, by linarith, by linarith⟩, ?_⟩
          rintro (⟨f1, f2, f3⟩ | ⟨f1, f2, f3⟩ | ⟨f1, f2, f3⟩ | ⟨f1, f2, f3⟩) <;> linarith
        rw [← this]
        exact ⟨rfl, rfl⟩
      · left
        have : (![R 0 - 1, R 1] : Coord 2) = L := by
          refine hLu _ ((leftOf_iff _ _ _ h.ne).2 ?_)
          rw [pa, pb]
          unfold InCell Clockwise at *
          simp only [Matrix.cons_val_zero, Matrix.cons_val_one] at *
          push_cast
          obtain ⟨⟨r1, r2⟩, r3, r4⟩ := hRin
          obtain ⟨⟨s1, s2⟩, s3, s4⟩ := hRin2
          refine ⟨⟨⟨by linarith, by linarith⟩, r3, r4⟩, ⟨⟨by linarith, by linarith⟩, s3, s4⟩, ?_⟩
          rintro (⟨f1, f2, f3⟩ | ⟨f1, f2, f3⟩ | ⟨f1, f2, f3⟩ | ⟨f1, f2, f3⟩) <;> linarith
        rw [← this]
        exact ⟨by simp, rfl⟩

/-- `external_boundary` of an edge between `L` (left) and `R` (right). -/
theorem boundaryPair_spec (hV : ∀ i, Normalised (G.V i)) (e : CutEdge2) (h : G.EdgeOk e) (L R : Coord 2)
    (hcells : ∀ c, InCell c (G.pos e.a) ∧ InCell c (G.pos e.b) ↔ c = L ∨ c = R)
    (hLR : L = R ∨ (R 0 = L 0 + 1 ∧ R 1 = L 1) ∨ (L 0 = R 0 ∧ L 1 = R 1 + 1)) (hact : G.Active L ∨ G.Active R) :
    (G.Active L ∧ G.Active R ∧ G.boundaryPair e = none) ∨
    (G.Active L ∧ ¬ G.Active R ∧ G.InGrid R ∧ G.boundaryPair e = some (G.cellIndex R, true)) ∨
    (¬ G.Active L ∧ G.Active R ∧ G.InGrid L ∧ G.boundaryPair e = some (G.cellIndex L, false)) ∨
    (G.Active L ∧ ¬ G.InGrid R ∧ ∃ s, G.boundaryPair e = some (-2, s)) ∨
    (¬ G.InGrid L ∧ G.Active R ∧ ∃ s, G.boundaryPair e = some (-2, s)) := by
  have hm : ∀ c, c ∈ e.mask.possibleCells (fun k => min ((G.V e.a).coord k) ((G.V e.b).coord k)) ↔ c = L ∨ c = R :=
    fun c => by rw [mem_edgeCells hV e h, hcells]
  have hin : ∀ c : Coord 2, G.InGrid c ↔ (0 ≤ c 0 ∧ c 0 < G.shape 0) ∧ (0 ≤ c 1 ∧ c 1 < G.shape 1) := by
    intro c
    unfold Gen2.InGrid
    constructor
    · intro h; exact ⟨h 0, h 1⟩
    · rintro ⟨h1, h2⟩ i
      match i with
      | 0 => exact h1
      | 1 => exact h2
  have hnot : ∀ c, G.InGrid c → G.mask c = true → ¬ G.Active c := fun c _ h1 h2 => by rw [h2.2] at h1; cases h1
  have hlt : ∀ (i : Fin 2) (p n : Coord 2), (∀ j, j < i → p j = n j) → p i < n i → coordLtB p n = true := by
    intro i p n h1 h2
    unfold coordLtB
    rw [lexCmp_finRange]
    exact ⟨i, h1, h2⟩
  rcases hLR with rfl | ⟨h0, h1⟩ | ⟨h0, h1⟩
  · left
    have hA : G.Active L := by tauto
    refine ⟨hA, hA, ?_⟩
    unfold boundaryPair edgeCells
    rw [possibleSorted_single _ _ L fun c => by rw [hm]; simp]
  · have hlist : G.edgeCells e = [L, R] := possibleSorted_pair _ _ L R
      (hlt 0 L R (fun j hj => absurd hj (Fin.not_lt_zero j)) (by omega)) hm
    have hidx : L 0 ≠ R 0 := by omega
    unfold boundaryPair
    rw [hlist]
    dsimp only
    rw [if_pos hidx]
    unfold Active at hact ⊢
    simp only [hin] at hact ⊢
    by_cases c1 : L 0 < 0
    · rw [if_pos c1]
      right; right; right; right
      refine ⟨by omega, ?_, _, rfl⟩
      rcases hact with hact | hact
      · omega
      · exact hact
    · rw [if_neg c1]
      by_cases c2 : G.shape 0 ≤ R 0
      · rw [if_pos c2]
        right; right; right; left
        refine ⟨?_, by omega, _, rfl⟩
        rcases hact with hact | hact
        · exact hact
        · omega
      · rw [if_neg c2]
        have gL : (0 ≤ L 0 ∧ L 0 < G.shape 0) ∧ (0 ≤ L 1 ∧ L 1 < G.shape 1) := by
          rcases hact with hact | hact <;> omega
        have gR : (0 ≤ R 0 ∧ R 0 < G.shape 0) ∧ (0 ≤ R 1 ∧ R 1 < G.shape 1) := by
          rcases hact with hact | hact <;> omega
        cases pa : G.mask L <;> cases na : G.mask R <;> simp_all
  · have hlist : G.edgeCells e = [R, L] := possibleSorted_pair _ _ R L
      (hlt 1 R L (fun j hj => by
        have : j = 0 := by omega
        rw [this, h0]) (by omega)) fun c => by rw [hm]; tauto
    have hidx : ¬ (R 0 ≠ L 0) := by omega
    unfold boundaryPair
    rw [hlist]
    dsimp only
    rw [if_neg hidx]
    unfold Active at hact ⊢
    simp only [hin] at hact ⊢
    by_cases c1 : R 1 < 0
    · rw [if_pos c1]
      right; right; right; left
      refine ⟨?_, by omega, _, rfl⟩
      rcases hact with hact | hact
      · exact hact
      · omega
    · rw [if_neg c1]
      by_cases c2 : G.shape 1 ≤ L 1
      · rw [if_pos c2]
        right; right; right; right
        refine ⟨by omega, ?_, _, rfl⟩
        rcases hact with hact | hact
        · omega
        · exact hact
      · rw [if_neg c2]
        have gL : (0 ≤ L 0 ∧ L 0 < G.shape 0) ∧ (0 ≤ L 1 ∧ L 1 < G.shape 1) := by
          rcases hact with hact | hact <;> omega
        have gR : (0 ≤ R 0 ∧ R 0 < G.shape 0) ∧ (0 ≤ R 1 ∧ R 1 < G.shape 1) := by
          rcases hact with hact | hact <;> omega
        cases pa : G.mask R <;> cases na : G.mask L <;> simp_all

/-- the faces are a partition of the half-edges of the cut edges, and those with an active cell on their left are kept
(C77), the others dropped. -/
structure FacesOk (G : Gen2) (faces : List (List (List ℤ))) : Prop where
  nodup : (faces.flatMap halfEdges).Nodup
  mem : ∀ h, h ∈ faces.flatMap halfEdges ↔ G.Known h
  sel : ∀ F ∈ faces, ∀ h ∈ halfEdges F, ∀ c, LeftOf c (G.pos h.1) (G.pos h.2) → (G.keep F = true ↔ G.Active c)

/-- both half-edges of `e` bound the same face. -/
def Dangling (faces : List (List (List ℤ))) (e : CutEdge2) : Prop :=
  ∃ F ∈ faces, ((e.a : ℤ), (e.b : ℤ)) ∈ halfEdges F ∧ ((e.b : ℤ), (e.a : ℤ)) ∈ halfEdges F

/-- a later cut edge has the same ends. -/
def Duplicated (G : Gen2) (i : ℕ) (e : CutEdge2) : Prop :=
  ∃ j e', i < j ∧ G.edges[j]? = some e' ∧ Joins e' ((e.a : ℤ), (e.b : ℤ))

theorem mesh_some (faces : List (List (List ℤ))) (hf : ∀ h ∈ faces.flatMap halfEdges, G.Known h) :
    ∃ M, G.mesh faces = some M ∧ M.nFacets = G.edges.length ∧ (∀ i, M.ext i = (G.edges[i]?).bind G.boundaryPair) ∧
      ∃ ent : List (List ℤ) → ℕ → Option Bool,
        (∀ i, M.sides i = ((G.kept faces).zipIdx).flatMap fun p => ((ent p.1 i).map fun s => ((p.2 : ℤ), s)).toList) ∧
        (∀ F ∈ G.kept faces, ∃ m, G.faceMap F = some m ∧ ∀ i, OMap.find natLt i m = ent F i) := by
  have hk : ∀ F ∈ G.kept faces, ∀ h ∈ halfEdges F, G.Known h := fun F hF h hh =>
    hf h (List.mem_flatMap.2 ⟨F, (List.mem_filter.1 hF).1, hh⟩)
  have hsome := mapM_some G.faceMap (G.kept faces) fun F hF => by
    obtain ⟨m, hm, _⟩ := faceMap_spec F (hk F hF)
    exact ⟨m, hm⟩
  unfold mesh
  rw [hsome, Option.map_some]
  refine ⟨_, rfl, rfl, fun _ => rfl, fun F i => (G.faceMap F).bind fun m => OMap.find natLt i m, fun i => ?_, fun F hF => ?_⟩
  · unfold CutMesh.sides
    dsimp only
    rw [List.flatMap_map]
    have gen : ∀ (L : List (List (List ℤ))) (k : ℕ), (∀ F ∈ L, ∀ h ∈ halfEdges F, G.Known h) →
        ((L.filterMap G.faceMap).zipIdx k).flatMap (fun p => (p.1.filter fun fs => decide (fs.1 = i)).map fun fs => ((p.2 : ℤ), fs.2)) =
        (L.zipIdx k).flatMap fun p => ((((G.faceMap p.1).bind fun m => OMap.find natLt i m)).map fun s => ((p.2 : ℤ), s)).toList := by
      intro L
      induction L with
      | nil => intro k _; rfl
      | cons F L ih =>
        intro k hk
        obtain ⟨m, hm, hs, _⟩ := faceMap_spec F (hk F (by simp))
        rw [List.filterMap_cons_some hm, List.zipIdx_cons, List.flatMap_cons, ih (k + 1) fun F hF => hk F (List.mem_cons_of_mem _ hF),
          List.zipIdx_cons, List.flatMap_cons]
        congr 1
        dsimp only
        rw [hm, Option.bind_some, filter_key strictTotal_natLt m hs]
        cases OMap.find natLt i m <;> rfl
    exact gen _ 0 hk
  · obtain ⟨m, hm, _⟩ := faceMap_spec F (hk F hF)
    exact ⟨m, hm, fun i => by dsimp only; rw [hm]; rfl⟩

/-- the faces listed for an edge: one for each half-edge with an active cell on its left. -/
theorem sides_of_edge (faces : List (List (List ℤ))) (hF : G.FacesOk faces) (i : ℕ) (e : CutEdge2)
    (hi : G.edges[i]? = some e) (he : G.EdgeOk e) (hdup : ¬ G.Duplicated i e) (hdang : ¬ Dangling faces e) :
    ∃ M L R lf lt, G.mesh faces = some M ∧ M.ext i = G.boundaryPair e ∧
      LeftOf L (G.pos e.a) (G.pos e.b) ∧ LeftOf R (G.pos e.b) (G.pos e.a) ∧
      (∀ c, InCell c (G.pos e.a) ∧ InCell c (G.pos e.b) ↔ c = L ∨ c = R) ∧
      (L = R ∨ (R 0 = L 0 + 1 ∧ R 1 = L 1) ∨ (L 0 = R 0 ∧ L 1 = R 1 + 1)) ∧ (G.Active L ∨ G.Active R) ∧
      (M.sides i).Perm (lf ++ lt) ∧ ((G.Active L ∧ ∃ k : ℤ, lf = [(k, false)]) ∨ (¬ G.Active L ∧ lf = [])) ∧
      ((G.Active R ∧ ∃ k : ℤ, lt = [(k, true)]) ∨ (¬ G.Active R ∧ lt = [])) := by
  obtain ⟨M, hM, _, hext, ent, hsides, hent⟩ := mesh_some (G := G) faces fun h hh => (hF.mem h).1 hh
  have hab : e.a ≠ e.b := by
    intro h
    have := he.ne
    rw [h] at this
    exact this rfl
  have hext' : M.ext i = G.boundaryPair e := by rw [hext, hi]; rfl
  obtain ⟨L, R, hL, hR, hcells, hLR⟩ := cells_of_edge e he
  have hact : G.Active L ∨ G.Active R := by
    obtain ⟨c, hc, h1⟩ := he.act
    rcases (hcells c).1 h1 with rfl | rfl
    · exact Or.inl hc
    · exact Or.inr hc
  have hlast : ∀ j e', i < j → G.edges[j]? = some e' → ¬ Joins e' ((e.a : ℤ), (e.b : ℤ)) :=
    fun j e' h1 h2 h3 => hdup ⟨j, e', h1, h2, h3⟩
  have hsub : ∀ F ∈ G.kept faces, F ∈ faces := fun F h => (List.mem_filter.1 h).1
  have hentry : ∀ F ∈ G.kept faces, (ent F i = some false ↔ ((e.a : ℤ), (e.b : ℤ)) ∈ halfEdges F) ∧
      (ent F i = some true ↔ ((e.b : ℤ), (e.a : ℤ)) ∈ halfEdges F) := by
    intro F hFk
    obtain ⟨m, hm, hfind⟩ := hent F hFk
    obtain ⟨m', hm', _, hspec⟩ := faceMap_spec F fun h hh => (hF.mem h).1 (List.mem_flatMap.2 ⟨F, hsub F hFk, hh⟩)
    rw [hm, Option.some.injEq] at hm'
    subst hm'
    obtain ⟨s1, s2, s3⟩ := (hspec i e hi hab).1 hlast
    rw [hfind] at s1 s2 s3
    have hnot : ¬ (((e.a : ℤ), (e.b : ℤ)) ∈ halfEdges F ∧ ((e.b : ℤ), (e.a : ℤ)) ∈ halfEdges F) :=
      fun h => hdang ⟨F, hsub F hFk, h⟩
    constructor
    · refine ⟨s2, fun h => ?_⟩
      rcases hs : ent F i with _ | s
      · exact absurd h (s1.1 hs).1
      · cases s with
        | false => rfl
        | true => exact absurd ⟨h, s3 hs⟩ hnot
    · refine ⟨s3, fun h => ?_⟩
      rcases hs : ent F i with _ | s
      · exact absurd h (s1.1 hs).2
      · cases s with
        | true => rfl
        | false => exact absurd ⟨s2 hs, h⟩ hnot
  have hnd : ((G.kept faces).flatMap halfEdges).Nodup :=
    hF.nodup.sublist (List.filter_sublist.flatMap _)
  obtain ⟨lf, lt, hp, hf, ht⟩ := sides_aux (G.kept faces) 0 _ _ (fun F => ent F i) (fun F h => (hentry F h).1)
    (fun F h => (hentry F h).2) hnd
  rw [← hsides] at hp
  have hkept : ∀ (h : DEdge) (c : Coord 2), G.Known h → LeftOf c (G.pos h.1) (G.pos h.2) →
      (h ∈ (G.kept faces).flatMap halfEdges ↔ G.Active c) := by
    intro h c hk hc
    obtain ⟨F, hFf, hh⟩ := List.mem_flatMap.1 ((hF.mem h).2 hk)
    constructor
    · intro h1
      obtain ⟨F', hF', hh'⟩ := List.mem_flatMap.1 h1
      exact (hF.sel F' (hsub F' hF') h hh' c hc).1 (List.mem_filter.1 hF').2
    · intro h1
      exact List.mem_flatMap.2 ⟨F, List.mem_filter.2 ⟨hFf, (hF.sel F hFf h hh c hc).2 h1⟩, hh⟩
  have hmem : e ∈ G.edges := List.mem_of_getElem? hi
  have kab := hkept ((e.a : ℤ), (e.b : ℤ)) L ⟨e, hmem, Or.inl rfl⟩ hL
  have kba := hkept ((e.b : ℤ), (e.a : ℤ)) R ⟨e, hmem, Or.inr rfl⟩ hR
  rw [kab] at hf
  rw [kba] at ht
  exact ⟨M, L, R, lf, lt, hM, hext', hL, hR, hcells, hLR, hact, hp, hf, ht⟩

/-- **C78.** The generated mesh is well formed at every edge that is neither dangling nor duplicated by a later edge: the
edge separates two cut faces that see it with opposite signs, or a cut face and the exterior grid cell recorded with the
opposite sign, or it lies on the boundary of the domain. -/
theorem C78_facet_ok (hV : ∀ i, Normalised (G.V i)) (hci : ∀ c, G.InGrid c → 0 ≤ G.cellIndex c)
    (faces : List (List (List ℤ))) (hF : G.FacesOk faces) (i : ℕ) (e : CutEdge2) (hi : G.edges[i]? = some e)
    (he : G.EdgeOk e) (hdup : ¬ G.Duplicated i e) (hdang : ¬ Dangling faces e) :
    ∃ M, G.mesh faces = some M ∧ M.FacetOk i ∧
      (M.isDomain i = true ↔ ∃ c, InCell c (G.pos e.a) ∧ InCell c (G.pos e.b) ∧ ¬ G.InGrid c) ∧
      ∀ g s, M.ext i = some (g, s) → g ≠ -2 → ∃ c, InCell c (G.pos e.a) ∧ InCell c (G.pos e.b) ∧ G.InGrid c ∧
        G.mask c = true ∧ g = G.cellIndex c := by
  obtain ⟨M, L, R, lf, lt, hM, hext', hL, hR, hcells, hLR, hact, hp, hf, ht⟩ :=
    sides_of_edge faces hF i e hi he hdup hdang
  refine ⟨M, hM, ?_⟩
  have hdom : M.isDomain i = true ↔ ∃ s, G.boundaryPair e = some (-2, s) := by
    unfold CutMesh.isDomain
    rw [hext']
    rcases G.boundaryPair e with _ | ⟨g, s⟩
    · simp
    · simp
  rw [hdom, hext']
  have hex : (∃ c, InCell c (G.pos e.a) ∧ InCell c (G.pos e.b) ∧ ¬ G.InGrid c) ↔ ¬ G.InGrid L ∨ ¬ G.InGrid R := by
    constructor
    · rintro ⟨c, h1, h2, h3⟩
      rcases (hcells c).1 ⟨h1, h2⟩ with rfl | rfl
      · exact Or.inl h3
      · exact Or.inr h3
    · rintro (h | h)
      · have := (hcells L).2 (Or.inl rfl); exact ⟨L, this.1, this.2, h⟩
      · have := (hcells R).2 (Or.inr rfl); exact ⟨R, this.1, this.2, h⟩
  rw [hex]
  rcases boundaryPair_spec hV e he L R hcells hLR hact with ⟨aL, aR, hb⟩ | ⟨aL, aR, gR, hb⟩ | ⟨aL, aR, gL, hb⟩ | ⟨aL, gR, s, hb⟩ | ⟨gL, aR, s, hb⟩
  · obtain ⟨k1, rfl⟩ := (hf.resolve_right fun h => h.1 aL).2
    obtain ⟨k2, rfl⟩ := (ht.resolve_right fun h => h.1 aR).2
    refine ⟨.inner k2 k1 (hp.trans (List.Perm.swap _ _ _)) (hext'.trans hb), ?_, by rw [hb]; nofun⟩
    rw [hb]
    simp [aL.1, aR.1]
  · obtain ⟨k1, rfl⟩ := (hf.resolve_right fun h => h.1 aL).2
    obtain rfl := (ht.resolve_left fun h => aR h.1).2
    have hgm : G.mask R = true := by
      by_contra hn
      exact aR ⟨gR, by simpa using hn⟩
    refine ⟨.outer k1 (G.cellIndex R) false (List.perm_singleton.1 (by simpa using hp)) (hci R gR) (hext'.trans hb), ?_, ?_⟩
    · rw [hb]
      have := hci R gR
      simp only [Option.some.injEq, Prod.mk.injEq]
      constructor
      · rintro ⟨s, h1, _⟩; omega
      · rintro (h | h)
        · exact absurd aL.1 h
        · exact absurd gR h
    · intro g s h1 _
      rw [hb, Option.some.injEq, Prod.mk.injEq] at h1
      have := (hcells R).2 (Or.inr rfl)
      exact ⟨R, this.1, this.2, gR, hgm, h1.1.symm⟩
  · obtain ⟨k1, rfl⟩ := (ht.resolve_right fun h => h.1 aR).2
    obtain rfl := (hf.resolve_left fun h => aL h.1).2
    have hgm : G.mask L = true := by
      by_contra hn
      exact aL ⟨gL, by simpa using hn⟩
    refine ⟨.outer k1 (G.cellIndex L) true (List.perm_singleton.1 (by simpa using hp)) (hci L gL) (hext'.trans hb), ?_, ?_⟩
    · rw [hb]
      have := hci L gL
      simp only [Option.some.injEq, Prod.mk.injEq]
      constructor
      · rintro ⟨s, h1, _⟩; omega
      · rintro (h | h)
        · exact absurd gL h
        · exact absurd aR.1 h
    · intro g s h1 _
      rw [hb, Option.some.injEq, Prod.mk.injEq] at h1
      have := (hcells L).2 (Or.inl rfl)
      exact ⟨L, this.1, this.2, gL, hgm, h1.1.symm⟩
  · obtain ⟨k1, rfl⟩ := (hf.resolve_right fun h => h.1 aL).2
    obtain rfl := (ht.resolve_left (fun h => gR h.1.1)).2
    refine ⟨.domain k1 false s (List.perm_singleton.1 (by simpa using hp)) (hext'.trans hb), ?_, ?_⟩
    · rw [hb]
      exact ⟨fun _ => Or.inr gR, fun _ => ⟨s, rfl⟩⟩
    · intro g s' h1 h2
      rw [hb, Option.some.injEq, Prod.mk.injEq] at h1
      exact absurd h1.1.symm h2
  · obtain ⟨k1, rfl⟩ := (ht.resolve_right fun h => h.1 aR).2
    obtain rfl := (hf.resolve_left (fun h => gL h.1.1)).2
    refine ⟨.domain k1 true s (List.perm_singleton.1 (by simpa using hp)) (hext'.trans hb), ?_, ?_⟩
    · rw [hb]
      exact ⟨fun _ => Or.inl gL, fun _ => ⟨s, rfl⟩⟩
    · intro g s' h1 h2
      rw [hb, Option.some.injEq, Prod.mk.injEq] at h1
      exact absurd h1.1.symm h2

end Gen2
end Mandoline
