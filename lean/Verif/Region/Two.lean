import Verif.Region.Generic

/-!
# C39 in 2D: regions of cut faces and exterior cells

Transcription of `CutCellGenerator<2>::extra_metadata` (src/construction/generator2.cpp:330-402).
-/
namespace Mandoline
namespace Region

/-- what `extra_metadata` reads of the mesh: numbers of cut faces and of exterior cells, `boundary_facet_pairs()`,
`face_boundary_map()`, for each cut edge whether it is a mesh edge and its `external_boundary`, and
`exterior_grid.cell_indices().get`. -/
structure Mesh2 where
  numCut : ℕ
  numExt : ℕ
  pairs : List (ℤ × ℤ)
  bdry : List (ℤ × List (ℤ × Bool))
  edges : List (Bool × Option (ℤ × Bool))
  cellIdx : ℤ → ℤ

namespace Mesh2
variable (M : Mesh2)

/-- `num_cells()`. -/
def numCells : ℤ := M.numCut + M.numExt

/-- `cut_edges()[eid].is_mesh_edge()`. -/
def isMesh (eid : ℤ) : Bool := ((M.edges[eid.toNat]?).map Prod.fst).getD false

/-- joins of exterior cells (generator2.cpp:343-347). -/
def joinsExt : List (ℤ × ℤ) :=
  M.pairs.filterMap fun p => if 0 ≤ p.1 ∧ 0 ≤ p.2 then some (p.1 + M.numCut, p.2 + M.numCut) else none

/-- joins of cut faces with their edges that are not mesh edges (generator2.cpp:349-358). -/
def joinsFace : List (ℤ × ℤ) :=
  M.bdry.flatMap fun f => f.2.filterMap fun e =>
    if 0 ≤ e.1 ∧ M.isMesh e.1 = false then some (f.1, e.1 + M.numCells) else none

/-- joins of edges with the exterior cell beyond them (generator2.cpp:360-368). -/
def joinsEdge : List (ℤ × ℤ) :=
  M.edges.zipIdx.filterMap fun p =>
    match p.1.2 with
    | some (off, _) => if 0 ≤ off then some ((p.2 : ℤ) + M.numCells, M.cellIdx off + M.numCut) else none
    | none => none

/-- the disjoint set (generator2.cpp:331-371). -/
def ds : Dsu ℤ :=
  ⟨(List.range (M.numCut + M.numExt + M.edges.length)).map fun (k : ℕ) => (k : ℤ), M.joinsExt ++ M.joinsFace ++ M.joinsEdge⟩

/-- `boundary_idx` from the facet pairs (generator2.cpp:376-383): the last pair with a `-2` wins. -/
def boundaryIdx : ℤ :=
  M.pairs.foldl (fun b p => if p.1 = -2 then p.2 + M.numCut else if p.2 = -2 then p.1 + M.numCut else b) (-1)

/-- the search for a boundary cell when there is no boundary facet (generator2.cpp:384-405). -/
def fallback : List (ℤ × ℤ) → ℤ
  | [] => -1
  | p :: l => if p.1 = -2 ∧ 0 ≤ p.2 then p.2 else if p.2 = -2 ∧ 0 ≤ p.1 then p.1 else fallback l

/-- `outside_root` (generator2.cpp:373-409). -/
def outsideRoot (R : DsuRoots M.ds) : ℤ := if M.boundaryIdx = -1 then fallback M.pairs else R.root M.boundaryIdx

/-- `reindexer` (generator2.cpp:410-419). -/
def reindexer (R : DsuRoots M.ds) : List (ℤ × ℤ) :=
  number (M.outsideRoot R) (if 0 ≤ M.outsideRoot R then OMap.assign intLt (M.outsideRoot R) 0 [] else [])
    ((List.range (M.numCut + M.numExt)).map fun (k : ℕ) => R.root k)

/-- region of the cell with global index `c`: cut face `c`, or exterior cell `c - numCut` (generator2.cpp:422-430). -/
def region (R : DsuRoots M.ds) (c : ℤ) : ℤ := lookup (M.reindexer R) (R.root c)

/-! ## specification -/

/-- `c` is the global index of a cell. -/
def IsCell (c : ℤ) : Prop := 0 ≤ c ∧ c < M.numCells

/-- cut face `c` has edge `e` in its boundary, and the edge is not part of the input curve. -/
def HasFreeEdge (c e : ℤ) : Prop := ∃ es s, (c, es) ∈ M.bdry ∧ (e, s) ∈ es ∧ 0 ≤ e ∧ M.isMesh e = false

/-- beyond edge `e` lies the exterior cell with global index `d`. -/
def Beyond (e d : ℤ) : Prop :=
  ∃ m off s, 0 ≤ e ∧ M.edges[e.toNat]? = some (m, some (off, s)) ∧ 0 ≤ off ∧ d = M.cellIdx off + M.numCut

/-- two cells share a facet that is not part of the input curve: a facet of the exterior grid, an edge between two cut
faces, or an edge between a cut face and an exterior cell. -/
def Shares (c d : ℤ) : Prop :=
  (∃ p ∈ M.pairs, 0 ≤ p.1 ∧ 0 ≤ p.2 ∧ c = p.1 + M.numCut ∧ d = p.2 + M.numCut) ∨
  (∃ e, M.HasFreeEdge c e ∧ M.HasFreeEdge d e) ∨
  (∃ e, M.HasFreeEdge c e ∧ M.Beyond e d)

/-- the mesh is consistent: indices are in range and a facet has at most one side outside the domain. -/
structure Ok : Prop where
  pairs : ∀ p ∈ M.pairs, (p.1 = -2 ∨ (0 ≤ p.1 ∧ p.1 < M.numExt)) ∧ (p.2 = -2 ∨ (0 ≤ p.2 ∧ p.2 < M.numExt)) ∧
    ¬ (p.1 = -2 ∧ p.2 = -2)
  bdry : ∀ f ∈ M.bdry, 0 ≤ f.1 ∧ f.1 < M.numCut ∧ ∀ e ∈ f.2, e.1 < M.edges.length
  edges : ∀ q ∈ M.edges, ∀ off s, q.2 = some (off, s) → 0 ≤ off → 0 ≤ M.cellIdx off ∧ M.cellIdx off < M.numExt

/-! ## proofs -/

variable {M}

theorem mem_joinsExt {a b : ℤ} : (a, b) ∈ M.joinsExt ↔
    ∃ p ∈ M.pairs, 0 ≤ p.1 ∧ 0 ≤ p.2 ∧ a = p.1 + M.numCut ∧ b = p.2 + M.numCut := by
  unfold joinsExt
  rw [List.mem_filterMap]
  refine exists_congr fun p => and_congr_right fun _ => ?_
  split
  · rename_i h; simp only [Option.some.injEq, Prod.mk.injEq]
    exact ⟨fun ⟨h1, h2⟩ => ⟨h.1, h.2, h1.symm, h2.symm⟩, fun ⟨_, _, h1, h2⟩ => ⟨h1.symm, h2.symm⟩⟩
  · rename_i h; simp only [reduceCtorEq, false_iff]; exact fun ⟨h1, h2, _⟩ => h ⟨h1, h2⟩

theorem mem_joinsFace {a b : ℤ} : (a, b) ∈ M.joinsFace ↔ ∃ e, M.HasFreeEdge a e ∧ b = e + M.numCells := by
  unfold joinsFace HasFreeEdge
  rw [List.mem_flatMap]
  constructor
  · rintro ⟨⟨c, es⟩, hp, h⟩
    obtain ⟨⟨e, s⟩, he, h⟩ := List.mem_filterMap.1 h
    simp only at h
    split at h
    · rename_i hc
      simp only [Option.some.injEq, Prod.mk.injEq] at h
      obtain ⟨rfl, rfl⟩ := h
      exact ⟨e, ⟨es, s, hp, he, hc.1, hc.2⟩, rfl⟩
    · cases h
  · rintro ⟨e, ⟨es, s, hp, he, h0, hm⟩, rfl⟩
    exact ⟨_, hp, List.mem_filterMap.2 ⟨_, he, by simp [h0, hm]⟩⟩

theorem mem_joinsEdge {a b : ℤ} : (a, b) ∈ M.joinsEdge ↔ ∃ e, M.Beyond e b ∧ a = e + M.numCells := by
  unfold joinsEdge Beyond
  rw [List.mem_filterMap]
  constructor
  · rintro ⟨⟨⟨m, o⟩, i⟩, hp, h⟩
    rw [List.mem_zipIdx_iff_getElem?] at hp
    simp only at h hp
    cases o with
    | none => cases h
    | some q =>
      obtain ⟨off, s⟩ := q
      simp only at h
      split at h
      · rename_i h0
        simp only [Option.some.injEq, Prod.mk.injEq] at h
        obtain ⟨rfl, rfl⟩ := h
        exact ⟨i, ⟨m, off, s, by omega, by simpa using hp, h0, rfl⟩, rfl⟩
      · cases h
  · rintro ⟨e, ⟨m, off, s, h0, he, h1, rfl⟩, rfl⟩
    refine ⟨((m, some (off, s)), e.toNat), List.mem_zipIdx_iff_getElem?.2 (by simpa using he), ?_⟩
    simp only [h1, if_true, Option.some.injEq, Prod.mk.injEq, and_true]
    omega

theorem beyond_cell (h : M.Ok) {e d : ℤ} (hb : M.Beyond e d) : M.numCut ≤ d ∧ d < M.numCells := by
  obtain ⟨m, off, s, h0, he, h1, rfl⟩ := hb
  have := h.edges _ (List.mem_of_getElem? he) off s rfl h1
  unfold numCells; omega

theorem free_cell (h : M.Ok) {c e : ℤ} (hb : M.HasFreeEdge c e) : 0 ≤ c ∧ c < M.numCut ∧ 0 ≤ e ∧ e < M.edges.length := by
  obtain ⟨es, s, h1, h2, h3, _⟩ := hb
  obtain ⟨h4, h5, h6⟩ := h.bdry _ h1
  exact ⟨h4, h5, h3, h6 _ h2⟩

theorem joins_split (h : M.Ok) : ∀ p ∈ M.ds.joins, p.1 < M.numCells ∨ p.2 < M.numCells := by
  rintro ⟨a, b⟩ hp
  unfold ds at hp
  simp only [List.mem_append] at hp
  rcases hp with (hp | hp) | hp
  · obtain ⟨p, hq, h1, h2, rfl, rfl⟩ := mem_joinsExt.1 hp
    obtain ⟨h3, h4, _⟩ := h.pairs p hq
    left; unfold numCells; simp only; omega
  · obtain ⟨e, h1, rfl⟩ := mem_joinsFace.1 hp
    have := free_cell h h1
    left; unfold numCells; simp only; omega
  · obtain ⟨e, h1, rfl⟩ := mem_joinsEdge.1 hp
    right; exact (beyond_cell h h1).2

theorem ds_ok (h : M.Ok) : M.ds.Ok := by
  refine ⟨?_, ?_⟩
  · exact List.Nodup.map (fun a b hab => by exact_mod_cast hab) List.nodup_range
  · have hmem : ∀ x : ℤ, x ∈ M.ds.nodes ↔ 0 ≤ x ∧ x < M.numCells + M.edges.length := by
      intro x
      unfold ds numCells
      simp only [List.mem_map, List.mem_range]
      constructor
      · rintro ⟨k, hk, rfl⟩; omega
      · rintro ⟨h0, h1⟩; exact ⟨x.toNat, by omega, by omega⟩
    rintro ⟨a, b⟩ hp
    rw [hmem, hmem]
    unfold ds at hp
    simp only [List.mem_append] at hp
    rcases hp with (hp | hp) | hp
    · obtain ⟨p, hq, h1, h2, rfl, rfl⟩ := mem_joinsExt.1 hp
      obtain ⟨h3, h4, _⟩ := h.pairs p hq
      unfold numCells; simp only; omega
    · obtain ⟨e, h1, rfl⟩ := mem_joinsFace.1 hp
      have := free_cell h h1
      unfold numCells; simp only; omega
    · obtain ⟨e, h1, rfl⟩ := mem_joinsEdge.1 hp
      have h2 := beyond_cell h h1
      obtain ⟨m, off, s, h0, he, _⟩ := h1
      have : e.toNat < M.edges.length := (List.getElem?_eq_some_iff.1 he).1
      unfold numCells at *; simp only; omega

/-- connectivity in the disjoint set is connectivity through shared facets. -/
theorem conn_iff (h : M.Ok) {c d : ℤ} (hc : M.IsCell c) (hd : M.IsCell d) :
    M.ds.Conn c d ↔ Relation.EqvGen M.Shares c d := by
  unfold Dsu.Conn
  rw [conn_cells (joins_split h) hc.2 hd.2]
  have hincF : ∀ c e, 0 ≤ e → c < M.numCells → (Inc M.ds.joins c (e + M.numCells) ↔ M.HasFreeEdge c e ∨ M.Beyond e c) := by
    intro c e he hc
    unfold Inc ds
    simp only [List.mem_append, mem_joinsExt, mem_joinsFace, mem_joinsEdge]
    constructor
    · rintro (((⟨p, hp, h1, h2, _, h3⟩ | ⟨e', h1, h2⟩) | ⟨e', h1, h2⟩) | ((⟨p, hp, h1, h2, h3, _⟩ | ⟨e', h1, h2⟩) | ⟨e', h1, h2⟩))
      · obtain ⟨_, h4, _⟩ := h.pairs p hp
        unfold numCells at h3; omega
      · obtain rfl : e' = e := by omega
        exact .inl h1
      · have := beyond_cell h h1; omega
      · obtain ⟨h4, _, _⟩ := h.pairs p hp
        unfold numCells at h3; omega
      · have := free_cell h h1
        unfold numCells at *; omega
      · obtain rfl : e' = e := by omega
        exact .inr h1
    · rintro (h1 | h1)
      · exact .inl (.inl (.inr ⟨e, h1, rfl⟩))
      · exact .inr (.inr ⟨e, h1, rfl⟩)
  constructor
  · intro hE
    clear hc hd
    induction hE with
    | rel a b hab =>
      obtain ⟨h1, h2, h3 | ⟨f, hf, h3, h4⟩⟩ := hab
      · unfold ds at h3
        simp only [List.mem_append, mem_joinsExt, mem_joinsFace, mem_joinsEdge] at h3
        rcases h3 with (h3 | ⟨e, h3, rfl⟩) | ⟨e, h3, rfl⟩
        · exact .rel _ _ (.inl h3)
        · have := free_cell h h3; omega
        · obtain ⟨_, _, _, h0, _⟩ := h3; omega
      · obtain ⟨e, rfl⟩ : ∃ e, f = e + M.numCells := ⟨f - M.numCells, by omega⟩
        rw [hincF a e (by omega) h1] at h3
        rw [hincF b e (by omega) h2] at h4
        rcases h3 with h3 | h3 <;> rcases h4 with h4 | h4
        · exact .rel _ _ (.inr (.inl ⟨e, h3, h4⟩))
        · exact .rel _ _ (.inr (.inr ⟨e, h3, h4⟩))
        · exact .symm _ _ (.rel _ _ (.inr (.inr ⟨e, h4, h3⟩)))
        · obtain ⟨_, _, _, _, h5, _, rfl⟩ := h3
          obtain ⟨_, _, _, _, h6, _, rfl⟩ := h4
          rw [h5] at h6
          simp only [Option.some.injEq, Prod.mk.injEq] at h6
          obtain ⟨_, rfl, _⟩ := h6
          exact .refl _
    | refl a => exact .refl _
    | symm a b _ ih => exact .symm _ _ ih
    | trans a b c _ _ i1 i2 => exact .trans _ _ _ i1 i2
  · intro hE
    clear hc hd
    induction hE with
    | rel a b hab =>
      rcases hab with h1 | ⟨e, h1, h2⟩ | ⟨e, h1, h2⟩
      · obtain ⟨p, hp, h2, h3, rfl, rfl⟩ := id h1
        obtain ⟨h4, h5, _⟩ := h.pairs p hp
        refine .rel _ _ ⟨?_, ?_, .inl ?_⟩
        · unfold numCells; omega
        · unfold numCells; omega
        · unfold ds; simp only [List.mem_append]; exact .inl (.inl (mem_joinsExt.2 h1))
      · have k1 := free_cell h h1
        have k2 := free_cell h h2
        have c1 : a < M.numCells := by unfold numCells; omega
        have c2 : b < M.numCells := by unfold numCells; omega
        exact .rel _ _ ⟨c1, c2, .inr ⟨e + M.numCells, by omega, (hincF _ _ k1.2.2.1 c1).2 (.inl h1),
          (hincF _ _ k1.2.2.1 c2).2 (.inl h2)⟩⟩
      · have k1 := free_cell h h1
        have k2 := beyond_cell h h2
        have c1 : a < M.numCells := by unfold numCells; omega
        exact .rel _ _ ⟨c1, k2.2, .inr ⟨e + M.numCells, by omega, (hincF _ _ k1.2.2.1 c1).2 (.inl h1),
          (hincF _ _ k1.2.2.1 k2.2).2 (.inr h2)⟩⟩
    | refl a => exact .refl _
    | symm a b _ ih => exact .symm _ _ ih
    | trans a b c _ _ i1 i2 => exact .trans _ _ _ i1 i2

/-- `boundary_idx` is `-1` exactly if no facet is in the domain boundary; otherwise it is the cell at the last one. -/
theorem boundaryIdx_spec (h : M.Ok) :
    (M.boundaryIdx = -1 ∧ ∀ p ∈ M.pairs, p.1 ≠ -2 ∧ p.2 ≠ -2) ∨
    (∃ l₁ p l₂, M.pairs = l₁ ++ p :: l₂ ∧ (∀ q ∈ l₂, q.1 ≠ -2 ∧ q.2 ≠ -2) ∧
      ((p.1 = -2 ∧ M.boundaryIdx = p.2 + M.numCut) ∨ (p.2 = -2 ∧ M.boundaryIdx = p.1 + M.numCut)) ∧
      M.numCut ≤ M.boundaryIdx ∧ M.boundaryIdx < M.numCells) := by
  unfold boundaryIdx numCells
  have hp := h.pairs
  clear h
  generalize M.pairs = P at hp ⊢
  induction P using List.reverseRecOn with
  | nil => left; simp
  | append_singleton l p ih =>
    have ih := ih fun q hq => hp q (List.mem_append_left _ hq)
    have hpp := hp p (by simp)
    rw [List.foldl_append, List.foldl_cons, List.foldl_nil]
    by_cases h1 : p.1 = -2
    · right
      refine ⟨l, p, [], by simp, by simp, .inl ⟨h1, by rw [if_pos h1]⟩, ?_⟩
      rw [if_pos h1]; omega
    · by_cases h2 : p.2 = -2
      · right
        refine ⟨l, p, [], by simp, by simp, .inr ⟨h2, by rw [if_neg h1, if_pos h2]⟩, ?_⟩
        rw [if_neg h1, if_pos h2]; omega
      · rw [if_neg h1, if_neg h2]
        rcases ih with ⟨h3, h4⟩ | ⟨l₁, q, l₂, h3, h4, h5⟩
        · left
          refine ⟨h3, fun q hq => ?_⟩
          rcases List.mem_append.1 hq with hq | hq
          · exact h4 q hq
          · rw [List.mem_singleton] at hq; subst hq; exact ⟨h1, h2⟩
        · right
          refine ⟨l₁, q, l₂ ++ [p], by rw [h3]; simp, ?_, h5⟩
          intro q' hq'
          rcases List.mem_append.1 hq' with hq' | hq'
          · exact h4 q' hq'
          · rw [List.mem_singleton] at hq'; subst hq'; exact ⟨h1, h2⟩

theorem fallback_none : ∀ l : List (ℤ × ℤ), (∀ p ∈ l, p.1 ≠ -2 ∧ p.2 ≠ -2) → fallback l = -1
  | [], _ => rfl
  | p :: l, h => by
    have := h p List.mem_cons_self
    unfold fallback
    rw [if_neg (fun h' => this.1 h'.1), if_neg (fun h' => this.2 h'.1)]
    exact fallback_none l fun q hq => h q (List.mem_cons_of_mem _ hq)

theorem root_nonneg (R : DsuRoots M.ds) {c : ℤ} (hc : M.IsCell c) : 0 ≤ R.root c := by
  have hmem : c ∈ M.ds.nodes := by
    unfold ds; simp only [List.mem_map, List.mem_range]
    have := hc.1; have := hc.2; unfold numCells at *
    exact ⟨c.toNat, by omega, by omega⟩
  have := R.root_mem c hmem
  unfold ds at this
  simp only [List.mem_map] at this
  obtain ⟨k, _, hk⟩ := this
  omega

/-- the numbers given to the roots. -/
theorem reindexer_spec (h : M.Ok) (R : DsuRoots M.ds) :
    ∃ L, Numbers (M.reindexer R) L ∧ (∀ r, r ∈ L ↔ ∃ c, M.IsCell c ∧ R.root c = r) ∧
      (M.boundaryIdx ≠ -1 → L.head? = some (R.root M.boundaryIdx)) ∧
      (M.boundaryIdx = -1 → 0 < M.numCells → L.head? = some (R.root 0)) := by
  have hroots : ∀ r, r ∈ ((List.range (M.numCut + M.numExt)).map fun (k : ℕ) => R.root k) ↔ ∃ c, M.IsCell c ∧ R.root c = r := by
    intro r
    simp only [List.mem_map, List.mem_range, IsCell, numCells]
    constructor
    · rintro ⟨k, hk, rfl⟩; exact ⟨k, by omega, rfl⟩
    · rintro ⟨c, hc, rfl⟩
      refine ⟨c.toNat, by omega, ?_⟩
      congr 1; omega
  unfold reindexer
  rcases boundaryIdx_spec h with ⟨hb, hno⟩ | ⟨l₁, p, l₂, _, _, _, hlo, hhi⟩
  · have hout : M.outsideRoot R = -1 := by unfold outsideRoot; rw [if_pos hb, fallback_none _ hno]
    rw [hout, if_neg (by omega)]
    obtain ⟨L, h1, h2⟩ := number_spec (-1) ((List.range (M.numCut + M.numExt)).map fun (k : ℕ) => R.root k) [] [] numbers_nil
    rw [List.nil_append] at h1
    refine ⟨L, h1, ?_, fun h => absurd hb h, ?_⟩
    · intro r
      rw [h2, hroots]
      constructor
      · exact fun h => h.1
      · rintro ⟨c, hc, rfl⟩
        exact ⟨⟨c, hc, rfl⟩, by have := root_nonneg R hc; omega, by simp⟩
    · intro _ hpos
      -- the first cell gets the first number
      have hsplit : List.range (M.numCut + M.numExt) = 0 :: (List.range (M.numCut + M.numExt - 1)).map Nat.succ := by
        have : M.numCut + M.numExt = (M.numCut + M.numExt - 1) + 1 := by unfold numCells at hpos; omega
        rw [this, List.range_succ_eq_map]; simp
      have h0 : M.IsCell 0 := ⟨le_refl _, hpos⟩
      have hr0 := root_nonneg R h0
      have e1 : number (-1) [] ((List.range (M.numCut + M.numExt)).map fun (k : ℕ) => R.root k) =
          number (-1) (OMap.assign intLt (R.root 0) 0 []) (((List.range (M.numCut + M.numExt - 1)).map Nat.succ).map fun (k : ℕ) => R.root k) := by
        rw [hsplit, List.map_cons]
        unfold number
        rw [List.foldl_cons]
        congr 1
        unfold numberStep
        rw [if_pos]
        · simp
        · refine ⟨?_, rfl⟩
          simp only [Nat.cast_zero]; omega
      obtain ⟨L', h3, _⟩ := number_spec (-1) (((List.range (M.numCut + M.numExt - 1)).map Nat.succ).map fun (k : ℕ) => R.root k) _ _
        (numbers_single (R.root 0))
      rw [e1] at h1
      -- compare the two descriptions at position 0
      have hm : R.root 0 ∈ L := by
        rw [h2]; exact ⟨(hroots _).2 ⟨0, h0, rfl⟩, by omega, by simp⟩
      have f1 := lookup_mem h1 hm
      have f2 := lookup_mem h3 (show R.root 0 ∈ [R.root 0] ++ L' by simp)
      rw [f1] at f2
      simp at f2
      cases L with
      | nil => simp at hm
      | cons a L =>
        rw [List.head?_cons]
        by_contra hne
        have hne' : a ≠ R.root 0 := fun h => hne (by rw [h])
        rw [List.idxOf_cons_ne _ hne'] at f2
        omega
  · have hne : M.boundaryIdx ≠ -1 := by omega
    have hcell : M.IsCell M.boundaryIdx := ⟨by omega, hhi⟩
    have hout : M.outsideRoot R = R.root M.boundaryIdx := by unfold outsideRoot; rw [if_neg hne]
    rw [hout, if_pos (root_nonneg R hcell)]
    obtain ⟨L', h1, h2⟩ := number_spec (R.root M.boundaryIdx) ((List.range (M.numCut + M.numExt)).map fun (k : ℕ) => R.root k) _ _
      (numbers_single (R.root M.boundaryIdx))
    refine ⟨_, h1, ?_, fun _ => rfl, fun h => absurd h hne⟩
    intro r
    rw [List.mem_append, h2, hroots, List.mem_singleton]
    constructor
    · rintro (rfl | h)
      · exact ⟨_, hcell, rfl⟩
      · exact h.1
    · intro hr
      by_cases he : r = R.root M.boundaryIdx
      · exact .inl he
      · exact .inr ⟨hr, he, he⟩

/-- **C39 (2D).** Two cells (cut faces or exterior cells) have the same region iff they are linked by a chain of cells
sharing facets that are not part of the input curve. -/
theorem C39_2d_regions (h : M.Ok) (R : DsuRoots M.ds) (c d : ℤ) (hc : M.IsCell c) (hd : M.IsCell d) :
    M.region R c = M.region R d ↔ Relation.EqvGen M.Shares c d := by
  obtain ⟨L, h1, h2, _⟩ := reindexer_spec h R
  unfold region
  rw [lookup_inj h1 ((h2 _).2 ⟨c, hc, rfl⟩) ((h2 _).2 ⟨d, hd, rfl⟩), R.root_eq_iff, conn_iff h hc hd]

/-- **C39 (2D).** Regions are numbered `0, 1, .., r-1` without gaps. -/
theorem C39_2d_contiguous (h : M.Ok) (R : DsuRoots M.ds) :
    ∃ r : ℕ, ∀ k : ℤ, (0 ≤ k ∧ k < r) ↔ ∃ c, M.IsCell c ∧ M.region R c = k := by
  obtain ⟨L, h1, h2, _⟩ := reindexer_spec h R
  refine ⟨L.length, fun k => ?_⟩
  rw [lookup_range h1]
  constructor
  · rintro ⟨r, hr, rfl⟩
    obtain ⟨c, hc, rfl⟩ := (h2 r).1 hr
    exact ⟨c, hc, rfl⟩
  · rintro ⟨c, hc, rfl⟩
    exact ⟨_, (h2 _).2 ⟨c, hc, rfl⟩, rfl⟩

theorem region_zero (h : M.Ok) (R : DsuRoots M.ds) {L : List ℤ} (h1 : Numbers (M.reindexer R) L)
    (h2 : ∀ r, r ∈ L ↔ ∃ c, M.IsCell c ∧ R.root c = r) {b : ℤ} (hb : M.IsCell b) (hh : L.head? = some (R.root b)) {c : ℤ}
    (hc : M.IsCell c) : M.region R c = 0 ↔ Relation.EqvGen M.Shares c b := by
  have hrb : lookup (M.reindexer R) (R.root b) = 0 := by
    rw [lookup_mem h1 ((h2 _).2 ⟨b, hb, rfl⟩)]
    cases L with
    | nil => simp at hh
    | cons a L =>
      simp only [List.head?_cons, Option.some.injEq] at hh
      subst hh; simp
  rw [← C39_2d_regions h R c b hc hb]
  unfold region
  rw [hrb]

/-- **C39 (2D).** If some facet of an exterior cell lies in the domain boundary, region 0 is the region of the exterior cell
at the last such facet. -/
theorem C39_2d_outside (h : M.Ok) (R : DsuRoots M.ds) (l₁ l₂ : List (ℤ × ℤ)) (p : ℤ × ℤ) (b : ℤ)
    (hp : M.pairs = l₁ ++ p :: l₂) (hlast : ∀ q ∈ l₂, q.1 ≠ -2 ∧ q.2 ≠ -2)
    (hb : (p.1 = -2 ∧ b = p.2) ∨ (p.2 = -2 ∧ b = p.1)) (c : ℤ) (hc : M.IsCell c) :
    M.region R c = 0 ↔ Relation.EqvGen M.Shares c (b + M.numCut) := by
  obtain ⟨L, h1, h2, h3, _⟩ := reindexer_spec h R
  have hidx : M.boundaryIdx = b + M.numCut := by
    unfold boundaryIdx
    rw [hp, List.foldl_append, List.foldl_cons]
    have gen : ∀ (l : List (ℤ × ℤ)) (x : ℤ), (∀ q ∈ l, q.1 ≠ -2 ∧ q.2 ≠ -2) →
        l.foldl (fun b p => if p.1 = -2 then p.2 + (M.numCut : ℤ) else if p.2 = -2 then p.1 + (M.numCut : ℤ) else b) x = x := by
      intro l
      induction l with
      | nil => intro x _; rfl
      | cons q l ih =>
        intro x hq
        have := hq q List.mem_cons_self
        rw [List.foldl_cons, if_neg this.1, if_neg this.2]
        exact ih x fun q' hq' => hq q' (List.mem_cons_of_mem _ hq')
    rw [gen _ _ hlast]
    have hpp := h.pairs p (by rw [hp]; simp)
    rcases hb with ⟨hb1, rfl⟩ | ⟨hb1, rfl⟩
    · rw [if_pos hb1]
    · rw [if_neg (fun h' => hpp.2.2 ⟨h', hb1⟩), if_pos hb1]
  have hpp := h.pairs p (by rw [hp]; simp)
  have hcell : M.IsCell (b + M.numCut) := by
    unfold IsCell numCells
    rcases hb with ⟨hb1, rfl⟩ | ⟨hb1, rfl⟩
    · rcases hpp.2.1 with h' | h'
      · exact absurd ⟨hb1, h'⟩ hpp.2.2
      · omega
    · rcases hpp.1 with h' | h'
      · exact absurd ⟨h', hb1⟩ hpp.2.2
      · omega
  have hne : M.boundaryIdx ≠ -1 := by rw [hidx]; have := hcell.1; omega
  have := h3 hne
  rw [hidx] at this
  exact region_zero h R h1 h2 hcell this hc

/-- **C39 (2D, defect).** If no exterior cell touches the domain boundary, region 0 is the region of cell 0, wherever it
is: the search for a boundary cut edge has no effect. -/
theorem C39_2d_no_exterior_boundary (h : M.Ok) (R : DsuRoots M.ds) (hno : ∀ p ∈ M.pairs, p.1 ≠ -2 ∧ p.2 ≠ -2)
    (c : ℤ) (hc : M.IsCell c) : M.region R c = 0 ↔ Relation.EqvGen M.Shares c 0 := by
  obtain ⟨L, h1, h2, _, h4⟩ := reindexer_spec h R
  have hpos : 0 < M.numCells := by have := hc.1; have := hc.2; omega
  have hb : M.boundaryIdx = -1 := by
    rcases boundaryIdx_spec h with h' | ⟨l₁, p, l₂, hp, _, h5, _⟩
    · exact h'.1
    · have := hno p (by rw [hp]; simp)
      rcases h5 with h5 | h5
      · exact absurd h5.1 this.1
      · exact absurd h5.1 this.2
  exact region_zero h R h1 h2 ⟨le_refl _, hpos⟩ (h4 hb hpos) hc

/-! ## examples -/

/-- a square input curve in the middle of a row of cells: cut face 0 inside the curve, cut face 1 between the curve and
exterior cell 0, which touches the domain boundary. Edge 0 is a mesh edge, edge 1 leads to grid cell 5. -/
def demo : Mesh2 where
  numCut := 2
  numExt := 2
  pairs := [(-2, 0), (0, 1), (1, -2)]
  bdry := [(0, [(0, true)]), (1, [(0, false), (1, true)])]
  edges := [(true, none), (false, some (5, true))]
  cellIdx := fun _ => 0

theorem demo_ok : demo.Ok := by
  refine ⟨by decide, by decide, ?_⟩
  intro q _ off s _ _
  exact ⟨le_refl (0 : ℤ), show (0 : ℤ) < 2 by decide⟩

example : (List.range 4).map (fun (k : ℕ) => demo.region (ds_ok demo_ok).roots k) = [1, 0, 0, 0] := by decide +kernel

/-- all boundary cells are cut: cut face 1 touches the domain boundary (edge 1, beyond it is `-2`), cut face 0 is
enclosed by mesh edge 0. -/
def demo2 : Mesh2 where
  numCut := 2
  numExt := 0
  pairs := []
  bdry := [(0, [(0, true)]), (1, [(0, false), (1, true)])]
  edges := [(true, none), (false, some (-2, true))]
  cellIdx := fun _ => 0

theorem demo2_ok : demo2.Ok := by
  refine ⟨by decide, by decide, ?_⟩
  intro q hq off s hs h0
  simp only [demo2, List.mem_cons, List.not_mem_nil, or_false] at hq
  rcases hq with rfl | rfl
  · cases hs
  · simp only [Option.some.injEq, Prod.mk.injEq] at hs; omega

/-- **C39 (2D, defect).** The enclosed cut face gets region 0, the one touching the domain boundary region 1. -/
theorem C39_2d_outside_refuted :
    (List.range 2).map (fun (k : ℕ) => demo2.region (ds_ok demo2_ok).roots k) = [0, 1] := by decide +kernel

end Mesh2
end Region
end Mandoline
