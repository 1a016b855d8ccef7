import Verif.Cell.Model
import Verif.Collapse.FaceIds
import Mathlib.Algebra.BigOperators.Group.List.Basic

/-!
# C38: half-faces, cells and cell boundaries
-/
namespace Mandoline
namespace CellCollapser

/-- invariant of the constructor: ids follow the face and the side, half-faces come in reversed pairs with opposite
sides, ids are nodes, and nothing is joined yet. -/
structure Raw (s : CellCollapser) : Prop where
  sorted : OMap.Sorted hfLt s.h2c
  ids : ∀ hf c b, (hf, (c, b)) ∈ s.h2c → c = 100 * hf.1 + (if b then 0 else 1)
  symm : ∀ f e c b, ((f, e), (c, b)) ∈ s.h2c → ∃ c' b', ((f, e.rev), (c', b')) ∈ s.h2c ∧ (e.1 ≠ e.2 → b' = !b)
  nodes : ∀ hf c b, (hf, (c, b)) ∈ s.h2c → 100 * hf.1 ∈ s.ds.nodes ∧ 100 * hf.1 + 1 ∈ s.ds.nodes
  owned : ∀ x ∈ s.ds.nodes, ∃ f e c b, ((f, e), (c, b)) ∈ s.h2c ∧ (x = 100 * f ∨ x = 100 * f + 1)
  dsOk : s.ds.Ok
  noJoins : s.ds.joins = []
  noCells : s.cells = []

theorem raw_empty : Raw empty :=
  ⟨OMap.sorted_nil, nofun, nofun, nofun, nofun, Dsu.ok_empty, rfl, rfl⟩

theorem raw_addHalfface {s : CellCollapser} (h : Raw s) (fid : ℤ) (e : DEdge) : Raw (s.addHalfface fid e) := by
  have hs1 : OMap.Sorted hfLt (OMap.assign hfLt (fid, e) (100 * fid, true) s.h2c) := OMap.sorted_alter strictTotal_hfLt h.sorted
  have hmem : ∀ k v, (k, v) ∈ (s.addHalfface fid e).h2c ↔
      (k = (fid, e.rev) ∧ v = (100 * fid + 1, false)) ∨
      (k ≠ (fid, e.rev) ∧ k = (fid, e) ∧ v = (100 * fid, true)) ∨
      (k ≠ (fid, e.rev) ∧ k ≠ (fid, e) ∧ (k, v) ∈ s.h2c) := by
    intro k v
    show (k, v) ∈ OMap.alter hfLt (fid, e.rev) (fun _ => (100 * fid + 1, false))
      (OMap.assign hfLt (fid, e) (100 * fid, true) s.h2c) ↔ _
    rw [OMap.mem_alter strictTotal_hfLt hs1]
    unfold OMap.assign
    rw [OMap.mem_alter strictTotal_hfLt h.sorted]
    tauto
  have hnodes : ∀ x, x ∈ (s.addHalfface fid e).ds.nodes ↔ x = 100 * fid + 1 ∨ x = 100 * fid ∨ x ∈ s.ds.nodes := by
    intro x
    show x ∈ ((s.ds.addNode (100 * fid)).addNode (100 * fid + 1)).nodes ↔ _
    rw [Dsu.mem_addNode, Dsu.mem_addNode]
  refine ⟨OMap.sorted_alter strictTotal_hfLt hs1, ?_, ?_, ?_, ?_, (h.dsOk.addNode _).addNode _, ?_, h.noCells⟩
  · intro hf c b hm
    rcases (hmem _ _).1 hm with ⟨rfl, hv⟩ | ⟨_, rfl, hv⟩ | ⟨_, _, hv⟩
    · cases hv; simp
    · cases hv; simp
    · exact h.ids _ _ _ hv
  · intro f e' c b hm
    rcases (hmem _ _).1 hm with ⟨hk, hv⟩ | ⟨hk', hk, hv⟩ | ⟨hk', hk, hv⟩
    · cases hk; cases hv
      rw [DEdge.rev_rev]
      by_cases he : e = e.rev
      · exact ⟨100 * fid + 1, false, (hmem _ _).2 (.inl ⟨by rw [← he], rfl⟩), by
          intro hne; exact absurd (congrArg Prod.fst he).symm hne⟩
      · exact ⟨100 * fid, true, (hmem _ _).2 (.inr (.inl ⟨by simpa using he, rfl, rfl⟩)), by simp⟩
    · cases hk; cases hv
      exact ⟨100 * fid + 1, false, (hmem _ _).2 (.inl ⟨rfl, rfl⟩), by simp⟩
    · obtain ⟨c', b', hm', hb⟩ := h.symm _ _ _ _ hv
      refine ⟨c', b', (hmem _ _).2 (.inr (.inr ⟨?_, ?_, hm'⟩)), hb⟩
      · intro he; apply hk
        have h1 := congrArg Prod.fst he; have h2 := congrArg Prod.snd he
        simp only at h1 h2
        rw [h1, ← DEdge.rev_rev e', h2, DEdge.rev_rev]
      · intro he; apply hk'
        have h1 := congrArg Prod.fst he; have h2 := congrArg Prod.snd he
        simp only at h1 h2
        rw [h1, ← h2, DEdge.rev_rev]
  · intro hf c b hm
    simp only [hnodes]
    rcases (hmem _ _).1 hm with ⟨rfl, hv⟩ | ⟨_, rfl, hv⟩ | ⟨_, _, hv⟩
    · simp
    · simp
    · have := h.nodes _ _ _ hv; tauto
  · intro x hx
    rcases (hnodes x).1 hx with rfl | rfl | hx
    · exact ⟨fid, e.rev, _, _, (hmem _ _).2 (.inl ⟨rfl, rfl⟩), .inr rfl⟩
    · exact ⟨fid, e.rev, _, _, (hmem _ _).2 (.inl ⟨rfl, rfl⟩), .inl rfl⟩
    · obtain ⟨f, e', c, b, hm, hx'⟩ := h.owned x hx
      by_cases h1 : (f, e') = (fid, e.rev)
      · cases h1; exact ⟨fid, e.rev, _, _, (hmem _ _).2 (.inl ⟨rfl, rfl⟩), hx'⟩
      · by_cases h2 : (f, e') = (fid, e)
        · cases h2; exact ⟨fid, e, _, _, (hmem _ _).2 (.inr (.inl ⟨h1, rfl, rfl⟩)), hx'⟩
        · exact ⟨f, e', c, b, (hmem _ _).2 (.inr (.inr ⟨h1, h2, hm⟩)), hx'⟩
  · show ((s.ds.addNode (100 * fid)).addNode (100 * fid + 1)).joins = []
    rw [Dsu.joins_addNode, Dsu.joins_addNode]; exact h.noJoins

theorem raw_addHalffaces {s : CellCollapser} (h : Raw s) (fid : ℤ) (l : List DEdge) :
    Raw (l.foldl (fun s e => s.addHalfface fid e) s) := by
  induction l generalizing s with
  | nil => exact h
  | cons e l ih => exact ih (raw_addHalfface h fid e)

theorem raw_addFace {s : CellCollapser} (h : Raw s) (p : ℤ × List (List ℤ)) : Raw (s.addFace p) := by
  unfold addFace
  simp only
  have h1 : Raw { s with invalid := (cleanFace s.invalid p.2).2.2 } :=
    ⟨h.sorted, h.ids, h.symm, h.nodes, h.owned, h.dsOk, h.noJoins, h.noCells⟩
  split
  · exact h1
  · refine raw_addHalffaces (s := { s with invalid := _, faces := _ }) ?_ _ _
    exact ⟨h.sorted, h.ids, h.symm, h.nodes, h.owned, h.dsOk, h.noJoins, h.noCells⟩

/-- the invariant holds after the constructor, for every input. -/
theorem raw_make (faces : List (ℤ × List (List ℤ))) : Raw (make faces) := by
  unfold make
  have : ∀ (l : List (ℤ × List (List ℤ))) s, Raw s → Raw (l.foldl addFace s) := by
    intro l
    induction l with
    | nil => intro s h; exact h
    | cons p l ih => intro s h; exact ih _ (raw_addFace h p)
  exact this _ _ raw_empty

/-! ## merging -/

theorem mem_hfList_iff {s : CellCollapser} (hf : HalfFace) :
    hf ∈ s.hfList ↔ ∃ c b, (hf, (c, b)) ∈ s.h2c := by
  unfold hfList
  rw [List.mem_map]
  constructor
  · rintro ⟨⟨k, c, b⟩, hm, rfl⟩; exact ⟨c, b, hm⟩
  · rintro ⟨c, b, hm⟩; exact ⟨_, hm, rfl⟩

theorem cell_of_mem {s : CellCollapser} (h : OMap.Sorted hfLt s.h2c) {hf c b} (hm : (hf, (c, b)) ∈ s.h2c) :
    s.cell hf = c ∧ s.side hf = b := by
  unfold cell side
  rw [OMap.find_of_mem strictTotal_hfLt h hm]
  exact ⟨rfl, rfl⟩

theorem mem_of_hfList {s : CellCollapser} (h : OMap.Sorted hfLt s.h2c) {hf : HalfFace} (hm : hf ∈ s.hfList) :
    (hf, (s.cell hf, s.side hf)) ∈ s.h2c := by
  obtain ⟨c, b, hm'⟩ := (mem_hfList_iff hf).1 hm
  obtain ⟨h1, h2⟩ := cell_of_mem h hm'
  rw [h1, h2]; exact hm'

theorem merge_fields (s : CellCollapser) (ord : DEdge → List ℤ) :
    (s.merge ord).h2c = s.h2c ∧ (s.merge ord).invalid = s.invalid ∧ (s.merge ord).cells = s.cells ∧
    (s.merge ord).ds.nodes = s.ds.nodes ∧ (s.merge ord).ds.joins = s.ds.joins ++ s.mergePairs ord := by
  unfold merge
  generalize s.mergePairs ord = l
  induction l generalizing s with
  | nil => simp
  | cons p l ih =>
    rw [List.foldl_cons]
    obtain ⟨h1, h2, h3, h4, h5⟩ := ih { s with ds := s.ds.join p.1 p.2 }
    exact ⟨h1, h2, h3, h4, by rw [h5]; simp [Dsu.join]⟩

/-- a side of a face. -/
abbrev Side := ℤ × Bool

/-- id given to a side by the constructor. -/
def sideId (x : Side) : ℤ := 100 * x.1 + (if x.2 then 0 else 1)

theorem sideId_inj {x y : Side} (h : sideId x = sideId y) : x = y := by
  obtain ⟨f, b⟩ := x
  obtain ⟨g, c⟩ := y
  unfold sideId at h
  simp only at h
  rw [Prod.ext_iff]
  cases b <;> cases c <;> simp at h ⊢ <;> omega

/-- side `x` meets side `y` at an edge: turning around the edge from the face of `x` one meets next the face of `y`,
and both sides face the wedge in between. -/
def Turn (s : CellCollapser) (ord : DEdge → List ℤ) (x y : Side) : Prop :=
  ∃ e f f', e ∉ s.invalid ∧ e.1 < e.2 ∧ (f, f') ∈ FaceCollapser.cyclicPairs (ord e) ∧
    x = (f, s.side (f, e)) ∧ y = (f', s.side (f', e.rev))

theorem mem_cyclicPairs {l : List ℤ} {a b : ℤ} (h : (a, b) ∈ FaceCollapser.cyclicPairs l) : a ∈ l ∧ b ∈ l := by
  unfold FaceCollapser.cyclicPairs at h
  have := List.of_mem_zip h
  exact ⟨this.1, List.mem_rotate.1 this.2⟩

theorem mem_around {s : CellCollapser} {e : DEdge} {f : ℤ} : f ∈ s.around e ↔ (f, e) ∈ s.hfList := by
  unfold around
  simp only [List.mem_map, List.mem_filter, decide_eq_true_eq]
  constructor
  · rintro ⟨⟨g, e'⟩, ⟨h1, h2⟩, rfl⟩; cases h2; exact h1
  · intro h; exact ⟨(f, e), ⟨h, rfl⟩, rfl⟩

theorem mem_mergeEdges {s : CellCollapser} {e : DEdge} :
    e ∈ s.mergeEdges ↔ (∃ f, (f, e) ∈ s.hfList) ∧ e ∉ s.invalid ∧ e.1 < e.2 := by
  unfold mergeEdges
  simp only [List.mem_filter, List.mem_dedup, List.mem_map, decide_eq_true_eq]
  constructor
  · rintro ⟨⟨⟨g, e'⟩, h1, rfl⟩, h2⟩; exact ⟨⟨g, h1⟩, h2⟩
  · rintro ⟨⟨g, h1⟩, h2⟩; exact ⟨⟨(g, e), h1, rfl⟩, h2⟩

theorem rev_mem {s : CellCollapser} (h : Raw s) {f : ℤ} {e : DEdge} (hm : (f, e) ∈ s.hfList) : (f, e.rev) ∈ s.hfList := by
  obtain ⟨c, b, hm'⟩ := (mem_hfList_iff _).1 hm
  obtain ⟨c', b', h', _⟩ := h.symm _ _ _ _ hm'
  exact (mem_hfList_iff _).2 ⟨c', b', h'⟩

theorem side_rev {s : CellCollapser} (h : Raw s) {f : ℤ} {e : DEdge} (hm : (f, e) ∈ s.hfList) (hne : e.1 ≠ e.2) :
    s.side (f, e.rev) = !s.side (f, e) := by
  obtain ⟨c, b, hm'⟩ := (mem_hfList_iff _).1 hm
  obtain ⟨c', b', h', hb⟩ := h.symm _ _ _ _ hm'
  rw [(cell_of_mem h.sorted h').2, (cell_of_mem h.sorted hm').2]
  exact hb hne

theorem cell_raw {s : CellCollapser} (h : Raw s) {hf : HalfFace} (hm : hf ∈ s.hfList) :
    s.cell hf = sideId (hf.1, s.side hf) := h.ids _ _ _ (mem_of_hfList h.sorted hm)

theorem cell_node {s : CellCollapser} (h : Raw s) {hf : HalfFace} (hm : hf ∈ s.hfList) : s.cell hf ∈ s.ds.nodes := by
  rw [cell_raw h hm]
  have := h.nodes _ _ _ (mem_of_hfList h.sorted hm)
  unfold sideId
  cases s.side hf
  · simpa using this.2
  · simpa using this.1

theorem mergePairs_iff {s : CellCollapser} (h : Raw s) (ord : DEdge → List ℤ) (hord : ∀ e, (ord e).Perm (s.around e))
    (c d : ℤ) : (c, d) ∈ s.mergePairs ord ↔ ∃ x y, s.Turn ord x y ∧ c = sideId x ∧ d = sideId y := by
  unfold mergePairs aroundPairs
  rw [List.mem_flatMap]
  constructor
  · rintro ⟨e, he, hp⟩
    obtain ⟨⟨f, f'⟩, hff, heq⟩ := List.mem_map.1 hp
    obtain ⟨hf, hf'⟩ := mem_cyclicPairs hff
    rw [(hord e).mem_iff, mem_around] at hf hf'
    cases heq
    obtain ⟨_, h2, h3⟩ := mem_mergeEdges.1 he
    exact ⟨_, _, ⟨e, f, f', h2, h3, hff, rfl, rfl⟩, cell_raw h hf, cell_raw h (rev_mem h hf')⟩
  · rintro ⟨x, y, ⟨e, f, f', h2, h3, hff, rfl, rfl⟩, rfl, rfl⟩
    obtain ⟨hf, hf'⟩ := mem_cyclicPairs hff
    rw [(hord e).mem_iff, mem_around] at hf hf'
    refine ⟨e, mem_mergeEdges.2 ⟨⟨f, hf⟩, h2, h3⟩, List.mem_map.2 ⟨(f, f'), hff, ?_⟩⟩
    exact Prod.ext (cell_raw h hf) (cell_raw h (rev_mem h hf'))

theorem conn_merge {s : CellCollapser} (h : Raw s) (ord : DEdge → List ℤ) (hord : ∀ e, (ord e).Perm (s.around e))
    (x y : Side) : (s.merge ord).ds.Conn (sideId x) (sideId y) ↔ Relation.EqvGen (s.Turn ord) x y := by
  have hj : (s.merge ord).ds.joins = s.mergePairs ord := by
    rw [(merge_fields s ord).2.2.2.2, h.noJoins, List.nil_append]
  unfold Dsu.Conn
  rw [hj]
  constructor
  · intro hc
    have key : ∀ c d, Relation.EqvGen (fun a b => (a, b) ∈ s.mergePairs ord) c d →
        c = d ∨ ∃ x y, c = sideId x ∧ d = sideId y ∧ Relation.EqvGen (s.Turn ord) x y := by
      intro c d hcd
      induction hcd with
      | rel c d hcd =>
        obtain ⟨x, y, ht, h1, h2⟩ := (mergePairs_iff h ord hord c d).1 hcd
        exact .inr ⟨x, y, h1, h2, .rel _ _ ht⟩
      | refl c => exact .inl rfl
      | symm c d _ ih =>
        rcases ih with rfl | ⟨x, y, h1, h2, h3⟩
        · exact .inl rfl
        · exact .inr ⟨y, x, h2, h1, .symm _ _ h3⟩
      | trans c d e _ _ i1 i2 =>
        rcases i1 with rfl | ⟨x, y, h1, h2, h3⟩
        · exact i2
        · rcases i2 with rfl | ⟨x', y', h1', h2', h3'⟩
          · exact .inr ⟨x, y, h1, h2, h3⟩
          · have := sideId_inj (h2.symm.trans h1'); subst this
            exact .inr ⟨x, y', h1, h2', .trans _ _ _ h3 h3'⟩
    rcases key _ _ hc with he | ⟨x', y', h1, h2, h3⟩
    · rw [sideId_inj he]; exact .refl _
    · rw [sideId_inj h1, sideId_inj h2]; exact h3
  · intro hc
    induction hc with
    | rel a b hab => exact .rel _ _ ((mergePairs_iff h ord hord _ _).2 ⟨a, b, hab, rfl, rfl⟩)
    | refl a => exact .refl _
    | symm a b _ ih => exact .symm _ _ ih
    | trans a b c _ _ i1 i2 => exact .trans _ _ _ i1 i2

theorem merge_dsOk {s : CellCollapser} (h : Raw s) (ord : DEdge → List ℤ) (hord : ∀ e, (ord e).Perm (s.around e)) :
    (s.merge ord).ds.Ok := by
  obtain ⟨_, _, _, h4, h5⟩ := merge_fields s ord
  refine ⟨by rw [h4]; exact h.dsOk.nodup, ?_⟩
  rintro ⟨c, d⟩ hp
  rw [h5, h.noJoins, List.nil_append] at hp
  rw [h4]
  unfold mergePairs aroundPairs at hp
  obtain ⟨e, he, hp⟩ := List.mem_flatMap.1 hp
  obtain ⟨⟨f, f'⟩, hff, heq⟩ := List.mem_map.1 hp
  obtain ⟨hf, hf'⟩ := mem_cyclicPairs hff
  rw [(hord e).mem_iff, mem_around] at hf hf'
  cases heq
  exact ⟨cell_node h hf, cell_node h (rev_mem h hf')⟩

/-! ## numbering -/

/-- the number of a node. -/
theorem newCell_spec {s : CellCollapser} (hok : s.ds.Ok) (R : DsuRoots s.ds) {c : ℤ} (hc : c ∈ s.ds.nodes) (h0 : 0 ≤ c) :
    R.root c ∈ R.rootData ∧ s.newCell R c = (R.rootData.idxOf (R.root c) : ℤ) := by
  have hm : R.root c ∈ R.rootData := (R.mem_rootData _).2 ⟨R.root_mem c hc, R.root_root c⟩
  refine ⟨hm, ?_⟩
  unfold newCell reindexer
  rw [if_pos h0, (countUp_spec strictTotal_intLt R.rootData [] OMap.sorted_nil (R.rootData_nodup hok)
    (by intro r _; rfl)).2.2, if_pos hm]
  simp

theorem reindexer_length {s : CellCollapser} (hok : s.ds.Ok) (R : DsuRoots s.ds) :
    (s.reindexer R).length = R.rootData.length := by
  have := (countUp_spec strictTotal_intLt R.rootData [] OMap.sorted_nil (R.rootData_nodup hok)
    (by intro r _; rfl)).2.1
  simpa [reindexer] using this

theorem hfList_bake (s : CellCollapser) (ord : DEdge → List ℤ) (R : DsuRoots (s.merge ord).ds) :
    (s.bake ord R).hfList = s.hfList := by
  unfold bake fill hfList
  simp only [List.map_map]
  rw [(merge_fields s ord).1]
  rfl

theorem bake_find (s : CellCollapser) (ord : DEdge → List ℤ) (R : DsuRoots (s.merge ord).ds) (hf : HalfFace) :
    OMap.find hfLt hf (s.bake ord R).h2c =
      (OMap.find hfLt hf s.h2c).map fun v => ((s.merge ord).newCell R v.1, v.2) := by
  unfold bake fill
  simp only
  rw [OMap.find_mapVal (fun v : ℤ × Bool => ((s.merge ord).newCell R v.1, v.2)), (merge_fields s ord).1]

theorem cell_bake {s : CellCollapser} (h : Raw s) (ord : DEdge → List ℤ) (R : DsuRoots (s.merge ord).ds)
    {hf : HalfFace} (hm : hf ∈ s.hfList) :
    (s.bake ord R).cell hf = (s.merge ord).newCell R (s.cell hf) ∧ (s.bake ord R).side hf = s.side hf := by
  obtain ⟨c, b, hm'⟩ := (mem_hfList_iff _).1 hm
  unfold cell side
  rw [bake_find, OMap.find_of_mem strictTotal_hfLt h.sorted hm']
  exact ⟨rfl, rfl⟩

end CellCollapser
end Mandoline
