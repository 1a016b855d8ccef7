import Verif.Collapse.Face

/-!
# C36, C37: face ids after `finalize`, removal marks
-/
namespace Mandoline

theorem OMap.find_mapVal {K V W : Type*} {lt : K → K → Bool} (f : V → W) (k : K) (l : List (K × V)) :
    OMap.find lt k (l.map fun p => (p.1, f p.2)) = (OMap.find lt k l).map f := by
  induction l with
  | nil => rfl
  | cons p l ih =>
    obtain ⟨k', v⟩ := p
    simp only [List.map_cons, OMap.find]
    split
    · rfl
    · split
      · exact ih
      · rfl

namespace FaceCollapser

theorem edgeList_finalize (s : FaceCollapser) (R : DsuRoots s.ds) : (s.finalize R).edgeList = s.edgeList := by
  unfold finalize edgeList
  simp only [List.map_map]
  rfl

theorem face_finalize (s : FaceCollapser) (R : DsuRoots s.ds) (hs : OMap.Sorted edgeLt s.etf) {e : DEdge}
    (he : e ∈ s.edgeList) :
    (s.finalize R).face e = (OMap.find intLt (R.root (s.face e)) (s.reindexer R)).getD 0 := by
  obtain ⟨c, hc⟩ := (mem_edgeList_iff hs e).1 he
  unfold face finalize
  simp only
  rw [OMap.find_mapVal (fun v : ℤ × Bool => ((OMap.find intLt (R.root v.1) (s.reindexer R)).getD 0, v.2)), hc]
  rfl

theorem keptRoots_nodup (s : FaceCollapser) (h : s.Ok) (R : DsuRoots s.ds) : (s.keptRoots R).Nodup := by
  have := R.rootData_nodup h.ds
  unfold DsuRoots.rootData at this
  exact this.sublist (List.Sublist.filterMap _ List.filter_sublist)

/-- index and data of a node. -/
theorem node_cases {s : FaceCollapser} (h : s.Ok) {i : ℕ} {x : ℤ} (hx : s.ds.nodes[i]? = some x) :
    x = i ∨ (x = -1 ∧ i + 1 = s.ds.nodes.length) := by
  obtain ⟨n, hn | hn⟩ := h.nodes
  · rw [hn] at hx
    rw [List.getElem?_map] at hx
    obtain ⟨k, hk, rfl⟩ := Option.map_eq_some_iff.1 hx
    have := List.getElem?_eq_some_iff.1 hk
    obtain ⟨h1, h2⟩ := this
    simp at h2
    exact .inl (by rw [h2])
  · rw [hn] at hx ⊢
    by_cases hi : i < n
    · rw [List.getElem?_append_left (by simpa using hi), List.getElem?_map] at hx
      obtain ⟨k, hk, rfl⟩ := Option.map_eq_some_iff.1 hx
      obtain ⟨h1, h2⟩ := List.getElem?_eq_some_iff.1 hk
      simp at h2
      exact .inl (by rw [h2])
    · rw [List.getElem?_append_right (by simpa using hi)] at hx
      obtain ⟨h1, h2⟩ := List.getElem?_eq_some_iff.1 hx
      simp at h1 h2
      have : i = n := by omega
      subst this
      exact .inr ⟨h2.symm, by simp⟩

theorem mem_keptRoots {s : FaceCollapser} (h : s.Ok) (R : DsuRoots s.ds) {r : ℤ} (hr : r ∈ s.ds.nodes)
    (hrr : R.root r = r) (hne : r ≠ s.nullRoot R) : r ∈ s.keptRoots R := by
  obtain ⟨i, hi⟩ := List.mem_iff_getElem?.1 hr
  unfold keptRoots
  rw [List.mem_filterMap]
  refine ⟨i, ?_, hi⟩
  rw [List.mem_filter, decide_eq_true_eq]
  refine ⟨(R.mem_idx i).2 ⟨r, hi, hrr⟩, ?_⟩
  rcases node_cases h hi with h1 | ⟨h1, _⟩
  · rw [← h1]; exact hne
  · subst h1
    exfalso
    apply hne
    unfold nullRoot
    rw [if_pos hr, hrr]

/-- the new id of a node. -/
theorem reindexer_spec {s : FaceCollapser} (h : s.Ok) (R : DsuRoots s.ds) {c : ℤ} (hc : c ∈ s.ds.nodes) :
    (R.root c = s.nullRoot R → (OMap.find intLt (R.root c) (s.reindexer R)).getD 0 = -1) ∧
    (R.root c ≠ s.nullRoot R → R.root c ∈ s.keptRoots R ∧
      (OMap.find intLt (R.root c) (s.reindexer R)).getD 0 = ((s.keptRoots R).idxOf (R.root c) : ℤ)) := by
  obtain ⟨h1, _, h3⟩ := countUp_spec strictTotal_intLt (s.keptRoots R) [] OMap.sorted_nil (keptRoots_nodup s h R)
    (by intro r _; rfl)
  have hf : ∀ k, OMap.find intLt k (s.reindexer R) =
      if k = s.nullRoot R then some (-1) else OMap.find intLt k (countUp intLt [] (s.keptRoots R)) := by
    intro k
    exact OMap.find_alter strictTotal_intLt h1
  constructor
  · intro he; rw [hf, if_pos he]; rfl
  · intro hne
    have hm := mem_keptRoots h R (R.root_mem c hc) (R.root_root c) hne
    refine ⟨hm, ?_⟩
    rw [hf, if_neg hne, h3, if_pos hm]
    simp

theorem root_eq_null {s : FaceCollapser} (h : s.Ok) (R : DsuRoots s.ds) {c : ℤ} (hc : c ∈ s.ds.nodes) :
    R.root c = s.nullRoot R ↔ s.ds.Conn c (-1) := by
  unfold nullRoot
  split
  · exact R.root_eq_iff c (-1)
  · rename_i hn
    constructor
    · intro he
      exact absurd (he ▸ R.root_mem c hc) hn
    · intro hconn
      exact absurd ((Dsu.conn_mem h.ds hconn).1 hc) hn

/-- **C36.** Two directed edges get the same face id iff they were joined, directly or through a chain. -/
theorem C36_same_face_iff_joined (s : FaceCollapser) (h : s.Ok) (R : DsuRoots s.ds) (e e' : DEdge)
    (he : e ∈ s.edgeList) (he' : e' ∈ s.edgeList) :
    (s.finalize R).face e = (s.finalize R).face e' ↔ s.ds.Conn (s.face e) (s.face e') := by
  rw [face_finalize s R h.sorted he, face_finalize s R h.sorted he', ← R.root_eq_iff]
  obtain ⟨a1, a2⟩ := reindexer_spec h R (face_mem h he)
  obtain ⟨b1, b2⟩ := reindexer_spec h R (face_mem h he')
  constructor
  · intro heq
    by_cases ha : R.root (s.face e) = s.nullRoot R <;> by_cases hb : R.root (s.face e') = s.nullRoot R
    · rw [ha, hb]
    · rw [a1 ha, (b2 hb).2] at heq; omega
    · rw [(a2 ha).2, b1 hb] at heq; omega
    · rw [(a2 ha).2, (b2 hb).2] at heq
      have : (s.keptRoots R).idxOf (R.root (s.face e)) = (s.keptRoots R).idxOf (R.root (s.face e')) := by exact_mod_cast heq
      exact (List.idxOf_inj (a2 ha).1).1 this
  · intro heq; rw [heq]

/-- **C36.** A directed edge gets the id `-1` iff it was joined (through a chain) with the removal marker; the other ids
are non-negative. -/
theorem C36_removed (s : FaceCollapser) (h : s.Ok) (R : DsuRoots s.ds) (e : DEdge) (he : e ∈ s.edgeList) :
    ((s.finalize R).face e = -1 ↔ s.ds.Conn (s.face e) (-1)) ∧
    (¬ s.ds.Conn (s.face e) (-1) → 0 ≤ (s.finalize R).face e) := by
  rw [face_finalize s R h.sorted he, ← root_eq_null h R (face_mem h he)]
  obtain ⟨a1, a2⟩ := reindexer_spec h R (face_mem h he)
  refine ⟨⟨?_, a1⟩, fun hn => by rw [(a2 hn).2]; omega⟩
  intro heq
  by_contra hn
  rw [(a2 hn).2] at heq
  omega

/-- **C36.** If `root_indices()` lists indices in increasing order and each node other than the removal marker is the id
of a directed edge, the non-negative ids in use are exactly `0 .. m-1`. -/
theorem C36_contiguous (s : FaceCollapser) (h : s.Ok) (R : DsuRoots s.ds) (hsort : R.rootIdx.Pairwise (· < ·))
    (hall : ∀ c ∈ s.ds.nodes, c ≠ -1 → ∃ e ∈ s.edgeList, s.face e = c) :
    ∃ m : ℕ, ∀ k : ℤ, (0 ≤ k ∧ k < m) ↔ 0 ≤ k ∧ ∃ e ∈ s.edgeList, (s.finalize R).face e = k := by
  -- the kept roots other than -1
  have key : ∃ m : ℕ, ∀ k : ℕ, k < m ↔ ∃ r ∈ s.keptRoots R, r ≠ s.nullRoot R ∧ (s.keptRoots R).idxOf r = k := by
    by_cases hin : s.nullRoot R ∈ s.keptRoots R
    · -- then the null root is the node -1, at the last index
      obtain ⟨i, hi, hx⟩ := List.mem_filterMap.1 hin
      rw [List.mem_filter, decide_eq_true_eq] at hi
      have hlast : i + 1 = s.ds.nodes.length := by
        rcases node_cases h hx with h1 | ⟨_, h1⟩
        · exact absurd h1.symm hi.2
        · exact h1
      -- split the index list at its last element
      have hsplit : ∃ L, R.rootIdx.filter (fun (i : ℕ) => decide ((i : ℤ) ≠ s.nullRoot R)) = L ++ [i] := by
        have hp : (R.rootIdx.filter (fun (i : ℕ) => decide ((i : ℤ) ≠ s.nullRoot R))).Pairwise (· < ·) := hsort.filter _
        have hmem : i ∈ R.rootIdx.filter (fun (i : ℕ) => decide ((i : ℤ) ≠ s.nullRoot R)) := by
          rw [List.mem_filter, decide_eq_true_eq]; exact hi
        have hmax : ∀ j ∈ R.rootIdx.filter (fun (i : ℕ) => decide ((i : ℤ) ≠ s.nullRoot R)), j ≤ i := by
          intro j hj
          rw [List.mem_filter] at hj
          obtain ⟨x, hx, _⟩ := (R.mem_idx j).1 hj.1
          have := (List.getElem?_eq_some_iff.1 hx).1
          omega
        generalize R.rootIdx.filter (fun (i : ℕ) => decide ((i : ℤ) ≠ s.nullRoot R)) = F at hp hmem hmax
        obtain ⟨L, M, rfl⟩ := List.append_of_mem hmem
        cases M with
        | nil => exact ⟨L, rfl⟩
        | cons j M =>
          have := (List.pairwise_append.1 hp).2.1
          have h2 := List.rel_of_pairwise_cons this List.mem_cons_self
          have h3 := hmax j (by simp)
          omega
      obtain ⟨L, hL⟩ := hsplit
      have hk : s.keptRoots R = L.filterMap (fun (i : ℕ) => s.ds.nodes[i]?) ++ [s.nullRoot R] := by
        unfold keptRoots
        rw [hL, List.filterMap_append]
        simp [hx]
      have hnd := keptRoots_nodup s h R
      refine ⟨(L.filterMap (fun (i : ℕ) => s.ds.nodes[i]?)).length, ?_⟩
      rw [hk] at hnd ⊢
      generalize L.filterMap (fun (i : ℕ) => s.ds.nodes[i]?) = L' at hnd
      have hnd' := List.nodup_append.1 hnd
      have hnot : s.nullRoot R ∉ L' := fun hm => hnd'.2.2 _ hm _ (List.mem_singleton.2 rfl) rfl
      intro k
      constructor
      · intro hlt
        refine ⟨L'[k], by simp, fun he => hnot (he ▸ List.getElem_mem hlt), ?_⟩
        rw [List.idxOf_append_of_mem (List.getElem_mem hlt)]
        exact List.Nodup.idxOf_getElem hnd'.1 k hlt
      · rintro ⟨r, hr, hne, rfl⟩
        rcases List.mem_append.1 hr with hr | hr
        · rw [List.idxOf_append_of_mem hr]
          exact List.idxOf_lt_length_iff.2 hr
        · rw [List.mem_singleton] at hr; exact absurd hr hne
    · refine ⟨(s.keptRoots R).length, ?_⟩
      intro k
      have hnd := keptRoots_nodup s h R
      constructor
      · intro hlt
        refine ⟨(s.keptRoots R)[k], List.getElem_mem hlt, fun he => hin (he ▸ List.getElem_mem hlt), ?_⟩
        exact List.Nodup.idxOf_getElem hnd k hlt
      · rintro ⟨r, hr, _, rfl⟩
        exact List.idxOf_lt_length_iff.2 hr
  obtain ⟨m, hm⟩ := key
  refine ⟨m, fun k => ?_⟩
  constructor
  · rintro ⟨h0, hk⟩
    refine ⟨h0, ?_⟩
    obtain ⟨r, hr, hne, hidx⟩ := (hm k.toNat).1 (by omega)
    obtain ⟨i, hi, hx⟩ := List.mem_filterMap.1 hr
    have hri : i ∈ R.rootIdx := (List.mem_filter.1 hi).1
    obtain ⟨x, hx', hroot⟩ := (R.mem_idx i).1 hri
    rw [hx] at hx'; cases hx'
    have hrn : r ∈ s.ds.nodes := List.mem_of_getElem? hx
    have hr1 : r ≠ -1 := by
      rintro rfl
      apply hne
      unfold nullRoot
      rw [if_pos hrn, hroot]
    obtain ⟨e, he, hfe⟩ := hall r hrn hr1
    refine ⟨e, he, ?_⟩
    rw [face_finalize s R h.sorted he, hfe, ((reindexer_spec h R hrn).2 (by rw [hroot]; exact hne)).2, hroot, hidx]
    omega
  · rintro ⟨h0, e, he, rfl⟩
    refine ⟨h0, ?_⟩
    rw [face_finalize s R h.sorted he] at h0 ⊢
    obtain ⟨a1, a2⟩ := reindexer_spec h R (face_mem h he)
    by_cases hr : R.root (s.face e) = s.nullRoot R
    · rw [a1 hr] at h0; omega
    · rw [(a2 hr).2]
      have := (hm ((s.keptRoots R).idxOf (R.root (s.face e)))).2 ⟨_, (a2 hr).1, hr, rfl⟩
      exact_mod_cast this

/-! ## C37: removal marks -/

theorem join_conn_iff_of_find {s : FaceCollapser} (e : DEdge) (c : ℤ × Bool) (hf : OMap.find edgeLt e s.etf = some c) :
    s.face e = c.1 := by unfold face; rw [hf]; rfl

/-- **C37.** Marking a single directed edge makes its face the removed one. -/
theorem C37_single_edge (s : FaceCollapser) (h : s.Ok) (e : DEdge) (he : e ∈ s.edgeList)
    (R : DsuRoots (s.setEdgeForRemoval e).ds) : ((s.setEdgeForRemoval e).finalize R).face e = -1 := by
  have hok := ok_setEdgeForRemoval h e
  obtain ⟨c, hc⟩ := (mem_edgeList_iff h.sorted e).1 he
  have hetf : (s.setEdgeForRemoval e).etf = s.etf := mark_etf s.addMarker e
  have hel : (s.setEdgeForRemoval e).edgeList = s.edgeList := by unfold edgeList; rw [hetf]
  rw [(C36_removed _ hok R e (by rw [hel]; exact he)).1]
  have hface : (s.setEdgeForRemoval e).face e = c.1 := join_conn_iff_of_find e c (by rw [hetf]; exact hc)
  rw [hface]
  refine .rel _ _ ?_
  unfold setEdgeForRemoval
  rw [mark_joins]
  have : OMap.find edgeLt e s.addMarker.etf = some c := hc
  rw [this]
  simp

/-- **C37, defect.** What `set_edges_for_removal` records does not depend on the vertices of the loop, only on its
length. -/
theorem C37_ignores_vertices (s : FaceCollapser) (loop loop' : List ℤ) (hl : loop.length = loop'.length) :
    s.setEdgesForRemoval loop = s.setEdgesForRemoval loop' := by
  unfold setEdgesForRemoval; rw [hl]

/-- **C37, defect.** The pairs joined with the removal marker are those of the directed edges `(i, i+1 mod n)` of
*positions*. -/
theorem C37_marks_positions (s : FaceCollapser) (loop : List ℤ) :
    (s.setEdgesForRemoval loop).ds.joins = s.ds.joins ++ (List.range loop.length).filterMap fun i : ℕ =>
      (OMap.find edgeLt ((i : ℤ), (((i + 1) % loop.length : ℕ) : ℤ)) s.etf).map fun c => (c.1, -1) := by
  unfold setEdgesForRemoval
  generalize List.range loop.length = L
  generalize loop.length = n
  have gen : ∀ (L : List ℕ) (t : FaceCollapser), t.etf = s.etf →
      (L.foldl (fun (s : FaceCollapser) (i : ℕ) => s.mark ((i : ℤ), (((i + 1) % n : ℕ) : ℤ))) t).ds.joins =
        t.ds.joins ++ L.filterMap fun i : ℕ =>
        (OMap.find edgeLt ((i : ℤ), (((i + 1) % n : ℕ) : ℤ)) s.etf).map fun c => (c.1, -1) := by
    intro L
    induction L with
    | nil => intro t _; simp
    | cons i L ih =>
      intro t ht
      rw [List.foldl_cons, List.filterMap_cons, ih _ (by rw [mark_etf]; exact ht), mark_joins, ht]
      cases OMap.find edgeLt ((i : ℤ), (((i + 1) % n : ℕ) : ℤ)) s.etf with
      | none => simp
      | some c => simp
  rw [gen L s.addMarker rfl]
  congr 1
  exact Dsu.joins_addNode _ _

/-- the triangle 10, 20, 30. -/
def demoTriangle : FaceCollapser := make [(10, 20), (20, 30), (30, 10)]

/-- **C37, refuted.** Asking to remove the loop 10, 20, 30 of the triangle with these vertices marks nothing: the
edge (10,20) keeps a non-negative id, whatever the disjoint-set policy. -/
theorem C37_refuted (R : DsuRoots (demoTriangle.setEdgesForRemoval [10, 20, 30]).ds) :
    0 ≤ ((demoTriangle.setEdgesForRemoval [10, 20, 30]).finalize R).face (10, 20) := by
  have hok : (demoTriangle.setEdgesForRemoval [10, 20, 30]).Ok := ok_setEdgesForRemoval (ok_make _) _
  refine (C36_removed _ hok R (10, 20) (by decide +kernel)).2 ?_
  have hj : (demoTriangle.setEdgesForRemoval [10, 20, 30]).ds.joins = [] := by decide +kernel
  have hf : (demoTriangle.setEdgesForRemoval [10, 20, 30]).face (10, 20) = 0 := by decide +kernel
  rw [hf]
  intro hc
  have key : ∀ x y, (demoTriangle.setEdgesForRemoval [10, 20, 30]).ds.Conn x y → x = y := by
    intro x y h
    induction h with
    | rel a b h => rw [hj] at h; cases h
    | refl a => rfl
    | symm a b _ ih => exact ih.symm
    | trans a b c _ _ i1 i2 => exact i1.trans i2
  exact absurd (key _ _ hc) (by decide)

/-- with consecutive vertices 0, 1, 2 the request happens to be honoured. -/
example : ((make [(0, 1), (1, 2), (2, 0)]).setEdgesForRemoval [0, 1, 2]).ds.joins = [(0, -1), (2, -1), (4, -1)] := by
  decide +kernel

end FaceCollapser
end Mandoline
