import Verif.Collapse.Dsu
import Mathlib.Data.List.Rotate
import Mathlib.Data.List.Perm.Basic
import Mathlib.Data.List.Dedup
import Mathlib.Data.Rat.Defs

/-!
# The face collapser (model)

Transcription of include/mandoline/construction/face_collapser.hpp and src/construction/face_collapser.cpp.
-/
namespace Mandoline

/-- `FaceCollapser` (face_collapser.hpp:79-86): directed edge → (face id, same order as the input), the disjoint set
of face ids, and the map from a directed edge to the next one of its loop. -/
structure FaceCollapser where
  etf : List (DEdge × (ℤ × Bool))
  ds : Dsu ℤ
  deg : List (DEdge × DEdge)

namespace FaceCollapser

/-- one iteration of the constructor (face_collapser.cpp:8-21, 24-42). -/
def addEdge (s : FaceCollapser) (cid : ℕ) (e : DEdge) : FaceCollapser :=
  { s with
    ds := (s.ds.addNode (2 * cid)).addNode (2 * cid + 1)
    etf := OMap.assign edgeLt (e.2, e.1) (2 * cid + 1, false) (OMap.assign edgeLt e (2 * cid, true) s.etf) }

/-- the constructor (face_collapser.cpp:8-43); `edges` in iteration order. -/
def make (edges : List DEdge) : FaceCollapser :=
  edges.zipIdx.foldl (fun s p => s.addEdge p.2 p.1) ⟨[], .empty, []⟩

/-- `face(e)` (face_collapser.cpp:59-61): `m_edge_to_face.at(e)`; the default stands for the exception thrown when
`e` is absent. -/
def face (s : FaceCollapser) (e : DEdge) : ℤ := ((OMap.find edgeLt e s.etf).map Prod.fst).getD 0

/-- the directed edges known to the collapser. -/
def edgeList (s : FaceCollapser) : List DEdge := s.etf.map Prod.fst

/-- `collect_edges()` (face_collapser.cpp:46-52): keys of the returned map. -/
def ringKeys (s : FaceCollapser) : List ℤ := (s.edgeList.map Prod.fst).dedup

/-- `collect_edges()[a]` (face_collapser.cpp:46-52): the ends of the directed edges starting at `a`. The list is in
the order of the `std::set` because `m_edge_to_face` is visited in lexicographic order. -/
def ring (s : FaceCollapser) (a : ℤ) : List ℤ := (s.edgeList.filter fun e => decide (e.1 = a)).map Prod.snd

/-- the pairs `(*it, *it1)` of the loop of face_collapser.hpp:150-164: each element with its cyclic successor. -/
def cyclicPairs (l : List ℤ) : List (ℤ × ℤ) := l.zip (l.rotate 1)

/-- the pairs `(e, ne)` that `unify_boundary_loops` joins around vertex `a` whose neighbours are visited in the order
`ns`: `e = (*it1, a)`, `ne = (a, *it)` (face_collapser.hpp:157-158). -/
def ringPairs (a : ℤ) (ns : List ℤ) : List (DEdge × DEdge) :=
  (cyclicPairs ns).map fun p => ((p.2, a), (a, p.1))

/-- all pairs `(e, ne)` in the order they are processed; `ord a` is the sorted neighbourhood of `a`. -/
def loopPairs (s : FaceCollapser) (ord : ℤ → List ℤ) : List (DEdge × DEdge) :=
  s.ringKeys.flatMap fun a => ringPairs a (ord a)

/-- body of the innermost loop (face_collapser.hpp:157-163). -/
def joinStep (s : FaceCollapser) (p : DEdge × DEdge) : FaceCollapser :=
  { s with ds := s.ds.join (s.face p.1) (s.face p.2), deg := OMap.assign edgeLt p.1 p.2 s.deg }

/-- `unify_boundary_loops` (face_collapser.hpp:98-166); `ord a` is the result of the `std::sort` of the neighbours of
`a` (any permutation sorted for the comparison; see `angleLt`). -/
def unify (s : FaceCollapser) (ord : ℤ → List ℤ) : FaceCollapser := (s.loopPairs ord).foldl joinStep s

/-- `if (find(e) != end) face_ds.join(get<0>(m_edge_to_face[e]), -1)` (face_collapser.cpp:69-71, 80-82). -/
def mark (s : FaceCollapser) (e : DEdge) : FaceCollapser :=
  match OMap.find edgeLt e s.etf with
  | some c => { s with ds := s.ds.join c.1 (-1) }
  | none => s

/-- `face_ds.add_node(-1)`. -/
def addMarker (s : FaceCollapser) : FaceCollapser := { s with ds := s.ds.addNode (-1) }

/-- `set_edge_for_removal` (face_collapser.cpp:76-83). -/
def setEdgeForRemoval (s : FaceCollapser) (e : DEdge) : FaceCollapser := s.addMarker.mark e

/-- `set_edges_for_removal` (face_collapser.cpp:64-73). The directed edge looked up is `{i, j}`, the positions, not
`{boundary_loop[i], boundary_loop[j]}`. -/
def setEdgesForRemoval (s : FaceCollapser) (loop : List ℤ) : FaceCollapser :=
  (List.range loop.length).foldl
    (fun (s : FaceCollapser) (i : ℕ) => s.mark ((i : ℤ), (((i + 1) % loop.length : ℕ) : ℤ))) s.addMarker

/-- the value of `null_root` (face_collapser.cpp:218-221). -/
def nullRoot (s : FaceCollapser) (R : DsuRoots s.ds) : ℤ := if -1 ∈ s.ds.nodes then R.root (-1) else -1

/-- the data of the roots visited by the loop of face_collapser.cpp:222-226; the test compares the *index* of the root
with `null_root`. -/
def keptRoots (s : FaceCollapser) (R : DsuRoots s.ds) : List ℤ :=
  (R.rootIdx.filter fun (i : ℕ) => decide ((i : ℤ) ≠ s.nullRoot R)).filterMap fun (i : ℕ) => s.ds.nodes[i]?

/-- `reindexer` of `finalize` (face_collapser.cpp:222-227). -/
def reindexer (s : FaceCollapser) (R : DsuRoots s.ds) : List (ℤ × ℤ) :=
  OMap.assign intLt (s.nullRoot R) (-1) (countUp intLt [] (s.keptRoots R))

/-- `finalize` (face_collapser.cpp:212-236); `reindexer[root]` yields 0 for a missing key. -/
def finalize (s : FaceCollapser) (R : DsuRoots s.ds) : FaceCollapser :=
  { s with etf := s.etf.map fun p => (p.1, ((OMap.find intLt (R.root p.2.1) (s.reindexer R)).getD 0, p.2.2)) }

end FaceCollapser

/-! ## basic facts -/

namespace FaceCollapser

/-- the state reached by the constructor and the removal marks: ids of directed edges are nodes, the map is sorted and
closed under reversal. -/
structure Ok (s : FaceCollapser) : Prop where
  sorted : OMap.Sorted edgeLt s.etf
  symm : ∀ a b, (a, b) ∈ s.edgeList → (b, a) ∈ s.edgeList
  ids : ∀ p ∈ s.etf, p.2.1 ∈ s.ds.nodes
  ds : s.ds.Ok
  nodes : ∃ n : ℕ, s.ds.nodes = (List.range n).map (fun k : ℕ => (k : ℤ)) ∨
    s.ds.nodes = (List.range n).map (fun k : ℕ => (k : ℤ)) ++ [-1]

theorem mem_edgeList_iff {s : FaceCollapser} (h : OMap.Sorted edgeLt s.etf) (e : DEdge) :
    e ∈ s.edgeList ↔ ∃ c, OMap.find edgeLt e s.etf = some c := by
  unfold edgeList
  rw [List.mem_map]
  constructor
  · rintro ⟨⟨k, c⟩, hm, rfl⟩; exact ⟨c, OMap.find_of_mem strictTotal_edgeLt h hm⟩
  · rintro ⟨c, hc⟩; exact ⟨(e, c), OMap.mem_of_find strictTotal_edgeLt hc, rfl⟩

theorem mem_assign_keys {V : Type*} {l : List (DEdge × V)} (h : OMap.Sorted edgeLt l) (k : DEdge) (v : V) (x : DEdge) :
    x ∈ (OMap.assign edgeLt k v l).map Prod.fst ↔ x = k ∨ x ∈ l.map Prod.fst := by
  constructor
  · intro hx
    obtain ⟨⟨y, w⟩, hm, rfl⟩ := List.mem_map.1 hx
    exact OMap.mem_alter_key hm
  · intro hx
    rw [List.mem_map]
    by_cases hk : x = k
    · subst hk
      exact ⟨(x, v), (OMap.mem_alter strictTotal_edgeLt h).2 (.inr ⟨rfl, rfl⟩), rfl⟩
    · rcases hx with h' | h'
      · exact absurd h' hk
      · obtain ⟨⟨y, w⟩, hm, rfl⟩ := List.mem_map.1 h'
        exact ⟨(y, w), (OMap.mem_alter strictTotal_edgeLt h).2 (.inl ⟨hk, hm⟩), rfl⟩

theorem addNode_range (m : ℕ) (d : Dsu ℤ) (h : d.nodes = (List.range m).map (fun k : ℕ => (k : ℤ))) :
    (d.addNode (m : ℤ)).nodes = (List.range (m + 1)).map (fun k : ℕ => (k : ℤ)) := by
  unfold Dsu.addNode
  rw [if_neg (by rw [h]; simp)]
  simp only
  rw [h, List.range_succ, List.map_append]
  rfl

/-- the constructor's invariant. -/
theorem make_inv (edges : List DEdge) :
    (make edges).deg = [] ∧ (make edges).ds.joins = [] ∧ (make edges).ds.Ok ∧
    (make edges).ds.nodes = (List.range (2 * edges.length)).map (fun k : ℕ => (k : ℤ)) ∧
    OMap.Sorted edgeLt (make edges).etf ∧
    (∀ e, e ∈ (make edges).edgeList ↔ e ∈ edges ∨ (e.2, e.1) ∈ edges) ∧
    (∀ p ∈ (make edges).etf, 0 ≤ p.2.1 ∧ p.2.1 < 2 * edges.length) ∧
    (∀ p ∈ (make edges).etf, ∀ q ∈ (make edges).etf, p.2.1 = q.2.1 → p = q) := by
  induction edges using List.reverseRecOn with
  | nil =>
    refine ⟨rfl, rfl, Dsu.ok_empty, rfl, OMap.sorted_nil, ?_, nofun, nofun⟩
    intro e; simp [make, edgeList]
  | append_singleton l e ih =>
    obtain ⟨h1, h2, h3, h4, h5, h6, h7, h8⟩ := ih
    have hm : make (l ++ [e]) = (make l).addEdge l.length e := by
      unfold make
      rw [List.zipIdx_append, List.foldl_append]
      simp
    rw [hm]
    have hs1 : OMap.Sorted edgeLt (OMap.assign edgeLt e ((2 * (l.length : ℤ), true) : ℤ × Bool) (make l).etf) :=
      OMap.sorted_alter strictTotal_edgeLt h5
    have hn1 := addNode_range (2 * l.length) (make l).ds h4
    have hn2 := addNode_range (2 * l.length + 1) _ hn1
    have hmem : ∀ k v, (k, v) ∈ ((make l).addEdge l.length e).etf ↔
        ((k = (e.2, e.1) ∧ v = (2 * (l.length : ℤ) + 1, false)) ∨
        (k ≠ (e.2, e.1) ∧ k = e ∧ v = (2 * (l.length : ℤ), true)) ∨
        (k ≠ (e.2, e.1) ∧ k ≠ e ∧ (k, v) ∈ (make l).etf)) := by
      intro k v
      show (k, v) ∈ OMap.assign edgeLt _ _ _ ↔ _
      unfold OMap.assign at hs1 ⊢
      rw [OMap.mem_alter strictTotal_edgeLt hs1, OMap.mem_alter strictTotal_edgeLt h5]
      tauto
    refine ⟨h1, ?_, (h3.addNode _).addNode _, ?_, OMap.sorted_alter strictTotal_edgeLt hs1, ?_, ?_, ?_⟩
    · show ((_ : Dsu ℤ).addNode _).joins = []
      rw [Dsu.joins_addNode, Dsu.joins_addNode]; exact h2
    · show ((_ : Dsu ℤ).addNode _).nodes = _
      rw [List.length_append, List.length_singleton, Nat.mul_add]
      push_cast at hn2
      exact hn2
    · intro x
      show x ∈ (OMap.assign edgeLt _ _ _).map Prod.fst ↔ _
      rw [mem_assign_keys hs1, mem_assign_keys h5]
      have := h6 x
      unfold edgeList at this
      rw [this, List.mem_append, List.mem_append, List.mem_singleton, List.mem_singleton]
      have e1 : x = (e.2, e.1) ↔ (x.2, x.1) = e := by
        constructor
        · rintro rfl; rfl
        · intro h; rw [← h]
      rw [e1]; tauto
    · rintro ⟨k, v⟩ hp
      rw [List.length_append, List.length_singleton]
      push_cast
      rcases (hmem k v).1 hp with ⟨_, rfl⟩ | ⟨_, _, rfl⟩ | ⟨_, _, h⟩
      · simp only; omega
      · simp only; omega
      · have := h7 _ h; simp only at this ⊢; omega
    · rintro ⟨k, v⟩ hp ⟨k', v'⟩ hq he
      simp only at he
      rcases (hmem k v).1 hp with ⟨a1, rfl⟩ | ⟨_, a1, rfl⟩ | ⟨a0, a1, h⟩ <;>
        rcases (hmem k' v').1 hq with ⟨b1, rfl⟩ | ⟨_, b1, rfl⟩ | ⟨b0, b1, h'⟩
      · rw [a1, b1]
      · simp only at he; omega
      · have := h7 _ h'; simp only at he this; omega
      · simp only at he; omega
      · rw [a1, b1]
      · have := h7 _ h'; simp only at he this; omega
      · have := h7 _ h; simp only at he this; omega
      · have := h7 _ h; simp only at he this; omega
      · exact h8 _ h _ h' he

theorem ok_make (edges : List DEdge) : (make edges).Ok := by
  obtain ⟨h1, h2, h3, h4, h5, h6, h7, h8⟩ := make_inv edges
  refine ⟨h5, ?_, ?_, h3, 2 * edges.length, .inl h4⟩
  · intro a b hab
    have := (h6 (a, b)).1 hab
    exact (h6 (b, a)).2 this.symm
  · intro p hp
    rw [h4, List.mem_map]
    have := h7 p hp
    exact ⟨p.2.1.toNat, List.mem_range.2 (by omega), by simp; omega⟩

theorem addNode_neg {s : FaceCollapser} (h : s.Ok) : ∃ n : ℕ,
    (s.ds.addNode (-1)).nodes = (List.range n).map (fun k : ℕ => (k : ℤ)) ++ [-1] := by
  obtain ⟨n, hn | hn⟩ := h.nodes
  · refine ⟨n, ?_⟩
    unfold Dsu.addNode
    rw [if_neg (by rw [hn]; simp)]
    simp only
    rw [hn]
  · refine ⟨n, ?_⟩
    unfold Dsu.addNode
    rw [if_pos (by rw [hn]; simp), hn]

theorem ok_join {s : FaceCollapser} (h : s.Ok) (a b : ℤ) (ha : a ∈ s.ds.nodes) (hb : b ∈ s.ds.nodes) :
    ({ s with ds := s.ds.join a b } : FaceCollapser).Ok :=
  ⟨h.sorted, h.symm, h.ids, h.ds.join ha hb, h.nodes⟩

theorem ok_addNeg {s : FaceCollapser} (h : s.Ok) : s.addMarker.Ok := by
  obtain ⟨n, hn⟩ := addNode_neg h
  refine ⟨h.sorted, h.symm, ?_, h.ds.addNode _, n, .inr hn⟩
  intro p hp
  exact (Dsu.mem_addNode _ _ _).2 (.inr (h.ids p hp))

theorem mark_etf (s : FaceCollapser) (e : DEdge) : (s.mark e).etf = s.etf := by unfold mark; split <;> rfl
theorem mark_nodes (s : FaceCollapser) (e : DEdge) : (s.mark e).ds.nodes = s.ds.nodes := by unfold mark; split <;> rfl
theorem mark_deg (s : FaceCollapser) (e : DEdge) : (s.mark e).deg = s.deg := by unfold mark; split <;> rfl
theorem mark_joins (s : FaceCollapser) (e : DEdge) : (s.mark e).ds.joins =
    s.ds.joins ++ ((OMap.find edgeLt e s.etf).map fun c => (c.1, (-1 : ℤ))).toList := by
  unfold mark
  cases OMap.find edgeLt e s.etf with
  | none => simp
  | some c => rfl

theorem marker_mem (s : FaceCollapser) : -1 ∈ s.addMarker.ds.nodes := (Dsu.mem_addNode _ _ _).2 (.inl rfl)

theorem ok_mark {s : FaceCollapser} (h : s.Ok) (hm : -1 ∈ s.ds.nodes) (e : DEdge) : (s.mark e).Ok := by
  unfold mark
  split
  · rename_i c hf
    exact ok_join h _ _ (h.ids _ (OMap.mem_of_find strictTotal_edgeLt hf)) hm
  · exact h

theorem ok_setEdgeForRemoval {s : FaceCollapser} (h : s.Ok) (e : DEdge) : (s.setEdgeForRemoval e).Ok :=
  ok_mark (ok_addNeg h) s.marker_mem e

theorem ok_setEdgesForRemoval {s : FaceCollapser} (h : s.Ok) (loop : List ℤ) : (s.setEdgesForRemoval loop).Ok := by
  unfold setEdgesForRemoval
  generalize List.range loop.length = L
  have h0 := ok_addNeg h
  have hm := s.marker_mem
  generalize s.addMarker = t at h0 hm
  induction L generalizing t with
  | nil => exact h0
  | cons i L ih =>
    rw [List.foldl_cons]
    exact ih _ (ok_mark h0 hm _) (by rw [mark_nodes]; exact hm)

theorem face_mem {s : FaceCollapser} (h : s.Ok) {e : DEdge} (he : e ∈ s.edgeList) : s.face e ∈ s.ds.nodes := by
  obtain ⟨c, hc⟩ := (mem_edgeList_iff h.sorted e).1 he
  unfold face
  rw [hc]
  exact h.ids _ (OMap.mem_of_find strictTotal_edgeLt hc)

theorem mem_ring {s : FaceCollapser} {a b : ℤ} : b ∈ s.ring a ↔ (a, b) ∈ s.edgeList := by
  unfold ring
  simp only [List.mem_map, List.mem_filter, decide_eq_true_eq]
  constructor
  · rintro ⟨⟨x, y⟩, ⟨h, rfl⟩, rfl⟩; exact h
  · intro h; exact ⟨(a, b), ⟨h, rfl⟩, rfl⟩

theorem edgeList_nodup {s : FaceCollapser} (h : OMap.Sorted edgeLt s.etf) : s.edgeList.Nodup := by
  unfold edgeList
  rw [List.nodup_iff_pairwise_ne, List.pairwise_map]
  refine h.imp ?_
  intro a b hab he
  rw [he, strictTotal_edgeLt.irrefl] at hab
  cases hab

theorem ring_nodup {s : FaceCollapser} (h : OMap.Sorted edgeLt s.etf) (a : ℤ) : (s.ring a).Nodup := by
  unfold ring
  refine List.Nodup.map_on ?_ ((edgeList_nodup h).filter _)
  rintro ⟨x, y⟩ hx ⟨x', y'⟩ hx' he
  simp only [List.mem_filter, decide_eq_true_eq] at hx hx'
  simp only at he
  rw [hx.2, hx'.2, he]

theorem mem_ringKeys {s : FaceCollapser} {a : ℤ} : a ∈ s.ringKeys ↔ ∃ b, (a, b) ∈ s.edgeList := by
  unfold ringKeys
  rw [List.mem_dedup, List.mem_map]
  constructor
  · rintro ⟨⟨x, y⟩, h, rfl⟩; exact ⟨y, h⟩
  · rintro ⟨b, h⟩; exact ⟨(a, b), h, rfl⟩

theorem cyclicPairs_fst (l : List ℤ) : (cyclicPairs l).map Prod.fst = l := by
  unfold cyclicPairs
  exact List.map_fst_zip (by simp)

theorem cyclicPairs_snd (l : List ℤ) : (cyclicPairs l).map Prod.snd = l.rotate 1 := by
  unfold cyclicPairs
  exact List.map_snd_zip (by simp)

/-- keys and values of the joined pairs: each directed edge exactly once. -/
theorem loopPairs_spec {s : FaceCollapser} (h : s.Ok) (ord : ℤ → List ℤ) (hord : ∀ a, (ord a).Perm (s.ring a)) :
    ((s.loopPairs ord).map Prod.fst).Nodup ∧ ((s.loopPairs ord).map Prod.snd).Nodup ∧
    (∀ e, e ∈ (s.loopPairs ord).map Prod.fst ↔ e ∈ s.edgeList) ∧
    (∀ e, e ∈ (s.loopPairs ord).map Prod.snd ↔ e ∈ s.edgeList) ∧
    (∀ p ∈ s.loopPairs ord, p.1.2 = p.2.1) := by
  have e1 : (s.loopPairs ord).map Prod.fst = s.ringKeys.flatMap fun a => ((ord a).rotate 1).map fun u => (u, a) := by
    unfold loopPairs ringPairs
    rw [List.map_flatMap]
    congr 1; funext a
    rw [← cyclicPairs_snd, List.map_map, List.map_map]; rfl
  have e2 : (s.loopPairs ord).map Prod.snd = s.ringKeys.flatMap fun a => (ord a).map fun u => (a, u) := by
    unfold loopPairs ringPairs
    rw [List.map_flatMap]
    congr 1; funext a
    conv_rhs => rw [← cyclicPairs_fst (ord a)]
    rw [List.map_map, List.map_map]; rfl
  have hk : s.ringKeys.Nodup := List.nodup_dedup _
  have hnd : ∀ a, (ord a).Nodup := fun a => (hord a).nodup_iff.2 (ring_nodup h.sorted a)
  refine ⟨?_, ?_, ?_, ?_, ?_⟩
  · rw [e1, List.nodup_flatMap]
    refine ⟨fun a _ => ?_, ?_⟩
    · refine List.Nodup.map_on ?_ (List.nodup_rotate.2 (hnd a))
      intro x _ y _ he; exact (Prod.mk.inj he).1
    · refine hk.imp ?_
      intro a b hab x hx hy
      obtain ⟨u, _, rfl⟩ := List.mem_map.1 hx
      obtain ⟨v, _, hv⟩ := List.mem_map.1 hy
      exact hab (Prod.mk.inj hv).2.symm
  · rw [e2, List.nodup_flatMap]
    refine ⟨fun a _ => ?_, ?_⟩
    · refine List.Nodup.map_on ?_ (hnd a)
      intro x _ y _ he; exact (Prod.mk.inj he).2
    · refine hk.imp ?_
      intro a b hab x hx hy
      obtain ⟨u, _, rfl⟩ := List.mem_map.1 hx
      obtain ⟨v, _, hv⟩ := List.mem_map.1 hy
      exact hab (Prod.mk.inj hv).1.symm
  · rintro ⟨u, a⟩
    rw [e1, List.mem_flatMap]
    constructor
    · rintro ⟨a', _, hu⟩
      obtain ⟨u', hu', he⟩ := List.mem_map.1 hu
      cases he
      exact h.symm _ _ (mem_ring.1 ((hord a).mem_iff.1 (List.mem_rotate.1 hu')))
    · intro he
      have hr := h.symm _ _ he
      refine ⟨a, mem_ringKeys.2 ⟨u, hr⟩, List.mem_map.2 ⟨u, List.mem_rotate.2 ((hord a).mem_iff.2 (mem_ring.2 hr)), rfl⟩⟩
  · rintro ⟨a, u⟩
    rw [e2, List.mem_flatMap]
    constructor
    · rintro ⟨a', _, hu⟩
      obtain ⟨u', hu', he⟩ := List.mem_map.1 hu
      cases he
      exact mem_ring.1 ((hord a).mem_iff.1 hu')
    · intro he
      exact ⟨a, mem_ringKeys.2 ⟨u, he⟩, List.mem_map.2 ⟨u, (hord a).mem_iff.2 (mem_ring.2 he), rfl⟩⟩
  · intro p hp
    unfold loopPairs ringPairs at hp
    obtain ⟨a, _, hp⟩ := List.mem_flatMap.1 hp
    obtain ⟨q, _, rfl⟩ := List.mem_map.1 hp
    rfl

theorem foldl_joinStep (P : List (DEdge × DEdge)) (s : FaceCollapser) :
    (P.foldl joinStep s).etf = s.etf ∧ (P.foldl joinStep s).ds.nodes = s.ds.nodes ∧
    (P.foldl joinStep s).ds.joins = s.ds.joins ++ P.map (fun p => (s.face p.1, s.face p.2)) ∧
    (P.foldl joinStep s).deg = P.foldl (fun m p => OMap.assign edgeLt p.1 p.2 m) s.deg := by
  induction P generalizing s with
  | nil => simp
  | cons p P ih =>
    obtain ⟨h1, h2, h3, h4⟩ := ih (s.joinStep p)
    rw [List.foldl_cons, h1, h2, h3, h4]
    refine ⟨rfl, rfl, ?_, rfl⟩
    simp only [joinStep, Dsu.join, List.map_cons, List.append_assoc, List.singleton_append]
    rfl

theorem foldl_assign_mem (P : List (DEdge × DEdge)) (m : List (DEdge × DEdge)) (hm : OMap.Sorted edgeLt m)
    (hnd : (P.map Prod.fst).Nodup) (hdis : ∀ p ∈ P, p.1 ∉ m.map Prod.fst) :
    OMap.Sorted edgeLt (P.foldl (fun m p => OMap.assign edgeLt p.1 p.2 m) m) ∧
    ∀ x, x ∈ P.foldl (fun m p => OMap.assign edgeLt p.1 p.2 m) m ↔ x ∈ m ∨ x ∈ P := by
  induction P generalizing m with
  | nil => exact ⟨hm, by simp⟩
  | cons p P ih =>
    rw [List.map_cons, List.nodup_cons] at hnd
    have hm' : OMap.Sorted edgeLt (OMap.assign edgeLt p.1 p.2 m) := OMap.sorted_alter strictTotal_edgeLt hm
    obtain ⟨i1, i2⟩ := ih _ hm' hnd.2 (by
      intro q hq hin
      rw [mem_assign_keys hm] at hin
      rcases hin with h | h
      · exact hnd.1 (h ▸ List.mem_map.2 ⟨q, hq, rfl⟩)
      · exact hdis q (List.mem_cons_of_mem _ hq) h)
    rw [List.foldl_cons]
    refine ⟨i1, fun x => ?_⟩
    rw [i2 x]
    obtain ⟨k, v⟩ := x
    unfold OMap.assign
    rw [OMap.mem_alter strictTotal_edgeLt hm, List.mem_cons]
    constructor
    · rintro ((⟨_, h⟩ | ⟨h1, h2⟩) | h)
      · exact .inl h
      · exact .inr (.inl (Prod.ext h1 h2))
      · exact .inr (.inr h)
    · rintro (h | h | h)
      · refine .inl (.inl ⟨?_, h⟩)
        rintro rfl
        exact hdis p List.mem_cons_self (List.mem_map.2 ⟨_, h, rfl⟩)
      · exact .inl (.inr ⟨congrArg Prod.fst h, congrArg Prod.snd h⟩)
      · exact .inr h

/-- what `unify_boundary_loops` does on a fresh collapser. -/
theorem unify_spec {s : FaceCollapser} (h : s.Ok) (hdeg : s.deg = []) (ord : ℤ → List ℤ)
    (hord : ∀ a, (ord a).Perm (s.ring a)) :
    (s.unify ord).etf = s.etf ∧ (s.unify ord).ds.nodes = s.ds.nodes ∧
    (s.unify ord).ds.joins = s.ds.joins ++ (s.loopPairs ord).map (fun p => (s.face p.1, s.face p.2)) ∧
    OMap.Sorted edgeLt (s.unify ord).deg ∧ ∀ x, x ∈ (s.unify ord).deg ↔ x ∈ s.loopPairs ord := by
  obtain ⟨h1, h2, h3, h4⟩ := foldl_joinStep (s.loopPairs ord) s
  obtain ⟨p1, p2, p3, p4, p5⟩ := loopPairs_spec h ord hord
  obtain ⟨a1, a2⟩ := foldl_assign_mem (s.loopPairs ord) [] OMap.sorted_nil p1 (by simp)
  unfold unify
  rw [h1, h2, h3, h4, hdeg]
  exact ⟨rfl, rfl, rfl, a1, by simpa using a2⟩

theorem ok_unify {s : FaceCollapser} (h : s.Ok) (hdeg : s.deg = []) (ord : ℤ → List ℤ)
    (hord : ∀ a, (ord a).Perm (s.ring a)) : (s.unify ord).Ok := by
  obtain ⟨h1, h2, h3, h4, h5⟩ := unify_spec h hdeg ord hord
  obtain ⟨p1, p2, p3, p4, p5⟩ := loopPairs_spec h ord hord
  have hel : (s.unify ord).edgeList = s.edgeList := by unfold edgeList; rw [h1]
  refine ⟨by rw [h1]; exact h.sorted, by rw [hel]; exact h.symm, ?_, ⟨by rw [h2]; exact h.ds.nodup, ?_⟩, ?_⟩
  · rw [h1, h2]; exact h.ids
  · rw [h2, h3]
    intro p hp
    rcases List.mem_append.1 hp with hp | hp
    · exact h.ds.joins_mem p hp
    · obtain ⟨q, hq, rfl⟩ := List.mem_map.1 hp
      exact ⟨face_mem h ((p3 _).1 (List.mem_map.2 ⟨q, hq, rfl⟩)), face_mem h ((p4 _).1 (List.mem_map.2 ⟨q, hq, rfl⟩))⟩
  · rw [h2]; exact h.nodes

end FaceCollapser
end Mandoline
