import Verif.Sched.Loop
import Verif.Cross.Fuse
import Verif.Edge.Props
import Verif.Collapse.Dsu
import Mathlib.Data.List.Nodup

/-!
# `CutData::bake` under every schedule

construction/cutdata_impl.hpp:85-270: baking of the edges and triangles, unification of the crossings, collection of the cut
edges and cut faces.
-/
namespace Mandoline.Sched
open Relation

/-! ## the phases -/

/-- the work of one call of `CutData::bake` (cutdata_impl.hpp:85-270) on `n` edges and `k` triangles.  What is done per element is
a parameter: `σ` is the state of an `EdgeIntersections`, `τ` that of a `TriangleIntersections`, `κ` that of `m_crossings` and
`m_vertex_indexer`, `α` a cut edge, `β` a cut face. The order of the addresses of the vertices (which the triangles of 3D use as
map keys) is part of the parameters, i.e. taken to be the same in the schedules compared. -/
structure Tasks (n k : ℕ) (σ τ κ α β : Type*) where
  /-- elementary steps of `m_edge_intersections[i].bake(grid)` (lines 94-97) -/
  eprog : Fin n → List (σ → σ)
  /-- `m_edge_intersections` before -/
  einit : Fin n → σ
  /-- elementary steps of `m_triangle_intersections[i].bake(grid)`, which reads the edges (lines 103-106) -/
  tprog : (Fin n → σ) → Fin k → List (τ → τ)
  /-- `m_triangle_intersections` before -/
  tinit : Fin k → τ
  /-- `compute_crossings`, `gv_index_map` (lines 112-113) -/
  cross : (Fin n → σ) → (Fin k → τ) → κ
  /-- what iteration `i` passes to `add_edge` (lines 133-161) -/
  edges : (Fin n → σ) → κ → Fin n → List α
  /-- what the sequential loop over the triangles passes to `add_edge` (lines 162-210) -/
  tail : (Fin n → σ) → (Fin k → τ) → κ → List α
  /-- what iteration `i` passes to `add_face` (lines 226-268) -/
  faces : (Fin n → σ) → (Fin k → τ) → κ → Fin k → List β

/-- some schedule of `bake` ends with the crossings `c`, `m_cut_edges = es` and `m_cut_faces = fs`. -/
def Tasks.Baked {n k : ℕ} {σ τ κ α β : Type*} (T : Tasks n k σ τ κ α β) (c : κ) (es : List α) (fs : List β) : Prop :=
  ∃ slots tris out, ParallelFor T.eprog T.einit slots ∧ ParallelFor (T.tprog slots) T.tinit tris ∧
    c = T.cross slots tris ∧ ParallelAppend (T.edges slots c) out ∧ es = out ++ T.tail slots tris c ∧
    ParallelAppend (T.faces slots tris c) fs

/-- the elements a loop appends carry the number of the iteration that appends them (`edge_index`, `triangle_index`;
cutdata_impl.hpp:151, 158, 254, 265 with 414-426). -/
def Tasks.Tagged {n k : ℕ} {σ τ κ α β : Type*} (T : Tasks n k σ τ κ α β) (oe : α → ℤ) (of : β → ℤ) : Prop :=
  (∀ slots c (i : Fin n), ∀ e ∈ T.edges slots c i, oe e = (i : ℕ)) ∧
  (∀ slots tris c (i : Fin k), ∀ f ∈ T.faces slots tris c i, of f = (i : ℕ))

/-- **C51.** Any two schedules of `bake` produce the same crossings and the same cut edges and cut faces, each the same number of
times; and among the cut edges (faces) of one input edge (triangle) even the same order. -/
theorem C51_schedule_independent {n k : ℕ} {σ τ κ α β : Type*} (T : Tasks n k σ τ κ α β) (oe : α → ℤ) (of : β → ℤ)
    (h : T.Tagged oe of) (c c' : κ) (es es' : List α) (fs fs' : List β) (h1 : T.Baked c es fs) (h2 : T.Baked c' es' fs') :
    c = c' ∧ es.Perm es' ∧ fs.Perm fs' ∧
      (∀ i : ℤ, (es.filter fun e => decide (oe e = i)) = es'.filter fun e => decide (oe e = i)) ∧
      ∀ i : ℤ, (fs.filter fun f => decide (of f = i)) = fs'.filter fun f => decide (of f = i) := by
  obtain ⟨s, t, o, a1, a2, rfl, a4, rfl, a6⟩ := h1
  obtain ⟨s', t', o', b1, b2, rfl, b4, rfl, b6⟩ := h2
  have hs : s = s' := by rw [parallelFor_det a1, parallelFor_det b1]
  subst hs
  have ht : t = t' := by rw [parallelFor_det a2, parallelFor_det b2]
  subst ht
  have he : ∀ i : ℤ, (o.filter fun e => decide (oe e = i)) = o'.filter fun e => decide (oe e = i) := fun i => by
    rw [parallelAppend_filter_all (h.1 _ _) a4, parallelAppend_filter_all (h.1 _ _) b4]
  have hf : ∀ i : ℤ, (fs.filter fun e => decide (of e = i)) = fs'.filter fun e => decide (of e = i) := fun i => by
    rw [parallelAppend_filter_all (h.2 _ _ _) a6, parallelAppend_filter_all (h.2 _ _ _) b6]
  refine ⟨rfl, (perm_of_filter he).append_right _, perm_of_filter hf, fun i => ?_, hf⟩
  rw [List.filter_append, List.filter_append, he]

/-- **C51.** Some schedule always ends with a result, and whatever has been scheduled so far in a loop, the loop can still be
completed (the mutex cannot deadlock). -/
theorem C51_no_deadlock {n k : ℕ} {σ τ κ α β : Type*} (T : Tasks n k σ τ κ α β) (oe : α → ℤ) (of : β → ℤ)
    (h : T.Tagged oe of) : (∃ c es fs, T.Baked c es fs) ∧
    (∀ slots c s, ReflTransGen QStep (QState.start (T.edges slots c)) s → ∃ t, ReflTransGen QStep s t ∧ t.Done) ∧
    ∀ slots tris c s, ReflTransGen QStep (QState.start (T.faces slots tris c)) s → ∃ t, ReflTransGen QStep s t ∧ t.Done := by
  refine ⟨?_, fun slots c s hs => parallelAppend_complete (h.1 slots c) s (QInv.run (h.1 slots c) hs),
    fun slots tris c s hs => parallelAppend_complete (h.2 slots tris c) s (QInv.run (h.2 slots tris c) hs)⟩
  obtain ⟨s, hs⟩ := parallelFor_exists T.eprog T.einit
  obtain ⟨t, ht⟩ := parallelFor_exists (T.tprog s) T.tinit
  obtain ⟨o, ho⟩ := parallelAppend_exists (h.1 s (T.cross s t))
  obtain ⟨f, hf⟩ := parallelAppend_exists (h.2 s t (T.cross s t))
  exact ⟨_, _, _, s, t, o, hs, ht, rfl, ho, rfl, hf⟩

/-- **C51.** No loop runs for ever, however it is scheduled. -/
theorem C51_terminates {n : ℕ} {σ α : Type*} (owner : α → ℤ) :
    (∀ f : ℕ → PState n σ, ¬ ∀ k, PStep (f k) (f (k + 1))) ∧
    ∀ (prog : Fin n → List α), (∀ i : Fin n, ∀ e ∈ prog i, owner e = (i : ℕ)) →
      ∀ f : ℕ → QState n α, f 0 = QState.start prog → ¬ ∀ k, QStep (f k) (f (k + 1)) := by
  constructor
  · intro f h
    have key : ∀ k, (f k).work + k = (f 0).work := by
      intro k
      induction k with
      | zero => rfl
      | succ k ih => have := pstep_work (h k); omega
    have := key ((f 0).work + 1)
    omega
  · intro prog ho f h0 h
    have hinv : ∀ k, QInv owner prog (f k) := by
      intro k
      induction k with
      | zero => rw [h0]; exact QInv.start owner prog
      | succ k ih => exact ih.step ho (h k)
    have key : ∀ k, (f k).work + k ≤ (f 0).work := by
      intro k
      induction k with
      | zero => exact le_rfl
      | succ k ih => have := qstep_work (hinv k) (h k); omega
    have := key ((f 0).work + 1)
    omega

/-- the same steps without the mutex: what would happen if `add_edge` did not lock (a program that is not the code). -/
inductive UnlockedStep {n : ℕ} {α : Type*} : QState n α → QState n α → Prop
  | load (s : QState n α) (i : Fin n) (h1 : s.pc i = .idle) (h2 : s.todo i ≠ []) :
      UnlockedStep s { s with pc := Function.update s.pc i (.loaded s.out) }
  | store (s : QState n α) (i : Fin n) (snap : List α) (e : α) (rest : List α) (h1 : s.pc i = .loaded snap)
      (h2 : s.todo i = e :: rest) :
      UnlockedStep s { s with pc := Function.update s.pc i .idle, todo := Function.update s.todo i rest, out := snap ++ [e] }

/-- **C51.** The mutex is needed: without it two iterations that append one edge each can end with a single edge. -/
theorem C51_lock_needed (a b : ℕ) : ∃ t : QState 2 ℕ,
    ReflTransGen UnlockedStep (QState.start ![[a], [b]]) t ∧ t.Done ∧ t.out = [b] := by
  let s0 : QState 2 ℕ := QState.start ![[a], [b]]
  have h1 := UnlockedStep.load s0 0 rfl (by simp [s0, QState.start])
  have h2 := UnlockedStep.load _ 1 (show ({ s0 with pc := Function.update s0.pc 0 (.loaded s0.out) } : QState 2 ℕ).pc 1 = .idle from rfl)
    (show s0.todo 1 ≠ [] by simp [s0, QState.start])
  refine ⟨_, (((ReflTransGen.refl.tail h1).tail h2).tail (.store _ 0 [] a [] rfl rfl)).tail (.store _ 1 [] b [] rfl rfl), ?_, rfl⟩
  intro i
  match i with
  | 0 => exact ⟨rfl, rfl⟩
  | 1 => exact ⟨rfl, rfl⟩

/-! ## the edges, concretely -/

variable {D n m : ℕ}

/-- what `bake` of a set of edges starts from: vertices, edges, grid, numbering of the grid vertices. -/
structure EdgeInput (D n m : ℕ) where
  V : Fin m → Vertex D
  E : Fin n → Fin m × Fin m
  grid : Option (Coord D)
  gridIndex : Coord D → ℤ
  gridSize : ℤ

namespace EdgeInput
variable (I : EdgeInput D n m)

/-- first endpoint of edge `i` (facet_intersections.hpp:91-98). -/
def fst (i : Fin n) : Vertex D := I.V (I.E i).1
/-- second endpoint of edge `i`. -/
def snd (i : Fin n) : Vertex D := I.V (I.E i).2

/-- local variables and result of `EdgeIntersections::bake` (facet_intersections_impl.hpp:7-245). -/
structure Slot (D : ℕ) where
  bins : ℕ → Bin D
  mm : List (ℚ × Vertex D)
  isects : List (Isect D)

/-- elementary steps of `EdgeIntersections::bake` on edge `i` (facet_intersections_impl.hpp:7-245): one per loop iteration. -/
def eprog (i : Fin n) : List (Slot D → Slot D) :=
  [fun s => { s with bins := fun _ => [] }] ++
  ((List.finRange D).flatMap fun d =>
    if dirAt (I.fst i) (I.snd i) d = 0 then []
    else (List.range (endAt (I.fst i) (I.snd i) d - beginAt (I.fst i) (I.snd i) d + 1).toNat).map fun k (s : Slot D) =>
      { s with bins := bakeStep I.grid (I.fst i) (I.snd i) d s.bins k }) ++
  ((List.range (D - 1)).map fun l (s : Slot D) => { s with bins := condenseLevel s.bins l }) ++
  [fun s => { s with mm := average ((i : ℕ) : ℤ) s.bins },
   fun s => { s with isects := sortIsects ((selectPerMask (myThresh (I.grid.map fun s => fun i => s i + 1))
     (edgeMask (I.fst i) (I.snd i)) s.mm).map Prod.snd) }]

theorem runAlone_append {σ : Type*} (l l' : List (σ → σ)) (x : σ) : runAlone (l ++ l') x = runAlone l' (runAlone l x) := by
  simp [runAlone]

theorem runAlone_bins {β : Type*} (g : (ℕ → Bin D) → β → (ℕ → Bin D)) (l : List β) (s : Slot D) :
    runAlone (l.map fun k (s : Slot D) => { s with bins := g s.bins k }) s = { s with bins := l.foldl g s.bins } := by
  induction l generalizing s with
  | nil => rfl
  | cons k l ih => rw [List.map_cons]; exact (ih _).trans rfl

/-- alone, the steps compute what `bakeEdge` says. -/
theorem eprog_alone (i : Fin n) (s : Slot D) :
    (runAlone (I.eprog i) s).isects = bakeEdge ((i : ℕ) : ℤ) I.grid (I.fst i) (I.snd i) := by
  unfold eprog
  rw [runAlone_append, runAlone_append, runAlone_append, runAlone_bins]
  have hax : ∀ (l : List (Fin D)) (s : Slot D), runAlone (l.flatMap fun d =>
      if dirAt (I.fst i) (I.snd i) d = 0 then []
      else (List.range (endAt (I.fst i) (I.snd i) d - beginAt (I.fst i) (I.snd i) d + 1).toNat).map fun k (s : Slot D) =>
        { s with bins := bakeStep I.grid (I.fst i) (I.snd i) d s.bins k }) s =
      { s with bins := l.foldl (bakeAxis I.grid (I.fst i) (I.snd i)) s.bins } := by
    intro l
    induction l with
    | nil => intro s; rfl
    | cons d l ih =>
      intro s
      rw [List.flatMap_cons, runAlone_append, ih]
      have : runAlone (if dirAt (I.fst i) (I.snd i) d = 0 then []
        else (List.range (endAt (I.fst i) (I.snd i) d - beginAt (I.fst i) (I.snd i) d + 1).toNat).map fun k (s : Slot D) =>
          { s with bins := bakeStep I.grid (I.fst i) (I.snd i) d s.bins k }) s =
          { s with bins := bakeAxis I.grid (I.fst i) (I.snd i) s.bins d } := by
        unfold bakeAxis
        split_ifs
        · rfl
        · exact runAlone_bins (fun b k => bakeStep I.grid (I.fst i) (I.snd i) d b k) _ s
      rw [this]; rfl
  rw [hax]
  rfl

/-! ### addresses -/

/-- the vertex objects `bake` refers to by address: input vertex `k`, or intersection `j` of edge `i`. -/
inductive Ptr
  | vert (k : ℕ)
  | isect (i j : ℕ)
  deriving DecidableEq

variable (R : Fin n → List (Isect D))

/-- addresses in the order of the crossings: the vertices, then `flat_edge_intersections` (cutdata_impl.hpp:434-443, 457-478). -/
def ptrs : List Ptr :=
  ((List.finRange m).map fun (k : Fin m) => Ptr.vert (k : ℕ)) ++
  (List.finRange n).flatMap fun (i : Fin n) => (List.range (R i).length).map fun j => Ptr.isect (i : ℕ) j

/-- the vertices at those addresses. -/
def flat : List (Vertex D) :=
  ((List.finRange m).map I.V) ++ (List.finRange n).flatMap fun i => (R i).map Isect.v

/-- `m_crossings = compute_crossings()` (cutdata_impl.hpp:112; the argument `fuse` of `bake` is not passed on). -/
def crossings : List (CrossingI D) := (computeCrossings I.gridIndex I.gridSize (I.flat R)).out

/-- `m_vertex_indexer = gv_index_map(m_crossings)` (cutdata_impl.hpp:113, 549-556) applied to an address; `-1` stands for `at`
throwing. -/
def indexer (cs : List (CrossingI D)) (p : Ptr) : ℤ :=
  (((ptrs (m := m) R).zip (cs.map CrossingI.index)).lookup p).getD (-1)

/-- `gvertices` as addresses (facet_intersections.hpp:121-141). -/
def gptrs (i a b : ℕ) (isects : List (Isect D)) : List Ptr :=
  Ptr.vert a :: ((isects.zipIdx.foldl (fun im x =>
    if x.1.t > 0 ∧ x.1.t < 1 then OMap.assign ratLt x.1.t (Ptr.isect i x.2) im else im) []).map Prod.snd) ++ [Ptr.vert b]

/-- `std::sort` of a pair (facet_intersections.hpp:47). -/
def sortPair (e : ℤ × ℤ) : ℤ × ℤ := if e.1 ≤ e.2 then e else (e.2, e.1)

/-- `EdgeIntersections::edges(indexer)` (facet_intersections.hpp:39-52): index both ends, drop pairs of equal indices, sort, collect
in a set. -/
def indexedEdges {α : Type} (idx : α → ℤ) (path : List α) : List (ℤ × ℤ) :=
  ((((intervals path).map fun e => (idx e.1, idx e.2)).filter fun e => decide (e.1 ≠ e.2)).foldl
    (fun s e => OMap.insertNew edgeLt (sortPair e) () s) []).map Prod.fst

/-- `CutMeshEdge`: mask, indices, parent (cutdata_impl.hpp:126). -/
structure MeshEdge (D : ℕ) where
  mask : Mask D
  ends : ℤ × ℤ
  parent : ℤ

/-- what iteration `i` passes to `add_edge` (cutdata_impl.hpp:133-161). -/
def addedEdges (cs : List (CrossingI D)) (i : Fin n) : List (MeshEdge D) :=
  if R i = [] then
    [⟨edgeMask (I.fst i) (I.snd i),
      (indexer (m := m) R cs (.vert (I.E i).1), indexer (m := m) R cs (.vert (I.E i).2)), (i : ℕ)⟩]
  else
    (indexedEdges (indexer (m := m) R cs) (gptrs i (I.E i).1 (I.E i).2 (R i))).map fun e =>
      ⟨edgeMask (I.fst i) (I.snd i), e, (i : ℕ)⟩

/-- `CutData<2>::bake` (cutdata_impl.hpp:85-161 with `D == 2`: no triangles). -/
def tasks : Tasks n 0 (Slot D) Unit (List (CrossingI D)) (MeshEdge D) Unit where
  eprog := I.eprog
  einit := fun _ => ⟨fun _ => [], [], []⟩
  tprog := fun _ i => i.elim0
  tinit := fun i => i.elim0
  cross := fun s _ => I.crossings fun i => (s i).isects
  edges := fun s cs i => I.addedEdges (fun i => (s i).isects) cs i
  tail := fun _ _ _ => []
  faces := fun _ _ _ i => i.elim0

theorem tasks_tagged : I.tasks.Tagged MeshEdge.parent (fun _ => 0) := by
  refine ⟨fun s c i e he => ?_, fun _ _ _ i => i.elim0⟩
  replace he : e ∈ I.addedEdges (fun i => (s i).isects) c i := he
  unfold addedEdges at he
  split_ifs at he
  · rw [List.mem_singleton.1 he]
  · obtain ⟨x, _, rfl⟩ := List.mem_map.1 he
    rfl

/-- the intersections of all edges. -/
def baked (i : Fin n) : List (Isect D) := bakeEdge ((i : ℕ) : ℤ) I.grid (I.fst i) (I.snd i)

/-- **C51 (two dimensions).** Whatever the schedule, `bake` ends with the crossings that unifying the vertices and the intersections
of each edge (in the order of the edges) gives, and with the cut edges of each input edge, in some order. -/
theorem C51_bake2 (cs : List (CrossingI D)) (es : List (MeshEdge D)) (fs : List Unit) (h : I.tasks.Baked cs es fs) :
    cs = I.crossings I.baked ∧ es.Perm ((List.finRange n).flatMap (I.addedEdges I.baked cs)) ∧
    ∀ i : Fin n, (es.filter fun e => decide (e.parent = ((i : ℕ) : ℤ))) = I.addedEdges I.baked cs i := by
  obtain ⟨s, t, o, h1, _, h3, h4, h5, _⟩ := h
  have hs := parallelFor_det h1
  have hR : (fun i => (s i).isects) = I.baked := by
    funext i
    rw [hs]
    exact I.eprog_alone i _
  have hedges : I.tasks.edges s cs = I.addedEdges I.baked cs := by
    rw [← hR]; rfl
  have ho : es = o := by rw [h5]; exact List.append_nil o
  subst ho
  rw [hedges] at h4
  have htag := I.tasks_tagged.1 s cs
  rw [hedges] at htag
  refine ⟨?_, parallelAppend_perm htag h4, fun i => parallelAppend_filter htag h4 i⟩
  rw [h3, ← hR]; rfl

end EdgeInput
end Mandoline.Sched
