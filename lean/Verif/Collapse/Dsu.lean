import Verif.Core.OMap
import Verif.Core.Lex
import Mathlib.Logic.Relation
import Mathlib.Data.List.Nodup
import Mathlib.Data.List.Basic
import Mathlib.Data.List.Range
import Mathlib.Tactic.Common

/-!
# Disjoint sets

`mtao::data_structures::DisjointSet` is a library class that is not part of the repository. Its state is modelled by
the history of calls (nodes added, pairs joined); what the code reads off it (`get_root`, `root_indices`) is any
choice of roots with the contract of a disjoint-set structure (`DsuRoots`), so the theorems hold for every union
policy and every visiting order. `Dsu.quickFind` shows that such a choice exists for every history.
-/
namespace Mandoline

/-- history of a `DisjointSet<T>`: nodes in the order of their first `add_node`, and the joins made. -/
structure Dsu (α : Type*) where
  nodes : List α
  joins : List (α × α)

namespace Dsu
variable {α : Type*}

/-- an empty structure. -/
def empty : Dsu α := ⟨[], []⟩

/-- `add_node`: no effect if the node exists. -/
def addNode [DecidableEq α] (d : Dsu α) (a : α) : Dsu α :=
  if a ∈ d.nodes then d else ⟨d.nodes ++ [a], d.joins⟩

/-- `join`. -/
def join (d : Dsu α) (a b : α) : Dsu α := ⟨d.nodes, d.joins ++ [(a, b)]⟩

/-- linked by a chain of joins. -/
def Conn (d : Dsu α) : α → α → Prop := Relation.EqvGen fun a b => (a, b) ∈ d.joins

theorem conn_refl (d : Dsu α) (a : α) : d.Conn a a := .refl a
theorem conn_symm {d : Dsu α} {a b : α} (h : d.Conn a b) : d.Conn b a := .symm _ _ h
theorem conn_trans {d : Dsu α} {a b c : α} (h : d.Conn a b) (h' : d.Conn b c) : d.Conn a c := .trans _ _ _ h h'

/-- quick-find: relabel the class of `b` by the label of `a` at each join. -/
def quickFind [DecidableEq α] (d : Dsu α) : α → α :=
  d.joins.foldl (fun rep p x => if rep x = rep p.2 then rep p.1 else rep x) id

theorem quickFind_spec [DecidableEq α] (d : Dsu α) :
    (∀ x, d.Conn x (d.quickFind x)) ∧ ∀ x y, d.Conn x y → d.quickFind x = d.quickFind y := by
  obtain ⟨nodes, joins⟩ := d
  unfold quickFind Conn
  simp only
  induction joins using List.reverseRecOn with
  | nil =>
    refine ⟨fun x => .refl x, fun x y h => ?_⟩
    simp only [List.foldl_nil, id]
    induction h with
    | rel a b h => cases h
    | refl a => rfl
    | symm a b _ ih => exact ih.symm
    | trans a b c _ _ i1 i2 => exact i1.trans i2
  | append_singleton l p ih =>
    obtain ⟨a, b⟩ := p
    rw [List.foldl_append, List.foldl_cons, List.foldl_nil]
    generalize hr : l.foldl (fun rep p x => if rep x = rep p.2 then rep p.1 else rep x) id = rep at ih ⊢
    obtain ⟨h1, h2⟩ := ih
    have mono : ∀ x y, Relation.EqvGen (fun u v => (u, v) ∈ l) x y →
        Relation.EqvGen (fun u v => (u, v) ∈ l ++ [(a, b)]) x y := by
      intro x y h
      induction h with
      | rel u v h => exact .rel _ _ (List.mem_append_left _ h)
      | refl u => exact .refl u
      | symm u v _ ih => exact .symm _ _ ih
      | trans u v w _ _ i1 i2 => exact .trans _ _ _ i1 i2
    have hab : Relation.EqvGen (fun u v => (u, v) ∈ l ++ [(a, b)]) a b := .rel _ _ (by simp)
    constructor
    · intro x
      split
      · rename_i h
        have hx := mono _ _ (h1 x)
        rw [h] at hx
        exact .trans _ _ _ hx (.trans _ _ _ (.symm _ _ (mono _ _ (h1 b)))
          (.trans _ _ _ (.symm _ _ hab) (mono _ _ (h1 a))))
      · exact mono _ _ (h1 x)
    · intro x y h
      induction h with
      | rel u v huv =>
        rcases List.mem_append.1 huv with h | h
        · have := h2 u v (.rel _ _ h)
          rw [this]
        · rw [List.mem_singleton] at h
          cases h
          by_cases h : rep a = rep b
          · simp [h]
          · simp [h]
      | refl a => rfl
      | symm a b _ ih => exact ih.symm
      | trans a b c _ _ i1 i2 => exact i1.trans i2

end Dsu

/-- what the code reads off a disjoint-set structure after `reduce_all`: `get_root(x).data` and `root_indices()`. -/
structure DsuRoots {α : Type*} (d : Dsu α) where
  root : α → α
  rootIdx : List ℕ
  root_conn : ∀ x, d.Conn x (root x)
  root_congr : ∀ x y, d.Conn x y → root x = root y
  root_mem : ∀ x ∈ d.nodes, root x ∈ d.nodes
  idx_nodup : rootIdx.Nodup
  mem_idx : ∀ i, i ∈ rootIdx ↔ ∃ x, d.nodes[i]? = some x ∧ root x = x

/-- joins only mention existing nodes, and nodes are listed once: true of every history of calls that adds nodes
before joining them. -/
structure Dsu.Ok {α : Type*} (d : Dsu α) : Prop where
  nodup : d.nodes.Nodup
  joins_mem : ∀ p ∈ d.joins, p.1 ∈ d.nodes ∧ p.2 ∈ d.nodes

theorem Dsu.conn_mem {α : Type*} {d : Dsu α} (h : d.Ok) {x y : α} (hc : d.Conn x y) : x ∈ d.nodes ↔ y ∈ d.nodes := by
  induction hc with
  | rel a b hab => have := h.joins_mem _ hab; exact ⟨fun _ => this.2, fun _ => this.1⟩
  | refl a => rfl
  | symm a b _ ih => exact ih.symm
  | trans a b c _ _ i1 i2 => exact i1.trans i2

theorem Dsu.ok_empty {α : Type*} : (Dsu.empty : Dsu α).Ok := ⟨List.nodup_nil, nofun⟩

theorem Dsu.mem_addNode {α : Type*} [DecidableEq α] (d : Dsu α) (a x : α) :
    x ∈ (d.addNode a).nodes ↔ x = a ∨ x ∈ d.nodes := by
  unfold Dsu.addNode
  split
  · rename_i h
    constructor
    · exact .inr
    · rintro (rfl | h'); exacts [h, h']
  · simp only [List.mem_append, List.mem_singleton]; tauto

theorem Dsu.joins_addNode {α : Type*} [DecidableEq α] (d : Dsu α) (a : α) : (d.addNode a).joins = d.joins := by
  unfold Dsu.addNode; split <;> rfl

theorem Dsu.Ok.addNode {α : Type*} [DecidableEq α] {d : Dsu α} (h : d.Ok) (a : α) : (d.addNode a).Ok := by
  refine ⟨?_, ?_⟩
  · unfold Dsu.addNode
    split
    · exact h.nodup
    · rename_i hn
      exact List.nodup_append.2 ⟨h.nodup, List.nodup_singleton _, by
        intro x hx y hy; rw [List.mem_singleton] at hy; subst hy; exact fun e => hn (e ▸ hx)⟩
  · intro p hp
    rw [Dsu.joins_addNode] at hp
    rw [Dsu.mem_addNode, Dsu.mem_addNode]
    exact ⟨.inr (h.joins_mem p hp).1, .inr (h.joins_mem p hp).2⟩

theorem Dsu.Ok.join {α : Type*} {d : Dsu α} (h : d.Ok) {a b : α} (ha : a ∈ d.nodes) (hb : b ∈ d.nodes) :
    (d.join a b).Ok := by
  refine ⟨h.nodup, ?_⟩
  intro p hp
  rcases List.mem_append.1 hp with h' | h'
  · exact h.joins_mem p h'
  · rw [List.mem_singleton] at h'; subst h'; exact ⟨ha, hb⟩

theorem DsuRoots.root_eq_iff {α : Type*} {d : Dsu α} (R : DsuRoots d) (x y : α) :
    R.root x = R.root y ↔ d.Conn x y := by
  constructor
  · intro h
    exact Dsu.conn_trans (R.root_conn x) (h ▸ Dsu.conn_symm (R.root_conn y))
  · exact R.root_congr x y

theorem DsuRoots.root_root {α : Type*} {d : Dsu α} (R : DsuRoots d) (x : α) : R.root (R.root x) = R.root x :=
  (R.root_congr _ _ (R.root_conn x)).symm

/-- every history of calls has a root choice. -/
def Dsu.Ok.roots {α : Type*} [DecidableEq α] {d : Dsu α} (h : d.Ok) : DsuRoots d where
  root := d.quickFind
  rootIdx := (List.range d.nodes.length).filter fun i => (d.nodes[i]?).any fun x => decide (d.quickFind x = x)
  root_conn := d.quickFind_spec.1
  root_congr := d.quickFind_spec.2
  root_mem := fun x hx => (Dsu.conn_mem h (d.quickFind_spec.1 x)).1 hx
  idx_nodup := List.nodup_range.filter _
  mem_idx := by
    intro i
    rw [List.mem_filter, List.mem_range]
    constructor
    · rintro ⟨hi, hx⟩
      cases hn : d.nodes[i]? with
      | none => rw [hn] at hx; cases hx
      | some x => rw [hn] at hx; exact ⟨x, rfl, by simpa using hx⟩
    · rintro ⟨x, hx1, hx2⟩
      refine ⟨(List.getElem?_eq_some_iff.1 hx1).1, ?_⟩
      rw [hx1]
      simpa using hx2

/-- the data of the roots, in the visiting order of `root_indices()`. -/
def DsuRoots.rootData {α : Type*} {d : Dsu α} (R : DsuRoots d) : List α := R.rootIdx.filterMap (d.nodes[·]?)

theorem DsuRoots.mem_rootData {α : Type*} {d : Dsu α} (R : DsuRoots d) (r : α) :
    r ∈ R.rootData ↔ r ∈ d.nodes ∧ R.root r = r := by
  unfold DsuRoots.rootData
  rw [List.mem_filterMap]
  constructor
  · rintro ⟨i, hi, hr⟩
    obtain ⟨x, hx, hxx⟩ := (R.mem_idx i).1 hi
    rw [hx] at hr
    cases hr
    exact ⟨List.mem_of_getElem? hx, hxx⟩
  · rintro ⟨hm, hr⟩
    obtain ⟨i, hi⟩ := List.mem_iff_getElem?.1 hm
    exact ⟨i, (R.mem_idx i).2 ⟨r, hi, hr⟩, hi⟩

theorem DsuRoots.rootData_nodup {α : Type*} {d : Dsu α} (R : DsuRoots d) (h : d.Ok) : R.rootData.Nodup := by
  unfold DsuRoots.rootData
  refine R.idx_nodup.filterMap ?_
  intro i j x hi hj
  have h1 := List.getElem?_eq_some_iff.1 hi
  have h2 := List.getElem?_eq_some_iff.1 hj
  obtain ⟨l1, e1⟩ := h1
  obtain ⟨l2, e2⟩ := h2
  exact (List.Nodup.getElem_inj_iff h.nodup).1 (e1.trans e2.symm)

/-! ## reindexing roots by visiting order -/

/-- `reindexer[r] = reindexer.size()` in a loop (right operand evaluated first, C++17). -/
def countUp {K : Type*} (lt : K → K → Bool) (m : List (K × ℤ)) (l : List K) : List (K × ℤ) :=
  l.foldl (fun m r => OMap.assign lt r (m.length : ℤ) m) m

theorem OMap.length_alter {K V : Type*} {lt : K → K → Bool} {k : K} {f : Option V → V}
    {l : List (K × V)} (hs : OMap.Sorted lt l) :
    (OMap.alter lt k f l).length = if (OMap.find lt k l).isSome then l.length else l.length + 1 := by
  induction l with
  | nil => simp [OMap.alter, OMap.find]
  | cons p l ih =>
    obtain ⟨k', v⟩ := p
    have hs' : OMap.Sorted lt l := List.Pairwise.of_cons hs
    simp only [OMap.alter, OMap.find]
    split
    · simp
    · split
      · simp only [List.length_cons, ih hs']
        split <;> rfl
      · simp

theorem countUp_spec {K : Type*} [DecidableEq K] {lt : K → K → Bool} (h : StrictTotal lt) (l : List K) :
    ∀ m : List (K × ℤ), OMap.Sorted lt m → l.Nodup → (∀ r ∈ l, OMap.find lt r m = none) →
      OMap.Sorted lt (countUp lt m l) ∧ (countUp lt m l).length = m.length + l.length ∧
      ∀ r, OMap.find lt r (countUp lt m l) =
        if r ∈ l then some ((m.length + l.idxOf r : ℕ) : ℤ) else OMap.find lt r m := by
  induction l with
  | nil => intro m hm _ _; exact ⟨hm, by simp [countUp], by simp [countUp]⟩
  | cons a l ih =>
    intro m hm hnd hnone
    rw [List.nodup_cons] at hnd
    have hm' : OMap.Sorted lt (OMap.assign lt a (m.length : ℤ) m) := OMap.sorted_alter h hm
    have hfind : ∀ r, OMap.find lt r (OMap.assign lt a (m.length : ℤ) m) =
        if r = a then some (m.length : ℤ) else OMap.find lt r m := by
      intro r; exact OMap.find_alter h hm
    have hlen : (OMap.assign lt a (m.length : ℤ) m).length = m.length + 1 := by
      unfold OMap.assign
      rw [OMap.length_alter hm, hnone a List.mem_cons_self]; rfl
    obtain ⟨i1, i2, i3⟩ := ih _ hm' hnd.2 (by
      intro r hr
      rw [hfind, if_neg (by rintro rfl; exact hnd.1 hr)]
      exact hnone r (List.mem_cons_of_mem _ hr))
    have hunf : countUp lt m (a :: l) = countUp lt (OMap.assign lt a (m.length : ℤ) m) l := rfl
    rw [hunf]
    refine ⟨i1, by rw [i2, hlen, List.length_cons]; omega, ?_⟩
    intro r
    rw [i3 r, hlen, hfind]
    by_cases hra : r = a
    · subst hra
      rw [if_neg hnd.1, if_pos rfl, if_pos List.mem_cons_self, List.idxOf_cons_self]
      simp
    · rw [if_neg hra]
      by_cases hrl : r ∈ l
      · rw [if_pos hrl, if_pos (List.mem_cons_of_mem _ hrl), List.idxOf_cons_ne _ (fun e => hra e.symm)]
        congr 2; omega
      · rw [if_neg hrl, if_neg (by simp [hra, hrl])]

/-- a directed edge, `std::array<int,2>`. -/
abbrev DEdge := ℤ × ℤ

/-- `operator<` of `std::array<int,2>`. -/
def edgeLt (a b : DEdge) : Bool := decide (a.1 < b.1 ∨ (a.1 = b.1 ∧ a.2 < b.2))

theorem strictTotal_edgeLt : StrictTotal edgeLt where
  irrefl a := by simp [edgeLt]
  trans a b c := by simp only [edgeLt, decide_eq_true_eq]; omega
  tri a b := by
    simp only [edgeLt, decide_eq_true_eq, Prod.ext_iff]; omega

end Mandoline
