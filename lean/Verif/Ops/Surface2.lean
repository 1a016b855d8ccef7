import Verif.Ops.Laplacian
import Verif.Core.Lex

/-!
# C91: operators on the cut curve (2D): adjacency

`surface_adjacency` (src/operators/diffgeo2.cpp:22-104).
-/
namespace Mandoline
namespace Surface2

/-- what the surface operators read of a cut edge: its two vertices, and whether it is a piece of the input curve. -/
structure SEdge where
  a : ℤ
  b : ℤ
  isMesh : Bool
deriving DecidableEq

/-- `std::map<int, std::array<int, 2>>`. -/
abbrev Adj := List (ℤ × (ℤ × ℤ))

/-- one of the two blocks of the first loop (diffgeo2.cpp:26-37): the first edge found at a vertex goes to slot 0 (slot 1
becomes -1), every later one overwrites slot 1. -/
def addAt (v : ℤ) (i : ℤ) (adj : Adj) : Adj :=
  OMap.alter intLt v (fun o => match o with
    | none => (i, -1)
    | some pr => (pr.1, i)) adj

/-- the first loop (diffgeo2.cpp:23-39). -/
def build (edges : List SEdge) : Adj :=
  edges.zipIdx.foldl (fun adj ei => if ei.1.isMesh then addAt ei.1.b ei.2 (addAt ei.1.a ei.2 adj) else adj) []

/-- the state of the orientation loops: `adj`, `open_edges`, `unseen_edges` (sets of vertices, in increasing order). -/
structure St where
  adj : Adj
  opn : List ℤ
  unseen : List ℤ

/-- `remove` (diffgeo2.cpp:50-58). -/
def St.remove (s : St) (v : ℤ) : St := { s with opn := s.opn.filter (· ≠ v), unseen := s.unseen.filter (· ≠ v) }

/-- the pair of `vertex` with `edge` swapped to the front, as far as one swap can do it (diffgeo2.cpp:74-77). -/
def orient (edge : ℤ) (pr : ℤ × ℤ) : ℤ × ℤ := if pr.1 ≠ edge then pr.swap else pr

/-- the loop of `run` (diffgeo2.cpp:63-85). The end points are those of `start_edge` in every round, as in the code.
`none`: the fuel is used up, or the edge number is out of range. -/
def runLoop (edges : List SEdge) (start startEdge : ℤ) : ℕ → ℤ → ℤ → St → Option St
  | 0, _, _, _ => none
  | n + 1, vertex, edge, s =>
    match (if 0 ≤ startEdge then edges[startEdge.toNat]? else none) with
    | none => none
    | some e =>
      let v := if e.a = vertex then e.b else e.a
      let s := s.remove v
      let pr := orient edge ((OMap.find intLt v s.adj).getD (0, 0))
      let s := { s with adj := OMap.alter intLt v (fun o => orient edge (o.getD (0, 0))) s.adj }
      if pr.2 < 0 then some s
      else if v ≠ start then runLoop edges start startEdge n v pr.2 s
      else some s

/-- `while(!open_edges.empty())` (diffgeo2.cpp:86-99). -/
def openLoop (edges : List SEdge) (fuel : ℕ) : ℕ → St → Option St
  | 0, _ => none
  | n + 1, s =>
    match s.opn with
    | [] => some s
    | v :: _ =>
      let s := s.remove v
      let e := (OMap.find intLt v s.adj).getD (0, 0)
      let startEdge := if e.1 = -1 then e.2 else e.1
      (runLoop edges v startEdge fuel v startEdge s).bind (openLoop edges fuel n)

/-- `while(!unseen_edges.empty())` (diffgeo2.cpp:100-109). -/
def unseenLoop (edges : List SEdge) (fuel : ℕ) : ℕ → St → Option St
  | 0, _ => none
  | n + 1, s =>
    match s.unseen with
    | [] => some s
    | v :: _ =>
      let s := s.remove v
      let e := (OMap.find intLt v s.adj).getD (0, 0)
      (runLoop edges v e.1 fuel v e.1 s).bind (unseenLoop edges fuel n)

/-- the state before the orientation loops (diffgeo2.cpp:41-49). -/
def initSt (edges : List SEdge) : St :=
  let adj := build edges
  ⟨adj, (adj.filter fun p => decide (p.2.1 < 0 ∨ p.2.2 < 0)).map Prod.fst, adj.map Prod.fst⟩

/-- `surface_adjacency` (diffgeo2.cpp:22-111), with at most `fuel` rounds of each loop. -/
def surfaceAdjacency (fuel : ℕ) (edges : List SEdge) : Option Adj :=
  ((openLoop edges fuel fuel (initSt edges)).bind (unseenLoop edges fuel fuel)).map St.adj

/-! ## specification -/

/-- the pieces of the curve ending at vertex `v`, in increasing order; one with both ends at `v` counts twice. -/
def incident (edges : List SEdge) (v : ℤ) : List ℤ :=
  edges.zipIdx.flatMap fun ei =>
    if ei.1.isMesh then (if ei.1.a = v then [(ei.2 : ℤ)] else []) ++ (if ei.1.b = v then [(ei.2 : ℤ)] else []) else []

/-- the pair the code should hold for a vertex with incident pieces `l`, up to order: the first and the last piece, or
the only piece and -1. -/
def Holds (l : List ℤ) (pr : ℤ × ℤ) : Prop :=
  (∃ i, l = [i] ∧ (pr = (i, -1) ∨ pr = (-1, i))) ∨
  (∃ i m j, l = i :: (m ++ [j]) ∧ (pr = (i, j) ∨ pr = (j, i)))

/-! ## the first loop -/

/-- what `build` stores for incident pieces `l`. -/
def Stored (l : List ℤ) : Option (ℤ × ℤ) :=
  match l with
  | [] => none
  | i :: t => some (i, t.getLast?.getD (-1))

theorem stored_snoc (l : List ℤ) (i : ℤ) :
    Stored (l ++ [i]) = some (match Stored l with
      | none => (i, -1)
      | some pr => (pr.1, i)) := by
  cases l with
  | nil => rfl
  | cons j t => simp [Stored]

theorem addAt_sorted (v i : ℤ) (adj : Adj) (h : OMap.Sorted intLt adj) : OMap.Sorted intLt (addAt v i adj) :=
  OMap.sorted_alter strictTotal_intLt h

theorem addAt_find (v i : ℤ) (adj : Adj) (h : OMap.Sorted intLt adj) (l : ℤ → List ℤ)
    (hl : ∀ u, OMap.find intLt u adj = Stored (l u)) (u : ℤ) :
    OMap.find intLt u (addAt v i adj) = Stored (l u ++ if v = u then [i] else []) := by
  unfold addAt
  rw [OMap.find_alter strictTotal_intLt h]
  by_cases e : u = v
  · subst e
    rw [if_pos rfl, if_pos rfl, stored_snoc, hl]
  · rw [if_neg e, if_neg (Ne.symm e), List.append_nil, hl]

theorem build_fold (edges : List SEdge) (k : ℕ) (adj : Adj) (h : OMap.Sorted intLt adj) (l : ℤ → List ℤ)
    (hl : ∀ u, OMap.find intLt u adj = Stored (l u)) :
    let r := (edges.zipIdx k).foldl (fun adj ei => if ei.1.isMesh then addAt ei.1.b ei.2 (addAt ei.1.a ei.2 adj) else adj) adj
    OMap.Sorted intLt r ∧ ∀ u, OMap.find intLt u r = Stored (l u ++ (edges.zipIdx k).flatMap fun ei =>
      if ei.1.isMesh then (if ei.1.a = u then [(ei.2 : ℤ)] else []) ++ (if ei.1.b = u then [(ei.2 : ℤ)] else []) else []) := by
  induction edges generalizing k adj l with
  | nil => exact ⟨h, fun u => by simp [hl u]⟩
  | cons e edges ih =>
    intro r
    cases hm : e.isMesh with
    | false =>
      have hr : r = (edges.zipIdx (k + 1)).foldl (fun adj ei => if ei.1.isMesh then addAt ei.1.b ei.2 (addAt ei.1.a ei.2 adj) else adj) adj := by
        simp only [r, List.zipIdx_cons, List.foldl_cons, hm, Bool.false_eq_true, if_false]
      rw [hr]
      obtain ⟨h1, h2⟩ := ih (k + 1) adj h l hl
      refine ⟨h1, fun u => ?_⟩
      rw [h2, List.zipIdx_cons, List.flatMap_cons]
      simp [hm]
    | true =>
      have hr : r = (edges.zipIdx (k + 1)).foldl (fun adj ei => if ei.1.isMesh then addAt ei.1.b ei.2 (addAt ei.1.a ei.2 adj) else adj)
          (addAt e.b k (addAt e.a k adj)) := by
        simp only [r, List.zipIdx_cons, List.foldl_cons, hm, if_true]
      rw [hr]
      obtain ⟨h1, h2⟩ := ih (k + 1) _ (addAt_sorted _ _ _ (addAt_sorted _ _ _ h)) _
        (fun u => addAt_find e.b k _ (addAt_sorted _ _ _ h) _ (fun u => addAt_find e.a k adj h l hl u) u)
      refine ⟨h1, fun u => ?_⟩
      rw [h2, List.zipIdx_cons, List.flatMap_cons]
      simp only [hm, if_true, List.append_assoc]

theorem build_spec (edges : List SEdge) :
    OMap.Sorted intLt (build edges) ∧ ∀ u, OMap.find intLt u (build edges) = Stored (incident edges u) := by
  obtain ⟨h1, h2⟩ := build_fold edges 0 [] OMap.sorted_nil (fun _ => []) (fun u => rfl)
  refine ⟨h1, fun u => ?_⟩
  have := h2 u
  rw [List.nil_append] at this
  exact this

theorem stored_holds {l : List ℤ} {pr : ℤ × ℤ} (h : Stored l = some pr) : Holds l pr := by
  cases l with
  | nil => simp [Stored] at h
  | cons i t =>
    simp only [Stored, Option.some.injEq] at h
    rcases List.eq_nil_or_concat t with rfl | ⟨m, j, rfl⟩
    · exact Or.inl ⟨i, rfl, Or.inl h.symm⟩
    · refine Or.inr ⟨i, m, j, by simp, Or.inl ?_⟩
      rw [← h]; simp

/-! ## incident pieces are pieces of the curve -/

theorem mem_incident {edges : List SEdge} {v i : ℤ} :
    i ∈ incident edges v ↔ ∃ (k : ℕ) (e : SEdge), i = k ∧ edges[k]? = some e ∧ e.isMesh = true ∧ (e.a = v ∨ e.b = v) := by
  unfold incident
  rw [List.mem_flatMap]
  constructor
  · rintro ⟨⟨e, k⟩, hek, hi⟩
    rw [List.mem_zipIdx_iff_getElem?] at hek
    simp only at hi hek
    cases hm : e.isMesh with
    | false => simp [hm] at hi
    | true =>
      rw [if_pos hm, List.mem_append] at hi
      refine ⟨k, e, ?_, hek, hm, ?_⟩
      · rcases hi with hi | hi <;> split_ifs at hi <;> simpa using hi
      · rcases hi with hi | hi
        · split_ifs at hi with h
          · exact Or.inl h
          · simp at hi
        · split_ifs at hi with h
          · exact Or.inr h
          · simp at hi
  · rintro ⟨k, e, rfl, hk, hm, h⟩
    refine ⟨(e, k), List.mem_zipIdx_iff_getElem?.2 hk, ?_⟩
    simp only [hm, if_true, List.mem_append]
    rcases h with h | h
    · left; simp [h]
    · right; simp [h]

theorem incident_nonneg {edges : List SEdge} {v i : ℤ} (h : i ∈ incident edges v) : 0 ≤ i := by
  obtain ⟨k, _, rfl, _⟩ := mem_incident.1 h
  omega

theorem Holds.swap {l : List ℤ} {pr : ℤ × ℤ} (h : Holds l pr) : Holds l pr.swap := by
  rcases h with ⟨i, e, h | h⟩ | ⟨i, m, j, e, h | h⟩
  · exact Or.inl ⟨i, e, Or.inr (by rw [h]; rfl)⟩
  · exact Or.inl ⟨i, e, Or.inl (by rw [h]; rfl)⟩
  · exact Or.inr ⟨i, m, j, e, Or.inr (by rw [h]; rfl)⟩
  · exact Or.inr ⟨i, m, j, e, Or.inl (by rw [h]; rfl)⟩

theorem Holds.orient {l : List ℤ} {pr : ℤ × ℤ} (h : Holds l pr) (e : ℤ) : Holds l (orient e pr) := by
  unfold Surface2.orient
  split_ifs
  · exact h.swap
  · exact h

theorem Holds.mem {l : List ℤ} {pr : ℤ × ℤ} (h : Holds l pr) : (pr.1 ∈ l ∨ pr.1 = -1) ∧ (pr.2 ∈ l ∨ pr.2 = -1) ∧ (pr.1 ∈ l ∨ pr.2 ∈ l) := by
  rcases h with ⟨i, rfl, rfl | rfl⟩ | ⟨i, m, j, rfl, rfl | rfl⟩ <;> simp

/-! ## the orientation loops -/

/-- the state invariant. -/
structure Inv (edges : List SEdge) (s : St) : Prop where
  sorted : OMap.Sorted intLt s.adj
  keys : ∀ v, (OMap.find intLt v s.adj).isSome = true ↔ incident edges v ≠ []
  holds : ∀ v pr, OMap.find intLt v s.adj = some pr → Holds (incident edges v) pr
  unseen : ∀ v ∈ s.unseen, incident edges v ≠ []
  opn : ∀ v ∈ s.opn, incident edges v ≠ []
  closed : ∀ v ∈ s.unseen, v ∉ s.opn → ∀ pr, OMap.find intLt v s.adj = some pr → 0 ≤ pr.1 ∧ 0 ≤ pr.2

theorem Inv.remove {edges : List SEdge} {s : St} (h : Inv edges s) (v : ℤ) : Inv edges (s.remove v) := by
  refine ⟨h.sorted, h.keys, h.holds, ?_, ?_, ?_⟩
  · intro u hu
    simp only [St.remove, List.mem_filter] at hu
    exact h.unseen u hu.1
  · intro u hu
    simp only [St.remove, List.mem_filter] at hu
    exact h.opn u hu.1
  · intro u hu hn
    simp only [St.remove, List.mem_filter, decide_eq_true_eq] at hu hn
    exact h.closed u hu.1 fun hx => hn ⟨hx, hu.2⟩

theorem orient_nonneg {e : ℤ} {pr : ℤ × ℤ} (h : 0 ≤ pr.1 ∧ 0 ≤ pr.2) : 0 ≤ (orient e pr).1 ∧ 0 ≤ (orient e pr).2 := by
  unfold orient
  split_ifs
  · exact ⟨h.2, h.1⟩
  · exact h

theorem Inv.turn {edges : List SEdge} {s : St} (h : Inv edges s) (v e : ℤ) (hv : incident edges v ≠ []) :
    Inv edges { s with adj := OMap.alter intLt v (fun o => Surface2.orient e (o.getD (0, 0))) s.adj } := by
  obtain ⟨pr0, hpr0⟩ := Option.isSome_iff_exists.1 ((h.keys v).2 hv)
  have hf : ∀ u, OMap.find intLt u (OMap.alter intLt v (fun o => Surface2.orient e (o.getD (0, 0))) s.adj) =
      if u = v then some (Surface2.orient e pr0) else OMap.find intLt u s.adj := by
    intro u
    rw [OMap.find_alter strictTotal_intLt h.sorted, hpr0]
    rfl
  refine ⟨OMap.sorted_alter strictTotal_intLt h.sorted, ?_, ?_, h.unseen, h.opn, ?_⟩
  · intro u
    simp only [hf]
    split_ifs with e'
    · subst e'; simp [hv]
    · exact h.keys u
  · intro u pr hu
    simp only [hf] at hu
    split_ifs at hu with e'
    · subst e'
      simp only [Option.some.injEq] at hu
      subst hu
      exact (h.holds u pr0 hpr0).orient e
    · exact h.holds u pr hu
  · intro u hu hn pr hp
    simp only [hf] at hp
    split_ifs at hp with e'
    · subst e'
      simp only [Option.some.injEq] at hp
      subst hp
      exact orient_nonneg (h.closed u hu hn pr0 hpr0)
    · exact h.closed u hu hn pr hp

/-- a state with no more open and unseen vertices than another one. -/
def Less (s t : St) : Prop := (∀ v ∈ s.opn, v ∈ t.opn) ∧ (∀ v ∈ s.unseen, v ∈ t.unseen) ∧
  s.opn.length ≤ t.opn.length ∧ s.unseen.length ≤ t.unseen.length

theorem Less.refl (s : St) : Less s s := ⟨fun _ h => h, fun _ h => h, le_rfl, le_rfl⟩

theorem Less.trans {s t u : St} (h : Less s t) (h' : Less t u) : Less s u :=
  ⟨fun v hv => h'.1 v (h.1 v hv), fun v hv => h'.2.1 v (h.2.1 v hv), h.2.2.1.trans h'.2.2.1, h.2.2.2.trans h'.2.2.2⟩

theorem Less.remove (s : St) (v : ℤ) : Less (s.remove v) s := by
  refine ⟨?_, ?_, List.length_filter_le _ _, List.length_filter_le _ _⟩
  · intro u hu
    simp only [St.remove, List.mem_filter] at hu; exact hu.1
  · intro u hu
    simp only [St.remove, List.mem_filter] at hu; exact hu.1

/-- one round of `run`. -/
theorem round {edges : List SEdge} {s : St} (h : Inv edges s) (v e : ℤ) (hv : incident edges v ≠ []) :
    Inv edges { (s.remove v) with adj := OMap.alter intLt v (fun o => orient e (o.getD (0, 0))) (s.remove v).adj } ∧
    Less { (s.remove v) with adj := OMap.alter intLt v (fun o => orient e (o.getD (0, 0))) (s.remove v).adj } s :=
  ⟨(h.remove v).turn v e hv, Less.remove s v⟩

/-- `run` ends after at most two rounds and keeps the invariant. -/
theorem run_spec {edges : List SEdge} {s : St} (h : Inv edges s) (v i : ℤ) (hi : i ∈ incident edges v) (fuel : ℕ) (hf : 2 ≤ fuel) :
    ∃ s', runLoop edges v i fuel v i s = some s' ∧ Inv edges s' ∧ Less s' s := by
  obtain ⟨k, e, rfl, hk, hm, hv⟩ := mem_incident.1 hi
  have hget : (if 0 ≤ (k : ℤ) then edges[(k : ℤ).toNat]? else none) = some e := by
    rw [if_pos (by omega)]; simpa using hk
  have ha : incident edges e.a ≠ [] := List.ne_nil_of_mem (mem_incident.2 ⟨k, e, rfl, hk, hm, Or.inl rfl⟩)
  have hb : incident edges e.b ≠ [] := List.ne_nil_of_mem (mem_incident.2 ⟨k, e, rfl, hk, hm, Or.inr rfl⟩)
  obtain ⟨n, rfl⟩ : ∃ n, fuel = n + 2 := ⟨fuel - 2, by omega⟩
  set v1 := if e.a = v then e.b else e.a with hv1
  have hinc1 : incident edges v1 ≠ [] := by rw [hv1]; split_ifs <;> assumption
  obtain ⟨hI1, hL1⟩ := round h v1 (k : ℤ) hinc1
  rw [runLoop, hget]
  simp only [← hv1]
  set pr1 := orient (k : ℤ) ((OMap.find intLt v1 (s.remove v1).adj).getD (0, 0)) with hpr1
  set s1 : St := { (s.remove v1) with adj := OMap.alter intLt v1 (fun o => orient (k : ℤ) (o.getD (0, 0))) (s.remove v1).adj } with hs1
  by_cases hneg : pr1.2 < 0
  · rw [if_pos hneg]
    exact ⟨s1, rfl, hI1, hL1⟩
  · rw [if_neg hneg]
    by_cases hend : v1 ≠ v
    · rw [if_pos hend]
      have hback : (if e.a = v1 then e.b else e.a) = v := by
        rcases hv with hv | hv
        · rw [if_pos hv] at hv1
          rw [if_neg, hv]
          rw [hv]; exact fun hx => hend hx.symm
        · by_cases hav : e.a = v
          · rw [if_pos hav] at hv1
            exact absurd (hv1.trans hv) hend
          · rw [if_neg hav] at hv1
            rw [if_pos hv1.symm, hv]
      have hincv : incident edges v ≠ [] := List.ne_nil_of_mem hi
      obtain ⟨hI2, hL2⟩ := round hI1 v pr1.2 hincv
      rw [runLoop, hget]
      simp only [hback]
      split_ifs with h1 h2
      · exact ⟨_, rfl, hI2, hL2.trans hL1⟩
      · exact absurd rfl h2
      · exact ⟨_, rfl, hI2, hL2.trans hL1⟩
    · rw [if_neg hend]
      exact ⟨s1, rfl, hI1, hL1⟩

theorem filter_lt {l : List ℤ} {v : ℤ} (h : v ∈ l) : (l.filter (· ≠ v)).length < l.length := by
  rw [List.length_filter_lt_length_iff_exists]
  exact ⟨v, h, by simp⟩

theorem open_spec {edges : List SEdge} (fuel : ℕ) (hf : 2 ≤ fuel) (n : ℕ) (s : St) (h : Inv edges s) (hn : s.opn.length < n) :
    ∃ s', openLoop edges fuel n s = some s' ∧ Inv edges s' ∧ s'.opn = [] ∧ s'.unseen.length ≤ s.unseen.length := by
  induction n generalizing s with
  | zero => omega
  | succ n ih =>
    unfold openLoop
    cases ho : s.opn with
    | nil => exact ⟨s, rfl, h, ho, le_rfl⟩
    | cons v l =>
      simp only
      have hvo : v ∈ s.opn := by rw [ho]; simp
      have hinc := h.opn v hvo
      have hr := h.remove v
      obtain ⟨pr, hpr⟩ := Option.isSome_iff_exists.1 ((hr.keys v).2 hinc)
      have hh := hr.holds v pr hpr
      have hmem : (if pr.1 = -1 then pr.2 else pr.1) ∈ incident edges v := by
        obtain ⟨m1, m2, m3⟩ := hh.mem
        split_ifs with e
        · rcases m3 with m3 | m3
          · rw [e] at m3
            have := incident_nonneg m3; omega
          · exact m3
        · rcases m1 with m1 | m1
          · exact m1
          · exact absurd m1 e
      rw [hpr]
      simp only [Option.getD_some]
      obtain ⟨s1, h1, hI1, hL1⟩ := run_spec hr v _ hmem fuel hf
      rw [h1, Option.bind_some]
      have hlt : (s.remove v).opn.length < s.opn.length := filter_lt hvo
      obtain ⟨s2, h2, hI2, h3, h4⟩ := ih s1 hI1 (by have := hL1.2.2.1; omega)
      refine ⟨s2, h2, hI2, h3, ?_⟩
      have := hL1.2.2.2
      have := (Less.remove s v).2.2.2
      omega

theorem unseen_spec {edges : List SEdge} (fuel : ℕ) (hf : 2 ≤ fuel) (n : ℕ) (s : St) (h : Inv edges s) (ho : s.opn = [])
    (hn : s.unseen.length < n) : ∃ s', unseenLoop edges fuel n s = some s' ∧ Inv edges s' := by
  induction n generalizing s with
  | zero => omega
  | succ n ih =>
    unfold unseenLoop
    cases hu : s.unseen with
    | nil => exact ⟨s, rfl, h⟩
    | cons v l =>
      simp only
      have hvu : v ∈ s.unseen := by rw [hu]; simp
      have hinc := h.unseen v hvu
      have hr := h.remove v
      obtain ⟨pr, hpr⟩ := Option.isSome_iff_exists.1 ((h.keys v).2 hinc)
      have hpr' : OMap.find intLt v (s.remove v).adj = some pr := hpr
      have hnn := h.closed v hvu (by rw [ho]; simp) pr hpr
      have hmem : pr.1 ∈ incident edges v := by
        rcases (h.holds v pr hpr).mem.1 with m | m
        · exact m
        · omega
      rw [hpr']
      simp only [Option.getD_some]
      obtain ⟨s1, h1, hI1, hL1⟩ := run_spec hr v _ hmem fuel hf
      rw [h1, Option.bind_some]
      have hlt : (s.remove v).unseen.length < s.unseen.length := filter_lt hvu
      refine ih s1 hI1 ?_ (by have := hL1.2.2.2; omega)
      rw [List.eq_nil_iff_forall_not_mem]
      intro u hu'
      have := hL1.1 u hu'
      simp [St.remove, ho] at this

theorem init_inv (edges : List SEdge) : Inv edges (initSt edges) := by
  obtain ⟨h1, h2⟩ := build_spec edges
  have hkey : ∀ v, (OMap.find intLt v (build edges)).isSome = true ↔ incident edges v ≠ [] := by
    intro v
    rw [h2]
    cases incident edges v <;> simp [Stored]
  have hmemkey : ∀ v, v ∈ (build edges).map Prod.fst → incident edges v ≠ [] := by
    intro v hv
    obtain ⟨⟨v', pr⟩, hp, rfl⟩ := List.mem_map.1 hv
    rw [← hkey, OMap.find_of_mem strictTotal_intLt h1 hp]; rfl
  refine ⟨h1, hkey, ?_, ?_, ?_, ?_⟩
  · intro v pr hv
    exact stored_holds ((h2 v).symm.trans hv)
  · intro v hv
    exact hmemkey v hv
  · intro v hv
    obtain ⟨p, hp, rfl⟩ := List.mem_map.1 hv
    exact hmemkey _ (List.mem_map.2 ⟨p, (List.mem_filter.1 hp).1, rfl⟩)
  · intro v hv hn pr hp
    by_contra hc
    apply hn
    refine List.mem_map.2 ⟨(v, pr), List.mem_filter.2 ⟨OMap.mem_of_find strictTotal_intLt hp, ?_⟩, rfl⟩
    simp only [decide_eq_true_eq]
    omega

theorem alter_length (v : ℤ) (f : Option (ℤ × ℤ) → ℤ × ℤ) (l : Adj) : (OMap.alter intLt v f l).length ≤ l.length + 1 := by
  induction l with
  | nil => simp [OMap.alter]
  | cons p l ih =>
    obtain ⟨k, x⟩ := p
    rw [OMap.alter]
    split_ifs <;> simp only [List.length_cons] <;> omega

theorem build_length (edges : List SEdge) : (build edges).length ≤ 2 * edges.length := by
  have : ∀ (k : ℕ) (adj : Adj), ((edges.zipIdx k).foldl (fun adj ei => if ei.1.isMesh then addAt ei.1.b ei.2 (addAt ei.1.a ei.2 adj)
      else adj) adj).length ≤ adj.length + 2 * edges.length := by
    induction edges with
    | nil => intro k adj; simp
    | cons e l ih =>
      intro k adj
      rw [List.zipIdx_cons, List.foldl_cons, List.length_cons]
      refine (ih _ _).trans ?_
      have h1 := alter_length e.a (fun o => match o with
        | none => ((k : ℤ), -1)
        | some pr => (pr.1, (k : ℤ))) adj
      have h2 := alter_length e.b (fun o => match o with
        | none => ((k : ℤ), -1)
        | some pr => (pr.1, (k : ℤ))) (addAt e.a k adj)
      simp only
      split_ifs
      · have h1' : (addAt e.a k adj).length ≤ adj.length + 1 := h1
        have h2' : (addAt e.b k (addAt e.a k adj)).length ≤ (addAt e.a k adj).length + 1 := h2
        omega
      · omega
  simpa [build] using this 0 []

/-- **C91.** `surface_adjacency` always ends (each of its loops makes at most one round more than there are vertices on
the curve; the walk along the curve makes at most two). Its keys are the vertices of the pieces of the input curve, and
the entry of a vertex consists, in some order, of the first and the last piece ending there, or of the only piece and
-1. -/
theorem C91_adjacency (edges : List SEdge) (fuel : ℕ) (hfuel : 2 * edges.length + 2 ≤ fuel) :
    ∃ adj, surfaceAdjacency fuel edges = some adj ∧ (adj.map Prod.fst).Pairwise (· < ·) ∧
      (∀ v, v ∈ adj.map Prod.fst ↔ incident edges v ≠ []) ∧ ∀ v pr, (v, pr) ∈ adj → Holds (incident edges v) pr := by
  have hI := init_inv edges
  have hf : 2 ≤ fuel := by omega
  have hf2 : (build edges).length < fuel := by have := build_length edges; omega
  have ho : (initSt edges).opn.length < fuel := by
    have : (initSt edges).opn.length ≤ (build edges).length := by
      simp only [initSt, List.length_map]
      exact List.length_filter_le _ _
    omega
  have hu : (initSt edges).unseen.length < fuel := by simpa [initSt] using hf2
  obtain ⟨s1, h1, hI1, hn1, hl1⟩ := open_spec fuel hf fuel (initSt edges) hI ho
  obtain ⟨s2, h2, hI2⟩ := unseen_spec fuel hf fuel s1 hI1 hn1 (by omega)
  refine ⟨s2.adj, ?_, ?_, ?_, ?_⟩
  · unfold surfaceAdjacency
    rw [h1, Option.bind_some, h2]; rfl
  · have := hI2.sorted
    rw [List.pairwise_map]
    refine this.imp ?_
    intro a b hab
    simpa [intLt] using hab
  · intro v
    rw [← hI2.keys v]
    constructor
    · intro hv
      obtain ⟨⟨v', pr⟩, hp, rfl⟩ := List.mem_map.1 hv
      rw [OMap.find_of_mem strictTotal_intLt hI2.sorted hp]; rfl
    · intro hv
      obtain ⟨pr, hpr⟩ := Option.isSome_iff_exists.1 hv
      exact List.mem_map.2 ⟨_, OMap.mem_of_find strictTotal_intLt hpr, rfl⟩
  · intro v pr hp
    exact hI2.holds v pr (OMap.find_of_mem strictTotal_intLt hI2.sorted hp)

end Surface2
end Mandoline
