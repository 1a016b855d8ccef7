import Verif.Collapse.Dsu
import Verif.Core.OMap
import Mathlib.Data.List.Nodup
import Mathlib.Data.List.Induction
import Mathlib.Algebra.Order.Ring.Int

/-!
# C104: handing the input edges to a two-dimensional generator

`CutCellGenerator<2>::add_boundary_elements` (src/construction/generator2.cpp:24-27) and `CutCellEdgeGenerator::add_edges`
(construction/generator_impl.hpp:198-243).
-/
namespace Mandoline.AddEdges

/-- `has_e` (generator_impl.hpp:203-216): found in *both* maps, in one of the two orders. -/
def hasE (orig new : List (DEdge × ℤ)) (e : DEdge) : Bool :=
  ((OMap.find edgeLt e orig).isSome && (OMap.find edgeLt e new).isSome) ||
  ((OMap.find edgeLt (e.2, e.1) orig).isSome && (OMap.find edgeLt (e.2, e.1) new).isSome)

/-- loop body (generator_impl.hpp:218-233). In `newEMap[e] = Esize()` the right hand side is evaluated first (C++17). -/
def step (orig : List (DEdge × ℤ)) (new : List (DEdge × ℤ)) (e : DEdge) : List (DEdge × ℤ) :=
  if hasE orig new e then new else OMap.assign edgeLt e ((orig.length : ℤ) + new.length) new

/-- what a call leaves behind. -/
structure Added where
  /-- `m_origEMap`. -/
  map : List (DEdge × ℤ)
  /-- number of columns of the edge matrix handed to `set_topology`. -/
  cols : ℤ
  /-- the columns; `none` is a column that is never written (`Eigen::resize` does not initialise). -/
  col : ℤ → Option DEdge
  /-- every write is inside the matrix. -/
  inside : Bool

/-- `add_edges` (generator_impl.hpp:198-243): `origE` is a fresh matrix with `Esize()` columns, column `idx` is written for every entry of the new
map, and the new map is merged into `m_origEMap` (an existing key is kept). -/
def addEdges (orig : List (DEdge × ℤ)) (E : List DEdge) : Added :=
  let new := E.foldl (step orig) []
  let size : ℤ := (orig.length : ℤ) + new.length
  { map := new.foldl (fun m p => OMap.insertNew edgeLt p.1 p.2 m) orig
    cols := size
    col := fun k => new.foldl (fun cur p => if p.2 = k then some p.1 else cur) none
    inside := new.all fun p => decide (0 ≤ p.2 ∧ p.2 < size) }

/-! ## lemmas -/

theorem length_alter {K V : Type} (lt : K → K → Bool) (k : K) (f : Option V → V) (l : List (K × V)) :
    (OMap.alter lt k f l).length = if (OMap.find lt k l).isSome then l.length else l.length + 1 := by
  induction l with
  | nil => rfl
  | cons p l ih =>
    obtain ⟨k', v⟩ := p
    simp only [OMap.alter, OMap.find]
    by_cases h1 : lt k k' = true
    · simp [h1]
    · by_cases h2 : lt k' k = true
      · simp only [h1, h2, if_true, List.length_cons, ih, Bool.false_eq_true, if_false]
        split_ifs <;> simp
      · simp [h1, h2]

theorem step_nil (new : List (DEdge × ℤ)) (e : DEdge) : step [] new e = OMap.assign edgeLt e (new.length : ℤ) new := by
  simp [step, hasE, OMap.find]

theorem fold_nodup (P : List DEdge) (hP : P.Nodup) :
    OMap.Sorted edgeLt (P.foldl (step []) []) ∧ (P.foldl (step []) []).length = P.length ∧
    ∀ e v, (e, v) ∈ P.foldl (step []) [] ↔ ∃ i : ℕ, P[i]? = some e ∧ v = (i : ℤ) := by
  induction P using List.reverseRecOn with
  | nil => exact ⟨OMap.sorted_nil, rfl, by simp⟩
  | append_singleton P a ih =>
    rw [List.nodup_append] at hP
    obtain ⟨h1, _, h3⟩ := hP
    obtain ⟨i1, i2, i3⟩ := ih h1
    rw [List.foldl_append]
    simp only [List.foldl_cons, List.foldl_nil, step_nil]
    have hnew : OMap.find edgeLt a (P.foldl (step []) []) = none := by
      rw [OMap.find_none_iff strictTotal_edgeLt i1]
      intro v hv
      obtain ⟨i, hi, _⟩ := (i3 a v).1 hv
      exact h3 a (List.mem_of_getElem? hi) a (by simp) rfl
    refine ⟨OMap.sorted_alter strictTotal_edgeLt i1, ?_, fun e v => ?_⟩
    · unfold OMap.assign
      rw [length_alter, hnew]; simp [i2]
    · unfold OMap.assign
      rw [OMap.mem_alter strictTotal_edgeLt i1, i2]
      constructor
      · rintro (⟨_, h⟩ | ⟨rfl, rfl⟩)
        · obtain ⟨i, hi, rfl⟩ := (i3 e v).1 h
          refine ⟨i, ?_, rfl⟩
          rw [List.getElem?_append_left (List.getElem?_eq_some_iff.1 hi).1]; exact hi
        · exact ⟨P.length, by simp, rfl⟩
      · rintro ⟨i, hi, rfl⟩
        by_cases hlt : i < P.length
        · rw [List.getElem?_append_left hlt] at hi
          refine Or.inl ⟨?_, (i3 _ _).2 ⟨i, hi, rfl⟩⟩
          rintro rfl
          exact h3 e (List.mem_of_getElem? hi) e (by simp) rfl
        · have hil := (List.getElem?_eq_some_iff.1 hi).1
          simp only [List.length_append, List.length_singleton] at hil
          have : i = P.length := by omega
          subst this
          simp at hi
          exact Or.inr ⟨hi.symm, rfl⟩

theorem fold_len_mono (orig : List (DEdge × ℤ)) (Q : List DEdge) (m : List (DEdge × ℤ)) :
    m.length ≤ (Q.foldl (step orig) m).length := by
  induction Q generalizing m with
  | nil => exact le_refl _
  | cons e Q ih =>
    refine le_trans ?_ (ih (step orig m e))
    unfold step OMap.assign
    split_ifs
    · exact le_refl _
    · rw [length_alter]; split_ifs <;> omega

theorem fold_low (orig : List (DEdge × ℤ)) (Q : List DEdge) (m : List (DEdge × ℤ)) (hs : OMap.Sorted edgeLt m) (r : ℤ)
    (hr : r < (orig.length : ℤ) + m.length) (hno : ∀ e, (e, r) ∉ m) :
    ∀ e, (e, r) ∉ Q.foldl (step orig) m := by
  induction Q generalizing m with
  | nil => exact hno
  | cons a Q ih =>
    have hstep : OMap.Sorted edgeLt (step orig m a) ∧ r < (orig.length : ℤ) + (step orig m a).length ∧
        ∀ e, (e, r) ∉ step orig m a := by
      unfold step OMap.assign
      split_ifs
      · exact ⟨hs, hr, hno⟩
      · refine ⟨OMap.sorted_alter strictTotal_edgeLt hs, ?_, fun e he => ?_⟩
        · rw [length_alter]; split_ifs <;> push_cast <;> omega
        · rcases (OMap.mem_alter strictTotal_edgeLt hs).1 he with ⟨_, h⟩ | ⟨_, h⟩
          · exact hno e h
          · omega
    exact ih _ hstep.1 hstep.2.1 hstep.2.2

theorem col_some (l : List (DEdge × ℤ)) (k : ℤ) (o : Option DEdge) (e : DEdge)
    (h : l.foldl (fun cur p => if p.2 = k then some p.1 else cur) o = some e) : (e, k) ∈ l ∨ o = some e := by
  induction l generalizing o with
  | nil => exact Or.inr h
  | cons p l ih =>
    simp only [List.foldl_cons] at h
    rcases ih _ h with h' | h'
    · exact Or.inl (List.mem_cons_of_mem _ h')
    · split_ifs at h' with hk
      · cases h'; left; rw [← hk]; exact List.mem_cons_self ..
      · exact Or.inr h'

theorem col_isSome (l : List (DEdge × ℤ)) (k : ℤ) (o : Option DEdge) (e : DEdge) (h : (e, k) ∈ l ∨ o.isSome) :
    (l.foldl (fun cur p => if p.2 = k then some p.1 else cur) o).isSome := by
  induction l generalizing o with
  | nil => simpa using h
  | cons p l ih =>
    simp only [List.foldl_cons]
    rcases h with h | h
    · rcases List.mem_cons.1 h with h | h
      · subst h; exact ih _ (Or.inr (by simp))
      · exact ih _ (Or.inl h)
    · exact ih _ (Or.inr (by split_ifs <;> simp [h]))

theorem fold_nil_sorted (orig : List (DEdge × ℤ)) (P : List DEdge) (m : List (DEdge × ℤ)) (hs : OMap.Sorted edgeLt m) :
    OMap.Sorted edgeLt (P.foldl (step orig) m) := by
  induction P generalizing m with
  | nil => exact hs
  | cons a P ih =>
    refine ih _ ?_
    unfold step OMap.assign
    split_ifs
    · exact hs
    · exact OMap.sorted_alter strictTotal_edgeLt hs

/-! ## the property -/

/-- **C104.** On a fresh generator, if no column is repeated (in the same order of its two ends), the edges the generator works with are exactly the
given columns, in the given order, and all writes are inside the matrix. -/
theorem C104_first_call (E : List DEdge) (hE : E.Nodup) :
    (addEdges [] E).cols = E.length ∧ (addEdges [] E).inside = true ∧
    ∀ (i : ℕ) (h : i < E.length), (addEdges [] E).col i = some E[i] := by
  obtain ⟨h1, h2, h3⟩ := fold_nodup E hE
  refine ⟨by simp [addEdges, h2], ?_, fun i h => ?_⟩
  · simp only [addEdges, List.all_eq_true, decide_eq_true_eq]
    rintro ⟨e, v⟩ hp
    obtain ⟨i, hi, rfl⟩ := (h3 e v).1 hp
    have := (List.getElem?_eq_some_iff.1 hi).1
    simp only [List.length_nil, h2]
    push_cast
    omega
  · have hm : (E[i], (i : ℤ)) ∈ E.foldl (step []) [] := (h3 _ _).2 ⟨i, by simp [h], rfl⟩
    have hs := col_isSome _ (i : ℤ) none E[i] (Or.inl hm)
    obtain ⟨e, he⟩ := Option.isSome_iff_exists.1 hs
    rcases col_some _ _ _ _ he with h' | h'
    · obtain ⟨j, hj, hji⟩ := (h3 _ _).1 h'
      have : j = i := by omega
      subst this
      rw [List.getElem?_eq_getElem h] at hj
      show List.foldl _ _ _ = _
      rw [he]; exact hj.symm
    · cases h'

/-- **C104, refuted.** "Repeated edges are dropped" fails: whenever some column is repeated, the matrix handed on has a column that was
never written (uninitialised memory). -/
theorem C104_repeated_refuted (E : List DEdge) (hE : ¬ E.Nodup) :
    ∃ r, 0 ≤ r ∧ r < (addEdges [] E).cols ∧ (addEdges [] E).col r = none := by
  obtain ⟨P, a, Q, rfl, hP, ha⟩ : ∃ P a Q, E = P ++ a :: Q ∧ P.Nodup ∧ a ∈ P := by
    induction E using List.reverseRecOn with
    | nil => exact absurd List.nodup_nil hE
    | append_singleton E b ih =>
      by_cases h : E.Nodup
      · refine ⟨E, b, [], rfl, h, ?_⟩
        by_contra hb
        apply hE
        rw [List.nodup_append]
        refine ⟨h, by simp, ?_⟩
        intro x hx y hy
        rw [List.mem_singleton.1 hy]
        rintro rfl
        exact hb hx
      · obtain ⟨P, a, Q, rfl, h1, h2⟩ := ih h
        exact ⟨P, a, Q ++ [b], by simp, h1, h2⟩
  obtain ⟨r, hr, hra⟩ := List.getElem_of_mem ha
  obtain ⟨h1, h2, h3⟩ := fold_nodup P hP
  have hfind : OMap.find edgeLt a (P.foldl (step []) []) = some (r : ℤ) :=
    OMap.find_of_mem strictTotal_edgeLt h1 ((h3 a r).2 ⟨r, by rw [List.getElem?_eq_getElem hr, hra], rfl⟩)
  have hM : (P ++ a :: Q).foldl (step []) [] = Q.foldl (step []) (OMap.assign edgeLt a (P.length : ℤ) (P.foldl (step []) [])) := by
    rw [List.foldl_append, List.foldl_cons, step_nil, h2]
  have hs' : OMap.Sorted edgeLt (OMap.assign edgeLt a (P.length : ℤ) (P.foldl (step []) [])) := OMap.sorted_alter strictTotal_edgeLt h1
  have hlen : (OMap.assign edgeLt a (P.length : ℤ) (P.foldl (step []) [])).length = P.length := by
    unfold OMap.assign; rw [length_alter, hfind]; simp [h2]
  have hno : ∀ e, (e, (r : ℤ)) ∉ OMap.assign edgeLt a (P.length : ℤ) (P.foldl (step []) []) := by
    intro e he
    rcases (OMap.mem_alter strictTotal_edgeLt h1).1 he with ⟨hne, h⟩ | ⟨_, h⟩
    · obtain ⟨j, hj, hji⟩ := (h3 _ _).1 h
      have : j = r := by omega
      subst this
      rw [List.getElem?_eq_getElem hr, hra] at hj
      exact hne (Option.some.inj hj).symm
    · omega
  have hfin := fold_low [] Q _ hs' (r : ℤ) (by rw [hlen]; simpa using hr) hno
  have hmono := fold_len_mono [] Q (OMap.assign edgeLt a (P.length : ℤ) (P.foldl (step []) []))
  rw [hlen] at hmono
  refine ⟨r, by omega, ?_, ?_⟩
  · show (r : ℤ) < ((([] : List (DEdge × ℤ)).length : ℕ) : ℤ) + _
    rw [hM]; simp only [List.length_nil]; push_cast; omega
  · cases hc : (addEdges [] (P ++ a :: Q)).col r with
    | none => rfl
    | some e =>
      rcases col_some _ _ _ _ (show List.foldl _ none _ = some e from hc) with h | h
      · rw [hM] at h; exact absurd h (hfin e)
      · cases h

/-- **C104, refuted: adding edges in two calls.** After an earlier call recorded `n` edges, another call hands on a matrix with `n` more columns
than it found new edges, and the first `n` columns are never written: the earlier edges are lost. -/
theorem C104_second_call_refuted (orig : List (DEdge × ℤ)) (E : List DEdge) :
    (orig.length : ℤ) ≤ (addEdges orig E).cols ∧
    ∀ r, 0 ≤ r → r < (orig.length : ℤ) → (addEdges orig E).col r = none := by
  refine ⟨by simp [addEdges], fun r h0 hr => ?_⟩
  have hfin := fold_low orig E [] OMap.sorted_nil r (by simpa using hr) (by simp)
  cases hc : (addEdges orig E).col r with
  | none => rfl
  | some e =>
    rcases col_some _ _ _ _ (show List.foldl _ none _ = some e from hc) with h | h
    · exact absurd h (hfin e)
    · cases h

/-- **C104, the record of edges.** After a first call without repetition the generator's record of edges numbers them as given. -/
theorem C104_record (E : List DEdge) (hE : E.Nodup) (e : DEdge) (v : ℤ) :
    (e, v) ∈ (addEdges [] E).map ↔ ∃ i : ℕ, E[i]? = some e ∧ v = (i : ℤ) := by
  obtain ⟨h1, h2, h3⟩ := fold_nodup E hE
  rw [← h3]
  show (e, v) ∈ List.foldl _ [] (E.foldl (step []) []) ↔ _
  have hgen : ∀ (l m : List (DEdge × ℤ)), OMap.Sorted edgeLt m → OMap.Sorted edgeLt l →
      (∀ p ∈ l, OMap.find edgeLt p.1 m = none) →
      ((e, v) ∈ l.foldl (fun m p => OMap.insertNew edgeLt p.1 p.2 m) m ↔ (e, v) ∈ m ∨ (e, v) ∈ l) := by
    intro l
    induction l with
    | nil => intro m _ _ _; simp
    | cons p l ih =>
      intro m hm hl hno
      have hpl := List.pairwise_cons.1 hl
      simp only [List.foldl_cons]
      have hm' : OMap.Sorted edgeLt (OMap.insertNew edgeLt p.1 p.2 m) := OMap.sorted_alter strictTotal_edgeLt hm
      rw [ih _ hm' hpl.2]
      · unfold OMap.insertNew
        rw [OMap.mem_alter strictTotal_edgeLt hm, hno p (by simp), List.mem_cons]
        have hp := hno p (by simp)
        rw [OMap.find_none_iff strictTotal_edgeLt hm] at hp
        simp only [Option.getD_none]
        constructor
        · rintro ((⟨_, h⟩ | ⟨ha, hb⟩) | h)
          · exact Or.inl h
          · right; left; rw [ha, hb]
          · exact Or.inr (Or.inr h)
        · rintro (h | h | h)
          · refine Or.inl (Or.inl ⟨?_, h⟩)
            rintro rfl
            exact hp v h
          · left; right; rw [← h]; exact ⟨rfl, rfl⟩
          · exact Or.inr h
      · intro q hq
        unfold OMap.insertNew
        rw [OMap.find_alter strictTotal_edgeLt hm, if_neg]
        · exact hno q (List.mem_cons_of_mem _ hq)
        · intro hqp
          have := hpl.1 q hq
          rw [hqp, strictTotal_edgeLt.irrefl] at this
          cases this
  rw [hgen _ _ OMap.sorted_nil h1 (fun p _ => rfl)]
  simp

/-- three edges, the last one the reverse of the first (kept, as its columns differ). -/
example : (addEdges [] [(0, 1), (1, 2), (1, 0)]).cols = 3 ∧
    (List.range 3).map (fun i => (addEdges [] [(0, 1), (1, 2), (1, 0)]).col i) = [some (0, 1), some (1, 2), some (1, 0)] := by
  decide +kernel

/-- a repeated edge: a write past the end, and a column never written. -/
example : (addEdges [] [(0, 1), (0, 1)]).cols = 1 ∧ (addEdges [] [(0, 1), (0, 1)]).inside = false ∧
    (addEdges [] [(0, 1), (0, 1)]).col 0 = none := by decide +kernel

/-- two calls: the edge of the first call is lost. -/
example : (addEdges (addEdges [] [(0, 1)]).map [(1, 2)]).cols = 2 ∧
    (addEdges (addEdges [] [(0, 1)]).map [(1, 2)]).col 0 = none ∧
    (addEdges (addEdges [] [(0, 1)]).map [(1, 2)]).col 1 = some (1, 2) := by decide +kernel

end Mandoline.AddEdges
