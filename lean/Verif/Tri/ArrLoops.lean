import Verif.Tri.ArrCell
import Verif.Collapse.Marked

/-! # C108: the loops of the collapser on a triangle cut along lines -/

namespace Mandoline
namespace Arr

open Planar (dir)
open FaceCollapser Function

/-- the situation in `vptr_faces`: a graph of a triangle cut along lines, neighbours sorted by angle, and one half-edge `b` of
the outside. -/
structure Setup (edges : List DEdge) (V : ℤ → Dir) (L : List Aff) (ord : ℤ → List ℤ) (b : DEdge) : Prop where
  graph : Graph (make edges).edgeList V L
  perm : ∀ a, (ord a).Perm ((make edges).ring a)
  sort : ∀ a, (ord a).Pairwise fun x y => angleLt (dirTo V a y) (dirTo V a x) = false
  mem : b ∈ (make edges).edgeList
  outer : Outer (V b.1) (V b.2)

variable {edges : List DEdge} {V : ℤ → Dir} {L : List Aff} {ord : ℤ → List ℤ} {b : DEdge}

/-- the collapser with the mark. -/
def col (edges : List DEdge) (b : DEdge) : FaceCollapser := (make edges).setEdgeForRemoval b

/-- the next half-edge. -/
def nx (edges : List DEdge) (ord : ℤ → List ℤ) (b : DEdge) : DEdge → DEdge := ((col edges b).unify ord).next

namespace Setup

theorem colE (edges : List DEdge) (b : DEdge) : (col edges b).edgeList = (make edges).edgeList := setEdge_edgeList _ _

theorem colOk (edges : List DEdge) (b : DEdge) : (col edges b).Ok := ok_setEdgeForRemoval (ok_make edges) b

theorem colDeg (edges : List DEdge) (b : DEdge) : (col edges b).deg = [] := by
  unfold col; rw [setEdge_deg]; exact (make_inv edges).1

theorem perm' (S : Setup edges V L ord b) : ∀ a, (ord a).Perm ((col edges b).ring a) := fun a => by
  unfold col; rw [setEdge_ring]; exact S.perm a

theorem nx_mem (S : Setup edges V L ord b) {e : DEdge} (he : e ∈ (make edges).edgeList) :
    nx edges ord b e ∈ (make edges).edgeList ∧ (nx edges ord b e).1 = e.2 := by
  have := (C35_next_bijective _ (colOk edges b) (colDeg edges b) ord S.perm').1 e (by rw [colE]; exact he)
  rw [colE] at this
  exact this

theorem nx_inj (S : Setup edges V L ord b) {e e' : DEdge} (he : e ∈ (make edges).edgeList) (he' : e' ∈ (make edges).edgeList)
    (h : nx edges ord b e = nx edges ord b e') : e = e' :=
  (C35_next_bijective _ (colOk edges b) (colDeg edges b) ord S.perm').2.1 e (by rw [colE]; exact he) e' (by rw [colE]; exact he') h

theorem iter_mem (S : Setup edges V L ord b) {e : DEdge} (he : e ∈ (make edges).edgeList) (k : ℕ) :
    (nx edges ord b)^[k] e ∈ (make edges).edgeList := by
  induction k with
  | zero => exact he
  | succ k ih => rw [iterate_succ_apply']; exact (S.nx_mem ih).1

theorem periodic (S : Setup edges V L ord b) {e : DEdge} (he : e ∈ (make edges).edgeList) :
    ∃ n, 0 < n ∧ (nx edges ord b)^[n] e = e := by
  obtain ⟨q1, q2, q3⟩ := permMap_unify (colOk edges b) (colDeg edges b) ord S.perm'
  obtain ⟨n, hn, h⟩ := deg_periodic q1 ((q2 e).2 (by rw [colE]; exact he))
  exact ⟨n, hn, h⟩

theorem left_step (S : Setup edges V L ord b) {q : Dir} (hq : Generic L q) {e : DEdge} (he : e ∈ (make edges).edgeList)
    (hl : Left L q (V e.1) (V e.2)) :
    Left L q (V (nx edges ord b e).1) (V (nx edges ord b e).2) := by
  obtain ⟨u, a⟩ := e
  obtain ⟨h1, h2⟩ := S.nx_mem he
  dsimp only at h2 hl
  have hnz : ∀ a b', (a, b') ∈ (col edges b).edgeList → dirTo V a b' ≠ 0 := by
    intro a b' h
    rw [colE] at h
    exact S.graph.dir_ne h
  have hs := fun w hw => (C67_loop_turns_left _ (colOk edges b) (colDeg edges b) V ord S.perm' S.sort hnz
    (fun a b' c h h' => by rw [colE] at h h'; exact S.graph.dist a b' c h h') u a (by rw [colE]; exact he) w hw).2
  have hw : (a, (nx edges ord b (u, a)).2) ∈ (make edges).edgeList := by
    have : nx edges ord b (u, a) = (a, (nx edges ord b (u, a)).2) := Prod.ext h2 rfl
    rw [← this]; exact h1
  have := S.graph.step hq hw hl fun r hr => hs r (by rw [colE]; exact hr)
  rw [h2]
  exact this

theorem left_iter (S : Setup edges V L ord b) {q : Dir} (hq : Generic L q) {e : DEdge} (he : e ∈ (make edges).edgeList)
    (hl : Left L q (V e.1) (V e.2)) (k : ℕ) :
    Left L q (V ((nx edges ord b)^[k] e).1) (V ((nx edges ord b)^[k] e).2) := by
  induction k with
  | zero => exact hl
  | succ k ih => rw [iterate_succ_apply']; exact S.left_step hq (S.iter_mem he k) ih

/-- the half-edge after an outer one is an outer one. -/
theorem outer_step (S : Setup edges V L ord b) {e : DEdge} (he : e ∈ (make edges).edgeList) (ho : Outer (V e.1) (V e.2)) :
    Outer (V (nx edges ord b e).1) (V (nx edges ord b e).2) := by
  by_contra hn
  have hf := (S.nx_mem he).1
  obtain ⟨q, hq, hl⟩ := S.graph.exists_left (u := (nx edges ord b e).1) (a := (nx edges ord b e).2) hf hn
  obtain ⟨n, hn0, hper⟩ := S.periodic hf
  obtain ⟨m, rfl⟩ : ∃ m, n = m + 1 := ⟨n - 1, by omega⟩
  rw [iterate_succ_apply'] at hper
  have h1 := S.nx_inj (S.iter_mem hf m) he hper
  have h2 := S.left_iter hq hf hl m
  rw [h1] at h2
  exact outer_not_left ho hq.inside h2.left

theorem outer_iter (S : Setup edges V L ord b) {e : DEdge} (he : e ∈ (make edges).edgeList) (ho : Outer (V e.1) (V e.2)) (k : ℕ) :
    Outer (V ((nx edges ord b)^[k] e).1) (V ((nx edges ord b)^[k] e).2) := by
  induction k with
  | zero => exact ho
  | succ k ih => rw [iterate_succ_apply']; exact S.outer_step (S.iter_mem he k) ih

end Setup

/-! ## The outside is one loop -/

theorem outer_iff (p p' : Dir) : Outer p p' ↔ (p.1 = 0 ∧ p'.1 = 0 ∧ p.2 < p'.2) ∨ (p.2 = 0 ∧ p'.2 = 0 ∧ p'.1 < p.1) ∨
    (p.1 + p.2 = 1 ∧ p'.1 + p'.2 = 1 ∧ p.1 < p'.1) := by
  unfold Outer sides Aff.at Aff.lin dir
  simp only [List.mem_cons, List.not_mem_nil, or_false, exists_eq_or_imp, exists_eq_left]
  refine or_congr ?_ (or_congr ?_ ?_)
  · constructor <;> rintro ⟨h1, h2, h3⟩ <;> refine ⟨?_, ?_, ?_⟩ <;> linarith
  · constructor <;> rintro ⟨h1, h2, h3⟩ <;> refine ⟨?_, ?_, ?_⟩ <;> linarith
  · constructor <;> rintro ⟨h1, h2, h3⟩ <;> refine ⟨?_, ?_, ?_⟩ <;> linarith

theorem inside_iff (p : Dir) : (∀ s ∈ sides, 0 ≤ s.at p) ↔ 0 ≤ p.1 ∧ 0 ≤ p.2 ∧ p.1 + p.2 ≤ 1 := by
  unfold sides Aff.at
  simp only [List.mem_cons, List.not_mem_nil, or_false, forall_eq_or_imp, forall_eq]
  constructor
  · rintro ⟨h1, h2, h3⟩; exact ⟨by linarith, by linarith, by linarith⟩
  · rintro ⟨h1, h2, h3⟩; exact ⟨by linarith, by linarith, by linarith⟩

theorem interior_iff (p : Dir) : (∀ s ∈ sides, 0 < s.at p) ↔ 0 < p.1 ∧ 0 < p.2 ∧ p.1 + p.2 < 1 := by
  unfold sides Aff.at
  simp only [List.mem_cons, List.not_mem_nil, or_false, forall_eq_or_imp, forall_eq]
  constructor
  · rintro ⟨h1, h2, h3⟩; exact ⟨by linarith, by linarith, by linarith⟩
  · rintro ⟨h1, h2, h3⟩; exact ⟨by linarith, by linarith, by linarith⟩

namespace Setup

/-- if a quantity grows along a property of half-edges, a loop leaves the property. -/
theorem leave (S : Setup edges V L ord b) {e : DEdge} (he : e ∈ (make edges).edgeList) (P : DEdge → Prop) (h0 : P e)
    (φ : Dir → ℚ) (hφ : ∀ f, P f → φ (V f.1) < φ (V f.2)) :
    ∃ k, P ((nx edges ord b)^[k] e) ∧ ¬ P ((nx edges ord b)^[k + 1] e) := by
  by_contra hn
  push Not at hn
  have hall : ∀ k, P ((nx edges ord b)^[k] e) := by
    intro k
    induction k with
    | zero => exact h0
    | succ k ih => exact hn k ih
  have hlt : ∀ k, φ (V e.1) < φ (V ((nx edges ord b)^[k + 1] e).1) := by
    intro k
    induction k with
    | zero =>
      rw [iterate_succ_apply', (S.nx_mem (S.iter_mem he 0)).2]
      exact hφ _ h0
    | succ k ih =>
      rw [iterate_succ_apply', (S.nx_mem (S.iter_mem he (k + 1))).2]
      exact ih.trans (hφ _ (hall _))
  obtain ⟨n, hn0, hper⟩ := S.periodic he
  obtain ⟨m, rfl⟩ : ∃ m, n = m + 1 := ⟨n - 1, by omega⟩
  have := hlt m
  rw [hper] at this
  exact lt_irrefl _ this

theorem inside_at (S : Setup edges V L ord b) {e : DEdge} (he : e ∈ (make edges).edgeList) :
    (0 ≤ (V e.1).1 ∧ 0 ≤ (V e.1).2 ∧ (V e.1).1 + (V e.1).2 ≤ 1) ∧ (0 ≤ (V e.2).1 ∧ 0 ≤ (V e.2).2 ∧ (V e.2).1 + (V e.2).2 ≤ 1) :=
  ⟨(inside_iff _).1 (S.graph.inside e he), (inside_iff _).1 fun _ hs => S.graph.inside' he hs⟩

/-- the loop of an outer half-edge passes the corner `(0,0)`. -/
theorem reach_corner (S : Setup edges V L ord b) {e : DEdge} (he : e ∈ (make edges).edgeList) (ho : Outer (V e.1) (V e.2)) :
    ∃ k, V ((nx edges ord b)^[k] e).1 = (0, 0) ∧ Outer (V ((nx edges ord b)^[k] e).1) (V ((nx edges ord b)^[k] e).2) := by
  -- on the bottom side one arrives at (0,0)
  have bottom : ∀ f ∈ (make edges).edgeList, ((V f.1).2 = 0 ∧ (V f.2).2 = 0 ∧ (V f.2).1 < (V f.1).1) →
      ∃ k, V ((nx edges ord b)^[k] f).1 = (0, 0) := by
    intro f hf hP
    obtain ⟨k, hk1, hk2⟩ := S.leave hf (fun f => (V f.1).2 = 0 ∧ (V f.2).2 = 0 ∧ (V f.2).1 < (V f.1).1) hP
      (fun p => - p.1) fun f h => by linarith [h.2.2]
    refine ⟨k + 1, ?_⟩
    have hof : Outer (V f.1) (V f.2) := (outer_iff _ _).2 (.inr (.inl hP))
    have ho1 := S.outer_iter hf hof (k + 1)
    have h1 := (S.nx_mem (S.iter_mem hf k)).2
    rw [← iterate_succ_apply' (nx edges ord b)] at h1
    have hm := S.iter_mem hf k
    have hm1 := S.iter_mem hf (k + 1)
    obtain ⟨i1, i2⟩ := S.inside_at hm
    obtain ⟨i3, i4⟩ := S.inside_at hm1
    rw [h1] at hk2 ho1 i3 ⊢
    rcases (outer_iff _ _).1 ho1 with ⟨o1, o2, o3⟩ | o | ⟨o1, o2, o3⟩
    · exact Prod.ext o1 hk1.2.1
    · exact absurd o hk2
    · exfalso; linarith [hk1.2.2, hk1.2.1, hk1.1, i1.2.2]
  -- on the slanted side one arrives at the bottom side
  have slanted : ∀ f ∈ (make edges).edgeList, ((V f.1).1 + (V f.1).2 = 1 ∧ (V f.2).1 + (V f.2).2 = 1 ∧ (V f.1).1 < (V f.2).1) →
      ∃ k, V ((nx edges ord b)^[k] f).1 = (0, 0) := by
    intro f hf hP
    obtain ⟨k, hk1, hk2⟩ := S.leave hf (fun f => (V f.1).1 + (V f.1).2 = 1 ∧ (V f.2).1 + (V f.2).2 = 1 ∧ (V f.1).1 < (V f.2).1) hP
      (fun p => p.1) fun f h => h.2.2
    have hof : Outer (V f.1) (V f.2) := (outer_iff _ _).2 (.inr (.inr hP))
    have ho1 := S.outer_iter hf hof (k + 1)
    have h1 := (S.nx_mem (S.iter_mem hf k)).2
    rw [← iterate_succ_apply' (nx edges ord b)] at h1
    have hm := S.iter_mem hf k
    have hm1 := S.iter_mem hf (k + 1)
    obtain ⟨i1, i2⟩ := S.inside_at hm
    obtain ⟨i3, i4⟩ := S.inside_at hm1
    have hb : (V ((nx edges ord b)^[k + 1] f).1).2 = 0 ∧ (V ((nx edges ord b)^[k + 1] f).2).2 = 0 ∧
        (V ((nx edges ord b)^[k + 1] f).2).1 < (V ((nx edges ord b)^[k + 1] f).1).1 := by
      rw [h1] at hk2 ho1 i3 ⊢
      rcases (outer_iff _ _).1 ho1 with ⟨o1, o2, o3⟩ | o | o
      · exfalso; linarith [hk1.2.2, i1.1]
      · exact o
      · exact absurd o hk2
    obtain ⟨m, hm⟩ := bottom _ hm1 hb
    exact ⟨m + (k + 1), by rw [iterate_add_apply]; exact hm⟩
  have left : ∀ f ∈ (make edges).edgeList, ((V f.1).1 = 0 ∧ (V f.2).1 = 0 ∧ (V f.1).2 < (V f.2).2) →
      ∃ k, V ((nx edges ord b)^[k] f).1 = (0, 0) := by
    intro f hf hP
    obtain ⟨k, hk1, hk2⟩ := S.leave hf (fun f => (V f.1).1 = 0 ∧ (V f.2).1 = 0 ∧ (V f.1).2 < (V f.2).2) hP
      (fun p => p.2) fun f h => h.2.2
    have hof : Outer (V f.1) (V f.2) := (outer_iff _ _).2 (.inl hP)
    have ho1 := S.outer_iter hf hof (k + 1)
    have h1 := (S.nx_mem (S.iter_mem hf k)).2
    rw [← iterate_succ_apply' (nx edges ord b)] at h1
    have hm := S.iter_mem hf k
    have hm1 := S.iter_mem hf (k + 1)
    obtain ⟨i1, i2⟩ := S.inside_at hm
    obtain ⟨i3, i4⟩ := S.inside_at hm1
    have hb : (V ((nx edges ord b)^[k + 1] f).1).1 + (V ((nx edges ord b)^[k + 1] f).1).2 = 1 ∧
        (V ((nx edges ord b)^[k + 1] f).2).1 + (V ((nx edges ord b)^[k + 1] f).2).2 = 1 ∧
        (V ((nx edges ord b)^[k + 1] f).1).1 < (V ((nx edges ord b)^[k + 1] f).2).1 := by
      rw [h1] at hk2 ho1 i3 ⊢
      rcases (outer_iff _ _).1 ho1 with o | ⟨o1, o2, o3⟩ | o
      · exact absurd o hk2
      · exfalso; linarith [hk1.2.2, i1.2.1]
      · exact o
    obtain ⟨m, hm⟩ := slanted _ hm1 hb
    exact ⟨m + (k + 1), by rw [iterate_add_apply]; exact hm⟩
  have : ∃ k, V ((nx edges ord b)^[k] e).1 = (0, 0) := by
    rcases (outer_iff _ _).1 ho with h | h | h
    · exact left e he h
    · exact bottom e he h
    · exact slanted e he h
  obtain ⟨k, hk⟩ := this
  exact ⟨k, hk, S.outer_iter he ho k⟩

/-- only one outer half-edge starts at the corner `(0,0)`. -/
theorem corner_unique (S : Setup edges V L ord b) {e e' : DEdge} (he : e ∈ (make edges).edgeList) (he' : e' ∈ (make edges).edgeList)
    (h : V e.1 = (0, 0)) (h' : V e'.1 = (0, 0)) (ho : Outer (V e.1) (V e.2)) (ho' : Outer (V e'.1) (V e'.2)) : e = e' := by
  obtain ⟨a, w⟩ := e
  obtain ⟨a', w'⟩ := e'
  dsimp only at h h' ho ho'
  have : a = a' := S.graph.inj _ _ _ _ he he' (h.trans h'.symm)
  subst this
  have up : ∀ x, (a, x) ∈ (make edges).edgeList → Outer (V a) (V x) → (V x).1 = 0 ∧ 0 < (V x).2 := by
    intro x hx hox
    rw [h] at hox
    have i := (S.inside_at hx).2
    dsimp only at i
    rcases (outer_iff _ _).1 hox with ⟨o1, o2, o3⟩ | ⟨o1, o2, o3⟩ | ⟨o1, o2, o3⟩
    · exact ⟨o2, o3⟩
    · dsimp only at o3; exfalso; linarith
    · dsimp only at o1; exfalso; linarith
  obtain ⟨u1, u2⟩ := up w he ho
  obtain ⟨v1, v2⟩ := up w' he' ho'
  by_contra hne
  refine S.graph.dist a w w' he he' (fun hc => hne (by rw [hc])) ?_
  have ew : dirTo V a w = (0, (V w).2) := by
    show ((V w).1 - (V a).1, (V w).2 - (V a).2) = _
    rw [h, u1]; simp
  have ew' : dirTo V a w' = (0, (V w').2) := by
    show ((V w').1 - (V a).1, (V w').2 - (V a).2) = _
    rw [h, v1]; simp
  rw [ew, ew']
  refine ⟨by unfold cross2; simp, ?_⟩
  unfold dot2
  have := mul_pos u2 v2
  dsimp only
  linarith

/-- the outer half-edges are exactly the loop of the marked one. -/
theorem outer_loop (S : Setup edges V L ord b) {e : DEdge} (he : e ∈ (make edges).edgeList) :
    Outer (V e.1) (V e.2) ↔ ∃ k, (nx edges ord b)^[k] b = e := by
  constructor
  · intro ho
    obtain ⟨k, h1, h2⟩ := S.reach_corner he ho
    obtain ⟨m, h3, h4⟩ := S.reach_corner S.mem S.outer
    have heq := S.corner_unique (S.iter_mem he k) (S.iter_mem S.mem m) h1 h3 h2 h4
    -- go on along the loop of `e` until it closes
    obtain ⟨n, hn, hper⟩ := S.periodic he
    have hper' : ∀ j, (nx edges ord b)^[n * j] e = e := by
      intro j
      induction j with
      | zero => rfl
      | succ j ih => rw [Nat.mul_succ, iterate_add_apply, hper, ih]
    have hle : k ≤ n * k := Nat.le_mul_of_pos_left k hn
    refine ⟨(n * k - k) + m, ?_⟩
    rw [iterate_add_apply, ← heq, ← iterate_add_apply, Nat.sub_add_cancel hle, hper']
  · rintro ⟨k, rfl⟩
    exact S.outer_iter S.mem S.outer k

end Setup
end Arr
end Mandoline
