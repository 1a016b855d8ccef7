import Verif.Tri.ArrLoops
import Verif.Pipe2.Tile

/-! # C108: the pieces of a triangle cut along lines -/

namespace Mandoline
namespace Arr

open Planar (dir shoelace)
open FaceCollapser Function

/-- the choices left to the library in `merge_faces` (include/mandoline/construction/face_collapser.hpp:169-243): the outcomes
of the winding number test, of the two `std::sort`s and of the disjoint set. -/
structure MergeRun (s : FaceCollapser) (V : ℤ → Dir) where
  inside : ℤ → ℤ → Bool
  pos : List ℤ
  neg : List ℤ
  hpos : pos.Perm (positiveAreas (s.volumes V))
  hneg : neg.Perm (negativeAreas (s.volumes V))
  hsort : neg.Pairwise fun a b => ¬ (volAt (s.volumes V) b > volAt (s.volumes V) a)
  R : DsuRoots (mergeDsu (s.volumes V) pos neg inside)

/-- the collapser after `merge_faces`. -/
def MergeRun.out {s : FaceCollapser} {V : ℤ → Dir} (r : MergeRun s V) : FaceCollapser :=
  s.mergeFaces (s.volumes V) r.pos r.neg r.inside r.R

/-! ## Specification -/

/-- the polygons `polys` (vertex indices, positions `V`) are the pieces of the triangle cut along the lines `L`. -/
structure Tiles (V : ℤ → Dir) (L : List Aff) (polys : List (List ℤ)) : Prop where
  /-- each point of the interior that is on no line is inside exactly one polygon: on the left of all its edges. -/
  cover : ∀ q, Generic L q → ∃! p, p ∈ polys ∧ ∀ e ∈ loopEdges p, OnLeft q (V e.1) (V e.2)
  /-- no polygon is listed twice. -/
  nodup : polys.Nodup
  /-- each polygon contains such a point, and all its vertices are on the same side of each line as that point. -/
  cell : ∀ p ∈ polys, ∃ q, Generic L q ∧ (∀ e ∈ loopEdges p, OnLeft q (V e.1) (V e.2)) ∧ ∀ v ∈ p, SameCell L q (V v)
  /-- the polygons are in the triangle. -/
  inside : ∀ p ∈ polys, ∀ v ∈ p, ∀ s ∈ sides, 0 ≤ s.at (V v)
  /-- the polygons are counter-clockwise and their areas add up to the area of the triangle. -/
  positive : ∀ p ∈ polys, 0 < shoelace V p
  total : (polys.map (shoelace V)).sum = 1 / 2

/-! ## Proof -/

theorem find_mergeReindexer_ge {d : Dsu ℤ} (R : DsuRoots d) (k : ℤ) : -1 ≤ (OMap.find intLt k (mergeReindexer R)).getD 0 := by
  have key : ∀ (l : List ℤ) (m : List (ℤ × ℤ)), OMap.Sorted intLt m → (∀ p ∈ m, -1 ≤ p.2) →
      ∀ p ∈ l.foldl (fun m r => OMap.assign intLt r ((m.length : ℤ) - 1) m) m, -1 ≤ p.2 := by
    intro l
    induction l with
    | nil => exact fun m _ h => h
    | cons r l ih =>
      intro m hs h
      rw [List.foldl_cons]
      refine ih _ (OMap.sorted_alter strictTotal_intLt hs) ?_
      rintro ⟨k, v⟩ hp
      unfold OMap.assign at hp
      rcases (OMap.mem_alter strictTotal_intLt hs).1 hp with h' | h'
      · exact h _ h'.2
      · dsimp only; rw [h'.2]; omega
  cases hf : OMap.find intLt k (mergeReindexer R) with
  | none => simp
  | some v =>
    have := key _ _ (List.pairwise_singleton _ _) (by simp) _ (OMap.mem_of_find strictTotal_intLt hf)
    simpa using this

theorem foldl_assign_int {W : Type} (P : List (ℤ × W)) (m : List (ℤ × W)) (hm : OMap.Sorted intLt m)
    (hnd : (P.map Prod.fst).Nodup) (hdis : ∀ p ∈ P, p.1 ∉ m.map Prod.fst) :
    OMap.Sorted intLt (P.foldl (fun m p => OMap.assign intLt p.1 p.2 m) m) ∧
    ∀ x, x ∈ P.foldl (fun m p => OMap.assign intLt p.1 p.2 m) m ↔ x ∈ m ∨ x ∈ P := by
  induction P generalizing m with
  | nil => exact ⟨hm, by simp⟩
  | cons p P ih =>
    rw [List.map_cons, List.nodup_cons] at hnd
    have hm' : OMap.Sorted intLt (OMap.assign intLt p.1 p.2 m) := OMap.sorted_alter strictTotal_intLt hm
    have hk : ∀ x, x ∈ OMap.assign intLt p.1 p.2 m ↔ x ∈ m ∨ x = p := by
      rintro ⟨k, v⟩
      unfold OMap.assign
      rw [OMap.mem_alter strictTotal_intLt hm]
      constructor
      · rintro (⟨_, h⟩ | ⟨h1, h2⟩)
        · exact .inl h
        · exact .inr (Prod.ext h1 h2)
      · rintro (h | h)
        · refine .inl ⟨fun hc => hdis p List.mem_cons_self (hc ▸ List.mem_map.2 ⟨_, h, rfl⟩), h⟩
        · subst h; exact .inr ⟨rfl, rfl⟩
    obtain ⟨i1, i2⟩ := ih _ hm' hnd.2 (by
      intro q hq hin
      obtain ⟨x, hx, hxe⟩ := List.mem_map.1 hin
      rcases (hk x).1 hx with h | h
      · exact hdis q (List.mem_cons_of_mem _ hq) (hxe ▸ List.mem_map.2 ⟨x, h, rfl⟩)
      · rw [h] at hxe; exact hnd.1 (hxe ▸ List.mem_map.2 ⟨q, hq, rfl⟩))
    rw [List.foldl_cons]
    refine ⟨i1, fun x => ?_⟩
    rw [i2 x, hk x, List.mem_cons]
    tauto

theorem sum_indicator {α : Type} (l : List α) (hn : l.Nodup) (P : α → Prop) [DecidablePred P] (x : α) (hx : x ∈ l) (hP : P x)
    (hu : ∀ y ∈ l, P y → y = x) : (l.map fun y => if P y then (1 : ℚ) else 0).sum = 1 := by
  induction l with
  | nil => cases hx
  | cons a l ih =>
    rw [List.nodup_cons] at hn
    rw [List.map_cons, List.sum_cons]
    by_cases ha : P a
    · have hax := hu a List.mem_cons_self ha
      have : (l.map fun y => if P y then (1 : ℚ) else 0) = l.map fun _ => 0 := by
        refine List.map_congr_left fun y hy => if_neg fun hc => ?_
        rw [hu y (List.mem_cons_of_mem _ hy) hc, ← hax] at hy
        exact hn.1 hy
      rw [this, if_pos ha]
      simp
    · rw [if_neg ha, zero_add]
      refine ih hn.2 ?_ fun y hy => hu y (List.mem_cons_of_mem _ hy)
      rcases List.mem_cons.1 hx with h | h
      · rw [h] at hP; exact absurd hP ha
      · exact h

theorem sum_sub {α : Type} (l : List α) (f g : α → ℚ) : (l.map fun e => f e - g e).sum = (l.map f).sum - (l.map g).sum := by
  induction l with
  | nil => simp
  | cons a l ih => simp only [List.map_cons, List.sum_cons, ih]; ring

theorem sum_pos {α : Type} (l : List α) (hl : l ≠ []) (f : α → ℚ) (h : ∀ x ∈ l, 0 < f x) : 0 < (l.map f).sum := by
  induction l with
  | nil => exact absurd rfl hl
  | cons a l ih =>
    rw [List.map_cons, List.sum_cons]
    by_cases hl' : l = []
    · subst hl'; simpa using h a List.mem_cons_self
    · have := ih hl' fun x hx => h x (List.mem_cons_of_mem _ hx)
      have := h a List.mem_cons_self
      linarith

/-- `h` is `cross` integrated clockwise around the triangle, starting at the corner `(0,0)`. -/
def border (p : Dir) : ℚ := if p = (0, 0) then 0 else if p.1 + p.2 = 1 then - p.1 else if p.2 = 0 then -1 else 0

theorem border_diff {p p' : Dir} (h : Outer p p') (i : 0 ≤ p.1 ∧ 0 ≤ p.2 ∧ p.1 + p.2 ≤ 1)
    (i' : 0 ≤ p'.1 ∧ 0 ≤ p'.2 ∧ p'.1 + p'.2 ≤ 1) :
    cross2 p p' = border p' - border p - (if p' = (0, 0) then 1 else 0) := by
  obtain ⟨x, y⟩ := p
  obtain ⟨x', y'⟩ := p'
  rw [outer_iff] at h
  dsimp only at h i i'
  unfold border cross2
  simp only [Prod.mk.injEq]
  rcases h with ⟨rfl, rfl, h⟩ | ⟨rfl, rfl, h⟩ | ⟨h1, h2, h3⟩
  · have a1 : ¬ y' = 0 := by intro hc; linarith
    by_cases hy : y = 0
    · simp [a1, hy]
    · simp [a1, hy]
  · have a1 : ¬ x = 0 := by intro hc; linarith
    by_cases hx : x' = 0
    · subst hx; simp [a1]; split <;> linarith
    · have a2 : ¬ x' = 1 := by intro hc; linarith
      simp [a1, hx, a2]
      split <;> linarith
  · have a1 : ¬ x' = 0 := by intro hc; linarith
    have e1 : ¬ (x = 0 ∧ y = 0) := by rintro ⟨rfl, rfl⟩; linarith
    have e2 : ¬ (x' = 0 ∧ y' = 0) := by rintro ⟨rfl, rfl⟩; linarith
    rw [if_neg e1, if_neg e2, if_pos h1, if_pos h2, if_neg e2]
    have : y = 1 - x := by linarith
    have : y' = 1 - x' := by linarith
    subst y y'
    ring

variable {edges : List DEdge} {V : ℤ → Dir} {L : List Aff} {ord : ℤ → List ℤ} {b : DEdge}

namespace Setup

/-- sums over a set of half-edges closed under `next` telescope. -/
theorem telescope (S : Setup edges V L ord b) (C : List DEdge) (hn : C.Nodup) (hs : ∀ e ∈ C, e ∈ (make edges).edgeList)
    (hc : ∀ e ∈ C, nx edges ord b e ∈ C) (h : Dir → ℚ) : (C.map fun e => h (V e.2)).sum = (C.map fun e => h (V e.1)).sum := by
  have hnd : (C.map (nx edges ord b)).Nodup :=
    List.Nodup.map_on (fun x hx y hy hxy => S.nx_inj (hs x hx) (hs y hy) hxy) hn
  have hsub : (C.map (nx edges ord b)).Subperm C := hnd.subperm fun x hx => by
    obtain ⟨y, hy, rfl⟩ := List.mem_map.1 hx
    exact hc y hy
  have hp : (C.map (nx edges ord b)).Perm C := hsub.perm_of_length_le (by simp)
  have h1 := (hp.map fun e => h (V e.1)).sum_eq
  rw [List.map_map] at h1
  rw [← h1]
  refine congrArg List.sum (List.map_congr_left fun e he => ?_)
  show h (V e.2) = h (V (nx edges ord b e).1)
  rw [(S.nx_mem (hs e he)).2]

/-- the outer half-edges sweep minus the area of the triangle. -/
theorem outer_sum (S : Setup edges V L ord b) (C : List DEdge) (hn : C.Nodup)
    (hm : ∀ e, e ∈ C ↔ e ∈ (make edges).edgeList ∧ Outer (V e.1) (V e.2)) :
    (C.map fun e => cross2 (V e.1) (V e.2)).sum = -1 := by
  have hs : ∀ e ∈ C, e ∈ (make edges).edgeList := fun e he => ((hm e).1 he).1
  have hc : ∀ e ∈ C, nx edges ord b e ∈ C := fun e he =>
    (hm _).2 ⟨(S.nx_mem (hs e he)).1, S.outer_step (hs e he) ((hm e).1 he).2⟩
  have e1 : (C.map fun e => cross2 (V e.1) (V e.2)) =
      C.map fun e => (border (V e.2) - border (V e.1)) - (if V e.2 = (0, 0) then (1 : ℚ) else 0) := by
    refine List.map_congr_left fun e he => ?_
    obtain ⟨i1, i2⟩ := S.inside_at (hs e he)
    exact border_diff ((hm e).1 he).2 i1 i2
  have e2 := S.telescope C hn hs hc border
  have e3 := S.telescope C hn hs hc fun p => if p = (0, 0) then (1 : ℚ) else 0
  obtain ⟨k, h1, h2⟩ := S.reach_corner S.mem S.outer
  have e4 := sum_indicator C hn (fun e => V e.1 = (0, 0)) _ ((hm _).2 ⟨S.iter_mem S.mem k, h2⟩) h1 fun y hy hy' =>
    S.corner_unique (hs y hy) (S.iter_mem S.mem k) hy' h1 ((hm y).1 hy).2 h2
  rw [e1, sum_sub C (fun e => border (V e.2) - border (V e.1)) fun e => if V e.2 = (0, 0) then (1 : ℚ) else 0,
    sum_sub C (fun e => border (V e.2)) fun e => border (V e.1), e2, e3, e4]
  ring

/-- a set of half-edges closed under `next` around a point sweeps a positive area. -/
theorem around_pos (S : Setup edges V L ord b) (C : List DEdge) (hne : C ≠ []) (hn : C.Nodup)
    (hs : ∀ e ∈ C, e ∈ (make edges).edgeList) (hc : ∀ e ∈ C, nx edges ord b e ∈ C) (q : Dir)
    (hl : ∀ e ∈ C, OnLeft q (V e.1) (V e.2)) : 0 < (C.map fun e => cross2 (V e.1) (V e.2)).sum := by
  have e1 : (C.map fun e => cross2 (V e.1) (V e.2)) =
      C.map fun e => cross2 (dir (V e.1) (V e.2)) (dir (V e.1) q) - (cross2 (V e.2) q - cross2 (V e.1) q) := by
    refine List.map_congr_left fun e _ => ?_
    unfold cross2 dir; dsimp only; ring
  rw [e1, sum_sub C (fun e => cross2 (dir (V e.1) (V e.2)) (dir (V e.1) q)) fun e => cross2 (V e.2) q - cross2 (V e.1) q,
    sum_sub C (fun e => cross2 (V e.2) q) fun e => cross2 (V e.1) q, S.telescope C hn hs hc fun p => cross2 p q, sub_self, sub_zero]
  exact sum_pos C hne _ hl

/-- the loop through a half-edge. -/
theorem around (S : Setup edges V L ord b) {q : Dir} (hq : Generic L q) {e : DEdge} (he : e ∈ (make edges).edgeList)
    (hl : Left L q (V e.1) (V e.2)) (C : List DEdge) (hC : ∀ x, x ∈ C ↔ ∃ k, (nx edges ord b)^[k] e = x) :
    Around (make edges).edgeList V L q C where
  ne := by
    intro h0
    have := (hC e).2 ⟨0, rfl⟩
    rw [h0] at this; cases this
  sub := by
    intro x hx
    obtain ⟨k, rfl⟩ := (hC x).1 hx
    exact S.iter_mem he k
  left := by
    intro x hx
    obtain ⟨k, rfl⟩ := (hC x).1 hx
    exact S.left_iter hq he hl k
  succ := by
    intro x hx
    obtain ⟨k, rfl⟩ := (hC x).1 hx
    refine ⟨_, (hC _).2 ⟨k + 1, rfl⟩, ?_⟩
    rw [iterate_succ_apply']
    exact (S.nx_mem (S.iter_mem he k)).2
  pred := by
    intro x hx
    obtain ⟨k, rfl⟩ := (hC x).1 hx
    obtain ⟨n, hn, hper⟩ := S.periodic (S.iter_mem he k)
    obtain ⟨m, rfl⟩ : ∃ m, n = m + 1 := ⟨n - 1, by omega⟩
    refine ⟨(nx edges ord b)^[m + k] e, (hC _).2 ⟨m + k, rfl⟩, ?_⟩
    have h1 := (S.nx_mem (S.iter_mem (S.iter_mem he k) m)).2
    rw [← iterate_succ_apply' (nx edges ord b), hper] at h1
    rw [iterate_add_apply]
    exact h1.symm

/-- labels after hole merging: nothing is merged. -/
theorem labels (S : Setup edges V L ord b) (R : DsuRoots ((col edges b).unify ord).ds)
    (M : MergeRun ((col edges b).bakeSimple ord R) V) (e e' : DEdge) (he : e ∈ (make edges).edgeList)
    (he' : e' ∈ (make edges).edgeList) :
    (M.out.face e = M.out.face e' ↔ ∃ k, (nx edges ord b)^[k] e = e') ∧
    (0 ≤ M.out.face e ↔ ¬ Outer (V e.1) (V e.2)) := by
  have hE : ((col edges b).bakeSimple ord R).edgeList = (make edges).edgeList := by
    unfold bakeSimple
    rw [edgeList_finalize]
    obtain ⟨h1, _⟩ := unify_spec (colOk edges b) (colDeg edges b) ord S.perm'
    have : ((col edges b).unify ord).edgeList = (col edges b).edgeList := by unfold edgeList; rw [h1]
    rw [this, colE]
  have hsort : OMap.Sorted edgeLt ((col edges b).bakeSimple ord R).etf := by
    unfold bakeSimple finalize OMap.Sorted
    rw [List.pairwise_map]
    have := (ok_unify (colOk edges b) (colDeg edges b) ord S.perm').sorted
    exact this
  have lab := fun x y (hx : x ∈ (make edges).edgeList) (hy : y ∈ (make edges).edgeList) => C108_marked_loops S.perm S.mem R x y hx hy
  have lab1 : ∀ x y, x ∈ (make edges).edgeList → y ∈ (make edges).edgeList →
      (((col edges b).bakeSimple ord R).face x = ((col edges b).bakeSimple ord R).face y ↔ ∃ k, (nx edges ord b)^[k] x = y) :=
    fun x y hx hy => (lab x y hx hy).1
  have lab2 : ∀ x, x ∈ (make edges).edgeList → (((col edges b).bakeSimple ord R).face x = -1 ↔ Outer (V x.1) (V x.2)) :=
    fun x hx => ((lab x x hx hx).2.1).trans (S.outer_loop hx).symm
  have hole : ∀ f n, ¬ ((col edges b).bakeSimple ord R).HoleOf V M.inside f n := by
    rintro f n ⟨_, ⟨x, hx, hxn⟩, _, hn1, _, hneg, _⟩
    rw [hE] at hx
    have hno : ¬ Outer (V x.1) (V x.2) := fun hc => hn1 (hxn ▸ (lab2 x hx).2 hc)
    obtain ⟨q, hq, hl⟩ := S.graph.exists_left (u := x.1) (a := x.2) hx hno
    have hmem : ∀ y, y ∈ ((col edges b).bakeSimple ord R).edgeList.filter
        (fun e => decide (((col edges b).bakeSimple ord R).face e = n)) ↔ y ∈ (make edges).edgeList ∧ ∃ k, (nx edges ord b)^[k] x = y := by
      intro y
      rw [List.mem_filter, decide_eq_true_eq, hE]
      constructor
      · rintro ⟨h1, h2⟩; exact ⟨h1, (lab1 x y hx h1).1 (hxn.trans h2.symm)⟩
      · rintro ⟨h1, h2⟩; exact ⟨h1, ((lab1 x y hx h1).2 h2).symm.trans hxn⟩
    have := S.around_pos (((col edges b).bakeSimple ord R).edgeList.filter
        (fun e => decide (((col edges b).bakeSimple ord R).face e = n))) (by
        intro h0
        have := (hmem x).2 ⟨hx, 0, rfl⟩
        rw [h0] at this; cases this)
      ((edgeList_nodup hsort).filter _) (fun y hy => ((hmem y).1 hy).1) (fun y hy => by
        obtain ⟨h1, k, h2⟩ := (hmem y).1 hy
        refine (hmem _).2 ⟨(S.nx_mem h1).1, k + 1, ?_⟩
        rw [iterate_succ_apply', h2]) q (fun y hy => by
        obtain ⟨h1, k, h2⟩ := (hmem y).1 hy
        have := (S.left_iter hq hx hl k).left
        rw [h2] at this
        exact this)
    unfold area at hneg
    linarith
  have eqv : ∀ f n, Relation.EqvGen (((col edges b).bakeSimple ord R).HoleOf V M.inside) f n ↔ f = n := by
    intro f n
    constructor
    · intro h
      induction h with
      | rel _ _ h => exact absurd h (hole _ _)
      | refl _ => rfl
      | symm _ _ _ ih => exact ih.symm
      | trans _ _ _ _ _ i j => exact i.trans j
    · rintro rfl; exact .refl _
  have c68 := fun x y (hx : x ∈ (make edges).edgeList) (hy : y ∈ (make edges).edgeList) =>
    C68_same_face_iff_linked ((col edges b).bakeSimple ord R) hsort V M.inside M.pos M.neg M.hpos M.hneg M.hsort M.R x y
      (by rw [hE]; exact hx) (by rw [hE]; exact hy)
  refine ⟨?_, ?_⟩
  · rw [← lab1 e e' he he']
    exact ((c68 e e' he he').1).trans (eqv _ _)
  · have h1 : M.out.face e = -1 ↔ Outer (V e.1) (V e.2) := by
      rw [← lab2 e he]; exact (c68 e e he he).2
    have h2 : -1 ≤ M.out.face e := by
      unfold MergeRun.out mergeFaces face
      dsimp only
      rw [OMap.find_mapVal (fun p : ℤ × Bool => ((OMap.find intLt (M.R.root p.1) (mergeReindexer M.R)).getD 0, p.2)) e]
      cases OMap.find edgeLt e ((col edges b).bakeSimple ord R).etf with
      | none => simp
      | some c =>
        simp only [Option.map_some, Option.getD_some]
        exact find_mergeReindexer_ge M.R _
    rw [← h1]
    omega

/-- **C108.** Whatever the tie-breaking of the sorts, the disjoint sets and the winding number test: the collapser started on
the graph of a triangle cut along lines, with one outer half-edge marked for removal, reports polygons that tile the triangle.
Each half-edge of the graph that does not run around the outside belongs to exactly one polygon. -/
theorem pieces (S : Setup edges V L ord b) (R : DsuRoots ((col edges b).unify ord).ds)
    (M : MergeRun ((col edges b).bakeSimple ord R) V) :
    ∃ out, M.out.facesNoHoles = some out ∧ Tiles V L (out.map Prod.snd) ∧
      ((out.map Prod.snd).flatMap loopEdges).Nodup ∧
      ∀ e, e ∈ (out.map Prod.snd).flatMap loopEdges ↔ e ∈ (make edges).edgeList ∧ ¬ Outer (V e.1) (V e.2) := by
  obtain ⟨q1, q2, q3⟩ := permMap_unify (colOk edges b) (colDeg edges b) ord S.perm'
  have hd : M.out.deg = ((col edges b).unify ord).deg := rfl
  have hq2 : ∀ e, e ∈ M.out.deg.map Prod.fst ↔ e ∈ (make edges).edgeList := fun e => by rw [hd, q2, colE]
  have lab := fun x y (hx : x ∈ (make edges).edgeList) (hy : y ∈ (make edges).edgeList) => S.labels R M x y hx hy
  obtain ⟨avail, out, a1, _, a3, a4, a5⟩ := faces_inv M.out (by rw [hd]; exact q1)
    (fun e he => (((lab e _ ((hq2 e).1 he) (S.nx_mem ((hq2 e).1 he)).1).1).2 ⟨1, rfl⟩).symm) (M.out.deg.map Prod.fst) (fun e he => he)
  have horb : ∀ e, e ∈ (make edges).edgeList → ∀ x, x ∈ orb M.out.deg e ↔ ∃ k, (nx edges ord b)^[k] e = x := fun e he x => by
    rw [hd]; exact mem_orb q1 ((q2 e).2 (by rw [colE]; exact he)) x
  have hloop : ∀ p ∈ out, loopEdges (p.2.map Prod.fst) = p.2 := by
    intro p hp
    obtain ⟨_, e, he, _, hpe⟩ := a5 p hp
    rw [hpe]
    exact orb_eq_loopEdges q1 q3 he
  -- distinct ids
  have hids : (out.map Prod.fst).Nodup := by
    rw [List.nodup_iff_pairwise_ne, List.pairwise_map]
    rw [List.nodup_flatMap] at a3
    refine List.Pairwise.imp_of_mem ?_ a3.2
    intro p p' hp hp' hdis heq
    obtain ⟨_, e, he, h1, h2⟩ := a5 p hp
    obtain ⟨_, e', he', h1', h2'⟩ := a5 p' hp'
    have hk := ((lab e e' ((hq2 e).1 he) ((hq2 e').1 he')).1).1 (h1.trans (heq.trans h1'.symm))
    refine hdis (a := e') ?_ ?_
    · rw [h2]; exact (horb e ((hq2 e).1 he) e').2 hk
    · rw [h2']; exact (horb e' ((hq2 e').1 he') e').2 ⟨0, rfl⟩
  set fs := out.map fun p => (p.1, p.2.map Prod.fst) with hfs
  have hfaces : M.out.faces = some fs := by
    unfold faces edgeLoops
    rw [a1]; rfl
  obtain ⟨f1, f2⟩ := foldl_assign_int fs [] OMap.sorted_nil (by rw [hfs, List.map_map]; exact hids) (by simp)
  set res := fs.foldl (fun m p => OMap.assign intLt p.1 p.2 m) [] with hres
  have hresnd : res.Nodup := by
    rw [List.nodup_iff_pairwise_ne]
    refine f1.imp ?_
    rintro a c hac rfl
    rw [strictTotal_intLt.irrefl] at hac; cases hac
  have hfsnd : fs.Nodup := by
    refine List.Nodup.of_map Prod.fst ?_
    rw [hfs, List.map_map]; exact hids
  have hperm : res.Perm fs := (List.perm_ext_iff_of_nodup hresnd hfsnd).2 fun x => by rw [f2 x]; simp
  -- one polygon
  have hpoly : ∀ p, p ∈ res.map Prod.snd ↔ ∃ o ∈ out, p = o.2.map Prod.fst := by
    intro p
    rw [(hperm.map Prod.snd).mem_iff, hfs, List.map_map, List.mem_map]
    constructor
    · rintro ⟨o, ho, h⟩; exact ⟨o, ho, h.symm⟩
    · rintro ⟨o, ho, h⟩; exact ⟨o, ho, h.symm⟩
  have hout : ∀ o ∈ out, ∃ e, e ∈ (make edges).edgeList ∧ ¬ Outer (V e.1) (V e.2) ∧
      (∀ x, x ∈ o.2 ↔ ∃ k, (nx edges ord b)^[k] e = x) ∧ o.2.Nodup := by
    intro o ho
    obtain ⟨h0, e, he, h1, h2⟩ := a5 o ho
    have he' := (hq2 e).1 he
    exact ⟨e, he', ((lab e e he' he').2).1 (by rw [h1]; exact h0), fun x => by rw [h2]; exact horb e he' x, by rw [h2]; exact orb_nodup _ _⟩
  have hflat : ((res.map Prod.snd).flatMap loopEdges).Perm (out.flatMap Prod.snd) := by
    have h1 : (res.map Prod.snd).Perm (fs.map Prod.snd) := hperm.map _
    refine (List.Perm.flatMap_right loopEdges h1).trans (List.Perm.of_eq ?_)
    rw [hfs, List.map_map, List.flatMap_map]
    exact List.flatMap_congr fun p hp => hloop p hp
  have hE : ∀ e, e ∈ out.flatMap Prod.snd ↔ e ∈ (make edges).edgeList ∧ ¬ Outer (V e.1) (V e.2) := by
    intro e
    rw [a4 e]
    constructor
    · rintro ⟨x, hx, h0, he⟩
      have hx' := (hq2 x).1 hx
      obtain ⟨k, rfl⟩ := (horb x hx' e).1 he
      have hm := S.iter_mem hx' k
      refine ⟨hm, ((lab _ _ hm hm).2).1 ?_⟩
      rw [← ((lab x _ hx' hm).1).2 ⟨k, rfl⟩]; exact h0
    · rintro ⟨h1, h2⟩
      exact ⟨e, (hq2 e).2 h1, ((lab e e h1 h1).2).2 h2, (horb e h1 e).2 ⟨0, rfl⟩⟩
  have hnx : ∀ o ∈ out, ∀ x ∈ o.2, nx edges ord b x ∈ o.2 := by
    intro o ho x hx
    obtain ⟨e, _, _, h3, _⟩ := hout o ho
    obtain ⟨k, rfl⟩ := (h3 x).1 hx
    exact (h3 _).2 ⟨k + 1, by rw [iterate_succ_apply']⟩
  have hsubE : ∀ o ∈ out, ∀ x ∈ o.2, x ∈ (make edges).edgeList := fun o ho x hx =>
    ((hE x).1 (List.mem_flatMap.2 ⟨o, ho, hx⟩)).1
  have hdisj : ∀ o ∈ out, ∀ o' ∈ out, o = o' ∨ List.Disjoint o.2 o'.2 := by
    have h := (List.nodup_flatMap.1 a3).2
    intro o ho o' ho'
    rcases eq_or_ne o o' with he | he
    · exact .inl he
    · haveI : Std.Symm fun (x y : ℤ × List DEdge) => List.Disjoint x.2 y.2 := ⟨fun _ _ h => h.symm⟩
      exact .inr (List.Pairwise.forall (R := fun (x y : ℤ × List DEdge) => List.Disjoint x.2 y.2) h ho ho' he)
  have hvert : ∀ o ∈ out, ∀ v ∈ o.2.map Prod.fst, ∃ x ∈ o.2, x.1 = v := by
    intro o _ v hv
    obtain ⟨x, hx, h⟩ := List.mem_map.1 hv
    exact ⟨x, hx, h⟩
  have hsh : ∀ o ∈ out, shoelace V (o.2.map Prod.fst) = (o.2.map fun e => cross2 (V e.1) (V e.2) / 2).sum := by
    intro o ho
    unfold shoelace
    have h1 := hloop o ho
    unfold loopEdges at h1
    rw [h1]
    refine congrArg List.sum (List.map_congr_left fun e _ => ?_)
    unfold cross2; ring
  have half : ∀ l : List DEdge, (l.map fun e => cross2 (V e.1) (V e.2) / 2).sum = (l.map fun e => cross2 (V e.1) (V e.2)).sum / 2 := by
    intro l
    induction l with
    | nil => simp
    | cons a l ih => simp only [List.map_cons, List.sum_cons, ih]; ring
  refine ⟨res, ?_, ⟨?_, ?_, ?_, ?_, ?_, ?_⟩, hflat.nodup_iff.2 a3, fun e => by rw [hflat.mem_iff]; exact hE e⟩
  · unfold facesNoHoles
    rw [hfaces]; rfl
  · -- cover
    intro q hq
    obtain ⟨a, c, hac, hcell⟩ := S.graph.exists_vertex hq
    obtain ⟨w, hw, hl⟩ := S.graph.star hq hac hcell
    have hno : ¬ Outer (V a) (V w) := fun hc => outer_not_left hc hq.inside hl.left
    obtain ⟨o, ho, hmem⟩ := List.mem_flatMap.1 ((hE (a, w)).2 ⟨hw, hno⟩)
    obtain ⟨e, he, hne, h3, h4⟩ := hout o ho
    -- all of the loop has `q` on its left
    have horbw : ∀ x, x ∈ o.2 ↔ ∃ k, (nx edges ord b)^[k] (a, w) = x := by
      intro x
      obtain ⟨k, hk⟩ := (h3 _).1 hmem
      constructor
      · intro hx
        obtain ⟨j, hj⟩ := (h3 x).1 hx
        have l1 := ((lab e (a, w) he hw).1).2 ⟨k, hk⟩
        have hxE := hsubE o ho x hx
        have l2 := ((lab e x he hxE).1).2 ⟨j, hj⟩
        exact ((lab (a, w) x hw hxE).1).1 (l1.symm.trans l2)
      · rintro ⟨j, rfl⟩
        exact (h3 _).2 ⟨j + k, by rw [iterate_add_apply, hk]⟩
    have A := S.around hq hw hl o.2 horbw
    refine ⟨o.2.map Prod.fst, ⟨(hpoly _).2 ⟨o, ho, rfl⟩, ?_⟩, ?_⟩
    · rw [hloop o ho]; exact fun x hx => (A.left x hx).left
    · rintro p ⟨hp, hpl⟩
      obtain ⟨o', ho', rfl⟩ := (hpoly p).1 hp
      rw [hloop o' ho'] at hpl
      obtain ⟨e', he', hne', h3', h4'⟩ := hout o' ho'
      obtain ⟨q', hq', hl'⟩ := S.graph.exists_left (u := e'.1) (a := e'.2) he' hne'
      have A' := (S.around hq' he' hl' o'.2 h3').same_cell S.graph hq' hq hpl
      obtain ⟨x, hx, hx'⟩ := A.meet S.graph hq A'
      by_cases hoo : o = o'
      · rw [hoo]
      · exact absurd hx' (List.disjoint_left.1 ((hdisj o ho o' ho').resolve_left hoo) hx)
  · -- nodup
    have h1 : (res.map Prod.snd).Perm (fs.map Prod.snd) := hperm.map _
    rw [h1.nodup_iff, hfs, List.map_map, List.nodup_iff_pairwise_ne, List.pairwise_map]
    rw [List.nodup_flatMap] at a3
    refine List.Pairwise.imp_of_mem ?_ a3.2
    intro o o' ho ho' hdis heq
    dsimp only [Function.comp] at heq
    have : o.2 = o'.2 := by rw [← hloop o ho, ← hloop o' ho', heq]
    obtain ⟨e, _, _, h3, _⟩ := hout o ho
    have hm := (h3 e).2 ⟨0, rfl⟩
    exact hdis hm (this ▸ hm)
  · intro p hp
    obtain ⟨o, ho, rfl⟩ := (hpoly p).1 hp
    obtain ⟨e, he, hne, h3, _⟩ := hout o ho
    obtain ⟨q, hq, hl⟩ := S.graph.exists_left (u := e.1) (a := e.2) he hne
    refine ⟨q, hq, ?_, ?_⟩
    · rw [hloop o ho]
      exact fun x hx => ((S.around hq he hl o.2 h3).left x hx).left
    · intro v hv l hlL
      obtain ⟨x, hx, rfl⟩ := hvert o ho v hv
      exact ((S.around hq he hl o.2 h3).left x hx).fst l (List.mem_append_left _ hlL)
  · intro p hp v hv s hs
    obtain ⟨o, ho, rfl⟩ := (hpoly p).1 hp
    obtain ⟨x, hx, rfl⟩ := hvert o ho v hv
    exact S.graph.inside x (hsubE o ho x hx) s hs
  · intro p hp
    obtain ⟨o, ho, rfl⟩ := (hpoly p).1 hp
    obtain ⟨e, he, hne, h3, h4⟩ := hout o ho
    obtain ⟨q, hq, hl⟩ := S.graph.exists_left (u := e.1) (a := e.2) he hne
    have A := S.around hq he hl o.2 h3
    rw [hsh o ho, half]
    have := S.around_pos o.2 A.ne h4 A.sub (hnx o ho) q fun x hx => (A.left x hx).left
    linarith
  · -- total
    have e1 : ((res.map Prod.snd).map (shoelace V)).sum = ((out.flatMap Prod.snd).map fun e => cross2 (V e.1) (V e.2) / 2).sum := by
      rw [((hperm.map Prod.snd).map (shoelace V)).sum_eq, hfs, List.map_map, List.map_map]
      have : out.map ((shoelace V ∘ Prod.snd) ∘ fun p : ℤ × List DEdge => (p.1, p.2.map Prod.fst)) =
          out.map fun o => (o.2.map fun e => cross2 (V e.1) (V e.2) / 2).sum :=
        List.map_congr_left fun o ho => hsh o ho
      rw [this]
      clear * -
      induction out with
      | nil => simp
      | cons o l ih => simp only [List.map_cons, List.sum_cons, List.flatMap_cons, List.map_append, List.sum_append, ih]
    rw [e1, half]
    have hEn := edgeList_nodup (make_inv edges).2.2.2.2.1
    set F : List DEdge := (make edges).edgeList.filter fun e => decide (e ∈ out.flatMap Prod.snd) with hF
    set O : List DEdge := (make edges).edgeList.filter fun e => !decide (e ∈ out.flatMap Prod.snd) with hO
    have hFp : F.Perm (out.flatMap Prod.snd) := (List.perm_ext_iff_of_nodup (hEn.filter _) a3).2 fun e => by
      rw [List.mem_filter, decide_eq_true_eq]
      exact ⟨fun h => h.2, fun h => ⟨((hE e).1 h).1, h⟩⟩
    have hOs := S.outer_sum O (hEn.filter _) fun e => by
      rw [hO, List.mem_filter]
      constructor
      · rintro ⟨h1, h2⟩
        refine ⟨h1, ?_⟩
        by_contra hc
        rw [decide_eq_true ((hE e).2 ⟨h1, hc⟩)] at h2
        cases h2
      · rintro ⟨h1, h2⟩
        refine ⟨h1, ?_⟩
        rw [decide_eq_false (fun hc => ((hE e).1 hc).2 h2)]
        rfl
    have h0 := Pipe2.sum_antisymm hEn (fun a c h => (ok_make edges).symm a c h) (fun e => cross2 (V e.1) (V e.2))
      (fun a c => by unfold cross2; ring)
    have hsplit : ((F ++ O).map fun e => cross2 (V e.1) (V e.2)).sum =
        ((make edges).edgeList.map fun e => cross2 (V e.1) (V e.2)).sum :=
      ((List.filter_append_perm _ _).map _).sum_eq
    rw [List.map_append, List.sum_append, hOs, h0, (hFp.map _).sum_eq] at hsplit
    linarith

end Setup
end Arr
end Mandoline
