import Verif.Collapse.Angle
import Mathlib.Algebra.BigOperators.Group.List.Basic
import Mathlib.Data.List.Sort

/-!
# C68: merging hole boundaries into faces

Transcription of `volumes` and `merge_faces` (include/mandoline/construction/face_collapser.hpp:169-271). The test
`is_inside` relies on `mtao::geometry::interior_winding_number`, a library function; it is a parameter `inside n f`
("every vertex of loop `n` is inside loop `f`").
-/
namespace Mandoline
namespace FaceCollapser

/-- `volumes(V)` (face_collapser.hpp:245-271): half the sum of the determinants of the directed edges with each id. -/
def volumes (s : FaceCollapser) (V : ℤ → Dir) : List (ℤ × ℚ) :=
  (s.etf.foldl (fun m p => OMap.alter intLt p.2.1
      (fun o => o.elim (cross2 (V p.1.1) (V p.1.2)) (· + cross2 (V p.1.1) (V p.1.2))) m) []).map
    fun q => (q.1, q.2 / 2)

/-- `vols.at(f)`. -/
def volAt (vols : List (ℤ × ℚ)) (f : ℤ) : ℚ := (OMap.find intLt f vols).getD 0

/-- `positive_areas` before sorting (face_collapser.hpp:184-194). -/
def positiveAreas (vols : List (ℤ × ℚ)) : List ℤ :=
  (vols.filter fun p => decide (p.1 ≠ -1 ∧ 0 < p.2)).map Prod.fst

/-- `negative_areas` before sorting (face_collapser.hpp:184-194). -/
def negativeAreas (vols : List (ℤ × ℚ)) : List ℤ :=
  (vols.filter fun p => decide (p.1 ≠ -1 ∧ p.2 < 0)).map Prod.fst

/-- the pairs joined by the double loop (face_collapser.hpp:202-219): the inner loop stops at the first negative loop
that is larger than the positive one. -/
def mergePairs (vols : List (ℤ × ℚ)) (pos neg : List ℤ) (inside : ℤ → ℤ → Bool) : List (ℤ × ℤ) :=
  pos.flatMap fun f =>
    ((neg.takeWhile fun n => decide (¬ (-(volAt vols n) > volAt vols f))).filter fun n => inside n f).map fun n => (f, n)

/-- the disjoint set of `merge_faces`: a node per id, in map order (face_collapser.hpp:184-185). -/
def mergeDsu (vols : List (ℤ × ℚ)) (pos neg : List ℤ) (inside : ℤ → ℤ → Bool) : Dsu ℤ :=
  ⟨vols.map Prod.fst, mergePairs vols pos neg inside⟩

/-- `reindexer` (face_collapser.hpp:225-232): `reindexer[-1] = -1`, then `reindexer[r] = reindexer.size() - 1`. -/
def mergeReindexer {d : Dsu ℤ} (R : DsuRoots d) : List (ℤ × ℤ) :=
  (R.rootData.filter fun r => decide (r ≠ -1)).foldl (fun m r => OMap.assign intLt r ((m.length : ℤ) - 1) m) [(-1, -1)]

/-- `merge_faces` (face_collapser.hpp:169-243); `pos` and `neg` are the results of the two `std::sort`s. -/
def mergeFaces (s : FaceCollapser) (vols : List (ℤ × ℚ)) (pos neg : List ℤ) (inside : ℤ → ℤ → Bool)
    (R : DsuRoots (mergeDsu vols pos neg inside)) : FaceCollapser :=
  { s with etf := s.etf.map fun p => (p.1, ((OMap.find intLt (R.root p.2.1) (mergeReindexer R)).getD 0, p.2.2)) }

/-! ## specification -/

/-- the signed area enclosed by the directed edges with id `f` (shoelace formula). -/
def area (s : FaceCollapser) (V : ℤ → Dir) (f : ℤ) : ℚ :=
  ((s.edgeList.filter fun e => decide (s.face e = f)).map fun e => cross2 (V e.1) (V e.2)).sum / 2

/-- loop `n` is a candidate hole of loop `f`: `f` counter-clockwise, `n` clockwise and not larger, and inside. -/
def HoleOf (s : FaceCollapser) (V : ℤ → Dir) (inside : ℤ → ℤ → Bool) (f n : ℤ) : Prop :=
  (∃ e ∈ s.edgeList, s.face e = f) ∧ (∃ e ∈ s.edgeList, s.face e = n) ∧ f ≠ -1 ∧ n ≠ -1 ∧
  0 < s.area V f ∧ s.area V n < 0 ∧ -(s.area V n) ≤ s.area V f ∧ inside n f = true

/-! ## proofs -/

theorem face_of_mem {s : FaceCollapser} (h : OMap.Sorted edgeLt s.etf) {p : DEdge × (ℤ × Bool)} (hp : p ∈ s.etf) :
    s.face p.1 = p.2.1 :=
  join_conn_iff_of_find p.1 p.2 (OMap.find_of_mem strictTotal_edgeLt h hp)

theorem volumes_fold (V : ℤ → Dir) (l : List (DEdge × (ℤ × Bool))) (m : List (ℤ × ℚ)) (hm : OMap.Sorted intLt m) :
    OMap.Sorted intLt (l.foldl (fun m p => OMap.alter intLt p.2.1
      (fun o => o.elim (cross2 (V p.1.1) (V p.1.2)) (· + cross2 (V p.1.1) (V p.1.2))) m) m) ∧
    ∀ f, OMap.find intLt f (l.foldl (fun m p => OMap.alter intLt p.2.1
      (fun o => o.elim (cross2 (V p.1.1) (V p.1.2)) (· + cross2 (V p.1.1) (V p.1.2))) m) m) =
      if (OMap.find intLt f m).isSome ∨ ∃ p ∈ l, p.2.1 = f then
        some ((OMap.find intLt f m).getD 0 +
          ((l.filter fun p => decide (p.2.1 = f)).map fun p => cross2 (V p.1.1) (V p.1.2)).sum)
      else none := by
  induction l generalizing m with
  | nil =>
    refine ⟨hm, fun f => ?_⟩
    simp only [List.foldl_nil, List.not_mem_nil, false_and, exists_false, or_false, List.filter_nil, List.map_nil,
      List.sum_nil, add_zero]
    cases OMap.find intLt f m <;> simp
  | cons p l ih =>
    rw [List.foldl_cons]
    obtain ⟨i1, i2⟩ := ih _ (OMap.sorted_alter strictTotal_intLt hm)
    refine ⟨i1, fun f => ?_⟩
    rw [i2 f, OMap.find_alter strictTotal_intLt hm]
    by_cases hf : f = p.2.1
    · rw [if_pos hf]
      have hc : ((some ((OMap.find intLt p.2.1 m).elim (cross2 (V p.1.1) (V p.1.2))
          fun x => x + cross2 (V p.1.1) (V p.1.2))).isSome = true ∨ ∃ q ∈ l, q.2.1 = f) := .inl rfl
      rw [if_pos hc, if_pos (.inr ⟨p, List.mem_cons_self, hf.symm⟩)]
      rw [List.filter_cons_of_pos (by simpa using hf.symm), List.map_cons, List.sum_cons, hf]
      congr 1
      cases OMap.find intLt p.2.1 m with
      | none => simp
      | some x => simp only [Option.elim_some, Option.getD_some]; ring
    · rw [if_neg hf, List.filter_cons_of_neg (by simpa using fun h => hf h.symm)]
      have hc : (∃ q ∈ p :: l, q.2.1 = f) ↔ ∃ q ∈ l, q.2.1 = f := by
        constructor
        · rintro ⟨q, hq, he⟩
          rcases List.mem_cons.1 hq with rfl | hq
          · exact absurd he.symm hf
          · exact ⟨q, hq, he⟩
        · rintro ⟨q, hq, he⟩; exact ⟨q, List.mem_cons_of_mem _ hq, he⟩
      simp only [hc]

theorem map_half_sorted {m : List (ℤ × ℚ)} (hm : OMap.Sorted intLt m) :
    OMap.Sorted intLt (m.map fun q => (q.1, q.2 / 2)) := by
  unfold OMap.Sorted at hm ⊢
  rw [List.pairwise_map]; exact hm

/-- `volumes` maps each id in use to its signed area. -/
theorem volumes_spec {s : FaceCollapser} (h : OMap.Sorted edgeLt s.etf) (V : ℤ → Dir) :
    OMap.Sorted intLt (s.volumes V) ∧
    ∀ f v, (f, v) ∈ s.volumes V ↔ (∃ e ∈ s.edgeList, s.face e = f) ∧ v = s.area V f := by
  obtain ⟨h1, h2⟩ := volumes_fold V s.etf [] OMap.sorted_nil
  have hs : OMap.Sorted intLt (s.volumes V) := map_half_sorted h1
  refine ⟨hs, fun f v => ?_⟩
  rw [← OMap.find_iff strictTotal_intLt hs]
  unfold volumes
  rw [OMap.find_mapVal (fun x : ℚ => x / 2), h2 f]
  have hex : (∃ p ∈ s.etf, p.2.1 = f) ↔ ∃ e ∈ s.edgeList, s.face e = f := by
    constructor
    · rintro ⟨p, hp, he⟩
      exact ⟨p.1, List.mem_map.2 ⟨p, hp, rfl⟩, (face_of_mem h hp).trans he⟩
    · rintro ⟨e, he, hf⟩
      obtain ⟨p, hp, rfl⟩ := List.mem_map.1 he
      exact ⟨p, hp, (face_of_mem h hp).symm.trans hf⟩
  have hsum : ((s.etf.filter fun p => decide (p.2.1 = f)).map fun p => cross2 (V p.1.1) (V p.1.2)).sum =
      ((s.edgeList.filter fun e => decide (s.face e = f)).map fun e => cross2 (V e.1) (V e.2)).sum := by
    unfold edgeList
    rw [List.filter_map, List.map_map]
    have : s.etf.filter (fun p => decide (p.2.1 = f)) =
        s.etf.filter ((fun e => decide (s.face e = f)) ∘ Prod.fst) := by
      refine List.filter_congr fun p hp => ?_
      simp only [Function.comp, face_of_mem h hp]
    rw [this]
    rfl
  simp only [hex, hsum]
  unfold area
  by_cases hc : ∃ e ∈ s.edgeList, s.face e = f
  · rw [if_pos (.inr hc)]
    simp only [hc, Option.map_some, OMap.find, Option.getD_none, zero_add, Option.some.injEq, true_and]
    exact eq_comm
  · rw [if_neg (by simp [OMap.find, hc])]
    simp [hc]

/-- the joined pairs are exactly the candidate holes. -/
theorem mem_mergePairs {s : FaceCollapser} (h : OMap.Sorted edgeLt s.etf) (V : ℤ → Dir) (inside : ℤ → ℤ → Bool)
    (pos neg : List ℤ) (hp : pos.Perm (positiveAreas (s.volumes V))) (hn : neg.Perm (negativeAreas (s.volumes V)))
    (hns : neg.Pairwise fun a b => ¬ (volAt (s.volumes V) b > volAt (s.volumes V) a)) (f n : ℤ) :
    (f, n) ∈ mergePairs (s.volumes V) pos neg inside ↔ s.HoleOf V inside f n := by
  obtain ⟨hs, hm⟩ := volumes_spec h V
  have hv : ∀ g, (∃ e ∈ s.edgeList, s.face e = g) → volAt (s.volumes V) g = s.area V g := by
    intro g hg
    unfold volAt
    rw [OMap.find_of_mem strictTotal_intLt hs ((hm g _).2 ⟨hg, rfl⟩)]
    rfl
  have hpos : ∀ g, g ∈ pos ↔ (∃ e ∈ s.edgeList, s.face e = g) ∧ g ≠ -1 ∧ 0 < s.area V g := by
    intro g
    rw [hp.mem_iff]
    unfold positiveAreas
    simp only [List.mem_map, List.mem_filter, decide_eq_true_eq]
    constructor
    · rintro ⟨⟨a, b⟩, ⟨h1, h2, h3⟩, rfl⟩
      have := (hm a b).1 h1
      exact ⟨this.1, h2, by rw [← this.2]; exact h3⟩
    · rintro ⟨a, b, c⟩
      exact ⟨(g, s.area V g), ⟨(hm _ _).2 ⟨a, rfl⟩, b, c⟩, rfl⟩
  have hneg : ∀ g, g ∈ neg ↔ (∃ e ∈ s.edgeList, s.face e = g) ∧ g ≠ -1 ∧ s.area V g < 0 := by
    intro g
    rw [hn.mem_iff]
    unfold negativeAreas
    simp only [List.mem_map, List.mem_filter, decide_eq_true_eq]
    constructor
    · rintro ⟨⟨a, b⟩, ⟨h1, h2, h3⟩, rfl⟩
      have := (hm a b).1 h1
      exact ⟨this.1, h2, by rw [← this.2]; exact h3⟩
    · rintro ⟨a, b, c⟩
      exact ⟨(g, s.area V g), ⟨(hm _ _).2 ⟨a, rfl⟩, b, c⟩, rfl⟩
  -- takeWhile on a sorted list is a filter
  have htw : ∀ (l : List ℤ) (v : ℚ), l.Pairwise (fun a b => ¬ (volAt (s.volumes V) b > volAt (s.volumes V) a)) →
      ∀ x, x ∈ l.takeWhile (fun n => decide (¬ (-(volAt (s.volumes V) n) > v))) ↔
        x ∈ l ∧ ¬ (-(volAt (s.volumes V) x) > v) := by
    intro l v hl x
    induction l with
    | nil => simp
    | cons a l ih =>
      rw [List.pairwise_cons] at hl
      rw [List.takeWhile_cons]
      by_cases ha : -(volAt (s.volumes V) a) > v
      · rw [if_neg (by simpa using ha)]
        simp only [List.not_mem_nil, List.mem_cons, false_iff, not_and, not_not]
        rintro (rfl | hx)
        · exact ha
        · have := hl.1 x hx
          push Not at this
          linarith
      · rw [if_pos (by simpa using ha), List.mem_cons, ih hl.2, List.mem_cons]
        constructor
        · rintro (rfl | ⟨h1, h2⟩)
          · exact ⟨.inl rfl, ha⟩
          · exact ⟨.inr h1, h2⟩
        · rintro ⟨rfl | h1, h2⟩
          · exact .inl rfl
          · exact .inr ⟨h1, h2⟩
  unfold mergePairs HoleOf
  rw [List.mem_flatMap]
  constructor
  · rintro ⟨f', hf', hx⟩
    obtain ⟨n', hn', he⟩ := List.mem_map.1 hx
    cases he
    rw [List.mem_filter, htw neg _ hns] at hn'
    obtain ⟨⟨hn1, hn2⟩, hin⟩ := hn'
    have hf1 := (hpos f).1 hf'
    have hn1' := (hneg n).1 hn1
    rw [hv n hn1'.1, hv f hf1.1] at hn2
    exact ⟨hf1.1, hn1'.1, hf1.2.1, hn1'.2.1, hf1.2.2, hn1'.2.2, not_lt.1 hn2, hin⟩
  · rintro ⟨a1, a2, a3, a4, a5, a6, a7, a8⟩
    refine ⟨f, (hpos f).2 ⟨a1, a3, a5⟩, List.mem_map.2 ⟨n, ?_, rfl⟩⟩
    rw [List.mem_filter, htw neg _ hns]
    refine ⟨⟨(hneg n).2 ⟨a2, a4, a6⟩, ?_⟩, a8⟩
    rw [hv n a2, hv f a1]
    exact not_lt.2 a7

/-- counting up from a map that already contains `-1`. -/
theorem mergeCount_spec (l : List ℤ) : ∀ m : List (ℤ × ℤ), OMap.Sorted intLt m → l.Nodup →
    (∀ r ∈ l, OMap.find intLt r m = none) →
    OMap.Sorted intLt (l.foldl (fun m r => OMap.assign intLt r ((m.length : ℤ) - 1) m) m) ∧
    ∀ r, OMap.find intLt r (l.foldl (fun m r => OMap.assign intLt r ((m.length : ℤ) - 1) m) m) =
      if r ∈ l then some ((m.length : ℤ) - 1 + l.idxOf r) else OMap.find intLt r m := by
  induction l with
  | nil => intro m hm _ _; exact ⟨hm, by simp⟩
  | cons a l ih =>
    intro m hm hnd hnone
    rw [List.nodup_cons] at hnd
    have hm' : OMap.Sorted intLt (OMap.assign intLt a ((m.length : ℤ) - 1) m) := OMap.sorted_alter strictTotal_intLt hm
    have hfind : ∀ r, OMap.find intLt r (OMap.assign intLt a ((m.length : ℤ) - 1) m) =
        if r = a then some ((m.length : ℤ) - 1) else OMap.find intLt r m := fun r => OMap.find_alter strictTotal_intLt hm
    have hlen : (OMap.assign intLt a ((m.length : ℤ) - 1) m).length = m.length + 1 := by
      unfold OMap.assign
      rw [OMap.length_alter hm, hnone a List.mem_cons_self]; rfl
    obtain ⟨i1, i2⟩ := ih _ hm' hnd.2 (by
      intro r hr
      rw [hfind, if_neg (by rintro rfl; exact hnd.1 hr)]
      exact hnone r (List.mem_cons_of_mem _ hr))
    rw [List.foldl_cons]
    refine ⟨i1, fun r => ?_⟩
    rw [i2 r, hlen, hfind]
    by_cases hra : r = a
    · subst hra
      rw [if_neg hnd.1, if_pos rfl, if_pos List.mem_cons_self, List.idxOf_cons_self]
      simp
    · rw [if_neg hra]
      by_cases hrl : r ∈ l
      · rw [if_pos hrl, if_pos (List.mem_cons_of_mem _ hrl), List.idxOf_cons_ne _ (fun e => hra e.symm)]
        congr 1; push_cast; ring
      · rw [if_neg hrl, if_neg (by simp [hra, hrl])]

/-- **C68.** After hole merging two directed edges have the same face id iff their loops are linked by a chain of
(positive loop, hole) pairs; edges marked for removal keep `-1`. -/
theorem C68_same_face_iff_linked (s : FaceCollapser) (h : OMap.Sorted edgeLt s.etf) (V : ℤ → Dir)
    (inside : ℤ → ℤ → Bool) (pos neg : List ℤ) (hp : pos.Perm (positiveAreas (s.volumes V)))
    (hn : neg.Perm (negativeAreas (s.volumes V)))
    (hns : neg.Pairwise fun a b => ¬ (volAt (s.volumes V) b > volAt (s.volumes V) a))
    (R : DsuRoots (mergeDsu (s.volumes V) pos neg inside)) (e e' : DEdge) (he : e ∈ s.edgeList) (he' : e' ∈ s.edgeList) :
    ((s.mergeFaces (s.volumes V) pos neg inside R).face e = (s.mergeFaces (s.volumes V) pos neg inside R).face e' ↔
      Relation.EqvGen (s.HoleOf V inside) (s.face e) (s.face e')) ∧
    ((s.mergeFaces (s.volumes V) pos neg inside R).face e = -1 ↔ s.face e = -1) := by
  obtain ⟨hs, hm⟩ := volumes_spec h V
  have hconn0 : (fun a b => (a, b) ∈ (mergeDsu (s.volumes V) pos neg inside).joins) = s.HoleOf V inside := by
    funext a b
    exact propext (mem_mergePairs h V inside pos neg hp hn hns a b)
  have hconn : ∀ a b, (mergeDsu (s.volumes V) pos neg inside).Conn a b ↔
      Relation.EqvGen (s.HoleOf V inside) a b := by
    intro a b
    unfold Dsu.Conn
    rw [hconn0]
  have hmem : ∀ x ∈ s.edgeList, s.face x ∈ (mergeDsu (s.volumes V) pos neg inside).nodes := by
    intro x hx
    exact List.mem_map.2 ⟨_, (hm (s.face x) _).2 ⟨⟨x, hx, rfl⟩, rfl⟩, rfl⟩
  have hnd : (mergeDsu (s.volumes V) pos neg inside).nodes.Nodup := by
    show ((s.volumes V).map Prod.fst).Nodup
    rw [List.nodup_iff_pairwise_ne, List.pairwise_map]
    refine hs.imp ?_
    intro a b hab heq
    rw [heq, strictTotal_intLt.irrefl] at hab; cases hab
  have hok : (mergeDsu (s.volumes V) pos neg inside).Ok := by
    refine ⟨hnd, ?_⟩
    rintro ⟨a, b⟩ hab
    have := (mem_mergePairs h V inside pos neg hp hn hns a b).1 hab
    obtain ⟨⟨x, hx, rfl⟩, ⟨y, hy, rfl⟩, _⟩ := this
    exact ⟨hmem x hx, hmem y hy⟩
  -- the class of -1 is a singleton
  have hneg1 : ∀ a b, Relation.EqvGen (s.HoleOf V inside) a b → (a = -1 ↔ b = -1) := by
    intro a b hab
    induction hab with
    | rel a b hab => obtain ⟨_, _, h3, h4, _⟩ := hab; simp [h3, h4]
    | refl a => rfl
    | symm a b _ ih => exact ih.symm
    | trans a b c _ _ i1 i2 => exact i1.trans i2
  have hroot1 : ∀ c, R.root c = -1 ↔ c = -1 := by
    intro c
    exact ((hneg1 _ _ ((hconn _ _).1 (R.root_conn c)))).symm
  have hcnt := mergeCount_spec (R.rootData.filter fun r => decide (r ≠ -1)) [(-1, -1)] (by simp [OMap.Sorted])
    ((R.rootData_nodup hok).filter _) (by
      intro r hr
      rw [List.mem_filter, decide_eq_true_eq] at hr
      unfold OMap.find intLt
      by_cases h1 : r < -1
      · simp [h1]
      · have : -1 < r := by have := hr.2; omega
        simp [h1, this, OMap.find])
  have hfind1 : OMap.find intLt (-1) ([(-1, -1)] : List (ℤ × ℤ)) = some (-1) := by decide
  have hface : ∀ x ∈ s.edgeList, (s.mergeFaces (s.volumes V) pos neg inside R).face x =
      (OMap.find intLt (R.root (s.face x)) (mergeReindexer R)).getD 0 := by
    intro x hx
    obtain ⟨c, hc⟩ := (mem_edgeList_iff h x).1 hx
    unfold face mergeFaces
    simp only
    rw [OMap.find_mapVal (fun v : ℤ × Bool => ((OMap.find intLt (R.root v.1) (mergeReindexer R)).getD 0, v.2)), hc]
    rfl
  have hval : ∀ x ∈ s.edgeList,
      (s.face x = -1 → (OMap.find intLt (R.root (s.face x)) (mergeReindexer R)).getD 0 = -1) ∧
      (s.face x ≠ -1 → R.root (s.face x) ∈ (R.rootData.filter fun r => decide (r ≠ -1)) ∧
        (OMap.find intLt (R.root (s.face x)) (mergeReindexer R)).getD 0 =
          ((R.rootData.filter fun r => decide (r ≠ -1)).idxOf (R.root (s.face x)) : ℤ)) := by
    intro x hx
    constructor
    · intro hx1
      rw [(hroot1 _).2 hx1]
      unfold mergeReindexer
      rw [hcnt.2 (-1), if_neg (by simp), hfind1]
      rfl
    · intro hx1
      have hmm : R.root (s.face x) ∈ (R.rootData.filter fun r => decide (r ≠ -1)) := by
        rw [List.mem_filter, decide_eq_true_eq]
        exact ⟨(R.mem_rootData _).2 ⟨R.root_mem _ (hmem x hx), R.root_root _⟩, fun hc => hx1 ((hroot1 _).1 hc)⟩
      refine ⟨hmm, ?_⟩
      unfold mergeReindexer
      rw [hcnt.2 _, if_pos hmm]
      simp
  rw [hface e he, hface e' he']
  obtain ⟨a1, a2⟩ := hval e he
  obtain ⟨b1, b2⟩ := hval e' he'
  refine ⟨?_, ?_⟩
  · rw [← hconn, ← R.root_eq_iff]
    constructor
    · intro heq
      by_cases ha : s.face e = -1 <;> by_cases hb : s.face e' = -1
      · rw [ha, hb]
      · rw [a1 ha, (b2 hb).2] at heq; omega
      · rw [(a2 ha).2, b1 hb] at heq; omega
      · rw [(a2 ha).2, (b2 hb).2] at heq
        exact (List.idxOf_inj (a2 ha).1).1 (by exact_mod_cast heq)
    · intro heq; rw [heq]
  · constructor
    · intro heq
      by_contra hc
      rw [(a2 hc).2] at heq; omega
    · exact a1

/-- **C68, defect.** A hole boundary `n` inside two nested positive loops `f₁`, `f₂` (the annulus around it and the
surrounding one) merges the two faces into one. -/
theorem C68_nested_loops_merged (s : FaceCollapser) (h : OMap.Sorted edgeLt s.etf) (V : ℤ → Dir)
    (inside : ℤ → ℤ → Bool) (pos neg : List ℤ) (hp : pos.Perm (positiveAreas (s.volumes V)))
    (hn : neg.Perm (negativeAreas (s.volumes V)))
    (hns : neg.Pairwise fun a b => ¬ (volAt (s.volumes V) b > volAt (s.volumes V) a))
    (R : DsuRoots (mergeDsu (s.volumes V) pos neg inside)) (f₁ f₂ n : ℤ)
    (h1 : s.HoleOf V inside f₁ n) (h2 : s.HoleOf V inside f₂ n) (e e' : DEdge) (he : e ∈ s.edgeList)
    (he' : e' ∈ s.edgeList) (hf : s.face e = f₁) (hf' : s.face e' = f₂) :
    (s.mergeFaces (s.volumes V) pos neg inside R).face e = (s.mergeFaces (s.volumes V) pos neg inside R).face e' := by
  rw [(C68_same_face_iff_linked s h V inside pos neg hp hn hns R e e' he he').1, hf, hf']
  exact .trans _ _ _ (.rel _ _ h1) (.symm _ _ (.rel _ _ h2))

/-- **C68.** If every clockwise loop is a candidate hole of at most one counter-clockwise loop (no nesting deeper than
one), two different counter-clockwise loops are never merged, and a clockwise loop is merged with a counter-clockwise
one iff it is its hole. -/
theorem C68_unnested (s : FaceCollapser) (V : ℤ → Dir) (inside : ℤ → ℤ → Bool)
    (huniq : ∀ f f' n, s.HoleOf V inside f n → s.HoleOf V inside f' n → f = f') (a b : ℤ)
    (hab : Relation.EqvGen (s.HoleOf V inside) a b) :
    (0 < s.area V a → 0 < s.area V b → a = b) ∧ (0 < s.area V a → s.area V b < 0 → s.HoleOf V inside a b) := by
  have key : ∃ f, (a = f ∨ s.HoleOf V inside f a) ∧ (b = f ∨ s.HoleOf V inside f b) := by
    induction hab with
    | rel a b hab => exact ⟨a, .inl rfl, .inr hab⟩
    | refl a => exact ⟨a, .inl rfl, .inl rfl⟩
    | symm a b _ ih => obtain ⟨f, h1, h2⟩ := ih; exact ⟨f, h2, h1⟩
    | trans a b c _ _ i1 i2 =>
      obtain ⟨f, h1, h2⟩ := i1
      obtain ⟨g, h3, h4⟩ := i2
      rcases h2 with rfl | h2 <;> rcases h3 with h3 | h3
      · subst h3; exact ⟨_, h1, h4⟩
      · rcases h1 with rfl | h1
        · exact ⟨g, .inr h3, h4⟩
        · have := h1.2.2.2.2.1; have := h3.2.2.2.2.2.1; linarith
      · subst h3
        rcases h4 with rfl | h4
        · exact ⟨f, h1, .inr h2⟩
        · have := h4.2.2.2.2.1; have := h2.2.2.2.2.2.1; linarith
      · have := huniq _ _ _ h2 h3
        subst this
        exact ⟨f, h1, h4⟩
  obtain ⟨f, h1, h2⟩ := key
  constructor
  · intro ha hb
    rcases h1 with rfl | h1
    · rcases h2 with rfl | h2
      · rfl
      · have := h2.2.2.2.2.2.1; linarith
    · have := h1.2.2.2.2.2.1; linarith
  · intro ha hb
    rcases h1 with rfl | h1
    · rcases h2 with rfl | h2
      · linarith
      · exact h2
    · have := h1.2.2.2.2.2.1; linarith

/-- three nested triangles (vertices 0-2, 3-5, 6-8) after the walk: counter-clockwise loops 0, 2, 4, clockwise loops
1, 3, 5. -/
def demoNested : FaceCollapser :=
  { make [] with etf := [((0, 1), (0, true)), ((0, 2), (1, true)), ((1, 0), (1, true)), ((1, 2), (0, true)),
    ((2, 0), (0, true)), ((2, 1), (1, true)), ((3, 4), (2, true)), ((3, 5), (3, true)), ((4, 3), (3, true)),
    ((4, 5), (2, true)), ((5, 3), (2, true)), ((5, 4), (3, true)), ((6, 7), (4, true)), ((6, 8), (5, true)),
    ((7, 6), (5, true)), ((7, 8), (4, true)), ((8, 6), (4, true)), ((8, 7), (5, true))] }

/-- vertex positions of `demoNested`. -/
def demoNestedV (i : ℤ) : Dir :=
  if i = 0 then (0, 0) else if i = 1 then (12, 0) else if i = 2 then (0, 12) else
  if i = 3 then (1, 1) else if i = 4 then (7, 1) else if i = 5 then (1, 7) else
  if i = 6 then (2, 2) else if i = 7 then (4, 2) else (2, 4)

/-- which loops of `demoNested` lie strictly inside which. -/
def demoNestedIn (n f : ℤ) : Bool := decide (f / 2 < n / 2)

/-- the innermost clockwise loop is a candidate hole of both surrounding faces, so both are merged (a point of the ring
between the outer two triangles and a point of the ring between the inner two get one face). -/
example : demoNested.HoleOf demoNestedV demoNestedIn 0 5 ∧ demoNested.HoleOf demoNestedV demoNestedIn 2 5 := by
  constructor
  · refine ⟨⟨(0, 1), ?_, ?_⟩, ⟨(6, 8), ?_, ?_⟩, ?_, ?_, ?_, ?_, ?_, ?_⟩ <;> decide +kernel
  · refine ⟨⟨(3, 4), ?_, ?_⟩, ⟨(6, 8), ?_, ?_⟩, ?_, ?_, ?_, ?_, ?_, ?_⟩ <;> decide +kernel

example : OMap.Sorted edgeLt demoNested.etf := by unfold OMap.Sorted; decide +kernel

end FaceCollapser
end Mandoline
