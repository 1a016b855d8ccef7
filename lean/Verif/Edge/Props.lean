import Verif.Edge.Pipeline
import Mathlib.Data.Fin.VecNotation
import Mathlib.Algebra.BigOperators.Fin
import Mathlib.Algebra.Order.BigOperators.Group.Finset
import Mathlib.Tactic.FinCases

/-!
# C13–C16, C56–C58: subdivision of an input edge by the grid

`bakeEdge ei grid a b` models the list of intersections `EdgeIntersections::bake` leaves behind for the edge
from `a` to `b`. `Crosses a.p b.p t` (Edge/Pipeline.lean) is the specification: `t` lies strictly between 0
and 1 and the point `(1-t) a + t b` meets, in some coordinate in which the edge is not constant, an integer.
-/
namespace Mandoline
variable {D : ℕ}

/-- the snapping tolerance `bake` uses for a grid of the given cell shape (facet_intersections_impl.hpp:210-216). -/
abbrev bakeTol (grid : Option (Coord D)) : ℚ := myThresh (grid.map fun s => fun i => s i + 1)

/-- no crossing comes closer than twice the tolerance to a grid plane without lying on it. -/
def Separated (tol : ℚ) (a b : Pt D) : Prop :=
  ∀ t, Crosses a b t → ∀ i (n : ℤ), segPt a b t i = (n : ℚ) ∨ 2 * tol ≤ |segPt a b t i - (n : ℚ)|

theorem snapped_of_separated (a b : Vertex D) (tol : ℚ) (hs : Separated tol a.p b.p) {t : ℚ}
    (ht : Crosses a.p b.p t) : (snapped a b tol t).p = segPt a.p b.p t := by
  have h := (C09_threshold_snap tol _ (pointAt_normalised a b t)).2
  funext i
  rcases h i with ⟨h1, h2, _⟩ | ⟨⟨n, hn⟩, _, h3, h4⟩
  · have : (snapped a b tol t).p i = (pointAt a b t).p i := by
      unfold snapped; simp only [Vertex.p, h1, h2]
    rw [this, pointAt_p]
  · rw [pointAt_p] at h3 h4
    change (snapped a b tol t).p i = (n : ℚ) at hn
    change |(snapped a b tol t).p i - segPt a.p b.p t i| < 2 * tol at h4
    rw [hn] at h4 ⊢
    rcases hs t ht i n with h5 | h5
    · exact h5.symm
    · rw [abs_sub_comm] at h5; linarith

theorem mask_of_p {v w : Vertex D} (hv : Normalised v) (hw : Normalised w) (h : v.p = w.p) :
    v.mask = w.mask := by
  funext i
  cases hm : v.mask i with
  | some c =>
    rw [vertex_mask_eq_some _ hv, h, ← vertex_mask_eq_some _ hw] at hm
    exact hm.symm
  | none =>
    cases hm' : w.mask i with
    | none => rfl
    | some c =>
      rw [vertex_mask_eq_some _ hw, ← h, ← vertex_mask_eq_some _ hv, hm] at hm'
      cases hm'

/-! ## C13: completeness and soundness of the reported crossings -/

/-- **C13.** If no crossing passes within twice the snapping tolerance of a grid plane it is not on, the
reported parameters are exactly the crossing parameters, each reported once and in increasing order. -/
theorem C13_crossings_exact (ei : ℤ) (grid : Option (Coord D)) (a b : Vertex D)
    (ha : Normalised a) (hb : Normalised b) (hs : Separated (bakeTol grid) a.p b.p) :
    (∀ t, t ∈ (bakeEdge ei grid a b).map Isect.t ↔ Crosses a.p b.p t) ∧
    ((bakeEdge ei grid a b).map Isect.t).Pairwise (· < ·) := by
  obtain ⟨h1, h2, h3, _⟩ := bakeEdge_spec a b ei grid ha hb
  refine ⟨fun t => ?_, by rw [List.pairwise_map]; exact h1⟩
  rw [List.mem_map]
  constructor
  · rintro ⟨e, he, rfl⟩; exact (h2 e he).1
  · intro ht
    obtain ⟨e, he, hm⟩ := h3 t ht
    refine ⟨e, he, ?_⟩
    obtain ⟨hc, hp⟩ := h2 e he
    have e1 := snapped_of_separated a b _ hs ht
    have e2 := snapped_of_separated a b _ hs hc
    obtain ⟨d, hd⟩ := ht
    have hN : ∀ s, Normalised (snapped a b (bakeTol grid) s) := fun s =>
      (C09_threshold_snap _ _ (pointAt_normalised a b s)).1
    obtain ⟨n, hn⟩ := hd.2.2.2
    have h5 : (snapped a b (bakeTol grid) t).mask d = some n := by
      rw [vertex_mask_eq_some _ (hN t), e1, hn]
    have h6 : (snapped a b (bakeTol grid) e.t).mask d = some n := by
      rw [← hp.mask, hm]; exact h5
    rw [vertex_mask_eq_some _ (hN _), e2] at h6
    exact seg_inj a.p b.p d hd.2.2.1 _ _ (h6.trans hn.symm)

/-- **C13, no separation assumption.** Whatever the tolerance, every reported parameter is a crossing, each
is reported once and in increasing order, and every crossing of plane `n` of axis `d` is represented by a
reported intersection whose `d`-coordinate is exactly `n`. -/
theorem C13_crossings_represented (ei : ℤ) (grid : Option (Coord D)) (a b : Vertex D)
    (ha : Normalised a) (hb : Normalised b) :
    (∀ e ∈ bakeEdge ei grid a b, Crosses a.p b.p e.t) ∧
    ((bakeEdge ei grid a b).map Isect.t).Pairwise (· < ·) ∧
    (∀ t d (n : ℤ), CrossesAt a.p b.p d t → segPt a.p b.p t d = (n : ℚ) →
      ∃ e ∈ bakeEdge ei grid a b, e.v.p d = (n : ℚ)) := by
  obtain ⟨h1, h2, h3, _⟩ := bakeEdge_spec a b ei grid ha hb
  refine ⟨fun e he => (h2 e he).1, by rw [List.pairwise_map]; exact h1, ?_⟩
  intro t d n ht hn
  obtain ⟨e, he, hm⟩ := h3 t ⟨d, ht⟩
  refine ⟨e, he, ?_⟩
  have hN : ∀ s, Normalised (snapped a b (bakeTol grid) s) := fun s =>
    (C09_threshold_snap _ _ (pointAt_normalised a b s)).1
  have hmask : (snapped a b (bakeTol grid) t).mask d = some n := by
    have h0 : (pointAt a b t).mask d = some n := (mOf_eq_some a b t d n).2 hn
    rw [vertex_mask_eq_some _ (pointAt_normalised a b t)] at h0
    rw [vertex_mask_eq_some _ (hN t)]
    rcases (C09_threshold_snap (bakeTol grid) _ (pointAt_normalised a b t)).2 d with
      ⟨h4, h5, _⟩ | ⟨⟨m, hm'⟩, _, h5, _⟩
    · rw [← h0]; unfold snapped; simp only [Vertex.p, h4, h5]
    · change (snapped a b (bakeTol grid) t).p d = (m : ℚ) at hm'
      change |(snapped a b (bakeTol grid) t).p d - _| ≤ 1/2 at h5
      rw [hm', h0] at h5
      rw [hm']
      have : m = n := by
        rw [abs_le] at h5
        have h6 : (m : ℚ) < n + 1 := by linarith
        have h7 : (n : ℚ) < m + 1 := by linarith
        have h6' : m < n + 1 := by exact_mod_cast h6
        have h7' : n < m + 1 := by exact_mod_cast h7
        omega
      rw [this]
  rw [← hm] at hmask
  have hN' : Normalised e.v := by intro i; rw [(h2 e he).2.2.1]; exact hN _ i
  exact (vertex_mask_eq_some _ hN' d n).1 hmask

/-! ## C14: position of the reported crossings -/

/-- **C14.** Under separation, each reported crossing is exactly the point of the segment at its parameter. -/
theorem C14_position_exact (ei : ℤ) (grid : Option (Coord D)) (a b : Vertex D)
    (ha : Normalised a) (hb : Normalised b) (hs : Separated (bakeTol grid) a.p b.p) :
    ∀ e ∈ bakeEdge ei grid a b, Normalised e.v ∧ ∀ i, e.v.p i = (1 - e.t) * a.p i + e.t * b.p i := by
  obtain ⟨_, h2, _, _⟩ := bakeEdge_spec a b ei grid ha hb
  intro e he
  obtain ⟨hc, hp⟩ := h2 e he
  refine ⟨?_, fun i => ?_⟩
  · intro i; rw [hp.2.1]; exact (C09_threshold_snap _ _ (pointAt_normalised a b _)).1 i
  · rw [hp.p, snapped_of_separated a b _ hs hc]; rfl

/-- **C14, any tolerance.** Each reported crossing is within twice the tolerance (and within 1/2) of the
point of the segment at its parameter, and lies exactly on a grid plane the segment crosses there, with
zero fractional part. -/
theorem C14_position_tolerance (ei : ℤ) (grid : Option (Coord D)) (a b : Vertex D)
    (ha : Normalised a) (hb : Normalised b) (hpos : 0 < bakeTol grid) :
    ∀ e ∈ bakeEdge ei grid a b,
      (∀ i, |e.v.p i - segPt a.p b.p e.t i| < 2 * bakeTol grid ∧ |e.v.p i - segPt a.p b.p e.t i| ≤ 1/2) ∧
      ∃ d, a.p d ≠ b.p d ∧ ∃ n : ℤ, segPt a.p b.p e.t d = (n : ℚ) ∧ e.v.coord d = n ∧ e.v.quot d = 0 := by
  obtain ⟨_, h2, _, _⟩ := bakeEdge_spec a b ei grid ha hb
  intro e he
  obtain ⟨⟨d, hd⟩, hp⟩ := h2 e he
  have hsn := (C09_threshold_snap (bakeTol grid) _ (pointAt_normalised a b e.t))
  have hclose : ∀ i, |e.v.p i - segPt a.p b.p e.t i| < 2 * bakeTol grid ∧
      |e.v.p i - segPt a.p b.p e.t i| ≤ 1/2 := by
    intro i
    rw [hp.p, ← pointAt_p]
    rcases hsn.2 i with ⟨h4, h5, _⟩ | ⟨_, _, h5, h6⟩
    · have : (snapped a b (bakeTol grid) e.t).p i = (pointAt a b e.t).p i := by
        unfold snapped; simp only [Vertex.p, h4, h5]
      rw [this, sub_self, abs_zero]
      exact ⟨by linarith, by norm_num⟩
    · exact ⟨h6, h5⟩
  refine ⟨hclose, d, hd.2.2.1, ?_⟩
  obtain ⟨n, hn⟩ := hd.2.2.2
  refine ⟨n, hn, ?_⟩
  have hN : Normalised e.v := by intro i; rw [hp.2.1]; exact hsn.1 i
  have hint : ∃ m : ℤ, e.v.p d = (m : ℚ) := by
    rw [hp.p]
    rcases hsn.2 d with ⟨h4, h5, _⟩ | ⟨⟨m, hm⟩, _⟩
    · refine ⟨n, ?_⟩
      have : (snapped a b (bakeTol grid) e.t).p d = (pointAt a b e.t).p d := by
        unfold snapped; simp only [Vertex.p, h4, h5]
      rw [this, pointAt_p, hn]
    · exact ⟨m, hm⟩
  obtain ⟨m, hm⟩ := hint
  have hmn : m = n := by
    have h5 := (hclose d).2
    rw [hm, hn, abs_le] at h5
    have h6 : (m : ℚ) < n + 1 := by linarith
    have h7 : (n : ℚ) < m + 1 := by linarith
    have h6' : m < n + 1 := by exact_mod_cast h6
    have h7' : n < m + 1 := by exact_mod_cast h7
    omega
  have hmask := (vertex_mask_eq_some _ hN d m).2 hm
  unfold Vertex.mask at hmask
  split_ifs at hmask with hq
  simp only [Option.some.injEq] at hmask
  exact ⟨by rw [hmask, hmn], hq⟩

theorem finRange_sum (f : Fin D → ℚ) : ((List.finRange D).map f).sum = ∑ i, f i := by
  rw [Fin.sum_univ_def]

/-- **C14.** `get_coord` recovers the parameter of any point of the (non-degenerate) segment. -/
theorem C14_getCoord (a b v : Vertex D) (t : ℚ) (hne : a.p ≠ b.p)
    (hv : ∀ i, v.p i = (1 - t) * a.p i + t * b.p i) : getCoord a b v = t := by
  unfold getCoord
  rw [finRange_sum, finRange_sum]
  have hpos : 0 < ∑ i, (b.p i - a.p i) * (b.p i - a.p i) := by
    obtain ⟨i, hi⟩ : ∃ i, a.p i ≠ b.p i := by
      by_contra h; push Not at h; exact hne (funext h)
    refine Finset.sum_pos' (fun j _ => mul_self_nonneg _) ⟨i, Finset.mem_univ _, ?_⟩
    exact mul_self_pos.2 (sub_ne_zero.2 (Ne.symm hi))
  rw [div_eq_iff hpos.ne', Finset.mul_sum]
  refine Finset.sum_congr rfl fun i _ => ?_
  rw [hv]; ring

/-- **C14.** hence `get_coord` recovers the parameter of every reported crossing. -/
theorem C14_getCoord_reported (ei : ℤ) (grid : Option (Coord D)) (a b : Vertex D)
    (ha : Normalised a) (hb : Normalised b) (hs : Separated (bakeTol grid) a.p b.p) :
    ∀ e ∈ bakeEdge ei grid a b, getCoord a b e.v = e.t := by
  intro e he
  refine C14_getCoord a b e.v e.t ?_ (C14_position_exact ei grid a b ha hb hs e he).2
  intro h
  obtain ⟨d, hd⟩ := (C13_crossings_represented ei grid a b ha hb).1 e he
  exact hd.2.2.1 (congrFun h d)

/-! ## C15: the subdivided edge is a path -/

/-- the path of the edge, with parameters. -/
def paramPath (a b : Vertex D) (isects : List (Isect D)) : List (Isect D) :=
  ⟨0, a⟩ :: isects ++ [⟨1, b⟩]

theorem alter_append {lt : ℚ → ℚ → Bool} {V : Type*} (hST : StrictTotal lt) (k : ℚ) (f : Option V → V)
    (l : List (ℚ × V)) (h : ∀ p ∈ l, lt p.1 k = true) : OMap.alter lt k f l = l ++ [(k, f none)] := by
  induction l with
  | nil => rfl
  | cons p l ih =>
    have h1 := h p (by simp)
    have h2 : ¬ lt k p.1 = true := fun h2 => by
      have := hST.trans _ _ _ h2 h1; rw [hST.irrefl] at this; cases this
    rw [OMap.alter]
    simp only [h1, h2, Bool.false_eq_true, if_false, if_true]
    rw [ih fun q hq => h q (by simp [hq])]; rfl

theorem gvertices_fold (l : List (Isect D)) (acc : List (ℚ × Vertex D))
    (hl : l.Pairwise fun x y => x.t < y.t) (h01 : ∀ e ∈ l, 0 < e.t ∧ e.t < 1)
    (hacc : ∀ p ∈ acc, ∀ e ∈ l, p.1 < e.t) :
    l.foldl (fun im i => if i.t > 0 ∧ i.t < 1 then OMap.assign ratLt i.t i.v im else im) acc =
      acc ++ l.map fun e => (e.t, e.v) := by
  induction l generalizing acc with
  | nil => simp
  | cons e l ih =>
    rw [List.foldl_cons]
    have he := h01 e (by simp)
    rw [List.pairwise_cons] at hl
    rw [if_pos ⟨he.1, he.2⟩, OMap.assign, alter_append strictTotal_ratLt]
    · rw [ih _ hl.2 (fun x hx => h01 x (by simp [hx]))]
      · simp
      · intro p hp x hx
        rcases List.mem_append.1 hp with hp | hp
        · exact hacc p hp x (by simp [hx])
        · simp only [List.mem_singleton] at hp
          rw [hp]; exact hl.1 x hx
    · intro p hp
      simp only [ratLt, decide_eq_true_eq]
      exact hacc p hp e (by simp)

theorem gvertices_eq (ei : ℤ) (grid : Option (Coord D)) (a b : Vertex D)
    (ha : Normalised a) (hb : Normalised b) :
    gvertices a b (bakeEdge ei grid a b) = (paramPath a b (bakeEdge ei grid a b)).map Isect.v := by
  obtain ⟨h1, h2, _, _⟩ := bakeEdge_spec a b ei grid ha hb
  unfold gvertices paramPath
  simp only
  rw [gvertices_fold _ [] h1]
  · simp [Function.comp_def]
  · intro e he; obtain ⟨d, hd⟩ := (h2 e he).1; exact ⟨hd.1, hd.2.1⟩
  · simp

theorem paramPath_sorted (ei : ℤ) (grid : Option (Coord D)) (a b : Vertex D)
    (ha : Normalised a) (hb : Normalised b) :
    (paramPath a b (bakeEdge ei grid a b)).Pairwise fun x y => x.t < y.t := by
  obtain ⟨h1, h2, _, _⟩ := bakeEdge_spec a b ei grid ha hb
  have h01 : ∀ e ∈ bakeEdge ei grid a b, 0 < e.t ∧ e.t < 1 := by
    intro e he; obtain ⟨d, hd⟩ := (h2 e he).1; exact ⟨hd.1, hd.2.1⟩
  unfold paramPath
  rw [List.cons_append, List.pairwise_cons, List.pairwise_append]
  refine ⟨?_, h1, by simp, ?_⟩
  · intro x hx
    rcases List.mem_append.1 hx with hx | hx
    · exact (h01 x hx).1
    · simp only [List.mem_singleton] at hx; rw [hx]; simp
  · intro x hx y hy
    simp only [List.mem_singleton] at hy; rw [hy]; exact (h01 x hx).2

theorem intervals_map {α β : Type*} (f : α → β) (l : List α) :
    intervals (l.map f) = (intervals l).map (Prod.map f f) := by
  unfold intervals
  rw [← List.map_tail, List.zip_map]

theorem intervals_mem {α : Type*} {R : α → α → Prop} {l : List α} (hl : l.Pairwise R)
    {x y : α} (h : (x, y) ∈ intervals l) :
    R x y ∧ x ∈ l ∧ y ∈ l ∧ ∀ z ∈ l, z = x ∨ z = y ∨ R z x ∨ R y z := by
  induction l with
  | nil => simp [intervals] at h
  | cons u l ih =>
    cases l with
    | nil => simp [intervals] at h
    | cons w l =>
      rw [List.pairwise_cons] at hl
      have hcons : intervals (u :: w :: l) = (u, w) :: intervals (w :: l) := rfl
      rw [hcons] at h
      rcases List.mem_cons.1 h with h | h
      · obtain ⟨rfl, rfl⟩ := Prod.mk.injEq _ _ _ _ ▸ h
        refine ⟨hl.1 _ (by simp), by simp, by simp, ?_⟩
        intro z hz
        rcases List.mem_cons.1 hz with rfl | hz
        · exact Or.inl rfl
        rcases List.mem_cons.1 hz with rfl | hz
        · exact Or.inr (Or.inl rfl)
        · exact Or.inr (Or.inr (Or.inr ((List.pairwise_cons.1 hl.2).1 z hz)))
      · obtain ⟨h1, h2, h3, h4⟩ := ih hl.2 h
        refine ⟨h1, List.mem_cons_of_mem _ h2, List.mem_cons_of_mem _ h3, ?_⟩
        intro z hz
        rcases List.mem_cons.1 hz with rfl | hz
        · exact Or.inr (Or.inr (Or.inl (hl.1 x h2)))
        · exact h4 z hz

theorem telescope (l : List ℚ) (x y : ℚ) :
    ((intervals (x :: l ++ [y])).map fun p => p.2 - p.1).sum = y - x := by
  induction l generalizing x with
  | nil => simp [intervals]
  | cons u l ih =>
    have : intervals (x :: (u :: l) ++ [y]) = (x, u) :: intervals (u :: l ++ [y]) := rfl
    rw [this, List.map_cons, List.sum_cons, ih]; ring

/-- **C15.** Under separation the sub-edges returned for an input edge are the consecutive pairs of a vertex
list that starts at `a`, ends at `b` and whose other vertices are exactly the points of the segment at the
crossing parameters in increasing order; the sub-edges are positive fractions of the edge vector which sum
to one (so in any norm the lengths add up to the length of the edge). -/
theorem C15_path (ei : ℤ) (grid : Option (Coord D)) (a b : Vertex D)
    (ha : Normalised a) (hb : Normalised b) (hs : Separated (bakeTol grid) a.p b.p) :
    let R := bakeEdge ei grid a b
    ∃ ts : List ℚ,
      (∀ t, t ∈ ts ↔ Crosses a.p b.p t) ∧ (0 :: ts ++ [1]).Pairwise (· < ·) ∧
      (gvertices a b R).head? = some a ∧ (gvertices a b R).getLast? = some b ∧
      (gvertices a b R).map Vertex.p = (0 :: ts ++ [1]).map (segPt a.p b.p) ∧
      vptrEdges a b R = (gvertices a b R).zip (gvertices a b R).tail ∧
      ∃ w : List ℚ, (∀ x ∈ w, 0 < x) ∧ w.sum = 1 ∧
        (vptrEdges a b R).map (fun e i => e.2.p i - e.1.p i) = w.map (fun x i => x * (b.p i - a.p i)) := by
  intro R
  have hx := C13_crossings_exact ei grid a b ha hb hs
  have hpp := paramPath_sorted ei grid a b ha hb
  have hg := gvertices_eq ei grid a b ha hb
  have hpos := C14_position_exact ei grid a b ha hb hs
  have hts : (paramPath a b R).map Isect.t = 0 :: R.map Isect.t ++ [1] := by simp [paramPath]
  have hseg : ∀ e ∈ paramPath a b R, e.v.p = segPt a.p b.p e.t := by
    intro e he
    unfold paramPath at he
    rcases List.mem_append.1 he with he | he
    · rcases List.mem_cons.1 he with rfl | he
      · funext i; simp [segPt]
      · funext i; exact (hpos e he).2 i
    · simp only [List.mem_singleton] at he; subst he; funext i; simp [segPt]
  refine ⟨R.map Isect.t, hx.1, ?_, ?_, ?_, ?_, rfl, ?_⟩
  · rw [← hts, List.pairwise_map]; exact hpp
  · simp [gvertices]
  · unfold gvertices; exact List.getLast?_concat
  · rw [← hts, hg, List.map_map, List.map_map]
    exact List.map_congr_left fun e he => hseg e he
  · refine ⟨(intervals (0 :: R.map Isect.t ++ [1])).map fun p => p.2 - p.1, ?_, ?_, ?_⟩
    · intro x hx
      obtain ⟨p, hp, rfl⟩ := List.mem_map.1 hx
      have hsort : (0 :: R.map Isect.t ++ [1]).Pairwise (· < ·) := by
        rw [← hts, List.pairwise_map]; exact hpp
      have := (intervals_mem hsort (x := p.1) (y := p.2) hp).1
      linarith
    · rw [telescope]; norm_num
    · have e1 : vptrEdges a b R = (intervals (paramPath a b R)).map (Prod.map Isect.v Isect.v) := by
        unfold vptrEdges; rw [hg, intervals_map]
      rw [e1, ← hts, intervals_map, List.map_map, List.map_map, List.map_map]
      refine List.map_congr_left ?_
      rintro ⟨x, y⟩ hxy
      obtain ⟨_, hx, hy, _⟩ := intervals_mem hpp hxy
      funext i
      simp only [Function.comp_apply, Prod.map_apply]
      rw [hseg x hx, hseg y hy]
      unfold segPt; ring

/-! ## C16: sub-edges stay in one closed cell, for every tolerance -/

/-- the per-coordinate snap performed by `apply_thresholding` on a normalised vertex is monotone. -/
theorem snap_mono (tol : ℚ) (v w : Vertex D) (hv : Normalised v) (hw : Normalised w) (i : Fin D)
    (h : v.p i ≤ w.p i) : (v.applyThresholding tol).p i ≤ (w.applyThresholding tol).p i := by
  have h1 := hv i
  have h2 := hw i
  simp only [Vertex.p] at h ⊢
  simp only [Vertex.applyThresholding, Vertex.thresholdAxis]
  have hcw : v.coord i ≤ w.coord i := by
    have : (v.coord i : ℚ) < w.coord i + 1 := by linarith
    have : v.coord i < w.coord i + 1 := by exact_mod_cast this
    omega
  have habs : ∀ q : ℚ, 0 ≤ q → |q + 1| = q + 1 := fun q hq => abs_of_nonneg (by linarith)
  rw [habs _ h1.1, habs _ h2.1]
  rcases hcw.eq_or_lt with he | hlt
  · rw [he] at h ⊢
    have hq : v.quot i ≤ w.quot i := by linarith
    split_ifs with a1 a2 a3 a4 a3 a4 a3 a4 <;> push_cast <;> first | linarith | nlinarith
  · have : (v.coord i : ℚ) + 1 ≤ w.coord i := by exact_mod_cast hlt
    split_ifs <;> push_cast <;> linarith

/-- snapping never passes an integer. -/
theorem snap_int_le (tol : ℚ) (v : Vertex D) (hv : Normalised v) (i : Fin D) (n : ℤ) :
    (v.p i ≤ n → (v.applyThresholding tol).p i ≤ n) ∧ ((n : ℚ) ≤ v.p i → (n : ℚ) ≤ (v.applyThresholding tol).p i) := by
  rcases (C09_threshold_snap tol v hv).2 i with ⟨h4, h5, _⟩ | ⟨⟨m, hm⟩, _, h5, _⟩
  · have : (v.applyThresholding tol).p i = v.p i := by simp only [Vertex.p, h4, h5]
    rw [this]; exact ⟨id, id⟩
  · rw [hm] at h5 ⊢
    rw [abs_le] at h5
    constructor <;> intro h
    · have h6 : (m : ℚ) < n + 1 := by linarith
      have h6' : m < n + 1 := by exact_mod_cast h6
      exact_mod_cast (by omega : m ≤ n)
    · have h6 : (n : ℚ) < m + 1 := by linarith
      have h6' : n < m + 1 := by exact_mod_cast h6
      exact_mod_cast (by omega : n ≤ m)

theorem cell_of_unseparated (x y : Pt D)
    (h : ∀ i (n : ℤ), ¬ (x i < n ∧ (n : ℚ) < y i) ∧ ¬ (y i < n ∧ (n : ℚ) < x i)) :
    ∃ c : Coord D, InClosedCell c x ∧ InClosedCell c y := by
  have key : ∀ i, ((⌊min (x i) (y i)⌋ : ℤ) : ℚ) ≤ x i ∧ ((⌊min (x i) (y i)⌋ : ℤ) : ℚ) ≤ y i ∧
      x i ≤ (⌊min (x i) (y i)⌋ : ℤ) + 1 ∧ y i ≤ (⌊min (x i) (y i)⌋ : ℤ) + 1 := by
    intro i
    have h1 := Int.floor_le (min (x i) (y i))
    have h2 := Int.lt_floor_add_one (min (x i) (y i))
    obtain ⟨ha, hb⟩ := h i (⌊min (x i) (y i)⌋ + 1)
    push Not at ha hb
    push_cast at ha hb
    rcases le_total (x i) (y i) with hxy | hxy
    · rw [min_eq_left hxy] at *
      have := ha h2
      refine ⟨?_, ?_, ?_, ?_⟩ <;> linarith
    · rw [min_eq_right hxy] at *
      have := hb h2
      refine ⟨?_, ?_, ?_, ?_⟩ <;> linarith
  exact ⟨fun i => ⌊min (x i) (y i)⌋, fun i => ⟨(key i).1, (key i).2.2.1⟩,
    fun i => ⟨(key i).2.1, (key i).2.2.2⟩⟩

/-- **C16.** Every sub-edge returned for an input edge lies in a single closed grid cell: for every edge
with normalised endpoints, with or without a grid, whatever the snapping tolerance. -/
theorem C16_subedge_in_cell (ei : ℤ) (grid : Option (Coord D)) (a b : Vertex D)
    (ha : Normalised a) (hb : Normalised b) :
    ∀ e ∈ vptrEdges a b (bakeEdge ei grid a b),
      ∃ c : Coord D, InClosedCell c e.1.p ∧ InClosedCell c e.2.p := by
  obtain ⟨_, h2, _, _⟩ := bakeEdge_spec a b ei grid ha hb
  obtain ⟨_, _, hrep⟩ := C13_crossings_represented ei grid a b ha hb
  have hpp := paramPath_sorted ei grid a b ha hb
  have hg := gvertices_eq ei grid a b ha hb
  set R := bakeEdge ei grid a b with hR
  set tol := bakeTol grid
  have hN := fun t => pointAt_normalised a b t
  have hcases : ∀ x ∈ paramPath a b R, (x.v.p = segPt a.p b.p x.t ∧ (x.t = 0 ∨ x.t = 1)) ∨
      (x ∈ R ∧ x.v.p = ((pointAt a b x.t).applyThresholding tol).p ∧ 0 < x.t ∧ x.t < 1) := by
    intro x hx
    unfold paramPath at hx
    rcases List.mem_append.1 hx with hx | hx
    · rcases List.mem_cons.1 hx with rfl | hx
      · left; refine ⟨?_, Or.inl rfl⟩; funext i; simp [segPt]
      · right
        obtain ⟨⟨d, hd⟩, hp⟩ := h2 x hx
        exact ⟨hx, hp.p, hd.1, hd.2.1⟩
    · simp only [List.mem_singleton] at hx; subst hx; left
      refine ⟨?_, Or.inr rfl⟩; funext i; simp [segPt]
  -- integers are never passed by the snap
  have hint : ∀ x ∈ paramPath a b R, ∀ i (n : ℤ), (x.v.p i < n → segPt a.p b.p x.t i < n) ∧
      ((n : ℚ) < x.v.p i → (n : ℚ) < segPt a.p b.p x.t i) := by
    intro x hx i n
    rcases hcases x hx with ⟨h, _⟩ | ⟨_, h, _⟩
    · rw [h]; exact ⟨id, id⟩
    · rw [h]
      have := snap_int_le tol (pointAt a b x.t) (hN _) i n
      rw [pointAt_p] at this
      exact ⟨fun h => not_le.1 fun h' => not_lt.2 (this.2 h') h,
        fun h => not_le.1 fun h' => not_lt.2 (this.1 h') h⟩
  have hseg : ∀ s t : ℚ, s ≤ t → ∀ i, (a.p i ≤ b.p i → segPt a.p b.p s i ≤ segPt a.p b.p t i) ∧
      (b.p i ≤ a.p i → segPt a.p b.p t i ≤ segPt a.p b.p s i) := by
    intro s t hst i
    unfold segPt
    constructor <;> intro h <;> nlinarith
  -- reported crossings are monotone along the edge
  have hmono : ∀ x ∈ R, ∀ y ∈ R, x.t ≤ y.t → ∀ i, (a.p i ≤ b.p i → x.v.p i ≤ y.v.p i) ∧
      (b.p i ≤ a.p i → y.v.p i ≤ x.v.p i) := by
    intro x hx y hy hxy i
    rw [(h2 x hx).2.p, (h2 y hy).2.p]
    constructor <;> intro hab
    · exact snap_mono _ _ _ (hN _) (hN _) i (by rw [pointAt_p, pointAt_p]; exact (hseg _ _ hxy i).1 hab)
    · exact snap_mono _ _ _ (hN _) (hN _) i (by rw [pointAt_p, pointAt_p]; exact (hseg _ _ hxy i).2 hab)
  have hend : ∀ x ∈ paramPath a b R, 0 ≤ x.t ∧ x.t ≤ 1 := by
    intro x hx
    rcases hcases x hx with ⟨_, h | h⟩ | ⟨_, _, h, h'⟩
    · rw [h]; norm_num
    · rw [h]; norm_num
    · exact ⟨h.le, h'.le⟩
  have hRin : ∀ e ∈ R, e ∈ paramPath a b R := by intro e he; simp [paramPath, he]
  intro e he
  rw [vptrEdges, hg, intervals_map] at he
  obtain ⟨⟨x, y⟩, hxy, rfl⟩ := List.mem_map.1 he
  obtain ⟨hlt, hx, hy, hbetween⟩ := intervals_mem hpp hxy
  simp only [Prod.map_apply]
  apply cell_of_unseparated
  intro i n
  -- a plane strictly between the two ends would be crossed strictly between them
  have key : ∀ s, x.t < s → s < y.t → segPt a.p b.p s i = n → a.p i ≠ b.p i →
      ∃ z ∈ R, z.v.p i = n ∧ ((z.t ≤ x.t ∧ x ∈ R) ∨ (y.t ≤ z.t ∧ y ∈ R)) := by
    intro s hs1 hs2 hsn hne
    have h0 := (hend x hx).1
    have h1 := (hend y hy).2
    obtain ⟨z, hz, hzn⟩ := hrep s i n ⟨by linarith, by linarith, hne, n, hsn⟩ hsn
    refine ⟨z, hz, hzn, ?_⟩
    obtain ⟨⟨d, hd⟩, _⟩ := h2 z hz
    have hzx : z.t ≤ x.t ∨ y.t ≤ z.t := by
      rcases hbetween z (hRin z hz) with rfl | rfl | h | h
      · exact Or.inl (le_refl _)
      · exact Or.inr (le_refl _)
      · exact Or.inl h.le
      · exact Or.inr h.le
    rcases hzx with h | h
    · left; refine ⟨h, ?_⟩
      rcases hcases x hx with ⟨_, h' | h'⟩ | h'
      · rw [h'] at h; linarith [hd.1]
      · rw [h'] at hlt; linarith
      · exact h'.1
    · right; refine ⟨h, ?_⟩
      rcases hcases y hy with ⟨_, h' | h'⟩ | h'
      · rw [h'] at hlt; linarith
      · rw [h'] at h; linarith [hd.2.1]
      · exact h'.1
  have hsolve : ∀ (u w : ℚ), u = segPt a.p b.p x.t i → w = segPt a.p b.p y.t i →
      ((u < n ∧ (n : ℚ) < w) ∨ (w < n ∧ (n : ℚ) < u)) →
      ∃ s, x.t < s ∧ s < y.t ∧ segPt a.p b.p s i = n ∧ a.p i ≠ b.p i := by
    intro u w hu hw h
    have hne : b.p i - a.p i ≠ 0 := by
      intro h0
      have : u = w := by rw [hu, hw]; unfold segPt; rw [sub_eq_zero.1 h0]; ring
      rcases h with h | h <;> linarith
    have hne' : a.p i ≠ b.p i := fun h0 => hne (by rw [h0]; ring)
    refine ⟨((n : ℚ) - a.p i) / (b.p i - a.p i), ?_, ?_, ?_, hne'⟩
    · unfold segPt at hu hw
      rcases lt_or_gt_of_ne hne with hd | hd
      · rw [lt_div_iff_of_neg hd]; rcases h with h | h <;> nlinarith
      · rw [lt_div_iff₀ hd]; rcases h with h | h <;> nlinarith
    · unfold segPt at hu hw
      rcases lt_or_gt_of_ne hne with hd | hd
      · rw [div_lt_iff_of_neg hd]; rcases h with h | h <;> nlinarith
      · rw [div_lt_iff₀ hd]; rcases h with h | h <;> nlinarith
    · unfold segPt; field_simp; ring
  have hab_of : ∀ (u w : ℚ), u = segPt a.p b.p x.t i → w = segPt a.p b.p y.t i →
      (u < w → a.p i ≤ b.p i) ∧ (w < u → b.p i ≤ a.p i) := by
    intro u w hu hw
    constructor <;> intro h <;> by_contra hc <;> push Not at hc
    · have := (hseg _ _ hlt.le i).2 hc.le; linarith
    · have := (hseg _ _ hlt.le i).1 hc.le; linarith
  constructor
  · rintro ⟨h1, h3⟩
    have h1' := (hint x hx i n).1 h1
    have h3' := (hint y hy i n).2 h3
    obtain ⟨s, hs1, hs2, hs3, hne⟩ := hsolve _ _ rfl rfl (Or.inl ⟨h1', h3'⟩)
    have hab := (hab_of _ _ rfl rfl).1 (h1'.trans h3')
    obtain ⟨z, hz, hzn, ⟨hzx, hxR⟩ | ⟨hzy, hyR⟩⟩ := key s hs1 hs2 hs3 hne
    · have := (hmono z hz x hxR hzx i).1 hab; linarith
    · have := (hmono y hyR z hz hzy i).1 hab; linarith
  · rintro ⟨h1, h3⟩
    have h1' := (hint y hy i n).1 h1
    have h3' := (hint x hx i n).2 h3
    obtain ⟨s, hs1, hs2, hs3, hne⟩ := hsolve _ _ rfl rfl (Or.inr ⟨h1', h3'⟩)
    have hab := (hab_of _ _ rfl rfl).2 (h1'.trans h3')
    obtain ⟨z, hz, hzn, ⟨hzx, hxR⟩ | ⟨hzy, hyR⟩⟩ := key s hs1 hs2 hs3 hne
    · have := (hmono z hz x hxR hzx i).2 hab; linarith
    · have := (hmono y hyR z hz hzy i).2 hab; linarith


/-! ## C14: clamped flags of reported crossings are exact -/

/-- **C14.** With a positive tolerance, a reported crossing is flagged clamped along exactly the axes in
which it lies on a grid plane, so `is_grid_vertex()` recognises exactly the crossings at grid vertices. -/
theorem C14_flags_exact (ei : ℤ) (grid : Option (Coord D)) (a b : Vertex D)
    (ha : Normalised a) (hb : Normalised b) (hpos : 0 < bakeTol grid) :
    ∀ e ∈ bakeEdge ei grid a b, (∀ i, e.v.clamped i = true ↔ IntegralAt e.v.p i) ∧
      (e.v.isGridVertex = true ↔ ∀ i, IntegralAt e.v.p i) := by
  obtain ⟨_, h2, _, _⟩ := bakeEdge_spec a b ei grid ha hb
  have hcl := bakeEdge_clamped a b ei grid
  intro e he
  have hN : Normalised e.v := by
    intro i; rw [(h2 e he).2.2.1]; exact (C09_threshold_snap _ _ (pointAt_normalised a b _)).1 i
  have key : ∀ i, e.v.clamped i = true ↔ IntegralAt e.v.p i := by
    intro i
    constructor
    · intro h
      have := (h2 e he).2.2.2 i h
      exact ⟨e.v.coord i, by simp [Vertex.p, this]⟩
    · intro h
      obtain ⟨w, hw⟩ := hcl e he
      have hq := (Vertex.quot_zero_iff _ hN i).2 h
      rw [hw] at hq ⊢
      simp only [Vertex.applyThresholding, Vertex.thresholdAxis] at hq ⊢
      split_ifs at hq ⊢ with h1 h2 h3
      · rfl
      · simp only at hq; rw [hq] at h2; exact absurd hpos h2
      · rfl
      · simp only at hq; rw [hq] at h1; exact absurd (by norm_num) h1
  refine ⟨key, ?_⟩
  simp only [Vertex.isGridVertex, List.all_eq_true, List.mem_finRange, forall_const]
  exact forall_congr' key

/-! ## C56: baking without a grid -/

/-- **C56, refuted.** Without a grid the tolerance is 1, so every reported crossing is moved to an integer
point, whatever the edge. -/
theorem C56_bake_without_grid_all_integral (ei : ℤ) (a b : Vertex D) (ha : Normalised a) (hb : Normalised b) :
    ∀ e ∈ bakeEdge ei none a b, ∀ i, IntegralAt e.v.p i := by
  obtain ⟨_, h2, _, _⟩ := bakeEdge_spec a b ei none ha hb
  intro e he i
  have hq : e.v.quot i = 0 := by
    rw [(h2 e he).2.2.1]
    have hN := pointAt_normalised a b e.t i
    have ht : myThresh (Option.map (fun (s : Coord D) i => s i + 1) none) = 1 := rfl
    rw [ht]
    simp only [snapped, Vertex.applyThresholding, Vertex.thresholdAxis]
    rw [abs_of_nonneg (by linarith : (0:ℚ) ≤ (pointAt a b e.t).quot i + 1)]
    by_cases h3 : (pointAt a b e.t).quot i < 1 / 2
    · rw [if_pos h3, if_pos hN.2]
    · rw [if_neg h3, if_pos (by linarith)]
  exact ⟨e.v.coord i, by simp [Vertex.p, hq]⟩

/-- the edge used in the refutations: from (1/4,1/4) to (9/4,3/4). -/
def demoA : Vertex 2 := Vertex.fromVertex ![1/4, 1/4]
/-- its other end. -/
def demoB : Vertex 2 := Vertex.fromVertex ![9/4, 3/4]

/-- **C56, refuted.** A concrete edge: baked without a grid, its first crossing is reported at (1,0)
although the segment crosses x = 1 at (1, 7/16). -/
theorem C56_bake_without_grid_refuted :
    ¬ ∀ (ei : ℤ) (a b : Vertex 2), Normalised a → Normalised b →
      ∀ e ∈ bakeEdge ei none a b, ∀ i, e.v.p i = (1 - e.t) * a.p i + e.t * b.p i := by
  intro h
  have hA : Normalised demoA := Vertex.fromVertex_normalised _
  have hB : Normalised demoB := Vertex.fromVertex_normalised _
  have h1 : ∃ e ∈ bakeEdge 0 none demoA demoB, e.t = 3/8 := by
    have : (bakeEdge 0 none demoA demoB).map Isect.t = [3/8, 7/8] := by decide +kernel
    have h2 : (3/8 : ℚ) ∈ (bakeEdge 0 none demoA demoB).map Isect.t := by rw [this]; simp
    obtain ⟨e, he, het⟩ := List.mem_map.1 h2
    exact ⟨e, he, het⟩
  obtain ⟨e, he, het⟩ := h1
  obtain ⟨n, hn⟩ := C56_bake_without_grid_all_integral 0 demoA demoB hA hB e he 1
  have h3 := h 0 demoA demoB hA hB e he 1
  rw [hn, het] at h3
  have hA1 : demoA.p 1 = 1/4 := by decide +kernel
  have hB1 : demoB.p 1 = 3/4 := by decide +kernel
  rw [hA1, hB1] at h3
  have h4 : (n : ℚ) * 16 = 7 := by rw [h3]; norm_num
  have h5 : n * 16 = 7 := by exact_mod_cast h4
  omega

/-! ## C57: cells met by an input edge are active -/

theorem exists_interval (l : List (Isect D)) (x y : Isect D) (t : ℚ) (h1 : x.t ≤ t) (h2 : t ≤ y.t) :
    ∃ p ∈ intervals (x :: l ++ [y]), p.1.t ≤ t ∧ t ≤ p.2.t := by
  induction l generalizing x with
  | nil => exact ⟨(x, y), by simp [intervals], h1, h2⟩
  | cons u l ih =>
    have hc : intervals (x :: (u :: l) ++ [y]) = (x, u) :: intervals (u :: l ++ [y]) := rfl
    rw [hc]
    rcases le_total t u.t with h | h
    · exact ⟨(x, u), by simp, h1, h⟩
    · obtain ⟨p, hp, h3⟩ := ih u h
      exact ⟨p, List.mem_cons_of_mem _ hp, h3⟩

/-- **C57.** If an input edge passes through the interior of a grid cell, then that cell contains (in its
closure) one of the vertices produced for the edge; hence it is active as soon as the vertices of the edge
are among the crossings. -/
theorem C57_met_cell_active [NeZero D] (ei : ℤ) (grid : Option (Coord D)) (a b : Vertex D)
    (ha : Normalised a) (hb : Normalised b) (hs : Separated (bakeTol grid) a.p b.p)
    (crossings : List (Vertex D)) (hcN : ∀ v ∈ crossings, Normalised v)
    (hsub : ∀ v ∈ gvertices a b (bakeEdge ei grid a b), v ∈ crossings)
    (t : ℚ) (h0 : 0 ≤ t) (h1 : t ≤ 1) (c : Coord D)
    (hin : ∀ i, (c i : ℚ) < (1 - t) * a.p i + t * b.p i ∧ (1 - t) * a.p i + t * b.p i < (c i : ℚ) + 1) :
    c ∈ activeCells crossings := by
  have hg := gvertices_eq ei grid a b ha hb
  have hpos := C14_position_exact ei grid a b ha hb hs
  have hcell := C16_subedge_in_cell ei grid a b ha hb
  have hpp := paramPath_sorted ei grid a b ha hb
  set R := bakeEdge ei grid a b
  have hseg : ∀ e ∈ paramPath a b R, e.v.p = segPt a.p b.p e.t := by
    intro e he
    unfold paramPath at he
    rcases List.mem_append.1 he with he | he
    · rcases List.mem_cons.1 he with rfl | he
      · funext i; simp [segPt]
      · funext i; exact (hpos e he).2 i
    · simp only [List.mem_singleton] at he; subst he; funext i; simp [segPt]
  obtain ⟨⟨x, y⟩, hxy, hxt, hty⟩ := exists_interval R ⟨0, a⟩ ⟨1, b⟩ t h0 h1
  obtain ⟨hlt, hx, hy, _⟩ := intervals_mem hpp hxy
  have hedge : (x.v, y.v) ∈ vptrEdges a b R := by
    rw [vptrEdges, hg, intervals_map]
    exact List.mem_map.2 ⟨(x, y), hxy, rfl⟩
  obtain ⟨c', hc1, hc2⟩ := hcell _ hedge
  simp only at hc1 hc2 hxt hty
  rw [hseg x hx] at hc1
  rw [hseg y hy] at hc2
  have hcc : c = c' := by
    funext i
    obtain ⟨p1, p2⟩ := hc1 i
    obtain ⟨q1, q2⟩ := hc2 i
    obtain ⟨r1, r2⟩ := hin i
    unfold segPt at p1 p2 q1 q2
    have hlo : (c' i : ℚ) ≤ (1 - t) * a.p i + t * b.p i ∧
        (1 - t) * a.p i + t * b.p i ≤ (c' i : ℚ) + 1 := by
      rcases le_total (a.p i) (b.p i) with hab | hab
      · constructor <;> nlinarith
      · constructor <;> nlinarith
    have h5 : (c i : ℚ) < c' i + 1 := by linarith
    have h6 : (c' i : ℚ) < c i + 1 := by linarith
    have h5' : c i < c' i + 1 := by exact_mod_cast h5
    have h6' : c' i < c i + 1 := by exact_mod_cast h6
    omega
  rw [C20_active_iff crossings hcN]
  refine ⟨x.v, hsub _ ?_, ?_⟩
  · rw [hg]; exact List.mem_map.2 ⟨x, hx, rfl⟩
  · rw [hseg x hx, hcc]; exact hc1

/-! ## C58, C59: the grid-range filter and `is_cut` -/

/-- **C58, refuted.** The grid-range test is meant to drop crossings outside the grid; it compares the axis
number instead of the coordinate and accepts everything, so the range test never changes the result ... -/
theorem C58_range_test_accepts_all (shape : Coord D) (v : Vertex D) : gridRangeOk shape v = true :=
  gridRangeOk_true shape v

/-- **C58, refuted.** ... and an edge leaving a one-cell grid reports a crossing outside it. -/
theorem C58_crossings_inside_grid_refuted :
    ¬ ∀ (ei : ℤ) (shape : Coord 2) (a b : Vertex 2), Normalised a → Normalised b →
      ∀ e ∈ bakeEdge ei (some shape) a b, ∀ i, 0 ≤ e.v.p i ∧ e.v.p i ≤ (shape i : ℚ) := by
  intro h
  have h1 : ∃ e ∈ bakeEdge 0 (some ![1, 1]) demoA demoB, e.v.p 0 = 2 := by
    have : (bakeEdge 0 (some ![1, 1]) demoA demoB).map (fun e => e.v.p 0) = [1, 2] := by decide +kernel
    have h2 : (2 : ℚ) ∈ (bakeEdge 0 (some ![1, 1]) demoA demoB).map (fun e => e.v.p 0) := by rw [this]; simp
    obtain ⟨e, he, het⟩ := List.mem_map.1 h2
    exact ⟨e, he, het⟩
  obtain ⟨e, he, he0⟩ := h1
  have := (h 0 ![1, 1] demoA demoB (Vertex.fromVertex_normalised _) (Vertex.fromVertex_normalised _) e he 0).2
  rw [he0] at this
  norm_num at this

/-- **C59, refuted.** `is_cut()` answers the opposite question: it holds exactly when the edge has no
reported crossing, i.e. is returned as a single piece. -/
theorem C59_isCut_inverted (a b : Vertex D) (ei : ℤ) (grid : Option (Coord D))
    (ha : Normalised a) (hb : Normalised b) :
    isCut (bakeEdge ei grid a b) = true ↔ vptrEdges a b (bakeEdge ei grid a b) = [(a, b)] := by
  have hg := gvertices_eq ei grid a b ha hb
  unfold isCut vptrEdges
  rw [hg, List.isEmpty_iff]
  constructor
  · intro h; rw [h]; rfl
  · intro h
    have hl := congrArg List.length h
    simp only [intervals, paramPath, List.length_zip, List.length_map, List.length_tail, List.length_append,
      List.length_cons, List.length_nil] at hl
    rw [← List.length_eq_zero_iff]; omega

/-! ## non-vacuity -/

theorem demo_separated : Separated (bakeTol (some ![3, 3])) demoA.p demoB.p := by
  have hA0 : demoA.p 0 = 1/4 := by decide +kernel
  have hA1 : demoA.p 1 = 1/4 := by decide +kernel
  have hB0 : demoB.p 0 = 9/4 := by decide +kernel
  have hB1 : demoB.p 1 = 3/4 := by decide +kernel
  have htol : 2 * bakeTol (some (![3, 3] : Coord 2)) ≤ 1/4 := by decide +kernel
  rintro t ⟨d, h0, h1, hne, m, hm⟩ i n
  have hy : 1/4 < segPt demoA.p demoB.p t 1 ∧ segPt demoA.p demoB.p t 1 < 3/4 := by
    unfold segPt; rw [hA1, hB1]; constructor <;> linarith
  have hfar : ∀ k : ℤ, 1/4 ≤ |segPt demoA.p demoB.p t 1 - (k : ℚ)| := by
    intro k
    rcases le_or_gt k 0 with hk | hk
    · have : (k : ℚ) ≤ 0 := by exact_mod_cast hk
      rw [abs_of_nonneg (by linarith)]; linarith
    · have : (1 : ℚ) ≤ k := by exact_mod_cast hk
      rw [abs_of_nonpos (by linarith)]; linarith
  fin_cases d
  · fin_cases i
    · by_cases hnm : m = n
      · left; rw [← hnm]; exact hm
      · right
        change segPt demoA.p demoB.p t 0 = (m : ℚ) at hm
        change _ ≤ |segPt demoA.p demoB.p t 0 - (n : ℚ)|
        rw [hm]
        have h2 : (1 : ℤ) ≤ |m - n| := Int.one_le_abs (sub_ne_zero.2 hnm)
        have h3 : (1 : ℚ) ≤ |(m : ℚ) - n| := by exact_mod_cast h2
        linarith
    · right; exact htol.trans (hfar n)
  · exfalso
    change segPt demoA.p demoB.p t 1 = (m : ℚ) at hm
    have := hfar m
    rw [hm, sub_self, abs_zero] at this
    norm_num at this

/-- the hypotheses of C13–C16 are met by an edge with two crossings. -/
example : ((bakeEdge 0 (some ![3, 3]) demoA demoB).map fun e => (e.t, e.v.p 0, e.v.p 1)) =
    [(3/8, 1, 7/16), (7/8, 2, 11/16)] := by decide +kernel

example : 0 < bakeTol (some (![3, 3] : Coord 2)) := by decide +kernel

/-- a crossing through a grid vertex is reported once. -/
example : (bakeEdge 0 (some ![3, 3]) (Vertex.fromVertex ![1/2, 1/2] : Vertex 2)
    (Vertex.fromVertex ![5/2, 5/2])).map (fun e => (e.t, e.v.p 0, e.v.p 1)) = [(1/4, 1, 1), (3/4, 2, 2)] := by
  decide +kernel

end Mandoline
