import Verif.Face2.Loops
import Mathlib.Algebra.BigOperators.Group.List.Lemmas
import Mathlib.Algebra.BigOperators.Group.Finset.Basic
import Mathlib.Algebra.BigOperators.Ring.Finset
import Mathlib.Data.Finset.Max
import Mathlib.Data.Rat.Cast.Order

/-!
# C112: the half-edges around a framed square sweep its area

No code is modelled here: the statement is about the planar graph of a grid plane (`compute_planar_hem`,
src/construction/generator.cpp:80-138) and uses only what C76 uses.
-/
namespace Mandoline
namespace Planar

/-- `a` is a vertex of the graph. -/
def IsNode (E : List DEdge) (a : ℤ) : Prop := ∃ b, (a, b) ∈ E

/-! ## proofs -/

theorem chain_sum (N : Finset ℤ) (X : ℤ → ℚ) (nxt : ℤ → ℤ) (l r : ℤ) (hl : l ∈ N) (hr : r ∈ N)
    (hn : ∀ v ∈ N.erase r, nxt v ∈ N.erase l) (hinj : Set.InjOn nxt (N.erase r : Finset ℤ)) :
    ∑ v ∈ N.erase r, (X (nxt v) - X v) = X r - X l := by
  have himg : (N.erase r).image nxt = N.erase l := by
    refine Finset.eq_of_subset_of_card_le ?_ ?_
    · intro w hw
      obtain ⟨v, hv, rfl⟩ := Finset.mem_image.1 hw
      exact hn v hv
    · rw [Finset.card_image_of_injOn hinj, Finset.card_erase_of_mem hl, Finset.card_erase_of_mem hr]
  rw [Finset.sum_sub_distrib]
  have h1 : ∑ v ∈ N.erase r, X (nxt v) = ∑ w ∈ N.erase l, X w := by
    rw [← himg, Finset.sum_image hinj]
  have h2 := Finset.add_sum_erase N X hl
  have h3 := Finset.add_sum_erase N X hr
  rw [h1]
  linarith

/-- the vertices on one side of a cell, in terms of a coordinate `X` along the side. -/
structure Side (E : List DEdge) (On : ℤ → Prop) (X : ℤ → ℚ) (lo hi : ℚ) : Prop where
  range : ∀ v, On v → lo ≤ X v ∧ X v ≤ hi
  inj : ∀ a b, IsNode E a → IsNode E b → On a → On b → X a = X b → a = b
  next : ∀ v, IsNode E v → On v → X v < hi → ∃ w, (v, w) ∈ E ∧ On w ∧ X v < X w
  func : ∀ v w w', (v, w) ∈ E → (v, w') ∈ E → On v → On w → On w' → X v < X w → X v < X w' → w = w'
  cofunc : ∀ v v' w, (v, w) ∈ E → (v', w) ∈ E → On v → On v' → On w → X v < X w → X v' < X w → v = v'

theorem Side.corner {E : List DEdge} {On : ℤ → Prop} {X : ℤ → ℚ} {lo hi : ℚ} (h : Side E On X lo hi)
    (hs : ∀ a b, (a, b) ∈ E → (b, a) ∈ E) {v : ℤ} (hv : IsNode E v) (ho : On v) :
    ∃ w, IsNode E w ∧ On w ∧ X w = hi := by
  classical
  set N : Finset ℤ := (E.map Prod.fst).toFinset.filter On with hN
  have hmem : ∀ a, a ∈ N ↔ IsNode E a ∧ On a := by
    intro a
    rw [hN, Finset.mem_filter, List.mem_toFinset, List.mem_map]
    constructor
    · rintro ⟨⟨⟨a', b⟩, h1, rfl⟩, h2⟩; exact ⟨⟨b, h1⟩, h2⟩
    · rintro ⟨⟨b, h1⟩, h2⟩; exact ⟨⟨(a, b), h1, rfl⟩, h2⟩
  obtain ⟨w, hw, hmax⟩ := Finset.exists_max_image N X ⟨v, (hmem v).2 ⟨hv, ho⟩⟩
  obtain ⟨h1, h2⟩ := (hmem w).1 hw
  refine ⟨w, h1, h2, ?_⟩
  by_contra hc
  obtain ⟨w', a, b, c⟩ := h.next w h1 h2 (lt_of_le_of_ne (h.range w h2).2 hc)
  have := hmax w' ((hmem w').2 ⟨⟨_, hs _ _ a⟩, b⟩)
  linarith

theorem Side.total {E : List DEdge} {On : ℤ → Prop} {X : ℤ → ℚ} {lo hi : ℚ} (h : Side E On X lo hi) (hnd : E.Nodup)
    (hs : ∀ a b, (a, b) ∈ E → (b, a) ∈ E) (hlo : ∃ v, IsNode E v ∧ On v ∧ X v = lo) (Q : DEdge → Prop) [DecidablePred Q]
    (hQ : ∀ e ∈ E, Q e ↔ On e.1 ∧ On e.2 ∧ X e.1 < X e.2) :
    ((E.filter fun e => decide (Q e)).map fun e => X e.2 - X e.1).sum = hi - lo := by
  classical
  obtain ⟨l, l1, l2, l3⟩ := hlo
  obtain ⟨r, r1, r2, r3⟩ := h.corner hs l1 l2
  set N : Finset ℤ := (E.map Prod.fst).toFinset.filter On with hN
  have hmem : ∀ a, a ∈ N ↔ IsNode E a ∧ On a := by
    intro a
    rw [hN, Finset.mem_filter, List.mem_toFinset, List.mem_map]
    constructor
    · rintro ⟨⟨⟨a', b⟩, h1, rfl⟩, h2⟩; exact ⟨⟨b, h1⟩, h2⟩
    · rintro ⟨⟨b, h1⟩, h2⟩; exact ⟨⟨(a, b), h1, rfl⟩, h2⟩
  have hlt : ∀ v ∈ N.erase r, X v < hi := by
    intro v hv
    obtain ⟨hne, hv⟩ := Finset.mem_erase.1 hv
    obtain ⟨v1, v2⟩ := (hmem v).1 hv
    refine lt_of_le_of_ne (h.range v v2).2 fun hc => hne ?_
    exact h.inj v r v1 r1 v2 r2 (by rw [hc, r3])
  have hex : ∀ v, ∃ w, v ∈ N.erase r → (v, w) ∈ E ∧ On w ∧ X v < X w := by
    intro v
    by_cases hv : v ∈ N.erase r
    · obtain ⟨v1, v2⟩ := (hmem v).1 (Finset.mem_erase.1 hv).2
      obtain ⟨w, hw⟩ := h.next v v1 v2 (hlt v hv)
      exact ⟨w, fun _ => hw⟩
    · exact ⟨v, fun h => absurd h hv⟩
  choose nxt hnxt using hex
  have hOn : ∀ v ∈ N.erase r, On v := fun v hv => ((hmem v).1 (Finset.mem_erase.1 hv).2).2
  have key := chain_sum N X nxt l r ((hmem l).2 ⟨l1, l2⟩) ((hmem r).2 ⟨r1, r2⟩)
    (by
      intro v hv
      obtain ⟨a, b, c⟩ := hnxt v hv
      refine Finset.mem_erase.2 ⟨fun hc => ?_, (hmem _).2 ⟨⟨_, hs _ _ a⟩, b⟩⟩
      rw [hc, l3] at c
      linarith [(h.range v (hOn v hv)).1])
    (by
      intro v hv v' hv' he
      have hv := Finset.mem_coe.1 hv
      have hv' := Finset.mem_coe.1 hv'
      obtain ⟨a, b, c⟩ := hnxt v hv
      obtain ⟨a', b', c'⟩ := hnxt v' hv'
      rw [← he] at a' c'
      exact h.cofunc v v' _ a a' (hOn v hv) (hOn v' hv') b c c')
  rw [r3, l3] at key
  rw [← key, ← List.sum_toFinset _ (hnd.filter _)]
  refine Finset.sum_bij (fun e _ => e.1) ?_ ?_ ?_ ?_
  · intro e he
    rw [List.mem_toFinset, List.mem_filter, decide_eq_true_eq] at he
    obtain ⟨h1, h2, h3⟩ := (hQ e he.1).1 he.2
    refine Finset.mem_erase.2 ⟨fun hc => ?_, (hmem _).2 ⟨⟨e.2, he.1⟩, h1⟩⟩
    rw [hc, r3] at h3
    linarith [(h.range _ h2).2]
  · intro e he e' he' heq
    rw [List.mem_toFinset, List.mem_filter, decide_eq_true_eq] at he he'
    obtain ⟨h1, h2, h3⟩ := (hQ e he.1).1 he.2
    obtain ⟨h1', h2', h3'⟩ := (hQ e' he'.1).1 he'.2
    obtain ⟨a, b⟩ := e
    obtain ⟨a', b'⟩ := e'
    dsimp only at *
    subst heq
    rw [h.func a b b' he.1 he'.1 h1 h2 h2' h3 h3']
  · intro v hv
    obtain ⟨a, b, c⟩ := hnxt v hv
    refine ⟨(v, nxt v), ?_, rfl⟩
    rw [List.mem_toFinset, List.mem_filter, decide_eq_true_eq]
    exact ⟨a, (hQ _ a).2 ⟨hOn v hv, b, c⟩⟩
  · intro e he
    rw [List.mem_toFinset, List.mem_filter, decide_eq_true_eq] at he
    obtain ⟨h1, h2, h3⟩ := (hQ e he.1).1 he.2
    have hv : e.1 ∈ N.erase r := by
      refine Finset.mem_erase.2 ⟨fun hc => ?_, (hmem _).2 ⟨⟨e.2, he.1⟩, h1⟩⟩
      rw [hc, r3] at h3
      linarith [(h.range _ h2).2]
    obtain ⟨a, b, c⟩ := hnxt e.1 hv
    rw [h.func e.1 e.2 (nxt e.1) he.1 a h1 h2 b h3 c]

theorem filter_ite_sum {α : Type*} (l : List α) (Q : α → Prop) [DecidablePred Q] (f : α → ℚ) :
    ((l.filter fun e => decide (Q e)).map f).sum = (l.map fun e => if Q e then f e else 0).sum := by
  induction l with
  | nil => rfl
  | cons a l ih =>
    by_cases h : Q a
    · simp [h, ih]
    · simp [h, ih]

theorem map_add_sum {α : Type*} (l : List α) (f g : α → ℚ) : (l.map fun e => f e + g e).sum = (l.map f).sum + (l.map g).sum := by
  induction l with
  | nil => simp
  | cons a l ih => simp only [List.map_cons, List.sum_cons, ih]; ring

theorem map_neg_sum {α : Type*} (l : List α) (k : ℚ) (f : α → ℚ) : (l.map fun e => k * f e).sum = k * (l.map f).sum := by
  induction l with
  | nil => simp
  | cons a l ih => simp only [List.map_cons, List.sum_cons, ih]; ring

theorem swap_sum {E : List DEdge} (hn : E.Nodup) (hs : ∀ a b, (a, b) ∈ E → (b, a) ∈ E) (g : DEdge → ℚ) :
    (E.map g).sum = (E.map fun e => g (e.2, e.1)).sum := by
  have hp : E.Perm (E.map Prod.swap) := by
    refine (List.perm_ext_iff_of_nodup hn (hn.map Prod.swap_injective)).2 fun e => ?_
    rw [List.mem_map]
    constructor
    · intro he; exact ⟨(e.2, e.1), hs _ _ he, rfl⟩
    · rintro ⟨⟨a, b⟩, hx, rfl⟩; exact hs _ _ hx
  have h1 := (hp.map g).sum_eq
  rw [List.map_map] at h1
  exact h1

/-- `Side.total` with the half-edges walked the other way and a weight. -/
theorem Side.total_rev {E : List DEdge} {On : ℤ → Prop} {X : ℤ → ℚ} {lo hi : ℚ} (h : Side E On X lo hi) (hnd : E.Nodup)
    (hs : ∀ a b, (a, b) ∈ E → (b, a) ∈ E) (hlo : ∃ v, IsNode E v ∧ On v ∧ X v = lo) (Q : DEdge → Prop) [DecidablePred Q]
    (hQ : ∀ e, Q e ↔ On e.1 ∧ On e.2 ∧ X e.2 < X e.1) (f : DEdge → ℚ) (k : ℚ) (hf : ∀ e, Q e → f e = k * (X e.1 - X e.2)) :
    (E.map fun e => if Q e then f e else 0).sum = k * (hi - lo) := by
  rw [swap_sum hnd hs, ← h.total hnd hs hlo (fun e => Q (e.2, e.1)) (fun e _ => by rw [hQ]; tauto), filter_ite_sum, ← map_neg_sum]
  congr 1
  refine List.map_congr_left fun e _ => ?_
  by_cases hq : Q (e.2, e.1)
  · rw [if_pos hq, if_pos hq, hf _ hq]
  · rw [if_neg hq, if_neg hq, mul_zero]

open FaceCollapser

theorem make_nodup (edges : List DEdge) : (make edges).edgeList.Nodup := by
  have h := (ok_make edges).sorted
  unfold edgeList OMap.Sorted at *
  rw [List.Nodup, List.pairwise_map]
  refine h.imp fun {a b} hab hc => ?_
  rw [hc, strictTotal_edgeLt.irrefl] at hab
  cases hab

section
variable {edges : List DEdge} {V : ℤ → Dir} {ord : ℤ → List ℤ}

theorem side_make (G : PlanarGraph edges V ord) (hinj : ∀ a b, IsNode (make edges).edgeList a → IsNode (make edges).edgeList b → V a = V b → a = b)
    (On : ℤ → Prop) (X : ℤ → ℚ) (lo hi : ℚ) (hr : ∀ v, On v → lo ≤ X v ∧ X v ≤ hi)
    (hon : ∃ s : ℚ, (s = 1 ∨ s = -1) ∧ ((∀ a b, On a → On b → (V a).2 = (V b).2) ∧ (∀ v, X v = s * (V v).1) ∨
      (∀ a b, On a → On b → (V a).1 = (V b).1) ∧ (∀ v, X v = s * (V v).2)))
    (hnx : ∀ v, IsNode (make edges).edgeList v → On v → X v < hi → ∃ w, (v, w) ∈ (make edges).edgeList ∧ On w ∧ X v < X w) :
    Side (make edges).edgeList On X lo hi := by
  have hsym := (ok_make edges).symm
  obtain ⟨s, hs1, hon⟩ := hon
  have hpos : ∀ v w w', On v → On w → On w' → 0 < (X w - X v) * (X w' - X v) → SameDir (dirTo V v w) (dirTo V v w') := by
    intro v w w' hv hw hw' h
    unfold SameDir cross2 dot2 dirTo
    dsimp only
    have hs2 : s * s = 1 := by rcases hs1 with rfl | rfl <;> norm_num
    rcases hon with ⟨h1, h2⟩ | ⟨h1, h2⟩
    · rw [h2, h2, h2] at h
      rw [h1 v w hv hw, h1 w' w hw' hw]
      constructor
      · ring
      · have : (s * (V w).1 - s * (V v).1) * (s * (V w').1 - s * (V v).1) = (s * s) * (((V w).1 - (V v).1) * ((V w').1 - (V v).1)) := by ring
        rw [this, hs2] at h
        linarith
    · rw [h2, h2, h2] at h
      rw [h1 v w hv hw, h1 w' w hw' hw]
      constructor
      · ring
      · have : (s * (V w).2 - s * (V v).2) * (s * (V w').2 - s * (V v).2) = (s * s) * (((V w).2 - (V v).2) * ((V w').2 - (V v).2)) := by ring
        rw [this, hs2] at h
        linarith
  refine ⟨hr, ?_, hnx, ?_, ?_⟩
  · intro a b ha hb oa ob hab
    refine hinj a b ha hb ?_
    have hs0 : s ≠ 0 := by rcases hs1 with rfl | rfl <;> norm_num
    rcases hon with ⟨h1, h2⟩ | ⟨h1, h2⟩
    · rw [h2, h2] at hab
      exact Prod.ext (mul_left_cancel₀ hs0 hab) (h1 a b oa ob)
    · rw [h2, h2] at hab
      exact Prod.ext (h1 a b oa ob) (mul_left_cancel₀ hs0 hab)
  · intro v w w' h1 h2 ov ow ow' l1 l2
    by_contra hne
    exact G.dist v w w' h1 h2 hne (hpos v w w' ov ow ow' (mul_pos (by linarith) (by linarith)))
  · intro v v' w h1 h2 ov ov' ow l1 l2
    by_contra hne
    exact G.dist w v v' (hsym _ _ h1) (hsym _ _ h2) hne (hpos w v v' ow ov ov' (mul_pos_of_neg_of_neg (by linarith) (by linarith)))

/-- **C112.** In a planar graph that contains the boundary of the unit square `c`, the half-edges with `c` on their left
sweep exactly its area: the shoelace sum over them is twice one. -/
theorem C112_area (G : PlanarGraph edges V ord)
    (hinj : ∀ a b, IsNode (make edges).edgeList a → IsNode (make edges).edgeList b → V a = V b → a = b) (c : Coord 2)
    (hf : Framed V (make edges).edgeList c) (hb : ∃ v, IsNode (make edges).edgeList v ∧ InCell c (V v) ∧ ¬ InOpenCell c (V v))
    (D : DEdge → Bool) (hD : ∀ e ∈ (make edges).edgeList, D e = true ↔ LeftOf c (V e.1) (V e.2)) :
    (((make edges).edgeList.filter D).map fun e => cross2 (V e.1) (V e.2)).sum = 2 := by
  classical
  set E := (make edges).edgeList with hE
  set f : DEdge → ℚ := fun e => cross2 (V e.1) (V e.2) with hfdef
  have hsym : ∀ a b, (a, b) ∈ E → (b, a) ∈ E := (ok_make _).symm
  have hnd : E.Nodup := make_nodup edges
  -- the four sides
  have S0 : Side E (fun v => InCell c (V v) ∧ (V v).2 = c 1) (fun v => (V v).1) (c 0) (c 0 + 1) := by
    refine side_make G hinj _ _ _ _ (fun v h => h.1.1) ⟨1, Or.inl rfl, Or.inl ⟨fun a b h1 h2 => by rw [h1.2, h2.2], fun v => by ring⟩⟩ ?_
    rintro v ⟨b, hv⟩ ⟨h1, h2⟩ h3
    obtain ⟨w, hw, w1, w2⟩ := (hf v b hv h1).1 h2 h3
    obtain ⟨c', c1, c2⟩ := G.cell _ hw
    refine ⟨w, hw, ⟨⟨⟨?_, ?_⟩, by rw [w1], by rw [w1]; linarith⟩, w1⟩, w2⟩
    · linarith [h1.1.1]
    · have := c1.1.1; have := c2.1.2
      dsimp only at *
      have : (c' 0 : ℚ) < c 0 + 1 := by linarith
      have : (c' 0 : ℚ) + 1 ≤ c 0 + 1 := by exact_mod_cast this
      linarith
  have S1 : Side E (fun v => InCell c (V v) ∧ (V v).1 = c 0 + 1) (fun v => (V v).2) (c 1) (c 1 + 1) := by
    refine side_make G hinj _ _ _ _ (fun v h => h.1.2) ⟨1, Or.inl rfl, Or.inr ⟨fun a b h1 h2 => by rw [h1.2, h2.2], fun v => by ring⟩⟩ ?_
    rintro v ⟨b, hv⟩ ⟨h1, h2⟩ h3
    obtain ⟨w, hw, w1, w2⟩ := (hf v b hv h1).2.1 h2 h3
    obtain ⟨c', c1, c2⟩ := G.cell _ hw
    refine ⟨w, hw, ⟨⟨⟨by rw [w1]; linarith, by rw [w1]⟩, ?_, ?_⟩, w1⟩, w2⟩
    · linarith [h1.2.1]
    · have := c1.2.1; have := c2.2.2
      dsimp only at *
      have : (c' 1 : ℚ) < c 1 + 1 := by linarith
      have : (c' 1 : ℚ) + 1 ≤ c 1 + 1 := by exact_mod_cast this
      linarith
  have S2 : Side E (fun v => InCell c (V v) ∧ (V v).2 = c 1 + 1) (fun v => - (V v).1) (-(c 0 + 1)) (- c 0) := by
    refine side_make G hinj _ _ _ _ (fun v h => ⟨by linarith [h.1.1.2], by linarith [h.1.1.1]⟩)
      ⟨-1, Or.inr rfl, Or.inl ⟨fun a b h1 h2 => by rw [h1.2, h2.2], fun v => by ring⟩⟩ ?_
    rintro v ⟨b, hv⟩ ⟨h1, h2⟩ h3
    obtain ⟨w, hw, w1, w2⟩ := (hf v b hv h1).2.2.1 h2 (by linarith)
    obtain ⟨c', c1, c2⟩ := G.cell _ hw
    refine ⟨w, hw, ⟨⟨⟨?_, ?_⟩, by rw [w1]; linarith, by rw [w1]⟩, w1⟩, by linarith⟩
    · have := c1.1.2; have := c2.1.1
      dsimp only at *
      have : (c 0 : ℚ) < c' 0 + 1 := by linarith
      have : (c 0 : ℚ) < (c' 0 + 1 : ℤ) := by push_cast; exact this
      have : (c 0 : ℚ) ≤ c' 0 := by exact_mod_cast Int.lt_add_one_iff.1 (by exact_mod_cast this)
      linarith
    · linarith [h1.1.2]
  have S3 : Side E (fun v => InCell c (V v) ∧ (V v).1 = c 0) (fun v => - (V v).2) (-(c 1 + 1)) (- c 1) := by
    refine side_make G hinj _ _ _ _ (fun v h => ⟨by linarith [h.1.2.2], by linarith [h.1.2.1]⟩)
      ⟨-1, Or.inr rfl, Or.inr ⟨fun a b h1 h2 => by rw [h1.2, h2.2], fun v => by ring⟩⟩ ?_
    rintro v ⟨b, hv⟩ ⟨h1, h2⟩ h3
    obtain ⟨w, hw, w1, w2⟩ := (hf v b hv h1).2.2.2 h2 (by linarith)
    obtain ⟨c', c1, c2⟩ := G.cell _ hw
    refine ⟨w, hw, ⟨⟨⟨by rw [w1], by rw [w1]; linarith⟩, ?_, ?_⟩, w1⟩, by linarith⟩
    · have := c1.2.2; have := c2.2.1
      dsimp only at *
      have : (c 1 : ℚ) < c' 1 + 1 := by linarith
      have : (c 1 : ℚ) < (c' 1 + 1 : ℤ) := by push_cast; exact this
      have : (c 1 : ℚ) ≤ c' 1 := by exact_mod_cast Int.lt_add_one_iff.1 (by exact_mod_cast this)
      linarith
    · linarith [h1.2.2]
  -- the four corners are vertices
  have K0 : (∃ v, IsNode E v ∧ InCell c (V v) ∧ (V v).2 = c 1) → ∃ v, IsNode E v ∧ (InCell c (V v) ∧ (V v).1 = c 0 + 1) ∧ (V v).2 = c 1 := by
    rintro ⟨v, h1, h2⟩
    obtain ⟨w, w1, w2, w3⟩ := S0.corner hsym h1 h2
    exact ⟨w, w1, ⟨w2.1, w3⟩, w2.2⟩
  have K1 : (∃ v, IsNode E v ∧ InCell c (V v) ∧ (V v).1 = c 0 + 1) → ∃ v, IsNode E v ∧ (InCell c (V v) ∧ (V v).2 = c 1 + 1) ∧ - (V v).1 = -(c 0 + 1) := by
    rintro ⟨v, h1, h2⟩
    obtain ⟨w, w1, w2, w3⟩ := S1.corner hsym h1 h2
    exact ⟨w, w1, ⟨w2.1, w3⟩, by rw [w2.2]⟩
  have K2 : (∃ v, IsNode E v ∧ InCell c (V v) ∧ (V v).2 = c 1 + 1) → ∃ v, IsNode E v ∧ (InCell c (V v) ∧ (V v).1 = c 0) ∧ - (V v).2 = -(c 1 + 1) := by
    rintro ⟨v, h1, h2⟩
    obtain ⟨w, w1, w2, w3⟩ := S2.corner hsym h1 h2
    exact ⟨w, w1, ⟨w2.1, by linarith⟩, by rw [w2.2]⟩
  have K3 : (∃ v, IsNode E v ∧ InCell c (V v) ∧ (V v).1 = c 0) → ∃ v, IsNode E v ∧ (InCell c (V v) ∧ (V v).2 = c 1) ∧ (V v).1 = c 0 := by
    rintro ⟨v, h1, h2⟩
    obtain ⟨w, w1, w2, w3⟩ := S3.corner hsym h1 h2
    exact ⟨w, w1, ⟨w2.1, by linarith⟩, w2.2⟩
  have J0 : (∃ v, IsNode E v ∧ InCell c (V v) ∧ (V v).2 = c 1) → ∃ v, IsNode E v ∧ InCell c (V v) ∧ (V v).1 = c 0 + 1 :=
    fun h => let ⟨v, a, b, _⟩ := K0 h; ⟨v, a, b⟩
  have J1 : (∃ v, IsNode E v ∧ InCell c (V v) ∧ (V v).1 = c 0 + 1) → ∃ v, IsNode E v ∧ InCell c (V v) ∧ (V v).2 = c 1 + 1 :=
    fun h => let ⟨v, a, b, _⟩ := K1 h; ⟨v, a, b⟩
  have J2 : (∃ v, IsNode E v ∧ InCell c (V v) ∧ (V v).2 = c 1 + 1) → ∃ v, IsNode E v ∧ InCell c (V v) ∧ (V v).1 = c 0 :=
    fun h => let ⟨v, a, b, _⟩ := K2 h; ⟨v, a, b⟩
  have J3 : (∃ v, IsNode E v ∧ InCell c (V v) ∧ (V v).1 = c 0) → ∃ v, IsNode E v ∧ InCell c (V v) ∧ (V v).2 = c 1 :=
    fun h => let ⟨v, a, b, _⟩ := K3 h; ⟨v, a, b⟩
  have B0 : ∃ v, IsNode E v ∧ InCell c (V v) ∧ (V v).2 = c 1 := by
    obtain ⟨v, h1, h2, h3⟩ := hb
    by_cases e0 : (V v).2 = c 1
    · exact ⟨v, h1, h2, e0⟩
    by_cases e1 : (V v).1 = c 0
    · exact J3 ⟨v, h1, h2, e1⟩
    by_cases e2 : (V v).2 = c 1 + 1
    · exact J3 (J2 ⟨v, h1, h2, e2⟩)
    by_cases e3 : (V v).1 = c 0 + 1
    · exact J3 (J2 (J1 ⟨v, h1, h2, e3⟩))
    exfalso
    obtain ⟨⟨a1, a2⟩, a3, a4⟩ := h2
    exact h3 ⟨⟨lt_of_le_of_ne a1 (Ne.symm e1), lt_of_le_of_ne a2 e3⟩, lt_of_le_of_ne a3 (Ne.symm e0), lt_of_le_of_ne a4 e2⟩
  have B1 := J0 B0
  have B2 := J1 B1
  have B3 := J2 B2
  -- the clockwise half-edges on the sides
  let T : DEdge → Prop := fun e => InCell c (V e.1) ∧ InCell c (V e.2)
  let C0 : DEdge → Prop := fun e => T e ∧ (V e.1).2 = c 1 ∧ (V e.2).2 = c 1 ∧ (V e.2).1 < (V e.1).1
  let C1 : DEdge → Prop := fun e => T e ∧ (V e.1).1 = c 0 + 1 ∧ (V e.2).1 = c 0 + 1 ∧ (V e.2).2 < (V e.1).2
  let C2 : DEdge → Prop := fun e => T e ∧ (V e.1).2 = c 1 + 1 ∧ (V e.2).2 = c 1 + 1 ∧ (V e.1).1 < (V e.2).1
  let C3 : DEdge → Prop := fun e => T e ∧ (V e.1).1 = c 0 ∧ (V e.2).1 = c 0 ∧ (V e.1).2 < (V e.2).2
  have s0 : (E.map fun e => if C0 e then f e else 0).sum = c 1 * ((c 0 + 1) - c 0) := by
    refine S0.total_rev hnd hsym (K3 B3) C0 (fun e => ?_) f _ (fun e h => ?_)
    · exact ⟨fun ⟨⟨a, b⟩, c', d, e'⟩ => ⟨⟨a, c'⟩, ⟨b, d⟩, e'⟩, fun ⟨⟨a, c'⟩, ⟨b, d⟩, e'⟩ => ⟨⟨a, b⟩, c', d, e'⟩⟩
    · obtain ⟨-, h1, h2, -⟩ := h
      simp only [hfdef, cross2, h1, h2]; ring
  have s1 : (E.map fun e => if C1 e then f e else 0).sum = -(c 0 + 1) * ((c 1 + 1) - c 1) := by
    refine S1.total_rev hnd hsym (K0 B0) C1 (fun e => ?_) f _ (fun e h => ?_)
    · exact ⟨fun ⟨⟨a, b⟩, c', d, e'⟩ => ⟨⟨a, c'⟩, ⟨b, d⟩, e'⟩, fun ⟨⟨a, c'⟩, ⟨b, d⟩, e'⟩ => ⟨⟨a, b⟩, c', d, e'⟩⟩
    · obtain ⟨-, h1, h2, -⟩ := h
      simp only [hfdef, cross2, h1, h2]; ring
  have s2 : (E.map fun e => if C2 e then f e else 0).sum = -(c 1 + 1) * ((- c 0) - (-(c 0 + 1))) := by
    refine S2.total_rev hnd hsym (K1 B1) C2 (fun e => ?_) f _ (fun e h => ?_)
    · rw [neg_lt_neg_iff]
      exact ⟨fun ⟨⟨a, b⟩, c', d, e'⟩ => ⟨⟨a, c'⟩, ⟨b, d⟩, e'⟩, fun ⟨⟨a, c'⟩, ⟨b, d⟩, e'⟩ => ⟨⟨a, b⟩, c', d, e'⟩⟩
    · obtain ⟨-, h1, h2, -⟩ := h
      simp only [hfdef, cross2, h1, h2]; ring
  have s3 : (E.map fun e => if C3 e then f e else 0).sum = c 0 * ((- c 1) - (-(c 1 + 1))) := by
    refine S3.total_rev hnd hsym (K2 B2) C3 (fun e => ?_) f _ (fun e h => ?_)
    · rw [neg_lt_neg_iff]
      exact ⟨fun ⟨⟨a, b⟩, c', d, e'⟩ => ⟨⟨a, c'⟩, ⟨b, d⟩, e'⟩, fun ⟨⟨a, c'⟩, ⟨b, d⟩, e'⟩ => ⟨⟨a, b⟩, c', d, e'⟩⟩
    · obtain ⟨-, h1, h2, -⟩ := h
      simp only [hfdef, cross2, h1, h2]; ring
  have hDe : ∀ e ∈ E, D e = true ↔ T e ∧ ¬ Clockwise c (V e.1) (V e.2) := by
    intro e he
    rw [hD e he, leftOf_iff c _ _ (G.ne e he)]
    exact and_assoc.symm
  have hTanti : (E.map fun e => if T e then f e else 0).sum = 0 := by
    have h1 := swap_sum hnd hsym fun e => if T e then f e else 0
    have h2 : (E.map fun e => if T (e.2, e.1) then f (e.2, e.1) else 0) = E.map fun e => (-1) * (if T e then f e else 0) := by
      refine List.map_congr_left fun e _ => ?_
      have : T (e.2, e.1) ↔ T e := and_comm
      by_cases ht : T e
      · rw [if_pos ht, if_pos (this.2 ht)]
        simp only [hfdef, cross2]; ring
      · rw [if_neg ht, if_neg (fun hh => ht (this.1 hh))]; ring
    rw [h2, map_neg_sum] at h1
    linarith
  have hsplit : ∀ e ∈ E, (if T e then f e else 0) = (if D e = true then f e else 0) + ((if C0 e then f e else 0) +
      ((if C1 e then f e else 0) + ((if C2 e then f e else 0) + (if C3 e then f e else 0)))) := by
    intro e he
    have hDe' := hDe e he
    by_cases ht : T e
    · rw [if_pos ht]
      by_cases hcw : Clockwise c (V e.1) (V e.2)
      · rw [if_neg (fun hh => (hDe'.1 hh).2 hcw)]
        have lt0 : (c 0 : ℚ) < c 0 + 1 := by linarith
        have lt1 : (c 1 : ℚ) < c 1 + 1 := by linarith
        rcases hcw with hw | hw | hw | hw
        · have k1 : ¬ C1 e := fun hh => by have := hh.2; linarith [hw.2.2, this.1, this.2.1]
          have k2 : ¬ C2 e := fun hh => by have := hh.2; linarith [hw.1, this.1]
          have k3 : ¬ C3 e := fun hh => by have := hh.2; linarith [hw.2.2, this.1, this.2.1]
          rw [if_pos (show C0 e from ⟨ht, hw⟩), if_neg k1, if_neg k2, if_neg k3]; ring
        · have k1 : ¬ C0 e := fun hh => by have := hh.2; linarith [hw.2.2, this.1, this.2.1]
          have k2 : ¬ C2 e := fun hh => by have := hh.2; linarith [hw.2.2, this.1, this.2.1]
          have k3 : ¬ C3 e := fun hh => by have := hh.2; linarith [hw.1, this.1]
          rw [if_pos (show C1 e from ⟨ht, hw⟩), if_neg k1, if_neg k2, if_neg k3]; ring
        · have k1 : ¬ C0 e := fun hh => by have := hh.2; linarith [hw.1, this.1]
          have k2 : ¬ C1 e := fun hh => by have := hh.2; linarith [hw.2.2, this.1, this.2.1]
          have k3 : ¬ C3 e := fun hh => by have := hh.2; linarith [hw.2.2, this.1, this.2.1]
          rw [if_pos (show C2 e from ⟨ht, hw⟩), if_neg k1, if_neg k2, if_neg k3]; ring
        · have k1 : ¬ C0 e := fun hh => by have := hh.2; linarith [hw.2.2, this.1, this.2.1]
          have k2 : ¬ C1 e := fun hh => by have := hh.2; linarith [hw.1, this.1]
          have k3 : ¬ C2 e := fun hh => by have := hh.2; linarith [hw.2.2, this.1, this.2.1]
          rw [if_pos (show C3 e from ⟨ht, hw⟩), if_neg k1, if_neg k2, if_neg k3]; ring
      · have k0 : ¬ C0 e := fun hh => hcw (Or.inl hh.2)
        have k1 : ¬ C1 e := fun hh => hcw (Or.inr (Or.inl hh.2))
        have k2 : ¬ C2 e := fun hh => hcw (Or.inr (Or.inr (Or.inl hh.2)))
        have k3 : ¬ C3 e := fun hh => hcw (Or.inr (Or.inr (Or.inr hh.2)))
        rw [if_pos (hDe'.2 ⟨ht, hcw⟩), if_neg k0, if_neg k1, if_neg k2, if_neg k3]; ring
    · rw [if_neg ht, if_neg (fun hh => ht (hDe'.1 hh).1), if_neg (fun hh : C0 e => ht hh.1), if_neg (fun hh : C1 e => ht hh.1),
        if_neg (fun hh : C2 e => ht hh.1), if_neg (fun hh : C3 e => ht hh.1)]; ring
  have hDs : ((E.filter D).map f).sum = (E.map fun e => if D e = true then f e else 0).sum := by
    rw [← filter_ite_sum]; congr 2; refine List.filter_congr fun e _ => ?_; simp
  have htot := hTanti
  rw [List.map_congr_left hsplit, map_add_sum, map_add_sum, map_add_sum, map_add_sum, s0, s1, s2, s3] at htot
  rw [hDs]
  linarith

end
end Planar
end Mandoline
