import Verif.Face2.Loops
import Mathlib.Tactic.FieldSimp
import Mathlib.Tactic.Positivity

/-! # C108: pieces of a triangle cut along lines (geometry)

`TriangleIntersections::vptr_faces` (include/mandoline/construction/facet_intersections_impl.hpp:456-505) gives the graph of
the pieces of the chords and of the sides of an input triangle to a `FaceCollapser`, with barycentric coordinates (the first
two) as positions. This file is the geometry of that graph: lines across the triangle with barycentric corners
`(1,0), (0,1), (0,0)`, and which points a half-edge has on its left. -/

namespace Mandoline
namespace Arr

open Planar (dir)

/-! ## Specification -/

/-- an affine function of the plane; its zero set is a line when the gradient `(a, b)` does not vanish. -/
structure Aff where
  a : ℚ
  b : ℚ
  c : ℚ
  deriving DecidableEq

/-- value at a point. -/
def Aff.at (l : Aff) (p : Dir) : ℚ := l.a * p.1 + l.b * p.2 + l.c

/-- change along a displacement. -/
def Aff.lin (l : Aff) (d : Dir) : ℚ := l.a * d.1 + l.b * d.2

/-- the three barycentric coordinates; the triangle is where none is negative. -/
def sides : List Aff := [⟨1, 0, 0⟩, ⟨0, 1, 0⟩, ⟨-1, -1, 1⟩]

/-- `q` is in the interior of the triangle and on none of the lines `L`. -/
structure Generic (L : List Aff) (q : Dir) : Prop where
  inside : ∀ s ∈ sides, 0 < s.at q
  off : ∀ l ∈ L, l.at q ≠ 0

/-- the segment from `p` to `p'` has the point `q` strictly on its left. -/
def OnLeft (q p p' : Dir) : Prop := 0 < cross2 (dir p p') (dir p q)

/-- the closed cell of the arrangement around `q`: on no line the two points are on different sides. -/
def SameCell (L : List Aff) (q p : Dir) : Prop := ∀ l ∈ L, 0 ≤ l.at q * l.at p

/-- what the graph of a triangle cut along the lines `L` satisfies. -/
structure Graph (E : List DEdge) (V : ℤ → Dir) (L : List Aff) : Prop where
  grad : ∀ l ∈ L, l.a ≠ 0 ∨ l.b ≠ 0
  symm : ∀ a b, (a, b) ∈ E → (b, a) ∈ E
  ne : ∀ e ∈ E, V e.1 ≠ V e.2
  dist : ∀ a b c, (a, b) ∈ E → (a, c) ∈ E → b ≠ c → ¬ SameDir (dirTo V a b) (dirTo V a c)
  inj : ∀ a b a' b', (a, b) ∈ E → (a', b') ∈ E → V a = V a' → a = a'
  inside : ∀ e ∈ E, ∀ s ∈ sides, 0 ≤ s.at (V e.1)
  on : ∀ e ∈ E, ∃ l ∈ L ++ sides, l.at (V e.1) = 0 ∧ l.at (V e.2) = 0
  nocross : ∀ e ∈ E, ∀ l ∈ L, 0 ≤ l.at (V e.1) * l.at (V e.2)
  complete : ∀ a b, (a, b) ∈ E → ∀ l ∈ L ++ sides, l.at (V a) = 0 → ∀ d : Dir, d ≠ 0 → l.lin d = 0 →
    (∀ s ∈ sides, s.at (V a) = 0 → 0 ≤ s.lin d) → ∃ w, (a, w) ∈ E ∧ SameDir d (dirTo V a w)
  meet : ∀ l ∈ L ++ sides, ∀ m ∈ L ++ sides, l.a * m.b - l.b * m.a ≠ 0 → ∀ p, l.at p = 0 → m.at p = 0 →
    (∀ s ∈ sides, 0 ≤ s.at p) → ∃ a b, (a, b) ∈ E ∧ V a = p

/-! ## Algebra -/

theorem at_dir (l : Aff) (p q : Dir) : l.at q = l.at p + l.lin (dir p q) := by unfold Aff.at Aff.lin dir; ring

theorem lin_of_zero {l : Aff} {p : Dir} (h : l.at p = 0) (q : Dir) : l.at q = l.lin (dir p q) := by rw [at_dir l p q, h, zero_add]

theorem normSq_pos {d : Dir} (h : d ≠ 0) : 0 < d.1 * d.1 + d.2 * d.2 := by
  have : d.1 ≠ 0 ∨ d.2 ≠ 0 := by
    by_contra hn; push Not at hn; exact h (Prod.ext hn.1 hn.2)
  rcases this with h | h
  · have := mul_self_pos.2 h; nlinarith [mul_self_nonneg d.2]
  · have := mul_self_pos.2 h; nlinarith [mul_self_nonneg d.1]

theorem dir_ne {p q : Dir} (h : p ≠ q) : dir p q ≠ 0 := by
  intro h0
  unfold dir at h0
  have := Prod.ext_iff.1 h0
  exact h (Prod.ext (by have := this.1; simp at this; linarith) (by have := this.2; simp at this; linarith))

theorem perp {l : Aff} {d : Dir} (hd : d ≠ 0) (h : l.lin d = 0) : ∃ k, ∀ x : Dir, l.lin x = k * cross2 d x := by
  have hn := normSq_pos hd
  refine ⟨(l.b * d.1 - l.a * d.2) / (d.1 * d.1 + d.2 * d.2), fun x => ?_⟩
  unfold Aff.lin at *
  unfold cross2
  rw [div_mul_eq_mul_div, eq_div_iff hn.ne']
  linear_combination (d.1 * x.1 + d.2 * x.2) * h

theorem cross_anti (a b : Dir) : cross2 b a = - cross2 a b := by unfold cross2; ring

/-- on the directions with `g` on their left, "not clockwise of" is transitive. -/
theorem half_trans {g a b c : Dir} (ha : 0 < cross2 a g) (hb : 0 < cross2 b g) (hc : 0 < cross2 c g)
    (h1 : 0 ≤ cross2 a b) (h2 : 0 ≤ cross2 b c) : 0 ≤ cross2 a c := by
  have : cross2 a c * cross2 b g = cross2 a b * cross2 c g + cross2 b c * cross2 a g := by unfold cross2; ring
  by_contra hn
  push Not at hn
  have h3 := mul_neg_of_neg_of_pos hn hb
  have h4 := mul_nonneg h1 hc.le
  have h5 := mul_nonneg h2 ha.le
  linarith

/-- parallel directions on the same side of `g`. -/
theorem sameDir_of_half {g a b : Dir} (ha : 0 < cross2 a g) (hb : 0 < cross2 b g) (h : cross2 a b = 0) : SameDir a b := by
  refine ⟨h, ?_⟩
  have hg : 0 < dot2 g g := by
    have : g ≠ 0 := by
      rintro rfl
      unfold cross2 at ha; simp at ha
    exact normSq_pos this
  have e : dot2 a b * dot2 g g = cross2 a g * cross2 b g + dot2 a g * dot2 b g := by unfold dot2 cross2; ring
  have e2 : cross2 a b * dot2 g g = dot2 a g * -cross2 b g * (-1) * (-1) + cross2 a g * dot2 b g := by
    unfold dot2 cross2; ring
  rw [h, zero_mul] at e2
  -- cross a g * dot b g = dot a g * cross b g
  have e3 : cross2 a g * dot2 b g = dot2 a g * cross2 b g := by linarith
  have h0 : 0 ≤ dot2 a g * dot2 b g := by
    have : cross2 a g * (dot2 a g * dot2 b g) = cross2 b g * (dot2 a g * dot2 a g) := by linear_combination dot2 a g * e3
    by_contra hn
    push Not at hn
    have h1 := mul_neg_of_pos_of_neg ha hn
    have h2 := mul_nonneg hb.le (mul_self_nonneg (dot2 a g))
    linarith
  have h1 := mul_pos ha hb
  by_contra hn
  push Not at hn
  have := mul_nonpos_of_nonpos_of_nonneg hn hg.le
  linarith

theorem cross_of_sameDir_left {d w x : Dir} (hd : d ≠ 0) (h : SameDir d w) :
    ∃ k, 0 < k ∧ w = (k * d.1, k * d.2) := by
  have hn := normSq_pos hd
  obtain ⟨h1, h2⟩ := h
  refine ⟨dot2 d w / (d.1 * d.1 + d.2 * d.2), div_pos h2 hn, ?_⟩
  unfold cross2 at h1
  unfold dot2
  refine Prod.ext ?_ ?_ <;> dsimp only <;> rw [div_mul_eq_mul_div, eq_div_iff hn.ne']
  · linear_combination (-d.2) * h1
  · linear_combination (d.1) * h1

/-! ## The cell of a point, seen from a vertex -/

/-- the direction along `l` that has `g` on its left. -/
def along (g : Dir) (l : Aff) : Dir := (l.lin g * l.b, - (l.lin g * l.a))

theorem lin_along (g : Dir) (l : Aff) : l.lin (along g l) = 0 := by unfold along Aff.lin; ring
theorem cross_along (g : Dir) (l : Aff) (x : Dir) : cross2 (along g l) x = l.lin g * l.lin x := by
  unfold along cross2 Aff.lin; ring

/-- among finitely many lines through a point none of which contains `g`, one bounds the cell of `g` on the right. -/
theorem extreme (g : Dir) (A : List Aff) (hA : A ≠ []) (hg : ∀ l ∈ A, l.lin g ≠ 0) :
    ∃ l ∈ A, ∀ m ∈ A, 0 ≤ m.lin g * m.lin (along g l) := by
  have hpos : ∀ l ∈ A, 0 < cross2 (along g l) g := fun l hl => by rw [cross_along]; exact mul_self_pos.2 (hg l hl)
  suffices H : ∀ B : List Aff, B ≠ [] → (∀ l ∈ B, l ∈ A) → ∃ l ∈ B, ∀ m ∈ B, 0 ≤ cross2 (along g m) (along g l) by
    obtain ⟨l, hl, h⟩ := H A hA fun _ h => h
    exact ⟨l, hl, fun m hm => by rw [← cross_along]; exact h m hm⟩
  intro B
  induction B with
  | nil => intro h; exact absurd rfl h
  | cons m B ih =>
    intro _ hsub
    by_cases hB : B = []
    · subst hB
      refine ⟨m, List.mem_singleton.2 rfl, fun k hk => ?_⟩
      rw [List.mem_singleton.1 hk]
      unfold cross2; linarith
    · obtain ⟨l, hl, h⟩ := ih hB fun k hk => hsub k (List.mem_cons_of_mem _ hk)
      by_cases hm : 0 ≤ cross2 (along g m) (along g l)
      · refine ⟨l, List.mem_cons_of_mem _ hl, fun k hk => ?_⟩
        rcases List.mem_cons.1 hk with rfl | hk
        · exact hm
        · exact h k hk
      · refine ⟨m, List.mem_cons_self, fun k hk => ?_⟩
        rcases List.mem_cons.1 hk with rfl | hk
        · unfold cross2; linarith
        · have hp := hpos m (hsub m List.mem_cons_self)
          refine half_trans (hpos k (hsub k (List.mem_cons_of_mem _ hk))) (hpos l (hsub l (List.mem_cons_of_mem _ hl))) hp (h k hk) ?_
          rw [cross_anti]
          push Not at hm
          linarith

variable {E : List DEdge} {V : ℤ → Dir} {L : List Aff}

/-- `q` is on the left of the half-edge and in the same cell as its ends. -/
structure Left (L : List Aff) (q p p' : Dir) : Prop where
  fst : SameCell (L ++ sides) q p
  snd : SameCell (L ++ sides) q p'
  left : OnLeft q p p'

theorem Generic.ne_zero {q : Dir} (hq : Generic L q) {l : Aff} (hl : l ∈ L ++ sides) : l.at q ≠ 0 := by
  rcases List.mem_append.1 hl with h | h
  · exact hq.off l h
  · exact (hq.inside l h).ne'

theorem Graph.inside' (G : Graph E V L) {a b : ℤ} (h : (a, b) ∈ E) {s : Aff} (hs : s ∈ sides) : 0 ≤ s.at (V b) :=
  G.inside _ (G.symm _ _ h) s hs

theorem Graph.nocross' (G : Graph E V L) {e : DEdge} (h : e ∈ E) {l : Aff} (hl : l ∈ L ++ sides) :
    0 ≤ l.at (V e.1) * l.at (V e.2) := by
  rcases List.mem_append.1 hl with h' | h'
  · exact G.nocross e h l h'
  · exact mul_nonneg (G.inside e h l h') (G.inside' h h')

theorem Graph.dir_ne (G : Graph E V L) {a b : ℤ} (h : (a, b) ∈ E) : dir (V a) (V b) ≠ 0 := Arr.dir_ne (G.ne _ h)

/-- the line of a half-edge tells on which side of it a point is. -/
theorem Graph.line (G : Graph E V L) {q : Dir} (hq : Generic L q) {a b : ℤ} (h : (a, b) ∈ E) :
    ∃ l ∈ L ++ sides, ∃ k, k ≠ 0 ∧ l.at (V a) = 0 ∧ l.at (V b) = 0 ∧ ∀ x, l.at x = k * cross2 (dir (V a) (V b)) (dir (V a) x) := by
  obtain ⟨l, hl, h1, h2⟩ := G.on _ h
  dsimp only at h1 h2
  have h3 : l.lin (dir (V a) (V b)) = 0 := by rw [← lin_of_zero h1]; exact h2
  obtain ⟨k, hk⟩ := perp (G.dir_ne h) h3
  refine ⟨l, hl, k, ?_, h1, h2, fun x => by rw [lin_of_zero h1]; exact hk _⟩
  rintro rfl
  refine hq.ne_zero hl ?_
  rw [lin_of_zero h1, hk, zero_mul]

/-- points in the cell of `q` are not on the right of a half-edge that has `q` on its left. -/
theorem Graph.left_of_cell (G : Graph E V L) {q : Dir} (hq : Generic L q) {a b : ℤ} (h : (a, b) ∈ E)
    (hl : OnLeft q (V a) (V b)) {x : Dir} (hx : SameCell (L ++ sides) q x) :
    0 ≤ cross2 (dir (V a) (V b)) (dir (V a) x) := by
  obtain ⟨l, hm, k, hk, _, _, hl'⟩ := G.line hq h
  have := hx l hm
  rw [hl' q, hl' x] at this
  unfold OnLeft at hl
  have hk2 : 0 < k * k := mul_self_pos.2 hk
  by_contra hn
  push Not at hn
  have h1 := mul_neg_of_pos_of_neg hl hn
  have h2 := mul_neg_of_pos_of_neg hk2 h1
  nlinarith

/-- each vertex in the cell of `q` starts a half-edge of the cell. -/
theorem Graph.star (G : Graph E V L) {q : Dir} (hq : Generic L q) {a b : ℤ} (h : (a, b) ∈ E)
    (ha : SameCell (L ++ sides) q (V a)) : ∃ w, (a, w) ∈ E ∧ Left L q (V a) (V w) := by
  set A := (L ++ sides).filter fun l => decide (l.at (V a) = 0) with hA
  have hmem : ∀ l, l ∈ A ↔ l ∈ L ++ sides ∧ l.at (V a) = 0 := fun l => by
    rw [hA, List.mem_filter, decide_eq_true_eq]
  have hne : A ≠ [] := by
    obtain ⟨l, hl, h1, _⟩ := G.on _ h
    intro h0
    have := (hmem l).2 ⟨hl, h1⟩
    rw [h0] at this; cases this
  obtain ⟨l, hl, hext⟩ := extreme (dir (V a) q) A hne fun l hl => by
    rw [← lin_of_zero ((hmem l).1 hl).2]; exact hq.ne_zero ((hmem l).1 hl).1
  obtain ⟨hl1, hl2⟩ := (hmem l).1 hl
  set d := along (dir (V a) q) l with hd
  have hlq : l.lin (dir (V a) q) ≠ 0 := by rw [← lin_of_zero hl2]; exact hq.ne_zero hl1
  have hdg : 0 < cross2 d (dir (V a) q) := by rw [hd, cross_along]; exact mul_self_pos.2 hlq
  have hd0 : d ≠ 0 := by
    intro h0
    rw [h0] at hdg
    unfold cross2 at hdg; simp at hdg
  obtain ⟨w, hw, hsame⟩ := G.complete a b h l hl1 hl2 d hd0 (lin_along _ _) fun s hs hs0 => by
    have := hext s ((hmem s).2 ⟨List.mem_append_right _ hs, hs0⟩)
    rw [← lin_of_zero hs0] at this
    by_contra hn
    push Not at hn
    have := mul_neg_of_pos_of_neg (hq.inside s hs) hn
    linarith
  obtain ⟨k, hk, hw'⟩ := cross_of_sameDir_left (x := d) hd0 hsame
  have hlin : ∀ m : Aff, m.lin (dir (V a) (V w)) = k * m.lin d := by
    intro m
    have : dir (V a) (V w) = (k * d.1, k * d.2) := hw'
    rw [this]; unfold Aff.lin; ring
  refine ⟨w, hw, ha, fun m hm => ?_, ?_⟩
  · by_cases hm0 : m.at (V a) = 0
    · rw [lin_of_zero hm0 (V w), hlin, lin_of_zero hm0 q]
      have := hext m ((hmem m).2 ⟨hm, hm0⟩)
      have := mul_nonneg hk.le this
      linarith
    · have h1 := ha m hm
      have h2 := G.nocross' hw hm
      dsimp only at h2
      have h3 : 0 < m.at (V a) * m.at (V a) := mul_self_pos.2 hm0
      have h4 := mul_nonneg h1 h2
      by_contra hn
      push Not at hn
      have := mul_neg_of_pos_of_neg h3 hn
      linarith
  · unfold OnLeft
    have : dir (V a) (V w) = (k * d.1, k * d.2) := hw'
    rw [this]
    have e : cross2 (k * d.1, k * d.2) (dir (V a) q) = k * cross2 d (dir (V a) q) := by unfold cross2; ring
    rw [e]
    exact mul_pos hk hdg

/-- it starts only one. -/
theorem Graph.left_unique (G : Graph E V L) {q : Dir} (hq : Generic L q) {a w w' : ℤ} (h : (a, w) ∈ E) (h' : (a, w') ∈ E)
    (hl : Left L q (V a) (V w)) (hl' : Left L q (V a) (V w')) : w = w' := by
  by_contra hne
  refine G.dist a w w' h h' hne ?_
  have h1 := G.left_of_cell hq h hl.left hl'.snd
  have h2 := G.left_of_cell hq h' hl'.left hl.snd
  rw [cross_anti] at h2
  have h3 : cross2 (dir (V a) (V w)) (dir (V a) (V w')) = 0 := le_antisymm (by linarith) h1
  exact sameDir_of_half hl.left hl'.left h3

/-- **the step.** The half-edge that follows a half-edge of the cell of `q` is again a half-edge of this cell. -/
theorem Graph.step (G : Graph E V L) {q : Dir} (hq : Generic L q) {u a w : ℤ} (hw : (a, w) ∈ E)
    (hl : Left L q (V u) (V a)) (hs : ∀ r, (a, r) ∈ E → ¬ InSector (dirTo V a w) (dirTo V a r) (dirTo V a u)) :
    Left L q (V a) (V w) := by
  obtain ⟨r, hr, hrl⟩ := G.star hq hw hl.snd
  suffices h : w = r by rw [h]; exact hrl
  by_contra hne
  have hns : ¬ SameDir (dirTo V a w) (dirTo V a r) := G.dist a w r hw hr hne
  have hsec := hs r hr
  change ¬ SameDir (dir (V a) (V w)) (dir (V a) (V r)) at hns
  change ¬ InSector (dir (V a) (V w)) (dir (V a) (V r)) (dir (V a) (V u)) at hsec
  -- facts
  have hU : cross2 (dir (V a) (V u)) (dir (V a) q) < 0 := by
    have := hl.left
    unfold OnLeft cross2 dir at this
    unfold cross2 dir
    nlinarith
  have hRU : 0 ≤ cross2 (dir (V a) (V r)) (dir (V a) (V u)) := G.left_of_cell hq hr hrl.left hl.fst
  have hRG : 0 < cross2 (dir (V a) (V r)) (dir (V a) q) := hrl.left
  obtain ⟨m, hm, k, hk, hm1, hm2, hm3⟩ := G.line hq hw
  have hk2 : 0 < k * k := mul_self_pos.2 hk
  have hsee : ∀ x, SameCell (L ++ sides) q x →
      0 ≤ cross2 (dir (V a) (V w)) (dir (V a) q) * cross2 (dir (V a) (V w)) (dir (V a) x) := by
    intro x hx
    have := hx m hm
    rw [hm3 q, hm3 x] at this
    by_contra hn
    push Not at hn
    have := mul_neg_of_pos_of_neg hk2 hn
    nlinarith
  have sU := hsee _ hl.fst
  have sR := hsee _ hrl.snd
  have hWG : cross2 (dir (V a) (V w)) (dir (V a) q) ≠ 0 := by
    intro h0
    have := hm3 q
    rw [h0, mul_zero] at this
    exact hq.ne_zero hm this
  generalize dir (V a) (V w) = W at *
  generalize dir (V a) (V r) = R at *
  generalize dir (V a) (V u) = U at *
  generalize dir (V a) q = g at *
  -- R parallel to U forces cross W R and cross W U to have opposite signs
  have par : cross2 R U = 0 → cross2 W R * cross2 U g = cross2 W U * cross2 R g := by
    intro h0
    have : cross2 W R * cross2 U g - cross2 W U * cross2 R g = - (cross2 R U) * cross2 W g := by unfold cross2; ring
    rw [h0] at this; linarith
  rcases lt_or_gt_of_ne hWG with hneg | hpos
  · have wU : cross2 W U ≤ 0 := by
      by_contra hn; push Not at hn
      have := mul_neg_of_neg_of_pos hneg hn; linarith
    rcases wU.lt_or_eq with h1 | h1
    · refine hsec (.inr (.inr (.inl ⟨h1, ?_⟩)))
      rintro ⟨h2, h3⟩
      rw [cross_anti] at h2
      have h0 : cross2 R U = 0 := le_antisymm (by linarith) hRU
      have h4 := par h0
      rw [cross_anti] at h3
      have h5 : 0 ≤ cross2 W R * cross2 U g := mul_nonneg_of_nonpos_of_nonpos (by linarith) hU.le
      have h6 := mul_neg_of_neg_of_pos h1 hRG
      linarith
    · refine hsec (.inr (.inr (.inr ⟨?_, hns⟩)))
      have a1 : 0 < cross2 W (-g.1, -g.2) := by
        have : cross2 W (-g.1, -g.2) = - cross2 W g := by unfold cross2; ring
        linarith
      have a2 : 0 < cross2 U (-g.1, -g.2) := by
        have : cross2 U (-g.1, -g.2) = - cross2 U g := by unfold cross2; ring
        linarith
      exact sameDir_of_half a1 a2 h1
  · have wU : 0 ≤ cross2 W U := by
      by_contra hn; push Not at hn
      have := mul_neg_of_pos_of_neg hpos hn; linarith
    have wR : 0 ≤ cross2 W R := by
      by_contra hn; push Not at hn
      have := mul_neg_of_pos_of_neg hpos hn; linarith
    have wR' : 0 < cross2 W R := by
      rcases wR.lt_or_eq with h | h
      · exact h
      · exact absurd (sameDir_of_half hpos hRG h.symm) hns
    rcases wU.lt_or_eq with h1 | h1
    · have hRU' : 0 < cross2 R U := by
        rcases hRU.lt_or_eq with h | h
        · exact h
        · have h4 := par h.symm
          have h5 := mul_neg_of_pos_of_neg wR' hU
          have h6 := mul_pos h1 hRG
          linarith
      exact hsec (.inl ⟨h1, wR', hRU'⟩)
    · refine hsec (.inr (.inl ⟨h1.symm, ?_, wR'⟩))
      have a2 : 0 < cross2 (-U.1, -U.2) g := by
        have : cross2 (-U.1, -U.2) g = - cross2 U g := by unfold cross2; ring
        linarith
      have a3 : cross2 W (-U.1, -U.2) = 0 := by
        have : cross2 W (-U.1, -U.2) = - cross2 W U := by unfold cross2; ring
        linarith
      have := (sameDir_of_half hpos a2 a3).2
      unfold dot2 at this ⊢
      dsimp only at this
      linarith

end Arr
end Mandoline
