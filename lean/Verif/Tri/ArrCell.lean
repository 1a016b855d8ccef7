import Verif.Tri.Arr
import Mathlib.Data.Finset.Max
import Mathlib.Data.Prod.Lex

/-! # C108: cells of the arrangement and loops of the graph -/

namespace Mandoline
namespace Arr

open Planar (dir)

variable {E : List DEdge} {V : ℤ → Dir} {L : List Aff}

/-- the segment runs along a side of the triangle with the triangle on its right. -/
def Outer (p p' : Dir) : Prop :=
  ∃ s ∈ sides, s.at p = 0 ∧ s.at p' = 0 ∧ s.lin (-(dir p p').2, (dir p p').1) < 0

theorem outer_not_left {p p' q : Dir} (h : Outer p p') (hq : ∀ s ∈ sides, 0 < s.at q) : ¬ OnLeft q p p' := by
  obtain ⟨s, hs, h1, h2, h3⟩ := h
  intro hl
  have hd : dir p p' ≠ 0 := by
    intro h0
    unfold OnLeft at hl
    rw [h0] at hl
    unfold cross2 at hl; simp at hl
  have h4 : s.lin (dir p p') = 0 := by rw [← lin_of_zero h1]; exact h2
  obtain ⟨k, hk⟩ := perp hd h4
  have h5 := hq s hs
  rw [lin_of_zero h1, hk] at h5
  rw [hk] at h3
  have h6 : cross2 (dir p p') (-(dir p p').2, (dir p p').1) = (dir p p').1 * (dir p p').1 + (dir p p').2 * (dir p p').2 := by
    unfold cross2; ring
  rw [h6] at h3
  have hn := normSq_pos hd
  unfold OnLeft at hl
  have hk0 : k < 0 := by
    by_contra hc
    push Not at hc
    have := mul_nonneg hc hn.le
    linarith
  have := mul_neg_of_neg_of_pos hk0 hl
  linarith

/-- close to the midpoint of a half-edge that is not an outer one, on its left, there is a generic point. -/
theorem Graph.exists_left (G : Graph E V L) {u a : ℤ} (h : (u, a) ∈ E) (hn : ¬ Outer (V u) (V a)) :
    ∃ q, Generic L q ∧ Left L q (V u) (V a) := by
  set p := V u with hp
  set p' := V a with hp'
  have hd : dir p p' ≠ 0 := G.dir_ne h
  have hN := normSq_pos hd
  set N : Dir := (-(dir p p').2, (dir p p').1) with hNdef
  set M : Dir := ((p.1 + p'.1) / 2, (p.2 + p'.2) / 2) with hM
  have hat : ∀ (l : Aff) (ε : ℚ), l.at (M.1 + ε * N.1, M.2 + ε * N.2) = (l.at p + l.at p') / 2 + ε * l.lin N := by
    intro l ε; unfold Aff.at Aff.lin; simp only [hM]; ring
  have key : ∀ l ∈ L ++ sides, ∃ ε0 : ℚ, 0 < ε0 ∧ ∀ ε, 0 < ε → ε < ε0 →
      (l.at (M.1 + ε * N.1, M.2 + ε * N.2) ≠ 0 ∧ 0 ≤ l.at (M.1 + ε * N.1, M.2 + ε * N.2) * l.at p ∧
        0 ≤ l.at (M.1 + ε * N.1, M.2 + ε * N.2) * l.at p' ∧ (l ∈ sides → 0 < l.at (M.1 + ε * N.1, M.2 + ε * N.2))) := by
    intro l hl
    have hnc := G.nocross' h hl
    dsimp only at hnc
    rw [← hp, ← hp'] at hnc
    by_cases hz : l.at p = 0 ∧ l.at p' = 0
    · have h4 : l.lin (dir p p') = 0 := by rw [← lin_of_zero hz.1]; exact hz.2
      obtain ⟨k, hk⟩ := perp hd h4
      have h5 : l.lin N = k * ((dir p p').1 * (dir p p').1 + (dir p p').2 * (dir p p').2) := by
        rw [hk]; unfold cross2; simp only [hNdef]; ring
      have hk0 : k ≠ 0 := by
        rintro rfl
        have hg : l.a ≠ 0 ∨ l.b ≠ 0 := by
          rcases List.mem_append.1 hl with h' | h'
          · exact G.grad l h'
          · unfold sides at h'
            simp only [List.mem_cons, List.not_mem_nil, or_false] at h'
            rcases h' with rfl | rfl | rfl
            · exact .inl one_ne_zero
            · exact .inr one_ne_zero
            · exact .inl (by norm_num)
        have e1 := hk (1, 0)
        have e2 := hk (0, 1)
        unfold Aff.lin at e1 e2
        simp at e1 e2
        rcases hg with hg | hg
        · exact hg e1
        · exact hg e2
      refine ⟨1, one_pos, fun ε h0 _ => ?_⟩
      rw [hat, hz.1, hz.2, h5]
      have hne : (0 + 0 : ℚ) / 2 + ε * (k * ((dir p p').1 * (dir p p').1 + (dir p p').2 * (dir p p').2)) ≠ 0 := by
        rw [add_zero, zero_div, zero_add]
        exact mul_ne_zero h0.ne' (mul_ne_zero hk0 hN.ne')
      refine ⟨hne, by rw [mul_zero], by rw [mul_zero], fun hs => ?_⟩
      rw [add_zero, zero_div, zero_add]
      have hk1 : 0 < k := by
        rcases lt_or_gt_of_ne hk0 with hk1 | hk1
        · refine absurd ⟨l, hs, hz.1, hz.2, ?_⟩ hn
          show l.lin N < 0
          rw [h5]; exact mul_neg_of_neg_of_pos hk1 hN
        · exact hk1
      exact mul_pos h0 (mul_pos hk1 hN)
    · -- the sum of the values at the ends does not vanish and has their common sign
      set A := l.at p with hA
      set B := l.at p' with hB
      have hAB : A + B ≠ 0 := by
        intro h0
        have : B = -A := by linarith
        rw [this] at hnc
        have : A = 0 := by nlinarith
        exact hz ⟨this, by linarith⟩
      have h1 : 0 ≤ (A + B) * A := by nlinarith [mul_self_nonneg A]
      have h2 : 0 ≤ (A + B) * B := by nlinarith [mul_self_nonneg B]
      set K := |l.lin N| + 1 with hK
      have hKpos : 0 < K := by positivity
      refine ⟨|A + B| / (2 * K), by positivity, fun ε h0 hε => ?_⟩
      rw [hat, ← hA, ← hB]
      have hb : |ε * l.lin N| < |A + B| / 2 := by
        rw [abs_mul, abs_of_pos h0]
        rw [lt_div_iff₀ (by positivity)] at hε
        have : ε * |l.lin N| ≤ ε * K := mul_le_mul_of_nonneg_left (by rw [hK]; linarith) h0.le
        linarith
      have hb' := abs_lt.1 hb
      rcases lt_or_gt_of_ne hAB with hs | hs
      · rw [abs_of_neg hs] at hb'
        have hneg : (A + B) / 2 + ε * l.lin N < 0 := by linarith [hb'.2]
        have hA0 : A ≤ 0 := by
          by_contra hc; push Not at hc
          have := mul_neg_of_neg_of_pos hs hc; linarith
        have hB0 : B ≤ 0 := by
          by_contra hc; push Not at hc
          have := mul_neg_of_neg_of_pos hs hc; linarith
        refine ⟨hneg.ne, mul_nonneg_of_nonpos_of_nonpos hneg.le hA0, mul_nonneg_of_nonpos_of_nonpos hneg.le hB0, fun hs' => ?_⟩
        have i1 := G.inside _ h l hs'
        have i2 := G.inside' h hs'
        dsimp only at i1
        rw [← hp] at i1
        rw [← hp'] at i2
        linarith
      · rw [abs_of_pos hs] at hb'
        have hpos : 0 < (A + B) / 2 + ε * l.lin N := by linarith [hb'.1]
        have hA0 : 0 ≤ A := by
          by_contra hc; push Not at hc
          have := mul_neg_of_pos_of_neg hs hc; linarith
        have hB0 : 0 ≤ B := by
          by_contra hc; push Not at hc
          have := mul_neg_of_pos_of_neg hs hc; linarith
        exact ⟨hpos.ne', mul_nonneg hpos.le hA0, mul_nonneg hpos.le hB0, fun _ => hpos⟩
  have all : ∀ B : List Aff, (∀ l ∈ B, l ∈ L ++ sides) → ∃ ε0 : ℚ, 0 < ε0 ∧ ∀ ε, 0 < ε → ε < ε0 → ∀ l ∈ B,
      (l.at (M.1 + ε * N.1, M.2 + ε * N.2) ≠ 0 ∧ 0 ≤ l.at (M.1 + ε * N.1, M.2 + ε * N.2) * l.at p ∧
        0 ≤ l.at (M.1 + ε * N.1, M.2 + ε * N.2) * l.at p' ∧ (l ∈ sides → 0 < l.at (M.1 + ε * N.1, M.2 + ε * N.2))) := by
    intro B
    induction B with
    | nil => exact fun _ => ⟨1, one_pos, fun _ _ _ _ h => by cases h⟩
    | cons l B ih =>
      intro hsub
      obtain ⟨e1, h1, k1⟩ := key l (hsub l List.mem_cons_self)
      obtain ⟨e2, h2, k2⟩ := ih fun m hm => hsub m (List.mem_cons_of_mem _ hm)
      refine ⟨min e1 e2, lt_min h1 h2, fun ε h0 hε m hm => ?_⟩
      rcases List.mem_cons.1 hm with rfl | hm
      · exact k1 ε h0 (lt_of_lt_of_le hε (min_le_left _ _))
      · exact k2 ε h0 (lt_of_lt_of_le hε (min_le_right _ _)) m hm
  obtain ⟨e0, he, hall⟩ := all (L ++ sides) fun _ h => h
  have hh := hall (e0 / 2) (by linarith) (by linarith)
  refine ⟨(M.1 + e0 / 2 * N.1, M.2 + e0 / 2 * N.2), ⟨fun s hs => (hh s (List.mem_append_right _ hs)).2.2.2 hs,
    fun l hl => (hh l (List.mem_append_left _ hl)).1⟩, fun l hl => (hh l hl).2.1, fun l hl => (hh l hl).2.2.1, ?_⟩
  unfold OnLeft
  have : cross2 (dir p p') (dir p (M.1 + e0 / 2 * N.1, M.2 + e0 / 2 * N.2)) =
      e0 / 2 * ((dir p p').1 * (dir p p').1 + (dir p p').2 * (dir p p').2) := by
    simp only [hNdef, hM]
    unfold cross2 dir; dsimp only; ring
  rw [this]
  exact mul_pos (by linarith) hN

/-! ## Loops around a point -/

/-- a set of half-edges, each continued by another one and continuing another one, all around the point `q`. -/
structure Around (E : List DEdge) (V : ℤ → Dir) (L : List Aff) (q : Dir) (C : List DEdge) : Prop where
  ne : C ≠ []
  sub : ∀ e ∈ C, e ∈ E
  left : ∀ e ∈ C, Left L q (V e.1) (V e.2)
  succ : ∀ e ∈ C, ∃ f ∈ C, f.1 = e.2
  pred : ∀ e ∈ C, ∃ f ∈ C, f.2 = e.1

/-- the corner of the loop that is smallest for `f`, ties broken with `g`, is as small as every point that is not on the
right of a half-edge of the loop. -/
theorem Around.corner (G : Graph E V L) {q : Dir} (hq : Generic L q) {C : List DEdge} (hC : Around E V L q C) (f g : Aff)
    (hfg : ∀ d : Dir, f.lin d = 0 → g.lin d = 0 → d = 0) :
    ∃ a w, (a, w) ∈ C ∧ ∀ x, (∀ e ∈ C, 0 ≤ cross2 (dir (V e.1) (V e.2)) (dir (V e.1) x)) →
      0 ≤ f.lin (dir (V a) x) ∧ (f.lin (dir (V a) x) = 0 → 0 ≤ g.lin (dir (V a) x)) := by
  have hCf : C.toFinset.Nonempty := by
    obtain ⟨e, l, h⟩ := List.exists_cons_of_ne_nil hC.ne
    exact ⟨e, by rw [h]; simp⟩
  obtain ⟨⟨a, w⟩, hm, hmin⟩ := Finset.exists_min_image C.toFinset
    (fun e => toLex (f.lin (V e.1), g.lin (V e.1))) hCf
  rw [List.mem_toFinset] at hm
  refine ⟨a, w, hm, fun x hx => ?_⟩
  obtain ⟨⟨u, a'⟩, hu, ha'⟩ := hC.pred _ hm
  dsimp only at ha'
  subst ha'
  obtain ⟨⟨w', z⟩, hw', hw''⟩ := hC.succ _ hm
  dsimp only at hw''
  subst hw''
  have key : ∀ e ∈ C, 0 ≤ f.lin (dir (V a') (V e.1)) ∧ (f.lin (dir (V a') (V e.1)) = 0 → 0 ≤ g.lin (dir (V a') (V e.1))) := by
    intro e he
    have := hmin e (List.mem_toFinset.2 he)
    rw [Prod.Lex.toLex_le_toLex] at this
    dsimp only at this
    have ef : f.lin (dir (V a') (V e.1)) = f.lin (V e.1) - f.lin (V a') := by unfold Aff.lin dir; ring
    have eg : g.lin (dir (V a') (V e.1)) = g.lin (V e.1) - g.lin (V a') := by unfold Aff.lin dir; ring
    rw [ef, eg]
    rcases this with h | ⟨h1, h2⟩
    · exact ⟨by linarith, fun h0 => by linarith⟩
    · exact ⟨by linarith, fun _ => by linarith⟩
  have kU := key _ hu
  have kW := key _ hw'
  dsimp only at kU kW
  have hxW := hx _ hm
  have hxU := hx _ hu
  dsimp only at hxW hxU
  have lW := (hC.left _ hm).left
  have lU := (hC.left _ hu).left
  dsimp only at lW lU
  have hWU := G.left_of_cell hq (hC.sub _ hm) lW (hC.left _ hu).fst
  dsimp only at hWU
  have dW : dir (V a') (V w') ≠ 0 := G.dir_ne (hC.sub _ hm)
  have dU : dir (V a') (V u) ≠ 0 := G.dir_ne (G.symm _ _ (hC.sub _ hu))
  have hU : cross2 (dir (V a') (V u)) (dir (V a') q) < 0 := by
    unfold OnLeft cross2 dir at lU
    unfold cross2 dir
    nlinarith
  have hXU : 0 ≤ cross2 (dir (V a') x) (dir (V a') (V u)) := by
    unfold cross2 dir at hxU
    unfold cross2 dir
    nlinarith
  unfold OnLeft at lW
  generalize dir (V a') (V w') = W at *
  generalize dir (V a') (V u) = U at *
  generalize dir (V a') x = X at *
  generalize dir (V a') q = g' at *
  -- strictly positive in the lexicographic sense
  have pU : 0 < f.lin U ∨ (f.lin U = 0 ∧ 0 < g.lin U) := by
    rcases kU.1.lt_or_eq with h | h
    · exact .inl h
    · refine .inr ⟨h.symm, lt_of_le_of_ne (kU.2 h.symm) fun h0 => dU (hfg U h.symm h0.symm)⟩
  have pW : 0 < f.lin W ∨ (f.lin W = 0 ∧ 0 < g.lin W) := by
    rcases kW.1.lt_or_eq with h | h
    · exact .inl h
    · refine .inr ⟨h.symm, lt_of_le_of_ne (kW.2 h.symm) fun h0 => dW (hfg W h.symm h0.symm)⟩
  have hpos : 0 < cross2 W U := by
    rcases hWU.lt_or_eq with h | h
    · exact h
    · exfalso
      -- U = - c W
      have id : ∀ l : Aff, l.lin W * cross2 U g' = l.lin U * cross2 W g' := by
        intro l
        have : l.lin W * cross2 U g' - l.lin U * cross2 W g' = - l.lin g' * cross2 W U := by unfold Aff.lin cross2; ring
        rw [← h] at this; linarith
      rcases pU with h1 | ⟨h1, h2⟩
      · have i := id f
        have i1 := mul_pos h1 lW
        have i2 : f.lin W * cross2 U g' ≤ 0 := mul_nonpos_of_nonneg_of_nonpos kW.1 hU.le
        linarith
      · have i := id f
        rw [h1, zero_mul] at i
        have hf0 : f.lin W = 0 := by
          rcases mul_eq_zero.1 i with h | h
          · exact h
          · linarith
        have i' := id g
        have i1 := mul_pos h2 lW
        have i2 : g.lin W * cross2 U g' ≤ 0 := mul_nonpos_of_nonneg_of_nonpos (kW.2 hf0) hU.le
        linarith
  have comb : ∀ l : Aff, cross2 W U * l.lin X = cross2 X U * l.lin W + cross2 W X * l.lin U := by
    intro l; unfold Aff.lin cross2; ring
  have cf := comb f
  have n1 := mul_nonneg hXU kW.1
  have n2 := mul_nonneg hxW kU.1
  have nf : 0 ≤ f.lin X := by
    by_contra hc
    push Not at hc
    have := mul_neg_of_pos_of_neg hpos hc
    linarith
  refine ⟨nf, fun h0 => ?_⟩
  rw [h0, mul_zero] at cf
  have z1 : cross2 X U * f.lin W = 0 := by linarith
  have z2 : cross2 W X * f.lin U = 0 := by linarith
  have cg := comb g
  have m1 : 0 ≤ cross2 X U * g.lin W := by
    rcases pW with h | ⟨_, h⟩
    · rcases mul_eq_zero.1 z1 with h' | h'
      · rw [h', zero_mul]
      · linarith
    · exact mul_nonneg hXU h.le
  have m2 : 0 ≤ cross2 W X * g.lin U := by
    rcases pU with h | ⟨_, h⟩
    · rcases mul_eq_zero.1 z2 with h' | h'
      · rw [h', zero_mul]
      · linarith
    · exact mul_nonneg hxW h.le
  by_contra hc
  push Not at hc
  have := mul_neg_of_pos_of_neg hpos hc
  linarith

/-- two loops around the same point share a half-edge. -/
theorem Around.meet (G : Graph E V L) {q : Dir} (hq : Generic L q) {C C' : List DEdge} (hC : Around E V L q C)
    (hC' : Around E V L q C') : ∃ e, e ∈ C ∧ e ∈ C' := by
  obtain ⟨a, w, h1, k1⟩ := hC.corner G hq ⟨1, 0, 0⟩ ⟨0, 1, 0⟩ (by
    intro d h1 h2; unfold Aff.lin at h1 h2; simp at h1 h2; exact Prod.ext h1 h2)
  obtain ⟨a', w', h2, k2⟩ := hC'.corner G hq ⟨1, 0, 0⟩ ⟨0, 1, 0⟩ (by
    intro d h1 h2; unfold Aff.lin at h1 h2; simp at h1 h2; exact Prod.ext h1 h2)
  have j1 := k1 (V a') fun e he => G.left_of_cell hq (hC.sub e he) (hC.left e he).left (hC'.left _ h2).fst
  have j2 := k2 (V a) fun e he => G.left_of_cell hq (hC'.sub e he) (hC'.left e he).left (hC.left _ h1).fst
  unfold Aff.lin dir at j1 j2
  simp only [one_mul, zero_mul, add_zero, zero_add] at j1 j2
  have hx : (V a).1 = (V a').1 := by linarith [j1.1, j2.1]
  have hy : (V a).2 = (V a').2 := by linarith [j1.2 (by linarith), j2.2 (by linarith)]
  have ha : a = a' := G.inj _ _ _ _ (hC.sub _ h1) (hC'.sub _ h2) (Prod.ext hx hy)
  subst ha
  have hw := G.left_unique hq (hC.sub _ h1) (hC'.sub _ h2) (hC.left _ h1) (hC'.left _ h2)
  subst hw
  exact ⟨_, h1, h2⟩

/-- a generic point that has the loop around it (no half-edge of the loop has it on its right) is in the same cell. -/
theorem Around.same_cell (G : Graph E V L) {q q' : Dir} (hq : Generic L q) (hq' : Generic L q') {C : List DEdge}
    (hC : Around E V L q C) (h : ∀ e ∈ C, OnLeft q' (V e.1) (V e.2)) : Around E V L q' C := by
  have pos : ∀ l ∈ L ++ sides, 0 < l.at q * l.at q' := by
    intro l hl
    rcases List.mem_append.1 hl with hl' | hs
    · have hg := G.grad l hl'
      have hne := hq.off l hl'
      have hne' := hq'.off l hl'
      have hind : ∀ k : ℚ, k ≠ 0 → ∀ d : Dir, (⟨k * l.a, k * l.b, 0⟩ : Aff).lin d = 0 → (⟨-l.b, l.a, 0⟩ : Aff).lin d = 0 → d = 0 := by
        intro k hk d h1 h2
        unfold Aff.lin at h1 h2
        dsimp only at h1 h2
        have h1' : l.a * d.1 + l.b * d.2 = 0 := by
          have : k * (l.a * d.1 + l.b * d.2) = 0 := by linarith
          exact (mul_eq_zero.1 this).resolve_left hk
        have hn : 0 < l.a * l.a + l.b * l.b := by
          rcases hg with h | h
          · have := mul_self_pos.2 h; nlinarith [mul_self_nonneg l.b]
          · have := mul_self_pos.2 h; nlinarith [mul_self_nonneg l.a]
        have e1 : d.1 * (l.a * l.a + l.b * l.b) = 0 := by linear_combination l.a * h1' - l.b * h2
        have e2 : d.2 * (l.a * l.a + l.b * l.b) = 0 := by linear_combination l.b * h1' + l.a * h2
        exact Prod.ext ((mul_eq_zero.1 e1).resolve_right hn.ne') ((mul_eq_zero.1 e2).resolve_right hn.ne')
      obtain ⟨a, w, h1, k1⟩ := hC.corner G hq ⟨l.at q * l.a, l.at q * l.b, 0⟩ ⟨-l.b, l.a, 0⟩ (hind _ hne)
      have j := (k1 q' fun e he => (h e he).le).1
      have c1 := (hC.left _ h1).fst l hl
      dsimp only at c1
      have e : (⟨l.at q * l.a, l.at q * l.b, 0⟩ : Aff).lin (dir (V a) q') = l.at q * l.at q' - l.at q * l.at (V a) := by
        rw [at_dir l (V a) q']; unfold Aff.lin; dsimp only; ring
      rw [e] at j
      refine lt_of_le_of_ne (by linarith) (Ne.symm (mul_ne_zero hne hne'))
    · exact mul_pos (hq.inside l hs) (hq'.inside l hs)
  have tr : ∀ p, SameCell (L ++ sides) q p → SameCell (L ++ sides) q' p := by
    intro p hp l hl
    have h1 := hp l hl
    have h2 := pos l hl
    have h3 : 0 < l.at q * l.at q := mul_self_pos.2 (hq.ne_zero hl)
    by_contra hn
    push Not at hn
    have := mul_neg_of_pos_of_neg h3 hn
    have := mul_nonneg h1 h2.le
    linarith
  exact ⟨hC.ne, hC.sub, fun e he => ⟨tr _ (hC.left e he).fst, tr _ (hC.left e he).snd, h e he⟩, hC.succ, hC.pred⟩

/-! ## The cell of a point has a corner -/

/-- walking from a point of the cell of `q` in a direction that leaves the cell, one meets a line that bounds it. -/
theorem shoot (q : Dir) {A : List Aff} {p d : Dir} (hp : SameCell A q p) (hq : ∀ l ∈ A, l.at q ≠ 0)
    (hex : ∃ m ∈ A, m.at q * m.lin d < 0) :
    ∃ t : ℚ, ∃ m ∈ A, m.at q * m.lin d < 0 ∧ m.at (p.1 + t * d.1, p.2 + t * d.2) = 0 ∧
      SameCell A q (p.1 + t * d.1, p.2 + t * d.2) := by
  set B := A.filter fun m => decide (m.at q * m.lin d < 0) with hB
  have hmem : ∀ m, m ∈ B ↔ m ∈ A ∧ m.at q * m.lin d < 0 := fun m => by rw [hB, List.mem_filter, decide_eq_true_eq]
  have hne : B.toFinset.Nonempty := by
    obtain ⟨m, h1, h2⟩ := hex
    exact ⟨m, by rw [List.mem_toFinset, hmem]; exact ⟨h1, h2⟩⟩
  obtain ⟨m, hm, hmin⟩ := Finset.exists_min_image B.toFinset (fun m => - (m.at p) / m.lin d) hne
  rw [List.mem_toFinset, hmem] at hm
  have hat : ∀ (l : Aff) (t : ℚ), l.at (p.1 + t * d.1, p.2 + t * d.2) = l.at p + t * l.lin d := by
    intro l t; unfold Aff.at Aff.lin; ring
  have hld : ∀ l : Aff, l.at q * l.lin d < 0 → l.lin d ≠ 0 := by
    intro l h h0; rw [h0, mul_zero] at h; exact lt_irrefl _ h
  refine ⟨- (m.at p) / m.lin d, m, hm.1, hm.2, ?_, ?_⟩
  · rw [hat, div_mul_cancel₀ _ (hld m hm.2)]; ring
  · intro l hl
    rw [hat]
    have h1 := hp l hl
    have t0 : ∀ k ∈ A, k.at q * k.lin d < 0 → 0 ≤ - (k.at p) / k.lin d := by
      intro k hk hk'
      have e : - (k.at p) / k.lin d = (k.at q * k.at p) / (-(k.at q * k.lin d)) := by
        have := hld k hk'
        have := hq k hk
        field_simp
      rw [e]
      exact div_nonneg (hp k hk) (by linarith)
    by_cases hc : l.at q * l.lin d < 0
    · have := hmin l (List.mem_toFinset.2 ((hmem l).2 ⟨hl, hc⟩))
      have h2 : (- (l.at p) / l.lin d) * (l.at q * l.lin d) ≤ (- (m.at p) / m.lin d) * (l.at q * l.lin d) :=
        mul_le_mul_of_nonpos_right this hc.le
      have h3 : (- (l.at p) / l.lin d) * (l.at q * l.lin d) = - (l.at q * l.at p) := by
        have := hld l hc
        field_simp
      rw [h3] at h2
      have e : l.at q * (l.at p + - (m.at p) / m.lin d * l.lin d) = l.at q * l.at p + (- (m.at p) / m.lin d) * (l.at q * l.lin d) := by ring
      rw [e]; linarith
    · push Not at hc
      have := mul_nonneg (t0 m hm.1 hm.2) hc
      have e : l.at q * (l.at p + - (m.at p) / m.lin d * l.lin d) = l.at q * l.at p + (- (m.at p) / m.lin d) * (l.at q * l.lin d) := by ring
      rw [e]; linarith

/-- the cell of a generic point has a vertex of the graph. -/
theorem Graph.exists_vertex (G : Graph E V L) {q : Dir} (hq : Generic L q) :
    ∃ a b, (a, b) ∈ E ∧ SameCell (L ++ sides) q (V a) := by
  have hnz : ∀ l ∈ L ++ sides, l.at q ≠ 0 := fun l hl => hq.ne_zero hl
  have hs3 : (⟨-1, -1, 1⟩ : Aff) ∈ sides := by unfold sides; simp
  have hs1 : (⟨1, 0, 0⟩ : Aff) ∈ sides := by unfold sides; simp
  have hs2 : (⟨0, 1, 0⟩ : Aff) ∈ sides := by unfold sides; simp
  obtain ⟨t, m, hm, hm1, hm2, hm3⟩ := shoot q (A := L ++ sides) (p := q) (d := (1, 0)) (fun l _ => mul_self_nonneg _) hnz
    ⟨⟨-1, -1, 1⟩, List.mem_append_right _ hs3, by
      have := hq.inside _ hs3
      unfold Aff.lin; dsimp only; linarith⟩
  set p := (q.1 + t * (1, (0 : ℚ)).1, q.2 + t * ((1 : ℚ), 0).2) with hp
  have hma : m.a ≠ 0 := by
    intro h0
    unfold Aff.lin at hm1
    dsimp only at hm1
    rw [h0] at hm1
    simp at hm1
  obtain ⟨t', m', hm', hm1', hm2', hm3'⟩ := shoot q (A := L ++ sides) (p := p) (d := (m.b, -m.a)) hm3 hnz (by
    by_contra hn
    push Not at hn
    have i1 := hn _ (List.mem_append_right _ hs1)
    have i2 := hn _ (List.mem_append_right _ hs2)
    have i3 := hn _ (List.mem_append_right _ hs3)
    have q1 := hq.inside _ hs1
    have q2 := hq.inside _ hs2
    have q3 := hq.inside _ hs3
    have j : ∀ x y : ℚ, 0 < x → 0 ≤ x * y → 0 ≤ y := by
      intro x y hx hxy
      by_contra hc
      push Not at hc
      have := mul_neg_of_pos_of_neg hx hc
      linarith
    have j1 := j _ _ q1 i1
    have j2 := j _ _ q2 i2
    have j3 := j _ _ q3 i3
    unfold Aff.lin at j1 j2 j3
    simp at j1 j2 j3
    exact hma (by linarith))
  obtain ⟨a, b, hab, hV⟩ := G.meet m hm m' hm' (by
    intro h0
    have : m'.lin (m.b, -m.a) = 0 := by unfold Aff.lin; dsimp only; linarith
    rw [this, mul_zero] at hm1'
    exact lt_irrefl _ hm1') _ (by
      have e : m.at (p.1 + t' * (m.b, -m.a).1, p.2 + t' * (m.b, -m.a).2) = m.at p + t' * m.lin (m.b, -m.a) := by
        unfold Aff.at Aff.lin; ring
      have e' : m.lin (m.b, -m.a) = 0 := by unfold Aff.lin; ring
      rw [e, e', mul_zero, add_zero]; exact hm2) hm2' (by
      intro s hs
      have i := hm3' s (List.mem_append_right _ hs)
      by_contra hc
      push Not at hc
      have := mul_neg_of_pos_of_neg (hq.inside s hs) hc
      linarith)
  exact ⟨a, b, hab, by rw [hV]; exact hm3'⟩

end Arr
end Mandoline
