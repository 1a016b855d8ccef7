import Verif.Collapse.Angle
import Verif.Geom.Spec
import Mathlib.Tactic.Linarith
import Mathlib.Tactic.Ring
import Mathlib.Tactic.FieldSimp
import Mathlib.Tactic.NormNum
import Mathlib.Tactic.LinearCombination
import Mathlib.Data.Fin.VecNotation

/-! # C76: the loops of the planar cut graph stay inside one grid cell

`CutCellGenerator<2>::bake_faces` (src/construction/generator2.cpp:30-129) builds a planar graph from the pieces of the
input edges and of the grid edges, sorts the edges around each vertex by angle and takes the loops of the resulting
half-edge structure as faces; `generate_faces` (generator2.cpp:186-255) relies on each such loop lying in one grid cell
(`assert(c.size() == 1)`). Positions are grid-space positions (`all_GV()`), i.e. cell `c` is the unit square with lower
corner `c`. -/

namespace Mandoline
namespace Planar

/-! ## Specification -/

/-- the closed unit square with lower corner `c`. -/
def InCell (c : Coord 2) (p : Dir) : Prop :=
  ((c 0 : ℚ) ≤ p.1 ∧ p.1 ≤ c 0 + 1) ∧ ((c 1 : ℚ) ≤ p.2 ∧ p.2 ≤ c 1 + 1)

/-- its interior. -/
def InOpenCell (c : Coord 2) (p : Dir) : Prop :=
  ((c 0 : ℚ) < p.1 ∧ p.1 < c 0 + 1) ∧ ((c 1 : ℚ) < p.2 ∧ p.2 < c 1 + 1)

/-- cell `c` lies on the left of the segment from `p` to `q`: the segment is in the closed cell and the points close to
its midpoint on its left are inside the cell. -/
def LeftOf (c : Coord 2) (p q : Dir) : Prop :=
  InCell c p ∧ InCell c q ∧ ∃ ε : ℚ, 0 < ε ∧ ∀ δ : ℚ, 0 < δ → δ < ε →
    InOpenCell c ((p.1 + q.1) / 2 - δ * (q.2 - p.2), (p.2 + q.2) / 2 + δ * (q.1 - p.1))

/-- direction from `p` to `q`. -/
def dir (p q : Dir) : Dir := (q.1 - p.1, q.2 - p.2)

/-- the signed area enclosed by the closed polygon with the given corners (shoelace formula). -/
def shoelace (V : ℤ → Dir) (p : List ℤ) : ℚ :=
  ((p.zip (p.rotate 1)).map fun e => ((V e.1).1 * (V e.2).2 - (V e.2).1 * (V e.1).2) / 2).sum

/-! ## An algebraic form -/

/-- on one of the four sides of `c`, walked clockwise. -/
def Clockwise (c : Coord 2) (p q : Dir) : Prop :=
  (p.2 = c 1 ∧ q.2 = c 1 ∧ q.1 < p.1) ∨ (p.1 = c 0 + 1 ∧ q.1 = c 0 + 1 ∧ q.2 < p.2) ∨
  (p.2 = c 1 + 1 ∧ q.2 = c 1 + 1 ∧ p.1 < q.1) ∨ (p.1 = c 0 ∧ q.1 = c 0 ∧ p.2 < q.2)

theorem room (lo m d : ℚ) (h : lo ≤ m) (hd : d ≤ 1) (h0 : m = lo → d < 0) :
    ∃ ε : ℚ, 0 < ε ∧ ∀ δ : ℚ, 0 < δ → δ < ε → lo < m - δ * d := by
  rcases h.eq_or_lt with h1 | h1
  · refine ⟨1, one_pos, fun δ h2 _ => ?_⟩
    nlinarith [h0 h1.symm]
  · refine ⟨m - lo, by linarith, fun δ h2 h3 => ?_⟩
    nlinarith

theorem leftOf_iff (c : Coord 2) (p q : Dir) (hne : p ≠ q) :
    LeftOf c p q ↔ InCell c p ∧ InCell c q ∧ ¬ Clockwise c p q := by
  constructor
  · rintro ⟨hp, hq, ε, h0, h⟩
    refine ⟨hp, hq, ?_⟩
    have h' := h (ε / 2) (by linarith) (by linarith)
    unfold InOpenCell at h'
    dsimp only at h'
    rintro (⟨h1, h2, h3⟩ | ⟨h1, h2, h3⟩ | ⟨h1, h2, h3⟩ | ⟨h1, h2, h3⟩)
    · have := h'.2.1; nlinarith
    · have := h'.1.2; nlinarith
    · have := h'.2.2; nlinarith
    · have := h'.1.1; nlinarith
  · rintro ⟨hp, hq, hn⟩
    refine ⟨hp, hq, ?_⟩
    unfold Clockwise at hn
    push Not at hn
    obtain ⟨n1, n2, n3, n4⟩ := hn
    unfold InCell at hp hq
    obtain ⟨⟨p1, p2⟩, p3, p4⟩ := hp
    obtain ⟨⟨q1, q2⟩, q3, q4⟩ := hq
    have hne' : p.1 = q.1 → p.2 = q.2 → False := fun h1 h2 => hne (Prod.ext h1 h2)
    obtain ⟨e1, e1p, h1⟩ := room (c 0) ((p.1 + q.1) / 2) (q.2 - p.2) (by linarith) (by linarith) (fun h => by
      have a1 : p.1 = c 0 := by linarith
      have a2 : q.1 = c 0 := by linarith
      have := n4 a1 a2
      rcases this.eq_or_lt with h | h
      · exact (hne' (by rw [a1, a2]) h.symm).elim
      · linarith)
    obtain ⟨e2, e2p, h2⟩ := room (-(c 0 + 1)) (-((p.1 + q.1) / 2)) (-(q.2 - p.2)) (by linarith) (by linarith) (fun h => by
      have a1 : p.1 = c 0 + 1 := by linarith
      have a2 : q.1 = c 0 + 1 := by linarith
      have := n2 a1 a2
      rcases this.eq_or_lt with h | h
      · exact (hne' (by rw [a1, a2]) h).elim
      · linarith)
    obtain ⟨e3, e3p, h3⟩ := room (c 1) ((p.2 + q.2) / 2) (-(q.1 - p.1)) (by linarith) (by linarith) (fun h => by
      have a1 : p.2 = c 1 := by linarith
      have a2 : q.2 = c 1 := by linarith
      have := n1 a1 a2
      rcases this.eq_or_lt with h | h
      · exact (hne' h (by rw [a1, a2])).elim
      · linarith)
    obtain ⟨e4, e4p, h4⟩ := room (-(c 1 + 1)) (-((p.2 + q.2) / 2)) (q.1 - p.1) (by linarith) (by linarith) (fun h => by
      have a1 : p.2 = c 1 + 1 := by linarith
      have a2 : q.2 = c 1 + 1 := by linarith
      have := n3 a1 a2
      rcases this.eq_or_lt with h | h
      · exact (hne' h.symm (by rw [a1, a2])).elim
      · linarith)
    refine ⟨min (min e1 e2) (min e3 e4), by simp [e1p, e2p, e3p, e4p], fun δ d0 d1 => ?_⟩
    simp only [lt_min_iff] at d1
    obtain ⟨⟨d1, d2⟩, d3, d4⟩ := d1
    have a1 := h1 δ d0 d1
    have a2 := h2 δ d0 d2
    have a3 := h3 δ d0 d3
    have a4 := h4 δ d0 d4
    refine ⟨⟨?_, ?_⟩, ?_, ?_⟩ <;> dsimp only <;> linarith

/-- **C76.** A segment inside a closed cell has exactly one cell on its left. -/
theorem C76_left_cell (p q : Dir) (hne : p ≠ q) (h : ∃ c, InCell c p ∧ InCell c q) : ∃! c, LeftOf c p q := by
  have huniq : ∀ c c', LeftOf c p q → LeftOf c' p q → c = c' := by
    rintro c c' ⟨_, _, e, e0, h1⟩ ⟨_, _, e', e0', h2⟩
    have a := h1 (min e e' / 2) (by positivity) (by have := min_le_left e e'; have : 0 < min e e' := lt_min e0 e0'; linarith)
    have b := h2 (min e e' / 2) (by positivity) (by have := min_le_right e e'; have : 0 < min e e' := lt_min e0 e0'; linarith)
    unfold InOpenCell at a b
    dsimp only at a b
    have k0 : (c 0 : ℚ) < c' 0 + 1 := by linarith [a.1.1, b.1.2]
    have k1 : (c' 0 : ℚ) < c 0 + 1 := by linarith [b.1.1, a.1.2]
    have k2 : (c 1 : ℚ) < c' 1 + 1 := by linarith [a.2.1, b.2.2]
    have k3 : (c' 1 : ℚ) < c 1 + 1 := by linarith [b.2.1, a.2.2]
    norm_cast at k0 k1 k2 k3
    funext i
    match i with
    | 0 => omega
    | 1 => omega
  obtain ⟨c, hp, hq⟩ := h
  have hex : ∃ c, LeftOf c p q := by
    by_cases hc : Clockwise c p q
    · unfold InCell at hp hq
      obtain ⟨⟨p1, p2⟩, p3, p4⟩ := hp
      obtain ⟨⟨q1, q2⟩, q3, q4⟩ := hq
      rcases hc with ⟨h1, h2, h3⟩ | ⟨h1, h2, h3⟩ | ⟨h1, h2, h3⟩ | ⟨h1, h2, h3⟩
      · refine ⟨Function.update c 1 (c 1 - 1), (leftOf_iff _ _ _ hne).2 ?_⟩
        unfold InCell Clockwise
        simp only [Function.update_self, Function.update_of_ne (show (0 : Fin 2) ≠ 1 by decide)]
        push_cast
        refine ⟨⟨⟨p1, p2⟩, by linarith, by linarith⟩, ⟨⟨q1, q2⟩, by linarith, by linarith⟩, ?_⟩
        rintro (⟨k1, k2, k3⟩ | ⟨k1, k2, k3⟩ | ⟨k1, k2, k3⟩ | ⟨k1, k2, k3⟩) <;> linarith
      · refine ⟨Function.update c 0 (c 0 + 1), (leftOf_iff _ _ _ hne).2 ?_⟩
        unfold InCell Clockwise
        simp only [Function.update_self, Function.update_of_ne (show (1 : Fin 2) ≠ 0 by decide)]
        push_cast
        refine ⟨⟨⟨by linarith, by linarith⟩, p3, p4⟩, ⟨⟨by linarith, by linarith⟩, q3, q4⟩, ?_⟩
        rintro (⟨k1, k2, k3⟩ | ⟨k1, k2, k3⟩ | ⟨k1, k2, k3⟩ | ⟨k1, k2, k3⟩) <;> linarith
      · refine ⟨Function.update c 1 (c 1 + 1), (leftOf_iff _ _ _ hne).2 ?_⟩
        unfold InCell Clockwise
        simp only [Function.update_self, Function.update_of_ne (show (0 : Fin 2) ≠ 1 by decide)]
        push_cast
        refine ⟨⟨⟨p1, p2⟩, by linarith, by linarith⟩, ⟨⟨q1, q2⟩, by linarith, by linarith⟩, ?_⟩
        rintro (⟨k1, k2, k3⟩ | ⟨k1, k2, k3⟩ | ⟨k1, k2, k3⟩ | ⟨k1, k2, k3⟩) <;> linarith
      · refine ⟨Function.update c 0 (c 0 - 1), (leftOf_iff _ _ _ hne).2 ?_⟩
        unfold InCell Clockwise
        simp only [Function.update_self, Function.update_of_ne (show (1 : Fin 2) ≠ 0 by decide)]
        push_cast
        refine ⟨⟨⟨by linarith, by linarith⟩, p3, p4⟩, ⟨⟨by linarith, by linarith⟩, q3, q4⟩, ?_⟩
        rintro (⟨k1, k2, k3⟩ | ⟨k1, k2, k3⟩ | ⟨k1, k2, k3⟩ | ⟨k1, k2, k3⟩) <;> linarith
    · exact ⟨c, (leftOf_iff _ _ _ hne).2 ⟨hp, hq, hc⟩⟩
  obtain ⟨c, hc⟩ := hex
  exact ⟨c, hc, fun c' hc' => huniq c' c hc' hc⟩

/-! ## One step of a loop -/

/-- if no edge lies in the sector from `b` to `u`, `w` points to the right and `u` points upwards or to the left, then
`b` is between `w` and `u`. -/
theorem between {bx by' ux uy wx : ℚ} (hwx : 0 < wx) (hU : 0 < uy ∨ (uy = 0 ∧ ux < 0))
    (hab' : bx = 0 → by' = 0 → False) (hs : ¬ InSector (bx, by') (wx, 0) (ux, uy)) :
    (0 < by' ∧ 0 < bx * uy - by' * ux) ∨ (by' = 0 ∧ 0 < bx) := by
  unfold InSector SameDir cross2 dot2 at hs
  dsimp only at hs
  rw [not_or, not_or, not_or] at hs
  obtain ⟨t1, t2, t3, t4⟩ := hs
  have s1 : 0 < bx * uy - by' * ux → 0 < -(by' * wx) → wx * uy ≤ 0 := fun h1 h2 =>
    not_lt.1 fun h3 => t1 ⟨h1, by linarith, by linarith⟩
  have s2 : bx * uy - by' * ux = 0 → bx * ux + by' * uy < 0 → -(by' * wx) ≤ 0 := fun h1 h2 =>
    not_lt.1 fun h3 => t2 ⟨h1, h2, by linarith⟩
  have s3 : bx * uy - by' * ux < 0 → 0 ≤ -(uy * wx) ∧ 0 ≤ wx * by' := fun h1 => by
    have := not_not.1 fun h => t3 ⟨h1, h⟩
    exact ⟨by linarith [this.1], by linarith [this.2]⟩
  have s4 : bx * uy - by' * ux = 0 → 0 < bx * ux + by' * uy → -(by' * wx) = 0 ∧ 0 < bx * wx := fun h1 h2 => by
    have := not_not.1 fun h => t4 ⟨⟨h1, h2⟩, h⟩
    exact ⟨by linarith [this.1], by linarith [this.2]⟩
  clear t1 t2 t3 t4
  rcases lt_trichotomy (bx * uy - by' * ux) 0 with hc | hc | hc
  · -- more than a half turn
    obtain ⟨t1, t2⟩ := s3 hc
    have : uy ≤ 0 := by nlinarith
    rcases hU with h | ⟨h1, h2⟩
    · linarith
    · right
      subst h1
      have hb0 : by' ≤ 0 := by nlinarith
      have hb1 : 0 ≤ by' := by nlinarith
      have : by' = 0 := le_antisymm hb0 hb1
      subst this
      nlinarith
  · -- half turn or full turn
    rcases lt_trichotomy (bx * ux + by' * uy) 0 with hd | hd | hd
    · have t := s2 hc hd
      have hby : 0 ≤ by' := by nlinarith
      rcases hU with h | ⟨h1, h2⟩
      · -- b opposite to u, u strictly above
        exfalso
        have : by' * (ux * ux + uy * uy) = uy * (bx * ux + by' * uy) := by linear_combination ux * hc * (-1)
        have h3 : 0 ≤ by' * (ux * ux + uy * uy) := mul_nonneg hby (add_nonneg (mul_self_nonneg _) (mul_self_nonneg _))
        nlinarith
      · right
        subst h1
        have : by' = 0 := by nlinarith
        subst this
        exact ⟨rfl, by nlinarith⟩
    · exfalso
      have h1 : bx * (ux * ux + uy * uy) = 0 := by linear_combination ux * hd + uy * hc
      have h2 : by' * (ux * ux + uy * uy) = 0 := by linear_combination uy * hd - ux * hc
      have h3 : 0 < ux * ux + uy * uy := by
        rcases hU with h | ⟨_, h⟩
        · nlinarith [mul_self_nonneg ux]
        · nlinarith [mul_self_nonneg uy]
      have g1 := (mul_eq_zero.1 h1).resolve_right h3.ne'
      have g2 := (mul_eq_zero.1 h2).resolve_right h3.ne'
      exact hab' g1 g2
    · -- back along the incoming edge
      have t := s4 hc hd
      obtain ⟨t1, t2⟩ := t
      have hby : by' = 0 := by
        have : by' * wx = 0 := by linarith
        exact (mul_eq_zero.1 this).resolve_right hwx.ne'
      subst hby
      right
      exact ⟨rfl, by nlinarith⟩
  · by_cases hby : 0 < by'
    · exact Or.inl ⟨hby, hc⟩
    · right
      by_cases hby0 : by' = 0
      · subst hby0
        refine ⟨rfl, ?_⟩
        rcases hU with h | ⟨h1, h2⟩
        · nlinarith
        · subst h1; simp at hc
      · have hneg : by' < 0 := lt_of_le_of_ne (not_lt.1 hby) hby0
        have t := s1 hc (by nlinarith)
        rcases hU with h | ⟨h1, h2⟩
        · nlinarith
        · subst h1; nlinarith

/-- at a vertex on the bottom side of `c` from which the graph continues to the right along that side: if `c` is on the
left of the incoming edge and no edge of the graph is inside the turn, `c` is on the left of the outgoing edge. -/
theorem step_bottom {c : Coord 2} {pu pa pb pw : Dir} (hua : pu ≠ pa) (hab : pa ≠ pb)
    (hu : InCell c pu ∧ InCell c pa ∧ ¬ Clockwise c pu pa) (hb : ∃ c', InCell c' pa ∧ InCell c' pb)
    (hbot : pa.2 = c 1) (hx : pa.1 < c 0 + 1) (hw2 : pw.2 = c 1) (hw1 : pa.1 < pw.1)
    (hs : ¬ InSector (dir pa pb) (dir pa pw) (dir pa pu)) : InCell c pa ∧ InCell c pb ∧ ¬ Clockwise c pa pb := by
  obtain ⟨hu1, hu2, hu3⟩ := hu
  obtain ⟨c', k1, k2⟩ := hb
  refine ⟨hu2, ?_⟩
  obtain ⟨⟨u1, u2⟩, u3, u4⟩ := hu1
  obtain ⟨⟨a1, a2⟩, a3, a4⟩ := hu2
  obtain ⟨⟨b1, b2⟩, b3, b4⟩ := k1
  obtain ⟨⟨d1, d2⟩, d3, d4⟩ := k2
  have hU : 0 < pu.2 - pa.2 ∨ (pu.2 - pa.2 = 0 ∧ pu.1 - pa.1 < 0) := by
    rcases (show pa.2 ≤ pu.2 by linarith).eq_or_lt with h | h
    · right
      refine ⟨by linarith, ?_⟩
      rcases lt_trichotomy pu.1 pa.1 with h1 | h1 | h1
      · linarith
      · exact (hua (Prod.ext h1 h.symm)).elim
      · exact (hu3 (Or.inl ⟨by linarith, hbot, h1⟩)).elim
    · left; linarith
  have hab' : pb.1 - pa.1 = 0 → pb.2 - pa.2 = 0 → False := fun h1 h2 => hab (Prod.ext (by linarith) (by linarith))
  -- the direction of the outgoing edge is between the side and the incoming edge
  have key : (0 < pb.2 - pa.2 ∧ 0 < (pb.1 - pa.1) * (pu.2 - pa.2) - (pb.2 - pa.2) * (pu.1 - pa.1)) ∨
      (pb.2 - pa.2 = 0 ∧ 0 < pb.1 - pa.1) := by
    refine between (show 0 < pw.1 - pa.1 by linarith) hU hab' ?_
    unfold dir at hs
    rwa [show pw.2 - pa.2 = 0 by linarith] at hs
  have key' : 0 < pb.1 - pa.1 ∨ (c 0 : ℚ) < pa.1 := by
    rcases a1.eq_or_lt with h | h
    · left
      rcases key with ⟨h1, h2⟩ | ⟨h1, h2⟩
      · by_contra hn
        have hn' := not_lt.1 hn
        have hux : 0 ≤ pu.1 - pa.1 := by linarith
        have huy : 0 ≤ pu.2 - pa.2 := by linarith
        nlinarith
      · exact h2
    · exact Or.inr h
  have c0 : c' 0 = c 0 := by
    have g1 : (c' 0 : ℚ) < c 0 + 1 := by linarith
    have g2 : (c 0 : ℚ) < c' 0 + 1 := by rcases key' with h | h <;> linarith
    norm_cast at g1 g2
    omega
  have hcase : (0 < pb.2 - pa.2 ∧ c' 1 = c 1) ∨ (pb.2 - pa.2 = 0 ∧ 0 < pb.1 - pa.1) := by
    rcases key with ⟨h1, _⟩ | h1
    · left
      refine ⟨h1, ?_⟩
      have g1 : (c' 1 : ℚ) ≤ c 1 := by linarith
      have g2 : (c 1 : ℚ) < c' 1 + 1 := by linarith
      norm_cast at g1 g2
      omega
    · exact Or.inr h1
  rw [c0] at d1 d2
  refine ⟨⟨⟨d1, d2⟩, ?_⟩, ?_⟩
  · rcases hcase with ⟨_, h⟩ | ⟨h, _⟩
    · rw [h] at d3 d4; exact ⟨d3, d4⟩
    · constructor <;> linarith
  · rintro (⟨e1, e2, e3⟩ | ⟨e1, e2, e3⟩ | ⟨e1, e2, e3⟩ | ⟨e1, e2, e3⟩)
    · rcases hcase with ⟨h, _⟩ | ⟨_, h⟩ <;> linarith
    · linarith
    · linarith
    · rcases key' with h | h <;> linarith

/-- quarter turn clockwise. -/
def rot (p : Dir) : Dir := (p.2, -p.1)

/-- the image of a cell under `rot`. -/
def rotCell (c : Coord 2) : Coord 2 := ![c 1, -c 0 - 1]

theorem inCell_rot (c : Coord 2) (p : Dir) : InCell (rotCell c) (rot p) ↔ InCell c p := by
  unfold InCell rotCell rot
  simp only [Matrix.cons_val_zero, Matrix.cons_val_one]
  push_cast
  constructor
  · rintro ⟨⟨h1, h2⟩, h3, h4⟩; exact ⟨⟨by linarith, by linarith⟩, by linarith, by linarith⟩
  · rintro ⟨⟨h1, h2⟩, h3, h4⟩; exact ⟨⟨by linarith, by linarith⟩, by linarith, by linarith⟩

theorem clockwise_rot (c : Coord 2) (p q : Dir) : Clockwise (rotCell c) (rot p) (rot q) ↔ Clockwise c p q := by
  unfold Clockwise rotCell rot
  simp only [Matrix.cons_val_zero, Matrix.cons_val_one]
  push_cast
  constructor
  · rintro (⟨h1, h2, h3⟩ | ⟨h1, h2, h3⟩ | ⟨h1, h2, h3⟩ | ⟨h1, h2, h3⟩)
    · exact Or.inr (Or.inl ⟨by linarith, by linarith, by linarith⟩)
    · exact Or.inr (Or.inr (Or.inl ⟨by linarith, by linarith, by linarith⟩))
    · exact Or.inr (Or.inr (Or.inr ⟨by linarith, by linarith, by linarith⟩))
    · exact Or.inl ⟨by linarith, by linarith, by linarith⟩
  · rintro (⟨h1, h2, h3⟩ | ⟨h1, h2, h3⟩ | ⟨h1, h2, h3⟩ | ⟨h1, h2, h3⟩)
    · exact Or.inr (Or.inr (Or.inr ⟨by linarith, by linarith, by linarith⟩))
    · exact Or.inl ⟨by linarith, by linarith, by linarith⟩
    · exact Or.inr (Or.inl ⟨by linarith, by linarith, by linarith⟩)
    · exact Or.inr (Or.inr (Or.inl ⟨by linarith, by linarith, by linarith⟩))

theorem sector_rot (p q r s : Dir) :
    InSector (dir (rot p) (rot q)) (dir (rot p) (rot r)) (dir (rot p) (rot s)) ↔ InSector (dir p q) (dir p r) (dir p s) := by
  have hc : ∀ q r : Dir, cross2 (dir (rot p) (rot q)) (dir (rot p) (rot r)) = cross2 (dir p q) (dir p r) := by
    intro q r; unfold cross2 dir rot; ring
  have hd : ∀ q r : Dir, dot2 (dir (rot p) (rot q)) (dir (rot p) (rot r)) = dot2 (dir p q) (dir p r) := by
    intro q r; unfold dot2 dir rot; ring
  unfold InSector SameDir
  simp only [hc, hd]

theorem rot_ne {p q : Dir} (h : p ≠ q) : rot p ≠ rot q := by
  intro e
  unfold rot at e
  rw [Prod.mk.injEq] at e
  exact h (Prod.ext (by linarith [e.2]) e.1)

/-- all hypotheses of a step except the position of the vertex. -/
structure StepHyp (c : Coord 2) (pu pa pb pw : Dir) : Prop where
  hua : pu ≠ pa
  hab : pa ≠ pb
  hu : InCell c pu ∧ InCell c pa ∧ ¬ Clockwise c pu pa
  hb : ∃ c', InCell c' pa ∧ InCell c' pb
  hs : ¬ InSector (dir pa pb) (dir pa pw) (dir pa pu)

theorem StepHyp.rot {c : Coord 2} {pu pa pb pw : Dir} (h : StepHyp c pu pa pb pw) :
    StepHyp (rotCell c) (rot pu) (rot pa) (rot pb) (rot pw) where
  hua := rot_ne h.hua
  hab := rot_ne h.hab
  hu := by rw [inCell_rot, inCell_rot, clockwise_rot]; exact h.hu
  hb := by
    obtain ⟨c', h1, h2⟩ := h.hb
    exact ⟨rotCell c', (inCell_rot _ _).2 h1, (inCell_rot _ _).2 h2⟩
  hs := by rw [sector_rot]; exact h.hs

theorem step_right {c : Coord 2} {pu pa pb pw : Dir} (h : StepHyp c pu pa pb pw) (hx : pa.1 = c 0 + 1)
    (hy : pa.2 < c 1 + 1) (hw1 : pw.1 = c 0 + 1) (hw2 : pa.2 < pw.2) :
    InCell c pa ∧ InCell c pb ∧ ¬ Clockwise c pa pb := by
  have := step_bottom h.rot.hua h.rot.hab h.rot.hu h.rot.hb (by simp [Planar.rot, rotCell]; linarith) (by simp [Planar.rot, rotCell]; linarith)
    (by simp [Planar.rot, rotCell]; linarith) (by simp [Planar.rot]; linarith) h.rot.hs
  rwa [inCell_rot, inCell_rot, clockwise_rot] at this

theorem step_top {c : Coord 2} {pu pa pb pw : Dir} (h : StepHyp c pu pa pb pw) (hy : pa.2 = c 1 + 1)
    (hx : (c 0 : ℚ) < pa.1) (hw2 : pw.2 = c 1 + 1) (hw1 : pw.1 < pa.1) :
    InCell c pa ∧ InCell c pb ∧ ¬ Clockwise c pa pb := by
  have := step_right h.rot (by simp [Planar.rot, rotCell]; linarith) (by simp [Planar.rot, rotCell]; linarith)
    (by simp [Planar.rot, rotCell]; linarith) (by simp [Planar.rot]; linarith)
  rwa [inCell_rot, inCell_rot, clockwise_rot] at this

theorem step_left {c : Coord 2} {pu pa pb pw : Dir} (h : StepHyp c pu pa pb pw) (hx : pa.1 = c 0)
    (hy : (c 1 : ℚ) < pa.2) (hw1 : pw.1 = c 0) (hw2 : pw.2 < pa.2) :
    InCell c pa ∧ InCell c pb ∧ ¬ Clockwise c pa pb := by
  have := step_top h.rot (by simp [Planar.rot, rotCell]; linarith) (by simp [Planar.rot, rotCell]; linarith)
    (by simp [Planar.rot, rotCell]; linarith) (by simp [Planar.rot]; linarith)
  rwa [inCell_rot, inCell_rot, clockwise_rot] at this

end Planar
end Mandoline
