import Verif.Tri.Arr
import Verif.Edge.Props

/-! # C108: a subdivision given by segments and the parameters of their vertices is a graph of a cut triangle -/

namespace Mandoline
namespace Arr

open Planar (dir)

/-- a segment with the parameters of the vertices on it. -/
structure Seg where
  p : Dir
  q : Dir
  ts : List ℚ

/-- the point with parameter `t`. -/
def Seg.pt (s : Seg) (t : ℚ) : Dir := ((1 - t) * s.p.1 + t * s.q.1, (1 - t) * s.p.2 + t * s.q.2)

/-- `x` is a vertex of one of the segments. -/
def IsV (S : List Seg) (x : Dir) : Prop := ∃ s ∈ S, ∃ t ∈ s.ts, x = s.pt t

/-- what the segments of a triangle cut along the lines `L` satisfy. -/
structure Segs (S : List Seg) (L : List Aff) : Prop where
  grad : ∀ l ∈ L, l.a ≠ 0 ∨ l.b ≠ 0
  sorted : ∀ s ∈ S, s.ts.Pairwise (· < ·)
  zero : ∀ s ∈ S, (0 : ℚ) ∈ s.ts
  one : ∀ s ∈ S, (1 : ℚ) ∈ s.ts
  range : ∀ s ∈ S, ∀ t ∈ s.ts, 0 ≤ t ∧ t ≤ 1
  ne : ∀ s ∈ S, s.p ≠ s.q
  inP : ∀ s ∈ S, ∀ f ∈ sides, 0 ≤ f.at s.p ∧ 0 ≤ f.at s.q
  on : ∀ s ∈ S, ∃ l ∈ L ++ sides, l.at s.p = 0 ∧ l.at s.q = 0
  fullV : ∀ s ∈ S, ∀ t, 0 < t → t < 1 → IsV S (s.pt t) → t ∈ s.ts
  fullL : ∀ s ∈ S, ∀ l ∈ L, ∀ t, 0 < t → t < 1 → l.at s.p ≠ 0 → l.at (s.pt t) = 0 → t ∈ s.ts
  complete : ∀ x, IsV S x → ∀ l ∈ L ++ sides, l.at x = 0 → ∀ d : Dir, d ≠ 0 → l.lin d = 0 →
    (∀ f ∈ sides, f.at x = 0 → 0 ≤ f.lin d) →
    ∃ s ∈ S, ∃ t ∈ s.ts, x = s.pt t ∧ ((t < 1 ∧ SameDir d (dir s.p s.q)) ∨ (0 < t ∧ SameDir d (dir s.q s.p)))
  meet : ∀ l ∈ L ++ sides, ∀ m ∈ L ++ sides, l.a * m.b - l.b * m.a ≠ 0 → ∀ x, l.at x = 0 → m.at x = 0 →
    (∀ f ∈ sides, 0 ≤ f.at x) → IsV S x

/-- `E` are the pieces of the segments, in both directions, between vertices at positions `V`. -/
structure PiecesOf (S : List Seg) (E : List DEdge) (V : ℤ → Dir) : Prop where
  symm : ∀ a b, (a, b) ∈ E → (b, a) ∈ E
  inj : ∀ a b a' b', (a, b) ∈ E → (a', b') ∈ E → V a = V a' → a = a'
  sub : ∀ a b, (a, b) ∈ E → ∃ s ∈ S, ∃ i ∈ intervals s.ts,
    (V a = s.pt i.1 ∧ V b = s.pt i.2) ∨ (V a = s.pt i.2 ∧ V b = s.pt i.1)
  sup : ∀ s ∈ S, ∀ i ∈ intervals s.ts, ∃ a b, (a, b) ∈ E ∧ V a = s.pt i.1 ∧ V b = s.pt i.2

theorem exists_next {l : List ℚ} (hl : l.Pairwise (· < ·)) {t u : ℚ} (ht : t ∈ l) (hu : u ∈ l) (h : t < u) :
    ∃ t', (t, t') ∈ intervals l := by
  induction l with
  | nil => cases ht
  | cons a l ih =>
    cases l with
    | nil =>
      simp only [List.mem_singleton] at ht hu
      rw [ht, hu] at h; exact absurd h (lt_irrefl _)
    | cons b l =>
      rw [List.pairwise_cons] at hl
      rcases List.mem_cons.1 ht with rfl | ht2
      · exact ⟨b, by simp [intervals]⟩
      · clear ht
        rcases List.mem_cons.1 hu with rfl | hu
        · exact absurd h (not_lt.2 (hl.1 t (by assumption)).le)
        · obtain ⟨t', ht'⟩ := ih hl.2 (by assumption) hu
          exact ⟨t', by
            unfold intervals at *
            simp only [List.tail_cons, List.zip_cons_cons] at *
            exact List.mem_cons_of_mem _ ht'⟩

theorem exists_prev {l : List ℚ} (hl : l.Pairwise (· < ·)) {t u : ℚ} (ht : t ∈ l) (hu : u ∈ l) (h : u < t) :
    ∃ t', (t', t) ∈ intervals l := by
  induction l generalizing u with
  | nil => cases ht
  | cons a l ih =>
    cases l with
    | nil =>
      simp only [List.mem_singleton] at ht hu
      rw [ht, hu] at h; exact absurd h (lt_irrefl _)
    | cons b l =>
      rw [List.pairwise_cons] at hl
      rcases List.mem_cons.1 ht with rfl | ht
      · rcases List.mem_cons.1 hu with rfl | hu
        · exact absurd h (lt_irrefl _)
        · exact absurd h (not_lt.2 (hl.1 u hu).le)
      · by_cases hb : t = b
        · subst hb; exact ⟨a, by simp [intervals]⟩
        · obtain ⟨t', ht'⟩ := ih hl.2 (u := b) ht List.mem_cons_self (by
            rcases List.mem_cons.1 ht with h | h
            · exact absurd h hb
            · exact (List.pairwise_cons.1 hl.2).1 t h)
          exact ⟨t', by
            unfold intervals at *
            simp only [List.tail_cons, List.zip_cons_cons] at *
            exact List.mem_cons_of_mem _ ht'⟩

theorem at_pt (l : Aff) (s : Seg) (t : ℚ) : l.at (s.pt t) = (1 - t) * l.at s.p + t * l.at s.q := by
  unfold Seg.pt Aff.at; ring

theorem dir_pt (s : Seg) (t u : ℚ) : dir (s.pt t) (s.pt u) = ((u - t) * (dir s.p s.q).1, (u - t) * (dir s.p s.q).2) := by
  unfold Seg.pt dir; refine Prod.ext ?_ ?_ <;> dsimp only <;> ring

theorem pt_inj {s : Seg} (h : s.p ≠ s.q) {t u : ℚ} (hp : s.pt t = s.pt u) : t = u := by
  by_contra hc
  apply h
  have e := dir_pt s t u
  rw [hp] at e
  have hne : u - t ≠ 0 := sub_ne_zero.2 (Ne.symm hc)
  unfold dir at e
  simp only [sub_self, Prod.mk.injEq] at e
  obtain ⟨e1, e2⟩ := e
  have := (mul_eq_zero.1 e1.symm).resolve_left hne
  have := (mul_eq_zero.1 e2.symm).resolve_left hne
  exact Prod.ext (by linarith) (by linarith)

/-- a point strictly between two points of a segment. -/
theorem pt_between (s : Seg) (t u k : ℚ) (x : Dir)
    (hx : dir (s.pt t) x = (k * (dir (s.pt t) (s.pt u)).1, k * (dir (s.pt t) (s.pt u)).2)) : x = s.pt (t + k * (u - t)) := by
  rw [dir_pt] at hx
  unfold dir Seg.pt at hx
  simp only [Prod.mk.injEq] at hx
  unfold Seg.pt
  refine Prod.ext ?_ ?_ <;> dsimp only
  · linarith [hx.1]
  · linarith [hx.2]

variable {S : List Seg} {E : List DEdge} {V : ℤ → Dir} {L : List Aff}

/-- no vertex is strictly inside a piece. -/
theorem Segs.not_inside (G : Segs S L) {s : Seg} (hs : s ∈ S) {i : ℚ × ℚ} (hi : i ∈ intervals s.ts) {t : ℚ} (h1 : i.1 < t)
    (h2 : t < i.2) : ¬ IsV S (s.pt t) := by
  intro hv
  obtain ⟨_, m1, m2, gap⟩ := intervals_mem (G.sorted s hs) hi
  have r1 := G.range s hs _ m1
  have r2 := G.range s hs _ m2
  have := G.fullV s hs t (by linarith) (by linarith) hv
  rcases gap t this with h | h | h | h
  · exact absurd h1 (not_lt.2 h.le)
  · exact absurd h2 (not_lt.2 h.ge)
  · exact absurd h1 (not_lt.2 h.le)
  · exact absurd h2 (not_lt.2 h.le)

theorem PiecesOf.isV (P : PiecesOf S E V) (G : Segs S L) {a b : ℤ} (h : (a, b) ∈ E) : IsV S (V a) := by
  obtain ⟨s, hs, i, hi, h⟩ := P.sub a b h
  obtain ⟨_, m1, m2, _⟩ := intervals_mem (G.sorted s hs) hi
  rcases h with h | h
  · exact ⟨s, hs, _, m1, h.1⟩
  · exact ⟨s, hs, _, m2, h.1⟩

/-- a vertex in the direction of a piece is not closer than the end of the piece. -/
theorem PiecesOf.closest (P : PiecesOf S E V) (G : Segs S L) {a b : ℤ} (h : (a, b) ∈ E) {x : Dir} (hx : IsV S x) {k : ℚ} (hk : 0 < k)
    (hd : dir (V a) x = (k * (dir (V a) (V b)).1, k * (dir (V a) (V b)).2)) : 1 ≤ k := by
  by_contra hc
  push Not at hc
  obtain ⟨s, hs, i, hi, h⟩ := P.sub a b h
  obtain ⟨lt, _⟩ := intervals_mem (G.sorted s hs) hi
  have hlt : i.1 < i.2 := lt
  rcases h with ⟨h1, h2⟩ | ⟨h1, h2⟩
  · rw [h1, h2] at hd
    have e := pt_between s _ _ k x hd
    rw [e] at hx
    have := mul_pos hk (sub_pos.2 hlt)
    have := mul_pos (sub_pos.2 hc) (sub_pos.2 hlt)
    exact G.not_inside hs hi (by linarith) (by linarith) hx
  · rw [h1, h2] at hd
    have e := pt_between s _ _ k x hd
    rw [e] at hx
    have := mul_pos hk (sub_pos.2 hlt)
    have := mul_pos (sub_pos.2 hc) (sub_pos.2 hlt)
    exact G.not_inside hs hi (by linarith) (by linarith) hx

theorem dirTo_eq (V : ℤ → Dir) (a b : ℤ) : dirTo V a b = dir (V a) (V b) := rfl

theorem sameDir_scale {d e : Dir} (h : SameDir d e) {k : ℚ} (hk : 0 < k) : SameDir d (k * e.1, k * e.2) := by
  obtain ⟨h1, h2⟩ := h
  refine ⟨?_, ?_⟩
  · unfold cross2 at *; dsimp only; linear_combination k * h1
  · have := mul_pos hk h2
    unfold dot2 at *; dsimp only; linarith

/-- the pieces of the segments form the graph of a triangle cut along lines. -/
theorem Segs.graph (G : Segs S L) (P : PiecesOf S E V) : Graph E V L where
  grad := G.grad
  symm := P.symm
  ne := by
    rintro ⟨a, b⟩ he heq
    obtain ⟨s, hs, i, hi, h⟩ := P.sub a b he
    obtain ⟨lt, _⟩ := intervals_mem (G.sorted s hs) hi
    dsimp only at heq
    have hlt : i.1 < i.2 := lt
    rcases h with ⟨h1, h2⟩ | ⟨h1, h2⟩
    · rw [h1, h2] at heq; exact absurd (pt_inj (G.ne s hs) heq) hlt.ne
    · rw [h1, h2] at heq; exact absurd (pt_inj (G.ne s hs) heq) hlt.ne'
  dist := by
    intro a b c hb hc hbc hsd
    rw [dirTo_eq, dirTo_eq] at hsd
    have hV : ∀ x, (a, x) ∈ E → V a ≠ V x := by
      intro x he heq
      obtain ⟨s, hs, i, hi, h⟩ := P.sub a x he
      obtain ⟨lt, _⟩ := intervals_mem (G.sorted s hs) hi
      have hlt : i.1 < i.2 := lt
      rcases h with ⟨h1, h2⟩ | ⟨h1, h2⟩
      · rw [h1, h2] at heq; exact absurd (pt_inj (G.ne s hs) heq) hlt.ne
      · rw [h1, h2] at heq; exact absurd (pt_inj (G.ne s hs) heq) hlt.ne'
    obtain ⟨k, hk, e⟩ := cross_of_sameDir_left (x := 0) (dir_ne (hV b hb)) hsd
    have h1 := P.closest G hb (P.isV G (P.symm _ _ hc)) hk e
    have h2 := P.closest G hc (P.isV G (P.symm _ _ hb)) (k := 1 / k) (by positivity) (by
      rw [e]; refine Prod.ext ?_ ?_ <;> dsimp only <;> field_simp)
    have hk1 : k = 1 := by
      rw [le_div_iff₀ hk] at h2; linarith
    subst hk1
    apply hbc
    refine P.inj b a c a (P.symm _ _ hb) (P.symm _ _ hc) ?_
    unfold dir at e
    simp only [one_mul, Prod.mk.injEq] at e
    exact Prod.ext (by linarith [e.1]) (by linarith [e.2])
  inj := P.inj
  inside := by
    rintro ⟨a, b⟩ he f hf
    obtain ⟨s, hs, t, ht, h⟩ := P.isV G he
    dsimp only
    rw [h, at_pt]
    obtain ⟨i1, i2⟩ := G.inP s hs f hf
    obtain ⟨r1, r2⟩ := G.range s hs t ht
    have := mul_nonneg (sub_nonneg.2 r2) i1
    have := mul_nonneg r1 i2
    linarith
  on := by
    rintro ⟨a, b⟩ he
    obtain ⟨s, hs, i, _, h⟩ := P.sub a b he
    obtain ⟨l, hl, l1, l2⟩ := G.on s hs
    refine ⟨l, hl, ?_⟩
    dsimp only
    rcases h with ⟨h1, h2⟩ | ⟨h1, h2⟩ <;> rw [h1, h2, at_pt, at_pt, l1, l2] <;> simp
  nocross := by
    rintro ⟨a, b⟩ he l hl
    obtain ⟨s, hs, i, hi, h⟩ := P.sub a b he
    obtain ⟨lt, m1, m2, gap⟩ := intervals_mem (G.sorted s hs) hi
    have hlt : i.1 < i.2 := lt
    have key : 0 ≤ l.at (s.pt i.1) * l.at (s.pt i.2) := by
      by_contra hc
      push Not at hc
      set A := l.at (s.pt i.1) with hA
      set B := l.at (s.pt i.2) with hB
      have hAB : A - B ≠ 0 := by
        intro h0
        have : A = B := by linarith
        rw [this] at hc
        exact absurd hc (not_lt.2 (mul_self_nonneg B))
      set k := A / (A - B) with hk
      have hk0 : 0 < k ∧ k < 1 := by
        rcases lt_or_gt_of_ne hAB with h0 | h0
        · have hA0 : A < 0 := by
            by_contra hn; push Not at hn
            have : 0 ≤ A * B := mul_nonneg hn (by linarith)
            linarith
          have hB0 : 0 < B := by
            by_contra hn; push Not at hn
            have := mul_nonneg_of_nonpos_of_nonpos hA0.le hn
            linarith
          exact ⟨div_pos_of_neg_of_neg hA0 h0, by rw [hk, div_lt_one_of_neg h0]; linarith⟩
        · have hA0 : 0 < A := by
            by_contra hn; push Not at hn
            have := mul_nonneg_of_nonpos_of_nonpos hn (show B ≤ 0 by linarith)
            linarith
          have hB0 : B < 0 := by
            by_contra hn; push Not at hn
            have : 0 ≤ A * B := mul_nonneg hA0.le hn
            linarith
          exact ⟨div_pos hA0 h0, by rw [hk, div_lt_one h0]; linarith⟩
      have hz : l.at (s.pt (i.1 + k * (i.2 - i.1))) = 0 := by
        have e : l.at (s.pt (i.1 + k * (i.2 - i.1))) = (1 - k) * A + k * B := by
          rw [hA, hB, at_pt, at_pt, at_pt]; ring
        rw [e, hk]; field_simp; ring
      have r1 := G.range s hs _ m1
      have r2 := G.range s hs _ m2
      have p1 := mul_pos hk0.1 (sub_pos.2 hlt)
      have p2 := mul_pos (sub_pos.2 hk0.2) (sub_pos.2 hlt)
      by_cases hp : l.at s.p = 0
      · have hq : l.at s.q = 0 := by
          rw [at_pt, hp, mul_zero, zero_add] at hz
          rcases mul_eq_zero.1 hz with h0 | h0
          · linarith
          · exact h0
        rw [hA, at_pt, hp, hq] at hc
        simp at hc
      · have := G.fullL s hs l hl (i.1 + k * (i.2 - i.1)) (by linarith) (by linarith) hp hz
        rcases gap _ this with h | h | h | h <;> linarith
    dsimp only
    rcases h with ⟨h1, h2⟩ | ⟨h1, h2⟩
    · rw [h1, h2]; exact key
    · rw [h1, h2, mul_comm]; exact key
  complete := by
    intro a b he l hl hla d hd hld hside
    obtain ⟨s, hs, t, ht, hx, h⟩ := G.complete (V a) (P.isV G he) l hl hla d hd hld hside
    rcases h with ⟨h1, h2⟩ | ⟨h1, h2⟩
    · obtain ⟨t', ht'⟩ := exists_next (G.sorted s hs) ht (G.one s hs) h1
      obtain ⟨lt, _⟩ := intervals_mem (G.sorted s hs) ht'
      have hlt : t < t' := lt
      obtain ⟨a', w, hw, e1, e2⟩ := P.sup s hs _ ht'
      have ha : a' = a := P.inj a' w a b hw he (by rw [e1, hx])
      subst ha
      refine ⟨w, hw, ?_⟩
      rw [dirTo_eq, e1, e2, dir_pt]
      exact sameDir_scale h2 (sub_pos.2 hlt)
    · obtain ⟨t', ht'⟩ := exists_prev (G.sorted s hs) ht (G.zero s hs) h1
      obtain ⟨lt, _⟩ := intervals_mem (G.sorted s hs) ht'
      have hlt : t' < t := lt
      obtain ⟨w, a', hw, e1, e2⟩ := P.sup s hs _ ht'
      have ha : a' = a := P.inj a' w a b (P.symm _ _ hw) he (by rw [e2, hx])
      subst ha
      refine ⟨w, P.symm _ _ hw, ?_⟩
      rw [dirTo_eq, e1, e2, dir_pt]
      have := sameDir_scale h2 (sub_pos.2 hlt)
      have e : dir s.q s.p = (-(dir s.p s.q).1, -(dir s.p s.q).2) := by
        unfold dir; refine Prod.ext ?_ ?_ <;> dsimp only <;> ring
      rw [e] at this
      dsimp only at this ⊢
      have e1 : (t' - t) * (dir s.p s.q).1 = (t - t') * -(dir s.p s.q).1 := by ring
      have e2 : (t' - t) * (dir s.p s.q).2 = (t - t') * -(dir s.p s.q).2 := by ring
      rw [e1, e2]
      exact this
  meet := by
    intro l hl m hm hlm x hx hx' hin
    obtain ⟨s, hs, t, ht, h⟩ := G.meet l hl m hm hlm x hx hx' hin
    obtain ⟨_, r2⟩ := G.range s hs t ht
    rcases lt_or_eq_of_le r2 with h1 | h1
    · obtain ⟨t', ht'⟩ := exists_next (G.sorted s hs) ht (G.one s hs) h1
      obtain ⟨a, w, hw, e1, e2⟩ := P.sup s hs _ ht'
      exact ⟨a, w, hw, by rw [e1, h]⟩
    · obtain ⟨t', ht'⟩ := exists_prev (G.sorted s hs) ht (G.zero s hs) (by rw [h1]; norm_num)
      obtain ⟨w, a, hw, e1, e2⟩ := P.sup s hs _ ht'
      exact ⟨a, w, P.symm _ _ hw, by rw [e2, h]⟩

end Arr
end Mandoline
