import Verif.Tri.Faces

/-! # C108: the chords and sides of an input triangle, as segments in barycentric coordinates -/
namespace Mandoline
variable {D : ℕ}
namespace TriInput
open Arr
open Planar (dir)

/-- the point with the barycentric coordinates `b` in the triangle `(1,0), (0,1), (0,0)`. -/
def toDir (b : Fin 3 → ℚ) : Dir := (b 0, b 1)
/-- its barycentric coordinates. -/
def ofDir (x : Dir) : Fin 3 → ℚ := ![x.1, x.2, 1 - x.1 - x.2]
/-- the barycentric coordinates of a displacement. -/
def ofVec (d : Dir) : Fin 3 → ℚ := ![d.1, d.2, - d.1 - d.2]

theorem toDir_ofDir (x : Dir) : toDir (ofDir x) = x := rfl
theorem ofDir_toDir {b : Fin 3 → ℚ} (h : ∑ j, b j = 1) : ofDir (toDir b) = b := by
  rw [Fin.sum_univ_three] at h
  funext j; fin_cases j <;> simp [ofDir, toDir]; linarith
theorem sum_ofDir (x : Dir) : ∑ j, ofDir x j = 1 := by rw [Fin.sum_univ_three]; simp [ofDir]

/-- barycentric coordinate `j`. -/
def side (j : Fin 3) : Aff := ![⟨1, 0, 0⟩, ⟨0, 1, 0⟩, ⟨-1, -1, 1⟩] j

theorem side_at (j : Fin 3) (x : Dir) : (side j).at x = ofDir x j := by
  fin_cases j <;> simp [side, Aff.at, ofDir]; ring
theorem side_lin (j : Fin 3) (d : Dir) : (side j).lin d = ofVec d j := by
  fin_cases j <;> simp [side, Aff.lin, ofVec]; ring
theorem mem_sides (f : Aff) : f ∈ sides ↔ ∃ j, f = side j := by
  constructor
  · intro h
    simp only [sides, List.mem_cons, List.not_mem_nil, or_false] at h
    rcases h with h | h | h
    · exact ⟨0, h⟩
    · exact ⟨1, h⟩
    · exact ⟨2, h⟩
  · rintro ⟨j, rfl⟩
    fin_cases j <;> simp [side, sides]

theorem ofDir_pt (s : Seg) (t : ℚ) (j : Fin 3) : ofDir (s.pt t) j = (1 - t) * ofDir s.p j + t * ofDir s.q j := by
  rw [← side_at, ← side_at, ← side_at, at_pt]

theorem ofDir_inj {x y : Dir} (h : ofDir x = ofDir y) : x = y := by
  rw [← toDir_ofDir x, h, toDir_ofDir]

variable (T : TriInput D)

/-- the line of the plane `x_i = n`. -/
def cut (i : Fin D) (n : ℤ) : Aff := ⟨T.hgt i n 0 - T.hgt i n 2, T.hgt i n 1 - T.hgt i n 2, T.hgt i n 2⟩

/-- the planes of axis `i` that can meet the triangle. -/
def reach (i : Fin D) : List ℤ :=
  let lo := min ⌊T.P 0 i⌋ (min ⌊T.P 1 i⌋ ⌊T.P 2 i⌋)
  let hi := max ⌈T.P 0 i⌉ (max ⌈T.P 1 i⌉ ⌈T.P 2 i⌉)
  (List.range ((hi - lo).toNat + 1)).map fun (k : ℕ) => lo + k

/-- the lines along which grid planes cut the triangle. -/
def lines : List Aff :=
  (List.finRange D).flatMap fun i => ((T.reach i).filter fun n => decide (∃ j k, T.hgt i n j ≠ T.hgt i n k)).map (T.cut i)

/-- a side, with its crossings. -/
def sideSeg (e : Fin 3) : Seg :=
  ⟨toDir (Pi.single (T.src e) 1), toDir (Pi.single (T.tgt e) 1), 0 :: (T.edgeIsects e).map Isect.t ++ [1]⟩

/-- a chord, with its crossings. -/
def chordSeg (c : TriPt D × TriPt D) : Seg :=
  ⟨toDir c.1.b, toDir c.2.b, 0 :: (bakeEdge (-1) T.grid c.1.v c.2.v).map Isect.t ++ [1]⟩

/-- all of them. -/
def segs (ptrLt : ℕ × ℕ → ℕ × ℕ → Bool) : List Seg := (T.chords ptrLt).map T.chordSeg ++ (List.finRange 3).map T.sideSeg

variable {T}

theorem cut_at (i : Fin D) (n : ℤ) (x : Dir) : (T.cut i n).at x = baryPoint T.P (ofDir x) i - n := by
  rw [← heightAt_hgt i n _ (sum_ofDir x)]
  simp only [heightAt, Fin.sum_univ_three, cut, Aff.at, ofDir, Matrix.cons_val_zero, Matrix.cons_val_one, Matrix.cons_val]
  ring

theorem cut_lin (i : Fin D) (n : ℤ) (d : Dir) : (T.cut i n).lin d = ∑ j, ofVec d j * T.P j i := by
  simp only [Fin.sum_univ_three, cut, Aff.lin, ofVec, hgt, Matrix.cons_val_zero, Matrix.cons_val_one, Matrix.cons_val]
  ring

theorem mem_lines (l : Aff) : l ∈ T.lines ↔ ∃ i n, n ∈ T.reach i ∧ (∃ j k, T.hgt i n j ≠ T.hgt i n k) ∧ l = T.cut i n := by
  unfold lines
  rw [List.mem_flatMap]
  constructor
  · rintro ⟨i, _, h⟩
    obtain ⟨n, hn, rfl⟩ := List.mem_map.1 h
    rw [List.mem_filter, decide_eq_true_eq] at hn
    exact ⟨i, n, hn.1, hn.2, rfl⟩
  · rintro ⟨i, n, h1, h2, rfl⟩
    exact ⟨i, List.mem_finRange i, List.mem_map.2 ⟨n, List.mem_filter.2 ⟨h1, decide_eq_true h2⟩, rfl⟩⟩

theorem mem_reach (i : Fin D) (n : ℤ) (b : Fin 3 → ℚ) (hb : IsBary b) (h : baryPoint T.P b i = n) : n ∈ T.reach i := by
  have h0 := hb.nonneg 0
  have h1 := hb.nonneg 1
  have h2 := hb.nonneg 2
  have hs := hb.sum
  rw [Fin.sum_univ_three] at hs
  unfold baryPoint at h
  rw [Fin.sum_univ_three] at h
  unfold reach
  dsimp only
  set lo := min ⌊T.P 0 i⌋ (min ⌊T.P 1 i⌋ ⌊T.P 2 i⌋) with hlo
  set hi := max ⌈T.P 0 i⌉ (max ⌈T.P 1 i⌉ ⌈T.P 2 i⌉) with hhi
  have l0 : (lo : ℚ) ≤ T.P 0 i := Int.le_floor.1 (min_le_left _ _)
  have l1 : (lo : ℚ) ≤ T.P 1 i := Int.le_floor.1 ((min_le_right _ _).trans (min_le_left _ _))
  have l2 : (lo : ℚ) ≤ T.P 2 i := Int.le_floor.1 ((min_le_right _ _).trans (min_le_right _ _))
  have u0 : T.P 0 i ≤ (hi : ℚ) := Int.ceil_le.1 (le_max_left _ _)
  have u1 : T.P 1 i ≤ (hi : ℚ) := Int.ceil_le.1 ((le_max_left _ _).trans (le_max_right _ _))
  have u2 : T.P 2 i ≤ (hi : ℚ) := Int.ceil_le.1 ((le_max_right _ _).trans (le_max_right _ _))
  have a1 : lo ≤ n := by
    have : (lo : ℚ) ≤ n := by
      have e : (lo : ℚ) = b 0 * lo + b 1 * lo + b 2 * lo := by linear_combination (-(lo : ℚ)) * hs
      rw [e, ← h]
      have := mul_le_mul_of_nonneg_left l0 h0
      have := mul_le_mul_of_nonneg_left l1 h1
      have := mul_le_mul_of_nonneg_left l2 h2
      linarith
    exact_mod_cast this
  have a2 : n ≤ hi := by
    have : (n : ℚ) ≤ hi := by
      have e : (hi : ℚ) = b 0 * hi + b 1 * hi + b 2 * hi := by linear_combination (-(hi : ℚ)) * hs
      rw [e, ← h]
      have := mul_le_mul_of_nonneg_left u0 h0
      have := mul_le_mul_of_nonneg_left u1 h1
      have := mul_le_mul_of_nonneg_left u2 h2
      linarith
    exact_mod_cast this
  refine List.mem_map.2 ⟨(n - lo).toNat, List.mem_range.2 (by omega), by omega⟩

theorem mem_ts (ei : ℤ) (grid : Option (Coord D)) (a b : Vertex D) (ha : Normalised a) (hb : Normalised b)
    (hs : Separated (bakeTol grid) a.p b.p) (t : ℚ) :
    t ∈ 0 :: (bakeEdge ei grid a b).map Isect.t ++ [1] ↔ t = 0 ∨ Crosses a.p b.p t ∨ t = 1 := by
  rw [List.mem_append, List.mem_cons, (C13_crossings_exact ei grid a b ha hb hs).1 t, List.mem_singleton, or_assoc]

theorem sorted_ts (ei : ℤ) (grid : Option (Coord D)) (a b : Vertex D) (ha : Normalised a) (hb : Normalised b) :
    (0 :: (bakeEdge ei grid a b).map Isect.t ++ [1]).Pairwise (· < ·) := by
  have := paramPath_sorted ei grid a b ha hb
  rw [← List.pairwise_map (f := Isect.t)] at this
  simpa [paramPath] using this

theorem ofDir_side (e : Fin 3) (t : ℚ) : ofDir ((T.sideSeg e).pt t) = edgeBary (T.src e) (T.tgt e) t := by
  have hne := T.src_ne_tgt e
  funext j
  rw [ofDir_pt]
  unfold sideSeg
  dsimp only
  rw [ofDir_toDir (isBary_single _).sum, ofDir_toDir (isBary_single _).sum]
  unfold edgeBary
  by_cases h1 : j = T.tgt e
  · rw [if_pos h1, h1, Pi.single_eq_same, Pi.single_eq_of_ne hne.symm]; ring
  · rw [if_neg h1, Pi.single_eq_of_ne h1]
    by_cases h2 : j = T.src e
    · rw [if_pos h2, h2, Pi.single_eq_same]; ring
    · rw [if_neg h2, Pi.single_eq_of_ne h2]; ring

theorem src_ne (e : Fin 3) : T.src e ≠ e ∧ T.tgt e ≠ e := by
  rcases T.src_tgt e with ⟨h1, h2⟩ | ⟨h1, h2⟩ <;> rw [h1, h2] <;> fin_cases e <;> decide

theorem third (e j : Fin 3) (h : j ≠ e) : j = T.src e ∨ j = T.tgt e := by
  rcases T.src_tgt e with ⟨h1, h2⟩ | ⟨h1, h2⟩ <;> rw [h1, h2] <;> revert h <;> fin_cases e <;> fin_cases j <;> decide

/-- the three values of `edgeBary`. -/
theorem edgeBary_vals (e : Fin 3) (t : ℚ) : edgeBary (T.src e) (T.tgt e) t e = 0 ∧ edgeBary (T.src e) (T.tgt e) t (T.src e) = 1 - t ∧
    edgeBary (T.src e) (T.tgt e) t (T.tgt e) = t := by
  obtain ⟨h1, h2⟩ := src_ne (T := T) e
  have h3 := T.src_ne_tgt e
  simp [edgeBary, h1.symm, h2.symm, h3]

/-- a point of the plane of the triangle with coordinate `e` zero is on the line of side `e`. -/
theorem on_side (e : Fin 3) (x : Dir) (h : ofDir x e = 0) : x = (T.sideSeg e).pt (ofDir x (T.tgt e)) := by
  apply ofDir_inj
  rw [ofDir_side]
  obtain ⟨v1, v2, v3⟩ := edgeBary_vals (T := T) e (ofDir x (T.tgt e))
  have hs := sum_ofDir x
  have sum3 : ∀ f : Fin 3 → ℚ, ∑ j, f j = f e + f (T.src e) + f (T.tgt e) := by
    intro f
    rw [Fin.sum_univ_three]
    rcases T.src_tgt e with ⟨h1, h2⟩ | ⟨h1, h2⟩ <;> rw [h1, h2] <;> fin_cases e <;> simp <;> ring
  rw [sum3, h] at hs
  funext j
  by_cases hj : j = e
  · rw [hj, h, v1]
  · rcases third (T := T) e j hj with rfl | rfl
    · rw [v2]; linarith
    · rw [v3]

/-- position along a side. -/
theorem side_point (e : Fin 3) (t : ℚ) (i : Fin D) :
    baryPoint T.P (ofDir ((T.sideSeg e).pt t)) i = segPt (T.V (T.src e)).p (T.V (T.tgt e)).p t i := by
  rw [ofDir_side]
  exact (C34_edge_bary (D := D) (T.src e) (T.tgt e) (T.src_ne_tgt e) t).2.2 T.P i

theorem chord_ofDir {c : TriPt D × TriPt D} (h : ChordOk T c.1 c.2) (t : ℚ) :
    ofDir ((T.chordSeg c).pt t) = fun j => (1 - t) * c.1.b j + t * c.2.b j := by
  funext j
  rw [ofDir_pt]
  unfold chordSeg
  dsimp only
  rw [ofDir_toDir h.pok.bary.sum, ofDir_toDir h.qok.bary.sum]

/-- position along a chord. -/
theorem chord_point {c : TriPt D × TriPt D} (h : ChordOk T c.1 c.2) (t : ℚ) (i : Fin D) :
    baryPoint T.P (ofDir ((T.chordSeg c).pt t)) i = segPt c.1.v.p c.2.v.p t i := by
  rw [chord_ofDir h, baryPoint_lerp T.P c.1.b c.2.b _ t (fun _ => rfl), h.pok.pos, h.qok.pos]
  rfl

theorem chords_bpts (hT : T.Ok) (ptrLt : ℕ × ℕ → ℕ × ℕ → Bool) {d : TriPt D × TriPt D} (hd : d ∈ T.chords ptrLt) :
    d.1 ∈ T.bpts ∧ d.2 ∈ T.bpts := by
  rcases addChord_sub _ _ _ hd with h | h
  · exact absurd h List.not_mem_nil
  · obtain ⟨i', _, h⟩ := List.mem_flatMap.1 h
    obtain ⟨n', _, h⟩ := List.mem_filterMap.1 h
    obtain ⟨p', q', hb, _, hpq⟩ := chordOf_spec _ _ _ h
    have hp' := (mem_bin hT).1 (hb ▸ List.mem_cons_self : p' ∈ T.bin i' n')
    have hq' := (mem_bin hT).1 (hb ▸ List.mem_cons_of_mem _ List.mem_cons_self : q' ∈ T.bin i' n')
    rcases hpq with rfl | rfl
    · exact ⟨hp'.1, hq'.1⟩
    · exact ⟨hq'.1, hp'.1⟩

/-- what a vertex of the subdivided triangle can be. -/
def VertKind (T : TriInput D) (b : Fin 3 → ℚ) : Prop :=
  (∃ j, b = Pi.single j 1) ∨
  (∃ e t, Crosses (T.V (T.src e)).p (T.V (T.tgt e)).p t ∧ b = edgeBary (T.src e) (T.tgt e) t) ∨
  T.Transversal b

theorem bpts_kind (hT : T.Ok) {p : TriPt D} (hp : p ∈ T.bpts) : VertKind T p.b := by
  unfold bpts at hp
  rcases List.mem_append.1 hp with hp | hp
  · obtain ⟨e, _, hp⟩ := List.mem_flatMap.1 hp
    obtain ⟨⟨x, k⟩, hx, rfl⟩ := List.mem_map.1 hp
    have hxm : x ∈ T.edgeIsects e := List.fst_mem_of_mem_zipIdx hx
    exact .inr (.inl ⟨e, x.t, (C13_crossings_represented _ _ _ _ (hT.verts _).1 (hT.verts _).1).1 x hxm, rfl⟩)
  · obtain ⟨_, j, _, hb, _⟩ := cornerPt_spec hT p hp
    exact .inl ⟨j, hb⟩

theorem mem_segs {ptrLt : ℕ × ℕ → ℕ × ℕ → Bool} (s : Seg) :
    s ∈ T.segs ptrLt ↔ (∃ c ∈ T.chords ptrLt, s = T.chordSeg c) ∨ ∃ e, s = T.sideSeg e := by
  unfold segs
  rw [List.mem_append, List.mem_map, List.mem_map]
  constructor
  · rintro (⟨c, hc, rfl⟩ | ⟨e, _, rfl⟩)
    · exact .inl ⟨c, hc, rfl⟩
    · exact .inr ⟨e, rfl⟩
  · rintro (⟨c, hc, rfl⟩ | ⟨e, rfl⟩)
    · exact .inl ⟨c, hc, rfl⟩
    · exact .inr ⟨e, List.mem_finRange e, rfl⟩

theorem ts_side (hT : T.Ok) (e : Fin 3) (t : ℚ) :
    t ∈ (T.sideSeg e).ts ↔ t = 0 ∨ Crosses (T.V (T.src e)).p (T.V (T.tgt e)).p t ∨ t = 1 :=
  mem_ts _ _ _ _ (hT.verts _).1 (hT.verts _).1 (hT.sep e) t

theorem ts_chord (hS : T.ChordsSeparated) {c : TriPt D × TriPt D} (h : ChordOk T c.1 c.2) (t : ℚ) :
    t ∈ (T.chordSeg c).ts ↔ t = 0 ∨ Crosses c.1.v.p c.2.v.p t ∨ t = 1 :=
  mem_ts _ _ _ _ h.pok.vok.1 h.qok.vok.1 (h.sep hS) t

theorem isV_kind (hT : T.Ok) (hS : T.ChordsSeparated) {ptrLt : ℕ × ℕ → ℕ × ℕ → Bool} {x : Dir} (hx : IsV (T.segs ptrLt) x) :
    VertKind T (ofDir x) := by
  obtain ⟨s, hs, t, ht, rfl⟩ := hx
  rcases (mem_segs s).1 hs with ⟨c, hc, rfl⟩ | ⟨e, rfl⟩
  · have h := chords_ok hT ptrLt c hc
    have hb := chords_bpts hT ptrLt hc
    rcases (ts_chord hS h t).1 ht with rfl | ht | rfl
    · have : ofDir ((T.chordSeg c).pt 0) = c.1.b := by rw [chord_ofDir h]; funext j; ring
      rw [this]; exact bpts_kind hT hb.1
    · rw [chord_ofDir h]; exact .inr (.inr (h.inside t ht))
    · have : ofDir ((T.chordSeg c).pt 1) = c.2.b := by rw [chord_ofDir h]; funext j; ring
      rw [this]; exact bpts_kind hT hb.2
  · rw [ofDir_side]
    rcases (ts_side hT e t).1 ht with rfl | ht | rfl
    · refine .inl ⟨T.src e, ?_⟩
      funext j
      unfold edgeBary
      have := T.src_ne_tgt e
      by_cases h1 : j = T.tgt e
      · rw [if_pos h1, h1, Pi.single_eq_of_ne this.symm]
      · rw [if_neg h1]
        by_cases h2 : j = T.src e
        · rw [if_pos h2, h2, Pi.single_eq_same]; ring
        · rw [if_neg h2, Pi.single_eq_of_ne h2]
    · exact .inr (.inl ⟨e, t, ht, rfl⟩)
    · refine .inl ⟨T.tgt e, ?_⟩
      funext j
      unfold edgeBary
      by_cases h1 : j = T.tgt e
      · rw [if_pos h1, h1, Pi.single_eq_same]
      · rw [if_neg h1, Pi.single_eq_of_ne h1]; split <;> ring

/-- a vertex on side `e` is one of the points of that side. -/
theorem vert_on_side (hT : T.Ok) (e : Fin 3) {x : Dir} (hx : VertKind T (ofDir x)) (h0 : ofDir x e = 0) :
    ofDir x (T.tgt e) ∈ (T.sideSeg e).ts := by
  rw [ts_side hT]
  rcases hx with ⟨j, hj⟩ | ⟨e', t, ht, he'⟩ | hx
  · rw [hj]
    by_cases h : T.tgt e = j
    · right; right; rw [h, Pi.single_eq_same]
    · left; rw [Pi.single_eq_of_ne h]
  · obtain ⟨d, h1, h2, _⟩ := id ht
    obtain ⟨v1, v2, v3⟩ := edgeBary_vals (T := T) e' t
    have : e = e' := by
      by_contra hc
      rw [he'] at h0
      rcases third (T := T) e' e hc with h | h
      · rw [h, v2] at h0; linarith
      · rw [h, v3] at h0; linarith
    subst this
    rw [he', v3]; exact .inr (.inl ht)
  · exact absurd (hx.1 e) (by rw [h0]; exact lt_irrefl _)

/-- an interior point of a chord has positive coordinates. -/
theorem chord_interior {c : TriPt D × TriPt D} (h : ChordOk T c.1 c.2) {t : ℚ} (h0 : 0 < t) (h1 : t < 1) (j : Fin 3) :
    0 < ofDir ((T.chordSeg c).pt t) j := by
  rw [chord_ofDir h]
  have a := h.pok.bary.nonneg j
  have b := h.qok.bary.nonneg j
  dsimp only
  rcases h.disj j with h | h
  · have := mul_pos (show 0 < 1 - t by linarith) h
    have := mul_nonneg h0.le b
    linarith
  · have := mul_pos h0 h
    have := mul_nonneg (show 0 ≤ 1 - t by linarith) a
    linarith

/-- a vertex strictly inside a chord is one of its crossings. -/
theorem vert_on_chord (hS : T.ChordsSeparated) {c : TriPt D × TriPt D} (h : ChordOk T c.1 c.2) {t : ℚ} (h0 : 0 < t)
    (h1 : t < 1) (hx : VertKind T (ofDir ((T.chordSeg c).pt t))) : t ∈ (T.chordSeg c).ts := by
  have hin := chord_interior h h0 h1
  rcases hx with ⟨j, hj⟩ | ⟨e', u, _, he'⟩ | hx
  · have := hin (j + 1)
    rw [hj, Pi.single_eq_of_ne (by fin_cases j <;> decide)] at this
    exact absurd this (lt_irrefl _)
  · have := hin e'
    rw [he', (edgeBary_vals (T := T) e' u).1] at this
    exact absurd this (lt_irrefl _)
  · rw [ts_chord hS h]
    right; left
    obtain ⟨_, _, i, j, n, m, hij, hi, hj, huniq⟩ := hx
    rw [chord_point h] at hi hj
    by_contra hc
    have ci : c.1.v.p i = c.2.v.p i := by
      by_contra hne
      exact hc ⟨i, h0, h1, hne, n, hi⟩
    have cj : c.1.v.p j = c.2.v.p j := by
      by_contra hne
      exact hc ⟨j, h0, h1, hne, m, hj⟩
    have e := huniq c.1.b h.pok.bary (by
      rw [h.pok.pos, ← hi]; unfold segPt; rw [← ci]; ring) (by
      rw [h.pok.pos, ← hj]; unfold segPt; rw [← cj]; ring)
    obtain ⟨k, hk⟩ := h.pB
    have := hin k
    rw [← e, hk] at this
    exact absurd this (lt_irrefl _)

/-- a corner is a vertex. -/
theorem corner_isV (hT : T.Ok) (ptrLt : ℕ × ℕ → ℕ × ℕ → Bool) {x : Dir} (j k : Fin 3) (hjk : j ≠ k) (hj : ofDir x j = 0)
    (hk : ofDir x k = 0) : IsV (T.segs ptrLt) x := by
  refine ⟨T.sideSeg j, (mem_segs _).2 (.inr ⟨j, rfl⟩), ofDir x (T.tgt j), ?_, on_side j x hj⟩
  rw [ts_side hT]
  rcases third (T := T) j k hjk.symm with h | h
  · right; right
    have e := on_side (T := T) j x hj
    have := congrArg (fun y => ofDir y (T.src j)) e
    rw [ofDir_side, (edgeBary_vals (T := T) j _).2.1, ← h, hk] at this
    linarith
  · left; rw [← h, hk]

/-- a point of a side in a plane that does not contain the side is a vertex. -/
theorem side_isV (hT : T.Ok) (ptrLt : ℕ × ℕ → ℕ × ℕ → Bool) {x : Dir} (hx : ∀ j, 0 ≤ ofDir x j) (e : Fin 3) (he : ofDir x e = 0)
    (i : Fin D) (n : ℤ) (hn : baryPoint T.P (ofDir x) i = n) (hne : T.P (T.src e) i ≠ T.P (T.tgt e) i) :
    IsV (T.segs ptrLt) x := by
  have e0 := on_side (T := T) e x he
  refine ⟨T.sideSeg e, (mem_segs _).2 (.inr ⟨e, rfl⟩), ofDir x (T.tgt e), ?_, e0⟩
  rw [ts_side hT]
  have h1 := hx (T.tgt e)
  have h2 : 0 ≤ 1 - ofDir x (T.tgt e) := by
    have := congrArg (fun y => ofDir y (T.src e)) e0
    rw [ofDir_side, (edgeBary_vals (T := T) e _).2.1] at this
    rw [← this]; exact hx _
  rcases eq_or_lt_of_le h1 with h | h
  · exact .inl h.symm
  · rcases eq_or_lt_of_le h2 with h' | h'
    · right; right; linarith
    · right; left
      refine ⟨i, h, by linarith, hne, n, ?_⟩
      rw [← side_point, ← e0, hn]

theorem transversal_isV (hT : T.Ok) (hS : T.ChordsSeparated) (ptrLt : ℕ × ℕ → ℕ × ℕ → Bool) {x : Dir}
    (hx : T.Transversal (ofDir x)) : IsV (T.segs ptrLt) x := by
  obtain ⟨y, hy, hyx⟩ := items_complete hT hS ptrLt _ hx
  unfold chordItems at hy
  obtain ⟨c, hc, hy⟩ := List.mem_flatMap.1 hy
  obtain ⟨e, he, rfl⟩ := List.mem_map.1 hy
  have h := chords_ok hT ptrLt c hc
  obtain ⟨_, h2, h3, _⟩ := isect_ok _ _ _ _ h.pok.vok.1 h.qok.vok.1 (h.sep hS) e he
  refine ⟨T.chordSeg c, (mem_segs _).2 (.inl ⟨c, hc, rfl⟩), e.t, ?_, ?_⟩
  · unfold chordSeg
    exact List.mem_append_left _ (List.mem_cons_of_mem _ (List.mem_map.2 ⟨e, he, rfl⟩))
  · apply ofDir_inj
    rw [chord_ofDir h, ← hyx]
    dsimp only
    rw [chordBary_eq c.1.b c.2.b h.pok.bary h.qok.bary e.t h2.le h3.le]

theorem cut_par (e : Fin 3) (i : Fin D) (n : ℤ) (h : T.P (T.src e) i = T.P (T.tgt e) i) :
    (T.cut i n).a * (side e).b - (T.cut i n).b * (side e).a = 0 := by
  have h' : T.P (e + 1) i = T.P (e + 2) i := by
    rcases T.src_tgt e with ⟨h1, h2⟩ | ⟨h1, h2⟩ <;> rw [h1, h2] at h
    · exact h
    · exact h.symm
  fin_cases e <;> simp [cut, side, hgt] at h' ⊢ <;> linarith

theorem segs_meet (hT : T.Ok) (hS : T.ChordsSeparated) (ptrLt : ℕ × ℕ → ℕ × ℕ → Bool) (l : Aff) (hl : l ∈ T.lines ++ sides)
    (m : Aff) (hm : m ∈ T.lines ++ sides) (hdet : l.a * m.b - l.b * m.a ≠ 0) (x : Dir) (hlx : l.at x = 0) (hmx : m.at x = 0)
    (hin : ∀ f ∈ sides, 0 ≤ f.at x) : IsV (T.segs ptrLt) x := by
  have hin' : ∀ j, 0 ≤ ofDir x j := fun j => by rw [← side_at]; exact hin _ ((mem_sides _).2 ⟨j, rfl⟩)
  by_cases hb : ∃ e, ofDir x e = 0
  · obtain ⟨e, he⟩ := hb
    have hpar : ∃ r ∈ T.lines ++ sides, r.at x = 0 ∧ r.a * (side e).b - r.b * (side e).a ≠ 0 := by
      by_contra hc
      push Not at hc
      have h1 := hc l hl hlx
      have h2 := hc m hm hmx
      apply hdet
      fin_cases e <;> simp [side] at h1 h2
      · rw [h1, h2]; ring
      · rw [h1, h2]; ring
      · have e1 : l.b = l.a := by linarith
        have e2 : m.b = m.a := by linarith
        rw [e1, e2]; ring
    obtain ⟨r, hr, hrx, hrp⟩ := hpar
    rcases List.mem_append.1 hr with hr | hr
    · obtain ⟨i, n, _, _, rfl⟩ := (mem_lines r).1 hr
      rw [cut_at] at hrx
      exact side_isV hT ptrLt hin' e he i n (by linarith) fun h => hrp (cut_par e i n h)
    · obtain ⟨k, rfl⟩ := (mem_sides r).1 hr
      rw [side_at] at hrx
      exact corner_isV hT ptrLt e k (by rintro rfl; apply hrp; ring) he hrx
  · push Not at hb
    have hpos : ∀ j, 0 < ofDir x j := fun j => lt_of_le_of_ne (hin' j) (hb j).symm
    have key : ∀ r ∈ T.lines ++ sides, r.at x = 0 → ∃ i n, r = T.cut i n := by
      intro r hr hrx
      rcases List.mem_append.1 hr with hr | hr
      · obtain ⟨i, n, _, _, rfl⟩ := (mem_lines r).1 hr; exact ⟨i, n, rfl⟩
      · obtain ⟨k, rfl⟩ := (mem_sides r).1 hr
        rw [side_at] at hrx; exact absurd hrx (hb k)
    obtain ⟨i, n, rfl⟩ := key l hl hlx
    obtain ⟨j, k, rfl⟩ := key m hm hmx
    refine transversal_isV hT hS ptrLt ⟨hpos, sum_ofDir x, i, j, n, k, ?_, ?_, ?_, ?_⟩
    · rintro rfl
      apply hdet
      simp only [cut, hgt]; ring
    · rw [cut_at] at hlx; linarith
    · rw [cut_at] at hmx; linarith
    · intro b' hb' h1 h2
      have e := ofDir_toDir hb'.sum
      rw [← e] at h1 h2
      have c1 : (T.cut i n).at (toDir b') = 0 := by rw [cut_at]; linarith
      have c2 : (T.cut j k).at (toDir b') = 0 := by rw [cut_at]; linarith
      rw [← e]
      congr 1
      generalize T.cut i n = l at *
      generalize T.cut j k = m at *
      generalize toDir b' = y at *
      unfold Aff.at at *
      refine Prod.ext ?_ ?_
      · have : (l.a * m.b - l.b * m.a) * (y.1 - x.1) = 0 := by linear_combination m.b * c1 - m.b * hlx - l.b * c2 + l.b * hmx
        linarith [(mul_eq_zero.1 this).resolve_left hdet]
      · have : (l.a * m.b - l.b * m.a) * (y.2 - x.2) = 0 := by linear_combination l.a * c2 - l.a * hmx - m.a * c1 + m.a * hlx
        linarith [(mul_eq_zero.1 this).resolve_left hdet]

theorem sameDir_smul {d : Dir} (hd : d ≠ 0) {e : Dir} {k : ℚ} (hk : 0 < k) (h : d = (k * e.1, k * e.2)) : SameDir d e := by
  have hn := normSq_pos hd
  subst h
  dsimp only at hn
  refine ⟨by unfold cross2; dsimp only; ring, ?_⟩
  unfold dot2
  dsimp only
  have : k * e.1 * e.1 + k * e.2 * e.2 = (k * e.1 * (k * e.1) + k * e.2 * (k * e.2)) / k := by field_simp
  rw [this]; positivity

/-- a displacement along a side. -/
theorem vec_side (e : Fin 3) (d : Dir) (h : ofVec d e = 0) :
    d = (ofVec d (T.tgt e) * (dir (T.sideSeg e).p (T.sideSeg e).q).1, ofVec d (T.tgt e) * (dir (T.sideSeg e).p (T.sideSeg e).q).2) ∧
    ofVec d (T.src e) = - ofVec d (T.tgt e) := by
  unfold sideSeg dir toDir
  dsimp only
  rcases T.src_tgt e with ⟨h1, h2⟩ | ⟨h1, h2⟩ <;> rw [h1, h2] <;> fin_cases e <;> refine ⟨Prod.ext ?_ ?_, ?_⟩ <;>
    simp [ofVec] at h ⊢ <;> linarith

/-- a displacement into the triangle reaches the interior. -/
theorem step_inside {x d : Dir} (hx : ∀ j, 0 ≤ ofDir x j) (h : ∀ j, ofDir x j = 0 → 0 < ofVec d j) :
    ∃ ε : ℚ, 0 < ε ∧ ∀ j, 0 < ofDir (x.1 + ε * d.1, x.2 + ε * d.2) j := by
  have hat : ∀ (ε : ℚ) (j : Fin 3), ofDir (x.1 + ε * d.1, x.2 + ε * d.2) j = ofDir x j + ε * ofVec d j := by
    intro ε j; fin_cases j <;> simp [ofDir, ofVec]; ring
  have key : ∀ j, ∃ ε0 : ℚ, 0 < ε0 ∧ ∀ ε, 0 < ε → ε ≤ ε0 → 0 < ofDir x j + ε * ofVec d j := by
    intro j
    rcases eq_or_lt_of_le (hx j) with h0 | h0
    · refine ⟨1, one_pos, fun ε he _ => ?_⟩
      rw [← h0, zero_add]; exact mul_pos he (h j h0.symm)
    · by_cases hv : 0 ≤ ofVec d j
      · refine ⟨1, one_pos, fun ε he _ => ?_⟩
        have := mul_nonneg he.le hv; linarith
      · push Not at hv
        refine ⟨ofDir x j / (2 * -ofVec d j), div_pos h0 (by linarith), fun ε he hle => ?_⟩
        rw [le_div_iff₀ (by linarith)] at hle
        linarith
  obtain ⟨a, ha, ha'⟩ := key 0
  obtain ⟨b, hb, hb'⟩ := key 1
  obtain ⟨c, hc, hc'⟩ := key 2
  refine ⟨min a (min b c), lt_min ha (lt_min hb hc), fun j => ?_⟩
  rw [hat]
  have hp : 0 < min a (min b c) := lt_min ha (lt_min hb hc)
  fin_cases j
  · exact ha' _ hp (min_le_left _ _)
  · exact hb' _ hp ((min_le_right _ _).trans (min_le_left _ _))
  · exact hc' _ hp ((min_le_right _ _).trans (min_le_right _ _))

end TriInput
end Mandoline
