import Verif.Edge.Props
import Mathlib.Algebra.BigOperators.Fin
import Mathlib.Tactic.Linarith
import Mathlib.Tactic.FieldSimp
import Mathlib.Tactic.FinCases
import Mathlib.Tactic.LinearCombination
import Mathlib.Algebra.BigOperators.Field
import Mathlib.Data.Fintype.Basic

/-!
# C34, C72: barycentric coordinates of crossings

Transcription of include/mandoline/construction/facet_intersections.hpp:195-212 (constructor: `bary_indices`), 398-403
(`edge_bary`), facet_intersections_impl.hpp:318-348 (interior crossings of `TriangleIntersections::bake`), 356-371
(averaging), and `get_face_bary`, `get_edge_coord` (cutdata_impl.hpp:272-318).
-/
namespace Mandoline
variable {D : ℕ}

/-- `edge_bary(indices, t)` (facet_intersections.hpp:398-403): zero, then `v(indices[0]) = 1-t`, then `v(indices[1]) = t`. -/
def edgeBary (i k : Fin 3) (t : ℚ) : Fin 3 → ℚ := fun j => if j = k then t else if j = i then 1 - t else 0

/-- the loop of the constructor that fills one entry of `bary_indices` (facet_intersections.hpp:204-212): the position in
the triangle of the endpoint `v` of an edge (the last match wins; `none`: left uninitialised). Vertices are
identified by their index, the code compares their addresses. -/
def baryIndex (f : Fin 3 → ℕ) (v : ℕ) : Option (Fin 3) :=
  (List.finRange 3).foldl (fun o i => if f i = v then some i else o) none

/-- one step of the clamping loop (facet_intersections_impl.hpp:334-345) at position `i`: the new vector and whether the
loop is left by `break`. -/
def clampStep (v : Fin 3 → ℚ) (i : Fin 3) : (Fin 3 → ℚ) × Bool :=
  if v i < 0 then
    let d := v (i + 1) + v (i + 2)
    (fun j => if j = i then 0 else v j / d, false)
  else if v i > 1 then (Pi.single i 1, true)
  else (v, false)

/-- the clamping loop. -/
def clampLoop : List (Fin 3) → (Fin 3 → ℚ) → (Fin 3 → ℚ)
  | [], v => v
  | i :: l, v => if (clampStep v i).2 then (clampStep v i).1 else clampLoop l (clampStep v i).1

/-- the barycentric coordinates given to a crossing at parameter `t` of the chord between two points of the triangle's
boundary with coordinates `a`, `b` (facet_intersections_impl.hpp:330-346). -/
def chordBary (a b : Fin 3 → ℚ) (t : ℚ) : Fin 3 → ℚ :=
  clampLoop [0, 1, 2] fun j => (1 - t) * a j + t * b j

/-- the coordinates of a merged crossing: the mean (facet_intersections_impl.hpp:358-368). -/
def meanBary (l : List (Fin 3 → ℚ)) : Fin 3 → ℚ := fun j => (l.map fun b => b j).sum / l.length

/-! ## specification -/

/-- barycentric coordinates of a point of a triangle. -/
structure IsBary (b : Fin 3 → ℚ) : Prop where
  nonneg : ∀ j, 0 ≤ b j
  sum : ∑ j, b j = 1

/-- the point with coordinates `b` in the triangle with vertices `V`. -/
def baryPoint (V : Fin 3 → Fin D → ℚ) (b : Fin 3 → ℚ) : Fin D → ℚ := fun i => ∑ j, b j * V j i

/-- **C34.** On an edge of the triangle: the coordinates sum to one; they are non-negative exactly for parameters in
`[0,1]`; and they give the point at parameter `t` between the two vertices. -/
theorem C34_edge_bary (i k : Fin 3) (hik : i ≠ k) (t : ℚ) :
    (∑ j, edgeBary i k t j = 1) ∧ ((∀ j, 0 ≤ edgeBary i k t j) ↔ 0 ≤ t ∧ t ≤ 1) ∧
    ∀ V : Fin 3 → Fin D → ℚ, ∀ d, baryPoint V (edgeBary i k t) d = (1 - t) * V i d + t * V k d := by
  refine ⟨?_, ?_, fun V d => ?_⟩
  · fin_cases i <;> fin_cases k <;> simp [Fin.sum_univ_three, edgeBary] at hik ⊢
  · constructor
    · intro h
      have h1 := h i
      have h2 := h k
      simp only [edgeBary, if_neg hik, if_true] at h1 h2
      exact ⟨h2, by linarith⟩
    · rintro ⟨h1, h2⟩ j
      unfold edgeBary
      split
      · exact h1
      · split <;> linarith
  · unfold baryPoint
    fin_cases i <;> fin_cases k <;> simp [Fin.sum_univ_three, edgeBary] at hik ⊢ <;> ring

/-- **C34.** The table of edge positions is right: for a triangle with distinct vertices, the endpoint of an edge that is
vertex `i` of the triangle is recorded as `i`. -/
theorem C34_bary_index (f : Fin 3 → ℕ) (hf : Function.Injective f) (i : Fin 3) : baryIndex f (f i) = some i := by
  have h : ∀ a b : Fin 3, f a = f b ↔ a = b := fun a b => hf.eq_iff
  fin_cases i <;> simp [baryIndex, List.finRange_succ, h]

/-- with a repeated vertex the table is wrong (degenerate input triangle): both ends of the edge `(f 0, f 1)` are
recorded as position `1`, and the coordinates then sum to `t`. -/
theorem C34_degenerate_refuted (f : Fin 3 → ℕ) (h01 : f 0 = f 1) (h02 : f 0 ≠ f 2) :
    baryIndex f (f 0) = some 1 ∧ baryIndex f (f 1) = some 1 ∧ ∀ t, ∑ j, edgeBary 1 1 t j = t := by
  refine ⟨?_, ?_, ?_⟩
  · have h20 : ¬ f 2 = f 0 := Ne.symm h02
    simp [baryIndex, List.finRange_succ, h01.symm, h20]
  · have h20 : ¬ f 2 = f 1 := h01 ▸ Ne.symm h02
    simp [baryIndex, List.finRange_succ, h20]
  · intro t; simp [Fin.sum_univ_three, edgeBary]

/-- **C34.** A crossing of a triangle edge with the grid: with the parameter and position reported by the edge's baking
(`C13`/`C14`), the recorded coordinates are barycentric coordinates and reproduce the crossing's position. -/
theorem C34_edge_crossing (ei : ℤ) (grid : Option (Coord D)) (V : Fin 3 → Vertex D) (f : Fin 3 → ℕ)
    (hf : Function.Injective f) (i k : Fin 3) (hik : i ≠ k) (hi : Normalised (V i)) (hk : Normalised (V k))
    (hs : Separated (bakeTol grid) (V i).p (V k).p) (e : Isect D) (he : e ∈ bakeEdge ei grid (V i) (V k)) :
    ∃ bi bk, baryIndex f (f i) = some bi ∧ baryIndex f (f k) = some bk ∧
      IsBary (edgeBary bi bk e.t) ∧ baryPoint (fun j => (V j).p) (edgeBary bi bk e.t) = e.v.p := by
  refine ⟨i, k, C34_bary_index f hf i, C34_bary_index f hf k, ?_, ?_⟩
  · obtain ⟨d, hd⟩ := (C13_crossings_represented ei grid (V i) (V k) hi hk).1 e he
    have h := C34_edge_bary (D := D) i k hik e.t
    exact ⟨h.2.1.2 ⟨hd.1.le, hd.2.1.le⟩, h.1⟩
  · funext d
    rw [(C34_edge_bary i k hik e.t).2.2 (fun j => (V j).p) d, (C14_position_exact ei grid _ _ hi hk hs e he).2 d]

/-! ## clamping -/

theorem clampLoop_id (l : List (Fin 3)) (v : Fin 3 → ℚ) (h : ∀ j, 0 ≤ v j ∧ v j ≤ 1) : clampLoop l v = v := by
  induction l with
  | nil => rfl
  | cons i l ih =>
    have : clampStep v i = (v, false) := by
      unfold clampStep
      rw [if_neg (by linarith [(h i).1]), if_neg (by linarith [(h i).2])]
    rw [clampLoop, this]
    exact ih

theorem isBary_le_one {b : Fin 3 → ℚ} (h : IsBary b) (j : Fin 3) : b j ≤ 1 := by
  have hs := h.sum
  rw [Fin.sum_univ_three] at hs
  have h0 := h.nonneg 0
  have h1 := h.nonneg 1
  have h2 := h.nonneg 2
  fin_cases j <;> simp <;> linarith

/-- **C34.** Whatever (rounded) coordinates summing to one enter the clamping loop, barycentric coordinates come out. -/
theorem C34_clamp (v : Fin 3 → ℚ) (hsum : ∑ j, v j = 1) : IsBary (clampLoop [0, 1, 2] v) := by
  rw [Fin.sum_univ_three] at hsum
  have key : ∀ x y z : ℚ, x + y + z = 1 → IsBary (clampLoop [0, 1, 2] ![x, y, z]) := by
    intro x y z hs
    have unit : ∀ i : Fin 3, IsBary (Pi.single i 1) := by
      intro i
      refine ⟨fun j => ?_, by simp⟩
      by_cases h : j = i
      · subst h; simp
      · simp [h]
    -- the vectors after steps 0 and 1 are kept explicit
    have mk : ∀ a b c : ℚ, 0 ≤ a → 0 ≤ b → 0 ≤ c → a + b + c = 1 → IsBary ![a, b, c] := by
      intro a b c ha hb hc h
      refine ⟨fun j => ?_, by simp [Fin.sum_univ_three, h]⟩
      fin_cases j <;> simp [ha, hb, hc]
    have step2 : ∀ a b c : ℚ, 0 ≤ a → 0 ≤ b → a + b + c = 1 → IsBary (clampLoop [2] ![a, b, c]) := by
      intro a b c ha hb h
      simp only [clampLoop, clampStep]
      by_cases h1 : c < 0
      · have hd : 0 < a + b := by linarith
        have e : (fun j : Fin 3 => if j = 2 then (0 : ℚ) else ![a, b, c] j / (![a, b, c] (2 + 1) + ![a, b, c] (2 + 2))) =
            ![a / (a + b), b / (a + b), 0] := by
          funext j; fin_cases j <;> simp
        simp only [Matrix.cons_val_two, Matrix.tail_cons, Matrix.head_cons, h1, if_true] at e ⊢
        simp only [Bool.false_eq_true, if_false]
        rw [e]
        exact mk _ _ _ (div_nonneg ha hd.le) (div_nonneg hb hd.le) le_rfl (by field_simp; ring)
      · by_cases h2 : c > 1
        · simp only [Matrix.cons_val, h1, h2, if_true, if_false]
          exact unit 2
        · simp only [Matrix.cons_val, h1, h2, if_false]
          exact mk _ _ _ ha hb (by linarith) h
    have step1 : ∀ a b c : ℚ, 0 ≤ a → a ≤ 1 → a + b + c = 1 → IsBary (clampLoop [1, 2] ![a, b, c]) := by
      intro a b c ha ha1 h
      rw [clampLoop]
      by_cases h1 : b < 0
      · have hd : 0 < a + c := by linarith
        have hd' : 0 < c + a := by linarith
        have e : (clampStep ![a, b, c] 1) = (![a / (c + a), 0, c / (c + a)], false) := by
          simp only [clampStep, Matrix.cons_val, h1, if_true]
          congr 1
          funext j; fin_cases j <;> simp
        rw [e]
        exact step2 _ _ _ (div_nonneg ha hd'.le) le_rfl (by field_simp; ring)
      · by_cases h2 : b > 1
        · have e : (clampStep ![a, b, c] 1) = (Pi.single 1 1, true) := by
            simp only [clampStep, Matrix.cons_val, h1, h2, if_true, if_false]
          rw [e]
          exact unit 1
        · have e : (clampStep ![a, b, c] 1) = (![a, b, c], false) := by
            simp only [clampStep, Matrix.cons_val, h1, h2, if_false]
          rw [e]
          exact step2 _ _ _ ha (by linarith) h
    rw [clampLoop]
    by_cases h1 : x < 0
    · have hd : 0 < y + z := by linarith
      have e : (clampStep ![x, y, z] 0) = (![0, y / (y + z), z / (y + z)], false) := by
        simp only [clampStep, Matrix.cons_val, h1, if_true]
        congr 1
        funext j; fin_cases j <;> simp
      rw [e]
      exact step1 _ _ _ le_rfl (by norm_num) (by field_simp; ring)
    · by_cases h2 : x > 1
      · have e : (clampStep ![x, y, z] 0) = (Pi.single 0 1, true) := by
          simp only [clampStep, Matrix.cons_val, h1, h2, if_true, if_false]
        rw [e]
        exact unit 0
      · have e : (clampStep ![x, y, z] 0) = (![x, y, z], false) := by
          simp only [clampStep, Matrix.cons_val, h1, h2, if_false]
        rw [e]
        exact step1 _ _ _ (by linarith) (by linarith) hs
  have hv : v = ![v 0, v 1, v 2] := by funext j; fin_cases j <;> rfl
  rw [hv]
  exact key _ _ _ hsum

/-- **C34.** A crossing inside the triangle, at parameter `t ∈ [0,1]` of the chord between two boundary points: its
coordinates are barycentric coordinates and give the point at parameter `t` between the two boundary points (the clamping
loop changes nothing). -/
theorem C34_chord_bary (a b : Fin 3 → ℚ) (ha : IsBary a) (hb : IsBary b) (t : ℚ) (h0 : 0 ≤ t) (h1 : t ≤ 1) :
    IsBary (chordBary a b t) ∧ ∀ (V : Fin 3 → Fin D → ℚ) d,
      baryPoint V (chordBary a b t) d = (1 - t) * baryPoint V a d + t * baryPoint V b d := by
  have hB : IsBary fun j => (1 - t) * a j + t * b j := by
    refine ⟨fun j => ?_, ?_⟩
    · have := mul_nonneg (sub_nonneg.2 h1) (ha.nonneg j)
      have := mul_nonneg h0 (hb.nonneg j)
      linarith
    · have h2 := ha.sum
      have h3 := hb.sum
      rw [Fin.sum_univ_three] at *
      linear_combination (1 - t) * h2 + t * h3
  have e : chordBary a b t = fun j => (1 - t) * a j + t * b j :=
    clampLoop_id _ _ fun j => ⟨hB.nonneg j, isBary_le_one hB j⟩
  rw [e]
  refine ⟨hB, fun V d => ?_⟩
  simp only [baryPoint, Fin.sum_univ_three]
  ring

/-- **C34.** When several crossings of the same triangle are merged, the averaged coordinates are barycentric
coordinates, of the mean of the merged points. -/
theorem C34_mean_bary (l : List (Fin 3 → ℚ)) (hne : l ≠ []) (hl : ∀ b ∈ l, IsBary b) :
    IsBary (meanBary l) ∧ ∀ (V : Fin 3 → Fin D → ℚ) d,
      baryPoint V (meanBary l) d = (l.map fun b => baryPoint V b d).sum / l.length := by
  have hlen : (0 : ℚ) < l.length := by
    rw [Nat.cast_pos]; exact List.length_pos_iff.2 hne
  have hsum : ∀ w : Fin 3 → ℚ, ∑ j, (l.map fun b => b j).sum * w j = (l.map fun b => ∑ j, b j * w j).sum := by
    intro w
    clear hne hl hlen
    induction l with
    | nil => simp
    | cons b l ih =>
      simp only [List.map_cons, List.sum_cons, ← ih, add_mul, Finset.sum_add_distrib]
  refine ⟨⟨fun j => ?_, ?_⟩, fun V d => ?_⟩
  · apply div_nonneg _ hlen.le
    apply List.sum_nonneg
    intro x hx
    obtain ⟨b, hb, rfl⟩ := List.mem_map.1 hx
    exact (hl b hb).nonneg j
  · have := hsum fun _ => 1
    simp only [mul_one] at this
    unfold meanBary
    rw [← Finset.sum_div, this]
    have h1 : (l.map fun b => ∑ j, b j) = l.map fun _ => (1 : ℚ) := by
      apply List.map_congr_left
      intro b hb
      exact (hl b hb).sum
    rw [h1]
    simp only [List.map_const', List.sum_replicate, nsmul_eq_mul, mul_one]
    exact div_self hlen.ne'
  · have := hsum fun j => V j d
    unfold baryPoint meanBary
    rw [← this, Finset.sum_div]
    apply Finset.sum_congr rfl
    intro j _
    ring

/-! ## C72: the coordinate of a crossing on a given input edge / triangle -/

/-- `Crossing::vv` (vertex_types.hpp:83-91): an input (or grid) vertex, a crossing of some input edge, or a crossing
inside some input triangle. -/
inductive CrossingRef (D : ℕ)
  | vertex (id : ℕ) (v : Vertex D)
  | edgeIsect (edge : ℕ) (t : ℚ) (v : Vertex D)
  | triIsect (tri : ℕ) (b : Fin 3 → ℚ) (v : Vertex D)

/-- its vertex. -/
def CrossingRef.v : CrossingRef D → Vertex D
  | .vertex _ v => v
  | .edgeIsect _ _ v => v
  | .triIsect _ _ v => v

/-- `get_edge_coord(edge_index, crossing)` (cutdata_impl.hpp:294-318) for the edge with endpoints `V e0`, `V e1`. In the
`EdgeIsect` case the code returns the crossing's own parameter without looking at which edge it belongs to. -/
def getEdgeCoord (V : ℕ → Vertex D) (e0 e1 : ℕ) : CrossingRef D → ℚ
  | .vertex id v => if id = e0 then 0 else if id = e1 then 1 else getCoord (V e0) (V e1) v
  | .edgeIsect _ t _ => t
  | .triIsect _ _ v => getCoord (V e0) (V e1) v

/-- a crossing as it arises on edge `k`: an input vertex (or another vertex that is not an endpoint), a crossing produced
by baking edge `k` itself, or a crossing of some triangle. -/
def CrossingRef.FromEdge (V : ℕ → Vertex D) (E : ℕ → ℕ × ℕ) (k : ℕ) : CrossingRef D → Prop
  | .vertex id v => v = V id ∨ (id ≠ (E k).1 ∧ id ≠ (E k).2)
  | .edgeIsect j s v => j = k ∧ ∀ i, v.p i = (1 - s) * (V (E j).1).p i + s * (V (E j).2).p i
  | .triIsect _ _ _ => True

/-- a crossing as it arises on triangle `k`: an input vertex (or another vertex that is not a corner), a crossing of any
input edge, or a crossing produced by baking triangle `k` itself. -/
def CrossingRef.FromTri (V : ℕ → Vertex D) (F : ℕ → Fin 3 → ℕ) (E : ℕ → ℕ × ℕ) (k : ℕ) : CrossingRef D → Prop
  | .vertex id v => v = V id ∨ ∀ i, F k i ≠ id
  | .edgeIsect e s v => ∀ i, v.p i = (1 - s) * (V (E e).1).p i + s * (V (E e).2).p i
  | .triIsect j b v => j = k ∧ v.p = baryPoint (fun i => (V (F j i)).p) b

/-- **C72.** The parameter recorded for a cut vertex on an input edge is its parameter on that edge, provided that the
crossing, if it is an edge crossing, was produced by this very edge. -/
theorem C72_edge_coord (V : ℕ → Vertex D) (E : ℕ → ℕ × ℕ) (k : ℕ) (hne : (V (E k).1).p ≠ (V (E k).2).p)
    (c : CrossingRef D) (t : ℚ)
    (hpos : ∀ i, c.v.p i = (1 - t) * (V (E k).1).p i + t * (V (E k).2).p i)
    (hc : c.FromEdge V E k) :
    getEdgeCoord V (E k).1 (E k).2 c = t := by
  obtain ⟨d, hd⟩ : ∃ d, (V (E k).1).p d ≠ (V (E k).2).p d := by
    by_contra h; push Not at h; exact hne (funext h)
  have uniq : ∀ s, (1 - s) * (V (E k).1).p d + s * (V (E k).2).p d = (1 - t) * (V (E k).1).p d + t * (V (E k).2).p d → s = t := by
    intro s h
    have : (s - t) * ((V (E k).2).p d - (V (E k).1).p d) = 0 := by linear_combination h
    rcases mul_eq_zero.1 this with h | h
    · linarith
    · exact absurd (by linarith) hd
  cases c with
  | vertex id v =>
    simp only [getEdgeCoord]
    simp only [CrossingRef.v] at hpos
    split
    · rename_i h
      rcases hc with rfl | h'
      · subst h
        exact uniq 0 (by rw [← hpos d]; ring)
      · exact absurd h h'.1
    · split
      · rename_i h
        rcases hc with rfl | h'
        · subst h
          exact uniq 1 (by rw [← hpos d]; ring)
        · exact absurd h h'.2
      · exact C14_getCoord _ _ v t hne hpos
  | edgeIsect j s v =>
    obtain ⟨rfl, h⟩ := hc
    exact uniq s (by rw [← h d]; exact hpos d)
  | triIsect _ _ v => exact C14_getCoord _ _ v t hne hpos

/-- **C72, refuted in general.** Two input edges through the same grid-line crossing `(1, 1)`: edge 0 from `(0,1)` to
`(4,1)` and edge 1 from `(0,0)` to `(2,2)`. The crossing was recorded for edge 0 (parameter `1/4`); asked for its
coordinate on edge 1, where it sits at `1/2`, the code answers `1/4`, so interpolation along edge 1 is wrong there. -/
theorem C72_shared_crossing_refuted :
    ∃ (V : ℕ → Vertex 2) (E : ℕ → ℕ × ℕ) (c : CrossingRef 2),
      c = .edgeIsect 0 (1/4) (Vertex.ofCoord ![1, 1]) ∧
      (∀ i, c.v.p i = (1 - 1/4) * (V (E 0).1).p i + 1/4 * (V (E 0).2).p i) ∧
      (∀ i, c.v.p i = (1 - 1/2) * (V (E 1).1).p i + 1/2 * (V (E 1).2).p i) ∧
      getEdgeCoord V (E 1).1 (E 1).2 c = 1/4 := by
  refine ⟨fun k => Vertex.ofCoord (if k = 0 then ![0, 1] else if k = 1 then ![4, 1] else if k = 2 then ![0, 0] else ![2, 2]),
    fun k => if k = 0 then (0, 1) else (2, 3), _, rfl, ?_, ?_, rfl⟩ <;>
  · intro i
    fin_cases i <;> simp [CrossingRef.v, Vertex.p, Vertex.ofCoord]

/-- `get_face_bary(face_index, crossing)` (cutdata_impl.hpp:272-292) for the triangle with vertices `F`, whose edges are
the pairs `own` with their table `bary_indices`; `simp` is `FI.get_bary` (mtao `barycentric_simplicial`) applied to a
position. `EdgePt e t` is the position of parameter `t` on edge `e` (`ei.from_coord(t)`). In the `TriIsect` case the
crossing's own coordinates are returned without looking at which triangle they refer to. -/
def getFaceBary (F : Fin 3 → ℕ) (own : ℕ → Option (Fin 3 × Fin 3)) (simp : (Fin D → ℚ) → Fin 3 → ℚ)
    (edgePt : ℕ → ℚ → Fin D → ℚ) : CrossingRef D → (Fin 3 → ℚ)
  | .vertex id v =>
    match (List.finRange 3).find? fun i => decide (F i = id) with
    | some i => Pi.single i 1
    | none => simp v.p
  | .edgeIsect e t _ =>
    match own e with
    | some (i, k) => edgeBary i k t
    | none => simp (edgePt e t)
  | .triIsect _ b _ => b

/-- **C72.** The barycentric coordinates recorded for a cut vertex on an input triangle reproduce its position, provided
that the crossing, if it is a triangle crossing, was produced by this very triangle. `simp` is assumed to return
coordinates reproducing every point of the triangle. -/
theorem C72_face_bary (V : ℕ → Vertex D) (F : ℕ → Fin 3 → ℕ) (E : ℕ → ℕ × ℕ) (k : ℕ)
    (own : ℕ → Option (Fin 3 × Fin 3)) (simp : (Fin D → ℚ) → Fin 3 → ℚ) (c : CrossingRef D)
    (hown : ∀ e i j, own e = some (i, j) → i ≠ j ∧ F k i = (E e).1 ∧ F k j = (E e).2)
    (hon : ∃ b, (∑ j, b j = 1) ∧ c.v.p = baryPoint (fun j => (V (F k j)).p) b)
    (hsimp : ∀ b, (∑ j, b j = 1) → baryPoint (fun j => (V (F k j)).p) (simp (baryPoint (fun j => (V (F k j)).p) b)) =
      baryPoint (fun j => (V (F k j)).p) b)
    (hc : c.FromTri V F E k) :
    baryPoint (fun j => (V (F k j)).p)
      (getFaceBary (F k) own simp (fun e s i => (1 - s) * (V (E e).1).p i + s * (V (E e).2).p i) c) = c.v.p := by
  obtain ⟨b, hb, hp⟩ := hon
  cases c with
  | vertex id v =>
    simp only [getFaceBary, CrossingRef.v] at hp ⊢
    split
    · rename_i i hi
      have h1 := List.find?_some hi
      simp only [decide_eq_true_eq] at h1
      rcases hc with rfl | hc
      · rw [← h1]
        funext d
        simp [baryPoint, Pi.single_apply]
      · exact absurd h1 (hc i)
    · rw [hp]; exact hsimp b hb
  | edgeIsect e s v =>
    simp only [getFaceBary, CrossingRef.v] at hp ⊢
    split
    · rename_i i j hij
      obtain ⟨h1, h2, h3⟩ := hown e i j hij
      funext d
      rw [(C34_edge_bary i j h1 s).2.2, hc d]
      simp only [h2, h3]
    · have : (fun i => (1 - s) * (V (E e).1).p i + s * (V (E e).2).p i) = v.p := funext fun i => (hc i).symm
      rw [this, hp]
      exact hsimp b hb
  | triIsect j b' v =>
    obtain ⟨rfl, h⟩ := hc
    exact h.symm

/-! ## concrete cases -/

example : IsBary (edgeBary 0 2 (1/3)) := by
  have h := C34_edge_bary (D := 3) 0 2 (by decide) (1/3)
  exact ⟨h.2.1.2 (by norm_num), h.1⟩

/-- slightly negative input of the clamping loop. -/
example : clampLoop [0, 1, 2] ![1/2, -1/10, 6/10] = ![5/11, 0, 6/11] := by decide +kernel

example : chordBary (edgeBary 0 1 (1/2)) (edgeBary 1 2 (1/4)) (1/2) = ![1/4, 5/8, 1/8] := by decide +kernel

end Mandoline
