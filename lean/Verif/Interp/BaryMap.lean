import Verif.Interp.FaceBary
import Verif.Cross.Fuse
import Verif.Exterior.Boundary
import Mathlib.Algebra.BigOperators.Fin
import Mathlib.Tactic.Ring
import Mathlib.Tactic.Linarith
import Mathlib.Tactic.FinCases
import Mathlib.Data.Fin.VecNotation

/-!
# C103: the input vertices seen from the cut vertices

`CutData::cut_vertices`, `cut_vertex_size` and `barycentric_map` (construction/cutdata_impl.hpp:319-345, 690-722).
-/
namespace Mandoline.BaryMap
variable {D : ℕ}

/-- `cut_vertices()` (cutdata_impl.hpp:319-333): the number of columns, and what is stored in each (later crossings overwrite; a
column never written is uninitialised, `none`). -/
def cutVertices (gridSize : ℤ) (cs : List (CrossingI D)) : ℤ × (ℤ → Option (Pt D)) :=
  let size := cutVertexSize gridSize cs
  if size = gridSize then (0, fun _ => none)
  else (size - gridSize, fun k =>
    cs.foldl (fun cur c => if c.index ≥ gridSize ∧ c.index - gridSize = k then some c.v.p else cur) none)

/-- the triplets of one crossing (cutdata_impl.hpp:697-716). -/
def crossingTriplets (E : ℕ → ℕ × ℕ) (F : ℕ → Fin 3 → ℕ) (row : ℤ) : CrossingRef D → List Triplet
  | .vertex id _ => [(row, (id : ℤ), 1)]
  | .edgeIsect e t _ => [(row, ((E e).1 : ℤ), 1 - t), (row, ((E e).2 : ℤ), t)]
  | .triIsect f b _ => (List.finRange 3).map fun i => (row, (F f i : ℤ), b i)

/-- `barycentric_map()` (cutdata_impl.hpp:690-722), before `setFromTriplets` adds up triplets at the same place. -/
def barycentricMap (E : ℕ → ℕ × ℕ) (F : ℕ → Fin 3 → ℕ) (cs : List (CrossingRef D × ℤ)) : List Triplet :=
  cs.flatMap fun c => crossingTriplets E F c.2 c.1

/-! ## specification -/

/-- the value of a field given at the input vertices, interpolated at a crossing: at a vertex its value, on an edge linearly, in a
triangle barycentrically. -/
def interpAt (E : ℕ → ℕ × ℕ) (F : ℕ → Fin 3 → ℕ) (x : ℕ → ℚ) : CrossingRef D → ℚ
  | .vertex id _ => x id
  | .edgeIsect e t _ => (1 - t) * x (E e).1 + t * x (E e).2
  | .triIsect f b _ => b 0 * x (F f 0) + b 1 * x (F f 1) + b 2 * x (F f 2)

/-- a crossing sits where its description says, and triangle weights add up to 1. -/
def Described (V : ℕ → Pt D) (E : ℕ → ℕ × ℕ) (F : ℕ → Fin 3 → ℕ) (c : CrossingRef D) : Prop :=
  (∀ d, c.v.p d = interpAt E F (fun i => V i d) c) ∧
  match c with
  | .triIsect _ b _ => b 0 + b 1 + b 2 = 1
  | _ => True

/-! ## barycentric_map -/

theorem crossingTriplets_row (E : ℕ → ℕ × ℕ) (F : ℕ → Fin 3 → ℕ) (row : ℤ) (c : CrossingRef D) :
    ∀ t ∈ crossingTriplets E F row c, t.1 = row := by
  cases c <;> simp [crossingTriplets]

theorem rowOf_flatMap (E : ℕ → ℕ × ℕ) (F : ℕ → Fin 3 → ℕ) (cs : List (CrossingRef D × ℤ)) (r : ℤ) :
    rowOf (barycentricMap E F cs) r = barycentricMap E F (cs.filter fun c => decide (c.2 = r)) := by
  unfold barycentricMap rowOf
  induction cs with
  | nil => rfl
  | cons c cs ih =>
    rw [List.flatMap_cons, List.filter_append, ih, List.filter_cons]
    by_cases h : c.2 = r
    · rw [if_pos (by simpa using h), List.flatMap_cons]
      congr 1
      rw [List.filter_eq_self]
      intro t ht
      have := crossingTriplets_row E F _ _ t ht
      simp [this, h]
    · rw [if_neg (by simpa using h)]
      have : (crossingTriplets E F c.2 c.1).filter (fun x => decide (x.1 = r)) = [] := by
        rw [List.filter_eq_nil_iff]
        intro t ht
        have := crossingTriplets_row E F _ _ t ht
        simp [this, h]
      rw [this, List.nil_append]

theorem crossingTriplets_apply (E : ℕ → ℕ × ℕ) (F : ℕ → Fin 3 → ℕ) (row : ℤ) (x : ℕ → ℚ) (c : CrossingRef D) :
    ((crossingTriplets E F row c).map fun t => t.2.2 * x t.2.1.toNat).sum = interpAt E F x c := by
  cases c with
  | vertex id v => simp [crossingTriplets, interpAt]
  | edgeIsect e t v => simp [crossingTriplets, interpAt]
  | triIsect f b v =>
    simp [crossingTriplets, interpAt, List.finRange_succ, List.finRange_zero]
    ring

/-- **C103.** Applied to a field on the input vertices, row `r` of the map yields the *sum*, over all crossings with index `r`, of the
field interpolated at the crossing. -/
theorem C103_barycentric_rows (E : ℕ → ℕ × ℕ) (F : ℕ → Fin 3 → ℕ) (cs : List (CrossingRef D × ℤ)) (x : ℕ → ℚ) (r : ℤ) :
    matVec (barycentricMap E F cs) (fun c => x c.toNat) r =
      ((cs.filter fun c => decide (c.2 = r)).map fun c => interpAt E F x c.1).sum := by
  unfold matVec
  rw [rowOf_flatMap]
  generalize cs.filter (fun c => decide (c.2 = r)) = l
  unfold barycentricMap
  induction l with
  | nil => rfl
  | cons c l ih =>
    rw [List.flatMap_cons, List.map_append, List.sum_append, ih, List.map_cons, List.sum_cons, crossingTriplets_apply]

theorem interp_const (E : ℕ → ℕ × ℕ) (F : ℕ → Fin 3 → ℕ) (V : ℕ → Pt D) (c : CrossingRef D) (h : Described V E F c) (k : ℚ) :
    interpAt E F (fun _ => k) c = k := by
  cases c with
  | vertex _ _ => rfl
  | edgeIsect _ _ _ => simp only [interpAt]; ring
  | triIsect f b _ =>
    have := h.2
    simp only at this
    simp only [interpAt]
    rw [← add_mul, ← add_mul, this, one_mul]

theorem sum_map_const {α : Type} (l : List α) (f : α → ℚ) (k : ℚ) (h : ∀ a ∈ l, f a = k) :
    (l.map f).sum = l.length * k := by
  induction l with
  | nil => simp
  | cons a l ih =>
    rw [List.map_cons, List.sum_cons, h a (by simp), ih fun b hb => h b (List.mem_cons_of_mem _ hb)]
    push_cast [List.length_cons]; ring

/-- **C103, positions and constants.** If every crossing sits where its description says and crossings of one index share a
position `q`, then row `r` maps the input positions to `n • q` and the constant 1 to `n`, where `n` is the number of crossings
with index `r`. -/
theorem C103_position (V : ℕ → Pt D) (E : ℕ → ℕ × ℕ) (F : ℕ → Fin 3 → ℕ) (cs : List (CrossingRef D × ℤ)) (r : ℤ) (q : Pt D)
    (hd : ∀ c ∈ cs, Described V E F c.1) (hq : ∀ c ∈ cs, c.2 = r → c.1.v.p = q) :
    (∀ d, matVec (barycentricMap E F cs) (fun c => V c.toNat d) r = (cs.countP fun c => decide (c.2 = r)) * q d) ∧
    matVec (barycentricMap E F cs) (fun _ => 1) r = cs.countP fun c => decide (c.2 = r) := by
  constructor
  · intro d
    rw [C103_barycentric_rows E F cs (fun i => V i d) r, sum_map_const _ _ (q d), List.countP_eq_length_filter]
    rintro c hc
    obtain ⟨h1, h2⟩ := List.mem_filter.1 hc
    rw [← (hd c h1).1 d, hq c h1 (by simpa using h2)]
  · rw [C103_barycentric_rows E F cs (fun _ => 1) r, sum_map_const _ _ 1, List.countP_eq_length_filter, mul_one]
    rintro c hc
    exact interp_const E F V c.1 (hd c (List.mem_filter.1 hc).1) 1

/-- **C103, one crossing.** In particular a cut vertex with exactly one crossing is reproduced by its row, and the weights of the row
add up to one; a vertex without a crossing (an uncut grid vertex) has the zero row. -/
theorem C103_single (V : ℕ → Pt D) (E : ℕ → ℕ × ℕ) (F : ℕ → Fin 3 → ℕ) (cs : List (CrossingRef D × ℤ)) (r : ℤ)
    (hd : ∀ c ∈ cs, Described V E F c.1) :
    (∀ c ∈ cs, c.2 = r → (cs.countP fun c => decide (c.2 = r)) = 1 →
      (∀ d, matVec (barycentricMap E F cs) (fun c => V c.toNat d) r = c.1.v.p d) ∧
      matVec (barycentricMap E F cs) (fun _ => 1) r = 1) ∧
    ((∀ c ∈ cs, c.2 ≠ r) → ∀ x : ℤ → ℚ, matVec (barycentricMap E F cs) x r = 0) := by
  constructor
  · intro c hc hr hn
    have huniq : ∀ c' ∈ cs, c'.2 = r → c'.1.v.p = c.1.v.p := by
      intro c' hc' hr'
      rw [List.countP_eq_length_filter] at hn
      obtain ⟨y, hy⟩ := List.length_eq_one_iff.1 hn
      have h1 : c ∈ cs.filter fun c => decide (c.2 = r) := List.mem_filter.2 ⟨hc, by simpa using hr⟩
      have h2 : c' ∈ cs.filter fun c => decide (c.2 = r) := List.mem_filter.2 ⟨hc', by simpa using hr'⟩
      rw [hy, List.mem_singleton] at h1 h2
      rw [h1, h2]
    obtain ⟨h1, h2⟩ := C103_position V E F cs r c.1.v.p hd huniq
    rw [hn] at h1 h2
    exact ⟨fun d => by rw [h1 d]; simp, by rw [h2]; simp⟩
  · intro h x
    have : cs.filter (fun c => decide (c.2 = r)) = [] := by
      rw [List.filter_eq_nil_iff]; intro c hc; simpa using h c hc
    unfold matVec
    rw [rowOf_flatMap, this]; rfl

/-- **C103, refuted in general.** Two input edges that meet where both cross the same grid line, `(0,1)–(2,1)` and `(1,0)–(1,2)`
crossing at the grid vertex `(1,1)`: the crossings share an index, their triplets are added, the weights of the row add up to 2 and the row sends the
input positions to twice the position of the cut vertex. -/
theorem C103_shared_crossing_refuted :
    ∃ (V : ℕ → Pt 2) (E : ℕ → ℕ × ℕ) (F : ℕ → Fin 3 → ℕ) (cs : List (CrossingRef 2 × ℤ)) (r : ℤ),
      (∀ c ∈ cs, Described V E F c.1) ∧
      cs.map (fun c => (c.1.v, c.2)) = (computeCrossings (linIndex 2 ![3, 3]) 9 (cs.map fun c => c.1.v)).out.map (fun x => (x.v, x.index)) ∧
      (∃ c ∈ cs, c.2 = r ∧ ∀ d, matVec (barycentricMap E F cs) (fun c => V c.toNat d) r = 2 * c.1.v.p d) ∧
      matVec (barycentricMap E F cs) (fun _ => 1) r = 2 := by
  refine ⟨fun k => if k = 0 then ![0, 1] else if k = 1 then ![2, 1] else if k = 2 then ![1, 0] else ![1, 2],
    fun k => if k = 0 then (0, 1) else (2, 3), fun _ _ => 0,
    [(.vertex 0 (Vertex.ofCoord ![0, 1]), 3), (.vertex 1 (Vertex.ofCoord ![2, 1]), 5),
     (.vertex 2 (Vertex.ofCoord ![1, 0]), 1), (.vertex 3 (Vertex.ofCoord ![1, 2]), 7),
     (.edgeIsect 0 (1/2) (Vertex.ofCoord ![1, 1]), 4), (.edgeIsect 1 (1/2) (Vertex.ofCoord ![1, 1]), 4)], 4, ?_, ?_, ?_, ?_⟩
  · intro c hc
    simp only [List.mem_cons, List.not_mem_nil, or_false] at hc
    rcases hc with rfl | rfl | rfl | rfl | rfl | rfl <;>
    · refine ⟨fun d => ?_, trivial⟩
      fin_cases d <;> simp [interpAt, CrossingRef.v, Vertex.p, Vertex.ofCoord]
  · rfl
  · refine ⟨(.edgeIsect 0 (1/2) (Vertex.ofCoord ![1, 1]), 4), by simp, rfl, ?_⟩
    decide +kernel
  · decide +kernel

/-! ## cut_vertices -/

theorem cutVertexSize_eq (g : ℤ) (hg : 0 ≤ g) (cs : List (CrossingI D)) : cutVertexSize g cs - g = bakeVerticesSize g cs := by
  unfold cutVertexSize bakeVerticesSize
  have h : ∀ (s t : ℤ), s = max (t + 1) g →
      cs.foldl (fun s c => max s (c.index + 1)) s = max (cs.foldl (fun s c => max c.index s) t + 1) g := by
    induction cs with
    | nil => intro s t h; exact h
    | cons c cs ih =>
      intro s t h
      simp only [List.foldl_cons]
      exact ih _ _ (by omega)
  rw [h g (-1) (by omega)]; omega

theorem cutVertices_fold (g : ℤ) (k : ℤ) (cs : List (CrossingI D)) (o : Option (Vertex D)) :
    cs.foldl (fun cur c => if c.index ≥ g ∧ c.index - g = k then some c.v.p else cur) (o.map Vertex.p) =
      (cs.foldl (fun cur c => if 0 ≤ c.index - g ∧ c.index - g = k then some c.v else cur) o).map Vertex.p := by
  induction cs generalizing o with
  | nil => rfl
  | cons c cs ih =>
    simp only [List.foldl_cons]
    by_cases h : c.index ≥ g ∧ c.index - g = k
    · rw [if_pos h, if_pos ⟨by omega, h.2⟩]; exact ih (some c.v)
    · rw [if_neg h, if_neg (by omega)]; exact ih o

/-- **C103, the matrix of new vertices.** `cut_vertices` has one column per index past the grid vertices; there is no hole, every column is
the position of every crossing with that index, different columns are different positions, and none of them is a grid vertex. Crossings
beyond the grid vertices are exactly those at no grid vertex. -/
theorem C103_cut_vertices {shape : Coord D} (G : GridIndexer shape) (hsz : 0 ≤ G.size) (vs : List (Vertex D))
    (hN : ∀ v ∈ vs, Normalised v) (hF : ∀ v ∈ vs, FlagsExact v)
    (hV : ∀ v ∈ vs, IsGridPoint v.p → ValidIndex shape v.coord = true) :
    let out := (computeCrossings G.idx G.size vs).out
    let CV := cutVertices G.size out
    0 ≤ CV.1 ∧
    (∀ x ∈ out, ¬ IsGridPoint x.v.p → ∃ k, 0 ≤ k ∧ k < CV.1 ∧ x.index = G.size + k ∧ CV.2 k = some x.v.p) ∧
    (∀ k, 0 ≤ k → k < CV.1 → ∃ p, CV.2 k = some p ∧ ¬ IsGridPoint p ∧ ∃ x ∈ out, x.index = G.size + k ∧ x.v.p = p) ∧
    (∀ k l p, CV.2 k = some p → CV.2 l = some p → 0 ≤ k → k < CV.1 → 0 ≤ l → l < CV.1 → k = l) := by
  intro out CV
  obtain ⟨hov, hgrid, hidx, n, hn⟩ := C17_fuse_indices G vs hN hF hV
  obtain ⟨hA, hB⟩ := C17_new_vertices G hsz vs hN hF hV
  have hin : ∀ x ∈ out, x.v ∈ vs := by
    intro x hx; rw [← hov]; exact List.mem_map.2 ⟨x, hx, rfl⟩
  have hsize : CV.1 = bakeVerticesSize G.size out := by
    have := cutVertexSize_eq G.size hsz out
    show (cutVertices G.size out).1 = _
    unfold cutVertices
    dsimp only
    split_ifs with h
    · dsimp only; omega
    · exact this
  have hnn : 0 ≤ CV.1 := by rw [hsize]; unfold bakeVerticesSize; omega
  have hcol : ∀ k, 0 ≤ k → k < CV.1 → CV.2 k = (bakeVertices G.size out k).map Vertex.p := by
    intro k hk hk'
    have h0 := cutVertexSize_eq G.size hsz out
    have hne : cutVertexSize G.size out ≠ G.size := by rw [hsize] at hk'; omega
    show (cutVertices G.size out).2 k = _
    unfold cutVertices
    dsimp only
    rw [if_neg hne]
    exact cutVertices_fold G.size k out none
  have hmain : ∀ k, 0 ≤ k → k < CV.1 → ∃ x ∈ out, x.index = G.size + k ∧ CV.2 k = some x.v.p := by
    intro k hk hk'
    obtain ⟨w, hw, ⟨x, hx, hxi⟩, hall⟩ := hB k hk (by rw [← hsize]; exact hk')
    refine ⟨x, hx, hxi, ?_⟩
    rw [hcol k hk hk', show bakeVertices G.size out k = some w from hw, hall x hx hxi]; rfl
  have hnotgrid : ∀ x ∈ out, ∀ k, 0 ≤ k → x.index = G.size + k → ¬ IsGridPoint x.v.p := by
    intro x hx k hk hxi hg
    have h1 := hgrid x hx hg
    have h2 := G.bound _ (hV _ (hin x hx) hg)
    omega
  refine ⟨hnn, ?_, ?_, ?_⟩
  · intro x hx hg
    rcases hA x hx with h | ⟨h1, h2⟩
    · exact absurd h hg
    · refine ⟨x.index - G.size, h1, by rw [hsize]; exact h2, by omega, ?_⟩
      obtain ⟨y, hy, hyi, hyp⟩ := hmain (x.index - G.size) h1 (by rw [hsize]; exact h2)
      rw [hyp, (hidx y hy x hx).1 (by omega)]
  · intro k hk hk'
    obtain ⟨x, hx, hxi, hp⟩ := hmain k hk hk'
    exact ⟨x.v.p, hp, hnotgrid x hx k hk hxi, x, hx, hxi, rfl⟩
  · intro k l p hk hl h1 h2 h3 h4
    obtain ⟨x, hx, hxi, hxp⟩ := hmain k h1 h2
    obtain ⟨y, hy, hyi, hyp⟩ := hmain l h3 h4
    rw [hk] at hxp; rw [hl] at hyp
    have : x.v.p = y.v.p := (Option.some.inj hxp).symm.trans (Option.some.inj hyp)
    have := (hidx x hx y hy).2 this
    omega

/-- an input edge from `(1/2,1/2)` to `(3/2,1/2)`: its two ends and its crossing of the grid line. -/
example : let cs : List (CrossingRef 2 × ℤ) := [(.vertex 0 (Vertex.fromVertex ![1/2, 1/2]), 9), (.vertex 1 (Vertex.fromVertex ![3/2, 1/2]), 10),
      (.edgeIsect 0 (1/2) (Vertex.fromVertex ![1, 1/2]), 11)]
    (cs.map fun c => c.2) = (computeCrossings (linIndex 2 ![3, 3]) 9 (cs.map fun c => c.1.v)).out.map (fun x => x.index) ∧
    (cs.countP fun c => decide (c.2 = 11)) = 1 ∧
    (∀ d, (matVec (barycentricMap (fun _ => (0, 1)) (fun _ _ => 0) cs)
      (fun c => (if c = 0 then ![1/2, 1/2] else ![3/2, 1/2] : Pt 2) d) 11) = (![1, 1/2] : Pt 2) d) ∧
    (cutVertices 9 (computeCrossings (linIndex 2 ![3, 3]) 9 (cs.map fun c => c.1.v)).out).1 = 3 := by decide +kernel

end Mandoline.BaryMap
