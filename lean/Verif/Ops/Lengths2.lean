import Verif.Geom.Vertex
import Verif.Ops.Laplacian
import Mathlib.Tactic.FieldSimp
import Mathlib.Algebra.BigOperators.Group.List.Basic

/-!
# C90: edge lengths, dual lengths and Hodge stars in 2D

`edge_lengths`, `dual_edge_lengths`, `dual_hodge1`, `primal_hodge1`, `dual_hodge2`, `primal_hodge2`
(src/operators/volume2.cpp:47-133), `edge_barycentric_volume_matrix` (src/operators/interpolation2.cpp:31-55),
`InterpolatedEdge::volume` (src/interpolated_edge.cpp:21-23), `ExteriorGrid::boundary_facet_volumes`
(include/mandoline/exterior_grid_impl.hpp:107-120) and `operators::boundary_facet_volumes`
(include/mandoline/operators/volume_impl.hpp:17-34).
-/
namespace Mandoline
namespace Lengths2

/-- what the lengths read of a cut edge: the axis of its axial id (the axis it is normal to; none for a piece of an input
edge) and its two end points. -/
structure LEdge where
  axial : Option (Fin 2)
  a : Vertex 2
  b : Vertex 2

/-- an entry of `mesh_cut_edges()`: cut edge, input edge, parameters of the two ends on the input edge. -/
structure Piece where
  eid : ℕ
  parent : ℕ
  t0 : ℚ
  t1 : ℚ

/-- what the length operators read of a 2D mesh: spacing, cut edges, map of pieces, lengths of the input edges, axes of
the facets of the exterior grid. -/
structure LMesh where
  dx : Fin 2 → ℚ
  edges : List LEdge
  pieces : List Piece
  len : List ℚ
  axes : List (Fin 2)

/-- `InterpolatedEdge::volume` (interpolated_edge.cpp:21-23). -/
def Piece.volume (p : Piece) : ℚ := |p.t1 - p.t0|

/-- `1 - dim`. -/
def other (d : Fin 2) : Fin 2 := 1 - d

/-- `form_volumes<1>()[a]` of a 2D grid (grid library): length of an edge along axis `a`. -/
def formVolumes1 (dx : Fin 2 → ℚ) (a : Fin 2) : ℚ := dx a

namespace LMesh
variable (M : LMesh)

/-- `ExteriorGrid<2>::boundary_facet_volumes(true)` (exterior_grid_impl.hpp:107-120). -/
def extLengths : List ℚ := M.axes.map (formVolumes1 M.dx)

/-- `operators::boundary_facet_volumes` for D = 2 (volume_impl.hpp:17-34). -/
def extVolumes : List ℚ := M.axes.map fun a => formVolumes1 M.dx (other a)

/-- row `i` of `edge_barycentric_volume_matrix(ccm) * mesh_edge_vols` (interpolation2.cpp:45-49, volume2.cpp:55). -/
def baryRow (i : ℕ) : ℚ := (M.pieces.map fun p => if p.eid = i then p.volume * (M.len[p.parent]?).getD 0 else 0).sum

/-- the entry of a cut edge (volume2.cpp:57-71). -/
def cutLength (e : LEdge) (i : ℕ) : ℚ :=
  match e.axial with
  | some ax =>
    let dim := other ax
    let coff := e.b.coord dim - e.a.coord dim
    M.dx dim * ((e.b.quot dim - e.a.quot dim) + (coff : ℚ))
  | none => M.baryRow i

/-- `edge_lengths` (volume2.cpp:47-77). -/
def edgeLengths : List ℚ :=
  if M.len = [] then M.extLengths
  else (M.edges.zipIdx.map fun ei => M.cutLength ei.1 ei.2) ++ M.extLengths

/-- `dual_edge_lengths` (volume2.cpp:79-95). Without cut edges the exterior grid is converted to a mesh without cells,
whose smallest volume is asked for: undefined. -/
def dualLengths : Option (List ℚ) :=
  if M.edges = [] then none
  else some ((M.edges.map fun e => match e.axial with
    | some ax => M.dx ax
    | none => 0) ++ M.extVolumes)

/-- `primal_hodge1` (volume2.cpp:107-117), entry: `DV/PV` where `PV > 1e-5`, else zero. -/
def primalHodge (PV DV : ℕ → ℚ) (i : ℕ) : ℚ := if PV i > 1 / 100000 then DV i / PV i else 0

/-- `primal_hodge2` (volume2.cpp:127-136), entry. -/
def primalHodge2 (v : ℚ) : ℚ := if |v| < 1 / 100000 then 0 else 1 / v

end LMesh

/-! ## specification -/

/-- signed world length of a cut edge along axis `d`. -/
def along (M : LMesh) (e : LEdge) (d : Fin 2) : ℚ := M.dx d * (e.b.p d - e.a.p d)

/-! ## proofs -/

namespace LMesh
variable (M : LMesh)

theorem cut_getElem (hl : M.len ≠ []) (i : ℕ) (e : LEdge) (hi : M.edges[i]? = some e) :
    M.edgeLengths[i]? = some (M.cutLength e i) := by
  unfold edgeLengths
  rw [if_neg hl, List.getElem?_append_left, List.getElem?_map, List.getElem?_zipIdx, hi]
  · simp
  · simp only [List.length_map, List.length_zipIdx]
    exact (List.getElem?_eq_some_iff.1 hi).1

/-- **C90.** The entry of an axial cut edge (a piece of a grid line) is the signed distance of its end points along the
grid line: the length if the edge points upwards, minus the length if it points downwards. -/
theorem C90_axial (hdx : ∀ d, 0 < M.dx d) (hl : M.len ≠ []) (i : ℕ) (e : LEdge) (hi : M.edges[i]? = some e) (ax : Fin 2)
    (hax : e.axial = some ax) :
    ∃ v, M.edgeLengths[i]? = some v ∧ v = M.dx (1 - ax) * (e.b.p (1 - ax) - e.a.p (1 - ax)) ∧
      (v = |M.dx (1 - ax) * (e.b.p (1 - ax) - e.a.p (1 - ax))| ↔ e.a.p (1 - ax) ≤ e.b.p (1 - ax)) := by
  have hv : M.cutLength e i = M.dx (1 - ax) * (e.b.p (1 - ax) - e.a.p (1 - ax)) := by
    unfold cutLength
    simp only [hax, other, Vertex.p]
    push_cast
    ring
  refine ⟨_, M.cut_getElem hl i e hi, hv, ?_⟩
  rw [hv]
  set d := M.dx (1 - ax) with hd
  have h0 : 0 < d := hdx _
  constructor
  · intro h
    have h1 : 0 ≤ d * (e.b.p (1 - ax) - e.a.p (1 - ax)) := by rw [h]; exact abs_nonneg _
    have := nonneg_of_mul_nonneg_right h1 h0
    linarith
  · intro h
    rw [abs_of_nonneg (mul_nonneg h0.le (by linarith))]

/-- **C90.** So an axial edge pointing downwards has a negative "length". -/
theorem C90_downward_refuted (hdx : ∀ d, 0 < M.dx d) (hl : M.len ≠ []) (i : ℕ) (e : LEdge) (hi : M.edges[i]? = some e) (ax : Fin 2)
    (hax : e.axial = some ax) (hdown : e.b.p (1 - ax) < e.a.p (1 - ax)) : ∃ v, M.edgeLengths[i]? = some v ∧ v < 0 := by
  obtain ⟨v, h1, h2, _⟩ := M.C90_axial hdx hl i e hi ax hax
  refine ⟨v, h1, ?_⟩
  rw [h2]
  exact mul_neg_of_pos_of_neg (hdx _) (by linarith)

theorem sum_single (g : Piece → ℚ) (i : ℕ) (p : Piece) (l : List Piece) (hp : p ∈ l) (hnd : (l.map Piece.eid).Nodup)
    (hi : p.eid = i) : (l.map fun q => if q.eid = i then g q else 0).sum = g p := by
  induction l with
  | nil => simp at hp
  | cons q l ih =>
    rw [List.map_cons, List.nodup_cons] at hnd
    rw [List.map_cons, List.sum_cons]
    rcases List.mem_cons.1 hp with rfl | hp
    · rw [if_pos hi]
      have h0 : (l.map fun q => if q.eid = i then g q else 0).sum = 0 := by
        apply List.sum_eq_zero
        intro x hx
        obtain ⟨s, hs, rfl⟩ := List.mem_map.1 hx
        rw [if_neg]
        intro hsi
        exact hnd.1 (List.mem_map.2 ⟨s, hs, by rw [hsi, hi]⟩)
      rw [h0, add_zero]
    · have hq : q.eid ≠ i := by
        intro hqi
        exact hnd.1 (List.mem_map.2 ⟨p, hp, by rw [hi, hqi]⟩)
      rw [if_neg hq, zero_add]
      exact ih hp hnd.2

theorem baryRow_single (i : ℕ) (p : Piece) (hp : p ∈ M.pieces) (hnd : (M.pieces.map Piece.eid).Nodup) (hi : p.eid = i) :
    M.baryRow i = p.volume * (M.len[p.parent]?).getD 0 :=
  sum_single (fun q => q.volume * (M.len[q.parent]?).getD 0) i p M.pieces hp hnd hi

/-- **C90.** The entry of a piece of an input edge is the length of the input edge times the part of its parameter range
the piece covers. -/
theorem C90_mesh (hl : M.len ≠ []) (i : ℕ) (e : LEdge) (hi : M.edges[i]? = some e) (hax : e.axial = none)
    (hnd : (M.pieces.map Piece.eid).Nodup) (p : Piece) (hp : p ∈ M.pieces) (hpi : p.eid = i) (L : ℚ)
    (hL : M.len[p.parent]? = some L) : M.edgeLengths[i]? = some (|p.t1 - p.t0| * L) := by
  rw [M.cut_getElem hl i e hi]
  unfold cutLength
  rw [hax]
  simp only
  rw [M.baryRow_single i p hp hnd hpi, hL]
  rfl

theorem chain_sum (t : ℚ) (ts : List ℚ) (h : (t :: ts).Pairwise (· ≤ ·)) (ps : List Piece)
    (hps : List.Forall₂ (fun (p : Piece) (q : ℚ × ℚ) => (p.t0 = q.1 ∧ p.t1 = q.2) ∨ (p.t0 = q.2 ∧ p.t1 = q.1)) ps ((t :: ts).zip ts)) :
    (ps.map fun p => |p.t1 - p.t0|).sum = (t :: ts).getLast (by simp) - t := by
  induction ts generalizing t ps with
  | nil =>
    simp only [List.zip_nil_right, List.forall₂_nil_right_iff] at hps
    subst hps; simp
  | cons u ts ih =>
    rw [List.zip_cons_cons] at hps
    cases hps with
    | cons hpq hrest =>
      rw [List.pairwise_cons] at h
      have hlast : (t :: u :: ts).getLast (by simp) = (u :: ts).getLast (by simp) := List.getLast_cons (by simp)
      rw [List.map_cons, List.sum_cons, ih u h.2 _ hrest, hlast]
      have htu : t ≤ u := h.1 u (by simp)
      rcases hpq with ⟨a, b⟩ | ⟨a, b⟩
      · simp only [a, b]; rw [abs_of_nonneg (by linarith)]; ring
      · simp only [a, b]; rw [abs_of_nonpos (by linarith)]; ring

/-- **C90.** If the pieces of an input edge run, in any direction each, between consecutive points of a subdivision of
`[0, 1]`, their lengths add up to the length of the input edge. -/
theorem C90_pieces_add_up (hl : M.len ≠ []) (hnd : (M.pieces.map Piece.eid).Nodup) (L : ℚ) (k : ℕ) (hL : M.len[k]? = some L)
    (ps : List Piece) (hps : ∀ p ∈ ps, p ∈ M.pieces ∧ p.parent = k ∧ ∃ e, M.edges[p.eid]? = some e ∧ e.axial = none)
    (ts : List ℚ) (hts : (0 :: ts).Pairwise (· ≤ ·)) (hend : (0 :: ts).getLast (by simp) = 1)
    (hcover : List.Forall₂ (fun (p : Piece) (q : ℚ × ℚ) => (p.t0 = q.1 ∧ p.t1 = q.2) ∨ (p.t0 = q.2 ∧ p.t1 = q.1)) ps ((0 :: ts).zip ts)) :
    (ps.map fun p => (M.edgeLengths[p.eid]?).getD 0).sum = L := by
  have h1 : ps.map (fun p => (M.edgeLengths[p.eid]?).getD 0) = ps.map fun p => |p.t1 - p.t0| * L := by
    apply List.map_congr_left
    intro p hp
    obtain ⟨a, b, e, he, hax⟩ := hps p hp
    rw [M.C90_mesh hl p.eid e he hax hnd p a rfl L (by rw [b]; exact hL)]
    rfl
  have h2 : ∀ l : List Piece, (l.map fun p => |p.t1 - p.t0| * L).sum = (l.map fun p => |p.t1 - p.t0|).sum * L := by
    intro l
    induction l with
    | nil => simp
    | cons a l ih => rw [List.map_cons, List.sum_cons, ih, List.map_cons, List.sum_cons]; ring
  rw [h1, h2, chain_sum 0 ts hts ps hcover, hend]
  ring

/-- **C90.** A cut edge that is neither axial nor in the map of pieces has length zero. -/
theorem C90_unlisted (hl : M.len ≠ []) (i : ℕ) (e : LEdge) (hi : M.edges[i]? = some e) (hax : e.axial = none)
    (hp : ∀ p ∈ M.pieces, p.eid ≠ i) : M.edgeLengths[i]? = some 0 := by
  rw [M.cut_getElem hl i e hi]
  unfold cutLength
  rw [hax]
  simp only [baryRow, Option.some.injEq]
  apply List.sum_eq_zero
  intro x hx
  obtain ⟨s, hs, rfl⟩ := List.mem_map.1 hx
  rw [if_neg (hp s hs)]

/-- **C90.** For a facet of the exterior grid normal to axis `a`, whose length is the spacing along the other axis and
whose dual length is the spacing along `a`, the two operators return the two numbers exchanged: `edge_lengths` has the
spacing along `a`, `dual_edge_lengths` that along the other axis. Both are right for this facet exactly if the spacings
are equal. -/
theorem C90_exterior_swapped_refuted (hl : M.len ≠ []) (he : M.edges ≠ []) (k : ℕ) (a : Fin 2) (hk : M.axes[k]? = some a) :
    M.edgeLengths[M.edges.length + k]? = some (M.dx a) ∧
    ∃ D, M.dualLengths = some D ∧ D[M.edges.length + k]? = some (M.dx (1 - a)) ∧
      (M.edgeLengths[M.edges.length + k]? = some (M.dx (1 - a)) ↔ M.dx 0 = M.dx 1) ∧
      (D[M.edges.length + k]? = some (M.dx a) ↔ M.dx 0 = M.dx 1) := by
  have hsw : M.dx a = M.dx (1 - a) ↔ M.dx 0 = M.dx 1 := by
    match a with
    | 0 => exact Iff.rfl
    | 1 => exact eq_comm
  have h1 : M.edgeLengths[M.edges.length + k]? = some (M.dx a) := by
    unfold edgeLengths
    rw [if_neg hl, List.getElem?_append_right (by simp)]
    simp only [List.length_map, List.length_zipIdx, Nat.add_sub_cancel_left, extLengths]
    rw [List.getElem?_map, hk]; rfl
  have h2 : ((M.edges.map fun e => match e.axial with
    | some ax => M.dx ax
    | none => 0) ++ M.extVolumes)[M.edges.length + k]? = some (M.dx (1 - a)) := by
    rw [List.getElem?_append_right (by simp)]
    simp only [List.length_map, Nat.add_sub_cancel_left, extVolumes]
    rw [List.getElem?_map, hk]; rfl
  refine ⟨h1, _, by unfold dualLengths; rw [if_neg he], h2, ?_, ?_⟩
  · rw [h1, Option.some.injEq]; exact hsw
  · rw [h2, Option.some.injEq, eq_comm]; exact hsw

/-- **C90.** `dual_edge_lengths` on cut edges: an axial edge has the spacing along the axis it is normal to, a piece of an
input edge has zero. The number of entries is that of the edges and facets; the same holds for `edge_lengths`. -/
theorem C90_dual (he : M.edges ≠ []) :
    ∃ D, M.dualLengths = some D ∧ D.length = M.edges.length + M.axes.length ∧
      (M.len ≠ [] → M.edgeLengths.length = M.edges.length + M.axes.length) ∧
      (∀ (i : ℕ) e ax, M.edges[i]? = some e → e.axial = some ax → D[i]? = some (M.dx ax)) ∧
      (∀ (i : ℕ) e, M.edges[i]? = some e → e.axial = none → D[i]? = some 0) := by
  refine ⟨_, by unfold dualLengths; rw [if_neg he], ?_, ?_, ?_, ?_⟩
  · simp [extVolumes]
  · intro hl
    unfold edgeLengths
    rw [if_neg hl]
    simp [extLengths]
  · intro i e ax hi hax
    rw [List.getElem?_append_left (by rw [List.length_map]; exact (List.getElem?_eq_some_iff.1 hi).1), List.getElem?_map, hi]
    simp [hax]
  · intro i e hi hax
    rw [List.getElem?_append_left (by rw [List.length_map]; exact (List.getElem?_eq_some_iff.1 hi).1), List.getElem?_map, hi]
    simp [hax]

/-- **C90.** A mesh without cut edges has no defined dual lengths, so no Hodge star, divergence or Laplacian. -/
theorem C90_no_cut_edges_refuted (he : M.edges = []) : M.dualLengths = none := by
  unfold dualLengths; rw [if_pos he]

/-- **C90.** The two Hodge stars of an edge are inverse to each other when both lengths exceed the threshold; if the
length or the dual length is at most the threshold, one of them is zero. -/
theorem C90_hodge (PV DV : ℕ → ℚ) (i : ℕ) :
    (1 / 100000 < PV i → 1 / 100000 < DV i → primalHodge PV DV i * dualHodge PV DV i = 1) ∧
    (PV i ≤ 1 / 100000 → primalHodge PV DV i = 0) ∧ (DV i ≤ 1 / 100000 → dualHodge PV DV i = 0) := by
  unfold primalHodge dualHodge
  refine ⟨fun h1 h2 => ?_, fun h => if_neg (not_lt.2 h), fun h => if_neg (not_lt.2 h)⟩
  rw [if_pos h1, if_pos h2]
  have a : PV i ≠ 0 := by intro h0; rw [h0] at h1; norm_num at h1
  have b : DV i ≠ 0 := by intro h0; rw [h0] at h2; norm_num at h2
  field_simp

/-- **C90.** The weights the Laplacian uses: an axial edge has its signed length divided by the spacing it is normal to; a
piece of the input curve has weight zero, so that nothing flows through it, and neither does its primal star. -/
theorem C90_weights (hdx : ∀ d, 1 / 100000 < M.dx d) (hl : M.len ≠ []) (D : List ℚ) (hD : M.dualLengths = some D)
    (i : ℕ) (e : LEdge) (hi : M.edges[i]? = some e) :
    (e.axial = none → dualHodge (fun k => (M.edgeLengths[k]?).getD 0) (fun k => (D[k]?).getD 0) i = 0 ∧
      primalHodge (fun k => (M.edgeLengths[k]?).getD 0) (fun k => (D[k]?).getD 0) i = 0) ∧
    (∀ ax, e.axial = some ax → dualHodge (fun k => (M.edgeLengths[k]?).getD 0) (fun k => (D[k]?).getD 0) i =
      M.dx (1 - ax) * (e.b.p (1 - ax) - e.a.p (1 - ax)) / M.dx ax) := by
  have he : M.edges ≠ [] := by rintro h; rw [h] at hi; simp at hi
  obtain ⟨D', h1, -, -, h4, h5⟩ := M.C90_dual he
  rw [hD] at h1
  cases h1
  refine ⟨fun hax => ?_, fun ax hax => ?_⟩
  · have := h5 i e hi hax
    constructor
    · unfold dualHodge
      rw [if_neg]
      simp only [this, Option.getD_some]; norm_num
    · unfold primalHodge
      simp only [this, Option.getD_some, zero_div, ite_self]
  · have hDi := h4 i e ax hi hax
    have hdx0 : ∀ d, 0 < M.dx d := fun d => lt_trans (by norm_num) (hdx d)
    obtain ⟨v, hv, hv2, -⟩ := M.C90_axial hdx0 hl i e hi ax hax
    unfold dualHodge
    simp only [hDi, hv, Option.getD_some]
    rw [if_pos (hdx ax), hv2]

/-- **C90.** `primal_hodge2` is the reciprocal of `dual_hodge2` (the cell area) unless the area is below the threshold. -/
theorem C90_hodge2 (v : ℚ) : (1 / 100000 ≤ |v| → primalHodge2 v * v = 1) ∧ (|v| < 1 / 100000 → primalHodge2 v = 0) := by
  unfold primalHodge2
  constructor
  · intro h
    rw [if_neg (not_lt.2 h)]
    have : v ≠ 0 := by rintro rfl; norm_num at h
    field_simp
  · intro h
    rw [if_pos h]

end LMesh

/-- one input edge of length 5 cut into two pieces, two pieces of a grid line (the second one pointing downwards), one
exterior facet; spacing 2 by 3. -/
def exMesh : LMesh :=
  ⟨![2, 3], [⟨none, ⟨![0, 0], ![1 / 2, 1 / 2], ![false, false]⟩, ⟨![1, 0], ![0, 1 / 2], ![true, false]⟩⟩,
      ⟨none, ⟨![1, 0], ![0, 1 / 2], ![true, false]⟩, ⟨![1, 0], ![1 / 2, 1 / 2], ![false, false]⟩⟩,
      ⟨some 0, ⟨![1, 0], ![0, 0], ![true, true]⟩, ⟨![1, 0], ![0, 1 / 2], ![true, false]⟩⟩,
      ⟨some 0, ⟨![1, 1], ![0, 0], ![true, true]⟩, ⟨![1, 0], ![0, 1 / 2], ![true, false]⟩⟩],
    [⟨0, 0, 0, 1 / 4⟩, ⟨1, 0, 1, 1 / 4⟩], [5], [1]⟩

example : exMesh.edgeLengths = [5 / 4, 15 / 4, 3 / 2, -3 / 2, 3] ∧ exMesh.dualLengths = some [0, 0, 2, 2, 2] := by
  decide +kernel

/-- its two pieces meet the hypothesis of `C90_pieces_add_up`. -/
example : List.Forall₂ (fun (p : Piece) (q : ℚ × ℚ) => (p.t0 = q.1 ∧ p.t1 = q.2) ∨ (p.t0 = q.2 ∧ p.t1 = q.1)) exMesh.pieces
    (([0, 1 / 4, 1] : List ℚ).zip [1 / 4, 1]) :=
  .cons (Or.inl ⟨rfl, rfl⟩) (.cons (Or.inr ⟨rfl, rfl⟩) .nil)

example : exMesh.len ≠ [] ∧ exMesh.edges ≠ [] ∧ (exMesh.pieces.map Piece.eid).Nodup ∧ (∀ d, 1 / 100000 < exMesh.dx d) := by
  decide +kernel

end Lengths2
end Mandoline
