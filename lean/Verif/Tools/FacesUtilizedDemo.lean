import Verif.Tools.FacesUtilized
import Verif.Fill.Demo
import Verif.Geom.Props
import Mathlib.Tactic.FinCases

/-! # C116: the unit cell cut in two by two triangles, alone or beside an exterior cell -/
namespace Mandoline
namespace FacesUtilized
open GridVolume FaceVolume CellCollapser

/-- two uncut walls, four walls in two pieces, two triangles of the surface. With `b` the first wall faces against the
axis (as a piece of the input surface in the grid plane may). -/
def demoFaces (b : Bool) : List (ℤ × List (List ℤ)) :=
  [(0, [if b then [0, 4, 6, 2] else [0, 2, 6, 4]]), (1, [[1, 3, 7, 5]]),
   (2, [[0, 4, 10, 8]]), (3, [[8, 10, 5, 1]]), (4, [[2, 6, 11, 9]]), (5, [[9, 11, 7, 3]]),
   (6, [[0, 8, 9, 2]]), (7, [[8, 1, 3, 9]]), (8, [[4, 10, 11, 6]]), (9, [[10, 5, 7, 11]]),
   (10, [[8, 9, 11]]), (11, [[8, 11, 10]])]

/-- the area vectors as normals. -/
def demoN (b : Bool) (f : ℤ) : Vec3 := areaVec halfV (edgesOf (demoFaces b) f)

/-- the planes containing all of some points. -/
def maskOf (l : List ℤ) : Mask 3 := fun i =>
  match l with
  | [] => none
  | v :: _ => if ∀ w ∈ l, halfV w i = ⌊halfV v i⌋ then some ⌊halfV v i⌋ else none

theorem maskOf_iff (l : List ℤ) (h : l ≠ []) (i : Fin 3) (n : ℤ) : maskOf l i = some n ↔ ∀ v ∈ l, halfV v i = n := by
  match l, h with
  | v :: l, _ =>
    unfold maskOf
    simp only
    constructor
    · intro hs
      split at hs
      · rename_i hall
        rw [Option.some.injEq] at hs
        rw [← hs]; exact hall
      · cases hs
    · intro hall
      have : ⌊halfV v i⌋ = n := by rw [hall v (by simp)]; simp
      rw [this, if_pos hall]

/-- the axis of a face. -/
def demoAxis (k : ℤ) : Fin 3 := if k < 2 then 0 else if k < 6 then 1 else if k < 10 then 2 else 0

/-- the mesh, with spacing one: the cut cell alone, or (`ext`) with an exterior cell after it along the first axis. -/
def demoMesh (b ext : Bool) : UMesh where
  faces := (demoFaces b).map fun f => ⟨maskOf f.2.flatten, decide (f.1 < 10), f.2,
    fun i => if i = demoAxis f.1 then (if b ∧ f.1 = 0 then -1 else 1) else 0⟩
  pieces := [⟨10, 0, [![1, 0, 0], ![0, 1, 0], ![0, 0, 1]]⟩, ⟨11, 1, [![1, 0, 0], ![0, 1, 0], ![0, 0, 1]]⟩]
  origF := 2
  faceIds := [0, 1]
  V := fun v => Vertex.fromVertex (halfV v)
  FV := fun k => if k < 2 then 1 else 1 / 2
  dx := fun _ => 1
  cells := if ext then [(2, (![1, 0, 0], 1))] else []
  shape := ![if ext then 2 else 1, 1, 1]
  stag := fun d u => if ext then if d = 0 then u 0 else if d = 1 then 3 + u 0 + 2 * u 1 else 7 + u 0 + 2 * u 2
    else if d = 0 then u 0 else if d = 1 then 2 + u 0 + u 1 else 4 + u 0 + u 2
  formSize := if ext then 11 else 6

theorem demo_clean (b : Bool) : Clean (demoFaces b) := by
  cases b <;> (refine ⟨?_, ?_, ?_, ?_, ?_⟩ <;> decide +kernel)

theorem demo_ok (b : Bool) : ∀ f ∈ (demoFaces b).map Prod.fst, FaceOk (demoFaces b) halfV (demoN b) f := by
  apply faceOk_of_check (demo_clean b) _ _ 0
  cases b <;> decide +kernel

theorem demo_facesOf (b ext : Bool) : FacesOf (demoMesh b ext) (demoFaces b) halfV (demoN b) 0 where
  clean := demo_clean b
  ok := demo_ok b
  norm := fun v => (C05_fromVertex (halfV v)).2.1
  pos := fun v => by
    show halfV v = (Vertex.fromVertex (halfV v)).p
    rw [(C05_fromVertex (halfV v)).1]
  len := rfl
  num := by
    intro k f hk
    have hl : k < 12 := (List.getElem?_eq_some_iff.1 hk).1
    have : ∀ b, ∀ k : ℕ, k < 12 → ∀ f ∈ (demoFaces b)[k]?, f.1 = (k : ℤ) := by decide +kernel
    exact this b k hl f hk
  loops := by
    intro k f g hf hg
    have : (demoMesh b ext).faces[k]? = ((demoFaces b)[k]?).map _ := List.getElem?_map ..
    rw [this, hf, Option.map_some, Option.some.injEq] at hg
    rw [← hg]
  mask := by
    intro g hg i n
    obtain ⟨f, hf, rfl⟩ := List.mem_map.1 hg
    have hne : f.2.flatten ≠ [] := by
      have : ∀ b, ∀ f ∈ demoFaces b, f.2.flatten ≠ [] := by decide +kernel
      exact this b f hf
    show maskOf f.2.flatten i = some n ↔ ∀ v ∈ f.2.flatten, (Vertex.fromVertex (halfV v)).p i = n
    rw [maskOf_iff _ hne]
    simp only [(C05_fromVertex (halfV _)).1]
  normal := by
    intro k g hg
    have hl : k < 12 := (List.getElem?_eq_some_iff.1 hg).1
    have : ∀ b ext, ∀ k : ℕ, k < 12 → ∀ g ∈ (demoMesh b ext).faces[k]?, vdot g.normal g.normal = 1 ∧ ∃ s ∈ [(1 : ℚ), 1/2], 0 < s ∧ g.normal = s • demoN b (k : ℤ) := by
      decide +kernel
    obtain ⟨h1, s, -, h2, h3⟩ := this b ext k hl g hg
    exact ⟨h1, s, h2, h3⟩
  area := by
    intro k hk
    have : ∀ b ext, ∀ k : ℕ, k < 12 → IsNorm ((demoMesh b ext).FV k) (fun d => areaVec (worldPos 0 (demoMesh b ext).dx halfV) (edgesOf (demoFaces b) (k : ℤ)) d / 2) := by
      unfold IsNorm
      decide +kernel
    exact this b ext k hk
  spacing := fun _ => by show (0 : ℚ) < 1; norm_num

theorem demo_inside (b ext : Bool) : ∀ v, ∀ f, IsVertex (demoFaces b) f v → ∀ i, 0 ≤ halfV v i ∧ halfV v i ≤ (demoMesh b ext).shape i := by
  rintro v f ⟨loops, C, h1, h2, h3⟩
  have : ∀ b ext, ∀ p ∈ demoFaces b, ∀ C ∈ p.2, ∀ v ∈ C, ∀ i, 0 ≤ halfV v i ∧ halfV v i ≤ (demoMesh b ext).shape i := by decide +kernel
  exact this b ext _ h1 C h2 v h3

theorem facet_cases (b ext : Bool) (d : Fin 3) (u : Coord 3) (h : GridFacet (demoMesh b ext).shape d u) :
    (ext = false ∧ (u = 0 ∨ u = Function.update (0 : Coord 3) d 1)) ∨
    (ext = true ∧ (u = 0 ∨ u = Function.update (0 : Coord 3) d 1 ∨ u = ![1, 0, 0] ∨ (d ≠ 0 ∧ u = Function.update (![1, 0, 0] : Coord 3) d 1) ∨ (d = 0 ∧ u = ![2, 0, 0]))) := by
  obtain ⟨⟨h1, h2⟩, h3⟩ := h
  have e1 : (demoMesh b ext).shape 1 = 1 := rfl
  have e2 : (demoMesh b ext).shape 2 = 1 := rfl
  have ext' : ∀ a b : Coord 3, a = b ↔ a 0 = b 0 ∧ a 1 = b 1 ∧ a 2 = b 2 :=
    fun a b => ⟨fun h => by simp [h], fun h => by funext i; fin_cases i; exacts [h.1, h.2.1, h.2.2]⟩
  cases ext
  · left
    have e0 : (demoMesh b false).shape 0 = 1 := rfl
    refine ⟨rfl, ?_⟩
    rw [ext', ext']
    fin_cases d
    · have := h3 1 (by decide); have := h3 2 (by decide); simp at *; omega
    · have := h3 0 (by decide); have := h3 2 (by decide); simp at *; omega
    · have := h3 0 (by decide); have := h3 1 (by decide); simp at *; omega
  · right
    have e0 : (demoMesh b true).shape 0 = 2 := rfl
    refine ⟨rfl, ?_⟩
    rw [ext', ext', ext', ext', ext']
    fin_cases d
    · have := h3 1 (by decide); have := h3 2 (by decide); simp at *; omega
    · have := h3 0 (by decide); have := h3 2 (by decide); simp at *; omega
    · have := h3 0 (by decide); have := h3 1 (by decide); simp at *; omega

theorem demo_facets (b ext : Bool) : FacetIndex (demoMesh b ext).shape (demoMesh b ext).stag (demoMesh b ext).formSize := by
  have hst : ∀ d u, (demoMesh b ext).stag d u = if ext then if d = 0 then u 0 else if d = 1 then 3 + u 0 + 2 * u 1 else 7 + u 0 + 2 * u 2
    else if d = 0 then u 0 else if d = 1 then 2 + u 0 + u 1 else 4 + u 0 + u 2 := fun _ _ => rfl
  have hn : (demoMesh b ext).formSize = if ext then 11 else 6 := rfl
  refine ⟨fun d d' c c' h h' he => ?_, fun d u h => ?_, fun i hi => ?_⟩
  · rw [hst, hst] at he
    rcases facet_cases b ext d c h with ⟨rfl, g⟩ | ⟨rfl, g⟩ <;> rcases facet_cases b _ d' c' h' with ⟨hx, g'⟩ | ⟨hx, g'⟩ <;> cases hx
    · rcases g with rfl | rfl <;> rcases g' with rfl | rfl <;> revert he <;> clear hst hn h h' <;> revert d d' <;> decide +kernel
    · rcases g with rfl | rfl | rfl | ⟨hd, rfl⟩ | ⟨hd, rfl⟩ <;> rcases g' with rfl | rfl | rfl | ⟨hd', rfl⟩ | ⟨hd', rfl⟩ <;> revert he <;>
        clear hst hn h h' <;> revert d d' <;> decide +kernel
  · rw [hst, hn]
    rcases facet_cases b ext d u h with ⟨rfl, g⟩ | ⟨rfl, g⟩
    · rcases g with rfl | rfl <;> clear hst hn h <;> revert d <;> decide +kernel
    · rcases g with rfl | rfl | rfl | ⟨hd, rfl⟩ | ⟨hd, rfl⟩ <;> clear hst hn h <;> revert d <;> decide +kernel
  · rw [hn] at hi
    have key : ∀ b ext, ∀ i : ℕ, i < (if ext then 11 else 6) → ∃ d : Fin 3, ∃ u ∈ [(0 : Coord 3), Function.update (0 : Coord 3) d 1, ![1, 0, 0], Function.update (![1, 0, 0] : Coord 3) d 1, ![2, 0, 0]],
        ((0 ≤ u d ∧ u d ≤ (demoMesh b ext).shape d) ∧ ∀ j, j ≠ d → 0 ≤ u j ∧ u j < (demoMesh b ext).shape j) ∧ (demoMesh b ext).stag d u = (i : ℤ) := by
      decide +kernel
    obtain ⟨d, u, -, h1, h2⟩ := key b ext i hi
    exact ⟨d, u, h1, h2⟩

theorem demo_exterior (b ext : Bool) : ExteriorOk (demoMesh b ext).shape (demoMesh b ext).cells ∧ UnitCells (demoMesh b ext).cells := by
  have hc : (demoMesh b ext).cells = if ext then [(2, (![1, 0, 0], 1))] else [] := rfl
  have hm : ∀ e ∈ (demoMesh b ext).cells, e = ((2 : ℤ), ((![1, 0, 0], 1) : ACell 3)) ∧ ext = true := by
    intro e he
    rw [hc] at he
    cases ext
    · cases he
    · exact ⟨List.mem_singleton.1 he, rfl⟩
  refine ⟨⟨⟨fun e he => by rw [(hm e he).1]; decide, fun u e he e' he' _ _ => by rw [(hm e he).1, (hm e' he').1]⟩, ?_, ?_, ?_⟩, fun e he => by rw [(hm e he).1]⟩
  · rw [hc]; cases ext
    · exact List.Pairwise.nil
    · exact List.pairwise_singleton _ _
  · intro e he u hu
    obtain ⟨h1, h2⟩ := hm e he
    subst h1 h2
    intro i
    have := hu i
    fin_cases i <;> simp [demoMesh] at * <;> omega
  · intro e he
    obtain ⟨h1, -⟩ := hm e he
    exact ⟨0, ![1, 0, 0], by rw [h1]; simp⟩

/-- the hypotheses of the acceptance theorem hold for the cut cell alone. -/
example : (demoMesh false false).facesFullyUtilized = some true := by
  refine C116_accepted (demo_facesOf false false) (demo_facets false false) (demo_exterior false false).1 (demo_exterior false false).2
    (demo_inside false false) (by decide) (by decide +kernel) ?_ ?_ ?_
  · have : ∀ t : ℕ, t < 2 → (((demoMesh false false).pieces.filter fun p => p.parent = t).map fun p => 2 * baryVolume p.barys).sum = 1 := by decide +kernel
    exact this
  · intro d u hu
    refine Or.inr ⟨(by rintro ⟨⟨e, he, -⟩, -⟩; exact absurd he List.not_mem_nil), ?_⟩
    rw [wallArea_eq (demo_clean false)]
    rcases facet_cases false false d u hu with ⟨-, rfl | rfl⟩ | ⟨h, -⟩
    · clear hu; revert d; decide +kernel
    · clear hu; revert d; decide +kernel
    · cases h
  · intro f hf d n hp
    have : ∀ f ∈ (demoFaces false).map Prod.fst, ∀ d, 0 ≤ demoN false f d := by decide +kernel
    exact this f hf d

/-- … those of the defect for faces against the axis with the first wall reversed. -/
example : (demoMesh true false).facesFullyUtilized ≠ some true := by
  refine C116_against_refuted (demo_facesOf true false) (demo_facets true false) (demo_exterior true false).1 (demo_exterior true false).2
    (demo_inside true false) 0 0 (by unfold GridFacet; decide +kernel) (by rintro ⟨⟨e, he, -⟩, -⟩; cases he) ?_ ?_
  · rw [wallArea_eq (demo_clean true)]; decide +kernel
  · have hv : ∀ f v, IsVertex (demoFaces true) f v ↔ ∃ p ∈ demoFaces true, p.1 = f ∧ v ∈ p.2.flatten := by
      intro f v
      constructor
      · rintro ⟨l, C, h1, h2, h3⟩; exact ⟨_, h1, rfl, List.mem_flatten.2 ⟨C, h2, h3⟩⟩
      · rintro ⟨p, h1, rfl, h2⟩
        obtain ⟨C, h3, h4⟩ := List.mem_flatten.1 h2
        exact ⟨p.2, C, h1, h3, h4⟩
    unfold againstArea
    refine lt_of_lt_of_le (b := (1 : ℚ)) (by norm_num) ?_
    have h0 : (0 : ℤ) ∈ (demoFaces true).map Prod.fst := by decide +kernel
    refine le_trans ?_ (List.single_le_sum (fun x hx => ?_) _ (List.mem_map.2 ⟨0, h0, rfl⟩))
    · have c1 : FaceIn (demoFaces true) halfV 0 0 := by
        intro v hv'
        obtain ⟨p, h1, h2, h3⟩ := (hv 0 v).1 hv'
        have : ∀ p ∈ demoFaces true, p.1 = 0 → ∀ v ∈ p.2.flatten, InClosedCell (0 : Coord 3) (halfV v) := by decide +kernel
        exact this p h1 h2 v h3
      have c2 : InPlane (demoFaces true) halfV 0 0 ((0 : Coord 3) 0 : ℤ) := by
        intro v hv'
        obtain ⟨p, h1, h2, h3⟩ := (hv 0 v).1 hv'
        have : ∀ p ∈ demoFaces true, p.1 = 0 → ∀ v ∈ p.2.flatten, halfV v 0 = ((0 : Coord 3) 0 : ℤ) := by decide +kernel
        exact this p h1 h2 v h3
      rw [if_pos ⟨⟨c1, c2⟩, by decide +kernel⟩]
      decide +kernel
    · obtain ⟨f, -, rfl⟩ := List.mem_map.1 hx
      split
      · positivity
      · exact le_rfl

/-- … and those of the defect at the boundary with an exterior cell. -/
example : (demoMesh false true).facesFullyUtilized ≠ some true := by
  refine (C116_boundary_refuted _ (demo_exterior false true).1 (demo_facets false true) 0 ![2, 0, 0] (by unfold GridFacet; decide +kernel)
    (Or.inr rfl) ?_ ((demo_facesOf false true).ok_columns (demo_inside false true))).2
  intro g hg
  obtain ⟨k, hk⟩ := List.mem_iff_getElem?.1 hg
  rw [Bool.eq_false_iff]
  intro hc
  obtain ⟨-, h2⟩ := ((demo_facesOf false true).column hk 0 ![2, 0, 0]).1 hc
  obtain ⟨v, hv⟩ := exists_vertex (demo_clean false) ((demo_facesOf false true).num_mem hk)
  have h3 := h2 v hv
  have h4 := (demo_inside false false v k hv 0).2
  rw [h3] at h4
  revert h4
  decide +kernel

end FacesUtilized
end Mandoline
