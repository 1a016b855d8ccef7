import Verif.Adaptive.FaceProj
import Mathlib.Tactic.FinCases
import Mathlib.Tactic.LinearCombination

/-!
# C125: dual edge lengths and corner numbers of the adaptive grid

Transcription of src/adaptive_grid.cpp:109-128 (`AdaptiveGrid::face`) and 321-335
(`AdaptiveGrid::dual_edge_lengths`). Entries that the code leaves uninitialised are `none` here.
-/
namespace Mandoline
namespace DualEdges
variable {D : ℕ}

/-- the square of the number stored for one face by `dual_edge_lengths` (adaptive_grid.cpp:327-332); `center` is
adaptive_grid.hpp:30. The code stores the square root. `none`: the loop `continue`s and the entry of the
uninitialised vector `ret` is never written. -/
def dualLengthSq (dx : Fin D → ℚ) (cells : List (ℤ × ACell D)) (f : AFace D) : Option ℚ :=
  if isValidEdge cells f.1.2.1 f.1.2.2 then
    match cellAt cells f.1.2.1, cellAt cells f.1.2.2 with
    | some ca, some cb => some (∑ i, (dx i * centerDiff ca cb i) ^ 2)
    | _, _ => none
  else none

/-- `dual_edge_lengths()` (adaptive_grid.cpp:321-335), squared, one entry per face. -/
def dualLengthsSq (dx : Fin D → ℚ) (cells : List (ℤ × ACell D)) (faces : List (AFace D)) : List (Option ℚ) :=
  faces.map (dualLengthSq dx cells)

/-- `p[i] += by` of a coordinate array (adaptive_grid.cpp:112, 117-121). -/
def bump (p : Coord 3) (i : Fin 3) (n : ℤ) : Coord 3 := Function.update p i (p i + n)

/-- `AdaptiveGrid::face(c, axis, sign)` (adaptive_grid.cpp:109-125); `vidx` is `vertex_index`. All four
assignments go to `ret[0]`; the other three entries stay uninitialised. -/
def cornerNumbers (vidx : Coord 3 → ℤ) (c : ACell 3) (axis : Fin 3) (sign : Bool) : List (Option ℤ) :=
  let p0 := if sign then bump c.1 axis 1 else c.1
  let u := axis + 1
  let v := axis + 2
  let r0 : List (Option ℤ) := [none, none, none, none]
  let r1 := r0.set 0 (some (vidx p0))
  let p1 := bump p0 u 1
  let r2 := r1.set 0 (some (vidx p1))
  let p2 := bump p1 v 1
  let r3 := r2.set 0 (some (vidx p2))
  let p3 := bump p2 u (-1)
  r3.set 0 (some (vidx p3))

/-! ## specification -/

/-- the centre of the cube with the given lower corner and width. -/
def centre (c : ACell D) (i : Fin D) : ℚ := (c.1 i : ℚ) + (c.2 : ℚ) / 2

/-- square of the distance between two points, spacing `dx`. -/
def distSq (dx : Fin D → ℚ) (x y : Fin D → ℚ) : ℚ := ∑ i, (dx i * (x i - y i)) ^ 2

/-- `p` is one of the four corners of the side of the cube normal to `axis`, the upper one when `sign`. -/
def SideCorner (c : ACell 3) (axis : Fin 3) (sign : Bool) (p : Coord 3) : Prop :=
  p axis = c.1 axis + (if sign then c.2 else 0) ∧ ∀ j, j ≠ axis → p j = c.1 j ∨ p j = c.1 j + c.2

section
variable (shape : Coord D) (cells : List (ℤ × ACell D)) (hdis : DisjointCells cells)
  (hsorted : OMap.Sorted intLt cells) (hin : ∀ e ∈ cells, ∀ u, InCube e.2 u → InGrid shape u)
  (dx : Fin D → ℚ)

include hdis hsorted hin in
/-- **C125.** A face has a dual edge length exactly when it does not lie on the boundary of the domain: the entry
is left unwritten iff one side of the face is the outside, and a written entry is the distance of the centres of
the two cells of the face. -/
theorem C125_dual_lengths (f : AFace D) (hf : f ∈ adaptiveFaces shape cells) :
    (dualLengthSq dx cells f = none ↔ f.1.2.1 = -2 ∨ f.1.2.2 = -2) ∧
    ∀ s, dualLengthSq dx cells f = some s →
      ∃ ca cb, (f.1.2.1, ca) ∈ cells ∧ (f.1.2.2, cb) ∈ cells ∧ s = distSq dx (centre ca) (centre cb) := by
  obtain ⟨u0, hs⟩ := ((C27_faces_exact shape cells hdis hsorted hin).1 f.1).1 ⟨f.2, hf⟩
  obtain ⟨⟨d, a, b⟩, sq⟩ := f
  have hnone : ∀ {x : ℤ}, x = -2 → cellAt cells x = none := by
    intro x hx
    cases h : cellAt cells x with
    | none => rfl
    | some c =>
      have := hdis.1 _ ((cellAt_iff cells hsorted x c).1 h)
      simp only at this; omega
  simp only at hs ⊢
  cases hs with
  | low _ _ c hb' hu h =>
    have : dualLengthSq dx cells ((d, -2, b), sq) = none := by
      simp [dualLengthSq, isValidEdge, hnone]
    simp [this]
  | high _ _ c ha' hu h =>
    have : dualLengthSq dx cells ((d, a, -2), sq) = none := by
      simp [dualLengthSq, isValidEdge, hnone]
    simp [this]
  | mid _ _ _ ca cb ha hb hua hub hab =>
    have c1 := (cellAt_iff cells hsorted a ca).2 ha
    have c2 := (cellAt_iff cells hsorted b cb).2 hb
    have p1 := hdis.1 _ ha
    have p2 := hdis.1 _ hb
    simp only at p1 p2
    have e : dualLengthSq dx cells ((d, a, b), sq) = some (distSq dx (centre ca) (centre cb)) := by
      simp only [dualLengthSq, isValidEdge, c1, c2, distSq, centre, centerDiff]
      simp [hab]
    rw [e]
    refine ⟨⟨fun h => (nomatch h), fun h => by omega⟩, fun s hs => ⟨ca, cb, ha, hb, (Option.some.inj hs).symm⟩⟩

include hdis hsorted hin in
/-- **C125.** One entry per face, and some entry is never written as soon as the domain has a cell touching its
boundary. -/
theorem C125_unwritten_entries (e : ℤ × ACell D) (he : e ∈ cells) (u : Coord D) (hu : InCube e.2 u) (d : Fin D)
    (hd : u d = 0) :
    (dualLengthsSq dx cells (adaptiveFaces shape cells)).length = (adaptiveFaces shape cells).length ∧
    none ∈ dualLengthsSq dx cells (adaptiveFaces shape cells) := by
  obtain ⟨sq, h⟩ := ((C27_faces_exact shape cells hdis hsorted hin).1 (d, -2, e.1)).2
    ⟨u, Separates.low d e.1 e.2 he hu hd⟩
  refine ⟨by simp [dualLengthsSq], ?_⟩
  unfold dualLengthsSq
  rw [List.mem_map]
  exact ⟨_, h, ((C125_dual_lengths shape cells hdis hsorted hin dx _ h).1).2 (Or.inl rfl)⟩

variable (hdy : Dyadic cells)
include hdis hdy in
/-- **C125.** Along its axis the dual edge bridges half of each width; across it the centres are at most half the
difference of the widths apart. -/
theorem C125_dual_offsets (d : Fin D) (a b : ℤ) (ca cb : ACell D) (ha : (a, ca) ∈ cells) (hb : (b, cb) ∈ cells)
    (hab : a ≠ b) (u : Coord D) (hua : InCube ca (below u d)) (hub : InCube cb u) :
    centre cb d - centre ca d = ((ca.2 : ℚ) + cb.2) / 2 ∧
    ∀ j, j ≠ d → |centre ca j - centre cb j| ≤ |(ca.2 : ℚ) - cb.2| / 2 := by
  obtain ⟨p1, p2, h1, h2, h3⟩ := separated_position cells hdis hdy d a b ca cb ha hb hab u hua hub
  unfold centre
  refine ⟨by rw [← h1]; push_cast; ring, fun j hj => ?_⟩
  obtain ⟨n1, n2⟩ := h3 j hj
  rcases le_total ca.2 cb.2 with hw | hw
  · obtain ⟨m1, m2⟩ := n1 hw
    have m1' : (cb.1 j : ℚ) ≤ ca.1 j := by exact_mod_cast m1
    have m2' : (ca.1 j : ℚ) + ca.2 ≤ cb.1 j + cb.2 := by exact_mod_cast m2
    have hw' : (ca.2 : ℚ) - cb.2 ≤ 0 := by have : (ca.2 : ℚ) ≤ cb.2 := by exact_mod_cast hw
                                           linarith
    rw [abs_of_nonpos hw', abs_le]
    constructor <;> linarith
  · obtain ⟨m1, m2⟩ := n2 hw
    have m1' : (ca.1 j : ℚ) ≤ cb.1 j := by exact_mod_cast m1
    have m2' : (cb.1 j : ℚ) + cb.2 ≤ ca.1 j + ca.2 := by exact_mod_cast m2
    have hw' : 0 ≤ (ca.2 : ℚ) - cb.2 := by have : (cb.2 : ℚ) ≤ ca.2 := by exact_mod_cast hw
                                           linarith
    rw [abs_of_nonneg hw', abs_le]
    constructor <;> linarith

include hdy in
/-- across the axis the centres of cells of different widths never agree. -/
theorem centre_ne (a b : ℤ) (ca cb : ACell D) (ha : (a, ca) ∈ cells) (hb : (b, cb) ∈ cells)
    (hw : ca.2 < cb.2 ∨ cb.2 < ca.2) (j : Fin D) : centre ca j ≠ centre cb j := by
  obtain ⟨l, q, hq⟩ := hdy _ ha
  obtain ⟨m, r, hr⟩ := hdy _ hb
  simp only at hq hr
  intro h
  have key : ∀ (l m : ℕ) (x y : ℤ), l < m → 2 * (2 ^ l * x) + 2 ^ l ≠ 2 * (2 ^ m * y) + (2 : ℤ) ^ m := by
    intro l m x y hlm he
    obtain ⟨k, rfl⟩ := Nat.exists_eq_add_of_lt hlm
    have hp : (2 : ℤ) ^ l ≠ 0 := by positivity
    have : (2 : ℤ) ^ l * (2 * x + 1) = 2 ^ l * (2 * (2 ^ (k + 1) * y + 2 ^ k)) := by
      rw [show l + k + 1 = l + (k + 1) by omega, pow_add, pow_succ (2 : ℤ) k] at he
      rw [pow_succ]; linear_combination he
    have := mul_left_cancel₀ hp this
    omega
  have e : 2 * ca.1 j + ca.2 = 2 * cb.1 j + cb.2 := by
    unfold centre at h
    have : (2 * (ca.1 j : ℚ) + ca.2) = 2 * cb.1 j + cb.2 := by linarith
    exact_mod_cast this
  subst hq hr
  simp only at hw e
  rcases hw with hw | hw
  · exact key l m _ _ ((pow_lt_pow_iff_right₀ (by norm_num : (1 : ℤ) < 2)).1 hw) e
  · exact key m l _ _ ((pow_lt_pow_iff_right₀ (by norm_num : (1 : ℤ) < 2)).1 hw) e.symm

include hdis hdy in
/-- **C125.** Between cells of equal width `w` the length is exactly the spacing along the axis times `w`. -/
theorem C125_equal_widths (d : Fin D) (a b : ℤ) (ca cb : ACell D) (ha : (a, ca) ∈ cells) (hb : (b, cb) ∈ cells)
    (hab : a ≠ b) (u : Coord D) (hua : InCube ca (below u d)) (hub : InCube cb u) (hw : ca.2 = cb.2) :
    distSq dx (centre ca) (centre cb) = (dx d * ca.2) ^ 2 := by
  obtain ⟨h1, h2⟩ := C125_dual_offsets cells hdis hdy d a b ca cb ha hb hab u hua hub
  unfold distSq
  rw [Finset.sum_eq_single d]
  · have : centre ca d - centre cb d = -(ca.2 : ℚ) := by rw [← hw] at h1; linarith
    rw [this]; ring
  · intro j _ hj
    have := h2 j hj
    rw [hw, sub_self, abs_zero, zero_div] at this
    rw [abs_nonpos_iff.1 this]; ring
  · simp

include hdis hdy in
/-- **C125.** In two or more dimensions with nonzero spacings, the length between cells of different widths is
strictly larger than the distance of the centres along the axis. -/
theorem C125_different_widths_refuted (hdx : ∀ i, dx i ≠ 0) (d : Fin D) (a b : ℤ) (ca cb : ACell D)
    (ha : (a, ca) ∈ cells) (hb : (b, cb) ∈ cells) (hab : a ≠ b) (u : Coord D) (hua : InCube ca (below u d))
    (hub : InCube cb u) (hw : ca.2 ≠ cb.2) (j : Fin D) (hj : j ≠ d) :
    (dx d * (((ca.2 : ℚ) + cb.2) / 2)) ^ 2 < distSq dx (centre ca) (centre cb) := by
  obtain ⟨h1, _⟩ := C125_dual_offsets cells hdis hdy d a b ca cb ha hb hab u hua hub
  have hne := centre_ne cells hdy a b ca cb ha hb (lt_or_gt_of_ne hw) j
  have hpos : 0 < (dx j * (centre ca j - centre cb j)) ^ 2 := by
    have := mul_ne_zero (hdx j) (sub_ne_zero.2 hne)
    positivity
  have hs : ∑ i ∈ ({d, j} : Finset (Fin D)), (dx i * (centre ca i - centre cb i)) ^ 2 ≤
      distSq dx (centre ca) (centre cb) :=
    Finset.sum_le_univ_sum_of_nonneg fun i => sq_nonneg _
  rw [Finset.sum_pair (Ne.symm hj)] at hs
  have e : (dx d * (centre ca d - centre cb d)) ^ 2 = (dx d * (((ca.2 : ℚ) + cb.2) / 2)) ^ 2 := by
    rw [← h1]; ring
  rw [e] at hs
  linarith
end

/-! ## corner numbers -/

/-- **C125.** Of the four numbers only the first is ever written, whatever the cell, the axis and the side. It is
the number of the vertex one step from the lower corner along the second of the other two axes (and one step along
the axis for the upper side). -/
theorem C125_corner_numbers (vidx : Coord 3 → ℤ) (c : ACell 3) (axis : Fin 3) (sign : Bool) :
    ∃ p : Coord 3, cornerNumbers vidx c axis sign = [some (vidx p), none, none, none] ∧
      p axis = c.1 axis + (if sign then 1 else 0) ∧ p (axis + 1) = c.1 (axis + 1) ∧
      p (axis + 2) = c.1 (axis + 2) + 1 := by
  refine ⟨_, rfl, ?_, ?_, ?_⟩
  all_goals cases sign <;> fin_cases axis <;> simp [bump, Function.update]

/-- **C125.** For a cell of width one that vertex is a corner of the side asked for; for every wider cell it is not
a corner of either side. -/
theorem C125_corner_numbers_refuted (vidx : Coord 3 → ℤ) (hinj : Function.Injective vidx) (c : ACell 3)
    (axis : Fin 3) (sign : Bool) :
    (∃ p, SideCorner c axis sign p ∧ (cornerNumbers vidx c axis sign)[0]? = some (some (vidx p))) ↔ c.2 = 1 := by
  obtain ⟨p, h, h0, h1, h2⟩ := C125_corner_numbers vidx c axis sign
  have e : (cornerNumbers vidx c axis sign)[0]? = some (some (vidx p)) := by rw [h]; rfl
  have hax : axis + 2 ≠ axis := by fin_cases axis <;> decide
  constructor
  · rintro ⟨q, ⟨_, hq⟩, hn⟩
    rw [e] at hn
    have hpq : p = q := hinj (Option.some.inj (Option.some.inj hn))
    subst hpq
    rcases hq (axis + 2) hax with hq | hq <;> omega
  · intro hc1
    refine ⟨p, ⟨?_, fun j hj => ?_⟩, e⟩
    · rw [h0, hc1]
    · have : j = axis + 1 ∨ j = axis + 2 := by
        revert hj; clear * -; revert j axis; decide
      rcases this with rfl | rfl
      · exact Or.inl h1
      · right; rw [h2, hc1]

/-! ## a concrete case -/

/-- a cube of width two and one of width one above it on axis 0. -/
def demoCells : List (ℤ × ACell 3) := [(0, (![0, 0, 0], 2)), (1, (![2, 0, 0], 1))]

/-- the length of the edge between them: half widths 1 and 1/2 along the axis, offsets 1/2 across. -/
example : dualLengthSq (fun _ => 1) demoCells ((0, 0, 1), (![2, 0, 0], 1)) = some (11 / 4) := by
  decide +kernel

/-- the two cells are disjoint, sorted, dyadic, and separated. -/
example : OMap.Sorted intLt demoCells ∧ Dyadic demoCells ∧ InCube (![0, 0, 0], 2) (below (![2, 0, 0] : Coord 3) 0) ∧
    InCube ((![2, 0, 0], 1) : ACell 3) ![2, 0, 0] := by
  refine ⟨by unfold OMap.Sorted; decide +kernel, ?_, by decide +kernel, by decide +kernel⟩
  intro e he
  simp only [demoCells, List.mem_cons, List.not_mem_nil, or_false] at he
  rcases he with rfl | rfl
  · refine ⟨1, ![0, 0, 0], ?_⟩
    simp only [Prod.mk.injEq]; exact ⟨by funext i; fin_cases i <;> rfl, rfl⟩
  · refine ⟨0, ![2, 0, 0], ?_⟩
    simp only [Prod.mk.injEq]; exact ⟨by funext i; fin_cases i <;> rfl, rfl⟩

/-- the corner number of the wide cell is not a corner of its lower side. -/
example (vidx : Coord 3 → ℤ) : cornerNumbers vidx (![0, 0, 0], 2) 0 false = [some (vidx ![0, 0, 1]), none, none, none] := by
  have : bump (bump (bump ![0, 0, 0] 1 1) 2 1) 1 (-1) = (![0, 0, 1] : Coord 3) := by
    funext i; fin_cases i <;> rfl
  show [some (vidx (bump (bump (bump ![0, 0, 0] 1 1) 2 1) 1 (-1))), none, none, none] = _
  rw [this]

end DualEdges
end Mandoline
