import Verif.Gen3.PipeDemo
import Verif.Plane.Loop
import Verif.Geom.ContainerProps
import Verif.Cell.Volume
import Mathlib.Tactic.Ring
import Mathlib.Tactic.LinearCombination

/-!
# C114: the self-checks of the 3D generator, and area normals

`area_normal` (src/construction/generator3.cpp:490-510), `check_face_utilization` (generator3.cpp:512-550) and
`check_cell_containment` (generator3.cpp:552-574), used by tools/make_cutmesh_from_cmdline.cpp:196-201.
-/
namespace Mandoline
namespace Gen3

/-- `check_cell_containment` (generator3.cpp:552-574): `ret` is cleared once per loop of a face without a common cell. -/
def checkCellContainment (V : ℕ → Vertex 3) (faces : List (ℤ × PFace)) : Option Bool :=
  faces.foldlM (fun ret p => (genPossibleCells2 V p.2.loops).map fun s =>
    if s = ∅ then p.2.loops.foldl (fun _ _ => false) ret else ret) true

/-- the faces `check_face_utilization` looks for (generator3.cpp:515-531). -/
def checkedFaces (primal : Fin 3 → List DEdge) (faces : List (ℤ × PFace)) : List ℤ :=
  (faces.filter fun p => p.2.loops.foldl (fun d v => (List.finRange 3).foldl (fun d i =>
    if (p.2.mask i).isSome then
      if smallestOrderedEdge (v.map Int.ofNat) ∈ primal i then false else d
    else d) d) true).map Prod.fst

/-- `check_face_utilization` (generator3.cpp:512-550): every entry of a cell erases its face. -/
def checkFaceUtilization (primal : Fin 3 → List DEdge) (faces : List (ℤ × PFace)) (cells : List (List (ℤ × Bool))) : Bool :=
  (cells.foldl (fun s c => c.foldl (fun s p => s.filter fun f => decide (f ≠ p.1)) s) (checkedFaces primal faces)).isEmpty

/-- `area_normal(std::vector<int>)` (generator3.cpp:490-503). -/
def areaNormal (V : ℕ → Vec3) (F : List ℕ) : Vec3 :=
  ((1 : ℚ) / 2) • ((List.range F.length).map fun i =>
    let x := V (F.getD i 0)
    let y := V (F.getD ((i + 1) % F.length) 0)
    let z := V (F.getD ((i + 2) % F.length) 0)
    vcross (z - y) (x - y)).sum

/-- `area_normal(std::set<std::vector<int>>)` (generator3.cpp:504-510). -/
def areaNormals (V : ℕ → Vec3) (F : List (List ℕ)) : Vec3 := (F.map (areaNormal V)).sum

/-! ## specification -/

/-- the face is left out of the utilization check: one of its loops starts, after ordering, with the same edge as an input face in
the same grid plane direction. -/
def Excused (primal : Fin 3 → List DEdge) (f : PFace) : Prop :=
  ∃ v ∈ f.loops, ∃ i, (f.mask i).isSome = true ∧ smallestOrderedEdge (v.map Int.ofNat) ∈ primal i

/-- twice the area vector of the closed polygon: the sum of `p × q` over its sides. -/
def twiceArea (V : ℕ → Vec3) (F : List ℕ) : Vec3 :=
  ((List.range F.length).map fun i => vcross (V (F.getD i 0)) (V (F.getD ((i + 1) % F.length) 0))).sum

/-! ## proofs -/

/-- **C114.** The containment check is defined if no face starts with an empty loop, and then accepts exactly the generators each of
whose faces has a grid cell that contains all its vertices (a face without loops is not looked at). -/
theorem C114_containment (V : ℕ → Vertex 3) (hV : ∀ i, Normalised (V i)) (faces : List (ℤ × PFace))
    (hl : ∀ p ∈ faces, ∀ l ∈ p.2.loops, l ≠ []) :
    ∃ b, checkCellContainment V faces = some b ∧
      (b = true ↔ ∀ p ∈ faces, ∃ c : Coord 3, ∀ l ∈ p.2.loops, ∀ v ∈ l, InClosedCell c (V v).p) := by
  have gen : ∀ (fs : List (ℤ × PFace)) (r : Bool), (∀ p ∈ fs, ∀ l ∈ p.2.loops, l ≠ []) →
      ∃ b, fs.foldlM (fun ret p => (genPossibleCells2 V p.2.loops).map fun s =>
        if s = ∅ then p.2.loops.foldl (fun _ _ => false) ret else ret) r = some b ∧
      (b = true ↔ r = true ∧ ∀ p ∈ fs, ∃ c : Coord 3, ∀ l ∈ p.2.loops, ∀ v ∈ l, InClosedCell c (V v).p) := by
    intro fs
    induction fs with
    | nil => intro r _; exact ⟨r, rfl, by simp⟩
    | cons p fs ih =>
      intro r h
      rw [List.foldlM_cons]
      cases hp : p.2.loops with
      | nil =>
        obtain ⟨b, hb, hiff⟩ := ih r fun q hq => h q (List.mem_cons_of_mem _ hq)
        refine ⟨b, ?_, ?_⟩
        · show Option.bind ((some ∅).map _) _ = _
          simpa using hb
        · rw [hiff]
          constructor
          · rintro ⟨h1, h2⟩
            refine ⟨h1, fun q hq => ?_⟩
            rcases List.mem_cons.1 hq with rfl | hq
            · rw [hp]; exact ⟨fun _ => 0, by simp⟩
            · exact h2 q hq
          · rintro ⟨h1, h2⟩
            exact ⟨h1, fun q hq => h2 q (List.mem_cons_of_mem _ hq)⟩
      | cons l ls =>
        have hne : l ≠ [] := h p List.mem_cons_self l (by rw [hp]; exact List.mem_cons_self)
        obtain ⟨s, hs⟩ : ∃ s, genPossibleCells2 V p.2.loops = some s := by
          rw [hp]
          cases l with
          | nil => exact absurd rfl hne
          | cons f0 r => exact ⟨_, rfl⟩
        have hmem := C11_possibleCells_loops V hV p.2.loops s (by rw [hp]; simp) hs
        rw [hp] at hs
        rw [hs]
        by_cases hse : s = ∅
        · obtain ⟨b, hb, hiff⟩ := ih false fun q hq => h q (List.mem_cons_of_mem _ hq)
          refine ⟨b, ?_, ?_⟩
          · have hfold : ∀ (L : List (List ℕ)) (r : Bool), L ≠ [] → L.foldl (fun _ _ => false) r = false := by
              intro L
              induction L with
              | nil => intro r h; exact absurd rfl h
              | cons a L ih =>
                intro r _
                cases L with
                | nil => rfl
                | cons b L => rw [List.foldl_cons]; exact ih _ (by simp)
            show Option.bind (some (if s = ∅ then (l :: ls).foldl (fun _ _ => false) r else r)) _ = _
            rw [if_pos hse, hfold _ r (by simp)]
            exact hb
          · rw [hiff]
            constructor
            · rintro ⟨h1, -⟩; cases h1
            · rintro ⟨-, h2⟩
              obtain ⟨c, hc⟩ := h2 p List.mem_cons_self
              have := (hmem c).2 hc
              rw [hse] at this
              simp at this
        · obtain ⟨b, hb, hiff⟩ := ih r fun q hq => h q (List.mem_cons_of_mem _ hq)
          refine ⟨b, ?_, ?_⟩
          · show Option.bind (some (if s = ∅ then (l :: ls).foldl (fun _ _ => false) r else r)) _ = _
            rw [if_neg hse]
            exact hb
          · rw [hiff]
            obtain ⟨c, hc⟩ := Finset.nonempty_of_ne_empty hse
            constructor
            · rintro ⟨h1, h2⟩
              refine ⟨h1, fun q hq => ?_⟩
              rcases List.mem_cons.1 hq with rfl | hq
              · exact ⟨c, (hmem c).1 hc⟩
              · exact h2 q hq
            · rintro ⟨h1, h2⟩
              exact ⟨h1, fun q hq => h2 q (List.mem_cons_of_mem _ hq)⟩
  obtain ⟨b, hb, hiff⟩ := gen faces true hl
  exact ⟨b, hb, by rw [hiff]; simp⟩

theorem excused_fold (primal : Fin 3 → List DEdge) (f : PFace) :
    f.loops.foldl (fun d v => (List.finRange 3).foldl (fun d i =>
      if (f.mask i).isSome then
        if smallestOrderedEdge (v.map Int.ofNat) ∈ primal i then false else d
      else d) d) true = true ↔ ¬ Excused primal f := by
  have inner : ∀ (v : List ℕ) (L : List (Fin 3)) (d : Bool), L.foldl (fun d i =>
      if (f.mask i).isSome then
        if smallestOrderedEdge (v.map Int.ofNat) ∈ primal i then false else d
      else d) d = true ↔ d = true ∧ ∀ i ∈ L, ¬ ((f.mask i).isSome = true ∧ smallestOrderedEdge (v.map Int.ofNat) ∈ primal i) := by
    intro v L
    induction L with
    | nil => intro d; simp
    | cons i L ih =>
      intro d
      rw [List.foldl_cons, ih]
      simp only [List.mem_cons, forall_eq_or_imp]
      by_cases h1 : (f.mask i).isSome = true
      · rw [if_pos h1]
        by_cases h2 : smallestOrderedEdge (v.map Int.ofNat) ∈ primal i
        · rw [if_pos h2]
          exact ⟨fun h => absurd h.1 (by simp), fun h => absurd ⟨h1, h2⟩ h.2.1⟩
        · rw [if_neg h2]
          exact ⟨fun h => ⟨h.1, fun h' => h2 h'.2, h.2⟩, fun h => ⟨h.1, h.2.2⟩⟩
      · rw [if_neg h1]
        exact ⟨fun h => ⟨h.1, fun h' => h1 h'.1, h.2⟩, fun h => ⟨h.1, h.2.2⟩⟩
  have outer : ∀ (L : List (List ℕ)) (d : Bool), L.foldl (fun d v => (List.finRange 3).foldl (fun d i =>
      if (f.mask i).isSome then
        if smallestOrderedEdge (v.map Int.ofNat) ∈ primal i then false else d
      else d) d) d = true ↔ d = true ∧ ∀ v ∈ L, ∀ i, ¬ ((f.mask i).isSome = true ∧ smallestOrderedEdge (v.map Int.ofNat) ∈ primal i) := by
    intro L
    induction L with
    | nil => intro d; simp
    | cons v L ih =>
      intro d
      rw [List.foldl_cons, ih, inner]
      simp only [List.mem_cons, forall_eq_or_imp, List.mem_finRange, true_implies]
      exact and_assoc
  rw [outer]
  unfold Excused
  constructor
  · rintro ⟨-, h⟩ ⟨v, hv, i, hi⟩
    exact h v hv i hi
  · intro h
    exact ⟨rfl, fun v hv i hi => h ⟨v, hv, i, hi⟩⟩

/-- **C114.** The utilization check accepts exactly the generators each of whose faces is listed by a cell or excused. -/
theorem C114_utilization (primal : Fin 3 → List DEdge) (faces : List (ℤ × PFace)) (cells : List (List (ℤ × Bool))) :
    checkFaceUtilization primal faces cells = true ↔
      ∀ p ∈ faces, Excused primal p.2 ∨ ∃ m ∈ cells, ∃ s, (p.1, s) ∈ m := by
  unfold checkFaceUtilization
  have h1 : ∀ (c : List (ℤ × Bool)) (s : List ℤ) (f : ℤ), f ∈ c.foldl (fun s p => s.filter fun f => decide (f ≠ p.1)) s ↔
      f ∈ s ∧ ∀ p ∈ c, f ≠ p.1 := by
    intro c
    induction c with
    | nil => intro s f; simp
    | cons p c ih =>
      intro s f
      rw [List.foldl_cons, ih, List.mem_filter]
      simp [and_assoc]
  have h2 : ∀ (C : List (List (ℤ × Bool))) (s : List ℤ) (f : ℤ),
      f ∈ C.foldl (fun s c => c.foldl (fun s p => s.filter fun f => decide (f ≠ p.1)) s) s ↔ f ∈ s ∧ ∀ c ∈ C, ∀ p ∈ c, f ≠ p.1 := by
    intro C
    induction C with
    | nil => intro s f; simp
    | cons c C ih =>
      intro s f
      rw [List.foldl_cons, ih, h1]
      simp [and_assoc]
  rw [List.isEmpty_iff, List.eq_nil_iff_forall_not_mem]
  constructor
  · intro h p hp
    by_cases he : Excused primal p.2
    · exact Or.inl he
    · right
      by_contra hno
      apply h p.1
      rw [h2]
      refine ⟨List.mem_map.2 ⟨p, List.mem_filter.2 ⟨hp, (excused_fold primal p.2).2 he⟩, rfl⟩, fun c hc q hq hpq => hno ?_⟩
      exact ⟨c, hc, q.2, by rw [hpq]; exact hq⟩
  · intro h f hf
    obtain ⟨h3, h4⟩ := (h2 _ _ _).1 hf
    obtain ⟨p, hp, rfl⟩ := List.mem_map.1 h3
    obtain ⟨hp1, hp2⟩ := List.mem_filter.1 hp
    rcases h p hp1 with he | ⟨m, hm, s, hs⟩
    · exact (excused_fold primal p.2).1 hp2 he
    · exact h4 m hm _ hs rfl

/-- **C114.** In a generator run whose faces have two sides, the utilization check fails exactly if some face, not excused, has a cell
with exterior neighbours only on each of its two sides. -/
theorem C114_utilization_generated (faces : List (ℤ × PFace)) (hs : OMap.Sorted intLt faces)
    (hc : CellCollapser.Clean (collapserFaces faces)) (shape : Fin 3 → ℤ)
    (hgb : ∀ p ∈ faces, CellCollapser.onGridBoundary shape p.2.mask = true → p.2.ext ≠ none) (ord : DEdge → List ℤ)
    (hord : ∀ e, (ord e).Perm ((CellCollapser.make (collapserFaces faces)).around e))
    (R : DsuRoots ((CellCollapser.make (collapserFaces faces)).merge ord).ds)
    (h2 : ∀ p ∈ faces, TwoCells (bakedCells faces ord R).cells p.1) (primal : Fin 3 → List DEdge) :
    checkFaceUtilization primal faces (keptCells faces shape ord R) = false ↔
      ∃ p ∈ faces, ¬ Excused primal p.2 ∧ ∀ b, SideOutside faces (bakedCells faces ord R).cells p.1 b := by
  rw [← Bool.not_eq_true, C114_utilization]
  push Not
  refine exists_congr fun p => and_congr_right fun hp => and_congr_right fun _ => ?_
  have hi : p.1 ∈ (collapserFaces faces).map Prod.fst := by
    unfold collapserFaces
    rw [List.map_map]
    exact List.mem_map.2 ⟨_, hp, rfl⟩
  have hnf := not_folded faces hc ord hord R p.1 (h2 _ hp)
  have hcnt := CellCollapser.C71_listed_once _ hc ord hord R p.1 hi hnf
  have hkept := keptCells_eq faces hs shape hgb ord R
  have kc : ∀ b, _ := fun b => kept_count faces hs (bakedCells faces ord R).cells p.1 b (hcnt b)
  rw [← hkept] at kc
  constructor
  · intro h b
    by_contra hno
    have h1 := (kc b).2 hno
    have : (p.1, b) ∈ (keptCells faces shape ord R).flatten := List.count_pos_iff.1 (by omega)
    obtain ⟨m, hm, hx⟩ := List.mem_flatten.1 this
    exact h m hm b hx
  · intro h m hm s hx
    have h0 := (kc s).1 (h s)
    rw [List.count_eq_zero] at h0
    exact h0 (List.mem_flatten.2 ⟨m, hm, hx⟩)

theorem vcross_coords (a b : Vec3) : vcross a b = ![a 1 * b 2 - a 2 * b 1, a 2 * b 0 - a 0 * b 2, a 0 * b 1 - a 1 * b 0] := by
  funext i
  match i with
  | 0 => rfl
  | 1 => rfl
  | 2 => rfl

/-- **C114, refuted.** For a triangle the area normal is three times the area vector. -/
theorem C114_triangle_refuted (V : ℕ → Vec3) (a b c : ℕ) : areaNormal V [a, b, c] = ((3 : ℚ) / 2) • twiceArea V [a, b, c] := by
  unfold areaNormal twiceArea
  have e : List.range [a, b, c].length = [0, 1, 2] := rfl
  rw [e]
  simp only [List.map_cons, List.map_nil, List.sum_cons, List.sum_nil]
  simp only [List.length_cons, List.length_nil, Nat.reduceAdd, Nat.reduceMod, List.getD_eq_getElem?_getD, List.getElem?_cons_zero,
    List.getElem?_cons_succ, Option.getD_some, add_zero, zero_add]
  simp only [vcross_coords]
  funext i
  match i with
  | 0 => simp; ring
  | 1 => simp; ring
  | 2 => simp; ring

/-- **C114, refuted.** For any closed quadrangle, flat or not, it is twice the area vector. -/
theorem C114_quad_refuted (V : ℕ → Vec3) (a b c d : ℕ) : areaNormal V [a, b, c, d] = twiceArea V [a, b, c, d] := by
  unfold areaNormal twiceArea
  have e : List.range [a, b, c, d].length = [0, 1, 2, 3] := rfl
  rw [e]
  simp only [List.map_cons, List.map_nil, List.sum_cons, List.sum_nil]
  simp only [List.length_cons, List.length_nil, Nat.reduceAdd, Nat.reduceMod, List.getD_eq_getElem?_getD, List.getElem?_cons_zero,
    List.getElem?_cons_succ, Option.getD_some, add_zero, zero_add]
  simp only [vcross_coords]
  funext i
  match i with
  | 0 => simp; ring
  | 1 => simp; ring
  | 2 => simp; ring

/-- a pentagon in the plane `x₂ = 0`, counter-clockwise. -/
def dart : ℕ → Vec3 := fun i => ![![4, 1, 0], ![0, 4, 0], ![1, 3, 0], ![0, 0, 0], ![1, 2, 0]] (Fin.ofNat 5 i)

/-- **C114, refuted.** For five vertices it need not even point to the side the area vector points to. -/
theorem C114_pentagon_refuted :
    twiceArea dart [0, 1, 2, 3, 4] 2 = 5 ∧ areaNormal dart [0, 1, 2, 3, 4] 2 = -2 := by
  constructor <;> decide +kernel

/-- **C114.** The area normal does not depend on where the polygon lies: moving all vertices by the same vector does not change it. -/
theorem C114_moved (V : ℕ → Vec3) (t : Vec3) (F : List ℕ) : areaNormal (fun i => V i + t) F = areaNormal V F := by
  unfold areaNormal
  simp only [add_sub_add_right_eq_sub]

-- non-vacuity: the cube with a small tetrahedron inside (C101) has faces whose both sides are lost, the two glued tetrahedra have none
example : checkFaceUtilization (fun _ => []) glued (keptCells glued ![1, 1, 1] gluedOrd gluedR) = true := by decide +kernel
example : checkFaceUtilization (fun _ => []) island
    (keptCells island ![9, 9, 9] (CellCollapser.make (collapserFaces island)).around islandR) = false := by decide +kernel
-- two faces of one grid cell, and a face whose vertices share no grid cell
example : checkCellContainment (fun i => Vertex.ofCoord ![(i : ℤ), 0, 0]) [(0, ⟨[[0, 1]], none, Mask.empty⟩), (1, ⟨[[1, 2]], none, Mask.empty⟩)] = some true := by
  decide +kernel
example : checkCellContainment (fun i => Vertex.ofCoord ![(i : ℤ), 0, 0]) [(0, ⟨[[0, 1]], none, Mask.empty⟩), (1, ⟨[[0, 2]], none, Mask.empty⟩)] = some false := by
  decide +kernel

end Gen3
end Mandoline
