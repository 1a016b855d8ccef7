import Verif.Geom.Line
import Verif.Adaptive.Factory

/-!
# C94: dual edge lengths in 3D

`dual_edge_lengths`, `dual_hodge2`, `primal_hodge2` (src/operators/volume3.cpp:73-131). Lengths need square roots, so
`double` is ℝ here.
-/
namespace Mandoline
namespace DualLengths3

/-- a cut face: the axis of its grid plane unless it is a piece of the input surface; `external_boundary`. -/
structure DFace where
  axis : Option (Fin 3)
  ext : Option (ℤ × Bool)

/-- a cut cell: the grid cell it lies in and its faces. -/
structure DCell where
  gridCell : Coord 3
  faces : List (ℕ × Bool)

/-- what `dual_edge_lengths` reads: `own` is `g.get(cid)`, the lookup in the ownership grid; `cell` is
`exterior_grid().cell(id)`; `adl` are the dual lengths of the exterior grid (C62). -/
structure DMesh where
  dx : Fin 3 → ℝ
  faces : List DFace
  cells : List DCell
  own : ℤ → ℤ
  cell : ℤ → ACell 3
  adl : List ℝ

variable (M : DMesh)

/-- `(dx.asDiagonal() * C).norm()` with `C = center - .5 - grid_cell` (volume3.cpp:85-90); `center` is
`corner + width / 2` (adaptive_grid.hpp:31). -/
noncomputable def extLength (dx : Fin 3 → ℝ) (c : ACell 3) (gc : Coord 3) : ℝ :=
  Line.norm fun i => dx i * ((c.1 i : ℝ) + (c.2 : ℝ) / 2 - 1 / 2 - (gc i : ℝ))

/-- the assignments of the first loop (volume3.cpp:77-95), in order. -/
noncomputable def DMesh.writes : List (ℕ × ℝ) :=
  M.cells.flatMap fun c => c.faces.filterMap fun fs =>
    match (M.faces[fs.1]?).bind DFace.ext with
    | none => none
    | some (cid, _) => if 0 ≤ cid then some (fs.1, extLength M.dx (M.cell (M.own cid)) c.gridCell) else none

/-- the assignments of the second loop (volume3.cpp:96-101). -/
def DMesh.writes2 : List (ℕ × ℝ) :=
  M.faces.zipIdx.filterMap fun fi => match fi.1.axis, fi.1.ext with
    | some ax, none => some (fi.2, M.dx ax)
    | _, _ => none

/-- running assignments. -/
def run (l : List (ℕ × ℝ)) (D : ℕ → ℝ) : ℕ → ℝ := l.foldl (fun D w => Function.update D w.1 w.2) D

/-- `dual_edge_lengths(ccm)` (volume3.cpp:73-106): a vector with one entry per face; the last ones are those of the
exterior grid. -/
noncomputable def DMesh.dualLengths : List ℝ :=
  ((List.range M.faces.length).map fun i => run M.writes2 (run M.writes fun _ => 0) i) ++ M.adl

/-- an entry of `dual_hodge2` / `primal_hodge2` (volume3.cpp:107-131): `num / den` above the threshold, else zero. -/
noncomputable def hodge (num den : ℝ) : ℝ := open Classical in if den > 1 / 100000 then num / den else 0

/-! ## specification -/

/-- world coordinates of the centre of the cube with lower corner `c` and width `w` (in grid cells). -/
noncomputable def worldCentre (origin dx : Fin 3 → ℝ) (c : Coord 3) (w : ℤ) : Fin 3 → ℝ := fun i => origin i + dx i * ((c i : ℝ) + (w : ℝ) / 2)

/-- distance of two points. -/
noncomputable def distance (x y : Fin 3 → ℝ) : ℝ := Real.sqrt ((x 0 - y 0) ^ 2 + (x 1 - y 1) ^ 2 + (x 2 - y 2) ^ 2)

/-! ## assignments -/

theorem run_of_forall (l : List (ℕ × ℝ)) (D : ℕ → ℝ) (i : ℕ) (x : ℝ) (hall : ∀ w ∈ l, w.1 = i → w.2 = x)
    (hx : (∃ w ∈ l, w.1 = i) ∨ D i = x) : run l D i = x := by
  unfold run
  induction l generalizing D with
  | nil =>
    rcases hx with ⟨w, hw, _⟩ | h
    · simp at hw
    · simpa using h
  | cons w l ih =>
    rw [List.foldl_cons]
    refine ih _ (fun w' hw' => hall w' (List.mem_cons_of_mem _ hw')) ?_
    by_cases hw : w.1 = i
    · right
      have := hall w List.mem_cons_self hw
      rw [← hw]; simp [this]
    · rcases hx with ⟨w', hw', e⟩ | h
      · rcases List.mem_cons.1 hw' with rfl | hw'
        · exact absurd e hw
        · exact Or.inl ⟨w', hw', e⟩
      · right
        rw [Function.update_of_ne (Ne.symm hw), h]

theorem mem_writes (i : ℕ) (x : ℝ) :
    (i, x) ∈ M.writes ↔ ∃ c ∈ M.cells, ∃ s, (i, s) ∈ c.faces ∧ ∃ f cid t, M.faces[i]? = some f ∧ f.ext = some (cid, t) ∧ 0 ≤ cid ∧
      x = extLength M.dx (M.cell (M.own cid)) c.gridCell := by
  unfold DMesh.writes
  rw [List.mem_flatMap]
  refine exists_congr fun c => and_congr_right fun hc => ?_
  rw [List.mem_filterMap]
  constructor
  · rintro ⟨⟨j, s⟩, hj, h⟩
    simp only at h
    cases hf : M.faces[j]? with
    | none => simp [hf] at h
    | some f =>
      rw [hf, Option.bind_some] at h
      cases he : f.ext with
      | none => simp [he] at h
      | some p =>
        obtain ⟨cid, t⟩ := p
        rw [he] at h
        simp only at h
        split_ifs at h with h0
        have e := Option.some.inj h
        rw [Prod.mk.injEq] at e
        obtain ⟨rfl, rfl⟩ := e
        exact ⟨s, hj, f, cid, t, hf, he, h0, rfl⟩
  · rintro ⟨s, hs, f, cid, t, hf, he, h0, rfl⟩
    refine ⟨(i, s), hs, ?_⟩
    simp only
    rw [hf, Option.bind_some, he]
    simp [h0]

theorem mem_writes2 (i : ℕ) (x : ℝ) :
    (i, x) ∈ M.writes2 ↔ ∃ f ax, M.faces[i]? = some f ∧ f.axis = some ax ∧ f.ext = none ∧ x = M.dx ax := by
  unfold DMesh.writes2
  rw [List.mem_filterMap]
  constructor
  · rintro ⟨⟨f, j⟩, hj, h⟩
    rw [List.mem_zipIdx_iff_getElem?] at hj
    simp only at h hj
    cases ha : f.axis with
    | none => simp [ha] at h
    | some ax =>
      cases he : f.ext with
      | some p => simp [ha, he] at h
      | none =>
        rw [ha, he] at h
        have e := Option.some.inj h
        rw [Prod.mk.injEq] at e
        obtain ⟨rfl, rfl⟩ := e
        exact ⟨f, ax, hj, ha, he, rfl⟩
  · rintro ⟨f, ax, hf, ha, he, rfl⟩
    refine ⟨(f, i), List.mem_zipIdx_iff_getElem?.2 hf, ?_⟩
    simp [ha, he]

theorem entry (i : ℕ) (f : DFace) (hf : M.faces[i]? = some f) :
    M.dualLengths[i]? = some (run M.writes2 (run M.writes fun _ => 0) i) := by
  have hi : i < M.faces.length := (List.getElem?_eq_some_iff.1 hf).1
  unfold DMesh.dualLengths
  rw [List.getElem?_append_left (by simpa using hi)]
  simp [hi]

/-! ## theorems -/

/-- **C94.** A face in a grid plane with cut cells on both sides has the grid spacing across the plane as dual length. -/
theorem C94_cut_cut (i : ℕ) (f : DFace) (ax : Fin 3) (hf : M.faces[i]? = some f) (ha : f.axis = some ax) (he : f.ext = none) :
    M.dualLengths[i]? = some (M.dx ax) := by
  rw [entry M i f hf]
  congr 1
  apply run_of_forall
  · rintro ⟨j, x⟩ hw rfl
    obtain ⟨f', ax', hf', ha', _, rfl⟩ := (mem_writes2 M j x).1 hw
    rw [hf] at hf'; cases hf'
    rw [ha] at ha'; cases ha'
    rfl
  · exact Or.inl ⟨(i, M.dx ax), (mem_writes2 M i _).2 ⟨f, ax, hf, ha, he, rfl⟩, rfl⟩

/-- **C94.** A piece of the input surface, and a face on the boundary of the domain, has dual length zero. -/
theorem C94_zero (i : ℕ) (f : DFace) (hf : M.faces[i]? = some f)
    (h : (f.axis = none ∧ f.ext = none) ∨ ∃ cid s, f.ext = some (cid, s) ∧ cid < 0) : M.dualLengths[i]? = some 0 := by
  rw [entry M i f hf]
  congr 1
  apply run_of_forall
  · rintro ⟨j, x⟩ hw rfl
    obtain ⟨f', ax', hf', ha', he', rfl⟩ := (mem_writes2 M j x).1 hw
    rw [hf] at hf'; cases hf'
    rcases h with ⟨h, _⟩ | ⟨cid, s, h, _⟩
    · rw [h] at ha'; cases ha'
    · rw [h] at he'; cases he'
  · right
    apply run_of_forall
    · rintro ⟨j, x⟩ hw rfl
      obtain ⟨c, _, s, _, f', cid, t, hf', he, h0, rfl⟩ := (mem_writes M j x).1 hw
      rw [hf] at hf'; cases hf'
      rcases h with ⟨_, h⟩ | ⟨cid', s', h, hneg⟩
      · rw [h] at he; cases he
      · rw [h] at he; cases he; omega
    · exact Or.inr rfl

/-- **C94.** A face between a cut cell and a cell of the exterior grid has the distance, in world coordinates, of the
centre of the grid cell the cut cell lies in from the centre of the exterior cell. -/
theorem C94_exterior (i : ℕ) (f : DFace) (cid : ℤ) (s : Bool) (hf : M.faces[i]? = some f) (he : f.ext = some (cid, s)) (h0 : 0 ≤ cid)
    (gc : Coord 3) (hc : ∃ c ∈ M.cells, ∃ t, (i, t) ∈ c.faces) (hgc : ∀ c ∈ M.cells, ∀ t, (i, t) ∈ c.faces → c.gridCell = gc)
    (origin : Fin 3 → ℝ) :
    M.dualLengths[i]? = some (distance (worldCentre origin M.dx (M.cell (M.own cid)).1 (M.cell (M.own cid)).2)
      (worldCentre origin M.dx gc 1)) := by
  rw [entry M i f hf]
  congr 1
  have hx : extLength M.dx (M.cell (M.own cid)) gc =
      distance (worldCentre origin M.dx (M.cell (M.own cid)).1 (M.cell (M.own cid)).2) (worldCentre origin M.dx gc 1) := by
    unfold extLength distance worldCentre Line.norm Line.dot
    congr 1
    rw [Fin.sum_univ_three]
    push_cast
    ring
  rw [← hx]
  apply run_of_forall
  · rintro ⟨j, x⟩ hw rfl
    obtain ⟨f', ax', hf', _, he', _⟩ := (mem_writes2 M j x).1 hw
    rw [hf] at hf'; cases hf'
    rw [he] at he'; cases he'
  · right
    apply run_of_forall
    · rintro ⟨j, x⟩ hw rfl
      obtain ⟨c, hcm, t, ht, f', cid', t', hf', he', _, rfl⟩ := (mem_writes M j x).1 hw
      rw [hf] at hf'; cases hf'
      rw [he] at he'; cases he'
      rw [hgc c hcm t ht]
    · left
      obtain ⟨c, hcm, t, ht⟩ := hc
      refine ⟨(i, extLength M.dx (M.cell (M.own cid)) gc), (mem_writes M i _).2 ⟨c, hcm, t, ht, f, cid, s, hf, he, h0, ?_⟩, rfl⟩
      rw [hgc c hcm t ht]

theorem distance_unit (origin dx : Fin 3 → ℝ) (hdx : ∀ i, 0 ≤ dx i) (a b : Coord 3) (ax : Fin 3)
    (h : ∀ i, i ≠ ax → a i = b i) (hs : a ax = b ax + 1 ∨ b ax = a ax + 1) :
    distance (worldCentre origin dx a 1) (worldCentre origin dx b 1) = dx ax := by
  have e : ∀ i, (worldCentre origin dx a 1 i - worldCentre origin dx b 1 i) ^ 2 = if i = ax then dx ax ^ 2 else 0 := by
    intro i
    unfold worldCentre
    split_ifs with hi
    · subst hi
      rcases hs with hs | hs <;> rw [hs] <;> push_cast <;> ring
    · rw [h i hi]; ring
  unfold distance
  rw [e, e, e]
  have : ((if (0 : Fin 3) = ax then dx ax ^ 2 else 0) + (if (1 : Fin 3) = ax then dx ax ^ 2 else 0) + if (2 : Fin 3) = ax then dx ax ^ 2 else 0) = dx ax ^ 2 := by
    match ax with
    | 0 => simp
    | 1 => simp
    | 2 => simp
  rw [this]
  exact Real.sqrt_sq (hdx ax)

/-- **C94.** If the exterior cell is a unit cell, next to the cut cell's grid cell along axis `ax`, the dual length is the
grid spacing along `ax`, the same as between two cut cells. -/
theorem C94_unit (hdx : ∀ i, 0 ≤ M.dx i) (i : ℕ) (f : DFace) (cid : ℤ) (s : Bool) (hf : M.faces[i]? = some f) (he : f.ext = some (cid, s)) (h0 : 0 ≤ cid)
    (gc : Coord 3) (hc : ∃ c ∈ M.cells, ∃ t, (i, t) ∈ c.faces) (hgc : ∀ c ∈ M.cells, ∀ t, (i, t) ∈ c.faces → c.gridCell = gc)
    (ax : Fin 3) (hw : (M.cell (M.own cid)).2 = 1) (hside : ∀ j, j ≠ ax → (M.cell (M.own cid)).1 j = gc j)
    (hax : (M.cell (M.own cid)).1 ax = gc ax + 1 ∨ gc ax = (M.cell (M.own cid)).1 ax + 1) :
    M.dualLengths[i]? = some (M.dx ax) := by
  rw [C94_exterior M i f cid s hf he h0 gc hc hgc fun _ => 0, hw, distance_unit _ _ hdx _ _ ax hside hax]

/-- **C94.** The vector has one entry per face; the faces of the exterior grid follow the cut faces. -/
theorem C94_size : M.dualLengths.length = M.faces.length + M.adl.length ∧
    ∀ (k : ℕ) (x : ℝ), M.adl[k]? = some x → M.dualLengths[M.faces.length + k]? = some x := by
  unfold DMesh.dualLengths
  refine ⟨by simp, fun k x hx => ?_⟩
  rw [List.getElem?_append_right (by simp)]
  simpa using hx

/-- **C94.** So the weights of `dual_hodge2`: area over spacing between cut cells, zero on pieces of the input surface and
on the domain boundary (nothing flows through them). -/
theorem C94_weights (i : ℕ) (f : DFace) (hf : M.faces[i]? = some f) (PV : ℝ) :
    (∀ ax, f.axis = some ax → f.ext = none → 1 / 100000 < M.dx ax →
      ∃ d, M.dualLengths[i]? = some d ∧ hodge PV d * M.dx ax = PV) ∧
    ((f.axis = none ∧ f.ext = none) ∨ (∃ cid s, f.ext = some (cid, s) ∧ cid < 0) →
      ∃ d, M.dualLengths[i]? = some d ∧ hodge PV d = 0) := by
  refine ⟨fun ax ha he h => ⟨_, C94_cut_cut M i f ax hf ha he, ?_⟩, fun h => ⟨_, C94_zero M i f hf h, ?_⟩⟩
  · unfold hodge
    rw [if_pos h]
    have : M.dx ax ≠ 0 := by
      intro e; rw [e] at h; norm_num at h
    field_simp
  · unfold hodge
    rw [if_neg (by norm_num)]

/-- **C94.** The distance of the centres is not the distance of the centre planes when the exterior cell is wider: a cut cell next
to a cell of width 2 (spacings 1). -/
theorem C94_normal_distance_refuted : distance (worldCentre (fun _ => 0) (fun _ => 1) ![2, 0, 0] 2) (worldCentre (fun _ => 0) (fun _ => 1) ![1, 0, 0] 1) ≠ 3 / 2 := by
  intro h
  have h2 : distance (worldCentre (fun _ => 0) (fun _ => 1) ![2, 0, 0] 2) (worldCentre (fun _ => 0) (fun _ => 1) ![1, 0, 0] 1) ^ 2 = 11 / 4 := by
    unfold distance
    rw [Real.sq_sqrt (by positivity)]
    unfold worldCentre
    have e : (![2, 0, 0] : Coord 3) 2 = 0 ∧ (![1, 0, 0] : Coord 3) 2 = 0 := ⟨rfl, rfl⟩
    rw [e.1, e.2]
    norm_num
  rw [h] at h2
  norm_num at h2

/-- two faces of one cut cell in grid cell (1,0,0): one to a unit exterior cell at (2,0,0), one on the domain boundary. -/
example : let M : DMesh := ⟨fun _ => 1, [⟨some 0, some (5, true)⟩, ⟨some 1, some (-2, false)⟩], [⟨![1, 0, 0], [(0, true), (1, false)]⟩],
      fun c => c + 1, fun _ => (![2, 0, 0], 1), []⟩
    M.dualLengths[0]? = some 1 ∧ M.dualLengths[1]? = some 0 := by
  intro M
  refine ⟨C94_unit M (fun _ => zero_le_one) 0 ⟨some 0, some (5, true)⟩ 5 true rfl rfl (by norm_num) ![1, 0, 0] ⟨_, List.mem_singleton.2 rfl, true, by simp⟩ ?_ 0 rfl ?_ (Or.inl rfl),
    C94_zero M 1 ⟨some 1, some (-2, false)⟩ rfl (Or.inr ⟨-2, false, rfl, by norm_num⟩)⟩
  · intro c hc t _
    rw [List.mem_singleton.1 hc]
  · intro j hj
    match j with
    | 0 => exact absurd rfl hj
    | 1 => rfl
    | 2 => rfl

end DualLengths3
end Mandoline
