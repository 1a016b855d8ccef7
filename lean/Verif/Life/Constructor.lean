import Mathlib.Data.Rat.Defs
import Mathlib.Data.List.Basic
import Mathlib.Data.List.Induction
import Mathlib.Tactic.Linarith

/-!
# Model of `DeformingGeometryConstructor` (src/construction/construct.cpp:35-80)

Vertices, triangles and grids are abstract types `Vt`, `Fc`, `Gr`; `Gv` is a vertex in grid coordinates and
`toGrid grid threshold v` is the conversion made by `CutCellEdgeGenerator::update_vertices`
(generator_impl.hpp:44-86: `get_vertex`, then thresholding if a threshold is given, with the default tolerance if it is
negative). The result of the generator's computation is represented by the inputs it was computed from; results that
`bake` appends without clearing them first (`m_cut_edges`, `m_cut_faces` of `CutData`, cutdata_impl.hpp:117-120, 222-227)
are lists, so that a missing `clear` is visible.
-/
namespace Mandoline
namespace Life
variable {Vt Gv Fc Gr : Type}

/-- the inputs a bake reads. -/
structure Inputs (Gv Fc Gr : Type) where
  grid : Gr
  gv : List Gv
  topo : Fc
  level : ℤ

/-- the constructor object: `_ccg` (the generator's stored inputs and baked results) and `_dirty` (construct.hpp:31-33). -/
structure DGC (Gv Fc Gr : Type) where
  grid : Gr
  gv : List Gv
  topo : Fc
  level : ℤ
  dirty : Bool
  /-- results stored in `CutData` (appended by `bake`). -/
  data : List (Inputs Gv Fc Gr)
  /-- results stored in the generator itself. -/
  gen : List (Inputs Gv Fc Gr)

/-- the public mutating calls (construct.hpp:21-27). -/
inductive Op (Vt Fc Gr : Type) where
  | updateVertices (V : List Vt) (thr : Option ℚ)
  | updateTopology (F : Fc)
  | updateMesh (V : List Vt) (F : Fc) (thr : Option ℚ)
  | updateGrid (g : Gr)
  | setAdaptivity (l : ℤ)
  | bake

/-- what the generator currently holds. -/
def DGC.inputs (s : DGC Gv Fc Gr) : Inputs Gv Fc Gr := ⟨s.grid, s.gv, s.topo, s.level⟩

/-- `std::transform(V.begin(), V.end(), m_data.m_V.begin(), …)` (generator_impl.hpp:57): the array is not resized. Writing
past its end is undefined behaviour; here such writes are dropped. -/
def overwrite (old new : List Gv) : List Gv := new.take old.length ++ old.drop new.length

/-- `CutCellEdgeGenerator::update_vertices` (generator_impl.hpp:44-86). -/
def DGC.genUpdateVertices (toGrid : Gr → Option ℚ → Vt → Gv) (s : DGC Gv Fc Gr) (V : List Vt) (thr : Option ℚ) : DGC Gv Fc Gr :=
  { s with gv := overwrite s.gv (V.map (toGrid s.grid thr)) }

/-- `CutCellEdgeGenerator::set_boundary_elements` (generator_impl.hpp:193-197): `reset_topology` drops everything stored in
`CutData` but the vertices (cutdata_impl.hpp:404-409). -/
def DGC.genSetTopology (s : DGC Gv Fc Gr) (F : Fc) : DGC Gv Fc Gr := { s with topo := F, data := [] }

/-- `CutCellGenerator<3>::clear` (generator3.cpp:165-186) with `CutCellEdgeGenerator::clear` (generator_impl.hpp:621-634) and
`CutData::clear` (cutdata_impl.hpp:391-398). -/
def DGC.genClear (s : DGC Gv Fc Gr) : DGC Gv Fc Gr := { s with data := [], gen := [] }

/-- `CutCellGenerator<3>::bake` (generator3.cpp:188-201): a result is appended. -/
def DGC.genBake (s : DGC Gv Fc Gr) : DGC Gv Fc Gr := { s with data := s.data ++ [s.inputs], gen := s.gen ++ [s.inputs] }

/-- one public call. `update_topology` does not set `_dirty` (construct.cpp:58-60); `update_grid` stores the grid but leaves
the vertices in the coordinates of the old one (generator_impl.hpp:88-91). -/
def step (toGrid : Gr → Option ℚ → Vt → Gv) (s : DGC Gv Fc Gr) : Op Vt Fc Gr → DGC Gv Fc Gr
  | .updateVertices V thr => { s.genUpdateVertices toGrid V thr with dirty := true }
  | .updateTopology F => s.genSetTopology F
  | .updateMesh V F thr => { (s.genUpdateVertices toGrid V thr).genSetTopology F with dirty := true }
  | .updateGrid g => { s with grid := g, dirty := true }
  | .setAdaptivity l => { s with level := l, dirty := true }
  | .bake => if s.dirty then { s.genClear.genBake with dirty := false } else s

/-- the constructor (construct.cpp:35-46). The threshold is passed on to the generator's constructor, which ignores it and
calls `update_vertices(V)` with the default threshold `-1` (generator_impl.hpp:35-42). -/
def ctor (toGrid : Gr → Option ℚ → Vt → Gv) (V : List Vt) (F : Fc) (g : Gr) (level : ℤ) (_thr : Option ℚ) : DGC Gv Fc Gr :=
  { DGC.genBake ⟨g, V.map (toGrid g (some (-1))), F, level, true, [], []⟩ with dirty := false }

/-- state after a history of calls. -/
def run (toGrid : Gr → Option ℚ → Vt → Gv) (s : DGC Gv Fc Gr) (h : List (Op Vt Fc Gr)) : DGC Gv Fc Gr := h.foldl (step toGrid) s

/-- what `emit` builds the mesh from (construct.cpp:80, `generate`). -/
def emit (s : DGC Gv Fc Gr) : List (Inputs Gv Fc Gr) × List (Inputs Gv Fc Gr) := (s.data, s.gen)

/-! ## specification: the most recent inputs -/

/-- the inputs most recently supplied by the user. -/
structure Latest (Vt Fc Gr : Type) where
  V : List Vt
  thr : Option ℚ
  F : Fc
  g : Gr
  level : ℤ

/-- what a call supplies. -/
def Latest.supply (L : Latest Vt Fc Gr) : Op Vt Fc Gr → Latest Vt Fc Gr
  | .updateVertices V thr => { L with V := V, thr := thr }
  | .updateTopology F => { L with F := F }
  | .updateMesh V F thr => { L with V := V, thr := thr, F := F }
  | .updateGrid g => { L with g := g }
  | .setAdaptivity l => { L with level := l }
  | .bake => L

/-- the inputs most recently supplied in the history `h`. -/
def latest (L : Latest Vt Fc Gr) (h : List (Op Vt Fc Gr)) : Latest Vt Fc Gr := h.foldl Latest.supply L

/-- what a computation from the latest inputs reads: every vertex in the coordinates of the latest grid. -/
def Latest.wanted (toGrid : Gr → Option ℚ → Vt → Gv) (L : Latest Vt Fc Gr) : Inputs Gv Fc Gr :=
  ⟨L.g, L.V.map (toGrid L.g L.thr), L.F, L.level⟩

/-- calls that mark the object as changed. -/
def Op.dirties : Op Vt Fc Gr → Prop
  | .updateTopology _ => False
  | .bake => False
  | _ => True

/-- calls that supply vertices. -/
def Op.setsVertices : Op Vt Fc Gr → Prop
  | .updateVertices _ _ => True
  | .updateMesh _ _ _ => True
  | _ => False

/-- number of vertices supplied by a call, if any. -/
def Op.count : Op Vt Fc Gr → Option ℕ
  | .updateVertices V _ => some V.length
  | .updateMesh V _ _ => some V.length
  | _ => none

/-- the last `update_topology` of the history has a marking call after it, or before it since the previous `bake`. -/
def TopologyCovered (h : List (Op Vt Fc Gr)) : Prop :=
  ∀ a F c, h = a ++ Op.updateTopology F :: c → (∀ F', Op.updateTopology F' ∉ c) →
    (∃ x ∈ c, x.dirties) ∨ ∃ p q, a = p ++ q ∧ Op.bake ∉ q ∧ ∃ x ∈ q, x.dirties

/-- the last `update_grid` of the history is followed by a call supplying the vertices. -/
def GridCovered (h : List (Op Vt Fc Gr)) : Prop :=
  ∀ a g c, h = a ++ Op.updateGrid g :: c → (∀ g', Op.updateGrid g' ∉ c) → ∃ x ∈ c, x.setsVertices

/-- every call supplies as many vertices as the constructor was given. -/
def SameCount (n : ℕ) (h : List (Op Vt Fc Gr)) : Prop := ∀ x ∈ h, ∀ k, x.count = some k → k = n

/-! ## proof -/

theorem run_snoc (toGrid : Gr → Option ℚ → Vt → Gv) (s : DGC Gv Fc Gr) (h : List (Op Vt Fc Gr)) (x : Op Vt Fc Gr) :
    run toGrid s (h ++ [x]) = step toGrid (run toGrid s h) x := by simp [run]
theorem latest_snoc (L : Latest Vt Fc Gr) (h : List (Op Vt Fc Gr)) (x : Op Vt Fc Gr) :
    latest L (h ++ [x]) = (latest L h).supply x := by simp [latest]

theorem overwrite_same (old new : List Gv) (h : new.length = old.length) : overwrite old new = new := by
  simp [overwrite, h.symm]

theorem snoc_split {α : Type*} {h a c : List α} {x y : α} (hs : h ++ [x] = a ++ y :: c) :
    (c = [] ∧ y = x ∧ a = h) ∨ ∃ c', c = c' ++ [x] ∧ h = a ++ y :: c' := by
  rcases List.eq_nil_or_concat' c with rfl | ⟨c', z, rfl⟩
  · left
    have := List.append_inj' hs rfl
    exact ⟨rfl, by simpa using this.2.symm, this.1.symm⟩
  · right
    rw [← List.cons_append, ← List.append_assoc] at hs
    have := List.append_inj' hs rfl
    have hz : x = z := by simpa using this.2
    exact ⟨c', by rw [hz], this.1⟩

/-- the invariant carried along a history. -/
structure Inv (toGrid : Gr → Option ℚ → Vt → Gv) (n : ℕ) (h : List (Op Vt Fc Gr)) (s : DGC Gv Fc Gr) (L : Latest Vt Fc Gr) : Prop where
  grid : s.grid = L.g
  topo : s.topo = L.F
  level : s.level = L.level
  len : L.V.length = n
  gv : ∃ g0, s.gv = L.V.map (toGrid g0 L.thr) ∧ (GridCovered h → g0 = L.g)
  dirtyWhy : s.dirty = true → ∃ p q, h = p ++ q ∧ Op.bake ∉ q ∧ ∃ x ∈ q, x.dirties
  fresh : s.dirty = false → (emit s = ([s.inputs], [s.inputs])) ∨ ¬ TopologyCovered h
  clean : s.dirty = false → ∀ p q, h = p ++ q → Op.bake ∉ q → ∀ x ∈ q, ¬ x.dirties

theorem gridCovered_mono {h : List (Op Vt Fc Gr)} {x : Op Vt Fc Gr} (hx : ∀ g, x ≠ .updateGrid g) (hv : ¬ x.setsVertices)
    (hc : GridCovered (h ++ [x])) : GridCovered h := by
  intro a g c hs hn
  obtain ⟨y, hy, hy2⟩ := hc a g (c ++ [x]) (by rw [hs]; simp) (by
    intro g' hm; rcases List.mem_append.1 hm with hm | hm
    · exact hn g' hm
    · exact hx g' (List.mem_singleton.1 hm).symm)
  rcases List.mem_append.1 hy with hy | hy
  · exact ⟨y, hy, hy2⟩
  · rw [List.mem_singleton.1 hy] at hy2; exact absurd hy2 hv

theorem not_topologyCovered_snoc {h : List (Op Vt Fc Gr)} {x : Op Vt Fc Gr} (hx : ∀ F, x ≠ .updateTopology F) (hd : ¬ x.dirties)
    (hc : ¬ TopologyCovered h) : ¬ TopologyCovered (h ++ [x]) := by
  intro hc'
  apply hc
  intro a F c hs hn
  rcases hc' a F (c ++ [x]) (by rw [hs]; simp) (by
    intro g' hm; rcases List.mem_append.1 hm with hm | hm
    · exact hn g' hm
    · exact hx g' (List.mem_singleton.1 hm).symm) with ⟨y, hy, hy2⟩ | h2
  · rcases List.mem_append.1 hy with hy | hy
    · exact Or.inl ⟨y, hy, hy2⟩
    · rw [List.mem_singleton.1 hy] at hy2; exact absurd hy2 hd
  · exact Or.inr h2

theorem dirtyWhy_snoc {h : List (Op Vt Fc Gr)} {x : Op Vt Fc Gr} (hx : x ≠ .bake)
    (hc : ∃ p q, h = p ++ q ∧ Op.bake ∉ q ∧ ∃ x ∈ q, x.dirties) :
    ∃ p q, h ++ [x] = p ++ q ∧ Op.bake ∉ q ∧ ∃ x ∈ q, x.dirties := by
  obtain ⟨p, q, rfl, hq, y, hy, hd⟩ := hc
  refine ⟨p, q ++ [x], by simp, ?_, y, by simp [hy], hd⟩
  intro hm
  rcases List.mem_append.1 hm with hm | hm
  · exact hq hm
  · exact hx (List.mem_singleton.1 hm).symm

theorem clean_snoc {h : List (Op Vt Fc Gr)} {x : Op Vt Fc Gr} (hd : ¬ x.dirties)
    (hc : ∀ p q, h = p ++ q → Op.bake ∉ q → ∀ y ∈ q, ¬ y.dirties) :
    ∀ p q, h ++ [x] = p ++ q → Op.bake ∉ q → ∀ y ∈ q, ¬ y.dirties := by
  intro p q hs hq y hy
  rcases List.eq_nil_or_concat' q with rfl | ⟨q', z, rfl⟩
  · exact absurd hy (by simp)
  · rw [← List.append_assoc] at hs
    have hs' := List.append_inj' hs rfl
    have hz : x = z := by simpa using hs'.2
    rcases List.mem_append.1 hy with hy | hy
    · exact hc p q' hs'.1 (fun hm => hq (List.mem_append_left _ hm)) y hy
    · rw [List.mem_singleton.1 hy, ← hz]; exact hd

theorem inv_run (toGrid : Gr → Option ℚ → Vt → Gv) (V : List Vt) (F : Fc) (g : Gr) (level : ℤ) (thr : Option ℚ)
    (h : List (Op Vt Fc Gr)) (hn : SameCount V.length h) :
    Inv toGrid V.length h (run toGrid (ctor toGrid V F g level thr) h) (latest ⟨V, some (-1), F, g, level⟩ h) := by
  induction h using List.reverseRecOn with
  | nil =>
    exact ⟨rfl, rfl, rfl, rfl, ⟨g, rfl, fun _ => rfl⟩, fun hd => absurd hd (by simp [run, ctor]), fun _ => Or.inl rfl,
      fun _ p q hs _ x hx => by
        have : q = [] := (List.append_eq_nil_iff.1 hs.symm).2
        rw [this] at hx; exact absurd hx (by simp)⟩
  | append_singleton h x ih =>
    have ih := ih fun y hy => hn y (List.mem_append_left _ hy)
    have hxn := hn x (by simp)
    rw [run_snoc, latest_snoc]
    generalize run toGrid (ctor toGrid V F g level thr) h = s at ih ⊢
    generalize latest ⟨V, some (-1), F, g, level⟩ h = L at ih ⊢
    obtain ⟨i1, i2, i3, i4, ⟨g0, i5, i6⟩, i7, i8, i9⟩ := ih
    have hdirty : ∀ y : Op Vt Fc Gr, y.dirties → ∃ p q, h ++ [y] = p ++ q ∧ Op.bake ∉ q ∧ ∃ x ∈ q, x.dirties := by
      intro y hy
      refine ⟨h, [y], rfl, ?_, y, by simp, hy⟩
      intro hm; rw [← List.mem_singleton.1 hm] at hy; exact hy
    cases x with
    | updateVertices V' thr' =>
      have hl : V'.length = V.length := hxn _ rfl
      refine ⟨i1, i2, i3, hl, ⟨s.grid, ?_, fun _ => i1⟩, fun _ => hdirty _ trivial, nofun, nofun⟩
      exact overwrite_same _ _ (by rw [List.length_map, hl, i5, List.length_map, i4])
    | updateMesh V' F' thr' =>
      have hl : V'.length = V.length := hxn _ rfl
      refine ⟨i1, rfl, i3, hl, ⟨s.grid, ?_, fun _ => i1⟩, fun _ => hdirty _ trivial, nofun, nofun⟩
      exact overwrite_same _ _ (by rw [List.length_map, hl, i5, List.length_map, i4])
    | updateGrid g' =>
      refine ⟨rfl, i2, i3, i4, ⟨g0, i5, ?_⟩, fun _ => hdirty _ trivial, nofun, nofun⟩
      intro hc
      obtain ⟨x, hx, -⟩ := hc h g' [] rfl (by simp)
      exact absurd hx (by simp)
    | setAdaptivity l =>
      refine ⟨i1, i2, rfl, i4, ⟨g0, i5, fun hc => i6 (gridCovered_mono (fun _ h => by cases h) id hc)⟩, fun _ => hdirty _ trivial, nofun, nofun⟩
    | updateTopology F' =>
      refine ⟨i1, rfl, i3, i4, ⟨g0, i5, fun hc => i6 (gridCovered_mono (fun _ h => by cases h) id hc)⟩,
        fun hd => dirtyWhy_snoc (fun h => by cases h) (i7 hd), ?_, fun hd => clean_snoc id (i9 hd)⟩
      intro hd
      right
      intro hc
      rcases hc h F' [] rfl (by simp) with ⟨x, hx, -⟩ | ⟨p, q, hs, hq, x, hx, hxd⟩
      · exact absurd hx (by simp)
      · exact i9 hd p q hs hq x hx hxd
    | bake =>
      show Inv toGrid V.length (h ++ [.bake]) (if s.dirty then { s.genClear.genBake with dirty := false } else s) L
      cases hd : s.dirty with
      | true =>
        refine ⟨i1, i2, i3, i4, ⟨g0, i5, fun hc => i6 (gridCovered_mono (fun _ h => by cases h) id hc)⟩, nofun, fun _ => Or.inl rfl, ?_⟩
        intro _ p q hs hq x hx
        rcases List.eq_nil_or_concat' q with rfl | ⟨q', z, rfl⟩
        · exact absurd hx (by simp)
        · rw [← List.append_assoc] at hs
          have hz : Op.bake = z := by simpa using (List.append_inj' hs rfl).2
          exact absurd (by rw [hz]; simp) hq
      | false =>
        refine ⟨i1, i2, i3, i4, ⟨g0, i5, fun hc => i6 (gridCovered_mono (fun _ h => by cases h) id hc)⟩, fun h' => absurd (hd.symm.trans h') (by simp), ?_,
          fun hd => clean_snoc id (i9 hd)⟩
        intro hd
        rcases i8 hd with h1 | h1
        · exact Or.inl h1
        · exact Or.inr (not_topologyCovered_snoc (fun _ h => by cases h) id h1)

/-- **C44** after a final `bake`, `emit` is built, once, from the inputs most recently supplied, for every history of calls
in which (a) every call supplies the original number of vertices, (b) the last `update_topology` comes with a call that
marks the object as changed, and (c) the last `update_grid` is followed by a call supplying the vertices. -/
theorem C44_bake_reflects_latest (toGrid : Gr → Option ℚ → Vt → Gv) (V : List Vt) (F : Fc) (g : Gr) (level : ℤ)
    (thr : Option ℚ) (h : List (Op Vt Fc Gr)) (hn : SameCount V.length h) (ht : TopologyCovered h) (hg : GridCovered h) :
    let w := (latest ⟨V, some (-1), F, g, level⟩ h).wanted toGrid
    emit (run toGrid (ctor toGrid V F g level thr) (h ++ [.bake])) = ([w], [w]) := by
  obtain ⟨i1, i2, i3, i4, ⟨g0, i5, i6⟩, -, i8, -⟩ := inv_run toGrid V F g level thr h hn
  rw [run_snoc]
  generalize run toGrid (ctor toGrid V F g level thr) h = s at *
  generalize latest ⟨V, some (-1), F, g, level⟩ h = L at *
  have hin : s.inputs = L.wanted toGrid := by
    simp only [DGC.inputs, Latest.wanted, i1, i2, i3, i5, i6 hg]
  show emit (if s.dirty then { s.genClear.genBake with dirty := false } else s) = ([L.wanted toGrid], [L.wanted toGrid])
  cases hd : s.dirty with
  | true => rw [← hin]; rfl
  | false =>
    rcases i8 hd with h1 | h1
    · rw [← hin]; simpa using h1
    · exact absurd ht h1

/-- **C44** `bake` on an unchanged object does nothing; in particular baking twice is baking once. -/
theorem C44_bake_idempotent (toGrid : Gr → Option ℚ → Vt → Gv) (s : DGC Gv Fc Gr) :
    step toGrid (step toGrid s (.bake : Op Vt Fc Gr)) .bake = step toGrid s .bake := by
  cases hd : s.dirty <;> simp [step, hd]

/-- **C44** deforming: for any number of rounds "`update_vertices`, `bake`" (with the number of vertices fixed) the result is
that of the last round's vertices on the original topology and grid. -/
theorem C44_deformation_loop (toGrid : Gr → Option ℚ → Vt → Gv) (V : List Vt) (F : Fc) (g : Gr) (level : ℤ)
    (thr : Option ℚ) (rounds : List (List Vt × Option ℚ)) (W : List Vt) (t : Option ℚ)
    (hr : ∀ r ∈ rounds, r.1.length = V.length) (hW : W.length = V.length) :
    let s := run toGrid (ctor toGrid V F g level thr)
      ((rounds.flatMap fun r => [.updateVertices r.1 r.2, .bake]) ++ [.updateVertices W t] ++ [.bake])
    emit s = ([⟨g, W.map (toGrid g t), F, level⟩], [⟨g, W.map (toGrid g t), F, level⟩]) := by
  have hmem : ∀ x ∈ (rounds.flatMap fun r => [Op.updateVertices (Fc := Fc) (Gr := Gr) r.1 r.2, .bake]),
      (∃ r ∈ rounds, x = .updateVertices r.1 r.2) ∨ x = .bake := by
    intro x hx
    obtain ⟨r, hr, hx⟩ := List.mem_flatMap.1 hx
    simp only [List.mem_cons, List.not_mem_nil, or_false] at hx
    rcases hx with rfl | rfl
    · exact Or.inl ⟨r, hr, rfl⟩
    · exact Or.inr rfl
  have hmem2 : ∀ x ∈ (rounds.flatMap fun r => [Op.updateVertices (Fc := Fc) (Gr := Gr) r.1 r.2, .bake]) ++ [.updateVertices W t],
      (∃ r ∈ rounds, x = .updateVertices r.1 r.2) ∨ x = .bake ∨ x = .updateVertices W t := by
    intro x hx
    rcases List.mem_append.1 hx with hx | hx
    · rcases hmem x hx with h | h
      · exact Or.inl h
      · exact Or.inr (Or.inl h)
    · exact Or.inr (Or.inr (List.mem_singleton.1 hx))
  have key := C44_bake_reflects_latest toGrid V F g level thr
    ((rounds.flatMap fun r => [.updateVertices r.1 r.2, .bake]) ++ [.updateVertices W t]) ?_ ?_ ?_
  · have hL : ∀ (rs : List (List Vt × Option ℚ)) (L : Latest Vt Fc Gr),
        let L' := latest L (rs.flatMap fun r => [.updateVertices r.1 r.2, .bake])
        L'.F = L.F ∧ L'.g = L.g ∧ L'.level = L.level := by
      intro rs
      induction rs with
      | nil => intro L; exact ⟨rfl, rfl, rfl⟩
      | cons r rs ih => intro L; exact ih { L with V := r.1, thr := r.2 }
    obtain ⟨h1, h2, h3⟩ := hL rounds ⟨V, some (-1), F, g, level⟩
    rw [latest_snoc] at key
    simp only [Latest.supply, Latest.wanted] at key
    rw [h1, h2, h3] at key
    exact key
  · intro x hx k hk
    rcases hmem2 x hx with ⟨r, hr', rfl⟩ | rfl | rfl
    · rw [← Option.some.inj hk]; exact hr r hr'
    · exact absurd hk (by simp [Op.count])
    · rw [← Option.some.inj hk]; exact hW
  · intro a F' c hs _
    exfalso
    rcases hmem2 (.updateTopology F') (by rw [hs]; simp) with ⟨r, _, h⟩ | h | h <;> cases h
  · intro a g' c hs _
    exfalso
    rcases hmem2 (.updateGrid g') (by rw [hs]; simp) with ⟨r, _, h⟩ | h | h <;> cases h

/-- **C44, defect** a topology supplied alone is ignored by the following `bake`: the baked result of the generator remains
that of the old topology (and what `CutData` held is gone). -/
theorem C44_topology_alone_refuted (toGrid : Gr → Option ℚ → Vt → Gv) (V : List Vt) (F F' : Fc) (g : Gr) (level : ℤ)
    (thr : Option ℚ) :
    emit (run toGrid (ctor toGrid V F g level thr) [.updateTopology F', .bake]) =
      ([], [⟨g, V.map (toGrid g (some (-1))), F, level⟩]) := rfl

/-- **C44, defect** a grid supplied alone leaves the vertices in the coordinates of the old grid. -/
theorem C44_grid_alone_refuted (toGrid : Gr → Option ℚ → Vt → Gv) (V : List Vt) (F : Fc) (g g' : Gr) (level : ℤ)
    (thr : Option ℚ) :
    emit (run toGrid (ctor toGrid V F g level thr) [.updateGrid g', .bake]) =
      ([⟨g', V.map (toGrid g (some (-1))), F, level⟩], [⟨g', V.map (toGrid g (some (-1))), F, level⟩]) := rfl

/-- **C44, defect** the threshold given to the constructor has no effect. -/
theorem C44_ctor_threshold_refuted (toGrid : Gr → Option ℚ → Vt → Gv) (V : List Vt) (F : Fc) (g : Gr) (level : ℤ)
    (thr thr' : Option ℚ) : ctor toGrid V F g level thr = ctor toGrid V F g level thr' := rfl

/-- **C44, defect** supplying fewer vertices keeps the old tail. -/
theorem C44_fewer_vertices_refuted (toGrid : Gr → Option ℚ → Vt → Gv) (V W : List Vt) (F : Fc) (g : Gr) (level : ℤ)
    (thr t : Option ℚ) (hW : W.length < V.length) :
    let i : Inputs Gv Fc Gr := ⟨g, W.map (toGrid g t) ++ (V.drop W.length).map (toGrid g (some (-1))), F, level⟩
    emit (run toGrid (ctor toGrid V F g level thr) [.updateVertices W t, .bake]) = ([i], [i]) := by
  have : overwrite (V.map (toGrid g (some (-1)))) (W.map (toGrid g t)) =
      W.map (toGrid g t) ++ (V.drop W.length).map (toGrid g (some (-1))) := by
    rw [overwrite, List.take_of_length_le (by simp; omega), List.length_map, List.map_drop]
  simp only [run, List.foldl_cons, List.foldl_nil, step, DGC.genUpdateVertices, ctor, DGC.genBake, DGC.genClear, DGC.inputs, emit,
    if_true, this, List.nil_append]

/-- a history with every kind of call meets the hypotheses of `C44_bake_reflects_latest`. -/
def exHistory : List (Op ℤ ℤ ℤ) :=
  [.bake, .updateGrid 7, .updateVertices [1, 2] none, .updateTopology 5, .setAdaptivity 3, .bake, .updateMesh [3, 4] 6 (some 1)]

example : SameCount 2 exHistory ∧ TopologyCovered exHistory ∧ GridCovered exHistory := by
  refine ⟨?_, ?_, ?_⟩
  · intro x hx k hk
    simp only [exHistory, List.mem_cons, List.not_mem_nil, or_false] at hx
    rcases hx with rfl | rfl | rfl | rfl | rfl | rfl | rfl <;> simp [Op.count] at hk <;> omega
  · intro a F c hs hn
    left
    refine ⟨.updateMesh [3, 4] 6 (some 1), ?_, trivial⟩
    have : exHistory = exHistory.dropLast ++ [.updateMesh [3, 4] 6 (some 1)] := rfl
    rw [this] at hs
    rcases snoc_split hs with ⟨-, h, -⟩ | ⟨c', rfl, -⟩
    · cases h
    · simp
  · intro a F c hs hn
    refine ⟨.updateMesh [3, 4] 6 (some 1), ?_, trivial⟩
    have : exHistory = exHistory.dropLast ++ [.updateMesh [3, 4] 6 (some 1)] := rfl
    rw [this] at hs
    rcases snoc_split hs with ⟨-, h, -⟩ | ⟨c', rfl, -⟩
    · cases h
    · simp

end Life
end Mandoline
