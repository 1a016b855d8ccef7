import Verif.Life.Constructor
import Mathlib.Data.Fin.VecNotation
import Mathlib.Algebra.Order.Field.Rat

/-!
# C131: the interactive wrapper `CutmeshGenerator_Imgui` and the one-shot entry points

`CutmeshGenerator_Imgui` (src/construction/construct_imgui.cpp, include/mandoline/construction/construct_imgui.hpp) derives from
`DeformingGeometryConstructor`, whose model (C44, `Verif.Life.Constructor`) is used as it is. Library functions are parameters:
`mkGrid box N cubes` is `StaggeredGrid3d::from_bbox`, `boxOf V` is `bounding_box`, `expand box s` is `expand_bbox`. The casts between
`float` and `double` are the identity.
-/
namespace Mandoline
namespace Life
variable {Gv Fc Gr : Type}

/-- a box: lower and upper corner. -/
abbrev Bx := (Fin 3 → ℚ) × (Fin 3 → ℚ)
/-- a point. -/
abbrev P3 := Fin 3 → ℚ

/-- the library functions used by the wrapper. -/
structure Env (Gv Gr : Type) where
  toGrid : Gr → Option ℚ → P3 → Gv
  mkGrid : Bx → (Fin 3 → ℤ) → Bool → Gr
  boxOf : List P3 → Bx
  expand : Bx → ℚ → Bx

/-- the parameters of the wrapper (construct_imgui.hpp:24-28; `threshold` is stored and never read). -/
structure Params where
  bbox : Bx
  N : Fin 3 → ℤ
  cube : Bool
  level : ℤ

/-- the wrapper: the base object and the parameters. -/
structure Gui (Gv Fc Gr : Type) where
  base : DGC Gv Fc Gr
  par : Params

/-- `staggered_grid()` (construct_imgui.cpp:67-71). -/
def Params.grid (E : Env Gv Gr) (p : Params) : Gr := E.mkGrid p.bbox p.N p.cube

/-- what `gui()` can find changed (construct_imgui.cpp:29-53), one item at a time, in this order. -/
inductive Edit where
  | shape (N : Fin 3 → ℤ)
  | min (m : P3)
  | max (m : P3)
  | cubes (b : Bool)
  | level (l : ℤ)

/-- the public calls. `refresh` is `update_grid()` without arguments; `generate` is `generate()`, whose `emit` is read off the state
afterwards. -/
inductive GOp (Fc : Type) where
  | setBbox (b : Bx) (scale : ℚ)
  | gui (edits : List Edit)
  | refresh
  | verticesAndBbox (V : List P3) (scale : ℚ) (thr : Option ℚ)
  | meshAndBbox (V : List P3) (F : Fc) (scale : ℚ) (thr : Option ℚ)
  | updateVertices (V : List P3) (thr : Option ℚ)
  | generate

/-- one edit (construct_imgui.cpp:32-48): an edited lower corner is clipped to the upper one, and the other way round. -/
def Params.edit (p : Params) : Edit → Params
  | .shape N => { p with N := N }
  | .min m => { p with bbox := (fun i => if m i < p.bbox.2 i then m i else p.bbox.2 i, p.bbox.2) }
  | .max m => { p with bbox := (p.bbox.1, fun i => if p.bbox.1 i > m i then p.bbox.1 i else m i) }
  | .cubes b => { p with cube := b }
  | .level l => { p with level := l }

/-- flat directions are widened (construct_imgui.cpp:13-18, 82-87). -/
def padBox (b : Bx) : Bx :=
  (fun i => if b.2 i - b.1 i < 1 / 100000 then b.1 i - 1 / 100 else b.1 i,
   fun i => if b.2 i - b.1 i < 1 / 100000 then b.2 i + 1 / 100 else b.2 i)

/-- the base calls made by an edit: only an edited level calls `set_adaptivity` (construct_imgui.cpp:45-49). -/
def Edit.calls : Edit → List (Op P3 Fc Gr)
  | .level l => [.setAdaptivity l]
  | _ => []

/-- one call of the wrapper, as calls of the base class followed by the parameters it leaves. `update_vertices_and_bbox`
(construct_imgui.cpp:77-92) hands the vertices to the base class *before* the grid is changed; the grid it computes itself (line 90)
is not used. -/
def gstep (E : Env Gv Gr) (s : Gui Gv Fc Gr) : GOp Fc → Gui Gv Fc Gr
  | .setBbox b scale =>
    let p := { s.par with bbox := E.expand b scale }
    ⟨run E.toGrid s.base [.updateGrid (p.grid E)], p⟩
  | .gui [] => s
  | .gui (e :: es) =>
    let p := (e :: es).foldl Params.edit s.par
    ⟨run E.toGrid s.base ((e :: es).flatMap Edit.calls ++ [.updateGrid (p.grid E)]), p⟩
  | .refresh => ⟨run E.toGrid s.base [.updateGrid (s.par.grid E)], s.par⟩
  | .verticesAndBbox V scale thr =>
    let p := { s.par with bbox := padBox (E.expand (E.boxOf V) scale) }
    ⟨run E.toGrid s.base [.updateVertices V thr, .updateGrid (p.grid E)], p⟩
  | .meshAndBbox V F scale thr =>
    let p := { s.par with bbox := padBox (E.expand (E.boxOf V) scale) }
    ⟨run E.toGrid s.base [.updateVertices V thr, .updateGrid (p.grid E), .updateTopology F], p⟩
  | .updateVertices V thr => ⟨run E.toGrid s.base [.updateVertices V thr], s.par⟩
  | .generate => ⟨run E.toGrid s.base [.bake], s.par⟩

/-- the constructor (construct_imgui.cpp:5-7); `box` and `N` are `grid.bbox()` and `grid.vertex_shape()`. -/
def gctor (E : Env Gv Gr) (V : List P3) (F : Fc) (g : Gr) (box : Bx) (N : Fin 3 → ℤ) (level : ℤ) (thr : Option ℚ) : Gui Gv Fc Gr :=
  ⟨ctor E.toGrid V F g level thr, ⟨box, N, false, level⟩⟩

/-- a history of calls. -/
def grun (E : Env Gv Gr) (s : Gui Gv Fc Gr) (h : List (GOp Fc)) : Gui Gv Fc Gr := h.foldl (gstep E) s

/-- `from_grid` (construct.cpp:12-26): a generator without threshold, the triangles, `bake`, `generate`. -/
def fromGrid (toGrid : Gr → Option ℚ → P3 → Gv) (V : List P3) (F : Fc) (g : Gr) (level : ℤ) (_thr : Option ℚ) :
    List (Inputs Gv Fc Gr) × List (Inputs Gv Fc Gr) :=
  let s : DGC Gv Fc Gr := ⟨g, V.map (toGrid g (some (-1))), F, level, true, [], []⟩
  emit s.genBake

/-- `from_bbox` (construct.cpp:7-11). -/
def fromBbox (E : Env Gv Gr) (V : List P3) (F : Fc) (box : Bx) (shape : Fin 3 → ℤ) (level : ℤ) (thr : Option ℚ) :
    List (Inputs Gv Fc Gr) × List (Inputs Gv Fc Gr) := fromGrid E.toGrid V F (E.mkGrid box shape false) level thr

/-! ## specification -/

/-- the triangles supplied last. -/
def latestF (F : Fc) : List (GOp Fc) → Fc
  | [] => F
  | .meshAndBbox _ F' _ _ :: h => latestF F' h
  | _ :: h => latestF F h

/-- the box is not inverted. -/
def Bx.Ordered (b : Bx) : Prop := ∀ i, b.1 i ≤ b.2 i

theorem overwrite_length (old new : List Gv) : (overwrite old new).length = old.length := by
  simp only [overwrite, List.length_append, List.length_take, List.length_drop]; omega

theorem step_gv_length (toGrid : Gr → Option ℚ → P3 → Gv) (s : DGC Gv Fc Gr) (op : Op P3 Fc Gr) : (step toGrid s op).gv.length = s.gv.length := by
  cases op <;> simp only [step, DGC.genUpdateVertices, DGC.genSetTopology, overwrite_length]
  split <;> rfl

theorem run_gv_length (toGrid : Gr → Option ℚ → P3 → Gv) (l : List (Op P3 Fc Gr)) (s : DGC Gv Fc Gr) :
    (run toGrid s l).gv.length = s.gv.length := by
  induction l generalizing s with
  | nil => rfl
  | cons x l ih => show (run toGrid (step toGrid s x) l).gv.length = _; rw [ih, step_gv_length]

/-- what holds in every state: number of vertices, triangles, adaptivity level, box. -/
structure GInv (n : ℕ) (F : Fc) (s : Gui Gv Fc Gr) : Prop where
  len : s.base.gv.length = n
  topo : s.base.topo = F
  level : s.base.level = s.par.level

theorem run_edits (toGrid : Gr → Option ℚ → P3 → Gv) (es : List Edit) (s : DGC Gv Fc Gr) (p : Params) (hl : s.level = p.level) :
    (run toGrid s (es.flatMap Edit.calls)).level = (es.foldl Params.edit p).level ∧
    (run toGrid s (es.flatMap Edit.calls)).topo = s.topo := by
  induction es generalizing s p with
  | nil => exact ⟨hl, rfl⟩
  | cons e es ih =>
    simp only [List.flatMap_cons, List.foldl_cons]
    have : run toGrid s (Edit.calls e ++ es.flatMap Edit.calls) = run toGrid (run toGrid s (Edit.calls e)) (es.flatMap Edit.calls) := by
      simp [run, List.foldl_append]
    rw [this]
    have h := ih (run toGrid s (Edit.calls e)) (p.edit e) (by cases e <;> simp [Edit.calls, run, step, Params.edit, hl])
    refine ⟨h.1, h.2.trans ?_⟩
    cases e <;> simp [Edit.calls, run, step]

theorem ginv_step (E : Env Gv Gr) {n : ℕ} {F : Fc} {s : Gui Gv Fc Gr} (h : GInv n F s) (x : GOp Fc) :
    GInv n (latestF F [x]) (gstep E s x) := by
  obtain ⟨h1, h2, h3⟩ := h
  cases x with
  | gui es =>
    cases es with
    | nil => exact ⟨h1, h2, h3⟩
    | cons e es =>
      have h := run_edits E.toGrid (e :: es) s.base s.par h3
      refine ⟨by simp only [gstep]; rw [run_gv_length]; exact h1, ?_, ?_⟩
      · simp only [gstep]; rw [run_snoc]; simp only [step, latestF]; rw [h.2]; exact h2
      · simp only [gstep]; rw [run_snoc]; simp only [step]; exact h.1
  | generate =>
    refine ⟨by simp only [gstep]; rw [run_gv_length]; exact h1, ?_, ?_⟩ <;>
      · simp only [gstep, run, List.foldl_cons, List.foldl_nil, step, latestF]
        split
        · first | exact h2 | exact h3
        · first | exact h2 | exact h3
  | _ =>
    refine ⟨by simp only [gstep]; rw [run_gv_length]; exact h1, ?_, ?_⟩ <;>
      simp [gstep, run, step, latestF, DGC.genUpdateVertices, DGC.genSetTopology, h2, h3]

theorem latestF_append (F : Fc) (h h' : List (GOp Fc)) : latestF F (h ++ h') = latestF (latestF F h) h' := by
  induction h generalizing F with
  | nil => rfl
  | cons x h ih => cases x <;> simp only [List.cons_append, latestF, ih]

theorem ginv_run (E : Env Gv Gr) (h : List (GOp Fc)) {n : ℕ} {F : Fc} {s : Gui Gv Fc Gr} (hs : GInv n F s) :
    GInv n (latestF F h) (grun E s h) := by
  induction h generalizing F s with
  | nil => exact hs
  | cons x h ih =>
    have := ih (ginv_step E hs x)
    rw [show latestF F (x :: h) = latestF (latestF F [x]) h from latestF_append F [x] h]
    exact this

theorem ginv_ctor (E : Env Gv Gr) (V : List P3) (F : Fc) (g : Gr) (box : Bx) (N : Fin 3 → ℤ) (level : ℤ) (thr : Option ℚ) :
    GInv V.length F (gctor E V F g box N level thr) := ⟨by simp [gctor, ctor, DGC.genBake], rfl, rfl⟩

theorem grun_append (E : Env Gv Gr) (s : Gui Gv Fc Gr) (h h' : List (GOp Fc)) : grun E s (h ++ h') = grun E (grun E s h) h' := by
  simp [grun, List.foldl_append]

/-! ## theorems -/

/-- **C131.** The protocol of the GUI: after any history of calls, refreshing the grid, supplying the vertices and generating builds the mesh
once, from exactly the supplied vertices in the coordinates of the grid shown on screen, the triangles supplied last and the
adaptivity level shown on screen. -/
theorem C131_protocol (E : Env Gv Gr) (V₀ : List P3) (F₀ : Fc) (g : Gr) (box : Bx) (N : Fin 3 → ℤ) (level : ℤ) (thr₀ : Option ℚ)
    (h : List (GOp Fc)) (V : List P3) (thr : Option ℚ) (hV : V.length = V₀.length) :
    let s := grun E (gctor E V₀ F₀ g box N level thr₀) h
    let i : Inputs Gv Fc Gr := ⟨s.par.grid E, V.map (E.toGrid (s.par.grid E) thr), latestF F₀ h, s.par.level⟩
    emit (grun E s [.refresh, .updateVertices V thr, .generate]).base = ([i], [i]) := by
  intro s i
  obtain ⟨h1, h2, h3⟩ := ginv_run E h (ginv_ctor E V₀ F₀ g box N level thr₀)
  change s.base.gv.length = _ at h1
  change s.base.topo = _ at h2
  change s.base.level = s.par.level at h3
  have hov : overwrite s.base.gv (V.map (E.toGrid (s.par.grid E) thr)) = V.map (E.toGrid (s.par.grid E) thr) :=
    overwrite_same _ _ (by rw [List.length_map, h1, hV])
  simp [grun, gstep, run, step, DGC.genUpdateVertices, DGC.genClear, DGC.genBake, DGC.inputs, emit, hov, h2, h3, i]

/-- **C131.** Every call that changes the box, the shape or the cube flag also hands the new grid to the generator: once such a call was
made, the generator's grid is the one shown, in every later state. -/
theorem C131_grid_shown (E : Env Gv Gr) (s : Gui Gv Fc Gr) (x : GOp Fc) (h : List (GOp Fc))
    (hx : (∃ b c, x = .setBbox b c) ∨ x = .refresh ∨ (∃ e es, x = .gui (e :: es)) ∨ (∃ V c t, x = .verticesAndBbox V c t) ∨
      ∃ V F c t, x = .meshAndBbox V F c t) :
    (grun E s (x :: h)).base.grid = (grun E s (x :: h)).par.grid E := by
  have first : (gstep E s x).base.grid = (gstep E s x).par.grid E := by
    rcases hx with ⟨b, c, rfl⟩ | rfl | ⟨e, es, rfl⟩ | ⟨V, c, t, rfl⟩ | ⟨V, F, c, t, rfl⟩
    · rfl
    · rfl
    · simp only [gstep]; rw [run_snoc]; rfl
    · rfl
    · rfl
  have keep : ∀ (s : Gui Gv Fc Gr) (y : GOp Fc), s.base.grid = s.par.grid E → (gstep E s y).base.grid = (gstep E s y).par.grid E := by
    intro s y hs
    cases y with
    | gui es =>
      cases es with
      | nil => exact hs
      | cons e es => simp only [gstep]; rw [run_snoc]; rfl
    | generate => simp only [gstep, run, List.foldl_cons, List.foldl_nil, step]; split <;> exact hs
    | updateVertices V t => exact hs
    | _ => rfl
  show (grun E (gstep E s x) h).base.grid = (grun E (gstep E s x) h).par.grid E
  generalize gstep E s x = s' at first
  induction h generalizing s' with
  | nil => exact first
  | cons y h ih => exact ih (gstep E s' y) (keep s' y first)

/-- **C131.** The box on screen is never inverted, whatever is typed into it, if the library's boxes are not. -/
theorem C131_box_ordered (E : Env Gv Gr) (hE : ∀ V, (E.boxOf V).Ordered) (hx : ∀ b c, b.Ordered → (E.expand b c).Ordered)
    (s : Gui Gv Fc Gr) (hs : s.par.bbox.Ordered) (h : List (GOp Fc)) (hb : ∀ b c, GOp.setBbox b c ∈ h → b.Ordered) :
    (grun E s h).par.bbox.Ordered := by
  have pad : ∀ b : Bx, b.Ordered → (padBox b).Ordered := by
    intro b hb i
    have := hb i
    simp only [padBox]
    split <;> linarith
  induction h generalizing s with
  | nil => exact hs
  | cons x h ih =>
    refine ih (gstep E s x) ?_ fun b c hm => hb b c (List.mem_cons_of_mem _ hm)
    cases x with
    | setBbox b c => exact hx b c (hb b c List.mem_cons_self)
    | gui es =>
      cases es with
      | nil => exact hs
      | cons e es =>
        show ((e :: es).foldl Params.edit s.par).bbox.Ordered
        generalize e :: es = l
        generalize s.par = p at hs
        induction l generalizing p with
        | nil => exact hs
        | cons e l ih' =>
          refine ih' (p.edit e) ?_
          cases e with
          | min m => intro i; simp only [Params.edit]; split <;> [exact le_of_lt ‹_›; exact le_refl _]
          | max m => intro i; simp only [Params.edit]; split <;> [exact le_refl _; exact not_lt.1 ‹_›]
          | _ => exact hs
    | verticesAndBbox V c t => exact pad _ (hx _ _ (hE V))
    | meshAndBbox V F c t => exact pad _ (hx _ _ (hE V))
    | _ => exact hs

/-- **C131, defect.** `update_mesh_and_bbox` followed by `generate` does not build the supplied mesh: the vertices are in the coordinates of
the grid the object had *before* the call, while the mesh is cut with the new grid. -/
theorem C131_mesh_and_bbox_refuted (E : Env Gv Gr) (s : Gui Gv Fc Gr) (V : List P3) (F : Fc) (c : ℚ) (thr : Option ℚ)
    (hV : V.length = s.base.gv.length) (hl : s.base.level = s.par.level) :
    let gNew := E.mkGrid (padBox (E.expand (E.boxOf V) c)) s.par.N s.par.cube
    let i : Inputs Gv Fc Gr := ⟨gNew, V.map (E.toGrid s.base.grid thr), F, s.par.level⟩
    emit (grun E s [.meshAndBbox V F c thr, .generate]).base = ([i], [i]) := by
  intro gNew i
  have hov : overwrite s.base.gv (V.map (E.toGrid s.base.grid thr)) = V.map (E.toGrid s.base.grid thr) :=
    overwrite_same _ _ (by rw [List.length_map, hV])
  simp [grun, gstep, run, step, DGC.genUpdateVertices, DGC.genSetTopology, DGC.genClear, DGC.genBake, DGC.inputs, emit, hov, hl, i,
    gNew, Params.grid]

/-- **C131.** Making the call twice repairs it: the second time the old grid is the new one. -/
theorem C131_mesh_and_bbox_twice (E : Env Gv Gr) (s : Gui Gv Fc Gr) (V : List P3) (F : Fc) (c : ℚ) (thr : Option ℚ)
    (hV : V.length = s.base.gv.length) (hl : s.base.level = s.par.level) :
    let gNew := E.mkGrid (padBox (E.expand (E.boxOf V) c)) s.par.N s.par.cube
    let i : Inputs Gv Fc Gr := ⟨gNew, V.map (E.toGrid gNew thr), F, s.par.level⟩
    emit (grun E s [.meshAndBbox V F c thr, .meshAndBbox V F c thr, .generate]).base = ([i], [i]) := by
  intro gNew i
  have hlen : (gstep E s (.meshAndBbox V F c thr)).base.gv.length = s.base.gv.length := by
    simp only [gstep]; rw [run_gv_length]
  have h := C131_mesh_and_bbox_refuted E (gstep E s (.meshAndBbox V F c thr)) V F c thr (by rw [hlen, hV])
    (by simp [gstep, run, step, DGC.genUpdateVertices, DGC.genSetTopology, hl])
  exact h

/-- **C131.** The one-shot entry points build the same mesh as a `DeformingGeometryConstructor` that was just constructed, and ignore
their threshold: every vertex is snapped with the default tolerance. -/
theorem C131_from_grid (toGrid : Gr → Option ℚ → P3 → Gv) (V : List P3) (F : Fc) (g : Gr) (level : ℤ) (thr thr' : Option ℚ) :
    fromGrid toGrid V F g level thr = emit (ctor toGrid V F g level thr') ∧
    fromGrid toGrid V F g level thr = ([⟨g, V.map (toGrid g (some (-1))), F, level⟩], [⟨g, V.map (toGrid g (some (-1))), F, level⟩]) :=
  ⟨rfl, rfl⟩

/-- **C131.** `from_bbox` and a wrapper that was refreshed and given the vertices build the same mesh if the wrapper shows that box and
shape without the cube flag, and the default tolerance is used. -/
theorem C131_from_bbox (E : Env Gv Gr) (V₀ V : List P3) (F : Fc) (g : Gr) (box : Bx) (N : Fin 3 → ℤ) (level : ℤ) (thr₀ thr : Option ℚ)
    (hV : V.length = V₀.length) :
    emit (grun E (gctor E V₀ F g box N level thr₀) [.refresh, .updateVertices V (some (-1)), .generate]).base =
      fromBbox E V F box N level thr := by
  have := C131_protocol E V₀ F g box N level thr₀ [] V (some (-1)) hV
  exact this

/-- a grid on a line: origin and spacing. -/
def demoEnv : Env ℚ (ℚ × ℚ) where
  toGrid g _ p := (p 0 - g.1) / g.2
  mkGrid b N _ := (b.1 0, (b.2 0 - b.1 0) / N 0)
  boxOf V := (fun i => (V.map fun p => p i).foldl min 0, fun i => (V.map fun p => p i).foldl max 0)
  expand b _ := b

/-- the vertex at 8 has grid coordinate 8 / 2 = 4 in the new grid of spacing 2; the mesh is built with grid coordinate 8, that is at 16. -/
example :
    let s := gctor demoEnv [fun _ => 0, fun _ => 4] (7 : ℕ) (0, 1) (fun _ => 0, fun _ => 4) (fun _ => 4) 0 none
    let r := (emit (grun demoEnv s [.meshAndBbox [fun _ => 0, fun _ => 8] 9 1 none, .generate]).base).1
    r.map (·.grid) = [(0, 2)] ∧ r.map (·.gv) = [[0, 8]] ∧
    [fun _ => 0, fun _ => (8 : ℚ)].map (demoEnv.toGrid (0, 2) none) = [0, 4] := by decide +kernel

end Life
end Mandoline
