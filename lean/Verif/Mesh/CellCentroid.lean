import Verif.Mesh.Centroid3
import Verif.Mesh.Triangulate
import Verif.Core.Lex
import Verif.Adaptive.Factory
import Mathlib.Data.Rat.Floor
import Mathlib.Algebra.Order.Floor.Ring
import Mathlib.Data.List.Perm.Basic

/-!
# C87: centroids of cells and faces, and the grid cells they name (3D)

`CutCellMesh<3>::face_centroids`, `cell_centroids`, `active_cell_mask`, `active_cells`, `active_cell_count`
(src/mesh3.cpp:63-108, 522-547), `CutFace<3>::brep_centroid` (include/mandoline/cutface_impl.hpp:100-122),
`CutCell::moment` (src/cutcell.cpp:149-160), `AdaptiveGrid::cell_centroids` (src/adaptive_grid.cpp:335-343).
-/
namespace Mandoline
namespace CellCentroid

/-- number of boundary vertices of a face (`count`, cutface_impl.hpp:103-105). -/
def count (loops : List (List ℤ)) : ℕ := loops.foldl (fun n l => n + l.length) 0

/-- sum of the boundary vertices (cutface_impl.hpp:104-108). -/
def vertSum (V : ℤ → Vec3) (loops : List (List ℤ)) (i : Fin 3) : ℚ :=
  loops.foldl (fun a l => l.foldl (fun a v => a + V v i) a) 0

/-- `CutFace<3>::brep_centroid` (cutface_impl.hpp:100-122); `none` is the division by zero. -/
def brepCentroid (V : ℤ → Vec3) (loops : List (List ℤ)) : Option Vec3 :=
  if count loops = 0 then none else some fun i => vertSum V loops i / count loops

/-- one column of `face_centroids()` (src/mesh3.cpp:70-81): zero for a face without vertices. -/
def faceCentroid (V : ℤ → Vec3) (loops : List (List ℤ)) : Vec3 :=
  fun i => if count loops > 0 then vertSum V loops i / count loops else 0

/-- one cut cell in `cell_centroids()`: `CutCell::moment` of the face centroids (src/cutcell.cpp:149-160, called at
src/mesh3.cpp:101). The sign of the face is not used. `none` for an undefined access or a division by zero. -/
def cellCentroid (V : ℤ → Vec3) (faces : List (List (List ℤ))) (c : List (ℤ × Bool)) : Option Vec3 := do
  let cs ← c.mapM fun p => (Triangulate.col faces p.1).bind (brepCentroid V)
  if c.length = 0 then none
  else some fun i => (cs.foldl (fun a x => a + x i) 0) / c.length

/-- an adaptive cell in `cell_centroids()` (src/adaptive_grid.cpp:335-343). -/
def adaptiveCentroid (origin dx : Vec3) (c : ACell 3) : Vec3 := fun i => origin i + dx i * (c.1 i + c.2 / 2)

/-- `StaggeredGrid::coord`, first component: the grid cell of a world position. -/
def coordOf (origin dx : Vec3) (p : Vec3) : Coord 3 := fun i => ⌊(p i - origin i) / dx i⌋

/-- `active_cells()` (src/mesh3.cpp:532-541), from the centroids of the cut cells. -/
def activeCells (origin dx : Vec3) (cents : List Vec3) : List (Coord 3) :=
  cents.foldl (fun s p => setInsert coordLtB (coordOf origin dx p) s) []

/-- `active_cell_mask()` (src/mesh3.cpp:522-531): `none` for a write outside of the mask. -/
def activeMask (shape : Coord 3) (origin dx : Vec3) (cents : List Vec3) : Option (Coord 3 → Bool) :=
  cents.foldl (fun (m : Option (Coord 3 → Bool)) p => m.bind fun m =>
    if ∀ i, 0 ≤ coordOf origin dx p i ∧ coordOf origin dx p i < shape i then
      some fun g => if g = coordOf origin dx p then false else m g
    else none) (some fun _ => true)

/-! ## specification -/

/-- `v` is a vertex of the face bounded by `loops`. -/
def VertexOf (loops : List (List ℤ)) (v : ℤ) : Prop := ∃ l ∈ loops, v ∈ l

/-- `v` is a vertex of a face of the cell `c`. -/
def CellVertex (faces : List (List (List ℤ))) (c : List (ℤ × Bool)) (v : ℤ) : Prop :=
  ∃ f s loops, (f, s) ∈ c ∧ 0 ≤ f ∧ faces[f.toNat]? = some loops ∧ VertexOf loops v

/-- every face of the cell exists and has a vertex, and the cell has a face. -/
def CellOk (faces : List (List (List ℤ))) (c : List (ℤ × Bool)) : Prop :=
  c ≠ [] ∧ ∀ f s, (f, s) ∈ c → 0 ≤ f ∧ ∃ loops, faces[f.toNat]? = some loops ∧ ∃ v, VertexOf loops v

/-! ## proofs -/

theorem foldl_len (loops : List (List ℤ)) (n : ℕ) : loops.foldl (fun n l => n + l.length) n = n + loops.flatten.length := by
  induction loops generalizing n with
  | nil => simp
  | cons l ls ih => rw [List.foldl_cons, ih, List.flatten_cons, List.length_append]; omega

theorem count_eq (loops : List (List ℤ)) : count loops = loops.flatten.length := by simp [count, foldl_len]

theorem foldl_add' {α : Type*} (g : α → ℚ) (l : List α) (a : ℚ) : l.foldl (fun a v => a + g v) a = a + (l.map g).sum := by
  induction l generalizing a with
  | nil => simp
  | cons x l ih => rw [List.foldl_cons, ih, List.map_cons, List.sum_cons]; ring

theorem foldl_vert (V : ℤ → Vec3) (loops : List (List ℤ)) (i : Fin 3) (a : ℚ) :
    loops.foldl (fun a l => l.foldl (fun a v => a + V v i) a) a = a + (loops.flatten.map fun v => V v i).sum := by
  induction loops generalizing a with
  | nil => simp
  | cons l ls ih => rw [List.foldl_cons, foldl_add', ih, List.flatten_cons, List.map_append, List.sum_append]; ring

theorem vertSum_eq (V : ℤ → Vec3) (loops : List (List ℤ)) (i : Fin 3) :
    vertSum V loops i = (loops.flatten.map fun v => V v i).sum := by simp [vertSum, foldl_vert]

/-- an average of numbers up to `b` is up to `b`, strictly below if one of them is. -/
theorem avg_le {α : Type*} (g : α → ℚ) (l : List α) (b : ℚ) (h : ∀ x ∈ l, g x ≤ b) : (l.map g).sum ≤ l.length * b := by
  induction l with
  | nil => simp
  | cons a l ih =>
    rw [List.map_cons, List.sum_cons, List.length_cons]
    have := h a List.mem_cons_self
    have := ih fun x hx => h x (List.mem_cons_of_mem _ hx)
    push_cast
    linarith

theorem avg_lt {α : Type*} (g : α → ℚ) (l : List α) (b : ℚ) (h : ∀ x ∈ l, g x ≤ b) (h2 : ∃ x ∈ l, g x < b) :
    (l.map g).sum < l.length * b := by
  induction l with
  | nil => obtain ⟨x, hx, _⟩ := h2; simp at hx
  | cons a l ih =>
    rw [List.map_cons, List.sum_cons, List.length_cons]
    have ha := h a List.mem_cons_self
    have hl : ∀ x ∈ l, g x ≤ b := fun x hx => h x (List.mem_cons_of_mem _ hx)
    push_cast
    obtain ⟨x, hx, hxb⟩ := h2
    rcases List.mem_cons.1 hx with rfl | hx
    · have := avg_le g l b hl
      linarith
    · have := ih hl ⟨x, hx, hxb⟩
      linarith

theorem avg_ge {α : Type*} (g : α → ℚ) (l : List α) (b : ℚ) (h : ∀ x ∈ l, b ≤ g x) : l.length * b ≤ (l.map g).sum := by
  induction l with
  | nil => simp
  | cons a l ih =>
    rw [List.map_cons, List.sum_cons, List.length_cons]
    have := h a List.mem_cons_self
    have := ih fun x hx => h x (List.mem_cons_of_mem _ hx)
    push_cast
    linarith

theorem vertexOf_iff (loops : List (List ℤ)) (v : ℤ) : VertexOf loops v ↔ v ∈ loops.flatten := by
  rw [List.mem_flatten]; rfl

theorem col_some {α : Type*} {l : List α} {f : ℤ} {x : α} (h0 : 0 ≤ f) (h : l[f.toNat]? = some x) :
    Triangulate.col l f = some x := by
  unfold Triangulate.col
  rw [if_pos h0, h]

/-- the loops of a face, empty when the number is out of range. -/
def loopsOf (faces : List (List (List ℤ))) (f : ℤ) : List (List ℤ) := (faces[f.toNat]?).getD []

/-- **C87.** The centroid of a cut cell is the average, over its faces, of the average of the boundary vertices of the
face. -/
theorem C87_cell_centroid (V : ℤ → Vec3) (faces : List (List (List ℤ))) (c : List (ℤ × Bool)) (hc : CellOk faces c) :
    cellCentroid V faces c = some fun i =>
      (c.map fun p => ((((faces[p.1.toNat]?).getD []).flatten.map fun v => V v i).sum /
        ((faces[p.1.toNat]?).getD []).flatten.length)).sum / c.length := by
  obtain ⟨hne, hf⟩ := hc
  have hm : (c.mapM fun p => (Triangulate.col faces p.1).bind (brepCentroid V)) =
      some (c.map fun p => fun i => vertSum V (loopsOf faces p.1) i / count (loopsOf faces p.1)) := by
    apply Triangulate.mapM_some
    rintro ⟨f, s⟩ hp
    obtain ⟨h0, loops, hl, v, hv⟩ := hf f s hp
    have hL : loopsOf faces f = loops := by simp [loopsOf, hl]
    simp only [col_some h0 hl, Option.bind_some, hL]
    unfold brepCentroid
    rw [if_neg]
    rw [count_eq]
    have := (vertexOf_iff loops v).1 hv
    exact fun h => by rw [List.length_eq_zero_iff] at h; rw [h] at this; simp at this
  unfold cellCentroid
  rw [hm]
  have hlen : c.length ≠ 0 := fun h => hne (List.length_eq_zero_iff.1 h)
  simp only [Option.bind_eq_bind, Option.bind_some, if_neg hlen, Option.some.injEq]
  funext i
  rw [foldl_add' (fun x : Vec3 => x i), zero_add, List.map_map]
  simp only [Function.comp_def, vertSum_eq, count_eq, loopsOf]

/-- **C87.** The centroid of a cut cell exists and lies in every axis-aligned slab that contains all vertices of the
cell; it is off the upper plane of the slab unless all vertices lie on it. -/
theorem C87_within (V : ℤ → Vec3) (faces : List (List (List ℤ))) (c : List (ℤ × Bool)) (hc : CellOk faces c) :
    ∃ p, cellCentroid V faces c = some p ∧ ∀ i lo hi,
      ((∀ v, CellVertex faces c v → lo ≤ V v i) → lo ≤ p i) ∧
      ((∀ v, CellVertex faces c v → V v i ≤ hi) → p i ≤ hi ∧ ((∃ v, CellVertex faces c v ∧ V v i < hi) → p i < hi)) := by
  refine ⟨_, C87_cell_centroid V faces c hc, ?_⟩
  intro i lo hi
  obtain ⟨hne, hf⟩ := hc
  have hlen : 0 < (c.length : ℚ) := by
    have : 0 < c.length := List.length_pos_iff.2 hne
    exact_mod_cast this
  have hcnt : ∀ p ∈ c, 0 < (((faces[p.1.toNat]?).getD []).flatten.length : ℚ) := by
    rintro ⟨f, s⟩ hp
    obtain ⟨h0, loops, hl, v, hv⟩ := hf f s hp
    simp only [hl, Option.getD_some]
    have := List.length_pos_of_mem ((vertexOf_iff loops v).1 hv)
    exact_mod_cast this
  have hvert : ∀ p ∈ c, ∀ v ∈ ((faces[p.1.toNat]?).getD []).flatten, CellVertex faces c v := by
    rintro ⟨f, s⟩ hp v hv
    obtain ⟨h0, loops, hl, _⟩ := hf f s hp
    simp only [hl, Option.getD_some] at hv
    exact ⟨f, s, loops, hp, h0, hl, (vertexOf_iff loops v).2 hv⟩
  refine ⟨?_, ?_⟩
  · intro h
    rw [le_div_iff₀ hlen, mul_comm]
    apply avg_ge
    intro p hp
    rw [le_div_iff₀ (hcnt p hp), mul_comm]
    exact avg_ge _ _ _ fun v hv => h v (hvert p hp v hv)
  · intro h
    have hle : ∀ p ∈ c, (((faces[p.1.toNat]?).getD []).flatten.map fun v => V v i).sum /
        ((faces[p.1.toNat]?).getD []).flatten.length ≤ hi := by
      intro p hp
      rw [div_le_iff₀ (hcnt p hp), mul_comm]
      exact avg_le _ _ _ fun v hv => h v (hvert p hp v hv)
    constructor
    · rw [div_le_iff₀ hlen, mul_comm]
      exact avg_le _ _ _ hle
    · rintro ⟨v, ⟨f, s, loops, hp, h0, hl, hv⟩, hv2⟩
      rw [div_lt_iff₀ hlen, mul_comm]
      refine avg_lt _ _ _ hle ⟨(f, s), hp, ?_⟩
      rw [div_lt_iff₀ (hcnt _ hp), mul_comm]
      refine avg_lt _ _ _ (fun w hw => h w (hvert _ hp w hw)) ⟨v, ?_, hv2⟩
      simp only [hl, Option.getD_some]
      exact (vertexOf_iff loops v).1 hv

/-- **C87.** The column of a face in `face_centroids()` is the average of its boundary vertices; for a face without
vertices it is the zero vector. -/
theorem C87_face_centroid (V : ℤ → Vec3) (loops : List (List ℤ)) (i : Fin 3) :
    ((∃ v, VertexOf loops v) → faceCentroid V loops i * loops.flatten.length = (loops.flatten.map fun v => V v i).sum) ∧
    ((¬ ∃ v, VertexOf loops v) → faceCentroid V loops i = 0) := by
  unfold faceCentroid
  rw [count_eq, vertSum_eq]
  constructor
  · rintro ⟨v, hv⟩
    have hp := List.length_pos_of_mem ((vertexOf_iff loops v).1 hv)
    rw [if_pos hp]
    have : (loops.flatten.length : ℚ) ≠ 0 := by
      have : 0 < (loops.flatten.length : ℚ) := by exact_mod_cast hp
      exact this.ne'
    field_simp
  · intro h
    rw [if_neg]
    intro hp
    obtain ⟨v, hv⟩ := List.exists_mem_of_length_pos hp
    exact h ⟨v, (vertexOf_iff loops v).2 hv⟩

/-- **C87.** The centroid of an adaptive cell is the midpoint, in world coordinates, of its lower and upper corner. -/
theorem C87_adaptive (origin dx : Vec3) (c : ACell 3) (i : Fin 3) :
    2 * adaptiveCentroid origin dx c i =
      (origin i + dx i * (c.1 i : ℚ)) + (origin i + dx i * ((c.1 i + c.2 : ℤ) : ℚ)) := by
  unfold adaptiveCentroid
  push_cast; ring

/-! ## active cells -/

/-- the cell lies in the closed grid cell `g`, and in no direction are all of its vertices on the upper plane of `g`. -/
def LiesIn (origin dx : Vec3) (V : ℤ → Vec3) (faces : List (List (List ℤ))) (c : List (ℤ × Bool)) (g : Coord 3) : Prop :=
  ∀ i, (∀ v, CellVertex faces c v → origin i + dx i * g i ≤ V v i ∧ V v i ≤ origin i + dx i * (g i + 1)) ∧
    ∃ v, CellVertex faces c v ∧ V v i < origin i + dx i * (g i + 1)

/-- **C87.** The grid cell computed from the centroid of a cut cell is the grid cell the cut cell lies in. -/
theorem C87_coord (origin dx : Vec3) (hdx : ∀ i, 0 < dx i) (V : ℤ → Vec3) (faces : List (List (List ℤ)))
    (c : List (ℤ × Bool)) (hc : CellOk faces c) (g : Coord 3) (hg : LiesIn origin dx V faces c g) :
    ∃ p, cellCentroid V faces c = some p ∧ coordOf origin dx p = g := by
  obtain ⟨p, hp, hw⟩ := C87_within V faces c hc
  refine ⟨p, hp, ?_⟩
  funext i
  obtain ⟨h1, h2⟩ := hg i
  obtain ⟨hlo, hhi⟩ := hw i (origin i + dx i * g i) (origin i + dx i * (g i + 1))
  have hl := hlo fun v hv => (h1 v hv).1
  have hh := (hhi fun v hv => (h1 v hv).2).2 h2
  unfold coordOf
  rw [Int.floor_eq_iff]
  constructor
  · rw [le_div_iff₀ (hdx i)]; linarith
  · rw [div_lt_iff₀ (hdx i)]; linarith

theorem fill_coord (f : Vec3 → Coord 3) (cents : List Vec3) (s : List (Coord 3)) (hs : s.Pairwise fun a b => coordLtB a b = true) :
    (cents.foldl (fun s p => setInsert coordLtB (f p) s) s).Pairwise (fun a b => coordLtB a b = true) ∧
    ∀ g, g ∈ cents.foldl (fun s p => setInsert coordLtB (f p) s) s ↔ g ∈ s ∨ ∃ p ∈ cents, f p = g := by
  have hins : ∀ (x : Coord 3) (l : List (Coord 3)), l.Pairwise (fun a b => coordLtB a b = true) →
      (setInsert coordLtB x l).Pairwise fun a b => coordLtB a b = true := by
    intro x l
    induction l with
    | nil => intro _; simp [setInsert]
    | cons y l ih =>
      intro h
      rw [List.pairwise_cons] at h
      unfold setInsert
      split_ifs with h1 h2
      · rw [List.pairwise_cons]
        refine ⟨?_, List.pairwise_cons.2 h⟩
        intro z hz
        rcases List.mem_cons.1 hz with rfl | hz
        · exact h1
        · exact strictTotal_coordLtB.trans _ _ _ h1 (h.1 z hz)
      · rw [List.pairwise_cons]
        refine ⟨?_, ih h.2⟩
        intro z hz
        rcases (mem_setInsert strictTotal_coordLtB _ _ _).1 hz with rfl | hz
        · exact h2
        · exact h.1 z hz
      · exact List.pairwise_cons.2 h
  induction cents generalizing s with
  | nil => exact ⟨hs, fun g => by simp⟩
  | cons p cents ih =>
    rw [List.foldl_cons]
    obtain ⟨h1, h2⟩ := ih _ (hins (f p) s hs)
    refine ⟨h1, fun g => ?_⟩
    rw [h2, mem_setInsert strictTotal_coordLtB]
    simp only [List.mem_cons]
    constructor
    · rintro ((rfl | h) | ⟨q, hq, h⟩)
      · exact Or.inr ⟨p, Or.inl rfl, rfl⟩
      · exact Or.inl h
      · exact Or.inr ⟨q, Or.inr hq, h⟩
    · rintro (h | ⟨q, rfl | hq, h⟩)
      · exact Or.inl (Or.inr h)
      · exact Or.inl (Or.inl h.symm)
      · exact Or.inr ⟨q, hq, h⟩

theorem mask_fold (shape : Coord 3) (origin dx : Vec3) (cents : List Vec3) (m : Coord 3 → Bool)
    (h : ∀ p ∈ cents, ∀ i, 0 ≤ coordOf origin dx p i ∧ coordOf origin dx p i < shape i) :
    ∃ m', cents.foldl (fun (m : Option (Coord 3 → Bool)) p => m.bind fun m =>
      if ∀ i, 0 ≤ coordOf origin dx p i ∧ coordOf origin dx p i < shape i then
        some fun g => if g = coordOf origin dx p then false else m g
      else none) (some m) = some m' ∧ ∀ g, m' g = false ↔ m g = false ∨ ∃ p ∈ cents, coordOf origin dx p = g := by
  induction cents generalizing m with
  | nil => exact ⟨m, rfl, fun g => by simp⟩
  | cons p cents ih =>
    rw [List.foldl_cons, Option.bind_some, if_pos (h p List.mem_cons_self)]
    obtain ⟨m', h1, h2⟩ := ih (fun g => if g = coordOf origin dx p then false else m g)
      (fun q hq => h q (List.mem_cons_of_mem _ hq))
    refine ⟨m', h1, fun g => ?_⟩
    rw [h2]
    simp only [List.mem_cons]
    by_cases e : g = coordOf origin dx p
    · subst e
      simp only [if_true, true_or, true_iff]
      exact Or.inr ⟨p, Or.inl rfl, rfl⟩
    · rw [if_neg e]
      constructor
      · rintro (h | ⟨q, hq, h⟩)
        · exact Or.inl h
        · exact Or.inr ⟨q, Or.inr hq, h⟩
      · rintro (h | ⟨q, rfl | hq, h3⟩)
        · exact Or.inl h
        · exact absurd h3.symm e
        · exact Or.inr ⟨q, hq, h3⟩

/-- **C87.** `active_cells()` is exactly the set of the grid cells the cut cells lie in, without repetition;
`active_cell_count()`, its size, is the number of different such grid cells; `active_cell_mask()` is false exactly there. -/
theorem C87_active_cells (shape : Coord 3) (origin dx : Vec3) (hdx : ∀ i, 0 < dx i) (V : ℤ → Vec3) (faces : List (List (List ℤ)))
    (cells : List (List (ℤ × Bool) × Coord 3)) (hc : ∀ c ∈ cells, CellOk faces c.1)
    (hg : ∀ c ∈ cells, LiesIn origin dx V faces c.1 c.2 ∧ InGrid shape c.2) :
    ∃ cents, cells.mapM (fun c => cellCentroid V faces c.1) = some cents ∧
      (activeCells origin dx cents).Nodup ∧ (∀ g, g ∈ activeCells origin dx cents ↔ ∃ c ∈ cells, c.2 = g) ∧
      (activeCells origin dx cents).length = (cells.map Prod.snd).dedup.length ∧
      ∃ m, activeMask shape origin dx cents = some m ∧ ∀ g, m g = false ↔ ∃ c ∈ cells, c.2 = g := by
  have hcents : ∃ cents, cells.mapM (fun c => cellCentroid V faces c.1) = some cents ∧
      (cents.map (coordOf origin dx)) = cells.map Prod.snd := by
    induction cells with
    | nil => exact ⟨[], rfl, rfl⟩
    | cons c cells ih =>
      obtain ⟨cents, h1, h2⟩ := ih (fun d hd => hc d (List.mem_cons_of_mem _ hd)) (fun d hd => hg d (List.mem_cons_of_mem _ hd))
      obtain ⟨p, hp, hp2⟩ := C87_coord origin dx hdx V faces c.1 (hc c List.mem_cons_self) c.2 (hg c List.mem_cons_self).1
      refine ⟨p :: cents, ?_, by rw [List.map_cons, h2, hp2, List.map_cons]⟩
      rw [List.mapM_cons, hp, h1]
      rfl
  obtain ⟨cents, h1, h2⟩ := hcents
  have hiff : ∀ g, (∃ p ∈ cents, coordOf origin dx p = g) ↔ ∃ c ∈ cells, c.2 = g := by
    intro g
    have : g ∈ cents.map (coordOf origin dx) ↔ g ∈ cells.map Prod.snd := by rw [h2]
    simpa only [List.mem_map] using this
  obtain ⟨a1, a2⟩ := fill_coord (coordOf origin dx) cents [] List.Pairwise.nil
  have hnd : (activeCells origin dx cents).Nodup := by
    refine List.Pairwise.imp ?_ a1
    intro a b hab e
    subst e
    rw [strictTotal_coordLtB.irrefl] at hab; cases hab
  have hmem : ∀ g, g ∈ activeCells origin dx cents ↔ ∃ c ∈ cells, c.2 = g := by
    intro g
    unfold activeCells
    rw [a2, hiff]; simp
  refine ⟨cents, h1, hnd, hmem, ?_, ?_⟩
  · refine List.Perm.length_eq ((List.perm_ext_iff_of_nodup hnd (List.nodup_dedup _)).2 fun g => ?_)
    rw [hmem, List.mem_dedup, List.mem_map]
  · obtain ⟨m, m1, m2⟩ := mask_fold shape origin dx cents (fun _ => true) (by
      intro p hp i
      obtain ⟨c, hc', e⟩ := (hiff _).1 ⟨p, hp, rfl⟩
      have := (hg c hc').2 i
      rw [e] at this
      exact this)
    refine ⟨m, m1, fun g => ?_⟩
    rw [m2, hiff]
    simp

/-! ## examples and defects -/

/-- corners of the unit cube and the apex of a pyramid. -/
def pyrV : ℤ → Vec3 := fun v =>
  if v = 0 then ![0, 0, 0] else if v = 1 then ![1, 0, 0] else if v = 2 then ![1, 1, 0] else if v = 3 then ![0, 1, 0]
  else ![1 / 2, 1 / 2, 1]

/-- the faces of the pyramid. -/
def pyrF : List (List (List ℤ)) := [[[0, 3, 2, 1]], [[0, 1, 4]], [[1, 2, 4]], [[2, 3, 4]], [[3, 0, 4]]]

/-- the pyramid. -/
def pyrC : List (ℤ × Bool) := [(0, true), (1, true), (2, true), (3, true), (4, true)]

/-- **C87.** The centroid of a cut cell is in general not its centre of mass: for a pyramid of height 1 (split here into
two tetrahedra) the reported height is 4/15 instead of 1/4. -/
theorem C87_centre_of_mass_refuted :
    (cellCentroid pyrV pyrF pyrC).map (fun p => p 2) = some (4 / 15) ∧
    ∀ c, Centroid3.IsCentre [(pyrV 0, pyrV 1, pyrV 2, pyrV 4), (pyrV 0, pyrV 2, pyrV 3, pyrV 4)] c → c 2 = 1 / 4 := by
  constructor
  · decide +kernel
  · intro c hc
    have h := hc 2
    simp only [Centroid3.volume, List.map_cons, List.map_nil, List.sum_cons, List.sum_nil, Centroid3.Tet.vol,
      Centroid3.Tet.centre, vdet_eq, Pi.sub_apply] at h
    have e : ∀ a b c : ℚ, (![a, b, c] : Vec3) 2 = c := fun _ _ _ => rfl
    norm_num [pyrV, e] at h
    linarith

/-- **C87.** A degenerate cell all of whose vertices lie on the upper plane of its grid cell is counted for the next grid
cell. -/
theorem C87_flat_refuted (origin dx : Vec3) (hdx : ∀ i, 0 < dx i) (V : ℤ → Vec3) (faces : List (List (List ℤ)))
    (c : List (ℤ × Bool)) (hc : CellOk faces c) (g : Coord 3) (i : Fin 3)
    (hg : ∀ v, CellVertex faces c v → V v i = origin i + dx i * (g i + 1)) :
    ∃ p, cellCentroid V faces c = some p ∧ coordOf origin dx p i = g i + 1 := by
  obtain ⟨p, hp, hw⟩ := C87_within V faces c hc
  refine ⟨p, hp, ?_⟩
  obtain ⟨hlo, hhi⟩ := hw i (origin i + dx i * (g i + 1)) (origin i + dx i * (g i + 1))
  have e : p i = origin i + dx i * (g i + 1) := le_antisymm (hhi fun v hv => (hg v hv).le).1 (hlo fun v hv => (hg v hv).ge)
  unfold coordOf
  rw [e, add_sub_cancel_left, mul_div_cancel_left₀ _ (hdx i).ne']
  exact_mod_cast Int.floor_intCast (R := ℚ) (g i + 1)

/-- the pyramid meets the hypotheses of `C87_active_cells` for the grid cell (0,0,0). -/
example : CellOk pyrF pyrC ∧ LiesIn ![0, 0, 0] ![1, 1, 1] pyrV pyrF pyrC ![0, 0, 0] := by
  have hok : CellOk pyrF pyrC := by
    refine ⟨by simp [pyrC], ?_⟩
    intro f s h
    simp only [pyrC, List.mem_cons, Prod.mk.injEq, List.not_mem_nil, or_false] at h
    rcases h with ⟨rfl, _⟩ | ⟨rfl, _⟩ | ⟨rfl, _⟩ | ⟨rfl, _⟩ | ⟨rfl, _⟩
    · exact ⟨by norm_num, [[0, 3, 2, 1]], rfl, 0, by simp [VertexOf]⟩
    · exact ⟨by norm_num, [[0, 1, 4]], rfl, 0, by simp [VertexOf]⟩
    · exact ⟨by norm_num, [[1, 2, 4]], rfl, 1, by simp [VertexOf]⟩
    · exact ⟨by norm_num, [[2, 3, 4]], rfl, 2, by simp [VertexOf]⟩
    · exact ⟨by norm_num, [[3, 0, 4]], rfl, 3, by simp [VertexOf]⟩
  refine ⟨hok, fun i => ⟨fun v _ => ?_, 0, ⟨0, true, [[0, 3, 2, 1]], by simp [pyrC], le_rfl, rfl, by simp [VertexOf]⟩, ?_⟩⟩
  · unfold pyrV
    split_ifs <;> fin_cases i <;> norm_num
  · fin_cases i <;> norm_num [pyrV]

end CellCentroid
end Mandoline
