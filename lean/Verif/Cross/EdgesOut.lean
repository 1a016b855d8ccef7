import Verif.Cross.GridEdge
import Verif.Interp.FaceBary
import Verif.Sched.Bake
import Verif.Geom.Queries
import Mathlib.Tactic.Ring
import Mathlib.Tactic.Linarith
import Mathlib.Tactic.LinearCombination
import Mathlib.Tactic.FinCases
import Mathlib.Data.Fin.VecNotation

/-!
# C102: the edges of the generated mesh

`CutCellEdgeGenerator::generate_edges`, `edges`, `edge_slice`, `axial_edges` (construction/generator_impl.hpp:821-934) and the
constructors of `CutEdge` (cutedge.hpp:33-115).
-/
namespace Mandoline.EdgesOut
open Mandoline.Sched.EdgeInput (MeshEdge)
variable {D : ℕ}

/-- `CutEdgeBase::IDType` (cutedge.hpp:40): the index of an input edge, or an axis and a coordinate along it. -/
inductive EdgeId
  | mesh (e : ℤ)
  | axial (axis : ℕ) (coord : ℤ)
deriving DecidableEq

/-- `CutEdgeBase` (cutedge.hpp:31-76). -/
structure OutEdge (D : ℕ) where
  mask : Mask D
  ends : ℤ × ℤ
  id : EdgeId

/-- `CutEdgeBase::is_mesh_edge` (cutedge_impl.hpp:6-9). -/
def OutEdge.isMeshEdge (e : OutEdge D) : Bool :=
  match e.id with
  | .mesh _ => true
  | .axial _ _ => false

/-- `CutEdgeBase::is_axial_edge` (cutedge_impl.hpp:10-13). -/
def OutEdge.isAxialEdge (e : OutEdge D) : Bool :=
  match e.id with
  | .mesh _ => false
  | .axial _ _ => true

/-- `CutEdge<2>` (cutedge.hpp:81-107): also a normal. -/
structure OutEdge2 extends OutEdge 2 where
  N : Fin 2 → ℚ

/-- what `generate_edges` looks at. `gridVertex i` is the vertex of the vertex grid with index `i` (`grid_vertex`,
generator.hpp:211-217), `crossing i` what `bake_vertices` stored for the new vertex `i` (`crossing`, generator.hpp:175), `V` are the
input vertices in grid space, `origV` in world space, `E` the input edges (`data().E`), `cut` is `m_cut_edges`, `grid` is
`m_grid_edges` (mask and ends). -/
structure EdgeGen (D : ℕ) where
  gridSize : ℤ
  gridVertex : ℤ → Vertex D
  crossing : ℤ → CrossingRef D
  V : ℕ → Vertex D
  origV : ℕ → Pt D
  E : ℕ → ℕ × ℕ
  cut : List (MeshEdge D)
  grid : List (Mask D × (ℤ × ℤ))

/-- `CutEdge<2>(CutMeshEdge<2>, N)` with the column of `N` of the parent (generator_impl.hpp:826-838, cutedge.hpp:93). -/
def meshEdge2 (G : EdgeGen 2) (e : MeshEdge 2) : OutEdge2 :=
  let p := G.E e.parent.toNat
  let r : Fin 2 → ℚ := fun i => G.origV p.2 i - G.origV p.1 i
  ⟨⟨e.mask, e.ends, .mesh e.parent⟩, ![-(r 1), r 0]⟩

/-- `CutEdge<2>(CoordMaskedEdge<2>)` (cutedge.hpp:89-91): the first bound axis and its value. With no bound axis `*m[-1]` is read;
modelled by axis 2 and value 0, and never used below. -/
def gridEdge2 (e : Mask 2 × (ℤ × ℤ)) : OutEdge2 :=
  match e.1.boundAxis with
  | some a => ⟨⟨e.1, e.2, .axial a.val ((e.1 a).getD 0)⟩, fun i => if i = a then 1 else 0⟩
  | none => ⟨⟨e.1, e.2, .axial 2 0⟩, fun _ => 0⟩

/-- `m_cut_edges` of the result for `D = 2` (generator_impl.hpp:825-843). -/
def generateEdges2 (G : EdgeGen 2) : List OutEdge2 := G.cut.map (meshEdge2 G) ++ G.grid.map gridEdge2

/-- the lambda of `generate_edges` for `D = 3` (generator_impl.hpp:846-860): a chord of a triangle (`parent_eid == -1`) gets the
first bound axis of its mask; other pieces get their input edge. A chord without a bound axis fails an assertion; the model then
returns a default edge. -/
def meshEdge3 (e : MeshEdge 3) : OutEdge 3 :=
  if e.parent = -1 then
    match (List.finRange 3).find? fun j => (e.mask j).isSome with
    | some j => ⟨e.mask, e.ends, .axial j.val ((e.mask j).getD 0)⟩
    | none => ⟨fun _ => none, (0, 0), .mesh 0⟩
  else ⟨e.mask, e.ends, .mesh e.parent⟩

/-- `std::copy(m_grid_edges ..)` into a vector of `CutEdge<3>` (generator_impl.hpp:861): the conversion goes through
`CutEdgeBase(const Base &E) : Base(E)` (cutedge.hpp:47), which leaves `id` at its default, the integer 0. -/
def gridEdge3 (e : Mask 3 × (ℤ × ℤ)) : OutEdge 3 := ⟨e.1, e.2, .mesh 0⟩

/-- `m_cut_edges` of the result for `D = 3` (generator_impl.hpp:844-875). -/
def generateEdges3 (G : EdgeGen 3) : List (OutEdge 3) := G.cut.map meshEdge3 ++ G.grid.map gridEdge3

/-- parameter of an end of a piece of input edge `p` (generator_impl.hpp:882-886). A grid vertex is passed as a temporary, whose
address is neither endpoint, so `get_edge_coord` falls through to `EI.get_coord` (cutdata_impl.hpp:300-317). -/
def endParam (G : EdgeGen D) (p : ℕ) (vi : ℤ) : ℚ :=
  if vi < G.gridSize then getCoord (G.V (G.E p).1) (G.V (G.E p).2) (G.gridVertex vi)
  else getEdgeCoord G.V (G.E p).1 (G.E p).2 (G.crossing vi)

/-- an entry of `m_mesh_cut_edges` (`InterpolatedEdge`): two parameters and the input edge. -/
structure InterpEdge where
  t : ℚ × ℚ
  parent : ℤ

/-- `m_mesh_cut_edges` (generator_impl.hpp:876-891): a map from positions of `m_cut_edges`. -/
def meshCutEdges (G : EdgeGen D) : List (ℕ × InterpEdge) :=
  G.cut.zipIdx.foldl (fun m x =>
    if 0 ≤ x.1.parent then
      OMap.assign natLt x.2 ⟨(endParam G x.1.parent.toNat x.1.ends.1, endParam G x.1.parent.toNat x.1.ends.2), x.1.parent⟩ m
    else m) []

/-- insertion of an edge in a `std::set<Edge>`. -/
def addEdge (e : ℤ × ℤ) (s : List ((ℤ × ℤ) × Unit)) : List ((ℤ × ℤ) × Unit) := OMap.insertNew edgeLt e () s

/-- `edges()` (generator_impl.hpp:893-904). -/
def edgeSet (G : EdgeGen D) : List ((ℤ × ℤ) × Unit) :=
  G.grid.foldl (fun s e => addEdge e.2 s) (G.cut.foldl (fun s e => addEdge e.ends s) [])

/-- `edge_slice(dim, coord)` (generator_impl.hpp:905-920). -/
def edgeSlice (G : EdgeGen D) (dim : Fin D) (coord : ℤ) : List ((ℤ × ℤ) × Unit) :=
  G.cut.foldl (fun s e => if e.mask dim = some coord then addEdge e.ends s else s)
    (G.grid.foldl (fun s e => if e.1 dim = some coord then addEdge e.2 s else s) [])

/-- one axis of `axial_edges()` (generator_impl.hpp:921-940): `ret[dim][*e[dim]].emplace(e.indices)`. -/
def axialEdges (G : EdgeGen D) (dim : Fin D) : List (ℤ × List ((ℤ × ℤ) × Unit)) :=
  G.grid.foldl (fun m e =>
      match e.1 dim with
      | some c => OMap.alter intLt c (fun o => addEdge e.2 (o.getD [])) m
      | none => m)
    (G.cut.foldl (fun m e =>
      match e.mask dim with
      | some c => OMap.alter intLt c (fun o => addEdge e.ends (o.getD [])) m
      | none => m) [])

/-! ## specification -/

/-- position of a vertex of the generated mesh, in grid space: a grid vertex, or the vertex of the stored crossing. -/
def EdgeGen.pos (G : EdgeGen D) (vi : ℤ) : Pt D :=
  if vi < G.gridSize then (G.gridVertex vi).p else (G.crossing vi).v.p

/-! ## sets of edges -/

theorem addEdge_mem {s : List ((ℤ × ℤ) × Unit)} (hs : OMap.Sorted edgeLt s) (e f : ℤ × ℤ) :
    OMap.Sorted edgeLt (addEdge e s) ∧ ((f, ()) ∈ addEdge e s ↔ (f, ()) ∈ s ∨ f = e) := by
  refine ⟨OMap.sorted_alter strictTotal_edgeLt hs, ?_⟩
  unfold addEdge OMap.insertNew
  rw [OMap.mem_alter strictTotal_edgeLt hs]
  by_cases h : f = e
  · simp [h]
  · simp [h]

theorem foldSet {α : Type} (g : α → ℤ × ℤ) (P : α → Prop) [DecidablePred P] (l : List α) :
    ∀ (s : List ((ℤ × ℤ) × Unit)), OMap.Sorted edgeLt s →
      OMap.Sorted edgeLt (l.foldl (fun s a => if P a then addEdge (g a) s else s) s) ∧
      ∀ f, (f, ()) ∈ l.foldl (fun s a => if P a then addEdge (g a) s else s) s ↔ (f, ()) ∈ s ∨ ∃ a ∈ l, P a ∧ g a = f := by
  induction l with
  | nil => intro s hs; simp [hs]
  | cons a l ih =>
    intro s hs
    by_cases h : P a
    · obtain ⟨h1, h2⟩ := ih (addEdge (g a) s) (addEdge_mem hs _ (0, 0)).1
      simp only [List.foldl_cons, if_pos h]
      refine ⟨h1, fun f => ?_⟩
      rw [h2, (addEdge_mem hs (g a) f).2]
      simp only [List.mem_cons, exists_eq_or_imp, h, true_and]
      rw [or_assoc, @eq_comm _ f]
    · obtain ⟨h1, h2⟩ := ih s hs
      simp only [List.foldl_cons, if_neg h]
      refine ⟨h1, fun f => ?_⟩
      rw [h2]
      simp [h]

theorem foldSet_all {α : Type} (g : α → ℤ × ℤ) (l : List α) (s : List ((ℤ × ℤ) × Unit)) (hs : OMap.Sorted edgeLt s) :
      OMap.Sorted edgeLt (l.foldl (fun s a => addEdge (g a) s) s) ∧
      ∀ f, (f, ()) ∈ l.foldl (fun s a => addEdge (g a) s) s ↔ (f, ()) ∈ s ∨ ∃ a ∈ l, g a = f := by
  have := foldSet g (fun _ => True) l s hs
  simpa using this

theorem foldAxial {α : Type} (g : α → ℤ × ℤ) (k : α → Option ℤ) (l : List α) :
    ∀ (m : List (ℤ × List ((ℤ × ℤ) × Unit))), OMap.Sorted intLt m → (∀ p ∈ m, OMap.Sorted edgeLt p.2) →
      let r := l.foldl (fun m a => match k a with
        | some c => OMap.alter intLt c (fun o => addEdge (g a) (o.getD [])) m
        | none => m) m
      OMap.Sorted intLt r ∧ (∀ p ∈ r, OMap.Sorted edgeLt p.2) ∧
      ∀ c f, (∃ s, (c, s) ∈ r ∧ (f, ()) ∈ s) ↔ (∃ s, (c, s) ∈ m ∧ (f, ()) ∈ s) ∨ ∃ a ∈ l, k a = some c ∧ g a = f := by
  induction l with
  | nil => intro m hm hs; simp only [List.foldl_nil]; exact ⟨hm, hs, by simp⟩
  | cons a l ih =>
    intro m hm hs
    simp only [List.foldl_cons]
    cases hk : k a with
    | none =>
      obtain ⟨h1, h2, h3⟩ := ih m hm hs
      refine ⟨h1, h2, fun c f => ?_⟩
      rw [h3]; simp [hk]
    | some c0 =>
      have hST := strictTotal_intLt
      have hm' : OMap.Sorted intLt (OMap.alter intLt c0 (fun o => addEdge (g a) (o.getD [])) m) := OMap.sorted_alter hST hm
      have hold : OMap.Sorted edgeLt ((OMap.find intLt c0 m).getD []) := by
        cases hf : OMap.find intLt c0 m with
        | none => exact OMap.sorted_nil
        | some s => exact hs _ (OMap.mem_of_find hST hf)
      have hs' : ∀ p ∈ OMap.alter intLt c0 (fun o => addEdge (g a) (o.getD [])) m, OMap.Sorted edgeLt p.2 := by
        rintro ⟨c, s⟩ hp
        rcases (OMap.mem_alter hST hm).1 hp with ⟨_, h⟩ | ⟨_, h⟩
        · exact hs _ h
        · subst h; exact (addEdge_mem hold _ (0, 0)).1
      obtain ⟨h1, h2, h3⟩ := ih _ hm' hs'
      refine ⟨h1, h2, fun c f => ?_⟩
      rw [h3]
      have key : (∃ s, (c, s) ∈ OMap.alter intLt c0 (fun o => addEdge (g a) (o.getD [])) m ∧ (f, ()) ∈ s) ↔
          (∃ s, (c, s) ∈ m ∧ (f, ()) ∈ s) ∨ (c0 = c ∧ g a = f) := by
        constructor
        · rintro ⟨s, h, hf⟩
          rcases (OMap.mem_alter hST hm).1 h with ⟨_, h⟩ | ⟨rfl, rfl⟩
          · exact Or.inl ⟨s, h, hf⟩
          · rcases (addEdge_mem hold _ _).2.1 hf with h | h
            · cases hfd : OMap.find intLt c m with
              | none => rw [hfd] at h; simp at h
              | some s => rw [hfd] at h; exact Or.inl ⟨s, OMap.mem_of_find hST hfd, h⟩
            · exact Or.inr ⟨rfl, h.symm⟩
        · rintro (⟨s, h, hf⟩ | ⟨rfl, rfl⟩)
          · by_cases hc : c = c0
            · subst hc
              refine ⟨_, (OMap.mem_alter hST hm).2 (Or.inr ⟨rfl, rfl⟩), ?_⟩
              rw [(addEdge_mem hold _ _).2, OMap.find_of_mem hST hm h]
              exact Or.inl hf
            · exact ⟨s, (OMap.mem_alter hST hm).2 (Or.inl ⟨hc, h⟩), hf⟩
          · refine ⟨_, (OMap.mem_alter hST hm).2 (Or.inr ⟨rfl, rfl⟩), ?_⟩
            rw [(addEdge_mem hold _ _).2]; exact Or.inr rfl
      rw [key]
      simp only [List.mem_cons, exists_eq_or_imp, hk, Option.some.injEq]
      rw [or_assoc]

theorem foldAxial_nonempty {α : Type} (g : α → ℤ × ℤ) (k : α → Option ℤ) (l : List α) :
    ∀ (m : List (ℤ × List ((ℤ × ℤ) × Unit))), OMap.Sorted intLt m → (∀ p ∈ m, p.2 ≠ []) →
      ∀ p ∈ l.foldl (fun m a => match k a with
        | some c => OMap.alter intLt c (fun o => addEdge (g a) (o.getD [])) m
        | none => m) m, p.2 ≠ [] := by
  induction l with
  | nil => intro m _ hs; exact hs
  | cons a l ih =>
    intro m hm hs
    simp only [List.foldl_cons]
    cases hk : k a with
    | none => exact ih m hm hs
    | some c0 =>
      refine ih _ (OMap.sorted_alter strictTotal_intLt hm) ?_
      rintro ⟨c, s⟩ hp
      rcases (OMap.mem_alter strictTotal_intLt hm).1 hp with ⟨_, h⟩ | ⟨_, h⟩
      · exact hs _ h
      · subst h
        dsimp only
        unfold addEdge OMap.insertNew
        cases (OMap.find intLt c0 m).getD [] with
        | nil => simp [OMap.alter]
        | cons x xs => simp only [OMap.alter]; split_ifs <;> simp

/-- **C102, the set of edges.** `edges()` holds exactly the end pairs of the cut edges and of the grid edges. -/
theorem C102_edges (G : EdgeGen D) (f : ℤ × ℤ) :
    (f, ()) ∈ edgeSet G ↔ (∃ e ∈ G.cut, e.ends = f) ∨ ∃ e ∈ G.grid, e.2 = f := by
  obtain ⟨h1, h2⟩ := foldSet_all MeshEdge.ends G.cut [] OMap.sorted_nil
  obtain ⟨_, h4⟩ := foldSet_all Prod.snd G.grid _ h1
  unfold edgeSet
  rw [h4, h2]; simp

/-- **C102, slices.** `edge_slice(d, c)` holds exactly the edges (cut or grid) bound to coordinate `c` along `d`; `axial_edges()`
has for axis `d` and coordinate `c` an entry with exactly the same edges, and no entry when there are none. -/
theorem C102_slices (G : EdgeGen D) (d : Fin D) :
    (∀ c f, (f, ()) ∈ edgeSlice G d c ↔
      (∃ e ∈ G.cut, e.mask d = some c ∧ e.ends = f) ∨ ∃ e ∈ G.grid, e.1 d = some c ∧ e.2 = f) ∧
    (axialEdges G d).Pairwise (fun a b => a.1 < b.1) ∧
    (∀ p ∈ axialEdges G d, p.2 = edgeSlice G d p.1) ∧
    (∀ c, c ∈ (axialEdges G d).map Prod.fst ↔ (∃ e ∈ G.cut, e.mask d = some c) ∨ ∃ e ∈ G.grid, e.1 d = some c) := by
  have hslice : ∀ c, OMap.Sorted edgeLt (edgeSlice G d c) ∧ ∀ f, (f, ()) ∈ edgeSlice G d c ↔
      (∃ e ∈ G.cut, e.mask d = some c ∧ e.ends = f) ∨ ∃ e ∈ G.grid, e.1 d = some c ∧ e.2 = f := by
    intro c
    obtain ⟨h1, h2⟩ := foldSet (fun e : Mask D × (ℤ × ℤ) => e.2) (fun e => e.1 d = some c) G.grid [] OMap.sorted_nil
    obtain ⟨h3, h4⟩ := foldSet (fun e : MeshEdge D => e.ends) (fun e => e.mask d = some c) G.cut _ h1
    refine ⟨h3, fun f => ?_⟩
    unfold edgeSlice
    rw [h4, h2]; simp [or_comm]
  obtain ⟨a1, a2, a3⟩ := foldAxial (fun e : MeshEdge D => e.ends) (fun e => e.mask d) G.cut [] OMap.sorted_nil (by simp)
  have a4 := foldAxial_nonempty (fun e : MeshEdge D => e.ends) (fun e => e.mask d) G.cut [] OMap.sorted_nil (by simp)
  obtain ⟨b1, b2, b3⟩ := foldAxial (fun e : Mask D × (ℤ × ℤ) => e.2) (fun e => e.1 d) G.grid _ a1 a2
  have b4 := foldAxial_nonempty (fun e : Mask D × (ℤ × ℤ) => e.2) (fun e => e.1 d) G.grid _ a1 a4
  have hax : ∀ c f, (∃ s, (c, s) ∈ axialEdges G d ∧ (f, ()) ∈ s) ↔ (f, ()) ∈ edgeSlice G d c := by
    intro c f
    have h := b3 c f
    rw [a3] at h
    rw [(hslice c).2]
    refine h.trans ?_
    simp
  have hST := strictTotal_intLt
  have heq : ∀ p ∈ axialEdges G d, p.2 = edgeSlice G d p.1 := by
    rintro ⟨c, s⟩ hp
    refine OMap.sorted_ext strictTotal_edgeLt (b2 _ hp) (hslice c).1 ?_
    rintro ⟨f, u⟩
    rw [← hax]
    constructor
    · intro h; exact ⟨s, hp, h⟩
    · rintro ⟨s', h', hf⟩
      have := OMap.sorted_unique hST b1 hp h'
      dsimp only at this ⊢
      rw [this]; exact hf
  refine ⟨fun c f => (hslice c).2 f, ?_, heq, fun c => ?_⟩
  · refine List.Pairwise.imp ?_ b1
    intro a b h
    simpa [intLt] using h
  · constructor
    · intro h
      obtain ⟨⟨c', s⟩, hp, rfl⟩ := List.mem_map.1 h
      have hne := b4 _ hp
      obtain ⟨⟨f, u⟩, hx⟩ := List.exists_mem_of_ne_nil _ hne
      have := (hax c' f).1 ⟨s, hp, hx⟩
      rw [(hslice c').2] at this
      rcases this with ⟨e, h1, h2, _⟩ | ⟨e, h1, h2, _⟩
      · exact Or.inl ⟨e, h1, h2⟩
      · exact Or.inr ⟨e, h1, h2⟩
    · intro h
      have : ∃ f, (f, ()) ∈ edgeSlice G d c := by
        rcases h with ⟨e, h1, h2⟩ | ⟨e, h1, h2⟩
        · exact ⟨e.ends, ((hslice c).2 _).2 (Or.inl ⟨e, h1, h2, rfl⟩)⟩
        · exact ⟨e.2, ((hslice c).2 _).2 (Or.inr ⟨e, h1, h2, rfl⟩)⟩
      obtain ⟨f, hf⟩ := this
      obtain ⟨s, hs, _⟩ := (hax c f).2 hf
      exact List.mem_map.2 ⟨(c, s), hs, rfl⟩

/-! ## the edges of the result -/

/-- **C102, two dimensions.** The edges of the generated mesh are the cut edges followed by the grid edges, in order, with their
ends and masks. A cut edge is a mesh edge carrying the index of its input edge and a normal that is the input edge turned a quarter to the
left; a grid edge bound along exactly one axis is an axial edge carrying that axis and coordinate, with the unit normal of the axis. -/
theorem C102_edges2 (G : EdgeGen 2) (hgrid : ∀ e ∈ G.grid, e.1.count = 1) :
    (generateEdges2 G).length = G.cut.length + G.grid.length ∧
    (∀ (i : ℕ) (h : i < G.cut.length), ∃ o, (generateEdges2 G)[i]? = some o ∧ o.mask = G.cut[i].mask ∧ o.ends = G.cut[i].ends ∧
      o.isMeshEdge = true ∧ o.isAxialEdge = false ∧ o.id = .mesh G.cut[i].parent ∧
      let p := G.E G.cut[i].parent.toNat
      let r : Fin 2 → ℚ := fun j => G.origV p.2 j - G.origV p.1 j
      o.N 0 * r 0 + o.N 1 * r 1 = 0 ∧ r 0 * o.N 1 - r 1 * o.N 0 = r 0 ^ 2 + r 1 ^ 2) ∧
    (∀ (i : ℕ) (h : i < G.grid.length), ∃ o a c, (generateEdges2 G)[G.cut.length + i]? = some o ∧ o.mask = G.grid[i].1 ∧
      o.ends = G.grid[i].2 ∧ o.isMeshEdge = false ∧ o.isAxialEdge = true ∧ o.id = .axial (a : Fin 2).val c ∧
      o.mask a = some c ∧ o.mask (1 - a) = none ∧ o.N a = 1 ∧ o.N (1 - a) = 0) := by
  refine ⟨by simp [generateEdges2], fun i h => ?_, fun i h => ?_⟩
  · refine ⟨meshEdge2 G G.cut[i], ?_, rfl, rfl, rfl, rfl, rfl, ?_, ?_⟩
    · unfold generateEdges2
      rw [List.getElem?_append_left (by simpa using h)]
      simp [h]
    · simp only [meshEdge2, Matrix.cons_val_zero, Matrix.cons_val_one]; ring
    · simp only [meshEdge2, Matrix.cons_val_zero, Matrix.cons_val_one]; ring
  · have hget : (generateEdges2 G)[G.cut.length + i]? = some (gridEdge2 G.grid[i]) := by
      unfold generateEdges2
      rw [List.getElem?_append_right (by simp)]
      simp [h]
    obtain ⟨a, ha, ⟨c, hc⟩, hno⟩ := (C75_axis G.grid[i].1).2 (hgrid _ (List.getElem_mem h))
    refine ⟨gridEdge2 G.grid[i], a, c, hget, ?_⟩
    unfold gridEdge2
    rw [ha]
    dsimp only
    have hne : (1 - a) ≠ a := (by decide : ∀ a : Fin 2, 1 - a ≠ a) a
    refine ⟨rfl, rfl, rfl, rfl, ?_, hc, hno _ hne, by simp, by simp [hne]⟩
    rw [hc]; rfl

/-- **C102, three dimensions.** The edges of the generated mesh are the cut edges followed by the grid edges, in order, with their
ends and masks (for the chords of triangles provided that they are bound along some axis). A piece of an input edge carries the
index of that edge; a chord of a triangle carries the first axis along which it is bound, and its coordinate there. -/
theorem C102_edges3 (G : EdgeGen 3) (hchord : ∀ e ∈ G.cut, e.parent = -1 → ∃ j c, e.mask j = some c) :
    (generateEdges3 G).length = G.cut.length + G.grid.length ∧
    (∀ (i : ℕ) (h : i < G.cut.length), ∃ o, (generateEdges3 G)[i]? = some o ∧ o.mask = G.cut[i].mask ∧ o.ends = G.cut[i].ends ∧
      (G.cut[i].parent ≠ -1 → o.id = .mesh G.cut[i].parent ∧ o.isMeshEdge = true) ∧
      (G.cut[i].parent = -1 → o.isMeshEdge = false ∧ o.isAxialEdge = true ∧
        ∃ (a : Fin 3) (c : ℤ), o.id = .axial a.val c ∧ o.mask a = some c ∧ ∀ b < a, o.mask b = none)) ∧
    (∀ (i : ℕ) (h : i < G.grid.length), ∃ o, (generateEdges3 G)[G.cut.length + i]? = some o ∧ o.mask = G.grid[i].1 ∧
      o.ends = G.grid[i].2) := by
  refine ⟨by simp [generateEdges3], fun i h => ?_, fun i h => ?_⟩
  · have hget : (generateEdges3 G)[i]? = some (meshEdge3 G.cut[i]) := by
      unfold generateEdges3
      rw [List.getElem?_append_left (by simpa using h)]
      simp [h]
    refine ⟨_, hget, ?_⟩
    generalize hG : G.cut[i] = e
    have hmem : e ∈ G.cut := hG ▸ List.getElem_mem h
    unfold meshEdge3
    by_cases hp : e.parent = -1
    · rw [if_pos hp]
      obtain ⟨j, c, hj⟩ := hchord e hmem hp
      cases hf : (List.finRange 3).find? fun j => (e.mask j).isSome with
      | none =>
        have := List.find?_eq_none.1 hf j (List.mem_finRange j)
        rw [hj] at this; simp at this
      | some a =>
        have ha := List.find?_some hf
        obtain ⟨c', hc'⟩ := Option.isSome_iff_exists.1 ha
        dsimp only
        refine ⟨rfl, rfl, fun h => absurd hp h, fun _ => ⟨rfl, rfl, a, c', by rw [hc']; rfl, hc', ?_⟩⟩
        intro b hb
        have hx : ∀ m : Mask 3, (List.finRange 3).find? (fun j => (m j).isSome) = some a → m b = none := by
          clear * - hb
          intro m hm
          have h3 : List.finRange 3 = [0, 1, 2] := by decide
          rw [h3] at hm
          cases h0 : m 0 with
          | some x =>
            simp [List.find?, h0] at hm
            subst hm; exact absurd hb (by omega)
          | none =>
            cases h1 : m 1 with
            | some x =>
              simp [List.find?, h0, h1] at hm
              subst hm
              have : b = 0 := by omega
              rw [this, h0]
            | none =>
              cases h2 : m 2 with
              | some x =>
                simp [List.find?, h0, h1, h2] at hm
                subst hm
                match b, hb with
                | 0, _ => exact h0
                | 1, _ => exact h1
              | none => simp [List.find?, h0, h1, h2] at hm
        exact hx e.mask hf
    · rw [if_neg hp]
      exact ⟨rfl, rfl, fun _ => ⟨rfl, rfl⟩, fun h => absurd h hp⟩
  · refine ⟨gridEdge3 G.grid[i], ?_, rfl, rfl⟩
    unfold generateEdges3
    rw [List.getElem?_append_right (by simp)]
    simp [h]

/-- **C102, three dimensions, refuted.** "An edge on a grid line is reported as an axial edge" fails: whatever the data, every grid
edge of a three-dimensional mesh is reported as a piece of input edge 0. -/
theorem C102_grid_edges3_refuted (G : EdgeGen 3) (i : ℕ) (h : i < G.grid.length) :
    ∃ o, (generateEdges3 G)[G.cut.length + i]? = some o ∧ o.ends = G.grid[i].2 ∧
      o.isMeshEdge = true ∧ o.isAxialEdge = false ∧ o.id = .mesh 0 := by
  refine ⟨gridEdge3 G.grid[i], ?_, rfl, rfl, rfl, rfl⟩
  unfold generateEdges3
  rw [List.getElem?_append_right (by simp)]
  simp [h]

/-! ## the interpolation data of the pieces of input edges -/

theorem meshCutEdges_fold (G : EdgeGen D) (l : List (MeshEdge D)) :
    ∀ (k : ℕ) (m : List (ℕ × InterpEdge)), OMap.Sorted natLt m → (∀ p ∈ m, p.1 < k) →
      let r := (l.zipIdx k).foldl (fun m x =>
        if 0 ≤ x.1.parent then
          OMap.assign natLt x.2 ⟨(endParam G x.1.parent.toNat x.1.ends.1, endParam G x.1.parent.toNat x.1.ends.2), x.1.parent⟩ m
        else m) m
      OMap.Sorted natLt r ∧ ∀ j v, (j, v) ∈ r ↔ (j, v) ∈ m ∨ ∃ (i : ℕ) (h : i < l.length), j = k + i ∧ 0 ≤ l[i].parent ∧
        v = ⟨(endParam G l[i].parent.toNat l[i].ends.1, endParam G l[i].parent.toNat l[i].ends.2), l[i].parent⟩ := by
  induction l with
  | nil => intro k m hm _; exact ⟨hm, by simp⟩
  | cons e l ih =>
    intro k m hm hk
    simp only [List.zipIdx_cons, List.foldl_cons]
    have hsplit : ∀ (j : ℕ) (v : InterpEdge), (∃ (i : ℕ) (h : i < (e :: l).length), j = k + i ∧ 0 ≤ (e :: l)[i].parent ∧
        v = ⟨(endParam G (e :: l)[i].parent.toNat (e :: l)[i].ends.1, endParam G (e :: l)[i].parent.toNat (e :: l)[i].ends.2),
          (e :: l)[i].parent⟩) ↔
        (j = k ∧ 0 ≤ e.parent ∧ v = ⟨(endParam G e.parent.toNat e.ends.1, endParam G e.parent.toNat e.ends.2), e.parent⟩) ∨
        ∃ (i : ℕ) (h : i < l.length), j = k + 1 + i ∧ 0 ≤ l[i].parent ∧
          v = ⟨(endParam G l[i].parent.toNat l[i].ends.1, endParam G l[i].parent.toNat l[i].ends.2), l[i].parent⟩ := by
      intro j v
      constructor
      · rintro ⟨i, h, h1, h2, h3⟩
        cases i with
        | zero => exact Or.inl ⟨h1, h2, h3⟩
        | succ i => exact Or.inr ⟨i, by simpa using h, by omega, h2, h3⟩
      · rintro (⟨h1, h2, h3⟩ | ⟨i, h, h1, h2, h3⟩)
        · exact ⟨0, by simp, h1, h2, h3⟩
        · exact ⟨i + 1, by simpa using h, by omega, h2, h3⟩
    by_cases hp : 0 ≤ e.parent
    · rw [if_pos hp]
      have hm' : OMap.Sorted natLt (OMap.assign natLt k
          ⟨(endParam G e.parent.toNat e.ends.1, endParam G e.parent.toNat e.ends.2), e.parent⟩ m) :=
        OMap.sorted_alter strictTotal_natLt hm
      obtain ⟨h1, h2⟩ := ih (k + 1) _ hm' (by
        rintro ⟨j, v⟩ hj
        rcases (OMap.mem_alter strictTotal_natLt hm).1 hj with ⟨_, h⟩ | ⟨h, _⟩
        · have := hk _ h; dsimp only at this ⊢; omega
        · dsimp only; omega)
      refine ⟨h1, fun j v => ?_⟩
      rw [h2, hsplit]
      unfold OMap.assign
      rw [OMap.mem_alter strictTotal_natLt hm, ← or_assoc]
      refine or_congr_left ?_
      constructor
      · rintro (⟨_, h⟩ | ⟨h, h'⟩)
        · exact Or.inl h
        · exact Or.inr ⟨h, hp, h'⟩
      · rintro (h | ⟨h, _, h'⟩)
        · left
          refine ⟨fun hj => ?_, h⟩
          have := hk _ h
          dsimp only at this; omega
        · exact Or.inr ⟨h, h'⟩
    · rw [if_neg hp]
      obtain ⟨h1, h2⟩ := ih (k + 1) m hm (fun p h => by have := hk p h; omega)
      refine ⟨h1, fun j v => ?_⟩
      rw [h2, hsplit]
      simp [hp]

/-- **C102, interpolation data.** The generated mesh records interpolation data for position `j` of its edges exactly when `j` is a
piece of an input edge. The data name that input edge, and its two parameters reproduce the positions of the two ends (in order) on
the input edge — provided that the ends do lie on that edge, and that the crossing kept for an end is not one computed for a
different input edge. -/
theorem C102_mesh_edges (G : EdgeGen D) :
    (meshCutEdges G).Pairwise (fun a b => a.1 < b.1) ∧
    (∀ j, j ∈ (meshCutEdges G).map Prod.fst ↔ ∃ h : j < G.cut.length, 0 ≤ G.cut[j].parent) ∧
    ∀ j v, (j, v) ∈ meshCutEdges G → ∃ h : j < G.cut.length, v.parent = G.cut[j].parent ∧
      let p := G.E v.parent.toNat
      ∀ s0 s1 : ℚ, (G.V p.1).p ≠ (G.V p.2).p →
        (∀ i, G.pos G.cut[j].ends.1 i = (1 - s0) * (G.V p.1).p i + s0 * (G.V p.2).p i) →
        (∀ i, G.pos G.cut[j].ends.2 i = (1 - s1) * (G.V p.1).p i + s1 * (G.V p.2).p i) →
        (∀ vi, vi = G.cut[j].ends.1 ∨ vi = G.cut[j].ends.2 → G.gridSize ≤ vi →
          (G.crossing vi).FromEdge G.V G.E v.parent.toNat) →
        v.t = (s0, s1) := by
  obtain ⟨h1, h2⟩ := meshCutEdges_fold G G.cut 0 [] OMap.sorted_nil (by simp)
  have hm : ∀ j v, (j, v) ∈ meshCutEdges G ↔ ∃ h : j < G.cut.length, 0 ≤ G.cut[j].parent ∧
      v = ⟨(endParam G G.cut[j].parent.toNat G.cut[j].ends.1, endParam G G.cut[j].parent.toNat G.cut[j].ends.2), G.cut[j].parent⟩ := by
    intro j v
    refine (h2 j v).trans ?_
    constructor
    · rintro (h | ⟨i, h, h3, h4, h5⟩)
      · simp at h
      · have : j = i := by omega
        subst this; exact ⟨h, h4, h5⟩
    · rintro ⟨h, h4, h5⟩
      exact Or.inr ⟨j, h, by omega, h4, h5⟩
  refine ⟨?_, fun j => ?_, fun j v hv => ?_⟩
  · refine List.Pairwise.imp ?_ h1
    intro a b h
    simpa [natLt] using h
  · constructor
    · intro h
      obtain ⟨⟨j', v⟩, hp, rfl⟩ := List.mem_map.1 h
      obtain ⟨h, h', _⟩ := (hm _ _).1 hp
      exact ⟨h, h'⟩
    · rintro ⟨h, h'⟩
      exact List.mem_map.2 ⟨(j, _), (hm j _).2 ⟨h, h', rfl⟩, rfl⟩
  · obtain ⟨h, _, rfl⟩ := (hm j v).1 hv
    refine ⟨h, rfl, ?_⟩
    intro p s0 s1 hne h0 h1 hfrom
    have key : ∀ vi s, (vi = G.cut[j].ends.1 ∨ vi = G.cut[j].ends.2) →
        (∀ i, G.pos vi i = (1 - s) * (G.V p.1).p i + s * (G.V p.2).p i) → endParam G G.cut[j].parent.toNat vi = s := by
      intro vi s hvi hs
      unfold endParam
      unfold EdgeGen.pos at hs
      split_ifs at hs ⊢ with hlt
      · exact C14_getCoord _ _ _ s hne hs
      · exact C72_edge_coord G.V G.E _ hne _ s hs (hfrom vi hvi (by omega))
    rw [key _ s0 (Or.inl rfl) h0, key _ s1 (Or.inr rfl) h1]

/-! ## the planes of the axial edges -/

/-- **C102, grid edges lie where their mask says.** For the grid edges `bake_edges` makes along axis `d`: an end of a piece whose mask
binds coordinate `k` to `c` has `k`-th coordinate `c`; the mask binds every axis but `d`. -/
theorem C102_grid_edge_mask {shape : Coord D} (I : GridIndexer shape) (cellShape : Coord D) (hshape : ∀ i, shape i = cellShape i + 1)
    (ac : List (Coord D)) (cs : List (CrossingI D))
    (hN : ∀ x ∈ cs, Normalised x.v) (hF : ∀ x ∈ cs, FlagsExact x.v) (hI : IndexConsistent cs)
    (hnew : ∀ x ∈ cs, ¬ IsGridPoint x.v.p → I.size ≤ x.index) (d : Fin D) (pos : ℤ → Pt D)
    (hpg : ∀ c, ValidIndex shape c = true → pos (I.idx c) = fun i => (c i : ℚ))
    (hpx : ∀ x ∈ cs, pos x.index = x.v.p)
    (e : Mask D × (ℤ × ℤ)) (he : e ∈ bakeEdgesAxis I.idx cellShape d (storeWithGrid cellShape ac cs d)) :
    (∀ k, e.1 k = none ↔ k = d) ∧
    ∀ k c, e.1 k = some c → pos e.2.1 k = (c : ℚ) ∧ pos e.2.2 k = (c : ℚ) := by
  obtain ⟨L, _, hkeys, hL, heq⟩ := C19_all_pieces I cellShape hshape ac cs hN hF hI hnew d
  rw [heq] at he
  obtain ⟨q, hq, hx⟩ := List.mem_flatMap.1 he
  obtain ⟨⟨a, b⟩, hab, rfl⟩ := List.mem_map.1 hx
  obtain ⟨_, _, _, hmem⟩ := hL q hq
  obtain ⟨⟨hval, hvd⟩, _⟩ := (hkeys q.1).1 (List.mem_map.2 ⟨q, hq, rfl⟩)
  have hv0 : ValidIndex shape q.1 = true := by
    rw [validIndex_iff]; intro i; rw [hshape]; have := hval i; omega
  have hv1 : ValidIndex shape (Function.update q.1 d (q.1 d + 1)) = true := by
    rw [validIndex_iff]; intro i; rw [hshape]
    by_cases hi : i = d
    · subst hi; simp only [Function.update_self]; have := hval i; omega
    · rw [Function.update_of_ne hi]; have := hval i; omega
  have hpos : ∀ x ∈ q.2, ∀ k, k ≠ d → pos x.2 k = (q.1 k : ℚ) := by
    rintro ⟨t, i⟩ hx k hk
    rcases (hmem t i).1 hx with h | h | ⟨y, hy, ho, _, rfl⟩
    · cases h; dsimp only; rw [hpg _ hv0]
    · cases h; dsimp only; rw [hpg _ hv1]; simp [Function.update_of_ne hk]
    · dsimp only; rw [hpx y hy]; exact ho.1 k hk
  have ha := (List.of_mem_zip hab).1
  have hb := List.mem_of_mem_tail (List.of_mem_zip hab).2
  refine ⟨fun k => ?_, fun k c hk => ?_⟩
  · dsimp only; by_cases h : k = d <;> simp [h]
  · dsimp only at hk ⊢
    by_cases h : k = d
    · simp [h] at hk
    · rw [if_neg h] at hk
      cases hk
      exact ⟨hpos a ha k h, hpos b hb k h⟩

/-! ## a concrete case -/

/-- a 2x1 grid of cells (3x2 grid vertices, indices 0..5) and one input edge from `(1/2,1/2)` to `(3/2,1/2)`, cut at `(1,1/2)`; new
vertices 6, 7, 8. -/
def demoGen : EdgeGen 2 where
  gridSize := 6
  gridVertex := fun i => Vertex.ofCoord ![i % 3, i / 3]
  crossing := fun i => if i = 6 then .vertex 0 (Vertex.fromVertex ![1/2, 1/2]) else if i = 7 then .vertex 1 (Vertex.fromVertex ![3/2, 1/2])
    else .edgeIsect 0 (1/2) (Vertex.fromVertex ![1, 1/2])
  V := fun k => if k = 0 then Vertex.fromVertex ![1/2, 1/2] else Vertex.fromVertex ![3/2, 1/2]
  origV := fun k => if k = 0 then ![1/2, 1/2] else ![3/2, 1/2]
  E := fun _ => (0, 1)
  cut := [⟨fun _ => none, (6, 8), 0⟩, ⟨fun _ => none, (7, 8), 0⟩]
  grid := [(![some 1, none], (1, 8)), (![some 1, none], (8, 4)), (![none, some 0], (0, 1))]

example : (∀ e ∈ demoGen.grid, e.1.count = 1) ∧
    (generateEdges2 demoGen).map (fun e => (e.ends, e.id)) =
      [((6, 8), .mesh 0), ((7, 8), .mesh 0), ((1, 8), .axial 0 1), ((8, 4), .axial 0 1), ((0, 1), .axial 1 0)] ∧
    (generateEdges2 demoGen).map (fun e => (e.N 0, e.N 1)) = [(0, 1), (0, 1), (1, 0), (1, 0), (0, 1)] ∧
    (meshCutEdges demoGen).map (fun x => (x.1, x.2.t, x.2.parent)) = [(0, (0, 1/2), 0), (1, (1, 1/2), 0)] ∧
    (edgeSlice demoGen 0 1).map Prod.fst = [(1, 8), (8, 4)] := by decide +kernel

example : ∀ i, demoGen.pos 8 i = (1 - 1/2) * (demoGen.V (demoGen.E 0).1).p i + 1/2 * (demoGen.V (demoGen.E 0).2).p i := by decide +kernel

end Mandoline.EdgesOut
