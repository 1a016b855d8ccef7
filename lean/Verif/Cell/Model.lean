import Verif.Collapse.Face
import Mathlib.Data.List.Lex

/-!
# The cell collapser (model)

Transcription of include/mandoline/construction/cell_collapser.hpp and src/construction/cell_collapser.cpp.
-/
namespace Mandoline

/-- `std::set::insert`. -/
def setInsert {K : Type*} (lt : K → K → Bool) (x : K) : List K → List K
  | [] => [x]
  | y :: l => if lt x y then x :: y :: l else if lt y x then y :: setInsert lt x l else y :: l

theorem mem_setInsert {K : Type*} {lt : K → K → Bool} (h : StrictTotal lt) (x : K) (l : List K) (y : K) :
    y ∈ setInsert lt x l ↔ y = x ∨ y ∈ l := by
  induction l with
  | nil => simp [setInsert]
  | cons z l ih =>
    unfold setInsert
    split
    · simp
    · split
      · simp only [List.mem_cons, ih]; tauto
      · rename_i h1 h2
        have : x = z := by
          rcases h.tri x z with h' | h' | h'
          · exact absurd h' h1
          · exact h'
          · exact absurd h' h2
        subst this; simp

/-- the reversed edge. -/
def DEdge.rev (e : DEdge) : DEdge := (e.2, e.1)

@[simp] theorem DEdge.rev_rev (e : DEdge) : e.rev.rev = e := rfl

/-- `CellCollapser::HalfFace`: a face index and a directed edge. -/
abbrev HalfFace := ℤ × DEdge

/-- `operator<` of `std::tuple<int, std::array<int,2>>`. -/
def hfLt (a b : HalfFace) : Bool :=
  decide (a.1 < b.1 ∨ (a.1 = b.1 ∧ (a.2.1 < b.2.1 ∨ (a.2.1 = b.2.1 ∧ a.2.2 < b.2.2))))

theorem strictTotal_hfLt : StrictTotal hfLt where
  irrefl a := by simp [hfLt]
  trans a b c := by simp only [hfLt, decide_eq_true_eq]; omega
  tri a b := by simp only [hfLt, decide_eq_true_eq, Prod.ext_iff]; omega

/-- `operator<` of `std::vector<int>`. -/
def loopLt (a b : List ℤ) : Bool := decide (a < b)

theorem strictTotal_loopLt : StrictTotal loopLt where
  irrefl a := by simp [loopLt]
  trans a b c := by simp only [loopLt, decide_eq_true_eq]; exact lt_trans
  tri a b := by simp only [loopLt, decide_eq_true_eq]; exact lt_trichotomy a b

/-- the directed edges `(C[i], C[(i+1) % size])` of a loop. -/
def polyEdges (C : List ℤ) : List DEdge := C.zip (C.rotate 1)

/-- the members of `CellCollapser` (cell_collapser.hpp:57-64). Of `m_faces` only `indices` is kept. -/
structure CellCollapser where
  h2c : List (HalfFace × (ℤ × Bool))
  faces : List (ℤ × List (List ℤ))
  invalid : List DEdge
  ds : Dsu ℤ
  cells : List (List (ℤ × Bool))

namespace CellCollapser

/-- an object before the constructor body. -/
def empty : CellCollapser := ⟨[], [], [], .empty, []⟩

/-! ### clean_unmanifold -/

/-- the update of `invalid_edges` (cell_collapser.cpp:82-97): for each edge of the loop whose reverse is in the loop
too, both are inserted. -/
def invalidStep (E : List DEdge) (inv : List DEdge) (e : DEdge) : List DEdge :=
  if e.rev ∈ E then setInsert edgeLt e (setInsert edgeLt e.rev inv) else inv

/-- `invalid_edges` after the loop. The member is never cleared, so it still holds the edges of earlier faces. -/
def cleanInvalid (inv : List DEdge) (C : List ℤ) : List DEdge := (polyEdges C).foldl (invalidStep (polyEdges C)) inv

/-- the update of `flaps` (cell_collapser.cpp:86-96). -/
def flapStep (E : List DEdge) (fl : List DEdge) (e : DEdge) : List DEdge :=
  if e.rev ∈ E then
    let fl' := if e.rev.1 > e.rev.2 then setInsert edgeLt e.rev fl else fl
    if e.1 > e.2 then setInsert edgeLt e fl' else fl'
  else fl

/-- `flaps` of a loop. -/
def cleanFlaps (C : List ℤ) : List DEdge := (polyEdges C).foldl (flapStep (polyEdges C)) []

/-- `next` (cell_collapser.cpp:101-108): later edges overwrite earlier ones with the same start. -/
def cleanNext (inv : List DEdge) (C : List ℤ) : List (ℤ × ℤ) :=
  ((polyEdges C).filter fun e => decide (e ∉ inv)).foldl (fun m e => OMap.assign intLt e.1 e.2 m) []

/-- `next[cur]`: a missing key yields 0. -/
def nextOf (next : List (ℤ × ℤ)) (cur : ℤ) : ℤ := (OMap.find intLt cur next).getD 0

/-- the inner `while` (cell_collapser.cpp:128-132): the vertices pushed and the new `seen`. The first argument is fuel;
`cleanLoops` passes more than the walk can use (`C69_walk_terminates`). -/
def cleanWalk (next : List (ℤ × ℤ)) : ℕ → List ℤ → ℤ → List ℤ × List ℤ
  | 0, seen, _ => ([], seen)
  | n + 1, seen, cur =>
    if cur ∈ seen then ([], seen)
    else
      let r := cleanWalk next n (cur :: seen) (nextOf next cur)
      (cur :: r.1, r.2)

/-- one iteration of the loop over `next` (cell_collapser.cpp:121-134). -/
def cleanStep (next : List (ℤ × ℤ)) (st : List (List ℤ) × List ℤ) (p : ℤ × ℤ) : List (List ℤ) × List ℤ :=
  if p.1 ∈ st.2 then st
  else
    let r := cleanWalk next (next.length + 2) (p.1 :: st.2) p.2
    (setInsert loopLt (p.1 :: r.1) st.1, r.2)

/-- the loops rebuilt from `next` (cell_collapser.cpp:119-136). -/
def cleanLoops (next : List (ℤ × ℤ)) : List (List ℤ) := (next.foldl (cleanStep next) ([], [])).1

/-- `clean_unmanifold` (cell_collapser.cpp:72-141): the loops, the flap edges and the new `invalid_edges`. -/
def cleanUnmanifold (inv : List DEdge) (C : List ℤ) : List (List ℤ) × List DEdge × List DEdge :=
  let inv' := cleanInvalid inv C
  if inv' = [] then ([C], cleanFlaps C, inv')
  else
    let next := cleanNext inv' C
    if next.length < C.length then (cleanLoops next, cleanFlaps C, inv') else ([C], cleanFlaps C, inv')

/-! ### the constructor -/

/-- loops of one face (cell_collapser.cpp:20-30): the cleaned loops with at least three vertices; `my_flap_edges` holds
the flaps of the last loop only. State: `CS.indices`, `my_flap_edges`, `invalid_edges`. -/
def faceStep (st : List (List ℤ) × List DEdge × List DEdge) (C : List ℤ) : List (List ℤ) × List DEdge × List DEdge :=
  let r := cleanUnmanifold st.2.2 C
  ((r.1.filter fun c => decide (¬ c.length < 3)).foldl (fun l c => setInsert loopLt c l) st.1, r.2.1, r.2.2)

/-- cleaned loops, flap edges and `invalid_edges` of one face. -/
def cleanFace (inv : List DEdge) (loops : List (List ℤ)) : List (List ℤ) × List DEdge × List DEdge :=
  loops.foldl faceStep ([], [], inv)

/-- `add_halfface` (cell_collapser.cpp:34-57): `base` is set to 0 whatever the flag. -/
def addHalfface (s : CellCollapser) (fid : ℤ) (e : DEdge) : CellCollapser :=
  { s with
    ds := (s.ds.addNode (100 * fid)).addNode (100 * fid + 1)
    h2c := OMap.assign hfLt (fid, e.rev) (100 * fid + 1, false) (OMap.assign hfLt (fid, e) (100 * fid, true) s.h2c) }

/-- the directed edges a face registers: edges of the loops, then flap edges (cell_collapser.cpp:58-68). -/
def faceEdges (loops : List (List ℤ)) (flaps : List DEdge) : List DEdge := loops.flatMap polyEdges ++ flaps

/-- one iteration of the constructor (cell_collapser.cpp:10-69). -/
def addFace (s : CellCollapser) (p : ℤ × List (List ℤ)) : CellCollapser :=
  let r := cleanFace s.invalid p.2
  let s := { s with invalid := r.2.2 }
  if r.1 = [] then s
  else (faceEdges r.1 r.2.1).foldl (fun s e => s.addHalfface p.1 e) { s with faces := s.faces ++ [(p.1, r.1)] }

/-- the constructor (cell_collapser.cpp:9-71); `faces` in the order of the map. -/
def make (faces : List (ℤ × List (List ℤ))) : CellCollapser := faces.foldl addFace empty

/-! ### queries and merging -/

/-- `cell(hf)` (cell_collapser.cpp:174-176): `m_halfface_to_cell.at(hf)`; the default stands for the exception. -/
def cell (s : CellCollapser) (hf : HalfFace) : ℤ := ((OMap.find hfLt hf s.h2c).map Prod.fst).getD 0

/-- the stored chirality of a half-face. -/
def side (s : CellCollapser) (hf : HalfFace) : Bool := ((OMap.find hfLt hf s.h2c).map Prod.snd).getD false

/-- `dual_cell(hf)` (cell_collapser.cpp:167-173). -/
def dualCell (s : CellCollapser) (hf : HalfFace) : ℤ := s.cell (hf.1, hf.2.rev)

/-- the half-faces known to the collapser. -/
def hfList (s : CellCollapser) : List HalfFace := s.h2c.map Prod.fst

/-- the faces of the half-faces collected for edge `e` (`collect_halffaces`, cell_collapser.cpp:157-166). -/
def around (s : CellCollapser) (e : DEdge) : List ℤ := (s.hfList.filter fun hf => decide (hf.2 = e)).map Prod.fst

/-- keys of `collect_halffaces()` that `merge` processes (cell_collapser.hpp:155-156). -/
def mergeEdges (s : CellCollapser) : List DEdge :=
  ((s.hfList.map Prod.snd).dedup).filter fun e => decide (e ∉ s.invalid ∧ e.1 < e.2)

/-- the pairs joined by `merge_around_edge` (cell_collapser.hpp:132-145) when the faces around `e` are visited in the
order `fs`: `cell({*it,e})` with `dual_cell({*it1,e})`. -/
def aroundPairs (s : CellCollapser) (e : DEdge) (fs : List ℤ) : List (ℤ × ℤ) :=
  (FaceCollapser.cyclicPairs fs).map fun p => (s.cell (p.1, e), s.dualCell (p.2, e))

/-- all pairs joined by `merge` (cell_collapser.hpp:150-162); `ord e` is the cyclic order of the faces around `e`. -/
def mergePairs (s : CellCollapser) (ord : DEdge → List ℤ) : List (ℤ × ℤ) :=
  s.mergeEdges.flatMap fun e => s.aroundPairs e (ord e)

/-- `merge` up to `fill_cell_boundaries`. -/
def merge (s : CellCollapser) (ord : DEdge → List ℤ) : CellCollapser :=
  (s.mergePairs ord).foldl (fun s p => { s with ds := s.ds.join p.1 p.2 }) s

/-- `reindexer` (cell_collapser.cpp:269-272). -/
def reindexer (s : CellCollapser) (R : DsuRoots s.ds) : List (ℤ × ℤ) := countUp intLt [] R.rootData

/-- the new cell of an entry (cell_collapser.cpp:276-279). -/
def newCell (s : CellCollapser) (R : DsuRoots s.ds) (c : ℤ) : ℤ :=
  if 0 ≤ c then (OMap.find intLt (R.root c) (s.reindexer R)).getD 0 else c

/-- `m_cell_boundaries[cell][fid] = b` for an entry (cell_collapser.cpp:276-281). -/
def fillStep (s : CellCollapser) (R : DsuRoots s.ds) (cells : List (List (ℤ × Bool))) (p : HalfFace × (ℤ × Bool)) :
    List (List (ℤ × Bool)) :=
  if 0 ≤ p.2.1 then cells.modify (s.newCell R p.2.1).toNat (OMap.assign intLt p.1.1 p.2.2) else cells

/-- `fill_cell_boundaries` (cell_collapser.cpp:267-283). -/
def fill (s : CellCollapser) (R : DsuRoots s.ds) : CellCollapser :=
  { s with
    h2c := s.h2c.map fun p => (p.1, (s.newCell R p.2.1, p.2.2))
    cells := s.h2c.foldl (s.fillStep R)
      ((s.cells ++ List.replicate (s.reindexer R).length []).take (s.reindexer R).length) }

/-- `bake` (cell_collapser.hpp:67-70). -/
def bake (s : CellCollapser) (ord : DEdge → List ℤ) (R : DsuRoots (s.merge ord).ds) : CellCollapser :=
  (s.merge ord).fill R

/-- `folded_faces()` (cell_collapser.cpp:145-154). -/
def foldedFaces (s : CellCollapser) : List ℤ :=
  s.h2c.foldl (fun l p => if s.dualCell p.1 = p.2.1 then setInsert intLt p.1.1 l else l) []

end CellCollapser
end Mandoline
