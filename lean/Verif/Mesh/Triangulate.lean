import Verif.Cell.Model
import Verif.Collapse.Angle
import Verif.Core.Vec3
import Mathlib.Data.List.Rotate
import Mathlib.Algebra.BigOperators.Group.List.Basic
import Mathlib.Tactic.NormNum

/-!
# C82, C83: triangulating a face with holes, and the cached triangulations

Transcription of `CutFace<3>::triangulate_triangle` (src/cutface.cpp:63-193), `cache_triangulation` (cutface.cpp:7-21),
`CutCellMesh<3>::triangulate_face` and `compact_triangulated_face` (src/mesh3.cpp:420-429, 598-618). The external
library Triangle is an arbitrary function, and so is `winding_number`.
-/
namespace Mandoline
namespace Triangulate

/-- a triangle given by three vertex indices (a column of `ColVecs3i`). -/
abbrev Tri := ℤ × ℤ × ℤ

/-- apply a function to the corners. -/
def Tri.map {α β : Type*} (f : α → β) (t : α × α × α) : β × β × β := (f t.1, f t.2.1, f t.2.2)

/-- the corners. -/
def Tri.corners {α : Type*} (t : α × α × α) : List α := [t.1, t.2.1, t.2.2]

/-- `used_vertices` (cutface.cpp:73-78). -/
def used (loops : List (List ℤ)) : List ℤ := loops.flatten.foldl (fun s v => setInsert intLt v s) []

/-- `reindexer[v]` (cutface.cpp:84-91): `operator[]` of a missing key yields 0. -/
def reindex (u : List ℤ) (v : ℤ) : ℤ := ((OMap.find intLt v u.zipIdx).map fun (i : ℕ) => (i : ℤ)).getD 0

/-- `newV` (cutface.cpp:86-91). -/
def compactV (V : ℤ → Dir) (u : List ℤ) : List Dir := u.map V

/-- `E` (cutface.cpp:94-103). -/
def compactE (loops : List (List ℤ)) : List (ℤ × ℤ) :=
  loops.flatMap fun c => (c.zip (c.rotate 1)).map fun e => (reindex (used loops) e.1, reindex (used loops) e.2)

/-- a column of a matrix: out of range is undefined. -/
def col {α : Type*} (M : List α) (i : ℤ) : Option α := if 0 ≤ i then M[i.toNat]? else none

/-- the barycentre of cutface.cpp:148-157. -/
def barycentre (P : ℤ → Option Dir) (t : Tri) : Option Dir := do
  let a ← P t.1
  let b ← P t.2.1
  let c ← P t.2.2
  pure ((a.1 + b.1 + c.1) / 3, (a.2 + b.2 + c.2) / 3)

/-- the winding number summed over the loops (cutface.cpp:158-162). -/
def windSum (wn : List ℤ → Dir → ℚ) (loops : List (List ℤ)) (p : Dir) : ℚ := (loops.map fun c => wn c p).sum

/-- `newV3` (cutface.cpp:182-188). -/
def lift (axis : Fin 3) (coord : ℤ) (p : Dir) : Vec3 :=
  fun k => if k = axis then (coord : ℚ) else if k = axis + 1 then p.1 else p.2

/-- `triangulate_triangle(V, do_add_vertices)` (cutface.cpp:63-193). `lib` is the library: vertices and triangles of its
result. `none` marks an out-of-range column access. -/
def triangulateTriangle (lib : List Dir → List (ℤ × ℤ) → List Dir × List Tri) (wn : List ℤ → Dir → ℚ) (V : ℤ → Dir)
    (loops : List (List ℤ)) (axis : Fin 3) (coord : ℤ) (add : Bool) : Option (List Vec3 × List Tri) :=
  let u := used loops
  if u = [] then some ([], [])
  else
    let newV := compactV V u
    let nm := lib newV (compactE loops)
    let grown : Bool := add && decide (newV.length < nm.1.length)
    let newV2 : List Dir := if grown then nm.1 else []
    let pointsAdded : Bool := grown || nm.2.any fun t => (Tri.corners t).any fun i => !decide (0 ≤ i ∧ i < u.length)
    let newF : List Tri := if pointsAdded then nm.2 else nm.2.map (Tri.map fun i => (col u i).getD 0)
    let P : ℤ → Option Dir := fun i => if pointsAdded then col newV2 i else some (V i)
    (newF.mapM fun t => (barycentre P t).map fun b => (t, decide (1 / 2 < |windSum wn loops b|))).bind fun marked =>
      let interior := (marked.filter fun x => x.2).map Prod.fst
      let FF := if interior = [] then newF else interior
      if pointsAdded && !add then some ([], []) else some (newV2.map (lift axis coord), FF)

/-! ## Lemmas -/

theorem used_spec (loops : List (List ℤ)) : (used loops).Pairwise (· < ·) ∧ ∀ v, v ∈ used loops ↔ ∃ c ∈ loops, v ∈ c := by
  have hins : ∀ (x : ℤ) (l : List ℤ), l.Pairwise (· < ·) → (setInsert intLt x l).Pairwise (· < ·) := by
    intro x l
    induction l with
    | nil => intro _; simp [setInsert]
    | cons y l ih =>
      intro hl
      rw [List.pairwise_cons] at hl
      unfold setInsert
      by_cases h1 : intLt x y = true
      · rw [if_pos h1, List.pairwise_cons, List.pairwise_cons]
        have hxy : x < y := by simpa [intLt] using h1
        refine ⟨?_, hl⟩
        intro z hz
        rcases List.mem_cons.1 hz with rfl | hz
        · exact hxy
        · exact lt_trans hxy (hl.1 z hz)
      · rw [if_neg h1]
        by_cases h2 : intLt y x = true
        · rw [if_pos h2, List.pairwise_cons]
          refine ⟨?_, ih hl.2⟩
          intro z hz
          rcases (mem_setInsert strictTotal_intLt _ _ _).1 hz with rfl | hz
          · simpa [intLt] using h2
          · exact hl.1 z hz
        · rw [if_neg h2, List.pairwise_cons]; exact hl
  have gen : ∀ (l s : List ℤ), s.Pairwise (· < ·) →
      (l.foldl (fun s v => setInsert intLt v s) s).Pairwise (· < ·) ∧
      ∀ v, v ∈ l.foldl (fun s v => setInsert intLt v s) s ↔ v ∈ s ∨ v ∈ l := by
    intro l
    induction l with
    | nil => intro s hs; exact ⟨hs, fun v => by simp⟩
    | cons x l ih =>
      intro s hs
      rw [List.foldl_cons]
      obtain ⟨h1, h2⟩ := ih _ (hins x s hs)
      refine ⟨h1, fun v => ?_⟩
      rw [h2, mem_setInsert strictTotal_intLt, List.mem_cons]
      tauto
  obtain ⟨h1, h2⟩ := gen loops.flatten [] List.Pairwise.nil
  refine ⟨h1, fun v => ?_⟩
  unfold used
  rw [h2]
  simp

theorem sorted_zipIdx {u : List ℤ} (h : u.Pairwise (· < ·)) (n : ℕ) : OMap.Sorted intLt (u.zipIdx n) := by
  induction u generalizing n with
  | nil => exact List.Pairwise.nil
  | cons x u ih =>
    rw [List.pairwise_cons] at h
    rw [List.zipIdx_cons]
    refine List.Pairwise.cons ?_ (ih h.2 _)
    intro p hp
    have : p.1 ∈ u := by
      have := List.mem_map_of_mem (f := Prod.fst) hp
      simpa using this
    simpa [intLt] using h.1 p.1 this

theorem reindex_spec {u : List ℤ} (h : u.Pairwise (· < ·)) {v : ℤ} (hv : v ∈ u) :
    0 ≤ reindex u v ∧ reindex u v < u.length ∧ col u (reindex u v) = some v := by
  obtain ⟨i, hi⟩ := List.mem_iff_getElem?.1 hv
  have hm : (v, i) ∈ u.zipIdx := by
    rw [List.mem_iff_getElem?]
    exact ⟨i, by rw [List.getElem?_zipIdx, hi]; simp⟩
  have hf := OMap.find_of_mem strictTotal_intLt (sorted_zipIdx h 0) hm
  have hlt : i < u.length := (List.getElem?_eq_some_iff.1 hi).1
  have e : reindex u v = i := by unfold reindex; rw [hf]; rfl
  rw [e]
  refine ⟨by omega, by omega, ?_⟩
  unfold col
  rw [if_pos (by omega)]
  simpa using hi

/-- **C82.** What the library is given: one vertex per vertex of the face, at its position, and one edge for each edge of
each loop of the face, in order. -/
theorem C82_library_input (V : ℤ → Dir) (loops : List (List ℤ)) :
    (used loops).Nodup ∧ (∀ v, v ∈ used loops ↔ ∃ c ∈ loops, v ∈ c) ∧
    (∀ i : ℕ, (compactV V (used loops))[i]? = ((used loops)[i]?).map V) ∧
    (compactE loops).map (fun e => (col (used loops) e.1, col (used loops) e.2)) =
      (loops.flatMap fun c => c.zip (c.rotate 1)).map fun e => (some e.1, some e.2) := by
  obtain ⟨hs, hm⟩ := used_spec loops
  refine ⟨hs.imp fun h => ne_of_lt h, hm, fun i => by simp [compactV], ?_⟩
  unfold compactE
  rw [List.map_flatMap, List.map_flatMap]
  refine List.flatMap_congr fun c hc => ?_
  rw [List.map_map]
  refine List.map_congr_left fun e he => ?_
  have h1 : e.1 ∈ used loops := (hm _).2 ⟨c, hc, (List.of_mem_zip he).1⟩
  have h2 : e.2 ∈ used loops := (hm _).2 ⟨c, hc, by
    have := (List.of_mem_zip he).2
    rwa [List.mem_rotate] at this⟩
  simp only [Function.comp, (reindex_spec hs h1).2.2, (reindex_spec hs h2).2.2]

theorem mapM_some {α β : Type*} (f : α → Option β) (g : α → β) (l : List α) (h : ∀ x ∈ l, f x = some (g x)) :
    l.mapM f = some (l.map g) := by
  induction l with
  | nil => rfl
  | cons x l ih =>
    rw [List.mapM_cons, h x List.mem_cons_self, ih fun y hy => h y (List.mem_cons_of_mem _ hy)]
    rfl

/-- the centre of three points. -/
def centre (a b c : Dir) : Dir := ((a.1 + b.1 + c.1) / 3, (a.2 + b.2 + c.2) / 3)

/-- **C82.** When the library adds no vertex, the result refers to the vertices of the mesh: it consists of the library's
triangles with each corner replaced by the face vertex it stands for, kept iff the winding numbers of the loops around the
centre add to more than 1/2 in absolute value – or all of them if none passes. -/
theorem C82_no_vertex_added (lib : List Dir → List (ℤ × ℤ) → List Dir × List Tri) (wn : List ℤ → Dir → ℚ) (V : ℤ → Dir)
    (loops : List (List ℤ)) (axis : Fin 3) (coord : ℤ) (add : Bool) (hne : ∃ c ∈ loops, c ≠ [])
    (hV : (lib (compactV V (used loops)) (compactE loops)).1.length ≤ (used loops).length)
    (hF : ∀ t ∈ (lib (compactV V (used loops)) (compactE loops)).2, ∀ i ∈ Tri.corners t, 0 ≤ i ∧ i < (used loops).length) :
    ∃ FF, triangulateTriangle lib wn V loops axis coord add = some ([], FF) ∧
      (∀ t ∈ FF, ∀ v ∈ Tri.corners t, ∃ c ∈ loops, v ∈ c) ∧
      (∃ T : List Tri, T.map (Tri.map some) =
          (lib (compactV V (used loops)) (compactE loops)).2.map (Tri.map (col (used loops))) ∧
        let inside := T.filter fun t => decide (1 / 2 < |(loops.map fun c => wn c (centre (V t.1) (V t.2.1) (V t.2.2))).sum|)
        FF = if inside = [] then T else inside) := by
  obtain ⟨hs, hm⟩ := used_spec loops
  have hu : used loops ≠ [] := by
    obtain ⟨c, hc, hcn⟩ := hne
    obtain ⟨v, hv⟩ := List.exists_mem_of_ne_nil c hcn
    exact List.ne_nil_of_mem ((hm v).2 ⟨c, hc, hv⟩)
  set nm := lib (compactV V (used loops)) (compactE loops) with hnm
  have hgrown : (add && decide ((compactV V (used loops)).length < nm.1.length)) = false := by
    have : (compactV V (used loops)).length = (used loops).length := by simp [compactV]
    rw [this, decide_eq_false (by omega), Bool.and_false]
  have hpa : (nm.2.any fun t => (Tri.corners t).any fun i => !decide (0 ≤ i ∧ i < (used loops).length)) = false := by
    rw [List.any_eq_false]
    intro t ht
    rw [Bool.not_eq_true, List.any_eq_false]
    intro i hi
    simp [hF t ht i hi]
  set T : List Tri := nm.2.map (Tri.map fun i => (col (used loops) i).getD 0) with hT
  have hcol : ∀ t ∈ nm.2, ∀ i ∈ Tri.corners t, ∃ v, col (used loops) i = some v ∧ v ∈ used loops := by
    intro t ht i hi
    obtain ⟨h0, h1⟩ := hF t ht i hi
    have hl : i.toNat < (used loops).length := by omega
    refine ⟨(used loops)[i.toNat], ?_, List.getElem_mem hl⟩
    unfold col
    rw [if_pos h0, List.getElem?_eq_getElem hl]
  have hTm : ∀ t ∈ T, ∀ v ∈ Tri.corners t, v ∈ used loops := by
    intro t ht v hv
    obtain ⟨s, hs', rfl⟩ := List.mem_map.1 ht
    have key : ∀ i ∈ Tri.corners s, (col (used loops) i).getD 0 ∈ used loops := by
      intro i hi
      obtain ⟨w, hw, hwu⟩ := hcol s hs' i hi
      rw [hw]; exact hwu
    simp only [Tri.corners, Tri.map, List.mem_cons, List.not_mem_nil, or_false] at hv key
    rcases hv with rfl | rfl | rfl
    · exact key _ (.inl rfl)
    · exact key _ (.inr (.inl rfl))
    · exact key _ (.inr (.inr rfl))
  set inside := T.filter fun t => decide (1 / 2 < |windSum wn loops (centre (V t.1) (V t.2.1) (V t.2.2))|) with hin
  have hres : triangulateTriangle lib wn V loops axis coord add = some ([], if inside = [] then T else inside) := by
    unfold triangulateTriangle
    simp only [← hnm]
    rw [if_neg hu, hgrown, hpa]
    simp only [Bool.false_or, Bool.false_eq_true, if_false, Bool.false_and, List.map_nil]
    rw [← hT, mapM_some _ (fun t => (t, decide (1 / 2 < |windSum wn loops (centre (V t.1) (V t.2.1) (V t.2.2))|)))]
    · rw [Option.bind_some, List.filter_map, List.map_map]
      have : (Prod.fst ∘ fun t : Tri => (t, decide (1 / 2 < |windSum wn loops (centre (V t.1) (V t.2.1) (V t.2.2))|))) = id := rfl
      rw [this, List.map_id]
      rfl
    · intro t _
      rfl
  refine ⟨_, hres, ?_, T, ?_, rfl⟩
  · intro t ht v hv
    refine (hm v).1 (hTm t ?_ v hv)
    split at ht
    · exact ht
    · exact (List.mem_filter.1 ht).1
  · rw [hT, List.map_map]
    refine List.map_congr_left fun t ht => ?_
    have key : ∀ i ∈ Tri.corners t, some ((col (used loops) i).getD 0) = col (used loops) i := by
      intro i hi
      obtain ⟨w, hw, _⟩ := hcol t ht i hi
      rw [hw]; rfl
    simp only [Tri.corners, List.mem_cons, List.not_mem_nil, or_false] at key
    simp only [Function.comp, Tri.map]
    rw [key _ (.inl rfl), key _ (.inr (.inl rfl)), key _ (.inr (.inr rfl))]

/-- **C82.** When the library adds vertices (and that is allowed), the result refers to the vertices returned with it, which
are the library's vertices lifted to the plane of the face. -/
theorem C82_vertices_added (lib : List Dir → List (ℤ × ℤ) → List Dir × List Tri) (wn : List ℤ → Dir → ℚ) (V : ℤ → Dir)
    (loops : List (List ℤ)) (axis : Fin 3) (coord : ℤ) (hne : ∃ c ∈ loops, c ≠ [])
    (hV : (used loops).length < (lib (compactV V (used loops)) (compactE loops)).1.length)
    (hF : ∀ t ∈ (lib (compactV V (used loops)) (compactE loops)).2, ∀ i ∈ Tri.corners t,
      0 ≤ i ∧ i < (lib (compactV V (used loops)) (compactE loops)).1.length) :
    ∃ VV FF, triangulateTriangle lib wn V loops axis coord true = some (VV, FF) ∧
      VV.length = (lib (compactV V (used loops)) (compactE loops)).1.length ∧
      (∀ (i : ℕ) (p : Dir), (lib (compactV V (used loops)) (compactE loops)).1[i]? = some p →
        ∃ q, VV[i]? = some q ∧ q axis = coord ∧ q (axis + 1) = p.1 ∧ q (axis + 2) = p.2) ∧
      let nm := lib (compactV V (used loops)) (compactE loops)
      let Q : ℤ → Dir := fun i => nm.1[i.toNat]?.getD (0, 0)
      let inside := nm.2.filter fun t => decide (1 / 2 < |(loops.map fun c => wn c (centre (Q t.1) (Q t.2.1) (Q t.2.2))).sum|)
      FF = if inside = [] then nm.2 else inside := by
  obtain ⟨hs, hm⟩ := used_spec loops
  have hu : used loops ≠ [] := by
    obtain ⟨c, hc, hcn⟩ := hne
    obtain ⟨v, hv⟩ := List.exists_mem_of_ne_nil c hcn
    exact List.ne_nil_of_mem ((hm v).2 ⟨c, hc, hv⟩)
  set nm := lib (compactV V (used loops)) (compactE loops) with hnm
  have hgrown : (true && decide ((compactV V (used loops)).length < nm.1.length)) = true := by
    have : (compactV V (used loops)).length = (used loops).length := by simp [compactV]
    rw [this, decide_eq_true hV]; rfl
  set Q : ℤ → Dir := fun i => nm.1[i.toNat]?.getD (0, 0) with hQ
  have hP : ∀ t ∈ nm.2, barycentre (fun i => col nm.1 i) t = some (centre (Q t.1) (Q t.2.1) (Q t.2.2)) := by
    intro t ht
    have key : ∀ i ∈ Tri.corners t, col nm.1 i = some (Q i) := by
      intro i hi
      obtain ⟨h0, h1⟩ := hF t ht i hi
      have hl : i.toNat < nm.1.length := by omega
      rw [hQ]
      unfold col
      dsimp only
      rw [if_pos h0, List.getElem?_eq_getElem hl]; rfl
    simp only [Tri.corners, List.mem_cons, List.not_mem_nil, or_false] at key
    unfold barycentre
    simp only [key _ (.inl rfl), key _ (.inr (.inl rfl)), key _ (.inr (.inr rfl))]; rfl
  have hb : ∀ t ∈ nm.2, (barycentre (fun i => col nm.1 i) t).map (fun b => (t, decide (1 / 2 < |windSum wn loops b|))) =
      some ((fun t : Tri => (t, decide (1 / 2 < |windSum wn loops (centre (Q t.1) (Q t.2.1) (Q t.2.2))|))) t) := by
    intro t ht
    rw [hP t ht]; rfl
  set inside := nm.2.filter fun t => decide (1 / 2 < |(loops.map fun c => wn c (centre (Q t.1) (Q t.2.1) (Q t.2.2))).sum|) with hin
  have hres : ∃ FF, triangulateTriangle lib wn V loops axis coord true = some (nm.1.map (lift axis coord), FF) ∧
      FF = if inside = [] then nm.2 else inside := by
    unfold triangulateTriangle
    simp only [← hnm]
    rw [if_neg hu, hgrown]
    simp only [Bool.true_or, if_true, Bool.not_true, Bool.and_false, Bool.false_eq_true, if_false]
    rw [mapM_some _ _ _ hb, Option.bind_some, List.filter_map, List.map_map]
    have : (Prod.fst ∘ fun t : Tri => (t, decide (1 / 2 < |windSum wn loops (centre (Q t.1) (Q t.2.1) (Q t.2.2))|))) = id := rfl
    rw [this, List.map_id]
    exact ⟨_, rfl, rfl⟩
  obtain ⟨FF, h1, h2⟩ := hres
  refine ⟨_, FF, h1, by simp, ?_, h2⟩
  intro i p hp
  refine ⟨lift axis coord p, by simp [hp], ?_, ?_, ?_⟩
  · unfold lift; rw [if_pos rfl]
  · unfold lift
    rw [if_neg (by fin_cases axis <;> decide), if_pos rfl]
  · unfold lift
    rw [if_neg (by fin_cases axis <;> decide), if_neg (by fin_cases axis <;> decide)]

/-- **C82, defect.** If vertices are added although that is not allowed, the attempt to drop the result comes too late: the
centres are computed from a matrix without columns. -/
theorem C82_forbidden_vertices_refuted (lib : List Dir → List (ℤ × ℤ) → List Dir × List Tri) (wn : List ℤ → Dir → ℚ)
    (V : ℤ → Dir) (loops : List (List ℤ)) (axis : Fin 3) (coord : ℤ) (hne : ∃ c ∈ loops, c ≠ [])
    (hF : ∃ t ∈ (lib (compactV V (used loops)) (compactE loops)).2, ∃ i ∈ Tri.corners t, (used loops).length ≤ i) :
    triangulateTriangle lib wn V loops axis coord false = none := by
  obtain ⟨hs, hm⟩ := used_spec loops
  have hu : used loops ≠ [] := by
    obtain ⟨c, hc, hcn⟩ := hne
    obtain ⟨v, hv⟩ := List.exists_mem_of_ne_nil c hcn
    exact List.ne_nil_of_mem ((hm v).2 ⟨c, hc, hv⟩)
  set nm := lib (compactV V (used loops)) (compactE loops) with hnm
  obtain ⟨t, ht, i, hi, hle⟩ := hF
  have hpa : (nm.2.any fun t => (Tri.corners t).any fun i => !decide (0 ≤ i ∧ i < (used loops).length)) = true := by
    rw [List.any_eq_true]
    refine ⟨t, ht, ?_⟩
    rw [List.any_eq_true]
    exact ⟨i, hi, by simp; omega⟩
  unfold triangulateTriangle
  simp only [← hnm]
  rw [if_neg hu, hpa]
  simp only [Bool.false_and, Bool.false_or, if_true, Bool.false_eq_true, if_false]
  have hcol : ∀ i, col ([] : List Dir) i = none := by intro i; unfold col; split <;> simp
  have hbar : ∀ t : Tri, barycentre (fun i => col ([] : List Dir) i) t = none := by
    intro t; unfold barycentre; simp only [hcol]; rfl
  cases hn : nm.2 with
  | nil => rw [hn] at ht; cases ht
  | cons x l =>
    rw [List.mapM_cons, hbar]
    rfl

/-- a square with a square hole and a triangulation of three of its triangles; the third is inside the hole. -/
example : triangulateTriangle (fun _ _ => ([], [(0, 1, 4), (1, 5, 4), (4, 5, 6)]))
    (fun c p => if c.head? = some 10 then 1 else if 1 ≤ p.1 ∧ p.1 ≤ 2 ∧ 1 ≤ p.2 ∧ p.2 ≤ 2 then -1 else 0)
    (fun v => if v = 10 then (0, 0) else if v = 11 then (3, 0) else if v = 12 then (3, 3) else if v = 13 then (0, 3)
      else if v = 20 then (1, 1) else if v = 21 then (2, 1) else if v = 22 then (2, 2) else (1, 2))
    [[10, 11, 12, 13], [20, 23, 22, 21]] 2 5 false = some ([], [(10, 11, 20), (11, 21, 20)]) := by
  decide +kernel

/-! ## C83: the cache -/

/-- the two optional members of `CutFace<3>`. -/
structure Cache where
  verts : Option (List Vec3)
  tris : Option (List Tri)

/-- `cache_triangulation(V, F)` (cutface.cpp:11-21): empty arguments leave the members alone. -/
def Cache.store (c : Cache) (VF : List Vec3 × List Tri) : Cache where
  verts := if VF.1 ≠ [] then some VF.1 else c.verts
  tris := if VF.2 ≠ [] then some VF.2 else c.tris

/-- `world_coord`: `origin + dx ∘ p`. -/
def world (origin dx : Vec3) (p : Vec3) : Vec3 := fun i => origin i + dx i * p i

/-- the positions of the corners of the triangles `compact_triangulated_face` returns (mesh3.cpp:598-618). `compactify`
keeps the used columns and renumbers, so the corners keep their positions. `none`: no cached triangulation. -/
def compactFace (V : List Vec3) (origin dx : Vec3) (c : Cache) : Option (List (Option Vec3 × Option Vec3 × Option Vec3)) :=
  c.tris.map fun F =>
    F.map (Tri.map (col (match c.verts with | some T => V ++ T.map (world origin dx) | none => V)))

/-- **C83.** The first triangulation stored is the one returned: without added vertices the corners of the triangles are
the mesh vertices named by the triangulation. -/
theorem C83_first_store (V : List Vec3) (origin dx : Vec3) (F : List Tri) (hF : F ≠ []) :
    compactFace V origin dx (Cache.store ⟨none, none⟩ ([], F)) = some (F.map (Tri.map (col V))) := by
  unfold compactFace Cache.store
  simp [hF]

/-- **C83, defect.** With added vertices the triangles are numbered from the first added vertex, but are looked up in the
list that starts with all vertices of the mesh: every corner `i` below the number of mesh vertices is drawn at mesh vertex
`i`, whatever position the triangulation gave it. -/
theorem C83_added_vertices_refuted (V : List Vec3) (origin dx : Vec3) (T : List Vec3) (F : List Tri) (hT : T ≠ []) (hF : F ≠ [])
    (hi : ∀ t ∈ F, ∀ i ∈ Tri.corners t, 0 ≤ i ∧ i < V.length) :
    compactFace V origin dx (Cache.store ⟨none, none⟩ (T, F)) = some (F.map (Tri.map (col V))) := by
  unfold compactFace Cache.store
  simp only [ne_eq, hT, not_false_eq_true, if_true, hF, Option.map_some, Option.some.injEq]
  refine List.map_congr_left fun t ht => ?_
  have key : ∀ i ∈ Tri.corners t, col (V ++ T.map (world origin dx)) i = col V i := by
    intro i hi'
    obtain ⟨h0, h1⟩ := hi t ht i hi'
    unfold col
    rw [if_pos h0, if_pos h0, List.getElem?_append_left (by omega)]
  simp only [Tri.corners, List.mem_cons, List.not_mem_nil, or_false] at key
  unfold Tri.map
  rw [key _ (.inl rfl), key _ (.inr (.inl rfl)), key _ (.inr (.inr rfl))]

/-- **C83, defect.** Triangulating again without adding vertices keeps the vertices of the earlier triangulation: the cache
then pairs the new triangles with the old vertices, which a fresh face would not have. -/
theorem C83_stale_vertices_refuted (c : Cache) (T : List Vec3) (F F' : List Tri) (hT : T ≠ []) (hF' : F' ≠ []) :
    ((c.store (T, F)).store ([], F')).verts = some T ∧ ((c.store (T, F)).store ([], F')).tris = some F' ∧
    (Cache.store ⟨none, none⟩ ([], F')).verts = none := by
  unfold Cache.store
  simp [hT, hF']

/-- **C83.** Storing the same result twice is the same as storing it once, whatever was cached before. -/
theorem C83_store_idempotent (c : Cache) (x : List Vec3 × List Tri) : (c.store x).store x = c.store x := by
  unfold Cache.store
  by_cases h1 : x.1 = [] <;> by_cases h2 : x.2 = [] <;> simp [h1, h2]

/-- **C83, defect.** `triangulate_face` hands world positions to the triangulation and maps the vertices it gets back to
world space once more: an added vertex at world position `w` (in the plane) is returned at `origin + dx·w`, which is `w`
only where `origin + (dx - 1)·w` vanishes. -/
theorem C83_world_twice (origin dx : Vec3) (axis : Fin 3) (coord : ℤ) (w : Dir) :
    world origin dx (lift axis coord w) (axis + 1) = origin (axis + 1) + dx (axis + 1) * w.1 ∧
    (world origin dx (lift axis coord w) (axis + 1) = w.1 ↔ origin (axis + 1) + (dx (axis + 1) - 1) * w.1 = 0) := by
  have e : world origin dx (lift axis coord w) (axis + 1) = origin (axis + 1) + dx (axis + 1) * w.1 := by
    unfold world lift
    rw [if_neg (by fin_cases axis <;> decide), if_pos rfl]
  refine ⟨e, ?_⟩
  rw [e]
  constructor <;> intro h <;> linarith

end Triangulate
end Mandoline
