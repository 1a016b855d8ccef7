import Verif.Surf.Model
import Verif.Tri.FaceSides

/-! # The indices of the vertices of the cut surface -/
namespace Mandoline
open Sched
variable {D n m k : ℕ}
namespace SurfInput
variable {W : SurfInput D n m k} (C : W.Choices)
variable {shape : Coord D}

/-- the input is admissible: the tables describe triangles and their edges; vertices normalised with exact flags; triangles not
degenerate; no near misses of the grid; all crossings at grid points inside the grid of vertices `shape`, whose vertices are numbered
by `G`. -/
structure Ok (G : GridIndexer shape) : Prop where
  /-- the edge opposite to corner `j` joins the other two corners. -/
  table : ∀ f j, W.I.E (W.FE f j) = (W.F f (j + 1), W.F f (j + 2)) ∨ W.I.E (W.FE f j) = (W.F f (j + 2), W.F f (j + 1))
  norm : ∀ i, Normalised (W.I.V i)
  flags : ∀ i, FlagsExact (W.I.V i)
  /-- the corners of a triangle are not on a line. -/
  nondeg : ∀ f (b : Fin 3 → ℚ), ∑ j, b j = 0 → (∀ i, ∑ j, b j * (W.I.V (W.F f j)).p i = 0) → b = 0
  sep : ∀ i, Separated (bakeTol W.I.grid) (W.I.fst i).p (W.I.snd i).p
  chords : ∀ f, (W.tri f).ChordsSeparated
  inGrid : ∀ v ∈ W.flat W.I.baked C.isects, IsGridPoint v.p → ValidIndex shape v.coord = true
  index : W.I.gridIndex = G.idx
  size : W.I.gridSize = G.size

variable {C} {G : GridIndexer shape}

theorem Ok.distinct (h : Ok C G) (f : Fin k) {i j : Fin 3} (hij : i ≠ j) : W.F f i ≠ W.F f j := by
  intro he
  have := h.nondeg f (fun l => if l = i then 1 else if l = j then -1 else 0) (by
    rw [Fin.sum_univ_three]
    clear he
    revert hij; revert i j; decide +kernel) (fun a => by
      have h2 : ∀ l : Fin 3, (if l = i then (1 : ℚ) else if l = j then -1 else 0) * (W.I.V (W.F f l)).p a =
          (if l = i then 1 else if l = j then -1 else 0) * (W.I.V (W.F f i)).p a := by
        intro l
        by_cases h1 : l = i
        · rw [h1]
        · by_cases h2 : l = j
          · rw [h2, he]
          · simp [h1, h2]
      rw [Finset.sum_congr rfl fun l _ => h2 l, ← Finset.sum_mul]
      have : ∑ l : Fin 3, (if l = i then (1 : ℚ) else if l = j then -1 else 0) = 0 := by
        rw [Fin.sum_univ_three]
        clear he h2
        revert hij; revert i j; decide +kernel
      rw [this, zero_mul])
  have h2 := congrFun this i
  simp at h2

/-- whether the edge opposite to corner `j` of triangle `f` is stored in the direction of the corners. -/
def Forward (W : SurfInput D n m k) (f : Fin k) (j : Fin 3) : Prop := W.I.E (W.FE f j) = (W.F f (j + 1), W.F f (j + 2))

instance (f : Fin k) (j : Fin 3) : Decidable (W.Forward f j) := inferInstanceAs (Decidable (_ = _))

theorem Ok.rev (h : Ok C G) (f : Fin k) (e : Fin 3) : (W.tri f).rev e = true ↔ ¬ W.Forward f e := by
  unfold tri Forward
  simp only [decide_eq_true_eq]
  have hne : W.F f (e + 1) ≠ W.F f (e + 2) := h.distinct f (by clear h; revert e; decide)
  rcases h.table f e with ht | ht <;> rw [ht]
  · simp [hne]
  · simp [hne.symm]

theorem Ok.forward_iff (h : Ok C G) (f : Fin k) (e : Fin 3) : (W.tri f).src e + 1 = (W.tri f).tgt e ↔ W.Forward f e := by
  have hr := h.rev f e
  unfold TriInput.src TriInput.tgt
  by_cases hF : W.Forward f e
  · have : (W.tri f).rev e = false := by rw [← Bool.not_eq_true, hr]; simpa using hF
    simp only [this, hF, iff_true]
    clear * -; revert e; decide
  · have : (W.tri f).rev e = true := hr.2 hF
    simp only [this, hF, iff_false]
    clear * -; revert e; decide

theorem Ok.ends (h : Ok C G) (f : Fin k) (e : Fin 3) :
    W.I.E (W.FE f e) = (W.F f ((W.tri f).src e), W.F f ((W.tri f).tgt e)) := by
  have hr := h.rev f e
  unfold TriInput.src TriInput.tgt
  by_cases hF : W.Forward f e
  · have : (W.tri f).rev e = false := by rw [← Bool.not_eq_true, hr]; simpa using hF
    simp only [this]
    exact hF
  · have : (W.tri f).rev e = true := hr.2 hF
    simp only [this]
    rcases h.table f e with ht | ht
    · exact absurd ht hF
    · exact ht

/-- the crossings of an edge are those the triangle sees. -/
theorem Ok.edgeIsects (h : Ok C G) (f : Fin k) (e : Fin 3) : (W.tri f).edgeIsects e = W.I.baked (W.FE f e) := by
  unfold TriInput.edgeIsects EdgeInput.baked EdgeInput.fst EdgeInput.snd
  rw [h.ends f e]
  rfl

theorem Ok.triOk (h : Ok C G) (f : Fin k) : (W.tri f).Ok where
  verts := fun j => ⟨h.norm _, h.flags _⟩
  sep := fun e => by
    have := h.sep (W.FE f e)
    unfold EdgeInput.fst EdgeInput.snd at this
    rw [h.ends f e] at this
    exact this

/-! ## addresses -/

variable (W) in
/-- the vertex at an address. -/
def deref (R : Fin n → List (Isect D)) (S : Fin k → List (TriIsect D)) (p : SPtr) : Option (Vertex D) :=
  match p with
  | .vert i => if h : i < m then some (W.I.V ⟨i, h⟩) else none
  | .isect i j => if h : i < n then ((R ⟨i, h⟩)[j]?).map Isect.v else none
  | .tri f j => if h : f < k then ((S ⟨f, h⟩)[j]?).map TriIsect.v else none

theorem flat_deref (R : Fin n → List (Isect D)) (S : Fin k → List (TriIsect D)) :
    (W.ptrs R S).map (W.deref R S) = (W.flat R S).map some := by
  unfold ptrs flat
  simp only [List.map_append, List.map_map, List.map_flatMap]
  congr 1
  · congr 1
    · refine List.map_congr_left fun k _ => ?_
      simp [deref]
    · refine List.flatMap_congr fun i _ => ?_
      apply List.ext_getElem
      · simp
      · intro j h1 h2
        have hj : j < (R i).length := by simpa using h1
        simp [deref, hj]
  · refine List.flatMap_congr fun i _ => ?_
    apply List.ext_getElem
    · simp
    · intro j h1 h2
      have hj : j < (S i).length := by simpa using h1
      simp [deref, hj]

theorem indexer_denotes (R : Fin n → List (Isect D)) (S : Fin k → List (TriIsect D)) (cs : List (CrossingI D))
    (hcs : cs.map CrossingI.v = W.flat R S) (p : SPtr) (hp : p ∈ W.ptrs R S) :
    ∃ v, W.deref R S p = some v ∧ ∃ c ∈ cs, c.index = W.indexer R S cs p ∧ c.v = v := by
  have hlen : (W.ptrs R S).length = cs.length := by
    have h1 := congrArg List.length (flat_deref (W := W) R S)
    have h2 := congrArg List.length hcs
    simp only [List.length_map] at h1 h2
    omega
  obtain ⟨x, hk⟩ := EdgeInput.lookup_exists ((W.ptrs R S).zip (cs.map CrossingI.index)) p (by
    rw [List.map_fst_zip (by simp [hlen])]; exact hp)
  have hm := EdgeInput.lookup_mem _ _ _ hk
  obtain ⟨j, hj, hje⟩ := List.getElem_of_mem hm
  have hj1 : j < (W.ptrs R S).length := by simp at hj; omega
  have hj2 : j < cs.length := by omega
  rw [List.getElem_zip, Prod.mk.injEq] at hje
  refine ⟨(cs[j]).v, ?_, cs[j], List.getElem_mem hj2, ?_, rfl⟩
  · have hd : ((W.ptrs R S).map (W.deref R S))[j]? = ((cs.map CrossingI.v).map some)[j]? := by
      rw [flat_deref R S, hcs]
    rw [List.getElem?_map, List.getElem?_map, List.getElem?_map, List.getElem?_eq_getElem hj1, List.getElem?_eq_getElem hj2] at hd
    have := Option.some.inj hd
    rw [hje.1] at this
    exact this
  · unfold indexer
    rw [hk, ← hje.2]
    simp

theorem Ok.flat_ok (h : Ok C G) : ∀ v ∈ W.flat W.I.baked C.isects, Normalised v ∧ FlagsExact v := by
  intro v hv
  unfold flat at hv
  rcases List.mem_append.1 hv with hv | hv
  · rcases List.mem_append.1 hv with hv | hv
    · obtain ⟨i, _, rfl⟩ := List.mem_map.1 hv
      exact ⟨h.norm i, h.flags i⟩
    · obtain ⟨i, _, hv⟩ := List.mem_flatMap.1 hv
      obtain ⟨e, he, rfl⟩ := List.mem_map.1 hv
      exact ⟨(C14_position_exact _ _ _ _ (h.norm _) (h.norm _) (h.sep i) e he).1,
        (C14_flags_exact _ _ _ _ (h.norm _) (h.norm _) (bakeTol_pos _) e he).1⟩
  · obtain ⟨f, _, hv⟩ := List.mem_flatMap.1 hv
    obtain ⟨e, he, rfl⟩ := List.mem_map.1 hv
    obtain ⟨h1, h2, h3⟩ := (TriInput.C73_crossings_exact (h.triOk f) (h.chords f) (C.ptrLt f)).2.1 e he
    exact ⟨h1, fun i => by rw [h2]; exact h3 i⟩

variable (C) in
/-- the crossings at the end. -/
def Choices.cs : List (CrossingI D) := W.crossings W.I.baked C.isects

theorem Ok.crossings_spec (h : Ok C G) : C.cs.map CrossingI.v = W.flat W.I.baked C.isects ∧
    ∀ x ∈ C.cs, ∀ y ∈ C.cs, x.index = y.index ↔ x.v.p = y.v.p := by
  have hc := C17_fuse_indices G (W.flat W.I.baked C.isects) (fun v hv => (h.flat_ok v hv).1)
    (fun v hv => (h.flat_ok v hv).2) h.inGrid
  unfold Choices.cs crossings
  rw [h.index, h.size]
  exact ⟨hc.1, hc.2.2.1⟩

variable (C) in
/-- the index an address gets at the end. -/
def Choices.ix (p : SPtr) : ℤ := W.indexer W.I.baked C.isects C.cs p

variable (W) in
/-- `p` is the address of a vertex at `x`. -/
def At (C : W.Choices) (p : SPtr) (x : Pt D) : Prop :=
  p ∈ W.ptrs W.I.baked C.isects ∧ ∃ v, W.deref W.I.baked C.isects p = some v ∧ v.p = x

theorem Ok.denotes (h : Ok C G) {p : SPtr} {x : Pt D} (hp : W.At C p x) : EdgeInput.Denotes C.cs (C.ix p) x := by
  obtain ⟨hm, v, hv, rfl⟩ := hp
  obtain ⟨v', h1, c, h2, h3, h4⟩ := indexer_denotes _ _ C.cs h.crossings_spec.1 p hm
  rw [hv] at h1
  cases h1
  exact ⟨c, h2, h3, by rw [h4]⟩

theorem Ok.denotes_iff (h : Ok C G) {i j : ℤ} {x y : Pt D} (hi : EdgeInput.Denotes C.cs i x) (hj : EdgeInput.Denotes C.cs j y) :
    i = j ↔ x = y := by
  obtain ⟨c, hc, rfl, rfl⟩ := hi
  obtain ⟨d, hd, rfl, rfl⟩ := hj
  exact h.crossings_spec.2 c hc d hd

theorem vert_at (i : Fin m) : W.At C (.vert i) (W.I.V i).p := by
  refine ⟨?_, W.I.V i, ?_, rfl⟩
  · unfold ptrs
    exact List.mem_append_left _ (List.mem_append_left _ (List.mem_map.2 ⟨i, List.mem_finRange i, rfl⟩))
  · simp [deref]

theorem isect_at (i : Fin n) (j : ℕ) (e : Isect D) (he : (W.I.baked i)[j]? = some e) : W.At C (.isect i j) e.v.p := by
  have hj : j < (W.I.baked i).length := by
    by_contra hc
    rw [List.getElem?_eq_none (by omega)] at he
    cases he
  refine ⟨?_, e.v, ?_, rfl⟩
  · unfold ptrs
    exact List.mem_append_left _ (List.mem_append_right _ (List.mem_flatMap.2 ⟨i, List.mem_finRange i, List.mem_map.2 ⟨j, List.mem_range.2 hj, rfl⟩⟩))
  · simp [deref, he]

theorem tri_at (f : Fin k) (j : ℕ) (e : TriIsect D) (he : (C.isects f)[j]? = some e) : W.At C (.tri f j) e.v.p := by
  have hj : j < (C.isects f).length := by
    by_contra hc
    rw [List.getElem?_eq_none (by omega)] at he
    cases he
  refine ⟨?_, e.v, ?_, rfl⟩
  · unfold ptrs
    exact List.mem_append_right _ (List.mem_flatMap.2 ⟨f, List.mem_finRange f, List.mem_map.2 ⟨j, List.mem_range.2 hj, rfl⟩⟩)
  · simp [deref, he]

/-- the vertices of a triangle are at their addresses. -/
theorem Ok.addr_at (h : Ok C G) (f : Fin k) {p : TriPt D} (hp : p ∈ (W.tri f).vptrs (C.ptrLt f)) : W.At C (W.addr f p) p.v.p := by
  unfold TriInput.vptrs at hp
  rcases List.mem_append.1 hp with hp | hp
  · rcases List.mem_append.1 hp with hp | hp
    · obtain ⟨j, _, rfl⟩ := List.mem_map.1 hp
      have : W.addr f (⟨(3, (j : ℕ)), (W.tri f).V j, Pi.single j 1⟩ : TriPt D) = .vert (W.F f j) := by
        unfold addr
        simp
      rw [this]
      exact vert_at _
    · obtain ⟨e, _, hp⟩ := List.mem_flatMap.1 hp
      unfold TriInput.edgePts at hp
      obtain ⟨⟨x, j⟩, hx, rfl⟩ := List.mem_map.1 hp
      have : W.addr f (⟨((e : ℕ), j), x.v, edgeBary ((W.tri f).src e) ((W.tri f).tgt e) x.t⟩ : TriPt D) = .isect (W.FE f e) j := by
        unfold addr
        have := e.2
        rw [if_neg (by show (e : ℕ) ≠ 3; omega), if_neg (by show (e : ℕ) ≠ 4; omega)]
        simp
      rw [this]
      rw [List.mem_zipIdx_iff_getElem?] at hx
      simp only at hx
      rw [h.edgeIsects f e] at hx
      exact isect_at _ _ _ hx
  · obtain ⟨⟨x, j⟩, hx, rfl⟩ := List.mem_map.1 hp
    have : W.addr f (⟨(4, j), x.2.v, x.2.b⟩ : TriPt D) = .tri f j := by
      unfold addr; simp
    rw [this]
    rw [List.mem_zipIdx_iff_getElem?] at hx
    simp only at hx
    refine tri_at f j x.2 ?_
    unfold Choices.isects
    rw [← TriInput.triGroups_snd, List.getElem?_map, hx]
    rfl

theorem Ok.idx_denotes (h : Ok C G) (f : Fin k) {p : TriPt D} (hp : p ∈ (W.tri f).vptrs (C.ptrLt f)) :
    EdgeInput.Denotes C.cs (W.idx W.I.baked C.isects C.cs f p) p.v.p := h.denotes (h.addr_at f hp)

/-- different vertices of a triangle have different indices. -/
theorem Ok.idx_inj (h : Ok C G) (f : Fin k) {p q : TriPt D} (hp : p ∈ (W.tri f).vptrs (C.ptrLt f)) (hq : q ∈ (W.tri f).vptrs (C.ptrLt f))
    (he : W.idx W.I.baked C.isects C.cs f p = W.idx W.I.baked C.isects C.cs f q) : p = q := by
  have hx := (h.denotes_iff (h.idx_denotes f hp) (h.idx_denotes f hq)).1 he
  obtain ⟨b1, e1⟩ := TriInput.vptrs_bary (h.triOk f) (h.chords f) hp
  obtain ⟨b2, e2⟩ := TriInput.vptrs_bary (h.triOk f) (h.chords f) hq
  rw [e1, e2] at hx
  refine TriInput.vptrs_b_inj (h.triOk f) (h.chords f) hp hq ?_
  have := h.nondeg f (fun j => p.b j - q.b j) (by rw [Finset.sum_sub_distrib, b1.sum, b2.sum, sub_self]) (fun i => by
    have := congrFun hx i
    unfold baryPoint at this
    simp only [sub_mul, Finset.sum_sub_distrib]
    exact sub_eq_zero.2 this)
  funext j
  exact sub_eq_zero.1 (congrFun this j)

end SurfInput
end Mandoline
