import Verif.Sched.Bake

/-!
# The cut edges of an input edge

What `m_cut_edges` holds after `CutData<2>::bake` (construction/cutdata_impl.hpp:85-161), in terms of the input.
-/
namespace Mandoline.Sched
namespace EdgeInput
variable {D n m : ℕ} (I : EdgeInput D n m)

/-! ## specification -/

/-- index `k` denotes the position `x`: some crossing with that index is at `x`. -/
def Denotes (cs : List (CrossingI D)) (k : ℤ) (x : Pt D) : Prop := ∃ c ∈ cs, c.index = k ∧ c.v.p = x

/-- the input is admissible: vertices normalised with exact flags, no near misses of the grid, everything in the grid of vertices
`shape`, whose vertices are numbered by `G`; and there is a grid. -/
structure Ok {shape : Coord D} (G : GridIndexer shape) : Prop where
  norm : ∀ k, Normalised (I.V k)
  flags : ∀ k, FlagsExact (I.V k)
  sep : ∀ i, Separated (bakeTol I.grid) (I.fst i).p (I.snd i).p
  tol : 0 < bakeTol I.grid
  inGrid : ∀ v ∈ I.flat I.baked, IsGridPoint v.p → ValidIndex shape v.coord = true
  index : I.gridIndex = G.idx
  size : I.gridSize = G.size

/-! ## lists -/

theorem lookup_mem {α β : Type*} [BEq α] [LawfulBEq α] (l : List (α × β)) (a : α) (b : β) (h : l.lookup a = some b) : (a, b) ∈ l := by
  induction l with
  | nil => cases h
  | cons p l ih =>
    obtain ⟨x, y⟩ := p
    rw [List.lookup_cons] at h
    split at h
    · rename_i hx
      have := eq_of_beq hx
      subst this
      cases h
      exact List.mem_cons_self
    · exact List.mem_cons_of_mem _ (ih h)

theorem lookup_exists {α β : Type*} [BEq α] [LawfulBEq α] (l : List (α × β)) (a : α) (h : a ∈ l.map Prod.fst) : ∃ b, l.lookup a = some b := by
  induction l with
  | nil => cases h
  | cons p l ih =>
    obtain ⟨x, y⟩ := p
    rw [List.lookup_cons]
    split
    · exact ⟨_, rfl⟩
    · rename_i hx
      rcases List.mem_cons.1 h with h | h
      · exact absurd h (by simpa using hx)
      · exact ih h

/-- a set of pairs: every pair once. -/
theorem insert_all {l : List (ℤ × ℤ)} {acc : List ((ℤ × ℤ) × Unit)} (hs : OMap.Sorted edgeLt acc) :
    let r := l.foldl (fun s e => OMap.insertNew edgeLt (sortPair e) () s) acc
    OMap.Sorted edgeLt r ∧ ∀ x, x ∈ r.map Prod.fst ↔ x ∈ acc.map Prod.fst ∨ x ∈ l.map sortPair := by
  induction l generalizing acc with
  | nil => simpa using hs
  | cons e l ih =>
    simp only [List.foldl_cons]
    have hs' : OMap.Sorted edgeLt (OMap.insertNew edgeLt (sortPair e) () acc) := OMap.sorted_alter strictTotal_edgeLt hs
    obtain ⟨h1, h2⟩ := ih hs'
    refine ⟨h1, fun x => ?_⟩
    rw [h2]
    have hmem : x ∈ (OMap.insertNew edgeLt (sortPair e) () acc).map Prod.fst ↔ x = sortPair e ∨ x ∈ acc.map Prod.fst := by
      have hf : ∀ (l : List ((ℤ × ℤ) × Unit)), x ∈ l.map Prod.fst ↔ (x, ()) ∈ l := by
        intro l
        rw [List.mem_map]
        exact ⟨fun ⟨⟨y, u⟩, h, hy⟩ => by cases hy; exact h, fun h => ⟨_, h, rfl⟩⟩
      rw [hf, hf]
      unfold OMap.insertNew
      rw [OMap.mem_alter strictTotal_edgeLt hs]
      constructor
      · rintro (⟨_, h⟩ | ⟨h, _⟩)
        · exact Or.inr h
        · exact Or.inl h
      · rintro (h | h)
        · exact Or.inr ⟨h, rfl⟩
        · by_cases hx : x = sortPair e
          · exact Or.inr ⟨hx, rfl⟩
          · exact Or.inl ⟨hx, h⟩
    rw [hmem, List.map_cons, List.mem_cons]
    tauto

theorem sortPair_eq (e f : ℤ × ℤ) (h : sortPair e = sortPair f) : e = f ∨ e = (f.2, f.1) := by
  obtain ⟨a, b⟩ := e
  obtain ⟨c, d⟩ := f
  unfold sortPair at h
  simp only at h
  split_ifs at h <;> simp only [Prod.mk.injEq] at h ⊢ <;> omega

/-- consecutive pairs of a list without repetitions are different, even unordered, and have different ends. -/
theorem intervals_nodup (l : List ℤ) (h : l.Nodup) :
    ((intervals l).map sortPair).Nodup ∧ ∀ e ∈ intervals l, e.1 ≠ e.2 := by
  induction l with
  | nil => exact ⟨List.nodup_nil, fun e he => absurd he List.not_mem_nil⟩
  | cons u l ih =>
    cases l with
    | nil => exact ⟨List.nodup_nil, fun e he => absurd he List.not_mem_nil⟩
    | cons w l =>
      have hcons : intervals (u :: w :: l) = (u, w) :: intervals (w :: l) := rfl
      rw [List.nodup_cons] at h
      obtain ⟨h1, h2⟩ := ih h.2
      rw [hcons, List.map_cons, List.nodup_cons]
      refine ⟨⟨fun hm => ?_, h1⟩, fun e he => ?_⟩
      · obtain ⟨f, hf, hfe⟩ := List.mem_map.1 hm
        have hmem : f.1 ∈ w :: l ∧ f.2 ∈ w :: l :=
          ⟨(List.of_mem_zip hf).1, List.mem_of_mem_tail (List.of_mem_zip hf).2⟩
        rcases sortPair_eq f (u, w) hfe with he | he
        · rw [he] at hmem; exact h.1 hmem.1
        · rw [he] at hmem; exact h.1 hmem.2
      · rcases List.mem_cons.1 he with rfl | he
        · intro hc
          apply h.1
          rw [show u = w from hc]
          exact List.mem_cons_self
        · exact h2 e he

/-- on a list without repetitions `edges(indexer)` keeps every consecutive pair. -/
theorem indexedEdges_perm {α : Type} (idx : α → ℤ) (path : List α) (h : (path.map idx).Nodup) :
    (indexedEdges idx path).Perm ((intervals (path.map idx)).map sortPair) := by
  obtain ⟨h1, h2⟩ := intervals_nodup _ h
  unfold indexedEdges
  have hmap : ((intervals path).map fun e => (idx e.1, idx e.2)) = intervals (path.map idx) := by
    rw [intervals_map]; rfl
  rw [hmap, List.filter_eq_self.2 (fun e he => by simpa using h2 e he)]
  obtain ⟨h3, h4⟩ := insert_all (l := intervals (path.map idx)) (acc := []) OMap.sorted_nil
  refine (List.perm_ext_iff_of_nodup ?_ h1).2 fun x => ?_
  · unfold OMap.Sorted at h3
    rw [List.Nodup, List.pairwise_map]
    refine h3.imp fun {a b} hab hc => ?_
    rw [hc, strictTotal_edgeLt.irrefl] at hab
    cases hab
  · rw [h4]; simp

/-! ## addresses -/

theorem gptrs_fold (i : ℕ) (l : List (Isect D)) (k : ℕ) (acc : List (ℚ × Ptr))
    (hl : l.Pairwise fun x y => x.t < y.t) (h01 : ∀ e ∈ l, 0 < e.t ∧ e.t < 1)
    (hacc : ∀ p ∈ acc, ∀ e ∈ l, p.1 < e.t) :
    (l.zipIdx k).foldl (fun im x =>
      if x.1.t > 0 ∧ x.1.t < 1 then OMap.assign ratLt x.1.t (Ptr.isect i x.2) im else im) acc =
      acc ++ (l.zipIdx k).map fun x => (x.1.t, Ptr.isect i x.2) := by
  induction l generalizing acc k with
  | nil => simp
  | cons e l ih =>
    rw [List.zipIdx_cons, List.foldl_cons]
    have he := h01 e (by simp)
    rw [List.pairwise_cons] at hl
    rw [if_pos ⟨he.1, he.2⟩, OMap.assign, alter_append strictTotal_ratLt]
    · rw [ih _ _ hl.2 (fun x hx => h01 x (by simp [hx]))]
      · simp
      · intro p hp x hx
        rcases List.mem_append.1 hp with hp | hp
        · exact hacc p hp x (by simp [hx])
        · simp only [List.mem_singleton] at hp
          rw [hp]; exact hl.1 x hx
    · intro p hp
      simp only [ratLt, decide_eq_true_eq]
      exact hacc p hp e (by simp)

variable (R : Fin n → List (Isect D))

/-- the vertex at an address. -/
def deref (p : Ptr) : Option (Vertex D) :=
  match p with
  | .vert k => if h : k < m then some (I.V ⟨k, h⟩) else none
  | .isect i j => if h : i < n then ((R ⟨i, h⟩)[j]?).map Isect.v else none

theorem flat_deref : (ptrs (m := m) R).map (I.deref R) = (I.flat R).map some := by
  unfold ptrs flat
  rw [List.map_append, List.map_append, List.map_map, List.map_map, List.map_flatMap, List.map_flatMap]
  congr 1
  · refine List.map_congr_left fun k _ => ?_
    simp [deref]
  · refine List.flatMap_congr fun i _ => ?_
    rw [List.map_map, List.map_map]
    apply List.ext_getElem
    · simp
    · intro j h1 h2
      have hj : j < (R i).length := by simpa using h1
      simp [deref, hj]

/-- the crossings are at the vertices of the addresses, in order. -/
theorem indexer_denotes (cs : List (CrossingI D)) (hcs : cs.map CrossingI.v = I.flat R) (p : Ptr) (hp : p ∈ ptrs (m := m) R) :
    ∃ v, I.deref R p = some v ∧ ∃ c ∈ cs, c.index = indexer (m := m) R cs p ∧ c.v = v := by
  have hlen : (ptrs (m := m) R).length = cs.length := by
    have h1 := congrArg List.length (I.flat_deref R)
    have h2 := congrArg List.length hcs
    simp only [List.length_map] at h1 h2
    omega
  obtain ⟨k, hk⟩ := lookup_exists ((ptrs (m := m) R).zip (cs.map CrossingI.index)) p (by
    rw [List.map_fst_zip (by simp [hlen])]; exact hp)
  have hm := lookup_mem _ _ _ hk
  obtain ⟨j, hj, hje⟩ := List.getElem_of_mem hm
  have hj1 : j < (ptrs (m := m) R).length := by simp at hj; omega
  have hj2 : j < cs.length := by omega
  rw [List.getElem_zip, Prod.mk.injEq] at hje
  refine ⟨(cs[j]).v, ?_, cs[j], List.getElem_mem hj2, ?_, rfl⟩
  · have hd : ((ptrs (m := m) R).map (I.deref R))[j]? = ((cs.map CrossingI.v).map some)[j]? := by
      rw [I.flat_deref R, hcs]
    rw [List.getElem?_map, List.getElem?_map, List.getElem?_map, List.getElem?_eq_getElem hj1, List.getElem?_eq_getElem hj2] at hd
    have := Option.some.inj hd
    rw [hje.1] at this
    exact this
  · unfold indexer
    rw [hk, ← hje.2]
    simp

variable {I}
variable {shape : Coord D} {G : GridIndexer shape}

theorem baked_normalised (h : I.Ok G) : ∀ v ∈ I.flat I.baked, Normalised v ∧ FlagsExact v := by
  intro v hv
  unfold flat at hv
  rcases List.mem_append.1 hv with hv | hv
  · obtain ⟨k, _, rfl⟩ := List.mem_map.1 hv
    exact ⟨h.norm k, h.flags k⟩
  · obtain ⟨i, _, hv⟩ := List.mem_flatMap.1 hv
    obtain ⟨e, he, rfl⟩ := List.mem_map.1 hv
    exact ⟨(C14_position_exact _ _ _ _ (h.norm _) (h.norm _) (h.sep i) e he).1,
      (C14_flags_exact _ _ _ _ (h.norm _) (h.norm _) h.tol e he).1⟩

theorem crossings_spec (h : I.Ok G) :
    (I.crossings I.baked).map CrossingI.v = I.flat I.baked ∧
    ∀ x ∈ I.crossings I.baked, ∀ y ∈ I.crossings I.baked, x.index = y.index ↔ x.v.p = y.v.p := by
  have hc := C17_fuse_indices G (I.flat I.baked) (fun v hv => (baked_normalised h v hv).1)
    (fun v hv => (baked_normalised h v hv).2) h.inGrid
  unfold crossings
  rw [h.index, h.size]
  exact ⟨hc.1, hc.2.2.1⟩

/-- **C74.** After `bake`, an index denotes one position. -/
theorem C74_index_position (h : I.Ok G) (cs : List (CrossingI D)) (es : List (MeshEdge D)) (fs : List Unit)
    (hb : I.tasks.Baked cs es fs) (k : ℤ) (x y : Pt D) (hx : Denotes cs k x) (hy : Denotes cs k y) : x = y := by
  obtain ⟨rfl, _⟩ := I.C51_bake2 cs es fs hb
  obtain ⟨c, hc, rfl, rfl⟩ := hx
  obtain ⟨d, hd, he, rfl⟩ := hy
  exact ((crossings_spec h).2 c hc d hd).1 he.symm

/-- addresses of the path of edge `i`. -/
def path (I : EdgeInput D n m) (i : Fin n) : List Ptr := gptrs i (I.E i).1 (I.E i).2 (I.baked i)

theorem path_eq (h : I.Ok G) (i : Fin n) : I.path i =
    Ptr.vert (I.E i).1 :: (List.range (I.baked i).length).map (Ptr.isect i) ++ [Ptr.vert (I.E i).2] := by
  obtain ⟨h1, h2, _, _⟩ := bakeEdge_spec (I.fst i) (I.snd i) ((i : ℕ) : ℤ) I.grid (h.norm _) (h.norm _)
  unfold path gptrs
  rw [gptrs_fold i (I.baked i) 0 [] h1 (fun e he => by obtain ⟨d, hd⟩ := (h2 e he).1; exact ⟨hd.1, hd.2.1⟩) (by simp)]
  congr 2
  apply List.ext_getElem
  · simp
  · intro j h1 h2; simp

theorem path_deref (h : I.Ok G) (i : Fin n) :
    (I.path i).map (I.deref I.baked) = (gvertices (I.fst i) (I.snd i) (I.baked i)).map some ∧
    ∀ p ∈ I.path i, p ∈ ptrs (m := m) I.baked := by
  rw [path_eq h, show gvertices (I.fst i) (I.snd i) (I.baked i) = _ from gvertices_eq _ I.grid _ _ (h.norm _) (h.norm _)]
  constructor
  · unfold paramPath
    simp only [List.map_append, List.map_cons, List.map_nil, List.map_map, List.cons_append]
    congr 1
    · simp [deref, fst]
    · congr 1
      · apply List.ext_getElem
        · simp [baked]
        · intro j h1 h2
          have hj : j < (I.baked i).length := by simpa using h1
          simp [deref, hj]; rfl
      · simp [deref, snd]
  · intro p hp
    unfold ptrs
    rw [List.mem_append]
    rcases List.mem_append.1 hp with hp | hp
    · rcases List.mem_cons.1 hp with rfl | hp
      · exact Or.inl (List.mem_map.2 ⟨_, List.mem_finRange _, rfl⟩)
      · exact Or.inr (List.mem_flatMap.2 ⟨i, List.mem_finRange _, hp⟩)
    · rw [List.mem_singleton.1 hp]
      exact Or.inl (List.mem_map.2 ⟨_, List.mem_finRange _, rfl⟩)

theorem segPt_inj (a b : Pt D) (hne : a ≠ b) (s t : ℚ) (h : segPt a b s = segPt a b t) : s = t := by
  obtain ⟨i, hi⟩ : ∃ i, a i ≠ b i := by
    by_contra hc; push Not at hc; exact hne (funext hc)
  have := congrFun h i
  unfold segPt at this
  have h2 : (s - t) * (b i - a i) = 0 := by linarith
  rcases mul_eq_zero.1 h2 with h3 | h3
  · linarith
  · exact absurd (by linarith) hi

/-- **C74.** After `bake`, whatever the schedule, the cut edges of an input edge of non-zero length are the pieces into which the grid
cuts it: with `ts` the crossing parameters in increasing order, piece `k` joins the indices `xs[k]`, `xs[k+1]` denoting the points at
the `k`-th and `k+1`-st parameter of `0, ts, 1`; every piece is there exactly once (as an unordered pair), and carries the number of
the input edge and the mask of the planes containing both its ends. -/
theorem C74_pieces (h : I.Ok G) (cs : List (CrossingI D)) (es : List (MeshEdge D)) (fs : List Unit)
    (hb : I.tasks.Baked cs es fs) (i : Fin n) (hne : (I.fst i).p ≠ (I.snd i).p) :
    ∃ (ts : List ℚ) (xs : List ℤ),
      (∀ t, t ∈ ts ↔ Crosses (I.fst i).p (I.snd i).p t) ∧ (0 :: ts ++ [1]).Pairwise (· < ·) ∧
      List.Forall₂ (fun x t => Denotes cs x (segPt (I.fst i).p (I.snd i).p t)) xs (0 :: ts ++ [1]) ∧ xs.Nodup ∧
      ((es.filter fun e => decide (e.parent = ((i : ℕ) : ℤ))).map fun e => sortPair e.ends).Perm
        ((xs.zip xs.tail).map sortPair) ∧
      ∀ e ∈ es, e.parent = ((i : ℕ) : ℤ) → e.mask = edgeMask (I.fst i) (I.snd i) := by
  obtain ⟨hcs, _, hes⟩ := I.C51_bake2 cs es fs hb
  obtain ⟨hv, hidx⟩ := crossings_spec h
  rw [← hcs] at hv hidx
  obtain ⟨ts, hts, hsorted, _, _, hpos, _⟩ := C15_path ((i : ℕ) : ℤ) I.grid (I.fst i) (I.snd i) (h.norm _) (h.norm _) (h.sep i)
  obtain ⟨hder, hin⟩ := path_deref h i
  have hden : List.Forall₂ (fun x t => Denotes cs x (segPt (I.fst i).p (I.snd i).p t))
      ((I.path i).map (indexer (m := m) I.baked cs)) (0 :: ts ++ [1]) := by
    have hp2 : (I.path i).map (fun p => (I.deref I.baked p).map Vertex.p) =
        (0 :: ts ++ [1]).map fun t => some (segPt (I.fst i).p (I.snd i).p t) := by
      have := congrArg (List.map (Option.map Vertex.p)) hder
      rw [List.map_map, List.map_map] at this
      refine this.trans ?_
      have h2 := congrArg (List.map some) hpos
      rw [List.map_map, List.map_map] at h2
      exact h2
    clear hder hpos
    generalize hP : I.path i = P at hin hp2
    clear hP hsorted hts
    generalize (0 :: ts ++ [1]) = T at hp2
    induction P generalizing T with
    | nil =>
      cases T with
      | nil => exact .nil
      | cons t T => cases hp2
    | cons p P ih =>
      cases T with
      | nil => cases hp2
      | cons t T =>
        rw [List.map_cons, List.map_cons, List.cons.injEq] at hp2
        refine .cons ?_ (ih (fun q hq => hin q (List.mem_cons_of_mem _ hq)) T hp2.2)
        obtain ⟨v, h1, c, h2, h3, h4⟩ := I.indexer_denotes I.baked cs hv p (hin p List.mem_cons_self)
        refine ⟨c, h2, h3, ?_⟩
        rw [h1] at hp2
        rw [h4]
        exact Option.some.inj hp2.1
  have hnd : ((I.path i).map (indexer (m := m) I.baked cs)).Nodup := by
    generalize (I.path i).map (indexer (m := m) I.baked cs) = xs at hden
    clear hts
    generalize (0 :: ts ++ [1]) = T at hden hsorted
    induction hden with
    | nil => exact List.nodup_nil
    | @cons x t xs T hx hxs ih =>
      rw [List.pairwise_cons] at hsorted
      rw [List.nodup_cons]
      refine ⟨fun hm => ?_, ih hsorted.2⟩
      obtain ⟨t', ht', hd'⟩ : ∃ t' ∈ T, Denotes cs x (segPt (I.fst i).p (I.snd i).p t') := by
        clear ih hsorted hx
        induction hxs with
        | nil => cases hm
        | @cons y t xs T hy _ ih =>
          rcases List.mem_cons.1 hm with rfl | hm
          · exact ⟨t, List.mem_cons_self, hy⟩
          · obtain ⟨t', h1, h2⟩ := ih hm
            exact ⟨t', List.mem_cons_of_mem _ h1, h2⟩
      have := segPt_inj _ _ hne _ _ (C74_index_position h cs es fs hb x _ _ hx hd')
      exact absurd this (hsorted.1 t' ht').ne
  refine ⟨ts, _, hts, hsorted, hden, hnd, ?_, fun e he hpar => ?_⟩
  · rw [hes i]
    unfold addedEdges
    split_ifs with hR
    · have : I.path i = [Ptr.vert (I.E i).1, Ptr.vert (I.E i).2] := by rw [path_eq h, hR]; rfl
      rw [this]
      exact List.Perm.refl _
    · rw [List.map_map]
      have hsp : ∀ e ∈ indexedEdges (indexer (m := m) I.baked cs) (I.path i), sortPair e = e := by
        intro e he
        obtain ⟨f, _, rfl⟩ := List.mem_map.1 ((indexedEdges_perm _ _ hnd).mem_iff.1 he)
        unfold sortPair
        split_ifs <;> first | rfl | (exfalso; simp only at *; omega)
      show (((indexedEdges (indexer (m := m) I.baked cs) (I.path i)).map sortPair).Perm _)
      rw [List.map_congr_left (g := id) hsp, List.map_id]
      exact indexedEdges_perm _ _ hnd
  · have : e ∈ I.addedEdges I.baked cs i := by
      rw [← hes i]; exact List.mem_filter.2 ⟨he, by simpa using hpar⟩
    unfold addedEdges at this
    split_ifs at this
    · rw [List.mem_singleton.1 this]
    · obtain ⟨x, _, rfl⟩ := List.mem_map.1 this
      rfl

/-! ## the hypotheses are met -/

/-- one edge from (1/4, 1/4) to (9/4, 3/4) in a grid of 3 x 3 cells. -/
def demoInput : EdgeInput 2 1 2 where
  V := ![demoA, demoB]
  E := fun _ => (0, 1)
  grid := some ![3, 3]
  gridIndex := linIndex 2 ![4, 4]
  gridSize := 16

theorem demoInput_ok : demoInput.Ok (linIndexer (D := 2) ![4, 4] (by decide)) where
  norm k := match k with
    | 0 => Vertex.fromVertex_normalised _
    | 1 => Vertex.fromVertex_normalised _
  flags k := by
    have key : ∀ x : Pt 2, FlagsExact (Vertex.fromVertex x) := fun x i => by
      rw [← Vertex.quot_zero_iff _ (Vertex.fromVertex_normalised x) i]
      simp [Vertex.fromVertex, Vertex.bsFromQuot]
    exact match k with
    | 0 => key _
    | 1 => key _
  sep _ := demo_separated
  tol := by decide +kernel
  inGrid := by
    have : ∀ v ∈ demoInput.flat demoInput.baked, ValidIndex ![4, 4] v.coord = true := by decide +kernel
    exact fun v hv _ => this v hv
  index := rfl
  size := by decide +kernel

example : (demoInput.fst 0).p ≠ (demoInput.snd 0).p := fun h => by
  have := congrFun h 0
  revert this
  decide +kernel

/-- the edge is cut into three pieces, with new vertices 16 to 19. -/
example : ((demoInput.addedEdges demoInput.baked (demoInput.crossings demoInput.baked) 0).map fun e => e.ends) =
    [(16, 18), (17, 19), (18, 19)] := by decide +kernel

example : ∃ cs es fs, demoInput.tasks.Baked cs es fs := (C51_no_deadlock _ _ _ demoInput.tasks_tagged).1

end EdgeInput
end Mandoline.Sched
