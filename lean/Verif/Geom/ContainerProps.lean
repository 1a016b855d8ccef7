import Verif.Geom.Container
import Verif.Geom.Props

/-!
# Properties C11, C12, C20: which grid cell / plane an element belongs to
-/
namespace Mandoline
variable {D : ℕ}

/-! ## helper lemmas -/

theorem possibleCellsLoop_eq (V : ℕ → Vertex D) (s : Finset (Coord D)) (l : List ℕ) (c : Coord D) :
    c ∈ possibleCellsLoop V s l ↔ c ∈ s ∧ ∀ f ∈ l, c ∈ (V f).possibleCells := by
  induction l generalizing s with
  | nil => simp [possibleCellsLoop]
  | cons f l ih =>
    simp only [possibleCellsLoop]
    split_ifs with h
    · simp only [Finset.notMem_empty, false_iff, List.mem_cons, forall_eq_or_imp]
      rintro ⟨h1, h2, _⟩
      have : c ∈ s ∩ (V f).possibleCells := Finset.mem_inter.2 ⟨h1, h2⟩
      rw [h] at this; exact absurd this (Finset.notMem_empty c)
    · rw [ih, Finset.mem_inter]
      simp only [List.mem_cons, forall_eq_or_imp]
      tauto

theorem possibleCellsCellLoop_eq (cells : ℕ → Finset (Coord D)) (s : Finset (Coord D)) (l : List ℕ)
    (c : Coord D) :
    c ∈ possibleCellsCellLoop cells s l ↔ c ∈ s ∧ ∀ f ∈ l, c ∈ cells f := by
  induction l generalizing s with
  | nil => simp [possibleCellsCellLoop]
  | cons f l ih =>
    simp only [possibleCellsCellLoop]
    split_ifs with h
    · simp only [Finset.notMem_empty, false_iff, List.mem_cons, forall_eq_or_imp]
      rintro ⟨h1, h2, _⟩
      have : c ∈ s ∩ cells f := Finset.mem_inter.2 ⟨h1, h2⟩
      rw [h] at this; exact absurd this (Finset.notMem_empty c)
    · rw [ih, Finset.mem_inter]
      simp only [List.mem_cons, forall_eq_or_imp]
      tauto

theorem maskFold_eq_some (f : ℕ → Mask D) (m : Mask D) (l : List ℕ) (i : Fin D) (c : ℤ) :
    maskFold f m l i = some c ↔ m i = some c ∧ ∀ j ∈ l, f j i = some c := by
  unfold maskFold
  induction l generalizing m with
  | nil => simp
  | cons a l ih =>
    rw [List.foldl_cons, ih, Mask.and_eq_some]
    simp only [List.mem_cons, forall_eq_or_imp]
    tauto

theorem vertex_mask_eq_some (v : Vertex D) (hv : Normalised v) (i : Fin D) (c : ℤ) :
    v.mask i = some c ↔ v.p i = (c : ℚ) := by
  unfold Vertex.mask
  constructor
  · intro h
    split_ifs at h with hq
    simp only [Option.some.injEq] at h
    simp [Vertex.p, hq, h]
  · intro h
    have hq : v.quot i = 0 := (Vertex.quot_zero_iff v hv i).2 ⟨c, h⟩
    simp only [hq, if_true, Option.some.injEq]
    simp only [Vertex.p, hq, add_zero] at h
    exact_mod_cast h

/-! ## C11 -/

/-- C11: a cell is a possible cell of a non-empty index list iff its closed cube contains every vertex. -/
theorem C11_possibleCells_iff (V : ℕ → Vertex D) (hV : ∀ i, Normalised (V i)) (face : List ℕ)
    (hne : face ≠ []) (c : Coord D) :
    c ∈ genPossibleCells V face ↔ ∀ i ∈ face, InClosedCell c (V i).p := by
  cases face with
  | nil => exact absurd rfl hne
  | cons f l =>
    simp only [genPossibleCells, possibleCellsLoop_eq, List.mem_cons, forall_eq_or_imp,
      C04_possibleCells_iff _ (hV _)]
    tauto

/-- C11: the empty index list has no possible cells. -/
theorem C11_possibleCells_nil (V : ℕ → Vertex D) : genPossibleCells V [] = ∅ := rfl

/-- C11: the answer does not depend on the order (or multiplicity) of the indices. -/
theorem C11_possibleCells_order (V : ℕ → Vertex D) (hV : ∀ i, Normalised (V i)) (l l' : List ℕ)
    (h : ∀ i, i ∈ l ↔ i ∈ l') : genPossibleCells V l = genPossibleCells V l' := by
  by_cases hl : l = []
  · subst hl
    have : l' = [] := List.eq_nil_iff_forall_not_mem.2 fun i hi => by simpa using (h i).2 hi
    rw [this]
  · have hl' : l' ≠ [] := by
      rintro rfl
      exact hl (List.eq_nil_iff_forall_not_mem.2 fun i hi => by simpa using (h i).1 hi)
    ext c
    rw [C11_possibleCells_iff V hV l hl, C11_possibleCells_iff V hV l' hl']
    simp [h]

/-- C11: for several loops (a face with holes): exactly the cells containing all vertices of all loops. -/
theorem C11_possibleCells_loops (V : ℕ → Vertex D) (hV : ∀ i, Normalised (V i)) (faces : List (List ℕ))
    (s : Finset (Coord D)) (hne : faces ≠ []) (hs : genPossibleCells2 V faces = some s) (c : Coord D) :
    c ∈ s ↔ ∀ l ∈ faces, ∀ i ∈ l, InClosedCell c (V i).p := by
  match faces, hs, hne with
  | [], _, hne => exact absurd rfl hne
  | [] :: _, hs, _ => simp [genPossibleCells2] at hs
  | (f0 :: r) :: rest, hs, _ =>
    simp only [genPossibleCells2, Option.some.injEq] at hs
    rw [← hs, possibleCellsLoop_eq]
    simp only [C04_possibleCells_iff _ (hV _), List.mem_flatten]
    constructor
    · rintro ⟨_, h⟩ l hl i hi; exact h i ⟨l, hl, hi⟩
    · intro h
      exact ⟨h (f0 :: r) (by simp) f0 (by simp), fun i ⟨l, hl, hi⟩ => h l hl i hi⟩

/-- C11: the possible cells of a 3-D cell are the cells containing every vertex of every face. -/
theorem C11_possibleCellsCell (V : ℕ → Vertex D) (hV : ∀ i, Normalised (V i)) (verts : ℕ → List ℕ)
    (hverts : ∀ f, verts f ≠ []) (faces : List ℕ) (hne : faces ≠ []) (c : Coord D) :
    c ∈ possibleCellsCell (fun f => genPossibleCells V (verts f)) faces ↔
      ∀ f ∈ faces, ∀ i ∈ verts f, InClosedCell c (V i).p := by
  cases faces with
  | nil => exact absurd rfl hne
  | cons f l =>
    simp only [possibleCellsCell, possibleCellsCellLoop_eq,
      C11_possibleCells_iff V hV _ (hverts _), List.mem_cons, forall_eq_or_imp]
    tauto

theorem getMinCoord_fold (f : ℕ → Coord D) (l : List ℕ) (c0 : Coord D) (k : Fin D) :
    (l.foldl (fun c j => fun k => min (c k) (f j k)) c0) k ≤ c0 k ∧
    (∀ j ∈ l, (l.foldl (fun c j => fun k => min (c k) (f j k)) c0) k ≤ f j k) ∧
    ((l.foldl (fun c j => fun k => min (c k) (f j k)) c0) k = c0 k ∨
      ∃ j ∈ l, (l.foldl (fun c j => fun k => min (c k) (f j k)) c0) k = f j k) := by
  induction l generalizing c0 with
  | nil => simp
  | cons a l ih =>
    rw [List.foldl_cons]
    obtain ⟨h1, h2, h3⟩ := ih (fun k => min (c0 k) (f a k))
    refine ⟨h1.trans (min_le_left _ _), ?_, ?_⟩
    · intro j hj
      rcases List.mem_cons.1 hj with rfl | hj
      · exact h1.trans (min_le_right _ _)
      · exact h2 j hj
    · rcases h3 with h3 | ⟨j, hj, h3⟩
      · rcases min_choice (c0 k) (f a k) with h | h
        · left; rw [h3]; exact h
        · right; exact ⟨a, by simp, by rw [h3]; exact h⟩
      · right; exact ⟨j, by simp [hj], h3⟩

/-- C11: `CoordMaskedGeometry::possible_cells` (mask + minimum corner) gives the same answer whenever the
vertices share a closed cell at all. -/
theorem C11_elementPossibleCells (V : ℕ → Vertex D) (hV : ∀ i, Normalised (V i)) (l : List ℕ)
    (hne : l ≠ []) (hshare : ∃ c : Coord D, ∀ i ∈ l, InClosedCell c (V i).p) :
    ∃ s, elementPossibleCells V l = some s ∧
      ∀ c : Coord D, c ∈ s ↔ ∀ i ∈ l, InClosedCell c (V i).p := by
  cases l with
  | nil => exact absurd rfl hne
  | cons a l =>
    refine ⟨_, rfl, fun c => ?_⟩
    obtain ⟨c0, hc0⟩ := hshare
    rw [Mask.mem_possibleCells]
    have hmin := getMinCoord_fold (fun i => (V i).coord) l ((V a).coord)
    set m := l.foldl (fun c j => fun k => min (c k) ((fun i => (V i).coord) j k)) ((V a).coord) with hm
    have hbound : ∀ k, ((maskFold (fun i => (V i).mask) (V a).mask l k).isSome = true ↔
        ∃ n : ℤ, ∀ i ∈ a :: l, (V i).p k = (n : ℚ)) := by
      intro k
      rw [Option.isSome_iff_exists]
      apply exists_congr
      intro n
      rw [maskFold_eq_some, vertex_mask_eq_some _ (hV _)]
      simp only [vertex_mask_eq_some _ (hV _), List.mem_cons, forall_eq_or_imp]
    have hfl : ∀ i k, (V i).coord k = ⌊(V i).p k⌋ := fun i k => Vertex.normalised_coord _ (hV i) k
    have hmle : ∀ k, ∀ i ∈ a :: l, m k ≤ (V i).coord k := by
      intro k i hi
      rcases List.mem_cons.1 hi with rfl | hi
      · exact (hmin k).1
      · exact (hmin k).2.1 i hi
    have hmex : ∀ k, ∃ i ∈ a :: l, m k = (V i).coord k := by
      intro k
      rcases (hmin k).2.2 with h | ⟨j, hj, h⟩
      · exact ⟨a, by simp, h⟩
      · exact ⟨j, by simp [hj], h⟩
    have swap : (∀ i ∈ a :: l, InClosedCell c (V i).p) ↔
        ∀ k, ∀ i ∈ a :: l, (c k : ℚ) ≤ (V i).p k ∧ (V i).p k ≤ (c k : ℚ) + 1 :=
      ⟨fun h k i hi => h i hi k, fun h i hi k => h k i hi⟩
    rw [swap]
    apply forall_congr'
    intro k
    rw [hbound]
    -- bounds from the shared cell
    have hc0k : ∀ i ∈ a :: l, (c0 k : ℚ) ≤ (V i).p k ∧ (V i).p k ≤ (c0 k : ℚ) + 1 :=
      fun i hi => hc0 i hi k
    have hmk_ge : c0 k ≤ m k := by
      obtain ⟨i, hi, h⟩ := hmex k
      rw [h, hfl, Int.le_floor]; exact (hc0k i hi).1
    have hmk_p : ∀ i ∈ a :: l, (m k : ℚ) ≤ (V i).p k := by
      intro i hi
      have := hmle k i hi
      rw [hfl, Int.le_floor] at this
      exact this
    have hmk_le : m k ≤ c0 k + 1 := by
      have h1 := (hmk_p a (by simp)).trans (hc0k a (by simp)).2
      exact_mod_cast h1
    constructor
    · rintro (h | ⟨⟨n, hn⟩, h⟩) i hi
      · rw [h]
        refine ⟨hmk_p i hi, (hc0k i hi).2.trans ?_⟩
        have : (c0 k : ℚ) ≤ (m k : ℚ) := by exact_mod_cast hmk_ge
        linarith
      · have hmn : m k = n := by
          obtain ⟨j, hj, hj'⟩ := hmex k
          rw [hj', hfl, hn j hj, Int.floor_intCast]
        rw [h, hn i hi, hmn]; push_cast; constructor <;> linarith
    · intro h
      have hcm : c k ≤ m k := by
        obtain ⟨i, hi, h'⟩ := hmex k
        rw [h', hfl, Int.le_floor]; exact (h i hi).1
      have hcm2 : m k ≤ c k + 1 := by
        have h1 := (hmk_p a (by simp)).trans (h a (by simp)).2
        exact_mod_cast h1
      by_cases he : c k = m k
      · exact Or.inl he
      · right
        have he' : c k = m k - 1 := by omega
        refine ⟨⟨m k, fun i hi => ?_⟩, he'⟩
        have h1 := hmk_p i hi
        have h2 := (h i hi).2
        rw [he'] at h2; push_cast at h2
        linarith

-- non-vacuity: an axis-aligned edge from (1,0) to (1,1/2) belongs to the two cells on its sides
example : genPossibleCells (fun i => if i = 0 then Vertex.fromVertex (D := 2) ![1, 0] else
    Vertex.fromVertex ![1, 1/2]) [0, 1] = {![0, 0], ![1, 0]} := by decide +kernel

/-! ## C12 -/

/-- C12: the container mask of a non-empty vertex list is bound to `c` along an axis iff every vertex has
coordinate exactly `c` there. -/
theorem C12_container_mask (V : ℕ → Vertex D) (hV : ∀ i, Normalised (V i)) (l : List ℕ) (hne : l ≠ []) :
    ∃ m, getContainerMask (fun i => (V i).mask) l = some m ∧ faceMask (fun i => (V i).mask) l = m ∧
      ∀ k (c : ℤ), m k = some c ↔ ∀ i ∈ l, (V i).p k = (c : ℚ) := by
  cases l with
  | nil => exact absurd rfl hne
  | cons a l =>
    refine ⟨_, rfl, rfl, fun k c => ?_⟩
    rw [maskFold_eq_some, vertex_mask_eq_some _ (hV _)]
    simp only [vertex_mask_eq_some _ (hV _), List.mem_cons, forall_eq_or_imp]

/-- C02/C12: the container mask does not depend on the visiting order or on repetitions. -/
theorem C02_container_order (f : ℕ → Mask D) (l l' : List ℕ) (h : ∀ i, i ∈ l ↔ i ∈ l') :
    getContainerMask f l = getContainerMask f l' := by
  cases l with
  | nil =>
    have : l' = [] := List.eq_nil_iff_forall_not_mem.2 fun i hi => by simpa using (h i).2 hi
    rw [this]
  | cons a l =>
    cases l' with
    | nil => have := (h a).1 (by simp); simp at this
    | cons b l' =>
      simp only [getContainerMask, Option.some.injEq]
      apply Mask.mask_ext
      intro i c
      rw [maskFold_eq_some, maskFold_eq_some]
      have e : ∀ (x : ℕ) (r : List ℕ), (f x i = some c ∧ ∀ j ∈ r, f j i = some c) ↔
          ∀ j ∈ x :: r, f j i = some c := by simp
      rw [e, e]
      simp only [h]

theorem updateMask_fold (f : ℕ → Mask D) (m : Mask D) (faces : List (List ℕ)) (k : Fin D) (c : ℤ) :
    (faces.foldl (fun m c' => maskFold f m c') m) k = some c ↔
      m k = some c ∧ ∀ l ∈ faces, ∀ i ∈ l, f i k = some c := by
  induction faces generalizing m with
  | nil => simp
  | cons a l ih =>
    rw [List.foldl_cons, ih, maskFold_eq_some]
    simp only [List.mem_cons, forall_eq_or_imp]
    tauto

/-- C12: masks recomputed on loaded faces/edges (`update_mask`): bound to `c` iff all vertices of all loops
lie in that plane. Grid vertices are indices below `offset`, the others index the cut vertices. -/
theorem C12_update_mask (offset : ℕ) (unindex : ℕ → Coord D) (V : ℕ → Vertex D)
    (hV : ∀ i, Normalised (V i)) (faces : List (List ℕ)) (m : Mask D)
    (h : updateMask (vertexMask offset unindex V) faces = some m) (k : Fin D) (c : ℤ) :
    m k = some c ↔ ∀ l ∈ faces, ∀ i ∈ l, (gridVertex offset unindex V i).p k = (c : ℚ) := by
  have key : ∀ i, vertexMask offset unindex V i k = some c ↔
      (gridVertex offset unindex V i).p k = (c : ℚ) := by
    intro i
    unfold vertexMask gridVertex
    by_cases hi : i < offset
    · have : ¬ i ≥ offset := by omega
      simp only [this, hi, if_true, if_false, Mask.full, Vertex.p, Vertex.ofCoord, Option.some.injEq]
      constructor
      · rintro rfl; simp
      · intro h; simp only [add_zero] at h; exact_mod_cast h
    · have : i ≥ offset := by omega
      simp only [this, hi, if_true, if_false]
      exact vertex_mask_eq_some _ (hV _) _ _
  match faces, h with
  | (i :: r) :: rest, h =>
    simp only [updateMask, Option.some.injEq] at h
    rw [← h, updateMask_fold]
    simp only [key]
    constructor
    · exact fun h => h.2
    · exact fun h => ⟨h (i :: r) (by simp) i (by simp), h⟩

example : updateMask (vertexMask (D := 2) 1 (fun _ => ![1, 7]) (fun _ => Vertex.fromVertex ![1, 1/2]))
    [[0, 1]] = some ![some 1, none] := by decide +kernel

/-- C12: the mask of a face with several loops (`face_mask` of a set of loops): bound to `c` iff all vertices of all
loops have coordinate exactly `c`. -/
theorem C12_face_mask_loops (V : ℕ → Vertex D) (hV : ∀ i, Normalised (V i)) (loops : List (List ℕ)) (hne : loops ≠ [])
    (hl : ∀ l ∈ loops, l ≠ []) (k : Fin D) (c : ℤ) :
    faceMask2 (fun i => (V i).mask) loops k = some c ↔ ∀ l ∈ loops, ∀ i ∈ l, (V i).p k = (c : ℚ) := by
  have one : ∀ l ∈ loops, (faceMask (fun i => (V i).mask) l k = some c ↔ ∀ i ∈ l, (V i).p k = (c : ℚ)) := by
    intro l h
    obtain ⟨m, _, h2, h3⟩ := C12_container_mask V hV l (hl l h)
    rw [h2]; exact h3 k c
  have fold : ∀ (ls : List (List ℕ)) (m : Mask D), ls.foldl (fun m c' => m.and (faceMask (fun i => (V i).mask) c')) m k = some c ↔
      m k = some c ∧ ∀ l ∈ ls, faceMask (fun i => (V i).mask) l k = some c := by
    intro ls
    induction ls with
    | nil => simp
    | cons a ls ih =>
      intro m
      rw [List.foldl_cons, ih, Mask.and_eq_some]
      simp only [List.mem_cons, forall_eq_or_imp, and_assoc]
  cases loops with
  | nil => exact absurd rfl hne
  | cons a ls =>
    show ls.foldl _ (faceMask _ a) k = some c ↔ _
    rw [fold]
    constructor
    · rintro ⟨h1, h2⟩ l h
      rcases List.mem_cons.1 h with rfl | h'
      · exact (one l h).1 h1
      · exact (one l h).1 (h2 l h')
    · exact fun h => ⟨(one a (by simp)).2 (h a (by simp)), fun l hl' => (one l (by simp [hl'])).2 (h l (by simp [hl']))⟩

/-- two loops in the plane `x = 1`, one of them also in `y = 0`: only `x` is bound. -/
example : faceMask2 (fun i => ((if i = 0 then Vertex.fromVertex (D := 2) ![1, 0] else Vertex.fromVertex ![1, 1/2])).mask)
    [[0], [0, 1]] = ![some 1, none] := by decide +kernel

/-! ## C20 -/

def MacSpec (c : Coord D) (q : Fin D → ℚ) (x myc : Coord D) (s : ℤ) (dim : Fin D) : Prop :=
  (∀ j, j < dim → x j = myc j) ∧ x dim = c dim - s ∧
      ∀ j, dim < j → x j = c j ∨ (q j = 0 ∧ x j = c j - 1)

theorem macSpec_step (c : Coord D) (q : Fin D → ℚ) (x myc : Coord D) (s : ℤ) (dim next : Fin D)
    (hn : next.val = dim.val + 1) :
    MacSpec c q x myc s dim ↔ MacSpec c q x (Function.update myc dim (c dim - s)) 0 next ∨
      (q next = 0 ∧ MacSpec c q x (Function.update myc dim (c dim - s)) 1 next) := by
  have hlt : dim < next := by rw [Fin.lt_def]; omega
  have hcases : ∀ j, dim < j → j = next ∨ next < j := by
    intro j hj
    by_cases h : j = next
    · exact Or.inl h
    · right; rw [Fin.lt_def] at hj ⊢
      have : j.val ≠ next.val := fun h' => h (Fin.ext h')
      omega
  have hbelow : ∀ j, j < next → j = dim ∨ j < dim := by
    intro j hj
    by_cases h : j = dim
    · exact Or.inl h
    · right; rw [Fin.lt_def] at hj ⊢
      have : j.val ≠ dim.val := fun h' => h (Fin.ext h')
      omega
  have hpre : (∀ j, j < next → x j = Function.update myc dim (c dim - s) j) ↔
      (∀ j, j < dim → x j = myc j) ∧ x dim = c dim - s := by
    constructor
    · intro h
      refine ⟨fun j hj => ?_, ?_⟩
      · rw [h j (hj.trans hlt), Function.update_of_ne (ne_of_lt hj)]
      · rw [h dim hlt]; simp
    · rintro ⟨h1, h2⟩ j hj
      rcases hbelow j hj with rfl | h
      · simp [h2]
      · rw [Function.update_of_ne (ne_of_lt h), h1 j h]
  have hpost : (∀ j, dim < j → x j = c j ∨ (q j = 0 ∧ x j = c j - 1)) ↔
      (x next = c next ∨ (q next = 0 ∧ x next = c next - 1)) ∧
      ∀ j, next < j → x j = c j ∨ (q j = 0 ∧ x j = c j - 1) := by
    constructor
    · intro h; exact ⟨h next hlt, fun j hj => h j (hlt.trans hj)⟩
    · rintro ⟨h1, h2⟩ j hj
      rcases hcases j hj with rfl | h
      · exact h1
      · exact h2 j h
  unfold MacSpec
  rw [hpre, hpost, sub_zero]
  tauto

theorem mem_mac (c : Coord D) (q : Fin D → ℚ) (myc : Coord D) (s : ℤ) (dim : Fin D) (x : Coord D) :
    x ∈ mac c q myc s dim ↔ MacSpec c q x myc s dim := by
  induction hk : D - dim.val generalizing myc s dim with
  | zero => have := dim.isLt; omega
  | succ k ih =>
    rw [mac]
    simp only
    split_ifs with h1 h2
    · rw [Finset.mem_singleton]
      constructor
      · rintro rfl
        refine ⟨fun j hj => by simp [ne_of_lt hj], by simp, fun j hj => ?_⟩
        exfalso; have := j.isLt; have := Fin.lt_def.1 hj; omega
      · rintro ⟨ha, hb, _⟩
        funext j
        by_cases hj : j = dim
        · subst hj; simp [hb]
        · rw [Function.update_of_ne hj]
          apply ha
          rw [Fin.lt_def]
          have := j.isLt
          have : j.val ≠ dim.val := fun h => hj (Fin.ext h)
          omega
    · rw [Finset.mem_union, ih _ _ _ (by simp only; omega), ih _ _ _ (by simp only; omega),
        macSpec_step c q x myc s dim ⟨dim.val + 1, by omega⟩ rfl]
      tauto
    · rw [ih _ _ _ (by simp only; omega), macSpec_step c q x myc s dim ⟨dim.val + 1, by omega⟩ rfl]
      tauto

theorem mem_addCells [NeZero D] (c : Coord D) (q : Fin D → ℚ) (x : Coord D) :
    x ∈ addCells c q ↔ ∀ j, x j = c j ∨ (q j = 0 ∧ x j = c j - 1) := by
  have hz : ∀ s : ℤ, MacSpec c q x c s 0 ↔ x 0 = c 0 - s ∧
      ∀ j, 0 < j → x j = c j ∨ (q j = 0 ∧ x j = c j - 1) := by
    intro s
    unfold MacSpec
    constructor
    · exact fun h => h.2
    · exact fun h => ⟨fun j hj => absurd hj (Fin.not_lt_zero j), h⟩
  have split : (∀ j, x j = c j ∨ (q j = 0 ∧ x j = c j - 1)) ↔
      (x 0 = c 0 ∨ (q 0 = 0 ∧ x 0 = c 0 - 1)) ∧ ∀ j, 0 < j → x j = c j ∨ (q j = 0 ∧ x j = c j - 1) := by
    constructor
    · intro h; exact ⟨h 0, fun j _ => h j⟩
    · rintro ⟨h1, h2⟩ j
      by_cases hj : j = 0
      · rw [hj]; exact h1
      · exact h2 j (Fin.pos_iff_ne_zero.2 hj)
  unfold addCells
  rw [Finset.mem_insert, split]
  have hc : x = c → (x 0 = c 0 ∨ (q 0 = 0 ∧ x 0 = c 0 - 1)) ∧
      ∀ j, 0 < j → x j = c j ∨ (q j = 0 ∧ x j = c j - 1) := by
    rintro rfl; exact ⟨Or.inl rfl, fun _ _ => Or.inl rfl⟩
  split_ifs with h
  · rw [Finset.mem_union, mem_mac, mem_mac, hz, hz, sub_zero]
    tauto
  · rw [mem_mac, hz, sub_zero]
    tauto

theorem mem_activeCells_fold [NeZero D] (l : List (Vertex D)) (s : Finset (Coord D)) (x : Coord D) :
    x ∈ l.foldl (fun s v => s ∪ addCells v.coord v.quot) s ↔
      x ∈ s ∨ ∃ v ∈ l, x ∈ addCells v.coord v.quot := by
  induction l generalizing s with
  | nil => simp
  | cons a l ih =>
    rw [List.foldl_cons, ih, Finset.mem_union]
    simp only [List.mem_cons, exists_eq_or_imp]
    tauto

/-- C20: the active cells are exactly the cells whose closed cube contains some cut vertex. -/
theorem C20_active_iff [NeZero D] (crossings : List (Vertex D)) (h : ∀ v ∈ crossings, Normalised v)
    (c : Coord D) :
    c ∈ activeCells crossings ↔ ∃ v ∈ crossings, InClosedCell c v.p := by
  unfold activeCells
  rw [mem_activeCells_fold]
  simp only [Finset.notMem_empty, false_or]
  apply exists_congr
  intro v
  apply and_congr_right
  intro hv
  rw [mem_addCells, ← C04_possibleCells_iff v (h v hv), Vertex.possibleCells, Mask.mem_possibleCells]
  apply forall_congr'
  intro j
  by_cases hq : v.quot j = 0 <;> simp [Vertex.mask, hq]

/-- C20: the exterior mask handed to the exterior/adaptive grid is `true` exactly on the in-range cells
touched by no cut vertex, `false` exactly on the in-range touched cells. -/
theorem C20_mask_spec [NeZero D] (shape : Coord D) (crossings : List (Vertex D))
    (h : ∀ v ∈ crossings, Normalised v) (c : Coord D) :
    (activeGridCellMask shape crossings c = some false ↔
      (∀ i, 0 ≤ c i ∧ c i < shape i) ∧ ∃ v ∈ crossings, InClosedCell c v.p) ∧
    (activeGridCellMask shape crossings c = some true ↔
      (∀ i, 0 ≤ c i ∧ c i < shape i) ∧ ¬ ∃ v ∈ crossings, InClosedCell c v.p) := by
  have hv : ValidIndex shape c = true ↔ ∀ i, 0 ≤ c i ∧ c i < shape i := by
    simp [ValidIndex]
  rw [← C20_active_iff crossings h, ← hv]
  unfold activeGridCellMask
  by_cases h1 : ValidIndex shape c = true <;> by_cases h2 : c ∈ activeCells crossings <;>
    simp [h1, h2]

-- non-vacuity: one vertex in the middle of the edge between cells (0,0) and (1,0) of a 3x2 grid
example : activeGridCellMask (D := 2) ![3, 2] [Vertex.fromVertex ![1, 1/2]] ![1, 0] = some false ∧
    activeGridCellMask (D := 2) ![3, 2] [Vertex.fromVertex ![1, 1/2]] ![2, 0] = some true := by
  decide +kernel

end Mandoline
