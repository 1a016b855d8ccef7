import Verif.Gen3.Pipe
import Mathlib.Algebra.BigOperators.Group.List.Basic
import Mathlib.Algebra.Order.BigOperators.Group.List
import Mathlib.Data.List.Dedup
import Mathlib.Data.Fin.VecNotation

/-!
# C113: the pairing validation

`paired_boundary` (tools/validation/paired_boundary.cpp:5-87) and the `possible_cells` of the validation tool
(tools/validation/possible_cells.cpp:5-30).
-/
namespace Mandoline.Paired

/-- what the validation reads of a cut face: its loops in the order of the set `indices`, and whether it has an
`external_boundary`. -/
structure VFace where
  loops : List (List ℤ)
  ext : Bool

/-- what the validation reads of the mesh. `grid i` is `vertex_grid().unindex(i)` for a grid vertex and `none` for a cut vertex. -/
structure VMesh where
  faces : List VFace
  isMesh : ℕ → Bool
  folded : List ℤ
  cells : List (ℤ × List (ℕ × Bool))
  vertexShape : Fin 3 → ℤ
  grid : ℤ → Option (Coord 3)

namespace VMesh
variable (M : VMesh)

/-- `possible` (possible_cells.cpp:9-15): the eight cells around a grid vertex in the order of `std::set`, none for a cut vertex. -/
def possible (i : ℤ) : List (Coord 3) :=
  match M.grid i with
  | none => []
  | some g => [1, 0].flatMap fun a => [1, 0].flatMap fun b => [1, 0].map fun c => ![g 0 - a, g 1 - b, g 2 - c]

/-- `possible_cells(ccm, face)` (possible_cells.cpp:5-30). `set_intersection` keeps the order of the first set. -/
def possibleCells : List ℤ → List (Coord 3)
  | [] => []
  | i :: l => (i :: l).foldl (fun s j => s.filter fun c => decide (c ∈ M.possible j)) (M.possible i)

/-- `counts[f]++` over the cells of one region (paired_boundary.cpp:17-25). -/
def regionCount (r : ℤ) (f : ℕ) : ℤ :=
  (M.cells.filter fun c => decide (c.1 = r)).foldl (fun n c => c.2.foldl (fun n p => if p.1 = f then n + 1 else n) n) 0

/-- `boundaries[f] += s?1:-1` over the cells of one region (paired_boundary.cpp:17-25). -/
def regionBoundary (r : ℤ) (f : ℕ) : ℤ :=
  (M.cells.filter fun c => decide (c.1 = r)).foldl
    (fun n c => c.2.foldl (fun n p => if p.1 = f then (if p.2 then n + 1 else n - 1) else n) n) 0

/-- the keys of `region_counts` (paired_boundary.cpp:10-16); their order does not matter to the result. -/
def regions : List ℤ := (M.cells.map Prod.fst).dedup

/-- `!ccm.is_mesh_face(i) && ccm.faces()[i].indices.begin()->size() != 4` (paired_boundary.cpp:29 and 43). -/
def strange (f : ℕ) : Bool :=
  !M.isMesh f && decide ((((M.faces[f]?).map VFace.loops).getD []).head?.map List.length ≠ some 4)

/-- the first loop (paired_boundary.cpp:26-38). -/
def countsOk : Bool :=
  M.regions.all fun r => (List.range M.faces.length).all fun i =>
    if M.regionCount r i = 1 then !M.strange i else !decide (M.regionCount r i > 2)

/-- the second loop (paired_boundary.cpp:40-49): it tests `std::abs(i) == 1`, the number of the face. -/
def boundariesOk : Bool :=
  M.regions.all fun _ => (List.range M.faces.length).all fun i => if i = 1 then !M.strange i else true

/-- `FC` (paired_boundary.cpp:37). -/
def FC (f : ℕ) : ℤ := (M.regions.map fun r => M.regionCount r f).sum

/-- `FB` (paired_boundary.cpp:48). -/
def FB (f : ℕ) : ℤ := (M.regions.map fun r => M.regionBoundary r f).sum

/-- one loop of a face that only one cell lists (paired_boundary.cpp:59-78). -/
def loopOk (l : List ℤ) : Bool :=
  match M.possibleCells l with
  | [a, b] =>
    match (List.finRange 3).find? fun j => decide (a j ≠ b j) with
    | some j => decide (b j = 0) || decide (b j = M.vertexShape j - 1)
    | none => true
  | _ => true

/-- the third loop (paired_boundary.cpp:50-85). In C++ `&&` binds closer than `||`. -/
def totalsOk : Bool :=
  (List.range M.faces.length).all fun i =>
    if M.FB i < -1 ∨ (M.FB i > 1 ∧ M.FC i < 0) ∨ M.FC i > 2 then false
    else if M.FC i = 1 then
      decide ((i : ℤ) ∈ M.folded) || ((M.faces[i]?).map VFace.ext).getD false ||
        (((M.faces[i]?).map VFace.loops).getD []).all M.loopOk
    else true

/-- `paired_boundary(ccm)` (paired_boundary.cpp:5-87). -/
def pairedBoundary : Bool := M.countsOk && M.boundariesOk && M.totalsOk

/-! ## specification -/

/-- how often the cells of region `r` list face `f`. -/
def Uses (r : ℤ) (f : ℕ) : ℕ := (((M.cells.filter fun c => decide (c.1 = r)).flatMap Prod.snd).map Prod.fst).count f

/-- how often the cells list face `f` from side `b`. -/
def Sided (f : ℕ) (b : Bool) : ℕ := (M.cells.flatMap Prod.snd).count (f, b)

/-- a face that lies on an input triangle, or whose first loop has four vertices. -/
def Plain (f : ℕ) : Prop := M.isMesh f = true ∨ ∃ F l ls, M.faces[f]? = some F ∧ F.loops = l :: ls ∧ l.length = 4

/-- the cell `c` has the grid vertex `g` as a corner. -/
def Corner (g c : Coord 3) : Prop := ∀ j, c j ≤ g j ∧ g j ≤ c j + 1

/-- the loop consists of grid vertices and lies between exactly two grid cells, neighbours along axis `j` at the plane `x_j = k`. -/
def Between (l : List ℤ) (j : Fin 3) (k : ℤ) : Prop :=
  l ≠ [] ∧ ∃ a b : Coord 3, a j = k - 1 ∧ b j = k ∧ (∀ i, i ≠ j → a i = b i) ∧
    (∀ v ∈ l, ∃ g, M.grid v = some g) ∧ ∀ c, (∀ v ∈ l, ∀ g, M.grid v = some g → Corner g c) ↔ c = a ∨ c = b

/-! ## proofs -/

theorem foldl_count {α : Type} (P : α → Prop) [DecidablePred P] (l : List α) (n : ℤ) :
    l.foldl (fun n p => if P p then n + 1 else n) n = n + (l.countP fun p => decide (P p) : ℕ) := by
  induction l generalizing n with
  | nil => simp
  | cons a l ih =>
    rw [List.foldl_cons, ih, List.countP_cons]
    by_cases h : P a <;> simp [h] <;> omega

theorem foldl_signed (f : ℕ) (l : List (ℕ × Bool)) (n : ℤ) :
    l.foldl (fun n p => if p.1 = f then (if p.2 then n + 1 else n - 1) else n) n =
      n + ((l.count (f, true) : ℕ) : ℤ) - (l.count (f, false) : ℕ) := by
  induction l generalizing n with
  | nil => simp
  | cons a l ih =>
    obtain ⟨i, b⟩ := a
    rw [List.foldl_cons, ih, List.count_cons, List.count_cons]
    by_cases h : i = f
    · subst h
      cases b <;> simp <;> omega
    · have h' : ∀ b', ((i, b) == (f, b')) = false := by intro b'; simp [h]
      simp [h]

theorem foldl_add {α : Type} (g : α → ℤ) (h : ℤ → α → ℤ) (hh : ∀ n a, h n a = n + g a) (l : List α) (n : ℤ) :
    l.foldl h n = n + (l.map g).sum := by
  induction l generalizing n with
  | nil => simp
  | cons a l ih => rw [List.foldl_cons, ih, hh, List.map_cons, List.sum_cons]; ring

theorem sum_count {α β : Type} [BEq β] [LawfulBEq β] (g : α → List β) (x : β) (l : List α) :
    (l.map fun a => ((g a).count x : ℤ)).sum = ((l.flatMap g).count x : ℕ) := by
  induction l with
  | nil => simp
  | cons a l ih => rw [List.map_cons, List.sum_cons, ih, List.flatMap_cons, List.count_append]; push_cast; ring

theorem regionCount_eq (r : ℤ) (f : ℕ) : M.regionCount r f = (M.Uses r f : ℕ) := by
  unfold regionCount Uses
  rw [foldl_add (fun c : ℤ × List (ℕ × Bool) => ((c.2.map Prod.fst).count f : ℤ)), zero_add, sum_count (fun c : ℤ × List (ℕ × Bool) => c.2.map Prod.fst),
    List.map_flatMap]
  intro n c
  rw [foldl_count (fun p : ℕ × Bool => p.1 = f)]
  congr 2
  rw [List.count_eq_countP, List.countP_map]
  apply List.countP_congr
  intro p _
  show decide (p.1 = f) = true ↔ (p.1 == f) = true
  rw [decide_eq_true_eq, beq_iff_eq]

theorem regionBoundary_eq (r : ℤ) (f : ℕ) : M.regionBoundary r f =
    (((M.cells.filter fun c => decide (c.1 = r)).flatMap Prod.snd).count (f, true) : ℕ) -
    (((M.cells.filter fun c => decide (c.1 = r)).flatMap Prod.snd).count (f, false) : ℕ) := by
  unfold regionBoundary
  rw [foldl_add (fun c : ℤ × List (ℕ × Bool) => ((c.2.count (f, true) : ℕ) : ℤ) - (c.2.count (f, false) : ℕ)), zero_add,
    ← sum_count, ← sum_count]
  · induction M.cells.filter (fun c => decide (c.1 = r)) with
    | nil => simp
    | cons c l ih => rw [List.map_cons, List.sum_cons, ih, List.map_cons, List.map_cons, List.sum_cons, List.sum_cons]; ring
  · intro n c
    rw [foldl_signed]; ring

/-- summing over the regions is summing over the cells. -/
theorem sum_regions {α : Type} (key : α → ℤ) (w : α → ℤ) (l : List α) (R : List ℤ) (hR : R.Nodup) (hl : ∀ a ∈ l, key a ∈ R) :
    (R.map fun r => ((l.filter fun a => decide (key a = r)).map w).sum).sum = (l.map w).sum := by
  induction l with
  | nil => simp
  | cons a l ih =>
    rw [List.map_cons, List.sum_cons, ← ih fun b hb => hl b (List.mem_cons_of_mem _ hb)]
    have ha := hl a List.mem_cons_self
    clear ih hl
    have h0 : ∀ r, ((List.filter (fun a => decide (key a = r)) (a :: l)).map w).sum =
        (if r = key a then w a else 0) + ((l.filter fun a => decide (key a = r)).map w).sum := by
      intro r
      rw [List.filter_cons]
      by_cases h : key a = r
      · rw [if_pos (by simpa using h), if_pos h.symm, List.map_cons, List.sum_cons]
      · rw [if_neg (by simpa using h), if_neg (fun h' => h h'.symm), zero_add]
    have h1 : (R.map fun r => if r = key a then w a else 0).sum = w a := by
      clear h0
      induction R with
      | nil => cases ha
      | cons r R ih =>
        rw [List.map_cons, List.sum_cons]
        rw [List.nodup_cons] at hR
        rcases List.mem_cons.1 ha with h | h
        · rw [if_pos h.symm]
          have : (R.map fun r => if r = key a then w a else 0) = R.map fun _ => (0 : ℤ) := by
            apply List.map_congr_left
            intro x hx
            rw [if_neg]
            intro hxa
            rw [hxa, h] at hx
            exact hR.1 hx
          rw [this]; simp
        · rw [ih hR.2 h, if_neg, zero_add]
          intro hr
          rw [hr] at hR
          exact hR.1 h
    have h2 : ∀ (R : List ℤ) (g g' : ℤ → ℤ), (R.map fun r => g r + g' r).sum = (R.map g).sum + (R.map g').sum := by
      intro R g g'
      induction R with
      | nil => simp
      | cons r R ih => rw [List.map_cons, List.sum_cons, ih, List.map_cons, List.map_cons, List.sum_cons, List.sum_cons]; ring
    rw [← h1, ← h2]
    congr 1
    exact List.map_congr_left fun r _ => h0 r

theorem mem_regions {c : ℤ × List (ℕ × Bool)} (h : c ∈ M.cells) : c.1 ∈ M.regions :=
  List.mem_dedup.2 (List.mem_map_of_mem h)

theorem FB_eq (f : ℕ) : M.FB f = (M.Sided f true : ℕ) - (M.Sided f false : ℕ) := by
  unfold FB
  have h : ∀ r, M.regionBoundary r f = ((M.cells.filter fun c => decide (c.1 = r)).map fun c =>
      ((c.2.count (f, true) : ℕ) : ℤ) - (c.2.count (f, false) : ℕ)).sum := by
    intro r
    rw [regionBoundary_eq, ← sum_count, ← sum_count]
    induction M.cells.filter (fun c => decide (c.1 = r)) with
    | nil => simp
    | cons c l ih => rw [List.map_cons, List.sum_cons, List.map_cons, List.map_cons, List.sum_cons, List.sum_cons, ← ih]; ring
  rw [List.map_congr_left fun r _ => h r,
    sum_regions Prod.fst (fun c : ℤ × List (ℕ × Bool) => ((c.2.count (f, true) : ℕ) : ℤ) - (c.2.count (f, false) : ℕ)) M.cells
    M.regions (List.nodup_dedup _) fun a ha => M.mem_regions ha]
  unfold Sided
  rw [← sum_count, ← sum_count]
  induction M.cells with
  | nil => simp
  | cons c l ih => rw [List.map_cons, List.sum_cons, ih, List.map_cons, List.map_cons, List.sum_cons, List.sum_cons]; ring

theorem count_fst (l : List (ℕ × Bool)) (f : ℕ) : (l.map Prod.fst).count f = l.count (f, true) + l.count (f, false) := by
  induction l with
  | nil => rfl
  | cons a l ih =>
    obtain ⟨i, b⟩ := a
    rw [List.map_cons, List.count_cons, List.count_cons, List.count_cons, ih]
    by_cases h : i = f
    · subst h; cases b <;> simp <;> omega
    · simp [h]

theorem FC_eq (f : ℕ) : M.FC f = (M.Sided f true + M.Sided f false : ℕ) := by
  unfold FC
  have h : ∀ r, M.regionCount r f = ((M.cells.filter fun c => decide (c.1 = r)).map fun c =>
      (((c.2.map Prod.fst).count f : ℕ) : ℤ)).sum := by
    intro r
    rw [regionCount_eq, sum_count (fun c : ℤ × List (ℕ × Bool) => c.2.map Prod.fst)]
    unfold Uses
    rw [List.map_flatMap]
  rw [List.map_congr_left fun r _ => h r,
    sum_regions Prod.fst (fun c : ℤ × List (ℕ × Bool) => (((c.2.map Prod.fst).count f : ℕ) : ℤ)) M.cells
    M.regions (List.nodup_dedup _) fun a ha => M.mem_regions ha, sum_count (fun c : ℤ × List (ℕ × Bool) => c.2.map Prod.fst)]
  unfold Sided
  rw [← count_fst, List.map_flatMap]

theorem strange_iff (f : ℕ) (hf : f < M.faces.length) : M.strange f = false ↔ M.Plain f := by
  unfold strange Plain
  rw [List.getElem?_eq_getElem hf]
  cases h : M.isMesh f
  · simp only [Bool.not_false, Option.map_some, Option.getD_some, ne_eq, Bool.true_and, decide_eq_false_iff_not, not_not,
      Bool.false_eq_true, false_or, Option.some.injEq]
    constructor
    · intro h
      cases hl : M.faces[f].loops with
      | nil => rw [hl] at h; simp at h
      | cons l ls => rw [hl] at h; exact ⟨_, l, ls, rfl, hl, by simpa using h⟩
    · rintro ⟨F, l, ls, rfl, hl, h4⟩
      rw [hl]; simp [h4]
  · simp

theorem mem_possible (i : ℤ) (c : Coord 3) : c ∈ M.possible i ↔ ∃ g, M.grid i = some g ∧ Corner g c := by
  unfold possible Corner
  cases h : M.grid i with
  | none => simp
  | some g =>
    simp only [List.mem_flatMap, List.mem_map, Option.some.injEq, exists_eq_left']
    constructor
    · rintro ⟨a, ha, b, hb, d, hd, rfl⟩
      have ha' : a = 1 ∨ a = 0 := by simpa using ha
      have hb' : b = 1 ∨ b = 0 := by simpa using hb
      have hd' : d = 1 ∨ d = 0 := by simpa using hd
      intro j
      match j with
      | 0 => show g 0 - a ≤ g 0 ∧ g 0 ≤ g 0 - a + 1; omega
      | 1 => show g 1 - b ≤ g 1 ∧ g 1 ≤ g 1 - b + 1; omega
      | 2 => show g 2 - d ≤ g 2 ∧ g 2 ≤ g 2 - d + 1; omega
    · intro hc
      have h0 := hc 0
      have h1 := hc 1
      have h2 := hc 2
      have key : ∀ x : ℤ, 0 ≤ x → x ≤ 1 → x ∈ ([1, 0] : List ℤ) := by
        intro x h h'
        rcases (by omega : x = 0 ∨ x = 1) with rfl | rfl <;> simp
      refine ⟨g 0 - c 0, key _ (by omega) (by omega), g 1 - c 1, key _ (by omega) (by omega), g 2 - c 2,
        key _ (by omega) (by omega), ?_⟩
      funext j
      match j with
      | 0 => show g 0 - (g 0 - c 0) = c 0; omega
      | 1 => show g 1 - (g 1 - c 1) = c 1; omega
      | 2 => show g 2 - (g 2 - c 2) = c 2; omega

theorem foldl_filter {α β : Type} [DecidableEq α] (P : β → List α) (l : List β) (s : List α) :
    l.foldl (fun s j => s.filter fun c => decide (c ∈ P j)) s = s.filter fun c => decide (∀ j ∈ l, c ∈ P j) := by
  induction l generalizing s with
  | nil => simp
  | cons j l ih =>
    rw [List.foldl_cons, ih, List.filter_filter]
    apply List.filter_congr
    intro c _
    rw [← Bool.decide_and]
    congr 1
    simp [and_comm]

theorem mem_possibleCells (l : List ℤ) (c : Coord 3) :
    c ∈ M.possibleCells l ↔ l ≠ [] ∧ ∀ v ∈ l, ∃ g, M.grid v = some g ∧ Corner g c := by
  cases l with
  | nil => simp [possibleCells]
  | cons i l =>
    show c ∈ (i :: l).foldl (fun s j => s.filter fun c => decide (c ∈ M.possible j)) (M.possible i) ↔ _
    rw [foldl_filter, List.mem_filter]
    simp only [decide_eq_true_eq, mem_possible, ne_eq, reduceCtorEq, not_false_eq_true, true_and]
    exact ⟨fun h => h.2, fun h => ⟨h i List.mem_cons_self, h⟩⟩

/-- the order of `std::array<int,3>`. -/
def Before (a b : Coord 3) : Prop := a 0 < b 0 ∨ (a 0 = b 0 ∧ (a 1 < b 1 ∨ (a 1 = b 1 ∧ a 2 < b 2)))

/-- the list is in the order of `std::set<std::array<int,3>>`. -/
theorem possible_sorted (i : ℤ) : (M.possible i).Pairwise Before := by
  unfold possible
  cases M.grid i with
  | none => exact List.Pairwise.nil
  | some g =>
    have key : ∀ a b c a' b' c' : ℤ, (a > a' ∨ (a = a' ∧ (b > b' ∨ (b = b' ∧ c > c')))) →
        Before ![g 0 - a, g 1 - b, g 2 - c] ![g 0 - a', g 1 - b', g 2 - c'] := by
      intro a b c a' b' c' h
      show g 0 - a < g 0 - a' ∨ (g 0 - a = g 0 - a' ∧ (g 1 - b < g 1 - b' ∨ (g 1 - b = g 1 - b' ∧ g 2 - c < g 2 - c')))
      omega
    have hl : ([1, 0] : List ℤ).Pairwise (· > ·) := by simp
    rw [List.pairwise_flatMap]
    refine ⟨fun a _ => ?_, hl.imp fun {a a'} h => ?_⟩
    · rw [List.pairwise_flatMap]
      refine ⟨fun b _ => ?_, hl.imp fun {b b'} h => ?_⟩
      · rw [List.pairwise_map]
        exact hl.imp fun {c c'} h => key _ _ _ _ _ _ (Or.inr ⟨rfl, Or.inr ⟨rfl, h⟩⟩)
      · intro x hx y hy
        obtain ⟨c, -, rfl⟩ := List.mem_map.1 hx
        obtain ⟨c', -, rfl⟩ := List.mem_map.1 hy
        exact key _ _ _ _ _ _ (Or.inr ⟨rfl, Or.inl h⟩)
    · intro x hx y hy
      obtain ⟨b, -, hx⟩ := List.mem_flatMap.1 hx
      obtain ⟨b', -, hy⟩ := List.mem_flatMap.1 hy
      obtain ⟨c, -, rfl⟩ := List.mem_map.1 hx
      obtain ⟨c', -, rfl⟩ := List.mem_map.1 hy
      exact key _ _ _ _ _ _ (Or.inl h)

theorem possibleCells_sorted (l : List ℤ) : (M.possibleCells l).Pairwise Before := by
  cases l with
  | nil => exact List.Pairwise.nil
  | cons i l =>
    show ((i :: l).foldl (fun s j => s.filter fun c => decide (c ∈ M.possible j)) (M.possible i)).Pairwise Before
    rw [foldl_filter]
    exact (M.possible_sorted i).filter _

/-- the pair of cells the validation looks at. -/
theorem two_cells (l : List ℤ) (a b : Coord 3) (h : M.possibleCells l = [a, b]) (j : Fin 3) (hj : a j ≠ b j) :
    M.Between l j (b j) := by
  have hm : ∀ c, c ∈ M.possibleCells l ↔ c = a ∨ c = b := by intro c; rw [h]; simp
  have hs := M.possibleCells_sorted l
  rw [h] at hs
  have hab : Before a b := by simpa using hs
  have hA := (M.mem_possibleCells l a).1 ((hm a).2 (Or.inl rfl))
  have hB := (M.mem_possibleCells l b).1 ((hm b).2 (Or.inr rfl))
  have hother : ∀ i, i ≠ j → a i = b i := by
    have hmix : Function.update a j (b j) ∈ M.possibleCells l := by
      rw [mem_possibleCells]
      refine ⟨hA.1, fun v hv => ?_⟩
      obtain ⟨g, hg, hga⟩ := hA.2 v hv
      obtain ⟨g', hg', hgb⟩ := hB.2 v hv
      obtain rfl : g = g' := Option.some.inj (hg.symm.trans hg')
      refine ⟨g, hg, fun i => ?_⟩
      by_cases hi : i = j
      · subst hi; rw [Function.update_self]; exact hgb i
      · rw [Function.update_of_ne hi]; exact hga i
    rcases (hm _).1 hmix with h' | h'
    · exact absurd (by rw [← h', Function.update_self]) hj
    · intro i hi
      rw [← h', Function.update_of_ne hi]
  have hlt : a j < b j := by
    unfold Before at hab
    have h0 := hother 0
    have h1 := hother 1
    have h2 := hother 2
    match j, hj, h0, h1, h2 with
    | 0, hj, h0, h1, h2 =>
      have := h1 (by decide); have := h2 (by decide); omega
    | 1, hj, h0, h1, h2 =>
      have := h0 (by decide); have := h2 (by decide); omega
    | 2, hj, h0, h1, h2 =>
      have := h0 (by decide); have := h1 (by decide); omega
  have hne : ∃ v, v ∈ l := List.exists_mem_of_ne_nil l hA.1
  obtain ⟨v, hv⟩ := hne
  obtain ⟨g, hg, hga⟩ := hA.2 v hv
  obtain ⟨g', hg', hgb⟩ := hB.2 v hv
  obtain rfl : g = g' := Option.some.inj (hg.symm.trans hg')
  refine ⟨hA.1, a, b, ?_, rfl, hother, fun v hv => ?_, fun c => ?_⟩
  · have := hga j; have := hgb j; omega
  · obtain ⟨g, hg, -⟩ := hA.2 v hv; exact ⟨g, hg⟩
  · rw [← hm, mem_possibleCells]
    constructor
    · intro hc
      refine ⟨hA.1, fun v hv => ?_⟩
      obtain ⟨g, hg, -⟩ := hA.2 v hv
      exact ⟨g, hg, hc v hv g hg⟩
    · rintro ⟨-, hc⟩ v hv g hg
      obtain ⟨g', hg', h'⟩ := hc v hv
      rwa [Option.some.inj (hg.symm.trans hg')]

theorem between_list (l : List ℤ) (j : Fin 3) (k : ℤ) (h : M.Between l j k) :
    ∃ a b, M.possibleCells l = [a, b] ∧ a j ≠ b j ∧ b j = k := by
  obtain ⟨hl, a, b, ha, hb, ho, hg, hc⟩ := h
  refine ⟨a, b, ?_, by omega, hb⟩
  have hm : ∀ c, c ∈ M.possibleCells l ↔ c = a ∨ c = b := by
    intro c
    rw [mem_possibleCells, ← hc]
    constructor
    · rintro ⟨-, h⟩ v hv g hg
      obtain ⟨g', hg', h'⟩ := h v hv
      rwa [Option.some.inj (hg.symm.trans hg')]
    · intro h
      refine ⟨hl, fun v hv => ?_⟩
      obtain ⟨g, hg⟩ := hg v hv
      exact ⟨g, hg, h v hv g hg⟩
  have hs := M.possibleCells_sorted l
  generalize M.possibleCells l = L at hm hs
  have hirr : ∀ c, ¬ Before c c := by intro c; unfold Before; omega
  have hnd : L.Nodup := by
    refine List.Pairwise.imp ?_ hs
    intro x y h hxy
    rw [← hxy] at h
    exact hirr x h
  have hne : a ≠ b := fun h => by rw [h] at ha; omega
  have hba : ¬ Before b a := by
    unfold Before
    have h0 := ho 0
    have h1 := ho 1
    have h2 := ho 2
    match j, ha, hb, h0, h1, h2 with
    | 0, ha, hb, h0, h1, h2 => have := h1 (by decide); have := h2 (by decide); omega
    | 1, ha, hb, h0, h1, h2 => have := h0 (by decide); have := h2 (by decide); omega
    | 2, ha, hb, h0, h1, h2 => have := h0 (by decide); have := h1 (by decide); omega
  match L, hm, hs, hnd with
  | [], hm, _, _ => exact absurd ((hm a).2 (Or.inl rfl)) (by simp)
  | [x], hm, _, _ =>
    have h1 := (hm a).2 (Or.inl rfl)
    have h2 := (hm b).2 (Or.inr rfl)
    rw [List.mem_singleton] at h1 h2
    exact absurd (h1.trans h2.symm) hne
  | [x, y], hm, hs, hnd =>
    have hx := (hm x).1 (by simp)
    have hy := (hm y).1 (by simp)
    have hxy : Before x y := by simpa using hs
    rcases hx with rfl | rfl <;> rcases hy with rfl | rfl
    · exact absurd hxy (hirr _)
    · rfl
    · exact absurd hxy hba
    · exact absurd hxy (hirr _)
  | x :: y :: z :: L, hm, _, hnd =>
    have hx := (hm x).1 (by simp)
    have hy := (hm y).1 (by simp)
    have hz := (hm z).1 (by simp)
    simp only [List.nodup_cons, List.mem_cons, not_or] at hnd
    obtain ⟨⟨h1, h2, -⟩, ⟨h3, -⟩, -⟩ := hnd
    rcases hx with rfl | rfl <;> rcases hy with rfl | rfl <;> rcases hz with rfl | rfl <;>
      first | exact absurd rfl h1 | exact absurd rfl h2 | exact absurd rfl h3

theorem loopOk_iff (l : List ℤ) :
    M.loopOk l = true ↔ ∀ j k, M.Between l j k → k = 0 ∨ k = M.vertexShape j - 1 := by
  unfold loopOk
  constructor
  · intro h j k hb
    obtain ⟨a, b, hab, hne, rfl⟩ := M.between_list l j k hb
    rw [hab] at h
    dsimp only at h
    have hother : ∀ i, i ≠ j → a i = b i := by
      obtain ⟨_, a', b', h1, h2, h3, h4, h5⟩ := M.two_cells l a b hab j hne
      have hm : ∀ c, c = a ∨ c = b ↔ c = a' ∨ c = b' := by
        intro c
        rw [← h5]
        have : c ∈ M.possibleCells l ↔ c = a ∨ c = b := by rw [hab]; simp
        rw [← this, mem_possibleCells]
        constructor
        · rintro ⟨-, h⟩ v hv g hg
          obtain ⟨g', hg', h'⟩ := h v hv
          rwa [Option.some.inj (hg.symm.trans hg')]
        · intro h
          refine ⟨by assumption, fun v hv => ?_⟩
          obtain ⟨g, hg⟩ := h4 v hv
          exact ⟨g, hg, h v hv g hg⟩
      intro i hi
      have ha := (hm a).1 (Or.inl rfl)
      have hb := (hm b).1 (Or.inr rfl)
      rcases ha with rfl | rfl <;> rcases hb with rfl | rfl
      · rfl
      · exact h3 i hi
      · exact (h3 i hi).symm
      · rfl
    have hf : ((List.finRange 3).find? fun i => decide (a i ≠ b i)) = some j := by
      rw [List.find?_eq_some_iff_getElem]
      refine ⟨by simpa using hne, j, by simp, by simp, fun i hi => ?_⟩
      have hi3 : i < 3 := by omega
      have : (⟨i, hi3⟩ : Fin 3) ≠ j := fun h => by rw [← h] at hi; exact absurd hi (lt_irrefl _)
      simp [hother _ this]
    rw [hf] at h
    simpa using h
  · intro h
    split
    · rename_i a b hab
      split
      · rename_i j hj
        have hne : a j ≠ b j := by simpa using List.find?_some hj
        have := h j (b j) (M.two_cells l a b hab j hne)
        simpa using this
      · rfl
    · rfl

/-- **C113.** What the pairing validation accepts. -/
theorem C113_accepts_iff :
    M.pairedBoundary = true ↔
      (∀ c ∈ M.cells, ∀ f, f < M.faces.length → M.Uses c.1 f ≤ 2 ∧ (M.Uses c.1 f = 1 → M.Plain f)) ∧
      (M.cells ≠ [] → 1 < M.faces.length → M.Plain 1) ∧
      ∀ f F, M.faces[f]? = some F → M.Sided f true + M.Sided f false ≤ 2 ∧ M.Sided f false ≤ M.Sided f true + 1 ∧
        (M.Sided f true + M.Sided f false = 1 → (f : ℤ) ∈ M.folded ∨ F.ext = true ∨
          ∀ l ∈ F.loops, ∀ j k, M.Between l j k → k = 0 ∨ k = M.vertexShape j - 1) := by
  unfold pairedBoundary
  rw [Bool.and_eq_true, Bool.and_eq_true, and_assoc]
  refine and_congr ?_ (and_congr ?_ ?_)
  · unfold countsOk
    simp only [List.all_eq_true, List.mem_range]
    have hone : ∀ (r : ℤ) (i : ℕ), i < M.faces.length →
        ((if M.regionCount r i = 1 then !M.strange i else !decide (M.regionCount r i > 2)) = true ↔
          M.Uses r i ≤ 2 ∧ (M.Uses r i = 1 → M.Plain i)) := by
      intro r i hi
      rw [regionCount_eq]
      by_cases h : M.Uses r i = 1
      · rw [if_pos (by omega), Bool.not_eq_true', M.strange_iff i hi]
        exact ⟨fun h' => ⟨by omega, fun _ => h'⟩, fun h' => h'.2 h⟩
      · rw [if_neg (by omega), Bool.not_eq_true', decide_eq_false_iff_not]
        exact ⟨fun h' => ⟨by omega, fun h'' => absurd h'' h⟩, fun h' => by have := h'.1; omega⟩
    constructor
    · intro h c hc f hf
      exact (hone _ f hf).1 (h _ (M.mem_regions hc) f hf)
    · intro h r hr i hi
      obtain ⟨c, hc, rfl⟩ := List.mem_map.1 (List.mem_dedup.1 hr)
      exact (hone _ i hi).2 (h c hc i hi)
  · unfold boundariesOk
    simp only [List.all_eq_true, List.mem_range]
    constructor
    · intro h hc hf
      obtain ⟨c, hc⟩ := List.exists_mem_of_ne_nil _ hc
      have := h _ (M.mem_regions hc) 1 hf
      rw [if_pos rfl, Bool.not_eq_true'] at this
      exact (M.strange_iff 1 hf).1 this
    · intro h r hr i hi
      split
      · rename_i h1
        subst h1
        rw [Bool.not_eq_true', M.strange_iff 1 hi]
        refine h ?_ hi
        rintro h0
        unfold regions at hr
        rw [h0] at hr
        simp at hr
      · rfl
  · unfold totalsOk
    simp only [List.all_eq_true, List.mem_range]
    have hone : ∀ (i : ℕ) (hi : i < M.faces.length),
        ((if M.FB i < -1 ∨ (M.FB i > 1 ∧ M.FC i < 0) ∨ M.FC i > 2 then false
          else if M.FC i = 1 then
            decide ((i : ℤ) ∈ M.folded) || ((M.faces[i]?).map VFace.ext).getD false ||
              (((M.faces[i]?).map VFace.loops).getD []).all M.loopOk
          else true) = true ↔
        M.Sided i true + M.Sided i false ≤ 2 ∧ M.Sided i false ≤ M.Sided i true + 1 ∧
        (M.Sided i true + M.Sided i false = 1 → (i : ℤ) ∈ M.folded ∨ M.faces[i].ext = true ∨
          ∀ l ∈ M.faces[i].loops, ∀ j k, M.Between l j k → k = 0 ∨ k = M.vertexShape j - 1)) := by
      intro i hi
      rw [List.getElem?_eq_getElem hi, Option.map_some, Option.map_some, Option.getD_some, Option.getD_some, FB_eq, FC_eq]
      by_cases h1 : M.Sided i true + M.Sided i false ≤ 2 ∧ M.Sided i false ≤ M.Sided i true + 1
      · rw [if_neg (by push_cast; omega)]
        by_cases h2 : M.Sided i true + M.Sided i false = 1
        · rw [if_pos (by omega), Bool.or_eq_true, Bool.or_eq_true, decide_eq_true_eq, List.all_eq_true]
          simp only [loopOk_iff]
          rw [or_assoc]
          exact ⟨fun h => ⟨h1.1, h1.2, fun _ => h⟩, fun h => h.2.2 h2⟩
        · rw [if_neg (by omega)]
          exact ⟨fun _ => ⟨h1.1, h1.2, fun h => absurd h h2⟩, fun _ => rfl⟩
      · rw [if_pos (by push_cast; omega)]
        exact ⟨fun h => absurd h (by simp), fun h => absurd ⟨h.1, h.2.1⟩ h1⟩
    constructor
    · intro h f F hF
      obtain ⟨hf, rfl⟩ := List.getElem?_eq_some_iff.1 hF
      exact (hone f hf).1 (h f hf)
    · intro h i hi
      exact (hone i hi).2 (h i _ (List.getElem?_eq_getElem hi))

/-- **C113, refuted.** Every mesh with a cell whose face number 1 lies in a grid plane and does not start with a four-vertex loop is
rejected, however well its faces are paired. -/
theorem C113_face_one_refuted (hc : M.cells ≠ []) (hm : M.isMesh 1 = false)
    (h : ∃ F l ls, M.faces[1]? = some F ∧ F.loops = l :: ls ∧ l.length ≠ 4) : M.pairedBoundary = false := by
  rw [Bool.eq_false_iff]
  intro hp
  obtain ⟨F, l, ls, hF, hl, hn⟩ := h
  rcases (M.C113_accepts_iff.1 hp).2.1 hc (List.getElem?_eq_some_iff.1 hF).1 with h1 | ⟨F', l', ls', h1, h2, h3⟩
  · rw [hm] at h1; cases h1
  · rw [hF] at h1
    obtain rfl := Option.some.inj h1
    rw [hl] at h2
    obtain ⟨rfl, rfl⟩ := List.cons.inj h2
    exact hn h3

/-- two cells with the faces `0`, …, `5`, each cell seeing every face; `s` says from which side the first cell sees face `0`. -/
def twin (s : Bool) (n : ℕ) : VMesh where
  faces := [⟨[[0, 1, 3, 2]], false⟩, ⟨[(List.range n).map Int.ofNat], false⟩]
  isMesh := fun _ => false
  folded := []
  cells := [(0, [(0, s), (1, true)]), (0, [(0, s), (1, false)])]
  vertexShape := fun _ => 4
  grid := fun _ => none

/-- **C113, refuted.** A face that both its cells see from its positive side is accepted; seen by both from the negative side it is
rejected. -/
theorem C113_same_side_refuted :
    (twin true 4).Sided 0 true = 2 ∧ (twin true 4).Sided 0 false = 0 ∧ (twin true 4).pairedBoundary = true ∧
      (twin false 4).pairedBoundary = false := by
  refine ⟨by decide +kernel, by decide +kernel, by decide +kernel, by decide +kernel⟩

end VMesh
end Mandoline.Paired
