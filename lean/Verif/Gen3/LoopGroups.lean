import Verif.Gen3.BoundaryEdges
import Verif.Tri.Bake
import Mathlib.Analysis.Convex.Hull

/-!
# C122: which planar loops are joined into one face (src/construction/generator.cpp:75-163)

`compute_planar_hem(GV, V, E, mask)`: after the half-edge mesh of a plane has been made, every loop is given the grid cells all of whose
closed squares contain it, and the loops of one grid cell are handed to `tie_nonsimple_cells`, which makes holes of a face out of loops
inside it (library).
-/
namespace Mandoline
namespace LoopGroups

/-- the entry of `vertex_cells` for one vertex (generator.cpp:80-98). -/
def vertexCells (v : Vertex 2) : Finset (Coord 2) :=
  let cs : Finset (Coord 2) := {v.coord}
  let cs := if v.clamped 0 then insert (Function.update v.coord 0 (v.coord 0 - 1)) cs else cs
  let cs := if v.clamped 1 then insert (Function.update v.coord 1 (v.coord 1 - 1)) cs else cs
  if v.isGridVertex then insert (fun i => v.coord i - 1) cs else cs

/-- one turn of the loop over the half-edges (generator.cpp:124-135): the map from loop to grid cells; `he` is the loop of the half-edge
(negative if it has none) and the vertex it points to. -/
def coordStep (GV : ℕ → Vertex 2) (m : List (ℤ × Finset (Coord 2))) (he : ℤ × ℕ) : List (ℤ × Finset (Coord 2)) :=
  OMap.alter intLt he.1 (fun o => match o with
    | none => vertexCells (GV he.2)
    | some coords => coords ∩ vertexCells (GV he.2)) m

/-- `cell_coords` (generator.cpp:119-136). -/
def cellCoords (GV : ℕ → Vertex 2) (hes : List (ℤ × ℕ)) : List (ℤ × Finset (Coord 2)) := hes.foldl (coordStep GV) []

/-- the entry of `coord_cells` for a grid cell (generator.cpp:140-145): a set, in ascending order because the map is traversed in that
order. -/
def coordCells (m : List (ℤ × Finset (Coord 2))) (c : Coord 2) : List ℤ := (m.filter fun e => decide (c ∈ e.2)).map Prod.fst

/-- the loops handed to `tie_nonsimple_cells` for a grid cell (generator.cpp:147-159), named by loop instead of by one of its
half-edges (`cells_halfedge_map`). -/
def tied (GV : ℕ → Vertex 2) (hes : List (ℤ × ℕ)) (c : Coord 2) : List ℤ :=
  let cs := coordCells (cellCoords GV hes) c
  if cs.length < 2 then [] else cs.filter fun a => decide (a ≥ 0)

/-- the boundary edges of a plane without mask (generator.cpp:100-114), in the order of the edges; duplicates are removed by the set. -/
def openBoundary (shape : Coord 2) (GV : ℕ → Vertex 2) (E : List (ℕ × ℕ)) : List (ℕ × ℕ) :=
  E.filter fun e => (List.finRange 2).any fun i => match Mask.and (GV e.1).mask (GV e.2).mask i with
    | some vv => decide (vv = 0) || decide (vv = shape i)
    | none => false

/-! ## specification -/

/-- `a` is a loop of the plane, and it is contained in the closed grid cell `c`. -/
def LoopIn (GV : ℕ → Vertex 2) (hes : List (ℤ × ℕ)) (a : ℤ) (c : Coord 2) : Prop :=
  (∃ v, (a, v) ∈ hes) ∧ ∀ v, (a, v) ∈ hes → InClosedCell c (GV v).p

/-- the vertices of the loop. -/
def loopPts (GV : ℕ → Vertex 2) (hes : List (ℤ × ℕ)) (a : ℤ) : Set (Pt 2) := {x | ∃ v, (a, v) ∈ hes ∧ (GV v).p = x}

/-! ## proofs -/

theorem coord_eq_iff (v : Vertex 2) (h : VertexOk v) (i : Fin 2) (n : ℤ) :
    ((n : ℚ) ≤ v.p i ∧ v.p i ≤ (n : ℚ) + 1) ↔ n = v.coord i ∨ (v.clamped i = true ∧ n = v.coord i - 1) := by
  obtain ⟨h0, h1⟩ := h.1 i
  have hp : v.p i = (v.coord i : ℚ) + v.quot i := rfl
  rw [h.2 i]
  constructor
  · rintro ⟨a, b⟩
    rw [hp] at a b
    have h2 : (n : ℚ) < (v.coord i : ℚ) + 1 := by linarith
    have h3 : (v.coord i : ℚ) ≤ (n : ℚ) + 1 := by linarith
    have h2' : n < v.coord i + 1 := by exact_mod_cast h2
    have h3' : v.coord i ≤ n + 1 := by exact_mod_cast h3
    by_cases he : n = v.coord i
    · exact .inl he
    · right
      have hn : n = v.coord i - 1 := by omega
      refine ⟨⟨v.coord i, ?_⟩, hn⟩
      rw [hp]
      subst hn
      push_cast at b
      linarith
  · rintro (rfl | ⟨⟨z, hz⟩, rfl⟩)
    · rw [hp]; constructor <;> linarith
    · have hq : v.quot i = 0 := by
        have h2 : (z : ℚ) < (v.coord i : ℚ) + 1 := by rw [← hz, hp]; linarith
        have h3 : (v.coord i : ℚ) ≤ z := by rw [← hz, hp]; linarith
        have h2' : z < v.coord i + 1 := by exact_mod_cast h2
        have h3' : v.coord i ≤ z := by exact_mod_cast h3
        have : z = v.coord i := by omega
        subst this
        rw [hp] at hz
        linarith
      rw [hp, hq]
      push_cast
      constructor <;> linarith

/-- **C122** the cells listed for a vertex are the closed grid cells that contain it. -/
theorem C122_vertex_cells (v : Vertex 2) (h : VertexOk v) (c : Coord 2) : c ∈ vertexCells v ↔ InClosedCell c v.p := by
  have hx : ∀ a b : ℤ, (a = v.coord 0 ∨ (v.clamped 0 = true ∧ a = v.coord 0 - 1)) ∧ (b = v.coord 1 ∨ (v.clamped 1 = true ∧ b = v.coord 1 - 1)) ↔
      (a = v.coord 0 ∧ b = v.coord 1) ∨ (v.clamped 0 = true ∧ a = v.coord 0 - 1 ∧ b = v.coord 1) ∨
      (v.clamped 1 = true ∧ a = v.coord 0 ∧ b = v.coord 1 - 1) ∨ (v.clamped 0 = true ∧ v.clamped 1 = true ∧ a = v.coord 0 - 1 ∧ b = v.coord 1 - 1) := by
    intro a b
    constructor
    · rintro ⟨h1 | ⟨h1, h1'⟩, h2 | ⟨h2, h2'⟩⟩
      · exact .inl ⟨h1, h2⟩
      · exact .inr (.inr (.inl ⟨h2, h1, h2'⟩))
      · exact .inr (.inl ⟨h1, h1', h2⟩)
      · exact .inr (.inr (.inr ⟨h1, h2, h1', h2'⟩))
    · rintro (⟨h1, h2⟩ | ⟨h1, h2, h3⟩ | ⟨h1, h2, h3⟩ | ⟨h1, h2, h3, h4⟩)
      · exact ⟨.inl h1, .inl h2⟩
      · exact ⟨.inr ⟨h1, h2⟩, .inl h3⟩
      · exact ⟨.inl h2, .inr ⟨h1, h3⟩⟩
      · exact ⟨.inr ⟨h1, h3⟩, .inr ⟨h2, h4⟩⟩
  have he : ∀ d : Coord 2, c = d ↔ c 0 = d 0 ∧ c 1 = d 1 := fun d =>
    ⟨fun h => by subst h; exact ⟨rfl, rfl⟩, fun h => by funext i; match i with | 0 => exact h.1 | 1 => exact h.2⟩
  unfold InClosedCell
  rw [Fin.forall_fin_two, coord_eq_iff v h, coord_eq_iff v h, hx]
  have hg : v.isGridVertex = (v.clamped 0 && v.clamped 1) := by
    unfold Vertex.isGridVertex
    rw [show List.finRange 2 = [0, 1] from rfl]
    simp
  unfold vertexCells
  rw [hg]
  cases h0 : v.clamped 0 <;> cases h1 : v.clamped 1 <;>
    simp [he, Function.update]
  · tauto
  · tauto
  · tauto

theorem cellCoords_spec (GV : ℕ → Vertex 2) (hes : List (ℤ × ℕ)) (hok : ∀ e ∈ hes, VertexOk (GV e.2)) :
    OMap.Sorted intLt (cellCoords GV hes) ∧ ∀ a,
      match OMap.find intLt a (cellCoords GV hes) with
      | none => ∀ v, (a, v) ∉ hes
      | some s => (∃ v, (a, v) ∈ hes) ∧ ∀ c, c ∈ s ↔ ∀ v, (a, v) ∈ hes → InClosedCell c (GV v).p := by
  induction hes using List.reverseRecOn with
  | nil => exact ⟨by unfold cellCoords OMap.Sorted; simp, fun a => by simp [cellCoords, OMap.find]⟩
  | append_singleton l e ih =>
    obtain ⟨hs, ih⟩ := ih fun x hx => hok x (List.mem_append_left _ hx)
    have heq : cellCoords GV (l ++ [e]) = coordStep GV (cellCoords GV l) e := by unfold cellCoords; rw [List.foldl_append]; rfl
    rw [heq]
    unfold coordStep
    refine ⟨OMap.sorted_alter strictTotal_intLt hs, fun a => ?_⟩
    rw [OMap.find_alter strictTotal_intLt hs]
    have ihe := ih a
    have hcell := C122_vertex_cells (GV e.2) (hok e (by simp))
    obtain ⟨k, w⟩ := e
    dsimp only at *
    by_cases hk : a = k
    · subst hk
      rw [if_pos rfl]
      cases hf : OMap.find intLt a (cellCoords GV l) with
      | none =>
        rw [hf] at ihe
        dsimp only at ihe ⊢
        refine ⟨⟨w, by simp⟩, fun c => ?_⟩
        rw [hcell]
        constructor
        · intro h v hv
          rcases List.mem_append.1 hv with hv | hv
          · exact absurd hv (ihe v)
          · obtain ⟨_, rfl⟩ := Prod.mk.inj (List.mem_singleton.1 hv); exact h
        · exact fun h => h w (by simp)
      | some s =>
        rw [hf] at ihe
        dsimp only at ihe ⊢
        refine ⟨⟨w, by simp⟩, fun c => ?_⟩
        rw [Finset.mem_inter, ihe.2, hcell]
        constructor
        · rintro ⟨h1, h2⟩ v hv
          rcases List.mem_append.1 hv with hv | hv
          · exact h1 v hv
          · obtain ⟨_, rfl⟩ := Prod.mk.inj (List.mem_singleton.1 hv); exact h2
        · exact fun h => ⟨fun v hv => h v (List.mem_append_left _ hv), h w (by simp)⟩
    · rw [if_neg hk]
      have hmem : ∀ v, (a, v) ∈ l ++ [(k, w)] ↔ (a, v) ∈ l := by
        intro v
        simp only [List.mem_append, List.mem_singleton, Prod.mk.injEq, hk, false_and, or_false]
      simp only [hmem]
      exact ihe

theorem mem_coordCells (GV : ℕ → Vertex 2) (hes : List (ℤ × ℕ)) (hok : ∀ e ∈ hes, VertexOk (GV e.2)) (c : Coord 2) (a : ℤ) :
    a ∈ coordCells (cellCoords GV hes) c ↔ LoopIn GV hes a c := by
  obtain ⟨hs, hsp⟩ := cellCoords_spec GV hes hok
  have h := hsp a
  unfold coordCells
  rw [List.mem_map]
  constructor
  · rintro ⟨⟨k, s⟩, he, rfl⟩
    obtain ⟨he, hc⟩ := List.mem_filter.1 he
    rw [OMap.find_of_mem strictTotal_intLt hs he] at h
    exact ⟨h.1, (h.2 c).1 (by simpa using hc)⟩
  · rintro ⟨⟨v, hv⟩, hc⟩
    cases hf : OMap.find intLt a (cellCoords GV hes) with
    | none => rw [hf] at h; exact absurd hv (h v)
    | some s =>
      rw [hf] at h
      exact ⟨(a, s), List.mem_filter.2 ⟨(OMap.find_iff strictTotal_intLt hs).1 hf, by simpa using (h.2 c).2 hc⟩, rfl⟩

theorem sorted_keys {V : Type} (m : List (ℤ × V)) (h : OMap.Sorted intLt m) : (m.map Prod.fst).Pairwise (· < ·) := by
  unfold OMap.Sorted at h
  rw [List.pairwise_map] at *
  exact h.imp fun h => by simpa [intLt] using h

theorem coordCells_sorted (GV : ℕ → Vertex 2) (hes : List (ℤ × ℕ)) (hok : ∀ e ∈ hes, VertexOk (GV e.2)) (c : Coord 2) :
    (coordCells (cellCoords GV hes) c).Pairwise (· < ·) :=
  (sorted_keys _ (cellCoords_spec GV hes hok).1).sublist (List.Sublist.map _ List.filter_sublist)

/-- **C122** the loops that are joined in a grid cell: those of non-negative number all of whose vertices are in the closed grid cell, if there
is a second loop (of any number) that is; each once, ascending. -/
theorem C122_tied (GV : ℕ → Vertex 2) (hes : List (ℤ × ℕ)) (hok : ∀ e ∈ hes, VertexOk (GV e.2)) (c : Coord 2) (a : ℤ) :
    (a ∈ tied GV hes c ↔ 0 ≤ a ∧ LoopIn GV hes a c ∧ ∃ b, b ≠ a ∧ LoopIn GV hes b c) ∧ (tied GV hes c).Pairwise (· < ·) := by
  have hm := mem_coordCells GV hes hok c
  have hs := coordCells_sorted GV hes hok c
  unfold tied
  dsimp only
  constructor
  · generalize coordCells (cellCoords GV hes) c = l at hm hs
    by_cases hl : l.length < 2
    · rw [if_pos hl]
      refine ⟨fun h => absurd h List.not_mem_nil, ?_⟩
      rintro ⟨_, ha, b, hne, hb⟩
      rw [← hm] at ha hb
      match l, hl with
      | [], _ => exact absurd ha List.not_mem_nil
      | [x], _ => exact absurd ((List.mem_singleton.1 hb).trans (List.mem_singleton.1 ha).symm) hne
    · rw [if_neg hl, List.mem_filter]
      constructor
      · rintro ⟨h1, h2⟩
        refine ⟨by simpa using h2, (hm a).1 h1, ?_⟩
        match l, hl with
        | [], hl => simp at hl
        | [x], hl => simp at hl
        | x :: y :: l, _ =>
          by_cases hx : x = a
          · subst hx
            refine ⟨y, ?_, (hm y).1 (by simp)⟩
            have := (List.pairwise_cons.1 hs).1 y (by simp)
            omega
          · exact ⟨x, hx, (hm x).1 (by simp)⟩
      · rintro ⟨h0, h1, _⟩
        exact ⟨(hm a).2 h1, by simpa using h0⟩
  · split_ifs
    · exact List.Pairwise.nil
    · exact hs.filter _

theorem convex_closedCell (c : Coord 2) : Convex ℚ {x : Pt 2 | InClosedCell c x} := by
  intro x hx y hy s t hs ht hst i
  obtain ⟨a1, a2⟩ := hx i
  obtain ⟨b1, b2⟩ := hy i
  have e : (s • x + t • y) i = s * x i + t * y i := rfl
  rw [e]
  have hs1 : s = 1 - t := by linarith
  have m1 := mul_le_mul_of_nonneg_left a1 hs
  have m2 := mul_le_mul_of_nonneg_left a2 hs
  have m3 := mul_le_mul_of_nonneg_left b1 ht
  have m4 := mul_le_mul_of_nonneg_left b2 ht
  subst hs1
  constructor <;> linarith

/-- **C122** loops inside a loop are joined with it: if a loop lies in the convex hull of the vertices of another one, they are handed to
`tie_nonsimple_cells` together in every grid cell the outer one is in. -/
theorem C122_nested (GV : ℕ → Vertex 2) (hes : List (ℤ × ℕ)) (hok : ∀ e ∈ hes, VertexOk (GV e.2)) (c : Coord 2) (a b : ℤ) (hab : a ≠ b)
    (ha0 : 0 ≤ a) (hb0 : 0 ≤ b) (ha : LoopIn GV hes a c) (hb : ∃ v, (b, v) ∈ hes)
    (hin : loopPts GV hes b ⊆ convexHull ℚ (loopPts GV hes a)) : a ∈ tied GV hes c ∧ b ∈ tied GV hes c := by
  have hbc : LoopIn GV hes b c := by
    refine ⟨hb, fun v hv => ?_⟩
    have h1 : convexHull ℚ (loopPts GV hes a) ⊆ {x : Pt 2 | InClosedCell c x} :=
      convexHull_min (by rintro x ⟨w, hw, rfl⟩; exact ha.2 w hw) (convex_closedCell c)
    exact h1 (hin ⟨v, hv, rfl⟩)
  exact ⟨(C122_tied GV hes hok c a).1.2 ⟨ha0, ha, b, hab.symm, hbc⟩, (C122_tied GV hes hok c b).1.2 ⟨hb0, hbc, a, hab, ha⟩⟩

/-- **C122** a loop that does not lie on one grid line is joined in at most one grid cell. -/
theorem C122_one_cell (GV : ℕ → Vertex 2) (hes : List (ℤ × ℕ)) (hok : ∀ e ∈ hes, VertexOk (GV e.2)) (c d : Coord 2) (a : ℤ)
    (hc : a ∈ tied GV hes c) (hd : a ∈ tied GV hes d) (hne : c ≠ d) :
    ∃ (i : Fin 2) (z : ℤ), (z = c i ∨ z = d i) ∧ ∀ v, (a, v) ∈ hes → (GV v).p i = z := by
  obtain ⟨_, ⟨⟨w, hw⟩, hc⟩, _⟩ := (C122_tied GV hes hok c a).1.1 hc
  obtain ⟨_, ⟨_, hd⟩, _⟩ := (C122_tied GV hes hok d a).1.1 hd
  obtain ⟨i, hi⟩ := Function.ne_iff.1 hne
  refine ⟨i, max (c i) (d i), ?_, fun v hv => ?_⟩
  · rcases le_total (c i) (d i) with h | h
    · exact .inr (max_eq_right h)
    · exact .inl (max_eq_left h)
  · obtain ⟨a1, a2⟩ := hc v hv i
    obtain ⟨b1, b2⟩ := hd v hv i
    rcases lt_or_gt_of_ne hi with h | h
    · rw [max_eq_right h.le]
      have : (c i : ℚ) + 1 ≤ d i := by exact_mod_cast h
      linarith
    · rw [max_eq_left h.le]
      have : (d i : ℚ) + 1 ≤ c i := by exact_mod_cast h
      linarith

/-- **C122, refuted.** A loop on a grid line (two half-edges of a segment, for example) is joined with the loops of the cells on both sides
of the line. -/
theorem C122_line_refuted (GV : ℕ → Vertex 2) (hes : List (ℤ × ℕ)) (hok : ∀ e ∈ hes, VertexOk (GV e.2)) (c : Coord 2) (i : Fin 2)
    (s a b : ℤ) (hs0 : 0 ≤ s) (ha0 : 0 ≤ a) (hb0 : 0 ≤ b) (hsa : s ≠ a) (hsb : s ≠ b) (hs : LoopIn GV hes s c)
    (hline : ∀ v, (s, v) ∈ hes → (GV v).p i = c i) (ha : LoopIn GV hes a c) (hb : LoopIn GV hes b (Function.update c i (c i - 1))) :
    (s ∈ tied GV hes c ∧ a ∈ tied GV hes c) ∧
    (s ∈ tied GV hes (Function.update c i (c i - 1)) ∧ b ∈ tied GV hes (Function.update c i (c i - 1))) := by
  have hs' : LoopIn GV hes s (Function.update c i (c i - 1)) := by
    refine ⟨hs.1, fun v hv j => ?_⟩
    by_cases hj : j = i
    · subst hj
      rw [Function.update_self, hline v hv]
      push_cast
      constructor <;> linarith
    · rw [Function.update_of_ne hj]
      exact hs.2 v hv j
  exact ⟨⟨(C122_tied GV hes hok c s).1.2 ⟨hs0, hs, a, hsa.symm, ha⟩, (C122_tied GV hes hok c a).1.2 ⟨ha0, ha, s, hsa, hs⟩⟩,
    ⟨(C122_tied GV hes hok _ s).1.2 ⟨hs0, hs', b, hsb.symm, hb⟩, (C122_tied GV hes hok _ b).1.2 ⟨hb0, hb, s, hsb, hs'⟩⟩⟩

/-- **C122** in a plane without mask the boundary edges are those with both ends on the same side of the domain. -/
theorem C122_open_boundary (shape : Coord 2) (GV : ℕ → Vertex 2) (E : List (ℕ × ℕ)) (hok : ∀ e ∈ E, VertexOk (GV e.1) ∧ VertexOk (GV e.2))
    (e : ℕ × ℕ) : e ∈ openBoundary shape GV E ↔ e ∈ E ∧ ∃ i, ((GV e.1).p i = 0 ∧ (GV e.2).p i = 0) ∨
      ((GV e.1).p i = shape i ∧ (GV e.2).p i = shape i) := by
  unfold openBoundary
  rw [List.mem_filter]
  refine and_congr_right fun he => ?_
  obtain ⟨h1, h2⟩ := hok e he
  rw [List.any_eq_true]
  have key : ∀ i (z : ℤ), Mask.and (GV e.1).mask (GV e.2).mask i = some z ↔ (GV e.1).p i = z ∧ (GV e.2).p i = z := by
    intro i z
    rw [← TriInput.mask_eq_some h1.1, ← TriInput.mask_eq_some h2.1]
    unfold Mask.and Mask.andEntry
    cases (GV e.1).mask i <;> cases (GV e.2).mask i <;> simp
    omega
  constructor
  · rintro ⟨i, _, hi⟩
    refine ⟨i, ?_⟩
    split at hi
    · rename_i vv hv
      rw [key] at hv
      simp only [Bool.or_eq_true, decide_eq_true_eq] at hi
      rcases hi with rfl | rfl
      · left; simpa using hv
      · exact .inr hv
    · cases hi
  · rintro ⟨i, hi⟩
    refine ⟨i, List.mem_finRange i, ?_⟩
    rcases hi with hi | hi
    · have : Mask.and (GV e.1).mask (GV e.2).mask i = some 0 := (key i 0).2 (by simpa using hi)
      rw [this]; simp
    · rw [(key i _).2 hi]; simp

/-! ## a concrete case: a square inside a grid cell -/

/-- the corners of the cell `(0, 0)` and of a square inside it. -/
def exGV (i : ℕ) : Vertex 2 :=
  if i = 0 then .ofCoord ![0, 0] else if i = 1 then .ofCoord ![1, 0] else if i = 2 then .ofCoord ![1, 1] else if i = 3 then .ofCoord ![0, 1]
  else if i = 4 then .fromVertex ![1/4, 1/4] else if i = 5 then .fromVertex ![3/4, 1/4] else if i = 6 then .fromVertex ![3/4, 3/4]
  else .fromVertex ![1/4, 3/4]

/-- the half-edges: the inner side of the cell (loop 0), its outer side (no loop), the inner (1) and outer (2) side of the square. -/
def exHes : List (ℤ × ℕ) := [(0, 0), (0, 1), (0, 2), (0, 3), (-1, 0), (-1, 1), (-1, 2), (-1, 3), (1, 4), (1, 5), (1, 6), (1, 7),
  (2, 4), (2, 5), (2, 6), (2, 7)]

theorem ofCoord_ok (c : Coord 2) : VertexOk (Vertex.ofCoord c) :=
  ⟨fun _ => ⟨le_refl _, zero_lt_one⟩, fun i => ⟨fun _ => ⟨c i, by simp [Vertex.ofCoord, Vertex.p]⟩, fun _ => rfl⟩⟩

theorem exGV_ok (i : ℕ) : VertexOk (exGV i) := by
  unfold exGV
  split_ifs <;> first | exact ofCoord_ok _ | exact TriInput.fromVertex_ok _

/-- the three loops are handed on together, in this cell and in no other one. -/
example : (∀ e ∈ exHes, VertexOk (exGV e.2)) ∧ tied exGV exHes ![0, 0] = [0, 1, 2] ∧ tied exGV exHes ![1, 0] = [] := by
  refine ⟨fun e _ => exGV_ok _, ?_, ?_⟩ <;> decide +kernel

/-- three of the sides of the cell are on the boundary of a domain of 1 x 2 cells. -/
example : openBoundary ![1, 2] exGV [(0, 1), (1, 2), (2, 3), (3, 0), (4, 5)] = [(0, 1), (1, 2), (3, 0)] := by decide +kernel

end LoopGroups
end Mandoline
