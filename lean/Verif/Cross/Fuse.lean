import Verif.Cross.Model
import Verif.Geom.ContainerProps
import Mathlib.Tactic.FinCases

/-! # C17, C18: crossing indices and the order on edge intersections -/
namespace Mandoline
variable {D : ℕ}

/-- every coordinate of the point is an integer. -/
def IsGridPoint (x : Pt D) : Prop := ∀ i, IntegralAt x i

/-- the clamped flags mark exactly the integral coordinates (what C08 and C14 establish). -/
def FlagsExact (v : Vertex D) : Prop := ∀ i, v.clamped i = true ↔ IntegralAt v.p i

theorem strictTotal_keyLt : StrictTotal (keyLt (D := D)) where
  irrefl a := (C06_strict_total_order _ ⟨a.1, a.2, fun _ => false⟩ ⟨a.1, a.2, fun _ => false⟩).1
  trans a b c := (C06_strict_total_order _ _ _).2.1
  tri a b := by
    rcases (C06_strict_total_order (D := D) ⟨a.1, a.2, fun _ => false⟩ ⟨b.1, b.2, fun _ => false⟩
      ⟨b.1, b.2, fun _ => false⟩).2.2.1 with h | h | h
    · exact Or.inl h
    · rw [Vertex.eq_iff] at h; exact Or.inr (Or.inl (Prod.ext h.1 h.2))
    · exact Or.inr (Or.inr h)

theorem key_eq_iff {v w : Vertex D} (hv : Normalised v) (hw : Normalised w) : v.key = w.key ↔ v.p = w.p := by
  constructor
  · intro h
    have h1 : v.coord = w.coord := congrArg Prod.fst h
    have h2 : v.quot = w.quot := congrArg Prod.snd h
    funext i; simp only [Vertex.p, h1, h2]
  · intro h
    have := Vertex.normalised_ext hv hw h
    exact Prod.ext this.1 this.2

theorem isGridVertex_iff {v : Vertex D} (h : FlagsExact v) : v.isGridVertex = true ↔ IsGridPoint v.p := by
  simp only [Vertex.isGridVertex, List.all_eq_true, List.mem_finRange, forall_const]
  exact forall_congr' h

/-- loop invariant of the fusing loop. -/
structure FuseInv {shape : Coord D} (G : GridIndexer shape) (pre : List (Vertex D)) (st : FuseState D) : Prop where
  sorted : OMap.Sorted keyLt st.map
  outv : st.out.map CrossingI.v = pre
  le : G.size ≤ st.count
  out_map : ∀ x ∈ st.out, (x.v.key, x.index) ∈ st.map
  map_out : ∀ k i, (k, i) ∈ st.map → ∃ x ∈ st.out, x.v.key = k ∧ x.index = i
  grid : ∀ x ∈ st.out, IsGridPoint x.v.p → x.index = G.idx x.v.coord
  nongrid : ∀ x ∈ st.out, ¬ IsGridPoint x.v.p → G.size ≤ x.index ∧ x.index < st.count
  inj : ∀ x ∈ st.out, ∀ y ∈ st.out, x.index = y.index → x.v.p = y.v.p
  surj : ∀ k, G.size ≤ k → k < st.count → ∃ x ∈ st.out, x.index = k ∧ ¬ IsGridPoint x.v.p

theorem fuseStep_inv {shape : Coord D} (G : GridIndexer shape) {pre : List (Vertex D)} {st : FuseState D}
    (h : FuseInv G pre st) (hpreN : ∀ w ∈ pre, Normalised w)
    (hpreV : ∀ w ∈ pre, IsGridPoint w.p → ValidIndex shape w.coord = true)
    (v : Vertex D) (hN : Normalised v) (hF : FlagsExact v)
    (hV : IsGridPoint v.p → ValidIndex shape v.coord = true) :
    FuseInv G (pre ++ [v]) (fuseStep G.idx st v) := by
  have hST := strictTotal_keyLt (D := D)
  have hin : ∀ x ∈ st.out, x.v ∈ pre := by
    intro x hx; rw [← h.outv]; exact List.mem_map.2 ⟨x, hx, rfl⟩
  unfold fuseStep
  by_cases hg : v.isGridVertex = true
  · rw [if_pos hg]
    have hgp := (isGridVertex_iff hF).1 hg
    have hval := hV hgp
    simp only
    have hkey : ∀ x ∈ st.out, x.v.key = v.key → x.index = G.idx v.coord := by
      intro x hx hk
      have hp := (key_eq_iff (hpreN _ (hin x hx)) hN).1 hk
      have : x.v.coord = v.coord := congrArg Prod.fst hk
      rw [h.grid x hx (by rw [hp]; exact hgp), this]
    constructor
    · exact OMap.sorted_alter hST h.sorted
    · simp [h.outv]
    · exact h.le
    · intro x hx
      rw [List.mem_append, List.mem_singleton] at hx
      rcases hx with hx | rfl
      · by_cases hk : x.v.key = v.key
        · exact (OMap.mem_alter hST h.sorted).2 (Or.inr ⟨hk, hkey x hx hk⟩)
        · exact (OMap.mem_alter hST h.sorted).2 (Or.inl ⟨hk, h.out_map x hx⟩)
      · exact (OMap.mem_alter hST h.sorted).2 (Or.inr ⟨rfl, rfl⟩)
    · intro k i hk
      rcases (OMap.mem_alter hST h.sorted).1 hk with ⟨_, hk⟩ | ⟨hk, hi⟩
      · obtain ⟨x, hx, h1⟩ := h.map_out k i hk
        exact ⟨x, by simp [hx], h1⟩
      · exact ⟨⟨v, G.idx v.coord⟩, by simp, hk.symm, hi.symm⟩
    · intro x hx hxg
      rw [List.mem_append, List.mem_singleton] at hx
      rcases hx with hx | rfl
      · exact h.grid x hx hxg
      · rfl
    · intro x hx hxg
      rw [List.mem_append, List.mem_singleton] at hx
      rcases hx with hx | rfl
      · exact h.nongrid x hx hxg
      · exact absurd hgp hxg
    · have hone : ∀ x ∈ st.out, x.index = G.idx v.coord → x.v.p = v.p := by
        intro x hx he
        by_cases hxg : IsGridPoint x.v.p
        · rw [h.grid x hx hxg] at he
          have hc := G.inj _ _ (hpreV _ (hin x hx) hxg) hval he
          funext i
          have q1 := (Vertex.quot_zero_iff _ (hpreN _ (hin x hx)) i).2 (hxg i)
          have q2 := (Vertex.quot_zero_iff _ hN i).2 (hgp i)
          simp only [Vertex.p, hc, q1, q2]
        · have := (h.nongrid x hx hxg).1
          have := (G.bound _ hval).2
          omega
      intro x hx y hy he
      rw [List.mem_append, List.mem_singleton] at hx hy
      rcases hx with hx | rfl <;> rcases hy with hy | rfl
      · exact h.inj x hx y hy he
      · exact hone x hx he
      · exact (hone y hy he.symm).symm
      · rfl
    · intro k h1 h2
      obtain ⟨x, hx, h3⟩ := h.surj k h1 h2
      exact ⟨x, by simp [hx], h3⟩
  · rw [if_neg hg]
    have hgp : ¬ IsGridPoint v.p := fun hgp => hg ((isGridVertex_iff hF).2 hgp)
    cases hf : OMap.find keyLt v.key st.map with
    | some k =>
      simp only
      have hkm := OMap.mem_of_find hST hf
      obtain ⟨x0, hx0, hk0, hi0⟩ := h.map_out _ _ hkm
      have hp0 := (key_eq_iff (hpreN _ (hin x0 hx0)) hN).1 hk0
      constructor
      · exact h.sorted
      · simp [h.outv]
      · exact h.le
      · intro x hx
        rw [List.mem_append, List.mem_singleton] at hx
        rcases hx with hx | rfl
        · exact h.out_map x hx
        · exact hkm
      · intro k' i hk'
        obtain ⟨x, hx, h1⟩ := h.map_out k' i hk'
        exact ⟨x, by simp [hx], h1⟩
      · intro x hx hxg
        rw [List.mem_append, List.mem_singleton] at hx
        rcases hx with hx | rfl
        · exact h.grid x hx hxg
        · exact absurd hxg hgp
      · intro x hx hxg
        rw [List.mem_append, List.mem_singleton] at hx
        rcases hx with hx | rfl
        · exact h.nongrid x hx hxg
        · have := h.nongrid x0 hx0 (by rw [hp0]; exact hgp)
          rw [hi0] at this; exact this
      · intro x hx y hy he
        rw [List.mem_append, List.mem_singleton] at hx hy
        rcases hx with hx | rfl <;> rcases hy with hy | rfl
        · exact h.inj x hx y hy he
        · exact (h.inj x hx x0 hx0 (he.trans hi0.symm)).trans hp0
        · exact ((h.inj y hy x0 hx0 (he.symm.trans hi0.symm)).trans hp0).symm
        · rfl
      · intro k' h1 h2
        obtain ⟨x, hx, h3⟩ := h.surj k' h1 h2
        exact ⟨x, by simp [hx], h3⟩
    | none =>
      simp only
      have hnk : ∀ x ∈ st.out, x.v.key ≠ v.key := by
        intro x hx hk
        exact (OMap.find_none_iff hST h.sorted).1 hf x.index (hk ▸ h.out_map x hx)
      have hlt : ∀ x ∈ st.out, x.index < st.count := by
        intro x hx
        by_cases hxg : IsGridPoint x.v.p
        · rw [h.grid x hx hxg]
          exact lt_of_lt_of_le (G.bound _ (hpreV _ (hin x hx) hxg)).2 h.le
        · exact (h.nongrid x hx hxg).2
      constructor
      · exact OMap.sorted_alter hST h.sorted
      · simp [h.outv]
      · have := h.le; simp only; omega
      · intro x hx
        rw [List.mem_append, List.mem_singleton] at hx
        rcases hx with hx | rfl
        · exact (OMap.mem_alter hST h.sorted).2 (Or.inl ⟨hnk x hx, h.out_map x hx⟩)
        · exact (OMap.mem_alter hST h.sorted).2 (Or.inr ⟨rfl, rfl⟩)
      · intro k i hk
        rcases (OMap.mem_alter hST h.sorted).1 hk with ⟨_, hk⟩ | ⟨hk, hi⟩
        · obtain ⟨x, hx, h1⟩ := h.map_out k i hk
          exact ⟨x, by simp [hx], h1⟩
        · exact ⟨⟨v, st.count⟩, by simp, hk.symm, hi.symm⟩
      · intro x hx hxg
        rw [List.mem_append, List.mem_singleton] at hx
        rcases hx with hx | rfl
        · exact h.grid x hx hxg
        · exact absurd hxg hgp
      · intro x hx hxg
        rw [List.mem_append, List.mem_singleton] at hx
        rcases hx with hx | rfl
        · have := h.nongrid x hx hxg; simp only; omega
        · have := h.le; simp only; omega
      · intro x hx y hy he
        rw [List.mem_append, List.mem_singleton] at hx hy
        rcases hx with hx | rfl <;> rcases hy with hy | rfl
        · exact h.inj x hx y hy he
        · have := hlt x hx; simp only at he; omega
        · have := hlt y hy; simp only at he; omega
        · rfl
      · intro k h1 h2
        simp only at h2
        by_cases hk : k = st.count
        · exact ⟨⟨v, st.count⟩, by simp, hk.symm, hgp⟩
        · obtain ⟨x, hx, h3⟩ := h.surj k h1 (by omega)
          exact ⟨x, by simp [hx], h3⟩

theorem fuse_inv {shape : Coord D} (G : GridIndexer shape) (vs : List (Vertex D))
    (hN : ∀ v ∈ vs, Normalised v) (hF : ∀ v ∈ vs, FlagsExact v)
    (hV : ∀ v ∈ vs, IsGridPoint v.p → ValidIndex shape v.coord = true) :
    FuseInv G vs (computeCrossings G.idx G.size vs) := by
  have gen : ∀ (l pre : List (Vertex D)) (st : FuseState D), FuseInv G pre st →
      (∀ v ∈ pre ++ l, Normalised v) → (∀ v ∈ l, FlagsExact v) →
      (∀ v ∈ pre ++ l, IsGridPoint v.p → ValidIndex shape v.coord = true) →
      FuseInv G (pre ++ l) (l.foldl (fuseStep G.idx) st) := by
    intro l
    induction l with
    | nil => intro pre st h _ _ _; simpa using h
    | cons v l ih =>
      intro pre st h h1 h2 h3
      rw [List.foldl_cons]
      have hs := fuseStep_inv G h (fun w hw => h1 w (by simp [hw])) (fun w hw => h3 w (by simp [hw])) v
        (h1 v (by simp)) (h2 v (by simp)) (h3 v (by simp))
      have := ih (pre ++ [v]) _ hs (by simpa using h1) (fun w hw => h2 w (by simp [hw])) (by simpa using h3)
      simpa using this
  have h0 : FuseInv G [] (⟨[], G.size, []⟩ : FuseState D) := by
    constructor
    · exact OMap.sorted_nil
    · rfl
    · exact le_refl _
    all_goals simp
  unfold computeCrossings
  simpa using gen vs [] _ h0 (by simpa using hN) hF (by simpa using hV)

/-- **C17.** After `compute_crossings` with fusing: the crossings keep their vertices and order; a crossing
at a grid vertex carries that grid vertex's index; two crossings have the same index iff they are at the
same position; and the indices of the other crossings are exactly the contiguous range of length `n`
starting at the number of grid vertices. -/
theorem C17_fuse_indices {shape : Coord D} (G : GridIndexer shape) (vs : List (Vertex D))
    (hN : ∀ v ∈ vs, Normalised v) (hF : ∀ v ∈ vs, FlagsExact v)
    (hV : ∀ v ∈ vs, IsGridPoint v.p → ValidIndex shape v.coord = true) :
    let out := (computeCrossings G.idx G.size vs).out
    out.map CrossingI.v = vs ∧
    (∀ x ∈ out, IsGridPoint x.v.p → x.index = G.idx x.v.coord) ∧
    (∀ x ∈ out, ∀ y ∈ out, x.index = y.index ↔ x.v.p = y.v.p) ∧
    ∃ n : ℕ, ∀ k, (∃ x ∈ out, x.index = k ∧ ¬ IsGridPoint x.v.p) ↔ G.size ≤ k ∧ k < G.size + n := by
  intro out
  have h := fuse_inv G vs hN hF hV
  have hin : ∀ x ∈ out, x.v ∈ vs := by
    intro x hx; rw [← h.outv]; exact List.mem_map.2 ⟨x, hx, rfl⟩
  refine ⟨h.outv, h.grid, ?_, ?_⟩
  · intro x hx y hy
    refine ⟨h.inj x hx y hy, fun hp => ?_⟩
    have hk := (key_eq_iff (hN _ (hin x hx)) (hN _ (hin y hy))).2 hp
    exact OMap.sorted_unique strictTotal_keyLt h.sorted (h.out_map x hx) (hk ▸ h.out_map y hy)
  · have hle := h.le
    refine ⟨((computeCrossings G.idx G.size vs).count - G.size).toNat, fun k => ?_⟩
    constructor
    · rintro ⟨x, hx, rfl, hg⟩
      have := h.nongrid x hx hg
      omega
    · rintro ⟨h1, h2⟩
      obtain ⟨x, hx, h3⟩ := h.surj k h1 (by omega)
      exact ⟨x, hx, h3⟩

/-- **C17, without fusing** each crossing is its own vertex. -/
theorem C17_nofuse (vs : List (Vertex D)) :
    (computeCrossingsNoFuse vs).map CrossingI.v = vs ∧
    ∀ (k : ℕ) (h : k < (computeCrossingsNoFuse vs).length), ((computeCrossingsNoFuse vs)[k]).index = (k : ℤ) := by
  constructor
  · simp [computeCrossingsNoFuse, Function.comp_def]
  · intro k h; simp [computeCrossingsNoFuse]

theorem foldl_max_spec {α : Type*} (f : α → ℤ) (l : List α) (s : ℤ) :
    s ≤ l.foldl (fun s c => max (f c) s) s ∧ (∀ x ∈ l, f x ≤ l.foldl (fun s c => max (f c) s) s) ∧
    (l.foldl (fun s c => max (f c) s) s = s ∨ ∃ x ∈ l, l.foldl (fun s c => max (f c) s) s = f x) := by
  induction l generalizing s with
  | nil => simp
  | cons a l ih =>
    obtain ⟨h1, h2, h3⟩ := ih (max (f a) s)
    simp only [List.foldl_cons]
    refine ⟨(le_max_right _ _).trans h1, ?_, ?_⟩
    · intro x hx
      rcases List.mem_cons.1 hx with rfl | hx
      · exact (le_max_left _ _).trans h1
      · exact h2 x hx
    · rcases h3 with h3 | ⟨x, hx, h3⟩
      · rcases max_choice (f a) s with h4 | h4
        · right; exact ⟨a, by simp, by rw [h3, h4]⟩
        · left; rw [h3, h4]
      · right; exact ⟨x, by simp [hx], h3⟩

theorem bakeVertices_spec (gs : ℤ) (cs : List (CrossingI D)) (k : ℤ) (hk : 0 ≤ k) :
    (∀ w, bakeVertices gs cs k = some w → ∃ x ∈ cs, x.v = w ∧ x.index = gs + k) ∧
    (∀ x ∈ cs, x.index = gs + k → (bakeVertices gs cs k).isSome = true) := by
  unfold bakeVertices
  have gen : ∀ (l : List (CrossingI D)) (cur : Option (Vertex D)),
      (∀ w, l.foldl (fun cur c => if 0 ≤ c.index - gs ∧ c.index - gs = k then some c.v else cur) cur = some w →
        cur = some w ∨ ∃ x ∈ l, x.v = w ∧ x.index = gs + k) ∧
      ((cur.isSome = true ∨ ∃ x ∈ l, x.index = gs + k) →
        (l.foldl (fun cur c => if 0 ≤ c.index - gs ∧ c.index - gs = k then some c.v else cur) cur).isSome
          = true) := by
    intro l
    induction l with
    | nil => intro cur; simp
    | cons c l ih =>
      intro cur
      simp only [List.foldl_cons]
      by_cases hc : 0 ≤ c.index - gs ∧ c.index - gs = k
      · rw [if_pos hc]
        obtain ⟨h1, h2⟩ := ih (some c.v)
        refine ⟨fun w hw => ?_, fun _ => h2 (Or.inl rfl)⟩
        rcases h1 w hw with h3 | ⟨x, hx, h3⟩
        · right; exact ⟨c, by simp, by simpa using h3, by omega⟩
        · right; exact ⟨x, by simp [hx], h3⟩
      · rw [if_neg hc]
        obtain ⟨h1, h2⟩ := ih cur
        refine ⟨fun w hw => ?_, fun h => h2 ?_⟩
        · rcases h1 w hw with h3 | ⟨x, hx, h3⟩
          · exact Or.inl h3
          · right; exact ⟨x, by simp [hx], h3⟩
        · rcases h with h | ⟨x, hx, h⟩
          · exact Or.inl h
          · rcases List.mem_cons.1 hx with rfl | hx
            · exact absurd ⟨by omega, by omega⟩ hc
            · exact Or.inr ⟨x, hx, h⟩
  constructor
  · intro w hw
    rcases (gen cs none).1 w hw with h | h
    · cases h
    · exact h
  · intro x hx h; exact (gen cs none).2 (Or.inr ⟨x, hx, h⟩)

/-- **C17.** The array of new vertices built by `bake_vertices` has no hole and is indexed consistently: its
size is the number of distinct non-grid positions, and slot `k` holds a vertex at the position of every
crossing whose index is `grid_size + k`. -/
theorem C17_new_vertices {shape : Coord D} (G : GridIndexer shape) (hsz : 0 ≤ G.size) (vs : List (Vertex D))
    (hN : ∀ v ∈ vs, Normalised v) (hF : ∀ v ∈ vs, FlagsExact v)
    (hV : ∀ v ∈ vs, IsGridPoint v.p → ValidIndex shape v.coord = true) :
    let out := (computeCrossings G.idx G.size vs).out
    let size := bakeVerticesSize G.size out
    (∀ x ∈ out, IsGridPoint x.v.p ∨ (0 ≤ x.index - G.size ∧ x.index - G.size < size)) ∧
    ∀ k, 0 ≤ k → k < size → ∃ w, bakeVertices G.size out k = some w ∧
      (∃ x ∈ out, x.index = G.size + k) ∧ ∀ x ∈ out, x.index = G.size + k → x.v.p = w.p := by
  intro out size
  obtain ⟨_, hgrid, hidx, n, hn⟩ := C17_fuse_indices G vs hN hF hV
  have h := fuse_inv G vs hN hF hV
  have hmax := foldl_max_spec CrossingI.index out (-1)
  have hin : ∀ x ∈ out, x.v ∈ vs := by
    intro x hx; rw [← h.outv]; exact List.mem_map.2 ⟨x, hx, rfl⟩
  have hsize : size = max (out.foldl (fun s c => max c.index s) (-1) + 1 - G.size) 0 := rfl
  refine ⟨?_, ?_⟩
  · intro x hx
    by_cases hg : IsGridPoint x.v.p
    · exact Or.inl hg
    · right
      have h1 := (hn x.index).1 ⟨x, hx, rfl, hg⟩
      have h2 := hmax.2.1 x hx
      omega
  · intro k hk0 hk
    have hex : ∃ x ∈ out, x.index = G.size + k := by
      rcases hmax.2.2 with h3 | ⟨y, hy, h3⟩
      · omega
      · have hyn : ¬ IsGridPoint y.v.p := by
          intro hg
          have h4 := hgrid y hy hg
          have := (G.bound _ (hV _ (hin y hy) hg)).2
          omega
        have h5 := (hn y.index).1 ⟨y, hy, rfl, hyn⟩
        obtain ⟨x, hx, h6, _⟩ := (hn (G.size + k)).2 ⟨by omega, by omega⟩
        exact ⟨x, hx, h6⟩
    obtain ⟨x, hx, hxi⟩ := hex
    have hsome := (bakeVertices_spec G.size out k hk0).2 x hx hxi
    obtain ⟨w, hw⟩ := Option.isSome_iff_exists.1 hsome
    obtain ⟨y, hy, hyw, hyi⟩ := (bakeVertices_spec G.size out k hk0).1 w hw
    refine ⟨w, hw, ⟨x, hx, hxi⟩, ?_⟩
    intro z hz hzi
    rw [← hyw]
    exact (hidx z hz y hy).1 (hzi.trans hyi.symm)

/-- a non-trivial instance: two positions, one of them a grid vertex, one duplicated. -/
example : ((computeCrossings (linIndex 2 ![3, 3]) 9 [Vertex.fromVertex ![1/2, 1], Vertex.fromVertex ![1, 2],
    Vertex.fromVertex ![1/2, 1], Vertex.fromVertex ![2, 1/3]]).out.map CrossingI.index) = [9, 7, 9, 10] := by
  decide +kernel

example (x : Pt 2) : Normalised (Vertex.fromVertex x) ∧ FlagsExact (Vertex.fromVertex x) := by
  refine ⟨Vertex.fromVertex_normalised x, fun i => ?_⟩
  rw [← Vertex.quot_zero_iff _ (Vertex.fromVertex_normalised x) i]
  simp [Vertex.fromVertex, Vertex.bsFromQuot]

/-! ## C18 -/

/-- **C18 (what holds).** Among intersections of one input edge the order is that of the parameter, hence a
strict weak order. -/
theorem C18_same_edge (a b : EdgeIsectKey D) (h : a.edgeIndex = b.edgeIndex) (ha : 0 ≤ a.edgeCoord) :
    a.lt b = true ↔ a.edgeCoord < b.edgeCoord := by
  unfold EdgeIsectKey.lt
  rw [if_pos ⟨ha, h⟩, decide_eq_true_eq]

/-- requirements of C++ on a comparison: irreflexive, transitive, and incomparability is transitive. -/
def StrictWeak {α : Type*} (lt : α → α → Bool) : Prop :=
  (∀ a, lt a a = false) ∧ (∀ a b c, lt a b = true → lt b c = true → lt a c = true) ∧
  (∀ a b c, lt a b = false → lt b a = false → lt b c = false → lt c b = false →
    lt a c = false ∧ lt c a = false)

/-- three intersections: two of the edge from (0,1/2) to (2,1/2) and one of the edge through (1/2,0). -/
def c18a : EdgeIsectKey 2 := ⟨Vertex.fromVertex ![1/2, 1/2], 1/4, 0⟩
/-- see `c18a`. -/
def c18b : EdgeIsectKey 2 := ⟨Vertex.fromVertex ![3/2, 1/2], 3/4, 0⟩
/-- see `c18a`. -/
def c18c : EdgeIsectKey 2 := ⟨Vertex.fromVertex ![1/2, 0], 1/2, 1⟩

/-- **C18, refuted.** The comparison of edge intersections is not a strict weak order: incomparability is
not transitive, already in two dimensions with parameters in (0,1). -/
theorem C18_not_strict_weak : ¬ StrictWeak (EdgeIsectKey.lt (D := 2)) := by
  rintro ⟨_, _, h⟩
  have := (h c18a c18c c18b (by decide +kernel) (by decide +kernel) (by decide +kernel)
    (by decide +kernel)).1
  revert this
  decide +kernel

/-- an edge traversed from right to left, and a second edge. -/
def c18d : EdgeIsectKey 2 := ⟨Vertex.fromVertex ![3/2, 1/2], 1/4, 0⟩
/-- see `c18d`. -/
def c18e : EdgeIsectKey 2 := ⟨Vertex.fromVertex ![1/2, 1/2], 3/4, 0⟩
/-- see `c18d`. -/
def c18f : EdgeIsectKey 2 := ⟨Vertex.fromVertex ![1, 0], 1/2, 1⟩

/-- **C18, refuted.** It is not even transitive. -/
theorem C18_not_transitive : ∃ a b c : EdgeIsectKey 2,
    a.lt b = true ∧ b.lt c = true ∧ a.lt c = false :=
  ⟨c18d, c18e, c18f, by decide +kernel, by decide +kernel, by decide +kernel⟩

end Mandoline
