import Verif.Cell.Boundary
import Mathlib.Algebra.BigOperators.Group.Finset.Basic
import Mathlib.Data.List.Count
import Mathlib.Tactic.Ring
import Mathlib.Tactic.Linarith

/-!
# C38: half-faces of well-formed faces, and closed cells
-/
namespace Mandoline
namespace CellCollapser

/-- well-formed input: non-negative face ids, each used once; each face has loops, all with at least three vertices, and
no edge of a face is also used backwards by it. -/
structure Clean (faces : List (ℤ × List (List ℤ))) : Prop where
  nonneg : ∀ p ∈ faces, 0 ≤ p.1
  nodup : (faces.map Prod.fst).Nodup
  nonempty : ∀ p ∈ faces, p.2 ≠ []
  size : ∀ p ∈ faces, ∀ C ∈ p.2, 3 ≤ C.length
  simple : ∀ p ∈ faces, ∀ e ∈ p.2.flatMap polyEdges, e.rev ∉ p.2.flatMap polyEdges

theorem cleanInvalid_nil {C : List ℤ} (h : ∀ e ∈ polyEdges C, e.rev ∉ polyEdges C) (inv : List DEdge) :
    cleanInvalid inv C = inv := by
  unfold cleanInvalid
  have gen : ∀ l : List DEdge, (∀ e ∈ l, e ∈ polyEdges C) → l.foldl (invalidStep (polyEdges C)) inv = inv := by
    intro l
    induction l with
    | nil => intro _; rfl
    | cons e l ih =>
      intro hl
      rw [List.foldl_cons]
      have : invalidStep (polyEdges C) inv e = inv := by
        unfold invalidStep; rw [if_neg (h e (hl e List.mem_cons_self))]
      rw [this, ih (fun x hx => hl x (List.mem_cons_of_mem _ hx))]
  exact gen _ fun _ he => he

theorem cleanFlaps_nil {C : List ℤ} (h : ∀ e ∈ polyEdges C, e.rev ∉ polyEdges C) : cleanFlaps C = [] := by
  unfold cleanFlaps
  have gen : ∀ l : List DEdge, (∀ e ∈ l, e ∈ polyEdges C) → l.foldl (flapStep (polyEdges C)) [] = [] := by
    intro l
    induction l with
    | nil => intro _; rfl
    | cons e l ih =>
      intro hl
      rw [List.foldl_cons]
      have : flapStep (polyEdges C) [] e = [] := by
        unfold flapStep; rw [if_neg (h e (hl e List.mem_cons_self))]
      rw [this, ih (fun x hx => hl x (List.mem_cons_of_mem _ hx))]
  exact gen _ fun _ he => he

theorem mem_foldInsert (l a : List (List ℤ)) (x : List ℤ) :
    x ∈ l.foldl (fun l c => setInsert loopLt c l) a ↔ x ∈ a ∨ x ∈ l := by
  induction l generalizing a with
  | nil => simp
  | cons c l ih => rw [List.foldl_cons, ih, mem_setInsert strictTotal_loopLt, List.mem_cons]; tauto

/-- a face without backward edges is kept as it is. -/
theorem cleanFace_clean (loops : List (List ℤ)) (hsz : ∀ C ∈ loops, 3 ≤ C.length)
    (hs : ∀ e ∈ loops.flatMap polyEdges, e.rev ∉ loops.flatMap polyEdges) :
    (∀ x, x ∈ (cleanFace [] loops).1 ↔ x ∈ loops) ∧ (cleanFace [] loops).2.1 = [] ∧ (cleanFace [] loops).2.2 = [] := by
  unfold cleanFace
  have gen : ∀ (l : List (List ℤ)) (st : List (List ℤ) × List DEdge × List DEdge), (∀ C ∈ l, C ∈ loops) →
      st.2.1 = [] → st.2.2 = [] →
      (∀ x, x ∈ (l.foldl faceStep st).1 ↔ x ∈ st.1 ∨ x ∈ l) ∧ (l.foldl faceStep st).2.1 = [] ∧
      (l.foldl faceStep st).2.2 = [] := by
    intro l
    induction l with
    | nil => intro st _ h1 h2; exact ⟨by simp, h1, h2⟩
    | cons C l ih =>
      intro st hl h1 h2
      have hC := hl C List.mem_cons_self
      have hno : ∀ e ∈ polyEdges C, e.rev ∉ polyEdges C := by
        intro e he hr
        exact hs e (List.mem_flatMap.2 ⟨C, hC, he⟩) (List.mem_flatMap.2 ⟨C, hC, hr⟩)
      have hcl : cleanUnmanifold [] C = ([C], [], []) := by
        unfold cleanUnmanifold
        simp only [cleanInvalid_nil hno, cleanFlaps_nil hno, if_true]
      have hst : faceStep st C = (setInsert loopLt C st.1, [], []) := by
        unfold faceStep
        rw [h2, hcl]
        have hfil : [C].filter (fun c => decide (¬ c.length < 3)) = [C] := by
          rw [List.filter_cons_of_pos (by have := hsz C hC; simpa using this)]; rfl
        simp only [hfil, List.foldl_cons, List.foldl_nil]
      rw [List.foldl_cons, hst]
      obtain ⟨i1, i2, i3⟩ := ih (setInsert loopLt C st.1, [], []) (fun x hx => hl x (List.mem_cons_of_mem _ hx)) rfl rfl
      refine ⟨fun x => ?_, i2, i3⟩
      rw [i1, mem_setInsert strictTotal_loopLt, List.mem_cons]; tauto
  obtain ⟨g1, g2, g3⟩ := gen loops ([], [], []) (fun _ h => h) rfl rfl
  exact ⟨by simpa using g1, g2, g3⟩

/-- half-faces written for one face. -/
theorem addHalffaces_mem (fid : ℤ) (E : List DEdge) (hE : ∀ e ∈ E, e.rev ∉ E) (l : List DEdge) (hl : ∀ e ∈ l, e ∈ E)
    {s : CellCollapser} (hs : OMap.Sorted hfLt s.h2c) :
    OMap.Sorted hfLt (l.foldl (fun s e => s.addHalfface fid e) s).h2c ∧
    (l.foldl (fun s e => s.addHalfface fid e) s).invalid = s.invalid ∧
    ∀ k v, (k, v) ∈ (l.foldl (fun s e => s.addHalfface fid e) s).h2c ↔
      (k.1 = fid ∧ k.2 ∈ l ∧ v = (100 * fid, true)) ∨ (k.1 = fid ∧ k.2.rev ∈ l ∧ v = (100 * fid + 1, false)) ∨
      (¬ (k.1 = fid ∧ (k.2 ∈ l ∨ k.2.rev ∈ l)) ∧ (k, v) ∈ s.h2c) := by
  induction l using List.reverseRecOn with
  | nil => exact ⟨hs, rfl, by simp⟩
  | append_singleton l a ih =>
    obtain ⟨i0, i1, i2⟩ := ih (fun e he => hl e (List.mem_append_left _ he))
    have ha : a ∈ E := hl a (by simp)
    rw [List.foldl_append, List.foldl_cons, List.foldl_nil]
    generalize l.foldl (fun s e => s.addHalfface fid e) s = t at i0 i1 i2 ⊢
    have hs1 : OMap.Sorted hfLt (OMap.assign hfLt (fid, a) (100 * fid, true) t.h2c) :=
      OMap.sorted_alter strictTotal_hfLt i0
    refine ⟨OMap.sorted_alter strictTotal_hfLt hs1, i1, fun k v => ?_⟩
    have step : (k, v) ∈ (t.addHalfface fid a).h2c ↔
        (k = (fid, a.rev) ∧ v = (100 * fid + 1, false)) ∨
        (k ≠ (fid, a.rev) ∧ k = (fid, a) ∧ v = (100 * fid, true)) ∨
        (k ≠ (fid, a.rev) ∧ k ≠ (fid, a) ∧ (k, v) ∈ t.h2c) := by
      show (k, v) ∈ OMap.alter hfLt (fid, a.rev) (fun _ => (100 * fid + 1, false))
        (OMap.assign hfLt (fid, a) (100 * fid, true) t.h2c) ↔ _
      rw [OMap.mem_alter strictTotal_hfLt hs1]
      unfold OMap.assign
      rw [OMap.mem_alter strictTotal_hfLt i0]
      tauto
    rw [step, i2]
    obtain ⟨f, e⟩ := k
    simp only [Prod.mk.injEq, List.mem_append, List.mem_singleton]
    have hne : a ≠ a.rev := fun h => hE a ha (h ▸ ha)
    have hrev : e.rev = a ↔ e = a.rev := ⟨fun h => by rw [← h, DEdge.rev_rev], fun h => by rw [h, DEdge.rev_rev]⟩
    have hx : e = a → e.rev ∉ l := fun h hm => hE a ha (h ▸ hl _ (List.mem_append_left _ hm))
    have hy : e = a.rev → e ∉ l := fun h hm => hE a ha (h ▸ hl _ (List.mem_append_left _ hm))
    rw [hrev]
    by_cases hf : f = fid
    · by_cases h1 : e = a
      · have h2 : e ≠ a.rev := fun h => hne (h1.symm.trans h)
        have := hx h1
        simp only [hf, h1, true_and, and_false, false_and, or_true, or_false, false_or, hne]
        simp only [h1] at this
        simp [this, hne]
      · by_cases h2 : e = a.rev
        · have := hy h2
          simp only [h2] at this
          have hne' : a.rev ≠ a := fun h => hne h.symm
          simp [hf, h2, this, hne']
        · simp only [hf, h1, h2, true_and, and_false, false_and, or_false, false_or, not_false_eq_true, ne_eq,
            Prod.mk.injEq]
    · simp [hf]

/-- the directed edges of face `f` in the input. -/
def edgesOf (faces : List (ℤ × List (List ℤ))) (f : ℤ) : List DEdge :=
  (faces.filter fun p => decide (p.1 = f)).flatMap fun p => p.2.flatMap polyEdges

theorem mem_edgesOf {faces : List (ℤ × List (List ℤ))} {f : ℤ} {e : DEdge} :
    e ∈ edgesOf faces f ↔ ∃ loops, (f, loops) ∈ faces ∧ e ∈ loops.flatMap polyEdges := by
  unfold edgesOf
  rw [List.mem_flatMap]
  constructor
  · rintro ⟨⟨g, loops⟩, hp, he⟩
    rw [List.mem_filter, decide_eq_true_eq] at hp
    obtain ⟨h1, rfl⟩ := hp
    exact ⟨loops, h1, he⟩
  · rintro ⟨loops, h1, he⟩
    exact ⟨(f, loops), List.mem_filter.2 ⟨h1, by simp⟩, he⟩

theorem make_clean (faces : List (ℤ × List (List ℤ))) (h : Clean faces) :
    (make faces).invalid = [] ∧ ∀ k c b, (k, (c, b)) ∈ (make faces).h2c ↔
      (k.2 ∈ edgesOf faces k.1 ∧ c = 100 * k.1 ∧ b = true) ∨ (k.2.rev ∈ edgesOf faces k.1 ∧ c = 100 * k.1 + 1 ∧ b = false) := by
  obtain ⟨h1, h2, h3, h4, h5⟩ := h
  unfold make
  suffices hh : OMap.Sorted hfLt (faces.foldl addFace empty).h2c ∧ (faces.foldl addFace empty).invalid = [] ∧
      ∀ k c b, (k, (c, b)) ∈ (faces.foldl addFace empty).h2c ↔
      (k.2 ∈ edgesOf faces k.1 ∧ c = 100 * k.1 ∧ b = true) ∨
      (k.2.rev ∈ edgesOf faces k.1 ∧ c = 100 * k.1 + 1 ∧ b = false) from ⟨hh.2.1, hh.2.2⟩
  induction faces using List.reverseRecOn with
  | nil => exact ⟨OMap.sorted_nil, rfl, by intro k c b; simp [edgesOf, empty]⟩
  | append_singleton l p ih =>
    have hin : ∀ q ∈ l, q ∈ l ++ [p] := fun q hq => List.mem_append_left _ hq
    rw [List.map_append, List.nodup_append] at h2
    obtain ⟨i0, i1, i2⟩ := ih (fun q hq => h1 q (hin q hq)) h2.1 (fun q hq => h3 q (hin q hq))
      (fun q hq => h4 q (hin q hq)) (fun q hq => h5 q (hin q hq))
    have hp : p ∈ l ++ [p] := by simp
    have hpn : ∀ loops, (p.1, loops) ∉ l := by
      intro loops hm
      exact h2.2.2 p.1 (List.mem_map.2 ⟨_, hm, rfl⟩) p.1 (by simp) rfl
    rw [List.foldl_append, List.foldl_cons, List.foldl_nil]
    generalize l.foldl addFace empty = s at i0 i1 i2 ⊢
    obtain ⟨c1, c2, c3⟩ := cleanFace_clean p.2 (h4 p hp) (h5 p hp)
    have hne : (cleanFace [] p.2).1 ≠ [] := by
      obtain ⟨C, hC⟩ := List.exists_mem_of_ne_nil _ (h3 p hp)
      exact List.ne_nil_of_mem ((c1 C).2 hC)
    have hstep : s.addFace p = (faceEdges (cleanFace [] p.2).1 []).foldl (fun s e => s.addHalfface p.1 e)
        { s with invalid := [], faces := s.faces ++ [(p.1, (cleanFace [] p.2).1)] } := by
      unfold addFace
      simp only [i1, c2, c3, if_neg hne]
    have hfe : ∀ e, e ∈ faceEdges (cleanFace [] p.2).1 [] ↔ e ∈ p.2.flatMap polyEdges := by
      intro e
      unfold faceEdges
      rw [List.append_nil, List.mem_flatMap, List.mem_flatMap]
      constructor
      · rintro ⟨C, hC, he⟩; exact ⟨C, (c1 C).1 hC, he⟩
      · rintro ⟨C, hC, he⟩; exact ⟨C, (c1 C).2 hC, he⟩
    obtain ⟨a1, a2, a3⟩ := addHalffaces_mem p.1 (p.2.flatMap polyEdges) (h5 p hp) (faceEdges (cleanFace [] p.2).1 [])
      (fun e he => (hfe e).1 he)
      (s := { s with invalid := [], faces := s.faces ++ [(p.1, (cleanFace [] p.2).1)] }) i0
    rw [hstep]
    refine ⟨a1, a2, fun k c b => ?_⟩
    rw [a3]
    have hedge : ∀ e, e ∈ edgesOf (l ++ [p]) k.1 ↔ e ∈ edgesOf l k.1 ∨ (k.1 = p.1 ∧ e ∈ p.2.flatMap polyEdges) := by
      intro e
      rw [mem_edgesOf, mem_edgesOf]
      constructor
      · rintro ⟨loops, hm, he⟩
        rcases List.mem_append.1 hm with hm | hm
        · exact .inl ⟨loops, hm, he⟩
        · rw [List.mem_singleton] at hm
          exact .inr ⟨by rw [← hm], by rw [← hm]; exact he⟩
      · rintro (⟨loops, hm, he⟩ | ⟨h', he⟩)
        · exact ⟨loops, hin _ hm, he⟩
        · exact ⟨p.2, by rw [h']; simp, he⟩
    simp only [hfe, hedge, Prod.mk.injEq]
    show _ ∨ _ ∨ (_ ∧ (k, (c, b)) ∈ s.h2c) ↔ _
    rw [i2]
    by_cases hk : k.1 = p.1
    · have hnone : ∀ e, e ∉ edgesOf l k.1 := by
        intro e he
        obtain ⟨loops, hm, _⟩ := mem_edgesOf.1 he
        rw [hk] at hm
        exact hpn loops hm
      rw [hk] at hnone
      simp only [hk, hnone, false_and, false_or, or_false, and_false, true_and]
    · simp only [hk, false_and, false_or, or_false, not_false_eq_true, true_and]

/-- **C38.** For well-formed faces the half-faces are the directed edges of each face (front side) and their reversals
(back side). -/
theorem C38_halffaces (faces : List (ℤ × List (List ℤ))) (h : Clean faces) (f : ℤ) (e : DEdge) (b : Bool) :
    ((f, e) ∈ (make faces).hfList ∧ (make faces).side (f, e) = b) ↔
      (if b then e ∈ edgesOf faces f else e.rev ∈ edgesOf faces f) := by
  obtain ⟨_, hm⟩ := make_clean faces h
  have hraw := raw_make faces
  constructor
  · rintro ⟨h1, h2⟩
    have := mem_of_hfList hraw.sorted h1
    rw [hm, h2] at this
    rcases this with ⟨a, _, rfl⟩ | ⟨a, _, rfl⟩
    · exact a
    · exact a
  · intro hb
    cases b
    · have := (hm (f, e) (100 * f + 1) false).2 (.inr ⟨hb, rfl, rfl⟩)
      exact ⟨(mem_hfList_iff _).2 ⟨_, _, this⟩, (cell_of_mem hraw.sorted this).2⟩
    · have := (hm (f, e) (100 * f) true).2 (.inl ⟨hb, rfl, rfl⟩)
      exact ⟨(mem_hfList_iff _).2 ⟨_, _, this⟩, (cell_of_mem hraw.sorted this).2⟩

theorem clean_simple {faces : List (ℤ × List (List ℤ))} (h : Clean faces) {f : ℤ} {e : DEdge}
    (he : e ∈ edgesOf faces f) : e.rev ∉ edgesOf faces f := by
  intro hr
  obtain ⟨l1, m1, e1⟩ := mem_edgesOf.1 he
  obtain ⟨l2, m2, e2⟩ := mem_edgesOf.1 hr
  have : l1 = l2 := by
    have := List.inj_on_of_nodup_map h.nodup m1 m2 rfl
    exact congrArg Prod.snd this
  subst this
  exact h.simple _ m1 e e1 e2

/-- for well-formed faces, ids are non-negative and no half-face is degenerate. -/
theorem clean_hf {faces : List (ℤ × List (List ℤ))} (h : Clean faces) :
    (∀ hf ∈ (make faces).hfList, 0 ≤ hf.1) ∧ ∀ hf ∈ (make faces).hfList, hf.2.1 ≠ hf.2.2 := by
  have key : ∀ hf ∈ (make faces).hfList, hf.2 ∈ edgesOf faces hf.1 ∨ hf.2.rev ∈ edgesOf faces hf.1 := by
    rintro ⟨f, e⟩ hm
    have := (C38_halffaces faces h f e ((make faces).side (f, e))).1 ⟨hm, rfl⟩
    split at this
    · exact .inl this
    · exact .inr this
  constructor
  · intro hf hm
    rcases key hf hm with hx | hx <;>
    · obtain ⟨l, m, _⟩ := mem_edgesOf.1 hx
      exact h.nonneg _ m
  · intro hf hm heq
    have hrev : hf.2.rev = hf.2 := Prod.ext heq.symm heq
    rcases key hf hm with hx | hx
    · exact clean_simple h hx (hrev ▸ hx)
    · rw [hrev] at hx
      exact clean_simple h hx (hrev ▸ hx)

/-! ## closed cells -/

/-- how often face `f` runs along `e`, minus how often it runs backwards. -/
def incidence (faces : List (ℤ × List (List ℤ))) (f : ℤ) (e : DEdge) : ℤ :=
  ((edgesOf faces f).count e : ℤ) - (edgesOf faces f).count e.rev

/-- sign of a boundary entry. -/
def sgn (b : Bool) : ℤ := if b then 1 else -1

theorem around_nodup {s : CellCollapser} (h : OMap.Sorted hfLt s.h2c) (e : DEdge) : (s.around e).Nodup := by
  unfold around
  have hn : s.hfList.Nodup := by
    unfold hfList
    rw [List.nodup_iff_pairwise_ne, List.pairwise_map]
    refine h.imp ?_
    intro a b hab heq
    rw [heq, strictTotal_hfLt.irrefl] at hab; cases hab
  refine List.Nodup.map_on ?_ (hn.filter _)
  rintro ⟨f, e1⟩ h1 ⟨g, e2⟩ h2 heq
  simp only [List.mem_filter, decide_eq_true_eq] at h1 h2
  exact Prod.ext heq (h1.2.trans h2.2.symm)

/-- net number of sides around `e` that lie in cell `k`. -/
theorem around_balance {cell : HalfFace → ℤ} (k : ℤ) (e : DEdge) (fs : List ℤ)
    (hj : ∀ f f', (f, f') ∈ FaceCollapser.cyclicPairs fs → cell (f, e) = cell (f', e.rev)) :
    (fs.map fun f => (if cell (f, e) = k then (1 : ℤ) else 0) - (if cell (f, e.rev) = k then 1 else 0)).sum = 0 := by
  have h1 : (fs.map fun f => (if cell (f, e) = k then (1 : ℤ) else 0)) =
      (fs.rotate 1).map fun f => (if cell (f, e.rev) = k then (1 : ℤ) else 0) := by
    apply List.ext_getElem
    · simp
    · intro i hi hi'
      simp only [List.getElem_map]
      have hi1 : i < fs.length := by simpa using hi
      have hi2 : i < (fs.rotate 1).length := by simpa using hi'
      have := hj fs[i] (fs.rotate 1)[i] (by
        unfold FaceCollapser.cyclicPairs
        rw [List.mem_iff_getElem]
        exact ⟨i, by simpa using hi1, by simp⟩)
      rw [this]
  have h2 : ((fs.rotate 1).map fun f => (if cell (f, e.rev) = k then (1 : ℤ) else 0)).sum =
      (fs.map fun f => (if cell (f, e.rev) = k then (1 : ℤ) else 0)).sum :=
    ((List.rotate_perm fs 1).map _).sum_eq
  have h3 : ∀ (l : List ℤ) (u v : ℤ → ℤ), (l.map fun f => u f - v f).sum = (l.map u).sum - (l.map v).sum := by
    intro l u v
    induction l with
    | nil => simp
    | cons a l ih => simp only [List.map_cons, List.sum_cons, ih]; ring
  rw [h3, h1, h2, sub_self]

theorem sum_filter_ite {α : Type} (P : α → Bool) (g : α → ℤ) (l : List α) :
    ((l.filter P).map g).sum = (l.map fun a => if P a = true then g a else 0).sum := by
  induction l with
  | nil => rfl
  | cons a l ih =>
    rw [List.filter_cons]
    by_cases h : P a = true <;> simp [h, ih]

/-- **C107, cells are closed up to folded faces.** The boundary of the signed sum of the faces of a cell that have only one side in it
vanishes along every edge. -/
theorem C107_closed_without_folded (faces : List (ℤ × List (List ℤ))) (h : Clean faces) (hedges : ∀ f, (edgesOf faces f).Nodup)
    (ord : DEdge → List ℤ) (hord : ∀ e, (ord e).Perm ((make faces).around e)) (R : DsuRoots ((make faces).merge ord).ds)
    (k : ℕ) (m : List (ℤ × Bool)) (hk : ((make faces).bake ord R).cells[k]? = some m)
    (e : DEdge) :
    ((m.filter fun p => !decide (p.1 ∈ ((make faces).bake ord R).foldedFaces)).map fun p => sgn p.2 * incidence faces p.1 e).sum = 0 := by
  obtain ⟨hpos, hnd⟩ := clean_hf h
  have hraw := raw_make faces
  obtain ⟨hinv, _⟩ := make_clean faces h
  have hfold := C38_folded_faces faces hpos hnd ord hord R
  rw [sum_filter_ite]
  -- antisymmetry: it suffices to treat increasing edges
  have main : ∀ e : DEdge, e.1 < e.2 → (m.map fun p => if (!decide (p.1 ∈ ((make faces).bake ord R).foldedFaces)) = true then
      sgn p.2 * incidence faces p.1 e else 0).sum = 0 := by
    intro e hlt
    have hne : e.1 ≠ e.2 := by omega
    obtain ⟨d1, d2, d3⟩ := C38_boundary faces hpos ord hord R k m hk
    let cell := ((make faces).bake ord R).cell
    let g : ℤ → ℤ := fun f => (if cell (f, e) = k then (1 : ℤ) else 0) - (if cell (f, e.rev) = k then 1 else 0)
    have hbal : ((ord e).map g).sum = 0 := by
      refine around_balance (cell := cell) k e (ord e) ?_
      intro f f' hff
      obtain ⟨hf, hf'⟩ := mem_cyclicPairs hff
      rw [(hord e).mem_iff, mem_around] at hf hf'
      refine (C38_same_cell_iff_linked faces hpos ord hord R _ _ hf (rev_mem hraw hf')).2 (.rel _ _ ?_)
      exact ⟨e, f, f', by rw [hinv]; simp, hlt, hff, rfl, rfl⟩
    have hbal' : (((make faces).around e).map g).sum = 0 := by rw [← ((hord e).map g).sum_eq]; exact hbal
    -- contribution of a listed face
    have hcon : ∀ p ∈ m, (if (!decide (p.1 ∈ ((make faces).bake ord R).foldedFaces)) = true then sgn p.2 * incidence faces p.1 e else 0) =
        if (p.1, e) ∈ (make faces).hfList then g p.1 else 0 := by
      rintro ⟨f, b⟩ hp
      obtain ⟨e', hm', hc', hb'⟩ := d2 f b hp
      by_cases hF : Folded faces ((make faces).bake ord R) f
      · -- both half-faces are in the same cell
        have hmem : f ∈ ((make faces).bake ord R).foldedFaces := (hfold f).2 hF
        simp only [hmem, decide_true, Bool.not_true, Bool.false_eq_true, if_false]
        split
        · rename_i hme
          have hmr := rev_mem hraw hme
          have hcr := side_rev hraw hme hne
          obtain ⟨x, y, hx, hy, sx, sy, hxy⟩ := hF
          have heq : cell (f, e) = cell (f, e.rev) := by
            cases hs : (make faces).side (f, e)
            · rw [hs] at hcr
              rw [show cell (f, e) = cell (f, y) from C38_side_in_one_cell faces hpos ord hord R f e y hme hy (hs.trans sy.symm),
                show cell (f, e.rev) = cell (f, x) from C38_side_in_one_cell faces hpos ord hord R f e.rev x hmr hx (hcr.trans sx.symm)]
              exact hxy.symm
            · rw [hs] at hcr
              rw [show cell (f, e) = cell (f, x) from C38_side_in_one_cell faces hpos ord hord R f e x hme hx (hs.trans sx.symm),
                show cell (f, e.rev) = cell (f, y) from C38_side_in_one_cell faces hpos ord hord R f e.rev y hmr hy (hcr.trans sy.symm)]
              exact hxy
          simp only [g, heq, sub_self]
        · rfl
      have hmem : f ∉ ((make faces).bake ord R).foldedFaces := fun h => hF ((hfold f).1 h)
      simp only [hmem, decide_false, Bool.not_false, if_true]
      split
      · rename_i hme
        have hside := (C38_halffaces faces h f e ((make faces).side (f, e))).1 ⟨hme, rfl⟩
        have hcr := side_rev hraw hme hne
        have hmr := rev_mem hraw hme
        -- the side recorded
        have hthis : ∀ x, (f, x) ∈ (make faces).hfList → (cell (f, x) = k ↔ (make faces).side (f, x) = b) := by
          intro x hx
          constructor
          · intro hxk
            by_contra hxb
            refine hF ?_
            have heq : cell (f, x) = cell (f, e') := hxk.trans hc'.symm
            cases hb : (make faces).side (f, x)
            · have hb1 : b = true := by cases b <;> simp_all
              exact ⟨e', x, hm', hx, by rw [hb', hb1], hb, heq.symm⟩
            · have hb1 : b = false := by cases b <;> simp_all
              exact ⟨x, e', hx, hm', hb, by rw [hb', hb1], heq⟩
          · intro hxb
            exact (C38_side_in_one_cell faces hpos ord hord R f x e' hx hm' (hxb.trans hb'.symm)).trans hc'
        have g1 := hthis e hme
        have g2 := hthis e.rev hmr
        rw [hcr] at g2
        simp only [g, g1, g2]
        unfold incidence
        cases hs : (make faces).side (f, e)
        · rw [hs] at hside
          simp only [Bool.false_eq_true, if_false] at hside
          have hn := clean_simple h hside
          rw [DEdge.rev_rev] at hn
          rw [List.count_eq_zero_of_not_mem hn, List.count_eq_one_of_mem (hedges f) hside]
          cases b <;> simp [sgn]
        · rw [hs] at hside
          simp only [if_true] at hside
          have hn := clean_simple h hside
          rw [List.count_eq_zero_of_not_mem hn, List.count_eq_one_of_mem (hedges f) hside]
          cases b <;> simp [sgn]
      · rename_i hme
        have hn1 : e ∉ edgesOf faces f := fun hx => hme ((C38_halffaces faces h f e true).2 hx).1
        have hn2 : e.rev ∉ edgesOf faces f := fun hx => hme ((C38_halffaces faces h f e false).2 hx).1
        unfold incidence
        rw [List.count_eq_zero_of_not_mem hn1, List.count_eq_zero_of_not_mem hn2]
        simp
    rw [List.map_congr_left hcon]
    have hS : (m.map fun p => if (p.1, e) ∈ (make faces).hfList then g p.1 else 0) =
        (m.map Prod.fst).map fun f => if (f, e) ∈ (make faces).hfList then g f else 0 := by
      rw [List.map_map]; rfl
    have hbal2 : ∑ f ∈ ((make faces).around e).toFinset, g f = 0 := by
      rw [List.sum_toFinset _ (around_nodup hraw.sorted e)]; exact hbal'
    rw [hS, ← List.sum_toFinset _ d1]
    have hL : ∀ f ∈ (m.map Prod.fst).toFinset ∪ ((make faces).around e).toFinset, f ∉ (m.map Prod.fst).toFinset →
        (if (f, e) ∈ (make faces).hfList then g f else 0) = 0 := by
      intro f _ hf
      split
      · rename_i hme
        have hno : ∀ x, (f, x) ∈ (make faces).hfList → cell (f, x) ≠ k := by
          intro x hx hc
          obtain ⟨b, hb⟩ := d3 f x hx hc
          exact hf (List.mem_toFinset.2 (List.mem_map.2 ⟨_, hb, rfl⟩))
        simp [g, hno e hme, hno e.rev (rev_mem hraw hme)]
      · rfl
    rw [Finset.sum_subset Finset.subset_union_left hL]
    refine Eq.trans ?_ hbal2
    rw [Finset.sum_subset (f := fun f => if (f, e) ∈ (make faces).hfList then g f else 0)
      (s₁ := ((make faces).around e).toFinset)
      (s₂ := (m.map Prod.fst).toFinset ∪ ((make faces).around e).toFinset) Finset.subset_union_right ?_ |>.symm]
    · refine Finset.sum_congr rfl ?_
      intro f hf
      rw [List.mem_toFinset, mem_around] at hf
      rw [if_pos hf]
    · intro f _ hf
      rw [List.mem_toFinset, mem_around] at hf
      rw [if_neg hf]
  rcases lt_trichotomy e.1 e.2 with hlt | heq | hgt
  · exact main e hlt
  · have : e.rev = e := Prod.ext heq.symm heq
    have hz : ∀ p ∈ m, (if (!decide (p.1 ∈ ((make faces).bake ord R).foldedFaces)) = true then sgn p.2 * incidence faces p.1 e else 0) = 0 := by
      intro p _; unfold incidence; rw [this]; simp
    rw [List.map_congr_left hz]; simp
  · have hm := main e.rev hgt
    have hz : ∀ p ∈ m, (if (!decide (p.1 ∈ ((make faces).bake ord R).foldedFaces)) = true then sgn p.2 * incidence faces p.1 e else 0) =
        -(if (!decide (p.1 ∈ ((make faces).bake ord R).foldedFaces)) = true then sgn p.2 * incidence faces p.1 e.rev else 0) := by
      intro p _
      split
      · unfold incidence; rw [DEdge.rev_rev]; ring
      · simp
    rw [List.map_congr_left hz]
    have hneg : ∀ (l : List (ℤ × Bool)) (u : ℤ × Bool → ℤ), (l.map fun p => -(u p)).sum = -(l.map u).sum := by
      intro l u
      induction l with
      | nil => simp
      | cons a l ih => simp only [List.map_cons, List.sum_cons, ih]; ring
    rw [hneg, hm, neg_zero]

/-- **C38.** Cells are closed: if no face of a cell has both sides in it, the boundary of the signed sum of its faces
vanishes along every edge. -/
theorem C38_cells_closed (faces : List (ℤ × List (List ℤ))) (h : Clean faces) (hedges : ∀ f, (edgesOf faces f).Nodup)
    (ord : DEdge → List ℤ) (hord : ∀ e, (ord e).Perm ((make faces).around e)) (R : DsuRoots ((make faces).merge ord).ds)
    (k : ℕ) (m : List (ℤ × Bool)) (hk : ((make faces).bake ord R).cells[k]? = some m)
    (hnf : ∀ f b, (f, b) ∈ m → ¬ Folded faces ((make faces).bake ord R) f) (e : DEdge) :
    (m.map fun p => sgn p.2 * incidence faces p.1 e).sum = 0 := by
  obtain ⟨hpos, hnd⟩ := clean_hf h
  have := C107_closed_without_folded faces h hedges ord hord R k m hk e
  rwa [List.filter_eq_self.2] at this
  rintro ⟨f, b⟩ hp
  rw [Bool.not_eq_true', decide_eq_false_iff_not, C38_folded_faces faces hpos hnd ord hord R]
  exact hnf f b hp

end CellCollapser
end Mandoline
