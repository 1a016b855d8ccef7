import Verif.Face2.Select

/-!
# C78, C79: the face/edge incidence of the generated 2D mesh
-/
namespace Mandoline
namespace Gen2
open Planar

variable {G : Gen2}

/-! ## the half-edge map -/

/-- `e` joins `x` and `y` (in either direction). -/
def Joins (e : CutEdge2) (h : DEdge) : Prop := h = ((e.a : ℤ), (e.b : ℤ)) ∨ h = ((e.b : ℤ), (e.a : ℤ))

instance (e : CutEdge2) (h : DEdge) : Decidable (Joins e h) := by unfold Joins; infer_instance

theorem dirMap_aux (l : List (CutEdge2 × ℕ)) :
    OMap.Sorted edgeLt (l.foldl addDir []) ∧ ∀ h i s, OMap.find edgeLt h (l.foldl addDir []) = some (i, s) ↔
      ∃ l₁ e l₂, l = l₁ ++ (e, i) :: l₂ ∧ Joins e h ∧ (∀ x ∈ l₂, ¬ Joins x.1 h) ∧
        s = decide (h = ((e.b : ℤ), (e.a : ℤ))) := by
  induction l using List.reverseRecOn with
  | nil =>
    refine ⟨OMap.sorted_nil, fun h i s => ?_⟩
    simp [OMap.find]
  | append_singleton l x ih =>
    obtain ⟨hs, hf⟩ := ih
    rw [List.foldl_append, List.foldl_cons, List.foldl_nil]
    generalize hm : l.foldl addDir [] = m at hs hf
    have hs1 := OMap.sorted_alter (k := ((x.1.a : ℤ), (x.1.b : ℤ))) (f := fun _ => (x.2, false)) strictTotal_edgeLt hs
    refine ⟨OMap.sorted_alter strictTotal_edgeLt hs1, fun h i s => ?_⟩
    unfold addDir OMap.assign
    rw [OMap.find_alter strictTotal_edgeLt hs1, OMap.find_alter strictTotal_edgeLt hs]
    have step : (∃ l₁ e l₂, l ++ [x] = l₁ ++ (e, i) :: l₂ ∧ Joins e h ∧ (∀ x ∈ l₂, ¬ Joins x.1 h) ∧
        s = decide (h = ((e.b : ℤ), (e.a : ℤ)))) ↔
        (Joins x.1 h ∧ i = x.2 ∧ s = decide (h = ((x.1.b : ℤ), (x.1.a : ℤ)))) ∨
        (¬ Joins x.1 h ∧ ∃ l₁ e l₂, l = l₁ ++ (e, i) :: l₂ ∧ Joins e h ∧ (∀ x ∈ l₂, ¬ Joins x.1 h) ∧
        s = decide (h = ((e.b : ℤ), (e.a : ℤ)))) := by
      constructor
      · rintro ⟨l₁, e, l₂, h1, h2, h3, h4⟩
        rcases List.eq_nil_or_concat l₂ with rfl | ⟨l₃, y, rfl⟩
        · have := List.append_inj_right' h1 rfl
          simp only [List.cons.injEq, and_true] at this
          subst this
          exact Or.inl ⟨h2, rfl, h4⟩
        · rw [List.concat_eq_append, ← List.cons_append, ← List.append_assoc] at h1
          have hy := List.append_inj_right' h1 rfl
          have hl := List.append_inj_left' h1 rfl
          simp only [List.cons.injEq, and_true] at hy
          subst hy
          exact Or.inr ⟨h3 x (by simp [List.concat_eq_append]), l₁, e, l₃, hl, h2, fun z hz => h3 z (by simp [List.concat_eq_append, hz]), h4⟩
      · rintro (⟨h1, rfl, h2⟩ | ⟨h1, l₁, e, l₂, rfl, h3, h4, h5⟩)
        · exact ⟨l, x.1, [], rfl, h1, by simp, h2⟩
        · refine ⟨l₁, e, l₂ ++ [x], by simp, h3, fun z hz => ?_, h5⟩
          rcases List.mem_append.1 hz with hz | hz
          · exact h4 z hz
          · rw [List.mem_singleton] at hz; subst hz; exact h1
    rw [step, ← hf]
    by_cases h1 : h = ((x.1.b : ℤ), (x.1.a : ℤ))
    · rw [if_pos h1]
      have : Joins x.1 h := Or.inr h1
      have hd : decide (h = ((x.1.b : ℤ), (x.1.a : ℤ))) = true := decide_eq_true h1
      simp only [Option.some.injEq, Prod.mk.injEq, this, true_and, not_true_eq_false, false_and, or_false, hd]
      exact ⟨fun ⟨a, b⟩ => ⟨a.symm, b.symm⟩, fun ⟨a, b⟩ => ⟨a.symm, b.symm⟩⟩
    · rw [if_neg h1]
      by_cases h2 : h = ((x.1.a : ℤ), (x.1.b : ℤ))
      · rw [if_pos h2]
        have : Joins x.1 h := Or.inl h2
        have hd : decide (h = ((x.1.b : ℤ), (x.1.a : ℤ))) = false := decide_eq_false h1
        simp only [Option.some.injEq, Prod.mk.injEq, this, true_and, not_true_eq_false, false_and, or_false, hd]
        exact ⟨fun ⟨a, b⟩ => ⟨a.symm, b.symm⟩, fun ⟨a, b⟩ => ⟨a.symm, b.symm⟩⟩
      · rw [if_neg h2]
        have : ¬ Joins x.1 h := by rintro (h | h); exact h2 h; exact h1 h
        simp only [this, false_and, not_false_eq_true, true_and, false_or]

/-- the half-edge map sends `h` to the last cut edge joining its ends, with sign `true` iff `h` runs against it. -/
theorem dirMap_spec (h : DEdge) (i : ℕ) (s : Bool) : OMap.find edgeLt h G.dirMap = some (i, s) ↔
    ∃ e, G.edges[i]? = some e ∧ Joins e h ∧ (∀ j e', i < j → G.edges[j]? = some e' → ¬ Joins e' h) ∧
      s = decide (h = ((e.b : ℤ), (e.a : ℤ))) := by
  unfold dirMap
  rw [(dirMap_aux _).2]
  constructor
  · rintro ⟨l₁, e, l₂, h1, h2, h3, h4⟩
    have hget : ∀ j : ℕ, G.edges.zipIdx[j]? = (l₁ ++ (e, i) :: l₂)[j]? := fun j => by rw [h1]
    have hi : i = l₁.length := by
      have := hget l₁.length
      rw [List.getElem?_append_right (le_refl _), Nat.sub_self, List.getElem?_cons_zero, List.getElem?_zipIdx] at this
      cases hg : G.edges[l₁.length]? with
      | none => rw [hg] at this; simp at this
      | some z => rw [hg] at this; simp at this; exact this.2.symm
    refine ⟨e, ?_, h2, ?_, h4⟩
    · have := hget i
      rw [List.getElem?_append_right (by omega), hi, Nat.sub_self, List.getElem?_cons_zero, List.getElem?_zipIdx] at this
      cases hg : G.edges[l₁.length]? with
      | none => rw [hg] at this; simp at this
      | some z => rw [hg] at this; simp at this; rw [hi, hg, this]
    · intro j e' hj he' hJ
      have := hget j
      rw [List.getElem?_zipIdx, he', List.getElem?_append_right (by omega)] at this
      have h5 : j - l₁.length = (j - l₁.length - 1) + 1 := by omega
      rw [h5, List.getElem?_cons_succ] at this
      have hm := List.mem_of_getElem? this.symm
      exact h3 _ hm hJ
  · rintro ⟨e, h1, h2, h3, h4⟩
    have hi : i < G.edges.length := by
      by_contra hc
      rw [List.getElem?_eq_none (by omega)] at h1
      cases h1
    have hz : G.edges.zipIdx[i]? = some (e, i) := by rw [List.getElem?_zipIdx, h1]; simp
    refine ⟨G.edges.zipIdx.take i, e, G.edges.zipIdx.drop (i + 1), ?_, h2, ?_, h4⟩
    · have hlt : i < G.edges.zipIdx.length := by simpa using hi
      have h6 : G.edges.zipIdx[i] = (e, i) := by
        rw [List.getElem?_eq_getElem hlt, Option.some.injEq] at hz; exact hz
      rw [← h6, ← List.drop_eq_getElem_cons hlt, List.take_append_drop]
    · intro x hx
      obtain ⟨k, hk⟩ := List.mem_iff_getElem?.1 hx
      rw [List.getElem?_drop, List.getElem?_zipIdx] at hk
      cases hg : G.edges[i + 1 + k]? with
      | none => rw [hg] at hk; simp at hk
      | some z =>
        rw [hg] at hk
        simp only [Option.map_some, Option.some.injEq] at hk
        rw [← hk]
        exact h3 _ z (by omega) hg

/-! ## the map of one face -/

theorem foldl_insertNew_find {K V : Type*} {lt : K → K → Bool} [DecidableEq K] (h : StrictTotal lt) (l : List (K × V))
    (m : List (K × V)) (hs : OMap.Sorted lt m) (k : K) :
    OMap.find lt k (l.foldl (fun s p => OMap.insertNew lt p.1 p.2 s) m) =
      (OMap.find lt k m).or (((l.filter fun p => decide (p.1 = k)).map Prod.snd).head?) := by
  induction l generalizing m with
  | nil => simp
  | cons a l ih =>
    rw [List.foldl_cons, ih _ (by unfold OMap.insertNew; exact OMap.sorted_alter h hs)]
    rw [show OMap.insertNew lt a.1 a.2 m = OMap.alter lt a.1 (fun o => o.getD a.2) m from rfl, OMap.find_alter h hs]
    by_cases hk : a.1 = k
    · subst hk
      simp only [if_true, Option.some_or, List.filter_cons, decide_true, List.map_cons, List.head?_cons]
      cases OMap.find lt a.1 m <;> rfl
    · rw [if_neg (Ne.symm hk)]
      simp [List.filter_cons, hk]

/-- entries of a sorted map with a given key. -/
theorem filter_key {K V : Type*} {lt : K → K → Bool} [DecidableEq K] (h : StrictTotal lt) (m : List (K × V))
    (hs : OMap.Sorted lt m) (k : K) :
    m.filter (fun p => decide (p.1 = k)) = ((OMap.find lt k m).map fun v => (k, v)).toList := by
  induction m with
  | nil => rfl
  | cons a m ih =>
    unfold OMap.Sorted at hs
    rw [List.pairwise_cons] at hs
    have ih' := ih hs.2
    unfold OMap.find
    by_cases hk : a.1 = k
    · subst hk
      rw [List.filter_cons_of_pos (by simp)]
      have : m.filter (fun p => decide (p.1 = a.1)) = [] := by
        rw [List.filter_eq_nil_iff]
        intro b hb he
        have := hs.1 b hb
        rw [of_decide_eq_true he] at this
        rw [h.irrefl] at this
        cases this
      rw [this]
      simp [h.irrefl]
    · rw [List.filter_cons_of_neg (by simpa using hk), ih']
      by_cases h1 : lt k a.1 = true
      · rw [if_pos h1]
        have : OMap.find lt k m = none := by
          rw [OMap.find_none_iff h hs.2]
          intro v hv
          have := h.trans _ _ _ h1 (hs.1 _ hv)
          rw [h.irrefl] at this; cases this
        rw [this]
      · rw [if_neg h1]
        by_cases h2 : lt a.1 k = true
        · rw [if_pos h2]
        · exact absurd (h.tri a.1 k) (by tauto)

theorem mapM_some {α β : Type*} (f : α → Option β) (l : List α) (h : ∀ x ∈ l, ∃ y, f x = some y) :
    l.mapM f = some (l.filterMap f) := by
  induction l with
  | nil => rfl
  | cons a l ih =>
    obtain ⟨y, hy⟩ := h a (by simp)
    rw [List.mapM_cons, hy, ih fun x hx => h x (List.mem_cons_of_mem _ hx), List.filterMap_cons_some hy]
    rfl

/-- the half-edges known to the generator. -/
def Known (G : Gen2) (h : DEdge) : Prop := ∃ e ∈ G.edges, Joins e h

theorem known_find {h : DEdge} (hk : G.Known h) : ∃ pr, OMap.find edgeLt h G.dirMap = some pr := by
  obtain ⟨e, he, hj⟩ := hk
  have hex : ∃ l₁ x l₂, G.edges.zipIdx = l₁ ++ x :: l₂ ∧ Joins x.1 h ∧ ∀ y ∈ l₂, ¬ Joins y.1 h := by
    have : ∃ x ∈ G.edges.zipIdx, Joins x.1 h := by
      obtain ⟨i, hi⟩ := List.mem_iff_getElem?.1 he
      refine ⟨(e, i), ?_, hj⟩
      rw [List.mem_iff_getElem?]
      exact ⟨i, by rw [List.getElem?_zipIdx, hi]; simp⟩
    revert this
    generalize G.edges.zipIdx = L
    intro hx
    induction L using List.reverseRecOn with
    | nil => obtain ⟨x, hx, _⟩ := hx; cases hx
    | append_singleton L y ih =>
      by_cases hy : Joins y.1 h
      · exact ⟨L, y, [], rfl, hy, by simp⟩
      · obtain ⟨x, hx, hxj⟩ := hx
        rcases List.mem_append.1 hx with hx | hx
        · obtain ⟨l₁, x, l₂, rfl, h2, h3⟩ := ih ⟨x, hx, hxj⟩
          refine ⟨l₁, x, l₂ ++ [y], by simp, h2, fun z hz => ?_⟩
          rcases List.mem_append.1 hz with hz | hz
          · exact h3 z hz
          · rw [List.mem_singleton] at hz; subst hz; exact hy
        · rw [List.mem_singleton] at hx; subst hx; exact absurd hxj hy
  obtain ⟨l₁, x, l₂, h1, h2, h3⟩ := hex
  exact ⟨(x.2, decide (h = ((x.1.b : ℤ), (x.1.a : ℤ)))), ((dirMap_aux _).2 h _ _).2 ⟨l₁, x.1, l₂, h1, h2, h3, rfl⟩⟩

/-- the boundary map of a face: it never throws; an edge without a later duplicate is in the map iff one of its two
half-edges belongs to the face, with the sign of such a half-edge; an edge with a later duplicate is not in the map. -/
theorem faceMap_spec (F : List (List ℤ)) (hk : ∀ h ∈ halfEdges F, G.Known h) : ∃ m, G.faceMap F = some m ∧
    OMap.Sorted natLt m ∧ ∀ i e, G.edges[i]? = some e → e.a ≠ e.b →
      ((∀ j e', i < j → G.edges[j]? = some e' → ¬ Joins e' ((e.a : ℤ), (e.b : ℤ))) →
        ((OMap.find natLt i m = none ↔ ((e.a : ℤ), (e.b : ℤ)) ∉ halfEdges F ∧ ((e.b : ℤ), (e.a : ℤ)) ∉ halfEdges F) ∧
        (OMap.find natLt i m = some false → ((e.a : ℤ), (e.b : ℤ)) ∈ halfEdges F) ∧
        (OMap.find natLt i m = some true → ((e.b : ℤ), (e.a : ℤ)) ∈ halfEdges F))) ∧
      ((∃ j e', i < j ∧ G.edges[j]? = some e' ∧ Joins e' ((e.a : ℤ), (e.b : ℤ))) → OMap.find natLt i m = none) := by
  have hsome := mapM_some (fun e => OMap.find edgeLt e G.dirMap) (halfEdges F) fun h hh => known_find (hk h hh)
  unfold faceMap
  rw [hsome, Option.map_some]
  refine ⟨_, rfl, (foldl_insertNew_mem strictTotal_natLt _ _ OMap.sorted_nil).1, fun i e hi hab => ?_⟩
  rw [foldl_insertNew_find strictTotal_natLt _ _ OMap.sorted_nil]
  simp only [OMap.find, Option.none_or]
  have hswap : ∀ e' : CutEdge2, Joins e' ((e.a : ℤ), (e.b : ℤ)) ↔ Joins e' ((e.b : ℤ), (e.a : ℤ)) := by
    intro e'
    unfold Joins
    simp only [Prod.mk.injEq]
    tauto
  have hmem : ∀ s, s ∈ ((((halfEdges F).filterMap fun e => OMap.find edgeLt e G.dirMap).filter
      fun p => decide (p.1 = i)).map Prod.snd) ↔ ∃ h ∈ halfEdges F, OMap.find edgeLt h G.dirMap = some (i, s) := by
    intro s
    simp only [List.mem_map, List.mem_filter, List.mem_filterMap, decide_eq_true_eq]
    constructor
    · rintro ⟨⟨i', s'⟩, ⟨⟨h, hh, hf⟩, rfl⟩, rfl⟩; exact ⟨h, hh, hf⟩
    · rintro ⟨h, hh, hf⟩; exact ⟨(i, s), ⟨⟨h, hh, hf⟩, rfl⟩, rfl⟩
  generalize hl : ((((halfEdges F).filterMap fun e => OMap.find edgeLt e G.dirMap).filter
      fun p => decide (p.1 = i)).map Prod.snd) = l at hmem ⊢
  have hne : ¬ (((e.a : ℤ), (e.b : ℤ)) = ((e.b : ℤ), (e.a : ℤ))) := by
    intro h
    rw [Prod.mk.injEq] at h
    exact hab (by exact_mod_cast h.1)
  constructor
  · intro hlast
    have hdir : ∀ h s, OMap.find edgeLt h G.dirMap = some (i, s) ↔
        (h = ((e.a : ℤ), (e.b : ℤ)) ∧ s = false) ∨ (h = ((e.b : ℤ), (e.a : ℤ)) ∧ s = true) := by
      intro h s
      rw [dirMap_spec]
      constructor
      · rintro ⟨e', h1, h2, h3, h4⟩
        rw [hi, Option.some.injEq] at h1
        subst h1
        rcases h2 with rfl | rfl
        · exact Or.inl ⟨rfl, by rw [h4]; exact decide_eq_false hne⟩
        · exact Or.inr ⟨rfl, by rw [h4]; exact decide_eq_true rfl⟩
      · rintro (⟨rfl, rfl⟩ | ⟨rfl, rfl⟩)
        · exact ⟨e, hi, Or.inl rfl, hlast, (decide_eq_false hne).symm⟩
        · exact ⟨e, hi, Or.inr rfl, fun j e' hj he' h => hlast j e' hj he' ((hswap e').2 h), (decide_eq_true rfl).symm⟩
    have hhead : ∀ s, l.head? = some s → s ∈ l := fun s h => List.mem_of_mem_head? h
    refine ⟨?_, fun h => ?_, fun h => ?_⟩
    · rw [List.head?_eq_none_iff]
      constructor
      · rintro rfl
        refine ⟨fun h => ?_, fun h => ?_⟩
        · exact absurd ((hmem false).2 ⟨_, h, (hdir _ _).2 (Or.inl ⟨rfl, rfl⟩)⟩) (by simp)
        · exact absurd ((hmem true).2 ⟨_, h, (hdir _ _).2 (Or.inr ⟨rfl, rfl⟩)⟩) (by simp)
      · rintro ⟨h1, h2⟩
        rw [List.eq_nil_iff_forall_not_mem]
        intro s hs
        obtain ⟨h, hh, hf⟩ := (hmem s).1 hs
        rcases (hdir _ _).1 hf with ⟨rfl, _⟩ | ⟨rfl, _⟩
        · exact h1 hh
        · exact h2 hh
    · obtain ⟨h', hh, hf⟩ := (hmem _).1 (hhead _ h)
      rcases (hdir _ _).1 hf with ⟨rfl, _⟩ | ⟨rfl, h2⟩
      · exact hh
      · cases h2
    · obtain ⟨h', hh, hf⟩ := (hmem _).1 (hhead _ h)
      rcases (hdir _ _).1 hf with ⟨rfl, h2⟩ | ⟨rfl, _⟩
      · cases h2
      · exact hh
  · rintro ⟨j, e', hj, he', hJ⟩
    rw [List.head?_eq_none_iff, List.eq_nil_iff_forall_not_mem]
    intro s hs
    obtain ⟨h, hh, hf⟩ := (hmem s).1 hs
    obtain ⟨e'', h1, h2, h3, h4⟩ := (dirMap_spec _ _ _).1 hf
    rw [hi, Option.some.injEq] at h1
    subst h1
    refine h3 j e' hj he' ?_
    rcases h2 with rfl | rfl
    · exact hJ
    · exact (hswap e').1 hJ

/-! ## the sides of an edge -/

theorem sides_aux (L : List (List (List ℤ))) (k0 : ℕ) (x y : DEdge) (ent : List (List ℤ) → Option Bool)
    (h1 : ∀ F ∈ L, ent F = some false ↔ x ∈ halfEdges F) (h2 : ∀ F ∈ L, ent F = some true ↔ y ∈ halfEdges F)
    (hnd : (L.flatMap halfEdges).Nodup) :
    ∃ lf lt, ((L.zipIdx k0).flatMap fun p => ((ent p.1).map fun s => ((p.2 : ℤ), s)).toList).Perm (lf ++ lt) ∧
      ((x ∈ L.flatMap halfEdges ∧ ∃ k : ℤ, lf = [(k, false)]) ∨ (x ∉ L.flatMap halfEdges ∧ lf = [])) ∧
      ((y ∈ L.flatMap halfEdges ∧ ∃ k : ℤ, lt = [(k, true)]) ∨ (y ∉ L.flatMap halfEdges ∧ lt = [])) := by
  induction L generalizing k0 with
  | nil => exact ⟨[], [], by simp, by simp, by simp⟩
  | cons F L ih =>
    rw [List.flatMap_cons, List.nodup_append] at hnd
    obtain ⟨_, hnd', hdisj⟩ := hnd
    obtain ⟨lf, lt, hp, hf, ht⟩ := ih (k0 + 1) (fun F hF => h1 F (List.mem_cons_of_mem _ hF))
      (fun F hF => h2 F (List.mem_cons_of_mem _ hF)) hnd'
    have hF1 := h1 F (by simp)
    have hF2 := h2 F (by simp)
    rw [List.zipIdx_cons, List.flatMap_cons, List.flatMap_cons]
    simp only [List.mem_append]
    cases he : ent F with
    | none =>
      rw [he] at hF1 hF2
      have n1 : x ∉ halfEdges F := fun h => by simpa using hF1.2 h
      have n2 : y ∉ halfEdges F := fun h => by simpa using hF2.2 h
      exact ⟨lf, lt, by simpa using hp, by simpa [n1] using hf, by simpa [n2] using ht⟩
    | some s =>
      cases s with
      | false =>
        have m1 := hF1.1 he
        have n2 : y ∉ halfEdges F := fun h => by rw [hF2.2 h] at he; cases he
        have n1 : x ∉ L.flatMap halfEdges := fun h => hdisj x m1 x h rfl
        rcases hf with ⟨h, _⟩ | ⟨_, rfl⟩
        · exact absurd h n1
        · refine ⟨[((k0 : ℤ), false)], lt, ?_, Or.inl ⟨Or.inl m1, _, rfl⟩, by simpa [n2] using ht⟩
          simpa using hp
      | true =>
        have m2 := hF2.1 he
        have n1 : x ∉ halfEdges F := fun h => by rw [hF1.2 h] at he; cases he
        have n2 : y ∉ L.flatMap halfEdges := fun h => hdisj y m2 y h rfl
        rcases ht with ⟨h, _⟩ | ⟨_, rfl⟩
        · exact absurd h n2
        · refine ⟨lf, [((k0 : ℤ), true)], ?_, by simpa [n1] using hf, Or.inl ⟨Or.inl m2, _, rfl⟩⟩
          have : (((k0 : ℤ), true) :: (lf ++ [])).Perm (lf ++ [((k0 : ℤ), true)]) := by
            rw [List.append_nil]; exact (List.perm_append_singleton _ _).symm
          refine List.Perm.trans ?_ this
          simpa using hp

end Gen2
end Mandoline
