import Verif.Cross.Fuse
import Verif.Edge.Props

/-! # C19: grid edges are subdivided into a path -/
namespace Mandoline
variable {D : ℕ}

/-- `x` lies in the interior of the grid edge from grid vertex `c` along axis `d`. -/
def OnOpenEdge (c : Coord D) (d : Fin D) (x : Pt D) : Prop :=
  (∀ i, i ≠ d → x i = (c i : ℚ)) ∧ (c d : ℚ) < x d ∧ x d < (c d : ℚ) + 1

theorem clampedCount_compl (v : Vertex D) :
    v.clampedCount + ((List.finRange D).countP fun i => !v.clamped i) = D := by
  have h := List.length_eq_countP_add_countP (fun i => v.clamped i) (l := List.finRange D)
  simp only [List.length_finRange] at h
  unfold Vertex.clampedCount
  have : (List.finRange D).countP (fun i => !v.clamped i) =
      (List.finRange D).countP (fun i => decide ¬ v.clamped i = true) := by
    congr 1; funext i; cases v.clamped i <;> rfl
  rw [this]; exact h.symm

theorem countP_finRange_eq_one {p : Fin D → Bool} (h : (List.finRange D).countP p = 1) {i j : Fin D}
    (hi : p i = true) (hj : p j = true) : i = j := by
  by_contra hne
  have hnd : (List.finRange D).Nodup := List.nodup_finRange D
  rw [List.countP_eq_length_filter] at h
  obtain ⟨x, hx⟩ := List.length_eq_one_iff.1 h
  have h1 : i ∈ (List.finRange D).filter p := by simp [hi]
  have h2 : j ∈ (List.finRange D).filter p := by simp [hj]
  rw [hx, List.mem_singleton] at h1 h2
  exact hne (h1.trans h2.symm)

theorem unboundAxis_iff (v : Vertex D) (hN : Normalised v) (hF : FlagsExact v) (d : Fin D) :
    unboundAxis v = some d ↔ OnOpenEdge v.coord d v.p := by
  have hD : 0 < D := d.pos
  have hc := clampedCount_compl v
  have hint : ∀ i, v.clamped i = true ↔ v.p i = (v.coord i : ℚ) := by
    intro i
    rw [hF i, ← Vertex.quot_zero_iff _ hN i]
    simp only [Vertex.p]
    constructor
    · intro h; rw [h]; ring
    · intro h; linarith
  have hopen : ∀ i, v.clamped i = false ↔ (v.coord i : ℚ) < v.p i ∧ v.p i < (v.coord i : ℚ) + 1 := by
    intro i
    have h1 := hN i
    rw [← Bool.not_eq_true, hint i]
    simp only [Vertex.p]
    constructor
    · intro h
      have : v.quot i ≠ 0 := fun h0 => h (by rw [h0]; ring)
      have := lt_of_le_of_ne h1.1 (Ne.symm this)
      constructor <;> linarith
    · rintro ⟨h2, _⟩ h3; linarith
  unfold unboundAxis
  constructor
  · intro h
    split_ifs at h with hcnt
    have hone : (List.finRange D).countP (fun i => !v.clamped i) = 1 := by omega
    have hd := List.find?_some h
    refine ⟨fun i hi => (hint i).1 ?_, (hopen d).1 (by simpa using hd)⟩
    by_contra hcl
    exact hi (countP_finRange_eq_one hone (p := fun i => !v.clamped i) (by simpa using hcl) hd)
  · rintro ⟨h1, h2⟩
    have hd : v.clamped d = false := (hopen d).2 h2
    have hother : ∀ i, i ≠ d → v.clamped i = true := fun i hi => (hint i).2 (h1 i hi)
    have hone : (List.finRange D).countP (fun i => !v.clamped i) = 1 := by
      have e1 : (fun i => !v.clamped i) = fun i => i == d := by
        funext i
        by_cases hi : i = d
        · subst hi; simp [hd]
        · simp [hi, hother i hi]
      rw [e1]
      exact List.count_eq_one_of_mem (List.nodup_finRange D) (List.mem_finRange d)
    rw [if_pos (by omega)]
    rw [List.find?_eq_some_iff_append]
    refine ⟨by simp [hd], ?_⟩
    obtain ⟨s, t, hst⟩ := List.append_of_mem (List.mem_finRange d)
    refine ⟨s, t, hst, ?_⟩
    intro i hi
    have hne : i ≠ d := by
      rintro rfl
      have := List.nodup_finRange D
      rw [hst, List.nodup_append] at this
      exact this.2.2 _ hi _ (by simp) rfl
    simp [hother i hne]

/-- inserting a functional list of entries. -/
theorem foldl_insertNew {K V : Type*} {lt : K → K → Bool} (hST : StrictTotal lt) (l m : List (K × V))
    (hm : OMap.Sorted lt m)
    (hfun : ∀ k v v', ((k, v) ∈ m ∨ (k, v) ∈ l) → ((k, v') ∈ m ∨ (k, v') ∈ l) → v = v') :
    OMap.Sorted lt (l.foldl (fun m p => OMap.insertNew lt p.1 p.2 m) m) ∧
    ∀ k v, (k, v) ∈ l.foldl (fun m p => OMap.insertNew lt p.1 p.2 m) m ↔ (k, v) ∈ m ∨ (k, v) ∈ l := by
  induction l generalizing m with
  | nil => exact ⟨hm, by simp⟩
  | cons p l ih =>
    obtain ⟨k0, v0⟩ := p
    rw [List.foldl_cons]
    have hmem : ∀ k v, (k, v) ∈ OMap.insertNew lt k0 v0 m ↔ (k, v) ∈ m ∨ (k = k0 ∧ v = v0) := by
      intro k v
      unfold OMap.insertNew
      rw [OMap.mem_alter hST hm]
      cases hf : OMap.find lt k0 m with
      | none =>
        have hno := (OMap.find_none_iff hST hm).1 hf
        simp only [Option.getD_none]
        constructor
        · rintro (⟨_, h⟩ | h)
          · exact Or.inl h
          · exact Or.inr h
        · rintro (h | h)
          · refine Or.inl ⟨?_, h⟩; rintro rfl; exact hno _ h
          · exact Or.inr h
      | some w =>
        have hw := OMap.mem_of_find hST hf
        have hwv : w = v0 := hfun k0 w v0 (Or.inl hw) (Or.inr (by simp))
        subst hwv
        simp only [Option.getD_some]
        constructor
        · rintro (⟨_, h⟩ | h)
          · exact Or.inl h
          · exact Or.inr h
        · rintro (h | h)
          · by_cases hk : k = k0
            · subst hk; right; exact ⟨rfl, hfun k v w (Or.inl h) (Or.inl hw)⟩
            · exact Or.inl ⟨hk, h⟩
          · exact Or.inr h
    have hs' : OMap.Sorted lt (OMap.insertNew lt k0 v0 m) := OMap.sorted_alter hST hm
    have hback : ∀ k v, ((k, v) ∈ OMap.insertNew lt k0 v0 m ∨ (k, v) ∈ l) →
        ((k, v) ∈ m ∨ (k, v) ∈ (k0, v0) :: l) := by
      intro k v h
      rw [hmem] at h
      simp only [List.mem_cons, Prod.mk.injEq]
      tauto
    obtain ⟨r1, r2⟩ := ih _ hs' fun k v v' h h' => hfun k v v' (hback k v h) (hback k v' h')
    refine ⟨r1, fun k v => ?_⟩
    rw [r2, hmem]
    simp only [List.mem_cons, Prod.mk.injEq]
    tauto

/-- the recorded crossings of one grid edge. -/
def edgeCrossings (s : AxisStore D) (c : Coord D) : List (ℚ × ℤ) := (OMap.find coordLtB c s).getD []

/-- indices agree with positions. -/
def IndexConsistent (cs : List (CrossingI D)) : Prop :=
  ∀ x ∈ cs, ∀ y ∈ cs, x.index = y.index ↔ x.v.p = y.v.p

theorem perAxis_spec (cs : List (CrossingI D)) (hN : ∀ x ∈ cs, Normalised x.v)
    (hF : ∀ x ∈ cs, FlagsExact x.v) (hI : IndexConsistent cs) (j : Fin D) :
    OMap.Sorted coordLtB (perAxis cs j) ∧
    (∀ c, (∃ es, (c, es) ∈ perAxis cs j) ↔ ∃ x ∈ cs, OnOpenEdge c j x.v.p) ∧
    ∀ c, OMap.Sorted ratLt (edgeCrossings (perAxis cs j) c) ∧
      ∀ t i, (t, i) ∈ edgeCrossings (perAxis cs j) c ↔
        ∃ x ∈ cs, OnOpenEdge c j x.v.p ∧ x.v.p j = (c j : ℚ) + t ∧ x.index = i := by
  have hST := strictTotal_coordLtB (D := D)
  -- geometry of membership
  have hcoord : ∀ x ∈ cs, ∀ c, OnOpenEdge c j x.v.p → x.v.coord = c := by
    intro x hx c h
    funext i
    rw [Vertex.normalised_coord _ (hN x hx) i]
    by_cases hi : i = j
    · subst hi
      rw [Int.floor_eq_iff]; exact ⟨h.2.1.le, h.2.2⟩
    · rw [h.1 i hi, Int.floor_intCast]
  have hub : ∀ x ∈ cs, ∀ c, (unboundAxis x.v = some j ∧ x.v.coord = c) ↔ OnOpenEdge c j x.v.p := by
    intro x hx c
    rw [unboundAxis_iff _ (hN x hx) (hF x hx)]
    constructor
    · rintro ⟨h, rfl⟩; exact h
    · intro h
      have := hcoord x hx c h
      exact ⟨by rw [this]; exact h, this⟩
  have gen : ∀ (l pre : List (CrossingI D)) (s : AxisStore D), (∀ x ∈ pre ++ l, x ∈ cs) →
      OMap.Sorted coordLtB s →
      (∀ c, (∃ es, (c, es) ∈ s) ↔ ∃ x ∈ pre, OnOpenEdge c j x.v.p) →
      (∀ c, OMap.Sorted ratLt (edgeCrossings s c) ∧ ∀ t i, (t, i) ∈ edgeCrossings s c ↔
        ∃ x ∈ pre, OnOpenEdge c j x.v.p ∧ x.v.p j = (c j : ℚ) + t ∧ x.index = i) →
      (OMap.Sorted coordLtB (l.foldl (perAxisStep j) s) ∧
        (∀ c, (∃ es, (c, es) ∈ l.foldl (perAxisStep j) s) ↔ ∃ x ∈ pre ++ l, OnOpenEdge c j x.v.p) ∧
        ∀ c, OMap.Sorted ratLt (edgeCrossings (l.foldl (perAxisStep j) s) c) ∧
          ∀ t i, (t, i) ∈ edgeCrossings (l.foldl (perAxisStep j) s) c ↔
            ∃ x ∈ pre ++ l, OnOpenEdge c j x.v.p ∧ x.v.p j = (c j : ℚ) + t ∧ x.index = i) := by
    intro l
    induction l with
    | nil => intro pre s _ h1 h2 h3; simpa using ⟨h1, h2, h3⟩
    | cons x l ih =>
      intro pre s hin h1 h2 h3
      rw [List.foldl_cons]
      have hx : x ∈ cs := hin x (by simp)
      have hstep : OMap.Sorted coordLtB (perAxisStep j s x) ∧
          (∀ c, (∃ es, (c, es) ∈ perAxisStep j s x) ↔ ∃ y ∈ pre ++ [x], OnOpenEdge c j y.v.p) ∧
          (∀ c, OMap.Sorted ratLt (edgeCrossings (perAxisStep j s x) c) ∧
            ∀ t i, (t, i) ∈ edgeCrossings (perAxisStep j s x) c ↔
            ∃ y ∈ pre ++ [x], OnOpenEdge c j y.v.p ∧ y.v.p j = (c j : ℚ) + t ∧ y.index = i) := by
        unfold perAxisStep
        by_cases hu : unboundAxis x.v = some j
        · rw [if_pos hu]
          have hon : OnOpenEdge x.v.coord j x.v.p := (hub x hx _).1 ⟨hu, rfl⟩
          refine ⟨OMap.sorted_alter hST h1, fun c => ?_, fun c => ?_⟩
          · constructor
            · rintro ⟨es, hes⟩
              rcases (OMap.mem_alter hST h1).1 hes with ⟨_, h⟩ | ⟨h, _⟩
              · obtain ⟨y, hy, hy'⟩ := (h2 c).1 ⟨es, h⟩
                exact ⟨y, by simp [hy], hy'⟩
              · subst h; exact ⟨x, by simp, hon⟩
            · rintro ⟨y, hy, hy'⟩
              by_cases hc : c = x.v.coord
              · exact ⟨_, (OMap.mem_alter hST h1).2 (Or.inr ⟨hc, rfl⟩)⟩
              · rcases List.mem_append.1 hy with hy | hy
                · obtain ⟨es, hes⟩ := (h2 c).2 ⟨y, hy, hy'⟩
                  exact ⟨es, (OMap.mem_alter hST h1).2 (Or.inl ⟨hc, hes⟩)⟩
                · rw [List.mem_singleton] at hy; subst hy
                  exact absurd (hcoord y hx c hy').symm hc
          · have hfind : edgeCrossings (OMap.alter coordLtB x.v.coord
                (fun o => OMap.insertNew ratLt (x.v.quot j) x.index (o.getD [])) s) c =
                if c = x.v.coord then OMap.insertNew ratLt (x.v.quot j) x.index (edgeCrossings s c)
                else edgeCrossings s c := by
              unfold edgeCrossings
              rw [OMap.find_alter hST h1]
              split_ifs with hc
              · subst hc; simp
              · rfl
            rw [hfind]
            by_cases hc : c = x.v.coord
            · rw [if_pos hc]
              subst hc
              obtain ⟨g1, g2⟩ := h3 x.v.coord
              have hq : x.v.p j = (x.v.coord j : ℚ) + x.v.quot j := rfl
              have hfn := foldl_insertNew strictTotal_ratLt [(x.v.quot j, x.index)] (edgeCrossings s x.v.coord)
                g1 (by
                  have key : ∀ k v, ((k, v) ∈ edgeCrossings s x.v.coord ∨ (k, v) ∈ [(x.v.quot j, x.index)]) →
                      ∃ y ∈ cs, OnOpenEdge x.v.coord j y.v.p ∧ y.v.p j = (x.v.coord j : ℚ) + k ∧ y.index = v := by
                    intro k v h
                    rcases h with h | h
                    · obtain ⟨y, hy, hy'⟩ := (g2 k v).1 h
                      exact ⟨y, hin y (by simp [hy]), hy'⟩
                    · simp only [List.mem_singleton, Prod.mk.injEq] at h
                      exact ⟨x, hx, hon, by rw [h.1]; exact hq, h.2.symm⟩
                  intro k v v' h h'
                  obtain ⟨y, hy, o1, p1, i1⟩ := key k v h
                  obtain ⟨y', hy', o2, p2, i2⟩ := key k v' h'
                  rw [← i1, ← i2, hI y hy y' hy']
                  funext i
                  by_cases hi : i = j
                  · subst hi; rw [p1, p2]
                  · rw [o1.1 i hi, o2.1 i hi])
              simp only [List.foldl_cons, List.foldl_nil] at hfn
              refine ⟨hfn.1, fun t i => ?_⟩
              rw [hfn.2, g2]
              simp only [List.mem_append, List.mem_singleton, Prod.mk.injEq]
              constructor
              · rintro (⟨y, hy, h⟩ | ⟨rfl, rfl⟩)
                · exact ⟨y, Or.inl hy, h⟩
                · exact ⟨x, Or.inr rfl, hon, hq, rfl⟩
              · rintro ⟨y, hy | rfl, h⟩
                · exact Or.inl ⟨y, hy, h⟩
                · right
                  obtain ⟨_, h5, h6⟩ := h
                  rw [hq] at h5
                  exact ⟨by linarith, h6.symm⟩
            · rw [if_neg hc]
              refine ⟨(h3 c).1, fun t i => ?_⟩
              rw [(h3 c).2]
              constructor
              · rintro ⟨y, hy, h⟩; exact ⟨y, by simp [hy], h⟩
              · rintro ⟨y, hy, h⟩
                rcases List.mem_append.1 hy with hy | hy
                · exact ⟨y, hy, h⟩
                · rw [List.mem_singleton] at hy; subst hy
                  exact absurd (hcoord y hx c h.1).symm hc
        · rw [if_neg hu]
          have hno : ∀ c, ¬ OnOpenEdge c j x.v.p := fun c h => hu ((hub x hx c).2 h).1
          refine ⟨h1, fun c => ?_, fun c => ⟨(h3 c).1, fun t i => ?_⟩⟩
          · rw [h2]
            constructor
            · rintro ⟨y, hy, h⟩; exact ⟨y, by simp [hy], h⟩
            · rintro ⟨y, hy, h⟩
              rcases List.mem_append.1 hy with hy | hy
              · exact ⟨y, hy, h⟩
              · rw [List.mem_singleton] at hy; subst hy; exact absurd h (hno c)
          · rw [(h3 c).2]
            constructor
            · rintro ⟨y, hy, h⟩; exact ⟨y, by simp [hy], h⟩
            · rintro ⟨y, hy, h⟩
              rcases List.mem_append.1 hy with hy | hy
              · exact ⟨y, hy, h⟩
              · rw [List.mem_singleton] at hy; subst hy; exact absurd h.1 (hno c)
      have := ih (pre ++ [x]) _ (by simpa using hin) hstep.1 hstep.2.1 hstep.2.2
      simpa using this
  have := gen cs [] [] (by simp) OMap.sorted_nil (by simp) (by
    intro c; simp [edgeCrossings, OMap.find, OMap.Sorted])
  simpa [perAxis] using this

theorem touchEdge_spec (s : AxisStore D) (hs : OMap.Sorted coordLtB s) (a : Coord D) :
    OMap.Sorted coordLtB (touchEdge s a) ∧ (∀ c, edgeCrossings (touchEdge s a) c = edgeCrossings s c) ∧
    ∀ c, (∃ es, (c, es) ∈ touchEdge s a) ↔ (∃ es, (c, es) ∈ s) ∨ c = a := by
  have hST := strictTotal_coordLtB (D := D)
  refine ⟨OMap.sorted_alter hST hs, fun c => ?_, fun c => ?_⟩
  · unfold edgeCrossings touchEdge
    rw [OMap.find_alter hST hs]
    split_ifs with h
    · subst h; simp
    · rfl
  · unfold touchEdge
    constructor
    · rintro ⟨es, hes⟩
      rcases (OMap.mem_alter hST hs).1 hes with ⟨_, h⟩ | ⟨h, _⟩
      · exact Or.inl ⟨es, h⟩
      · exact Or.inr h
    · rintro (⟨es, hes⟩ | h)
      · by_cases hc : c = a
        · exact ⟨_, (OMap.mem_alter hST hs).2 (Or.inr ⟨hc, rfl⟩)⟩
        · exact ⟨es, (OMap.mem_alter hST hs).2 (Or.inl ⟨hc, hes⟩)⟩
      · exact ⟨_, (OMap.mem_alter hST hs).2 (Or.inr ⟨h, rfl⟩)⟩

theorem mem_boundaryCellVertices (N : Fin D) (c a : Coord D) :
    a ∈ boundaryCellVertices N c ↔ a N = c N ∧ ∀ j, a j = c j ∨ a j = c j + 1 := by
  unfold boundaryCellVertices
  have hpow : 2 * 2 ^ (D - 1) = 2 ^ D := by
    have := N.pos
    conv_rhs => rw [show D = (D - 1) + 1 by omega, pow_succ]
    ring
  rw [hpow]
  simp only [List.mem_map, List.mem_filter, List.mem_range]
  constructor
  · rintro ⟨i, ⟨_, hN⟩, rfl⟩
    refine ⟨by simp at hN; simp [hN], fun j => ?_⟩
    cases i.testBit j.val <;> simp
  · rintro ⟨h1, h2⟩
    refine ⟨Nat.ofBits fun j : Fin D => decide (a j = c j + 1), ⟨Nat.ofBits_lt_two_pow _, ?_⟩, ?_⟩
    · rw [Nat.testBit_ofBits_lt _ _ N.isLt]; simp [h1]
    · funext j
      rw [Nat.testBit_ofBits_lt _ _ j.isLt]
      rcases h2 j with h | h <;> simp [h]

theorem storeWithGrid_spec (cellShape : Coord D) (ac : List (Coord D)) (cs : List (CrossingI D)) (d : Fin D)
    (hs : OMap.Sorted coordLtB (perAxis cs d)) :
    OMap.Sorted coordLtB (storeWithGrid cellShape ac cs d) ∧
    (∀ c, edgeCrossings (storeWithGrid cellShape ac cs d) c = edgeCrossings (perAxis cs d) c) ∧
    ∀ a, (∃ es, (a, es) ∈ storeWithGrid cellShape ac cs d) ↔ (∃ es, (a, es) ∈ perAxis cs d) ∨
      ∃ c ∈ ac, ValidIndex cellShape c = true ∧ a ∈ boundaryCellVertices d c := by
  unfold storeWithGrid
  have inner : ∀ (l : List (Coord D)) (s : AxisStore D), OMap.Sorted coordLtB s →
      OMap.Sorted coordLtB (l.foldl touchEdge s) ∧
      (∀ c, edgeCrossings (l.foldl touchEdge s) c = edgeCrossings s c) ∧
      ∀ a, (∃ es, (a, es) ∈ l.foldl touchEdge s) ↔ (∃ es, (a, es) ∈ s) ∨ a ∈ l := by
    intro l
    induction l with
    | nil => intro s h; simp [h]
    | cons x l ih =>
      intro s h
      obtain ⟨t1, t2, t3⟩ := touchEdge_spec s h x
      obtain ⟨r1, r2, r3⟩ := ih _ t1
      rw [List.foldl_cons]
      refine ⟨r1, fun c => (r2 c).trans (t2 c), fun a => ?_⟩
      rw [r3, t3, List.mem_cons]; tauto
  generalize perAxis cs d = s at hs
  induction ac generalizing s with
  | nil => simp [hs]
  | cons x l ih =>
    rw [List.foldl_cons]
    by_cases hx : ValidIndex cellShape x = true
    · rw [if_pos hx]
      obtain ⟨t1, t2, t3⟩ := inner (boundaryCellVertices d x) s hs
      obtain ⟨r1, r2, r3⟩ := ih _ t1
      refine ⟨r1, fun c => (r2 c).trans (t2 c), fun a => ?_⟩
      rw [r3, t3]
      simp only [List.mem_cons, exists_eq_or_imp, hx, true_and]
      tauto
    · rw [if_neg hx]
      obtain ⟨r1, r2, r3⟩ := ih s hs
      refine ⟨r1, r2, fun a => ?_⟩
      rw [r3]
      simp only [List.mem_cons, exists_eq_or_imp, hx]
      tauto

theorem edgeOrdered_eq (v0 v1 : ℤ) (es : List (ℚ × ℤ)) (hs : OMap.Sorted ratLt es)
    (h01 : ∀ p ∈ es, 0 < p.1 ∧ p.1 < 1) : edgeOrdered v0 v1 es = (0, v0) :: es ++ [(1, v1)] := by
  have hST := strictTotal_ratLt
  have hbase : OMap.assign ratLt 1 v1 (OMap.assign ratLt 0 v0 []) = [(0, v0), (1, v1)] := by
    simp [OMap.assign, OMap.alter, ratLt]
  unfold edgeOrdered
  rw [hbase]
  have hbs : OMap.Sorted ratLt [((0 : ℚ), v0), ((1 : ℚ), v1)] := by simp [OMap.Sorted, ratLt]
  have hfun : ∀ k v v', ((k, v) ∈ [((0 : ℚ), v0), ((1 : ℚ), v1)] ∨ (k, v) ∈ es) →
      ((k, v') ∈ [((0 : ℚ), v0), ((1 : ℚ), v1)] ∨ (k, v') ∈ es) → v = v' := by
    intro k v v' h h'
    simp only [List.mem_cons, Prod.mk.injEq, List.not_mem_nil, or_false] at h h'
    rcases h with (⟨h1, h2⟩ | ⟨h1, h2⟩) | h <;> rcases h' with (⟨h1', h2'⟩ | ⟨h1', h2'⟩) | h'
    · rw [h2, h2']
    · rw [h1] at h1'; norm_num at h1'
    · have := (h01 _ h').1; simp only at this; rw [h1] at this; norm_num at this
    · rw [h1] at h1'; norm_num at h1'
    · rw [h2, h2']
    · have := (h01 _ h').2; simp only at this; rw [h1] at this; norm_num at this
    · have := (h01 _ h).1; simp only at this; rw [h1'] at this; norm_num at this
    · have := (h01 _ h).2; simp only at this; rw [h1'] at this; norm_num at this
    · exact OMap.sorted_unique hST hs h h'
  obtain ⟨r1, r2⟩ := foldl_insertNew hST es _ hbs hfun
  apply OMap.sorted_ext hST r1
  · rw [OMap.Sorted, List.cons_append, List.pairwise_cons, List.pairwise_append]
    refine ⟨?_, hs, by simp, ?_⟩
    · intro p hp
      simp only [ratLt, decide_eq_true_eq]
      rcases List.mem_append.1 hp with hp | hp
      · exact (h01 p hp).1
      · simp only [List.mem_singleton] at hp; rw [hp]; norm_num
    · intro p hp q hq
      simp only [List.mem_singleton] at hq
      simp only [ratLt, decide_eq_true_eq, hq]; exact (h01 p hp).2
  · rintro ⟨k, v⟩
    rw [r2]
    simp only [List.mem_cons, List.not_mem_nil, List.mem_append, List.cons_append, or_false]
    tauto

/-- **C19.** For every grid edge handled by `bake_edges` (first grid vertex `c`, axis `d`), the pieces pushed
are the consecutive pairs of a list of (position along the edge, vertex index) which starts at the first
grid vertex at 0, ends at the second at 1, is strictly increasing, and between them contains exactly the
crossings in the interior of that edge; the piece lengths are positive and add to one; no piece is lost. -/
theorem C19_grid_edge_path {shape : Coord D} (G : GridIndexer shape) (cellShape : Coord D)
    (ac : List (Coord D)) (cs : List (CrossingI D))
    (hN : ∀ x ∈ cs, Normalised x.v) (hF : ∀ x ∈ cs, FlagsExact x.v) (hI : IndexConsistent cs)
    (hnew : ∀ x ∈ cs, ¬ IsGridPoint x.v.p → G.size ≤ x.index)
    (d : Fin D) (c : Coord D) (es : List (ℚ × ℤ)) (hc : (c, es) ∈ storeWithGrid cellShape ac cs d)
    (hv0 : ValidIndex shape c = true) (hv1 : ValidIndex shape (Function.update c d (c d + 1)) = true) :
    let v0 := G.idx c
    let v1 := G.idx (Function.update c d (c d + 1))
    ∃ ps : List (ℚ × ℤ),
      ps.head? = some (0, v0) ∧ ps.getLast? = some (1, v1) ∧ ps.Pairwise (fun a b => a.1 < b.1) ∧
      (∀ t i, (t, i) ∈ ps ↔ (t, i) = (0, v0) ∨ (t, i) = (1, v1) ∨
        ∃ x ∈ cs, OnOpenEdge c d x.v.p ∧ x.v.p d = (c d : ℚ) + t ∧ x.index = i) ∧
      gridEdgePieces v0 v1 es = (ps.zip ps.tail).map (fun e => (e.1.2, e.2.2)) ∧
      (∀ e ∈ ps.zip ps.tail, e.1.1 < e.2.1) ∧
      ((ps.zip ps.tail).map fun e => e.2.1 - e.1.1).sum = 1 := by
  intro v0 v1
  obtain ⟨p1, p2, p3⟩ := perAxis_spec cs hN hF hI d
  obtain ⟨s1, s2, s3⟩ := storeWithGrid_spec cellShape ac cs d p1
  have hes : es = edgeCrossings (perAxis cs d) c := by
    rw [← s2 c]
    unfold edgeCrossings
    rw [OMap.find_of_mem strictTotal_coordLtB s1 hc]; rfl
  obtain ⟨q1, q2⟩ := p3 c
  rw [← hes] at q1 q2
  have h01 : ∀ p ∈ es, 0 < p.1 ∧ p.1 < 1 := by
    rintro ⟨t, i⟩ hp
    obtain ⟨x, _, ho, hp', _⟩ := (q2 t i).1 hp
    have := ho.2
    rw [hp'] at this
    simp only
    constructor <;> linarith [this.1, this.2]
  have heq := edgeOrdered_eq v0 v1 es q1 h01
  have hsort : ((0, v0) :: es ++ [(1, v1)] : List (ℚ × ℤ)).Pairwise (fun a b => a.1 < b.1) := by
    rw [List.cons_append, List.pairwise_cons, List.pairwise_append]
    refine ⟨?_, ?_, by simp, ?_⟩
    · intro p hp
      rcases List.mem_append.1 hp with hp | hp
      · exact (h01 p hp).1
      · simp only [List.mem_singleton] at hp; rw [hp]; norm_num
    · exact q1.imp fun h => by simpa [ratLt] using h
    · intro p hp q hq
      simp only [List.mem_singleton] at hq; rw [hq]; exact (h01 p hp).2
  have hmem : ∀ t i, (t, i) ∈ ((0, v0) :: es ++ [(1, v1)] : List (ℚ × ℤ)) ↔ (t, i) = (0, v0) ∨ (t, i) = (1, v1) ∨
        ∃ x ∈ cs, OnOpenEdge c d x.v.p ∧ x.v.p d = (c d : ℚ) + t ∧ x.index = i := by
    intro t i
    rw [← q2]
    simp only [List.mem_append, List.mem_cons, List.not_mem_nil, or_false]
    tauto
  -- different positions have different indices
  have hidx : ∀ p ∈ ((0, v0) :: es ++ [(1, v1)] : List (ℚ × ℤ)),
      ∀ q ∈ ((0, v0) :: es ++ [(1, v1)] : List (ℚ × ℤ)), p.1 < q.1 → p.2 ≠ q.2 := by
    have hb0 := G.bound _ hv0
    have hb1 := G.bound _ hv1
    have hv01 : v0 ≠ v1 := by
      intro h
      have h1 := congrFun (G.inj _ _ hv0 hv1 h) d
      simp at h1
    have hbig : ∀ x ∈ cs, OnOpenEdge c d x.v.p → G.size ≤ x.index := by
      intro x hx ho
      refine hnew x hx fun hg => ?_
      obtain ⟨n, hn⟩ := hg d
      have h1 := ho.2
      rw [hn] at h1
      have h2 : c d < n := by exact_mod_cast h1.1
      have h3 : n < c d + 1 := by exact_mod_cast h1.2
      omega
    rintro ⟨t, i⟩ hp ⟨t', i'⟩ hq hlt
    simp only at hlt ⊢
    rcases (hmem t i).1 hp with h | h | ⟨x, hx, ho, hpx, hix⟩ <;>
      rcases (hmem t' i').1 hq with h' | h' | ⟨x', hx', ho', hpx', hix'⟩
    · simp only [Prod.mk.injEq] at h h'; rw [h.1, h'.1] at hlt; norm_num at hlt
    · simp only [Prod.mk.injEq] at h h'; rw [h.2, h'.2]; exact hv01
    · simp only [Prod.mk.injEq] at h; rw [h.2, ← hix']; have := hbig x' hx' ho'
      change 0 ≤ v0 ∧ v0 < G.size at hb0; omega
    · simp only [Prod.mk.injEq] at h h'; rw [h.1, h'.1] at hlt; norm_num at hlt
    · simp only [Prod.mk.injEq] at h h'; rw [h.1, h'.1] at hlt; norm_num at hlt
    · simp only [Prod.mk.injEq] at h; rw [h.2, ← hix']; have := hbig x' hx' ho'
      change 0 ≤ v1 ∧ v1 < G.size at hb1; omega
    · simp only [Prod.mk.injEq] at h'; rw [h'.2, ← hix]; have := hbig x hx ho
      change 0 ≤ v0 ∧ v0 < G.size at hb0; omega
    · simp only [Prod.mk.injEq] at h'; rw [h'.2, ← hix]; have := hbig x hx ho
      change 0 ≤ v1 ∧ v1 < G.size at hb1; omega
    · intro he
      have hpp := (hI x hx x' hx').1 (by rw [hix, hix', he])
      rw [hpp, hpx'] at hpx
      linarith
  refine ⟨(0, v0) :: es ++ [(1, v1)], rfl, List.getLast?_concat, hsort, hmem, ?_, ?_, ?_⟩
  · unfold gridEdgePieces
    rw [heq, intervals_map]
    have : (intervals ((0, v0) :: es ++ [(1, v1)])).map (Prod.map Prod.snd Prod.snd) =
        (intervals ((0, v0) :: es ++ [(1, v1)])).map fun e => (e.1.2, e.2.2) := rfl
    rw [this, List.filter_eq_self.2]
    · rfl
    · intro e he
      obtain ⟨⟨x, y⟩, hxy, rfl⟩ := List.mem_map.1 he
      obtain ⟨h1, h2, h3, _⟩ := intervals_mem hsort hxy
      simpa using hidx x h2 y h3 h1
  · rintro ⟨x, y⟩ hxy
    exact (intervals_mem hsort hxy).1
  · have h1 := telescope (es.map Prod.fst) 0 1
    have h2 : (0 : ℚ) :: es.map Prod.fst ++ [1] = ((0, v0) :: es ++ [(1, v1)]).map Prod.fst := by simp
    rw [h2, intervals_map, List.map_map] at h1
    rw [sub_zero] at h1
    exact h1

/-- **C19, which grid edges.** The grid edges handled are those carrying a crossing in their interior and
those of the active cells inside the grid. -/
theorem C19_handled_edges (cellShape : Coord D) (ac : List (Coord D)) (cs : List (CrossingI D))
    (hN : ∀ x ∈ cs, Normalised x.v) (hF : ∀ x ∈ cs, FlagsExact x.v) (hI : IndexConsistent cs)
    (d : Fin D) (a : Coord D) :
    (∃ es, (a, es) ∈ storeWithGrid cellShape ac cs d) ↔
      (∃ x ∈ cs, OnOpenEdge a d x.v.p) ∨
      ∃ c ∈ ac, (∀ i, 0 ≤ c i ∧ c i < cellShape i) ∧ a d = c d ∧ ∀ j, a j = c j ∨ a j = c j + 1 := by
  obtain ⟨p1, p2, _⟩ := perAxis_spec cs hN hF hI d
  obtain ⟨_, _, s3⟩ := storeWithGrid_spec cellShape ac cs d p1
  rw [s3, p2]
  simp only [validIndex_iff, mem_boundaryCellVertices]

/-- **C19, order independence.** The pieces of each axis do not depend on the order in which the crossings
are stored, nor on the order of the active cells. -/
theorem C19_order_independent (vidx : Coord D → ℤ) (cellShape : Coord D) (ac ac' : List (Coord D))
    (cs cs' : List (CrossingI D)) (hac : ∀ c, c ∈ ac ↔ c ∈ ac') (hcs : ∀ x, x ∈ cs ↔ x ∈ cs')
    (hN : ∀ x ∈ cs, Normalised x.v) (hF : ∀ x ∈ cs, FlagsExact x.v) (hI : IndexConsistent cs) (d : Fin D) :
    bakeEdgesAxis vidx cellShape d (storeWithGrid cellShape ac cs d) =
      bakeEdgesAxis vidx cellShape d (storeWithGrid cellShape ac' cs' d) := by
  have hN' : ∀ x ∈ cs', Normalised x.v := fun x hx => hN x ((hcs x).2 hx)
  have hF' : ∀ x ∈ cs', FlagsExact x.v := fun x hx => hF x ((hcs x).2 hx)
  have hI' : IndexConsistent cs' := fun x hx y hy => hI x ((hcs x).2 hx) y ((hcs y).2 hy)
  obtain ⟨p1, p2, p3⟩ := perAxis_spec cs hN hF hI d
  obtain ⟨p1', p2', p3'⟩ := perAxis_spec cs' hN' hF' hI' d
  obtain ⟨s1, s2, s3⟩ := storeWithGrid_spec cellShape ac cs d p1
  obtain ⟨s1', s2', s3'⟩ := storeWithGrid_spec cellShape ac' cs' d p1'
  have hST := strictTotal_coordLtB (D := D)
  have hec : ∀ c, edgeCrossings (storeWithGrid cellShape ac cs d) c =
      edgeCrossings (storeWithGrid cellShape ac' cs' d) c := by
    intro c
    rw [s2, s2']
    apply OMap.sorted_ext strictTotal_ratLt (p3 c).1 (p3' c).1
    rintro ⟨t, i⟩
    rw [(p3 c).2, (p3' c).2]
    simp only [hcs]
  have hkeys : ∀ c, (∃ es, (c, es) ∈ storeWithGrid cellShape ac cs d) ↔
      ∃ es, (c, es) ∈ storeWithGrid cellShape ac' cs' d := by
    intro c
    rw [s3, s3', p2, p2']
    simp only [hcs, hac]
  have : storeWithGrid cellShape ac cs d = storeWithGrid cellShape ac' cs' d := by
    apply OMap.sorted_ext hST s1 s1'
    rintro ⟨c, es⟩
    constructor
    · intro h
      obtain ⟨es', h'⟩ := (hkeys c).1 ⟨es, h⟩
      have e := hec c
      unfold edgeCrossings at e
      rw [OMap.find_of_mem hST s1 h, OMap.find_of_mem hST s1' h'] at e
      simp only [Option.getD_some] at e
      rw [e]; exact h'
    · intro h
      obtain ⟨es', h'⟩ := (hkeys c).2 ⟨es, h⟩
      have e := hec c
      unfold edgeCrossings at e
      rw [OMap.find_of_mem hST s1 h', OMap.find_of_mem hST s1' h] at e
      simp only [Option.getD_some] at e
      rw [← e]; exact h'
  rw [this]

/-- **C19.** All pieces generated along axis `d`, in order: for each edge of the grid (first grid vertex `c`) that bounds an
active cell or contains a crossing, and for no other, the consecutive pairs of the path of `C19_grid_edge_path`, each with
the mask that is bound to `c` along the other axes and free along `d`. -/
theorem C19_all_pieces {shape : Coord D} (G : GridIndexer shape) (cellShape : Coord D) (hshape : ∀ i, shape i = cellShape i + 1)
    (ac : List (Coord D)) (cs : List (CrossingI D))
    (hN : ∀ x ∈ cs, Normalised x.v) (hF : ∀ x ∈ cs, FlagsExact x.v) (hI : IndexConsistent cs)
    (hnew : ∀ x ∈ cs, ¬ IsGridPoint x.v.p → G.size ≤ x.index) (d : Fin D) :
    ∃ L : List (Coord D × List (ℚ × ℤ)), (L.map Prod.fst).Nodup ∧
      (∀ c, c ∈ L.map Prod.fst ↔ ((∀ i, 0 ≤ c i ∧ c i ≤ cellShape i) ∧ c d < cellShape d) ∧
        ((∃ x ∈ cs, OnOpenEdge c d x.v.p) ∨
          ∃ a ∈ ac, (∀ i, 0 ≤ a i ∧ a i < cellShape i) ∧ c d = a d ∧ ∀ j, c j = a j ∨ c j = a j + 1)) ∧
      (∀ q ∈ L, q.2.head? = some (0, G.idx q.1) ∧ q.2.getLast? = some (1, G.idx (Function.update q.1 d (q.1 d + 1))) ∧
        q.2.Pairwise (fun a b => a.1 < b.1) ∧
        ∀ t i, (t, i) ∈ q.2 ↔ (t, i) = (0, G.idx q.1) ∨ (t, i) = (1, G.idx (Function.update q.1 d (q.1 d + 1))) ∨
          ∃ x ∈ cs, OnOpenEdge q.1 d x.v.p ∧ x.v.p d = (q.1 d : ℚ) + t ∧ x.index = i) ∧
      bakeEdgesAxis G.idx cellShape d (storeWithGrid cellShape ac cs d) = L.flatMap fun q =>
        (q.2.zip q.2.tail).map fun e => ((fun k => if k = d then none else some (q.1 k)), (e.1.2, e.2.2)) := by
  classical
  have hvalid : ∀ c : Coord D, ValidIndex (edgeShape cellShape d) c = true ↔
      (∀ i, 0 ≤ c i ∧ c i ≤ cellShape i) ∧ c d < cellShape d := by
    intro c
    rw [validIndex_iff]
    unfold edgeShape
    constructor
    · intro h
      refine ⟨fun i => ?_, ?_⟩
      · have := h i
        split_ifs at this <;> omega
      · have := h d
        rw [if_pos rfl] at this
        omega
    · rintro ⟨h1, h2⟩ i
      have := h1 i
      by_cases hi : i = d
      · subst hi; rw [if_pos rfl]; omega
      · rw [if_neg hi]; omega
  let Q : Coord D × List (ℚ × ℤ) → List (ℚ × ℤ) → Prop := fun p ps =>
      ps.head? = some (0, G.idx p.1) ∧ ps.getLast? = some (1, G.idx (Function.update p.1 d (p.1 d + 1))) ∧
        ps.Pairwise (fun a b => a.1 < b.1) ∧
        (∀ t i, (t, i) ∈ ps ↔ (t, i) = (0, G.idx p.1) ∨ (t, i) = (1, G.idx (Function.update p.1 d (p.1 d + 1))) ∨
          ∃ x ∈ cs, OnOpenEdge p.1 d x.v.p ∧ x.v.p d = (p.1 d : ℚ) + t ∧ x.index = i) ∧
        gridEdgePieces (G.idx p.1) (G.idx (Function.update p.1 d (p.1 d + 1))) p.2 = (ps.zip ps.tail).map (fun e => (e.1.2, e.2.2))
  have hQ : ∀ p ∈ storeWithGrid cellShape ac cs d, ValidIndex (edgeShape cellShape d) p.1 = true → ∃ ps, Q p ps := by
    intro p hp hv
    obtain ⟨h1, h2⟩ := (hvalid p.1).1 hv
    obtain ⟨ps, e1, e2, e3, e4, e5, _⟩ := C19_grid_edge_path G cellShape ac cs hN hF hI hnew d p.1 p.2 hp
      ((validIndex_iff _ _).2 fun i => by rw [hshape]; have := h1 i; omega)
      ((validIndex_iff _ _).2 fun i => by
        rw [hshape]
        have := h1 i
        by_cases hi : i = d
        · subst hi; rw [Function.update_self]; omega
        · rw [Function.update_of_ne hi]; omega)
    exact ⟨ps, e1, e2, e3, e4, e5⟩
  let psOf : Coord D × List (ℚ × ℤ) → List (ℚ × ℤ) := fun p => if h : ∃ ps, Q p ps then h.choose else []
  have hps : ∀ p ∈ storeWithGrid cellShape ac cs d, ValidIndex (edgeShape cellShape d) p.1 = true → Q p (psOf p) := by
    intro p hp hv
    have h := hQ p hp hv
    show Q p (if h : ∃ ps, Q p ps then h.choose else [])
    rw [dif_pos h]; exact h.choose_spec
  obtain ⟨p1, _, _⟩ := perAxis_spec cs hN hF hI d
  obtain ⟨s1, _, _⟩ := storeWithGrid_spec cellShape ac cs d p1
  have hhand := C19_handled_edges cellShape ac cs hN hF hI d
  set S := storeWithGrid cellShape ac cs d with hS
  refine ⟨(S.filter fun p => ValidIndex (edgeShape cellShape d) p.1).map fun p => (p.1, psOf p), ?_, fun c => ?_, ?_, ?_⟩
  · rw [List.map_map]
    have hnd : (S.map Prod.fst).Nodup := by
      unfold OMap.Sorted at s1
      unfold List.Nodup
      rw [List.pairwise_map]
      exact s1.imp fun {a b} h he => by
        rw [he] at h
        exact absurd h (by rw [(strictTotal_coordLtB (D := D)).irrefl]; decide)
    exact List.Nodup.sublist (List.Sublist.map _ List.filter_sublist) hnd
  · rw [List.map_map, List.mem_map]
    rw [← hvalid, ← hhand]
    constructor
    · rintro ⟨p, hp, rfl⟩
      obtain ⟨h1, h2⟩ := List.mem_filter.1 hp
      exact ⟨h2, p.2, h1⟩
    · rintro ⟨h1, es, h2⟩
      exact ⟨(c, es), List.mem_filter.2 ⟨h2, h1⟩, rfl⟩
  · intro q hq
    obtain ⟨p, hp, rfl⟩ := List.mem_map.1 hq
    obtain ⟨h1, h2⟩ := List.mem_filter.1 hp
    obtain ⟨e1, e2, e3, e4, _⟩ := hps p h1 h2
    exact ⟨e1, e2, e3, e4⟩
  · unfold bakeEdgesAxis
    rw [List.flatMap_map]
    have : ∀ l : List (Coord D × List (ℚ × ℤ)), (∀ p ∈ l, p ∈ S) →
        (l.flatMap fun p => if ValidIndex (edgeShape cellShape d) p.1 = true then
          (gridEdgePieces (G.idx p.1) (G.idx (Function.update p.1 d (p.1 d + 1))) p.2).map fun e => (gridEdgeMask p.1 d, e) else []) =
        (l.filter fun p => ValidIndex (edgeShape cellShape d) p.1).flatMap fun p =>
          ((psOf p).zip (psOf p).tail).map fun e => ((fun k => if k = d then none else some (p.1 k)), (e.1.2, e.2.2)) := by
      intro l
      induction l with
      | nil => intro _; rfl
      | cons p l ih =>
        intro hl
        rw [List.flatMap_cons, ih fun q hq => hl q (List.mem_cons_of_mem _ hq)]
        by_cases hv : ValidIndex (edgeShape cellShape d) p.1 = true
        · rw [if_pos hv, List.filter_cons_of_pos (by exact hv), List.flatMap_cons]
          congr 1
          obtain ⟨_, _, _, _, e5⟩ := hps p (hl p (by simp)) hv
          rw [e5, List.map_map]
          refine List.map_congr_left fun e _ => ?_
          have : gridEdgeMask p.1 d = fun k => if k = d then none else some (p.1 k) := by
            funext k
            unfold gridEdgeMask
            by_cases hk : k = d
            · subst hk; simp
            · rw [Function.update_of_ne hk, if_neg hk]
          rw [← this]; rfl
        · rw [if_neg hv, List.filter_cons_of_neg (by exact hv), List.nil_append]
    exact this S fun _ h => h

/-- the crossing list produced by `compute_crossings` meets the hypotheses of C19. -/
theorem C19_hypotheses_met {shape : Coord D} (G : GridIndexer shape) (vs : List (Vertex D))
    (hN : ∀ v ∈ vs, Normalised v) (hF : ∀ v ∈ vs, FlagsExact v)
    (hV : ∀ v ∈ vs, IsGridPoint v.p → ValidIndex shape v.coord = true) :
    let out := (computeCrossings G.idx G.size vs).out
    (∀ x ∈ out, Normalised x.v) ∧ (∀ x ∈ out, FlagsExact x.v) ∧ IndexConsistent out ∧
    (∀ x ∈ out, ¬ IsGridPoint x.v.p → G.size ≤ x.index) := by
  intro out
  obtain ⟨h1, _, h3, n, hn⟩ := C17_fuse_indices G vs hN hF hV
  have hin : ∀ x ∈ out, x.v ∈ vs := by
    intro x hx; rw [← h1]; exact List.mem_map.2 ⟨x, hx, rfl⟩
  exact ⟨fun x hx => hN _ (hin x hx), fun x hx => hF _ (hin x hx), h3,
    fun x hx hg => ((hn x.index).1 ⟨x, hx, rfl, hg⟩).1⟩

/-- the edge from (1,1) to (2,1) of a 3x3-vertex grid, with crossings found out of order and twice. -/
example : gridEdgePieces 4 5 (edgeCrossings (perAxis (computeCrossings (linIndex 2 ![3, 3]) 9
      [Vertex.fromVertex ![7/4, 1], Vertex.fromVertex ![5/4, 1], Vertex.fromVertex ![7/4, 1]]).out 0) ![1, 1]) =
    [(4, 10), (10, 9), (9, 5)] := by decide +kernel

end Mandoline
