import Verif.Geom.VertexLemmas
import Mathlib.Tactic.FinCases
import Mathlib.Data.Fin.VecNotation

/-!
# Properties C01-C10: masks, vertices, possible cells
-/
namespace Mandoline
variable {D : ℕ}

/-! ## C01 -/

/-- C01: `a.subsumes(b)` iff every point on `a` is on `b`. -/
theorem C01_subsumes_iff_inclusion (a b : Mask D) :
    a.subsumes b = true ↔ ∀ x : Pt D, OnMask a x → OnMask b x := by
  rw [Mask.subsumes_iff_le, Mask.onMask_imp_iff_le]

/-- C01: `strict_subsumes` is strict inclusion of the sets of points. -/
theorem C01_strictSubsumes_iff (a b : Mask D) :
    a.strictSubsumes b = true ↔
      (∀ x : Pt D, OnMask a x → OnMask b x) ∧ ∃ x : Pt D, OnMask b x ∧ ¬ OnMask a x := by
  have hne : (∃ x : Pt D, OnMask b x ∧ ¬ OnMask a x) ↔ ¬ Mask.Le b a := by
    rw [← Mask.onMask_imp_iff_le]; push Not; rfl
  rw [hne, Mask.onMask_imp_iff_le, Mask.strictSubsumes, beq_iff_eq, Mask.partialOrdering_greater]
  constructor
  · rintro ⟨h, hn⟩; exact ⟨h, fun h' => hn (h.antisymm h')⟩
  · rintro ⟨h, hn⟩; exact ⟨h, fun he => hn (he ▸ Mask.Le.refl _)⟩

/-- C01: the four outcomes of `partial_ordering` are decided by inclusion of point sets. -/
theorem C01_partialOrdering (a b : Mask D) :
    (a.partialOrdering b = .Equal ↔ ∀ x : Pt D, OnMask a x ↔ OnMask b x) ∧
    (a.partialOrdering b = .Greater ↔
      (∀ x : Pt D, OnMask a x → OnMask b x) ∧ ∃ x : Pt D, OnMask b x ∧ ¬ OnMask a x) ∧
    (a.partialOrdering b = .Less ↔
      (∀ x : Pt D, OnMask b x → OnMask a x) ∧ ∃ x : Pt D, OnMask a x ∧ ¬ OnMask b x) ∧
    (a.partialOrdering b = .Unknown ↔
      (∃ x : Pt D, OnMask a x ∧ ¬ OnMask b x) ∧ ∃ x : Pt D, OnMask b x ∧ ¬ OnMask a x) := by
  have hne : ∀ a b : Mask D, (∃ x : Pt D, OnMask b x ∧ ¬ OnMask a x) ↔ ¬ Mask.Le b a := by
    intro a b
    rw [← Mask.onMask_imp_iff_le]; push Not; rfl
  have heq : (∀ x : Pt D, OnMask a x ↔ OnMask b x) ↔ a = b := by
    constructor
    · intro h
      exact ((Mask.onMask_imp_iff_le a b).1 fun x => (h x).1).antisymm
        ((Mask.onMask_imp_iff_le b a).1 fun x => (h x).2)
    · rintro rfl x; rfl
  have e1 := Mask.partialOrdering_equal a b
  have e2 := Mask.partialOrdering_greater a b
  have e3 := Mask.partialOrdering_less a b
  simp only [hne, heq, Mask.onMask_imp_iff_le]
  have h4 : Mask.Le a b ∧ a ≠ b ↔ Mask.Le a b ∧ ¬ Mask.Le b a :=
    ⟨fun h => ⟨h.1, fun h' => h.2 (h.1.antisymm h')⟩, fun h => ⟨h.1, fun h' => h.2 (h' ▸ Mask.Le.refl _)⟩⟩
  have h5 : Mask.Le b a ∧ a ≠ b ↔ Mask.Le b a ∧ ¬ Mask.Le a b :=
    ⟨fun h => ⟨h.1, fun h' => h.2 (h'.antisymm h.1)⟩, fun h => ⟨h.1, fun h' => h.2 (h' ▸ Mask.Le.refl _)⟩⟩
  refine ⟨e1, e2.trans h4, e3.trans h5, ?_⟩
  rw [h4] at e2
  rw [h5] at e3
  have e6 : a = b ↔ Mask.Le a b ∧ Mask.Le b a :=
    ⟨fun h => ⟨h ▸ Mask.Le.refl _, h ▸ Mask.Le.refl _⟩, fun h => h.1.antisymm h.2⟩
  rw [e6] at e1
  cases h : a.partialOrdering b <;> simp [h] at e1 e2 e3 ⊢ <;> tauto

-- non-vacuity: a grid edge strictly subsumes the plane containing it and is unrelated to another plane
example : Mask.strictSubsumes (D := 3) ![some 1, some 2, none] ![none, some 2, none] = true := by decide
example : Mask.partialOrdering (D := 3) ![some 1, some 2, none] ![some 3, none, none] = .Unknown := by
  decide

/-! ## C02 -/

/-- C02: `a & b` is the greatest mask subsumed by both: it is subsumed by `a` and `b`, and any mask `m`
subsumed by both is subsumed by `a & b`. -/
theorem C02_and_is_meet (a b : Mask D) :
    a.subsumes (a.and b) = true ∧ b.subsumes (a.and b) = true ∧
    ∀ m : Mask D, a.subsumes m = true → b.subsumes m = true → (a.and b).subsumes m = true := by
  simp only [Mask.subsumes_iff_le]
  refine ⟨?_, ?_, ?_⟩
  · intro i c h; exact ((Mask.and_eq_some a b i c).1 h).1
  · intro i c h; exact ((Mask.and_eq_some a b i c).1 h).2
  · intro m ha hb i c h; exact (Mask.and_eq_some a b i c).2 ⟨ha i c h, hb i c h⟩

/-- C02: `&` is commutative, associative and idempotent. -/
theorem C02_and_semilattice (a b c : Mask D) :
    a.and b = b.and a ∧ (a.and b).and c = a.and (b.and c) ∧ a.and a = a := by
  refine ⟨Mask.mask_ext ?_, Mask.mask_ext ?_, Mask.mask_ext ?_⟩ <;> intro i x <;>
    simp only [Mask.and_eq_some] <;> tauto

/-- C02: subtraction: `a - b` keeps exactly the planes of `a` on axes that `b` leaves free. -/
theorem C02_sub_spec (a b : Mask D) (i : Fin D) (c : ℤ) :
    a.sub b i = some c ↔ a i = some c ∧ ∀ d, b i ≠ some d := by
  unfold Mask.sub
  cases hb : b i <;> simp

example : Mask.and (D := 3) ![some 1, some 2, none] ![some 1, some 3, some 0] = ![some 1, none, none] := by
  decide

/-! ## C03 (refuted) -/

/-- The full C03 statement for one pair: the union binds every plane either side has. -/
def C03_UnionSpec (a b : Mask D) : Prop :=
  ∀ i c, (a i = some c ∧ (b i = some c ∨ b i = none)) ∨ (a i = none ∧ b i = some c) →
    a.or b i = some c

/-- C03 is false of the code: `|` returns what `&` returns. -/
theorem C03_or_eq_and (a b : Mask D) : a.or b = a.and b := rfl

/-- C03: exact failure set: the specification holds for a pair iff no axis is bound by exactly one of
them. -/
theorem C03_union_failure_set (a b : Mask D) :
    C03_UnionSpec a b ↔ ∀ i, (a i).isSome = (b i).isSome := by
  constructor
  · intro h i
    cases ha : a i with
    | none =>
      cases hb : b i with
      | none => rfl
      | some c =>
        have := h i c (Or.inr ⟨ha, hb⟩)
        rw [C03_or_eq_and, Mask.and_eq_some] at this
        simp [ha] at this
    | some c =>
      cases hb : b i with
      | some d => rfl
      | none =>
        have := h i c (Or.inl ⟨ha, Or.inr hb⟩)
        rw [C03_or_eq_and, Mask.and_eq_some] at this
        simp [hb] at this
  · intro h i c hc
    rw [C03_or_eq_and, Mask.and_eq_some]
    have := h i
    rcases hc with ⟨h1, h2 | h2⟩ | ⟨h1, h2⟩
    · exact ⟨h1, h2⟩
    · simp [h1, h2] at this
    · simp [h1, h2] at this

/-- C03 refutation witness. -/
theorem C03_union_refuted : ¬ ∀ a b : Mask 3, C03_UnionSpec a b := by
  intro h
  have := (C03_union_failure_set _ _).1 (h ![some 1, none, none] ![none, some 2, none]) 0
  simp at this

/-! ## C04 -/

/-- C04: the possible cells of a normalised vertex are exactly the closed unit cubes containing it. -/
theorem C04_possibleCells_iff (v : Vertex D) (hv : Normalised v) (c : Coord D) :
    c ∈ v.possibleCells ↔ InClosedCell c v.p := by
  unfold Vertex.possibleCells
  rw [Mask.mem_possibleCells]
  apply forall_congr'
  intro i
  have hq := hv i
  simp only [Vertex.mask, Vertex.p]
  constructor
  · rintro (h | ⟨h, h'⟩)
    · rw [h]; constructor <;> linarith [hq.1, hq.2]
    · have hz : v.quot i = 0 := by
        by_contra hne; simp [hne] at h
      rw [h', hz]; push_cast; constructor <;> linarith
  · rintro ⟨h1, h2⟩
    have h3 : c i ≤ v.coord i := by
      have : (c i : ℚ) < (v.coord i : ℚ) + 1 := by linarith [hq.2]
      have : c i < v.coord i + 1 := by exact_mod_cast this
      omega
    have h4 : v.coord i ≤ c i + 1 := by
      have : (v.coord i : ℚ) ≤ (c i : ℚ) + 1 := by linarith [hq.1]
      exact_mod_cast this
    by_cases h5 : c i = v.coord i
    · exact Or.inl h5
    · have h6 : c i = v.coord i - 1 := by omega
      right
      refine ⟨?_, h6⟩
      rw [h6] at h2; push_cast at h2
      have hz : v.quot i = 0 := by linarith [hq.1]
      simp [hz]

open Classical in
/-- C04: there are `2^k` of them, `k` the number of integral coordinates of the position. -/
theorem C04_possibleCells_card (v : Vertex D) (hv : Normalised v) :
    v.possibleCells.card = 2 ^ (Finset.univ.filter fun i => IntegralAt v.p i).card := by
  unfold Vertex.possibleCells
  rw [Mask.card_possibleCells]
  congr 2
  ext i
  simp only [Finset.mem_filter, Finset.mem_univ, true_and]
  rw [← Vertex.quot_zero_iff v hv]
  by_cases h : v.quot i = 0 <;> simp [Vertex.mask, h]

-- non-vacuity: a point in the middle of a vertical grid edge touches two cells
example : Normalised (Vertex.fromVertex (D := 2) ![3, 5/2]) ∧
    (Vertex.fromVertex (D := 2) ![3, 5/2]).possibleCells.card = 2 :=
  ⟨Vertex.fromVertex_normalised _, by decide +kernel⟩

/-! ## C05 -/

/-- C05: `from_vertex` represents the given position, in normal form. -/
theorem C05_fromVertex (x : Pt D) :
    (Vertex.fromVertex x).p = x ∧ Normalised (Vertex.fromVertex x) ∧
    ∀ i, (Vertex.fromVertex x).clamped i = true ↔ IntegralAt x i := by
  refine ⟨Vertex.fromVertex_p x, Vertex.fromVertex_normalised x, fun i => ?_⟩
  have h : (Vertex.fromVertex x).clamped i = true ↔ (Vertex.fromVertex x).quot i = 0 := by
    simp [Vertex.fromVertex, Vertex.bsFromQuot]
  rw [h, Vertex.quot_zero_iff _ (Vertex.fromVertex_normalised x), Vertex.fromVertex_p]

/-- C05: `repair` keeps the position, normalises, and is idempotent. -/
theorem C05_repair (v : Vertex D) :
    v.repair.p = v.p ∧ Normalised v.repair ∧ v.repair.repair = v.repair :=
  ⟨Vertex.repair_p v, Vertex.repair_normalised v,
    Vertex.repair_of_normalised _ (Vertex.repair_normalised v)⟩

/-- C05: on normalised vertices `==` is equality of positions, and `!=` its negation. -/
theorem C05_eq_iff_position (a b : Vertex D) (ha : Normalised a) (hb : Normalised b) :
    (a.eq b = true ↔ a.p = b.p) ∧ (a.ne b = true ↔ a.p ≠ b.p) := by
  have h : a.eq b = true ↔ a.p = b.p := by
    rw [Vertex.eq_iff]
    constructor
    · rintro ⟨h1, h2⟩; funext i; simp [Vertex.p, h1, h2]
    · exact Vertex.normalised_ext ha hb
  refine ⟨h, ?_⟩
  rw [← not_iff_not]
  push Not
  rw [← h, Vertex.eq_iff]
  simp [Vertex.ne, and_comm]

/-- `==` without normalisation is finer than position: the hypothesis is needed. -/
example : ¬ ∀ a b : Vertex 1, a.p = b.p → a.eq b = true := by
  intro h
  have := h (Vertex.ofQuot (fun _ => 0) (fun _ => 1)) (Vertex.ofCoord (fun _ => 1))
    (by funext i; simp [Vertex.p, Vertex.ofQuot, Vertex.ofCoord])
  simp only [Vertex.eq_iff, Vertex.ofQuot, Vertex.ofCoord] at this
  have := congrFun this.1 0
  omega

example : Normalised (Vertex.fromVertex (D := 2) ![-1/2, 5/2]) ∧
    (Vertex.fromVertex (D := 2) ![-1/2, 5/2]).coord = ![-1, 2] :=
  ⟨Vertex.fromVertex_normalised _, by decide +kernel⟩

/-! ## C06 -/

/-- C06: `operator<` is lexicographic on integer parts, then on fractional parts. -/
theorem C06_lt_iff (a b : Vertex D) :
    a.lt b = true ↔ LexLt a.coord b.coord ∨ (a.coord = b.coord ∧ LexLt a.quot b.quot) :=
  Vertex.lt_iff a b

/-- C06: strict total order compatible with `==`: irreflexive, transitive, and any two vertices are
comparable or `==`, exclusively. -/
theorem C06_strict_total_order (a b c : Vertex D) :
    a.lt a = false ∧ (a.lt b = true → b.lt c = true → a.lt c = true) ∧
    (a.lt b = true ∨ a.eq b = true ∨ b.lt a = true) ∧
    (a.lt b = true → b.lt a = false) ∧ (a.eq b = true → a.lt b = false) := by
  have irr : ∀ a : Vertex D, a.lt a = false := by
    intro a
    rw [← Bool.not_eq_true, Vertex.lt_iff]
    rintro (h | ⟨_, h⟩) <;> exact LexLt.irrefl _ h
  have tr : ∀ a b c : Vertex D, a.lt b = true → b.lt c = true → a.lt c = true := by
    intro a b c
    simp only [Vertex.lt_iff]
    rintro (h | ⟨h, h1⟩) (h' | ⟨h', h1'⟩)
    · exact Or.inl (h.trans h')
    · exact Or.inl (h' ▸ h)
    · exact Or.inl (h ▸ h')
    · exact Or.inr ⟨h.trans h', h1.trans h1'⟩
  refine ⟨irr a, tr a b c, ?_, ?_, ?_⟩
  · simp only [Vertex.lt_iff, Vertex.eq_iff]
    rcases LexLt.trichotomy a.coord b.coord with h | h | h
    · exact Or.inl (Or.inl h)
    · rcases LexLt.trichotomy a.quot b.quot with h' | h' | h'
      · exact Or.inl (Or.inr ⟨h, h'⟩)
      · exact Or.inr (Or.inl ⟨h, h'⟩)
      · exact Or.inr (Or.inr (Or.inr ⟨h.symm, h'⟩))
    · exact Or.inr (Or.inr (Or.inl h))
  · intro h
    by_contra hc
    rw [Bool.not_eq_false] at hc
    have := tr a b a h hc
    rw [irr] at this; cases this
  · intro h
    rw [← Bool.not_eq_true, Vertex.lt_iff]
    obtain ⟨h1, h2⟩ := (Vertex.eq_iff a b).1 h
    rw [h1, h2]
    rintro (h | ⟨_, h⟩) <;> exact LexLt.irrefl _ h

/-- C06: in one dimension on normalised vertices it is the order of positions. -/
theorem C06_lt_one_dim (a b : Vertex 1) (ha : Normalised a) (hb : Normalised b) :
    a.lt b = true ↔ a.p 0 < b.p 0 := by
  rw [Vertex.lt_iff]
  have h1 := ha 0
  have h2 := hb 0
  have L : ∀ {α : Type} [LinearOrder α] (x y : Fin 1 → α), LexLt x y ↔ x 0 < y 0 := by
    intro α _ x y
    constructor
    · rintro ⟨i, _, h⟩; rwa [Fin.fin_one_eq_zero i] at h
    · intro h; exact ⟨0, fun j hj => absurd hj (Fin.not_lt_zero j), h⟩
  rw [L, L]
  have hce : a.coord = b.coord ↔ a.coord 0 = b.coord 0 := by
    constructor
    · intro h; rw [h]
    · intro h; funext i; rwa [Fin.fin_one_eq_zero i]
  rw [hce]
  simp only [Vertex.p]
  constructor
  · rintro (h | ⟨h, h'⟩)
    · have : (a.coord 0 : ℚ) + 1 ≤ b.coord 0 := by exact_mod_cast h
      linarith
    · rw [h]; linarith
  · intro h
    rcases lt_trichotomy (a.coord 0) (b.coord 0) with h' | h' | h'
    · exact Or.inl h'
    · rw [h'] at h; exact Or.inr ⟨h', by linarith⟩
    · have : (b.coord 0 : ℚ) + 1 ≤ a.coord 0 := by exact_mod_cast h'
      linarith

example : (Vertex.fromVertex (D := 2) ![0, 1/2]).lt (Vertex.fromVertex ![0, 2/3]) = true := by
  decide +kernel

/-! ## C07 -/

/-- C07: sums. -/
theorem C07_add (a b : Vertex D) :
    (a.add b).p = (fun i => a.p i + b.p i) ∧ Normalised (a.add b) := by
  refine ⟨?_, Vertex.repair_normalised _⟩
  rw [Vertex.add, Vertex.repair_p]; funext i; simp only [Vertex.p]; push_cast; ring

/-- C07: differences. -/
theorem C07_sub (a b : Vertex D) :
    (a.sub b).p = (fun i => a.p i - b.p i) ∧ Normalised (a.sub b) := by
  refine ⟨?_, Vertex.repair_normalised _⟩
  rw [Vertex.sub, Vertex.repair_p]; funext i; simp only [Vertex.p]; push_cast; ring

/-- C07: scalar multiples. -/
theorem C07_smul (a : Vertex D) (s : ℚ) :
    (a.smul s).p = (fun i => s * a.p i) ∧ Normalised (a.smul s) := by
  constructor
  · funext i
    have h1 : (a.smul s).p i = (Vertex.fromVertex fun i => s * (a.coord i : ℚ)).p i + s * a.quot i := by
      have := congrFun (Vertex.repair_p { (Vertex.fromVertex fun i => s * (a.coord i : ℚ)) with
        quot := fun i => (Vertex.fromVertex fun i => s * (a.coord i : ℚ)).quot i + s * a.quot i }) i
      simp only [Vertex.p] at this ⊢
      simp only [Vertex.smul]
      linarith
    rw [h1, Vertex.fromVertex_p]
    simp only [Vertex.p]; ring
  · exact Vertex.repair_normalised { (Vertex.fromVertex fun i => s * (a.coord i : ℚ)) with
        quot := fun i => (Vertex.fromVertex fun i => s * (a.coord i : ℚ)).quot i + s * a.quot i }

/-- C07: linear interpolation. -/
theorem C07_lerp (a b : Vertex D) (t : ℚ) :
    (a.lerp b t).p = (fun i => (1 - t) * a.p i + t * b.p i) ∧ Normalised (a.lerp b t) := by
  have h : (a.lerp b t).p = ((a.smul (1 - t)).add (b.smul t)).p := rfl
  refine ⟨?_, (C07_add (a.smul (1 - t)) (b.smul t)).2⟩
  rw [h, (C07_add _ _).1, (C07_smul a _).1, (C07_smul b _).1]

example : ((Vertex.fromVertex (D := 2) ![1/2, -1/3]).lerp (Vertex.fromVertex ![5/2, 1]) (1/4)).p
    = ![1, 0] := by decide +kernel

/-! ## C08 -/

/-- The expressions a caller can build from the vertex operations. -/
inductive VExpr (D : ℕ)
  | pos (x : Pt D)
  | grid (c : Coord D)
  | add (a b : VExpr D)
  | sub (a b : VExpr D)
  | smul (a : VExpr D) (s : ℚ)
  | lerp (a b : VExpr D) (t : ℚ)
  | threshold (t : ℚ) (a : VExpr D)
  | clampBy (m : Mask D) (a : VExpr D)

/-- Evaluate with the modelled operations. -/
def VExpr.eval : VExpr D → Vertex D
  | .pos x => Vertex.fromVertex x
  | .grid c => Vertex.ofCoord c
  | .add a b => a.eval.add b.eval
  | .sub a b => a.eval.sub b.eval
  | .smul a s => a.eval.smul s
  | .lerp a b t => a.eval.lerp b.eval t
  | .threshold t a => a.eval.applyThresholding t
  | .clampBy m a => Vertex.clampBy m a.eval

theorem thresholding_normalised (t : ℚ) (v : Vertex D) (hv : Normalised v) :
    Normalised (v.applyThresholding t) := by
  intro i
  have hq := hv i
  simp only [Vertex.applyThresholding]
  rcases Vertex.thresholdAxis_cases t (v.coord i) (v.quot i) (v.clamped i) with h | ⟨h, _⟩ | ⟨h, _⟩ <;>
    rw [h] <;> simp [hq.1, hq.2]

/-- C08: every vertex obtained by any expression is normalised and its clamped flags only mark
integral coordinates. -/
theorem C08_flags_sound (e : VExpr D) : Normalised e.eval ∧ FlagsSound e.eval := by
  have rep : ∀ (c : Coord D) (q : Pt D) (cl : Fin D → Bool), (∀ i, cl i = true → q i = 0) →
      FlagsSound (Vertex.repair ⟨c, q, cl⟩) := by
    intro c q cl h i hi
    have := h i hi
    simp [Vertex.repair, this]
  induction e with
  | pos x =>
    refine ⟨Vertex.fromVertex_normalised x, fun i hi => ?_⟩
    simpa [VExpr.eval, Vertex.fromVertex, Vertex.bsFromQuot] using hi
  | grid c => exact ⟨fun i => by simp [VExpr.eval, Vertex.ofCoord], fun i _ => rfl⟩
  | add a b iha ihb =>
    refine ⟨(C07_add _ _).2, rep _ _ _ fun i hi => ?_⟩
    simp only [Bool.and_eq_true] at hi
    simp [iha.2 i hi.1, ihb.2 i hi.2]
  | sub a b iha ihb =>
    refine ⟨(C07_sub _ _).2, rep _ _ _ fun i hi => ?_⟩
    simp only [Bool.and_eq_true] at hi
    simp [iha.2 i hi.1, ihb.2 i hi.2]
  | smul a s iha =>
    exact ⟨(C07_smul _ _).2, fun i hi => by simp [VExpr.eval, Vertex.smul] at hi⟩
  | lerp a b t iha ihb =>
    refine ⟨(C07_lerp _ _ _).2, fun i hi => ?_⟩
    have hcl : a.eval.coord i = b.eval.coord i ∧ a.eval.clamped i = true ∧ b.eval.clamped i = true := by
      by_contra hne
      simp only [VExpr.eval, Vertex.lerp] at hi
      split_ifs at hi with hh
      · simp only [Bool.and_eq_true, decide_eq_true_eq] at hh
        exact hne ⟨hh.1.1, hh.1.2, hh.2⟩
      · simp [Vertex.add, Vertex.repair, Vertex.smul] at hi
    obtain ⟨h1, h2, h3⟩ := hcl
    have hp := congrFun (C07_lerp a.eval b.eval t).1 i
    refine (Vertex.quot_zero_iff _ (C07_lerp a.eval b.eval t).2 i).2 ⟨a.eval.coord i, ?_⟩
    rw [hp]
    simp only [Vertex.p, iha.2 i h2, ihb.2 i h3, h1]; ring
  | threshold t a iha =>
    refine ⟨thresholding_normalised t _ iha.1, fun i hi => ?_⟩
    simp only [VExpr.eval, Vertex.applyThresholding] at hi ⊢
    rcases Vertex.thresholdAxis_cases t (a.eval.coord i) (a.eval.quot i) (a.eval.clamped i) with
      h | ⟨h, _⟩ | ⟨h, _⟩ <;> rw [h] at hi ⊢
    exact iha.2 i hi
  | clampBy m a iha =>
    constructor
    · intro i
      simp only [VExpr.eval, Vertex.clampBy]
      cases m i with
      | none => exact iha.1 i
      | some c => simp
    · intro i hi
      simp only [VExpr.eval, Vertex.clampBy, Mask.asBitset] at hi ⊢
      cases hm : m i with
      | none => simp [hm] at hi; exact iha.2 i hi
      | some c => rfl

/-- C08: `is_grid_vertex()` implies an integer position, namely `coord`. -/
theorem C08_grid_vertex_integral (e : VExpr D) (h : e.eval.isGridVertex = true) :
    ∀ i, e.eval.p i = (e.eval.coord i : ℚ) := by
  intro i
  simp only [Vertex.isGridVertex, List.all_eq_true] at h
  have := (C08_flags_sound e).2 i (h i (List.mem_finRange i))
  simp [Vertex.p, this]

/-- C08: interpolating between two vertices clamped to the same plane stays flagged on that plane. -/
theorem C08_lerp_keeps_plane (a b : Vertex D) (t : ℚ) (i : Fin D)
    (h : a.coord i = b.coord i) (ha : a.clamped i = true) (hb : b.clamped i = true) :
    (a.lerp b t).clamped i = true := by
  simp [Vertex.lerp, h, ha, hb]

example : (VExpr.threshold (1/100) (.pos (D := 2) ![199/200, 3])).eval.isGridVertex = true := by
  decide +kernel

/-! ## C09 -/

/-- C09: thresholding keeps vertices normalised; each coordinate is either untouched or replaced by its
nearest integer, at distance less than twice the threshold, and the clamped flag is then set. -/
theorem C09_threshold_snap (t : ℚ) (v : Vertex D) (hv : Normalised v) :
    Normalised (v.applyThresholding t) ∧ ∀ i,
      ((v.applyThresholding t).coord i = v.coord i ∧ (v.applyThresholding t).quot i = v.quot i ∧
        (v.applyThresholding t).clamped i = v.clamped i) ∨
      (IntegralAt (v.applyThresholding t).p i ∧ (v.applyThresholding t).clamped i = true ∧
        |(v.applyThresholding t).p i - v.p i| ≤ 1/2 ∧ |(v.applyThresholding t).p i - v.p i| < 2 * t) := by
  refine ⟨thresholding_normalised t v hv, fun i => ?_⟩
  have hq := hv i
  simp only [Vertex.applyThresholding, Vertex.p, IntegralAt]
  rcases Vertex.thresholdAxis_cases t (v.coord i) (v.quot i) (v.clamped i) with
    h | ⟨h, h1, h2⟩ | ⟨h, h1, h2⟩ <;> rw [h]
  · exact Or.inl ⟨rfl, rfl, rfl⟩
  · refine Or.inr ⟨⟨v.coord i, by simp⟩, rfl, ?_, ?_⟩
    · rw [abs_le]; constructor <;> linarith [hq.1]
    · rw [abs_lt]; constructor <;> linarith [hq.1]
  · rw [abs_of_nonneg (by linarith : (0:ℚ) ≤ v.quot i + 1)] at h2
    have ht : 0 < t := by
      by_contra hn
      have : -t * (v.quot i + 1) ≥ 0 := mul_nonneg (by linarith) (by linarith)
      linarith [hq.2]
    have h3 : t * (v.quot i + 1) < 2 * t := by nlinarith [hq.2]
    refine Or.inr ⟨⟨v.coord i + 1, by simp⟩, rfl, ?_, ?_⟩
    · push_cast; rw [abs_le]; constructor <;> linarith [hq.2]
    · push_cast; rw [abs_lt]; constructor <;> linarith [hq.2]

/-- C09: which coordinates snap: a fraction `q` is snapped iff it is below 1/2 and below the threshold, or
at least 1/2 and `1 - q < t (1 + q)`. In particular everything within `t` (t ≤ 1/2) of an integer snaps. -/
theorem C09_threshold_complete (t : ℚ) (v : Vertex D) (hv : Normalised v) (i : Fin D) (n : ℤ)
    (ht : t ≤ 1/2) (hn : |v.p i - (n : ℚ)| < t) :
    (v.applyThresholding t).p i = (n : ℚ) ∧ (v.applyThresholding t).clamped i = true := by
  have hq := hv i
  rw [abs_lt] at hn
  simp only [Vertex.p] at hn
  have hnc : n = v.coord i ∨ n = v.coord i + 1 := by
    have h1 : v.coord i < n + 1 := by
      have : (v.coord i : ℚ) < n + 1 := by linarith [hq.1]
      exact_mod_cast this
    have h2 : n < v.coord i + 2 := by
      have : (n : ℚ) < v.coord i + 2 := by linarith [hq.2]
      exact_mod_cast this
    omega
  simp only [Vertex.applyThresholding, Vertex.p, Vertex.thresholdAxis]
  rcases hnc with h | h
  · rw [h] at hn ⊢
    have h1 : v.quot i < t := by linarith
    have h2 : v.quot i < 1/2 := by linarith
    simp [h1, show v.quot i < 2⁻¹ by norm_num at h2 ⊢; exact h2]
  · rw [h] at hn ⊢
    push_cast at hn
    have h2 : ¬ v.quot i < 1/2 := by linarith
    have h3 : v.quot i - 1 > -t * |v.quot i + 1| := by
      rw [abs_of_nonneg (by linarith : (0:ℚ) ≤ v.quot i + 1)]
      nlinarith [hq.1]
    rw [if_neg h2, if_pos h3]
    simp

/-- C09: thresholding is idempotent. -/
theorem C09_threshold_idempotent (t : ℚ) (v : Vertex D) (hv : Normalised v) :
    (v.applyThresholding t).applyThresholding t = v.applyThresholding t := by
  have key : ∀ i, Vertex.thresholdAxis t ((v.applyThresholding t).coord i)
      ((v.applyThresholding t).quot i) ((v.applyThresholding t).clamped i) =
      ((v.applyThresholding t).coord i, (v.applyThresholding t).quot i,
        (v.applyThresholding t).clamped i) := by
    intro i
    have hq := hv i
    simp only [Vertex.applyThresholding]
    rcases Vertex.thresholdAxis_cases t (v.coord i) (v.quot i) (v.clamped i) with
      h | ⟨h, h1, h2⟩ | ⟨h, h1, h2⟩
    · rw [h]; exact h
    · rw [h]
      simp only [Vertex.thresholdAxis]
      split_ifs with h3 h4 h4
      · rfl
      · rfl
      · norm_num at h3
      · norm_num at h3
    · rw [h]
      simp only [Vertex.thresholdAxis]
      split_ifs with h3 h4 h4
      · rfl
      · rfl
      · norm_num at h3
      · norm_num at h3
  have e1 : ((v.applyThresholding t).applyThresholding t).coord = (v.applyThresholding t).coord := by
    funext i; exact congrArg Prod.fst (key i)
  have e2 : ((v.applyThresholding t).applyThresholding t).quot = (v.applyThresholding t).quot := by
    funext i; exact congrArg (·.2.1) (key i)
  have e3 : ((v.applyThresholding t).applyThresholding t).clamped = (v.applyThresholding t).clamped := by
    funext i; exact congrArg (·.2.2) (key i)
  exact Vertex.ext e1 e2 e3

example : Normalised (Vertex.fromVertex (D := 1) ![199/200]) ∧
    ((Vertex.fromVertex (D := 1) ![199/200]).applyThresholding (1/100)).p = ![1] :=
  ⟨Vertex.fromVertex_normalised _, by decide +kernel⟩

/-! ## C10 (refuted) -/

/-- The full C10 statement: `approx` iff all coordinates of the positions are within `eps`. -/
def C10_ApproxSpec (eps : ℚ) (a b : Vertex D) : Prop :=
  a.approx eps b = true ↔ ∀ i, |a.p i - b.p i| ≤ eps

/-- C10: what `approx` decides for thresholds below 1/2: same integer parts and close fractions. -/
theorem C10_approx_characterised (eps : ℚ) (he : eps < 1/2) (a b : Vertex D)
    (ha : Normalised a) (hb : Normalised b) :
    a.approx eps b = true ↔ a.coord = b.coord ∧ ∀ i, |a.p i - b.p i| ≤ eps := by
  have key : ∀ i, Vertex.approxAxis eps (a.coord i) (a.quot i) (b.coord i) (b.quot i) = true ↔
      a.coord i = b.coord i ∧ |a.p i - b.p i| ≤ eps := by
    intro i
    have h1 := ha i
    have h2 := hb i
    by_cases hc : b.coord i = a.coord i
    · simp only [Vertex.approxAxis, hc, Vertex.p, if_true, not_lt, true_and]
      have : (a.coord i : ℚ) + a.quot i - ((a.coord i : ℚ) + b.quot i) = a.quot i - b.quot i := by ring
      rw [this]
      split_ifs <;> simp
    · have hf : Vertex.approxAxis eps (a.coord i) (a.quot i) (b.coord i) (b.quot i) = false := by
        simp only [Vertex.approxAxis, hc, if_false]
        split_ifs with h3 h4 h4
        · simp only [decide_eq_false_iff_not, not_not]
          rw [abs_of_neg (by linarith)]; linarith
        · rfl
        · simp only [decide_eq_false_iff_not, not_not]
          rw [abs_of_neg (by linarith)]; linarith
        · rfl
      rw [hf]
      constructor
      · intro h; cases h
      · rintro ⟨h, _⟩; exact absurd h.symm hc
  simp only [Vertex.approx, List.all_eq_true, List.mem_finRange, true_implies]
  rw [forall_congr' key, forall_and, funext_iff]

/-- C10 is false of the code at every positive threshold below 1/2: two points at distance `eps/2` on the two
sides of a grid plane are reported as different. -/
theorem C10_approx_refuted (eps : ℚ) (h0 : 0 < eps) (h1 : eps < 1/2) :
    ∃ a b : Vertex 1, Normalised a ∧ Normalised b ∧ (∀ i, |a.p i - b.p i| ≤ eps) ∧
      a.approx eps b = false := by
  refine ⟨Vertex.ofCoord fun _ => 1, Vertex.ofQuot (fun _ => 0) (fun _ => 1 - eps / 2), ?_, ?_, ?_, ?_⟩
  · intro i; simp [Vertex.ofCoord]
  · intro i; simp only [Vertex.ofQuot]; constructor <;> linarith
  · intro i
    simp only [Vertex.ofQuot, Vertex.ofCoord, Vertex.p]
    rw [abs_of_nonneg] <;> push_cast <;> linarith
  · rw [← Bool.not_eq_true, C10_approx_characterised eps h1]
    · rintro ⟨h, _⟩
      have := congrFun h 0
      simp [Vertex.ofQuot, Vertex.ofCoord] at this
    · intro i; simp [Vertex.ofCoord]
    · intro i; simp only [Vertex.ofQuot]; constructor <;> linarith

end Mandoline
