import Verif.Adaptive.Grid

/-! # C27: faces of the adaptive grid -/
namespace Mandoline
variable {D : ℕ}

theorem strictTotal_faceLess : StrictTotal (faceLess (D := D)) where
  irrefl a := by simp [faceLess]
  trans a b c := by
    unfold faceLess
    rcases lt_trichotomy a.1 b.1 with h1 | h1 | h1 <;> rcases lt_trichotomy b.1 c.1 with h2 | h2 | h2 <;>
      intro h3 h4
    · rw [if_neg (h1.trans h2).ne]; simpa using h1.trans h2
    · rw [← h2, if_neg h1.ne]; simpa using h1
    · rw [if_neg h2.ne', decide_eq_true_eq] at h4; exact absurd h4 (lt_asymm h2)
    · rw [h1, if_neg h2.ne]; simpa using h2
    · rw [if_pos (h1.trans h2)]
      rw [if_pos h1, decide_eq_true_eq] at h3
      rw [if_pos h2, decide_eq_true_eq] at h4
      rw [decide_eq_true_eq]
      omega
    · rw [if_neg h2.ne', decide_eq_true_eq] at h4; exact absurd h4 (lt_asymm h2)
    · rw [if_neg h1.ne', decide_eq_true_eq] at h3; exact absurd h3 (lt_asymm h1)
    · rw [if_neg h1.ne', decide_eq_true_eq] at h3; exact absurd h3 (lt_asymm h1)
    · rw [if_neg h1.ne', decide_eq_true_eq] at h3; exact absurd h3 (lt_asymm h1)
  tri a b := by
    unfold faceLess
    rcases lt_trichotomy a.1 b.1 with h1 | h1 | h1
    · left; rw [if_neg h1.ne]; simpa using h1
    · rw [if_pos h1, if_pos h1.symm, decide_eq_true_eq, decide_eq_true_eq]
      obtain ⟨a1, a2, a3⟩ := a
      obtain ⟨b1, b2, b3⟩ := b
      simp only at h1 ⊢
      subst h1
      simp only [Prod.mk.injEq, true_and]
      omega
    · right; right; rw [if_neg h1.ne]; simpa using h1

theorem foldl_insertNew_faces (calls : List (AFace D)) (f : FaceKey D → ACell D)
    (hf : ∀ x ∈ calls, x.2 = f x.1) :
    OMap.Sorted faceLess (calls.foldl (fun s f => OMap.insertNew faceLess f.1 f.2 s) []) ∧
    ∀ k v, (k, v) ∈ calls.foldl (fun s f => OMap.insertNew faceLess f.1 f.2 s) [] ↔ (k, v) ∈ calls := by
  induction calls using List.reverseRecOn with
  | nil => exact ⟨OMap.sorted_nil, by simp⟩
  | append_singleton l x ih =>
    obtain ⟨h1, h2⟩ := ih fun y hy => hf y (List.mem_append_left _ hy)
    rw [List.foldl_append, List.foldl_cons, List.foldl_nil]
    refine ⟨OMap.sorted_alter strictTotal_faceLess h1, fun k v => ?_⟩
    unfold OMap.insertNew at h1 h2 ⊢
    rw [OMap.mem_alter strictTotal_faceLess h1, h2]
    have hval : ∀ v', (x.1, v') ∈ l → v' = x.2 := by
      intro v' hv'
      have a := hf _ (List.mem_append_left _ hv')
      have b := hf x (by simp)
      simp only at a
      rw [a, b]
    have hget : (OMap.find faceLess x.1
        (l.foldl (fun s f => OMap.alter faceLess f.1 (fun o => o.getD f.2) s) [])).getD x.2 = x.2 := by
      cases hfd : OMap.find faceLess x.1 (l.foldl (fun s f => OMap.alter faceLess f.1 (fun o => o.getD f.2) s) []) with
      | none => rfl
      | some v' =>
        exact hval v' ((h2 _ _).1 (OMap.mem_of_find strictTotal_faceLess hfd))
    rw [hget]
    constructor
    · rintro (⟨_, h⟩ | ⟨rfl, rfl⟩)
      · exact List.mem_append_left _ h
      · simp
    · intro h
      by_cases hk : k = x.1
      · right
        refine ⟨hk, ?_⟩
        rcases List.mem_append.1 h with h | h
        · rw [hk] at h; exact hval v h
        · simp only [List.mem_singleton] at h; rw [← h]
      · left
        refine ⟨hk, ?_⟩
        rcases List.mem_append.1 h with h | h
        · exact h
        · simp only [List.mem_singleton] at h; rw [← h] at hk; exact absurd rfl hk

theorem mem_faceCalls (shape : Coord D) (cells : List (ℤ × ACell D)) (grid : Coord D → ℤ) (x : AFace D) :
    x ∈ faceCalls shape cells grid ↔
      faceSquare cells x.1.1 x.1.2.1 x.1.2.2 = some x.2 ∧
      ∃ abc : Coord D, (∀ i, 0 ≤ abc i ∧ abc i < Function.update shape x.1.1 (shape x.1.1 + 1) i) ∧
        faceCandidate shape grid x.1.1 abc = some x.1.2 := by
  obtain ⟨⟨d, a, b⟩, sq⟩ := x
  simp only [faceCalls, List.mem_flatMap, List.mem_finRange, true_and, List.mem_filterMap, mem_lexCoords]
  constructor
  · rintro ⟨d', abc, habc, h⟩
    obtain ⟨⟨a', b'⟩, h1, h2⟩ := Option.bind_eq_some_iff.1 h
    obtain ⟨sq', h3, h4⟩ := Option.map_eq_some_iff.1 h2
    simp only [Prod.mk.injEq] at h4
    obtain ⟨⟨rfl, rfl, rfl⟩, rfl⟩ := h4
    exact ⟨h3, abc, habc, h1⟩
  · rintro ⟨h1, abc, habc, h2⟩
    exact ⟨d, abc, habc, Option.bind_eq_some_iff.2 ⟨(a, b), h2, Option.map_eq_some_iff.2 ⟨sq, h1, rfl⟩⟩⟩

theorem mem_adaptiveFaces (shape : Coord D) (cells : List (ℤ × ACell D)) (x : AFace D) :
    OMap.Sorted faceLess (adaptiveFaces shape cells) ∧
    (x ∈ adaptiveFaces shape cells ↔ x ∈ faceCalls shape cells (ownership cells)) := by
  classical
  have := foldl_insertNew_faces (faceCalls shape cells (ownership cells))
    (fun k => ((faceSquare cells k.1 k.2.1 k.2.2).getD x.2)) (by
      intro y hy
      have := ((mem_faceCalls shape cells _ y).1 hy).1
      rw [this]; rfl)
  exact ⟨this.1, this.2 x.1 x.2⟩

/-- Two unit cells next to each other along axis `d`, `u` being the upper one. -/
def below (u : Coord D) (d : Fin D) : Coord D := Function.update u d (u d - 1)

/-- `(d, a, b)` separates side `a` from side `b` at the unit facet below `u`: both sides are cells of the
collection containing the two unit cells, or one of them is the outside of the domain, written `-2`. -/
inductive Separates (shape : Coord D) (cells : List (ℤ × ACell D)) (u : Coord D) : FaceKey D → Prop
  | low (d : Fin D) (b : ℤ) (cb : ACell D) (hb : (b, cb) ∈ cells) (hu : InCube cb u) (h : u d = 0) :
      Separates shape cells u (d, -2, b)
  | high (d : Fin D) (a : ℤ) (ca : ACell D) (ha : (a, ca) ∈ cells) (hu : InCube ca (below u d))
      (h : u d = shape d) : Separates shape cells u (d, a, -2)
  | mid (d : Fin D) (a b : ℤ) (ca cb : ACell D) (ha : (a, ca) ∈ cells) (hb : (b, cb) ∈ cells)
      (hua : InCube ca (below u d)) (hub : InCube cb u) (hab : a ≠ b) : Separates shape cells u (d, a, b)

theorem below_above (u : Coord D) (d : Fin D) : below (above u d) d = u := by
  simp [below, above]

section
variable (shape : Coord D) (cells : List (ℤ × ACell D)) (hdis : DisjointCells cells)
  (hsorted : OMap.Sorted intLt cells) (hin : ∀ e ∈ cells, ∀ u, InCube e.2 u → InGrid shape u)
include hdis hsorted hin

omit hdis hin in
theorem cellAt_iff (id : ℤ) (c : ACell D) : cellAt cells id = some c ↔ (id, c) ∈ cells :=
  OMap.find_iff strictTotal_intLt hsorted

omit hin hsorted in
theorem own_nonneg (u : Coord D) (h : 0 ≤ ownership cells u) :
    ∃ c, (ownership cells u, c) ∈ cells ∧ InCube c u := by
  rcases (C26_ownership cells hdis u _).1 rfl with h' | ⟨h', _⟩
  · exact h'
  · omega

omit hin in
theorem faceSquare_some_of (d : Fin D) (a b : ℤ) (hab : a ≠ b)
    (ha : a = -2 ∨ ∃ c, (a, c) ∈ cells) (hb : b = -2 ∨ ∃ c, (b, c) ∈ cells) :
    ∃ sq, faceSquare cells d a b = some sq := by
  unfold faceSquare
  rw [if_neg hab]
  rcases ha with rfl | ⟨ca, ha⟩
  · rcases hb with rfl | ⟨cb, hb⟩
    · exact absurd rfl hab
    · have := hdis.1 _ hb
      simp only at this
      rw [if_neg (by omega), if_pos ⟨rfl, this⟩, (cellAt_iff cells hsorted b cb).2 hb]
      exact ⟨_, rfl⟩
  · have h0 := hdis.1 _ ha
    simp only at h0
    rw [if_neg (by omega), if_neg (by omega)]
    rcases hb with rfl | ⟨cb, hb⟩
    · rw [if_pos ⟨rfl, h0⟩, (cellAt_iff cells hsorted a ca).2 ha]
      exact ⟨_, rfl⟩
    · have h1 := hdis.1 _ hb
      simp only at h1
      rw [if_neg (by omega)]
      unfold isValidEdge
      rw [(cellAt_iff cells hsorted a ca).2 ha, (cellAt_iff cells hsorted b cb).2 hb]
      simp only [ne_eq, hab, not_false_eq_true, decide_true, Option.isSome_some, Bool.and_self, if_true]
      split_ifs
      · exact ⟨_, rfl⟩
      · exact ⟨_, rfl⟩

omit hsorted in
theorem candidate_separates (d : Fin D) (a b : ℤ) (hab : a ≠ b) :
    (∃ abc : Coord D, (∀ i, 0 ≤ abc i ∧ abc i < Function.update shape d (shape d + 1) i) ∧
        faceCandidate shape (ownership cells) d abc = some (a, b)) ↔
      ∃ u, Separates shape cells u (d, a, b) := by
  have hown : ∀ u id c, (id, c) ∈ cells → InCube c u → ownership cells u = id := fun u id c hm hu =>
    (C26_ownership cells hdis u id).2 (.inl ⟨c, hm, hu⟩)
  constructor
  · rintro ⟨u, hu, hc⟩
    unfold faceCandidate at hc
    dsimp only at hc
    split_ifs at hc with h1 h2 h3 h4 h5
    · obtain ⟨c, hm, hcu⟩ := own_nonneg cells hdis u h2
      simp only [Option.some.injEq, Prod.mk.injEq] at hc
      obtain ⟨rfl, rfl⟩ := hc
      exact ⟨u, .low d _ c hm hcu h1⟩
    · obtain ⟨c, hm, hcu⟩ := own_nonneg cells hdis _ h4
      simp only [Option.some.injEq, Prod.mk.injEq] at hc
      obtain ⟨rfl, rfl⟩ := hc
      exact ⟨u, .high d _ c hm hcu (by omega)⟩
    · obtain ⟨c, hm, hcu⟩ := own_nonneg cells hdis _ h5.1
      obtain ⟨c', hm', hcu'⟩ := own_nonneg cells hdis _ h5.2
      simp only [Option.some.injEq, Prod.mk.injEq] at hc
      obtain ⟨rfl, rfl⟩ := hc
      exact ⟨u, .mid d _ _ c' c hm' hm hcu' hcu hab⟩
  · rintro ⟨u, hs⟩
    cases hs with
    | low _ _ cb hb hu h =>
      refine ⟨u, fun i => ?_, ?_⟩
      · have := hin _ hb u hu i
        by_cases hi : i = d
        · subst hi; simp; omega
        · simpa [hi] using this
      · have := hown u b cb hb hu
        have h0 := hdis.1 _ hb
        simp only at h0
        simp [faceCandidate, h, this, h0]
    | high _ _ ca ha hu h =>
      have hg := hin _ ha _ hu
      refine ⟨u, fun i => ?_, ?_⟩
      · have := hg i
        by_cases hi : i = d
        · subst hi; simp [below] at this; simp; omega
        · simpa [hi, below] using this
      · have := hown _ a ca ha hu
        have h0 := hdis.1 _ ha
        have hd := hg d
        simp only [below, Function.update_self] at hd
        simp only at h0
        have hne : ¬ u d = 0 := by omega
        simp only [below] at this
        simp only [faceCandidate]
        rw [if_neg hne, if_pos (by omega), this, if_pos h0]
    | mid _ _ _ ca cb ha hb hua hub hab =>
      have hg := hin _ ha _ hua
      have hg' := hin _ hb _ hub
      refine ⟨u, fun i => ?_, ?_⟩
      · have := hg' i
        by_cases hi : i = d
        · subst hi; simp; omega
        · simpa [hi] using this
      · have e1 := hown _ a ca ha hua
        have e2 := hown _ b cb hb hub
        have h0 := hdis.1 _ ha
        have h1 := hdis.1 _ hb
        have hd := hg d
        have hd' := hg' d
        simp only [below, Function.update_self] at hd e1
        simp only at h0 h1
        simp only [faceCandidate]
        rw [if_neg (by omega), if_neg (by omega), e1, e2, if_pos ⟨h1, h0⟩]

/-- **C27.** The faces are exactly the separated pairs: there is a face with axis `d` and dual edge `(a, b)` iff
some unit facet normal to `d` has side `a` below and side `b` above (`-2` for outside the domain, `a ≠ b`); and
there is only one face per axis and pair. -/
theorem C27_faces_exact :
    (∀ k, (∃ sq, (k, sq) ∈ adaptiveFaces shape cells) ↔ ∃ u, Separates shape cells u k) ∧
    (adaptiveFaces shape cells).Pairwise (fun f g => f.1 ≠ g.1) := by
  constructor
  · rintro ⟨d, a, b⟩
    constructor
    · rintro ⟨sq, h⟩
      rw [(mem_adaptiveFaces shape cells _).2, mem_faceCalls] at h
      obtain ⟨h1, h2⟩ := h
      have hab : a ≠ b := by
        rintro rfl
        simp only [faceSquare, if_true] at h1; cases h1
      exact (candidate_separates shape cells hdis hin d a b hab).1 h2
    · rintro ⟨u, hs⟩
      have hab : a ≠ b ∧ (a = -2 ∨ ∃ c, (a, c) ∈ cells) ∧ (b = -2 ∨ ∃ c, (b, c) ∈ cells) := by
        cases hs with
        | low _ _ cb hb hu h =>
          have := hdis.1 _ hb
          simp only at this
          exact ⟨by omega, .inl rfl, .inr ⟨cb, hb⟩⟩
        | high _ _ ca ha hu h =>
          have := hdis.1 _ ha
          simp only at this
          exact ⟨by omega, .inr ⟨ca, ha⟩, .inl rfl⟩
        | mid _ _ _ ca cb ha hb hua hub hab => exact ⟨hab, .inr ⟨ca, ha⟩, .inr ⟨cb, hb⟩⟩
      obtain ⟨sq, hsq⟩ := faceSquare_some_of cells hdis hsorted d a b hab.1 hab.2.1 hab.2.2
      refine ⟨sq, ?_⟩
      rw [(mem_adaptiveFaces shape cells _).2, mem_faceCalls]
      exact ⟨hsq, (candidate_separates shape cells hdis hin d a b hab.1).2 ⟨u, hs⟩⟩
  · exact ((foldl_insertNew_faces (faceCalls shape cells (ownership cells))
      (fun k => ((faceSquare cells k.1 k.2.1 k.2.2).getD (fun _ => 0, 0))) (by
        intro y hy
        have := ((mem_faceCalls shape cells _ y).1 hy).1
        rw [this]; rfl)).1).imp fun {f g} hlt heq => by
          rw [heq, strictTotal_faceLess.irrefl] at hlt; cases hlt
end

end Mandoline
