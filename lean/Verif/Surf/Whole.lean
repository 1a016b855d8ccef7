import Verif.Surf.Index

/-! # Triangles that the grid does not cut -/
namespace Mandoline
variable {D : ℕ}
namespace TriInput
open Arr
variable {T : TriInput D}

/-- the whole triangle as a polygon. -/
def wholePoly (T : TriInput D) : List (List (TriPt D)) := [[T.corner 0, T.corner 1, T.corner 2]]

theorem corner_bary (j : Fin 3) : IsBary (Pi.single j 1 : Fin 3 → ℚ) := by
  refine ⟨fun i => ?_, ?_⟩
  · by_cases h : i = j
    · subst h; simp
    · simp [h]
  · simp

theorem corner_pos (j : Fin 3) : (T.V j).p = baryPoint T.P (Pi.single j 1) := by
  funext i
  unfold baryPoint
  rw [Finset.sum_eq_single j]
  · simp; rfl
  · intro b _ hb; simp [hb]
  · intro h; exact absurd (Finset.mem_univ _) h

/-- no integer strictly between coordinates of corners. -/
theorem no_integer (hT : T.Ok) (hE : ∀ e, T.edgeIsects e = []) (i : Fin D) (n : ℤ) (j l : Fin 3) : ¬ (T.P j i < n ∧ n < T.P l i) := by
  rintro ⟨h1, h2⟩
  have hjl : j ≠ l := by rintro rfl; linarith
  obtain ⟨e, he⟩ : ∃ e, (j = T.src e ∧ l = T.tgt e) ∨ (l = T.src e ∧ j = T.tgt e) := by
    obtain ⟨e, hej, hel⟩ : ∃ e : Fin 3, j ≠ e ∧ l ≠ e := by clear * -; revert j l; decide
    refine ⟨e, ?_⟩
    rcases third (T := T) e j hej with h | h <;> rcases third (T := T) e l hel with h' | h'
    · exact absurd (h.trans h'.symm) hjl
    · exact .inl ⟨h, h'⟩
    · exact .inr ⟨h', h⟩
    · exact absurd (h.trans h'.symm) hjl
  have hn : ∀ t, ¬ Crosses (T.V (T.src e)).p (T.V (T.tgt e)).p t := by
    intro t ht
    have h13 := C13_crossings_exact (T.edgeIndex e) T.grid (T.V (T.src e)) (T.V (T.tgt e)) (hT.verts _).1 (hT.verts _).1 (hT.sep e)
    have h0 := hE e
    unfold edgeIsects at h0
    have := (h13.1 t).2 ht
    rw [h0] at this
    simp at this
  have key : ∀ a b : Pt D, a i < n → n < b i → Crosses a b ((n - a i) / (b i - a i)) ∧ Crosses b a ((b i - n) / (b i - a i)) := by
    intro a b h1 h2
    have hd : 0 < b i - a i := by linarith
    refine ⟨⟨i, div_pos (by linarith) hd, (div_lt_one hd).2 (by linarith), ?_, n, ?_⟩, ⟨i, div_pos (by linarith) hd, (div_lt_one hd).2 (by linarith), ?_, n, ?_⟩⟩
    · linarith
    · unfold segPt; field_simp; ring
    · linarith
    · unfold segPt; field_simp; ring
  rcases he with ⟨rfl, rfl⟩ | ⟨rfl, rfl⟩
  · exact hn _ (key _ _ h1 h2).1
  · exact hn _ (key _ _ h1 h2).2

theorem bary_between {b : Fin 3 → ℚ} (hp : ∀ j, 0 < b j) (hs : ∑ j, b j = 1) (i : Fin D) (n : ℤ) (h : baryPoint T.P b i = n)
    (hno : ∀ j l : Fin 3, ¬ (T.P j i < n ∧ n < T.P l i)) : ∀ j, T.P j i = n := by
  have hz : ∑ j, b j * (T.P j i - n) = 0 := by
    simp only [mul_sub, Finset.sum_sub_distrib, ← Finset.sum_mul, hs, one_mul]
    unfold baryPoint at h
    rw [h]; ring
  rcases Classical.em (∃ j, T.P j i < n) with ⟨j, hj⟩ | hc
  · exfalso
    have hle : ∀ l ∈ Finset.univ, b l * (T.P l i - n) ≤ 0 := fun l _ => by
      have : ¬ (n : ℚ) < T.P l i := fun h' => hno j l ⟨hj, h'⟩
      exact mul_nonpos_of_nonneg_of_nonpos (hp l).le (by linarith)
    have := (Finset.sum_eq_zero_iff_of_nonpos hle).1 hz j (Finset.mem_univ j)
    rcases mul_eq_zero.1 this with h' | h'
    · exact absurd h' (hp j).ne'
    · linarith
  · push Not at hc
    intro j
    have hle : ∀ l ∈ Finset.univ, 0 ≤ b l * (T.P l i - n) := fun l _ => mul_nonneg (hp l).le (by have := hc l; linarith)
    have := (Finset.sum_eq_zero_iff_of_nonneg hle).1 hz j (Finset.mem_univ j)
    rcases mul_eq_zero.1 this with h' | h'
    · exact absurd h' (hp j).ne'
    · linarith

theorem ring3 {α : Type} (a b c : α) : ringOf [a, b, c] = [(a, b), (b, c), (c, a)] := rfl

theorem single_vals : ((Pi.single 0 1 : Fin 3 → ℚ) = ![1, 0, 0]) ∧ ((Pi.single 1 1 : Fin 3 → ℚ) = ![0, 1, 0]) ∧ ((Pi.single 2 1 : Fin 3 → ℚ) = ![0, 0, 1]) := by
  refine ⟨?_, ?_, ?_⟩ <;> funext j <;> fin_cases j <;> rfl

theorem whole_inPoly (b : Fin 3 → ℚ) : InPoly [T.corner 0, T.corner 1, T.corner 2] b ↔ ∀ j, 0 < b j := by
  unfold InPoly
  rw [ring3]
  obtain ⟨s0, s1, s2⟩ := single_vals
  have c0 : (T.corner 0).b = ![1, 0, 0] := s0
  have c1 : (T.corner 1).b = ![0, 1, 0] := s1
  have c2 : (T.corner 2).b = ![0, 0, 1] := s2
  have d0 : vdet (T.corner 0).b (T.corner 1).b b = b 2 := by rw [c0, c1, vdet_eq]; simp
  have d1 : vdet (T.corner 1).b (T.corner 2).b b = b 0 := by rw [c1, c2, vdet_eq]; simp
  have d2 : vdet (T.corner 2).b (T.corner 0).b b = b 1 := by rw [c2, c0, vdet_eq]; simp
  constructor
  · intro h j
    have h0 := h (T.corner 0, T.corner 1) (by simp)
    have h1 := h (T.corner 1, T.corner 2) (by simp)
    have h2 := h (T.corner 2, T.corner 0) (by simp)
    dsimp only at h0 h1 h2
    rw [d0] at h0
    rw [d1] at h1
    rw [d2] at h2
    have hj : j = 0 ∨ j = 1 ∨ j = 2 := by clear * -; revert j; decide
    rcases hj with rfl | rfl | rfl <;> assumption
  · intro h e he
    simp only [List.mem_cons, List.not_mem_nil, or_false] at he
    rcases he with rfl | rfl | rfl <;> dsimp only
    · rw [d0]; exact h 2
    · rw [d1]; exact h 0
    · rw [d2]; exact h 1

theorem whole_share : share [T.corner 0, T.corner 1, T.corner 2] = 1 := by
  unfold share
  rw [ring3]
  obtain ⟨s0, s1, s2⟩ := single_vals
  have c0 : (T.corner 0).b = ![1, 0, 0] := s0
  have c1 : (T.corner 1).b = ![0, 1, 0] := s1
  have c2 : (T.corner 2).b = ![0, 0, 1] := s2
  simp [c0, c1, c2]

/-- an uncut triangle is its own piece. -/
theorem whole_cuts (hT : T.Ok) (hE : ∀ e, T.edgeIsects e = []) : T.Cuts T.wholePoly where
  cover := fun b hb => ⟨_, ⟨List.mem_singleton.2 rfl, (whole_inPoly b).2 hb.pos⟩, fun p hp => List.mem_singleton.1 hp.1⟩
  nonempty := by
    intro p hp
    rw [List.mem_singleton.1 hp]
    have hs : ∑ j : Fin 3, (fun _ => 1 / 3 : Fin 3 → ℚ) j = 1 := by rw [Fin.sum_univ_three]; norm_num
    have hp : ∀ j : Fin 3, 0 < (fun _ => 1 / 3 : Fin 3 → ℚ) j := fun _ => by norm_num
    exact ⟨fun _ => 1 / 3, ⟨hp, hs, fun i n hn => bary_between hp hs i n hn (no_integer hT hE i n)⟩, (whole_inPoly _).2 hp⟩
  nodup := List.nodup_singleton _
  cell := by
    intro p hp
    rw [List.mem_singleton.1 hp]
    have key : ∀ i, ∃ c : ℤ, ∀ j, (c : ℚ) ≤ T.P j i ∧ T.P j i ≤ c + 1 := by
      intro i
      obtain ⟨j0, hj0⟩ : ∃ j0 : Fin 3, ∀ j, T.P j0 i ≤ T.P j i := by
        obtain ⟨a, _, ha⟩ := Finset.exists_min_image Finset.univ (fun j : Fin 3 => T.P j i) ⟨0, Finset.mem_univ 0⟩
        exact ⟨a, fun j => ha j (Finset.mem_univ j)⟩
      refine ⟨⌊T.P j0 i⌋, fun j => ⟨(Int.floor_le _).trans (hj0 j), ?_⟩⟩
      by_contra hc
      push Not at hc
      exact no_integer hT hE i (⌊T.P j0 i⌋ + 1) j0 j ⟨by push_cast; exact Int.lt_floor_add_one _, by push_cast; exact hc⟩
    choose c hc using key
    refine ⟨c, fun v hv i => ?_⟩
    simp only [List.mem_cons, List.not_mem_nil, or_false] at hv
    rcases hv with rfl | rfl | rfl
    · exact hc i 0
    · exact hc i 1
    · exact hc i 2
  vertex := by
    intro p hp v hv
    rw [List.mem_singleton.1 hp] at hv
    simp only [List.mem_cons, List.not_mem_nil, or_false] at hv
    rcases hv with rfl | rfl | rfl <;> exact ⟨corner_bary _, corner_pos _⟩
  oriented := by
    intro p hp
    rw [List.mem_singleton.1 hp, whole_share]; norm_num
  area := by
    unfold wholePoly
    rw [List.map_singleton, whole_share]; simp

theorem whole_chords (hT : T.Ok) (hE : ∀ e, T.edgeIsects e = []) (ptrLt : ℕ × ℕ → ℕ × ℕ → Bool) : T.chords ptrLt = [] := by
  rw [List.eq_nil_iff_forall_not_mem]
  intro c hc
  have hd := (chords_ok hT ptrLt c hc).disj
  obtain ⟨h1, h2⟩ := chords_bpts hT ptrLt hc
  have hcor : ∀ p ∈ T.bpts, ∃ j : Fin 3, p.b = Pi.single j 1 := by
    intro p hp
    unfold bpts at hp
    rcases List.mem_append.1 hp with hp | hp
    · obtain ⟨e, _, hp⟩ := List.mem_flatMap.1 hp
      unfold edgePts at hp
      rw [hE e] at hp
      simp at hp
    · obtain ⟨j, _, rfl⟩ := List.mem_map.1 hp
      exact ⟨j, rfl⟩
  obtain ⟨a, ha⟩ := hcor _ h1
  obtain ⟨b, hb⟩ := hcor _ h2
  obtain ⟨j, hja, hjb⟩ : ∃ j : Fin 3, j ≠ a ∧ j ≠ b := by clear * -; revert a b; decide
  have := hd j
  rw [ha, hb, Pi.single_eq_of_ne hja, Pi.single_eq_of_ne hjb] at this
  simp at this

theorem whole_sidePts (hT : T.Ok) (hE : ∀ e, T.edgeIsects e = []) (e : Fin 3) :
    T.sidePts e = [T.corner (T.src e), T.corner (T.tgt e)] := by
  rw [sidePts_eq hT]
  unfold edgePts
  rw [hE e]
  rfl

theorem whole_border (hT : T.Ok) (hE : ∀ e, T.edgeIsects e = []) :
    T.border = [(T.corner 1, T.corner 2), (T.corner 2, T.corner 0), (T.corner 0, T.corner 1)] := by
  have key : ∀ e, (if T.src e + 1 = T.tgt e then intervals (T.sidePts e) else (intervals (T.sidePts e)).map Prod.swap) =
      [(T.corner (e + 1), T.corner (e + 2))] := by
    intro e
    rw [whole_sidePts hT hE]
    rcases T.src_tgt e with ⟨h1, h2⟩ | ⟨h1, h2⟩ <;> rw [h1, h2]
    · rw [if_pos (by clear * -; revert e; decide)]; rfl
    · rw [if_neg (by clear * -; revert e; decide)]; rfl
  unfold border
  rw [List.flatMap_congr fun e _ => key e]
  rfl

end TriInput
end Mandoline
