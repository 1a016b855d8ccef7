import Verif.Collapse.Dsu
import Mathlib.Tactic.Linarith

/-!
# Regions: connectivity through facets and numbering of components

Common part of `extra_metadata` (src/construction/generator2.cpp:330-402) and `bake_cells`
(src/construction/generator3.cpp:337-447).
-/
namespace Mandoline
namespace Region

/-! ## connectivity -/

/-- node `f` is joined with `c`, in either order. -/
def Inc (joins : List (ℤ × ℤ)) (c f : ℤ) : Prop := (c, f) ∈ joins ∨ (f, c) ∈ joins

/-- cells (nodes below `n`) joined directly or through a common facet node (nodes from `n` on). -/
def Adj (joins : List (ℤ × ℤ)) (n c d : ℤ) : Prop :=
  c < n ∧ d < n ∧ ((c, d) ∈ joins ∨ ∃ f, n ≤ f ∧ Inc joins c f ∧ Inc joins d f)

/-- If joins link cells with cells or cells with facet nodes, two cells are connected iff they are linked by a chain of
cells joined directly or through a common facet node. -/
theorem conn_cells {joins : List (ℤ × ℤ)} {n : ℤ} (hs : ∀ p ∈ joins, p.1 < n ∨ p.2 < n) {c d : ℤ} (hc : c < n) (hd : d < n) :
    Relation.EqvGen (fun a b => (a, b) ∈ joins) c d ↔ Relation.EqvGen (Adj joins n) c d := by
  constructor
  · intro h
    let Nb : ℤ → ℤ → Prop := fun x c => c < n ∧ ((x < n ∧ x = c) ∨ (n ≤ x ∧ Inc joins c x))
    have hnb : ∀ x c d, Nb x c → Nb x d → Relation.EqvGen (Adj joins n) c d := by
      rintro x c d ⟨hc, hc'⟩ ⟨hd, hd'⟩
      rcases hc' with ⟨h1, rfl⟩ | ⟨h1, h2⟩ <;> rcases hd' with ⟨h3, rfl⟩ | ⟨h3, h4⟩
      · exact .refl _
      · omega
      · omega
      · exact .rel _ _ ⟨hc, hd, .inr ⟨x, h1, h2, h4⟩⟩
    have key : ∀ x y, Relation.EqvGen (fun a b => (a, b) ∈ joins) x y →
        x = y ∨ ∃ c d, Nb x c ∧ Nb y d ∧ Relation.EqvGen (Adj joins n) c d := by
      intro x y h
      induction h with
      | rel a b hab =>
        right
        by_cases ha : a < n
        · by_cases hb : b < n
          · exact ⟨a, b, ⟨ha, .inl ⟨ha, rfl⟩⟩, ⟨hb, .inl ⟨hb, rfl⟩⟩, .rel _ _ ⟨ha, hb, .inl hab⟩⟩
          · exact ⟨a, a, ⟨ha, .inl ⟨ha, rfl⟩⟩, ⟨ha, .inr ⟨by omega, .inl hab⟩⟩, .refl _⟩
        · have hb : b < n := by rcases hs _ hab with h | h; exacts [absurd h ha, h]
          exact ⟨b, b, ⟨hb, .inr ⟨by omega, .inr hab⟩⟩, ⟨hb, .inl ⟨hb, rfl⟩⟩, .refl _⟩
      | refl a => exact .inl rfl
      | symm a b _ ih =>
        rcases ih with rfl | ⟨c, d, h1, h2, h3⟩
        · exact .inl rfl
        · exact .inr ⟨d, c, h2, h1, .symm _ _ h3⟩
      | trans a b c _ _ i1 i2 =>
        rcases i1 with rfl | ⟨x, y, h1, h2, h3⟩
        · exact i2
        · rcases i2 with rfl | ⟨x', y', h1', h2', h3'⟩
          · exact .inr ⟨x, y, h1, h2, h3⟩
          · exact .inr ⟨x, y', h1, h2', .trans _ _ _ h3 (.trans _ _ _ (hnb b _ _ h2 h1') h3')⟩
    rcases key c d h with rfl | ⟨x, y, ⟨_, h1⟩, ⟨_, h2⟩, h3⟩
    · exact .refl _
    · rcases h1 with ⟨_, rfl⟩ | ⟨h1, _⟩
      · rcases h2 with ⟨_, rfl⟩ | ⟨h2, _⟩
        · exact h3
        · omega
      · omega
  · intro h
    have hinc : ∀ {c f}, Inc joins c f → Relation.EqvGen (fun a b => (a, b) ∈ joins) c f := by
      rintro c f (h | h)
      · exact .rel _ _ h
      · exact .symm _ _ (.rel _ _ h)
    clear hc hd
    induction h with
    | rel a b hab =>
      obtain ⟨_, _, h | ⟨f, _, h1, h2⟩⟩ := hab
      · exact .rel _ _ h
      · exact .trans _ _ _ (hinc h1) (.symm _ _ (hinc h2))
    | refl a => exact .refl _
    | symm a b _ ih => exact .symm _ _ ih
    | trans a b c _ _ i1 i2 => exact .trans _ _ _ i1 i2

/-- Two cells are connected iff they are linked by a chain of cells that are directly adjacent, share a free facet, or lie
on the two sides of a free facet with a cell beyond it. -/
theorem conn_shares {joins : List (ℤ × ℤ)} {N : ℤ} {direct free beyond : ℤ → ℤ → Prop}
    (hj : ∀ a b, (a, b) ∈ joins ↔ direct a b ∨ (∃ e, free a e ∧ b = e + N) ∨ (∃ e, beyond e b ∧ a = e + N))
    (hd : ∀ a b, direct a b → a < N ∧ b < N) (hf : ∀ c e, free c e → c < N ∧ 0 ≤ e)
    (hb : ∀ e d, beyond e d → d < N ∧ 0 ≤ e) (hfun : ∀ e d d', beyond e d → beyond e d' → d = d')
    {c d : ℤ} (hc : c < N) (hdN : d < N) :
    Relation.EqvGen (fun a b => (a, b) ∈ joins) c d ↔
      Relation.EqvGen (fun c d => direct c d ∨ (∃ e, free c e ∧ free d e) ∨ (∃ e, free c e ∧ beyond e d)) c d := by
  have hs : ∀ p ∈ joins, p.1 < N ∨ p.2 < N := by
    rintro ⟨a, b⟩ hp
    rcases (hj a b).1 hp with h | ⟨e, h, rfl⟩ | ⟨e, h, rfl⟩
    · exact .inl (hd _ _ h).1
    · exact .inl (hf _ _ h).1
    · exact .inr (hb _ _ h).1
  rw [conn_cells hs hc hdN]
  have hinc : ∀ c e, 0 ≤ e → c < N → (Inc joins c (e + N) ↔ free c e ∨ beyond e c) := by
    intro c e he hc
    unfold Inc
    rw [hj, hj]
    constructor
    · rintro ((h | ⟨e', h, h'⟩ | ⟨e', h, h'⟩) | (h | ⟨e', h, h'⟩ | ⟨e', h, h'⟩))
      · have := hd _ _ h; omega
      · obtain rfl : e' = e := by omega
        exact .inl h
      · have := hb _ _ h; omega
      · have := hd _ _ h; omega
      · have := hf _ _ h; omega
      · obtain rfl : e' = e := by omega
        exact .inr h
    · rintro (h | h)
      · exact .inl (.inr (.inl ⟨e, h, rfl⟩))
      · exact .inr (.inr (.inr ⟨e, h, rfl⟩))
  clear hc hdN
  constructor
  · intro hE
    induction hE with
    | rel a b hab =>
      obtain ⟨h1, h2, h3 | ⟨f, hfN, h3, h4⟩⟩ := hab
      · rcases (hj a b).1 h3 with h | ⟨e, h, rfl⟩ | ⟨e, h, rfl⟩
        · exact .rel _ _ (.inl h)
        · have := hf _ _ h; omega
        · have := hb _ _ h; omega
      · obtain ⟨e, rfl⟩ : ∃ e, f = e + N := ⟨f - N, by omega⟩
        rw [hinc a e (by omega) h1] at h3
        rw [hinc b e (by omega) h2] at h4
        rcases h3 with h3 | h3 <;> rcases h4 with h4 | h4
        · exact .rel _ _ (.inr (.inl ⟨e, h3, h4⟩))
        · exact .rel _ _ (.inr (.inr ⟨e, h3, h4⟩))
        · exact .symm _ _ (.rel _ _ (.inr (.inr ⟨e, h4, h3⟩)))
        · rw [hfun _ _ _ h3 h4]; exact .refl _
    | refl a => exact .refl _
    | symm a b _ ih => exact .symm _ _ ih
    | trans a b c _ _ i1 i2 => exact .trans _ _ _ i1 i2
  · intro hE
    induction hE with
    | rel a b hab =>
      rcases hab with h1 | ⟨e, h1, h2⟩ | ⟨e, h1, h2⟩
      · exact .rel _ _ ⟨(hd _ _ h1).1, (hd _ _ h1).2, .inl ((hj a b).2 (.inl h1))⟩
      · have k1 := hf _ _ h1
        have k2 := hf _ _ h2
        exact .rel _ _ ⟨k1.1, k2.1, .inr ⟨e + N, by omega, (hinc _ _ k1.2 k1.1).2 (.inl h1), (hinc _ _ k1.2 k2.1).2 (.inl h2)⟩⟩
      · have k1 := hf _ _ h1
        have k2 := hb _ _ h2
        exact .rel _ _ ⟨k1.1, k2.1, .inr ⟨e + N, by omega, (hinc _ _ k1.2 k1.1).2 (.inl h1), (hinc _ _ k1.2 k2.1).2 (.inr h2)⟩⟩
    | refl a => exact .refl _
    | symm a b _ ih => exact .symm _ _ ih
    | trans a b c _ _ i1 i2 => exact .trans _ _ _ i1 i2

/-! ## numbering -/

/-- one iteration of the loop over the cells (generator2.cpp:386-391, generator3.cpp:429-434):
`if (root != outside && !reindexer.contains(root)) reindexer[root] = reindexer.size()`. -/
def numberStep (outside : ℤ) (m : List (ℤ × ℤ)) (r : ℤ) : List (ℤ × ℤ) :=
  if r ≠ outside ∧ OMap.find intLt r m = none then OMap.assign intLt r (m.length : ℤ) m else m

/-- `reindexer` after the loop over the roots of the cells, starting from `m`. -/
def number (outside : ℤ) (m : List (ℤ × ℤ)) (roots : List ℤ) : List (ℤ × ℤ) := roots.foldl (numberStep outside) m

/-- `reindexer[r]`: a missing key yields 0. -/
def lookup (m : List (ℤ × ℤ)) (r : ℤ) : ℤ := (OMap.find intLt r m).getD 0

/-- the map assigns to the elements of `L` their positions, and nothing else. -/
structure Numbers (m : List (ℤ × ℤ)) (L : List ℤ) : Prop where
  sorted : OMap.Sorted intLt m
  nodup : L.Nodup
  size : m.length = L.length
  find : ∀ r, OMap.find intLt r m = if r ∈ L then some (L.idxOf r : ℤ) else none

theorem numbers_nil : Numbers [] [] := ⟨OMap.sorted_nil, List.nodup_nil, rfl, fun r => by simp [OMap.find]⟩

theorem numbers_single (r : ℤ) : Numbers (OMap.assign intLt r 0 []) [r] := by
  refine ⟨OMap.sorted_alter strictTotal_intLt OMap.sorted_nil, by simp, rfl, fun x => ?_⟩
  unfold OMap.assign
  rw [OMap.find_alter strictTotal_intLt OMap.sorted_nil]
  by_cases h : x = r
  · subst h; simp
  · simp [h, OMap.find]

/-- **Numbering.** The loop numbers the components in order of first appearance: there is a list of distinct roots `L`
extending the initial one, containing exactly the initial roots and the roots of the cells other than the outside root,
such that each gets its position in `L`. -/
theorem number_spec (outside : ℤ) (roots : List ℤ) (m : List (ℤ × ℤ)) (L : List ℤ) (h : Numbers m L) :
    ∃ L', Numbers (number outside m roots) (L ++ L') ∧ ∀ r, r ∈ L' ↔ (r ∈ roots ∧ r ≠ outside ∧ r ∉ L) := by
  induction roots generalizing m L with
  | nil => exact ⟨[], by simpa [number] using h, by simp⟩
  | cons r roots ih =>
    unfold number
    rw [List.foldl_cons]
    by_cases hr : r ≠ outside ∧ OMap.find intLt r m = none
    · have hrL : r ∉ L := by
        have := h.find r
        rw [hr.2] at this
        intro hm; rw [if_pos hm] at this; cases this
      have hstep : numberStep outside m r = OMap.assign intLt r (m.length : ℤ) m := by unfold numberStep; rw [if_pos hr]
      have hN : Numbers (OMap.assign intLt r (m.length : ℤ) m) (L ++ [r]) := by
        refine ⟨OMap.sorted_alter strictTotal_intLt h.sorted, ?_, ?_, ?_⟩
        · rw [List.nodup_append]
          exact ⟨h.nodup, by simp, by intro a ha b hb; rw [List.mem_singleton] at hb; subst hb; exact fun e => hrL (e ▸ ha)⟩
        · unfold OMap.assign
          rw [OMap.length_alter h.sorted, hr.2]; simp [h.size]
        · intro x
          unfold OMap.assign
          rw [OMap.find_alter strictTotal_intLt h.sorted, h.find]
          by_cases hx : x = r
          · subst hx
            simp [List.idxOf_append_of_notMem hrL, h.size]
          · by_cases hxL : x ∈ L
            · simp [hx, hxL, List.idxOf_append_of_mem hxL]
            · simp [hx, hxL]
      rw [hstep]
      obtain ⟨L', h1, h2⟩ := ih _ _ hN
      refine ⟨r :: L', by simpa [number] using h1, ?_⟩
      intro x
      rw [List.mem_cons, h2, List.mem_cons, List.mem_append, List.mem_singleton]
      constructor
      · rintro (rfl | ⟨h3, h4, h5⟩)
        · exact ⟨.inl rfl, hr.1, hrL⟩
        · exact ⟨.inr h3, h4, fun h => h5 (.inl h)⟩
      · rintro ⟨h3 | h3, h4, h5⟩
        · exact .inl h3
        · by_cases hx : x = r
          · exact .inl hx
          · exact .inr ⟨h3, h4, by rintro (h | h); exacts [h5 h, hx h]⟩
    · have hstep : numberStep outside m r = m := by unfold numberStep; rw [if_neg hr]
      rw [hstep]
      obtain ⟨L', h1, h2⟩ := ih _ _ h
      refine ⟨L', h1, ?_⟩
      intro x
      rw [h2, List.mem_cons]
      constructor
      · rintro ⟨h3, h4, h5⟩; exact ⟨.inr h3, h4, h5⟩
      · rintro ⟨h3 | h3, h4, h5⟩
        · subst h3
          exfalso; apply hr
          refine ⟨h4, ?_⟩
          rw [h.find, if_neg h5]
        · exact ⟨h3, h4, h5⟩

theorem lookup_mem {m : List (ℤ × ℤ)} {L : List ℤ} (h : Numbers m L) {r : ℤ} (hr : r ∈ L) : lookup m r = L.idxOf r := by
  unfold lookup; rw [h.find, if_pos hr]; rfl

theorem lookup_not_mem {m : List (ℤ × ℤ)} {L : List ℤ} (h : Numbers m L) {r : ℤ} (hr : r ∉ L) : lookup m r = 0 := by
  unfold lookup; rw [h.find, if_neg hr]; rfl

theorem lookup_inj {m : List (ℤ × ℤ)} {L : List ℤ} (h : Numbers m L) {r r' : ℤ} (hr : r ∈ L) (hr' : r' ∈ L) :
    lookup m r = lookup m r' ↔ r = r' := by
  rw [lookup_mem h hr, lookup_mem h hr']
  constructor
  · intro he
    exact (List.idxOf_inj hr).1 (by exact_mod_cast he)
  · rintro rfl; rfl

theorem lookup_range {m : List (ℤ × ℤ)} {L : List ℤ} (h : Numbers m L) (k : ℤ) :
    (0 ≤ k ∧ k < L.length) ↔ ∃ r ∈ L, lookup m r = k := by
  constructor
  · rintro ⟨h0, h1⟩
    obtain ⟨i, rfl⟩ := Int.eq_ofNat_of_zero_le h0
    have hi : i < L.length := by exact_mod_cast h1
    refine ⟨L[i], List.getElem_mem hi, ?_⟩
    rw [lookup_mem h (List.getElem_mem hi), h.nodup.idxOf_getElem]
  · rintro ⟨r, hr, rfl⟩
    rw [lookup_mem h hr]
    have := List.idxOf_lt_length_of_mem hr
    omega

end Region
end Mandoline
