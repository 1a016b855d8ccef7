import Mathlib.Data.List.Basic
import Mathlib.Order.Basic
import Mathlib.Tactic.Linarith
import Mathlib.Algebra.Order.Ring.Rat
import Mathlib.Algebra.BigOperators.Group.List.Basic
import Mathlib.Tactic.Ring

/-!
# Neighbours in a list sorted by a rational key
-/
namespace Mandoline
namespace ListAdj
variable {α : Type*} (f : α → ℚ)

theorem zip_mem {l : List α} {x y : α} (h : (x, y) ∈ l.zip l.tail) : x ∈ l ∧ y ∈ l :=
  ⟨(List.of_mem_zip h).1, List.mem_of_mem_tail (List.of_mem_zip h).2⟩

theorem zip_lt {l : List α} (hs : l.Pairwise fun a b => f a < f b) {x y : α} (h : (x, y) ∈ l.zip l.tail) :
    f x < f y := by
  induction l with
  | nil => simp at h
  | cons a l ih =>
    rw [List.pairwise_cons] at hs
    cases l with
    | nil => simp at h
    | cons b l =>
      rw [List.tail_cons, List.zip_cons_cons, List.mem_cons] at h
      rcases h with h | h
      · cases h; exact hs.1 _ List.mem_cons_self
      · exact ih hs.2 h

theorem zip_none {l : List α} (hs : l.Pairwise fun a b => f a < f b) {x y : α} (h : (x, y) ∈ l.zip l.tail) {z : α}
    (hz : z ∈ l) (h1 : f x < f z) : f y ≤ f z := by
  induction l with
  | nil => simp at h
  | cons a l ih =>
    rw [List.pairwise_cons] at hs
    cases l with
    | nil => simp at h
    | cons b l =>
      rw [List.tail_cons, List.zip_cons_cons, List.mem_cons] at h
      rcases h with h | h
      · cases h
        rcases List.mem_cons.1 hz with rfl | hz
        · exact absurd h1 (lt_irrefl _)
        · rcases List.mem_cons.1 hz with rfl | hz
          · exact le_rfl
          · exact ((List.pairwise_cons.1 hs.2).1 z hz).le
      · rcases List.mem_cons.1 hz with rfl | hz
        · exact absurd (h1.trans (hs.1 x (zip_mem h).1)) (lt_irrefl _)
        · exact ih hs.2 h hz

theorem succ {l : List α} (hs : l.Pairwise fun a b => f a < f b) {x z : α} (hx : x ∈ l) (hz : l.getLast? = some z)
    (hne : f x < f z) : ∃ y, (x, y) ∈ l.zip l.tail := by
  induction l with
  | nil => cases hx
  | cons a l ih =>
    rw [List.pairwise_cons] at hs
    cases l with
    | nil =>
      simp at hx hz
      subst hx hz
      exact absurd hne (lt_irrefl _)
    | cons b l =>
      rw [List.getLast?_cons_cons] at hz
      rcases List.mem_cons.1 hx with rfl | hx
      · exact ⟨b, by simp⟩
      · obtain ⟨y, hy⟩ := ih hs.2 hx hz
        exact ⟨y, by rw [List.tail_cons, List.zip_cons_cons]; exact List.mem_cons_of_mem _ hy⟩

theorem pred {l : List α} (hs : l.Pairwise fun a b => f a < f b) {x z : α} (hx : x ∈ l) (hz : l.head? = some z)
    (hne : f z < f x) : ∃ y, (y, x) ∈ l.zip l.tail := by
  induction l generalizing z with
  | nil => cases hx
  | cons a l ih =>
    rw [List.pairwise_cons] at hs
    rw [List.head?_cons, Option.some.injEq] at hz
    subst hz
    rcases List.mem_cons.1 hx with rfl | hx
    · exact absurd hne (lt_irrefl _)
    · cases l with
      | nil => cases hx
      | cons b l =>
        rcases List.mem_cons.1 hx with rfl | hx
        · exact ⟨a, by simp⟩
        · obtain ⟨y, hy⟩ := ih hs.2 (List.mem_cons_of_mem _ hx) rfl ((List.pairwise_cons.1 hs.2).1 x hx)
          exact ⟨y, by rw [List.tail_cons, List.zip_cons_cons]; exact List.mem_cons_of_mem _ hy⟩

theorem inj {l : List α} (hs : l.Pairwise fun a b => f a < f b) {x y : α} (hx : x ∈ l) (hy : y ∈ l) (h : f x = f y) : x = y := by
  induction l with
  | nil => cases hx
  | cons a l ih =>
    rw [List.pairwise_cons] at hs
    rcases List.mem_cons.1 hx with hx' | hx' <;> rcases List.mem_cons.1 hy with hy' | hy'
    · rw [hx', hy']
    · subst hx'; exact absurd h (hs.1 _ hy').ne
    · subst hy'; exact absurd h (hs.1 _ hx').ne'
    · exact ih hs.2 hx' hy'

theorem of_none {l : List α} (hs : l.Pairwise fun a b => f a < f b) {x y : α} (hx : x ∈ l) (hy : y ∈ l) (hlt : f x < f y)
    (h : ∀ z ∈ l, f x < f z → f y ≤ f z) : (x, y) ∈ l.zip l.tail := by
  obtain ⟨z, hz⟩ : ∃ z, l.getLast? = some z := by
    cases e : l.getLast? with
    | none => rw [List.getLast?_eq_none_iff] at e; rw [e] at hx; cases hx
    | some z => exact ⟨z, rfl⟩
  have hle : ∀ w ∈ l, f w ≤ f z := by
    clear h hlt hx hy
    induction l with
    | nil => cases hz
    | cons a l ih =>
      rw [List.pairwise_cons] at hs
      cases l with
      | nil => simp at hz; subst hz; intro w hw; rw [List.mem_singleton.1 hw]
      | cons b l =>
        rw [List.getLast?_cons_cons] at hz
        intro w hw
        rcases List.mem_cons.1 hw with rfl | hw
        · exact ((hs.1 b List.mem_cons_self).le).trans (ih hs.2 hz b List.mem_cons_self)
        · exact ih hs.2 hz w hw
  obtain ⟨w, hw⟩ := succ f hs hx hz (hlt.trans_le (hle y hy))
  have h1 := h w (zip_mem hw).2 (zip_lt f hs hw)
  have h2 := zip_none f hs hw hy hlt
  rwa [inj f hs hy (zip_mem hw).2 (le_antisymm h1 h2)]

theorem zip_nodup {l : List α} (hs : l.Pairwise fun a b => f a < f b) : (l.zip l.tail).Nodup := by
  induction l with
  | nil => simp
  | cons a l ih =>
    rw [List.pairwise_cons] at hs
    cases l with
    | nil => simp
    | cons b l =>
      rw [List.tail_cons, List.zip_cons_cons, List.nodup_cons]
      refine ⟨fun h => ?_, ih hs.2⟩
      exact absurd (hs.1 a (zip_mem h).1) (lt_irrefl _)

/-- sums of differences along the list telescope. -/
theorem sum_diff {l : List α} {a b : α} (ha : l.head? = some a) (hb : l.getLast? = some b) :
    ((l.zip l.tail).map fun e => f e.2 - f e.1).sum = f b - f a := by
  induction l generalizing a with
  | nil => cases ha
  | cons x l ih =>
    rw [List.head?_cons, Option.some.injEq] at ha
    subst ha
    cases l with
    | nil => simp at hb; subst hb; simp
    | cons y l =>
      rw [List.getLast?_cons_cons] at hb
      rw [List.tail_cons, List.zip_cons_cons, List.map_cons, List.sum_cons]
      have := ih rfl hb
      rw [List.tail_cons] at this
      rw [this]
      ring

end ListAdj
end Mandoline
