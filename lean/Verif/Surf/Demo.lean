import Verif.Surf.Props
import Mathlib.Tactic.LinearCombination

/-! # The hypotheses of C109 are met: a triangle covered from both sides -/
namespace Mandoline
open Sched TriInput
namespace SurfInput

/-- two triangles with the corners `(1/2,1/2,1/2), (5/2,1/2,1/2), (1/2,5/2,1/2)`, in opposite directions, in a grid with 6 x 6 x 6
vertices. -/
def demo : SurfInput 3 3 3 2 where
  I := { V := exTri.V, E := ![(1, 2), (0, 2), (0, 1)], grid := some ![5, 5, 5], gridIndex := linIndex 3 ![6, 6, 6], gridSize := 216 }
  F := ![![0, 1, 2], ![0, 2, 1]]
  FE := ![![0, 1, 2], ![0, 2, 1]]
  first := ![0, 0]

theorem demo_closed : demo.Closed := by unfold Closed; decide +kernel

theorem demo_P (f : Fin 2) (b : Fin 3 → ℚ) : ∃ b' : Fin 3 → ℚ, baryPoint (demo.tri f).P b = baryPoint exTri.P b' ∧
    ∑ j, b' j = ∑ j, b j ∧ (IsBary b → IsBary b') ∧ (OnBoundary b → OnBoundary b') := by
  match f with
  | 0 => exact ⟨b, rfl, rfl, id, id⟩
  | 1 =>
    have e : ∑ j, ![b 0, b 2, b 1] j = ∑ j, b j := by
      rw [Fin.sum_univ_three, Fin.sum_univ_three]
      show b 0 + b 2 + b 1 = _
      ring
    refine ⟨![b 0, b 2, b 1], ?_, e, fun h => ⟨fun j => ?_, by rw [e]; exact h.sum⟩, ?_⟩
    · funext i
      unfold baryPoint
      rw [Fin.sum_univ_three, Fin.sum_univ_three]
      show b 0 * exTri.P 0 i + b 1 * exTri.P 2 i + b 2 * exTri.P 1 i = b 0 * exTri.P 0 i + b 2 * exTri.P 1 i + b 1 * exTri.P 2 i
      ring
    · match j with
      | 0 => exact h.nonneg 0
      | 1 => exact h.nonneg 2
      | 2 => exact h.nonneg 1
    · rintro ⟨j, hj⟩
      match j, hj with
      | 0, hj => exact ⟨0, hj⟩
      | 1, hj => exact ⟨2, hj⟩
      | 2, hj => exact ⟨1, hj⟩

theorem demo_edge (i : Fin 3) : Separated (bakeTol demo.I.grid) (demo.I.fst i).p (demo.I.snd i).p := by
  have h := exTri_ok.sep i
  match i with
  | 0 => exact h
  | 1 => exact h
  | 2 => exact h

theorem demo_vertex (i : Fin 3) : VertexOk (demo.I.V i) := exTri_ok.verts i

theorem demo_table (f : Fin 2) (j : Fin 3) : demo.I.E (demo.FE f j) = (demo.F f (j + 1), demo.F f (j + 2)) ∨
    demo.I.E (demo.FE f j) = (demo.F f (j + 2), demo.F f (j + 1)) := by revert f j; decide

theorem demo_chords (f : Fin 2) : (demo.tri f).ChordsSeparated := by
  rintro p q hp hq bp bq ⟨i, n, h1, h2, j, h3⟩
  obtain ⟨p', e1, _, b1, o1⟩ := demo_P f p
  obtain ⟨q', e2, _, b2, o2⟩ := demo_P f q
  rw [e1] at h1 ⊢
  rw [e2] at h2 ⊢
  refine exTri_chords p' q' (b1 hp) (b2 hq) (o1 bp) (o2 bq) ⟨i, n, h1, h2, ?_⟩
  obtain ⟨j', hj'⟩ : ∃ j', exTri.P j' i = (demo.tri f).P j i := ⟨demo.F f j, rfl⟩
  exact ⟨j', by rw [hj']; exact h3⟩

theorem demo_z {C : demo.Choices} (hT : ∀ f, (demo.tri f).Ok) : ∀ v ∈ demo.flat demo.I.baked C.isects, v.p 2 = 1 / 2 := by
  have hz : ∀ j : Fin 3, (demo.I.V j).p 2 = 1 / 2 := fun j => by
    show exTri.P j 2 = 1 / 2
    rw [exTri_P]
    match j with
    | 0 => rfl
    | 1 => rfl
    | 2 => rfl
  intro v hv
  unfold flat at hv
  rcases List.mem_append.1 hv with hv | hv
  · rcases List.mem_append.1 hv with hv | hv
    · obtain ⟨i, _, rfl⟩ := List.mem_map.1 hv
      exact hz i
    · obtain ⟨i, _, hv⟩ := List.mem_flatMap.1 hv
      obtain ⟨e, he, rfl⟩ := List.mem_map.1 hv
      have := (C14_position_exact _ _ _ _ (demo_vertex _).1 (demo_vertex _).1 (demo_edge i) e he).2 2
      rw [this, hz, hz]; ring
  · obtain ⟨f, _, hv⟩ := List.mem_flatMap.1 hv
    obtain ⟨e, he, rfl⟩ := List.mem_map.1 hv
    have h73 := C73_crossings_exact (hT f) (demo_chords f) (C.ptrLt f)
    obtain ⟨_, hp, _⟩ := h73.2.1 e he
    have hs := ((h73.1 e.b).1 ⟨e, he, rfl⟩).2.1
    obtain ⟨b', h1, h2, _, _⟩ := demo_P f e.b
    rw [hp, h1]
    exact (exTri_point b' (h2.trans hs)).2.2

theorem demo_tri (f : Fin 2) : (demo.tri f).Ok := by
  refine ⟨fun j => demo_vertex _, fun e => ?_⟩
  have h := demo_edge (demo.FE f e)
  have hst : demo.I.E (demo.FE f e) = (demo.F f ((demo.tri f).src e), demo.F f ((demo.tri f).tgt e)) := by
    clear h; revert f e; decide
  unfold EdgeInput.fst EdgeInput.snd at h
  rw [hst] at h
  exact h

theorem demo_ok (C : demo.Choices) : Ok C (linIndexer (D := 3) ![6, 6, 6] (by decide)) where
  table := demo_table
  norm i := (demo_vertex i).1
  flags i := (demo_vertex i).2
  nondeg := by
    intro f b hb h
    have h0 := h 0
    have h1 := h 1
    rw [Fin.sum_univ_three] at hb h0 h1
    have e : ∀ j, (demo.I.V j).p = ![![1/2, 1/2, 1/2], ![5/2, 1/2, 1/2], ![1/2, 5/2, 1/2]] j := fun j => congrFun exTri_P j
    simp only [e] at h0 h1
    match f with
    | 0 =>
      replace h0 : b 0 * (1/2) + b 1 * (5/2) + b 2 * (1/2) = 0 := h0
      replace h1 : b 0 * (1/2) + b 1 * (1/2) + b 2 * (5/2) = 0 := h1
      funext j
      match j with
      | 0 => show b 0 = 0; linarith
      | 1 => show b 1 = 0; linarith
      | 2 => show b 2 = 0; linarith
    | 1 =>
      replace h0 : b 0 * (1/2) + b 1 * (1/2) + b 2 * (5/2) = 0 := h0
      replace h1 : b 0 * (1/2) + b 1 * (5/2) + b 2 * (1/2) = 0 := h1
      funext j
      match j with
      | 0 => show b 0 = 0; linarith
      | 1 => show b 1 = 0; linarith
      | 2 => show b 2 = 0; linarith
  sep := demo_edge
  chords := demo_chords
  inGrid := by
    intro v hv hg
    obtain ⟨z, hz⟩ := hg 2
    rw [demo_z demo_tri v hv] at hz
    exact absurd hz (half_not_int z)
  index := rfl
  size := by decide +kernel

/-- executions of `bake` on this input exist, and in each of them the cut surface is closed and the two triangles have a crossing
inside, so their cut faces are not the triangles. -/
example : ∃ (C : demo.Choices) (cs : List (CrossingI 3)) (es : List (EdgeInput.MeshEdge 3)) (fs : List (MeshFace 3)),
    (tasks C).Baked cs es fs ∧ (∀ a b, (sidesOf fs).count (a, b) = (sidesOf fs).count (b, a)) ∧
    demo.whole demo.I.baked C.isects 0 = false := by
  obtain ⟨C, _, cs, es, fs, hb⟩ := C109_run_exists demo_tri demo_chords (fun _ _ _ => false)
  refine ⟨C, cs, es, fs, hb, fun a b => C109_closed (demo_ok C) hb demo_closed a b, ?_⟩
  have : (demo.I.baked (demo.FE 0 0)).isEmpty = false := by decide +kernel
  unfold whole
  rw [Bool.and_eq_false_iff]
  exact .inr (List.all_eq_false.2 ⟨0, List.mem_finRange 0, by simp [this]⟩)

end SurfInput
end Mandoline
