import Verif.Collapse.FaceIds
import Mathlib.Dynamics.PeriodicPts.Lemmas

/-!
# C35: the loops returned by the face collapser

Transcription of `faces_no_holes`, `faces` (src/construction/face_collapser.cpp:103-210) and of `bake`
(face_collapser.hpp:88-96). An iterator into `dual_edge_graph` is represented by its key; `none` is the use of an
end iterator (undefined behaviour) or a loop that does not terminate within the given fuel.
-/
namespace Mandoline
open Function

/-- `inc(it)` (face_collapser.cpp:107-109, 170-172): `deg.find(it->second)`. -/
def degInc (deg : List (DEdge × DEdge)) (e : DEdge) : Option DEdge :=
  (OMap.find edgeLt e deg).bind fun v => if (OMap.find edgeLt v deg).isSome then some v else none

/-- the loop of face_collapser.cpp:134-143 / 189-198: `it1` moves by one, `it2` by two; the keys visited by `it1` are
collected. -/
def degWalk (deg : List (DEdge × DEdge)) (start : DEdge) : ℕ → DEdge → DEdge → List DEdge → Option (List DEdge)
  | 0, _, _, _ => none
  | n + 1, it1, it2, acc =>
    if it1 = start ∨ it1 = it2 then some acc
    else match degInc deg it1, (degInc deg it2).bind (degInc deg) with
      | some i1, some i2 => degWalk deg start n i1 i2 (acc ++ [it1])
      | _, _ => none

/-- one iteration of the outer loop (face_collapser.cpp:119-148, 181-203): the available edges and the loops found. The
loop is kept as the list of its directed edges. -/
def facesStep (s : FaceCollapser) (st : Option (List DEdge × List (ℤ × List DEdge))) (e : DEdge) :
    Option (List DEdge × List (ℤ × List DEdge)) :=
  st.bind fun (avail, out) =>
    if e ∉ avail then some (avail, out)
    else if s.face e < 0 then some (avail.filter (· ≠ e), out)
    else (degInc s.deg e).bind fun i1 => (degInc s.deg i1).bind fun i2 =>
      (degWalk s.deg e (s.deg.length + 1) i1 i2 [e]).map fun cyc =>
        (avail.filter (· ∉ cyc), out ++ [(s.face e, cyc)])

/-- the loops of directed edges found by `faces()`. -/
def FaceCollapser.edgeLoops (s : FaceCollapser) : Option (List (ℤ × List DEdge)) :=
  ((s.deg.map Prod.fst).foldl (facesStep s) (some (s.deg.map Prod.fst, []))).map Prod.snd

/-- `faces()` (face_collapser.cpp:165-210) as the list of (face id, vertex loop) in the order they are found; the code
groups them by id in a `map<int, set<vector<int>>>`. `face.push_back(it1->first[0])`: a loop is the list of the first
vertices of its directed edges. -/
def FaceCollapser.faces (s : FaceCollapser) : Option (List (ℤ × List ℤ)) :=
  s.edgeLoops.map fun l => l.map fun p => (p.1, p.2.map Prod.fst)

/-- `faces_no_holes()` (face_collapser.cpp:103-151): `ret[myface] = face`, the last loop with an id wins. -/
def FaceCollapser.facesNoHoles (s : FaceCollapser) : Option (List (ℤ × List ℤ)) :=
  s.faces.map fun l => l.foldl (fun m p => OMap.assign intLt p.1 p.2 m) []

/-- `bake(V, false, ...)` (face_collapser.hpp:88-92): `unify_boundary_loops` and `finalize`. -/
def FaceCollapser.bakeSimple (s : FaceCollapser) (ord : ℤ → List ℤ) (R : DsuRoots (s.unify ord).ds) : FaceCollapser :=
  (s.unify ord).finalize R

/-- the directed edges of a closed vertex loop. -/
def loopEdges (vs : List ℤ) : List DEdge := vs.zip (vs.rotate 1)

/-! ## permutation maps -/

/-- a map that is a bijection from its set of keys to itself. -/
structure PermMap (deg : List (DEdge × DEdge)) : Prop where
  sorted : OMap.Sorted edgeLt deg
  vals_nodup : (deg.map Prod.snd).Nodup
  vals_mem : ∀ e, e ∈ deg.map Prod.snd → e ∈ deg.map Prod.fst

/-- the map as a total function. -/
def degNext (deg : List (DEdge × DEdge)) (e : DEdge) : DEdge := (OMap.find edgeLt e deg).getD e

theorem degNext_mem {deg : List (DEdge × DEdge)} (h : PermMap deg) {e : DEdge} (he : e ∈ deg.map Prod.fst) :
    (e, degNext deg e) ∈ deg := by
  obtain ⟨⟨k, v⟩, hm, rfl⟩ := List.mem_map.1 he
  have := OMap.find_of_mem strictTotal_edgeLt h.sorted hm
  unfold degNext
  simp only [this, Option.getD_some]
  exact hm

theorem degNext_key {deg : List (DEdge × DEdge)} (h : PermMap deg) {e : DEdge} (he : e ∈ deg.map Prod.fst) :
    degNext deg e ∈ deg.map Prod.fst :=
  h.vals_mem _ (List.mem_map.2 ⟨_, degNext_mem h he, rfl⟩)

theorem degNext_inj {deg : List (DEdge × DEdge)} (h : PermMap deg) {e e' : DEdge} (he : e ∈ deg.map Prod.fst)
    (he' : e' ∈ deg.map Prod.fst) (heq : degNext deg e = degNext deg e') : e = e' := by
  have h1 := degNext_mem h he
  have h2 := degNext_mem h he'
  rw [heq] at h1
  have := List.inj_on_of_nodup_map h.vals_nodup h1 h2 rfl
  exact (Prod.mk.inj this).1

theorem degInc_eq {deg : List (DEdge × DEdge)} (h : PermMap deg) {e : DEdge} (he : e ∈ deg.map Prod.fst) :
    degInc deg e = some (degNext deg e) := by
  have h1 := OMap.find_of_mem strictTotal_edgeLt h.sorted (degNext_mem h he)
  have h2 := OMap.find_of_mem strictTotal_edgeLt h.sorted (degNext_mem h (degNext_key h he))
  unfold degInc
  rw [h1]
  simp [h2]

theorem degIter_key {deg : List (DEdge × DEdge)} (h : PermMap deg) {e : DEdge} (he : e ∈ deg.map Prod.fst) (n : ℕ) :
    (degNext deg)^[n] e ∈ deg.map Prod.fst := by
  induction n with
  | zero => exact he
  | succ n ih => rw [iterate_succ_apply']; exact degNext_key h ih

theorem deg_periodic {deg : List (DEdge × DEdge)} (h : PermMap deg) {e : DEdge} (he : e ∈ deg.map Prod.fst) :
    e ∈ periodicPts (degNext deg) := by
  let S := {x // x ∈ deg.map Prod.fst}
  have : Finite S := (List.finite_toSet (deg.map Prod.fst)).to_subtype
  let g : S → S := fun x => ⟨degNext deg x.1, degNext_key h x.2⟩
  have hg : Injective g := by
    intro x y hxy
    exact Subtype.ext (degNext_inj h x.2 y.2 (Subtype.ext_iff.1 hxy))
  obtain ⟨n, hn, hp⟩ := hg.mem_periodicPts ⟨e, he⟩
  refine ⟨n, hn, ?_⟩
  have hit : ∀ m, (g^[m] ⟨e, he⟩).1 = (degNext deg)^[m] e := by
    intro m
    induction m with
    | zero => rfl
    | succ m ih => rw [iterate_succ_apply', iterate_succ_apply', ← ih]
  show (degNext deg)^[n] e = e
  rw [← hit]
  exact Subtype.ext_iff.1 hp

/-- the loop through `e`. -/
noncomputable def orb (deg : List (DEdge × DEdge)) (e : DEdge) : List DEdge :=
  (List.range (minimalPeriod (degNext deg) e)).map fun k => (degNext deg)^[k] e

theorem orb_nodup (deg : List (DEdge × DEdge)) (e : DEdge) : (orb deg e).Nodup := by
  unfold orb
  refine List.Nodup.map_on ?_ List.nodup_range
  intro i hi j hj hij
  rw [List.mem_range] at hi hj
  exact iterate_injOn_Iio_minimalPeriod hi hj hij

theorem mem_orb {deg : List (DEdge × DEdge)} (h : PermMap deg) {e : DEdge} (he : e ∈ deg.map Prod.fst) (x : DEdge) :
    x ∈ orb deg e ↔ ∃ k, (degNext deg)^[k] e = x := by
  unfold orb
  rw [List.mem_map]
  constructor
  · rintro ⟨k, _, hk⟩; exact ⟨k, hk⟩
  · rintro ⟨k, rfl⟩
    have hpos := minimalPeriod_pos_of_mem_periodicPts (deg_periodic h he)
    exact ⟨k % minimalPeriod (degNext deg) e, List.mem_range.2 (Nat.mod_lt _ hpos), iterate_mod_minimalPeriod_eq⟩

theorem orb_symm {deg : List (DEdge × DEdge)} (h : PermMap deg) {e x : DEdge} (he : e ∈ deg.map Prod.fst)
    (hx : x ∈ orb deg e) : e ∈ orb deg x := by
  obtain ⟨k, hk, rfl⟩ := List.mem_map.1 hx
  rw [List.mem_range] at hk
  rw [mem_orb h (degIter_key h he k)]
  refine ⟨minimalPeriod (degNext deg) e - k, ?_⟩
  rw [← iterate_add_apply, Nat.sub_add_cancel hk.le]
  exact iterate_minimalPeriod

theorem orb_trans {deg : List (DEdge × DEdge)} (h : PermMap deg) {e x y : DEdge} (he : e ∈ deg.map Prod.fst)
    (hx : x ∈ orb deg e) (hy : y ∈ orb deg x) : y ∈ orb deg e := by
  obtain ⟨k, rfl⟩ := (mem_orb h he x).1 hx
  obtain ⟨m, rfl⟩ := (mem_orb h (degIter_key h he k) y).1 hy
  rw [mem_orb h he]
  exact ⟨m + k, iterate_add_apply ..⟩

theorem orb_key {deg : List (DEdge × DEdge)} (h : PermMap deg) {e x : DEdge} (he : e ∈ deg.map Prod.fst)
    (hx : x ∈ orb deg e) : x ∈ deg.map Prod.fst := by
  obtain ⟨k, rfl⟩ := (mem_orb h he x).1 hx
  exact degIter_key h he k

theorem orb_length_le {deg : List (DEdge × DEdge)} (h : PermMap deg) {e : DEdge} (he : e ∈ deg.map Prod.fst) :
    minimalPeriod (degNext deg) e ≤ deg.length := by
  have h1 : (orb deg e).length = minimalPeriod (degNext deg) e := by simp [orb]
  rw [← h1]
  have : (orb deg e).Subperm (deg.map Prod.fst) := (orb_nodup deg e).subperm fun x hx => orb_key h he hx
  simpa using this.length_le

/-- the walk collects exactly the loop. -/
theorem degWalk_eq {deg : List (DEdge × DEdge)} (h : PermMap deg) {e : DEdge} (he : e ∈ deg.map Prod.fst) :
    ∀ (r k fuel : ℕ), 1 ≤ k → k + r = minimalPeriod (degNext deg) e → r < fuel →
      degWalk deg e fuel ((degNext deg)^[k] e) ((degNext deg)^[2 * k] e)
        ((List.range k).map fun k => (degNext deg)^[k] e) = some (orb deg e) := by
  intro r
  induction r with
  | zero =>
    intro k fuel hk hkr hf
    obtain ⟨m, rfl⟩ : ∃ m, fuel = m + 1 := ⟨fuel - 1, by omega⟩
    unfold degWalk
    have : (degNext deg)^[k] e = e := by
      rw [show k = minimalPeriod (degNext deg) e from by omega]; exact iterate_minimalPeriod
    rw [if_pos (.inl this)]
    unfold orb
    rw [show k = minimalPeriod (degNext deg) e from by omega]
  | succ r ih =>
    intro k fuel hk hkr hf
    obtain ⟨m, rfl⟩ : ∃ m, fuel = m + 1 := ⟨fuel - 1, by omega⟩
    unfold degWalk
    have hne1 : ¬ (degNext deg)^[k] e = e := by
      intro heq
      have := IsPeriodicPt.minimalPeriod_le (f := degNext deg) (x := e) (n := k) (by omega) heq
      omega
    have hne2 : ¬ (degNext deg)^[k] e = (degNext deg)^[2 * k] e := by
      intro heq
      rw [two_mul, iterate_add_apply] at heq
      -- f^[k] injective on keys, so e = f^[k] e
      have hinj : ∀ n x y, x ∈ deg.map Prod.fst → y ∈ deg.map Prod.fst →
          (degNext deg)^[n] x = (degNext deg)^[n] y → x = y := by
        intro n
        induction n with
        | zero => intro x y _ _ h; exact h
        | succ n ihn =>
          intro x y hx hy hxy
          rw [iterate_succ_apply', iterate_succ_apply'] at hxy
          exact ihn x y hx hy (degNext_inj h (degIter_key h hx n) (degIter_key h hy n) hxy)
      exact hne1 (hinj k e _ he (degIter_key h he k) heq).symm
    rw [if_neg (by push Not; exact ⟨hne1, hne2⟩)]
    have i1 := degInc_eq h (degIter_key h he k)
    have i2 := degInc_eq h (degIter_key h he (2 * k))
    have i3 := degInc_eq h (degNext_key h (degIter_key h he (2 * k)))
    rw [i1, i2, Option.bind_some, i3]
    simp only
    have := ih (k + 1) m (by omega) (by omega) (by omega)
    rw [← this]
    congr 1
    · rw [iterate_succ_apply']
    · rw [show 2 * (k + 1) = 2 * k + 1 + 1 from by omega, iterate_succ_apply', iterate_succ_apply']
    · rw [List.range_succ, List.map_append]; rfl

/-- processing one key. -/
theorem facesStep_eq (s : FaceCollapser) (h : PermMap s.deg) {e : DEdge} (he : e ∈ s.deg.map Prod.fst)
    (avail : List DEdge) (out : List (ℤ × List DEdge)) :
    facesStep s (some (avail, out)) e =
      if e ∉ avail then some (avail, out)
      else if s.face e < 0 then some (avail.filter (· ≠ e), out)
      else some (avail.filter (· ∉ orb s.deg e), out ++ [(s.face e, orb s.deg e)]) := by
  unfold facesStep
  simp only [Option.bind_some]
  split
  · rfl
  · split
    · rfl
    · rw [degInc_eq h he, Option.bind_some, degInc_eq h (degNext_key h he), Option.bind_some]
      have hpos := minimalPeriod_pos_of_mem_periodicPts (deg_periodic h he)
      have hle := orb_length_le h he
      have := degWalk_eq h he (minimalPeriod (degNext s.deg) e - 1) 1 (s.deg.length + 1) le_rfl (by omega) (by omega)
      simp only [iterate_one, Nat.mul_one] at this
      have e2 : (degNext s.deg)^[2] e = degNext s.deg (degNext s.deg e) := rfl
      rw [e2] at this
      have e3 : (List.range 1).map (fun k => (degNext s.deg)^[k] e) = [e] := rfl
      rw [e3] at this
      rw [this]
      rfl

/-- invariant of the outer loop. -/
theorem faces_inv (s : FaceCollapser) (h : PermMap s.deg)
    (hl : ∀ e ∈ s.deg.map Prod.fst, s.face (degNext s.deg e) = s.face e) (pre : List DEdge)
    (hpre : ∀ e ∈ pre, e ∈ s.deg.map Prod.fst) :
    ∃ avail out, pre.foldl (facesStep s) (some (s.deg.map Prod.fst, [])) = some (avail, out) ∧
      (∀ x, x ∈ avail ↔ x ∈ s.deg.map Prod.fst ∧ ¬ (∃ e ∈ pre, 0 ≤ s.face e ∧ x ∈ orb s.deg e) ∧
        ¬ (x ∈ pre ∧ s.face x < 0)) ∧
      (out.flatMap Prod.snd).Nodup ∧
      (∀ x, x ∈ out.flatMap Prod.snd ↔ ∃ e ∈ pre, 0 ≤ s.face e ∧ x ∈ orb s.deg e) ∧
      (∀ p ∈ out, 0 ≤ p.1 ∧ ∃ e ∈ pre, s.face e = p.1 ∧ p.2 = orb s.deg e) := by
  have hlab : ∀ e ∈ s.deg.map Prod.fst, ∀ x ∈ orb s.deg e, s.face x = s.face e := by
    intro e he x hx
    obtain ⟨k, rfl⟩ := (mem_orb h he x).1 hx
    induction k with
    | zero => rfl
    | succ k ih =>
      rw [iterate_succ_apply', hl _ (degIter_key h he k)]
      exact ih ((mem_orb h he _).2 ⟨k, rfl⟩)
  have hself : ∀ e ∈ s.deg.map Prod.fst, e ∈ orb s.deg e := fun e he => (mem_orb h he e).2 ⟨0, rfl⟩
  induction pre using List.reverseRecOn with
  | nil =>
    refine ⟨s.deg.map Prod.fst, [], rfl, ?_, List.nodup_nil, ?_, nofun⟩
    · intro x; simp
    · intro x; simp
  | append_singleton l e ih =>
    obtain ⟨avail, out, h1, h2, h3, h4, h5⟩ := ih fun x hx => hpre x (List.mem_append_left _ hx)
    have he : e ∈ s.deg.map Prod.fst := hpre e (by simp)
    have hl' : ∀ x ∈ l, x ∈ s.deg.map Prod.fst := fun x hx => hpre x (List.mem_append_left _ hx)
    rw [List.foldl_append, List.foldl_cons, List.foldl_nil, h1, facesStep_eq s h he]
    have h5' : ∀ p ∈ out, 0 ≤ p.1 ∧ ∃ e' ∈ l ++ [e], s.face e' = p.1 ∧ p.2 = orb s.deg e' := by
      intro p hp
      obtain ⟨a, e', he', b⟩ := h5 p hp
      exact ⟨a, e', List.mem_append_left _ he', b⟩
    by_cases hav : e ∈ avail
    · rw [if_neg (not_not.2 hav)]
      have hav' := (h2 e).1 hav
      by_cases hneg : s.face e < 0
      · rw [if_pos hneg]
        refine ⟨_, _, rfl, ?_, h3, ?_, h5'⟩
        · intro x
          rw [List.mem_filter, h2 x]
          simp only [List.mem_append, List.mem_singleton, ne_eq, decide_eq_true_eq]
          constructor
          · rintro ⟨⟨a, b, c⟩, d⟩
            refine ⟨a, ?_, ?_⟩
            · rintro ⟨e', he' | rfl, hf, hx⟩
              · exact b ⟨e', he', hf, hx⟩
              · omega
            · rintro ⟨h' | h', hf⟩
              · exact c ⟨h', hf⟩
              · exact d h'
          · rintro ⟨a, b, c⟩
            refine ⟨⟨a, ?_, ?_⟩, ?_⟩
            · rintro ⟨e', he', hf, hx⟩; exact b ⟨e', .inl he', hf, hx⟩
            · rintro ⟨h', hf⟩; exact c ⟨.inl h', hf⟩
            · rintro rfl; exact c ⟨.inr rfl, hneg⟩
        · intro x
          rw [h4 x]
          constructor
          · rintro ⟨e', he', b⟩; exact ⟨e', List.mem_append_left _ he', b⟩
          · rintro ⟨e', he', hf, hx⟩
            rcases List.mem_append.1 he' with he' | he'
            · exact ⟨e', he', hf, hx⟩
            · rw [List.mem_singleton] at he'; subst he'; omega
      · rw [if_neg hneg]
        have hdisj : ∀ x ∈ orb s.deg e, ¬ ∃ e' ∈ l, 0 ≤ s.face e' ∧ x ∈ orb s.deg e' := by
          rintro x hx ⟨e', he', hf, hx'⟩
          refine hav'.2.1 ⟨e', he', hf, ?_⟩
          exact orb_trans h (hl' e' he') hx' (orb_symm h he hx)
        refine ⟨_, _, rfl, ?_, ?_, ?_, ?_⟩
        · intro x
          rw [List.mem_filter, h2 x]
          simp only [List.mem_append, List.mem_singleton, decide_eq_true_eq]
          constructor
          · rintro ⟨⟨a, b, c⟩, d⟩
            refine ⟨a, ?_, ?_⟩
            · rintro ⟨e', he' | rfl, hf, hx⟩
              · exact b ⟨e', he', hf, hx⟩
              · exact d hx
            · rintro ⟨h' | rfl, hf⟩
              · exact c ⟨h', hf⟩
              · exact hneg hf
          · rintro ⟨a, b, c⟩
            refine ⟨⟨a, ?_, ?_⟩, ?_⟩
            · rintro ⟨e', he', hf, hx⟩; exact b ⟨e', .inl he', hf, hx⟩
            · rintro ⟨h', hf⟩; exact c ⟨.inl h', hf⟩
            · intro hx; exact b ⟨e, .inr rfl, by omega, hx⟩
        · rw [List.flatMap_append, List.nodup_append]
          refine ⟨h3, by simpa using orb_nodup s.deg e, ?_⟩
          rintro x hx y hy rfl
          have hy' : x ∈ orb s.deg e := by simpa using hy
          exact hdisj x hy' ((h4 x).1 hx)
        · intro x
          rw [List.flatMap_append, List.mem_append, h4 x]
          simp only [List.flatMap_cons, List.flatMap_nil, List.append_nil]
          constructor
          · rintro (⟨e', he', b⟩ | hx)
            · exact ⟨e', List.mem_append_left _ he', b⟩
            · exact ⟨e, by simp, by omega, hx⟩
          · rintro ⟨e', he', hf, hx⟩
            rcases List.mem_append.1 he' with he' | he'
            · exact .inl ⟨e', he', hf, hx⟩
            · rw [List.mem_singleton] at he'; subst he'; exact .inr hx
        · intro p hp
          rcases List.mem_append.1 hp with hp | hp
          · exact h5' p hp
          · rw [List.mem_singleton] at hp
            subst hp
            exact ⟨by simp only; omega, e, by simp, rfl, rfl⟩
    · rw [if_pos hav]
      have hdone : (∃ e' ∈ l, 0 ≤ s.face e' ∧ e ∈ orb s.deg e') ∨ (e ∈ l ∧ s.face e < 0) := by
        by_contra hc
        push Not at hc
        refine hav ((h2 e).2 ⟨he, ?_, ?_⟩)
        · rintro ⟨e', he', hf, hx⟩; exact hc.1 e' he' hf hx
        · rintro ⟨a, b⟩; have := hc.2 a; omega
      have hsame : ∀ x, (∃ e' ∈ l ++ [e], 0 ≤ s.face e' ∧ x ∈ orb s.deg e') ↔
          ∃ e' ∈ l, 0 ≤ s.face e' ∧ x ∈ orb s.deg e' := by
        intro x
        constructor
        · rintro ⟨e', he', hf, hx⟩
          rcases List.mem_append.1 he' with he' | he'
          · exact ⟨e', he', hf, hx⟩
          · rw [List.mem_singleton] at he'
            subst he'
            rcases hdone with ⟨e'', he'', hf'', hx''⟩ | ⟨a, b⟩
            · exact ⟨e'', he'', hf'', orb_trans h (hl' e'' he'') hx'' hx⟩
            · omega
        · rintro ⟨e', he', b⟩; exact ⟨e', List.mem_append_left _ he', b⟩
      refine ⟨_, _, rfl, ?_, h3, ?_, h5'⟩
      · intro x
        rw [h2 x, hsame x]
        simp only [List.mem_append, List.mem_singleton]
        constructor
        · rintro ⟨a, b, c⟩
          refine ⟨a, b, ?_⟩
          rintro ⟨h' | rfl, hf⟩
          · exact c ⟨h', hf⟩
          · rcases hdone with ⟨e'', he'', hf'', hx''⟩ | hd
            · exact b ⟨e'', he'', hf'', hx''⟩
            · exact c hd
        · rintro ⟨a, b, c⟩
          exact ⟨a, b, fun ⟨h', hf⟩ => c ⟨.inl h', hf⟩⟩
      · intro x; rw [h4 x, hsame x]

/-- a loop of directed edges each ending where the next starts is determined by its first vertices. -/
theorem orb_eq_loopEdges {deg : List (DEdge × DEdge)} (h : PermMap deg)
    (hc : ∀ e ∈ deg.map Prod.fst, (degNext deg e).1 = e.2) {e : DEdge} (he : e ∈ deg.map Prod.fst) :
    loopEdges ((orb deg e).map Prod.fst) = orb deg e := by
  unfold loopEdges
  have hpos := minimalPeriod_pos_of_mem_periodicPts (deg_periodic h he)
  refine List.ext_getElem (by simp) ?_
  intro i h1 h2
  have hi : i < minimalPeriod (degNext deg) e := by simpa [orb] using h2
  rw [List.getElem_zip, List.getElem_rotate]
  simp only [orb, List.getElem_map, List.getElem_range, List.length_map, List.length_range]
  refine Prod.ext rfl ?_
  simp only
  rw [← hc _ (degIter_key h he i), ← iterate_succ_apply' (degNext deg)]
  rw [iterate_mod_minimalPeriod_eq (f := degNext deg)]

namespace FaceCollapser

theorem permMap_unify {s : FaceCollapser} (h : s.Ok) (hdeg : s.deg = []) (ord : ℤ → List ℤ)
    (hord : ∀ a, (ord a).Perm (s.ring a)) :
    PermMap (s.unify ord).deg ∧ (∀ e, e ∈ (s.unify ord).deg.map Prod.fst ↔ e ∈ s.edgeList) ∧
    (∀ e ∈ (s.unify ord).deg.map Prod.fst, (degNext (s.unify ord).deg e).1 = e.2) := by
  obtain ⟨h1, h2, h3, h4, h5⟩ := unify_spec h hdeg ord hord
  obtain ⟨p1, p2, p3, p4, p5⟩ := loopPairs_spec h ord hord
  have hnd : (s.unify ord).deg.Nodup := by
    rw [List.nodup_iff_pairwise_ne]
    refine h4.imp ?_
    rintro a b hab rfl
    rw [strictTotal_edgeLt.irrefl] at hab; cases hab
  have hperm : (s.unify ord).deg.Perm (s.loopPairs ord) :=
    (List.perm_ext_iff_of_nodup hnd (List.Nodup.of_map _ p1)).2 h5
  have hpm : PermMap (s.unify ord).deg := by
    refine ⟨h4, (hperm.map Prod.snd).nodup_iff.2 p2, ?_⟩
    intro e he
    rw [(hperm.map Prod.fst).mem_iff, p3, ← p4]
    exact (hperm.map Prod.snd).mem_iff.1 he
  refine ⟨hpm, fun e => by rw [(hperm.map Prod.fst).mem_iff, p3], ?_⟩
  intro e he
  exact (p5 _ ((h5 _).1 (degNext_mem hpm he))).symm

/-- ids are constant along loops. -/
theorem label_next {s : FaceCollapser} (h : s.Ok) (hdeg : s.deg = []) (ord : ℤ → List ℤ)
    (hord : ∀ a, (ord a).Perm (s.ring a)) (R : DsuRoots (s.unify ord).ds) (e : DEdge)
    (he : e ∈ (s.unify ord).deg.map Prod.fst) :
    (s.bakeSimple ord R).face (degNext (s.unify ord).deg e) = (s.bakeSimple ord R).face e := by
  obtain ⟨h1, h2, h3, h4, h5⟩ := unify_spec h hdeg ord hord
  obtain ⟨q1, q2, q3⟩ := permMap_unify h hdeg ord hord
  have hel : (s.unify ord).edgeList = s.edgeList := by unfold edgeList; rw [h1]
  have hf : ∀ x, (s.unify ord).face x = s.face x := by intro x; unfold face; rw [h1]
  unfold bakeSimple
  rw [C36_same_face_iff_joined _ (ok_unify h hdeg ord hord) R _ _ (by rw [hel, ← q2]; exact degNext_key q1 he)
    (by rw [hel, ← q2]; exact he), hf, hf]
  refine .symm _ _ (.rel _ _ ?_)
  rw [h3]
  exact List.mem_append_right _ (List.mem_map.2 ⟨_, (h5 _).1 (degNext_mem q1 he), rfl⟩)

/-- **C35.** After `bake` without hole merging, for any neighbour order at each vertex, the loops returned by `faces()`
partition the directed edges that are not marked for removal: the lookups succeed, the walk terminates, each such
directed edge occurs exactly once in exactly one loop, each loop carries the id of its edges, and nothing else occurs. -/
theorem C35_loops_partition_edges (s : FaceCollapser) (h : s.Ok) (hdeg : s.deg = []) (ord : ℤ → List ℤ)
    (hord : ∀ a, (ord a).Perm (s.ring a)) (R : DsuRoots (s.unify ord).ds) :
    ∃ out, (s.bakeSimple ord R).faces = some out ∧
      (out.flatMap fun p => loopEdges p.2).Perm
        (s.edgeList.filter fun e => decide (0 ≤ (s.bakeSimple ord R).face e)) ∧
      ∀ p ∈ out, 0 ≤ p.1 ∧ p.2 ≠ [] ∧ ∀ e ∈ loopEdges p.2, (s.bakeSimple ord R).face e = p.1 := by
  obtain ⟨q1, q2, q3⟩ := permMap_unify h hdeg ord hord
  have hd : (s.bakeSimple ord R).deg = (s.unify ord).deg := rfl
  obtain ⟨avail, out, a1, _, a3, a4, a5⟩ := faces_inv (s.bakeSimple ord R) (by rw [hd]; exact q1)
    (by rw [hd]; exact label_next h hdeg ord hord R) ((s.bakeSimple ord R).deg.map Prod.fst) (fun e he => he)
  rw [hd] at a1 a4 a5
  have hloop : ∀ p ∈ out, loopEdges (p.2.map Prod.fst) = p.2 := by
    intro p hp
    obtain ⟨_, e, he, _, hpe⟩ := a5 p hp
    rw [hpe]
    exact orb_eq_loopEdges q1 q3 he
  refine ⟨out.map fun p => (p.1, p.2.map Prod.fst), ?_, ?_, ?_⟩
  · unfold faces edgeLoops
    rw [hd, a1]; rfl
  · have e1 : ((out.map fun p => (p.1, p.2.map Prod.fst)).flatMap fun p => loopEdges p.2) = out.flatMap Prod.snd := by
      rw [List.flatMap_map]
      refine List.flatMap_congr ?_
      intro p hp
      exact hloop p hp
    rw [e1]
    refine (List.perm_ext_iff_of_nodup a3 ((edgeList_nodup h.sorted).filter _)).2 fun x => ?_
    rw [a4 x, List.mem_filter, decide_eq_true_eq, ← q2]
    constructor
    · rintro ⟨e, he, hf, hx⟩
      obtain ⟨k, rfl⟩ := (mem_orb q1 he x).1 hx
      refine ⟨degIter_key q1 he k, ?_⟩
      clear hx
      induction k with
      | zero => exact hf
      | succ k ih =>
        rw [iterate_succ_apply', label_next h hdeg ord hord R _ (degIter_key q1 he k)]; exact ih
    · rintro ⟨hx, hf⟩
      exact ⟨x, hx, hf, (mem_orb q1 hx x).2 ⟨0, rfl⟩⟩
  · intro p hp
    obtain ⟨p', hp', rfl⟩ := List.mem_map.1 hp
    obtain ⟨b0, e, he, hfe, hpe⟩ := a5 p' hp'
    have hmem : e ∈ p'.2 := by rw [hpe]; exact (mem_orb q1 he e).2 ⟨0, rfl⟩
    refine ⟨b0, ?_, ?_⟩
    · simp only [ne_eq, List.map_eq_nil_iff]
      intro hnil; rw [hnil] at hmem; cases hmem
    · simp only
      rw [hloop p' hp']
      intro x hx
      rw [hpe] at hx
      obtain ⟨k, rfl⟩ := (mem_orb q1 he x).1 hx
      rw [← hfe]
      clear hx
      induction k with
      | zero => rfl
      | succ k ih =>
        rw [iterate_succ_apply', label_next h hdeg ord hord R _ (degIter_key q1 he k)]; exact ih

/-- the next directed edge of a loop, as recorded by `unify_boundary_loops`. -/
def next (s : FaceCollapser) (e : DEdge) : DEdge := degNext s.deg e

/-- **C35.** The map from a directed edge to the next one is a bijection of the directed edges, each edge ends where
the next one starts, and at each vertex the pairs are exactly (edge in from a neighbour, edge out to the preceding
neighbour in the cyclic order used). -/
theorem C35_next_bijective (s : FaceCollapser) (h : s.Ok) (hdeg : s.deg = []) (ord : ℤ → List ℤ)
    (hord : ∀ a, (ord a).Perm (s.ring a)) :
    (∀ e ∈ s.edgeList, (s.unify ord).next e ∈ s.edgeList ∧ ((s.unify ord).next e).1 = e.2) ∧
    (∀ e ∈ s.edgeList, ∀ e' ∈ s.edgeList, (s.unify ord).next e = (s.unify ord).next e' → e = e') ∧
    (∀ e' ∈ s.edgeList, ∃ e ∈ s.edgeList, (s.unify ord).next e = e') ∧
    (∀ a i (hi : i < (ord a).length), (s.unify ord).next ((ord a)[(i + 1) % (ord a).length]'(Nat.mod_lt _ (by omega)), a) =
      (a, (ord a)[i])) := by
  obtain ⟨q1, q2, q3⟩ := permMap_unify h hdeg ord hord
  obtain ⟨h1, h2, h3, h4, h5⟩ := unify_spec h hdeg ord hord
  obtain ⟨p1, p2, p3, p4, p5⟩ := loopPairs_spec h ord hord
  refine ⟨?_, ?_, ?_, ?_⟩
  · intro e he
    rw [← q2] at he ⊢
    exact ⟨degNext_key q1 he, q3 e he⟩
  · intro e he e' he' heq
    rw [← q2] at he he'
    exact degNext_inj q1 he he' heq
  · intro e' he'
    rw [← p4] at he'
    obtain ⟨⟨k, v⟩, hm, rfl⟩ := List.mem_map.1 he'
    have hk : k ∈ s.edgeList := (p3 k).1 (List.mem_map.2 ⟨_, hm, rfl⟩)
    refine ⟨k, hk, ?_⟩
    unfold next degNext
    rw [OMap.find_of_mem strictTotal_edgeLt h4 ((h5 _).2 hm)]
    rfl
  · intro a i hi
    have hin : a ∈ s.ringKeys := by
      have : (ord a)[i] ∈ s.ring a := (hord a).mem_iff.1 (List.getElem_mem hi)
      exact mem_ringKeys.2 ⟨_, mem_ring.1 this⟩
    have hp : (((ord a)[(i + 1) % (ord a).length]'(Nat.mod_lt _ (by omega)), a), (a, (ord a)[i])) ∈ s.loopPairs ord := by
      unfold loopPairs
      rw [List.mem_flatMap]
      refine ⟨a, hin, ?_⟩
      unfold ringPairs
      rw [List.mem_map]
      refine ⟨((ord a)[i], (ord a)[(i + 1) % (ord a).length]'(Nat.mod_lt _ (by omega))), ?_, rfl⟩
      unfold cyclicPairs
      rw [List.mem_iff_getElem]
      refine ⟨i, by simpa using hi, ?_⟩
      rw [List.getElem_zip, List.getElem_rotate]
    unfold next degNext
    rw [OMap.find_of_mem strictTotal_edgeLt h4 ((h5 _).2 hp)]
    rfl

/-- **C35.** Without removal marks two directed edges have the same face id iff one is reached from the other by
following the loop: the faces are exactly the loops. -/
theorem C35_face_iff_same_loop (edges : List DEdge) (ord : ℤ → List ℤ)
    (hord : ∀ a, (ord a).Perm ((make edges).ring a)) (R : DsuRoots ((make edges).unify ord).ds)
    (e e' : DEdge) (he : e ∈ (make edges).edgeList) (he' : e' ∈ (make edges).edgeList) :
    ((make edges).bakeSimple ord R).face e = ((make edges).bakeSimple ord R).face e' ↔
      ∃ k, ((make edges).unify ord).next^[k] e = e' := by
  obtain ⟨m1, m2, m3, m4, m5, m6, m7, m8⟩ := make_inv edges
  have h := ok_make edges
  generalize hs : make edges = s at *
  obtain ⟨q1, q2, q3⟩ := permMap_unify h m1 ord hord
  obtain ⟨h1, h2, h3, h4, h5⟩ := unify_spec h m1 ord hord
  have hel : (s.unify ord).edgeList = s.edgeList := by unfold edgeList; rw [h1]
  have hf : ∀ x, (s.unify ord).face x = s.face x := by intro x; unfold face; rw [h1]
  have hfinj : ∀ x ∈ s.edgeList, ∀ y ∈ s.edgeList, s.face x = s.face y → x = y := by
    intro x hx y hy hxy
    obtain ⟨c, hc⟩ := (mem_edgeList_iff h.sorted x).1 hx
    obtain ⟨c', hc'⟩ := (mem_edgeList_iff h.sorted y).1 hy
    rw [join_conn_iff_of_find x c hc, join_conn_iff_of_find y c' hc'] at hxy
    have := m8 _ (OMap.mem_of_find strictTotal_edgeLt hc) _ (OMap.mem_of_find strictTotal_edgeLt hc') hxy
    exact congrArg Prod.fst this
  unfold bakeSimple
  rw [C36_same_face_iff_joined _ (ok_unify h m1 ord hord) R _ _ (by rw [hel]; exact he) (by rw [hel]; exact he'), hf, hf]
  have key : ∀ c c', (s.unify ord).ds.Conn c c' → c = c' ∨ ∃ x ∈ s.edgeList, ∃ y ∈ s.edgeList, s.face x = c ∧ s.face y = c' ∧
      y ∈ orb (s.unify ord).deg x := by
    intro c c' hc
    induction hc with
    | rel a b hab =>
      rw [h3, m2, List.nil_append] at hab
      obtain ⟨p, hp, hpe⟩ := List.mem_map.1 hab
      have hp' := (h5 p).2 hp
      have hk : p.1 ∈ (s.unify ord).deg.map Prod.fst := List.mem_map.2 ⟨p, hp', rfl⟩
      have hnx : degNext (s.unify ord).deg p.1 = p.2 := by
        unfold degNext
        rw [OMap.find_of_mem strictTotal_edgeLt h4 (k := p.1) (v := p.2) hp']; rfl
      refine .inr ⟨p.1, (q2 _).1 hk, p.2, ?_, (Prod.mk.inj hpe).1, (Prod.mk.inj hpe).2, ?_⟩
      · rw [← hnx]; exact (q2 _).1 (degNext_key q1 hk)
      · rw [mem_orb q1 hk]; exact ⟨1, hnx⟩
    | refl a => exact .inl rfl
    | symm a b _ ih =>
      rcases ih with rfl | ⟨x, hx, y, hy, h1, h2, h3⟩
      · exact .inl rfl
      · exact .inr ⟨y, hy, x, hx, h2, h1, orb_symm q1 ((q2 _).2 hx) h3⟩
    | trans a b c _ _ i1 i2 =>
      rcases i1 with rfl | ⟨x, hx, y, hy, h1, h2, h3⟩
      · exact i2
      · rcases i2 with rfl | ⟨x', hx', y', hy', h1', h2', h3'⟩
        · exact .inr ⟨x, hx, y, hy, h1, h2, h3⟩
        · have := hfinj y hy x' hx' (h2.trans h1'.symm)
          subst this
          exact .inr ⟨x, hx, y', hy', h1, h2', orb_trans q1 ((q2 _).2 hx) h3 h3'⟩
  constructor
  · intro hc
    rcases key _ _ hc with heq | ⟨x, hx, y, hy, hx1, hy1, horb⟩
    · exact ⟨0, hfinj e he e' he' heq⟩
    · have := hfinj x hx e he hx1
      subst this
      have := hfinj y hy e' he' hy1
      subst this
      exact (mem_orb q1 ((q2 _).2 hx) _).1 horb
  · rintro ⟨k, rfl⟩
    clear he'
    induction k with
    | zero => exact .refl _
    | succ k ih =>
      rw [iterate_succ_apply']
      refine Dsu.conn_trans ih (.rel _ _ ?_)
      rw [h3]
      have hk : ((s.unify ord).next)^[k] e ∈ (s.unify ord).deg.map Prod.fst := degIter_key q1 ((q2 _).2 he) k
      exact List.mem_append_right _ (List.mem_map.2 ⟨_, (h5 _).1 (degNext_mem q1 hk), rfl⟩)

/-- two triangles sharing an edge, neighbours in index order: the loops are the two triangles and the outside. -/
def demoGraph : FaceCollapser := make [(0, 1), (1, 2), (2, 0), (1, 3), (3, 2)]

/-- the counter-clockwise order of the neighbours when the vertices are at (0,0), (1,0), (0,1), (1,1). -/
def demoOrd (a : ℤ) : List ℤ :=
  if a = 1 then [2, 0, 3] else if a = 2 then [0, 1, 3] else if a = 3 then [2, 1] else demoGraph.ring a

theorem demoOrd_perm (a : ℤ) : (demoOrd a).Perm (demoGraph.ring a) := by
  unfold demoOrd
  split
  · rename_i h; subst h; decide +kernel
  · split
    · rename_i h; subst h; decide +kernel
    · split
      · rename_i h; subst h; decide +kernel
      · exact List.Perm.refl _

example : (demoGraph.bakeSimple demoOrd (ok_unify (ok_make _) rfl demoOrd demoOrd_perm).ds.roots).faces =
    some [(0, [0, 1, 2]), (1, [0, 2, 3, 1]), (2, [1, 3, 2])] := by decide +kernel

end FaceCollapser
end Mandoline
