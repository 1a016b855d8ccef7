import Verif.Gen3.Flags
import Mathlib.Data.Fin.VecNotation

/-!
# C98: the numbers of the faces in grid planes

Transcription of the renumbering of the planar half-edge cells in `CutCellGenerator<3>::bake_faces`
(src/construction/generator3_make_faces.cpp:73, 141-255) and of the collection of the faces in `compute_faces`
(generator3_make_faces.cpp:286-296, 363-406). With TBB the three axes run in parallel and share `face_size`
(generator3_make_faces.cpp:141-143); without it they run one after the other.
-/
namespace Mandoline
namespace Gen3

/-- `(fa >= 0).select(fa + face_size, -1)` on the cell indices of the half-edges of one plane
(generator3_make_faces.cpp:248). -/
def relabelPlane (size : ℤ) (p : List ℤ) : List ℤ := p.map fun a => if 0 ≤ a then a + size else -1

/-- Eigen's `maxCoeff()`. Eigen asserts that the array is not empty; 0 is used then. -/
def maxCoeff : List ℤ → ℤ
  | [] => 0
  | a :: l => l.foldl max a

/-- the state shared by the three axes: `face_size`, and per axis the planes done so far and the value that is about to be
written to `face_size` (generator3_make_faces.cpp:244-250). -/
structure IdState where
  size : ℤ
  out : Fin 3 → List (List ℤ)
  pend : Fin 3 → Option ℤ

/-- one step of axis `t`: either it renumbers its next plane, which reads `face_size` (line 248), or it writes `face_size`
(line 249). Nothing else of the loop body is visible to the other axes. -/
def idStep (planes : Fin 3 → List (List ℤ)) (s : IdState) (t : Fin 3) : IdState :=
  match s.pend t with
  | some v => { s with size := v, pend := Function.update s.pend t none }
  | none =>
    match (planes t)[(s.out t).length]? with
    | none => s
    | some p =>
      { s with
        out := Function.update s.out t (s.out t ++ [relabelPlane s.size p])
        pend := Function.update s.pend t (some (maxCoeff (relabelPlane s.size p) + 1)) }

/-- a run under the schedule `sched`; `n` is `m_cut_faces.size()` (generator3_make_faces.cpp:73). -/
def idRun (planes : Fin 3 → List (List ℤ)) (n : ℤ) (sched : List (Fin 3)) : IdState :=
  sched.foldl (idStep planes) ⟨n, fun _ => [], fun _ => none⟩

/-- the schedule without TBB: axis 0, then axis 1, then axis 2 (generator3_make_faces.cpp:143). -/
def idSequential (planes : Fin 3 → List (List ℤ)) : List (Fin 3) :=
  List.replicate (2 * (planes 0).length) 0 ++ List.replicate (2 * (planes 1).length) 1 ++
    List.replicate (2 * (planes 2).length) 2

/-- `m_faces` (generator3_make_faces.cpp:363-378, 397-406): the cut faces of the mesh, then the faces of the planes, entered
with `map::insert`, which keeps what is already there. -/
def collectFaces {F : Type*} (cut : List (ℤ × F)) (planes : List (List (ℤ × F))) : List (ℤ × F) :=
  planes.foldl (fun m fs => fs.foldl (fun m p => OMap.insertNew intLt p.1 p.2 m) m)
    (cut.foldl (fun m p => OMap.assign intLt p.1 p.2 m) [])

/-! ## specification -/

/-- what the half-edge mesh of a plane gives: every cell index is at least -1 and there is a proper cell. -/
def PlaneOk (p : List ℤ) : Prop := (∀ a ∈ p, -1 ≤ a) ∧ ∃ a ∈ p, 0 ≤ a

/-- all planes with their final ids, axis by axis. -/
def IdState.all (s : IdState) : List (List ℤ) := s.out 0 ++ s.out 1 ++ s.out 2

/-! ## proofs -/

theorem le_foldl_max (l : List ℤ) (a : ℤ) : a ≤ l.foldl max a ∧ ∀ b ∈ l, b ≤ l.foldl max a := by
  induction l generalizing a with
  | nil => simp
  | cons c l ih =>
    rw [List.foldl_cons]
    have := ih (max a c)
    refine ⟨le_trans (le_max_left _ _) this.1, fun b hb => ?_⟩
    rcases List.mem_cons.1 hb with rfl | hb
    · exact le_trans (le_max_right _ _) this.1
    · exact this.2 b hb

theorem le_maxCoeff {l : List ℤ} {a : ℤ} (h : a ∈ l) : a ≤ maxCoeff l := by
  cases l with
  | nil => cases h
  | cons b l =>
    rcases List.mem_cons.1 h with rfl | h
    · exact (le_foldl_max l a).1
    · exact (le_foldl_max l b).2 a h

/-- the sequential renumbering as a recursion. -/
def relabelAll : ℤ → List (List ℤ) → List (List ℤ)
  | _, [] => []
  | n, p :: ps => relabelPlane n p :: relabelAll (maxCoeff (relabelPlane n p) + 1) ps

/-- `face_size` after them. -/
def sizeAfter : ℤ → List (List ℤ) → ℤ
  | n, [] => n
  | n, p :: ps => sizeAfter (maxCoeff (relabelPlane n p) + 1) ps

theorem relabelAll_append (n : ℤ) (a b : List (List ℤ)) :
    relabelAll n (a ++ b) = relabelAll n a ++ relabelAll (sizeAfter n a) b := by
  induction a generalizing n with
  | nil => rfl
  | cons p a ih => simp only [List.cons_append, relabelAll, sizeAfter, ih]

theorem sizeAfter_append (n : ℤ) (a b : List (List ℤ)) : sizeAfter n (a ++ b) = sizeAfter (sizeAfter n a) b := by
  induction a generalizing n with
  | nil => rfl
  | cons p a ih => simp only [List.cons_append, sizeAfter, ih]

theorem run_axis (planes : Fin 3 → List (List ℤ)) (t : Fin 3) :
    ∀ (ps done : List (List ℤ)) (s : IdState), planes t = done ++ ps → (s.out t).length = done.length → s.pend t = none →
      (List.replicate (2 * ps.length) t).foldl (idStep planes) s =
        ⟨sizeAfter s.size ps, Function.update s.out t (s.out t ++ relabelAll s.size ps), s.pend⟩
  | [], done, s, _, _, _ => by
    simp only [List.length_nil, Nat.mul_zero, List.replicate_zero, List.foldl_nil, sizeAfter, relabelAll, List.append_nil,
      Function.update_eq_self]
  | p :: ps, done, s, h, hl, hp => by
    have e : 2 * (p :: ps).length = 2 * ps.length + 1 + 1 := by simp only [List.length_cons]; omega
    rw [e, List.replicate_succ, List.replicate_succ, List.foldl_cons, List.foldl_cons]
    have hget : (planes t)[(s.out t).length]? = some p := by rw [h, hl]; simp
    have e1 : idStep planes s t =
        ⟨s.size, Function.update s.out t (s.out t ++ [relabelPlane s.size p]),
          Function.update s.pend t (some (maxCoeff (relabelPlane s.size p) + 1))⟩ := by
      unfold idStep
      rw [hp, hget]
    have hpend : Function.update (Function.update s.pend t (some (maxCoeff (relabelPlane s.size p) + 1))) t none = s.pend := by
      rw [Function.update_idem, ← hp, Function.update_eq_self]
    have e2 : idStep planes (idStep planes s t) t =
        ⟨maxCoeff (relabelPlane s.size p) + 1, Function.update s.out t (s.out t ++ [relabelPlane s.size p]), s.pend⟩ := by
      rw [e1]
      conv_lhs => unfold idStep
      simp only [Function.update_self, hpend]
    rw [e2, run_axis planes t ps (done ++ [p])]
    · simp only [Function.update_self, Function.update_idem, relabelAll, sizeAfter, List.append_assoc, List.singleton_append]
    · rw [h]; simp
    · simp [hl]
    · exact hp

theorem out_sequential (planes : Fin 3 → List (List ℤ)) (n : ℤ) :
    (idRun planes n (idSequential planes)).all = relabelAll n (planes 0 ++ planes 1 ++ planes 2) ∧
    ∀ t, (idRun planes n (idSequential planes)).out t = relabelAll
      (sizeAfter n ((if t = 0 then [] else planes 0) ++ if t = 2 then planes 1 else [])) (planes t) := by
  unfold idRun idSequential
  rw [List.foldl_append, List.foldl_append, run_axis planes 0 (planes 0) [] _ rfl rfl rfl, run_axis planes 1 (planes 1) [] _ rfl
    (by simp [Function.update_of_ne]) rfl,
    run_axis planes 2 (planes 2) [] _ rfl (by simp [Function.update_of_ne]) rfl]
  refine ⟨?_, fun t => ?_⟩
  · unfold IdState.all
    simp only [relabelAll_append, sizeAfter_append, List.append_assoc]
    simp [Function.update_of_ne]
  · match t with
    | 0 => simp [Function.update_of_ne, sizeAfter]
    | 1 => simp [Function.update_of_ne, sizeAfter]
    | 2 => simp [Function.update_of_ne, sizeAfter_append]

theorem relabelAll_get (n : ℤ) (ps : List (List ℤ)) (h : ∀ p ∈ ps, PlaneOk p) (k : ℕ) (p : List ℤ) (hk : ps[k]? = some p) :
    ∃ m, n ≤ m ∧ (relabelAll n ps)[k]? = some (relabelPlane m p) ∧
      ∀ (j : ℕ) (q : List ℤ), j < k → (relabelAll n ps)[j]? = some q → ∀ a ∈ q, a < m := by
  induction ps generalizing n k with
  | nil => simp at hk
  | cons q ps ih =>
    have hq := h q (by simp)
    obtain ⟨a, ha, ha0⟩ := hq.2
    have hge : n ≤ maxCoeff (relabelPlane n q) + 1 := by
      have : a + n ∈ relabelPlane n q := List.mem_map.2 ⟨a, ha, by rw [if_pos ha0]⟩
      have := le_maxCoeff this
      omega
    cases k with
    | zero =>
      simp only [List.getElem?_cons_zero, Option.some.injEq] at hk
      subst hk
      exact ⟨n, le_rfl, rfl, fun j _ hj => by omega⟩
    | succ k =>
      simp only [List.getElem?_cons_succ] at hk
      obtain ⟨m, hm, h1, h2⟩ := ih (maxCoeff (relabelPlane n q) + 1) (fun p hp => h p (by simp [hp])) k hk
      refine ⟨m, by omega, by simpa [relabelAll] using h1, fun j r hj hr b hb => ?_⟩
      cases j with
      | zero =>
        simp only [relabelAll, List.getElem?_cons_zero, Option.some.injEq] at hr
        subst hr
        have := le_maxCoeff hb
        omega
      | succ j =>
        simp only [relabelAll, List.getElem?_cons_succ] at hr
        exact h2 j r (by omega) hr b hb

theorem relabelAll_length (n : ℤ) (ps : List (List ℤ)) : (relabelAll n ps).length = ps.length := by
  induction ps generalizing n with
  | nil => rfl
  | cons p ps ih => simp [relabelAll, ih]

/-- **C98.** Without TBB: every plane keeps its half-edges and the grouping of its half-edges into cells, half-edges without a
cell stay without one, every cell of a plane gets a number that is not a number of a cut mesh face, and cells of different
planes (of any axes) get different numbers. -/
theorem C98_sequential_ids (planes : Fin 3 → List (List ℤ)) (n : ℤ) (hn : 0 ≤ n) (hp : ∀ t, ∀ p ∈ planes t, PlaneOk p) :
    (∀ t (k : ℕ) (p : List ℤ), (planes t)[k]? = some p → ∃ q, ((idRun planes n (idSequential planes)).out t)[k]? = some q ∧
      q.length = p.length ∧
      ∀ (i : ℕ) (a b : ℤ), p[i]? = some a → q[i]? = some b →
        (a = -1 → b = -1) ∧ (0 ≤ a → n ≤ b) ∧
        ∀ (j : ℕ) (a' b' : ℤ), p[j]? = some a' → q[j]? = some b' → (a = a' ↔ b = b')) ∧
    (∀ t, ((idRun planes n (idSequential planes)).out t).length = (planes t).length) ∧
    ∀ t t' (k k' : ℕ) (q q' : List ℤ), ((idRun planes n (idSequential planes)).out t)[k]? = some q →
      ((idRun planes n (idSequential planes)).out t')[k']? = some q' → (t, k) ≠ (t', k') →
      ∀ a ∈ q, ∀ b ∈ q', 0 ≤ a → a ≠ b := by
  have hok : ∀ p ∈ planes 0 ++ planes 1 ++ planes 2, PlaneOk p := by
    intro p h
    simp only [List.mem_append] at h
    rcases h with (h | h) | h
    · exact hp 0 p h
    · exact hp 1 p h
    · exact hp 2 p h
  obtain ⟨hall, hout⟩ := out_sequential planes n
  have hlen : ∀ t, ((idRun planes n (idSequential planes)).out t).length = (planes t).length := by
    intro t; rw [hout t, relabelAll_length]
  -- position of plane `k` of axis `t` in the whole list
  let off : Fin 3 → ℕ := ![0, (planes 0).length, (planes 0).length + (planes 1).length]
  have hpos : ∀ t (k : ℕ), k < (planes t).length →
      (planes 0 ++ planes 1 ++ planes 2)[off t + k]? = (planes t)[k]? ∧
      (relabelAll n (planes 0 ++ planes 1 ++ planes 2))[off t + k]? = ((idRun planes n (idSequential planes)).out t)[k]? := by
    intro t k hk
    rw [← hall]
    unfold IdState.all
    have key : ∀ (A : Fin 3 → List (List ℤ)), (∀ t, (A t).length = (planes t).length) →
        (A 0 ++ A 1 ++ A 2)[off t + k]? = (A t)[k]? := by
      intro A hA
      have h0 := hA 0; have h1 := hA 1; have ht := hA t
      match t with
      | 0 =>
        have hk' : k < (A 0).length := by omega
        rw [List.getElem?_append_left (by simp [off]; omega), List.getElem?_append_left (by simp [off]; omega)]
        simp [off]
      | 1 =>
        have hk' : k < (A 1).length := by omega
        rw [List.getElem?_append_left (by simp [off]; omega), List.getElem?_append_right (by simp [off]; omega)]
        simp [off, h0]
      | 2 =>
        rw [List.getElem?_append_right (by simp [off]; omega)]
        simp [off, h0, h1]
    exact ⟨key planes fun _ => rfl, key _ hlen⟩
  have hoff : ∀ t t' (k k' : ℕ), k < (planes t).length → k' < (planes t').length → off t + k = off t' + k' → t = t' ∧ k = k' := by
    intro t t' k k' h h' e
    match t, t' with
    | 0, 0 => simp [off] at e; exact ⟨rfl, e⟩
    | 0, 1 => simp [off] at e; omega
    | 0, 2 => simp [off] at e; omega
    | 1, 0 => simp [off] at e; omega
    | 1, 1 => simp [off] at e; exact ⟨rfl, e⟩
    | 1, 2 => simp [off] at e; omega
    | 2, 0 => simp [off] at e; omega
    | 2, 1 => simp [off] at e; omega
    | 2, 2 => simp [off] at e; exact ⟨rfl, e⟩
  refine ⟨fun t k p hk => ?_, hlen, ?_⟩
  · have hk' := (List.getElem?_eq_some_iff.1 hk).1
    obtain ⟨e1, e2⟩ := hpos t k hk'
    obtain ⟨m, hm, h1, -⟩ := relabelAll_get n _ hok (off t + k) p (by rw [e1, hk])
    refine ⟨relabelPlane m p, by rw [← e2, h1], by unfold relabelPlane; rw [List.length_map], fun i a b ha hb => ?_⟩
    have hval : ∀ (i : ℕ) (a b : ℤ), p[i]? = some a → (relabelPlane m p)[i]? = some b →
        -1 ≤ a ∧ b = if 0 ≤ a then a + m else -1 := by
      intro i a b ha hb
      refine ⟨(hp t p (List.mem_of_getElem? hk)).1 a (List.mem_of_getElem? ha), ?_⟩
      unfold relabelPlane at hb
      rw [List.getElem?_map, ha] at hb
      exact (Option.some_inj.1 hb).symm
    obtain ⟨a1, e⟩ := hval i a b ha hb
    refine ⟨fun h => ?_, fun h => ?_, fun j a' b' ha' hb' => ?_⟩
    · rw [e, if_neg (by omega)]
    · rw [e, if_pos h]; omega
    · obtain ⟨a2, e'⟩ := hval j a' b' ha' hb'
      by_cases h : 0 ≤ a <;> by_cases h' : 0 ≤ a'
      · rw [if_pos h] at e; rw [if_pos h'] at e'; omega
      · rw [if_pos h] at e; rw [if_neg h'] at e'; omega
      · rw [if_neg h] at e; rw [if_pos h'] at e'; omega
      · rw [if_neg h] at e; rw [if_neg h'] at e'; omega
  · -- different planes
    have key : ∀ t t' (k k' : ℕ) (q q' : List ℤ), ((idRun planes n (idSequential planes)).out t)[k]? = some q →
        ((idRun planes n (idSequential planes)).out t')[k']? = some q' → off t + k < off t' + k' →
        ∀ a ∈ q, ∀ b ∈ q', 0 ≤ b → a < b := by
      intro t t' k k' q q' hq hq' hlt a ha b hb hb0
      have hk := (List.getElem?_eq_some_iff.1 hq).1
      have hk' := (List.getElem?_eq_some_iff.1 hq').1
      rw [hlen] at hk hk'
      obtain ⟨e1, e2⟩ := hpos t k hk
      obtain ⟨e1', e2'⟩ := hpos t' k' hk'
      obtain ⟨m, hm, h1, h2⟩ := relabelAll_get n _ hok (off t' + k') ((planes t')[k']) (by rw [e1']; simp [hk'])
      have h3 := h2 (off t + k) q hlt (by rw [e2, hq]) a ha
      rw [e2', hq'] at h1
      have h1 := Option.some_inj.1 h1
      rw [h1] at hb
      obtain ⟨c, hc, rfl⟩ := List.mem_map.1 hb
      split at hb0
      · rename_i h0; rw [if_pos h0]; omega
      · omega
    intro t t' k k' q q' hq hq' hne a ha b hb h0 hab
    have hk := (List.getElem?_eq_some_iff.1 hq).1
    have hk' := (List.getElem?_eq_some_iff.1 hq').1
    rw [hlen] at hk hk'
    rcases Nat.lt_trichotomy (off t + k) (off t' + k') with h | h | h
    · have := key t t' k k' q q' hq hq' h a ha b hb (hab ▸ h0); omega
    · exact hne (by rw [(hoff t t' k k' hk hk' h).1, (hoff t t' k k' hk hk' h).2])
    · have := key t' t k' k q' q hq' hq h b hb a ha h0; omega

/-- **C98.** In every schedule of the three axes, also with TBB, `face_size` never drops below the number of cut mesh
faces: no cell of a plane gets the number of a cut mesh face. -/
theorem C98_any_schedule (planes : Fin 3 → List (List ℤ)) (n : ℤ) (hp : ∀ t, ∀ p ∈ planes t, PlaneOk p)
    (sched : List (Fin 3)) (t : Fin 3) (q : List ℤ) (hq : q ∈ (idRun planes n sched).out t) (a : ℤ) (ha : a ∈ q) :
    a = -1 ∨ n ≤ a := by
  have inv : ∀ (sched : List (Fin 3)) (s : IdState),
      (n ≤ s.size ∧ (∀ t v, s.pend t = some v → n ≤ v) ∧ ∀ t, ∀ q ∈ s.out t, ∀ a ∈ q, a = -1 ∨ n ≤ a) →
      (n ≤ (sched.foldl (idStep planes) s).size ∧ (∀ t v, (sched.foldl (idStep planes) s).pend t = some v → n ≤ v) ∧
        ∀ t, ∀ q ∈ (sched.foldl (idStep planes) s).out t, ∀ a ∈ q, a = -1 ∨ n ≤ a) := by
    intro sched
    induction sched with
    | nil => exact fun s h => h
    | cons t0 sched ih =>
      intro s hs
      rw [List.foldl_cons]
      refine ih _ ?_
      unfold idStep
      split
      · rename_i v hv
        refine ⟨hs.2.1 t0 v hv, fun t w hw => ?_, hs.2.2⟩
        dsimp only at hw
        by_cases h : t = t0
        · subst h; simp at hw
        · rw [Function.update_of_ne h] at hw; exact hs.2.1 t w hw
      · split
        · exact hs
        · rename_i p hpp
          obtain ⟨a0, ha0, h0⟩ := (hp t0 p (List.mem_of_getElem? hpp)).2
          have hmax : n ≤ maxCoeff (relabelPlane s.size p) + 1 := by
            have : a0 + s.size ∈ relabelPlane s.size p := List.mem_map.2 ⟨a0, ha0, by rw [if_pos h0]⟩
            have := le_maxCoeff this
            have := hs.1
            omega
          refine ⟨hs.1, fun t w hw => ?_, fun t q hq a ha => ?_⟩
          · dsimp only at hw
            by_cases h : t = t0
            · subst h; rw [Function.update_self] at hw; rw [← Option.some_inj.1 hw]; exact hmax
            · rw [Function.update_of_ne h] at hw; exact hs.2.1 t w hw
          · dsimp only at hq
            by_cases h : t = t0
            · subst h
              rw [Function.update_self, List.mem_append, List.mem_singleton] at hq
              rcases hq with hq | rfl
              · exact hs.2.2 t q hq a ha
              · obtain ⟨b, -, rfl⟩ := List.mem_map.1 ha
                have := hs.1
                split
                · right; omega
                · left; rfl
            · rw [Function.update_of_ne h] at hq; exact hs.2.2 t q hq a ha
  exact (inv sched ⟨n, fun _ => [], fun _ => none⟩ ⟨le_rfl, by simp, by simp⟩).2.2 t q hq a ha

/-! ### collecting the faces -/

theorem sorted_insertAll {F : Type*} (l : List (ℤ × F)) (m : List (ℤ × F)) (hm : OMap.Sorted intLt m) :
    OMap.Sorted intLt (l.foldl (fun m p => OMap.insertNew intLt p.1 p.2 m) m) := by
  induction l generalizing m with
  | nil => exact hm
  | cons p l ih => exact ih _ (OMap.sorted_alter strictTotal_intLt hm)

theorem sorted_assignAll {F : Type*} (l : List (ℤ × F)) (m : List (ℤ × F)) (hm : OMap.Sorted intLt m) :
    OMap.Sorted intLt (l.foldl (fun m p => OMap.assign intLt p.1 p.2 m) m) := by
  induction l generalizing m with
  | nil => exact hm
  | cons p l ih => exact ih _ (OMap.sorted_alter strictTotal_intLt hm)

theorem insertAll_eq {F : Type*} (l : List (ℤ × F)) (m : List (ℤ × F)) (hm : OMap.Sorted intLt m) (i : ℤ) (f : F) :
    OMap.find intLt i (l.foldl (fun m p => OMap.insertNew intLt p.1 p.2 m) m) = some f ↔
      OMap.find intLt i m = some f ∨
      (OMap.find intLt i m = none ∧ ∃ l₁ l₂, l = l₁ ++ (i, f) :: l₂ ∧ ∀ p ∈ l₁, p.1 ≠ i) := by
  induction l generalizing m with
  | nil => simp
  | cons p l ih =>
    have hfa := OMap.find_alter (k := p.1) (k₁ := i) (f := fun o => o.getD p.2) strictTotal_intLt hm
    rw [List.foldl_cons, ih (OMap.insertNew intLt p.1 p.2 m) (OMap.sorted_alter strictTotal_intLt hm)]
    unfold OMap.insertNew
    rw [hfa]
    by_cases h : i = p.1
    · subst h
      rw [if_pos rfl]
      rcases hfm : OMap.find intLt p.1 m with _ | g
      · simp only [Option.getD_none, Option.some.injEq, reduceCtorEq, false_and, or_false, false_or, true_and]
        constructor
        · rintro rfl
          exact ⟨[], l, rfl, by simp⟩
        · rintro ⟨l₁, l₂, e, h1⟩
          cases l₁ with
          | nil =>
            rw [List.nil_append, List.cons.injEq] at e
            rw [e.1]
          | cons q l₁ =>
            rw [List.cons_append, List.cons.injEq] at e
            exact absurd (by rw [e.1]) (h1 q (by simp))
      · simp
    · rw [if_neg h]
      constructor
      · rintro (h1 | ⟨h1, l₁, l₂, rfl, h2⟩)
        · exact Or.inl h1
        · refine Or.inr ⟨h1, p :: l₁, l₂, rfl, fun q hq => ?_⟩
          rcases List.mem_cons.1 hq with rfl | hq
          · exact fun e => h e.symm
          · exact h2 q hq
      · rintro (h1 | ⟨h1, l₁, l₂, e, h2⟩)
        · exact Or.inl h1
        · cases l₁ with
          | nil =>
            rw [List.nil_append, List.cons.injEq] at e
            exact absurd (by rw [e.1]) h
          | cons q l₁ =>
            rw [List.cons_append, List.cons.injEq] at e
            exact Or.inr ⟨h1, l₁, l₂, e.2, fun r hr => h2 r (by simp [hr])⟩

theorem assignAll_eq {F : Type*} (l : List (ℤ × F)) (m : List (ℤ × F)) (hm : OMap.Sorted intLt m)
    (hl : (l.map Prod.fst).Nodup) (i : ℤ) (f : F) :
    OMap.find intLt i (l.foldl (fun m p => OMap.assign intLt p.1 p.2 m) m) = some f ↔
      (i, f) ∈ l ∨ (i ∉ l.map Prod.fst ∧ OMap.find intLt i m = some f) := by
  induction l generalizing m with
  | nil => simp
  | cons p l ih =>
    rw [List.map_cons, List.nodup_cons] at hl
    have hfa := OMap.find_alter (k := p.1) (k₁ := i) (f := fun _ => p.2) strictTotal_intLt hm
    rw [List.foldl_cons, ih (OMap.assign intLt p.1 p.2 m) (OMap.sorted_alter strictTotal_intLt hm) hl.2]
    unfold OMap.assign
    rw [hfa]
    by_cases h : i = p.1
    · subst h
      rw [if_pos rfl]
      have hnot : (p.1, f) ∉ l := fun hh => hl.1 (List.mem_map.2 ⟨_, hh, rfl⟩)
      constructor
      · rintro (h1 | ⟨-, h1⟩)
        · exact absurd h1 hnot
        · left; rw [← Option.some_inj.1 h1]; simp
      · rintro (h1 | ⟨h1, -⟩)
        · rcases List.mem_cons.1 h1 with h1 | h1
          · right; exact ⟨hl.1, by rw [← h1]⟩
          · exact absurd h1 hnot
        · simp at h1
    · rw [if_neg h]
      have hne : (i, f) ≠ p := fun e => h (by rw [← e])
      simp only [List.mem_cons, hne, false_or, List.map_cons, h]

/-- if the numbers of the mesh faces and of the faces of all planes are different, the collected faces are exactly the cut
mesh faces and the faces of the planes. -/
theorem no_face_lost {F : Type*} (cut : List (ℤ × F)) (planes : List (List (ℤ × F)))
    (hd : ((cut ++ planes.flatten).map Prod.fst).Nodup) (p : ℤ × F) :
    p ∈ collectFaces cut planes ↔ p ∈ cut ∨ ∃ fs ∈ planes, p ∈ fs := by
  have hfold : ∀ (planes : List (List (ℤ × F))) (m : List (ℤ × F)),
      planes.foldl (fun m fs => fs.foldl (fun m p => OMap.insertNew intLt p.1 p.2 m) m) m =
        planes.flatten.foldl (fun m p => OMap.insertNew intLt p.1 p.2 m) m := by
    intro planes
    induction planes with
    | nil => simp
    | cons a as ih => intro m; simp [ih]
  unfold collectFaces
  rw [hfold]
  have hs := sorted_assignAll cut [] OMap.sorted_nil
  rw [List.map_append, List.nodup_append] at hd
  obtain ⟨hd1, hd2, hd3⟩ := hd
  have hcut : ∀ i f, OMap.find intLt i (cut.foldl (fun m p => OMap.assign intLt p.1 p.2 m) []) = some f ↔ (i, f) ∈ cut := by
    intro i f
    rw [assignAll_eq cut [] OMap.sorted_nil hd1]
    simp [OMap.find]
  rw [show p ∈ planes.flatten.foldl (fun m p => OMap.insertNew intLt p.1 p.2 m)
      (cut.foldl (fun m p => OMap.assign intLt p.1 p.2 m) []) ↔ _ from
    (OMap.find_iff strictTotal_intLt (sorted_insertAll _ _ hs) (k := p.1) (v := p.2)).symm, insertAll_eq _ _ hs, hcut]
  have hfl : (∃ fs ∈ planes, p ∈ fs) ↔ p ∈ planes.flatten := by
    rw [List.mem_flatten]
  rw [hfl]
  refine or_congr Iff.rfl ⟨?_, fun h => ?_⟩
  · rintro ⟨-, l₁, l₂, e, -⟩
    rw [e]; simp
  · constructor
    · rcases hf : OMap.find intLt p.1 (cut.foldl (fun m p => OMap.assign intLt p.1 p.2 m) []) with _ | g
      · exact hf
      · have := (hcut _ _).1 hf
        exact absurd rfl (hd3 p.1 (List.mem_map.2 ⟨_, this, rfl⟩) p.1 (List.mem_map.2 ⟨p, h, rfl⟩))
    · obtain ⟨l₁, l₂, e⟩ := List.append_of_mem h
      refine ⟨l₁, l₂, e, fun q hq he => ?_⟩
      rw [e, List.map_append, List.map_cons, List.nodup_append] at hd2
      exact hd2.2.2 q.1 (List.mem_map.2 ⟨q, hq, rfl⟩) p.1 (by simp) he

/-- **C98.** Without TBB no face is lost: `m_faces` holds exactly the cut mesh faces (numbered below `n`) and the faces of
all planes of all axes, each under its number, when the faces of a plane are numbered by cells of its half-edge mesh. -/
theorem C98_no_face_lost {F : Type*} (planes : Fin 3 → List (List ℤ)) (n : ℤ) (hn : 0 ≤ n)
    (hp : ∀ t, ∀ p ∈ planes t, PlaneOk p) (cut : List (ℤ × F)) (hc : ∀ p ∈ cut, 0 ≤ p.1 ∧ p.1 < n) (hcd : (cut.map Prod.fst).Nodup)
    (faces : Fin 3 → List (List (ℤ × F)))
    (hf : ∀ t (k : ℕ) (fs : List (ℤ × F)), (faces t)[k]? = some fs → (fs.map Prod.fst).Nodup ∧
      ∃ q, ((idRun planes n (idSequential planes)).out t)[k]? = some q ∧ ∀ p ∈ fs, p.1 ∈ q ∧ 0 ≤ p.1) (p : ℤ × F) :
    p ∈ collectFaces cut (faces 0 ++ faces 1 ++ faces 2) ↔ p ∈ cut ∨ ∃ t, ∃ fs ∈ faces t, p ∈ fs := by
  obtain ⟨h1, hl, h2⟩ := C98_sequential_ids planes n hn hp
  have hge : ∀ t (k : ℕ) (q : List ℤ), ((idRun planes n (idSequential planes)).out t)[k]? = some q → ∀ a ∈ q, 0 ≤ a → n ≤ a := by
    intro t k q hq a ha h0
    rcases C98_any_schedule planes n hp _ t q (List.mem_of_getElem? hq) a ha with h | h
    · omega
    · exact h
  have hdis : ∀ t t' (k k' : ℕ) (fs fs' : List (ℤ × F)), (faces t)[k]? = some fs → (faces t')[k']? = some fs' →
      (t, k) ≠ (t', k') → ∀ a ∈ fs.map Prod.fst, ∀ b ∈ fs'.map Prod.fst, a ≠ b := by
    intro t t' k k' fs fs' e e' hne a ha b hb
    obtain ⟨-, q, hq, hq1⟩ := hf t k fs e
    obtain ⟨-, q', hq', hq1'⟩ := hf t' k' fs' e'
    obtain ⟨x, hx, rfl⟩ := List.mem_map.1 ha
    obtain ⟨y, hy, rfl⟩ := List.mem_map.1 hb
    exact h2 t t' k k' q q' hq hq' hne x.1 (hq1 x hx).1 y.1 (hq1' y hy).1 (hq1 x hx).2
  have hnd : ∀ t, (((faces t).flatten).map Prod.fst).Nodup := by
    intro t
    rw [List.map_flatten]
    rw [List.nodup_flatten]
    constructor
    · intro l hl
      obtain ⟨fs, hfs, rfl⟩ := List.mem_map.1 hl
      obtain ⟨k, hk⟩ := List.mem_iff_getElem?.1 hfs
      exact (hf t k fs hk).1
    · rw [List.pairwise_map, List.pairwise_iff_getElem]
      intro i j hi hj hij
      rw [List.disjoint_left]
      intro a ha hb
      exact hdis t t i j _ _ (List.getElem?_eq_getElem hi) (List.getElem?_eq_getElem hj)
        (by simp; omega) a ha a hb rfl
  have hx : ∀ t t', t ≠ t' → ∀ a ∈ ((faces t).flatten).map Prod.fst, ∀ b ∈ ((faces t').flatten).map Prod.fst, a ≠ b := by
    intro t t' hne a ha b hb
    obtain ⟨x, hx, rfl⟩ := List.mem_map.1 ha
    obtain ⟨y, hy, rfl⟩ := List.mem_map.1 hb
    obtain ⟨fs, hfs, hx⟩ := List.mem_flatten.1 hx
    obtain ⟨fs', hfs', hy⟩ := List.mem_flatten.1 hy
    obtain ⟨k, hk⟩ := List.mem_iff_getElem?.1 hfs
    obtain ⟨k', hk'⟩ := List.mem_iff_getElem?.1 hfs'
    exact hdis t t' k k' fs fs' hk hk' (fun e => hne (congrArg Prod.fst e)) _ (List.mem_map.2 ⟨x, hx, rfl⟩) _
      (List.mem_map.2 ⟨y, hy, rfl⟩)
  have hcx : ∀ t, ∀ a ∈ cut.map Prod.fst, ∀ b ∈ ((faces t).flatten).map Prod.fst, a ≠ b := by
    intro t a ha b hb
    obtain ⟨x, hx, rfl⟩ := List.mem_map.1 ha
    obtain ⟨y, hy, rfl⟩ := List.mem_map.1 hb
    obtain ⟨fs, hfs, hy⟩ := List.mem_flatten.1 hy
    obtain ⟨k, hk⟩ := List.mem_iff_getElem?.1 hfs
    obtain ⟨-, q, hq, hq1⟩ := hf t k fs hk
    have := hge t k q hq y.1 (hq1 y hy).1 (hq1 y hy).2
    have := (hc x hx).2
    omega
  rw [no_face_lost]
  · refine or_congr Iff.rfl ⟨?_, ?_⟩
    · rintro ⟨fs, hfs, hpf⟩
      simp only [List.mem_append] at hfs
      rcases hfs with (h | h) | h
      · exact ⟨0, fs, h, hpf⟩
      · exact ⟨1, fs, h, hpf⟩
      · exact ⟨2, fs, h, hpf⟩
    · rintro ⟨t, fs, hfs, hpf⟩
      refine ⟨fs, ?_, hpf⟩
      simp only [List.mem_append]
      match t with
      | 0 => exact Or.inl (Or.inl hfs)
      | 1 => exact Or.inl (Or.inr hfs)
      | 2 => exact Or.inr hfs
  · rw [List.map_append, List.flatten_append, List.flatten_append, List.map_append, List.map_append, List.nodup_append,
      List.nodup_append, List.nodup_append]
    refine ⟨hcd, ⟨⟨hnd 0, hnd 1, hx 0 1 (by decide)⟩, hnd 2, ?_⟩, ?_⟩
    · intro a ha b hb
      rcases List.mem_append.1 ha with ha | ha
      · exact hx 0 2 (by decide) a ha b hb
      · exact hx 1 2 (by decide) a ha b hb
    · intro a ha b hb
      rcases List.mem_append.1 hb with hb | hb
      · rcases List.mem_append.1 hb with hb | hb
        · exact hcx 0 a ha b hb
        · exact hcx 1 a ha b hb
      · exact hcx 2 a ha b hb

/-! ### where it fails -/

/-- **C98, defect** with TBB: two planes of different axes with one cell each, four cut mesh faces; if axis 1 renumbers its
plane before axis 0 has written `face_size`, both cells get the number 4, and the second face is not entered. -/
theorem C98_parallel_refuted :
    ∃ (planes : Fin 3 → List (List ℤ)) (sched : List (Fin 3)), (∀ t, ∀ p ∈ planes t, PlaneOk p) ∧
      (idRun planes 4 sched).out 0 = [[4]] ∧ (idRun planes 4 sched).out 1 = [[4]] ∧
      (∀ t, ((idRun planes 4 sched).out t).length = (planes t).length ∧ (idRun planes 4 sched).pend t = none) ∧
      collectFaces [] [[((4 : ℤ), (0 : ℕ))], [(4, 1)]] = [(4, 0)] := by
  refine ⟨![[[0]], [[0]], []], [0, 1, 0, 1], ?_, ?_, ?_, ?_, ?_⟩
  · intro t p hp
    match t with
    | 0 => have : p = [0] := by simpa using hp
           subst this; exact ⟨by simp, 0, by simp, le_rfl⟩
    | 1 => have : p = [0] := by simpa using hp
           subst this; exact ⟨by simp, 0, by simp, le_rfl⟩
    | 2 => simp at hp
  · decide
  · decide
  · decide
  · decide

/-- **C98, defect** also without TBB: after a plane without any proper cell `face_size` is 0, so the next plane is not
shifted at all, whatever the number of cut mesh faces. -/
theorem C98_empty_plane_refuted (n : ℤ) (p q : List ℤ) (hp : p ≠ []) (h : ∀ a ∈ p, a = -1) (hq : ∀ a ∈ q, -1 ≤ a) :
    ((idRun ![[p, q], [], []] n (idSequential ![[p, q], [], []])).out 0)[1]? = some q := by
  have hr : relabelPlane n p = p := by
    unfold relabelPlane
    conv_rhs => rw [← List.map_id p]
    refine List.map_congr_left fun a ha => ?_
    rw [h a ha]; rfl
  have hm : maxCoeff p = -1 := by
    cases p with
    | nil => exact absurd rfl hp
    | cons a l =>
      have h0 : a = -1 := h a (by simp)
      have : ∀ l : List ℤ, (∀ a ∈ l, a = -1) → l.foldl max (-1) = -1 := by
        intro l
        induction l with
        | nil => simp
        | cons b l ih =>
          intro hb
          rw [List.foldl_cons, hb b (by simp)]
          exact ih fun a ha => hb a (by simp [ha])
      show l.foldl max a = -1
      rw [h0]
      exact this l fun b hb => h b (by simp [hb])
  have hq' : relabelPlane 0 q = q := by
    unfold relabelPlane
    conv_rhs => rw [← List.map_id q]
    refine List.map_congr_left fun a ha => ?_
    have := hq a ha
    show (if 0 ≤ a then a + 0 else -1) = a
    split <;> omega
  rw [(out_sequential _ n).2 0]
  show (relabelAll n [p, q])[1]? = some q
  simp only [relabelAll, hr, hm]
  rw [show (-1 : ℤ) + 1 = 0 from rfl, hq']
  rfl

-- non-vacuity: two planes on axis 0, one on axis 2; cells 0, 1 (and a half-edge without a cell) per plane
def demoPlanes : Fin 3 → List (List ℤ) := ![[[0, 0, 1, -1], [1, 0]], [], [[0, -1]]]

example : ∀ t, ∀ p ∈ demoPlanes t, PlaneOk p := by
  intro t p hp
  match t with
  | 0 =>
    have : p = [0, 0, 1, -1] ∨ p = [1, 0] := by simpa [demoPlanes] using hp
    rcases this with rfl | rfl <;> exact ⟨by decide, 0, by decide, le_rfl⟩
  | 1 => simp [demoPlanes] at hp
  | 2 =>
    have : p = [0, -1] := by simpa [demoPlanes] using hp
    subst this; exact ⟨by decide, 0, by decide, le_rfl⟩

example : (idRun demoPlanes 5 (idSequential demoPlanes)).all = [[5, 5, 6, -1], [8, 7], [9, -1]] := by decide
example : collectFaces [((0 : ℤ), 'a')] [[(5, 'b'), (6, 'c')], [(7, 'd')], [(9, 'e')]] =
    [(0, 'a'), (5, 'b'), (6, 'c'), (7, 'd'), (9, 'e')] := by decide

end Gen3
end Mandoline
