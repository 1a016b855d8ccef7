import Verif.Cell.Closed

/-!
# C69: removal of flap edges

`clean_unmanifold` removes from a loop the edges it traverses in both directions and splits what is left into loops.
-/
namespace Mandoline
namespace CellCollapser

/-! ## specification -/

/-- the edges of `C` that are not traversed backwards by `C`. -/
def keptEdges (C : List ℤ) : List DEdge := (polyEdges C).filter fun e => decide (e.rev ∉ polyEdges C)

/-! ## the walk -/

theorem cleanWalk_stop (next : List (ℤ × ℤ)) (dom : List ℤ) (hdom : ∀ x, nextOf next x ∈ dom) :
    ∀ (fuel : ℕ) (seen : List ℤ) (cur : ℤ), cur ∈ dom → seen.Nodup →
      (dom.dedup.filter fun x => decide (x ∉ seen)).length < fuel →
      ∃ vs, (cleanWalk next fuel seen cur).1 = vs ∧ (cleanWalk next fuel seen cur).2 = vs.reverse ++ seen ∧
        (∀ fuel', fuel ≤ fuel' → cleanWalk next fuel' seen cur = cleanWalk next fuel seen cur) := by
  intro fuel
  induction fuel with
  | zero => intro seen cur _ _ h; omega
  | succ n ih =>
    intro seen cur hcur hnd hlt
    by_cases hc : cur ∈ seen
    · refine ⟨[], by simp [cleanWalk, hc], by simp [cleanWalk, hc], ?_⟩
      intro fuel' hf
      obtain ⟨m, rfl⟩ : ∃ m, fuel' = m + 1 := ⟨fuel' - 1, by omega⟩
      simp [cleanWalk, hc]
    · have hlt' : (dom.dedup.filter fun x => decide (x ∉ cur :: seen)).length < n := by
        have hsub : (cur :: (dom.dedup.filter fun x => decide (x ∉ cur :: seen))).Subperm
            (dom.dedup.filter fun x => decide (x ∉ seen)) := by
          refine List.Nodup.subperm ?_ ?_
          · rw [List.nodup_cons]
            exact ⟨by simp, (List.nodup_dedup _).filter _⟩
          · intro x hx
            rcases List.mem_cons.1 hx with rfl | hx
            · simp [hcur, hc]
            · simp only [List.mem_filter, List.mem_dedup, decide_eq_true_eq, List.mem_cons, not_or] at hx ⊢
              exact ⟨hx.1, hx.2.2⟩
        have := hsub.length_le
        rw [List.length_cons] at this
        omega
      obtain ⟨vs, h1, h2, h3⟩ := ih (cur :: seen) (nextOf next cur) (hdom cur) (List.nodup_cons.2 ⟨hc, hnd⟩) hlt'
      refine ⟨cur :: vs, ?_, ?_, ?_⟩
      · simp [cleanWalk, hc, h1]
      · simp [cleanWalk, hc, h2]
      · intro fuel' hf
        obtain ⟨m, rfl⟩ : ∃ m, fuel' = m + 1 := ⟨fuel' - 1, by omega⟩
        simp only [cleanWalk, hc, if_false]
        rw [h3 m (by omega)]

theorem nextOf_dom (next : List (ℤ × ℤ)) (x : ℤ) : nextOf next x ∈ 0 :: next.map Prod.snd := by
  unfold nextOf
  cases h : OMap.find intLt x next with
  | none => simp
  | some v => exact List.mem_cons_of_mem _ (List.mem_map.2 ⟨_, OMap.mem_of_find strictTotal_intLt h, rfl⟩)

/-- **C69.** The walk of each loop terminates for every table: giving it more fuel than `cleanLoops` does changes
nothing. -/
theorem C69_walk_terminates (next : List (ℤ × ℤ)) (seen : List ℤ) (hnd : seen.Nodup) (p : ℤ × ℤ) (hp : p ∈ next) (fuel : ℕ)
    (hf : next.length + 2 ≤ fuel) : cleanWalk next fuel seen p.2 = cleanWalk next (next.length + 2) seen p.2 := by
  obtain ⟨_, _, _, h⟩ := cleanWalk_stop next (0 :: next.map Prod.snd) (nextOf_dom next) (next.length + 2) seen p.2
    (List.mem_cons_of_mem _ (List.mem_map.2 ⟨p, hp, rfl⟩)) hnd (by
      have h1 := List.length_filter_le (fun x => decide (x ∉ seen)) (0 :: next.map Prod.snd).dedup
      have h2 := (List.dedup_sublist (0 :: next.map Prod.snd)).length_le
      simp only [List.length_cons, List.length_map] at h2
      omega)
  exact h fuel hf

/-- tables that are bijections of their keys. -/
structure Cyclic (next : List (ℤ × ℤ)) : Prop where
  sorted : OMap.Sorted intLt next
  vals_nodup : (next.map Prod.snd).Nodup
  vals_mem : ∀ e, e ∈ next.map Prod.snd → e ∈ next.map Prod.fst

theorem cyc_mem {next : List (ℤ × ℤ)} (h : Cyclic next) {x : ℤ} (hx : x ∈ next.map Prod.fst) :
    (x, nextOf next x) ∈ next := by
  obtain ⟨⟨k, v⟩, hm, rfl⟩ := List.mem_map.1 hx
  have := OMap.find_of_mem strictTotal_intLt h.sorted hm
  unfold nextOf
  simp only [this, Option.getD_some]
  exact hm

theorem cyc_key {next : List (ℤ × ℤ)} (h : Cyclic next) {x : ℤ} (hx : x ∈ next.map Prod.fst) :
    nextOf next x ∈ next.map Prod.fst := h.vals_mem _ (List.mem_map.2 ⟨_, cyc_mem h hx, rfl⟩)

theorem cyc_inj {next : List (ℤ × ℤ)} (h : Cyclic next) {x y : ℤ} (hx : x ∈ next.map Prod.fst)
    (hy : y ∈ next.map Prod.fst) (he : nextOf next x = nextOf next y) : x = y := by
  have h1 := cyc_mem h hx
  have h2 := cyc_mem h hy
  rw [he] at h1
  exact (Prod.mk.inj (List.inj_on_of_nodup_map h.vals_nodup h1 h2 rfl)).1

theorem cleanWalk_cyclic {next : List (ℤ × ℤ)} (h : Cyclic next) (start : ℤ) :
    ∀ (fuel : ℕ) (seen : List ℤ) (prev : ℤ), prev ∈ seen → start ∈ seen → seen.Nodup →
      (∀ x ∈ seen, x ∈ next.map Prod.fst) → (∀ x ∈ seen, x ≠ prev → nextOf next x ∈ seen) →
      (∀ y ∈ seen, y ≠ start → ∃ x ∈ seen, x ≠ prev ∧ nextOf next x = y) →
      next.length < fuel + seen.length →
      ∃ vs, cleanWalk next fuel seen (nextOf next prev) = (vs, vs.reverse ++ seen) ∧ (vs.reverse ++ seen).Nodup ∧
        (prev :: vs).map (nextOf next) = vs ++ [start] ∧ (∀ x ∈ vs, x ∈ next.map Prod.fst) ∧
        (∀ x ∈ vs.reverse ++ seen, nextOf next x ∈ vs.reverse ++ seen) := by
  intro fuel
  induction fuel with
  | zero =>
    intro seen prev _ _ hnd hk _ _ hlt
    have := (hnd.subperm fun x hx => hk x hx).length_le
    rw [List.length_map] at this
    omega
  | succ n ih =>
    intro seen prev hp hs hnd hk hA hB hlt
    by_cases hc : nextOf next prev ∈ seen
    · have hst : nextOf next prev = start := by
        by_contra hne
        obtain ⟨x, hx, hxp, hxe⟩ := hB _ hc hne
        exact hxp (cyc_inj h (hk x hx) (hk prev hp) hxe)
      refine ⟨[], by simp [cleanWalk, hc], by simpa using hnd, by simp [hst], nofun, ?_⟩
      intro x hx
      simp only [List.reverse_nil, List.nil_append] at hx ⊢
      by_cases hxp : x = prev
      · rw [hxp]; exact hc
      · exact hA x hx hxp
    · obtain ⟨vs, h1, h2, h3, h4, h5⟩ := ih (nextOf next prev :: seen) (nextOf next prev) List.mem_cons_self
        (List.mem_cons_of_mem _ hs) (List.nodup_cons.2 ⟨hc, hnd⟩) (by
          intro x hx
          rcases List.mem_cons.1 hx with rfl | hx
          · exact cyc_key h (hk prev hp)
          · exact hk x hx) (by
          intro x hx hne
          rcases List.mem_cons.1 hx with rfl | hx
          · exact absurd rfl hne
          · by_cases hxp : x = prev
            · rw [hxp]; exact List.mem_cons_self
            · exact List.mem_cons_of_mem _ (hA x hx hxp)) (by
          intro y hy hne
          rcases List.mem_cons.1 hy with rfl | hy
          · exact ⟨prev, List.mem_cons_of_mem _ hp, fun he => hc (he ▸ hp), rfl⟩
          · obtain ⟨x, hx, _, hxe⟩ := hB y hy hne
            exact ⟨x, List.mem_cons_of_mem _ hx, fun he => hc (he ▸ hx), hxe⟩) (by
          rw [List.length_cons]; omega)
      refine ⟨nextOf next prev :: vs, ?_, ?_, ?_, ?_, ?_⟩
      · simp only [cleanWalk, hc, if_false, h1]
        simp
      · simpa using h2
      · rw [List.map_cons, h3]; rfl
      · intro x hx
        rcases List.mem_cons.1 hx with rfl | hx
        · exact cyc_key h (hk prev hp)
        · exact h4 x hx
      · simpa using h5

theorem polyEdges_loop {next : List (ℤ × ℤ)} {start : ℤ} {vs : List ℤ}
    (h : (start :: vs).map (nextOf next) = vs ++ [start]) :
    polyEdges (start :: vs) = (start :: vs).map fun v => (v, nextOf next v) := by
  unfold polyEdges
  rw [List.rotate_cons_succ, List.rotate_zero, ← h]
  generalize start :: vs = l
  induction l with
  | nil => rfl
  | cons a l ih => simp [ih]

/-- loops rebuilt from a bijective table: their edges are the entries of the table, no vertex occurs twice. -/
theorem cleanLoops_cyclic {next : List (ℤ × ℤ)} (h : Cyclic next) :
    (∀ e, e ∈ (cleanLoops next).flatMap polyEdges ↔ e ∈ next) ∧ (∀ l ∈ cleanLoops next, l.Nodup) ∧
    (∀ l ∈ cleanLoops next, ∀ l' ∈ cleanLoops next, ∀ v ∈ l, v ∈ l' → l = l') := by
  have inv : ∀ pre : List (ℤ × ℤ), (∀ p ∈ pre, p ∈ next) →
      ∃ ret seen, pre.foldl (cleanStep next) ([], []) = (ret, seen) ∧ seen.Nodup ∧
        (∀ x, x ∈ seen ↔ ∃ l ∈ ret, x ∈ l) ∧ (∀ x ∈ seen, x ∈ next.map Prod.fst) ∧
        (∀ x ∈ seen, nextOf next x ∈ seen) ∧ (∀ p ∈ pre, p.1 ∈ seen) ∧
        (∀ l ∈ ret, l.Nodup ∧ polyEdges l = l.map fun v => (v, nextOf next v)) ∧
        (∀ l ∈ ret, ∀ l' ∈ ret, ∀ v ∈ l, v ∈ l' → l = l') := by
    intro pre
    induction pre using List.reverseRecOn with
    | nil => intro _; exact ⟨[], [], rfl, List.nodup_nil, by simp, nofun, nofun, nofun, nofun, nofun⟩
    | append_singleton pre p ih =>
      intro hpre
      obtain ⟨ret, seen, h1, h2, h3, h4, h5, h6, h7, h8⟩ := ih fun q hq => hpre q (List.mem_append_left _ hq)
      have hp : p ∈ next := hpre p (by simp)
      rw [List.foldl_append, List.foldl_cons, List.foldl_nil, h1]
      unfold cleanStep
      by_cases hs : p.1 ∈ seen
      · rw [if_pos hs]
        refine ⟨ret, seen, rfl, h2, h3, h4, h5, ?_, h7, h8⟩
        intro q hq
        rcases List.mem_append.1 hq with hq | hq
        · exact h6 q hq
        · rw [List.mem_singleton] at hq; subst hq; exact hs
      · rw [if_neg hs]
        have hkey : p.1 ∈ next.map Prod.fst := List.mem_map.2 ⟨p, hp, rfl⟩
        have hnx : nextOf next p.1 = p.2 := by
          unfold nextOf
          rw [OMap.find_of_mem strictTotal_intLt h.sorted (k := p.1) (v := p.2) hp]; rfl
        -- predecessors inside seen
        have hpred : ∀ y ∈ seen, ∃ x ∈ seen, nextOf next x = y := by
          intro y hy
          have hm : (seen.map (nextOf next)).Nodup :=
            List.Nodup.map_on (fun a ha b hb hab => cyc_inj h (h4 a ha) (h4 b hb) hab) h2
          have hsub : (seen.map (nextOf next)).Subperm seen := hm.subperm (by
            intro x hx
            obtain ⟨z, hz, rfl⟩ := List.mem_map.1 hx
            exact h5 z hz)
          have hperm := hsub.perm_of_length_le (by simp)
          obtain ⟨x, hx, he⟩ := List.mem_map.1 (hperm.mem_iff.2 hy)
          exact ⟨x, hx, he⟩
        obtain ⟨vs, w1, w2, w3, w4, w5⟩ := cleanWalk_cyclic h p.1 (next.length + 2) (p.1 :: seen) p.1 List.mem_cons_self
          List.mem_cons_self (List.nodup_cons.2 ⟨hs, h2⟩) (by
            intro x hx
            rcases List.mem_cons.1 hx with rfl | hx
            · exact hkey
            · exact h4 x hx) (by
            intro x hx hne
            rcases List.mem_cons.1 hx with rfl | hx
            · exact absurd rfl hne
            · exact List.mem_cons_of_mem _ (h5 x hx)) (by
            intro y hy hne
            rcases List.mem_cons.1 hy with rfl | hy
            · exact absurd rfl hne
            · obtain ⟨x, hx, hxe⟩ := hpred y hy
              exact ⟨x, List.mem_cons_of_mem _ hx, fun he => hs (he ▸ hx), hxe⟩) (by omega)
        rw [hnx] at w1
        rw [w1]
        simp only
        have hnew : ∀ v ∈ p.1 :: vs, v ∉ seen := by
          intro v hv hvs
          rw [List.nodup_append] at w2
          rcases List.mem_cons.1 hv with rfl | hv
          · exact hs hvs
          · exact w2.2.2 v (List.mem_reverse.2 hv) v (List.mem_cons_of_mem _ hvs) rfl
        refine ⟨_, _, rfl, w2, ?_, ?_, w5, ?_, ?_, ?_⟩
        · intro x
          simp only [mem_setInsert strictTotal_loopLt, List.mem_append, List.mem_reverse, List.mem_cons, h3]
          constructor
          · rintro (hx | rfl | ⟨l, hl, hx⟩)
            · exact ⟨_, .inl rfl, List.mem_cons_of_mem _ hx⟩
            · exact ⟨_, .inl rfl, List.mem_cons_self⟩
            · exact ⟨l, .inr hl, hx⟩
          · rintro ⟨l, rfl | hl, hx⟩
            · rcases List.mem_cons.1 hx with rfl | hx
              · exact .inr (.inl rfl)
              · exact .inl hx
            · exact .inr (.inr ⟨l, hl, hx⟩)
        · intro x hx
          simp only [List.mem_append, List.mem_reverse, List.mem_cons] at hx
          rcases hx with hx | rfl | hx
          · exact w4 x hx
          · exact hkey
          · exact h4 x hx
        · intro q hq
          simp only [List.mem_append, List.mem_reverse, List.mem_cons]
          rcases List.mem_append.1 hq with hq | hq
          · exact .inr (.inr (h6 q hq))
          · rw [List.mem_singleton] at hq; subst hq; exact .inr (.inl rfl)
        · intro l hl
          rcases (mem_setInsert strictTotal_loopLt _ _ _).1 hl with rfl | hl
          · refine ⟨?_, polyEdges_loop w3⟩
            rw [List.nodup_append] at w2
            rw [List.nodup_cons]
            refine ⟨fun hv => ?_, List.nodup_reverse.1 w2.1⟩
            exact w2.2.2 p.1 (List.mem_reverse.2 hv) p.1 List.mem_cons_self rfl
          · exact h7 l hl
        · intro l hl l' hl' v hv hv'
          rcases (mem_setInsert strictTotal_loopLt _ _ _).1 hl with rfl | hl <;>
          rcases (mem_setInsert strictTotal_loopLt _ _ _).1 hl' with rfl | hl'
          · rfl
          · exact absurd ((h3 v).2 ⟨l', hl', hv'⟩) (hnew v hv)
          · exact absurd ((h3 v).2 ⟨l, hl, hv⟩) (hnew v hv')
          · exact h8 l hl l' hl' v hv hv'
  obtain ⟨ret, seen, h1, h2, h3, h4, h5, h6, h7, h8⟩ := inv next fun _ h => h
  have hret : cleanLoops next = ret := by unfold cleanLoops; rw [h1]
  rw [hret]
  refine ⟨?_, fun l hl => (h7 l hl).1, h8⟩
  intro e
  rw [List.mem_flatMap]
  constructor
  · rintro ⟨l, hl, he⟩
    rw [(h7 l hl).2] at he
    obtain ⟨v, hv, rfl⟩ := List.mem_map.1 he
    exact cyc_mem h (h4 v ((h3 v).2 ⟨l, hl, hv⟩))
  · intro he
    obtain ⟨l, hl, hv⟩ := (h3 e.1).1 (h6 e he)
    refine ⟨l, hl, ?_⟩
    rw [(h7 l hl).2]
    refine List.mem_map.2 ⟨e.1, hv, ?_⟩
    have : nextOf next e.1 = e.2 := by
      unfold nextOf
      rw [OMap.find_of_mem strictTotal_intLt h.sorted (k := e.1) (v := e.2) he]; rfl
    rw [this]

/-! ## flap edges -/

theorem mem_cleanInvalid (inv : List DEdge) (C : List ℤ) (e : DEdge) :
    e ∈ cleanInvalid inv C ↔ e ∈ inv ∨ (e ∈ polyEdges C ∧ e.rev ∈ polyEdges C) := by
  unfold cleanInvalid
  have gen : ∀ (l : List DEdge) (a : List DEdge), e ∈ l.foldl (invalidStep (polyEdges C)) a ↔
      e ∈ a ∨ (∃ x ∈ l, x.rev ∈ polyEdges C ∧ (e = x ∨ e = x.rev)) := by
    intro l
    induction l with
    | nil => intro a; simp
    | cons x l ih =>
      intro a
      rw [List.foldl_cons, ih]
      unfold invalidStep
      by_cases hx : x.rev ∈ polyEdges C
      · rw [if_pos hx, mem_setInsert strictTotal_edgeLt, mem_setInsert strictTotal_edgeLt]
        simp only [List.exists_mem_cons_iff, hx, true_and]
        constructor
        · rintro ((h | h | h) | h)
          · exact .inr (.inl (.inl h))
          · exact .inr (.inl (.inr h))
          · exact .inl h
          · exact .inr (.inr h)
        · rintro (h | (h | h) | h)
          · exact .inl (.inr (.inr h))
          · exact .inl (.inl h)
          · exact .inl (.inr (.inl h))
          · exact .inr h
      · rw [if_neg hx]
        simp only [List.exists_mem_cons_iff, hx, false_and, false_or]
  rw [gen]
  constructor
  · rintro (h | ⟨x, hx, hr, rfl | rfl⟩)
    · exact .inl h
    · exact .inr ⟨hx, hr⟩
    · exact .inr ⟨hr, by rw [DEdge.rev_rev]; exact hx⟩
  · rintro (h | ⟨h1, h2⟩)
    · exact .inl h
    · exact .inr ⟨e, h1, h2, .inl rfl⟩

theorem map_fst_polyEdges (C : List ℤ) : (polyEdges C).map Prod.fst = C := by
  unfold polyEdges
  exact List.map_fst_zip (by simp)

theorem map_snd_polyEdges (C : List ℤ) : (polyEdges C).map Prod.snd = C.rotate 1 := by
  unfold polyEdges
  exact List.map_snd_zip (by simp)

theorem length_polyEdges (C : List ℤ) : (polyEdges C).length = C.length := by
  unfold polyEdges; simp

/-- starts and ends of the kept edges are the same vertices. -/
theorem kept_perm (C : List ℤ) (hnd : (polyEdges C).Nodup) :
    ((keptEdges C).map Prod.fst).Perm ((keptEdges C).map Prod.snd) := by
  have hsplit := List.filter_append_perm (fun e => decide (e.rev ∉ polyEdges C)) (polyEdges C)
  let Rm := (polyEdges C).filter fun e => !decide (e.rev ∉ polyEdges C)
  have hRm : ∀ e, e ∈ Rm ↔ e ∈ polyEdges C ∧ e.rev ∈ polyEdges C := by
    intro e; simp [Rm]
  have hrev : (Rm.map DEdge.rev).Perm Rm := by
    refine (List.perm_ext_iff_of_nodup ?_ (hnd.filter _)).2 ?_
    · refine List.Nodup.map ?_ (hnd.filter _)
      intro a b hab
      rw [← DEdge.rev_rev a, hab, DEdge.rev_rev]
    · intro e
      rw [List.mem_map, hRm]
      constructor
      · rintro ⟨x, hx, rfl⟩
        have := (hRm x).1 hx
        exact ⟨this.2, by rw [DEdge.rev_rev]; exact this.1⟩
      · rintro ⟨h1, h2⟩
        exact ⟨e.rev, (hRm _).2 ⟨h2, by rw [DEdge.rev_rev]; exact h1⟩, rfl⟩
  have hRs : (Rm.map Prod.snd).Perm (Rm.map Prod.fst) := by
    have := hrev.map Prod.fst
    rw [List.map_map] at this
    exact this
  have h1 : (((keptEdges C).map Prod.fst) ++ Rm.map Prod.fst).Perm C := by
    have := hsplit.map Prod.fst
    rw [List.map_append, map_fst_polyEdges] at this
    exact this
  have h2 : (((keptEdges C).map Prod.snd) ++ Rm.map Prod.snd).Perm C := by
    have := hsplit.map Prod.snd
    rw [List.map_append, map_snd_polyEdges] at this
    exact this.trans (List.rotate_perm C 1)
  have h3 : (((keptEdges C).map Prod.snd) ++ Rm.map Prod.fst).Perm C := (hRs.symm.append_left _).trans h2
  exact (List.perm_append_right_iff _).1 (h1.trans h3.symm)

theorem foldAssign_spec (l : List DEdge) (hnd : (l.map Prod.fst).Nodup) :
    OMap.Sorted intLt (l.foldl (fun m e => OMap.assign intLt e.1 e.2 m) []) ∧
    (l.foldl (fun m e => OMap.assign intLt e.1 e.2 m) []).Perm l := by
  induction l using List.reverseRecOn with
  | nil => exact ⟨OMap.sorted_nil, .refl _⟩
  | append_singleton l a ih =>
    rw [List.map_append, List.nodup_append] at hnd
    obtain ⟨i1, i2⟩ := ih hnd.1
    rw [List.foldl_append, List.foldl_cons, List.foldl_nil]
    refine ⟨OMap.sorted_alter strictTotal_intLt i1, ?_⟩
    generalize l.foldl (fun m e => OMap.assign intLt e.1 e.2 m) [] = m at i1 i2 ⊢
    have hno : a.1 ∉ m.map Prod.fst := by
      intro hm
      exact hnd.2.2 a.1 ((i2.map Prod.fst).mem_iff.1 hm) a.1 (by simp) rfl
    have hins : (OMap.assign intLt a.1 a.2 m).Perm (a :: m) := by
      clear i1 i2
      unfold OMap.assign
      induction m with
      | nil => exact .refl _
      | cons p m ih =>
        obtain ⟨k, v⟩ := p
        simp only [List.map_cons, List.mem_cons, not_or] at hno
        simp only [OMap.alter]
        split
        · exact .refl _
        · split
          · exact ((ih hno.2).cons _).trans (.swap _ _ _)
          · rename_i h1 h2
            exfalso
            rcases strictTotal_intLt.tri a.1 k with h | h | h
            · exact h1 h
            · exact hno.1 h
            · exact h2 h
    exact hins.trans ((i2.cons a).trans (List.perm_append_singleton a l).symm)

/-- **C69.** If no flap edge was recorded before, the loop traverses no directed edge twice and leaves no vertex twice by
an edge it keeps, the loops returned by the cleaning traverse exactly the edges of `C` that are not flaps, and these
edges become the invalid ones. If some edge is dropped, no vertex occurs twice in the result. -/
theorem C69_flaps_removed (C : List ℤ) (hnd : (polyEdges C).Nodup) (hout : ((keptEdges C).map Prod.fst).Nodup) :
    (∀ e, e ∈ (cleanUnmanifold [] C).1.flatMap polyEdges ↔ e ∈ polyEdges C ∧ e.rev ∉ polyEdges C) ∧
    (∀ e, e ∈ (cleanUnmanifold [] C).2.2 ↔ e ∈ polyEdges C ∧ e.rev ∈ polyEdges C) ∧
    ((∃ e ∈ polyEdges C, e.rev ∈ polyEdges C) →
      (∀ l ∈ (cleanUnmanifold [] C).1, l.Nodup) ∧
      ∀ l ∈ (cleanUnmanifold [] C).1, ∀ l' ∈ (cleanUnmanifold [] C).1, ∀ v ∈ l, v ∈ l' → l = l') := by
  have hinv : ∀ e, e ∈ cleanInvalid [] C ↔ e ∈ polyEdges C ∧ e.rev ∈ polyEdges C := by
    intro e; rw [mem_cleanInvalid]; simp
  have hkept : (polyEdges C).filter (fun e => decide (e ∉ cleanInvalid [] C)) = keptEdges C := by
    unfold keptEdges
    refine List.filter_congr fun e he => ?_
    simp [hinv, he]
  obtain ⟨f1, f2⟩ := foldAssign_spec _ hout
  have hnext : cleanNext (cleanInvalid [] C) C = (keptEdges C).foldl (fun m e => OMap.assign intLt e.1 e.2 m) [] := by
    unfold cleanNext; rw [hkept]
  have hcyc : Cyclic (cleanNext (cleanInvalid [] C) C) := by
    rw [hnext]
    have hp := kept_perm C hnd
    refine ⟨f1, ?_, ?_⟩
    · rw [(f2.map Prod.snd).nodup_iff, ← hp.nodup_iff]; exact hout
    · intro e he
      rw [(f2.map Prod.snd).mem_iff, ← hp.mem_iff] at he
      rw [(f2.map Prod.fst).mem_iff]; exact he
  obtain ⟨c1, c2, c3⟩ := cleanLoops_cyclic hcyc
  have hmemk : ∀ e, e ∈ keptEdges C ↔ e ∈ polyEdges C ∧ e.rev ∉ polyEdges C := by
    intro e; unfold keptEdges; simp
  have hmemn : ∀ e : DEdge, e ∈ cleanNext (cleanInvalid [] C) C ↔ e ∈ polyEdges C ∧ e.rev ∉ polyEdges C := by
    intro e; rw [hnext, f2.mem_iff, hmemk]
  have hlen : (cleanNext (cleanInvalid [] C) C).length = (keptEdges C).length := by rw [hnext, f2.length_eq]
  have hall : (keptEdges C).length = C.length → ∀ e ∈ polyEdges C, e.rev ∉ polyEdges C := by
    intro hl
    rw [← length_polyEdges C] at hl
    unfold keptEdges at hl
    have := List.length_filter_eq_length_iff.1 hl
    intro e he; simpa using this e he
  unfold cleanUnmanifold
  by_cases hi : cleanInvalid [] C = []
  · have hno : ∀ e ∈ polyEdges C, e.rev ∉ polyEdges C := by
      intro e he hr
      have := (hinv e).2 ⟨he, hr⟩
      rw [hi] at this; cases this
    simp only [hi, if_true]
    refine ⟨?_, ?_, ?_⟩
    · intro e
      simp only [List.flatMap_cons, List.flatMap_nil, List.append_nil]
      exact ⟨fun h => ⟨h, hno e h⟩, fun h => h.1⟩
    · intro e; rw [← hi]; exact hinv e
    · rintro ⟨e, he, hr⟩; exact absurd hr (hno e he)
  · simp only [if_neg hi]
    by_cases hlt : (cleanNext (cleanInvalid [] C) C).length < C.length
    · simp only [if_pos hlt]
      exact ⟨fun e => by rw [c1, hmemn], hinv, fun _ => ⟨c2, c3⟩⟩
    · simp only [if_neg hlt]
      exfalso
      have hle : (keptEdges C).length ≤ C.length := by
        rw [← length_polyEdges C]; unfold keptEdges; exact List.length_filter_le _ _
      have hno := hall (by omega)
      apply hi
      cases hc : cleanInvalid [] C with
      | nil => rfl
      | cons x l =>
        have := (hinv x).1 (by rw [hc]; exact List.mem_cons_self)
        exact absurd this.2 (hno x this.1)

/-- the square 0 1 2 3 with the dangling edge 2-4 inside. -/
example : cleanUnmanifold [] [0, 1, 2, 4, 2, 3] = ([[0, 1, 2, 3]], [(4, 2)], [(2, 4), (4, 2)]) := by decide +kernel

example : (polyEdges [0, 1, 2, 4, 2, 3]).Nodup ∧ ((keptEdges [0, 1, 2, 4, 2, 3]).map Prod.fst).Nodup := by decide +kernel

/-- two triangles joined by a bridge are separated. -/
example : (cleanUnmanifold [] [0, 1, 2, 3, 4, 5, 3, 2]).1 = [[0, 1, 2], [3, 4, 5]] := by decide +kernel

/-- **C69, defect.** `invalid_edges` is not cleared between faces: if an earlier face had the flap edge `a-b`, a triangle
`a b c` that shares this edge (and does not contain vertex 0) is turned into a loop through vertex 0. -/
theorem C69_foreign_flap_corrupts (inv : List DEdge) (a b c : ℤ) (hab : (a, b) ∈ inv) (hbc : (b, c) ∉ inv)
    (hca : (c, a) ∉ inv) (h1 : a ≠ b) (h2 : b ≠ c) (h3 : a ≠ c) (ha : a ≠ 0) (hb : b ≠ 0) (hc : c ≠ 0) :
    ∃ l ∈ (cleanUnmanifold inv [a, b, c]).1, 3 ≤ l.length ∧ 0 ∈ l := by
  have hp : polyEdges [a, b, c] = [(a, b), (b, c), (c, a)] := rfl
  have hci : cleanInvalid inv [a, b, c] = inv := cleanInvalid_nil (by
    rw [hp]
    intro e he
    simp only [List.mem_cons, List.not_mem_nil, or_false] at he
    rcases he with rfl | rfl | rfl <;> simp [DEdge.rev, h1, h2, h3, h1.symm, h2.symm, h3.symm]) inv
  have hne : inv ≠ [] := List.ne_nil_of_mem hab
  have hnext : cleanNext inv [a, b, c] = if b < c then [(b, c), (c, a)] else [(c, a), (b, c)] := by
    unfold cleanNext
    rw [hp]
    have : [(a, b), (b, c), (c, a)].filter (fun e => decide (e ∉ inv)) = [(b, c), (c, a)] := by
      simp [List.filter, hab, hbc, hca]
    rw [this]
    simp only [List.foldl_cons, List.foldl_nil, OMap.assign, OMap.alter, intLt, decide_eq_true_eq]
    by_cases hlt : b < c
    · have : ¬ c < b := by omega
      simp [hlt, this]
    · have : c < b := by omega
      simp [hlt, this]
  have hz : ∀ next : List (ℤ × ℤ), next = [(b, c), (c, a)] ∨ next = [(c, a), (b, c)] → OMap.Sorted intLt next →
      nextOf next c = a ∧ nextOf next a = 0 ∧ nextOf next 0 = 0 := by
    intro next hn hs
    unfold nextOf
    refine ⟨?_, ?_, ?_⟩
    · rw [OMap.find_of_mem strictTotal_intLt hs (k := c) (v := a) (by rcases hn with rfl | rfl <;> simp)]; rfl
    · rw [(OMap.find_none_iff strictTotal_intLt hs).2]
      · rfl
      · rcases hn with rfl | rfl <;> simp [h1, h3]
    · rw [(OMap.find_none_iff strictTotal_intLt hs).2]
      · rfl
      · rcases hn with rfl | rfl <;> simp [hb.symm, hc.symm]
  have walk_neg : ∀ (next : List (ℤ × ℤ)) n seen cur, cur ∉ seen →
      cleanWalk next (n + 1) seen cur = (cur :: (cleanWalk next n (cur :: seen) (nextOf next cur)).1,
        (cleanWalk next n (cur :: seen) (nextOf next cur)).2) := by
    intro next n seen cur h; simp [cleanWalk, h]
  have walk_pos : ∀ (next : List (ℤ × ℤ)) n seen cur, cur ∈ seen → cleanWalk next (n + 1) seen cur = ([], seen) := by
    intro next n seen cur h; simp [cleanWalk, h]
  unfold cleanUnmanifold
  simp only [hci, if_neg hne, hnext]
  by_cases hlt : b < c
  · simp only [if_pos hlt, List.length_cons, List.length_nil, Nat.reduceLT, Nat.reduceAdd, if_true]
    obtain ⟨z1, z2, z3⟩ := hz [(b, c), (c, a)] (.inl rfl) (by simp [OMap.Sorted, intLt, hlt])
    refine ⟨[b, c, a, 0], ?_, by simp, by simp⟩
    have e1 : cleanStep [(b, c), (c, a)] ([], []) (b, c) = ([[b, c, a, 0]], [0, a, c, b]) := by
      unfold cleanStep
      rw [if_neg (by simp)]
      simp only [List.length_cons, List.length_nil, Nat.reduceAdd]
      rw [walk_neg _ _ _ _ (by simp [h2.symm]), z1, walk_neg _ _ _ _ (by simp [h1, h3]), z2,
        walk_neg _ _ _ _ (by simp [ha.symm, hb.symm, hc.symm]), z3, walk_pos _ _ _ _ (by simp)]
      rfl
    have e2 : cleanStep [(b, c), (c, a)] ([[b, c, a, 0]], [0, a, c, b]) (c, a) = ([[b, c, a, 0]], [0, a, c, b]) := by
      unfold cleanStep
      rw [if_pos (by simp)]
    unfold cleanLoops
    rw [List.foldl_cons, e1, List.foldl_cons, e2, List.foldl_nil]
    simp
  · simp only [if_neg hlt, List.length_cons, List.length_nil, Nat.reduceLT, Nat.reduceAdd, if_true]
    obtain ⟨z1, z2, z3⟩ := hz [(c, a), (b, c)] (.inr rfl) (by simp [OMap.Sorted, intLt]; omega)
    refine ⟨[c, a, 0], ?_, by simp, by simp⟩
    have e1 : cleanStep [(c, a), (b, c)] ([], []) (c, a) = ([[c, a, 0]], [0, a, c]) := by
      unfold cleanStep
      rw [if_neg (by simp)]
      simp only [List.length_cons, List.length_nil, Nat.reduceAdd]
      rw [walk_neg _ _ _ _ (by simp [h3]), z2,
        walk_neg _ _ _ _ (by simp [ha.symm, hc.symm]), z3, walk_pos _ _ _ _ (by simp)]
      rfl
    have e2 : cleanStep [(c, a), (b, c)] ([[c, a, 0]], [0, a, c]) (b, c) =
        (setInsert loopLt [b] [[c, a, 0]], [b, 0, a, c]) := by
      unfold cleanStep
      rw [if_neg (by simp [hb, h2, h1.symm])]
      simp only [List.length_cons, List.length_nil, Nat.reduceAdd]
      rw [walk_pos _ _ _ _ (by simp)]
    unfold cleanLoops
    rw [List.foldl_cons, e1, List.foldl_cons, e2, List.foldl_nil, mem_setInsert strictTotal_loopLt]
    simp

/-- the case of faces 0 (a square with the dangling edge 5-6) and 1 (a triangle on the edge 5-6). -/
example : (make [(0, [[1, 2, 3, 5, 6, 5]]), (1, [[5, 6, 7]])]).faces = [(0, [[1, 2, 3, 5]]), (1, [[6, 7, 5, 0]])] := by
  decide +kernel

/-- **C69, defect.** A loop that touches itself in a vertex is kept as it is if no flap edge was recorded, and truncated
if some unrelated earlier face had a flap edge. -/
theorem C69_pinched_loop_refuted :
    (make [(1, [[0, 1, 2, 0, 3, 4]])]).faces = [(1, [[0, 1, 2, 0, 3, 4]])] ∧
    (make [(0, [[11, 12, 13, 15, 16, 15]]), (1, [[0, 1, 2, 0, 3, 4]])]).faces =
      [(0, [[11, 12, 13, 15]]), (1, [[0, 3, 4]])] := by
  decide +kernel

theorem mem_cleanFlaps (C : List ℤ) (e : DEdge) :
    e ∈ cleanFlaps C ↔ e ∈ polyEdges C ∧ e.rev ∈ polyEdges C ∧ e.2 < e.1 := by
  unfold cleanFlaps
  have gen : ∀ (l : List DEdge) (a : List DEdge), e ∈ l.foldl (flapStep (polyEdges C)) a ↔
      e ∈ a ∨ (∃ x ∈ l, x.rev ∈ polyEdges C ∧ (e = x ∨ e = x.rev) ∧ e.2 < e.1) := by
    intro l
    induction l with
    | nil => intro a; simp
    | cons x l ih =>
      intro a
      rw [List.foldl_cons, ih]
      simp only [List.exists_mem_cons_iff]
      rw [← or_assoc]
      refine or_congr_left ?_
      unfold flapStep
      by_cases hx : x.rev ∈ polyEdges C
      · rw [if_pos hx]
        dsimp only
        by_cases h1 : x.rev.1 > x.rev.2
        · have h2 : ¬ x.1 > x.2 := by simp only [DEdge.rev] at h1; omega
          rw [if_pos h1, if_neg h2, mem_setInsert strictTotal_edgeLt]
          constructor
          · rintro (rfl | h)
            · exact .inr ⟨hx, .inr rfl, h1⟩
            · exact .inl h
          · rintro (h | ⟨_, rfl | rfl, h⟩)
            · exact .inr h
            · exact absurd h h2
            · exact .inl rfl
        · rw [if_neg h1]
          by_cases h2 : x.1 > x.2
          · rw [if_pos h2, mem_setInsert strictTotal_edgeLt]
            constructor
            · rintro (rfl | h)
              · exact .inr ⟨hx, .inl rfl, h2⟩
              · exact .inl h
            · rintro (h | ⟨_, rfl | rfl, h⟩)
              · exact .inr h
              · exact .inl rfl
              · exact absurd h h1
          · rw [if_neg h2]
            constructor
            · exact .inl
            · rintro (h | ⟨_, rfl | rfl, h⟩)
              · exact h
              · exact absurd h h2
              · exact absurd h h1
      · rw [if_neg hx]
        simp [hx]
  rw [gen]
  constructor
  · rintro (h | ⟨x, hx, hr, rfl | rfl, hlt⟩)
    · cases h
    · exact ⟨hx, hr, hlt⟩
    · exact ⟨hr, by rw [DEdge.rev_rev]; exact hx, hlt⟩
  · rintro ⟨h1, h2, h3⟩
    exact .inr ⟨e, h1, h2, .inl rfl, h3⟩

/-- **C69.** The flap edges kept for the incidence structure are exactly the edges the loop traverses in both
directions, each recorded once, from its larger to its smaller vertex. -/
theorem C69_flap_edges (inv : List DEdge) (C : List ℤ) (e : DEdge) :
    e ∈ (cleanUnmanifold inv C).2.1 ↔ e ∈ polyEdges C ∧ (e.2, e.1) ∈ polyEdges C ∧ e.2 < e.1 := by
  have h : (cleanUnmanifold inv C).2.1 = cleanFlaps C := by
    unfold cleanUnmanifold
    dsimp only
    split
    · rfl
    · split <;> rfl
  rw [h]
  exact mem_cleanFlaps C e

/-- the loop `0 1 2 3 2` runs along the edge `2–3` and back: the flap is stored as `(3,2)`. -/
example : (cleanUnmanifold [] [0, 1, 2, 3, 2]).2.1 = [(3, 2)] := by decide +kernel

end CellCollapser
end Mandoline
