import Verif.Core.OMap
import Mathlib.Data.Rat.Defs
import Mathlib.Algebra.Order.Ring.Rat
import Mathlib.Data.List.Induction
import Mathlib.Data.List.Basic
import Mathlib.Tactic.Linarith
import Mathlib.Tactic.FieldSimp

/-! # C55: volumes per region (tools/validation/region_volumes.cpp:78-102, 38-60) -/
namespace Mandoline
namespace RegVol

/-- the comparison of `std::map<int, …>`. -/
def zlt : ℤ → ℤ → Bool := fun a b => decide (a < b)
theorem zlt_total : StrictTotal zlt := OMap.strictTotal_of_linearOrder

/-- the `unindexer` loop (region_volumes.cpp:82-87): a region not seen before gets the next index. -/
def unindexer (R : List ℤ) : List (ℤ × ℕ) :=
  R.foldl (fun m r => if (OMap.find zlt r m).isNone then OMap.assign zlt r m.length m else m) []

/-- `vol(k)` after the accumulation (region_volumes.cpp:89-94). -/
def vol (R : List ℤ) (V : List ℚ) (k : ℕ) : ℚ :=
  (R.zip V).foldl (fun a rv => if OMap.find zlt rv.1 (unindexer R) = some k then a + rv.2 else a) 0

/-- `region_volumes` (region_volumes.cpp:78-102). The last loop stores `vols[b] = vol(a)` with `a` the region and `b` its index:
the roles are exchanged. `none` is a read outside `vol`. -/
def regionVolumes (R : List ℤ) (V : List ℚ) : Option (List (ℤ × ℚ)) :=
  (unindexer R).foldl (fun o ab => o.bind fun m =>
    if 0 ≤ ab.1 ∧ ab.1 < ((unindexer R).length : ℤ) then some (OMap.assign zlt (ab.2 : ℤ) (vol R V ab.1.toNat) m) else none) (some [])

/-- specification: the total volume of the cells in region `r`. -/
def totalVolume (R : List ℤ) (V : List ℚ) (r : ℤ) : ℚ := (((R.zip V).filter fun rv => decide (rv.1 = r)).map Prod.snd).sum

/-! ## proofs -/

/-- invariants of the index map. -/
structure UInv (R : List ℤ) (m : List (ℤ × ℕ)) : Prop where
  sorted : OMap.Sorted zlt m
  dom : ∀ r, (OMap.find zlt r m).isSome = true ↔ r ∈ R
  lt : ∀ r k, OMap.find zlt r m = some k → k < m.length
  inj : ∀ r r' k, OMap.find zlt r m = some k → OMap.find zlt r' m = some k → r = r'

theorem length_alter_new {m : List (ℤ × ℕ)} (hs : OMap.Sorted zlt m) (r : ℤ) (k : ℕ) (h : OMap.find zlt r m = none) :
    (OMap.assign zlt r k m).length = m.length + 1 := by
  unfold OMap.assign
  induction m with
  | nil => rfl
  | cons p l ih =>
    obtain ⟨k', v⟩ := p
    simp only [OMap.find] at h
    simp only [OMap.alter]
    split_ifs at h ⊢ with h1 h2
    · rfl
    · simp [ih (List.pairwise_cons.1 hs).2 h]

theorem uInv (R : List ℤ) : UInv R (unindexer R) := by
  induction R using List.reverseRecOn with
  | nil => exact ⟨OMap.sorted_nil, fun r => by simp [unindexer, OMap.find], fun r k h => by simp [unindexer, OMap.find] at h,
      fun r r' k h => by simp [unindexer, OMap.find] at h⟩
  | append_singleton R x ih =>
    have e : unindexer (R ++ [x]) = if (OMap.find zlt x (unindexer R)).isNone then OMap.assign zlt x (unindexer R).length (unindexer R) else unindexer R := by
      simp [unindexer]
    rw [e]
    generalize unindexer R = m at ih ⊢
    obtain ⟨h1, h2, h3, h4⟩ := ih
    split
    · rename_i hn
      have hn' : OMap.find zlt x m = none := by simpa using hn
      have hl := length_alter_new h1 x m.length hn'
      have hf : ∀ r, OMap.find zlt r (OMap.assign zlt x m.length m) = if r = x then some m.length else OMap.find zlt r m :=
        fun r => OMap.find_alter zlt_total h1
      refine ⟨OMap.sorted_alter zlt_total h1, ?_, ?_, ?_⟩
      · intro r; rw [hf, List.mem_append, List.mem_singleton]
        by_cases hr : r = x
        · simp [hr]
        · simp [hr, h2]
      · intro r k hk; rw [hf] at hk; rw [hl]
        split at hk
        · have := Option.some.inj hk; omega
        · have := h3 r k hk; omega
      · intro r r' k hk hk'
        rw [hf] at hk hk'
        split at hk <;> split at hk'
        · simp_all
        · have a := Option.some.inj hk; have b := h3 r' k hk'; omega
        · have a := Option.some.inj hk'; have b := h3 r k hk; omega
        · exact h4 r r' k hk hk'
    · rename_i hn
      have hx : x ∈ R := (h2 x).1 (by simpa [Option.isSome_iff_ne_none] using hn)
      refine ⟨h1, fun r => ?_, h3, h4⟩
      rw [h2, List.mem_append, List.mem_singleton]
      exact ⟨Or.inl, fun h => h.elim id fun h => h ▸ hx⟩

/-- **C55** regions get distinct indices, all below the number of regions, exactly for the regions that occur. -/
theorem C55_indexing (R : List ℤ) :
    (∀ r, (OMap.find zlt r (unindexer R)).isSome = true ↔ r ∈ R) ∧
    (∀ r k, OMap.find zlt r (unindexer R) = some k → k < (unindexer R).length) ∧
    (∀ r r' k, OMap.find zlt r (unindexer R) = some k → OMap.find zlt r' (unindexer R) = some k → r = r') :=
  ⟨(uInv R).dom, (uInv R).lt, (uInv R).inj⟩

/-- **C55** the accumulated vector holds, at a region's index, the total volume of the region's cells. -/
theorem C55_accumulated (R : List ℤ) (V : List ℚ) (r : ℤ) (k : ℕ) (h : OMap.find zlt r (unindexer R) = some k) :
    vol R V k = totalVolume R V r := by
  have key : ∀ (l : List (ℤ × ℚ)) (a : ℚ),
      l.foldl (fun a rv => if OMap.find zlt rv.1 (unindexer R) = some k then a + rv.2 else a) a =
        a + ((l.filter fun rv => decide (rv.1 = r)).map Prod.snd).sum := by
    intro l
    induction l with
    | nil => intro a; simp
    | cons p l ih =>
      intro a
      rw [List.foldl_cons, ih, List.filter_cons]
      have hiff : OMap.find zlt p.1 (unindexer R) = some k ↔ p.1 = r :=
        ⟨fun h' => (uInv R).inj _ _ k h' h, fun h' => by rw [h', h]⟩
      by_cases hp : p.1 = r
      · rw [if_pos (hiff.2 hp)]; simp [hp, add_assoc]
      · rw [if_neg (fun h' => hp (hiff.1 h'))]; simp [hp]
  unfold vol totalVolume
  rw [key]; simp

theorem regionVolumes_find (R : List ℤ) (V : List ℚ) (hc : ∀ r ∈ R, 0 ≤ r ∧ r < ((unindexer R).length : ℤ)) :
    ∃ m, regionVolumes R V = some m ∧ ∀ k : ℕ, OMap.find zlt (k : ℤ) m =
      ((unindexer R).find? fun ab => decide (ab.2 = k)).map fun ab => vol R V ab.1.toNat := by
  have U := uInv R
  have hr : ∀ ab ∈ unindexer R, 0 ≤ ab.1 ∧ ab.1 < ((unindexer R).length : ℤ) := by
    rintro ⟨a, b⟩ hab
    exact hc a ((U.dom a).1 (by rw [OMap.find_of_mem zlt_total U.sorted hab]; rfl))
  have hinj : ∀ ab ∈ unindexer R, ∀ cd ∈ unindexer R, ab.2 = cd.2 → ab = cd := by
    rintro ⟨a, b⟩ hab ⟨c, d⟩ hcd h
    simp only at h; subst h
    rw [U.inj a c b (OMap.find_of_mem zlt_total U.sorted hab) (OMap.find_of_mem zlt_total U.sorted hcd)]
  have key : ∀ (l : List (ℤ × ℕ)) (m0 : List (ℤ × ℚ)), OMap.Sorted zlt m0 → (∀ x ∈ l, x ∈ unindexer R) → l.Nodup →
      (∀ x ∈ l, OMap.find zlt (x.2 : ℤ) m0 = none) →
      ∃ m, l.foldl (fun o ab => o.bind fun m => if 0 ≤ ab.1 ∧ ab.1 < ((unindexer R).length : ℤ) then
          some (OMap.assign zlt (ab.2 : ℤ) (vol R V ab.1.toNat) m) else none) (some m0) = some m ∧
        ∀ k : ℕ, OMap.find zlt (k : ℤ) m = ((l.find? fun ab => decide (ab.2 = k)).map fun ab => vol R V ab.1.toNat).or (OMap.find zlt (k : ℤ) m0) := by
    intro l
    induction l with
    | nil => intro m0 _ _ _ _; exact ⟨m0, rfl, fun k => by simp⟩
    | cons x l ih =>
      intro m0 hs hm hn hz
      have hx := hm x (by simp)
      have hn' := List.nodup_cons.1 hn
      obtain ⟨m, h1, h2⟩ := ih (OMap.assign zlt (x.2 : ℤ) (vol R V x.1.toNat) m0) (OMap.sorted_alter zlt_total hs)
        (fun y hy => hm y (List.mem_cons_of_mem _ hy)) hn'.2 (by
          intro y hy
          rw [OMap.assign, OMap.find_alter zlt_total hs, if_neg, hz y (List.mem_cons_of_mem _ hy)]
          intro h
          have : y = x := hinj y (hm y (List.mem_cons_of_mem _ hy)) x hx (by exact_mod_cast h)
          exact hn'.1 (this ▸ hy))
      refine ⟨m, ?_, ?_⟩
      · rw [List.foldl_cons, Option.bind_some, if_pos (hr x hx)]; exact h1
      · intro k
        rw [h2 k, OMap.assign, OMap.find_alter zlt_total hs, List.find?_cons]
        by_cases hk : x.2 = k
        · have : l.find? (fun ab => decide (ab.2 = k)) = none := by
            rw [List.find?_eq_none]
            intro y hy
            simp only [decide_eq_true_eq]
            intro h
            have : y = x := hinj y (hm y (List.mem_cons_of_mem _ hy)) x hx (h.trans hk.symm)
            exact hn'.1 (this ▸ hy)
          simp [this, hk]
        · have : (k : ℤ) ≠ (x.2 : ℤ) := fun h => hk (by exact_mod_cast h.symm)
          simp [hk, this]
  have hnd : (unindexer R).Nodup := U.sorted.imp fun {a b} h => by
    intro hab; rw [hab] at h; rw [zlt_total.irrefl] at h; cases h
  obtain ⟨m, h1, h2⟩ := key (unindexer R) [] OMap.sorted_nil (fun _ h => h) hnd (fun _ _ => rfl)
  exact ⟨m, h1, fun k => by rw [h2 k]; simp [OMap.find]⟩

/-- **C55** what is reported (for region ids `0 .. n-1`): under the key "index of region `a`" stands the total of the region
whose index is `a`. -/
theorem C55_reported (R : List ℤ) (V : List ℚ) (hc : ∀ r ∈ R, 0 ≤ r ∧ r < ((unindexer R).length : ℤ)) :
    ∃ m, regionVolumes R V = some m ∧ ∀ (a : ℤ) (b : ℕ) (r : ℤ), OMap.find zlt a (unindexer R) = some b →
      OMap.find zlt r (unindexer R) = some a.toNat → OMap.find zlt (b : ℤ) m = some (totalVolume R V r) := by
  obtain ⟨m, h1, h2⟩ := regionVolumes_find R V hc
  refine ⟨m, h1, fun a b r hab hr => ?_⟩
  have U := uInv R
  have hmem := OMap.mem_of_find zlt_total hab
  have : (unindexer R).find? (fun ab => decide (ab.2 = b)) = some (a, b) := by
    cases hf : (unindexer R).find? (fun ab => decide (ab.2 = b)) with
    | none => exact absurd (by simp) ((List.find?_eq_none.1 hf) (a, b) hmem)
    | some q =>
      have h5 := List.find?_some hf
      have h6 := List.mem_of_find?_eq_some hf
      obtain ⟨c, d⟩ := q
      have hd : d = b := by simpa using h5
      subst hd
      rw [U.inj c a d (OMap.find_of_mem zlt_total U.sorted h6) hab]
  rw [h2 b, this]
  simp only [Option.map_some]
  rw [C55_accumulated R V r a.toNat hr]

/-- **C55** the report is right when every region's index is its own id (ids in order of first appearance). -/
theorem C55_correct_if_in_order (R : List ℤ) (V : List ℚ) (h : ∀ r ∈ R, ∃ k : ℕ, r = k ∧ OMap.find zlt r (unindexer R) = some k) :
    ∃ m, regionVolumes R V = some m ∧ ∀ r ∈ R, OMap.find zlt r m = some (totalVolume R V r) := by
  have U := uInv R
  obtain ⟨m, h1, h2⟩ := C55_reported R V (by
    intro r hr
    obtain ⟨k, rfl, hk⟩ := h r hr
    have := U.lt _ _ hk
    omega)
  refine ⟨m, h1, fun r hr => ?_⟩
  obtain ⟨k, rfl, hk⟩ := h r hr
  exact h2 k k k hk (by simpa using hk)

/-- **C55, defect** three regions met in the order 1, 2, 0: the volume reported for region 0 is that of region 2. -/
theorem C55_swapped_refuted :
    regionVolumes [1, 2, 0] [10, 20, 30] = some [(0, 20), (1, 30), (2, 10)] ∧
    totalVolume [1, 2, 0] [10, 20, 30] 0 = 30 ∧ totalVolume [1, 2, 0] [10, 20, 30] 1 = 10 ∧
    totalVolume [1, 2, 0] [10, 20, 30] 2 = 20 := by
  decide +kernel

/-- **C55, defect** region ids that are not `0 .. n-1` make it read outside the vector. -/
theorem C55_gap_refuted : regionVolumes [0, 5, 0] [1, 2, 3] = none := by decide +kernel

example : regionVolumes [0, 1, 0, 2] [1, 2, 3, 4] = some [(0, 4), (1, 2), (2, 4)] := by decide +kernel
example : ∀ r ∈ [(0 : ℤ), 1, 0, 2], ∃ k : ℕ, r = k ∧ OMap.find zlt r (unindexer [0, 1, 0, 2]) = some k := by
  intro r hr
  simp only [List.mem_cons, List.not_mem_nil, or_false] at hr
  rcases hr with rfl | rfl | rfl | rfl
  · exact ⟨0, rfl, by decide +kernel⟩
  · exact ⟨1, rfl, by decide +kernel⟩
  · exact ⟨0, rfl, by decide +kernel⟩
  · exact ⟨2, rfl, by decide +kernel⟩

end RegVol
end Mandoline
