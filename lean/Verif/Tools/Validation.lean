import Verif.Core.Lex
import Verif.Exterior.Model
import Mathlib.Data.List.Nodup
import Mathlib.Data.List.Perm.Subperm
import Mathlib.Data.List.Induction
import Mathlib.Data.List.Dedup
import Mathlib.Algebra.Order.Field.Rat
import Mathlib.Algebra.Order.Field.Basic
import Mathlib.Algebra.Order.AbsoluteValue.Basic
import Mathlib.Data.Fin.VecNotation
import Mathlib.Tactic.Linarith
import Mathlib.Tactic.FieldSimp
import Mathlib.Tactic.Ring

/-!
# C105, C106: the validation tool

`grid_cells_fully_utilized` (tools/validation/grid_cells.cpp:6-52) and `volume_check`, `brep_region_volumes`
(tools/validation/region_volumes.cpp:38-58, 128-171).
-/
namespace Mandoline.Validation

/-! ## C105: grid cells -/

/-- `grid_cell_volumes` (grid_cells.cpp:13-20): per grid cell the sum of the volumes of its cut-cells. `cells` lists grid cell and volume of
the cut-cells. -/
def gridCellVolumes (cells : List (Coord 3 × ℚ)) : List (Coord 3 × ℚ) :=
  cells.foldl (fun m c => OMap.alter coordLtB c.1 (fun o => match o with
    | none => c.2
    | some v => v + c.2) m) []

/-- `grid_cells_fully_utilized_count` (grid_cells.cpp:6-46): `all` are the coordinates of the mask's grid, `active` the mask. -/
def gridCellsCount (all : List (Coord 3)) (active : Coord 3 → Bool) (cellVol : ℚ) (cells : List (Coord 3 × ℚ)) : ℤ × ℤ :=
  let m := gridCellVolumes cells
  let activeCount : ℤ := all.countP active
  let unused : ℤ := activeCount - m.length
  m.foldl (fun s cv =>
    if |1 - cv.2 / cellVol| > 1 / 100000 then (s.1 + 1, s.2)
    else if !(decide (cv.1 ∈ all)) || !active cv.1 then (s.1, s.2 + 1)
    else s) (0, unused)

/-- `grid_cells_fully_utilized` (grid_cells.cpp:47-50). -/
def gridCellsUtilized (all : List (Coord 3)) (active : Coord 3 → Bool) (cellVol : ℚ) (cells : List (Coord 3 × ℚ)) : Bool :=
  let r := gridCellsCount all active cellVol cells
  decide (r.1 = 0) && decide (r.2 = 0)

/-- specification: the total volume of the cut-cells inside grid cell `c`. -/
def volumeIn (cells : List (Coord 3 × ℚ)) (c : Coord 3) : ℚ := ((cells.filter fun x => decide (x.1 = c)).map Prod.snd).sum

theorem gridCellVolumes_spec (cells : List (Coord 3 × ℚ)) :
    OMap.Sorted coordLtB (gridCellVolumes cells) ∧
    ∀ c v, (c, v) ∈ gridCellVolumes cells ↔ (∃ x ∈ cells, x.1 = c) ∧ v = volumeIn cells c := by
  have hST := strictTotal_coordLtB (D := 3)
  induction cells using List.reverseRecOn with
  | nil => exact ⟨OMap.sorted_nil, by simp [gridCellVolumes]⟩
  | append_singleton l a ih =>
    obtain ⟨h1, h2⟩ := ih
    have hrec : gridCellVolumes (l ++ [a]) = OMap.alter coordLtB a.1 (fun o => match o with
      | none => a.2
      | some v => v + a.2) (gridCellVolumes l) := by
      unfold gridCellVolumes; rw [List.foldl_append]; rfl
    have hvol : ∀ c, volumeIn (l ++ [a]) c = volumeIn l c + if a.1 = c then a.2 else 0 := by
      intro c
      unfold volumeIn
      rw [List.filter_append, List.map_append, List.sum_append]
      congr 1
      by_cases h : a.1 = c <;> simp [h]
    rw [hrec]
    refine ⟨OMap.sorted_alter hST h1, fun c v => ?_⟩
    rw [OMap.mem_alter hST h1, hvol]
    by_cases hc : c = a.1
    · have hnew : (match OMap.find coordLtB a.1 (gridCellVolumes l) with
          | none => a.2
          | some v => v + a.2) = volumeIn l a.1 + a.2 := by
        cases hf : OMap.find coordLtB a.1 (gridCellVolumes l) with
        | none =>
          have hno := (OMap.find_none_iff hST h1).1 hf
          have : ¬ ∃ x ∈ l, x.1 = a.1 := fun hx => hno _ ((h2 a.1 _).2 ⟨hx, rfl⟩)
          have hz : volumeIn l a.1 = 0 := by
            unfold volumeIn
            have : l.filter (fun x => decide (x.1 = a.1)) = [] := by
              rw [List.filter_eq_nil_iff]; intro x hx h; exact this ⟨x, hx, by simpa using h⟩
            rw [this]; rfl
          dsimp only; rw [hz]; ring
        | some v =>
          have := ((h2 a.1 v).1 (OMap.mem_of_find hST hf)).2
          dsimp only; rw [this]
      rw [hnew]
      simp [hc]
    · have hc' : a.1 ≠ c := fun h => hc h.symm
      simp only [ne_eq, hc, not_false_eq_true, true_and, false_and, or_false, h2, if_neg hc', add_zero]
      refine and_congr_left fun _ => ?_
      simp [hc']

theorem count_fold_aux {α : Type} (P : α → Prop) [DecidablePred P] (Q : α → Bool) (m : List α) (s : ℤ × ℤ) :
    m.foldl (fun s c => if P c then (s.1 + 1, s.2) else if Q c then (s.1, s.2 + 1) else s) s =
    (s.1 + (m.countP fun c => decide (P c) : ℕ), s.2 + (m.countP fun c => !decide (P c) && Q c : ℕ)) := by
  induction m generalizing s with
  | nil => simp
  | cons c m ih =>
    rw [List.foldl_cons, ih, List.countP_cons, List.countP_cons]
    by_cases h : P c
    · simp only [if_pos h, decide_eq_true h]
      apply Prod.ext <;> simp <;> omega
    · by_cases h2 : Q c = true
      · simp only [if_neg h, if_pos h2, decide_eq_false h, h2]
        apply Prod.ext <;> simp <;> omega
      · have h2' := Bool.eq_false_of_not_eq_true h2
        simp only [if_neg h, decide_eq_false h, h2']
        apply Prod.ext <;> simp

theorem count_fold (all : List (Coord 3)) (active : Coord 3 → Bool) (cv : ℚ) (m : List (Coord 3 × ℚ)) (s : ℤ × ℤ) :
    m.foldl (fun s c =>
      if |1 - c.2 / cv| > 1 / 100000 then (s.1 + 1, s.2)
      else if !(decide (c.1 ∈ all)) || !active c.1 then (s.1, s.2 + 1)
      else s) s =
    (s.1 + (m.countP fun c => decide (|1 - c.2 / cv| > 1 / 100000) : ℕ),
     s.2 + (m.countP fun c => !decide (|1 - c.2 / cv| > 1 / 100000) && (!(decide (c.1 ∈ all)) || !active c.1) : ℕ)) :=
  count_fold_aux (fun c : Coord 3 × ℚ => |1 - c.2 / cv| > 1 / 100000) (fun c => !(decide (c.1 ∈ all)) || !active c.1) m s

theorem countP_split {α : Type} (P Q : α → Bool) (l : List α) :
    l.countP P = l.countP (fun a => P a && Q a) + l.countP (fun a => P a && !Q a) := by
  induction l with
  | nil => rfl
  | cons a l ih =>
    rw [List.countP_cons, List.countP_cons, List.countP_cons, ih]
    cases P a <;> cases Q a <;> simp <;> omega

/-- **C105.** The check succeeds exactly when every grid cell that contains cut-cells has cut-cells of the right total volume (relative error at most
`10⁻⁵`), and every grid cell marked in the mask contains a cut-cell. -/
theorem C105_verdict (order : GridOrder 3) (shape : Coord 3) (active : Coord 3 → Bool) (cellVol : ℚ) (cells : List (Coord 3 × ℚ)) :
    gridCellsUtilized (order.coords shape) active cellVol cells = true ↔
      (∀ x ∈ cells, |1 - volumeIn cells x.1 / cellVol| ≤ 1 / 100000) ∧
      ∀ c, (∀ i, 0 ≤ c i ∧ c i < shape i) → active c = true → ∃ x ∈ cells, x.1 = c := by
  classical
  obtain ⟨hs, hm⟩ := gridCellVolumes_spec cells
  have hST := strictTotal_coordLtB (D := 3)
  set m := gridCellVolumes cells with hmdef
  set all := order.coords shape with hall
  have hnd : (m.map Prod.fst).Nodup := by
    rw [List.Nodup, List.pairwise_map]
    refine hs.imp ?_
    intro a b h hab
    rw [hab, hST.irrefl] at h; cases h
  have hkeys : ∀ c, c ∈ m.map Prod.fst ↔ ∃ x ∈ cells, x.1 = c := by
    intro c
    constructor
    · intro h
      obtain ⟨⟨c', v⟩, hp, rfl⟩ := List.mem_map.1 h
      exact ((hm _ _).1 hp).1
    · intro h
      exact List.mem_map.2 ⟨(c, volumeIn cells c), (hm _ _).2 ⟨h, rfl⟩, rfl⟩
  have hbad : (m.countP fun c => decide (|1 - c.2 / cellVol| > 1 / 100000)) = 0 ↔
      ∀ x ∈ cells, |1 - volumeIn cells x.1 / cellVol| ≤ 1 / 100000 := by
    rw [List.countP_eq_zero]
    constructor
    · intro h x hx
      have := h (x.1, volumeIn cells x.1) ((hm _ _).2 ⟨⟨x, hx, rfl⟩, rfl⟩)
      simpa using this
    · rintro h ⟨c, v⟩ hp
      obtain ⟨⟨x, hx, rfl⟩, rfl⟩ := (hm _ _).1 hp
      simpa using h x hx
  have hres : gridCellsUtilized all active cellVol cells = true ↔
      (m.countP fun c => decide (|1 - c.2 / cellVol| > 1 / 100000)) = 0 ∧
      ((all.countP active : ℕ) : ℤ) - m.length +
        (m.countP fun c => !decide (|1 - c.2 / cellVol| > 1 / 100000) && (!(decide (c.1 ∈ all)) || !active c.1) : ℕ) = 0 := by
    unfold gridCellsUtilized gridCellsCount
    dsimp only
    rw [count_fold, ← hmdef]
    rw [Bool.and_eq_true, decide_eq_true_eq, decide_eq_true_eq]
    dsimp only
    refine and_congr_left fun _ => ?_
    omega
  rw [hres, hbad]
  refine and_congr_right fun hgood => ?_
  have hgood' := hbad.2 hgood
  rw [List.countP_eq_zero] at hgood'
  have hb2 : (m.countP fun c => !decide (|1 - c.2 / cellVol| > 1 / 100000) && (!(decide (c.1 ∈ all)) || !active c.1)) =
      (m.map Prod.fst).countP fun c => !(decide (c ∈ all) && active c) := by
    rw [List.countP_map]
    apply List.countP_congr
    intro x hx
    have := hgood' x hx
    rw [Bool.eq_false_of_not_eq_true this]
    simp [Function.comp, Bool.not_and]
  rw [hb2]
  have hlen : m.length = (m.map Prod.fst).length := by simp
  have hsp := countP_split (fun _ => true) (fun c => decide (c ∈ all) && active c) (m.map Prod.fst)
  simp only [Bool.true_and, List.countP_true] at hsp
  -- both counts are counts over `all`
  have hA : (m.map Prod.fst).countP (fun c => decide (c ∈ all) && active c) =
      all.countP (fun c => active c && decide (c ∈ m.map Prod.fst)) := by
    rw [List.countP_eq_length_filter, List.countP_eq_length_filter]
    apply List.Perm.length_eq
    rw [List.perm_ext_iff_of_nodup (hnd.filter _) ((order.nodup shape).filter _)]
    intro c
    simp only [List.mem_filter, Bool.and_eq_true, decide_eq_true_eq]
    constructor
    · rintro ⟨h1, h2, h3⟩; exact ⟨h2, h3, h1⟩
    · rintro ⟨h1, h2, h3⟩; exact ⟨h3, h1, h2⟩
  have hsp2 := countP_split active (fun c => decide (c ∈ m.map Prod.fst)) all
  have hfin : ((all.countP active : ℕ) : ℤ) - m.length + ((m.map Prod.fst).countP fun c => !(decide (c ∈ all) && active c) : ℕ) = 0 ↔
      all.countP (fun c => active c && !decide (c ∈ m.map Prod.fst)) = 0 := by
    rw [hlen]; omega
  rw [hfin, List.countP_eq_zero]
  constructor
  · intro h c hc hact
    have := h c ((order.mem shape c).2 hc)
    rw [hact] at this
    simp only [Bool.true_and, Bool.not_eq_true', decide_eq_false_iff_not, not_not] at this
    exact (hkeys c).1 this
  · intro h c hc
    cases hact : active c with
    | false => simp
    | true =>
      have := (hkeys c).2 (h c ((order.mem shape c).1 hc) hact)
      rw [Bool.true_and]; simp only [Bool.not_eq_true, Bool.not_eq_false', decide_eq_true_eq]; exact this

/-- **C105, refuted: uncut cells.** The mask of a three-dimensional mesh is never filled in (it stays `true` everywhere, mesh.hpp:62): the check
then fails for every mesh that leaves some grid cell uncut, however good its cells. -/
theorem C105_uncut_cell_refuted (order : GridOrder 3) (shape : Coord 3) (cellVol : ℚ) (cells : List (Coord 3 × ℚ)) (c : Coord 3)
    (hc : ∀ i, 0 ≤ c i ∧ c i < shape i) (hno : ∀ x ∈ cells, x.1 ≠ c) :
    gridCellsUtilized (order.coords shape) (fun _ => true) cellVol cells = false := by
  apply Bool.eq_false_of_not_eq_true
  rw [C105_verdict]
  rintro ⟨_, h⟩
  obtain ⟨x, hx, hxc⟩ := h c hc rfl
  exact hno x hx hxc

/-- **C105, refuted: stray cells.** "Cells in use although not marked are detected" fails: such cells never change the verdict. -/
theorem C105_stray_refuted (order : GridOrder 3) (shape : Coord 3) (active : Coord 3 → Bool) (cellVol : ℚ) (cells : List (Coord 3 × ℚ))
    (hvol : ∀ x ∈ cells, volumeIn cells x.1 = cellVol) (h0 : cellVol ≠ 0)
    (hcov : ∀ c, (∀ i, 0 ≤ c i ∧ c i < shape i) → active c = true → ∃ x ∈ cells, x.1 = c) :
    gridCellsUtilized (order.coords shape) active cellVol cells = true := by
  rw [C105_verdict]
  refine ⟨fun x hx => ?_, hcov⟩
  rw [hvol x hx, div_self h0]; simp

/-- a 2x1x1 grid: one cell cut in two halves; with the mask marking only that cell the check succeeds, and it does so as well when a cut-cell
lies outside the grid. -/
example : gridCellsUtilized (lexCoords 3 ![2, 1, 1]) (fun c => decide (c 0 = 0)) 1 [(![0, 0, 0], 1/2), (![0, 0, 0], 1/2)] = true ∧
    gridCellsUtilized (lexCoords 3 ![2, 1, 1]) (fun c => decide (c 0 = 0)) 1 [(![0, 0, 0], 1/2), (![7, 0, 0], 1), (![0, 0, 0], 1/2)] = true ∧
    gridCellsUtilized (lexCoords 3 ![2, 1, 1]) (fun _ => true) 1 [(![0, 0, 0], 1/2), (![0, 0, 0], 1/2)] = false ∧
    gridCellsUtilized (lexCoords 3 ![2, 1, 1]) (fun c => decide (c 0 = 0)) 1 [(![0, 0, 0], 1/2)] = false := by decide +kernel

/-! ## C106: volumes -/

/-- the loop of `volume_check` (region_volumes.cpp:140-169). `size` is the length of `IMV`; `none` is a read past its end (`ridx == IMV.size()` passes the
test `ridx > IMV.size()`). -/
def volumeLoop (size : ℤ) (total : ℚ) : (ℤ → ℚ) → Bool → List (ℤ × ℚ) → Option Bool
  | _, _, [] => some true
  | imv, used, (r, v) :: l =>
    if r < 0 then volumeLoop size total imv used l
    else if r > size then some false
    else if r = size then none
    else
      let near := decide (|(imv r - v) / total| > 1 / 1000)
      if !near && !used then
        let imv' := Function.update imv r (imv r + total)
        let near' := decide (|(imv' r - v) / total| > 1 / 1000)
        if !near' then some false else volumeLoop size total imv' true l
      else if !near then some false
      else volumeLoop size total imv used l

/-- `volume_check` (region_volumes.cpp:128-171): `imv` are the volumes of the regions of the input, `vols` those of the mesh, `total` the volume of
the domain. -/
def volumeCheck (imv : List ℚ) (total : ℚ) (vols : List (ℤ × ℚ)) : Option Bool :=
  volumeLoop imv.length total (fun r => imv.getD r.toNat 0) false vols

theorem volumeLoop_spec (size : ℤ) (total : ℚ) (ht : 0 < total) (l : List (ℤ × ℚ)) :
    ∀ (imv : ℤ → ℚ) (used : Bool), (l.map Prod.fst).Nodup → (∀ p ∈ l, p.1 < size) →
      (volumeLoop size total imv used l).isSome ∧
      (volumeLoop size total imv used l = some true ↔
        (l.countP fun p => decide (0 ≤ p.1) && decide (|imv p.1 - p.2| ≤ total / 1000)) + (if used then 1 else 0) ≤ 1 ∨
        (used = true ∧ (l.countP fun p => decide (0 ≤ p.1) && decide (|imv p.1 - p.2| ≤ total / 1000)) = 0)) := by
  have hdiv : ∀ x : ℚ, |x / total| > 1 / 1000 ↔ ¬ |x| ≤ total / 1000 := by
    intro x
    rw [abs_div, abs_of_pos ht, gt_iff_lt, lt_div_iff₀ ht, not_le]
    constructor <;> intro h <;> linarith
  induction l with
  | nil => intro imv used _ _; cases used <;> simp [volumeLoop]
  | cons p l ih =>
    intro imv used hnd hsz
    obtain ⟨r, v⟩ := p
    rw [List.map_cons, List.nodup_cons] at hnd
    have hr := hsz (r, v) (by simp)
    have hsz' : ∀ p ∈ l, p.1 < size := fun p hp => hsz p (List.mem_cons_of_mem _ hp)
    dsimp only at hr
    rw [volumeLoop]
    by_cases h0 : r < 0
    · rw [if_pos h0, List.countP_cons]
      have : ¬ (0 ≤ r) := by omega
      simp only [this, decide_false, Bool.false_and]
      simpa using ih imv used hnd.2 hsz'
    rw [if_neg h0, if_neg (by omega), if_neg (by omega)]
    dsimp only
    have h0' : 0 ≤ r := by omega
    rw [List.countP_cons]
    by_cases hn : |imv r - v| ≤ total / 1000
    · have hd : decide (|(imv r - v) / total| > 1 / 1000) = false := by
        rw [decide_eq_false_iff_not, hdiv]; exact fun h => h hn
      rw [hd]
      have hc1 : (if (decide (0 ≤ r) && decide (|imv r - v| ≤ total / 1000)) = true then 1 else 0) = 1 := by simp [h0', hn]
      dsimp only
      rw [hc1]
      cases used with
      | true =>
        simp
      | false =>
        have hfar : decide (|(Function.update imv r (imv r + total) r - v) / total| > 1 / 1000) = true := by
          rw [decide_eq_true_eq, hdiv, Function.update_self, not_le]
          have h1 := (abs_le.1 hn).1
          have : imv r + total - v ≤ |imv r + total - v| := le_abs_self _
          linarith
        rw [hfar]
        obtain ⟨i1, i2⟩ := ih (Function.update imv r (imv r + total)) true hnd.2 hsz'
        simp only [Bool.not_false, Bool.and_self, if_true, Bool.not_true, Bool.false_eq_true, if_false]
        refine ⟨i1, ?_⟩
        rw [i2]
        have hcong : (l.countP fun p => decide (0 ≤ p.1) && decide (|Function.update imv r (imv r + total) p.1 - p.2| ≤ total / 1000)) =
            l.countP fun p => decide (0 ≤ p.1) && decide (|imv p.1 - p.2| ≤ total / 1000) := by
          apply List.countP_congr
          intro q hq
          have : q.1 ≠ r := by
            rintro h
            exact hnd.1 (h ▸ List.mem_map.2 ⟨q, hq, rfl⟩)
          rw [Function.update_of_ne this]
        rw [hcong]
        simp
    · have hd : decide (|(imv r - v) / total| > 1 / 1000) = true := by
        rw [decide_eq_true_eq, hdiv]; exact hn
      rw [hd]
      have hc1 : (if (decide (0 ≤ r) && decide (|imv r - v| ≤ total / 1000)) = true then 1 else 0) = 0 := by simp [hn]
      dsimp only
      rw [hc1]
      simpa using ih imv used hnd.2 hsz'

/-- **C106, what the volume check computes (defect).** For region ids that all have an input volume, the check succeeds exactly when *at most one*
region has the volume of the input (relative to the domain, within `10⁻³`): the comparison is inverted. -/
theorem C106_verdict (imv : List ℚ) (total : ℚ) (ht : 0 < total) (vols : List (ℤ × ℚ)) (hnd : (vols.map Prod.fst).Nodup)
    (hsz : ∀ p ∈ vols, p.1 < imv.length) :
    ∃ b, volumeCheck imv total vols = some b ∧
      (b = true ↔ (vols.countP fun p => decide (0 ≤ p.1) && decide (|imv.getD p.1.toNat 0 - p.2| ≤ total / 1000)) ≤ 1) := by
  obtain ⟨h1, h2⟩ := volumeLoop_spec imv.length total ht vols (fun r => imv.getD r.toNat 0) false hnd hsz
  obtain ⟨b, hb⟩ := Option.isSome_iff_exists.1 h1
  refine ⟨b, hb, ?_⟩
  rw [hb] at h2
  simpa using h2

/-- **C106, refuted: right volumes are rejected.** A mesh with at least two regions all of whose volumes are exactly those of the input fails the
check. -/
theorem C106_exact_rejected_refuted (imv : List ℚ) (total : ℚ) (ht : 0 < total) (vols : List (ℤ × ℚ)) (hnd : (vols.map Prod.fst).Nodup)
    (hsz : ∀ p ∈ vols, 0 ≤ p.1 ∧ p.1 < imv.length) (hexact : ∀ p ∈ vols, p.2 = imv.getD p.1.toNat 0) (h2 : 2 ≤ vols.length) :
    volumeCheck imv total vols = some false := by
  obtain ⟨b, hb, hiff⟩ := C106_verdict imv total ht vols hnd (fun p hp => (hsz p hp).2)
  have hall : (vols.countP fun p => decide (0 ≤ p.1) && decide (|imv.getD p.1.toNat 0 - p.2| ≤ total / 1000)) = vols.length := by
    rw [List.countP_eq_length]
    intro p hp
    rw [hexact p hp, sub_self, abs_zero]
    simp only [(hsz p hp).1, decide_true, Bool.true_and, decide_eq_true_eq]
    positivity
  rw [hall] at hiff
  cases b with
  | true => have := hiff.1 rfl; omega
  | false => exact hb

/-- **C106, refuted: wrong volumes are accepted.** If every region's volume is off by more than a thousandth of the domain, the check succeeds. -/
theorem C106_wrong_accepted_refuted (imv : List ℚ) (total : ℚ) (ht : 0 < total) (vols : List (ℤ × ℚ)) (hnd : (vols.map Prod.fst).Nodup)
    (hsz : ∀ p ∈ vols, p.1 < imv.length) (hwrong : ∀ p ∈ vols, |imv.getD p.1.toNat 0 - p.2| > total / 1000) :
    volumeCheck imv total vols = some true := by
  obtain ⟨b, hb, hiff⟩ := C106_verdict imv total ht vols hnd hsz
  have hz : (vols.countP fun p => decide (0 ≤ p.1) && decide (|imv.getD p.1.toNat 0 - p.2| ≤ total / 1000)) = 0 := by
    rw [List.countP_eq_zero]
    intro p hp
    have := hwrong p hp
    simp only [Bool.and_eq_true, decide_eq_true_eq, not_and, not_le]
    exact fun _ => this
  rw [hz] at hiff
  rw [hb, hiff.2 (by omega)]

/-- **C106, refuted: one region too many.** A region whose id equals the number of input regions is not reported: the vector is read past its end. -/
theorem C106_past_end_refuted (imv : List ℚ) (total v : ℚ) (l : List (ℤ × ℚ)) :
    volumeCheck imv total ((imv.length, v) :: l) = none := by
  unfold volumeCheck
  rw [volumeLoop, if_neg (by omega), if_neg (by omega), if_pos rfl]

example : volumeCheck [-1, 1/2, 1/2] 8 [(1, 1/2), (2, 1/2)] = some false ∧ volumeCheck [-1, 1/2, 1/2] 8 [(1, 5), (2, 7)] = some true := by
  decide +kernel

/-! ### volumes of the regions of a triangle mesh -/

/-- `brep_region_volumes(V, F, C)` before the division by 6 (region_volumes.cpp:40-56): a triangle with determinant `v` between the regions `c.1` and `c.2`
takes `v` from the first and gives it to the second. -/
def brepVolume (tris : List (ℚ × (ℕ × ℕ))) (k : ℕ) : ℚ :=
  tris.foldl (fun s t =>
    let s := if t.2.1 = k then s - t.1 else s
    if t.2.2 = k then s + t.1 else s) 0 / 6

theorem brep_fold (tris : List (ℚ × (ℕ × ℕ))) (k : ℕ) (s : ℚ) :
    tris.foldl (fun s t =>
      let s := if t.2.1 = k then s - t.1 else s
      if t.2.2 = k then s + t.1 else s) s =
    s - ((tris.filter fun t => decide (t.2.1 = k)).map Prod.fst).sum + ((tris.filter fun t => decide (t.2.2 = k)).map Prod.fst).sum := by
  induction tris generalizing s with
  | nil => simp
  | cons t l ih =>
    rw [List.foldl_cons, ih]
    by_cases h1 : t.2.1 = k <;> by_cases h2 : t.2.2 = k <;>
      simp only [h1, h2, if_true, if_false, List.filter_cons, decide_true, decide_false, List.map_cons, List.sum_cons,
        Bool.false_eq_true] <;> ring

/-- **C106, volumes of the input regions.** The volume of region `k` is a sixth of the determinants of the triangles that have it on their second side minus those
that have it on their first; the volumes of all regions add up to zero, so the unbounded region gets minus the volume of all the
others. -/
theorem C106_brep (tris : List (ℚ × (ℕ × ℕ))) (n : ℕ) (hn : ∀ t ∈ tris, t.2.1 < n ∧ t.2.2 < n) :
    (∀ k, brepVolume tris k = (((tris.filter fun t => decide (t.2.2 = k)).map Prod.fst).sum -
      ((tris.filter fun t => decide (t.2.1 = k)).map Prod.fst).sum) / 6) ∧
    ((List.range n).map (brepVolume tris)).sum = 0 := by
  have h1 : ∀ k, brepVolume tris k = (((tris.filter fun t => decide (t.2.2 = k)).map Prod.fst).sum -
      ((tris.filter fun t => decide (t.2.1 = k)).map Prod.fst).sum) / 6 := by
    intro k
    unfold brepVolume
    rw [brep_fold]
    ring
  refine ⟨h1, ?_⟩
  have hpart : ∀ (g : ℚ × (ℕ × ℕ) → ℕ) (l : List (ℚ × (ℕ × ℕ))), (∀ t ∈ l, g t < n) →
      ((List.range n).map fun k => ((l.filter fun t => decide (g t = k)).map Prod.fst).sum).sum = (l.map Prod.fst).sum := by
    intro g l
    induction l with
    | nil => intro _; simp
    | cons t l ih =>
      intro h
      rw [List.map_cons, List.sum_cons, ← ih fun t' ht' => h t' (List.mem_cons_of_mem _ ht')]
      have hsplit : ∀ k, (((t :: l).filter fun t => decide (g t = k)).map Prod.fst).sum =
          (if g t = k then t.1 else 0) + ((l.filter fun t => decide (g t = k)).map Prod.fst).sum := by
        intro k
        rw [List.filter_cons]
        by_cases h : g t = k <;> simp [h]
      simp only [hsplit]
      rw [List.sum_map_add]
      congr 1
      have hlt := h t (List.mem_cons_self ..)
      clear * - hlt
      induction n with
      | zero => omega
      | succ n ih =>
        rw [List.range_succ, List.map_append, List.sum_append]
        by_cases h : g t = n
        · have : ((List.range n).map fun k => if g t = k then t.1 else (0 : ℚ)) = (List.range n).map fun _ => (0 : ℚ) := by
            apply List.map_congr_left
            intro k hk
            rw [List.mem_range] at hk
            rw [if_neg (by omega)]
          rw [this]; simp [h]
        · rw [ih (by omega)]; simp [h]
  have h2 : ((List.range n).map (brepVolume tris)).sum =
      (((List.range n).map fun k => ((tris.filter fun t => decide (t.2.2 = k)).map Prod.fst).sum).sum -
       ((List.range n).map fun k => ((tris.filter fun t => decide (t.2.1 = k)).map Prod.fst).sum).sum) / 6 := by
    generalize List.range n = l
    induction l with
    | nil => simp
    | cons k l ih =>
      simp only [List.map_cons, List.sum_cons, ih, h1]; ring
  rw [h2, hpart (fun t => t.2.2) tris fun t ht => (hn t ht).2, hpart (fun t => t.2.1) tris fun t ht => (hn t ht).1]
  simp

end Mandoline.Validation
