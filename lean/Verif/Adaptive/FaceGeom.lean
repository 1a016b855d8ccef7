import Verif.Adaptive.Faces

/-! # C27, C60: geometry of adaptive faces -/
namespace Mandoline
variable {D : ℕ}

/-- the unit facet below `u` (normal to `d`) lies in the square. -/
def InSquare (d : Fin D) (sq : ACell D) (u : Coord D) : Prop :=
  u d = sq.1 d ∧ ∀ j, j ≠ d → sq.1 j ≤ u j ∧ u j < sq.1 j + sq.2

/-- every cell is an aligned cube of power-of-two width. -/
def Dyadic (cells : List (ℤ × ACell D)) : Prop :=
  ∀ e ∈ cells, ∃ (l : ℕ) (q : Coord D), e.2 = ((fun i => 2 ^ l * q i), 2 ^ l)

theorem div_pow_le {l m : ℕ} (h : m ≤ l) {x y : ℤ} (hxy : x / 2 ^ m = y / 2 ^ m) : x / 2 ^ l = y / 2 ^ l := by
  obtain ⟨k, rfl⟩ := Nat.exists_eq_add_of_le h
  induction k with
  | zero => simpa using hxy
  | succ k ih =>
    have := ih (by omega)
    rw [← add_assoc, div_pow_succ, div_pow_succ, this]

/-- if `x-1` and `x` are in different aligned blocks of size `2^l`, then `x` starts a block. -/
theorem block_start (l : ℕ) (x q : ℤ) (h1 : (x - 1) / 2 ^ l = q) (h2 : x / 2 ^ l ≠ q) : x = 2 ^ l * (q + 1) := by
  have hp : (0 : ℤ) < 2 ^ l := by positivity
  have e1 := Int.emod_add_mul_ediv (x - 1) (2 ^ l)
  have b1 := Int.emod_nonneg (x - 1) hp.ne'
  have b2 := Int.emod_lt_of_pos (x - 1) hp
  rw [h1] at e1
  by_contra hne
  apply h2
  rw [Int.ediv_eq_iff_of_pos hp]
  have e3 : 2 ^ l * (q + 1) = 2 ^ l * q + 2 ^ l := by ring
  constructor
  · linarith
  · have : x ≤ 2 ^ l * q + 2 ^ l := by linarith
    rw [e3] at hne
    have : x < 2 ^ l * q + 2 ^ l := lt_of_le_of_ne this hne
    linarith

theorem inSquare_of_block (d : Fin D) (l : ℕ) (q : Coord D) (c : Coord D) (u : Coord D)
    (hc : ∀ j, j ≠ d → c j = 2 ^ l * q j) :
    InSquare d (c, 2 ^ l) u ↔ u d = c d ∧ ∀ j, j ≠ d → u j / 2 ^ l = q j := by
  have hp : (0 : ℤ) < 2 ^ l := by positivity
  unfold InSquare
  refine and_congr_right fun _ => forall_congr' fun j => ?_
  refine imp_congr_right fun hj => ?_
  simp only [hc j hj]
  rw [Int.ediv_eq_iff_of_pos hp]
  constructor
  · rintro ⟨h1, h2⟩; exact ⟨by linarith, by linarith⟩
  · rintro ⟨h1, h2⟩; exact ⟨by linarith, by linarith⟩

section
variable (shape : Coord D) (cells : List (ℤ × ACell D)) (hdis : DisjointCells cells)
  (hsorted : OMap.Sorted intLt cells) (hin : ∀ e ∈ cells, ∀ u, InCube e.2 u → InGrid shape u)
  (hdy : Dyadic cells)
include hdis hsorted hin hdy

omit hdis hin hdy in
theorem cell_unique (id : ℤ) (c c' : ACell D) (h : (id, c) ∈ cells) (h' : (id, c') ∈ cells) : c = c' :=
  OMap.sorted_unique strictTotal_intLt hsorted h h'

/-- **C27.** The square recorded for a face consists of exactly the unit facets separating its two sides. -/
theorem C27_face_geometry (f : AFace D) (hf : f ∈ adaptiveFaces shape cells) (u : Coord D) :
    Separates shape cells u f.1 ↔ InSquare f.1.1 f.2 u := by
  obtain ⟨⟨d, a, b⟩, sq⟩ := f
  rw [(mem_adaptiveFaces shape cells _).2, mem_faceCalls] at hf
  obtain ⟨hsq, hcand⟩ := hf
  have hab : a ≠ b := by
    rintro rfl
    simp only [faceSquare, if_true] at hsq; cases hsq
  obtain ⟨u0, hu0⟩ := (candidate_separates shape cells hdis hin d a b hab).1 hcand
  simp only at hsq ⊢
  have hp : ∀ l : ℕ, (0 : ℤ) < 2 ^ l := fun l => by positivity
  cases hu0 with
  | low _ _ cb hb hu h0 =>
    have hb0 := hdis.1 _ hb
    simp only at hb0
    obtain ⟨l, q, hcb⟩ := hdy _ hb
    simp only at hcb
    have : sq = cb := by
      unfold faceSquare at hsq
      rw [if_neg hab, if_neg (by omega), if_pos ⟨rfl, hb0⟩, (cellAt_iff cells hsorted b cb).2 hb] at hsq
      exact (Option.some.inj hsq).symm
    subst this
    subst hcb
    have hq0 : q d = 0 := by
      have h1 := (inCube_pow l q u0).1 hu d
      rw [h0] at h1; simpa using h1.symm
    rw [inSquare_of_block d l q _ u fun _ _ => rfl]
    simp only [hq0, mul_zero]
    constructor
    · intro hs
      cases hs with
      | low _ _ cb' hb' hu' h0' =>
        have := cell_unique cells hsorted _ _ _ hb hb'
        subst this
        exact ⟨h0', fun j _ => (inCube_pow l q u).1 hu' j⟩
      | high _ _ ca ha _ _ => have := hdis.1 _ ha; simp only at this; omega
      | mid _ _ _ ca _ ha _ _ _ _ => have := hdis.1 _ ha; simp only at this; omega
    · rintro ⟨h1, h2⟩
      refine .low d b _ hb ((inCube_pow l q u).2 fun j => ?_) h1
      by_cases hj : j = d
      · subst hj; rw [h1, hq0]; simp
      · exact h2 j hj
  | high _ _ ca ha hu h0 =>
    have ha0 := hdis.1 _ ha
    simp only at ha0
    obtain ⟨l, q, hca⟩ := hdy _ ha
    simp only at hca
    have : sq = (Function.update ca.1 d (ca.1 d + ca.2), ca.2) := by
      unfold faceSquare at hsq
      rw [if_neg hab, if_neg (by omega), if_neg (by omega), if_pos ⟨rfl, ha0⟩,
        (cellAt_iff cells hsorted a ca).2 ha] at hsq
      exact (Option.some.inj hsq).symm
    subst this
    subst hca
    have hu' := (inCube_pow l q _).1 hu
    -- the cell ends exactly at the high side
    have hend : shape d = 2 ^ l * q d + 2 ^ l := by
      have h1 := hu d
      simp only [below, Function.update_self, h0] at h1
      have h2 : ¬ (shape d < 2 ^ l * q d + 2 ^ l) := by
        intro hlt
        have : InCube ((fun i => 2 ^ l * q i), 2 ^ l) u0 := by
          intro j
          by_cases hj : j = d
          · subst hj; simp only [h0]; omega
          · have := hu j; simpa [below, hj] using this
        have := hin _ ha u0 this d
        omega
      omega
    have hsqd : InSquare d (Function.update (fun i => 2 ^ l * q i) d (2 ^ l * q d + 2 ^ l), 2 ^ l) u ↔
        u d = shape d ∧ ∀ j, j ≠ d → u j / 2 ^ l = q j := by
      rw [inSquare_of_block d l q _ u fun j hj => by simp [hj]]
      simp [hend]
    rw [hsqd]
    constructor
    · intro hs
      cases hs with
      | low _ _ cb' hb' hu' h0' => have := hdis.1 _ hb'; simp only at this; omega
      | mid _ _ _ _ cb _ hb _ _ _ => have := hdis.1 _ hb; simp only at this; omega
      | high _ _ ca' ha' hu'' h0' =>
        have := cell_unique cells hsorted _ _ _ ha ha'
        subst this
        refine ⟨h0', fun j hj => ?_⟩
        have := (inCube_pow l q _).1 hu'' j
        simpa [below, hj] using this
    · rintro ⟨h1, h2⟩
      refine .high d a _ ha ((inCube_pow l q _).2 fun j => ?_) h1
      by_cases hj : j = d
      · subst hj
        have := hu' j
        simp only [below, Function.update_self, h0] at this
        simp only [below, Function.update_self, h1]; exact this
      · simp only [below, ne_eq, hj, not_false_eq_true, Function.update_of_ne]; exact h2 j hj
  | mid _ _ _ ca cb ha hb hua hub _ =>
    have ha0 := hdis.1 _ ha
    have hb0 := hdis.1 _ hb
    simp only at ha0 hb0
    obtain ⟨l, qa, hca⟩ := hdy _ ha
    obtain ⟨m, qb, hcb⟩ := hdy _ hb
    simp only at hca hcb
    have hsq' : (if min ca.2 cb.2 = cb.2 then some (cb.1, min ca.2 cb.2)
        else some (Function.update ca.1 d (ca.1 d + min ca.2 cb.2), min ca.2 cb.2)) = some sq := by
      unfold faceSquare isValidEdge at hsq
      rw [if_neg hab, if_neg (by omega), if_neg (by omega), if_neg (by omega),
        (cellAt_iff cells hsorted a ca).2 ha, (cellAt_iff cells hsorted b cb).2 hb] at hsq
      simpa [hab] using hsq
    subst hca hcb
    have hA := (inCube_pow l qa _).1 hua
    have hB := (inCube_pow m qb _).1 hub
    -- at the common facet the position along `d` starts a block on both scales
    have hnotA : u0 d / 2 ^ l ≠ qa d := by
      intro he
      apply hab
      have : InCube ((fun i => 2 ^ l * qa i), 2 ^ l) u0 := by
        refine (inCube_pow l qa u0).2 fun j => ?_
        by_cases hj : j = d
        · subst hj; exact he
        · have := hA j; simpa [below, hj] using this
      exact congrArg Prod.fst (hdis.2 u0 _ ha _ hb this hub)
    have hnotB : (u0 d - 1) / 2 ^ m ≠ qb d := by
      intro he
      apply hab
      have : InCube ((fun i => 2 ^ m * qb i), 2 ^ m) (below u0 d) := by
        refine (inCube_pow m qb _).2 fun j => ?_
        by_cases hj : j = d
        · subst hj; simpa [below] using he
        · have := hB j; simpa [below, hj] using this
      exact congrArg Prod.fst (hdis.2 _ _ ha _ hb hua this)
    have hAd : (u0 d - 1) / 2 ^ l = qa d := by have := hA d; simpa [below] using this
    have hstartA := block_start l (u0 d) (qa d) hAd hnotA
    have hstartB : u0 d = 2 ^ m * qb d := by
      have h1 : u0 d / 2 ^ m ≠ (u0 d - 1) / 2 ^ m := by rw [hB d]; exact fun h => hnotB h.symm
      have h2 := block_start m (u0 d) ((u0 d - 1) / 2 ^ m) rfl h1
      have h3 : u0 d / 2 ^ m = (u0 d - 1) / 2 ^ m + 1 := by
        rw [h2, Int.mul_ediv_cancel_left _ (hp m).ne']
        rw [← h2]
      rw [← hB d, h3]; exact h2
    have hAj : ∀ j, j ≠ d → u0 j / 2 ^ l = qa j := by
      intro j hj; have := hA j; simpa [below, hj] using this
    have hend : ∀ v : Coord D, Separates shape cells v (d, a, b) ↔
        InCube ((fun i => 2 ^ l * qa i), 2 ^ l) (below v d) ∧ InCube ((fun i => 2 ^ m * qb i), 2 ^ m) v := by
      intro v
      constructor
      · intro hs
        cases hs with
        | low _ _ cb' hb' hu' h0' => omega
        | high _ _ ca' ha' hu'' h0' => omega
        | mid _ _ _ ca' cb' ha' hb' hua' hub' _ =>
          have e1 := cell_unique cells hsorted _ _ _ ha ha'
          have e2 := cell_unique cells hsorted _ _ _ hb hb'
          subst e1 e2
          exact ⟨hua', hub'⟩
      · rintro ⟨h1, h2⟩
        exact .mid d a b _ _ ha hb h1 h2 hab
    rw [hend, inCube_pow, inCube_pow]
    -- position along `d` of a common facet
    have hpos : ∀ v : ℤ, (v - 1) / 2 ^ l = qa d → v / 2 ^ m = qb d → v = u0 d := by
      intro v hv1 hv2
      have b1 := Int.emod_add_mul_ediv (v - 1) (2 ^ l)
      have b2 := Int.emod_lt_of_pos (v - 1) (hp l)
      have b3 := Int.emod_add_mul_ediv v (2 ^ m)
      have b4 := Int.emod_nonneg v (hp m).ne'
      rw [hv1] at b1
      rw [hv2] at b3
      have b5 : 2 ^ l * (qa d + 1) = 2 ^ l * qa d + 2 ^ l := by ring
      linarith
    have hfin : ∀ (w : ℤ) (c : Coord D), sq = (c, w) → c d = u0 d →
        ((w = 2 ^ m ∧ m ≤ l ∧ ∀ j, j ≠ d → c j = 2 ^ m * qb j) ∨
         (w = 2 ^ l ∧ l ≤ m ∧ ∀ j, j ≠ d → c j = 2 ^ l * qa j)) →
        (((∀ i, below u d i / 2 ^ l = qa i) ∧ ∀ i, u i / 2 ^ m = qb i) ↔ InSquare d sq u) := by
      intro w c hs hcd hcase
      subst hs
      have hfwd : (∀ i, below u d i / 2 ^ l = qa i) → (∀ i, u i / 2 ^ m = qb i) → u d = u0 d := by
        intro h1 h2
        refine hpos _ ?_ (h2 d)
        have := h1 d; simpa [below] using this
      rcases hcase with ⟨rfl, hml, hc⟩ | ⟨rfl, hlm, hc⟩
      · rw [inSquare_of_block d m qb c u hc]
        constructor
        · rintro ⟨h1, h2⟩
          exact ⟨by rw [hcd]; exact hfwd h1 h2, fun j _ => h2 j⟩
        · rintro ⟨h1, h2⟩
          have hud : u d = u0 d := by rw [h1, hcd]
          refine ⟨fun j => ?_, fun j => ?_⟩
          · by_cases hj : j = d
            · subst hj; simp only [below, Function.update_self, hud]; exact hAd
            · simp only [below, ne_eq, hj, not_false_eq_true, Function.update_of_ne]
              rw [← hAj j hj]
              exact div_pow_le hml (by rw [h2 j hj, hB j])
          · by_cases hj : j = d
            · subst hj; rw [hud]; exact hB j
            · exact h2 j hj
      · rw [inSquare_of_block d l qa c u hc]
        constructor
        · rintro ⟨h1, h2⟩
          refine ⟨by rw [hcd]; exact hfwd h1 h2, fun j hj => ?_⟩
          have := h1 j; simpa [below, hj] using this
        · rintro ⟨h1, h2⟩
          have hud : u d = u0 d := by rw [h1, hcd]
          refine ⟨fun j => ?_, fun j => ?_⟩
          · by_cases hj : j = d
            · subst hj; simp only [below, Function.update_self, hud]; exact hAd
            · simp only [below, ne_eq, hj, not_false_eq_true, Function.update_of_ne]; exact h2 j hj
          · by_cases hj : j = d
            · subst hj; rw [hud]; exact hB j
            · rw [← hB j]
              exact div_pow_le hlm (by rw [h2 j hj, hAj j hj])
    dsimp only at hsq'
    have hmono : ∀ x y : ℕ, (2 : ℤ) ^ x ≤ 2 ^ y → x ≤ y := fun x y h => by
      by_contra hlt
      have : (2 : ℤ) ^ y < 2 ^ x := pow_lt_pow_right₀ (by norm_num) (by omega)
      omega
    split_ifs at hsq' with hw
    · have hs := (Option.some.inj hsq').symm
      have hml : m ≤ l := hmono m l (by rw [← hw]; exact min_le_left _ _)
      rw [hw] at hs
      exact hfin _ _ hs hstartB.symm (.inl ⟨rfl, hml, fun _ _ => rfl⟩)
    · have hs := (Option.some.inj hsq').symm
      have hlt : (2 : ℤ) ^ l < 2 ^ m := by
        by_contra hge; exact hw (min_eq_right (not_lt.1 hge))
      rw [min_eq_left hlt.le] at hs
      refine hfin _ _ hs ?_ (.inr ⟨rfl, hmono l m hlt.le, fun j hj => by simp [hj]⟩)
      simp only [Function.update_self]
      rw [hstartA]; ring

/-- **C60.** A face lies on the low or high side of the domain (its corner says so) iff its dual edge has the
outside marker: the two ways in which the library recognises domain-boundary faces agree. -/
theorem C60_boundary_faces_agree (f : AFace D) (hf : f ∈ adaptiveFaces shape cells) :
    onGridBoundary shape f = isBoundaryFace f := by
  have hgeo := C27_face_geometry shape cells hdis hsorted hin hdy f hf
  obtain ⟨u, hu⟩ := ((C27_faces_exact shape cells hdis hsorted hin).1 f.1).1 ⟨f.2, hf⟩
  have hd := ((hgeo u).1 hu).1
  obtain ⟨⟨d, a, b⟩, sq⟩ := f
  simp only [onGridBoundary, isBoundaryFace] at hd ⊢
  rw [← hd]
  cases hu with
  | low _ _ cb hb hu h0 => simp [h0]
  | high _ _ ca ha hu h0 => simp [h0]
  | mid _ _ _ ca cb ha hb hua hub hab =>
    have h1 := hin _ ha _ hua d
    have h2 := hin _ hb _ hub d
    have h3 := hdis.1 _ ha
    have h4 := hdis.1 _ hb
    simp only [below, Function.update_self] at h1 h3 h4
    have e1 : ¬ u d = 0 := by omega
    have e2 : ¬ u d = shape d := by omega
    have e3 : ¬ a = -2 := by omega
    have e4 : ¬ b = -2 := by omega
    simp [e1, e2, e3, e4]
end

/-- the factory's cells satisfy all hypotheses of the face theorems. -/
theorem factory_good (hD : 0 < D) (shape : Coord D) (ix : GridIndexer shape) (inactive : Coord D → Bool)
    (maxLevel : Option ℤ)
    (h : StopsAt shape maxLevel 0 ∨ ((∀ i, shape i = 2 ^ logSize shape) ∧
      ((∃ L, StopsAt shape maxLevel L) ∨ ∃ v, InGrid shape v ∧ inactive v = false))) :
    let cells := factoryCells ix.idx shape inactive maxLevel
    DisjointCells cells ∧ OMap.Sorted intLt cells ∧
      (∀ e ∈ cells, ∀ u, InCube e.2 u → InGrid shape u) ∧ Dyadic cells := by
  intro cells
  have h1 := C26_factory_disjoint hD shape ix inactive maxLevel h
  obtain ⟨g1, g2, g3, g4⟩ := emitted_good hD shape inactive maxLevel h
  have ht := tiles_of_emitted shape ix inactive _ g1 g2 g3 g4
  refine ⟨h1.1, ht.2.1, h1.2, ?_⟩
  intro e he
  have hm := ((ht.2.2 e).1 he).1
  unfold emitted at hm
  rw [mem_emitFrom] at hm
  rcases hm with ⟨l, _, hl, _, hx⟩ | ⟨L, _, hL, hm, hx⟩
  · simp only [levelCells, List.mem_flatMap] at hx
    obtain ⟨bb, _, hx⟩ := hx
    split at hx
    · simp only [blockCells, List.mem_filterMap] at hx
      obtain ⟨aa, _, hx⟩ := hx
      split at hx
      · refine ⟨l, fun i => aa i + 2 * bb i, ?_⟩
        rw [← Option.some.inj hx]
        congr 1
        funext i; rw [pow_succ]; ring
      · cases hx
    · cases hx
  · unfold topCells at hx
    split at hx
    all_goals
      simp only [maskCells, List.mem_filterMap] at hx
      obtain ⟨aa, _, hx⟩ := hx
      split at hx
      · exact ⟨_, aa, (Option.some.inj hx).symm⟩
      · cases hx

/-- **C27** for the grids the factory makes: one face per separated pair, with the right square. -/
theorem C27_factory (hD : 0 < D) (shape : Coord D) (ix : GridIndexer shape) (inactive : Coord D → Bool)
    (maxLevel : Option ℤ)
    (h : StopsAt shape maxLevel 0 ∨ ((∀ i, shape i = 2 ^ logSize shape) ∧
      ((∃ L, StopsAt shape maxLevel L) ∨ ∃ v, InGrid shape v ∧ inactive v = false))) :
    let cells := factoryCells ix.idx shape inactive maxLevel
    (∀ k, (∃ sq, (k, sq) ∈ adaptiveFaces shape cells) ↔ ∃ u, Separates shape cells u k) ∧
    (∀ f ∈ adaptiveFaces shape cells, ∀ u, Separates shape cells u f.1 ↔ InSquare f.1.1 f.2 u) ∧
    (∀ f ∈ adaptiveFaces shape cells, onGridBoundary shape f = isBoundaryFace f) := by
  intro cells
  obtain ⟨g1, g2, g3, g4⟩ := factory_good hD shape ix inactive maxLevel h
  exact ⟨(C27_faces_exact shape cells g1 g2 g3).1, C27_face_geometry shape cells g1 g2 g3 g4,
    C60_boundary_faces_agree shape cells g1 g2 g3 g4⟩

/-- an octree of a 4×4×4 grid with an active corner cell: 14 cells; the face between the unit cell at (1,0,0)
and the cell of width 2 at (2,0,0) is the unit square at (2,0,0). -/
example : let cells := factoryCells (linIndex 3 ![4, 4, 4]) ![4, 4, 4] (fun c => !decide (c = ![0, 0, 0])) none
    ((0, 1, 2), (![2, 0, 0], 1)) ∈ adaptiveFaces ![4, 4, 4] cells ∧
    ((0, -2, 32), (![0, 0, 2], 2)) ∈ adaptiveFaces ![4, 4, 4] cells := by decide +kernel

end Mandoline
