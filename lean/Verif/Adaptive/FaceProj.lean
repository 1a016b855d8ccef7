import Verif.Adaptive.Measure
import Mathlib.Tactic.Positivity

/-!
# C28 (faces): face areas, face centroids and the projection of faces onto unit facets

Transcription of src/adaptive_grid.cpp:359-381 (`face_volumes`), 390-422 (`boundary_centroids`),
424-461 (`grid_face_projection`). The code is for three dimensions; except for `faceVolume` the model is generic.
-/
namespace Mandoline
variable {D : ℕ}

/-- `ca.center() - cb.center()` (adaptive_grid.cpp:403, 434; `center` is adaptive_grid.hpp:27). -/
def centerDiff (ca cb : ACell D) (i : Fin D) : ℚ :=
  ((ca.1 i : ℚ) + (ca.2 : ℚ) / 2) - ((cb.1 i : ℚ) + (cb.2 : ℚ) / 2)

/-- `cd.cwiseAbs().maxCoeff(&k)` (adaptive_grid.cpp:405, 436): an index where the absolute value is largest. -/
def argmaxAbs (v : Fin D → ℚ) : Option (Fin D) := (List.finRange D).find? fun k => decide (∀ j, |v j| ≤ |v k|)

/-- axis, corner and width used for the face between `ca` and `cb` (adaptive_grid.cpp:403-410, 434-441). -/
def projSquare (ca cb : ACell D) : Option (Fin D × ACell D) :=
  (argmaxAbs (centerDiff ca cb)).map fun k =>
    let corner := if ca.2 < cb.2 then ca.1 else cb.1
    (k, (if centerDiff ca cb k > 0 then Function.update corner k (corner k + ca.2) else corner, min ca.2 cb.2))

/-- the loops over the two in-plane axes (adaptive_grid.cpp:449-456); the order of the two loops is not
modelled. -/
def squareCoords (k : Fin D) (sq : ACell D) : List (Coord D) :=
  (lexCoords D (Function.update (fun _ => sq.2) k 1)).map fun v i => sq.1 i + v i

/-- the unit facets (axis, coordinate) and weights of one face (adaptive_grid.cpp:442-457). -/
def faceProjRow (ca cb : ACell D) : List ((Fin D × Coord D) × ℚ) :=
  match projSquare ca cb with
  | some (k, sq) => (squareCoords k sq).map fun a => ((k, a), 1 / (sq.2 : ℚ) ^ (D - 1))
  | none => []

/-- one row of `grid_face_projection(offset)` (adaptive_grid.cpp:427-458); `stag k a` is `staggered_index<2>(a,k)`. -/
def faceProjTriplets (stag : Fin D → Coord D → ℤ) (cells : List (ℤ × ACell D)) (row : ℤ) (f : AFace D) : List Triplet :=
  if isValidEdge cells f.1.2.1 f.1.2.2 then
    match cellAt cells f.1.2.1, cellAt cells f.1.2.2 with
    | some ca, some cb => (faceProjRow ca cb).map fun x => (row, stag x.1.1 x.1.2, x.2)
    | _, _ => []
  else []

/-- `grid_face_projection(offset)` (adaptive_grid.cpp:424-461). -/
def faceProjection (stag : Fin D → Coord D → ℤ) (cells : List (ℤ × ACell D)) (faces : List (AFace D)) (offset : ℤ) :
    List Triplet :=
  faces.zipIdx.flatMap fun fi => faceProjTriplets stag cells (offset + fi.2) fi.1

/-- the column of `boundary_centroids()` for one face, in grid coordinates (adaptive_grid.cpp:390-422;
`world_coord` not applied). Zero for faces without a valid dual edge. -/
def boundaryCentroid (cells : List (ℤ × ACell D)) (f : AFace D) : Pt D :=
  if isValidEdge cells f.1.2.1 f.1.2.2 then
    match cellAt cells f.1.2.1, cellAt cells f.1.2.2 with
    | some ca, some cb => match projSquare ca cb with
      | some (k, sq) => fun i => if i = k then (sq.1 i : ℚ) else sq.1 i + (sq.2 : ℚ) / 2
      | none => fun _ => 0
    | _, _ => fun _ => 0
  else fun _ => 0

/-- `face_volumes()` for one face (adaptive_grid.cpp:361-376): `dws(i) = dx(i) * dx(i+1)`. -/
def faceVolume (dx : Fin 3 → ℚ) (f : AFace 3) : ℚ :=
  (f.2.2 : ℚ) * f.2.2 * (1 * dx (0 + f.1.1) * dx (1 + f.1.1))

/-! ## lemmas -/

theorem block_nested {l m : ℕ} (h : l ≤ m) (q r x : ℤ) (h1 : 2 ^ l * q ≤ x) (h2 : x < 2 ^ l * q + 2 ^ l)
    (h3 : 2 ^ m * r ≤ x) (h4 : x < 2 ^ m * r + 2 ^ m) :
    2 ^ m * r ≤ 2 ^ l * q ∧ 2 ^ l * q + 2 ^ l ≤ 2 ^ m * r + 2 ^ m := by
  obtain ⟨k, rfl⟩ := Nat.exists_eq_add_of_le h
  have hp : (0 : ℤ) < 2 ^ l := by positivity
  rw [pow_add, mul_assoc] at *
  have a1 : 2 ^ l * (2 ^ k * r) < 2 ^ l * (q + 1) := by rw [mul_add, mul_one]; linarith
  have a2 : 2 ^ l * q < 2 ^ l * (2 ^ k * r + 2 ^ k) := by rw [mul_add]; linarith
  have b1 := lt_of_mul_lt_mul_left a1 hp.le
  have b2 := lt_of_mul_lt_mul_left a2 hp.le
  constructor
  · exact mul_le_mul_of_nonneg_left (by omega) hp.le
  · have : 2 ^ l * (q + 1) ≤ 2 ^ l * (2 ^ k * r + 2 ^ k) := mul_le_mul_of_nonneg_left (by omega) hp.le
    rw [mul_add, mul_add, mul_one] at this
    exact this

theorem argmaxAbs_eq (v : Fin D → ℚ) (d : Fin D) (h : ∀ j, j ≠ d → |v j| < |v d|) : argmaxAbs v = some d := by
  unfold argmaxAbs
  have hd : decide (∀ j, |v j| ≤ |v d|) = true := by
    rw [decide_eq_true_eq]
    intro j
    by_cases hj : j = d
    · rw [hj]
    · exact (h j hj).le
  cases hf : (List.finRange D).find? fun k => decide (∀ j, |v j| ≤ |v k|) with
  | none =>
    rw [List.find?_eq_none] at hf
    exact absurd hd (hf d (List.mem_finRange d))
  | some k =>
    have hk := List.find?_some hf
    rw [decide_eq_true_eq] at hk
    by_cases hkd : k = d
    · rw [hkd]
    · exact absurd (hk d) (not_le.2 (h k hkd))

theorem mem_squareCoords (k : Fin D) (sq : ACell D) (u : Coord D) :
    u ∈ squareCoords k sq ↔ u k = sq.1 k ∧ ∀ j, j ≠ k → sq.1 j ≤ u j ∧ u j < sq.1 j + sq.2 := by
  unfold squareCoords
  simp only [List.mem_map, mem_lexCoords]
  constructor
  · rintro ⟨v, hv, rfl⟩
    refine ⟨?_, fun j hj => ?_⟩
    · have := hv k; simp only [Function.update_self] at this; dsimp only; omega
    · have := hv j; rw [Function.update_of_ne hj] at this; dsimp only; omega
  · rintro ⟨h1, h2⟩
    refine ⟨fun i => u i - sq.1 i, fun i => ?_, ?_⟩
    · by_cases hi : i = k
      · subst hi; simp only [Function.update_self]; omega
      · rw [Function.update_of_ne hi]; have := h2 i hi; dsimp only; omega
    · funext i; dsimp only; omega

theorem nodup_squareCoords (k : Fin D) (sq : ACell D) : (squareCoords k sq).Nodup := by
  refine (nodup_lexCoords D _).map ?_
  intro a b h
  funext i
  have := congrFun h i
  dsimp only at this; omega

theorem length_lexCoords : ∀ (D : ℕ) (s : Coord D), (lexCoords D s).length = ∏ i, (s i).toNat
  | 0, s => by simp [lexCoords]
  | n + 1, s => by
    have ih := length_lexCoords n fun i => s i.succ
    simp only [lexCoords, List.length_flatMap, List.length_map, ih]
    simp [List.map_const', Fin.prod_univ_succ]

theorem length_squareCoords (k : Fin D) (sq : ACell D) (h : 0 < sq.2) :
    ((squareCoords k sq).length : ℚ) = (sq.2 : ℚ) ^ (D - 1) := by
  unfold squareCoords
  rw [List.length_map, length_lexCoords]
  have h1 : ∀ i, ((Function.update (fun _ => sq.2) k 1 : Coord D) i).toNat =
      Function.update (fun _ => sq.2.toNat) k 1 i := by
    intro i
    by_cases hi : i = k
    · subst hi; simp
    · rw [Function.update_of_ne hi, Function.update_of_ne hi]
  rw [Finset.prod_congr rfl fun i _ => h1 i, Finset.prod_update_of_mem (Finset.mem_univ k)]
  have h2 : ((sq.2.toNat : ℕ) : ℚ) = (sq.2 : ℚ) := by
    have : ((sq.2.toNat : ℤ) : ℚ) = (sq.2 : ℚ) := by rw [Int.toNat_of_nonneg h.le]
    exact_mod_cast this
  simp [h2, Finset.card_sdiff]

section
variable (shape : Coord D) (cells : List (ℤ × ACell D)) (hdis : DisjointCells cells)
  (hsorted : OMap.Sorted intLt cells) (hin : ∀ e ∈ cells, ∀ u, InCube e.2 u → InGrid shape u)
  (hdy : Dyadic cells)
include hdis hdy

/-- two cells separated by a unit facet normal to `d`: positions along and across the axis. -/
theorem separated_position (d : Fin D) (a b : ℤ) (ca cb : ACell D) (ha : (a, ca) ∈ cells) (hb : (b, cb) ∈ cells)
    (hab : a ≠ b) (u : Coord D) (hua : InCube ca (below u d)) (hub : InCube cb u) :
    0 < ca.2 ∧ 0 < cb.2 ∧ ca.1 d + ca.2 = cb.1 d ∧ u d = cb.1 d ∧
      ∀ j, j ≠ d → (ca.2 ≤ cb.2 → cb.1 j ≤ ca.1 j ∧ ca.1 j + ca.2 ≤ cb.1 j + cb.2) ∧
        (cb.2 ≤ ca.2 → ca.1 j ≤ cb.1 j ∧ cb.1 j + cb.2 ≤ ca.1 j + ca.2) := by
  have hne : (a, ca) ≠ (b, cb) := fun h => hab (congrArg Prod.fst h)
  have h1 : ¬ InCube ca u := fun h => hne (hdis.2 u _ ha _ hb h hub)
  have h2 : ¬ InCube cb (below u d) := fun h => hne (hdis.2 _ _ ha _ hb hua h)
  have hbel : ∀ j, j ≠ d → below u d j = u j := fun j hj => by simp [below, hj]
  have hbd : below u d d = u d - 1 := by simp [below]
  have e1 : u d = ca.1 d + ca.2 := by
    by_contra hc
    refine h1 fun j => ?_
    by_cases hj : j = d
    · subst hj; have := hua j; rw [hbd] at this; omega
    · have := hua j; rw [hbel j hj] at this; exact this
  have e2 : u d = cb.1 d := by
    by_contra hc
    refine h2 fun j => ?_
    by_cases hj : j = d
    · subst hj; have := hub j; rw [hbd]; omega
    · have := hub j; rw [hbel j hj]; exact this
  obtain ⟨l, q, hq⟩ := hdy _ ha
  obtain ⟨m, r, hr⟩ := hdy _ hb
  simp only at hq hr
  have p1 : (0 : ℤ) < 2 ^ l := by positivity
  have p2 : (0 : ℤ) < 2 ^ m := by positivity
  refine ⟨by rw [hq]; exact p1, by rw [hr]; exact p2, by omega, e2, fun j hj => ?_⟩
  have x1 := hua j
  have x2 := hub j
  rw [hbel j hj] at x1
  subst hq hr
  simp only at x1 x2 ⊢
  constructor
  · intro h
    exact block_nested ((pow_le_pow_iff_right₀ (by norm_num : (1 : ℤ) < 2)).1 h) _ _ _ x1.1 x1.2 x2.1 x2.2
  · intro h
    exact block_nested ((pow_le_pow_iff_right₀ (by norm_num : (1 : ℤ) < 2)).1 h) _ _ _ x2.1 x2.2 x1.1 x1.2

/-- the axis found by `maxCoeff` is the axis of the face, and the corner is never shifted. -/
theorem projSquare_mid (d : Fin D) (a b : ℤ) (ca cb : ACell D) (ha : (a, ca) ∈ cells) (hb : (b, cb) ∈ cells)
    (hab : a ≠ b) (u : Coord D) (hua : InCube ca (below u d)) (hub : InCube cb u) :
    projSquare ca cb = some (d, (if ca.2 < cb.2 then ca.1 else cb.1, min ca.2 cb.2)) := by
  obtain ⟨p1, p2, h1, h2, h3⟩ := separated_position cells hdis hdy d a b ca cb ha hb hab u hua hub
  have q1 : (0 : ℚ) < ca.2 := by exact_mod_cast p1
  have q2 : (0 : ℚ) < cb.2 := by exact_mod_cast p2
  have hd : centerDiff ca cb d = -((ca.2 + cb.2 : ℚ) / 2) := by
    unfold centerDiff; rw [← h1]; push_cast; ring
  have habs : |centerDiff ca cb d| = (ca.2 + cb.2 : ℚ) / 2 := by
    rw [hd, abs_neg, abs_of_pos (by positivity)]
  have hmax : argmaxAbs (centerDiff ca cb) = some d := by
    refine argmaxAbs_eq _ d fun j hj => ?_
    rw [habs, abs_lt]
    obtain ⟨n1, n2⟩ := h3 j hj
    unfold centerDiff
    rcases le_total ca.2 cb.2 with hw | hw
    · obtain ⟨m1, m2⟩ := n1 hw
      have m1' : (cb.1 j : ℚ) ≤ ca.1 j := by exact_mod_cast m1
      have m2' : (ca.1 j : ℚ) + ca.2 ≤ cb.1 j + cb.2 := by exact_mod_cast m2
      constructor <;> linarith
    · obtain ⟨m1, m2⟩ := n2 hw
      have m1' : (ca.1 j : ℚ) ≤ cb.1 j := by exact_mod_cast m1
      have m2' : (cb.1 j : ℚ) + cb.2 ≤ ca.1 j + ca.2 := by exact_mod_cast m2
      constructor <;> linarith
  unfold projSquare
  rw [hmax, Option.map_some]
  have hneg : ¬ centerDiff ca cb d > 0 := by
    rw [hd, gt_iff_lt, not_lt]
    have : (0:ℚ) < (ca.2 + cb.2 : ℚ) / 2 := by positivity
    linarith
  simp only [if_neg hneg]

/-- **C28.** Weights of the projection of a face between two cells sum to one. -/
theorem C28_face_projection_sum (d : Fin D) (a b : ℤ) (ca cb : ACell D) (ha : (a, ca) ∈ cells)
    (hb : (b, cb) ∈ cells) (hab : a ≠ b) (u : Coord D) (hua : InCube ca (below u d)) (hub : InCube cb u) :
    ((faceProjRow ca cb).map (·.2)).sum = 1 := by
  obtain ⟨p1, p2, _⟩ := separated_position cells hdis hdy d a b ca cb ha hb hab u hua hub
  unfold faceProjRow
  rw [projSquare_mid cells hdis hdy d a b ca cb ha hb hab u hua hub]
  simp only [List.map_map]
  have hw : 0 < min ca.2 cb.2 := lt_min p1 p2
  have : (fun x : (Fin D × Coord D) × ℚ => x.2) ∘ (fun a => ((d, a), 1 / ((min ca.2 cb.2 : ℤ) : ℚ) ^ (D - 1))) =
      fun _ => 1 / ((min ca.2 cb.2 : ℤ) : ℚ) ^ (D - 1) := rfl
  rw [this, sum_map_const, length_squareCoords _ _ hw]
  have : ((min ca.2 cb.2 : ℤ) : ℚ) ^ (D - 1) ≠ 0 := pow_ne_zero _ (by exact_mod_cast hw.ne')
  field_simp

include hsorted hin in
/-- **C28.** When the cell on the positive side is at most as wide as the other one, the facets of the projection
are exactly the unit facets that separate the two cells. -/
theorem C28_face_projection_facets (f : AFace D) (hf : f ∈ adaptiveFaces shape cells) (ca cb : ACell D)
    (ha : (f.1.2.1, ca) ∈ cells) (hb : (f.1.2.2, cb) ∈ cells) (hw : cb.2 ≤ ca.2) (k : Fin D) (u : Coord D) :
    (k, u) ∈ (faceProjRow ca cb).map (·.1) ↔ k = f.1.1 ∧ Separates shape cells u f.1 := by
  obtain ⟨u0, hs⟩ := ((C27_faces_exact shape cells hdis hsorted hin).1 f.1).1 ⟨f.2, hf⟩
  obtain ⟨⟨d, a, b⟩, sq⟩ := f
  have hgeo := C27_face_geometry shape cells hdis hsorted hin hdy _ hf u
  simp only at *
  have hmid : a ≠ b ∧ InCube ca (below u0 d) ∧ InCube cb u0 := by
    cases hs with
    | low _ _ c hb' hu h => have := hdis.1 _ ha; simp at this
    | high _ _ c ha' hu h => have := hdis.1 _ hb; simp at this
    | mid _ _ _ ca' cb' ha' hb' hua hub hab =>
      rw [OMap.sorted_unique strictTotal_intLt hsorted ha ha', OMap.sorted_unique strictTotal_intLt hsorted hb hb']
      exact ⟨hab, hua, hub⟩
  obtain ⟨hab, hua, hub⟩ := hmid
  have hsq : faceSquare cells d a b = some (cb.1, cb.2) := by
    have c1 := (cellAt_iff cells hsorted a ca).2 ha
    have c2 := (cellAt_iff cells hsorted b cb).2 hb
    have p1 := hdis.1 _ ha
    have p2 := hdis.1 _ hb
    simp only at p1 p2
    unfold faceSquare isValidEdge
    rw [c1, c2, if_neg hab, if_neg (by omega), if_neg (by omega), if_neg (by omega)]
    simp [hab, min_eq_right hw]
  have hf' := hf
  rw [(mem_adaptiveFaces shape cells _).2, mem_faceCalls] at hf'
  have hsq' : sq = (cb.1, cb.2) := by have := hf'.1; rw [hsq] at this; exact (Option.some.inj this).symm
  unfold faceProjRow
  rw [projSquare_mid cells hdis hdy d a b ca cb ha hb hab u0 hua hub, if_neg (by omega), min_eq_right hw]
  simp only [List.map_map, List.mem_map, Function.comp, mem_squareCoords]
  rw [hgeo, hsq']
  unfold InSquare
  constructor
  · rintro ⟨v, hv, he⟩
    obtain ⟨rfl, rfl⟩ := Prod.mk.inj he
    exact ⟨rfl, hv⟩
  · rintro ⟨rfl, hv⟩
    exact ⟨u, hv, rfl⟩

include hsorted in
/-- **C28, defect.** When the cell on the negative side is strictly smaller, none of the facets given weight by
the projection separates the two cells (they lie on the far side of the small cell). -/
theorem C28_face_projection_refuted (d : Fin D) (a b : ℤ) (ca cb : ACell D) (ha : (a, ca) ∈ cells)
    (hb : (b, cb) ∈ cells) (hab : a ≠ b) (u0 : Coord D) (hua : InCube ca (below u0 d)) (hub : InCube cb u0)
    (hw : ca.2 < cb.2) :
    (faceProjRow ca cb ≠ []) ∧
    ∀ x ∈ faceProjRow ca cb, x.1.2 d = ca.1 d ∧ ¬ Separates shape cells x.1.2 (d, a, b) := by
  obtain ⟨p1, p2, q1, _, q2⟩ := separated_position cells hdis hdy d a b ca cb ha hb hab u0 hua hub
  have hrow : faceProjRow ca cb = (squareCoords d (ca.1, ca.2)).map fun x => ((d, x), 1 / (ca.2 : ℚ) ^ (D - 1)) := by
    unfold faceProjRow
    rw [projSquare_mid cells hdis hdy d a b ca cb ha hb hab u0 hua hub, if_pos hw, min_eq_left hw.le]
  rw [hrow]
  constructor
  · intro h
    have : ca.1 ∈ squareCoords d (ca.1, ca.2) := by
      rw [mem_squareCoords]; exact ⟨rfl, fun j _ => ⟨le_rfl, by simp only; omega⟩⟩
    rw [List.map_eq_nil_iff] at h
    rw [h] at this; cases this
  · intro x hx
    obtain ⟨v, hv, rfl⟩ := List.mem_map.1 hx
    rw [mem_squareCoords] at hv
    refine ⟨hv.1, ?_⟩
    intro hs
    generalize hk : (d, a, b) = k at hs
    cases hs with
    | low _ _ c hb' hu h =>
      simp only [Prod.mk.injEq] at hk
      have := hdis.1 _ ha; simp at this; omega
    | high _ _ c ha' hu h =>
      simp only [Prod.mk.injEq] at hk
      have := hdis.1 _ hb; simp at this; omega
    | mid _ _ _ ca' cb' ha' hb' hua' hub' hab' =>
      simp only [Prod.mk.injEq] at hk
      obtain ⟨rfl, rfl, rfl⟩ := hk
      have e := OMap.sorted_unique strictTotal_intLt hsorted ha ha'
      rw [← e] at hua'
      have := (hua' d).1
      simp only [below, Function.update_self] at this
      have := hv.1
      dsimp only at this
      omega
include hsorted hin in
/-- **C65, defect.** `boundary_centroids()` returns the centre of the face's square, except that when the cell on
the negative side is strictly smaller the point is displaced by that cell's width along the axis. -/
theorem C65_boundary_centroids (f : AFace D) (hf : f ∈ adaptiveFaces shape cells) (ca cb : ACell D)
    (ha : (f.1.2.1, ca) ∈ cells) (hb : (f.1.2.2, cb) ∈ cells) (i : Fin D) :
    boundaryCentroid cells f i =
      if i = f.1.1 then (f.2.1 i : ℚ) - (if ca.2 < cb.2 then (ca.2 : ℚ) else 0) else f.2.1 i + (f.2.2 : ℚ) / 2 := by
  obtain ⟨u0, hs⟩ := ((C27_faces_exact shape cells hdis hsorted hin).1 f.1).1 ⟨f.2, hf⟩
  obtain ⟨⟨d, a, b⟩, sq⟩ := f
  simp only at *
  have hmid : a ≠ b ∧ InCube ca (below u0 d) ∧ InCube cb u0 := by
    cases hs with
    | low _ _ c hb' hu h => have := hdis.1 _ ha; simp at this
    | high _ _ c ha' hu h => have := hdis.1 _ hb; simp at this
    | mid _ _ _ ca' cb' ha' hb' hua hub hab =>
      rw [OMap.sorted_unique strictTotal_intLt hsorted ha ha', OMap.sorted_unique strictTotal_intLt hsorted hb hb']
      exact ⟨hab, hua, hub⟩
  obtain ⟨hab, hua, hub⟩ := hmid
  obtain ⟨p1, p2, q1, _, q2⟩ := separated_position cells hdis hdy d a b ca cb ha hb hab u0 hua hub
  have c1 := (cellAt_iff cells hsorted a ca).2 ha
  have c2 := (cellAt_iff cells hsorted b cb).2 hb
  have n1 := hdis.1 _ ha
  have n2 := hdis.1 _ hb
  simp only at n1 n2
  have hval : isValidEdge cells a b = true := by unfold isValidEdge; rw [c1, c2]; simp [hab]
  have hf' := hf
  rw [(mem_adaptiveFaces shape cells _).2, mem_faceCalls] at hf'
  have hsq := hf'.1
  simp only at hsq
  unfold faceSquare at hsq
  rw [c1, c2, if_neg hab, if_neg (by omega), if_neg (by omega), if_neg (by omega), if_pos hval] at hsq
  unfold boundaryCentroid
  rw [if_pos hval, c1, c2]
  simp only
  rw [projSquare_mid cells hdis hdy d a b ca cb ha hb hab u0 hua hub]
  simp only at hsq ⊢
  by_cases hw : ca.2 < cb.2
  · rw [min_eq_left hw.le, if_neg (by omega)] at hsq
    have := (Option.some.inj hsq).symm
    subst this
    rw [if_pos hw, if_pos hw, min_eq_left hw.le]
    by_cases hi : i = d
    · subst hi
      simp
    · simp [hi]
  · rw [min_eq_right (by omega), if_pos rfl] at hsq
    have := (Option.some.inj hsq).symm
    subst this
    rw [if_neg hw, if_neg hw, min_eq_right (by omega)]
    by_cases hi : i = d
    · subst hi
      simp
    · simp [hi]
end

/-- **C28.** A face on the domain boundary (a side `-2`) has an empty row. -/
theorem C28_face_projection_domain (stag : Fin D → Coord D → ℤ) (cells : List (ℤ × ACell D))
    (hdis : DisjointCells cells) (hsorted : OMap.Sorted intLt cells) (row : ℤ)
    (f : AFace D) (h : f.1.2.1 = -2 ∨ f.1.2.2 = -2) : faceProjTriplets stag cells row f = [] := by
  have hnone : cellAt cells (-2) = none := by
    unfold cellAt
    rw [OMap.find_none_iff strictTotal_intLt hsorted]
    intro p hp
    have := hdis.1 _ hp; simp at this
  unfold faceProjTriplets
  rw [if_neg]
  unfold isValidEdge
  rcases h with h | h <;> simp [h, hnone]

/-- **C28, defect.** The area reported by `face_volumes()` for a face of axis `d` is
`w² · dx(d) · dx(d+1)`; it equals the area `w² · dx(d+1) · dx(d+2)` of the square only when the spacing along
the face's own axis equals the spacing along axis `d+2`. -/
theorem C28_face_area (dx : Fin 3 → ℚ) (hdx : ∀ i, 0 < dx i) (f : AFace 3) (hw : 0 < f.2.2) :
    faceVolume dx f = (f.2.2 : ℚ) ^ 2 * (dx (f.1.1 + 1) * dx (f.1.1 + 2)) ↔ dx f.1.1 = dx (f.1.1 + 2) := by
  have w0 : (0 : ℚ) < f.2.2 := by exact_mod_cast hw
  unfold faceVolume
  have h1 := hdx (f.1.1 + 1)
  have e0 : (0 : Fin 3) + f.1.1 = f.1.1 := by generalize f.1.1 = d; revert d; decide
  have e1 : (1 : Fin 3) + f.1.1 = f.1.1 + 1 := by generalize f.1.1 = d; revert d; decide
  rw [e0, e1]
  constructor
  · intro h
    have h2 : ((f.2.2 : ℚ) ^ 2 * dx (f.1.1 + 1)) * dx f.1.1 = ((f.2.2 : ℚ) ^ 2 * dx (f.1.1 + 1)) * dx (f.1.1 + 2) := by
      linarith
    exact mul_left_cancel₀ (by positivity) h2
  · intro h; rw [← h]; ring

/-- on isotropic grids the area is right; on an anisotropic one it is not. -/
example : faceVolume (fun _ => 2) ((0, 0, 1), (![1, 0, 0], 1)) = 4 ∧
    faceVolume ![1, 2, 3] ((0, 0, 1), (![1, 0, 0], 1)) = 2 := by decide +kernel

/-- the octree of `C27`'s example: between the unit cell 1 at (1,0,0) and the cell 2 of width 2 at (2,0,0) the
projection puts the weight on the facet at x = 1 instead of x = 2. -/
example : (faceProjRow ((![1, 0, 0], 1) : ACell 3) (![2, 0, 0], 2)).map (·.1) = [(0, ![1, 0, 0])] := by
  decide +kernel

end Mandoline
