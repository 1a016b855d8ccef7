import Verif.Tri.FaceGraph
import Verif.Core.Vec3

/-! # C108: the polygons an input triangle is cut into -/
namespace Mandoline
variable {D : ℕ}
namespace TriInput
open Arr
open Planar (dir shoelace)
variable (T : TriInput D)

/-! ## Specification -/

/-- the sides of a polygon, in order. -/
def ringOf {α : Type} (l : List α) : List (α × α) := l.zip (l.rotate 1)

/-- `b` (barycentric coordinates) is in the interior of the triangle and on no grid plane, except planes containing the
whole triangle. -/
structure OffGrid (b : Fin 3 → ℚ) : Prop where
  pos : ∀ j, 0 < b j
  sum : ∑ j, b j = 1
  off : ∀ (i : Fin D) (n : ℤ), baryPoint T.P b i = n → ∀ j, T.P j i = n

/-- the point with barycentric coordinates `b` is inside the polygon `p`: strictly on the left of all sides. The sign of the
determinant of the barycentric coordinates is the orientation relative to the corners in their order. -/
def InPoly (p : List (TriPt D)) (b : Fin 3 → ℚ) : Prop := ∀ e ∈ ringOf p, 0 < vdet e.1.b e.2.b b

/-- the area of a polygon as a fraction of the area of the triangle: positive if it is oriented like the triangle. -/
def share (p : List (TriPt D)) : ℚ := ((ringOf p).map fun e => e.1.b 0 * e.2.b 1 - e.1.b 1 * e.2.b 0).sum

/-- the polygons `polys` are the pieces into which the grid cuts the triangle. -/
structure Cuts (polys : List (List (TriPt D))) : Prop where
  /-- each point off the grid is in exactly one polygon. -/
  cover : ∀ b, T.OffGrid b → ∃! p, p ∈ polys ∧ InPoly p b
  /-- each polygon contains such a point, no polygon is listed twice. -/
  nonempty : ∀ p ∈ polys, ∃ b, T.OffGrid b ∧ InPoly p b
  nodup : polys.Nodup
  /-- each polygon is contained in one closed grid cell. -/
  cell : ∀ p ∈ polys, ∃ c : Coord D, ∀ v ∈ p, InClosedCell c v.v.p
  /-- the vertices have exact positions and exact barycentric coordinates. -/
  vertex : ∀ p ∈ polys, ∀ v ∈ p, IsBary v.b ∧ v.v.p = baryPoint T.P v.b
  /-- all polygons are oriented like the triangle, and their areas add up to its area. -/
  oriented : ∀ p ∈ polys, 0 < share p
  area : (polys.map share).sum = 1

/-! ## Proof -/
variable {T}

theorem ringOf_map {α β : Type} (f : α → β) (l : List α) : ringOf (l.map f) = (ringOf l).map (Prod.map f f) := by
  unfold ringOf
  rw [← List.map_rotate, List.zip_map]

theorem orderedPts_fold {α : Type} (l acc : List (ℚ × α)) (hl : l.Pairwise fun x y => x.1 < y.1) (h01 : ∀ e ∈ l, 0 < e.1 ∧ e.1 < 1)
    (hacc : ∀ p ∈ acc, ∀ e ∈ l, p.1 < e.1) :
    l.foldl (fun im i => if i.1 > 0 ∧ i.1 < 1 then OMap.assign ratLt i.1 i.2 im else im) acc = acc ++ l := by
  induction l generalizing acc with
  | nil => simp
  | cons e l ih =>
    rw [List.foldl_cons]
    have he := h01 e (by simp)
    rw [List.pairwise_cons] at hl
    rw [if_pos ⟨he.1, he.2⟩, OMap.assign, alter_append strictTotal_ratLt]
    · rw [ih _ hl.2 (fun x hx => h01 x (by simp [hx]))]
      · simp
      · intro p hp x hx
        rcases List.mem_append.1 hp with hp | hp
        · exact hacc p hp x (by simp [hx])
        · simp only [List.mem_singleton] at hp
          rw [hp]; exact hl.1 x hx
    · intro p hp
      simp only [ratLt, decide_eq_true_eq]
      exact hacc p hp e (by simp)

theorem orderedPts_eq {α : Type} (p q : α) (l : List (ℚ × α)) (hl : l.Pairwise fun x y => x.1 < y.1)
    (h01 : ∀ e ∈ l, 0 < e.1 ∧ e.1 < 1) : orderedPts p q l = p :: l.map Prod.snd ++ [q] := by
  unfold orderedPts
  rw [orderedPts_fold l [] hl h01 (by simp), List.nil_append]

theorem sidePts_eq (hT : T.Ok) (e : Fin 3) : T.sidePts e = T.corner (T.src e) :: T.edgePts e ++ [T.corner (T.tgt e)] := by
  unfold sidePts
  have h13 := C13_crossings_exact (T.edgeIndex e) T.grid (T.V (T.src e)) (T.V (T.tgt e)) (hT.verts _).1 (hT.verts _).1 (hT.sep e)
  rw [orderedPts_eq]
  · rw [List.map_map]; rfl
  · rw [List.pairwise_map]
    have h2 := h13.2
    have e1 : (bakeEdge (T.edgeIndex e) T.grid (T.V (T.src e)) (T.V (T.tgt e))).map Isect.t =
        (T.edgeIsects e).zipIdx.map fun p => p.1.t := by
      have := List.map_map (f := Prod.fst) (g := Isect.t) (l := (T.edgeIsects e).zipIdx)
      rw [List.zipIdx_map_fst] at this
      exact this
    rw [e1, List.pairwise_map] at h2
    exact h2
  · rintro ⟨t, y⟩ hx
    obtain ⟨⟨z, k⟩, hz, hxy⟩ := List.mem_map.1 hx
    have hxm : z ∈ T.edgeIsects e := List.fst_mem_of_mem_zipIdx hz
    obtain ⟨_, h2, h3, _⟩ := isect_ok _ _ _ _ (hT.verts _).1 (hT.verts _).1 (hT.sep e) z hxm
    cases hxy
    exact ⟨h2, h3⟩

theorem chordPts_eq (hS : T.ChordsSeparated) (ptrLt : ℕ × ℕ → ℕ × ℕ → Bool) {c : TriPt D × TriPt D} (h : ChordOk T c.1 c.2) :
    T.chordPts ptrLt c = c.1 :: ((bakeEdge (-1) T.grid c.1.v c.2.v).map fun e => T.getVptr ptrLt (e.v, chordBary c.1.b c.2.b e.t)) ++ [c.2] := by
  unfold chordPts
  have h13 := C13_crossings_exact (-1) T.grid c.1.v c.2.v h.pok.vok.1 h.qok.vok.1 (h.sep hS)
  rw [orderedPts_eq]
  · rw [List.map_map]; rfl
  · rw [List.pairwise_map]
    have h2 := h13.2
    rw [List.pairwise_map] at h2
    exact h2
  · rintro ⟨t, y⟩ hx
    obtain ⟨z, hz, hxy⟩ := List.mem_map.1 hx
    obtain ⟨_, h2, h3, _⟩ := isect_ok _ _ _ _ h.pok.vok.1 h.qok.vok.1 (h.sep hS) z hz
    cases hxy
    exact ⟨h2, h3⟩

theorem triGroups_snd (ptrLt : ℕ × ℕ → ℕ × ℕ → Bool) : (T.triGroups ptrLt).map Prod.snd = T.bake ptrLt := by
  unfold triGroups bake
  rw [List.map_filterMap]
  congr 1
  funext g
  cases groupIsect g <;> rfl

theorem inGroup_iff (x : Vertex D × (Fin 3 → ℚ)) (g : TriGroup D) : inGroup x g = true ↔ x ∈ g.2 := by
  unfold inGroup
  rw [List.any_eq_true]
  constructor
  · rintro ⟨y, hy, h⟩
    simp only [Bool.and_eq_true, decide_eq_true_eq] at h
    obtain ⟨⟨⟨h1, h2⟩, h3⟩, h4⟩ := h
    have : y = x := Prod.ext (Vertex.ext h1 h2 h3) h4
    rw [← this]; exact hy
  · intro h
    exact ⟨x, h, by simp⟩

/-- the pointer that replaces a crossing of a chord is a crossing of the triangle with the same coordinates. -/
theorem getVptr_spec (hT : T.Ok) (hS : T.ChordsSeparated) (ptrLt : ℕ × ℕ → ℕ × ℕ → Bool) {x : Vertex D × (Fin 3 → ℚ)}
    (hx : x ∈ T.chordItems ptrLt) : T.getVptr ptrLt x ∈ T.triPts ptrLt ∧ (T.getVptr ptrLt x).b = x.2 := by
  have hinc := items_incomparable hT hS ptrLt
  have hne : itemsAt (T.chordItems ptrLt) x.1.mask ≠ [] := itemsAt_ne_nil.2 ⟨x, hx, rfl⟩
  have hg := (mem_groups hinc (x.1.mask, itemsAt (T.chordItems ptrLt) x.1.mask)).2 ⟨rfl, hne⟩
  obtain ⟨y, hy⟩ : ∃ y, (itemsAt (T.chordItems ptrLt) x.1.mask).getLast? = some y := ⟨_, List.getLast?_eq_some_getLast hne⟩
  have hgi : ∃ r, groupIsect (x.1.mask, itemsAt (T.chordItems ptrLt) x.1.mask) = some r := by
    unfold groupIsect; rw [hy]; exact ⟨_, rfl⟩
  obtain ⟨r, hr⟩ := hgi
  have hmem : ((x.1.mask, itemsAt (T.chordItems ptrLt) x.1.mask), r) ∈ T.triGroups ptrLt := by
    unfold triGroups
    exact List.mem_filterMap.2 ⟨_, hg, by rw [hr]; rfl⟩
  have hxg : x ∈ itemsAt (T.chordItems ptrLt) x.1.mask := by
    unfold itemsAt; exact List.mem_filter.2 ⟨hx, by simp⟩
  obtain ⟨k, hk⟩ : ∃ k, (((x.1.mask, itemsAt (T.chordItems ptrLt) x.1.mask), r), k) ∈ (T.triGroups ptrLt).zipIdx := by
    obtain ⟨k, hk, hk'⟩ := List.getElem_of_mem hmem
    exact ⟨k, by rw [List.mem_zipIdx_iff_getElem?]; simp only; rw [List.getElem?_eq_getElem hk, hk']⟩
  have hsome : ((T.triGroups ptrLt).zipIdx.find? fun p => inGroup x p.1.1).isSome = true := by
    rw [List.find?_isSome]
    exact ⟨_, hk, (inGroup_iff _ _).2 hxg⟩
  obtain ⟨p, hp⟩ := Option.isSome_iff_exists.1 hsome
  have hpm := List.mem_of_find?_eq_some hp
  have hpx := List.find?_some hp
  rw [inGroup_iff] at hpx
  have he : T.getVptr ptrLt x = ⟨(4, p.2), p.1.2.v, p.1.2.b⟩ := by unfold getVptr; rw [hp]; rfl
  rw [he]
  refine ⟨List.mem_map.2 ⟨p, hpm, rfl⟩, ?_⟩
  have hpt : p.1 ∈ T.triGroups ptrLt := List.fst_mem_of_mem_zipIdx hpm
  unfold triGroups at hpt
  obtain ⟨g, hgm, hgr⟩ := List.mem_filterMap.1 hpt
  obtain ⟨r', hr', hgr⟩ := Option.map_eq_some_iff.1 hgr
  rw [← hgr] at hpx ⊢
  dsimp only at hpx ⊢
  obtain ⟨m1, m2⟩ := mem_bake hT hS ptrLt r' g hgm hr'
  have hgx := ((mem_groups hinc g).1 hgm).1
  rw [hgx] at hpx
  unfold itemsAt at hpx
  rw [List.mem_filter, decide_eq_true_eq] at hpx
  exact item_mask hT hS ptrLt (r'.v, r'.b) x m1 hx (by
    intro i n hm
    show r'.v.mask i = some n
    rw [m2, ← hpx.2]; exact hm)

theorem triPts_kind (hT : T.Ok) (hS : T.ChordsSeparated) (ptrLt : ℕ × ℕ → ℕ × ℕ → Bool) {p : TriPt D} (hp : p ∈ T.triPts ptrLt) :
    p.id.1 = 4 ∧ T.Transversal p.b ∧ p.v.p = baryPoint T.P p.b := by
  obtain ⟨x, hx, rfl⟩ := List.mem_map.1 hp
  have h1 : x.1 ∈ T.triGroups ptrLt := List.fst_mem_of_mem_zipIdx hx
  have h2 : x.1.2 ∈ T.bake ptrLt := by
    rw [← triGroups_snd]; exact List.mem_map.2 ⟨_, h1, rfl⟩
  obtain ⟨c1, c2, _⟩ := C73_crossings_exact hT hS ptrLt
  exact ⟨rfl, (c1 _).1 ⟨_, h2, rfl⟩, (c2 _ h2).2.1⟩

theorem mem_vptrs {ptrLt : ℕ × ℕ → ℕ × ℕ → Bool} (p : TriPt D) : p ∈ T.vptrs ptrLt ↔ p ∈ T.bpts ∨ p ∈ T.triPts ptrLt := by
  unfold vptrs bpts
  simp only [List.mem_append]
  tauto

theorem bpts_id (hT : T.Ok) {p : TriPt D} (hp : p ∈ T.bpts) : p.id.1 ≠ 4 := by
  unfold bpts at hp
  rcases List.mem_append.1 hp with hp | hp
  · obtain ⟨e, _, hp⟩ := List.mem_flatMap.1 hp
    have := (edgePt_spec hT e p hp).2.2.2
    have h3 := e.2
    omega
  · obtain ⟨_, j, _, _, h⟩ := cornerPt_spec hT p hp
    rw [h]; show (3 : ℕ) ≠ 4; decide

theorem vptrs_id_inj (hT : T.Ok) (hS : T.ChordsSeparated) {ptrLt : ℕ × ℕ → ℕ × ℕ → Bool} {p q : TriPt D}
    (hp : p ∈ T.vptrs ptrLt) (hq : q ∈ T.vptrs ptrLt) (h : p.id = q.id) : p = q := by
  rcases (mem_vptrs p).1 hp with hp | hp <;> rcases (mem_vptrs q).1 hq with hq | hq
  · exact bpts_id_inj p q hp hq h
  · exact absurd (by rw [h]; exact (triPts_kind hT hS ptrLt hq).1) (bpts_id hT hp)
  · exact absurd (by rw [← h]; exact (triPts_kind hT hS ptrLt hp).1) (bpts_id hT hq)
  · obtain ⟨⟨x, k⟩, hx, rfl⟩ := List.mem_map.1 hp
    obtain ⟨⟨y, k'⟩, hy, rfl⟩ := List.mem_map.1 hq
    simp only [Prod.mk.injEq, true_and] at h
    subst h
    rw [List.mem_zipIdx_iff_getElem?] at hx hy
    simp only at hx hy
    rw [hx] at hy
    cases hy
    rfl

/-- different vertices have different barycentric coordinates. -/
theorem vptrs_b_inj (hT : T.Ok) (hS : T.ChordsSeparated) {ptrLt : ℕ × ℕ → ℕ × ℕ → Bool} {p q : TriPt D}
    (hp : p ∈ T.vptrs ptrLt) (hq : q ∈ T.vptrs ptrLt) (h : p.b = q.b) : p = q := by
  have bd : ∀ p q : TriPt D, p ∈ T.bpts → q ∈ T.triPts ptrLt → p.b ≠ q.b := by
    intro p q hp hq he
    obtain ⟨j, hj⟩ := (bpts_spec hT p hp).2
    have := (triPts_kind hT hS ptrLt hq).2.1.1 j
    rw [← he, hj] at this
    exact absurd this (lt_irrefl _)
  have ce : ∀ (j : Fin 3) (e : Fin 3) (q : TriPt D), q ∈ T.edgePts e → q.b ≠ Pi.single j 1 := by
    intro j e q hq he
    obtain ⟨_, _, h3, _⟩ := edgePt_spec hT e q hq
    rw [he] at h3
    have : ∃ k, k ≠ e ∧ k ≠ j := by clear * -; revert e j; decide
    obtain ⟨k, k1, k2⟩ := this
    have := h3 k k1
    rw [Pi.single_eq_of_ne k2] at this
    exact absurd this (lt_irrefl _)
  rcases (mem_vptrs p).1 hp with hp | hp <;> rcases (mem_vptrs q).1 hq with hq | hq
  · unfold bpts at hp hq
    rcases List.mem_append.1 hp with hp | hp <;> rcases List.mem_append.1 hq with hq | hq
    · obtain ⟨e, _, hp⟩ := List.mem_flatMap.1 hp
      obtain ⟨e', _, hq⟩ := List.mem_flatMap.1 hq
      have : e = e' := by
        obtain ⟨_, h2, _, _⟩ := edgePt_spec hT e p hp
        obtain ⟨_, _, h3, _⟩ := edgePt_spec hT e' q hq
        by_contra hc
        have := h3 e hc
        rw [← h, h2] at this
        exact absurd this (lt_irrefl _)
      subst this
      unfold edgePts at hp hq
      obtain ⟨⟨x, k⟩, hx, rfl⟩ := List.mem_map.1 hp
      obtain ⟨⟨y, k'⟩, hy, rfl⟩ := List.mem_map.1 hq
      have ht : x.t = y.t := by
        have := congrFun h (T.tgt e)
        dsimp only at this
        rwa [(edgeBary_vals (T := T) e x.t).2.2, (edgeBary_vals (T := T) e y.t).2.2] at this
      have h2 := (C13_crossings_exact (T.edgeIndex e) T.grid (T.V (T.src e)) (T.V (T.tgt e)) (hT.verts _).1 (hT.verts _).1 (hT.sep e)).2
      rw [List.mem_zipIdx_iff_getElem?] at hx hy
      simp only at hx hy
      have hkk : k = k' := by
        have hx' : ((T.edgeIsects e).map Isect.t)[k]? = some x.t := by rw [List.getElem?_map, hx]; rfl
        have hy' : ((T.edgeIsects e).map Isect.t)[k']? = some x.t := by rw [List.getElem?_map, hy, ht]; rfl
        have hnd : ((T.edgeIsects e).map Isect.t).Nodup := h2.imp fun h => h.ne
        have hlt : k < ((T.edgeIsects e).map Isect.t).length := by
          by_contra hc
          rw [List.getElem?_eq_none (by omega)] at hx'
          cases hx'
        exact (List.getElem?_inj hlt hnd).1 (hx'.trans hy'.symm)
      subst hkk
      rw [hx] at hy
      cases hy
      rfl
    · obtain ⟨e, _, hp⟩ := List.mem_flatMap.1 hp
      obtain ⟨_, j, _, hb, _⟩ := cornerPt_spec hT q hq
      exact absurd (h.trans hb) (ce j e p hp)
    · obtain ⟨e, _, hq⟩ := List.mem_flatMap.1 hq
      obtain ⟨_, j, _, hb, _⟩ := cornerPt_spec hT p hp
      exact absurd (h.symm.trans hb) (ce j e q hq)
    · obtain ⟨j, _, rfl⟩ := List.mem_map.1 hp
      obtain ⟨k, _, rfl⟩ := List.mem_map.1 hq
      have := congrFun h j
      dsimp only at this
      by_cases hjk : j = k
      · subst hjk; rfl
      · rw [Pi.single_eq_same, Pi.single_eq_of_ne hjk] at this
        exact absurd this one_ne_zero
  · exact absurd h (bd p q hp hq)
  · exact absurd h.symm (bd q p hq hp)
  · obtain ⟨⟨x, k⟩, hx, rfl⟩ := List.mem_map.1 hp
    obtain ⟨⟨y, k'⟩, hy, rfl⟩ := List.mem_map.1 hq
    have hpw := (C73_crossings_exact hT hS ptrLt).2.2
    rw [← triGroups_snd, List.pairwise_map] at hpw
    have hnd : ((T.triGroups ptrLt).map fun z => z.2.b).Nodup := by
      rw [List.Nodup, List.pairwise_map]; exact hpw.imp fun h => h.1
    rw [List.mem_zipIdx_iff_getElem?] at hx hy
    simp only at hx hy
    dsimp only at h
    have hkk : k = k' := by
      have hx' : ((T.triGroups ptrLt).map fun z => z.2.b)[k]? = some x.2.b := by rw [List.getElem?_map, hx]; rfl
      have hy' : ((T.triGroups ptrLt).map fun z => z.2.b)[k']? = some x.2.b := by rw [List.getElem?_map, hy, h]; rfl
      have hlt : k < ((T.triGroups ptrLt).map fun z => z.2.b).length := by
        by_contra hc
        rw [List.getElem?_eq_none (by omega)] at hx'
        cases hx'
      exact (List.getElem?_inj hlt hnd).1 (hx'.trans hy'.symm)
    subst hkk
    rw [hx] at hy
    cases hy
    rfl

/-- the tables are inverse to each other. -/
theorem vptrAt_index (hT : T.Ok) (hS : T.ChordsSeparated) {ptrLt : ℕ × ℕ → ℕ × ℕ → Bool} {p : TriPt D}
    (hp : p ∈ T.vptrs ptrLt) : T.vptrAt ptrLt (T.index ptrLt p) = p := by
  unfold vptrAt index
  rw [Int.toNat_natCast]
  have hlt : (T.vptrs ptrLt).findIdx (fun q => decide (q.id = p.id)) < (T.vptrs ptrLt).length :=
    List.findIdx_lt_length_of_exists ⟨p, hp, by simp⟩
  rw [List.getElem?_eq_getElem hlt, Option.getD_some]
  have := List.findIdx_getElem (w := hlt)
  rw [decide_eq_true_eq] at this
  exact vptrs_id_inj hT hS (List.getElem_mem hlt) hp this

theorem pos_index (hT : T.Ok) (hS : T.ChordsSeparated) {ptrLt : ℕ × ℕ → ℕ × ℕ → Bool} {p : TriPt D}
    (hp : p ∈ T.vptrs ptrLt) : T.pos ptrLt (T.index ptrLt p) = toDir p.b := by
  unfold pos; rw [vptrAt_index hT hS hp]; rfl

theorem vptrs_bary (hT : T.Ok) (hS : T.ChordsSeparated) {ptrLt : ℕ × ℕ → ℕ × ℕ → Bool} {p : TriPt D}
    (hp : p ∈ T.vptrs ptrLt) : IsBary p.b ∧ p.v.p = baryPoint T.P p.b := by
  rcases (mem_vptrs p).1 hp with hp | hp
  · have := (bpts_spec hT p hp).1
    exact ⟨this.bary, this.pos.symm⟩
  · obtain ⟨_, h2, h3⟩ := triPts_kind hT hS ptrLt hp
    exact ⟨⟨fun j => (h2.1 j).le, h2.2.1⟩, h3⟩

/-- the points of a segment. -/
structure PtsOf (T : TriInput D) (ptrLt : ℕ × ℕ → ℕ × ℕ → Bool) (s : Seg) (pts : List (TriPt D)) : Prop where
  mem : ∀ p ∈ pts, p ∈ T.vptrs ptrLt
  eq : pts.map (fun p => toDir p.b) = s.ts.map s.pt

theorem corner_mem (ptrLt : ℕ × ℕ → ℕ × ℕ → Bool) (j : Fin 3) : T.corner j ∈ T.vptrs ptrLt :=
  (mem_vptrs _).2 (.inl (List.mem_append_right _ (List.mem_map.2 ⟨j, List.mem_finRange j, rfl⟩)))

theorem pt_zero (s : Seg) : s.pt 0 = s.p := by unfold Seg.pt; refine Prod.ext ?_ ?_ <;> simp
theorem pt_one (s : Seg) : s.pt 1 = s.q := by unfold Seg.pt; refine Prod.ext ?_ ?_ <;> simp

theorem side_pts (hT : T.Ok) (ptrLt : ℕ × ℕ → ℕ × ℕ → Bool) (e : Fin 3) : PtsOf T ptrLt (T.sideSeg e) (T.sidePts e) := by
  rw [sidePts_eq hT]
  refine ⟨?_, ?_⟩
  · intro p hp
    rcases List.mem_append.1 hp with hp | hp
    · rcases List.mem_cons.1 hp with rfl | hp
      · exact corner_mem _ _
      · exact (mem_vptrs _).2 (.inl (List.mem_append_left _ (List.mem_flatMap.2 ⟨e, List.mem_finRange e, hp⟩)))
    · rw [List.mem_singleton] at hp; subst hp; exact corner_mem _ _
  · have h1 : (T.edgePts e).map (fun p => toDir p.b) = (T.edgeIsects e).map fun x => (T.sideSeg e).pt x.t := by
      unfold edgePts
      rw [List.map_map]
      conv_rhs => rw [← List.zipIdx_map_fst 0 (T.edgeIsects e), List.map_map]
      refine List.map_congr_left fun x _ => ?_
      dsimp only [Function.comp]
      rw [← ofDir_side, toDir_ofDir]
    rw [List.map_append, List.map_cons, h1]
    have h2 : (T.sideSeg e).ts = 0 :: (T.edgeIsects e).map Isect.t ++ [1] := rfl
    rw [h2]
    simp only [List.map_append, List.map_cons, List.map_nil, List.map_map, pt_zero, pt_one]
    rfl

theorem chord_pts (hT : T.Ok) (hS : T.ChordsSeparated) (ptrLt : ℕ × ℕ → ℕ × ℕ → Bool) {c : TriPt D × TriPt D}
    (hc : c ∈ T.chords ptrLt) : PtsOf T ptrLt (T.chordSeg c) (T.chordPts ptrLt c) := by
  have h := chords_ok hT ptrLt c hc
  have hb := chords_bpts hT ptrLt hc
  have hitem : ∀ e ∈ bakeEdge (-1) T.grid c.1.v c.2.v, (e.v, chordBary c.1.b c.2.b e.t) ∈ T.chordItems ptrLt := fun e he =>
    List.mem_flatMap.2 ⟨c, hc, List.mem_map.2 ⟨e, he, rfl⟩⟩
  rw [chordPts_eq hS ptrLt h]
  refine ⟨?_, ?_⟩
  · intro p hp
    rcases List.mem_append.1 hp with hp | hp
    · rcases List.mem_cons.1 hp with rfl | hp
      · exact (mem_vptrs _).2 (.inl hb.1)
      · obtain ⟨e, he, rfl⟩ := List.mem_map.1 hp
        exact (mem_vptrs _).2 (.inr (getVptr_spec hT hS ptrLt (hitem e he)).1)
    · rw [List.mem_singleton] at hp; subst hp; exact (mem_vptrs _).2 (.inl hb.2)
  · have h1 : ((bakeEdge (-1) T.grid c.1.v c.2.v).map fun e => T.getVptr ptrLt (e.v, chordBary c.1.b c.2.b e.t)).map (fun p => toDir p.b) =
        (bakeEdge (-1) T.grid c.1.v c.2.v).map fun x => (T.chordSeg c).pt x.t := by
      rw [List.map_map]
      refine List.map_congr_left fun e he => ?_
      dsimp only [Function.comp]
      obtain ⟨_, h2, h3, _⟩ := isect_ok _ _ _ _ h.pok.vok.1 h.qok.vok.1 (h.sep hS) e he
      rw [(getVptr_spec hT hS ptrLt (hitem e he)).2]
      dsimp only
      rw [chordBary_eq c.1.b c.2.b h.pok.bary h.qok.bary e.t h2.le h3.le, ← chord_ofDir h, toDir_ofDir]
    rw [List.map_append, List.map_cons, h1]
    have h2 : (T.chordSeg c).ts = 0 :: (bakeEdge (-1) T.grid c.1.v c.2.v).map Isect.t ++ [1] := rfl
    rw [h2]
    simp only [List.map_append, List.map_cons, List.map_nil, List.map_map, pt_zero, pt_one]
    rfl

/-- pieces and intervals of parameters correspond. -/
theorem PtsOf.pieces {ptrLt : ℕ × ℕ → ℕ × ℕ → Bool} {s : Seg} {pts : List (TriPt D)} (h : PtsOf T ptrLt s pts) :
    (∀ P ∈ intervals pts, P.1 ∈ T.vptrs ptrLt ∧ P.2 ∈ T.vptrs ptrLt ∧
      ∃ i ∈ intervals s.ts, toDir P.1.b = s.pt i.1 ∧ toDir P.2.b = s.pt i.2) ∧
    (∀ i ∈ intervals s.ts, ∃ P ∈ intervals pts, toDir P.1.b = s.pt i.1 ∧ toDir P.2.b = s.pt i.2) := by
  have e : (intervals pts).map (Prod.map (fun p => toDir p.b) (fun p => toDir p.b)) = (intervals s.ts).map (Prod.map s.pt s.pt) := by
    rw [← intervals_map, ← intervals_map, h.eq]
  refine ⟨fun P hP => ?_, fun i hi => ?_⟩
  · have hm : P.1 ∈ pts ∧ P.2 ∈ pts := by
      unfold intervals at hP
      have := List.of_mem_zip hP
      exact ⟨this.1, List.mem_of_mem_tail this.2⟩
    refine ⟨h.mem _ hm.1, h.mem _ hm.2, ?_⟩
    have := List.mem_map_of_mem (f := Prod.map (fun p : TriPt D => toDir p.b) (fun p : TriPt D => toDir p.b)) hP
    rw [e] at this
    obtain ⟨i, hi, he⟩ := List.mem_map.1 this
    exact ⟨i, hi, (congrArg Prod.fst he).symm, (congrArg Prod.snd he).symm⟩
  · have := List.mem_map_of_mem (f := Prod.map s.pt s.pt) hi
    rw [← e] at this
    obtain ⟨P, hP, he⟩ := List.mem_map.1 this
    exact ⟨P, hP, congrArg Prod.fst he, congrArg Prod.snd he⟩

/-- the pieces, by segment. -/
theorem vptrPieces_iff (ptrLt : ℕ × ℕ → ℕ × ℕ → Bool) (hT : T.Ok) (hS : T.ChordsSeparated) :
    (∀ P ∈ T.vptrPieces ptrLt, ∃ s ∈ T.segs ptrLt, ∃ pts, PtsOf T ptrLt s pts ∧ P ∈ intervals pts) ∧
    (∀ s ∈ T.segs ptrLt, ∃ pts, PtsOf T ptrLt s pts ∧ ∀ P ∈ intervals pts, P ∈ T.vptrPieces ptrLt) := by
  constructor
  · intro P hP
    unfold vptrPieces at hP
    rcases List.mem_append.1 hP with hP | hP
    · obtain ⟨c, hc, hP⟩ := List.mem_flatMap.1 hP
      exact ⟨_, (mem_segs _).2 (.inl ⟨c, hc, rfl⟩), _, chord_pts hT hS ptrLt hc, hP⟩
    · obtain ⟨e, _, hP⟩ := List.mem_flatMap.1 hP
      exact ⟨_, (mem_segs _).2 (.inr ⟨e, rfl⟩), _, side_pts hT ptrLt e, hP⟩
  · intro s hs
    unfold vptrPieces
    rcases (mem_segs s).1 hs with ⟨c, hc, rfl⟩ | ⟨e, rfl⟩
    · exact ⟨_, chord_pts hT hS ptrLt hc, fun P hP => List.mem_append_left _ (List.mem_flatMap.2 ⟨c, hc, hP⟩)⟩
    · exact ⟨_, side_pts hT ptrLt e, fun P hP => List.mem_append_right _ (List.mem_flatMap.2 ⟨e, List.mem_finRange e, hP⟩)⟩

theorem foldl_set_mem (P : List DEdge) (m : List (DEdge × Unit)) (hm : OMap.Sorted edgeLt m) (e : DEdge) :
    e ∈ (P.foldl (fun m e => OMap.assign edgeLt e () m) m).map Prod.fst ↔ e ∈ m.map Prod.fst ∨ e ∈ P := by
  induction P generalizing m with
  | nil => simp
  | cons a P ih =>
    rw [List.foldl_cons, ih (OMap.assign edgeLt a () m) (OMap.sorted_alter strictTotal_edgeLt hm)]
    have : e ∈ (OMap.assign edgeLt a () m).map Prod.fst ↔ e ∈ m.map Prod.fst ∨ e = a := by
      unfold OMap.assign
      constructor
      · intro h
        obtain ⟨⟨k, u⟩, hx, rfl⟩ := List.mem_map.1 h
        rcases (OMap.mem_alter strictTotal_edgeLt hm).1 hx with h' | h'
        · exact .inl (List.mem_map.2 ⟨_, h'.2, rfl⟩)
        · exact .inr h'.1
      · intro h
        by_cases hea : e = a
        · exact List.mem_map.2 ⟨(e, ()), (OMap.mem_alter strictTotal_edgeLt hm).2 (.inr ⟨hea, rfl⟩), rfl⟩
        · rcases h with h | h
          · obtain ⟨⟨k, u⟩, hx, rfl⟩ := List.mem_map.1 h
            exact List.mem_map.2 ⟨_, (OMap.mem_alter strictTotal_edgeLt hm).2 (.inl ⟨hea, hx⟩), rfl⟩
          · exact absurd h hea
    rw [this, List.mem_cons]
    tauto

/-- the half-edges of the collapser. -/
theorem mem_halfEdges (ptrLt : ℕ × ℕ → ℕ × ℕ → Bool) (a b : ℤ) :
    (a, b) ∈ (FaceCollapser.make (T.faceEdges ptrLt)).edgeList ↔
      a ≠ b ∧ ∃ P ∈ T.vptrPieces ptrLt, (a = T.index ptrLt P.1 ∧ b = T.index ptrLt P.2) ∨ (a = T.index ptrLt P.2 ∧ b = T.index ptrLt P.1) := by
  rw [(FaceCollapser.make_inv (T.faceEdges ptrLt)).2.2.2.2.2.1]
  have key : ∀ e, e ∈ T.faceEdges ptrLt ↔ ∃ P ∈ T.vptrPieces ptrLt, T.edgeOf ptrLt P = some e := by
    intro e
    unfold faceEdges
    rw [foldl_set_mem _ _ OMap.sorted_nil, List.mem_filterMap]
    simp
  rw [key, key]
  unfold edgeOf
  dsimp only
  constructor
  · rintro (⟨P, hP, h⟩ | ⟨P, hP, h⟩)
    · split_ifs at h with h1 h2
      · cases h; exact ⟨h1, P, hP, .inl ⟨rfl, rfl⟩⟩
      · cases h; exact ⟨fun h => h1 h.symm, P, hP, .inr ⟨rfl, rfl⟩⟩
    · split_ifs at h with h1 h2
      · cases h; exact ⟨fun h => h1 h.symm, P, hP, .inr ⟨rfl, rfl⟩⟩
      · cases h; exact ⟨h1, P, hP, .inl ⟨rfl, rfl⟩⟩
  · rintro ⟨hab, P, hP, ⟨rfl, rfl⟩ | ⟨rfl, rfl⟩⟩
    · rcases lt_or_gt_of_ne hab with h | h
      · exact .inl ⟨P, hP, by rw [if_neg hab, if_pos h]⟩
      · exact .inr ⟨P, hP, by rw [if_neg hab, if_neg (not_lt.2 h.le)]⟩
    · rcases lt_or_gt_of_ne hab with h | h
      · exact .inl ⟨P, hP, by rw [if_neg hab.symm, if_neg (not_lt.2 h.le)]⟩
      · exact .inr ⟨P, hP, by rw [if_neg hab.symm, if_pos h]⟩

/-- a vertex of the graph. -/
theorem half_vertex (hT : T.Ok) (hS : T.ChordsSeparated) {ptrLt : ℕ × ℕ → ℕ × ℕ → Bool} {a b : ℤ}
    (h : (a, b) ∈ (FaceCollapser.make (T.faceEdges ptrLt)).edgeList) : ∃ p ∈ T.vptrs ptrLt, a = T.index ptrLt p := by
  obtain ⟨_, P, hP, h⟩ := (mem_halfEdges ptrLt a b).1 h
  obtain ⟨s, _, pts, hpts, hP'⟩ := (vptrPieces_iff ptrLt hT hS).1 P hP
  obtain ⟨m1, m2, _⟩ := hpts.pieces.1 P hP'
  rcases h with ⟨h1, _⟩ | ⟨h1, _⟩
  · exact ⟨_, m1, h1⟩
  · exact ⟨_, m2, h1⟩

theorem piecesOf (hT : T.Ok) (hS : T.ChordsSeparated) (ptrLt : ℕ × ℕ → ℕ × ℕ → Bool) :
    PiecesOf (T.segs ptrLt) (FaceCollapser.make (T.faceEdges ptrLt)).edgeList (T.pos ptrLt) where
  symm := fun a b h => (FaceCollapser.ok_make _).symm a b h
  inj := by
    intro a b a' b' h h' heq
    obtain ⟨p, hp, rfl⟩ := half_vertex hT hS h
    obtain ⟨q, hq, rfl⟩ := half_vertex hT hS h'
    rw [pos_index hT hS hp, pos_index hT hS hq] at heq
    have : p.b = q.b := by
      rw [← ofDir_toDir (vptrs_bary hT hS hp).1.sum, ← ofDir_toDir (vptrs_bary hT hS hq).1.sum, heq]
    rw [vptrs_b_inj hT hS hp hq this]
  sub := by
    intro a b h
    obtain ⟨_, P, hP, h⟩ := (mem_halfEdges ptrLt a b).1 h
    obtain ⟨s, hs, pts, hpts, hP'⟩ := (vptrPieces_iff ptrLt hT hS).1 P hP
    obtain ⟨m1, m2, i, hi, e1, e2⟩ := hpts.pieces.1 P hP'
    refine ⟨s, hs, i, hi, ?_⟩
    rcases h with ⟨rfl, rfl⟩ | ⟨rfl, rfl⟩
    · left; rw [pos_index hT hS m1, pos_index hT hS m2]; exact ⟨e1, e2⟩
    · right; rw [pos_index hT hS m1, pos_index hT hS m2]; exact ⟨e2, e1⟩
  sup := by
    intro s hs i hi
    obtain ⟨pts, hpts, hall⟩ := (vptrPieces_iff ptrLt hT hS).2 s hs
    obtain ⟨P, hP, e1, e2⟩ := hpts.pieces.2 i hi
    obtain ⟨m1, m2, _⟩ := hpts.pieces.1 P hP
    have G := segs_ok hT hS ptrLt
    have hlt := (intervals_mem (G.sorted s hs) hi).1
    refine ⟨T.index ptrLt P.1, T.index ptrLt P.2, (mem_halfEdges ptrLt _ _).2 ⟨?_, P, hall P hP, .inl ⟨rfl, rfl⟩⟩, ?_, ?_⟩
    · intro heq
      have : P.1 = P.2 := by rw [← vptrAt_index hT hS m1, heq, vptrAt_index hT hS m2]
      rw [this, e2] at e1
      exact absurd (pt_inj (G.ne s hs) e1) (ne_of_gt hlt)
    · rw [pos_index hT hS m1, e1]
    · rw [pos_index hT hS m2, e2]

end TriInput
end Mandoline
