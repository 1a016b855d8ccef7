import Mathlib.Data.Rat.Defs
import Mathlib.Data.List.Basic
import Mathlib.Data.List.TakeDrop
import Mathlib.Tactic.Ring
import Mathlib.Data.Fin.VecNotation
import Mathlib.Algebra.Order.Ring.Rat
import Verif.Geom.Spec

/-!
# C53: `MeshExploder` (src/tools/exploded_mesh.cpp, include/mandoline/tools/exploded_mesh.hpp)

The per-cell arrays `Vs`, `Fs`, `regions`, `Cs` have one entry per cell (resized to `cell_size()` at
exploded_mesh.cpp:9-14), so the exploder is a list of blocks. `zip` stops at the shortest range, so the last offset is not
consumed by `F`.
-/
namespace Mandoline
namespace Explode

/-- one cell: compacted vertices, triangles with local indices, region and centres. -/
structure Block where
  V : List (Pt 3)
  F : List (Fin 3 → ℤ)
  region : ℤ
  rc : Pt 3
  gc : Pt 3

/-- `valid_region` (exploded_mesh.hpp:25-27). -/
def validRegion (r : ℤ) (used : List ℤ) : Bool := used.isEmpty || used.contains r

/-- loop of `offsets` (exploded_mesh.cpp:55-61). -/
def offsetsLoop (used : List ℤ) : ℤ → List Block → List ℤ
  | _, [] => []
  | off, b :: l =>
    let off' := if validRegion b.region used then off + b.V.length else off
    off' :: offsetsLoop used off' l

/-- `offsets(used_regions)` (exploded_mesh.cpp:50-63). -/
def offsets (used : List ℤ) (bs : List Block) : List ℤ := 0 :: offsetsLoop used 0 bs

/-- `setCenters(region_scale)` (exploded_mesh.cpp:32-37). -/
def center (rs : ℚ) (b : Block) : Pt 3 := fun i => (1 - rs) * b.gc i + rs * b.rc i

/-- `V(index, scale)` at one vertex (exploded_mesh.cpp:96-104): subtract `O`, add `(scale-1)·C`, add `O`. -/
def explodePt (O : Pt 3) (rs scale : ℚ) (b : Block) (x : Pt 3) : Pt 3 := fun i => ((x i - O i) + (scale - 1) * center rs b i) + O i

/-- `V(index, scale)` (exploded_mesh.cpp:96-104). -/
def blockV (O : Pt 3) (rs scale : ℚ) (b : Block) : List (Pt 3) := b.V.map (explodePt O rs scale b)

/-- `V(scale, used_regions)` (exploded_mesh.cpp:71-83). -/
def allV (O : Pt 3) (rs scale : ℚ) (used : List ℤ) (bs : List Block) : List (Pt 3) :=
  bs.flatMap fun b => if validRegion b.region used then blockV O rs scale b else []

/-- `F(used_regions)` (exploded_mesh.cpp:84-95). -/
def allF (used : List ℤ) (bs : List Block) : List (Fin 3 → ℤ) :=
  (bs.zip (offsets used bs)).flatMap fun bo =>
    if validRegion bo.1.region used then bo.1.F.map fun f i => f i + bo.2 else []

/-- `colors(cell_colors, used_regions)` (exploded_mesh.cpp:38-49): block `i` of the columns gets the colour of cell `i`;
`none` is an entry never written. -/
def colors {Col : Type} (cols : ℕ → Col) (used : List ℤ) (bs : List Block) : List (Option Col) :=
  let offs := offsets used bs
  (List.range bs.length).foldl (fun C i =>
      let off := (offs.getD i 0).toNat
      let size := (offs.getD (i + 1) 0 - offs.getD i 0).toNat
      if 0 < size then (C.take off ++ List.replicate size (some (cols i))) ++ C.drop (off + size) else C)
    (List.replicate (offs.getLastD 0).toNat none)

/-- triangle indices refer to the block's own vertices. -/
def Block.Ok (b : Block) : Prop := ∀ f ∈ b.F, ∀ i, 0 ≤ f i ∧ f i < b.V.length

/-! ## proofs -/

/-- number of vertices a block contributes. -/
def used1 (used : List ℤ) (b : Block) : ℕ := if validRegion b.region used then b.V.length else 0

/-- allV with the vertices already collected, allF with the current offset. -/
def facesFrom (used : List ℤ) : ℤ → List Block → List (Fin 3 → ℤ)
  | _, [] => []
  | off, b :: l => (if validRegion b.region used then b.F.map fun f i => f i + off else []) ++ facesFrom used (off + used1 used b) l

theorem allF_from (used : List ℤ) (off : ℤ) (bs : List Block) :
    (bs.zip (off :: offsetsLoop used off bs)).flatMap (fun bo : Block × ℤ =>
      if validRegion bo.1.region used then bo.1.F.map fun f i => f i + bo.2 else []) = facesFrom used off bs := by
  induction bs generalizing off with
  | nil => rfl
  | cons b l ih =>
    have : offsetsLoop used off (b :: l) = (off + used1 used b) :: offsetsLoop used (off + used1 used b) l := by
      simp only [offsetsLoop, used1]; split <;> simp
    rw [this, List.zip_cons_cons, List.flatMap_cons, ih]
    rfl

theorem allF_eq (used : List ℤ) (bs : List Block) : allF used bs = facesFrom used 0 bs := allF_from used 0 bs

theorem blockV_length (O : Pt 3) (rs scale : ℚ) (b : Block) : (blockV O rs scale b).length = b.V.length := by simp [blockV]

theorem facesFrom_spec (O : Pt 3) (rs scale : ℚ) (used : List ℤ) (pre : List (Pt 3)) (bs : List Block) (hok : ∀ b ∈ bs, b.Ok) :
    ∀ t ∈ facesFrom used pre.length bs, ∃ b ∈ bs, validRegion b.region used = true ∧ ∃ f ∈ b.F, ∀ i, ∃ x, b.V[(f i).toNat]? = some x ∧
      0 ≤ t i ∧ (pre ++ allV O rs scale used bs)[(t i).toNat]? = some (explodePt O rs scale b x) := by
  induction bs generalizing pre with
  | nil => intro t ht; exact absurd ht (by simp [facesFrom])
  | cons b l ih =>
    intro t ht
    rw [facesFrom, List.mem_append] at ht
    have hV : allV O rs scale used (b :: l) = (if validRegion b.region used then blockV O rs scale b else []) ++ allV O rs scale used l := rfl
    rcases ht with ht | ht
    · split at ht
      · rename_i hv
        obtain ⟨f, hf, rfl⟩ := List.mem_map.1 ht
        refine ⟨b, by simp, hv, f, hf, fun i => ?_⟩
        obtain ⟨h0, h1⟩ := hok b (by simp) f hf i
        have hlt : (f i).toNat < b.V.length := by omega
        refine ⟨b.V[(f i).toNat], List.getElem?_eq_getElem hlt, by show 0 ≤ f i + (pre.length : ℤ); omega, ?_⟩
        have : (f i + (pre.length : ℤ)).toNat = pre.length + (f i).toNat := by omega
        rw [this, List.getElem?_append_right (by omega), Nat.add_sub_cancel_left, hV, if_pos hv,
          List.getElem?_append_left (by rw [blockV_length]; exact hlt), blockV, List.getElem?_map, List.getElem?_eq_getElem hlt]
        rfl
      · exact absurd ht (by simp)
    · have hlen : ((pre.length : ℤ) + used1 used b) = ((pre ++ (if validRegion b.region used then blockV O rs scale b else [])).length : ℕ) := by
        unfold used1; split <;> simp [blockV_length]
      rw [hlen] at ht
      obtain ⟨b', hb', hv', f, hf, hx⟩ := ih _ (fun c hc => hok c (List.mem_cons_of_mem _ hc)) t ht
      refine ⟨b', List.mem_cons_of_mem _ hb', hv', f, hf, fun i => ?_⟩
      obtain ⟨x, h1, h2, h3⟩ := hx i
      refine ⟨x, h1, h2, ?_⟩
      rw [hV, ← List.append_assoc]; exact h3

/-- **C53** every triangle of the stitched mesh is a triangle of one of the shown cells, and each of its indices refers to
the (displaced) vertex of that same cell. -/
theorem C53_faces_refer_to_own_block (O : Pt 3) (rs scale : ℚ) (used : List ℤ) (bs : List Block) (hok : ∀ b ∈ bs, b.Ok) :
    ∀ t ∈ allF used bs, ∃ b ∈ bs, validRegion b.region used = true ∧ ∃ f ∈ b.F, ∀ i, ∃ x, b.V[(f i).toNat]? = some x ∧
      0 ≤ t i ∧ (allV O rs scale used bs)[(t i).toNat]? = some (explodePt O rs scale b x) := by
  intro t ht
  rw [allF_eq] at ht
  simpa using facesFrom_spec O rs scale used [] bs hok t ht

/-- **C53** nothing is lost: the stitched mesh has as many vertices and triangles as the shown cells together, in order. -/
theorem C53_counts (O : Pt 3) (rs scale : ℚ) (used : List ℤ) (bs : List Block) :
    (allV O rs scale used bs).length = ((bs.filter fun b => validRegion b.region used).map fun b => b.V.length).sum ∧
    (allF used bs).length = ((bs.filter fun b => validRegion b.region used).map fun b => b.F.length).sum := by
  constructor
  · induction bs with
    | nil => rfl
    | cons b l ih =>
      have hV : allV O rs scale used (b :: l) = (if validRegion b.region used then blockV O rs scale b else []) ++ allV O rs scale used l := rfl
      rw [hV, List.length_append, ih, List.filter_cons]
      split <;> simp [blockV_length]
  · rw [allF_eq]
    have : ∀ off, (facesFrom used off bs).length = ((bs.filter fun b => validRegion b.region used).map fun b => b.F.length).sum := by
      induction bs with
      | nil => intro; rfl
      | cons b l ih =>
        intro off
        rw [facesFrom, List.length_append, ih, List.filter_cons]
        split <;> simp
    exact this 0

/-- **C53** the offset of cell `k` is the number of vertices of the shown cells before it; its vertices are found there. -/
theorem C53_offsets (O : Pt 3) (rs scale : ℚ) (used : List ℤ) (bs : List Block) (k : ℕ) (hk : k ≤ bs.length) :
    (offsets used bs)[k]? = some (((allV O rs scale used (bs.take k)).length : ℕ) : ℤ) := by
  have key : ∀ (bs : List Block) (k : ℕ) (off : ℤ), k ≤ bs.length →
      (off :: offsetsLoop used off bs)[k]? = some (off + ((allV O rs scale used (bs.take k)).length : ℕ)) := by
    intro bs
    induction bs with
    | nil => intro k off hk; have : k = 0 := by simpa using hk
             subst this; simp [allV]
    | cons b l ih =>
      intro k off hk
      cases k with
      | zero => simp [allV]
      | succ k =>
        rw [List.getElem?_cons_succ]
        have hV : allV O rs scale used (b :: l.take k) = (if validRegion b.region used then blockV O rs scale b else []) ++ allV O rs scale used (l.take k) := rfl
        simp only [offsetsLoop, List.take_succ_cons]
        rw [ih k _ (by simpa using hk), hV, List.length_append]
        split <;> simp [blockV_length, add_assoc]
  simpa [offsets] using key bs k 0 hk

/-- **C53** at scale 1 nothing moves; at any scale a cell moves rigidly, by `(scale-1)` times its centre. The origin `O` has
no influence. -/
theorem C53_rigid (O O' : Pt 3) (rs scale : ℚ) (b : Block) (x : Pt 3) :
    explodePt O rs 1 b x = x ∧ explodePt O rs scale b x = explodePt O' rs scale b x ∧
    ∀ i, explodePt O rs scale b x i - x i = (scale - 1) * ((1 - rs) * b.gc i + rs * b.rc i) := by
  refine ⟨funext fun i => ?_, funext fun i => ?_, fun i => ?_⟩ <;> simp only [explodePt, center] <;> ring

/-- a point is in an axis-aligned box. -/
def InBox (lo hi x : Pt 3) : Prop := ∀ i, lo i ≤ x i ∧ x i ≤ hi i

/-- **C53** with centres of grid cells (`region_scale = 0`) and `scale ≥ 1`: cells in boxes that do not overlap (one ends
along axis `i` where the other begins or before) still do not overlap when exploded, and the boxes move apart along that axis by
`scale - 1` times the distance of the centres. -/
theorem C53_no_overlap (O : Pt 3) (scale : ℚ) (hs : 1 ≤ scale) (a b : Block) (loA hiA loB hiB : Pt 3) (i : Fin 3)
    (hA : ∀ x ∈ a.V, InBox loA hiA x) (hB : ∀ x ∈ b.V, InBox loB hiB x) (hgA : InBox loA hiA a.gc) (hgB : InBox loB hiB b.gc)
    (hsep : hiA i ≤ loB i) :
    ∀ x ∈ blockV O 0 scale a, ∀ y ∈ blockV O 0 scale b,
      x i ≤ hiA i + (scale - 1) * a.gc i ∧ loB i + (scale - 1) * b.gc i ≤ y i ∧
      (loB i - hiA i) + (scale - 1) * (b.gc i - a.gc i) ≤ y i - x i ∧ x i ≤ y i := by
  intro x hx y hy
  obtain ⟨u, hu, rfl⟩ := List.mem_map.1 hx
  obtain ⟨v, hv, rfl⟩ := List.mem_map.1 hy
  have h1 := (hA u hu i).2
  have h2 := (hB v hv i).1
  have h3 : 0 ≤ (scale - 1) * (b.gc i - a.gc i) :=
    mul_nonneg (by linarith) (by linarith [(hgA i).2, (hgB i).1])
  simp only [explodePt, center]
  refine ⟨by linarith, by linarith, by linarith, by linarith⟩

/-- **C53, refuted** for centres of regions (`region_scale = 1`): cells of different regions can run into each other (the centre of
the region on the left is to the right of the other one). -/
theorem C53_region_overlap_refuted : ∃ a b : Block, (∀ x ∈ a.V, x 0 ≤ 1) ∧ (∀ x ∈ b.V, 1 ≤ x 0) ∧
    ∃ x ∈ blockV 0 1 2 a, ∃ y ∈ blockV 0 1 2 b, y 0 < x 0 :=
  ⟨⟨[fun _ => 1], [], 0, fun _ => 5, fun _ => 1⟩, ⟨[fun _ => 1], [], 1, fun _ => 2, fun _ => 1⟩, by simp, by simp,
    _, List.mem_map.2 ⟨_, List.mem_singleton.2 rfl, rfl⟩, _, List.mem_map.2 ⟨_, List.mem_singleton.2 rfl, rfl⟩, by
      simp only [explodePt, center]; norm_num⟩

/-- two neighbouring cells of a grid satisfy the hypotheses of `C53_no_overlap`. -/
example : ∀ x ∈ blockV 0 0 2 ⟨[fun _ => 0, fun _ => 1], [], 0, fun _ => 0, fun _ => 1 / 2⟩,
    ∀ y ∈ blockV 0 0 2 ⟨[![1, 0, 0], ![2, 1, 1]], [], 0, fun _ => 0, ![3 / 2, 1 / 2, 1 / 2]⟩, x 0 ≤ y 0 := by
  intro x hx y hy
  refine (C53_no_overlap 0 2 (by norm_num) ⟨[fun _ => 0, fun _ => 1], [], 0, fun _ => 0, fun _ => 1 / 2⟩
    ⟨[![1, 0, 0], ![2, 1, 1]], [], 0, fun _ => 0, ![3 / 2, 1 / 2, 1 / 2]⟩ (fun _ => 0) (fun _ => 1) ![1, 0, 0] ![2, 1, 1] 0 ?_ ?_ ?_ ?_ ?_ x hx y hy).2.2.2
  · intro x hx i
    simp only [List.mem_cons, List.not_mem_nil, or_false] at hx
    rcases hx with rfl | rfl <;> norm_num
  · have h : ∀ x ∈ ([![1, 0, 0], ![2, 1, 1]] : List (Pt 3)), ∀ i : Fin 3, (![1, 0, 0] : Pt 3) i ≤ x i ∧ x i ≤ (![2, 1, 1] : Pt 3) i := by
      decide +kernel
    exact h
  · intro i; norm_num
  · have h : ∀ i : Fin 3, (![1, 0, 0] : Pt 3) i ≤ (![3 / 2, 1 / 2, 1 / 2] : Pt 3) i ∧ (![3 / 2, 1 / 2, 1 / 2] : Pt 3) i ≤ (![2, 1, 1] : Pt 3) i := by
      decide +kernel
    exact h
  · exact le_rfl

/-- the colour columns of the blocks `k, k+1, …`. -/
def colorBlocks {Col : Type} (cols : ℕ → Col) (used : List ℤ) : ℕ → List Block → List (Option Col)
  | _, [] => []
  | k, b :: l => List.replicate (used1 used b) (some (cols k)) ++ colorBlocks cols used (k + 1) l

theorem offsets_getD (used : List ℤ) (bs : List Block) (k : ℕ) (hk : k ≤ bs.length) :
    (offsets used bs).getD k 0 = (((bs.take k).map (used1 used)).sum : ℕ) := by
  have h := C53_offsets (fun _ => 0) 0 1 used bs k hk
  rw [List.getD_eq_getElem?_getD, h, Option.getD_some]
  congr 1
  generalize bs.take k = l
  induction l with
  | nil => rfl
  | cons b l ih =>
    have hV : allV (fun _ => 0) 0 1 used (b :: l) = (if validRegion b.region used then blockV (fun _ => 0) 0 1 b else []) ++ allV (fun _ => 0) 0 1 used l := rfl
    rw [hV, List.length_append, ih, List.map_cons, List.sum_cons]
    congr 1
    unfold used1; split <;> simp [blockV_length]

theorem colorBlocks_length {Col : Type} (cols : ℕ → Col) (used : List ℤ) (k : ℕ) (bs : List Block) :
    (colorBlocks cols used k bs).length = (bs.map (used1 used)).sum := by
  induction bs generalizing k with
  | nil => rfl
  | cons b l ih => simp [colorBlocks, ih]

theorem colorBlocks_snoc {Col : Type} (cols : ℕ → Col) (used : List ℤ) (k : ℕ) (bs : List Block) (b : Block) :
    colorBlocks cols used k (bs ++ [b]) = colorBlocks cols used k bs ++ List.replicate (used1 used b) (some (cols (k + bs.length))) := by
  induction bs generalizing k with
  | nil => simp [colorBlocks]
  | cons c l ih =>
    simp only [List.cons_append, colorBlocks, ih, List.append_assoc, List.length_cons]
    rw [show k + 1 + l.length = k + (l.length + 1) by omega]

/-- **C53** every vertex of the stitched mesh gets the colour of the cell it belongs to: the columns are, cell by cell, the
cell's colour repeated once per vertex, and none is left unset. -/
theorem C53_colors {Col : Type} (cols : ℕ → Col) (used : List ℤ) (bs : List Block) :
    colors cols used bs = colorBlocks cols used 0 bs := by
  have hlast : ((offsets used bs).getLastD 0).toNat = (bs.map (used1 used)).sum := by
    have hl : (offsets used bs).length = bs.length + 1 := by
      have : ∀ (off : ℤ) (l : List Block), (offsetsLoop used off l).length = l.length := by
        intro off l; induction l generalizing off with
        | nil => rfl
        | cons b l ih => simp [offsetsLoop, ih]
      simp [offsets, this]
    have h1 : (offsets used bs).getLastD 0 = (offsets used bs).getD bs.length 0 := by
      rw [List.getLastD_eq_getLast?, List.getLast?_eq_getElem?, hl, List.getD_eq_getElem?_getD]; rfl
    rw [h1, offsets_getD used bs _ le_rfl, List.take_length, Int.toNat_natCast]
  have key : ∀ n, n ≤ bs.length → (List.range n).foldl (fun C i =>
      let off := ((offsets used bs).getD i 0).toNat
      let size := ((offsets used bs).getD (i + 1) 0 - (offsets used bs).getD i 0).toNat
      if 0 < size then (C.take off ++ List.replicate size (some (cols i))) ++ C.drop (off + size) else C)
      (List.replicate ((bs.map (used1 used)).sum) none) =
      colorBlocks cols used 0 (bs.take n) ++ List.replicate (((bs.drop n).map (used1 used)).sum) none := by
    intro n
    induction n with
    | zero => intro _; simp [colorBlocks]
    | succ n ih =>
      intro hn
      rw [List.range_succ, List.foldl_append, ih (by omega), List.foldl_cons, List.foldl_nil]
      have hb : n < bs.length := by omega
      have e1 := offsets_getD used bs n (by omega)
      have e2 := offsets_getD used bs (n + 1) hn
      have ht : bs.take (n + 1) = bs.take n ++ [bs[n]] := by rw [List.take_succ_eq_append_getElem hb]
      have hd : bs.drop n = bs[n] :: bs.drop (n + 1) := List.drop_eq_getElem_cons hb
      have e3 : ((bs.take (n + 1)).map (used1 used)).sum = ((bs.take n).map (used1 used)).sum + used1 used bs[n] := by
        rw [ht, List.map_append, List.sum_append, List.map_singleton, List.sum_singleton]
      have hsize : ((offsets used bs).getD (n + 1) 0 - (offsets used bs).getD n 0).toNat = used1 used bs[n] := by
        rw [e1, e2, e3]; push_cast; omega
      have hoff : ((offsets used bs).getD n 0).toNat = (colorBlocks cols used 0 (bs.take n)).length := by
        rw [e1, colorBlocks_length, Int.toNat_natCast]
      have hlen : (bs.take n).length = n := by simp; omega
      simp only [hsize, hoff]
      rw [ht, colorBlocks_snoc, hd, List.map_cons, List.sum_cons, List.replicate_add, hlen, Nat.zero_add]
      by_cases h0 : 0 < used1 used bs[n]
      · rw [if_pos h0, List.take_left', List.drop_append, List.drop_eq_nil_of_le (by omega), Nat.add_sub_cancel_left, List.nil_append,
          List.drop_left']
        · simp
        · rfl
      · have : used1 used bs[n] = 0 := by omega
        rw [if_neg h0, this]; simp
  unfold colors
  simp only [hlast]
  rw [key bs.length le_rfl]
  simp

/-- a mesh of two tetrahedra and a triangle. -/
def exBlocks : List Block :=
  [⟨[fun _ => 0, fun _ => 1, fun _ => 2], [fun i => i.1], 0, fun _ => 0, fun _ => 1⟩,
   ⟨[fun _ => 5], [], 1, fun _ => 0, fun _ => 1⟩,
   ⟨[fun _ => 7, fun _ => 8, fun _ => 9], [fun i => 2 - i.1, fun i => i.1], 0, fun _ => 0, fun _ => 1⟩]

example : offsets [] exBlocks = [0, 3, 4, 7] ∧ offsets [0] exBlocks = [0, 3, 3, 6] ∧ offsets [1] exBlocks = [0, 0, 1, 1] := by
  decide +kernel
example : allF [0] exBlocks = [![0, 1, 2], ![5, 4, 3], ![3, 4, 5]] := by decide +kernel
example : ∀ b ∈ exBlocks, b.Ok := by
  intro b hb f hf i
  simp only [exBlocks, List.mem_cons, List.not_mem_nil, or_false] at hb
  rcases hb with rfl | rfl | rfl
  · simp at hf; subst hf; simp
  · simp at hf
  · simp at hf; rcases hf with rfl | rfl <;> simp <;> omega

end Explode
end Mandoline
