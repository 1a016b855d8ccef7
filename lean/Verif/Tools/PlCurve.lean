import Verif.Core.OMap
import Mathlib.Data.Rat.Defs
import Mathlib.Data.List.Induction
import Mathlib.Data.List.Range
import Mathlib.Data.List.Basic
import Mathlib.Tactic.Linarith

/-!
# C54: reading and writing planar curves (src/tools/plcurve_io.cpp)

A file is the list of its lines, a line the list of its tokens after commas have been replaced by blanks
(plcurve_io.cpp:82-93). Tokens are abstract: `stoi`/`stod` are the C++ conversions, `none` is a thrown exception.
-/
namespace Mandoline
namespace PlCurve

/-- recognised one-token lines (plcurve_io.cpp:99-110). -/
inductive Header where
  | vertices | edges | elements | other
deriving DecidableEq

/-- the conversions used by reader and writer; printing a `double` with the stream's default precision rounds it (`rnd`). -/
structure Codec (Tok : Type) where
  stoi : Tok → Option ℤ
  stod : Tok → Option ℚ
  header : Tok → Header
  pInt : ℤ → Tok
  pDbl : ℚ → Tok
  pVertices : Tok
  pEdges : Tok
  rnd : ℚ → ℚ
  stoi_pInt : ∀ n, stoi (pInt n) = some n
  stod_pDbl : ∀ x, stod (pDbl x) = some (rnd x)
  header_vertices : header pVertices = .vertices
  header_edges : header pEdges = .edges

/-- `EdgeEntry`. -/
abbrev Edge4 := ℤ × ℤ × ℤ × ℤ

/-- `State` and the two maps (plcurve_io.cpp:20-23, 40-41). -/
structure St where
  mode : Header
  vertices : List (ℤ × (ℚ × ℚ))
  edges : List (ℤ × Edge4)

/-- outcome of handling a line: normal, an exception caught by the reader, or undefined behaviour. -/
inductive Res (α : Type) where
  | ok (a : α) | throw | ub

/-- the comparison of `std::map<int, …>`. -/
def zlt : ℤ → ℤ → Bool := fun a b => decide (a < b)
theorem zlt_total : StrictTotal zlt := OMap.strictTotal_of_linearOrder

variable {Tok : Type}

/-- `process_vertex` (plcurve_io.cpp:43-54): the size test admits two tokens but three are read. -/
def processVertex (C : Codec Tok) (s : St) (toks : List Tok) : Res St :=
  if toks.length < 2 then .ok s
  else match toks with
    | a :: b :: c :: _ =>
      match C.stoi a, C.stod b, C.stod c with
      | some i, some x, some y => .ok { s with vertices := OMap.assign zlt i (x, y) s.vertices }
      | _, _, _ => .throw
    | _ => .ub

/-- `process_edge` (plcurve_io.cpp:56-77): the size test admits four tokens but five are read. -/
def processEdge (C : Codec Tok) (s : St) (toks : List Tok) : Res St :=
  if toks.length < 4 ∧ toks.length ≠ 3 then .ok s
  else match toks with
    | [a, b, c] =>
      match C.stoi a, C.stoi b, C.stoi c with
      | some i, some x, some y => .ok { s with edges := OMap.assign zlt i (x, y, -1, -1) s.edges }
      | _, _, _ => .throw
    | a :: b :: c :: d :: e :: _ =>
      match C.stoi a, C.stoi b, C.stoi c, C.stoi d, C.stoi e with
      | some i, some x, some y, some l, some r => .ok { s with edges := OMap.assign zlt i (x, y, l, r) s.edges }
      | _, _, _, _, _ => .throw
    | _ => .ub

/-- the `switch` (plcurve_io.cpp:112-126): `case State::Vertices` falls through into `case State::Edges`. `none` is undefined
behaviour. -/
def processTokens (C : Codec Tok) (s : St) (toks : List Tok) : Option St :=
  let edge (s : St) : Option St := match processEdge C s toks with
    | .ok s' => some s'
    | .throw => some s
    | .ub => none
  match s.mode with
  | .vertices => match processVertex C s toks with
    | .ok s' => edge s'
    | .throw => some s
    | .ub => none
  | .edges => edge s
  | _ => some s

/-- the `while` loop (plcurve_io.cpp:79-127). -/
def readLines (C : Codec Tok) : St → List (List Tok) → Option St
  | s, [] => some s
  | s, [] :: l => readLines C s l
  | s, [t] :: l => match C.header t with
    | .vertices => readLines C { s with mode := .vertices } l
    | .edges => readLines C { s with mode := .edges } l
    | .elements => some s
    | .other => readLines C s l
  | s, toks :: l => (processTokens C s toks).bind fun s' => readLines C s' l

/-- key of `std::max_element` of a map (plcurve_io.cpp:130-131); `none` (dereferencing `end`) for the empty map. -/
def maxKey {α : Type} (m : List (ℤ × α)) : Option ℤ := (m.map Prod.fst).max?

/-- fill an array of `n` columns with default `d` from a map (plcurve_io.cpp:132-141); `none` if a key is out of range. -/
def fill {α : Type} (n : ℤ) (d : α) (m : List (ℤ × α)) : Option (List α) :=
  if ∀ e ∈ m, 0 ≤ e.1 ∧ e.1 < n then
    some ((List.range n.toNat).map fun (k : ℕ) => (OMap.find zlt (k : ℤ) m).getD d)
  else none

/-- `read_plcurve` (plcurve_io.cpp:16-143); both arrays get `max_vidx + 1` columns. -/
def read (C : Codec Tok) (file : List (List Tok)) : Option (List (ℚ × ℚ) × List Edge4) := do
  let s ← readLines C ⟨.other, [], []⟩ file
  let mv ← maxKey s.vertices
  let _ ← maxKey s.edges
  let V ← fill (mv + 1) (0, 0) s.vertices
  let E ← fill (mv + 1) (-1, -1, -1, -1) s.edges
  pure (V, E)

/-- the line of one vertex (plcurve_io.cpp:246-249). -/
def vertexLine (C : Codec Tok) (p : (ℚ × ℚ) × ℕ) : List Tok := [C.pInt p.2, C.pDbl p.1.1, C.pDbl p.1.2]

/-- the line of one edge (plcurve_io.cpp:257-264). -/
def edgeLine (C : Codec Tok) (p : List ℤ × ℕ) : List Tok := C.pInt p.2 :: p.1.map C.pInt

/-- `_write_plcurve` (plcurve_io.cpp:241-266): `E` has two or four rows. -/
def write (C : Codec Tok) (V : List (ℚ × ℚ)) (E : List (List ℤ)) : List (List Tok) :=
  [C.pVertices] :: V.zipIdx.map (vertexLine C) ++ ([] :: [C.pEdges] :: E.zipIdx.map (edgeLine C))

/-! ## specification -/

/-- an edge as the reader reports it: missing labels are `-1`. -/
def edge4 : List ℤ → Edge4
  | [a, b] => (a, b, -1, -1)
  | [a, b, c, d] => (a, b, c, d)
  | _ => (-1, -1, -1, -1)

/-- what a vertex line leaves in the edge table: its coordinates read as integers. -/
def spurious (C : Codec Tok) (p : ℚ × ℚ) : Option Edge4 :=
  match C.stoi (C.pDbl p.1), C.stoi (C.pDbl p.2) with
  | some a, some b => some (a, b, -1, -1)
  | _, _ => none

/-! ## proofs -/

/-- a map with the keys `0 .. n-1` given by a partial function. -/
structure Holds {α : Type} (m : List (ℤ × α)) (f : ℤ → Option α) : Prop where
  sorted : OMap.Sorted zlt m
  find : ∀ k, OMap.find zlt k m = f k

theorem Holds.assign {α : Type} {m : List (ℤ × α)} {f : ℤ → Option α} (h : Holds m f) (k : ℤ) (v : α) :
    Holds (OMap.assign zlt k v m) (fun j => if j = k then some v else f j) :=
  ⟨OMap.sorted_alter zlt_total h.sorted, fun j => by
    rw [OMap.assign, OMap.find_alter zlt_total h.sorted, h.find]⟩

theorem Holds.mem {α : Type} {m : List (ℤ × α)} {f : ℤ → Option α} (h : Holds m f) (k : ℤ) (v : α) : (k, v) ∈ m ↔ f k = some v := by
  rw [← h.find, OMap.find_iff zlt_total h.sorted]

theorem Holds.congr {α : Type} {m : List (ℤ × α)} {f g : ℤ → Option α} (h : Holds m f) (hg : ∀ k, f k = g k) : Holds m g :=
  ⟨h.sorted, fun k => (h.find k).trans (hg k)⟩

/-- `l` at an integer position. -/
def at? {α : Type} (l : List α) (k : ℤ) : Option α := if 0 ≤ k then l[k.toNat]? else none

theorem at?_snoc {α : Type} (l : List α) (x : α) (k : ℤ) : at? (l ++ [x]) k = if k = l.length then some x else at? l k := by
  unfold at?
  by_cases h0 : 0 ≤ k
  · simp only [h0, if_true]
    rcases lt_trichotomy k.toNat l.length with h | h | h
    · rw [List.getElem?_append_left h, if_neg (by omega)]
    · rw [h, List.getElem?_concat_length, if_pos (by omega)]
    · rw [if_neg (by omega), List.getElem?_eq_none (by simp; omega), List.getElem?_eq_none (by omega)]
  · rw [if_neg h0, if_neg h0, if_neg (by omega)]

theorem readLines_append (C : Codec Tok) (s : St) (a b : List (List Tok)) (ha : ∀ l ∈ a, 2 ≤ l.length) :
    readLines C s (a ++ b) = (readLines C s a).bind fun s' => readLines C s' b := by
  induction a generalizing s with
  | nil => rfl
  | cons l a ih =>
    have hl := ha l (by simp)
    match l, hl with
    | x :: y :: r, _ =>
      show (processTokens C s (x :: y :: r)).bind _ = ((processTokens C s (x :: y :: r)).bind _).bind _
      cases processTokens C s (x :: y :: r) with
      | none => rfl
      | some s' => exact ih s' fun l hl => ha l (List.mem_cons_of_mem _ hl)

theorem readLines_vertices (C : Codec Tok) (V : List (ℚ × ℚ)) :
    ∃ s, readLines C ⟨.vertices, [], []⟩ (V.zipIdx.map (vertexLine C)) = some s ∧ s.mode = .vertices ∧
      Holds s.vertices (fun k => (at? V k).map fun p => (C.rnd p.1, C.rnd p.2)) ∧
      Holds s.edges (fun k => (at? V k).bind (spurious C)) := by
  induction V using List.reverseRecOn with
  | nil => exact ⟨_, rfl, rfl, ⟨OMap.sorted_nil, fun k => by simp [OMap.find, at?]⟩, ⟨OMap.sorted_nil, fun k => by simp [OMap.find, at?]⟩⟩
  | append_singleton V p ih =>
    obtain ⟨s, h1, h2, h3, h4⟩ := ih
    rw [List.zipIdx_append, List.map_append, readLines_append _ _ _ _ (by
      intro l hl; obtain ⟨q, _, rfl⟩ := List.mem_map.1 hl; simp [vertexLine]), h1]
    simp only [List.zipIdx_singleton, List.map_singleton, Option.bind_some, Nat.zero_add]
    have hv : processVertex C s (vertexLine C (p, V.length)) =
        .ok { s with vertices := OMap.assign zlt V.length (C.rnd p.1, C.rnd p.2) s.vertices } := by
      simp [processVertex, vertexLine, C.stoi_pInt, C.stod_pDbl]
    have hvert := h3.assign V.length (C.rnd p.1, C.rnd p.2)
    have hvert' : Holds (OMap.assign zlt V.length (C.rnd p.1, C.rnd p.2) s.vertices)
        (fun k => (at? (V ++ [p]) k).map fun p => (C.rnd p.1, C.rnd p.2)) :=
      hvert.congr fun k => by rw [at?_snoc]; split <;> simp
    cases hs : spurious C p with
    | some e =>
      refine ⟨⟨.vertices, OMap.assign zlt V.length (C.rnd p.1, C.rnd p.2) s.vertices, OMap.assign zlt V.length e s.edges⟩, ?_, rfl, hvert', ?_⟩
      · have he : ∀ s', processEdge C s' (vertexLine C (p, V.length)) = .ok { s' with edges := OMap.assign zlt V.length e s'.edges } := by
          intro s'
          unfold spurious at hs
          split at hs
          · rename_i a b ha hb
            rw [← Option.some.inj hs]
            simp [processEdge, vertexLine, C.stoi_pInt, ha, hb]
          · exact absurd hs (by simp)
        show (processTokens C s (vertexLine C (p, V.length))).bind _ = _
        simp only [processTokens, h2, hv, he, Option.bind_some]
        rw [readLines]
      · exact (h4.assign V.length e).congr fun k => by rw [at?_snoc]; split <;> simp [hs]
    | none =>
      refine ⟨⟨.vertices, OMap.assign zlt V.length (C.rnd p.1, C.rnd p.2) s.vertices, s.edges⟩, ?_, rfl, hvert', ?_⟩
      · have he : ∀ s', processEdge C s' (vertexLine C (p, V.length)) = .throw := by
          intro s'
          unfold spurious at hs
          split at hs
          · exact absurd hs (by simp)
          · rename_i hx
            simp only [processEdge, vertexLine, C.stoi_pInt]
            rcases ha : C.stoi (C.pDbl p.1) with _ | a
            · simp
            · rcases hb : C.stoi (C.pDbl p.2) with _ | b
              · simp
              · exact absurd hb (hx a b ha)
        show (processTokens C s (vertexLine C (p, V.length))).bind _ = _
        simp only [processTokens, h2, hv, he, Option.bind_some]
        rw [readLines]
      · refine h4.congr fun k => ?_
        rw [at?_snoc]
        split
        · rename_i hk
          rw [hk]; simp [at?, hs]
        · rfl

theorem readLines_edges (C : Codec Tok) (E : List (List ℤ)) (hE : ∀ e ∈ E, e.length = 2 ∨ e.length = 4) (s : St) (f : ℤ → Option Edge4)
    (hm : s.mode = .edges) (hf : Holds s.edges f) :
    ∃ s', readLines C s (E.zipIdx.map (edgeLine C)) = some s' ∧ s'.vertices = s.vertices ∧ s'.mode = .edges ∧
      Holds s'.edges (fun k => match at? E k with | some e => some (edge4 e) | none => f k) := by
  induction E using List.reverseRecOn with
  | nil => exact ⟨s, rfl, rfl, hm, hf.congr fun k => by simp [at?]⟩
  | append_singleton E e ih =>
    obtain ⟨t, h1, h2, h3, h4⟩ := ih fun x hx => hE x (List.mem_append_left _ hx)
    rw [List.zipIdx_append, List.map_append, readLines_append _ _ _ _ (by
      intro l hl; obtain ⟨q, hq, rfl⟩ := List.mem_map.1 hl
      have : q.1 ∈ E := (List.mem_zipIdx' hq).2 ▸ List.getElem_mem _
      rcases hE q.1 (List.mem_append_left _ this) with h | h <;> simp [edgeLine, h]), h1]
    simp only [List.zipIdx_singleton, List.map_singleton, Option.bind_some, Nat.zero_add]
    have he : processEdge C t (edgeLine C (e, E.length)) = .ok { t with edges := OMap.assign zlt E.length (edge4 e) t.edges } := by
      rcases hE e (by simp) with h | h
      · match e, h with
        | [a, b], _ => simp [processEdge, edgeLine, C.stoi_pInt, edge4]
      · match e, h with
        | [a, b, c, d], _ => simp [processEdge, edgeLine, C.stoi_pInt, edge4]
    refine ⟨{ t with edges := OMap.assign zlt E.length (edge4 e) t.edges }, ?_, h2, h3, ?_⟩
    · have hlen : 2 ≤ (edgeLine C (e, E.length)).length := by
        rcases hE e (by simp) with h | h <;> simp [edgeLine, h]
      match hl : edgeLine C (e, E.length), hlen with
      | x :: y :: r, _ =>
        show (processTokens C t (x :: y :: r)).bind _ = _
        rw [← hl]
        simp only [processTokens, h3, he, Option.bind_some]
        rw [readLines]
    · refine (h4.assign E.length (edge4 e)).congr fun k => ?_
      rw [at?_snoc]
      split <;> simp

theorem maxKey_holds {α : Type} {m : List (ℤ × α)} {f : ℤ → Option α} (h : Holds m f) (n : ℤ) (hn : (f n).isSome = true)
    (hle : ∀ k, (f k).isSome = true → k ≤ n) : maxKey m = some n := by
  unfold maxKey
  rw [List.max?_eq_some_iff]
  constructor
  · obtain ⟨v, hv⟩ := Option.isSome_iff_exists.1 hn
    exact List.mem_map.2 ⟨(n, v), (h.mem n v).2 hv, rfl⟩
  · intro k hk
    obtain ⟨⟨k', v⟩, hm, rfl⟩ := List.mem_map.1 hk
    exact hle k' (by rw [(h.mem k' v).1 hm]; rfl)

theorem maxKey_isSome {α : Type} {m : List (ℤ × α)} {f : ℤ → Option α} (h : Holds m f) (n : ℤ) (hn : (f n).isSome = true) :
    ∃ k, maxKey m = some k := by
  obtain ⟨v, hv⟩ := Option.isSome_iff_exists.1 hn
  have hm := (h.mem n v).2 hv
  unfold maxKey
  cases hx : (m.map Prod.fst).max? with
  | some k => exact ⟨k, rfl⟩
  | none => rw [List.max?_eq_none_iff] at hx; rw [List.map_eq_nil_iff.1 hx] at hm; exact absurd hm (by simp)

/-- the state after reading a written file. -/
theorem read_write_state (C : Codec Tok) (V : List (ℚ × ℚ)) (E : List (List ℤ)) (hE : ∀ e ∈ E, e.length = 2 ∨ e.length = 4) :
    ∃ s, readLines C ⟨.other, [], []⟩ (write C V E) = some s ∧
      Holds s.vertices (fun k => (at? V k).map fun p => (C.rnd p.1, C.rnd p.2)) ∧
      Holds s.edges (fun k => match at? E k with | some e => some (edge4 e) | none => (at? V k).bind (spurious C)) := by
  obtain ⟨s, h1, h2, h3, h4⟩ := readLines_vertices C V
  obtain ⟨s', g1, g2, -, g4⟩ := readLines_edges C E hE { s with mode := .edges } _ rfl h4
  refine ⟨s', ?_, ?_, g4⟩
  · have e0 : readLines C ⟨.other, [], []⟩ (write C V E) =
        readLines C ⟨.vertices, [], []⟩ (V.zipIdx.map (vertexLine C) ++ ([] :: [C.pEdges] :: E.zipIdx.map (edgeLine C))) := by
      simp only [write, List.cons_append]
      rw [readLines, C.header_vertices]
    rw [e0, readLines_append _ _ _ _ (by
      intro l hl; obtain ⟨q, _, rfl⟩ := List.mem_map.1 hl; simp [vertexLine]), h1, Option.bind_some, readLines, readLines, C.header_edges]
    exact g1
  · rw [g2]; exact h3

theorem at?_isSome {α : Type} (l : List α) (k : ℤ) : (at? l k).isSome = true ↔ 0 ≤ k ∧ k < l.length := by
  unfold at?
  split
  · rename_i h; simp; omega
  · rename_i h; simp only [Option.isSome_none]; constructor
    · intro h; cases h
    · omega

/-- **C54** exactly what reading a written file gives, for any curve with at least one vertex and one edge: if there are no
more edges than vertices, the vertices rounded to the printed precision, and one edge column *per vertex*: the written
edges, followed by the coordinates of the remaining vertices read as vertex indices; if there are more edges than vertices,
the reader writes outside its array. -/
theorem C54_read_write (C : Codec Tok) (V : List (ℚ × ℚ)) (E : List (List ℤ)) (hE : ∀ e ∈ E, e.length = 2 ∨ e.length = 4)
    (hV0 : V ≠ []) (hE0 : E ≠ []) :
    read C (write C V E) =
      if E.length ≤ V.length then
        some (V.map (fun p => (C.rnd p.1, C.rnd p.2)),
          E.map edge4 ++ (V.drop E.length).map fun p => (spurious C p).getD (-1, -1, -1, -1))
      else none := by
  obtain ⟨s, h1, h2, h3⟩ := read_write_state C V E hE
  have hVp : 0 < V.length := List.length_pos_iff.2 hV0
  have hEp : 0 < E.length := List.length_pos_iff.2 hE0
  have hmv : maxKey s.vertices = some ((V.length : ℤ) - 1) := by
    apply maxKey_holds h2
    · rw [Option.isSome_map, at?_isSome]; omega
    · intro k hk; rw [Option.isSome_map, at?_isSome] at hk; omega
  obtain ⟨me, hme⟩ : ∃ k, maxKey s.edges = some k := by
    apply maxKey_isSome h3 0
    have : (at? E 0).isSome = true := (at?_isSome E 0).2 (by omega)
    obtain ⟨e, he⟩ := Option.isSome_iff_exists.1 this
    simp [he]
  have hfv : fill (((V.length : ℤ) - 1) + 1) (0, 0) s.vertices = some (V.map fun p => (C.rnd p.1, C.rnd p.2)) := by
    unfold fill
    rw [if_pos]
    · congr 1
      apply List.ext_getElem?
      intro i
      rw [show ((V.length : ℤ) - 1 + 1).toNat = V.length by omega]
      simp only [List.getElem?_map]
      rcases Nat.lt_or_ge i V.length with hi | hi
      · rw [List.getElem?_range hi, Option.map_some, h2.find]
        simp [at?, List.getElem?_eq_getElem hi]
      · rw [List.getElem?_eq_none (by simpa using hi), List.getElem?_eq_none hi]; rfl
    · rintro ⟨k, v⟩ he
      have := (h2.mem k v).1 he
      have : ((at? V k).map fun p => (C.rnd p.1, C.rnd p.2)).isSome = true := by rw [this]; rfl
      rw [Option.isSome_map, at?_isSome] at this
      simp only; omega
  have hfe : fill (((V.length : ℤ) - 1) + 1) (-1, -1, -1, -1) s.edges =
      if E.length ≤ V.length then some (E.map edge4 ++ (V.drop E.length).map fun p => (spurious C p).getD (-1, -1, -1, -1)) else none := by
    unfold fill
    by_cases hle : E.length ≤ V.length
    · rw [if_pos hle, if_pos]
      · congr 1
        apply List.ext_getElem?
        intro i
        rw [show ((V.length : ℤ) - 1 + 1).toNat = V.length by omega]
        rcases Nat.lt_or_ge i V.length with hi | hi
        · rw [List.getElem?_map, List.getElem?_range hi, Option.map_some, h3.find]
          rcases Nat.lt_or_ge i E.length with hiE | hiE
          · rw [List.getElem?_append_left (by simpa using hiE)]
            simp [at?, List.getElem?_eq_getElem hiE]
          · rw [List.getElem?_append_right (by simpa using hiE)]
            simp only [List.length_map, List.getElem?_map, List.getElem?_drop]
            rw [show E.length + (i - E.length) = i by omega]
            simp [at?, List.getElem?_eq_none hiE, List.getElem?_eq_getElem hi]
        · rw [List.getElem?_eq_none (by simpa using hi), List.getElem?_eq_none (by simp; omega)]
      · rintro ⟨k, v⟩ he
        have := (h3.mem k v).1 he
        have hk : 0 ≤ k ∧ (k < E.length ∨ k < V.length) := by
          cases hE' : at? E k with
          | some e => have := (at?_isSome E k).1 (by rw [hE']; rfl); omega
          | none =>
            rw [hE'] at this
            have h5 : (at? V k).isSome = true := by
              cases hV' : at? V k with
              | some p => rfl
              | none => rw [hV'] at this; exact absurd this (by simp)
            have := (at?_isSome V k).1 h5; omega
        simp only; omega
    · rw [if_neg hle, if_neg]
      intro hall
      have : (at? E ((E.length : ℤ) - 1)).isSome = true := (at?_isSome E _).2 (by omega)
      obtain ⟨e, he⟩ := Option.isSome_iff_exists.1 this
      have hm := (h3.mem ((E.length : ℤ) - 1) (edge4 e)).2 (by simp [he])
      have := hall _ hm
      simp only at this; omega
  simp only [read, h1, hmv, hme, hfv, hfe, Option.bind_eq_bind, Option.bind_some]
  split <;> rfl

/-- **C54** a curve with as many edges as vertices (closed polygons) survives writing and reading, up to the printed
precision of the coordinates; with four rows, the edges are returned as written. -/
theorem C54_roundtrip_closed (C : Codec Tok) (V : List (ℚ × ℚ)) (E : List Edge4) (hlen : E.length = V.length) (hV0 : V ≠ [])
    (hr : ∀ p ∈ V, C.rnd p.1 = p.1 ∧ C.rnd p.2 = p.2) :
    read C (write C V (E.map fun e => [e.1, e.2.1, e.2.2.1, e.2.2.2])) = some (V, E) := by
  rw [C54_read_write C V _ (by intro e he; obtain ⟨x, _, rfl⟩ := List.mem_map.1 he; right; rfl) hV0 (by
    intro h; rw [List.map_eq_nil_iff] at h; rw [h] at hlen; exact hV0 (List.length_eq_zero_iff.1 hlen.symm))]
  rw [List.length_map, if_pos hlen.le, hlen, List.drop_length, List.map_nil, List.append_nil, List.map_map]
  have h1 : V.map (fun p => (C.rnd p.1, C.rnd p.2)) = V := by
    conv_rhs => rw [← List.map_id V]
    apply List.map_congr_left
    intro p hp
    rw [(hr p hp).1, (hr p hp).2]; rfl
  have h2 : E.map (edge4 ∘ fun e => [e.1, e.2.1, e.2.2.1, e.2.2.2]) = E := by
    conv_rhs => rw [← List.map_id E]
    exact List.map_congr_left fun e _ => rfl
  rw [h1, h2]

/-- **C54, defect** an open curve (fewer edges than vertices) never reads back as written: it comes back with additional
edges made of vertex coordinates (or of `-1`). -/
theorem C54_open_curve_refuted (C : Codec Tok) (V : List (ℚ × ℚ)) (E : List Edge4) (hlen : E.length < V.length) (hE0 : E ≠ []) :
    ∃ V' E', read C (write C V (E.map fun e => [e.1, e.2.1, e.2.2.1, e.2.2.2])) = some (V', E') ∧ E'.length = V.length ∧ E' ≠ E := by
  rw [C54_read_write C V _ (by intro e he; obtain ⟨x, _, rfl⟩ := List.mem_map.1 he; right; rfl)
    (by intro h; rw [h] at hlen; simp at hlen) (by intro h; exact hE0 (List.map_eq_nil_iff.1 h)),
    if_pos (by simpa using hlen.le)]
  refine ⟨_, _, rfl, by simp; omega, ?_⟩
  intro h
  have := congrArg List.length h
  simp at this; omega

/-- **C54, defect** a curve with more edges than vertices makes the reader write out of bounds. -/
theorem C54_many_edges_refuted (C : Codec Tok) (V : List (ℚ × ℚ)) (E : List (List ℤ)) (hE : ∀ e ∈ E, e.length = 2 ∨ e.length = 4)
    (hV0 : V ≠ []) (hlen : V.length < E.length) : read C (write C V E) = none := by
  rw [C54_read_write C V E hE hV0 (by intro h; rw [h] at hlen; simp at hlen), if_neg (by omega)]

/-- tokens of the example: integers, decimals and words. -/
inductive ExTok where
  | int (n : ℤ) | dbl (x : ℚ) | word (w : Header)

/-- a codec that prints exactly; `stoi` of a decimal reads its integer part. -/
def exCodec : Codec ExTok where
  stoi t := match t with | .int n => some n | .dbl x => some (x.num / x.den) | .word _ => none
  stod t := match t with | .int n => some n | .dbl x => some x | .word _ => none
  header t := match t with | .word w => w | _ => .other
  pInt := .int
  pDbl := .dbl
  pVertices := .word .vertices
  pEdges := .word .edges
  rnd := id
  stoi_pInt _ := rfl
  stod_pDbl _ := rfl
  header_vertices := rfl
  header_edges := rfl

example : read exCodec (write exCodec [(1/2, 0), (3, 0), (3, 5)] [[0, 1], [1, 2], [2, 0]]) =
    some ([(1/2, 0), (3, 0), (3, 5)], [(0, 1, -1, -1), (1, 2, -1, -1), (2, 0, -1, -1)]) := by decide +kernel
example : read exCodec (write exCodec [(1/2, 0), (3, 0), (3, 5)] [[0, 1], [1, 2]]) =
    some ([(1/2, 0), (3, 0), (3, 5)], [(0, 1, -1, -1), (1, 2, -1, -1), (3, 5, -1, -1)]) := by decide +kernel

end PlCurve
end Mandoline
