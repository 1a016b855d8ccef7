import Verif.Life.Constructor
import Mathlib.Logic.Function.Basic
import Mathlib.Tactic.Linarith

/-!
# C130: moving `DeformingGeometryConstructor` objects (src/construction/construct.cpp:35-49, 99-107; construct.hpp:15-18)

A constructor object owns its generator through the raw pointer `_ccg`. The model has a heap of generators and a set of live
objects, each a pointer (or null) and the `_dirty` flag. Copying is impossible (the class declares only the move operations).
-/
namespace Mandoline
namespace Life
variable {Vt Gv Fc Gr : Type}

/-- the two data members of `DeformingGeometryConstructor` (construct.hpp:31-32): `_ccg` (an address, `none` is `nullptr`) and
`_dirty`. -/
structure Handle where
  ptr : Option ℕ
  dirty : Bool

/-- the program's objects by name, and the generators on the heap by address; `next` is an address not used so far. The `dirty`
field of a stored generator has no meaning: the flag belongs to the handle. -/
structure World (Gv Fc Gr : Type) where
  objs : ℕ → Option Handle
  heap : ℕ → Option (DGC Gv Fc Gr)
  next : ℕ

/-- what can go wrong: a call through a null pointer, through a pointer to a destroyed generator, destroying a generator twice, or
naming an object that does not exist (or, for a constructor, already exists: no C++ program does this). -/
inductive Fault where
  | nullDeref | useAfterFree | doubleFree | noObject
deriving DecidableEq

/-- what a program does with constructor objects. -/
inductive MOp (Vt Fc Gr : Type) where
  | make (n : ℕ) (V : List Vt) (F : Fc) (g : Gr) (level : ℤ) (thr : Option ℚ)
  | moveNew (dst src : ℕ)
  | moveTo (dst src : ℕ)
  | destroy (n : ℕ)
  | call (n : ℕ) (op : Op Vt Fc Gr)

/-- an empty program state. -/
def World.empty : World Gv Fc Gr := ⟨fun _ => none, fun _ => none, 0⟩

/-- a call that reads no member through `_ccg` (construct.cpp:69-77): `bake()` of an object that is not dirty. -/
def Op.touchesNothing (dirty : Bool) : Op Vt Fc Gr → Bool
  | .bake => !dirty
  | _ => false

/-- one action: the constructor (construct.cpp:35-46), the move constructor (construct.cpp:99), the move assignment
(construct.cpp:100-106: pointer and flag are taken over, the source's pointer is cleared *after* the target's was set, nothing is
deleted), the destructor (construct.cpp:47-49, `delete` of a null pointer does nothing), and a public call. -/
def mstep (toGrid : Gr → Option ℚ → Vt → Gv) (w : World Gv Fc Gr) : MOp Vt Fc Gr → Except Fault (World Gv Fc Gr)
  | .make n V F g level thr =>
    if (w.objs n).isSome then .error .noObject else
    let s := ctor toGrid V F g level thr
    .ok ⟨Function.update w.objs n (some ⟨some w.next, s.dirty⟩), Function.update w.heap w.next (some s), w.next + 1⟩
  | .moveNew d s =>
    if (w.objs d).isSome then .error .noObject else
    match w.objs s with
    | none => .error .noObject
    | some h => .ok { w with objs := Function.update (Function.update w.objs d (some h)) s (some { h with ptr := none }) }
  | .moveTo d s =>
    if (w.objs d).isNone then .error .noObject else
    match w.objs s with
    | none => .error .noObject
    | some h => .ok { w with objs := Function.update (Function.update w.objs d (some h)) s (some { h with ptr := none }) }
  | .destroy n =>
    match w.objs n with
    | none => .error .noObject
    | some ⟨none, _⟩ => .ok { w with objs := Function.update w.objs n none }
    | some ⟨some a, _⟩ =>
      match w.heap a with
      | none => .error .doubleFree
      | some _ => .ok { w with objs := Function.update w.objs n none, heap := Function.update w.heap a none }
  | .call n op =>
    match w.objs n with
    | none => .error .noObject
    | some h =>
      if op.touchesNothing h.dirty then .ok w else
      match h.ptr with
      | none => .error .nullDeref
      | some a =>
        match w.heap a with
        | none => .error .useAfterFree
        | some c =>
          let c' := step toGrid { c with dirty := h.dirty } op
          .ok { w with objs := Function.update w.objs n (some ⟨some a, c'.dirty⟩), heap := Function.update w.heap a (some c') }

/-- a whole program, stopping at the first fault. -/
def mrun (toGrid : Gr → Option ℚ → Vt → Gv) : World Gv Fc Gr → List (MOp Vt Fc Gr) → Except Fault (World Gv Fc Gr)
  | w, [] => .ok w
  | w, x :: h =>
    match mstep toGrid w x with
    | .error e => .error e
    | .ok w' => mrun toGrid w' h

/-! ## specification: objects with value semantics, no heap -/

/-- an object as its user sees it: the dirty flag and the state, if it has one (a moved-from object has none). -/
abbrev Val (Gv Fc Gr : Type) := Bool × Option (DGC Gv Fc Gr)

/-- one action on values: moving hands the value over and leaves the source empty; moving an object onto itself empties it. -/
def vstep (toGrid : Gr → Option ℚ → Vt → Gv) (v : ℕ → Option (Val Gv Fc Gr)) : MOp Vt Fc Gr → Except Fault (ℕ → Option (Val Gv Fc Gr))
  | .make n V F g level thr =>
    if (v n).isSome then .error .noObject else .ok (Function.update v n (some (false, some (ctor toGrid V F g level thr))))
  | .moveNew d s =>
    if (v d).isSome then .error .noObject else
    match v s with
    | none => .error .noObject
    | some x => .ok fun n => if n = s then some (x.1, none) else if n = d then some x else v n
  | .moveTo d s =>
    if (v d).isNone then .error .noObject else
    match v s with
    | none => .error .noObject
    | some x => .ok fun n => if n = s then some (x.1, none) else if n = d then some x else v n
  | .destroy n => if (v n).isNone then .error .noObject else .ok (Function.update v n none)
  | .call n op =>
    match v n with
    | none => .error .noObject
    | some (b, none) => if op.touchesNothing b then .ok v else .error .nullDeref
    | some (_, some c) => .ok (Function.update v n (some ((step toGrid c op).dirty, some (step toGrid c op))))

/-- a whole program on values. -/
def vrun (toGrid : Gr → Option ℚ → Vt → Gv) : (ℕ → Option (Val Gv Fc Gr)) → List (MOp Vt Fc Gr) → Except Fault (ℕ → Option (Val Gv Fc Gr))
  | v, [] => .ok v
  | v, x :: h =>
    match vstep toGrid v x with
    | .error e => .error e
    | .ok v' => vrun toGrid v' h

/-- what an object of the program looks like to its user. -/
def World.val (w : World Gv Fc Gr) (n : ℕ) : Option (Val Gv Fc Gr) :=
  (w.objs n).map fun h => (h.dirty, h.ptr.bind fun a => (w.heap a).map fun c => { c with dirty := h.dirty })

/-- no two live objects point to one generator, and no live object points to a destroyed one. -/
structure Owned (w : World Gv Fc Gr) : Prop where
  live : ∀ n a b, w.objs n = some ⟨some a, b⟩ → ∃ c, w.heap a = some c
  uniq : ∀ n m a b b', w.objs n = some ⟨some a, b⟩ → w.objs m = some ⟨some a, b'⟩ → n = m
  fresh : ∀ a c, w.heap a = some c → a < w.next

theorem owned_empty : Owned (World.empty : World Gv Fc Gr) := by
  constructor <;> intros <;> simp_all [World.empty]

/-- taking over a handle and clearing the source keeps ownership unique. -/
theorem owned_move {w : World Gv Fc Gr} (hw : Owned w) (d s : ℕ) (h : Handle) (hs : w.objs s = some h) :
    Owned { w with objs := Function.update (Function.update w.objs d (some h)) s (some { h with ptr := none }) } := by
  have key : ∀ n a b, (Function.update (Function.update w.objs d (some h)) s (some { h with ptr := none })) n = some ⟨some a, b⟩ →
      n ≠ s ∧ ((n = d ∧ h = ⟨some a, b⟩) ∨ (n ≠ d ∧ w.objs n = some ⟨some a, b⟩)) := by
    intro n a b e
    by_cases h1 : n = s
    · subst h1; simp at e
    · rw [Function.update_of_ne h1] at e
      refine ⟨h1, ?_⟩
      by_cases h2 : n = d
      · subst h2; rw [Function.update_self] at e; exact .inl ⟨rfl, Option.some.inj e⟩
      · rw [Function.update_of_ne h2] at e; exact .inr ⟨h2, e⟩
  refine ⟨?_, ?_, hw.fresh⟩
  · intro n a b e
    obtain ⟨_, ⟨_, e2⟩ | ⟨_, e2⟩⟩ := key n a b e
    · subst e2; exact hw.live s a b hs
    · exact hw.live n a b e2
  · intro n m a b b' e e'
    obtain ⟨n1, ⟨n2, e2⟩ | ⟨n2, e2⟩⟩ := key n a b e <;> obtain ⟨m1, ⟨m2, e2'⟩ | ⟨m2, e2'⟩⟩ := key m a b' e'
    · rw [n2, m2]
    · subst e2; exact absurd (hw.uniq s m a b b' hs e2').symm m1
    · subst e2'; exact absurd (hw.uniq n s a b b' e2 hs) n1
    · exact hw.uniq n m a b b' e2 e2'

theorem val_of_ne {w : World Gv Fc Gr} {n m : ℕ} {o : Option Handle} {a : ℕ} {x : Option (DGC Gv Fc Gr)} {k : ℕ} (hm : m ≠ n)
    (ha : ∀ b, w.objs m ≠ some ⟨some a, b⟩) :
    World.val ⟨Function.update w.objs n o, Function.update w.heap a x, k⟩ m = w.val m := by
  unfold World.val
  simp only
  rw [Function.update_of_ne hm]
  rcases hh : w.objs m with _ | ⟨_ | a', b⟩
  · rfl
  · rfl
  · have : a' ≠ a := by rintro rfl; exact ha b hh
    simp [Function.update_of_ne this]

/-- one action: heap and values stay in step, and ownership stays unique. -/
theorem mstep_sim (toGrid : Gr → Option ℚ → Vt → Gv) (w : World Gv Fc Gr) (hw : Owned w) (x : MOp Vt Fc Gr) :
    (∀ e, mstep toGrid w x = .error e → vstep toGrid w.val x = .error e ∧ e ≠ .useAfterFree ∧ e ≠ .doubleFree) ∧
    (∀ w', mstep toGrid w x = .ok w' → vstep toGrid w.val x = .ok w'.val ∧ Owned w') := by
  have hsome : ∀ n, (w.val n).isSome = (w.objs n).isSome := by intro n; simp [World.val]
  have hnone : ∀ n, (w.val n).isNone = (w.objs n).isNone := by intro n; simp [World.val]
  have move : ∀ d s h, w.objs s = some h →
      World.val { w with objs := Function.update (Function.update w.objs d (some h)) s (some { h with ptr := none }) } =
        fun n => if n = s then some (h.dirty, none) else if n = d then w.val s else w.val n := by
    intro d s h hs
    funext n
    by_cases h1 : n = s
    · subst h1; simp [World.val]
    · by_cases h2 : n = d
      · subst h2; simp [World.val, h1, hs]
      · simp [World.val, h1, h2]
  cases x with
  | make n V F g level thr =>
    simp only [mstep, vstep, hsome]
    by_cases h : (w.objs n).isSome = true
    · rw [if_pos h, if_pos h]
      exact ⟨fun e he => (by cases he; exact ⟨rfl, by decide, by decide⟩), fun w' he => (by cases he)⟩
    · rw [if_neg h, if_neg h]
      refine ⟨fun e he => (by cases he), ?_⟩
      rintro w' he; cases he
      have hfree : ∀ m b, w.objs m ≠ some ⟨some w.next, b⟩ := by
        intro m b e
        obtain ⟨c, hc⟩ := hw.live m _ b e
        exact absurd (hw.fresh _ c hc) (lt_irrefl _)
      refine ⟨?_, ?_, ?_, ?_⟩
      · congr 1
        funext m
        by_cases hm : m = n
        · subst hm; simp [World.val, ctor]
        · rw [Function.update_of_ne hm, val_of_ne hm (hfree m)]
      · intro m a b e
        by_cases hm : m = n
        · subst hm
          simp only [Function.update_self, Option.some.injEq, Handle.mk.injEq] at e
          obtain ⟨rfl, _⟩ := e
          exact ⟨_, Function.update_self ..⟩
        · simp only [Function.update_of_ne hm] at e
          have ha : a ≠ w.next := by rintro rfl; exact hfree m b e
          obtain ⟨c, hc⟩ := hw.live m a b e
          exact ⟨c, by simp only [Function.update_of_ne ha]; exact hc⟩
      · intro m m' a b b' e e'
        by_cases hm : m = n <;> by_cases hm' : m' = n
        · rw [hm, hm']
        · subst hm
          simp only [Function.update_self, Option.some.injEq, Handle.mk.injEq] at e
          simp only [Function.update_of_ne hm'] at e'
          obtain ⟨rfl, _⟩ := e
          exact absurd e' (hfree _ _)
        · subst hm'
          simp only [Function.update_self, Option.some.injEq, Handle.mk.injEq] at e'
          simp only [Function.update_of_ne hm] at e
          obtain ⟨rfl, _⟩ := e'
          exact absurd e (hfree _ _)
        · simp only [Function.update_of_ne hm] at e
          simp only [Function.update_of_ne hm'] at e'
          exact hw.uniq _ _ _ _ _ e e'
      · intro a c e
        show a < w.next + 1
        by_cases ha : a = w.next
        · omega
        · simp only [Function.update_of_ne ha] at e
          have := hw.fresh a c e; omega
  | moveNew d s =>
    simp only [mstep, vstep, hsome]
    by_cases h : (w.objs d).isSome = true
    · rw [if_pos h, if_pos h]
      exact ⟨fun e he => (by cases he; exact ⟨rfl, by decide, by decide⟩), fun w' he => (by cases he)⟩
    · rw [if_neg h, if_neg h]
      rcases hs : w.objs s with _ | hd
      · have : w.val s = none := by simp [World.val, hs]
        rw [this]
        exact ⟨fun e he => (by cases he; exact ⟨rfl, by decide, by decide⟩), fun w' he => (by cases he)⟩
      · refine ⟨fun e he => (by cases he), ?_⟩
        rintro w' he; cases he
        rw [move d s hd hs]
        refine ⟨?_, owned_move hw d s hd hs⟩
        have : w.val s = some (hd.dirty, hd.ptr.bind fun a => (w.heap a).map fun c => { c with dirty := hd.dirty }) := by
          simp [World.val, hs]
        rw [this]
  | moveTo d s =>
    simp only [mstep, vstep, hnone]
    by_cases h : (w.objs d).isNone = true
    · rw [if_pos h, if_pos h]
      exact ⟨fun e he => (by cases he; exact ⟨rfl, by decide, by decide⟩), fun w' he => (by cases he)⟩
    · rw [if_neg h, if_neg h]
      rcases hs : w.objs s with _ | hd
      · have : w.val s = none := by simp [World.val, hs]
        rw [this]
        exact ⟨fun e he => (by cases he; exact ⟨rfl, by decide, by decide⟩), fun w' he => (by cases he)⟩
      · refine ⟨fun e he => (by cases he), ?_⟩
        rintro w' he; cases he
        rw [move d s hd hs]
        refine ⟨?_, owned_move hw d s hd hs⟩
        have : w.val s = some (hd.dirty, hd.ptr.bind fun a => (w.heap a).map fun c => { c with dirty := hd.dirty }) := by
          simp [World.val, hs]
        rw [this]
  | destroy n =>
    simp only [mstep, vstep, hnone]
    rcases hn : w.objs n with _ | ⟨_ | a, b⟩
    · exact ⟨fun e he => (by cases he; exact ⟨by simp, by decide, by decide⟩), fun w' he => (by cases he)⟩
    · refine ⟨fun e he => (by cases he), ?_⟩
      rintro w' he; cases he
      refine ⟨?_, ?_, ?_, hw.fresh⟩
      · simp only [Option.isNone_some, Bool.false_eq_true, if_false]
        congr 1; funext m
        by_cases hm : m = n
        · subst hm; simp [World.val]
        · simp [World.val, Function.update_of_ne hm]
      · intro m a b e
        by_cases hm : m = n
        · subst hm; simp at e
        · simp only [Function.update_of_ne hm] at e; exact hw.live m a b e
      · intro m m' a b b' e e'
        by_cases hm : m = n
        · subst hm; simp at e
        · by_cases hm' : m' = n
          · subst hm'; simp at e'
          · simp only [Function.update_of_ne hm] at e
            simp only [Function.update_of_ne hm'] at e'
            exact hw.uniq m m' a b b' e e'
    · obtain ⟨c, hc⟩ := hw.live n a b hn
      simp only [hc]
      refine ⟨fun e he => (by cases he), ?_⟩
      rintro w' he; cases he
      have hother : ∀ m, m ≠ n → ∀ b', w.objs m ≠ some ⟨some a, b'⟩ := fun m hm b' e => hm (hw.uniq m n a b' b e hn)
      refine ⟨?_, ?_, ?_, ?_⟩
      · simp only [Option.isNone_some, Bool.false_eq_true, if_false]
        congr 1; funext m
        by_cases hm : m = n
        · subst hm; simp [World.val]
        · rw [Function.update_of_ne hm, val_of_ne hm (hother m hm)]
      · intro m a' b' e
        by_cases hm : m = n
        · subst hm; simp at e
        · simp only [Function.update_of_ne hm] at e
          have ha : a' ≠ a := by rintro rfl; exact hother m hm b' e
          obtain ⟨c', hc'⟩ := hw.live m a' b' e
          exact ⟨c', by simp only [Function.update_of_ne ha]; exact hc'⟩
      · intro m m' a' b1 b2 e e'
        by_cases hm : m = n
        · subst hm; simp at e
        · by_cases hm' : m' = n
          · subst hm'; simp at e'
          · simp only [Function.update_of_ne hm] at e
            simp only [Function.update_of_ne hm'] at e'
            exact hw.uniq m m' a' b1 b2 e e'
      · intro a' c' e
        by_cases ha : a' = a
        · subst ha; simp at e
        · simp only [Function.update_of_ne ha] at e; exact hw.fresh a' c' e
  | call n op =>
    simp only [mstep, vstep]
    rcases hn : w.objs n with _ | ⟨p, b⟩
    · have : w.val n = none := by simp [World.val, hn]
      rw [this]
      exact ⟨fun e he => (by cases he; exact ⟨rfl, by decide, by decide⟩), fun w' he => (by cases he)⟩
    · cases p with
      | none =>
        have : w.val n = some (b, none) := by simp [World.val, hn]
        rw [this]
        simp only
        by_cases ht : op.touchesNothing b = true
        · rw [if_pos ht, if_pos ht]
          exact ⟨fun e he => (by cases he), fun w' he => by cases he; exact ⟨rfl, hw⟩⟩
        · rw [if_neg ht, if_neg ht]
          exact ⟨fun e he => (by cases he; exact ⟨rfl, by decide, by decide⟩), fun w' he => (by cases he)⟩
      | some a =>
        obtain ⟨c, hc⟩ := hw.live n a b hn
        have hv : w.val n = some (b, some { c with dirty := b }) := by simp [World.val, hn, hc]
        rw [hv]
        simp only [hc]
        by_cases ht : op.touchesNothing b = true
        · rw [if_pos ht]
          refine ⟨fun e he => (by cases he), ?_⟩
          rintro w' he; cases he
          refine ⟨?_, hw⟩
          have hop : step toGrid { c with dirty := b } op = { c with dirty := b } := by
            cases op <;> simp [Op.touchesNothing] at ht
            subst ht; simp [step]
          rw [hop]
          congr 1
          funext m
          by_cases hm : m = n
          · subst hm; rw [Function.update_self, hv]
          · rw [Function.update_of_ne hm]
        · rw [if_neg ht]
          refine ⟨fun e he => (by cases he), ?_⟩
          rintro w' he; cases he
          have hother : ∀ m, m ≠ n → ∀ b', w.objs m ≠ some ⟨some a, b'⟩ := fun m hm b' e => hm (hw.uniq m n a b' b e hn)
          have key : ∀ m a' b', Function.update w.objs n (some ⟨some a, (step toGrid { c with dirty := b } op).dirty⟩) m = some ⟨some a', b'⟩ →
              (m = n ∧ a' = a) ∨ (m ≠ n ∧ a' ≠ a ∧ w.objs m = some ⟨some a', b'⟩) := by
            intro m a' b' e
            by_cases hm : m = n
            · subst hm
              simp only [Function.update_self, Option.some.injEq, Handle.mk.injEq] at e
              exact .inl ⟨rfl, e.1.symm⟩
            · rw [Function.update_of_ne hm] at e
              exact .inr ⟨hm, by rintro rfl; exact hother m hm b' e, e⟩
          refine ⟨?_, ?_, ?_, ?_⟩
          · congr 1; funext m
            by_cases hm : m = n
            · subst hm; simp [World.val]
            · rw [Function.update_of_ne hm, val_of_ne hm (hother m hm)]
          · intro m a' b' e
            rcases key m a' b' e with ⟨_, rfl⟩ | ⟨_, ha, e⟩
            · exact ⟨_, Function.update_self ..⟩
            · obtain ⟨c', hc'⟩ := hw.live m a' b' e
              exact ⟨c', by simp only [Function.update_of_ne ha]; exact hc'⟩
          · intro m m' a' b1 b2 e e'
            rcases key m a' b1 e with ⟨h1, h2⟩ | ⟨_, h2, e⟩ <;> rcases key m' a' b2 e' with ⟨h1', h2'⟩ | ⟨_, h2', e'⟩
            · rw [h1, h1']
            · exact absurd h2 h2'
            · exact absurd h2' h2
            · exact hw.uniq m m' a' b1 b2 e e'
          · intro a' c' e
            by_cases ha : a' = a
            · subst ha; exact hw.fresh a' c hc
            · simp only [Function.update_of_ne ha] at e; exact hw.fresh a' c' e

theorem mrun_sim (toGrid : Gr → Option ℚ → Vt → Gv) (h : List (MOp Vt Fc Gr)) (w : World Gv Fc Gr) (hw : Owned w) :
    (∀ e, mrun toGrid w h = .error e → vrun toGrid w.val h = .error e ∧ e ≠ .useAfterFree ∧ e ≠ .doubleFree) ∧
    (∀ w', mrun toGrid w h = .ok w' → vrun toGrid w.val h = .ok w'.val ∧ Owned w') := by
  induction h generalizing w with
  | nil => exact ⟨fun e he => (by cases he), fun w' he => by cases he; exact ⟨rfl, hw⟩⟩
  | cons x h ih =>
    obtain ⟨s1, s2⟩ := mstep_sim toGrid w hw x
    simp only [mrun, vrun]
    rcases hx : mstep toGrid w x with e | w1
    · rw [(s1 e hx).1]
      exact ⟨fun e' he => (by cases he; exact ⟨rfl, (s1 e hx).2⟩), fun w' he => (by cases he)⟩
    · rw [(s2 w1 hx).1]
      exact ih w1 (s2 w1 hx).2

theorem val_empty : (World.empty : World Gv Fc Gr).val = fun _ => none := rfl

/-- **C130.** Memory safety: no program that constructs, moves, assigns, uses and destroys constructor objects ever uses a destroyed
generator or destroys one twice, and no two live objects ever share one. The only possible failure (besides naming an object that
does not exist) is a call on a moved-from object. -/
theorem C130_memory_safe (toGrid : Gr → Option ℚ → Vt → Gv) (h : List (MOp Vt Fc Gr)) :
    (∀ e, mrun toGrid World.empty h = .error e → e = .nullDeref ∨ e = .noObject) ∧
    (∀ w, mrun toGrid World.empty h = .ok w → ∀ n m a b b', w.objs n = some ⟨some a, b⟩ → w.objs m = some ⟨some a, b'⟩ → n = m) := by
  obtain ⟨h1, h2⟩ := mrun_sim toGrid h World.empty owned_empty
  refine ⟨fun e he => ?_, fun w hw => (h2 w hw).2.uniq⟩
  obtain ⟨_, a, b⟩ := h1 e he
  cases e <;> simp_all

/-- **C130.** Moves have value semantics: for every program, what each object looks like to its user, and where the program fails,
is what it would be if every object held its state by value, moving handed the state over, and left the source empty. -/
theorem C130_value_semantics (toGrid : Gr → Option ℚ → Vt → Gv) (h : List (MOp Vt Fc Gr)) :
    vrun toGrid (fun _ => none) h =
      match mrun toGrid (World.empty : World Gv Fc Gr) h with
      | .error e => .error e
      | .ok w => .ok w.val := by
  obtain ⟨h1, h2⟩ := mrun_sim toGrid h World.empty owned_empty
  rw [← val_empty]
  rcases hr : mrun toGrid (World.empty : World Gv Fc Gr) h with e | w
  · exact (h1 e hr).1
  · exact (h2 w hr).1

/-- calls on one object, on values. -/
theorem vrun_calls (toGrid : Gr → Option ℚ → Vt → Gv) (n : ℕ) (l : List (Op Vt Fc Gr)) (v : ℕ → Option (Val Gv Fc Gr)) (b : Bool)
    (c : DGC Gv Fc Gr) (hv : v n = some (b, some c)) (hb : b = c.dirty) (rest : List (MOp Vt Fc Gr)) :
    vrun toGrid v (l.map (.call n) ++ rest) =
      vrun toGrid (Function.update v n (some ((run toGrid c l).dirty, some (run toGrid c l)))) rest := by
  induction l generalizing v b c with
  | nil =>
    simp only [List.map_nil, List.nil_append, run, List.foldl_nil]
    rw [← hb, ← hv, Function.update_eq_self]
  | cons op l ih =>
    simp only [List.map_cons, List.cons_append, vrun, vstep, hv]
    rw [ih _ _ _ (Function.update_self ..) rfl, Function.update_idem]
    rfl

/-- **C130.** An object that is created, used, moved into a new object, and used further there, ends in the state one object
receiving all the calls would have; the moved-from object is empty. -/
theorem C130_move_preserves (toGrid : Gr → Option ℚ → Vt → Gv) (V : List Vt) (F : Fc) (g : Gr) (level : ℤ) (thr : Option ℚ)
    (a b : ℕ) (hab : a ≠ b) (l₁ l₂ : List (Op Vt Fc Gr)) :
    ∃ w : World Gv Fc Gr, mrun toGrid World.empty
        (.make a V F g level thr :: (l₁.map (.call a) ++ .moveNew b a :: (l₂.map (.call b) ++ []))) = .ok w ∧
      w.val b = some ((run toGrid (ctor toGrid V F g level thr) (l₁ ++ l₂)).dirty,
        some (run toGrid (ctor toGrid V F g level thr) (l₁ ++ l₂))) ∧
      ∃ d, w.val a = some (d, none) := by
  have hv := C130_value_semantics toGrid (.make a V F g level thr :: (l₁.map (.call a) ++ .moveNew b a :: (l₂.map (.call b) ++ [])))
    (Gv := Gv)
  simp only [vrun, vstep, Option.isSome_none, Bool.false_eq_true, if_false] at hv
  rw [vrun_calls toGrid a l₁ _ false (ctor toGrid V F g level thr) (Function.update_self ..) rfl] at hv
  simp only [vrun, vstep, Function.update_self, Function.update_of_ne hab.symm, Option.isSome_none, Bool.false_eq_true, if_false] at hv
  rw [vrun_calls toGrid b l₂ _ (run toGrid (ctor toGrid V F g level thr) l₁).dirty (run toGrid (ctor toGrid V F g level thr) l₁)
    (by simp [hab.symm]) rfl] at hv
  simp only [vrun] at hv
  rcases hr : mrun toGrid (World.empty : World Gv Fc Gr)
    (.make a V F g level thr :: (l₁.map (.call a) ++ .moveNew b a :: (l₂.map (.call b) ++ []))) with e | w
  · rw [hr] at hv; cases hv
  · rw [hr] at hv
    have hw := Except.ok.inj hv
    refine ⟨w, hr, ?_, (run toGrid (ctor toGrid V F g level thr) l₁).dirty, ?_⟩
    · rw [← hw, Function.update_self]
      simp [run, List.foldl_append]
    · rw [← hw, Function.update_of_ne hab]
      simp

/-! ## leaks -/

/-- a generator nobody can reach any more: it is on the heap, and no live object points to it. -/
def Leaked (w : World Gv Fc Gr) (a : ℕ) : Prop := (∃ c, w.heap a = some c) ∧ ∀ n b, w.objs n ≠ some ⟨some a, b⟩

/-- the action drops the last pointer to generator `a`: a move assignment onto an object that holds it. -/
def Overwrites (w : World Gv Fc Gr) (a : ℕ) : MOp Vt Fc Gr → Prop
  | .moveTo d _ => ∃ b, w.objs d = some ⟨some a, b⟩
  | _ => False

theorem leaked_move {w : World Gv Fc Gr} (hw : Owned w) (d s : ℕ) (h : Handle) (hs : w.objs s = some h) (a : ℕ) :
    Leaked { w with objs := Function.update (Function.update w.objs d (some h)) s (some { h with ptr := none }) } a ↔
      Leaked w a ∨ ∃ b, w.objs d = some ⟨some a, b⟩ := by
  have get : ∀ n, (Function.update (Function.update w.objs d (some h)) s (some { h with ptr := none })) n =
      if n = s then some { h with ptr := none } else if n = d then some h else w.objs n := by
    intro n
    by_cases h1 : n = s
    · subst h1; simp
    · by_cases h2 : n = d
      · subst h2; simp [h1]
      · simp [h1, h2]
  unfold Leaked
  simp only [get]
  constructor
  · rintro ⟨hc, hn⟩
    by_cases hd : ∃ b, w.objs d = some ⟨some a, b⟩
    · exact .inr hd
    · refine .inl ⟨hc, fun n b e => ?_⟩
      by_cases h1 : n = s
      · subst h1
        rw [hs] at e
        have e := Option.some.inj e
        by_cases h2 : d = n
        · subst h2; exact hd ⟨b, by rw [hs, e]⟩
        · apply hn d b
          rw [if_neg h2, if_pos rfl, e]
      · by_cases h2 : n = d
        · subst h2; exact hd ⟨b, e⟩
        · apply hn n b
          rw [if_neg h1, if_neg h2]; exact e
  · rintro (⟨hc, hn⟩ | ⟨b, hd⟩)
    · refine ⟨hc, fun n b e => ?_⟩
      by_cases h1 : n = s
      · rw [if_pos h1] at e; simp at e
      · rw [if_neg h1] at e
        by_cases h2 : n = d
        · rw [if_pos h2] at e
          exact hn s b (by rw [hs]; exact e)
        · rw [if_neg h2] at e; exact hn n b e
    · refine ⟨hw.live d a b hd, fun n b' e => ?_⟩
      by_cases h1 : n = s
      · rw [if_pos h1] at e; simp at e
      · rw [if_neg h1] at e
        by_cases h2 : n = d
        · rw [if_pos h2] at e
          have : w.objs s = some ⟨some a, b'⟩ := by rw [hs]; exact e
          have hsd := hw.uniq s d a _ _ this hd
          exact h1 (h2.trans hsd.symm)
        · rw [if_neg h2] at e
          exact h2 (hw.uniq n d a _ _ e hd)

/-- one action: what is leaked afterwards. -/
theorem leaked_step (toGrid : Gr → Option ℚ → Vt → Gv) (w w' : World Gv Fc Gr) (hw : Owned w) (x : MOp Vt Fc Gr)
    (h : mstep toGrid w x = .ok w') (a : ℕ) : Leaked w' a ↔ Leaked w a ∨ Overwrites w a x := by
  cases x with
  | make n V F g level thr =>
    simp only [mstep] at h
    split at h
    · cases h
    rename_i hn
    cases h
    have hn' : w.objs n = none := by simpa using hn
    have hfree : ∀ m b, w.objs m ≠ some ⟨some w.next, b⟩ := by
      intro m b e
      obtain ⟨c, hc⟩ := hw.live m _ b e
      exact absurd (hw.fresh _ c hc) (lt_irrefl _)
    simp only [Leaked, Overwrites, or_false]
    by_cases ha : a = w.next
    · subst ha
      constructor
      · rintro ⟨_, h2⟩; exact absurd (Function.update_self n _ w.objs) (h2 n _)
      · rintro ⟨⟨c, hc⟩, _⟩; exact absurd (hw.fresh _ c hc) (lt_irrefl _)
    · rw [Function.update_of_ne ha]
      refine and_congr Iff.rfl ⟨fun h2 m b e => ?_, fun h2 m b e => ?_⟩
      · have hm : m ≠ n := by rintro rfl; rw [hn'] at e; cases e
        exact h2 m b (by rw [Function.update_of_ne hm]; exact e)
      · by_cases hm : m = n
        · subst hm
          simp only [Function.update_self, Option.some.injEq, Handle.mk.injEq] at e
          exact ha e.1.symm
        · rw [Function.update_of_ne hm] at e; exact h2 m b e
  | moveNew d s =>
    simp only [mstep] at h
    split at h
    · cases h
    rename_i hd
    split at h
    · cases h
    rename_i hh hs
    cases h
    rw [leaked_move hw d s hh hs a]
    have hd' : w.objs d = none := by simpa using hd
    simp [Overwrites, hd']
  | moveTo d s =>
    simp only [mstep] at h
    split at h
    · cases h
    split at h
    · cases h
    rename_i hh hs
    cases h
    exact leaked_move hw d s hh hs a
  | destroy n =>
    simp only [mstep] at h
    simp only [Overwrites, or_false]
    split at h
    · cases h
    · rename_i b hn
      cases h
      unfold Leaked
      refine and_congr Iff.rfl ⟨fun h2 m b' e => ?_, fun h2 m b' e => ?_⟩
      · have hm : m ≠ n := by rintro rfl; rw [hn] at e; simp at e
        exact h2 m b' (by simp only [Function.update_of_ne hm]; exact e)
      · by_cases hm : m = n
        · subst hm; simp at e
        · simp only [Function.update_of_ne hm] at e; exact h2 m b' e
    · rename_i a' b hn
      split at h
      · cases h
      · rename_i c hc
        cases h
        unfold Leaked
        by_cases ha : a = a'
        · subst ha
          constructor
          · rintro ⟨⟨c', h1⟩, _⟩; simp at h1
          · rintro ⟨_, h2⟩; exact absurd hn (h2 n b)
        · simp only [Function.update_of_ne ha]
          refine and_congr Iff.rfl ⟨fun h2 m b' e => ?_, fun h2 m b' e => ?_⟩
          · have hm : m ≠ n := by
              rintro rfl; rw [hn] at e
              simp only [Option.some.injEq, Handle.mk.injEq] at e
              exact ha e.1.symm
            exact h2 m b' (by rw [Function.update_of_ne hm]; exact e)
          · by_cases hm : m = n
            · subst hm; simp at e
            · rw [Function.update_of_ne hm] at e; exact h2 m b' e
  | call n op =>
    simp only [mstep] at h
    simp only [Overwrites, or_false]
    split at h
    · cases h
    rename_i hd hn
    split at h
    · cases h; rfl
    split at h
    · cases h
    rename_i a' hp
    split at h
    · cases h
    rename_i c hc
    cases h
    have hn' : w.objs n = some ⟨some a', hd.dirty⟩ := by rw [hn, ← hp]
    unfold Leaked
    have hobj : ∀ m, (∃ b, Function.update w.objs n (some ⟨some a', (step toGrid { c with dirty := hd.dirty } op).dirty⟩) m = some ⟨some a, b⟩) ↔
        ∃ b, w.objs m = some ⟨some a, b⟩ := by
      intro m
      by_cases hm : m = n
      · subst hm; simp [hn']
      · rw [Function.update_of_ne hm]
    refine and_congr ?_ ?_
    · by_cases ha : a = a'
      · subst ha; simp [hc]
      · simp only [Function.update_of_ne ha]
    · exact ⟨fun h2 m b e => (hobj m).2 ⟨b, e⟩ |>.elim fun b' e' => h2 m b' e',
        fun h2 m b e => (hobj m).1 ⟨b, e⟩ |>.elim fun b' e' => h2 m b' e'⟩

theorem mrun_snoc (toGrid : Gr → Option ℚ → Vt → Gv) (h : List (MOp Vt Fc Gr)) (x : MOp Vt Fc Gr) (w : World Gv Fc Gr) :
    mrun toGrid w (h ++ [x]) = match mrun toGrid w h with
      | .error e => .error e
      | .ok w' => mstep toGrid w' x := by
  induction h generalizing w with
  | nil =>
    simp only [List.nil_append, mrun]
    cases mstep toGrid w x <;> rfl
  | cons y h ih =>
    simp only [List.cons_append, mrun]
    cases mstep toGrid w y with
    | error e => rfl
    | ok w1 => exact ih w1

/-- **C130, defect.** Exactly the move assignments leak: after any program, a generator is on the heap with no object owning it if
and only if at some point an object holding it was the target of a move assignment (which overwrites the pointer without deleting
the generator). Construction, move construction, calls and destruction never leak. -/
theorem C130_leaks (toGrid : Gr → Option ℚ → Vt → Gv) (h : List (MOp Vt Fc Gr)) (w : World Gv Fc Gr)
    (hr : mrun toGrid World.empty h = .ok w) (a : ℕ) :
    Leaked w a ↔ ∃ pre d s post w' b, h = pre ++ .moveTo d s :: post ∧ mrun toGrid World.empty pre = .ok w' ∧
      w'.objs d = some ⟨some a, b⟩ := by
  induction h using List.reverseRecOn generalizing w with
  | nil =>
    cases hr
    constructor
    · rintro ⟨⟨c, hc⟩, _⟩; simp [World.empty] at hc
    · rintro ⟨pre, d, s, post, w', b, e, _⟩; simp at e
  | append_singleton h x ih =>
    rw [mrun_snoc] at hr
    rcases h1 : mrun toGrid (World.empty : World Gv Fc Gr) h with e | w1
    · rw [h1] at hr; cases hr
    · rw [h1] at hr
      rw [leaked_step toGrid w1 w ((mrun_sim toGrid h _ owned_empty).2 w1 h1).2 x hr a, ih w1 h1]
      constructor
      · rintro (⟨pre, d, s, post, w', b, rfl, h2, h3⟩ | h2)
        · exact ⟨pre, d, s, post ++ [x], w', b, by simp, h2, h3⟩
        · cases x with
          | moveTo d s =>
            obtain ⟨b, hb⟩ := h2
            exact ⟨h, d, s, [], w1, b, rfl, h1, hb⟩
          | _ => exact absurd h2 (by simp [Overwrites])
      · rintro ⟨pre, d, s, post, w', b, e, h2, h3⟩
        rcases List.eq_nil_or_concat post with rfl | ⟨post', y, rfl⟩
        · obtain ⟨rfl, e2⟩ := List.append_inj' e rfl
          cases e2
          rw [h1] at h2; cases h2
          exact .inr ⟨b, h3⟩
        · have : h ++ [x] = (pre ++ MOp.moveTo d s :: post') ++ [y] := by rw [e]; simp
          obtain ⟨rfl, _⟩ := List.append_inj' this rfl
          exact .inl ⟨pre, d, s, post', w', b, rfl, h2, h3⟩

/-- **C130, defect.** Moving an object onto itself loses its state: the object is empty afterwards and its generator leaked; the
next call on it (other than `bake` without changes) dereferences a null pointer. -/
theorem C130_self_move_refuted (toGrid : Gr → Option ℚ → Vt → Gv) (V : List Vt) (F : Fc) (g : Gr) (level : ℤ) (thr : Option ℚ)
    (op : Op Vt Fc Gr) (hop : op ≠ .bake) :
    mrun toGrid (World.empty : World Gv Fc Gr) [.make 0 V F g level thr, .moveTo 0 0, .call 0 op] = .error .nullDeref := by
  cases op <;> first | exact absurd rfl hop | simp [mrun, mstep, World.empty, ctor, DGC.genBake, Op.touchesNothing]

/-- two objects, one moved onto the other: the target has the source's state, its old generator is leaked, and both are destroyed
without a double free. -/
example : ∃ w : World ℕ ℕ ℕ,
    mrun (fun _ _ v => v) World.empty [.make 0 [5] 7 9 1 none, .make 1 [6] 8 9 1 none, .moveTo 0 1, .call 0 (.updateVertices [2] none),
      .destroy 0, .destroy 1] = .ok w ∧ Leaked w 0 ∧ ¬ Leaked w 1 := by
  refine ⟨_, rfl, ⟨⟨_, rfl⟩, ?_⟩, ?_⟩
  · intro n b
    by_cases h1 : n = 1
    · subst h1; intro h; cases h
    · by_cases h0 : n = 0
      · subst h0; intro h; cases h
      · intro h
        simp [Function.update, h0, h1, World.empty] at h
  · rintro ⟨⟨c, hc⟩, _⟩; cases hc

end Life
end Mandoline
