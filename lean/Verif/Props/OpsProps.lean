import Verif.Ops
import Verif.Props.BlockProps

/-!
# C49, C55, C56, C67: entering stitches, adding patterns, stops and frame ejects
-/

namespace Emb
namespace Ops

open Blocks

/-! ## C55 -/

section
variable {τ : Type}

/-- A call that enters a stitch at the end: `add_stitch_absolute`, `add_stitch_relative` or `add_command`. -/
inductive Entry
  | abs (cmd : Int) (x y : ℚ)
  | rel (cmd : Int) (dx dy : ℚ)
  | command (cmd : Int) (x y : ℚ)

/-- The call on a pattern. -/
def Entry.call (b : Build τ) : Entry → Build τ
  | .abs c x y => b.abs c x y
  | .rel c dx dy => b.rel c dx dy
  | .command c x y => Ops.command b c x y

/-- Whether later relative entries refer to this one. -/
def Entry.moves : Entry → Bool
  | .command _ _ _ => false
  | _ => true

/-- The stitch entered by a call when relative entries refer to the position `p`. -/
def Entry.stitch (p : ℚ × ℚ) : Entry → Stitch
  | .abs c x y => ⟨x, y, c⟩
  | .rel c dx dy => ⟨p.1 + dx, p.2 + dy, c⟩
  | .command c x y => ⟨x, y, c⟩

/-- The position of the last stitch of `R` that was entered by `add_stitch_absolute` or `add_stitch_relative`, or the origin. -/
def reference (E : List Entry) (R : List Stitch) : ℚ × ℚ :=
  (((E.zip R).filter (fun p => p.1.moves)).getLast?.map (fun p => (p.2.x, p.2.y))).getD (0, 0)

theorem reference_snoc (E : List Entry) (R : List Stitch) (h : E.length = R.length) (e : Entry) (s : Stitch) :
    reference (E ++ [e]) (R ++ [s]) = if e.moves then (s.x, s.y) else reference E R := by
  unfold reference
  rw [List.zip_append h, List.filter_append]
  by_cases c : e.moves = true
  · rw [if_pos c]
    simp [c]
  · rw [if_neg c]
    simp [c]

theorem call_spec (b : Build τ) (e : Entry) :
    (e.call b).stitches = b.stitches ++ [e.stitch (b.px, b.py)] ∧
    ((e.call b).px, (e.call b).py) =
      if e.moves then ((e.stitch (b.px, b.py)).x, (e.stitch (b.px, b.py)).y) else (b.px, b.py) := by
  cases e <;> simp [Entry.call, Entry.stitch, Entry.moves, Build.rel, Build.abs, command]

theorem enter_inv (E : List Entry) :
    (E.foldl Entry.call ({} : Build τ)).stitches.length = E.length ∧
    ((E.foldl Entry.call ({} : Build τ)).px, (E.foldl Entry.call ({} : Build τ)).py) =
      reference E (E.foldl Entry.call ({} : Build τ)).stitches := by
  induction E using List.reverseRecOn with
  | nil => simp [reference]
  | append_singleton E e ih =>
    rw [List.foldl_append, List.foldl_cons, List.foldl_nil]
    generalize E.foldl Entry.call ({} : Build τ) = b at ih
    obtain ⟨h1, h2⟩ := call_spec b e
    rw [h2, h1]
    refine ⟨by simp [ih.1], ?_⟩
    rw [reference_snoc _ _ ih.1.symm, ih.2]

theorem enter_prefix (B : List Entry) (b : Build τ) : ∃ S, (B.foldl Entry.call b).stitches = b.stitches ++ S := by
  induction B generalizing b with
  | nil => exact ⟨[], by simp⟩
  | cons e B ih =>
    obtain ⟨S, hS⟩ := ih (e.call b)
    exact ⟨[e.stitch (b.px, b.py)] ++ S, by rw [List.foldl_cons, hS, (call_spec b e).1]; simp⟩

/-- **C55 (partial), entering.** Whatever calls are made on an empty pattern, the call number `n` gives the stitch number `n`:
absolute entries and commands where they say, relative ones displaced from the last stitch entered by an absolute or
relative call (`add_command` does not count). -/
theorem C55_entry_partial (A B : List Entry) (e : Entry) :
    ∃ R S, ((A ++ e :: B).foldl Entry.call ({} : Build τ)).stitches = R ++ e.stitch (reference A R) :: S ∧
      R = (A.foldl Entry.call ({} : Build τ)).stitches ∧ R.length = A.length ∧ S.length = B.length := by
  have hl := (enter_inv (τ := τ) (A ++ e :: B)).1
  rw [List.foldl_append, List.foldl_cons] at hl ⊢
  obtain ⟨h1, h2⟩ := enter_inv (τ := τ) A
  obtain ⟨S, hS⟩ := enter_prefix B (e.call (A.foldl Entry.call ({} : Build τ)))
  rw [(call_spec _ e).1, h2] at hS
  refine ⟨_, S, by rw [hS]; simp, rfl, h1, ?_⟩
  rw [hS] at hl
  simp only [List.length_append, List.length_cons, List.length_nil, h1] at hl
  omega

/-- Entering only by displacement gives the running sums. -/
theorem C55_running_sums (D : List Stitch) (i : Nat) (h : i < D.length) :
    ((D.foldl (fun b d => b.rel d.cmd d.x d.y) ({} : Build τ)).stitches)[i]? =
      some ⟨((D.take (i + 1)).map (·.x)).sum, ((D.take (i + 1)).map (·.y)).sum, D[i].cmd⟩ := by
  have key : ∀ (D : List Stitch) (b : Build τ), ∃ S, (D.foldl (fun b d => b.rel d.cmd d.x d.y) b).stitches = b.stitches ++ S ∧
      ∀ i (h : i < D.length), S[i]? =
        some ⟨b.px + ((D.take (i + 1)).map (·.x)).sum, b.py + ((D.take (i + 1)).map (·.y)).sum, D[i].cmd⟩ := by
    intro D
    induction D with
    | nil => intro b; exact ⟨[], by simp, by intro i h; simp at h⟩
    | cons d D ih =>
      intro b
      obtain ⟨S, h1, h2⟩ := ih (b.rel d.cmd d.x d.y)
      refine ⟨⟨b.px + d.x, b.py + d.y, d.cmd⟩ :: S, by rw [List.foldl_cons, h1]; simp [Build.rel, Build.abs], ?_⟩
      intro i hi
      cases i with
      | zero => simp
      | succ i =>
        have hi' : i < D.length := by simpa using hi
        rw [List.getElem?_cons_succ, h2 i hi']
        simp [Build.rel, Build.abs, add_assoc]
  obtain ⟨S, h1, h2⟩ := key D {}
  rw [h1]
  simpa using h2 i h

/-- Entering a list of stitches by their displacements is the same as entering them by position. -/
theorem C55_agree (l : List Stitch) (b : Build τ) :
    (l.foldl (fun (p : Build τ × (ℚ × ℚ)) s => (p.1.rel s.cmd (s.x - p.2.1) (s.y - p.2.2), (s.x, s.y))) (b, (b.px, b.py))).1 =
      l.foldl (fun b s => b.abs s.cmd s.x s.y) b := by
  induction l generalizing b with
  | nil => rfl
  | cons s l ih =>
    rw [List.foldl_cons, List.foldl_cons, ← ih]
    have : b.rel s.cmd (s.x - b.px) (s.y - b.py) = b.abs s.cmd s.x s.y := by
      simp [Build.rel, Build.abs]
    rw [this]
    rfl

/-- **C55 (partial), inserting.** A stitch inserted by displacement between two others is placed relative to the one before it
and moves none; positions may count from the end; the point later entries refer to does not change. -/
theorem C55_insert_partial (b : Build τ) (A B : List Stitch) (p : Stitch) (hb : b.stitches = A ++ p :: B) (hB : B ≠ [])
    (position : Int) (hp : position = A.length + 1 ∨ position = -(B.length : Int)) (cmd : Int) (dx dy : ℚ) :
    insertRel b position cmd dx dy = { b with stitches := A ++ p :: ⟨p.x + dx, p.y + dy, cmd⟩ :: B } := by
  have hBl : 0 < B.length := List.length_pos_of_ne_nil hB
  have hn : (b.stitches.length : Int) = A.length + 1 + B.length := by rw [hb]; simp; omega
  have e : (if position < 0 then position + (b.stitches.length : Int) else position) = (A.length : Int) + 1 := by
    rcases hp with rfl | rfl
    · rw [if_neg (by omega)]
    · rw [if_pos (by omega)]; omega
  unfold insertRel
  simp only [e]
  rw [if_neg (by omega), if_neg (by omega), if_pos (by omega)]
  have e2 : ((A.length : Int) + 1).toNat = A.length + 1 := by omega
  rw [e2]
  have h1 : b.stitches[A.length + 1 - 1]? = some p := by rw [hb]; simp
  have h2 : b.stitches.take (A.length + 1) = A ++ [p] := by rw [hb]; simp [List.take_append]
  have h3 : b.stitches.drop (A.length + 1) = B := by rw [hb]; simp [List.drop_append]
  rw [h1, h2, h3]
  simp

/-- Inserted at the front, the displacement counts from the origin. -/
theorem C55_insert_front (b : Build τ) (position : Int) (hp : position = 0 ∨ position = -(b.stitches.length : Int)) (cmd : Int)
    (dx dy : ℚ) : insertRel b position cmd dx dy = { b with stitches := ⟨dx, dy, cmd⟩ :: b.stitches } := by
  have e : (if position < 0 then position + (b.stitches.length : Int) else position) = 0 := by
    rcases hp with rfl | rfl
    · simp
    · split_ifs <;> omega
  unfold insertRel
  simp only [e]
  rw [if_pos trivial]

/-- Inserted after the last stitch, it is entered like any relative stitch. -/
theorem C55_insert_end (b : Build τ) (h : b.stitches ≠ []) (cmd : Int) (dx dy : ℚ) :
    insertRel b b.stitches.length cmd dx dy = b.rel cmd dx dy := by
  have hl : 0 < b.stitches.length := List.length_pos_of_ne_nil h
  unfold insertRel
  simp only [if_neg (show ¬ (b.stitches.length : Int) < 0 by omega)]
  rw [if_neg (by omega), if_pos trivial]

/-- Beyond the ends nothing is inserted. -/
theorem C55_insert_outside (b : Build τ) (position : Int)
    (hp : position > b.stitches.length ∨ position < -(b.stitches.length : Int)) (cmd : Int) (dx dy : ℚ) :
    insertRel b position cmd dx dy = b := by
  unfold insertRel
  rcases hp with h | h
  · simp only [if_neg (show ¬ position < 0 by omega)]
    rw [if_neg (by omega), if_neg (by omega), if_neg (by omega)]
  · simp only [if_pos (show position < 0 by omega)]
    rw [if_neg (by omega), if_neg (by omega), if_neg (by omega)]

end

example : ([Entry.abs 0 5 5, .command 3 0 0, .rel 0 1 2, .rel 1 10 0].foldl Entry.call ({} : Build Char)).stitches =
    [⟨5, 5, 0⟩, ⟨0, 0, 3⟩, ⟨6, 7, 0⟩, ⟨16, 7, 1⟩] := by decide +kernel

/-- Where the claim fails: at the end of the list the new stitch is not placed relative to the stitch before it when that was
entered with `add_command`, and the first stitch of a pattern entered by `insert_stitch_relative` is not the point the next
one refers to. -/
theorem C55_fails :
    (insertRel (command (({} : Build Char).abs 0 5 5) 3 100 100) 2 0 1 1).stitches = [⟨5, 5, 0⟩, ⟨100, 100, 3⟩, ⟨6, 6, 0⟩] ∧
    ((insertRel ({} : Build Char) 0 0 7 7).rel 0 1 1).stitches = [⟨7, 7, 0⟩, ⟨1, 1, 0⟩] := by decide +kernel

/-! ## C49 -/

section
variable {τ : Type} (eqv : τ → τ → Bool)

/-- Every stop and every colour change comes after something sewn since the one before it, stops carry no extra data, and
something is sewn after the last one; `fresh` says that nothing has been sewn yet since then. -/
def Sewn : Bool → List Stitch → Prop
  | fresh, [] => fresh = false
  | fresh, a :: l =>
    if isSew a then Sewn false l else if isChange a then fresh = false ∧ Sewn true l
    else if a.low = 3 then fresh = false ∧ a.cmd = 3 ∧ Sewn true l
    else Sewn fresh l

/-- A stop becomes the command `change`. -/
def unstop (change : Int) (a : Stitch) : Stitch := if a.low = 3 then { a with cmd := change } else a

/-- The thread list when every stop uses a duplicate of the colour `t` in use; `ts` are the colours after it. -/
def dups : τ → List τ → List Stitch → List τ
  | t, ts, [] => t :: ts
  | t, ts, a :: l =>
    if isSew a then dups t ts l
    else if isChange a then match ts with
      | [] => [t]
      | u :: us => t :: dups u us l
    else if a.low = 3 then t :: dups t ts l
    else dups t ts l

theorem dups_cons (t : τ) (ts : List τ) (a : Stitch) (l : List Stitch) :
    dups t ts (a :: l) = if isSew a then dups t ts l
      else if isChange a then (match ts with
        | [] => [t]
        | u :: us => t :: dups u us l)
      else if a.low = 3 then t :: dups t ts l
      else dups t ts l := by
  cases ts <;> rfl

theorem dups_head (t : τ) (ts : List τ) (l : List Stitch) : ∃ r, dups t ts l = t :: r := by
  induction l generalizing t ts with
  | nil => exact ⟨ts, rfl⟩
  | cons a l ih =>
    unfold dups
    split_ifs
    · exact ih t ts
    · cases ts with
      | nil => exact ⟨[], rfl⟩
      | cons u us => exact ⟨_, rfl⟩
    · exact ⟨_, rfl⟩
    · exact ih t ts

/-- How many colour changes there are. -/
def changes (l : List Stitch) : Nat := l.countP isChange

theorem stopLoop_sew (change : Int) (T : List τ) (k : Nat) (a : Stitch) (l : List Stitch) (h : isSew a = true) :
    stopLoop change T k (a :: l) = (a :: (stopLoop change T k l).1, (stopLoop change T k l).2) := by
  conv_lhs => unfold stopLoop
  rw [cmdOf_low]
  rw [if_pos ((sew_iff a).1 h)]

theorem stopLoop_change (change : Int) (T : List τ) (k : Nat) (a : Stitch) (l : List Stitch) (h : isSew a ≠ true)
    (h2 : isChange a = true) :
    stopLoop change T k (a :: l) = (a :: (stopLoop change T (k + 1) l).1, (stopLoop change T (k + 1) l).2) := by
  conv_lhs => unfold stopLoop
  rw [cmdOf_low]
  rw [if_neg (fun c => h ((sew_iff a).2 c)), if_pos ((change_iff a).1 h2)]

theorem stopLoop_other (change : Int) (T : List τ) (k : Nat) (a : Stitch) (l : List Stitch) (h : isSew a ≠ true)
    (h2 : isChange a ≠ true) (h3 : a.low ≠ 3) :
    stopLoop change T k (a :: l) = (a :: (stopLoop change T k l).1, (stopLoop change T k l).2) := by
  conv_lhs => unfold stopLoop
  rw [cmdOf_low]
  rw [if_neg (fun c => h ((sew_iff a).2 c)), if_neg (fun c => h2 ((change_iff a).2 c)),
    if_neg (show ¬ a.low = STOP from h3)]

theorem stopLoop_stop (change : Int) (T : List τ) (k : Nat) (a : Stitch) (l : List Stitch) (h : isSew a ≠ true)
    (h2 : isChange a ≠ true) (h3 : a.low = 3) (t : τ) (ht : T[k]? = some t) :
    stopLoop change T k (a :: l) = ({ a with cmd := change } :: (stopLoop change (T.insertIdx k t) (k + 1) l).1,
      (stopLoop change (T.insertIdx k t) (k + 1) l).2) := by
  conv_lhs => unfold stopLoop
  rw [cmdOf_low]
  rw [if_neg (fun c => h ((sew_iff a).2 c)), if_neg (fun c => h2 ((change_iff a).2 c)),
    if_pos (show a.low = STOP from h3), ht]

theorem sew_low {a : Stitch} (h : isSew a = true) : a.low ≠ 3 := by
  rw [sew_iff] at h
  simp only [STITCH, SEW_TO, NEEDLE_AT] at h
  omega

theorem change_low {a : Stitch} (h : isChange a = true) : a.low ≠ 3 := by
  rw [change_iff] at h
  simp only [COLOR_CHANGE, COLOR_BREAK, NEEDLE_SET] at h
  omega

theorem insertIdx_at (P ts : List τ) (t u : τ) : (P ++ t :: ts).insertIdx P.length u = P ++ u :: t :: ts := by
  induction P with
  | nil => rfl
  | cons p P ih => simpa using ih

theorem eraseIdx_at (P ts : List τ) (t u : τ) : (P ++ t :: u :: ts).eraseIdx (P.length + 1) = P ++ t :: ts := by
  induction P with
  | nil => rfl
  | cons p P ih => simpa using ih

theorem stopLoop_spec (change : Int) (l : List Stitch) (P : List τ) (t : τ) (ts : List τ) (h : changes l ≤ ts.length) :
    stopLoop change (P ++ t :: ts) P.length l = (l.map (unstop change), P ++ dups t ts l) := by
  induction l generalizing P t ts with
  | nil => simp [stopLoop, dups]
  | cons a l ih =>
    unfold changes at h ih
    rw [List.map_cons, dups_cons]
    by_cases c1 : isSew a = true
    · rw [List.countP_cons_of_neg (by simp [sew_not_change c1])] at h
      rw [stopLoop_sew _ _ _ _ _ c1, ih P t ts h, if_pos c1, unstop, if_neg (sew_low c1)]
    · rw [if_neg c1]
      by_cases c2 : isChange a = true
      · rw [List.countP_cons_of_pos c2] at h
        cases ts with
        | nil => simp at h
        | cons u us =>
          rw [stopLoop_change _ _ _ _ _ c1 c2, if_pos c2]
          have := ih (P ++ [t]) u us (by simpa using h)
          rw [List.append_assoc, List.length_append] at this
          simp only [List.length_cons, List.length_nil, Nat.zero_add, List.singleton_append] at this
          rw [this, unstop, if_neg (change_low c2)]
          simp
      · rw [List.countP_cons_of_neg c2] at h
        rw [if_neg c2]
        by_cases c3 : a.low = 3
        · rw [stopLoop_stop _ _ _ _ _ c1 c2 c3 t (by simp), insertIdx_at, if_pos c3]
          have := ih (P ++ [t]) t ts h
          rw [List.append_assoc, List.length_append] at this
          simp only [List.length_cons, List.length_nil, Nat.zero_add, List.singleton_append] at this
          rw [this, unstop, if_pos c3]
          simp
        · rw [stopLoop_other _ _ _ _ _ c1 c2 c3, ih P t ts h, if_neg c3, unstop, if_neg c3]

theorem dupLoop_sewn (acc : List Stitch) (T : List τ) (k : Nat) (last : Option Nat) (a : Stitch) (l : List Stitch)
    (h : isSew a = true) : dupLoop eqv acc T k false last (a :: l) = dupLoop eqv (acc ++ [a]) T k false last l := by
  conv_lhs => unfold dupLoop
  rw [cmdOf_low]
  rw [if_pos ((sew_iff a).1 h)]
  rfl

theorem dupLoop_first (acc : List Stitch) (T : List τ) (a : Stitch) (l : List Stitch)
    (h : isSew a = true) : dupLoop eqv acc T 0 true none (a :: l) = dupLoop eqv (acc ++ [a]) T 1 false none l := by
  conv_lhs => unfold dupLoop
  rw [cmdOf_low]
  rw [if_pos ((sew_iff a).1 h)]
  rfl

theorem dupLoop_eq (acc : List Stitch) (T : List τ) (k i : Nat) (a : Stitch) (l : List Stitch) (t u : τ)
    (h : isSew a = true) (ht : T[k]? = some t) (hu : T[k + 1]? = some u) (he : eqv t u = true) :
    dupLoop eqv acc T (k + 1) true (some i) (a :: l) =
      dupLoop eqv (setStop (acc ++ [a]) i) (T.eraseIdx (k + 1)) (k + 1) false (some i) l := by
  conv_lhs => unfold dupLoop
  rw [cmdOf_low]
  rw [if_pos ((sew_iff a).1 h)]
  simp [ht, hu, he]

theorem dupLoop_ne (acc : List Stitch) (T : List τ) (k i : Nat) (a : Stitch) (l : List Stitch) (t u : τ)
    (h : isSew a = true) (ht : T[k]? = some t) (hu : T[k + 1]? = some u) (he : eqv t u = false) :
    dupLoop eqv acc T (k + 1) true (some i) (a :: l) = dupLoop eqv (acc ++ [a]) T (k + 2) false (some i) l := by
  conv_lhs => unfold dupLoop
  rw [cmdOf_low]
  rw [if_pos ((sew_iff a).1 h)]
  simp [ht, hu, he]

theorem dupLoop_change (acc : List Stitch) (T : List τ) (k : Nat) (init : Bool) (last : Option Nat) (a : Stitch) (l : List Stitch)
    (h : isChange a = true) :
    dupLoop eqv acc T k init last (a :: l) = dupLoop eqv (acc ++ [a]) T k true (some acc.length) l := by
  have c1 : ¬ isSew a = true := fun c => by rw [sew_not_change c] at h; cases h
  conv_lhs => unfold dupLoop
  rw [cmdOf_low]
  rw [if_neg (fun c => c1 ((sew_iff a).2 c)), if_pos ((change_iff a).1 h)]

theorem dupLoop_other (acc : List Stitch) (T : List τ) (k : Nat) (init : Bool) (last : Option Nat) (a : Stitch) (l : List Stitch)
    (h : isSew a ≠ true) (h2 : isChange a ≠ true) :
    dupLoop eqv acc T k init last (a :: l) = dupLoop eqv (acc ++ [a]) T k init last l := by
  conv_lhs => unfold dupLoop
  rw [cmdOf_low]
  rw [if_neg (fun c => h ((sew_iff a).2 c)), if_neg (fun c => h2 ((change_iff a).2 c))]

theorem setStop_at (acc mid : List Stitch) (b : Stitch) :
    setStop (acc ++ b :: mid) acc.length = acc ++ { b with cmd := STOP } :: mid := by
  unfold setStop
  induction acc with
  | nil => rfl
  | cons a acc ih => simpa using ih

/-- The commands after a stop or change has been undone: in the four situations of the loop. -/
theorem dupLoop_spec (change : Int) (hc : cmdOf change = 5 ∨ cmdOf change = 0xE2 ∨ cmdOf change = 9) (hr : ∀ t, eqv t t = true)
    (l : List Stitch) :
    (∀ acc P t ts last, Sewn false l → changes l ≤ ts.length → (t :: ts).IsChain (fun a b => eqv a b = false) →
      dupLoop eqv acc (P ++ dups t ts l) (P.length + 1) false last (l.map (unstop change)) = (acc ++ l, P ++ t :: ts)) ∧
    (∀ acc P t u us b mid, Sewn true l → changes l ≤ us.length → (t :: u :: us).IsChain (fun a b => eqv a b = false) →
      dupLoop eqv (acc ++ b :: mid) (P ++ t :: dups u us l) (P.length + 1) true (some acc.length) (l.map (unstop change)) =
        (acc ++ b :: mid ++ l, P ++ t :: u :: us)) ∧
    (∀ acc P t ts b mid, b.cmd = 3 → Sewn true l → changes l ≤ ts.length → (t :: ts).IsChain (fun a b => eqv a b = false) →
      dupLoop eqv (acc ++ { b with cmd := change } :: mid) (P ++ t :: dups t ts l) (P.length + 1) true (some acc.length)
        (l.map (unstop change)) = (acc ++ b :: mid ++ l, P ++ t :: ts)) ∧
    (∀ acc t ts, Sewn true l → changes l ≤ ts.length → (t :: ts).IsChain (fun a b => eqv a b = false) →
      dupLoop eqv acc (dups t ts l) 0 true none (l.map (unstop change)) = (acc ++ l, t :: ts)) := by
  induction l with
  | nil =>
    refine ⟨?_, ?_, ?_, ?_⟩
    · intros; simp [dupLoop, dups]
    · intro acc P t u us b mid h; simp [Sewn] at h
    · intro acc P t ts b mid _ h; simp [Sewn] at h
    · intro acc t ts h; simp [Sewn] at h
  | cons a l ih =>
    obtain ⟨iA, iB, iC, iD⟩ := ih
    rw [List.map_cons]
    simp only [changes] at iA iB iC iD ⊢
    by_cases c1 : isSew a = true
    · have hcnt : (a :: l).countP isChange = l.countP isChange := List.countP_cons_of_neg (by simp [sew_not_change c1])
      have hu : unstop change a = a := by rw [unstop, if_neg (sew_low c1)]
      have hs : ∀ f, Sewn f (a :: l) → Sewn false l := by
        intro f h; rw [Sewn, if_pos c1] at h; exact h
      have hd : ∀ (t : τ) ts, dups t ts (a :: l) = dups t ts l := by
        intro t ts; rw [dups_cons, if_pos c1]
      rw [hcnt, hu]
      simp only [hd]
      refine ⟨?_, ?_, ?_, ?_⟩
      · intro acc P t ts last h1 h2 h3
        rw [dupLoop_sewn _ _ _ _ _ _ _ c1, iA _ _ _ _ _ (hs _ h1) h2 h3]
        simp
      · intro acc P t u us b mid h1 h2 h3
        obtain ⟨r, hr'⟩ := dups_head u us l
        rw [dupLoop_ne eqv _ _ P.length _ _ _ t u c1 (by simp) (by rw [hr']; simp) (List.isChain_cons_cons.1 h3).1]
        have := iA (acc ++ b :: mid ++ [a]) (P ++ [t]) u us (some acc.length) (hs _ h1) h2 (List.isChain_cons_cons.1 h3).2
        simp only [List.append_assoc, List.length_append, List.length_cons, List.length_nil, Nat.zero_add,
          List.cons_append, List.nil_append] at this ⊢
        rw [this]
      · intro acc P t ts b mid hb h1 h2 h3
        obtain ⟨r, hr'⟩ := dups_head t ts l
        rw [dupLoop_eq eqv _ _ P.length _ _ _ t t c1 (by simp) (by rw [hr']; simp) (hr t)]
        have e1 : (P ++ t :: dups t ts l).eraseIdx (P.length + 1) = P ++ dups t ts l := by rw [hr', eraseIdx_at]
        have e2 : setStop (acc ++ { b with cmd := change } :: mid ++ [a]) acc.length = acc ++ b :: mid ++ [a] := by
          rw [List.append_assoc, List.cons_append, setStop_at]
          have : ({ b with cmd := STOP } : Stitch) = b := by cases b; simp only at hb; subst hb; rfl
          simp only [List.append_assoc, List.cons_append]
          exact congrArg (fun x => acc ++ x :: (mid ++ [a])) this
        rw [e1, e2, iA _ _ _ _ _ (hs _ h1) h2 h3]
        simp
      · intro acc t ts h1 h2 h3
        rw [dupLoop_first _ _ _ _ _ c1]
        have := iA (acc ++ [a]) [] t ts none (hs _ h1) h2 h3
        simp only [List.nil_append, List.length_nil, Nat.zero_add] at this
        rw [this]
        simp
    · by_cases c2 : isChange a = true
      · have hcnt : (a :: l).countP isChange = l.countP isChange + 1 := List.countP_cons_of_pos c2
        have hu : unstop change a = a := by rw [unstop, if_neg (change_low c2)]
        have hs : ∀ f, Sewn f (a :: l) → f = false ∧ Sewn true l := by
          intro f h; rw [Sewn, if_neg c1, if_pos c2] at h; exact h
        rw [hcnt, hu]
        refine ⟨?_, ?_, ?_, ?_⟩
        · intro acc P t ts last h1 h2 h3
          cases ts with
          | nil => simp at h2
          | cons u us =>
            rw [dups_cons, if_neg c1, if_pos c2]
            rw [dupLoop_change _ _ _ _ _ _ _ _ c2]
            have := iB acc P t u us a [] (hs _ h1).2 (by simpa using h2) h3
            rw [this]
            simp
        · intro acc P t u us b mid h1; exact absurd (hs _ h1).1 (by simp)
        · intro acc P t ts b mid _ h1; exact absurd (hs _ h1).1 (by simp)
        · intro acc t ts h1; exact absurd (hs _ h1).1 (by simp)
      · have hcnt : (a :: l).countP isChange = l.countP isChange := List.countP_cons_of_neg c2
        rw [hcnt]
        by_cases c3 : a.low = 3
        · have hu : unstop change a = { a with cmd := change } := by rw [unstop, if_pos c3]
          have hs : ∀ f, Sewn f (a :: l) → f = false ∧ a.cmd = 3 ∧ Sewn true l := by
            intro f h; rw [Sewn, if_neg c1, if_neg c2, if_pos c3] at h; exact h
          rw [hu]
          refine ⟨?_, ?_, ?_, ?_⟩
          · intro acc P t ts last h1 h2 h3
            rw [dups_cons, if_neg c1, if_neg c2, if_pos c3]
            have hch : isChange ({ a with cmd := change } : Stitch) = true := by
              rw [change_iff]; exact hc
            rw [dupLoop_change _ _ _ _ _ _ _ _ hch]
            have := iC acc P t ts a [] (hs _ h1).2.1 (hs _ h1).2.2 h2 h3
            rw [this]
            simp
          · intro acc P t u us b mid h1; exact absurd (hs _ h1).1 (by simp)
          · intro acc P t ts b mid _ h1; exact absurd (hs _ h1).1 (by simp)
          · intro acc t ts h1; exact absurd (hs _ h1).1 (by simp)
        · have hu : unstop change a = a := by rw [unstop, if_neg c3]
          have hs : ∀ f, Sewn f (a :: l) → Sewn f l := by
            intro f h; rw [Sewn, if_neg c1, if_neg c2, if_neg c3] at h; exact h
          have hd : ∀ (t : τ) ts, dups t ts (a :: l) = dups t ts l := by
            intro t ts; rw [dups_cons, if_neg c1, if_neg c2, if_neg c3]
          rw [hu]
          simp only [hd]
          refine ⟨?_, ?_, ?_, ?_⟩
          · intro acc P t ts last h1 h2 h3
            rw [dupLoop_other _ _ _ _ _ _ _ _ c1 c2, iA _ _ _ _ _ (hs _ h1) h2 h3]
            simp
          · intro acc P t u us b mid h1 h2 h3
            rw [dupLoop_other _ _ _ _ _ _ _ _ c1 c2]
            have := iB acc P t u us b (mid ++ [a]) (hs _ h1) h2 h3
            simp only [List.append_assoc, List.cons_append, List.nil_append] at this ⊢
            rw [this]
          · intro acc P t ts b mid hb h1 h2 h3
            rw [dupLoop_other _ _ _ _ _ _ _ _ c1 c2]
            have := iC acc P t ts b (mid ++ [a]) hb (hs _ h1) h2 h3
            simp only [List.append_assoc, List.cons_append, List.nil_append] at this ⊢
            rw [this]
          · intro acc t ts h1 h2 h3
            rw [dupLoop_other _ _ _ _ _ _ _ _ c1 c2, iD _ _ _ (hs _ h1) h2 h3]
            simp

/-- **C49 (partial).** Turning the stops into duplicate colours and back restores commands and threads if there is a thread
for each colour, no two neighbouring threads are equal, and something is sewn before, between and after the stops and
colour changes. Without the last the claim fails: `C49_fails`. `change` is the command put in place of a stop. -/
theorem C49_restores_partial (change : Int) (hc : cmdOf change = 5 ∨ cmdOf change = 0xE2 ∨ cmdOf change = 9)
    (hr : ∀ t, eqv t t = true) (l : List Stitch) (T : List τ) (hs : Sewn true l) (hT : l.countP isChange < T.length)
    (hne : T.IsChain (fun a b => eqv a b = false)) :
    dupAsStop eqv (stopAsDup change l T).1 (stopAsDup change l T).2 = (l, T) := by
  cases T with
  | nil => simp at hT
  | cons t ts =>
    have h2 : changes l ≤ ts.length := by unfold changes; rw [List.length_cons] at hT; omega
    have := stopLoop_spec change l [] t ts h2
    simp only [List.nil_append, List.length_nil] at this
    unfold stopAsDup dupAsStop
    rw [this]
    have := (dupLoop_spec eqv change hc hr l).2.2.2 [] t ts hs h2 hne
    simpa using this

/-- What the first step does to such a pattern, for every pattern with a thread for each colour: each stop becomes the command
`change` and its colour is doubled. -/
theorem C49_stops_become_colours (change : Int) (l : List Stitch) (T : List τ) (hT : l.countP isChange < T.length) :
    (stopAsDup change l T).1 = l.map (fun a => if a.low = 3 then { a with cmd := change } else a) ∧
    (stopAsDup change l T).2.length = T.length + l.countP (fun a => a.low == 3) := by
  cases T with
  | nil => simp at hT
  | cons t ts =>
    have h2 : changes l ≤ ts.length := by unfold changes; rw [List.length_cons] at hT; omega
    have := stopLoop_spec change l [] t ts h2
    simp only [List.nil_append, List.length_nil] at this
    unfold stopAsDup
    rw [this]
    refine ⟨rfl, ?_⟩
    clear this hT
    simp only
    unfold changes at h2
    induction l generalizing t ts with
    | nil => simp [dups]
    | cons a l ih =>
      rw [dups_cons]
      by_cases c1 : isSew a = true
      · rw [List.countP_cons_of_neg (by simp [sew_not_change c1])] at h2
        rw [if_pos c1, ih t ts h2, List.countP_cons_of_neg (by simpa using sew_low c1)]
      · rw [if_neg c1]
        by_cases c2 : isChange a = true
        · rw [if_pos c2, List.countP_cons_of_neg (by simpa using change_low c2)]
          rw [List.countP_cons_of_pos c2] at h2
          cases ts with
          | nil => simp at h2
          | cons u us =>
            simp only [List.length_cons]
            rw [ih u us (by simpa using h2)]
            simp; omega
        · rw [if_neg c2]
          rw [List.countP_cons_of_neg c2] at h2
          by_cases c3 : a.low = 3
          · rw [if_pos c3, List.countP_cons_of_pos (by simpa using c3), List.length_cons, ih t ts h2]
            omega
          · rw [if_neg c3, List.countP_cons_of_neg (by simpa using c3), ih t ts h2]

end

example : stopAsDup 5 [⟨0, 0, 0⟩, ⟨0, 0, 3⟩, ⟨1, 0, 0⟩, ⟨1, 0, 5⟩, ⟨2, 0, 0⟩] ['r', 'g'] =
    ([⟨0, 0, 0⟩, ⟨0, 0, 5⟩, ⟨1, 0, 0⟩, ⟨1, 0, 5⟩, ⟨2, 0, 0⟩], ['r', 'r', 'g']) := by decide +kernel

example : Sewn true [⟨0, 0, 0⟩, ⟨0, 0, 3⟩, ⟨1, 0, 0⟩, ⟨1, 0, 5⟩, ⟨2, 0, 0⟩] := by
  norm_num [Sewn, isSew, isChange, Stitch.low]

/-- A stop after which nothing is sewn, a stop before anything is sewn and one of two stops in a row do not come back. -/
theorem C49_fails :
    (dupAsStop (· == ·) (stopAsDup 5 [⟨0, 0, 0⟩, ⟨0, 0, 3⟩] ['r']).1 (stopAsDup 5 [⟨0, 0, 0⟩, ⟨0, 0, 3⟩] ['r']).2) =
      ([⟨0, 0, 0⟩, ⟨0, 0, 5⟩], ['r', 'r']) ∧
    (dupAsStop (· == ·) (stopAsDup 5 [⟨0, 0, 3⟩, ⟨0, 0, 0⟩] ['r']).1 (stopAsDup 5 [⟨0, 0, 3⟩, ⟨0, 0, 0⟩] ['r']).2) =
      ([⟨0, 0, 5⟩, ⟨0, 0, 0⟩], ['r', 'r']) ∧
    (dupAsStop (· == ·) (stopAsDup 5 [⟨0, 0, 0⟩, ⟨0, 0, 3⟩, ⟨0, 0, 3⟩, ⟨0, 0, 0⟩] ['r']).1
        (stopAsDup 5 [⟨0, 0, 0⟩, ⟨0, 0, 3⟩, ⟨0, 0, 3⟩, ⟨0, 0, 0⟩] ['r']).2) =
      ([⟨0, 0, 0⟩, ⟨0, 0, 5⟩, ⟨0, 0, 3⟩, ⟨0, 0, 0⟩], ['r', 'r']) := by decide +kernel

/-! ## C56 -/

section
variable {τ : Type}

theorem neutralise_spec (l : List Stitch) :
    ∃ lead tail, l = lead ++ tail ∧ (∀ a ∈ lead, isSew a = false) ∧ (∀ a ∈ tail.head?, isSew a = true) ∧
      neutralise l = lead.map (fun a => if isChange a then { a with cmd := -1 } else a) ++ tail := by
  induction l with
  | nil => exact ⟨[], [], rfl, by simp, by simp, rfl⟩
  | cons a l ih =>
    unfold neutralise
    rw [cmdOf_low]
    by_cases c1 : isSew a = true
    · rw [if_pos ((sew_iff a).1 c1)]
      exact ⟨[], a :: l, rfl, by simp, by simpa using c1, rfl⟩
    · rw [if_neg (fun c => c1 ((sew_iff a).2 c))]
      obtain ⟨lead, tail, h1, h2, h3, h4⟩ := ih
      refine ⟨a :: lead, tail, by rw [h1]; rfl, ?_, h3, ?_⟩
      · intro x hx
        rcases List.mem_cons.1 hx with rfl | hx
        · simpa using c1
        · exact h2 x hx
      · by_cases c2 : isChange a = true
        · rw [if_pos ((change_iff a).1 c2), h4, List.map_cons, if_pos c2]; rfl
        · rw [if_neg (fun c => c2 ((change_iff a).2 c)), h4, List.map_cons, if_neg c2]; rfl

/-- `l` without an END (4) at its end. -/
def withoutEnd (l : List Stitch) : List Stitch := if l.getLast?.any (fun a => a.cmd == 4) then l.dropLast else l

theorem colorCount_append_other (init : Bool) (l o : List Stitch) (h : ∀ a ∈ o, isSew a = false ∧ isChange a = false) :
    colorCount init (l ++ o) = colorCount init l := by
  induction l generalizing init with
  | nil =>
    induction o with
    | nil => rfl
    | cons a o ih =>
      have := h a (by simp)
      rw [List.nil_append, colorCount_cons, this.1, this.2]
      simpa using ih (fun a ha => h a (by simp [ha]))
  | cons a l ih =>
    rw [List.cons_append, colorCount_cons, colorCount_cons, ih, ih, ih]

theorem colorCount_withoutEnd (init : Bool) (l : List Stitch) : colorCount init (withoutEnd l) = colorCount init l := by
  unfold withoutEnd
  split_ifs with h
  · rcases List.eq_nil_or_concat l with rfl | ⟨l', a, rfl⟩
    · rfl
    · rw [List.concat_eq_append] at *
      rw [List.dropLast_concat, colorCount_append_other]
      intro x hx
      rw [List.mem_singleton] at hx
      have h4 : x.cmd = 4 := by rw [hx]; simpa using h
      simp [isSew, isChange, Stitch.low, h4]
  · rfl

theorem transforms_other (dx dy sx sy r : Option ℚ) : ∀ a ∈ transforms dx dy sx sy r, isSew a = false ∧ isChange a = false := by
  intro a ha
  unfold transforms at ha
  simp only [List.mem_append] at ha
  rcases ha with (ha | ha) | ha
  · split_ifs at ha
    · rw [List.mem_singleton] at ha; subst ha
      exact ⟨by simp [isSew, Stitch.low, MATRIX_TRANSLATE], by simp [isChange, Stitch.low, MATRIX_TRANSLATE]⟩
    · cases ha
  · cases sx with
    | none => cases ha
    | some s =>
      simp only [List.mem_singleton] at ha; subst ha
      exact ⟨by simp [isSew, Stitch.low, MATRIX_SCALE], by simp [isChange, Stitch.low, MATRIX_SCALE]⟩
  · cases r with
    | none => cases ha
    | some s =>
      simp only [List.mem_singleton] at ha; subst ha
      exact ⟨by simp [isSew, Stitch.low, MATRIX_ROTATE], by simp [isChange, Stitch.low, MATRIX_ROTATE]⟩

/-- The general form of the result of `add_pattern`. -/
theorem addPattern_form (eqv : τ → τ → Bool) (filler : Nat → τ) (b q : Build τ) (dx dy sx sy rotate : Option ℚ)
    (hb : b.stitches ≠ []) (hq : q.threads = [] ∨ fixColorCount b.threads filler b.stitches ≠ []) :
    ∃ r, addPattern eqv filler b q dx dy sx sy rotate = .ok r ∧
      ((r.threads = fixColorCount b.threads filler b.stitches ∧ q.threads = [] ∧
          r.stitches = withoutEnd b.stitches ++ transforms dx dy sx sy rotate ++ neutralise q.stitches) ∨
       (∃ P u t ts, fixColorCount b.threads filler b.stitches = P ++ [u] ∧ q.threads = t :: ts ∧ eqv t u = true ∧
          r.threads = P ++ u :: ts ∧
          r.stitches = withoutEnd b.stitches ++ transforms dx dy sx sy rotate ++ neutralise q.stitches) ∨
       (∃ P u t ts, fixColorCount b.threads filler b.stitches = P ++ [u] ∧ q.threads = t :: ts ∧ eqv t u = false ∧
          r.threads = fixColorCount b.threads filler b.stitches ++ q.threads ∧
          r.stitches = withoutEnd b.stitches ++ transforms dx dy sx sy rotate ++ ⟨b.px, b.py, 5⟩ :: neutralise q.stitches)) := by
  unfold addPattern
  obtain ⟨l', last, hl⟩ : ∃ l' a, b.stitches = l' ++ [a] := by
    rcases List.eq_nil_or_concat b.stitches with h | ⟨l', a, h⟩
    · exact absurd h hb
    · exact ⟨l', a, by rw [h, List.concat_eq_append]⟩
  have hlast : b.stitches.getLast? = some last := by rw [hl]; simp
  simp only [hlast]
  have hw : (if last.cmd = END then { b with stitches := b.stitches.dropLast } else b) =
      { b with stitches := withoutEnd b.stitches } := by
    unfold withoutEnd
    rw [hlast]
    by_cases c : last.cmd = END
    · have c' : last.cmd = 4 := c
      rw [if_pos c, if_pos (by simp [c'])]
    · have c' : last.cmd ≠ 4 := c
      rw [if_neg c, if_neg (by simp [c'])]
  rw [hw]
  have hfix : fixColorCount b.threads filler (withoutEnd b.stitches ++ transforms dx dy sx sy rotate) =
      fixColorCount b.threads filler b.stitches := by
    unfold fixColorCount
    rw [colorCount_append_other _ _ _ (transforms_other _ _ _ _ _), colorCount_withoutEnd]
  simp only [hfix]
  cases hqt : q.threads with
  | nil => exact ⟨_, rfl, .inl ⟨rfl, rfl, rfl⟩⟩
  | cons t ts =>
    rcases List.eq_nil_or_concat (fixColorCount b.threads filler b.stitches) with h | ⟨P, u, h⟩
    · rcases hq with hq | hq
      · rw [hq] at hqt; cases hqt
      · exact absurd h hq
    · rw [List.concat_eq_append] at h
      have : (fixColorCount b.threads filler b.stitches).getLast? = some u := by rw [h]; simp
      simp only [this]
      by_cases c : eqv t u = true
      · rw [if_pos c]
        exact ⟨_, rfl, .inr (.inl ⟨P, u, t, ts, h, rfl, c, by simp [h], rfl⟩)⟩
      · rw [if_neg c]
        refine ⟨_, rfl, .inr (.inr ⟨P, u, t, ts, h, rfl, by simpa using c, rfl, ?_⟩)⟩
        simp [Build.rel, Build.abs, COLOR_CHANGE]

/-- **C56 (partial).** Adding `q` to a pattern with stitches and with a thread (or when `q` has none) appends: the stitches are
those of `b` without its END, then the transform asked for and possibly one COLOR_CHANGE, then those of `q`, whose thread
changes before anything is sewn are made NO_COMMAND (-1) and which are otherwise unchanged; the threads are those of `b`
(with fillers if it had too few), then those of `q`, the first of which is left out if it equals the last of `b`: then
there is no COLOR_CHANGE. `C56_empty`, `C56_no_thread` show that without the hypotheses it is an IndexError. -/
theorem C56_appends_partial (eqv : τ → τ → Bool) (filler : Nat → τ) (b q : Build τ) (dx dy sx sy rotate : Option ℚ)
    (hb : b.stitches ≠ []) (hq : q.threads = [] ∨ fixColorCount b.threads filler b.stitches ≠ []) :
    ∃ r change lead tail extra new, addPattern eqv filler b q dx dy sx sy rotate = .ok r ∧
      r.stitches = withoutEnd b.stitches ++ transforms dx dy sx sy rotate ++ change ++
        (lead.map (fun a => if isChange a then { a with cmd := -1 } else a) ++ tail) ∧
      q.stitches = lead ++ tail ∧ (∀ a ∈ lead, isSew a = false) ∧ (∀ a ∈ tail.head?, isSew a = true) ∧
      r.threads = b.threads ++ extra ++ new ∧
      ((new = q.threads ∧ change = if q.threads = [] then [] else [⟨b.px, b.py, 5⟩]) ∨
       (∃ t u, q.threads = t :: new ∧ (b.threads ++ extra).getLast? = some u ∧ eqv t u = true ∧ change = [])) := by
  obtain ⟨lead, tail, h1, h2, h3, h4⟩ := neutralise_spec q.stitches
  obtain ⟨r, hr, h⟩ := addPattern_form eqv filler b q dx dy sx sy rotate hb hq
  obtain ⟨extra, hx, -⟩ := C48_fix b.threads filler b.stitches
  rcases h with ⟨e1, e2, e3⟩ | ⟨P, u, t, ts, e1, e2, e3, e4, e5⟩ | ⟨P, u, t, ts, e1, e2, e3, e4, e5⟩
  · refine ⟨r, [], lead, tail, extra, [], hr, by rw [e3, h4]; simp, h1, h2, h3, by rw [e1, hx]; simp, .inl ?_⟩
    rw [e2]; simp
  · refine ⟨r, [], lead, tail, extra, ts, hr, by rw [e5, h4]; simp, h1, h2, h3, ?_, .inr ⟨t, u, e2, ?_, e3, rfl⟩⟩
    · rw [e4, ← hx, e1]; simp
    · rw [← hx, e1]; simp
  · refine ⟨r, [⟨b.px, b.py, 5⟩], lead, tail, extra, q.threads, hr, by rw [e5, h4]; simp, h1, h2, h3, by rw [e4, hx], .inl ⟨rfl, ?_⟩⟩
    rw [e2]; simp

/-- Adding to a pattern without stitches is an IndexError. -/
theorem C56_empty (eqv : τ → τ → Bool) (filler : Nat → τ) (b q : Build τ) (dx dy sx sy rotate : Option ℚ)
    (hb : b.stitches = []) : addPattern eqv filler b q dx dy sx sy rotate = .error .indexError := by
  unfold addPattern
  rw [hb]
  rfl

/-- Adding a pattern with threads to one that has no thread and sews nothing is an IndexError. -/
theorem C56_no_thread (eqv : τ → τ → Bool) (filler : Nat → τ) (b q : Build τ) (dx dy sx sy rotate : Option ℚ)
    (hb : b.threads = []) (hs : ∀ a ∈ b.stitches, isSew a = false) (hq : q.threads ≠ []) :
    addPattern eqv filler b q dx dy sx sy rotate = .error .indexError := by
  by_cases hb0 : b.stitches = []
  · exact C56_empty _ _ _ _ _ _ _ _ _ hb0
  unfold addPattern
  obtain ⟨l', last, hl⟩ : ∃ l' a, b.stitches = l' ++ [a] := by
    rcases List.eq_nil_or_concat b.stitches with h | ⟨l', a, h⟩
    · exact absurd h hb0
    · exact ⟨l', a, by rw [h, List.concat_eq_append]⟩
  have hlast : b.stitches.getLast? = some last := by rw [hl]; simp
  simp only [hlast]
  have zero : ∀ (l : List Stitch), (∀ a ∈ l, isSew a = false) → ∀ i, colorCount i l = 0 := by
    intro l
    induction l with
    | nil => intro _ i; rfl
    | cons a l ih =>
      intro h i
      have ih := ih (fun a ha => h a (by simp [ha]))
      rw [colorCount_cons, h a (by simp), ih true, ih i]
      simp
  have hcount : ∀ l, (∀ a ∈ l, a ∈ b.stitches) → colorCount true (l ++ transforms dx dy sx sy rotate) = 0 := by
    intro l h
    rw [colorCount_append_other _ _ _ (transforms_other _ _ _ _ _), zero _ (fun a ha => hs a (h a ha))]
  obtain ⟨t, ts, hqt⟩ := List.exists_cons_of_ne_nil hq
  simp only [hqt]
  by_cases c : last.cmd = END
  · simp only [if_pos c, fixColorCount, hb, hcount _ (fun a ha => List.dropLast_subset _ ha)]
    rfl
  · simp only [if_neg c, fixColorCount, hb, hcount _ (fun a ha => ha)]
    rfl

/-! Colours after adding. -/

def colorChanges (l : List Stitch) : Nat := l.countP (fun a => a.low == 5)

theorem colored_append (T : List τ) (f : Nat → τ) (k : Nat) (A B : List Stitch) :
    colored T f k (A ++ B) = colored T f k A ++ colored T f (k + colorChanges A) B := by
  induction A generalizing k with
  | nil => simp [colored, colorChanges]
  | cons a A ih =>
    rw [List.cons_append, colored, colored]
    by_cases c1 : a.low = 0
    · rw [if_pos c1, if_pos c1, ih]
      simp [colorChanges, c1]
    · rw [if_neg c1, if_neg c1]
      by_cases c2 : a.low = 5
      · rw [if_pos c2, if_pos c2, ih]
        have : colorChanges (a :: A) = colorChanges A + 1 := by simp [colorChanges, c2]
        rw [this]
        congr 2
        omega
      · rw [if_neg c2, if_neg c2, ih]
        simp [colorChanges, c2]

theorem colored_congr {κ : Type} (key : τ → κ) (T U : List τ) (f : Nat → τ) (k m : Nat) (A : List Stitch)
    (h : ∀ i, i ≤ colorChanges A → (T[k + i]?).map key = (U[m + i]?).map key ∧ (T[k + i]?).isSome) :
    (colored T f k A).map (fun p => (p.1, key p.2)) = (colored U f m A).map (fun p => (p.1, key p.2)) := by
  induction A generalizing k m with
  | nil => rfl
  | cons a A ih =>
    rw [colored, colored]
    by_cases c1 : a.low = 0
    · rw [if_pos c1, if_pos c1, List.map_cons, List.map_cons, ih k m]
      · obtain ⟨h0, hs⟩ := h 0 (Nat.zero_le _)
        rw [Nat.add_zero, Nat.add_zero] at h0
        rw [Nat.add_zero] at hs
        obtain ⟨t, ht⟩ := Option.isSome_iff_exists.1 hs
        rw [ht] at h0 ⊢
        cases hu : U[m]? with
        | none => rw [hu] at h0; cases h0
        | some u =>
          rw [hu] at h0
          simp only [Option.map_some, Option.some.injEq] at h0
          simp [h0]
      · intro i hi
        exact h i (by rw [colorChanges, List.countP_cons_of_neg (by simp [c1])]; exact hi)
    · rw [if_neg c1, if_neg c1]
      by_cases c2 : a.low = 5
      · rw [if_pos c2, if_pos c2]
        refine ih (k + 1) (m + 1) ?_
        intro i hi
        have := h (i + 1) (by rw [colorChanges, List.countP_cons_of_pos (by simp [c2])]; unfold colorChanges at hi; omega)
        rw [Nat.add_right_comm, Nat.add_right_comm m]
        exact this
      · rw [if_neg c2, if_neg c2]
        refine ih k m ?_
        intro i hi
        exact h i (by rw [colorChanges, List.countP_cons_of_neg (by simp [c2])]; exact hi)

theorem colored_withoutEnd (T : List τ) (f : Nat → τ) (k : Nat) (l : List Stitch) :
    colored T f k (withoutEnd l) = colored T f k l ∧ colorChanges (withoutEnd l) = colorChanges l := by
  unfold withoutEnd
  split_ifs with h
  · rcases List.eq_nil_or_concat l with rfl | ⟨l', a, rfl⟩
    · exact ⟨rfl, rfl⟩
    · rw [List.concat_eq_append] at *
      have h4 : a.cmd = 4 := by simpa using h
      have hl : a.low = 4 := by simp [Stitch.low, h4]
      rw [List.dropLast_concat, colored_append]
      refine ⟨by simp [colored, hl], by simp [colorChanges, hl]⟩
  · exact ⟨rfl, rfl⟩

/-- **C56 (partial), colours.** If `b` has exactly one thread per colour, `q` has a thread for each of its colours and no thread
change before its first stitch, then after `b += q` every stitch has the colour it had. `key` is what `==` compares. With an
unused thread in `b` this fails: `C56_unused_thread`. -/
theorem C56_colours_partial {κ : Type} (key : τ → κ) (eqv : τ → τ → Bool) (hk : ∀ t u, eqv t u = true → key t = key u)
    (filler f : Nat → τ) (b q : Build τ) (hb : b.stitches ≠ []) (h1 : b.threads.length = colorChanges b.stitches + 1)
    (h2 : coloursUsed b.stitches ≤ b.threads.length) (h3 : colorChanges q.stitches < q.threads.length)
    (h4 : ∀ lead tail, q.stitches = lead ++ tail → (∀ a ∈ lead, isSew a = false) → ∀ a ∈ lead, isChange a = false) :
    ∃ r, addPattern eqv filler b q none none none none none = .ok r ∧
      (colored r.threads f 0 r.stitches).map (fun p => (p.1, key p.2)) =
        (colored b.threads f 0 b.stitches ++ colored q.threads f 0 q.stitches).map (fun p => (p.1, key p.2)) := by
  have hfix : fixColorCount b.threads filler b.stitches = b.threads := by
    obtain ⟨new, e, hn, -⟩ := C48_fix b.threads filler b.stitches
    have : new = [] := List.length_eq_zero_iff.1 (by omega)
    rw [e, this, List.append_nil]
  have hbt : b.threads ≠ [] := by intro h; rw [h] at h1; simp at h1
  obtain ⟨r, hr, h⟩ := addPattern_form eqv filler b q none none none none none hb (.inr (by rw [hfix]; exact hbt))
  have hneu : neutralise q.stitches = q.stitches := by
    obtain ⟨lead, tail, e1, e2, -, e4⟩ := neutralise_spec q.stitches
    rw [e4]
    have : lead.map (fun a => if isChange a then ({ a with cmd := -1 } : Stitch) else a) = lead := by
      conv_rhs => rw [← List.map_id lead]
      refine List.map_congr_left ?_
      intro a ha
      rw [h4 lead tail e1 e2 a ha]; rfl
    rw [this, ← e1]
  have htr : transforms none none none none none = [] := rfl
  rw [hfix, hneu, htr, List.append_nil] at h
  refine ⟨r, hr, ?_⟩
  have first : ∀ U, (colored (b.threads ++ U) f 0 (withoutEnd b.stitches)).map (fun p => (p.1, key p.2)) =
      (colored b.threads f 0 b.stitches).map (fun p => (p.1, key p.2)) := by
    intro U
    rw [(colored_withoutEnd _ _ _ _).1]
    refine colored_congr key _ _ f 0 0 _ ?_
    intro i hi
    rw [List.getElem?_append_left (by omega), List.getElem?_eq_getElem (by omega)]
    simp
  rcases h with ⟨-, e2, -⟩ | ⟨P, u, t, ts, e1, e2, e3, e4, e5⟩ | ⟨P, u, t, ts, e1, e2, e3, e4, e5⟩
  · rw [e2] at h3; simp at h3
  · have e4' : r.threads = b.threads ++ ts := by rw [e4, e1]; simp
    rw [e5, colored_append, List.map_append, List.map_append, (colored_withoutEnd r.threads f 0 _).2]
    congr 1
    · rw [e4', first]
    · rw [e4, e2]
      have hP : P.length = colorChanges b.stitches := by
        have := congrArg List.length e1
        simp at this; omega
      refine colored_congr key _ _ f _ 0 _ ?_
      intro i hi
      rw [Nat.zero_add, Nat.zero_add, ← hP, List.getElem?_append_right (by omega), Nat.add_sub_cancel_left]
      rw [e2] at h3
      cases i with
      | zero => simp [hk t u e3]
      | succ i =>
        simp only [List.getElem?_cons_succ]
        rw [List.getElem?_eq_getElem (by simp at h3; omega)]
        simp
  · rw [e5, colored_append, List.map_append, List.map_append, (colored_withoutEnd r.threads f 0 _).2]
    congr 1
    · rw [e4, first]
    · rw [colored, if_neg (by simp [Stitch.low]), if_pos (by simp [Stitch.low]), Nat.zero_add, ← h1, e4]
      refine colored_congr key _ _ f _ 0 _ ?_
      intro i hi
      rw [Nat.zero_add, List.getElem?_append_right (by omega), Nat.add_sub_cancel_left, List.getElem?_eq_getElem (by omega)]
      simp

end

/-- The hypotheses are met, with a merged colour: the added pattern starts with the colour the first one ends with. -/
example : (addPattern (· == ·) (fun _ => '?') ⟨[⟨0, 0, 0⟩, ⟨9, 0, 4⟩], ['r'], 9, 0⟩ ⟨[⟨1, 1, 0⟩, ⟨1, 1, 5⟩, ⟨2, 2, 0⟩], ['r', 'g'], 2, 2⟩
      none none none none none).toOption.map (fun r => (r.stitches, r.threads)) =
    some ([⟨0, 0, 0⟩, ⟨1, 1, 0⟩, ⟨1, 1, 5⟩, ⟨2, 2, 0⟩], ['r', 'g']) := by decide +kernel

/-- A thread of the first pattern that it does not use takes the place of the added pattern's: the stitch at (1, 1) was red and
becomes blue. -/
theorem C56_unused_thread :
    ((addPattern (· == ·) (fun _ => '?') ⟨[⟨0, 0, 0⟩], ['g', 'b'], 0, 0⟩ ⟨[⟨1, 1, 0⟩], ['r'], 1, 1⟩
      none none none none none).toOption.map (fun r => (r.stitches, r.threads)) =
        some ([⟨0, 0, 0⟩, ⟨0, 0, 5⟩, ⟨1, 1, 0⟩], ['g', 'b', 'r'])) ∧
    colored ['r'] (fun _ => '?') 0 [⟨1, 1, 0⟩] = [(⟨1, 1, 0⟩, 'r')] ∧
    colored ['g', 'b', 'r'] (fun _ => '?') 0 [⟨0, 0, 0⟩, ⟨0, 0, 5⟩, ⟨1, 1, 0⟩] = [(⟨0, 0, 0⟩, 'g'), (⟨1, 1, 0⟩, 'b')] := by
  decide +kernel

/-! ## C67 -/

/-- Sewing commands and thread changes divide the pattern into parts. -/
def anchor (a : Stitch) : Bool := isSew a || isChange a

theorem anchor_eq (a : Stitch) : isAnchor (cmdOf a.cmd) = anchor a := by
  rw [cmdOf_low, Bool.eq_iff_iff]
  unfold isAnchor anchor
  rw [Bool.or_eq_true, sew_iff, change_iff, decide_eq_true_iff]
  tauto

def jump (a : Stitch) : Bool := a.low == 1

def stop (a : Stitch) : Bool := a.low == 3

/-- What follows the first jump of the part, from the first stop on. -/
def fromStop (g : List Stitch) : List Stitch := (g.dropWhile (fun a => !jump a)).dropWhile (fun a => !stop a)

/-- The part `g` between two sewing commands or thread changes (or after the last, if `atEnd`): if it holds a jump, later a stop,
and later another jump (which is not needed at the end), everything from the first jump on becomes one FRAME_EJECT (0xE9) at the
place of the stop. -/
def ejectPart (atEnd : Bool) (g : List Stitch) : List Stitch :=
  match fromStop g with
  | [] => g
  | s :: after => if atEnd || after.any jump then g.takeWhile (fun a => !jump a) ++ [⟨s.x, s.y, FRAME_EJECT⟩] else g

/-- The whole pattern, part by part; `g` is the part read so far. -/
def ejectParts : List Stitch → List Stitch → List Stitch
  | g, [] => ejectPart true g
  | g, a :: l => if anchor a then ejectPart false g ++ a :: ejectParts [] l else ejectParts (g ++ [a]) l

/-- The state of the loop after the part `g`, which starts at index `n`. -/
def EjectInv (n : Nat) (g : List Stitch) (s : EjectState) : Prop :=
  (s.mode = 0 ∧ g.dropWhile (fun a => !jump a) = []) ∨
  (s.mode = 1 ∧ g.dropWhile (fun a => !jump a) ≠ [] ∧ fromStop g = [] ∧
    s.start = n + (g.takeWhile (fun a => !jump a)).length) ∨
  (∃ st after, fromStop g = st :: after ∧ s.x = st.x ∧ s.y = st.y ∧
    s.start = n + (g.takeWhile (fun a => !jump a)).length ∧ s.mode = if after.any jump then 3 else 2)

theorem dropWhile_snoc (p : Stitch → Bool) (g : List Stitch) (a : Stitch) :
    (g ++ [a]).dropWhile p = if g.dropWhile p = [] then (if p a then [] else [a]) else g.dropWhile p ++ [a] := by
  rw [List.dropWhile_append]
  by_cases c : g.dropWhile p = []
  · rw [if_pos c, c]; simp [List.dropWhile_cons]
  · rw [if_neg c, if_neg (by simpa using c)]

theorem takeWhile_all {p : Stitch → Bool} {g : List Stitch} (h : g.dropWhile p = []) : g.takeWhile p = g := by
  have := List.takeWhile_append_dropWhile (p := p) (l := g)
  rwa [h, List.append_nil] at this

theorem takeWhile_snoc {p : Stitch → Bool} {g : List Stitch} (h : g.dropWhile p ≠ []) (a : Stitch) :
    (g ++ [a]).takeWhile p = g.takeWhile p := by
  rw [List.takeWhile_append]
  split_ifs with c
  · exfalso
    have := List.takeWhile_append_dropWhile (p := p) (l := g)
    have h2 := congrArg List.length this
    rw [List.length_append, c] at h2
    exact h (List.length_eq_zero_iff.1 (by omega))
  · rfl

theorem fromStop_jump {g : List Stitch} (h : fromStop g ≠ []) : g.dropWhile (fun a => !jump a) ≠ [] := by
  intro c; unfold fromStop at h; rw [c] at h; exact h rfl

theorem fromStop_snoc (g : List Stitch) (a : Stitch) (h : g.dropWhile (fun a => !jump a) ≠ []) :
    fromStop (g ++ [a]) = if fromStop g = [] then (if stop a then [a] else []) else fromStop g ++ [a] := by
  unfold fromStop
  rw [dropWhile_snoc, if_neg h, dropWhile_snoc]
  by_cases c : (g.dropWhile (fun a => !jump a)).dropWhile (fun a => !stop a) = []
  · rw [if_pos c, if_pos c]
    by_cases d : stop a = true
    · simp [d]
    · simp [d]
  · rw [if_neg c, if_neg c]

theorem take_start (base g : List Stitch) (p : Stitch → Bool) :
    (base ++ g).take (base.length + (g.takeWhile p).length) = base ++ g.takeWhile p := by
  rw [List.take_append, List.take_of_length_le (by omega), Nat.add_sub_cancel_left]
  congr 1
  have e := List.takeWhile_append_dropWhile (p := p) (l := g)
  have : (g.takeWhile p ++ g.dropWhile p).take (g.takeWhile p).length = g.takeWhile p := List.take_left
  rwa [e] at this

theorem ejectLoop_spec (rest base g : List Stitch) (s : EjectState) (h : EjectInv base.length g s) :
    ejectLoop (base ++ g) s rest = base ++ ejectParts g rest := by
  induction rest generalizing base g s with
  | nil =>
    unfold ejectLoop ejectParts ejectPart
    rcases h with ⟨h1, h2⟩ | ⟨h1, h2, h3, h4⟩ | ⟨st, after, h1, h2, h3, h4, h5⟩
    · have : fromStop g = [] := by unfold fromStop; rw [h2]; rfl
      rw [if_neg (by omega), this]
    · rw [if_neg (by omega), h3]
    · rw [if_pos (by rw [h5]; split_ifs <;> omega), h1, h4, take_start]
      simp [h2, h3]
  | cons a rest ih =>
    unfold ejectLoop
    rw [anchor_eq, ejectParts]
    by_cases c1 : anchor a = true
    · rw [if_pos c1, if_pos c1]
      have key : ∀ (b : List Stitch) (s' : EjectState), s'.mode = 0 → ejectLoop (b ++ [a]) s' rest = b ++ a :: ejectParts [] rest := by
        intro b s' hs
        have := ih (b ++ [a]) [] s' (.inl ⟨hs, rfl⟩)
        rw [List.append_nil] at this
        rw [this]; simp
      unfold ejectPart
      rcases h with ⟨h1, h2⟩ | ⟨h1, h2, h3, h4⟩ | ⟨st, after, h1, h2, h3, h4, h5⟩
      · have : fromStop g = [] := by unfold fromStop; rw [h2]; rfl
        rw [if_neg (by omega), this, key _ _ rfl]; simp
      · rw [if_neg (by omega), h3, key _ _ rfl]; simp
      · rw [h1]
        by_cases c : after.any jump = true
        · rw [c, if_pos rfl] at h5
          rw [if_pos h5, h4, take_start]
          have := key (base ++ g.takeWhile (fun a => !jump a) ++ [⟨s.x, s.y, FRAME_EJECT⟩]) { s with mode := 0 } rfl
          rw [h4] at this
          simp only [List.append_assoc, List.cons_append, List.nil_append] at this ⊢
          rw [this]
          simp [c, h2, h3]
        · rw [if_neg c] at h5
          rw [if_neg (by omega), key _ _ rfl]
          simp [c]
    · rw [if_neg c1, if_neg c1]
      have push : ∀ s', EjectInv base.length (g ++ [a]) s' → ejectLoop (base ++ g ++ [a]) s' rest = base ++ ejectParts (g ++ [a]) rest := by
        intro s' hs
        rw [List.append_assoc]
        exact ih base (g ++ [a]) s' hs
      by_cases c2 : a.low = 1
      · have hj : jump a = true := by simp [jump, c2]
        have hs : stop a = false := by simp [stop, c2]
        rw [if_pos (show cmdOf a.cmd = JUMP from c2)]
        rcases h with ⟨h1, h2⟩ | ⟨h1, h2, h3, h4⟩ | ⟨st, after, h1, h2, h3, h4, h5⟩
        · rw [if_neg (by omega), if_pos h1]
          refine push _ (.inr (.inl ⟨rfl, ?_, ?_, ?_⟩))
          · rw [dropWhile_snoc, if_pos h2]; simp [hj]
          · unfold fromStop
            rw [dropWhile_snoc, if_pos h2]; simp [hj, hs]
          · rw [List.takeWhile_append, takeWhile_all h2]; simp [hj]
        · rw [if_neg (by omega), if_neg (by omega)]
          refine push _ (.inr (.inl ⟨h1, ?_, ?_, ?_⟩))
          · rw [dropWhile_snoc, if_neg h2]; simp
          · rw [fromStop_snoc _ _ h2, if_pos h3, hs]; rfl
          · rw [takeWhile_snoc h2]; exact h4
        · have hd := fromStop_jump (g := g) (by rw [h1]; simp)
          have hf : fromStop (g ++ [a]) = st :: (after ++ [a]) := by
            rw [fromStop_snoc _ _ hd, h1]; simp
          have hA : (after ++ [a]).any jump = true := by simp [hj]
          by_cases c : after.any jump = true
          · rw [c, if_pos rfl] at h5
            rw [if_neg (by omega), if_neg (by omega)]
            exact push _ (.inr (.inr ⟨st, after ++ [a], hf, h2, h3, by rw [takeWhile_snoc hd]; exact h4, by rw [hA]; exact h5⟩))
          · rw [if_neg c] at h5
            rw [if_pos h5]
            exact push _ (.inr (.inr ⟨st, after ++ [a], hf, h2, h3, by rw [takeWhile_snoc hd]; exact h4, by rw [hA]; rfl⟩))
      · have hj : jump a = false := by simp [jump, c2]
        rw [if_neg (show ¬ cmdOf a.cmd = JUMP from c2)]
        by_cases c3 : a.low = 3
        · have hs : stop a = true := by simp [stop, c3]
          rw [if_pos (show cmdOf a.cmd = STOP from c3)]
          rcases h with ⟨h1, h2⟩ | ⟨h1, h2, h3, h4⟩ | ⟨st, after, h1, h2, h3, h4, h5⟩
          · rw [if_neg (by omega)]
            refine push _ (.inl ⟨h1, ?_⟩)
            rw [dropWhile_snoc, if_pos h2]; simp [hj]
          · rw [if_pos h1]
            refine push _ (.inr (.inr ⟨a, [], ?_, rfl, rfl, ?_, rfl⟩))
            · rw [fromStop_snoc _ _ h2, if_pos h3, hs]; rfl
            · rw [takeWhile_snoc h2]; exact h4
          · have hd := fromStop_jump (g := g) (by rw [h1]; simp)
            have hf : fromStop (g ++ [a]) = st :: (after ++ [a]) := by
              rw [fromStop_snoc _ _ hd, h1]; simp
            have hA : (after ++ [a]).any jump = after.any jump := by simp [hj]
            rw [if_neg (by rw [h5]; split_ifs <;> omega)]
            exact push _ (.inr (.inr ⟨st, after ++ [a], hf, h2, h3, by rw [takeWhile_snoc hd]; exact h4, by rw [hA]; exact h5⟩))
        · have hs : stop a = false := by simp [stop, c3]
          rw [if_neg (show ¬ cmdOf a.cmd = STOP from c3)]
          rcases h with ⟨h1, h2⟩ | ⟨h1, h2, h3, h4⟩ | ⟨st, after, h1, h2, h3, h4, h5⟩
          · refine push _ (.inl ⟨h1, ?_⟩)
            rw [dropWhile_snoc, if_pos h2]; simp [hj]
          · refine push _ (.inr (.inl ⟨h1, ?_, ?_, ?_⟩))
            · rw [dropWhile_snoc, if_neg h2]; simp
            · rw [fromStop_snoc _ _ h2, if_pos h3, hs]; rfl
            · rw [takeWhile_snoc h2]; exact h4
          · have hd := fromStop_jump (g := g) (by rw [h1]; simp)
            have hf : fromStop (g ++ [a]) = st :: (after ++ [a]) := by
              rw [fromStop_snoc _ _ hd, h1]; simp
            have hA : (after ++ [a]).any jump = after.any jump := by simp [hj]
            exact push _ (.inr (.inr ⟨st, after ++ [a], hf, h2, h3, by rw [takeWhile_snoc hd]; exact h4, by rw [hA]; exact h5⟩))

/-- What `interpolate_frame_eject` does to every pattern. -/
theorem C67_actual (l : List Stitch) : frameEject l = ejectParts [] l := by
  have := ejectLoop_spec l [] [] {} (.inl ⟨rfl, rfl⟩)
  simpa [frameEject] using this

theorem ejectPart_free (e : Bool) (g : List Stitch) (h : ∀ a ∈ g, anchor a = false) :
    ∀ a ∈ ejectPart e g, anchor a = false := by
  unfold ejectPart
  cases fromStop g with
  | nil => exact h
  | cons s after =>
    simp only
    split_ifs
    · intro a ha
      rw [List.mem_append, List.mem_singleton] at ha
      rcases ha with ha | rfl
      · exact h a ((List.takeWhile_sublist _).mem ha)
      · rfl
    · exact h

theorem ejectParts_anchors (l g : List Stitch) (h : ∀ a ∈ g, anchor a = false) :
    (ejectParts g l).filter anchor = l.filter anchor := by
  have nil : ∀ (x : List Stitch), (∀ a ∈ x, anchor a = false) → x.filter anchor = [] := by
    intro x hx
    rw [List.filter_eq_nil_iff]
    intro a ha; simp [hx a ha]
  induction l generalizing g with
  | nil => rw [ejectParts, nil _ (ejectPart_free _ _ h)]; rfl
  | cons a l ih =>
    rw [ejectParts]
    by_cases c : anchor a = true
    · rw [if_pos c, List.filter_append, nil _ (ejectPart_free _ _ h), List.filter_cons_of_pos c, List.filter_cons_of_pos c, ih []]
      · rfl
      · simp
    · rw [if_neg c, List.filter_cons_of_neg c, ih]
      intro x hx
      rw [List.mem_append, List.mem_singleton] at hx
      rcases hx with hx | rfl
      · exact h x hx
      · simpa using c

/-- **C67 (partial), keeping.** Every sewing command and every thread change of every pattern is kept, in order. -/
theorem C67_keeps_partial (l : List Stitch) :
    (frameEject l).filter (fun a => isSew a || isChange a) = l.filter (fun a => isSew a || isChange a) := by
  rw [C67_actual]
  exact ejectParts_anchors l [] (by simp)

theorem ejectParts_local (X : List Stitch) (a : Stitch) (ha : anchor a = true) (g : List Stitch) :
    ∃ R, ∀ Z, ejectParts g (X ++ a :: Z) = R ++ a :: ejectParts [] Z := by
  induction X generalizing g with
  | nil =>
    refine ⟨ejectPart false g, fun Z => ?_⟩
    rw [List.nil_append, ejectParts, if_pos ha]
  | cons x X ih =>
    by_cases c : anchor x = true
    · obtain ⟨R, hR⟩ := ih []
      refine ⟨ejectPart false g ++ x :: R, fun Z => ?_⟩
      rw [List.cons_append, ejectParts, if_pos c, hR]; simp
    · obtain ⟨R, hR⟩ := ih (g ++ [x])
      refine ⟨R, fun Z => ?_⟩
      rw [List.cons_append, ejectParts, if_neg c, hR]

theorem ejectParts_free (G Z g : List Stitch) (h : ∀ a ∈ G, anchor a = false) : ejectParts g (G ++ Z) = ejectParts (g ++ G) Z := by
  induction G generalizing g with
  | nil => simp
  | cons a G ih =>
    rw [List.cons_append, ejectParts, if_neg (by simp [h a (by simp)]), ih _ (fun a ha => h a (by simp [ha]))]
    simp

/-- **C67 (partial), replacing.** Wherever two sewing commands or thread changes `a`, `b` have between them jumps, one stop, and
jumps again, these become one FRAME_EJECT at the place of the stop; the pattern before `a` and after `b` is treated on its
own. -/
theorem C67_replaces_partial (X Y J K : List Stitch) (a b s : Stitch) (ha : anchor a = true) (hb : anchor b = true)
    (hJ : ∀ x ∈ J, x.low = 1) (hJ0 : J ≠ []) (hs : s.low = 3) (hK : ∀ x ∈ K, x.low = 1) (hK0 : K ≠ []) :
    ∃ R, frameEject (X ++ a :: (J ++ s :: K) ++ b :: Y) = R ++ a :: ⟨s.x, s.y, FRAME_EJECT⟩ :: b :: frameEject Y ∧
      ∀ Z, frameEject (X ++ a :: Z) = R ++ a :: frameEject Z := by
  obtain ⟨R, hR⟩ := ejectParts_local X a ha []
  refine ⟨R, ?_, fun Z => by rw [C67_actual, C67_actual, hR]⟩
  rw [C67_actual, C67_actual, List.append_assoc, List.cons_append, hR, ejectParts_free]
  · rw [List.nil_append, ejectParts, if_pos hb]
    obtain ⟨j, J', rfl⟩ := List.exists_cons_of_ne_nil hJ0
    obtain ⟨k, K', rfl⟩ := List.exists_cons_of_ne_nil hK0
    have hj : jump j = true := by simp [jump, hJ j (by simp)]
    have hk : jump k = true := by simp [jump, hK k (by simp)]
    have e1 : (j :: J' ++ s :: k :: K').dropWhile (fun a => !jump a) = j :: J' ++ s :: k :: K' := by
      rw [List.cons_append, List.dropWhile_cons_of_neg (by simp [hj])]
    have e2 : fromStop (j :: J' ++ s :: k :: K') = s :: k :: K' := by
      unfold fromStop
      rw [e1, List.dropWhile_append_of_pos, List.dropWhile_cons_of_neg (by simp [stop, hs])]
      intro x hx; simp [stop, hJ x hx]
    have e3 : (j :: J' ++ s :: k :: K').takeWhile (fun a => !jump a) = [] := by
      rw [List.cons_append, List.takeWhile_cons_of_neg (by simp [hj])]
    unfold ejectPart
    rw [e2, e3]
    simp [hk]
  · intro x hx
    have : x.low = 1 ∨ x.low = 3 := by
      rw [List.mem_append, List.mem_cons] at hx
      rcases hx with hx | rfl | hx
      · exact .inl (hJ x hx)
      · exact .inr hs
      · exact .inl (hK x hx)
    rcases this with h | h <;> simp [anchor, isSew, isChange, h]

example : frameEject [⟨0, 0, 0⟩, ⟨5, 0, 1⟩, ⟨9, 0, 1⟩, ⟨9, 0, 3⟩, ⟨5, 0, 1⟩, ⟨1, 0, 0⟩, ⟨1, 0, 2⟩] =
    [⟨0, 0, 0⟩, ⟨9, 0, FRAME_EJECT⟩, ⟨1, 0, 0⟩, ⟨1, 0, 2⟩] := by decide +kernel

/-- Where more than the jumps and the stop is lost: the END after a frame-out at the end of the pattern, a TRIM within the
sequence, and the second of two stops. -/
theorem C67_fails :
    frameEject [⟨0, 0, 0⟩, ⟨5, 0, 1⟩, ⟨5, 0, 3⟩, ⟨5, 0, 4⟩] = [⟨0, 0, 0⟩, ⟨5, 0, FRAME_EJECT⟩] ∧
    frameEject [⟨0, 0, 0⟩, ⟨5, 0, 1⟩, ⟨5, 0, 3⟩, ⟨5, 0, 2⟩, ⟨5, 0, 1⟩, ⟨6, 0, 3⟩, ⟨1, 0, 1⟩, ⟨1, 0, 0⟩] =
      [⟨0, 0, 0⟩, ⟨5, 0, FRAME_EJECT⟩, ⟨1, 0, 0⟩] := by decide +kernel

end Ops
end Emb
