import Verif.Ops
import Verif.Spec

/-!
# `EmbPattern`: `+=` and `add_block`

Models `__iadd__` (`EmbPattern.py` 151-195) for threads, commands and lists or tuples, and `add_block` (551-581). A call that raises may
have added stitches before, so the pattern is returned beside the error.
-/

namespace Emb
namespace Enter

open Blocks

/-- A list or tuple of numbers inside the argument, by its length. Further components of a longer one are not looked at. -/
inductive Item where
  | nil
  | one (x : ℚ)
  | two (x y : ℚ)
  | three (x y : ℚ) (cmd : Int)
deriving DecidableEq, Repr

/-- A list or tuple of points in one of the three accepted forms. The code looks at the type of the first element only; mixed lists are
not modelled. -/
inductive Arg where
  | items (l : List Item)
  | complexes (l : List (ℚ × ℚ))
  | numbers (l : List ℚ)
deriving DecidableEq, Repr

/-- `len(other) == 0`. -/
def Arg.empty : Arg → Bool
  | .items l => l.isEmpty
  | .complexes l => l.isEmpty
  | .numbers l => l.isEmpty

variable {τ : Type}

/-- The loop over lists or tuples, `EmbPattern.py` 170-177 and 561-568: `v[0]` and `v[1]` are `IndexError`s where there are none, and
without `v[2]` the command is STITCH. -/
def itemsLoop : Build τ → List Item → Build τ × Option PyErr
  | b, [] => (b, none)
  | b, .nil :: _ => (b, some .indexError)
  | b, .one _ :: _ => (b, some .indexError)
  | b, .two x y :: l => itemsLoop (b.abs STITCH x y) l
  | b, .three x y cmd :: l => itemsLoop (b.abs cmd x y) l

/-- The loop over complex numbers, `EmbPattern.py` 179-182 and 570-573. -/
def complexLoop : Build τ → List (ℚ × ℚ) → Build τ × Option PyErr
  | b, [] => (b, none)
  | b, v :: l => complexLoop (b.abs STITCH v.1 v.2) l

/-- The loop over plain numbers, `EmbPattern.py` 186-190 and 575-579: `other[i + 1]` behind the end is an `IndexError`. -/
def numbersLoop : Build τ → List ℚ → Build τ × Option PyErr
  | b, [] => (b, none)
  | b, [_] => (b, some .indexError)
  | b, x :: y :: l => numbersLoop (b.abs STITCH x y) l

/-- The choice of the loop by the type of the first element, `EmbPattern.py` 167-190 and 559-579. -/
def loop (b : Build τ) : Arg → Build τ × Option PyErr
  | .items l => itemsLoop b l
  | .complexes l => complexLoop b l
  | .numbers l => numbersLoop b l

/-- What `p += other` leaves: the pattern object, and what the name `p` is bound to. -/
inductive Bound where
  | pattern
  | nothing
  | raised (e : PyErr)
deriving DecidableEq, Repr

/-- `p += other` for a list or tuple, `EmbPattern.py` 163-190, 195. For an empty one the method returns without a value, so that the name
is bound to `None`. -/
def iadd (b : Build τ) (other : Arg) : Build τ × Bound :=
  if other.empty then (b, .nothing)
  else match loop b other with
    | (b, some e) => (b, .raised e)
    | (b, none) => (b, .pattern)

/-- `p += thread`, `EmbPattern.py` 154-160. -/
def iaddThread (b : Build τ) (t : τ) : Build τ :=
  let b : Build τ := { b with threads := b.threads ++ [t] }
  if b.stitches.any (fun st => cmdOf st.cmd = STITCH ∨ cmdOf st.cmd = SEW_TO ∨ cmdOf st.cmd = NEEDLE_AT) then b.rel COLOR_CHANGE 0 0 else b

/-- `p += command`, `EmbPattern.py` 161-162. -/
def iaddCommand (b : Build τ) (cmd : Int) : Build τ := Ops.command b cmd 0 0

/-- `add_block(block, thread)`, `EmbPattern.py` 551-581. -/
def addBlock (b : Build τ) (block : Option Arg) (thread : Option τ) : Build τ × Option PyErr :=
  let b : Build τ := match thread with
    | some t => { b with threads := b.threads ++ [t] }
    | none => b
  match block with
  | none => (b, none)
  | some a =>
    if a.empty then (b, none)
    else match loop b a with
      | (b, some e) => (b, some e)
      | (b, none) => (Ops.command b COLOR_BREAK 0 0, none)

/-- `append_translation(x, y)`, `EmbPattern.py` 874-878: the command is entered by `add_stitch_relative`, so that its amounts are added to the
previous position. -/
def appendTranslation (b : Build τ) (x y : ℚ) : Build τ := b.rel MATRIX_TRANSLATE x y

/-- `get_match_commands`, `EmbPattern.py` 383-387. -/
def matchCommands (l : List Stitch) (command : Int) : List Stitch := l.filter (fun st => cmdOf st.cmd = command)

end Enter
end Emb
