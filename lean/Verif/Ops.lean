import Verif.Blocks
import Verif.Py

/-!
# `EmbPattern`: entering stitches, adding patterns, stops and frame ejects
-/

namespace Emb
namespace Ops

open Blocks

/-! ## Entering stitches -/

/-- `add_command`, `EmbPattern.py` 546-549. -/
def command {τ : Type} (b : Build τ) (cmd : Int) (x y : ℚ) : Build τ := { b with stitches := b.stitches ++ [⟨x, y, cmd⟩] }

/-- `insert`, `EmbPattern.py` 538-540: `list.insert`, which counts a negative position from the end and clamps. -/
def insert {τ : Type} (b : Build τ) (position : Int) (cmd : Int) (x y : ℚ) : Build τ :=
  let n : Int := b.stitches.length
  let i : Int := if position < 0 then position + n else position
  let i : Int := if i < 0 then 0 else if i > n then n else i
  { b with stitches := b.stitches.take i.toNat ++ ⟨x, y, cmd⟩ :: b.stitches.drop i.toNat }

/-- `prepend_command`, `EmbPattern.py` 542-544. -/
def prepend {τ : Type} (b : Build τ) (cmd : Int) (x y : ℚ) : Build τ := { b with stitches := ⟨x, y, cmd⟩ :: b.stitches }

/-- `insert_stitch_relative`, `EmbPattern.py` 520-536. -/
def insertRel {τ : Type} (b : Build τ) (position : Int) (cmd : Int) (dx dy : ℚ) : Build τ :=
  let n : Int := b.stitches.length
  let position : Int := if position < 0 then position + n else position
  if position = 0 then { b with stitches := ⟨dx, dy, cmd⟩ :: b.stitches }
  else if position = n then b.rel cmd dx dy
  else if 0 < position ∧ position < n then
    let p := (b.stitches[position.toNat - 1]?).getD ⟨0, 0, 0⟩
    { b with stitches := b.stitches.take position.toNat ++ ⟨p.x + dx, p.y + dy, cmd⟩ :: b.stitches.drop position.toNat }
  else b

/-! ## Adding a pattern -/

/-- The loop of `add_pattern` over the added stitches, `EmbPattern.py` 646-651: thread changes before the first sewing command
are neutralised. -/
def neutralise : List Stitch → List Stitch
  | [] => []
  | st :: rest =>
    if cmdOf st.cmd = STITCH ∨ cmdOf st.cmd = SEW_TO ∨ cmdOf st.cmd = NEEDLE_AT then st :: rest
    else if cmdOf st.cmd = COLOR_CHANGE ∨ cmdOf st.cmd = COLOR_BREAK ∨ cmdOf st.cmd = NEEDLE_SET then
      { st with cmd := NO_COMMAND } :: neutralise rest
    else st :: neutralise rest

/-- The transforms of `add_pattern`, `EmbPattern.py` 620-633: the commands added for `dx, dy, sx, sy, rotate`. As in the code,
`sy` alone does nothing. -/
def transforms (dx dy sx sy rotate : Option ℚ) : List Stitch :=
  (if dx ≠ none ∨ dy ≠ none then [⟨dx.getD 0, dy.getD 0, MATRIX_TRANSLATE⟩] else []) ++
  (match sx with | some s => [⟨s, sy.getD s, MATRIX_SCALE⟩] | none => []) ++
  (match rotate with | some r => [⟨r, 0, MATRIX_ROTATE⟩] | none => [])

/-- `add_pattern`, `EmbPattern.py` 599-652, for two different pattern objects that share no stitches, without the metadata; `eqv`
is `==` between threads. `self.stitches[-1]` and `self.threadlist[-1]` of an empty list are `IndexError`s. -/
def addPattern {τ : Type} (eqv : τ → τ → Bool) (filler : Nat → τ) (b q : Build τ) (dx dy sx sy rotate : Option ℚ) :
    Except PyErr (Build τ) :=
  match b.stitches.getLast? with
  | none => .error .indexError
  | some last =>
    let b : Build τ := if last.cmd = END then { b with stitches := b.stitches.dropLast } else b
    let b : Build τ := { b with stitches := b.stitches ++ transforms dx dy sx sy rotate }
    let b : Build τ := { b with threads := fixColorCount b.threads filler b.stitches }
    match q.threads with
    | [] => .ok { b with stitches := b.stitches ++ neutralise q.stitches }
    | t :: ts =>
      match b.threads.getLast? with
      | none => .error .indexError
      | some u =>
        if eqv t u then .ok { b with threads := b.threads ++ ts, stitches := b.stitches ++ neutralise q.stitches }
        else
          let b : Build τ := { b with threads := b.threads ++ t :: ts }.rel COLOR_CHANGE 0 0
          .ok { b with stitches := b.stitches ++ neutralise q.stitches }

/-! ## Stops and duplicate colours -/

/-- `self.stitches[last_change][2] = STOP`. -/
def setStop (l : List Stitch) (i : Nat) : List Stitch := l.modify i (fun st => { st with cmd := STOP })

/-- The loop of `interpolate_duplicate_color_as_stop`, `EmbPattern.py` 659-679. `acc` is the part of the list read so far. An
`IndexError` ends the method. -/
def dupLoop {τ : Type} (eqv : τ → τ → Bool) : List Stitch → List τ → Nat → Bool → Option Nat → List Stitch → List Stitch × List τ
  | acc, threads, _, _, _, [] => (acc, threads)
  | acc, threads, ti, init, last, st :: rest =>
    if cmdOf st.cmd = STITCH ∨ cmdOf st.cmd = SEW_TO ∨ cmdOf st.cmd = NEEDLE_AT then
      if init then
        match last with
        | none => dupLoop eqv (acc ++ [st]) threads (ti + 1) false last rest
        | some i =>
          if ti = 0 then dupLoop eqv (acc ++ [st]) threads (ti + 1) false last rest
          else
            match threads[ti - 1]?, threads[ti]? with
            | some a, some b =>
              if eqv a b then dupLoop eqv (setStop (acc ++ [st]) i) (threads.eraseIdx ti) ti false last rest
              else dupLoop eqv (acc ++ [st]) threads (ti + 1) false last rest
            | _, _ => (acc ++ st :: rest, threads)
      else dupLoop eqv (acc ++ [st]) threads ti init last rest
    else if cmdOf st.cmd = COLOR_CHANGE ∨ cmdOf st.cmd = COLOR_BREAK ∨ cmdOf st.cmd = NEEDLE_SET then
      dupLoop eqv (acc ++ [st]) threads ti true (some acc.length) rest
    else dupLoop eqv (acc ++ [st]) threads ti init last rest

/-- `interpolate_duplicate_color_as_stop`, `EmbPattern.py` 654-679. -/
def dupAsStop {τ : Type} (eqv : τ → τ → Bool) (l : List Stitch) (threads : List τ) : List Stitch × List τ :=
  dupLoop eqv [] threads 0 true none l

/-- The loop of `interpolate_stop_as_duplicate_color`, `EmbPattern.py` 684-697. -/
def stopLoop {τ : Type} (change : Int) : List τ → Nat → List Stitch → List Stitch × List τ
  | threads, _, [] => ([], threads)
  | threads, ti, st :: rest =>
    if cmdOf st.cmd = STITCH ∨ cmdOf st.cmd = SEW_TO ∨ cmdOf st.cmd = NEEDLE_AT then
      (st :: (stopLoop change threads ti rest).1, (stopLoop change threads ti rest).2)
    else if cmdOf st.cmd = COLOR_CHANGE ∨ cmdOf st.cmd = COLOR_BREAK ∨ cmdOf st.cmd = NEEDLE_SET then
      (st :: (stopLoop change threads (ti + 1) rest).1, (stopLoop change threads (ti + 1) rest).2)
    else if cmdOf st.cmd = STOP then
      match threads[ti]? with
      | none => (st :: rest, threads)
      | some t =>
        ({ st with cmd := change } :: (stopLoop change (threads.insertIdx ti t) (ti + 1) rest).1,
          (stopLoop change (threads.insertIdx ti t) (ti + 1) rest).2)
    else (st :: (stopLoop change threads ti rest).1, (stopLoop change threads ti rest).2)

/-- `interpolate_stop_as_duplicate_color`, `EmbPattern.py` 681-697. -/
def stopAsDup {τ : Type} (change : Int) (l : List Stitch) (threads : List τ) : List Stitch × List τ :=
  stopLoop change threads 0 l

/-! ## Frame ejects -/

/-- The variables of `interpolate_frame_eject`: `mode`, `sequence_start_position`, `stop_x`, `stop_y`. -/
structure EjectState where
  mode : Nat := 0
  start : Nat := 0
  x : ℚ := 0
  y : ℚ := 0

/-- The commands that end a sequence, `EmbPattern.py` 710-717. -/
def isAnchor (c : Int) : Bool :=
  c = STITCH ∨ c = SEW_TO ∨ c = NEEDLE_AT ∨ c = COLOR_CHANGE ∨ c = COLOR_BREAK ∨ c = NEEDLE_SET

/-- The loop of `interpolate_frame_eject`, `EmbPattern.py` 707-739; `acc` is `self.stitches[:position]`. After a replacement the
code reads the sewing command a second time, with mode 0, which changes nothing. -/
def ejectLoop : List Stitch → EjectState → List Stitch → List Stitch
  | acc, s, [] => if s.mode ≥ 2 then acc.take s.start ++ [⟨s.x, s.y, FRAME_EJECT⟩] else acc
  | acc, s, st :: rest =>
    if isAnchor (cmdOf st.cmd) then
      if s.mode = 3 then ejectLoop (acc.take s.start ++ [⟨s.x, s.y, FRAME_EJECT⟩, st]) { s with mode := 0 } rest
      else ejectLoop (acc ++ [st]) { s with mode := 0 } rest
    else if cmdOf st.cmd = JUMP then
      if s.mode = 2 then ejectLoop (acc ++ [st]) { s with mode := 3 } rest
      else if s.mode = 0 then ejectLoop (acc ++ [st]) { s with start := acc.length, mode := 1 } rest
      else ejectLoop (acc ++ [st]) s rest
    else if cmdOf st.cmd = STOP then
      if s.mode = 1 then ejectLoop (acc ++ [st]) { s with mode := 2, x := st.x, y := st.y } rest
      else ejectLoop (acc ++ [st]) s rest
    else ejectLoop (acc ++ [st]) s rest

/-- `interpolate_frame_eject`, `EmbPattern.py` 699-739. -/
def frameEject (l : List Stitch) : List Stitch := ejectLoop [] {} l

end Ops
end Emb
