import Verif.Names
import Verif.Stitch
import Verif.Py

/-!
# The generic text writer

The texts themselves are given by the user in the settings and filled in by `str.format_map`, see `GenericText.lean`. Here a
written text is a token that says which text it is and, for segments, what the positions were.
-/

namespace Emb
namespace Generic

/-- What the starts and ends belong to. -/
inductive Level where
  | pattern | document | color | block
deriving DecidableEq, Repr

/-- Which texts the settings have, `GenericWriter.py` 54-82: `own c` is the text for the command `c` (`stitch`, `jump`, ...),
`segment` the one for all others. A text given as a table of texts counts as a text. -/
structure Texts where
  metadataEntry : Bool
  threadEntry : Bool
  start : Level → Bool
  stop : Level → Bool
  colorJoin : Bool
  blockJoin : Bool
  segmentStart : Bool
  segment : Bool
  segmentEnd : Bool
  segmentJoin : Bool
  own : Int → Bool
  zTravel : ℚ

/-- The values available to the text of a segment, `GenericWriter.py` 242-275 and 324-371. -/
structure Env where
  x : ℚ
  y : ℚ
  z : ℚ
  dx : ℚ
  dy : ℚ
  idx : Int
  idy : Int
  ix : Int
  iy : Int
  documentIndex : Int
  colorIndex : Int
  blockIndex : Int
deriving DecidableEq, Repr

/-- A written text. -/
inductive Tok where
  | start (l : Level)
  | stop (l : Level)
  | join (l : Level)
  | metadata (i : Nat)
  | thread (i : Nat)
  | segmentStart
  /-- the text for the command with number `i`; `own` if it is the one for this command in particular -/
  | segment (i : Nat) (cmd : Int) (own : Bool) (e : Env)
  | segmentJoin
  | segmentEnd
deriving DecidableEq, Repr

/-- The fields of the writer that change, `GenericWriter.py` 85-121. -/
structure St where
  docEst : Bool
  colEst : Bool
  blkEst : Bool
  docOpening : Bool
  colOpening : Bool
  blkOpening : Bool
  docClosing : Bool
  colClosing : Bool
  blkClosing : Bool
  documentIndex : Int
  colorIndex : Int
  blockIndex : Int
  xx : Int
  yy : Int
  lastX : ℚ
  lastY : ℚ
  z : ℚ
deriving DecidableEq, Repr

/-- `__init__`, `GenericWriter.py` 85-121. -/
def St.init : St := ⟨false, false, false, false, false, false, false, false, false, -1, -1, -1, 0, 0, 0, 0, 0⟩

/-- `if self.x is not None: write_string_utf8(...)` -/
def text (present : Bool) (t : Tok) : List Tok := if present then [t] else []

/-- `open_document`, `GenericWriter.py` 316-333. -/
def openDocument (s : St) : St :=
  if s.docEst then s
  else { s with docEst := true, documentIndex := s.documentIndex + 1, docOpening := true, colorIndex := 0 }

/-- `open_color`, `GenericWriter.py` 335-354 (the thread of the colour is left out). -/
def openColor (s : St) : St :=
  if s.colEst then s
  else { s with colEst := true, colOpening := true, blockIndex := 0, colorIndex := s.colorIndex + 1 }

/-- `open_block`, `GenericWriter.py` 356-371. -/
def openBlock (s : St) : St :=
  if s.blkEst then s else { s with blkEst := true, blockIndex := s.blockIndex + 1, blkOpening := true }

/-- `close_document`, `GenericWriter.py` 396-400. -/
def closeDocument (s : St) : St := if s.docEst then { s with docEst := false, docClosing := true } else s
/-- `close_color`, `GenericWriter.py` 402-406. -/
def closeColor (s : St) : St := if s.colEst then { s with colEst := false, colClosing := true } else s
/-- `close_block`, `GenericWriter.py` 408-412. -/
def closeBlock (s : St) : St := if s.blkEst then { s with blkEst := false, blkClosing := true } else s

/-- `write_opens`, `GenericWriter.py` 123-139. -/
def writeOpens (T : Texts) (s : St) : List Tok × St :=
  ((if s.docOpening then text (T.start .document) (.start .document) else []) ++
   (if s.colOpening then
     (if T.colorJoin ∧ s.colorIndex ≠ 0 then [.join .color] else []) ++ text (T.start .color) (.start .color) else []) ++
   (if s.blkOpening then
     (if T.blockJoin ∧ s.blockIndex ≠ 0 then [.join .block] else []) ++ text (T.start .block) (.start .block) else []),
   { s with docOpening := false, colOpening := false, blkOpening := false })

/-- `write_closes`, `GenericWriter.py` 141-153. -/
def writeCloses (T : Texts) (s : St) : List Tok × St :=
  ((if s.blkClosing then text (T.stop .block) (.stop .block) else []) ++
   (if s.colClosing then text (T.stop .color) (.stop .color) else []) ++
   (if s.docClosing then text (T.stop .document) (.stop .document) else []),
   { s with docClosing := false, colClosing := false, blkClosing := false })

/-- The commands that can have a text of their own. -/
def owned : List Int :=
  [SEQUIN_MODE, SEQUIN_EJECT, STITCH, TRIM, JUMP, COLOR_CHANGE, NEEDLE_SET, STOP, SLOW, FAST, END]

/-- `get_write_segment`, `GenericWriter.py` 155-201: `none` if nothing is written, else whether the text is the command's own. -/
def getWriteSegment (T : Texts) (cmd : Int) : Option Bool :=
  if cmd ∈ owned ∧ T.own cmd = true then some true
  else if T.segment then some false
  else none

/-- `update_positions`, `GenericWriter.py` 242-275: what does not depend on the indices. -/
def updatePositions (T : Texts) (x y : ℚ) (cmd : Int) (s : St) : (St → Env) × St :=
  let idx := pyRound (x - s.xx)
  let idy := pyRound (y - s.yy)
  (fun s' => ⟨x, y, s.z, x - s.lastX, y - s.lastY, idx, idy, s.xx + idx, s.yy + idy, s'.documentIndex, s'.colorIndex, s'.blockIndex⟩,
   { s with xx := s.xx + idx, yy := s.yy + idy, z := if cmd = STITCH then s.z + T.zTravel else s.z, lastX := x, lastY := y })

/-- What a command opens, `GenericWriter.py` 460-519. -/
def opens (cmd : Int) (s : St) : St :=
  if cmd = TRIM ∨ cmd = NEEDLE_SET then openColor (openDocument s)
  else if cmd = COLOR_CHANGE then openDocument s
  else if cmd ∈ owned then openBlock (openColor (openDocument s))
  else s

/-- What a command closes, `GenericWriter.py` 524-568. -/
def closes (cmd : Int) (s : St) : St :=
  if cmd = TRIM then closeBlock s
  else if cmd = COLOR_CHANGE then closeColor (closeBlock s)
  else if cmd = END then closeDocument (closeColor (closeBlock s))
  else s

/-- `write_segment`, `GenericWriter.py` 373-386. -/
def writeSegment (T : Texts) (t : Tok) : List Tok :=
  text T.segmentStart .segmentStart ++ [t] ++ text T.segmentJoin .segmentJoin ++ text T.segmentEnd .segmentEnd

/-- One round of the loop, `GenericWriter.py` 450-569. `update_command` (277-306) looks the name of the command up, a
`KeyError` for a command without one. -/
def step (T : Texts) (i : Nat) (st : Stitch) (s : St) : Except PyErr (List Tok × St) :=
  let cmd := (decodeCommand st.cmd).1
  lookup nameDict cmd >>= fun _ =>
  match getWriteSegment T cmd with
  | none => .ok ([], s)
  | some own =>
    let (env, s) := updatePositions T st.x st.y cmd s
    let s := opens cmd s
    let (a, s) := writeOpens T s
    let b := writeSegment T (.segment i cmd own (env s))
    let (c, s) := writeCloses T (closes cmd s)
    .ok (a ++ b ++ c, s)

/-- The loop, `GenericWriter.py` 449. -/
def run (T : Texts) : Nat → List Stitch → St → Except PyErr (List Tok × St)
  | _, [], s => .ok ([], s)
  | i, st :: rest, s => step T i st s >>= fun r => run T (i + 1) rest r.2 >>= fun q => .ok (r.1 ++ q.1, q.2)

/-- `write`, `GenericWriter.py` 414-574, for a pattern with that many entries of metadata and threads. The last calls of
`close_block`, `close_color` and `close_document` only set flags that nothing looks at any more. -/
def write (T : Texts) (metadata threads : Nat) (l : List Stitch) : Except PyErr (List Tok) :=
  run T 0 l St.init >>= fun r =>
  .ok (text (T.start .pattern) (.start .pattern) ++
    (if T.metadataEntry then (List.range metadata).map .metadata else []) ++
    (if T.threadEntry then (List.range threads).map .thread else []) ++
    r.1 ++ text (T.stop .pattern) (.stop .pattern))

end Generic
end Emb
