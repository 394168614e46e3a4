import Verif.Format
import Verif.Pattern

/-!
# Barudan U01
-/

namespace Emb
namespace U01

/-- `cmd = 0x80` with the direction bits, `U01Writer.py` 50-54 (the bits are distinct, so `|` is `+`). -/
def base (dx dy : Int) : Int := 0x80 + (if dy ≥ 0 then 0x40 else 0) + (if dx ≤ 0 then 0x20 else 0)

/-- `bytes(bytearray([cmd, delta_y, delta_x]))` with the absolute displacements, `U01Writer.py` 55-56, 64: values above 255 are
a `ValueError`. -/
def triple (cmd dx dy : Int) : Except PyErr Bytes :=
  if IsByte cmd ∧ IsByte |dy| ∧ IsByte |dx| then .ok [cmd, |dy|, |dx|] else .error .valueError

/-- `cmd |= 0x02` and `cmd |= 0x04` for pending speed changes, `U01Writer.py` 58-63 and 66-71. -/
def speedBits (fast slow : Bool) : Int := (if fast then 0x02 else 0) + (if slow then 0x04 else 0)

/-- The needle actually written, `U01Writer.py` 83-84. -/
def needleCode (n : Int) : Int := if n ≥ 15 then n % 15 + 1 else n

/-- The loop of `write` and what follows it, `U01Writer.py` 32-90; `fast`, `slow` are `trigger_fast`, `trigger_slow`, the
records come from `wdeltas`. A NEEDLE_SET without a needle is a `TypeError` (`None >= 15`). Added to `cmd` are bits not yet
set, and a needle of at most 15 on top of 8. -/
def writeRecs : Bool → Bool → List Rec → Except PyErr Bytes
  | _, _, [] => .ok [0xF8, 0x00, 0x00]
  | fast, slow, r :: rest =>
    let c := cmdOf r.cmd
    if c = SLOW then writeRecs fast true rest
    else if c = FAST then writeRecs true slow rest
    else if c = STITCH then
      triple (base r.dx r.dy + speedBits fast slow) r.dx r.dy >>= fun b =>
      writeRecs false false rest >>= fun t => .ok (b ++ t)
    else if c = JUMP then
      triple (base r.dx r.dy + speedBits fast slow + 0x01) r.dx r.dy >>= fun b =>
      writeRecs false false rest >>= fun t => .ok (b ++ t)
    else if c = STOP then
      triple (base r.dx r.dy + 0x08) r.dx r.dy >>= fun b => writeRecs fast slow rest >>= fun t => .ok (b ++ t)
    else if c = TRIM then
      triple (base r.dx r.dy + 0x07) r.dx r.dy >>= fun b => writeRecs fast slow rest >>= fun t => .ok (b ++ t)
    else if c = NEEDLE_SET then
      match (decodeCommand r.cmd).2.2.1 with
      | none => .error .typeError
      | some n =>
        triple (base r.dx r.dy + 0x08 + needleCode n) r.dx r.dy >>= fun b =>
        writeRecs fast slow rest >>= fun t => .ok (b ++ t)
    else if c = END then .ok [0xF8, 0x00, 0x00]
    else writeRecs fast slow rest

/-- The header of a pattern with stitches, `U01Writer.py` 15-30, for a stream that starts at position 0: 128 characters
"0", then extents, count and end position padded to 256 bytes. -/
def header (l : List Stitch) (b : Box) (last : Stitch) : Bytes :=
  let h := List.replicate 0x80 0x30 ++ writeInt16le (pyInt b.minX) ++ writeInt16le (-pyInt b.maxY) ++
    writeInt16le (pyInt b.maxX) ++ writeInt16le (-pyInt b.minY) ++ writeInt32le 0 ++ writeInt32le (l.length + 1) ++
    writeInt16le (pyInt last.x) ++ writeInt16le (-pyInt last.y)
  h ++ List.replicate (0x100 - h.length) 0

/-- `write`, `U01Writer.py` 12-90: the whole file. -/
def write (l : List Stitch) : Except PyErr Bytes :=
  match bounds l, l.getLast? with
  | some b, some last => writeRecs false false (wdeltas 0 0 l) >>= fun t => .ok (header l b last ++ t)
  | _, _ => .ok (List.replicate 0x80 0x30)

/-- A displacement after a record that only has a command: `if dx != 0 or dy != 0: out.move(dx, dy)` (or `stitch`). -/
def also (c dx dy : Int) : List Rec := if dx ≠ 0 ∨ dy ≠ 0 then [⟨dx, dy, c⟩] else []

/-- What one record adds to the pattern, `U01Reader.py` 18-82 (`ctrl & 0b11111` already taken); `none` ends the design. -/
def interpret (command dx dy : Int) : Option (List Rec) :=
  if command = 0x00 then some [⟨dx, dy, STITCH⟩]
  else if command = 0x01 then some [⟨dx, dy, JUMP⟩]
  else if command = 0x02 then some (⟨0, 0, FAST⟩ :: also STITCH dx dy)
  else if command = 0x03 then some (⟨0, 0, FAST⟩ :: also JUMP dx dy)
  else if command = 0x04 then some (⟨0, 0, SLOW⟩ :: also STITCH dx dy)
  else if command = 0x05 then some (⟨0, 0, SLOW⟩ :: also JUMP dx dy)
  else if command = 0x06 then some (⟨0, 0, TRIM⟩ :: also JUMP dx dy)
  else if command = 0x07 then some (⟨0, 0, TRIM⟩ :: also JUMP dx dy)
  else if command = 0x08 then some (⟨0, 0, STOP⟩ :: also JUMP dx dy)
  else if 0x09 ≤ command ∧ command ≤ 0x17 then
    some (⟨0, 0, encodeThreadChange NEEDLE_SET none (some (command - 0x08)) none⟩ :: also JUMP dx dy)
  else none

/-- `read_u01_stitches` without the final `out.end()`, `U01Reader.py` 4-82. -/
def readRecs : Bytes → List Rec
  | ctrl :: b1 :: b2 :: rest =>
    let dx := if ctrl / 32 % 2 = 1 then -b2 else b2
    let dy := if ctrl / 64 % 2 = 1 then b1 else -b1
    match interpret (ctrl % 32) dx dy with
    | some rs => rs ++ readRecs rest
    | none => []
  | _ => []

/-- `read`, `U01Reader.py` 86-89, into an empty pattern: the 256 header bytes are skipped. -/
def read (f : Bytes) : List Stitch := place 0 0 (readRecs (f.drop 0x100) ++ [⟨0, 0, END⟩])

end U01
end Emb
