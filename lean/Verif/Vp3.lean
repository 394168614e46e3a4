import Verif.Bytes
import Verif.Text
import Verif.Blocks
import Verif.Pattern

/-!
# Pfaff VP3
-/

namespace Emb
namespace Vp3

open Blocks

/-! ## Writing -/

/-- `int(x)` of a number in a 4 byte field. -/
def int32 (v : Int) : Bytes := writeInt32be v

/-- `vp3_write_string_8`, `Vp3Writer.py` 20-22: the length counts characters. -/
def string8 (s : Str) : Bytes := writeInt16be s.length ++ utf8 s

/-- `vp3_write_string_16`, `Vp3Writer.py` 26-28, for ASCII text (the writer only uses it for constants). -/
def string16 (s : Str) : Bytes := writeInt16be (s.length * 2) ++ s.flatMap (fun c => [0, (c.toNat : Int)])

/-- `"Produced by     Software Ltd"`. -/
def producer : Str := "Produced by     Software Ltd".toList

/-- `get_as_colorblocks`, `Vp3Writer.py` 45-59; `cur` is `pattern.stitches[last_pos:pos]`. -/
def blockLoop {τ : Type} (threads : List τ) (filler : Nat → τ) : List Stitch → Nat → List Stitch → List (List Stitch × τ)
  | cur, k, [] => [(cur, threadAt threads filler k)]
  | cur, k, st :: rest =>
    if cmdOf st.cmd ≠ COLOR_CHANGE then blockLoop threads filler (cur ++ [st]) k rest
    else (cur, threadAt threads filler k) :: blockLoop threads filler [st] (k + 1) rest

/-- `get_as_colorblocks`, `Vp3Writer.py` 45-59. -/
def blocks {τ : Type} (threads : List τ) (filler : Nat → τ) (l : List Stitch) : List (List Stitch × τ) :=
  blockLoop threads filler [] 0 l

/-- The loop of `write_stitches_block`, `Vp3Writer.py` 229-267. Commands that are not listed (needle changes, speeds) move
`last_x`, `last_y` without a byte being written. -/
def stitchBytes : ℚ → ℚ → List Stitch → Bytes
  | _, _, [] => []
  | lx, ly, st :: rest =>
    let c := cmdOf st.cmd
    if c = END then [0x80, 0x03]
    else if c = COLOR_CHANGE then stitchBytes lx ly rest
    else if c = TRIM then [0x80, 0x03] ++ stitchBytes lx ly rest
    else if c = SEQUIN_MODE ∨ c = SEQUIN_EJECT ∨ c = STOP ∨ c = JUMP then stitchBytes lx ly rest
    else
      let dx := pyInt (st.x - lx)
      let dy := pyInt (st.y - ly)
      (if c = STITCH then
        if (-127 ≤ dx ∧ dx ≤ 127) ∧ (-127 ≤ dy ∧ dy ≤ 127) ∧ flagsOf st.cmd = 0 then [lo8 dx, lo8 dy]
        else [0x80, 0x01] ++ writeInt16be dx ++ writeInt16be dy ++ [0x80, 0x02]
       else []) ++ stitchBytes (lx + dx) (ly + dy) rest

/-- A block with the distance to its end in front (`vp3_patch_byte_offset`, `Vp3Writer.py` 37-42). -/
def patched (tag : Bytes) (body : Bytes) : Bytes := tag ++ int32 body.length ++ body

/-- `vp3_write_thread`, `Vp3Writer.py` 201-216. -/
def threadBytes (t : Thread) : Bytes :=
  [0x01, 0x00] ++ writeInt24be t.color ++ [0x00, 0x00, 0x00, 0x05, 0x28] ++
  string8 ((t.catalog.map String.toList).getD []) ++ string8 ((t.description.map String.toList).getD (hexColor t)) ++
  string8 ((t.brand.map String.toList).getD [])

/-- The position a block starts from, `Vp3Writer.py` 169-181. -/
def firstPos (first : Bool) (l : List Stitch) : ℚ × ℚ :=
  match l.head? with
  | none => (0, 0)
  | some st => if first then (0, 0) else (st.x, st.y)

/-- The position a block ends at, `Vp3Writer.py` 175-181. -/
def endPos (l : List Stitch) : ℚ × ℚ := lastPos l

/-- `write_stitches_block`, `Vp3Writer.py` 219-268. -/
def stitchesBlock (l : List Stitch) (p : ℚ × ℚ) : Bytes := patched [0x00, 0x01, 0x00] ([0x0A, 0xF6, 0x00] ++ stitchBytes p.1 p.2 l)

/-- `write_vp3_colorblock`, `Vp3Writer.py` 164-198. -/
def colorBlock (first : Bool) (cx cy : ℚ) (b : List Stitch × Thread) : Bytes :=
  let p := firstPos first b.1
  let e := endPos b.1
  patched [0x00, 0x05, 0x00]
    (int32 (pyInt (p.1 - cx) * 100) ++ int32 (pyInt (-(p.2 - cy)) * 100) ++ threadBytes b.2 ++
     int32 (pyInt (e.1 - p.1) * 100) ++ int32 (pyInt (-(e.2 - p.2)) * 100) ++ stitchesBlock b.1 p ++ writeInt8 0)

/-- The blocks one after the other, `Vp3Writer.py` 155-160. -/
def colorBlocks (cx cy : ℚ) : Bool → List (List Stitch × Thread) → Bytes
  | _, [] => []
  | first, b :: rest => colorBlock first cx cy b ++ colorBlocks cx cy false rest

/-- `write_design_block`, `Vp3Writer.py` 112-161. -/
def designBlock (x : Box) (bs : List (List Stitch × Thread)) : Bytes :=
  let width := x.maxX - x.minX
  let height := x.maxY - x.minY
  let hw := width / 2
  let hh := height / 2
  let cx := x.maxX - hw
  let cy := x.maxY - hh
  patched [0x00, 0x03, 0x00]
    (int32 (pyInt cx * 100) ++ int32 (pyInt cy * -100) ++ [0, 0, 0] ++
     int32 (pyInt hw * -100) ++ int32 (pyInt hw * 100) ++ int32 (pyInt hh * -100) ++ int32 (pyInt hh * 100) ++
     int32 (pyInt width * 100) ++ int32 (pyInt height * 100) ++ string16 [] ++
     [0x64, 0x64] ++ int32 4096 ++ int32 0 ++ int32 0 ++ int32 4096 ++
     ("xxPP".toList.map (fun c => (c.toNat : Int))) ++ [0x01, 0x00] ++ string16 producer ++
     writeInt16be bs.length ++ colorBlocks cx cy true bs)

/-- `write_file`, `Vp3Writer.py` 73-106. -/
def fileBlock (l : List Stitch) (x : Box) (bs : List (List Stitch × Thread)) : Bytes :=
  patched [0x00, 0x02, 0x00]
    (string16 [] ++ int32 (pyInt (x.maxX * 100)) ++ int32 (pyInt (x.minY * -100)) ++ int32 (pyInt (x.minX * 100)) ++
     int32 (pyInt (x.maxY * -100)) ++ int32 ((l.length : Int) - countCommands l END) ++ writeInt8 0 ++ writeInt8 bs.length ++
     writeInt8 12 ++ writeInt8 0 ++ writeInt8 1 ++ designBlock x bs)

/-- `write`, `Vp3Writer.py` 62-68, of a pattern with stitches; without any the bounds are infinite, which `int` refuses
(`OverflowError`). -/
def write (threads : List Thread) (filler : Nat → Thread) (l : List Stitch) : Except PyErr Bytes :=
  match bounds l with
  | none => .error .overflowError
  | some x =>
    .ok (utf8 "%vsm%".toList ++ writeInt8 0 ++ string16 producer ++
      fileBlock l x (blocks (fixColorCount threads filler l) filler l))

/-! ## Reading -/

/-- The position after `f.read(n)` at position `p`. -/
def adv (f : Bytes) (p n : Nat) : Nat := p + min n (f.length - p)

/-- `read_int_8`, `read_int_16be`, `read_int_24be`, `read_int_32be` at a position. -/
def r8 (f : Bytes) (p : Nat) : Option Int × Nat := ((readInt8 (f.drop p)).1, adv f p 1)
def r16 (f : Bytes) (p : Nat) : Option Int × Nat := ((readInt16be (f.drop p)).1, adv f p 2)
def r24 (f : Bytes) (p : Nat) : Option Int × Nat := ((readInt24be (f.drop p)).1, adv f p 3)
def r32 (f : Bytes) (p : Nat) : Option Int × Nat := ((readInt32be (f.drop p)).1, adv f p 4)

/-- `signed32`, `Vp3Reader.py` 31-36. -/
def signed32 (b : Int) : Int := if b % 2 ^ 32 > 0x7FFFFFFF then -0x100000000 + b % 2 ^ 32 else b % 2 ^ 32

/-- `signed16(b0, b1)`, `Vp3Reader.py` 39-46. -/
def pair16 (b0 b1 : Int) : Int :=
  let b := lo8 b0 * 2 ^ 8 + lo8 b1
  if b > 0x7FFF then -0x10000 + b else b

/-- `skip_vp3_string`, `Vp3Reader.py` 26-28; `seek(None, 1)` is a `TypeError`. -/
def skipString (f : Bytes) (p : Nat) : Except PyErr Nat :=
  match r16 f p with
  | (none, _) => .error .typeError
  | (some n, p) => .ok (p + n.toNat)

/-- `signed32(read_int_32be(f)) / 100`, with the `TypeError` of `None`. -/
def hundredths (f : Bytes) (p : Nat) : Except PyErr (ℚ × Nat) :=
  match r32 f p with
  | (none, _) => .error .typeError
  | (some v, p) => .ok ((signed32 v : ℚ) / 100, p)

/-- `read_vp3_string_8`, `Vp3Reader.py` 20-23. Without a length the file has ended, and `read(None)` gives `b""`. -/
def readString (f : Bytes) (p : Nat) : Option Str × Nat :=
  match r16 f p with
  | (none, p) => (some [], p)
  | (some n, p) => (decodeUtf8 ((f.drop p).take n.toNat), adv f p n.toNat)

/-- A thread as read. -/
structure RThread where
  color : Option Int
  catalog : Option Str
  description : Option Str
  brand : Option Str
deriving DecidableEq, Repr

/-- The loop over the colours of a thread, `Vp3Reader.py` 114-117. -/
def readColors (f : Bytes) : Nat → Option Int → Nat → Option Int × Nat
  | 0, c, p => (c, p)
  | n + 1, _, p =>
    let a := r24 f p
    readColors f n a.1 (r16 f (r8 f a.2).2).2

/-- `vp3_read_thread`, `Vp3Reader.py` 110-123; `range(0, None)` is a `TypeError`. A new `EmbThread` is black. -/
def readThread (f : Bytes) (p : Nat) : Except PyErr (RThread × Nat) :=
  match r8 f p with
  | (none, _) => .error .typeError
  | (some n, p) =>
    let c := readColors f n.toNat (some 0) (r8 f p).2
    let p := (r8 f (r8 f c.2).2).2
    let cat := readString f p
    let desc := readString f cat.2
    let brand := readString f desc.2
    .ok (⟨c.1, cat.1, desc.1, brand.1⟩, brand.2)

/-- The loop over the stitch bytes, `Vp3Reader.py` 87-107, on signed bytes. -/
def readStitches (b : Build RThread) : List Int → Except PyErr (Build RThread)
  | x :: y :: rest =>
    if lo8 x ≠ 0x80 then readStitches (b.rel STITCH x y) rest
    else if y = 0x01 then
      match rest with
      | a0 :: a1 :: b0 :: b1 :: _ :: _ :: rest => readStitches (b.rel STITCH (pair16 a0 a1) (pair16 b0 b1)) rest
      | a0 :: a1 :: b0 :: b1 :: _ => .ok (b.rel STITCH (pair16 a0 a1) (pair16 b0 b1))
      | _ => .error .indexError
    else if y = 0x03 then readStitches (b.rel TRIM 0 0) rest
    else readStitches b rest
  | _ => .ok b

/-- `vp3_read_colorblock`, `Vp3Reader.py` 70-107. `f.read` of a negative number of bytes reads all. -/
def readBlock (f : Bytes) (cx cy : ℚ) (b : Build RThread) (p : Nat) : Except PyErr (Build RThread × Nat) :=
  let p := adv f p 3
  match r32 f p with
  | (none, _) => .error .typeError
  | (some d, p) =>
    let stop : Int := d + p
    hundredths f p >>= fun sx =>
    hundredths f sx.2 >>= fun sy =>
    let x := sx.1 + cx
    let y := -sy.1 + cy
    let b := if x ≠ 0 ∧ y ≠ 0 then b.abs JUMP x y else b
    readThread f sy.2 >>= fun t =>
    let b := { b with threads := b.threads ++ [t.1] }
    let p := adv f (t.2 + 15) 3
    let n : Int := stop - p
    let bytes := if n < 0 then f.drop p else (f.drop p).take n.toNat
    readStitches b (bytes.map signed8) >>= fun b =>
    .ok (b, p + bytes.length)

/-- The loop over the colour blocks, `Vp3Reader.py` 63-66. -/
def readBlocks (f : Bytes) (cx cy : ℚ) : Nat → Build RThread → Nat → Except PyErr (Build RThread)
  | 0, b, _ => .ok b
  | n + 1, b, p =>
    readBlock f cx cy b p >>= fun r =>
    readBlocks f cx cy n (if n = 0 then r.1 else r.1.rel COLOR_CHANGE 0 0) r.2

/-- `read` into an empty pattern, `Vp3Reader.py` 49-67. -/
def read (f : Bytes) : Except PyErr (Build RThread) :=
  let p := adv f 0 6
  skipString f p >>= fun p =>
  skipString f (p + 7) >>= fun p =>
  hundredths f (p + 32) >>= fun cx =>
  hundredths f cx.2 >>= fun cy =>
  skipString f (cy.2 + 27) >>= fun p =>
  skipString f (p + 24) >>= fun p =>
  match r16 f p with
  | (none, _) => .error .typeError
  | (some n, p) =>
    readBlocks f cx.1 (-cy.1) n.toNat {} p >>= fun b =>
    .ok (b.rel END 0 0)

end Vp3
end Emb
