import Verif.Bytes
import Verif.Quant

/-!
# The loops of the smaller stitch readers

A loop is a step on a state and the bytes not yet read. As nothing says beforehand that a loop ends, it is run with a bound
on the number of steps; that the bound is never reached is a theorem.
-/

namespace Emb
namespace Readers

/-- What one round of a `while True` loop does. -/
inductive Next (σ α : Type) where
  /-- adds to the pattern and goes on with a state and the rest of the stream -/
  | again (out : List α) (s : σ) (rest : Bytes)
  /-- adds to the pattern and leaves the loop -/
  | done (out : List α)
  /-- raises an exception -/
  | raise (e : PyErr)

/-- The loop: what it adds to the pattern, or `none` if it has not ended after `fuel` rounds. -/
def loop {σ α : Type} (step : σ → Bytes → Next σ α) : Nat → σ → Bytes → Option (Except PyErr (List α))
  | 0, _, _ => none
  | fuel + 1, s, b =>
    match step s b with
    | .again out s rest => (loop step fuel s rest).map (fun r => r.map (fun l => out ++ l))
    | .done out => some (.ok out)
    | .raise e => some (.error e)

/-- The pattern made of relative records, with `out.end()` at the end. -/
def finish (r : Option (Except PyErr (List Rec))) : Option (Except PyErr (List Stitch)) :=
  r.map (fun e => e.map (fun l => place 0 0 (l ++ [⟨0, 0, END⟩])))

/-- `b & (1 << k) != 0` -/
def bit (b : Int) (k : Nat) : Bool := b / 2 ^ k % 2 == 1

/-- `v`, negated if the flag is set. -/
def flip (flag : Bool) (v : Int) : Int := if flag then -v else v

/-- `out.stitch(dx, dy)`, `out.move(dx, dy)`, `out.trim()`, `out.stop()`, `out.color_change()`, `out.needle_change(n)`;
`EmbPattern.py` 224-287. -/
def stitch (dx dy : Int) : Rec := ⟨dx, dy, STITCH⟩
def move (dx dy : Int) : Rec := ⟨dx, dy, JUMP⟩
def trim : Rec := ⟨0, 0, TRIM⟩
def stop : Rec := ⟨0, 0, STOP⟩
def colorChange : Rec := ⟨0, 0, COLOR_CHANGE⟩
def needleChange (n : Int) : Rec := ⟨0, 0, encodeThreadChange NEEDLE_SET none (some n) none⟩

/-- A loop that reads three bytes per round and ends when there are fewer. -/
def three {σ : Type} (g : σ → Int → Int → Int → List Rec × Option σ) (s : σ) (b : Bytes) : Next σ Rec :=
  match b with
  | b0 :: b1 :: b2 :: rest =>
    match g s b0 b1 b2 with
    | (out, some s) => .again out s rest
    | (out, none) => .done out
  | _ => .done []

/-! ## Loops with records of three bytes -/

/-- `read_ksm_stitches`, `KsmReader.py` 11-53; the state is `trimmed`, `stitched_yet`. -/
def ksmRecord (s : Bool × Bool) (b0 b1 b2 : Int) : List Rec × Option (Bool × Bool) :=
  let x := flip (bit b2 6) b1
  let y := flip (bit b2 5) (-b0)
  let ctrl := b2 % 32
  let moved := x ≠ 0 ∨ y ≠ 0
  let out := if moved then (if s.1 then [move x y] else [stitch x y]) else []
  let s := if moved ∧ s.1 = false then (s.1, true) else s
  if ctrl = 0x00 then (out, some s)
  else if ctrl = 0x07 ∨ ctrl = 0x13 ∨ ctrl = 0x1D then (if s.2 then out ++ [trim] else out, some (true, s.2))
  else if 0x17 ≤ ctrl ∧ ctrl ≤ 0x19 then (out, some (false, s.2))
  else if 0x0B ≤ ctrl ∧ ctrl ≤ 0x12 then (out ++ [needleChange (ctrl - 0x0A)], some (true, s.2))
  else if ctrl = 0x05 then (out ++ [stop], some s)
  else if ctrl = 0x1B then (out, some (false, s.2))
  else (out, none)

/-- `read`, `KsmReader.py` 57-59. -/
def readKsm (fuel : Nat) (f : Bytes) := finish (loop (three ksmRecord) fuel (false, false) (f.drop 0x200))

/-- `b_stitch_encoding_read`, `DsbReader.py` 12-39. -/
def dsbRecord (_ : Unit) (b0 b1 b2 : Int) : List Rec × Option Unit :=
  let y := flip (bit b0 6) (-b1)
  let x := flip (bit b0 5) b2
  if b0 % 32 = 0 then ([stitch x y], some ())
  else if b0 % 32 = 1 then ([move x y], some ())
  else if b0 = 0xF8 then ([], none)
  else if b0 = 0xE7 then ([trim], some ())
  else if b0 = 0xE8 then ([stop], some ())
  else if 0xE9 ≤ b0 ∧ b0 < 0xF8 then ([needleChange (b0 - 0xE8)], some ())
  else ([], none)

/-- `b_stitch_encoding_read` on what follows the header, `DsbReader.py` 4-40. -/
def readDsbBody (fuel : Nat) (f : Bytes) := finish (loop (three dsbRecord) fuel () f)

/-- `z_stitch_encoding_read`, `DszReader.py` 12-37. -/
def dszRecord (_ : Unit) (b0 b1 b2 : Int) : List Rec × Option Unit :=
  let x := flip (bit b2 6) b1
  let y := flip (bit b2 5) (-b0)
  if b2 % 32 = 0 then ([stitch x y], some ())
  else if b2 % 32 = 1 then ([move x y], some ())
  else if b2 = 0x82 then ([stop], some ())
  else if b2 = 0x9B then ([trim], some ())
  else if 0x83 ≤ b2 ∧ b2 ≤ 0x9A then ([needleChange ((b2 - 0x83) / 2)], some ())
  else ([], none)

/-- `z_stitch_encoding_read` on what follows the header, `DszReader.py` 4-38. -/
def readDszBody (fuel : Nat) (f : Bytes) := finish (loop (three dszRecord) fuel () f)

/-- `read`, `FxyReader.py` 4-6 and `GtReader.py` 4-6: a header of fixed length. -/
def readFxy (fuel : Nat) (f : Bytes) := readDszBody fuel (f.drop 0x100)
def readGt (fuel : Nat) (f : Bytes) := readDszBody fuel (f.drop 0x200)

/-- `new_stitch_encoding_read`, `NewReader.py` 9-28. -/
def newRecord (_ : Unit) (b0 b1 b2 : Int) : List Rec × Option Unit :=
  let x := flip (bit b2 6) b0
  let y := flip (bit b2 5) (-b1)
  let ctrl := b2 % 32
  if ctrl = 0 then ([stitch x y], some ())
  else if ctrl = 0b10001 then ([], none)
  else if bit ctrl 1 then ([colorChange], some ())
  else if bit ctrl 0 then ([move x y], some ())
  else ([], some ())

/-- `read`, `NewReader.py` 32-34. -/
def readNew (fuel : Nat) (f : Bytes) := finish (loop (three newRecord) fuel () (f.drop 2))

/-- `read_zxy_stitches`, `ZxyReader.py` 11-29. `ctrl &= ~0x0C` clears bits 2 and 3. -/
def zxyRecord (_ : Unit) (b0 b1 b2 : Int) : List Rec × Option Unit :=
  let x := flip (bit b0 3) b1
  let y := flip (bit b0 2) (-b2)
  let ctrl := b0 - b0 / 4 % 4 * 4
  if ctrl = 0 then ([stitch x y], some ())
  else if bit ctrl 1 then ([move x y], some ())
  else if bit ctrl 5 then
    if b1 = 0xFF then ([], none) else ([needleChange b2], some ())
  else ([], some ())

/-- `read`, `ZxyReader.py` 33-37; `f.seek(None, 1)` is a `TypeError`. -/
def readZxy (fuel : Nat) (f : Bytes) : Option (Except PyErr (List Stitch)) :=
  match readInt16be (f.drop 1) with
  | (none, _) => some (.error .typeError)
  | (some n, rest) => finish (loop (three zxyRecord) fuel () (rest.drop n.toNat))

/-- `read_inb_stitches`, `InbReader.py` 8-26. The colour change carries the displacement. -/
def inbRecord (_ : Unit) (b0 b1 b2 : Int) : List Rec × Option Unit :=
  let y := flip (bit b2 5) (-b1)
  let x := flip (bit b2 6) b0
  if b2 % 16 = 0 then ([stitch x y], some ())
  else if b2 % 16 = 1 then ([⟨x, y, COLOR_CHANGE⟩], some ())
  else if b2 % 16 = 2 then ([move x y], some ())
  else ([], none)

/-- `read`, `InbReader.py` 30-32. -/
def readInb (fuel : Nat) (f : Bytes) := finish (loop (three inbRecord) fuel () (f.drop 0x2000))

/-- `read_10o_sttiches`, `A10oReader.py` 8-36. -/
def tenRecord (_ : Unit) (b0 b1 b2 : Int) : List Rec × Option Unit :=
  let x := flip (bit b0 5) b2
  let y := flip (bit b0 6) (-b1)
  if b0 % 32 = 0 then ([stitch x y], some ())
  else if b0 % 32 = 0x10 then ([move x y], some ())
  else if b0 = 0x8A then ([], some ())
  else if b0 = 0x85 then ([colorChange], some ())
  else if b0 = 0x82 then ([stop], some ())
  else if b0 = 0x81 then ([trim], some ())
  else ([], none)

/-- `read`, `A10oReader.py` 40-41. -/
def read10o (fuel : Nat) (f : Bytes) := finish (loop (three tenRecord) fuel () f)

/-- `stc_stitch_encoding_read`, `StcReader.py` 11-25. -/
def stcRecord (_ : Unit) (b0 b1 b2 : Int) : List Rec × Option Unit :=
  let x := signed8 b0
  let y := -signed8 b1
  if b2 = 0x01 then ([stitch x y], some ())
  else if b2 = 0x00 then ([move x y], some ())
  else if b2 = 25 then ([], none)
  else ([needleChange (b2 - 2)], some ())

/-- `read`, `StcReader.py` 29-31. -/
def readStc (fuel : Nat) (f : Bytes) := finish (loop (three stcRecord) fuel () (f.drop 0x28))

/-- One coordinate of a ZHS record, `ZhsReader.py` 19-32 and 35-49: the bits come alternately from two bytes. -/
def zhsAxis (p q : Int) : Int :=
  let v := p % 2 + q / 2 % 2 * 2 + p / 4 % 2 * 4 + q / 8 % 2 * 8 + p / 16 % 2 * 16 + q / 32 % 2 * 32 + p / 64 % 2 * 64 +
    q / 128 % 2 * 128
  let v := signed8 v
  let v := if v ≥ 63 then v + 1 else v
  if v ≤ -63 then v - 1 else v

/-- `read_zhs_stitches`, `ZhsReader.py` 14-72; the state is `xx`, `yy`. -/
def zhsRecord (s : Int × Int) (b0 b1 b2 : Int) : List Rec × Option (Int × Int) :=
  if b0 = 0x10 then ([], some s)
  else
    let xx := s.1 + zhsAxis b1 b2
    let yy := s.2 + zhsAxis b2 b1
    if b0 = 0x41 then ([], some (xx, yy))
    else if b0 = 0x02 then ([stitch xx (-yy)], some (0, 0))
    else if b0 = 0x01 then ([move xx (-yy)], some (0, 0))
    else if b0 = 0x04 then ([colorChange], some (0, 0))
    else if b0 = 0x80 then ([], none)
    else ([], some (xx, yy))

/-- `read_zhs_stitches` on the stitch part of a file, `ZhsReader.py` 4-73. -/
def readZhsBody (fuel : Nat) (f : Bytes) := finish (loop (three zhsRecord) fuel (0, 0) f)

/-- `read_sunstar_dat_stitches`, `DatReader.py` 97-126. -/
def sunstarRecord (_ : Unit) (b0 b1 b2 : Int) : List Rec × Option Unit :=
  let x := flip (bit b0 7) (b0 % 128)
  let y := -flip (bit b1 7) (b1 % 128)
  let also : List Rec := if x ≠ 0 ∨ y ≠ 0 then [move x y] else []
  if b2 = 0x07 then ([stitch x y], some ())
  else if b2 = 0x04 then ([move x y], some ())
  else if b2 = 0x80 then (trim :: also, some ())
  else if b2 = 0x87 then (colorChange :: also, some ())
  else if b2 = 0x84 then ([stitch x y], some ())
  else ([], none)

/-- `read_sunstar_dat`, `DatReader.py` 130-134. -/
def readSunstar (fuel : Nat) (f : Bytes) := finish (loop (three sunstarRecord) fuel () (f.drop 0x100))

/-- `read_barudan_dat`, `DatReader.py` 11-85; `none` stands for `return False`. There is no `needle_out`: an
`AttributeError`. -/
def barudanStep (_ : Unit) (b : Bytes) : Next Unit (Option Rec) :=
  match b with
  | ctrl :: b1 :: b2 :: rest =>
    if bit ctrl 7 = false then .done [none]
    else
      let dx := flip (bit ctrl 5) b2
      let dy := flip (bit ctrl 6) (-b1)
      let command := ctrl % 32
      let also (r : Rec) : List (Option Rec) := if dx ≠ 0 ∨ dy ≠ 0 then [some r] else []
      if command = 0x00 then .again [some (stitch dx dy)] () rest
      else if command = 0x01 then .again [some (move dx dy)] () rest
      else if command = 0x02 then .again (some ⟨0, 0, FAST⟩ :: also (stitch dx dy)) () rest
      else if command = 0x03 then .again (some ⟨0, 0, FAST⟩ :: also (move dx dy)) () rest
      else if command = 0x04 then .again (some ⟨0, 0, SLOW⟩ :: also (stitch dx dy)) () rest
      else if command = 0x05 then .again (some ⟨0, 0, SLOW⟩ :: also (move dx dy)) () rest
      else if command = 0x06 ∨ command = 0x07 then .again (some trim :: also (move dx dy)) () rest
      else if command = 0x08 then .again (some stop :: also (move dx dy)) () rest
      else if 0x09 ≤ command ∧ command ≤ 0x17 then .raise .attributeError
      else .done []
  | _ => .done []

/-- `read`, `DatReader.py` 137-140. What was read as Barudan stays in the pattern when the file is read again as Sunstar. -/
def readDat (fuel : Nat) (f : Bytes) : Option (Except PyErr (List Stitch)) :=
  match loop barudanStep fuel () f with
  | none => none
  | some (.error e) => some (.error e)
  | some (.ok l) =>
    let recs := l.filterMap id
    if none ∈ l then finish ((loop (three sunstarRecord) fuel () (f.drop 0x100)).map (fun e => e.map (fun l => recs ++ l)))
    else finish (some (.ok recs))

/-! ## Loops with records of two or four bytes -/

/-- `read_emd_stitches`, `EmdReader.py` 8-39. -/
def emdStep (_ : Unit) (b : Bytes) : Next Unit Rec :=
  match b with
  | b0 :: b1 :: rest =>
    if b0 ≠ 0x80 then .again [stitch (signed8 b0) (-signed8 b1)] () rest
    else if b1 = 0x80 then
      match rest with
      | c0 :: c1 :: rest => .again [move (signed8 c0) (-signed8 c1)] () rest
      | _ => .done []
    else if b1 = 0x2A then .again [colorChange] () rest
    else if b1 = 0x7D then .again [] () rest
    else if b1 = 0xAD then .again [trim] () rest
    else if b1 = 0x90 then .again [trim] () rest
    else .done []
  | _ => .done []

/-- `read`, `EmdReader.py` 43-45. -/
def readEmd (fuel : Nat) (f : Bytes) := finish (loop emdStep fuel () (f.drop 0x30))

/-- `read_100_stitches`, `A100Reader.py` 5-24. The signs are kept in the highest bit. -/
def hundredStep (_ : Unit) (b : Bytes) : Next Unit Rec :=
  match b with
  | b0 :: _ :: b2 :: b3 :: rest =>
    let x := if b2 > 0x80 then -(b2 - 0x80) else b2
    let y := if b3 > 0x80 then -(b3 - 0x80) else b3
    if b0 = 0x61 then .again [stitch x (-y)] () rest
    else if bit b0 0 then .again [move x (-y)] () rest
    else .again [colorChange] () rest
  | _ => .done []

/-- `read`, `A100Reader.py` 29-30. -/
def read100 (fuel : Nat) (f : Bytes) := finish (loop hundredStep fuel () f)

/-- `read`, `MitReader.py` 9-38; the state is `previous_ctrl`. The coordinates are doubled (`2.0 * x` is exact). -/
def mitStep (previous : Int) (b : Bytes) : Next Int Rec :=
  match b with
  | b0 :: b1 :: rest =>
    let x := flip (bit b0 7) (b0 % 32 * 2)
    let y := flip (bit b1 7) (-(b1 % 32) * 2)
    let ctrl := b0 / 32 % 4 * 4 + b1 / 32 % 4
    if ctrl = 0b0111 then .again [stitch x y] ctrl rest
    else if ctrl = 0b1100 then .again [move x y] ctrl rest
    else if ctrl = 0b0100 then .again [stitch x y] ctrl rest
    else if ctrl = 0b0101 then .again [stitch x y] ctrl rest
    else if ctrl = 0b1000 then .again (if previous = 0b111 then [colorChange] else []) ctrl rest
    else if ctrl = 0b0000 then .again [⟨0, 0, END⟩] ctrl rest
    else .again [stitch x y] ctrl rest
  | _ => .done []

/-- `read`, `MitReader.py` 4-39. -/
def readMit (fuel : Nat) (f : Bytes) := finish (loop mitStep fuel (-1) f)

/-- `read_jpx_stitches`, `JpxReader.py` 6-30. -/
def jpxStep (_ : Unit) (b : Bytes) : Next Unit Rec :=
  match b with
  | b0 :: b1 :: rest =>
    if b0 ≠ 0x80 then .again [stitch (signed8 b0) (-signed8 b1)] () rest
    else match rest with
      | c0 :: c1 :: rest =>
        let x := signed8 c0
        let y := -signed8 c1
        if b1 = 0x02 then .again [move x y] () rest
        else if b1 = 0x01 then .again (if x ≠ 0 ∧ y ≠ 0 then [colorChange, move x y] else [colorChange]) () rest
        else .done []
      | _ => .done []
  | _ => .done []

/-- `read_jpx_stitches` on the stitch part of a file, `JpxReader.py` 4-31. -/
def readJpxBody (fuel : Nat) (f : Bytes) := finish (loop jpxStep fuel () f)

/-- `read_sew_stitches`, `SewReader.py` 7-26. -/
def sewStep (_ : Unit) (b : Bytes) : Next Unit Rec :=
  match b with
  | b0 :: b1 :: rest =>
    if b0 ≠ 0x80 then .again [stitch (signed8 b0) (-signed8 b1)] () rest
    else match rest with
      | c0 :: c1 :: rest =>
        if bit b1 0 then .again [colorChange] () rest
        else if b1 = 0x04 ∨ b1 = 0x02 then .again [move (signed8 c0) (-signed8 c1)] () rest
        else if b1 = 0x10 then .again [stitch (signed8 c0) (-signed8 c1)] () rest
        else .done []
      | _ => .done []
  | _ => .done []

/-- `read_sew_stitches` on the stitch part of a file, `SewReader.py` 5-27. -/
def readSewBody (fuel : Nat) (f : Bytes) := finish (loop sewStep fuel () f)

/-- A displacement of BRO: two 16-bit numbers; `signed16(None)` is a `TypeError`. -/
def broMove (b : Bytes) (before : List Rec) : Next Unit Rec :=
  match readInt16le b with
  | (none, _) => .raise .typeError
  | (some x, b) =>
    match readInt16le b with
    | (none, _) => .raise .typeError
    | (some y, b) => .again (before ++ [move (signed16 x) (-signed16 y)]) () b

/-- `read_bro_stitches`, `BroReader.py` 10-40. At the end of the file `control` is `None`, which equals none of the codes and
cannot be compared with `<`: a `TypeError`. -/
def broStep (_ : Unit) (b : Bytes) : Next Unit Rec :=
  match b with
  | b0 :: b1 :: rest =>
    if b0 ≠ 0x80 then .again [stitch (signed8 b0) (-signed8 b1)] () rest
    else match readInt8 rest with
      | (none, _) => .raise .typeError
      | (some c, rest) =>
        if c = 0x00 then .again [] () rest
        else if c = 0x02 then .done []
        else if c = 0xE0 then .done []
        else if c = 0x7E then broMove rest []
        else if c = 0x03 then broMove rest []
        else if 0xE0 < c ∧ c < 0xF0 then broMove rest [needleChange (c - 0xE0)]
        else .done []
  | _ => .done []

/-- `read`, `BroReader.py` 44-46. -/
def readBro (fuel : Nat) (f : Bytes) := finish (loop broStep fuel () (f.drop 0x100))

/-- `read`, `SpxReader.py` 6-17: no END is added. `None` in `signed16` and `signed8` is a `TypeError`. -/
def spxStep (_ : Unit) (b : Bytes) : Next Unit Rec :=
  match b with
  | _ :: _ :: rest =>
    match readInt16be rest with
    | (none, _) => .raise .typeError
    | (some y, rest) =>
      match readInt16be rest with
      | (none, _) => .raise .typeError
      | (some x, rest) =>
        match readInt8 rest with
        | (none, _) => .raise .typeError
        | (some c, rest) =>
          match rest with
          | _ :: _ :: rest => .again [stitch (signed16 x) (-signed16 y - signed8 c)] () rest
          | _ => .done []
  | _ => .done []

/-- `read`, `SpxReader.py` 4-17. -/
def readSpx (fuel : Nat) (f : Bytes) : Option (Except PyErr (List Stitch)) :=
  (loop spxStep fuel () (f.drop 0x11E)).map (fun e => e.map (place 0 0))

/-! ## Absolute coordinates -/

/-- A command at an absolute position, or `color_change()`, which stays where the last one was. -/
inductive Call where
  | abs (cmd : Int) (x y : ℚ)
  | here (cmd : Int)
deriving DecidableEq, Repr

/-- The calls carried out one after the other from a position, `EmbPattern.py` 508-518. -/
def perform (x y : ℚ) : List Call → List Stitch
  | [] => []
  | .abs c x y :: rest => ⟨x, y, c⟩ :: perform x y rest
  | .here c :: rest => ⟨x, y, c⟩ :: perform x y rest

/-- The loop of `read_pc_file`, `PcdReader.py`, `PcqReader.py`, `PcsReader.py` 28-49; `5.0 / 3.0` is taken as the exact fraction. If
the control byte can be read, so could all before it. -/
def pcdStep (_ : Unit) (b : Bytes) : Next Unit Call :=
  let (_, b) := readInt8 b
  let (x, b) := readInt24le b
  let (_, b) := readInt8 b
  let (y, b) := readInt24le b
  let (ctrl, b) := readInt8 b
  match ctrl with
  | none => .done []
  | some ctrl =>
    match x, y with
    | some x, some y =>
      let x : ℚ := signed24 x * (5 / 3)
      let y : ℚ := -signed24 y * (5 / 3)
      if ctrl = 0 then .again [.abs STITCH x y] () b
      else if bit ctrl 0 then .again [.here COLOR_CHANGE] () b
      else if bit ctrl 2 then .again [.abs JUMP x y] () b
      else .done []
    | _, _ => .raise .typeError

/-- The stitch part of `read_pc_file`, `PcdReader.py` 28-50. -/
def readPcdBody (fuel : Nat) (f : Bytes) : Option (Except PyErr (List Stitch)) :=
  (loop pcdStep fuel () f).map (fun e => e.map (fun l => perform 0 0 (l ++ [.here END])))

/-- The loop of `read_pc_file`, `PcmReader.py` 37-58. -/
def pcmStep (_ : Unit) (b : Bytes) : Next Unit Call :=
  let (x, b) := readInt24be b
  let (_, b) := readInt8 b
  let (y, b) := readInt24be b
  let (_, b) := readInt8 b
  let (ctrl, b) := readInt8 b
  match ctrl with
  | none => .done []
  | some ctrl =>
    match x, y with
    | some x, some y =>
      let x : ℚ := signed24 x * (5 / 3)
      let y : ℚ := -signed24 y * (5 / 3)
      if ctrl = 0 then .again [.abs STITCH x y] () b
      else if bit ctrl 0 then .again [.here COLOR_CHANGE] () b
      else if bit ctrl 2 then .again [.abs JUMP x y] () b
      else .done []
    | _, _ => .raise .typeError

/-- The stitch part of `read_pc_file`, `PcmReader.py` 37-59. -/
def readPcmBody (fuel : Nat) (f : Bytes) : Option (Except PyErr (List Stitch)) :=
  (loop pcmStep fuel () f).map (fun e => e.map (fun l => perform 0 0 (l ++ [.here END])))

/-- The loop of `read`, `MaxReader.py` 9-20, over the announced number of stitches; the state is how many are left.
`signed24(None)` is a `TypeError`, before the end of the file is noticed. `MAX_SIZE_CONVERSION_RATIO` is taken as exactly 1.235. -/
def maxStep (n : Nat) (b : Bytes) : Next Nat Call :=
  match n with
  | 0 => .done []
  | n + 1 =>
    let (x, b) := readInt24le b
    let (_, b) := readInt8 b
    let (y, b) := readInt24le b
    let (c, b) := readInt8 b
    match x, y with
    | some x, some y =>
      match c with
      | none => .done []
      | some _ => .again [.abs STITCH (signed24 x * (1235 / 1000)) (signed24 y * (1235 / 1000))] n b
    | _, _ => .raise .typeError

/-- `read`, `MaxReader.py` 6-21; `range(0, None)` is a `TypeError`. -/
def readMax (fuel : Nat) (f : Bytes) : Option (Except PyErr (List Stitch)) :=
  match readInt32le (f.drop 0xD5) with
  | (none, _) => some (.error .typeError)
  | (some n, b) =>
    (loop maxStep fuel n.toNat b).map (fun e => e.map (fun l => perform 0 0 (l ++ [.here END])))

end Readers
end Emb
