import Verif.Dst
import Verif.Exp
import Verif.PecFile

/-!
# Formats whose stitches are DST, EXP or PEC records: TAP, EXY, STX, PHB, PHC

Each reader finds where the stitches begin and hands over to the reader of the other format. `f.seek` to a place after the end leaves
nothing to read; computing with the `None` then read is a `TypeError`.
-/

namespace Emb
namespace Containers
open Pec

/-- `read`, `TapReader.py` 4-5. -/
def readTap (trimAt : Int) (dist : Option ℚ) (clipping : Bool) (f : Bytes) : List Stitch := Dst.readBody trimAt dist clipping f

/-- `read`, `ExyReader.py` 4-6. -/
def readExy (trimAt : Int) (dist : Option ℚ) (clipping : Bool) (f : Bytes) : List Stitch := Dst.readBody trimAt dist clipping (f.drop 0x100)

/-- `read`, `StxReader.py` 5-12: the third number after the first 12 bytes is where the stitches begin. -/
def readStx (f : Bytes) : Except PyErr (List Stitch) :=
  match (readInt32le (f.drop (0x0C + 8))).1 with
  | none => .error .typeError
  | some start => .ok (Exp.read (f.drop start.toNat))

/-- The entry of the PEC thread table for a byte; `threadset[b % len(threadset)]`. -/
def pecThread (b : Int) : Option Thread := (palette[(b % 65).toNat]?).getD none

/-- The colour loop of `read`, `PhbReader.py` 11-12. -/
def phbColours : Nat → Bytes → Except PyErr (List Thread)
  | 0, _ => .ok []
  | n + 1, b =>
    match (readInt8 b).1 with
    | none => .error .typeError
    | some c => (phbColours n (readInt8 b).2).map (fun l => added (pecThread c) :: l)

/-- `read`, `PhbReader.py` 6-32. -/
def readPhb (f : Bytes) : Except PyErr Design :=
  match (readInt16le (f.drop 0x71)).1 with
  | none => .error .typeError
  | some count =>
    phbColours count.toNat (f.drop 0x73) >>= fun threads =>
    match (readInt32le (f.drop 0x54)).1 with
    | none => .error .typeError
    | some a =>
      let o1 := 0x52 + a.toNat
      match (readInt32le (f.drop o1)).1 with
      | none => .error .typeError
      | some b =>
        let o2 := o1 + b.toNat + 2
        match (readInt32le (f.drop o2)).1 with
        | none => .error .typeError
        | some c =>
          let o3 := o2 + c.toNat
          match (readInt8 (f.drop (o3 + 14))).1 with
          | none => .error .typeError
          | some n =>
            .ok ({ label := none, threads := threads, stitches := readSection (f.drop (o3 + 15 + n.toNat + 0x15)), graphics := [] } : Design).stops

/-- The colour loop of `read`, `PhcReader.py` 13-17: the threads, the rest, and whether all were there. -/
def phcColours : Nat → Bytes → List Thread × Bytes × Bool
  | 0, b => ([], b, true)
  | n + 1, b =>
    match (readInt8 b).1 with
    | none => ([], (readInt8 b).2, false)
    | some c =>
      let r := phcColours n (readInt8 b).2
      (added (pecThread c) :: r.1, r.2)

/-- `read`, `PhcReader.py` 6-34; the graphics, `PecReader.py` 47-54. -/
def readPhc (f : Bytes) : Except PyErr Design :=
  match (readInt8 (f.drop 0x4A)).1, (readInt8 (f.drop 0x4C)).1, (readInt16le (f.drop 0x4D)).1 with
  | some height, some stride, some count =>
    let r := phcColours count.toNat (f.drop 0x4F)
    if r.2.2 = false then .ok { label := none, threads := r.1, stitches := [], graphics := [] }
    else
      let size := (stride * height).toNat
      let graphics := (List.range count.toNat).map (fun i => ((r.2.1.drop (i * size)).take size, stride, if i = 0 then none else r.1[i - 1]?))
      match (readInt8 (f.drop 0x2B)).1, (readInt16le (f.drop 0x30)).1 with
      | some add, some offset =>
        let p := offset.toNat + add.toNat
        match (readInt16le (f.drop p)).1 with
        | none => .error .typeError
        | some b1 =>
          let p1 := p + 2 + b1.toNat
          match (readInt32le (f.drop p1)).1 with
          | none => .error .typeError
          | some b2 =>
            let p2 := p1 + 4 + b2.toNat + 10
            match (readInt8 (f.drop p2)).1 with
            | none => .error .typeError
            | some n =>
              .ok ({ label := none, threads := r.1, stitches := readSection (f.drop (p2 + 1 + n.toNat + 0x1D)), graphics := graphics } : Design).stops
      | _, _ => .error .typeError
  | _, _, _ => .error .typeError

end Containers
end Emb
