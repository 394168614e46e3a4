import Verif.Csv
import Verif.Palettes
import Verif.Quant

/-!
# SHV files
-/

namespace Emb
namespace Shv

/-- Local variables of the stitch loop: `in_jump`, `stitches_since_stop`, `max_stitches`, and the entries of `stitch_per_color` that come
after the current one. -/
structure State where
  jump : Bool
  since : Int
  max : Int
  counts : List Int

/-- The colour change before a record, `ShvReader.py` 53-60. -/
def change (s : State) : List Rec × State :=
  if s.since ≥ s.max then
    ([⟨0, 0, COLOR_CHANGE⟩], { s with since := 0, max := s.counts.headD 0xFFFFFFFF, counts := s.counts.tail })
  else ([], s)

/-- The stitch loop, `ShvReader.py` 45-78; `signed16(None)` is a `TypeError`. -/
def recs (s : State) : Bytes → Except PyErr (List Rec)
  | b0 :: b1 :: rest =>
    let c := change s
    if b0 = 0x80 ∧ b1 = 3 then (recs { c.2 with since := c.2.since + 1 } rest).map (c.1 ++ ·)
    else if b0 = 0x80 ∧ b1 = 2 then (recs { c.2 with since := c.2.since + 1, jump := false } rest).map (c.1 ++ ·)
    else if b0 = 0x80 ∧ b1 = 1 then
      match rest with
      | x0 :: x1 :: y0 :: y1 :: rest =>
        (recs { c.2 with since := c.2.since + 3, jump := true } rest).map
          (fun l => c.1 ++ ⟨signed16 (lo8 x1 + lo8 x0 * 2 ^ 8), signed16 (lo8 y1 + lo8 y0 * 2 ^ 8), JUMP⟩ :: l)
      | _ => .error .typeError
    else
      (recs { c.2 with since := c.2.since + (if b0 = 0x80 then 2 else 1) } rest).map
        (fun l => c.1 ++ ⟨signed8 b0, signed8 b1, if s.jump then JUMP else STITCH⟩ :: l)
  | _ => .ok []

/-- The colour loop, `ShvReader.py` 30-36: numbers of stitches and threads. -/
def colours : Nat → Bytes → Except PyErr (List (Int × Thread))
  | 0, _ => .ok []
  | n + 1, b =>
    match (readInt32be b).1, (readInt8 (b.drop 4)).1 with
    | some count, some code =>
      match shvThreads[(code % 43).toNat]? with
      | none => .error .indexError
      | some t => (colours n (b.drop 14)).map (fun l => (count, t) :: l)
    | _, _ => .error .typeError

/-- What reading makes: `extras["name"]`, threads and stitches. -/
structure Found where
  name : Option Str
  threads : List Thread
  stitches : List Stitch
deriving DecidableEq

/-- `read`, `ShvReader.py` 15-79. Without colours `stitch_per_color[0]` is a `KeyError`, which `except IndexError` does not catch. -/
def read (f : Bytes) : Except PyErr Found :=
  match (readInt8 (f.drop 0x56)).1 with
  | none => .error .typeError
  | some length =>
    let p := 0x57 + length.toNat
    match (readInt8 (f.drop p)).1, (readInt8 (f.drop (p + 1))).1 with
    | some width, some height =>
      let skip := ((height + 1) / 2 * width).toNat
      let q := p + 2 + 4 + skip
      match (readInt8 (f.drop q)).1 with
      | none => .error .typeError
      | some n =>
        colours n.toNat (f.drop (q + 19)) >>= fun cs =>
        match cs with
        | [] => .error .keyError
        | c :: rest =>
          (recs { jump := false, since := 0, max := c.1, counts := rest.map Prod.fst } (f.drop (q + 19 + 14 * n.toNat - 2))).map (fun l =>
            { name := decodeUtf8 ((f.drop 0x57).take length.toNat)
              threads := cs.map Prod.snd
              stitches := place 0 0 (l ++ [⟨0, 0, END⟩]) })
    | _, _ => .error .typeError

end Shv
end Emb
