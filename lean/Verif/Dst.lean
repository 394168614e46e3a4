import Verif.Bytes
import Verif.Quant
import Verif.Trims

/-!
# Tajima DST: records, body, reader
-/

namespace Emb
namespace Dst

/-- One of the paired `if x > lim: ... x -= w` / `if x < -lim: ... x += w` of `encode_record`
(`DstWriter.py` 29-58 and 63-92): the "+w" bit, the "-w" bit and what is left. -/
def tern (lim w x : Int) : Int × Int × Int :=
  let p : Int := if x > lim then 1 else 0
  let x1 := if x > lim then x - w else x
  let m : Int := if x1 < -lim then 1 else 0
  (p, m, if x1 < -lim then x1 + w else x1)

/-- The five pairs of bits of one axis and the remainder, `DstWriter.py` 29-58 (x) and 63-92 (y). -/
structure Axis where
  p81 : Int
  m81 : Int
  p27 : Int
  m27 : Int
  p9 : Int
  m9 : Int
  p3 : Int
  m3 : Int
  p1 : Int
  m1 : Int
  rest : Int

/-- `DstWriter.py` 29-58 and 63-92. -/
def axis (x : Int) : Axis :=
  let t1 := tern 40 81 x
  let t2 := tern 13 27 t1.2.2
  let t3 := tern 4 9 t2.2.2
  let t4 := tern 1 3 t3.2.2
  let t5 := tern 0 1 t4.2.2
  ⟨t1.1, t1.2.1, t2.1, t2.2.1, t3.1, t3.2.1, t4.1, t4.2.1, t5.1, t5.2.1, t5.2.2⟩

/-- `encode_record(x, y, flags)`, `DstWriter.py` 18-104. Bits are added, each at most once. -/
def encodeRecord (x y flags : Int) : Except PyErr Bytes :=
  let y := -y
  let j : Int := if flags = JUMP ∨ flags = SEQUIN_EJECT then 128 else 0
  if flags = STITCH ∨ flags = JUMP ∨ flags = SEQUIN_EJECT then
    let a := axis x
    let b := axis y
    if a.rest ≠ 0 then .error .valueError
    else if b.rest ≠ 0 then .error .valueError
    else .ok
      [4 * a.p9 + 8 * a.m9 + a.p1 + 2 * a.m1 + 32 * b.p9 + 16 * b.m9 + 128 * b.p1 + 64 * b.m1,
       4 * a.p27 + 8 * a.m27 + a.p3 + 2 * a.m3 + 32 * b.p27 + 16 * b.m27 + 128 * b.p3 + 64 * b.m3,
       j + 1 + 2 + 4 * a.p81 + 8 * a.m81 + 32 * b.p81 + 16 * b.m81]
  else if flags = COLOR_CHANGE then .ok [0, 0, 0xC3]
  else if flags = STOP then .ok [0, 0, 0xC3]
  else if flags = END then .ok [0, 0, 0xF3]
  else if flags = SEQUIN_MODE then .ok [0, 0, 0x43]
  else .ok [0, 0, 0]

/-- `getbit(b, pos)`, `DstReader.py` 1-2. -/
def getbit (b : Int) (pos : Nat) : Int := shr b pos % 2

/-- `decode_dx`, `DstReader.py` 5-17. -/
def decodeDx (b0 b1 b2 : Int) : Int :=
  getbit b2 2 * 81 + getbit b2 3 * (-81) + getbit b1 2 * 27 + getbit b1 3 * (-27) + getbit b0 2 * 9 +
  getbit b0 3 * (-9) + getbit b1 0 * 3 + getbit b1 1 * (-3) + getbit b0 0 * 1 + getbit b0 1 * (-1)

/-- `decode_dy`, `DstReader.py` 20-32. -/
def decodeDy (b0 b1 b2 : Int) : Int :=
  -(getbit b2 5 * 81 + getbit b2 4 * (-81) + getbit b1 5 * 27 + getbit b1 4 * (-27) + getbit b0 5 * 9 +
  getbit b0 4 * (-9) + getbit b1 7 * 3 + getbit b1 6 * (-3) + getbit b0 7 * 1 + getbit b0 6 * (-1))

/-- Python `b & mask == mask` on a byte. -/
def hasMask (b : Int) (mask : Nat) : Bool := b.toNat &&& mask == mask

/-- What the chain of masks of `dst_read_stitches` makes of a third byte, `DstReader.py` 75-88; `none` is the `break`. -/
def classify (sequin : Bool) (b2 : Int) : Option Int :=
  if hasMask b2 0xF3 then none
  else if hasMask b2 0xC3 then some COLOR_CHANGE
  else if hasMask b2 0x43 then some SEQUIN_MODE
  else if hasMask b2 0x83 then some (if sequin then SEQUIN_EJECT else JUMP)
  else some STITCH

/-- The reading loop of `dst_read_stitches`, `DstReader.py` 67-88: the relative records. -/
def readRecs (sequin : Bool) : Bytes → List Rec
  | b0 :: b1 :: b2 :: rest =>
    match classify sequin b2 with
    | none => []
    | some c =>
      ⟨decodeDx b0 b1 b2, decodeDy b0 b1 b2, c⟩ :: readRecs (if c = SEQUIN_MODE then !sequin else sequin) rest
  | _ => []

/-- `dst_read_stitches` on the bytes after the header, `DstReader.py` 67-100, into an empty pattern; the settings
`trim_at`, `trim_distance` (in mm, hence the factor 10) and `clipping` are arguments. -/
def readBody (trimAt : Int) (dist : Option ℚ) (clipping : Bool) (b : Bytes) : List Stitch :=
  let recs := readRecs false b
  interpolateTrims (some trimAt) (dist.map (· * 10)) clipping (place 0 0 (recs ++ [⟨0, 0, END⟩]))

/-- `read`, `DstReader.py` 103-105: the first 512 bytes are the header (its metadata is not modelled here). -/
def read (trimAt : Int) (dist : Option ℚ) (clipping : Bool) (f : Bytes) : List Stitch :=
  readBody trimAt dist clipping (f.drop 512)

/-- The jumps after the first of a trim burst: `n` alternating ones starting with `delta`, then half of the next
(`DstWriter.py` 180-183; `delta / 2` is exact since `delta` is 4 or -4). -/
def burstTail : Nat → Int → List Rec
  | 0, d => [⟨d / 2, d / 2, JUMP⟩]
  | n + 1, d => ⟨d, d, JUMP⟩ :: burstTail n (-d)

/-- The jumps written for a TRIM, `DstWriter.py` 177-183; `range(1, trim_at - 1)` has `trim_at - 2` elements. -/
def burst (trimAt : Int) : List Rec := ⟨2, 2, JUMP⟩ :: burstTail (trimAt - 2).toNat (-4)

/-- Writing a list of records one after the other. -/
def encodeAll : List Rec → Except PyErr Bytes
  | [] => .ok []
  | r :: rest => encodeRecord r.dx r.dy r.cmd >>= fun a => encodeAll rest >>= fun b => .ok (a ++ b)

/-- The records the loop of `write` hands to `encode_record`, `DstWriter.py` 176-185. -/
def expand (trimAt : Int) (r : Rec) : List Rec := if r.cmd = TRIM then burst trimAt else [r]

/-- The stitch loop of `write`, `DstWriter.py` 165-185. On an exception the bytes written so far are not modelled. -/
def writeBody (trimAt : Int) (l : List Stitch) : Except PyErr Bytes :=
  encodeAll ((deltas 0 0 l).flatMap (expand trimAt))

/-! ## Records -/

theorem tern_spec (L x : Int) (_hL : 0 ≤ L) :
    let t := tern L (2 * L + 1) x
    (t.1 = 0 ∨ t.1 = 1) ∧ (t.2.1 = 0 ∨ t.2.1 = 1) ∧ (t.1 - t.2.1) * (2 * L + 1) + t.2.2 = x ∧
    (|x| ≤ 3 * L + 1 → |t.2.2| ≤ L) ∧ (|x| > 3 * L + 1 → |t.2.2| > L) := by
  unfold tern
  simp only [abs_le, gt_iff_lt, lt_abs]
  by_cases h1 : L < x
  · simp only [if_pos h1]
    rw [if_neg (by omega), if_neg (by omega)]
    refine ⟨by simp, by simp, by ring, fun h => ⟨by omega, by omega⟩, fun h => by omega⟩
  · simp only [if_neg h1]
    by_cases h2 : x < -L
    · simp only [if_pos h2]
      refine ⟨by simp, by simp, by ring, fun h => ⟨by omega, by omega⟩, fun h => by omega⟩
    · simp only [if_neg h2]
      refine ⟨by simp, by simp, by ring, fun h => ⟨by omega, by omega⟩, fun h => by omega⟩

/-- What the writer's arithmetic achieves on one axis. -/
structure AxisOK (x : Int) (a : Axis) : Prop where
  b1 : a.p81 = 0 ∨ a.p81 = 1
  b2 : a.m81 = 0 ∨ a.m81 = 1
  b3 : a.p27 = 0 ∨ a.p27 = 1
  b4 : a.m27 = 0 ∨ a.m27 = 1
  b5 : a.p9 = 0 ∨ a.p9 = 1
  b6 : a.m9 = 0 ∨ a.m9 = 1
  b7 : a.p3 = 0 ∨ a.p3 = 1
  b8 : a.m3 = 0 ∨ a.m3 = 1
  b9 : a.p1 = 0 ∨ a.p1 = 1
  b10 : a.m1 = 0 ∨ a.m1 = 1
  sum : 81 * a.p81 - 81 * a.m81 + 27 * a.p27 - 27 * a.m27 + 9 * a.p9 - 9 * a.m9 + 3 * a.p3 - 3 * a.m3 + a.p1 - a.m1 +
    a.rest = x
  fits : a.rest = 0 ↔ |x| ≤ 121

theorem axis_ok (x : Int) : AxisOK x (axis x) := by
  obtain ⟨a1, a2, a3, a4, a5⟩ := tern_spec 40 x (by decide)
  obtain ⟨b1, b2, b3, b4, b5⟩ := tern_spec 13 (tern 40 81 x).2.2 (by decide)
  obtain ⟨c1, c2, c3, c4, c5⟩ := tern_spec 4 (tern 13 27 (tern 40 81 x).2.2).2.2 (by decide)
  obtain ⟨d1, d2, d3, d4, d5⟩ := tern_spec 1 (tern 4 9 (tern 13 27 (tern 40 81 x).2.2).2.2).2.2 (by decide)
  obtain ⟨e1, e2, e3, e4, e5⟩ :=
    tern_spec 0 (tern 1 3 (tern 4 9 (tern 13 27 (tern 40 81 x).2.2).2.2).2.2).2.2 (by decide)
  norm_num at a1 a2 a3 a4 a5 b1 b2 b3 b4 b5 c1 c2 c3 c4 c5 d1 d2 d3 d4 d5 e1 e2 e3 e4 e5
  refine ⟨a1, a2, b1, b2, c1, c2, d1, d2, e1, e2, ?_, ?_⟩
  · unfold axis; simp only; linarith
  · unfold axis
    simp only
    constructor
    · intro h
      by_contra h6
      have h6 := a5 (not_le.1 h6)
      have h7 := b5 h6
      have h8 := c5 h7
      have h9 := d5 h8
      exact e5 h9 h
    · intro h
      exact e4 (d4 (c4 (b4 (a4 h))))

theorem bit_values (a0 a1 a2 a3 a4 a5 a6 a7 b : Int) (h0 : a0 = 0 ∨ a0 = 1) (h1 : a1 = 0 ∨ a1 = 1)
    (h2 : a2 = 0 ∨ a2 = 1) (h3 : a3 = 0 ∨ a3 = 1) (h4 : a4 = 0 ∨ a4 = 1) (h5 : a5 = 0 ∨ a5 = 1) (h6 : a6 = 0 ∨ a6 = 1)
    (h7 : a7 = 0 ∨ a7 = 1) (hb : b = a0 + 2 * a1 + 4 * a2 + 8 * a3 + 16 * a4 + 32 * a5 + 64 * a6 + 128 * a7) :
    getbit b 0 = a0 ∧ getbit b 1 = a1 ∧ getbit b 2 = a2 ∧ getbit b 3 = a3 ∧ getbit b 4 = a4 ∧ getbit b 5 = a5 ∧
    getbit b 6 = a6 ∧ getbit b 7 = a7 ∧ IsByte b := by
  have k : ∀ a : Int, a = 0 ∨ a = 1 → 0 ≤ a ∧ a ≤ 1 := fun a h => by omega
  obtain ⟨l0, u0⟩ := k _ h0; obtain ⟨l1, u1⟩ := k _ h1; obtain ⟨l2, u2⟩ := k _ h2; obtain ⟨l3, u3⟩ := k _ h3
  obtain ⟨l4, u4⟩ := k _ h4; obtain ⟨l5, u5⟩ := k _ h5; obtain ⟨l6, u6⟩ := k _ h6; obtain ⟨l7, u7⟩ := k _ h7
  clear h0 h1 h2 h3 h4 h5 h6 h7 k
  unfold getbit shr IsByte
  norm_num
  refine ⟨?_, ?_, ?_, ?_, ?_, ?_, ?_, ?_, ?_, ?_⟩ <;> omega

/-- The masks in terms of bits. -/
theorem hasMask_bits (b : Int) (hb : IsByte b) :
    (hasMask b 0xF3 = true ↔ getbit b 0 = 1 ∧ getbit b 1 = 1 ∧ getbit b 4 = 1 ∧ getbit b 5 = 1 ∧ getbit b 6 = 1 ∧
      getbit b 7 = 1) ∧
    (hasMask b 0xC3 = true ↔ getbit b 0 = 1 ∧ getbit b 1 = 1 ∧ getbit b 6 = 1 ∧ getbit b 7 = 1) ∧
    (hasMask b 0x43 = true ↔ getbit b 0 = 1 ∧ getbit b 1 = 1 ∧ getbit b 6 = 1) ∧
    (hasMask b 0x83 = true ↔ getbit b 0 = 1 ∧ getbit b 1 = 1 ∧ getbit b 7 = 1) := by
  obtain ⟨h0, h1⟩ := hb
  lift b to ℕ using h0
  have h2 : b < 256 := by exact_mod_cast h1
  clear h1
  unfold hasMask getbit shr
  revert b
  simp only [Int.toNat_natCast]
  decide +kernel

end Dst
end Emb
