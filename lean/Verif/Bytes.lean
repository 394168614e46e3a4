import Verif.Const

/-!
# Binary helpers

Models `ReadHelper.py` and `WriteHelper.py`. A byte string is a `List Int` (each entry 0..255 when it comes from a
file); a stream is the list of bytes not yet read. `read(n)` at the end of a file returns what is left and consumes it.
-/

namespace Emb

/-- A byte as found in a file. -/
def IsByte (b : Int) : Prop := 0 ≤ b ∧ b < 256

instance (b : Int) : Decidable (IsByte b) := inferInstanceAs (Decidable (_ ∧ _))

abbrev Bytes := List Int

/-- `ReadHelper.signed8`, lines 1-5. -/
def signed8 (b : Int) : Int := if b > 127 then -256 + b else b

/-- `ReadHelper.signed16`, lines 8-13. -/
def signed16 (v : Int) : Int :=
  let v := v % 65536
  if v > 0x7FFF then -0x10000 + v else v

/-- `ReadHelper.signed24`, lines 16-21. -/
def signed24 (v : Int) : Int :=
  let v := v % 16777216
  if v > 0x7FFFFF then -0x1000000 + v else v

/-- `stream.read(n)`: the bytes read and the rest of the stream. -/
def readN (n : Nat) (s : Bytes) : Bytes × Bytes := (s.take n, s.drop n)

/-- `ReadHelper.read_sint_8`, lines 32-36. -/
def readSint8 (s : Bytes) : Option Int × Bytes :=
  match readN 1 s with
  | ([b0], r) => (some (signed8 b0), r)
  | (_, r) => (none, r)

/-- `ReadHelper.read_int_8`, lines 39-43. -/
def readInt8 (s : Bytes) : Option Int × Bytes :=
  match readN 1 s with
  | ([b0], r) => (some b0, r)
  | (_, r) => (none, r)

/-- `ReadHelper.read_int_16le`, lines 46-50. -/
def readInt16le (s : Bytes) : Option Int × Bytes :=
  match readN 2 s with
  | ([b0, b1], r) => (some (lo8 b0 + lo8 b1 * 2 ^ 8), r)
  | (_, r) => (none, r)

/-- `ReadHelper.read_int_16be`, lines 53-57. -/
def readInt16be (s : Bytes) : Option Int × Bytes :=
  match readN 2 s with
  | ([b0, b1], r) => (some (lo8 b1 + lo8 b0 * 2 ^ 8), r)
  | (_, r) => (none, r)

/-- `ReadHelper.read_int_24le`, lines 60-64. -/
def readInt24le (s : Bytes) : Option Int × Bytes :=
  match readN 3 s with
  | ([b0, b1, b2], r) => (some (lo8 b0 + lo8 b1 * 2 ^ 8 + lo8 b2 * 2 ^ 16), r)
  | (_, r) => (none, r)

/-- `ReadHelper.read_int_24be`, lines 67-71. -/
def readInt24be (s : Bytes) : Option Int × Bytes :=
  match readN 3 s with
  | ([b0, b1, b2], r) => (some (lo8 b2 + lo8 b1 * 2 ^ 8 + lo8 b0 * 2 ^ 16), r)
  | (_, r) => (none, r)

/-- `ReadHelper.read_int_32le`, lines 74-83. -/
def readInt32le (s : Bytes) : Option Int × Bytes :=
  match readN 4 s with
  | ([b0, b1, b2, b3], r) => (some (lo8 b0 + lo8 b1 * 2 ^ 8 + lo8 b2 * 2 ^ 16 + lo8 b3 * 2 ^ 24), r)
  | (_, r) => (none, r)

/-- `ReadHelper.read_int_32be`, lines 86-95. -/
def readInt32be (s : Bytes) : Option Int × Bytes :=
  match readN 4 s with
  | ([b0, b1, b2, b3], r) => (some (lo8 b3 + lo8 b2 * 2 ^ 8 + lo8 b1 * 2 ^ 16 + lo8 b0 * 2 ^ 24), r)
  | (_, r) => (none, r)

/-- `value >> k` on a Python int: floor division by `2^k`. -/
def shr (v : Int) (k : Nat) : Int := v / 2 ^ k

/-- `WriteHelper.write_int_8`, lines 16-24. -/
def writeInt8 (v : Int) : Bytes := [lo8 v]
/-- `WriteHelper.write_int_16le`, lines 27-36. -/
def writeInt16le (v : Int) : Bytes := [lo8 (shr v 0), lo8 (shr v 8)]
/-- `WriteHelper.write_int_16be`, lines 39-48. -/
def writeInt16be (v : Int) : Bytes := [lo8 (shr v 8), lo8 (shr v 0)]
/-- `WriteHelper.write_int_24le`, lines 51-61. -/
def writeInt24le (v : Int) : Bytes := [lo8 (shr v 0), lo8 (shr v 8), lo8 (shr v 16)]
/-- `WriteHelper.write_int_24be`, lines 64-74. -/
def writeInt24be (v : Int) : Bytes := [lo8 (shr v 16), lo8 (shr v 8), lo8 (shr v 0)]
/-- `WriteHelper.write_int_32le`, lines 77-88. -/
def writeInt32le (v : Int) : Bytes := [lo8 (shr v 0), lo8 (shr v 8), lo8 (shr v 16), lo8 (shr v 24)]
/-- `WriteHelper.write_int_32be`, lines 91-102. -/
def writeInt32be (v : Int) : Bytes := [lo8 (shr v 24), lo8 (shr v 16), lo8 (shr v 8), lo8 (shr v 0)]

/-- `WriteHelper.write_int_array_8`, lines 4-13. -/
def writeIntArray8 (vs : List Int) : Bytes := vs.flatMap writeInt8

end Emb
