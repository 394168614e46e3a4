import Verif.Bytes

/-!
# Properties C01, C02: command words and binary helpers
-/

namespace Emb

/-! ## C01 -/

/-- A thread/needle/order argument as the caller gives it is meaningful for the format if it is absent or 0..254. -/
def FieldFits : Option Int → Prop
  | none => True
  | some i => 0 ≤ i ∧ i ≤ 254

instance (o : Option Int) : Decidable (FieldFits o) := by cases o <;> unfold FieldFits <;> infer_instance

theorem encField_lt {o : Option Int} (h : FieldFits o) : encField o < 256 := by
  cases o with
  | none => simp [encField]
  | some i => simp only [FieldFits] at h; simp only [encField]; omega

theorem decField_encField {o : Option Int} (h : FieldFits o) : decField (encField o : Int) = o := by
  cases o with
  | none => simp [encField, decField]
  | some i =>
    simp only [FieldFits] at h
    have e : (encField (some i) : Int) = i + 1 := by simp only [encField]; omega
    unfold decField
    rw [e, if_neg (by omega)]; congr 1; omega

theorem encode_arith {c t n o : Nat} (hc : c < 256) (ht : t < 256) (hn : n < 256) :
    (c ||| (o <<< 24) ||| (n <<< 16) ||| (t <<< 8)) = c + t * 256 + n * 65536 + o * 16777216 := by
  have e1 : o <<< 24 ||| n <<< 16 = (o <<< 8 + n) <<< 16 := by
    have h : o <<< 24 = (o <<< 8) <<< 16 := by rw [← Nat.shiftLeft_add]
    have h' : o <<< 8 + n = o <<< 8 ||| n := Nat.shiftLeft_add_eq_or_of_lt hn o
    rw [h, ← Nat.shiftLeft_or_distrib, h']
  have e2 : (o <<< 8 + n) <<< 16 ||| t <<< 8 = ((o <<< 8 + n) <<< 8 + t) <<< 8 := by
    have h : (o <<< 8 + n) <<< 16 = ((o <<< 8 + n) <<< 8) <<< 8 := by rw [← Nat.shiftLeft_add]
    have h' : (o <<< 8 + n) <<< 8 + t = (o <<< 8 + n) <<< 8 ||| t := Nat.shiftLeft_add_eq_or_of_lt ht _
    rw [h, ← Nat.shiftLeft_or_distrib, h']
  rw [Nat.or_assoc, Nat.or_assoc, ← Nat.or_assoc (o <<< 24), e1, e2, Nat.or_comm,
    ← Nat.shiftLeft_add_eq_or_of_lt (by omega)]
  simp only [Nat.shiftLeft_eq]
  omega

/-- **C01** (proved for the indices the field can hold, 0..254): packing a thread change into one integer and
decoding it gives back exactly the command and the optional thread, needle and order. -/
theorem C01_decode_encode_partial (cmd : Int) (thread needle order : Option Int)
    (hc : 0 ≤ cmd ∧ cmd < 256) (ht : FieldFits thread) (hn : FieldFits needle) (ho : FieldFits order) :
    decodeCommand (encodeThreadChange cmd thread needle order) = (cmd, thread, needle, order) := by
  have h1 := encField_lt ht
  have h2 := encField_lt hn
  have h3 := encField_lt ho
  unfold encodeThreadChange
  rw [encode_arith (by omega) h1 h2]
  unfold decodeCommand
  generalize hT : encField thread = T at *
  generalize hN : encField needle = N at *
  generalize hO : encField order = O at *
  have a1 : (((cmd % 256).toNat + T * 256 + N * 65536 + O * 16777216 : Nat) : Int) % 256 = cmd := by omega
  have a2 : (((cmd % 256).toNat + T * 256 + N * 65536 + O * 16777216 : Nat) : Int) / 256 % 256 = T := by omega
  have a3 : (((cmd % 256).toNat + T * 256 + N * 65536 + O * 16777216 : Nat) : Int) / 65536 % 256 = N := by omega
  have a4 : (((cmd % 256).toNat + T * 256 + N * 65536 + O * 16777216 : Nat) : Int) / 16777216 % 256 = O := by omega
  rw [a1, a2, a3, a4, ← hT, ← hN, ← hO, decField_encField ht, decField_encField hn, decField_encField ho]

/-- Index 255 is accepted by the encoder but does not survive: `255 + 1` spills into the next field, so thread 255
comes back as "thread unknown, needle 0". The full C01 (every 8-bit index) is therefore false of the code. -/
theorem C01_index_255_lost :
    decodeCommand (encodeThreadChange COLOR_CHANGE (some 255) none none) = (COLOR_CHANGE, none, some 0, none) := by
  decide +kernel

/-- Consequence: two different requests are packed into the same integer. -/
theorem C01_not_injective : ∃ a b : Option Int × Option Int,
    a ≠ b ∧ (∀ i, a.1 = some i → 0 ≤ i ∧ i < 256) ∧
    encodeThreadChange COLOR_CHANGE a.1 a.2 none = encodeThreadChange COLOR_CHANGE b.1 b.2 none := by
  refine ⟨(some 255, none), (none, some 0), by decide, ?_, by decide +kernel⟩
  intro i h; injection h with h; omega

/-- Decoding sees only the four low bytes, and for every integer the packed form of what was decoded agrees with the
input in every field unless that field's byte is zero (= unknown). -/
theorem C01_decode_fields (v : Int) :
    (decodeCommand v).1 = v % 256 ∧
    ((decodeCommand v).2.1 = none ↔ v / 256 % 256 = 0) ∧
    ((decodeCommand v).2.2.1 = none ↔ v / 65536 % 256 = 0) ∧
    ((decodeCommand v).2.2.2 = none ↔ v / 16777216 % 256 = 0) := by
  refine ⟨rfl, ?_, ?_, ?_⟩ <;> simp only [decodeCommand, decField] <;> split <;> simp <;> omega

example : decodeCommand (encodeThreadChange NEEDLE_SET (some 254) (some 3) none) = (NEEDLE_SET, some 254, some 3, none) := by
  decide +kernel

/-! ## C02 -/

/-- The bytes of `v`, least significant first, as a specification: `n` bytes, `i`-th byte is digit `i` of `v` in base 256. -/
def leBytes : Nat → Int → List Int
  | 0, _ => []
  | n + 1, v => v % 256 :: leBytes n (v / 256)

/-- All write helpers emit the base-256 digits, in the stated order, of the (two's complement) value. -/
theorem C02_write_spec (v : Int) :
    writeInt8 v = leBytes 1 v ∧
    writeInt16le v = leBytes 2 v ∧ writeInt16be v = (leBytes 2 v).reverse ∧
    writeInt24le v = leBytes 3 v ∧ writeInt24be v = (leBytes 3 v).reverse ∧
    writeInt32le v = leBytes 4 v ∧ writeInt32be v = (leBytes 4 v).reverse := by
  simp only [writeInt8, writeInt16le, writeInt16be, writeInt24le, writeInt24be, writeInt32le, writeInt32be, lo8, shr,
    leBytes, List.reverse_cons, List.reverse_nil, List.nil_append, List.cons_append, List.cons.injEq, and_true, true_and]
  omega

/-- Every byte written is a byte. -/
theorem leBytes_isByte (n : Nat) (v : Int) : ∀ b ∈ leBytes n v, IsByte b := by
  induction n generalizing v with
  | zero => simp [leBytes]
  | succ n ih =>
    intro b hb
    simp only [leBytes, List.mem_cons] at hb
    rcases hb with rfl | hb
    · unfold IsByte; omega
    · exact ih _ b hb

theorem leBytes_length (n : Nat) (v : Int) : (leBytes n v).length = n := by
  induction n generalizing v with
  | zero => rfl
  | succ n ih => simp [leBytes, ih]

/-- **C02**: what a write helper wrote is read back modulo `2^width` by the matching read helper, consuming exactly
those bytes and leaving the rest of the stream. -/
theorem C02_read_write (v : Int) (rest : Bytes) :
    readInt8 (writeInt8 v ++ rest) = (some (v % 2 ^ 8), rest) ∧
    readInt16le (writeInt16le v ++ rest) = (some (v % 2 ^ 16), rest) ∧
    readInt16be (writeInt16be v ++ rest) = (some (v % 2 ^ 16), rest) ∧
    readInt24le (writeInt24le v ++ rest) = (some (v % 2 ^ 24), rest) ∧
    readInt24be (writeInt24be v ++ rest) = (some (v % 2 ^ 24), rest) ∧
    readInt32le (writeInt32le v ++ rest) = (some (v % 2 ^ 32), rest) ∧
    readInt32be (writeInt32be v ++ rest) = (some (v % 2 ^ 32), rest) := by
  refine ⟨?_, ?_, ?_, ?_, ?_, ?_, ?_⟩ <;>
    simp only [readInt8, writeInt8, readInt16le, writeInt16le, readInt16be, writeInt16be, readInt24le, writeInt24le,
      readInt24be, writeInt24be, readInt32le, writeInt32le, readInt32be, writeInt32be, readN, lo8, shr,
      List.cons_append, List.nil_append, List.take_succ_cons, List.take_zero, List.drop_succ_cons, List.drop_zero,
      Prod.mk.injEq, Option.some.injEq, and_true] <;> omega

/-- Signed values in range survive the trip through the matching unsigned representation. -/
theorem C02_signed_roundtrip (v : Int) :
    (-128 ≤ v ∧ v ≤ 127 → signed8 (v % 2 ^ 8) = v) ∧
    (-32768 ≤ v ∧ v ≤ 32767 → signed16 (v % 2 ^ 16) = v) ∧
    (-8388608 ≤ v ∧ v ≤ 8388607 → signed24 (v % 2 ^ 24) = v) := by
  refine ⟨?_, ?_, ?_⟩ <;> intro h <;> simp only [signed8, signed16, signed24] <;> split <;> omega

theorem C02_sint8 (v : Int) (rest : Bytes) (h : -128 ≤ v ∧ v ≤ 127) :
    readSint8 (writeInt8 v ++ rest) = (some v, rest) := by
  have := (C02_signed_roundtrip v).1 h
  simp only [readSint8, writeInt8, readN, lo8, List.cons_append, List.nil_append, List.take_succ_cons, List.take_zero,
    List.drop_succ_cons, List.drop_zero, Prod.mk.injEq, Option.some.injEq, and_true]
  simpa using this

/-- Reading from a stream with too few bytes gives `None`; never a number. -/
theorem C02_short (s : Bytes) :
    ((readInt8 s).1 = none ↔ s.length < 1) ∧
    ((readInt16le s).1 = none ↔ s.length < 2) ∧ ((readInt16be s).1 = none ↔ s.length < 2) ∧
    ((readInt24le s).1 = none ↔ s.length < 3) ∧ ((readInt24be s).1 = none ↔ s.length < 3) ∧
    ((readInt32le s).1 = none ↔ s.length < 4) ∧ ((readInt32be s).1 = none ↔ s.length < 4) := by
  rcases s with _ | ⟨a, _ | ⟨b, _ | ⟨c, _ | ⟨d, s⟩⟩⟩⟩ <;>
    simp [readInt8, readInt16le, readInt16be, readInt24le, readInt24be, readInt32le, readInt32be, readN]

example : readInt16be (writeInt16be (-2) ++ [7]) = (some 65534, [7]) := by decide +kernel
example : readSint8 (writeInt8 (-2) ++ [7]) = (some (-2), [7]) := by decide +kernel

end Emb
