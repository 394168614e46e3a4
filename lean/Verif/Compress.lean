import Verif.Bytes
import Verif.Py

/-!
# `EmbCompress.py`: the compression of HUS and VIP files

Bit positions and table entries are natural numbers. Loops carry a step counter as first argument; `C17_terminates` shows that
the counter of the main loop is never used up, and the inner loops are started with as many steps as they have entries to fill.
-/

namespace Emb
namespace Compress

/-- Exceptions of this module, and running out of steps (which never happens). -/
inductive Err where
  | py (e : PyErr)
  | steps
deriving DecidableEq, Repr

/-- The bytes `start .. start + n - 1` as one number, missing ones as 0; the loop of `get_bits`, `EmbCompress.py` 55-60. -/
def window (data : Bytes) (start : Nat) : Nat → Nat
  | 0 => 0
  | n + 1 => window data start n * 256 + ((data[start + n]?).getD 0 % 256).toNat

/-- `get_bits(start_pos_in_bits, length)`, `EmbCompress.py` 50-64 (without bits asked for, the mask is 0). -/
def getBits (data : Bytes) (pos length : Nat) : Nat :=
  if length = 0 then 0
  else
    let last := pos + length - 1
    let value := window data (pos / 8) (last / 8 + 1 - pos / 8)
    value / 2 ^ ((8 - (last + 1) % 8) % 8) % 2 ^ length

/-- `Huffman`, `EmbCompress.py` 14-19: `table` is `none` as long as `build_table` was not called. -/
structure Huffman where
  default : Nat
  lengths : List Nat
  table : Option (List Nat)
  width : Nat
deriving DecidableEq, Repr

/-- `Huffman(value=v)`. -/
def Huffman.const (v : Nat) : Huffman := ⟨v, [], none, 0⟩

/-- The inner loop of `build_table`, `EmbCompress.py` 28-31: `size` copies of the index of every length equal to
`bits`. -/
def tableRow (bits size : Nat) : Nat → List Nat → List Nat
  | _, [] => []
  | i, l :: ls => (if l = bits then List.replicate size i else []) ++ tableRow bits size (i + 1) ls

/-- `build_table`, `EmbCompress.py` 21-31, for a non-empty list of lengths; `size` halves exactly. -/
def Huffman.build (lengths : List Nat) (default : Nat) : Huffman :=
  let width := lengths.foldl max 0
  ⟨default, lengths,
    some ((List.range width).flatMap (fun k => tableRow (k + 1) (2 ^ (width - (k + 1))) 0 lengths)), width⟩

/-- `lookup`, `EmbCompress.py` 33-39: value and length. A negative shift is a `ValueError`, an entry beyond the table an
`IndexError`. -/
def Huffman.lookup (h : Huffman) (w : Nat) : Except Err (Nat × Nat) :=
  match h.table with
  | none => .ok (h.default, 0)
  | some t =>
    if h.width > 16 then .error (.py .valueError)
    else match t[w / 2 ^ (16 - h.width)]? with
      | none => .error (.py .indexError)
      | some v => .ok (v, h.lengths.getD v 0)

/-- The unary part of `read_variable_length`, `EmbCompress.py` 81-88: the number of one bits (at most `n`) and the position
after them. -/
def ones (data : Bytes) : Nat → Nat → Nat × Nat
  | 0, pos => (0, pos)
  | n + 1, pos => if getBits data pos 1 = 1 then ((ones data n (pos + 1)).1 + 1, (ones data n (pos + 1)).2) else (0, pos + 1)

/-- `read_variable_length`, `EmbCompress.py` 77-89. -/
def varLength (data : Bytes) (pos : Nat) : Nat × Nat :=
  if getBits data pos 3 ≠ 7 then (getBits data pos 3, pos + 3)
  else (7 + (ones data 13 (pos + 3)).1, (ones data 13 (pos + 3)).2)

/-- The loop of `load_character_length_huffman`, `EmbCompress.py` 99-103. -/
def lengthLoop (data : Bytes) : Nat → Nat → List Nat → Nat → Except Err (List Nat × Nat)
  | 0, _, ls, pos => .ok (ls, pos)
  | n + 1, index, ls, pos =>
    if index < ls.length then
      let i := if index = 3 then index + getBits data pos 2 else index
      let p := if index = 3 then pos + 2 else pos
      if i < ls.length then lengthLoop data n (i + 1) (ls.set i (varLength data p).1) (varLength data p).2
      else .error (.py .indexError)
    else .ok (ls, pos)

/-- `load_character_length_huffman`, `EmbCompress.py` 91-106. -/
def loadLengthHuffman (data : Bytes) (pos : Nat) : Except Err (Huffman × Nat) :=
  let count := getBits data pos 5
  if count = 0 then .ok (.const (getBits data (pos + 5) 5), pos + 10)
  else lengthLoop data count 0 (List.replicate count 0) (pos + 5) >>= fun r => .ok (.build r.1 8, r.2)

/-- The loop of `load_character_huffman`, `EmbCompress.py` 117-133. -/
def charLoop (data : Bytes) (lh : Huffman) : Nat → Nat → List Nat → Nat → Except Err (List Nat × Nat)
  | 0, _, ls, pos => .ok (ls, pos)
  | n + 1, index, ls, pos =>
    if index < ls.length then
      lh.lookup (getBits data pos 16) >>= fun h =>
      let p := pos + h.2
      if h.1 = 0 then charLoop data lh n (index + 1) ls p
      else if h.1 = 1 then charLoop data lh n (index + (3 + getBits data p 4)) ls (p + 4)
      else if h.1 = 2 then charLoop data lh n (index + (20 + getBits data p 9)) ls (p + 9)
      else charLoop data lh n (index + 1) (ls.set index (h.1 - 2)) p
    else .ok (ls, pos)

/-- `load_character_huffman`, `EmbCompress.py` 108-135. -/
def loadCharHuffman (data : Bytes) (lh : Huffman) (pos : Nat) : Except Err (Huffman × Nat) :=
  let count := getBits data pos 9
  if count = 0 then .ok (.const (getBits data (pos + 9) 9), pos + 18)
  else charLoop data lh count 0 (List.replicate count 0) (pos + 9) >>= fun r => .ok (.build r.1 0, r.2)

/-- The loop of `load_distance_huffman`, `EmbCompress.py` 146-148. -/
def distLoop (data : Bytes) : Nat → Nat → List Nat × Nat
  | 0, pos => ([], pos)
  | n + 1, pos =>
    let r := distLoop data n (varLength data pos).2
    ((varLength data pos).1 :: r.1, r.2)

/-- `load_distance_huffman`, `EmbCompress.py` 137-150. -/
def loadDistHuffman (data : Bytes) (pos : Nat) : Huffman × Nat :=
  let count := getBits data pos 5
  if count = 0 then (.const (getBits data (pos + 5) 5), pos + 10)
  else (.build (distLoop data count (pos + 5)).1 0, (distLoop data count (pos + 5)).2)

/-- The state of `EmbCompress`, `EmbCompress.py` 42-48. -/
structure State where
  pos : Nat
  block : Int
  chars : Huffman
  dists : Huffman
deriving DecidableEq, Repr

/-- The state before the first block (`decompress`, `EmbCompress.py` 176-179). -/
def State.init : State := ⟨0, -1, .const 0, .const 0⟩

/-- `load_block`, `EmbCompress.py` 152-156. -/
def loadBlock (data : Bytes) (s : State) : Except Err State :=
  loadLengthHuffman data (s.pos + 16) >>= fun lh =>
  loadCharHuffman data lh.1 lh.2 >>= fun ch =>
  .ok ⟨(loadDistHuffman data ch.2).2, getBits data s.pos 16, ch.1, (loadDistHuffman data ch.2).1⟩

/-- `get_token`, `EmbCompress.py` 158-164. -/
def token (data : Bytes) (s : State) : Except Err (Nat × State) :=
  (if s.block ≤ 0 then loadBlock data s else .ok s) >>= fun s =>
  s.chars.lookup (getBits data s.pos 16) >>= fun h =>
  .ok (h.1, { s with block := s.block - 1, pos := s.pos + h.2 })

/-- `get_position`, `EmbCompress.py` 166-173. -/
def position (data : Bytes) (s : State) : Except Err (Nat × State) :=
  s.dists.lookup (getBits data s.pos 16) >>= fun h =>
  if h.1 = 0 then .ok (0, { s with pos := s.pos + h.2 })
  else .ok (2 ^ (h.1 - 1) + getBits data (s.pos + h.2) (h.1 - 1), { s with pos := s.pos + h.2 + (h.1 - 1) })

/-- A bound of a Python slice: negative values count from the end, everything is clamped. -/
def sliceBound (n : Nat) (i : Int) : Nat := if i < 0 then (i + n).toNat else min i.toNat n

/-- Python `l[a:b]`. -/
def pySlice {α : Type} (l : List α) (a b : Int) : List α :=
  (l.drop (sliceBound l.length a)).take (sliceBound l.length b - sliceBound l.length a)

/-- The overlapping copy, `EmbCompress.py` 196-198: `n` more entries, the next one from index `i`. -/
def copyLoop : Nat → Int → List Nat → Except Err (List Nat)
  | 0, _, out => .ok out
  | n + 1, i, out =>
    match pyGet out i with
    | .error e => .error (.py e)
    | .ok v => copyLoop n (i + 1) (out ++ [v])

/-- A reference back into the output, `EmbCompress.py` 189-198. -/
def copyBack (length back : Nat) (out : List Nat) : Except Err (List Nat) :=
  let p : Int := (out.length : Int) - back
  if back > length then .ok (out ++ pySlice out p (p + length)) else copyLoop length p out

/-- The loop of `decompress`, `EmbCompress.py` 180-199; `size` is `uncompressed_size`. -/
def loop (data : Bytes) (size : Option Nat) : Nat → State → List Nat → Except Err (List Nat)
  | 0, _, _ => .error .steps
  | n + 1, s, out =>
    if data.length * 8 > s.pos ∧ (∀ m ∈ size, out.length ≤ m) then
      token data s >>= fun t =>
      if t.1 ≤ 255 then loop data size n t.2 (out ++ [t.1])
      else if t.1 = 510 then .ok out
      else
        position data t.2 >>= fun b =>
        copyBack (t.1 - 253) (b.1 + 1) out >>= fun out => loop data size n b.2 out
    else .ok out

/-- `expand`, `EmbCompress.py` 1-3 and 176-199. -/
def expand (data : Bytes) (size : Option Nat) : Except Err (List Nat) :=
  loop data size (data.length * 8 * 65536 + 1) .init []

/-- `compress`, `EmbCompress.py` 6-11. -/
def compress (data : Bytes) : Bytes :=
  [(data.length : Int) % 256, (data.length : Int) / 256 % 256, 0x02, 0xA0, 0x01, 0xFE] ++ data

end Compress
end Emb
