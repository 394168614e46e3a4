import Verif.Tbf

/-!
# The CT0 file beside a TBF file
-/

namespace Emb
namespace Ct0

/-- `for i in range(f.tell(), n): f.write(b"\x20")`, for a stream that starts at position 0. -/
def pad (n : Nat) (h : Bytes) : Bytes := h ++ List.replicate (n - h.length) 0x20

/-- The two bytes of every NEEDLE_SET, `TbfWriter.py` 141-147: a missing needle is a `TypeError` (`None + 0x30`). -/
def pairs : List (Option Int) → Except PyErr Bytes
  | [] => .ok []
  | none :: _ => .error .typeError
  | some n :: rest => pairs rest >>= fun t => .ok (lo8 (n + 0x30) :: 0x31 :: t)

/-- The beginning up to `NS1:11`, `TbfWriter.py` 131-139. -/
def head : Bytes :=
  pad 0x108 (pad 0x60 (utf8 "TAJ-DGML-PULSE  1-1A 2060(550.0".toList ++ [0x81] ++ utf8 "~400.0)S         2.00".toList) ++
    utf8 "DC1:100\rDC2:100\rDC3:  0\rDC4:N\rDC5:S\r".toList) ++ utf8 "NS1:11".toList

/-- The text of `TbfWriter.py` 150. -/
def textRP : Bytes := utf8 "\rRP0:N\rRP1:  \rRP2:  \rRP3:      \rRP4:      \rRP5: \rRP6: \rRP7: \rST1:".toList

/-- The text of `TbfWriter.py` 153. -/
def textST : Bytes :=
  utf8 "ST0:0\rAO1:0\rAO2:0\rAO3:0\rOF1:            \rOF2:            \rOF3:            \rNS2:".toList

/-- The text of `TbfWriter.py` 158. -/
def textNS : Bytes := utf8 "\rNS3:".toList

/-- The file, `TbfWriter.py` 131-163, from the needle pairs and their number `index`. -/
def file (p : Bytes) (index : Nat) : Bytes :=
  pad 0x790 (pad 0x778 (pad 0x583 (pad 0x434 (pad 0x30D (head ++ p) ++ textRP) ++ textST ++ List.replicate index 0x30) ++ textNS) ++
    utf8 "\r\x1a".toList)

/-- `_write_ct0`, `TbfWriter.py` 130-163. -/
def write (l : List Stitch) : Except PyErr Bytes := pairs (Tbf.needles l) >>= fun p => .ok (file p (Tbf.needles l).length)

/-- `write` with the setting `ct0`, `TbfWriter.py` 13-122: the CT0 file is written first. What is in the two files; an incomplete
file is not modelled. -/
def writeBoth (name tp : Str) (threads : List Thread) (l : List Stitch) : Except PyErr Bytes × Except PyErr Bytes :=
  match write l with
  | .error e => (.error e, .error e)
  | .ok f => (.ok f, Tbf.write name tp threads l)

end Ct0
end Emb
