import Verif.Compress
import Verif.Csv
import Verif.Palettes
import Verif.Quant

/-!
# HUS files

Three compressed streams: commands, horizontal and vertical displacements. Reading can fail in Python or not end (`Compress.Err`).
-/

namespace Emb
namespace Hus

/-- A value the code computes with: `None` is a `TypeError` there. -/
def need {α : Type} : Option α → Except Compress.Err α
  | some a => .ok a
  | none => .error (.py .typeError)

/-- `f.seek(start, 0)` and `f.read(n)`; a negative `n` reads everything. -/
def slice (f : Bytes) (start n : Int) : Bytes :=
  if n < 0 then f.drop start.toNat else (f.drop start.toNat).take n.toNat

/-- The loop over the colours, `HusReader.py` 25-27. -/
def colours : Nat → Bytes → Except Compress.Err (List Thread)
  | 0, _ => .ok []
  | n + 1, b =>
    need (readInt16le b).1 >>= fun i =>
    match husThreads[i.toNat]? with
    | none => .error (.py .indexError)
    | some t => (colours n (readInt16le b).2).map (fun l => t :: l)

/-- The loop over the stitches, `HusReader.py` 43-60. -/
def events : List Nat → List Nat → List Nat → List Rec
  | c :: cs, vx :: xs, vy :: ys =>
    let x := signed8 vx
    let y := -signed8 vy
    if c = 0x80 then ⟨x, y, STITCH⟩ :: events cs xs ys
    else if c = 0x81 then ⟨x, y, JUMP⟩ :: events cs xs ys
    else if c = 0x84 then ⟨x, y, COLOR_CHANGE⟩ :: events cs xs ys
    else if c = 0x88 then (if x ≠ 0 ∨ y ≠ 0 then [⟨x, y, JUMP⟩] else []) ++ ⟨0, 0, TRIM⟩ :: events cs xs ys
    else []
  | _, _, _ => []

/-- `read`, `HusReader.py` 6-61. Everything that is missing in a short header makes a `TypeError`. -/
def read (f : Bytes) : Except Compress.Err Doc :=
  let f0 := (readInt32le f).2
  let count := readInt32le f0
  let cols := readInt32le count.2
  let px := readInt16le cols.2
  let py := readInt16le px.2
  let nx := readInt16le py.2
  let ny := readInt16le nx.2
  let co := readInt32le ny.2
  let xo := readInt32le co.2
  let yo := readInt32le xo.2
  let text := readN 8 yo.2
  let unknown := readInt16le text.2
  need px.1 >>= fun _ => need py.1 >>= fun _ => need nx.1 >>= fun _ => need ny.1 >>= fun _ =>
  need cols.1 >>= fun n => colours n.toNat unknown.2 >>= fun threads =>
  need co.1 >>= fun co => need xo.1 >>= fun xo => need yo.1 >>= fun yo => need count.1 >>= fun count =>
  Compress.expand (slice f co (xo - co)) (some count.toNat) >>= fun cs =>
  Compress.expand (slice f xo (yo - xo)) (some count.toNat) >>= fun xs =>
  Compress.expand (slice f yo (-1)) (some count.toNat) >>= fun ys =>
  .ok { stitches := place 0 0 (events cs xs ys ++ [⟨0, 0, END⟩]), threads := threads }

end Hus
end Emb
