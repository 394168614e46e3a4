import Verif.Decimal
import Verif.Thread

/-!
# Colour-only files: EDR, COL, INF
-/

namespace Emb

namespace Edr

/-- `write`, `EdrWriter.py` 6-12. -/
def write (ts : List Thread) : Bytes :=
  ts.flatMap (fun t => writeInt8 t.red ++ writeInt8 t.green ++ writeInt8 t.blue ++ writeInt8 0)

/-- `read`, `EdrReader.py` 5-15. `seek(1, 1)` past the end of the file is no error. -/
def read : Bytes → List Thread
  | r :: g :: b :: _ :: rest => { color := colorRgb r g b } :: read rest
  | [r, g, b] => [{ color := colorRgb r g b }]
  | _ => []

end Edr

namespace Col

/-- One line, `ColWriter.py` 10-14. -/
def line (i : Nat) (t : Thread) : Str :=
  dec i ++ ",".toList ++ dec t.red ++ ",".toList ++ dec t.green ++ ",".toList ++ dec t.blue ++ "\r\n".toList

/-- The lines from index `i` on, `ColWriter.py` 8-15. -/
def lines : Nat → List Thread → Str
  | _, [] => []
  | i, t :: ts => line i t ++ lines (i + 1) ts

/-- `write`, `ColWriter.py` 6-15. -/
def write (ts : List Thread) : Str := dec ts.length ++ "\r\n".toList ++ lines 0 ts

/-- One thread, `ColReader.py` 9-13. -/
def readThread (l : Str) : Except PyErr Thread :=
  match splitOn ',' l with
  | c :: r :: g :: b :: _ =>
    parseInt r >>= fun r => parseInt g >>= fun g => parseInt b >>= fun b =>
    .ok { color := colorRgb r g b, catalog := some (String.ofList c) }
  | [_, r, g] => parseInt r >>= fun _ => parseInt g >>= fun _ => .error .indexError
  | [_, r] => parseInt r >>= fun _ => .error .indexError
  | _ => .error .indexError

/-- The loop, `ColReader.py` 8-14. -/
def readThreads : Nat → Str → Except PyErr (List Thread)
  | 0, _ => .ok []
  | k + 1, s => readThread (readline s).1 >>= fun t => readThreads k (readline s).2 >>= fun ts => .ok (t :: ts)

/-- `read`, `ColReader.py` 6-14, of a file opened in text mode. A negative count makes an empty `range`. -/
def read (f : Str) : Except PyErr (List Thread) :=
  parseInt (readline (textMode f)).1 >>= fun n => readThreads n.toNat (readline (textMode f)).2

end Col

namespace Inf

/-- `thread.description` or `thread.chart` with its default, `InfWriter.py` 22-27. -/
def text (o : Option String) : Str := (o.getD "Unknown").toList

/-- One record, `InfWriter.py` 20-40. The length counts characters, not bytes. -/
def record (i : Nat) (t : Thread) : Bytes :=
  writeInt16be (11 + (text t.description).length + (text t.chart).length) ++ writeInt16be i ++
  writeInt8 t.red ++ writeInt8 t.green ++ writeInt8 t.blue ++ writeInt16be (i + 1) ++
  utf8 (text t.description) ++ writeInt8 0 ++ utf8 (text t.chart) ++ writeInt8 0

/-- The records from index `i` on, `InfWriter.py` 19-40. -/
def records : Nat → List Thread → Bytes
  | _, [] => []
  | i, t :: ts => record i t ++ records (i + 1) ts

/-- `write`, `InfWriter.py` 14-41, with the distance patched into the third word. -/
def write (ts : List Thread) : Bytes :=
  let r := records 0 ts
  writeInt32be 1 ++ writeInt32be 8 ++ writeInt32be (4 + r.length) ++ writeInt32be ts.length ++ r

/-- The bytes before the first zero byte and those behind it, `InfReader.py` 21-26. -/
def cut : Bytes → Option (Bytes × Bytes)
  | [] => none
  | b :: s => if b = 0 then some ([], s) else (cut s).map (fun p => (b :: p.1, p.2))

/-- `byte_data[:j].decode("utf8")`; invalid UTF-8 is a `ValueError`. -/
def decodeText (b : Bytes) : Except PyErr String :=
  match decodeUtf8 b with
  | some s => .ok (String.ofList s)
  | none => .error .valueError

/-- The two texts of a record, `InfReader.py` 20-31. -/
def texts (b : Bytes) : Except PyErr (Option String × Option String) :=
  match cut b with
  | none => .ok (none, none)
  | some (d, r) => decodeText d >>= fun d =>
    match cut r with
    | none => .ok (some d, none)
    | some (c, _) => decodeText c >>= fun c => .ok (some d, some c)

/-- The loop of `read`, `InfReader.py` 10-32. A record that is cut short ends the loop; a length word that is missing is a
`TypeError`, one less than 7 an `IndexError` (`read` of a negative length takes the rest of the file, whose size then
differs from the length). -/
def readRecords : Nat → Bytes → Except PyErr (List Thread)
  | 0, _ => .ok []
  | k + 1, s =>
    match s with
    | h :: l :: rest =>
      let len := lo8 l + lo8 h * 2 ^ 8 - 2
      if len < 0 ∨ (rest.length : Int) < len then .ok []
      else
        match rest.take len.toNat with
        | _ :: _ :: r :: g :: b :: more =>
          texts (more.drop 2) >>= fun p => readRecords k (rest.drop len.toNat) >>= fun ts =>
          .ok ({ color := colorRgb r g b, description := p.1, chart := p.2 } :: ts)
        | _ => .error .indexError
    | _ => .error .typeError

/-- `read`, `InfReader.py` 5-32. -/
def read (f : Bytes) : Except PyErr (List Thread) :=
  match (readInt32be (f.drop 12)).1 with
  | some n => readRecords n.toNat (f.drop 16)
  | none => .error .typeError

end Inf
end Emb
