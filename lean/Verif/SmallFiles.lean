import Verif.DstRead
import Verif.Palettes
import Verif.Readers

/-!
# Whole files of the smaller formats: the headers with their threads

`fuel` bounds the rounds of the stitch loop, as in `Readers`. Reading past the end gives `None`, with which arithmetic is a `TypeError`.
-/

namespace Emb
namespace SmallFiles

/-- A pattern made of what the header gave and the stitches. -/
def withStitches (d : Except PyErr Doc) (s : Option (Except PyErr (List Stitch))) : Option (Except PyErr Doc) :=
  match d with
  | .error e => some (.error e)
  | .ok d => s.map (fun r => r.map (fun l => { d with stitches := l }))

/-- `read`, `DsbReader.py` 43-45. -/
def readDsb (fuel : Nat) (f : Bytes) : Option (Except PyErr Doc) := withStitches (Dst.readHeader f) (Readers.readDsbBody fuel (f.drop 512))

/-- `read`, `DszReader.py` 41-43. -/
def readDsz (fuel : Nat) (f : Bytes) : Option (Except PyErr Doc) := withStitches (Dst.readHeader f) (Readers.readDszBody fuel (f.drop 512))

/-- The colour loop of `read`, `SewReader.py` 33-36. -/
def sewColours : Nat → Bytes → Except PyErr (List Thread)
  | 0, _ => .ok []
  | n + 1, b =>
    match readInt16le b with
    | (none, _) => .error .typeError
    | (some i, b) =>
      match sewThreads[(i % 79).toNat]? with
      | none => .error .indexError
      | some t => (sewColours n b).map (fun l => t :: l)

/-- `read`, `SewReader.py` 30-39. -/
def readSew (fuel : Nat) (f : Bytes) : Option (Except PyErr Doc) :=
  match readInt16le f with
  | (none, _) => some (.error .typeError)
  | (some n, b) => withStitches ((sewColours n.toNat b).map (fun l => { threads := l })) (Readers.readSewBody fuel (f.drop 0x1D78))

/-- The colour loop of `read_pc_file`, `PcdReader.py`, `PcqReader.py`, `PcsReader.py` 21-25: the threads and the rest of the stream. At the
end of the file the code makes threads whose colour is `None`, which fail when they are used; here reading fails. -/
def pcdColours : Nat → Bytes → Except PyErr (List Thread × Bytes)
  | 0, b => .ok ([], b)
  | n + 1, b =>
    match readInt24be b with
    | (none, _) => .error .typeError
    | (some c, b) => (pcdColours n (b.drop 1)).map (fun r => ({ color := c } :: r.1, r.2))

/-- `read_pc_file`, `PcdReader.py`, `PcqReader.py`, `PcsReader.py` 13-50. -/
def readPcd (fuel : Nat) (f : Bytes) : Option (Except PyErr Doc) :=
  match readInt16le (f.drop 2) with
  | (none, _) => some (.error .typeError)
  | (some n, b) =>
    match pcdColours n.toNat b with
    | .error e => some (.error e)
    | .ok (l, b) => withStitches (.ok { threads := l }) (Readers.readPcdBody fuel (b.drop 2))

/-- `pcm_threads`, `PcmReader.py` 7-24. -/
def pcmThreads : List Thread := [
  { color := 0x000000, description := some "PCM Color 1" }, { color := 0x000080, description := some "PCM Color 2" },
  { color := 0x0000FF, description := some "PCM Color 3" }, { color := 0x008080, description := some "PCM Color 4" },
  { color := 0x00FFFF, description := some "PCM Color 5" }, { color := 0x800080, description := some "PCM Color 6" },
  { color := 0xFF00FF, description := some "PCM Color 7" }, { color := 0x800000, description := some "PCM Color 8" },
  { color := 0xFF0000, description := some "PCM Color 9" }, { color := 0x008000, description := some "PCM Color 10" },
  { color := 0x00FF00, description := some "PCM Color 11" }, { color := 0x808000, description := some "PCM Color 12" },
  { color := 0xFFFF00, description := some "PCM Color 13" }, { color := 0x808080, description := some "PCM Color 14" },
  { color := 0xC0C0C0, description := some "PCM Color 15" }, { color := 0xFFFFFF, description := some "PCM Color 16" }]

/-- The colour loop of `read_pc_file`, `PcmReader.py` 31-34. -/
def pcmColours : Nat → Bytes → Except PyErr (List Thread × Bytes)
  | 0, b => .ok ([], b)
  | n + 1, b =>
    match readInt16be b with
    | (none, _) => .error .typeError
    | (some i, b) =>
      match pcmThreads[i.toNat]? with
      | none => .error .indexError
      | some t => (pcmColours n b).map (fun r => (t :: r.1, r.2))

/-- `read_pc_file`, `PcmReader.py` 6-59. -/
def readPcm (fuel : Nat) (f : Bytes) : Option (Except PyErr Doc) :=
  match readInt16be (f.drop 2) with
  | (none, _) => some (.ok {})
  | (some n, b) =>
    match pcmColours n.toNat b with
    | .error e => some (.error e)
    | .ok (l, b) => withStitches (.ok { threads := l }) (Readers.readPcmBody fuel (b.drop 2))

/-- The colour loop of `read`, `JpxReader.py` 38-42; `rnd i` is the random colour of the thread number `i`. -/
def jpxColours (rnd : Nat → Int) : Nat → Nat → Bytes → List Thread
  | 0, _, _ => []
  | n + 1, k, b =>
    match readInt32le b with
    | (none, _) => []
    | (some i, b) => { color := rnd k, description := some ("JPX index " ++ String.ofList (dec i)) } :: jpxColours rnd n (k + 1) b

/-- `read`, `JpxReader.py` 34-45. -/
def readJpx (rnd : Nat → Int) (fuel : Nat) (f : Bytes) : Option (Except PyErr Doc) :=
  match readInt32le f, readInt32le (f.drop 0x20) with
  | (some start, _), (some n, _) =>
    withStitches (.ok { threads := jpxColours rnd n.toNat 0 (f.drop 0x3C) }) (Readers.readJpxBody fuel (f.drop start.toNat))
  | _, _ => some (.error .typeError)

/-- `text.split(sep)` for a separator of two characters. -/
def splitTwo (a b : Char) : Str → Str → List Str
  | cur, [] => [cur]
  | cur, [x] => [cur ++ [x]]
  | cur, x :: y :: rest => if x = a ∧ y = b then cur :: splitTwo a b [] rest else splitTwo a b (cur ++ [x]) (y :: rest)
termination_by _ s => s.length

/-- The thread loop of `read_zhs_header`, `ZhsReader.py` 76-78; `add_thread(None)` leaves the thread black. -/
def zhsColours : Nat → Bytes → List Thread × Bytes
  | 0, b => ([], b)
  | n + 1, b =>
    let (c, b) := readInt24be b
    let (l, b) := zhsColours n b
    ({ color := c.getD 0 } :: l, b)

/-- One thread of `read_zhs_header`, `ZhsReader.py` 85-94. -/
def zhsThread (t : Thread) (data : Str) : Thread :=
  match splitTwo '&' '#' [] data with
  | [] => t
  | p0 :: ps =>
    let t := if p0.length ≠ 0 then { t with chart := some (String.ofList p0) } else t
    match ps with
    | [] => t
    | p1 :: ps =>
      let t := if p1.length ≠ 0 then { t with description := some (String.ofList p1) } else t
      match ps with
      | [] => t
      | p2 :: _ => if p2.length > 3 then { t with catalog := some (String.ofList (p2.take (p2.length - 2))) } else t

/-- The texts given to the threads in turn; more texts than threads end the loop, `ZhsReader.py` 83-96. -/
def zhsTexts : List Thread → List Str → List Thread
  | [], _ => []
  | ts, [] => ts
  | t :: ts, d :: ds => zhsThread t d :: zhsTexts ts ds

/-- `read_zhs_header`, `ZhsReader.py` 76-98; text that is not UTF-8 raises a `UnicodeDecodeError` (a `ValueError`). `f.read(None)` at the end
of the file gives nothing. -/
def zhsHeader (f : Bytes) : Except PyErr Doc :=
  match readInt8 f with
  | (none, _) => .error .typeError
  | (some n, b) =>
    let (ts, b) := zhsColours n.toNat b
    let (len, b) := readInt16le b
    match decodeUtf8 (b.take (len.getD 0).toNat) with
    | none => .error .valueError
    | some s => .ok { threads := zhsTexts ts (splitTwo '&' '$' [] s).tail }

/-- `read`, `ZhsReader.py` 101-108. -/
def readZhs (fuel : Nat) (f : Bytes) : Option (Except PyErr Doc) :=
  match readInt32le (f.drop 0x0F), readInt32le (f.drop 0x13) with
  | (some start, _), (some head, _) => withStitches (zhsHeader (f.drop head.toNat)) (Readers.readZhsBody fuel (f.drop start.toNat))
  | _, _ => some (.error .typeError)

end SmallFiles
end Emb
