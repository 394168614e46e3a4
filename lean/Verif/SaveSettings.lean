import Verif.Dispatch
import Verif.DstRead
import Verif.Csv
import Verif.Txt
import Verif.Pes
import Verif.Jef

/-!
# The settings that choose a variant of a file

`write` of the DST, CSV, TXT, PES and JEF writers takes the settings as a dictionary, or `None`. The other modules take what is found in it as arguments; here it is looked up.
-/

namespace Emb

open Dispatch (Dict get)

/-- Values of settings: `None`, truth values, numbers and texts. -/
inductive Opt where
  | null
  | bool (b : Bool)
  | num (q : ℚ)
  | text (s : Str)
deriving DecidableEq

/-- Truth value. -/
def Opt.truthy : Opt → Bool
  | .null => false
  | .bool b => b
  | .num q => q ≠ 0
  | .text s => s ≠ []

/-- A whole number; `none` for values the model leaves out (on which `range` fails with a `TypeError`). -/
def Opt.whole : Opt → Option Int
  | .num q => if q.den = 1 then some q.num else none
  | _ => none

/-- The truth value of an entry, `False` if there is none. -/
def flag (d : Dict Opt) (k : String) : Bool := ((get d k).map Opt.truthy).getD false

/-- `trim_at`, 3 if there is none. -/
def trimAtOf : Option (Dict Opt) → Option Int
  | none => some 3
  | some d => ((get d "trim_at").map Opt.whole).getD (some 3)

/-- `extended_header`, `DstWriter.py` 108-116. -/
def Dst.extendedOf : Option (Dict Opt) → Bool
  | none => false
  | some d => if (get d "version").getD (.text "default".toList) = .text "extended".toList then true else flag d "extended header"

/-- `write`, `DstWriter.py` 107-185, with its settings. -/
def Dst.save (s : Option (Dict Opt)) (d : Doc) : Option (Except PyErr Bytes) :=
  (trimAtOf s).map fun t => writeDoc (extendedOf s) t d

/-- `version`, `CsvWriter.py` 205-211 and 217-222; texts other than `full` and `delta` mean the default. -/
def Csv.versionOf : Option (Dict Opt) → Version
  | none => .default
  | some d =>
    let v : Opt := .text (if (get d "deltas").isSome then "delta".toList else if (get d "displacement").isSome then "full".toList else "default".toList)
    let v := (get d "version").getD v
    if v = .text "full".toList then .full else if v = .text "delta".toList then .delta else .default

/-- `write`, `CsvWriter.py` 204-222, with its settings. -/
def Csv.save (n : Num) (s : Option (Dict Opt)) (d : Doc) : Str := write n (versionOf s) d

/-- `mimic`, `TxtWriter.py` 62-68. -/
def Txt.mimicOf : Option (Dict Opt) → Bool
  | none => false
  | some d =>
    let m := if (get d "mimic").isSome then true else false
    if (get d "version").getD (.text "default".toList) ≠ .text "default".toList then true else m

/-- `write`, `TxtWriter.py` 61-72, with its settings. -/
def Txt.save (s : Option (Dict Opt)) (threads : List Thread) (filler : Nat → Thread) (l : List Stitch) : Except PyErr Str := write (mimicOf s) threads filler l

/-- `version` and `truncated`, `PesWriter.py` 32-42. `float` is Python's `float` on texts (infinities and NaN left out). -/
def Pes.versionOf (float : Str → Except PyErr ℚ) : Option (Dict Opt) → Except PyErr (ℚ × Bool)
  | none => .ok (1, false)
  | some d =>
    let v := (get d "version").getD ((get d "pes version").getD (.num 1))
    let truncated := flag d "truncated"
    match v with
    | .text t => if t.getLast? = some 't' then (float t.dropLast).map fun q => (q, true) else (float t).map fun q => (q, truncated)
    | .num q => .ok (q, truncated)
    | .bool b => .ok (if b then 1 else 0, truncated)
    | .null => .error .typeError

/-- `write`, `PesWriter.py` 29-52, with its settings. -/
def Pes.save (float : Str → Except PyErr ℚ) (f32 : ℚ → Bytes) (order : List Thread → List Thread) (filler filler' fillerSeg : Nat → Thread) (texts : Texts) (s : Option (Dict Opt))
    (threads : List Thread) (l : List Stitch) : Except PyErr Bytes :=
  versionOf float s >>= fun v => writeFile f32 order filler filler' fillerSeg texts v.1 v.2 threads l

/-- `trims` and `command_count_max`, `JefWriter.py` 22-28: the number of jumps for a trim, `none` without trims. -/
def Jef.trimsOf (s : Option (Dict Opt)) : Option (Option Nat) :=
  if ((s.map fun d => flag d "trims").getD false) then (trimAtOf s).bind fun t => if 0 ≤ t then some (some t.toNat) else none else some none

/-- `write`, `JefWriter.py` 21-120, with its settings. -/
def Jef.save (s : Option (Dict Opt)) (date : Bytes) (w h : Int) (threads : List Thread) (l : List Stitch) : Option (Except PyErr Bytes) :=
  (trimsOf s).map fun t => write t date w h threads l

end Emb
