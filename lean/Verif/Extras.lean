import Verif.Encoder
import Verif.Ops
import Verif.Csv
import Verif.ThreadSet

/-!
# Metadata of patterns

`extras` is a dictionary with string keys; its values are of any type `V`. It is kept in insertion order, as Python does.
-/

namespace Emb
namespace Extras

open Blocks Ops

/-- A pattern with its metadata. -/
structure Whole (τ V : Type) where
  build : Build τ := {}
  extras : List (Str × V) := []

/-- `d.update(e)` on dictionaries. -/
def update {V : Type} (d e : List (Str × V)) : List (Str × V) := e.foldl (fun d p => put p.1 p.2 d) d

/-- `d.get(k)` on a dictionary. -/
def get {V : Type} (k : Str) (d : List (Str × V)) : Option V := (d.find? (fun p => p.1 = k)).map (fun p => p.2)

variable {τ V : Type}

/-- `metadata`, `EmbPattern.py` 317-320; also `pattern[name] = data`, 139-143, and `pattern += (name, data)`, 191-192. -/
def Whole.metadata (p : Whole τ V) (name : Str) (data : V) : Whole τ V := { p with extras := put name data p.extras }

/-- `get_metadata`, `EmbPattern.py` 322-323. -/
def Whole.getMetadata (p : Whole τ V) (name : Str) (default : Option V) : Option V :=
  match get name p.extras with
  | some v => some v
  | none => default

/-- `pattern[name]`, `EmbPattern.py` 134-137. -/
def Whole.item (p : Whole τ V) (name : Str) : Except PyErr V :=
  match get name p.extras with
  | some v => .ok v
  | none => .error .keyError

/-- `copy`, `EmbPattern.py` 207-214, and `EmbPattern(pattern)`, 88-95. -/
def Whole.copy (p : Whole τ V) : Whole τ V := { build := p.build, extras := update [] p.extras }

/-- `clear`, `EmbPattern.py` 216-221. -/
def Whole.clear (_ : Whole τ V) : Whole τ V := {}

/-- `add_pattern`, `EmbPattern.py` 599-652. -/
def Whole.add (eqv : τ → τ → Bool) (filler : Nat → τ) (p q : Whole τ V) (dx dy sx sy rotate : Option ℚ) : Except PyErr (Whole τ V) :=
  (addPattern eqv filler p.build q.build dx dy sx sy rotate).map (fun b => { build := b, extras := update p.extras q.extras })

/-- `p + q`, `EmbPattern.py` 197-200. -/
def Whole.plus (eqv : τ → τ → Bool) (filler : Nat → τ) (p q : Whole τ V) : Except PyErr (Whole τ V) :=
  p.copy.add eqv filler q none none none none none

/-- `get_pattern_interpolate_trim`, `EmbPattern.py` 801-836 (simplification: the last position of the new pattern is left out).
-/
def Whole.interpolateTrim (p : Whole τ V) (jumps : Nat) : Whole τ V :=
  { build := { stitches := Blocks.interpolateTrim jumps p.build.stitches, threads := p.build.threads }, extras := update [] p.extras }

/-- `get_pattern_merge_jumps`, `EmbPattern.py` 838-857 (simplification: the last position of the new pattern is left out). -/
def Whole.mergeJumps (p : Whole τ V) : Whole τ V :=
  { build := { stitches := Blocks.mergeJumps p.build.stitches, threads := p.build.threads }, extras := update [] p.extras }

/-- `get_stable_pattern`, `EmbPattern.py` 859-865. -/
def Whole.stable [DecidableEq τ] (filler : Nat → τ) (p : Whole τ V) : Whole τ V :=
  { build := Blocks.stable p.build.threads filler p.build.stitches, extras := update [] p.extras }

/-- `get_normalized_pattern`, `EmbPattern.py` 867-872, with `transcode_metadata`, `EmbEncoder.py` 94-98; the encoder does not move the
last position of the new pattern. -/
def Whole.normalized (o : Settings) (lm : Libm) (p : Whole Thread V) : Except PyErr (Whole (Option Thread) V) :=
  (encode o lm p.build.threads p.build.stitches).map (fun r => { build := { stitches := r.1, threads := r.2 }, extras := update [] p.extras })

/-- `str(pattern)`, `EmbPattern.py` 119-129; `show_` is `str` of a value, numbers are padded to three characters. -/
def Whole.str (show_ : V → Str) (p : Whole τ V) : Str :=
  let counts := "(commands: ".toList ++ padLeft 3 (dec p.build.stitches.length) ++ ", threads: ".toList ++
    padLeft 3 (dec p.build.threads.length) ++ ")".toList
  match get "name".toList p.extras with
  | some v => "EmbPattern ".toList ++ show_ v ++ " ".toList ++ counts
  | none => "EmbPattern ".toList ++ counts

end Extras
end Emb
