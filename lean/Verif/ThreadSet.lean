import Mathlib.Data.Int.Bitwise
import Verif.ColorNames
import Verif.Stitch

/-!
# Threads: equality, hash, `set`, and equality of patterns

Models the rest of `EmbThread.py` (132-266) and `EmbPattern.__eq__` (`EmbPattern.py` 108-117).
-/

namespace Emb

namespace Thread

/-- `thread == other` for an `int`, `EmbThread.py` 138-139. -/
def eqInt (t : Thread) (n : Int) : Bool := t.color % 16777216 = n % 16777216

/-- `thread == other` for a `str`, `EmbThread.py` 140-151: `None & 0xFFFFFF` is a `TypeError`. -/
def eqStr (rnd : Int) (t : Thread) (s : Str) : Except PyErr Bool :=
  parseStringColor rnd s >>= fun c => match c with
    | some c => .ok (t.color % 16777216 = c % 16777216)
    | none => .error .typeError

/-- `__hash__`, `EmbThread.py` 170-171. -/
def hash (t : Thread) : Int := t.color % 16777216

/-- `get_opaque_color`, `EmbThread.py` 182-183. -/
def opaqueColor (t : Thread) : Int := Int.lor 0xFF000000 t.color

end Thread

/-- The value under `color` or `rgb` in a dict given to `set`. -/
inductive ColorVal where
  | int (n : Int)
  | seq (l : List Int)
  | text (s : Str)
  | other
deriving DecidableEq, Repr

/-- A dict given to `EmbThread.set`: the keys it looks at, each absent (`none`) or with its value, which may be Python's `None`. -/
structure ThreadDict where
  name : Option (Option String) := none
  description : Option (Option String) := none
  desc : Option (Option String) := none
  brand : Option (Option String) := none
  manufacturer : Option (Option String) := none
  color : Option ColorVal := none
  rgb : Option ColorVal := none
  hex : Option Str := none
  id : Option (Option String) := none
  catalog : Option (Option String) := none
deriving DecidableEq

/-- The colour a value stands for, `EmbThread.py` 228-247; `old` is the colour so far, kept for values of other types. `none` is
Python's `None`. -/
def colorOf (rnd : Int) (old : Option Int) : ColorVal → Except PyErr (Option Int)
  | .int n => .ok (some n)
  | .seq (r :: g :: b :: _) => .ok (some (colorRgb r g b))
  | .seq _ => .error .indexError
  | .text s => parseStringColor rnd s
  | .other => .ok old

/-- `if key in thread: field = thread[key]`. -/
def take {α : Type} (key : Option α) (field : α) : α := match key with | some v => v | none => field

/-- `EmbThread.set(thread)` for a dict, `EmbThread.py` 217-253. `none`: the thread's colour is `None` afterwards (a colour text with a
wrong number of digits). What an error leaves in the thread is not modelled. -/
def setDict (rnd : Int) (t : Thread) (d : ThreadDict) : Except PyErr (Option Thread) :=
  let description := take d.name t.description
  let description := take d.description description
  let description := take d.desc description
  let brand := take d.brand t.brand
  let brand := take d.manufacturer brand
  (match d.color with
    | some c => colorOf rnd (some t.color) c
    | none => match d.rgb with
      | some c => colorOf rnd (some t.color) c
      | none => .ok (some t.color)) >>= fun color =>
  (match d.hex with
    | some h => colorHex h
    | none => .ok color) >>= fun color =>
  let catalog := take d.id t.catalog
  let catalog := take d.catalog catalog
  .ok (color.map (fun c => { t with color := c, description := description, brand := brand, catalog := catalog }))

/-- `EmbThread.set(thread)` for another thread, `EmbThread.py` 207-214. -/
def setThread (_ : Thread) (u : Thread) : Thread :=
  { color := u.color, description := u.description, catalog := u.catalog, details := u.details, brand := u.brand, chart := u.chart, weight := u.weight }

/-- `EmbThread.set(thread)` for an `int`, `EmbThread.py` 215-216. -/
def setInt (t : Thread) (n : Int) : Thread := { t with color := n }

/-- `EmbThread.set(thread)` for a `str`, `EmbThread.py` 254-260. -/
def setStr (rnd : Int) (t : Thread) (s : Str) : Except PyErr (Option Thread) :=
  parseStringColor rnd s >>= fun c => .ok (c.map (fun c => { t with color := c }))

/-- Adding a member to a Python set of threads: members are compared with `==` if their hashes agree. -/
def addMember (l : List Thread) (t : Thread) : List Thread := if l.any (fun u => u.hash = t.hash ∧ u.same t = true) then l else l ++ [t]

/-- `get_unique_threadlist`, `EmbPattern.py` 466-467: `set(self.threadlist)`, in the order the members were added (the code's iteration
order is some permutation of it). -/
def uniqueThreads (threads : List Thread) : List Thread := threads.foldl addMember []

/-- A pattern as `==` sees it; the extras are a dict (insertion-ordered, each key once). -/
structure Pattern where
  stitches : List Stitch := []
  threads : List Thread := []
  extras : List (String × String) := []

/-- `==` between lists of threads: same length and equal members. -/
def sameThreads : List Thread → List Thread → Bool
  | [], [] => true
  | a :: as, b :: bs => a.same b && sameThreads as bs
  | _, _ => false

/-- `==` between dicts: same number of keys, and each key of the one has the same value in the other. -/
def sameDict (d e : List (String × String)) : Bool :=
  d.length = e.length && d.all (fun p => e.lookup p.1 = some p.2)

/-- `EmbPattern.__eq__`, `EmbPattern.py` 108-117, for two patterns. -/
def Pattern.same (p q : Pattern) : Bool :=
  if p.stitches ≠ q.stitches then false
  else if sameThreads p.threads q.threads = false then false
  else if sameDict p.extras q.extras = false then false
  else true

/-- `copy()`, `EmbPattern.py` 207-214, as far as `==` sees it. -/
def Pattern.copy (p : Pattern) : Pattern := { stitches := p.stitches, threads := p.threads, extras := p.extras }

end Emb
