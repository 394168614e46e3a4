import Verif.Spec

/-!
# `EmbPattern`: dividing a pattern into blocks

Threads are values of an arbitrary type `τ` that stands for Python objects (equality on `τ` is identity, `is`). `filler k` is the
random thread made when index `k` is not in the list; every function below asks for an index at most once, so each filler is
a new object.
Slices `self.stitches[start:pos]` are carried along as the list `cur` of the stitches since `start`.
-/

namespace Emb
namespace Blocks

/-- `get_thread_or_filler(index)`, `EmbPattern.py` 374-378. -/
def threadAt {τ : Type} (threads : List τ) (filler : Nat → τ) (k : Nat) : τ := (threads[k]?).getD (filler k)

/-- The loop of `get_as_stitchblock`, `EmbPattern.py` 391-405; `cur` is `stitchblock`, `thread` the current thread, `k` is
`thread_index`. -/
def stitchLoop {τ : Type} (threads : List τ) (filler : Nat → τ) :
    List Stitch → τ → Nat → List Stitch → List (List Stitch × τ)
  | cur, thread, _, [] => if cur.length > 0 then [(cur, thread)] else []
  | cur, thread, k, st :: rest =>
    if cmdOf st.cmd = STITCH then stitchLoop threads filler (cur ++ [st]) thread k rest
    else
      (if cur.length > 0 then [(cur, thread)] else []) ++
        (if cmdOf st.cmd = COLOR_CHANGE then stitchLoop threads filler [] (threadAt threads filler k) (k + 1) rest
         else stitchLoop threads filler [] thread k rest)

/-- `get_as_stitchblock`, `EmbPattern.py` 389-405. -/
def stitchBlocks {τ : Type} (threads : List τ) (filler : Nat → τ) (l : List Stitch) : List (List Stitch × τ) :=
  stitchLoop threads filler [] (threadAt threads filler 0) 1 l

/-- The loop of `get_as_command_blocks`, `EmbPattern.py` 407-418; `last` is `last_command`. -/
def commandLoop : List Stitch → Int → List Stitch → List (List Stitch)
  | cur, _, [] => [cur]
  | cur, last, st :: rest =>
    if cmdOf st.cmd = last ∨ last = NO_COMMAND then commandLoop (cur ++ [st]) (cmdOf st.cmd) rest
    else cur :: commandLoop [st] (cmdOf st.cmd) rest

/-- `get_as_command_blocks`, `EmbPattern.py` 407-418. -/
def commandBlocks (l : List Stitch) : List (List Stitch) := commandLoop [] NO_COMMAND l

/-- The loop of `get_as_colorblocks`, `EmbPattern.py` 427-454; `k` is `thread_index`. -/
def colorLoop {τ : Type} (threads : List τ) (filler : Nat → τ) : List Stitch → Nat → List Stitch → List (List Stitch × τ)
  | cur, k, [] => if cur ≠ [] then [(cur, threadAt threads filler k)] else []
  | cur, k, st :: rest =>
    if cmdOf st.cmd = COLOR_BREAK then
      if cur ≠ [] then (cur, threadAt threads filler k) :: colorLoop threads filler [] (k + 1) rest
      else colorLoop threads filler [] k rest
    else if cmdOf st.cmd = COLOR_CHANGE then
      (cur ++ [st], threadAt threads filler k) :: colorLoop threads filler [] (k + 1) rest
    else if cmdOf st.cmd = NEEDLE_SET ∧ cur ≠ [] then
      (cur, threadAt threads filler k) :: colorLoop threads filler [st] (k + 1) rest
    else colorLoop threads filler (cur ++ [st]) k rest

/-- `get_as_colorblocks`, `EmbPattern.py` 420-454. -/
def colorBlocks {τ : Type} (threads : List τ) (filler : Nat → τ) (l : List Stitch) : List (List Stitch × τ) :=
  colorLoop threads filler [] 0 l

/-- The loop of `fix_color_count`, `EmbPattern.py` 495-504: `thread_index` at the end, for `init` = `init_color`. -/
def colorCount : Bool → List Stitch → Nat
  | _, [] => 0
  | init, st :: rest =>
    if cmdOf st.cmd = STITCH ∨ cmdOf st.cmd = SEW_TO ∨ cmdOf st.cmd = NEEDLE_AT then
      (if init then 1 else 0) + colorCount false rest
    else if cmdOf st.cmd = COLOR_CHANGE ∨ cmdOf st.cmd = COLOR_BREAK ∨ cmdOf st.cmd = NEEDLE_SET then colorCount true rest
    else colorCount init rest

/-- `fix_color_count`, `EmbPattern.py` 493-506: the thread list afterwards. The index asked for is the length of the list, so the
answer is always a filler. -/
def fixColorCount {τ : Type} (threads : List τ) (filler : Nat → τ) (l : List Stitch) : List τ :=
  threads ++ (List.range (colorCount true l - threads.length)).map (fun i => filler (threads.length + i))

/-- `get_singleton_threadlist`, `EmbPattern.py` 469-476; `eqv` is `==` between threads, `last` is `last_thread`. -/
def singletons {τ : Type} (eqv : τ → τ → Bool) : Option τ → List τ → List τ
  | _, [] => []
  | last, t :: ts => (if last.any (eqv t) then [] else [t]) ++ singletons eqv (some t) ts

/-- The loop of `get_pattern_merge_jumps`, `EmbPattern.py` 843-854: the new stitches; `broken` is `stitch_break`. -/
def mergeLoop : Bool → List Stitch → List Stitch
  | _, [] => []
  | broken, st :: rest =>
    if cmdOf st.cmd = JUMP then
      if broken then mergeLoop broken rest else ⟨0, 0, STITCH_BREAK⟩ :: mergeLoop true rest
    else st :: mergeLoop broken rest

/-- `get_pattern_merge_jumps`, `EmbPattern.py` 838-857. -/
def mergeJumps (l : List Stitch) : List Stitch := mergeLoop false l

/-- A pattern being built: stitches, thread list and the previous position. -/
structure Build (τ : Type) where
  stitches : List Stitch := []
  threads : List τ := []
  px : ℚ := 0
  py : ℚ := 0

/-- `add_stitch_absolute`, `EmbPattern.py` 508-512. -/
def Build.abs {τ : Type} (b : Build τ) (cmd : Int) (x y : ℚ) : Build τ :=
  { b with stitches := b.stitches ++ [⟨x, y, cmd⟩], px := x, py := y }

/-- `add_stitch_relative`, `EmbPattern.py` 514-518. -/
def Build.rel {τ : Type} (b : Build τ) (cmd : Int) (dx dy : ℚ) : Build τ := b.abs cmd (b.px + dx) (b.py + dy)

/-- `add_stitchblock`, `EmbPattern.py` 583-597, for stitches given as lists. -/
def Build.addBlock {τ : Type} [DecidableEq τ] (b : Build τ) (blk : List Stitch × τ) : Build τ :=
  let b := if b.threads.getLast? ≠ some blk.2 then { b with threads := b.threads ++ [blk.2] }.rel COLOR_BREAK 0 0
    else b.rel SEQUENCE_BREAK 0 0
  blk.1.foldl (fun b st => b.abs st.cmd st.x st.y) b

/-- `get_stable_pattern`, `EmbPattern.py` 859-865, without the metadata. -/
def stable {τ : Type} [DecidableEq τ] (threads : List τ) (filler : Nat → τ) (l : List Stitch) : Build τ :=
  (stitchBlocks threads filler l).foldl Build.addBlock {}

/-- The inner loop of `get_pattern_interpolate_trim`, `EmbPattern.py` 823-827, from a JUMP `st` on: the last command of the run that
is used, the length of the run as counted, and what is left of the list. `stitch[2]` is compared without the mask. -/
def runOf : Stitch → List Stitch → Stitch × Nat × List Stitch
  | st, [] => (st, 0, [])
  | st, b :: rest => if b.cmd = JUMP then ((runOf b rest).1, (runOf b rest).2.1 + 1, (runOf b rest).2.2) else (st, 1, b :: rest)

theorem runOf_length (st : Stitch) (l : List Stitch) : (runOf st l).2.2.length ≤ l.length := by
  induction l generalizing st with
  | nil => simp [runOf]
  | cons b l ih =>
    unfold runOf
    split_ifs
    · exact Nat.le_succ_of_le (ih b)
    · simp

/-- `trimmed` after a command, `EmbPattern.py` 816-819. -/
def trimmedAfter (trimmed : Bool) (st : Stitch) : Bool :=
  if cmdOf st.cmd = STITCH ∨ cmdOf st.cmd = SEQUIN_EJECT then false
  else if cmdOf st.cmd = COLOR_CHANGE ∨ cmdOf st.cmd = NEEDLE_SET ∨ cmdOf st.cmd = TRIM then true
  else trimmed

/-- The loop of `get_pattern_interpolate_trim`, `EmbPattern.py` 806-833: what is added to the new pattern, whose last position is
`p` (where `trim()` puts a TRIM). -/
def trimLoop (jumps : Nat) : Bool → ℚ × ℚ → List Stitch → List Stitch
  | _, _, [] => []
  | trimmed, p, st :: rest =>
    if trimmedAfter trimmed st = true ∨ st.cmd ≠ JUMP then
      st :: trimLoop jumps (trimmedAfter trimmed st) (st.x, st.y) rest
    else
      have : (runOf st rest).2.2.length < (st :: rest).length := Nat.lt_succ_of_le (runOf_length st rest)
      let r := runOf st rest
      (if r.2.1 ≥ jumps then [⟨p.1, p.2, TRIM⟩] else []) ++
        r.1 :: trimLoop jumps (trimmedAfter trimmed st) (r.1.x, r.1.y) r.2.2
  termination_by _ _ l => l.length

/-- `get_pattern_interpolate_trim`, `EmbPattern.py` 801-836. -/
def interpolateTrim (jumps : Nat) (l : List Stitch) : List Stitch := trimLoop jumps true (0, 0) l

end Blocks
end Emb
