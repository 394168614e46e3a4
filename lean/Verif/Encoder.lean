import Verif.Stitch
import Verif.Matrix

/-!
# The encoder (Transcoder)

Models `EmbEncoder.py`. The destination pattern is fresh and empty, as in `EmbPattern.get_normalized_pattern`
(`EmbPattern.py` 867-872). Metadata (`extras`) is not modelled here.
-/

namespace Emb

/-- The C maths functions the encoder calls: `distance` (`EmbEncoder.py` 674-676, via `sqrt`), `oriented` (689-692, via
`atan2`, `cos`, `sin`) and the cosine/sine used by `get_rotate` (`EmbMatrix.py` 140-146). Arbitrary functions here. -/
structure Libm where
  dist : ℚ → ℚ → ℚ → ℚ → ℚ
  oriented : ℚ → ℚ → ℚ → ℚ → ℚ → ℚ × ℚ
  cos : ℚ → ℚ
  sin : ℚ → ℚ

/-- A `tie_on`/`tie_off` setting: `True`/`False` or a contingency code. -/
inductive Tie where
  | bool (b : Bool)
  | code (c : Int)
deriving DecidableEq, Repr

/-- The settings dictionary with `Transcoder.__init__`'s defaults, `EmbEncoder.py` 8-70. `none` limits are `inf`.
Simplifications: flags are proper booleans, `translate`/`scale` are pairs. -/
structure Settings where
  maxStitch : Option ℚ := none
  maxJump : Option ℚ := none
  fullJump : Bool := false
  round : Bool := false
  needleCount : Int := 5
  threadChange : Int := COLOR_CHANGE
  stripSequins : Bool := true
  sequinContingency : Option Int := none
  writesSpeeds : Bool := true
  explicitTrim : Bool := false
  tieOn : Tie := .code CONTINGENCY_TIE_ON_NONE
  tieOff : Tie := .code CONTINGENCY_TIE_OFF_NONE
  longStitch : Int := CONTINGENCY_LONG_STITCH_JUMP_NEEDLE
  translate : Option (ℚ × ℚ) := none
  scale : Option (ℚ × ℚ) := none
  rotate : Option ℚ := none

namespace Settings

/-- `thread_change_command` after lines 16-18 of `EmbEncoder.py`. -/
def changeCommand (o : Settings) : Int :=
  if o.needleCount ≤ 1 ∧ o.threadChange = NEEDLE_SET then STOP else o.threadChange

/-- `sequin_contingency`, `EmbEncoder.py` 19-27. -/
def sequin (o : Settings) : Int :=
  o.sequinContingency.getD (if o.stripSequins then CONTINGENCY_SEQUIN_JUMP else CONTINGENCY_SEQUIN_UTILIZE)

/-- `tie_on_contingency`, `EmbEncoder.py` 32-36. -/
def tieOnCode (o : Settings) : Int :=
  match o.tieOn with
  | .bool true => CONTINGENCY_TIE_ON_THREE_SMALL
  | .bool false => CONTINGENCY_TIE_ON_NONE
  | .code c => c

/-- `tie_off_contingency`, `EmbEncoder.py` 38-42. -/
def tieOffCode (o : Settings) : Int :=
  match o.tieOff with
  | .bool true => CONTINGENCY_TIE_OFF_THREE_SMALL
  | .bool false => CONTINGENCY_TIE_OFF_NONE
  | .code c => c

/-- The initial matrix, `EmbEncoder.py` 48-70. -/
def matrix (o : Settings) (lm : Libm) : Mat :=
  let m := Mat.identity
  let m := match o.translate with
    | none => m
    | some t => m.postTranslate t.1 t.2
  let m := match o.scale with
    | none => m
    | some t => m.postScale t.1 t.2 0 0
  match o.rotate with
  | none => m
  | some r => m.postRotate (lm.cos r) (lm.sin r) 0 0

end Settings

/-! ## Planning the colour changes -/

/-- One event of `get_as_thread_change_sequence_events`, `EmbEncoder.py` 100-121. `index = none` is `None` (line 117). -/
structure Event where
  flags : Int
  thread : Option Int
  needle : Option Int
  order : Option Int
  index : Option Int
deriving DecidableEq, Repr

/-- Commands that start sewing for the planner (`EmbEncoder.py` 109-114). -/
def isSewing (flags : Int) : Bool :=
  flags == STITCH || flags == SEW_TO || flags == NEEDLE_AT || flags == SEQUIN_EJECT

/-- `get_as_thread_change_sequence_events`, `EmbEncoder.py` 100-121; `ci` is `current_index`. -/
def events : List Stitch → Int → List Event
  | [], _ => []
  | st :: rest, ci =>
    let (flags, thread, needle, order) := decodeCommand st.cmd
    let ci := if ci = 0 ∧ isSewing flags then 1 else ci
    if flags = SET_CHANGE_SEQUENCE then ⟨flags, thread, needle, order, none⟩ :: events rest ci
    else if flags = NEEDLE_SET ∨ flags = COLOR_CHANGE ∨ flags = COLOR_BREAK then
      ⟨flags, thread, needle, order, some ci⟩ :: events rest (ci + 1)
    else events rest ci

/-- A change under construction: the Python list `[cmd, thread, needle, EmbThread]` with `None`s
(`EmbEncoder.py` 127). -/
structure Change where
  cmd : Option Int := none
  thread : Option Int := none
  needle : Option Int := none
  thr : Option (Option Thread) := none
deriving DecidableEq, Repr

/-- Insertion-ordered dictionary update: change the entry of `k` if present, else append a new entry. -/
def upsert {α : Type} (k : Int) (new : α) (f : α → α) : List (Int × α) → List (Int × α)
  | [] => [(k, f new)]
  | (k', v) :: rest => if k' = k then (k', f v) :: rest else (k', v) :: upsert k new f rest

/-- Dictionary lookup. -/
def dget {α : Type} (k : Int) : List (Int × α) → Option α
  | [] => none
  | (k', v) :: rest => if k' = k then some v else dget k rest

/-- What one event writes into its change (`EmbEncoder.py` 157-163). -/
def Change.record (threads : List Thread) (e : Event) (c : Change) : Change :=
  let c := if e.flags = COLOR_CHANGE ∨ e.flags = NEEDLE_SET then { c with cmd := some e.flags } else c
  let c := match e.thread with
    | none => c
    | some t => { c with thread := some t, thr := some (threadOrFiller threads t) }
  match e.needle with
  | none => c
  | some n => { c with needle := some n }

/-- One iteration of the first loop of `build_thread_change_sequence`, `EmbEncoder.py` 128-163; the pair is
`(change_sequence, lookahead_index)`. -/
def planEvent (threads : List Thread) (p : List (Int × Change) × Int) (e : Event) : List (Int × Change) × Int :=
  let (plan, look) := p
  if e.flags = SET_CHANGE_SEQUENCE then
    match e.order with
    | none => (upsert look {} (Change.record threads e) plan, look + 1)
    | some o => (upsert o {} (Change.record threads e) plan, look)
  else
    -- `current_index` is never `None` here
    let ci := e.index.getD 0
    (upsert ci {} (Change.record threads e) plan, if ci ≥ look then ci + 1 else look)

/-- A finished change. -/
structure Full where
  cmd : Int
  thread : Int
  needle : Int
  thr : Option Thread
deriving DecidableEq, Repr

/-- The needle given to a change without one, `EmbEncoder.py` 175-178. `%` is Python's (sign of the divisor). -/
def autoNeedle (limit n : Int) : Except PyErr Int :=
  if n > limit then
    if limit = 0 then .error .zeroDivision else .ok (Int.fmod (n - 1) limit + 1)
  else .ok n

/-- One iteration of the second loop of `build_thread_change_sequence`: fill in what the change leaves open,
`EmbEncoder.py` 168-182; `ti`, `ni` are `thread_index`, `needle_index`. -/
def fillOne (threads : List Thread) (change limit : Int) (c : Change) (ti ni : Int) : Except PyErr Full :=
  (match c.needle with
    | some n => .ok n
    | none => autoNeedle limit ni) >>= fun needle =>
  .ok ⟨c.cmd.getD change, c.thread.getD ti, needle, c.thr.getD (threadOrFiller threads (c.thread.getD ti))⟩

/-- Second loop of `build_thread_change_sequence`, `EmbEncoder.py` 166-182. The counters advance where a value was
filled in. -/
def fillPlan (threads : List Thread) (change limit : Int) :
    List (Int × Change) → Int → Int → Except PyErr (List (Int × Full))
  | [], _, _ => .ok []
  | (k, c) :: rest, ti, ni => do
    let f ← fillOne threads change limit c ti ni
    let r ← fillPlan threads change limit rest (if c.thread = none then ti + 1 else ti)
      (if c.needle = none then ni + 1 else ni)
    return (k, f) :: r

/-- First loop of `build_thread_change_sequence` over the whole source. -/
def rawPlan (threads : List Thread) (source : List Stitch) : List (Int × Change) :=
  ((events source 0).foldl (planEvent threads) ([(0, {})], 0)).1

/-- `build_thread_change_sequence`, `EmbEncoder.py` 123-183. -/
def buildPlan (o : Settings) (threads : List Thread) (source : List Stitch) : Except PyErr (List (Int × Full)) :=
  fillPlan threads o.changeCommand o.needleCount (rawPlan threads source) 0 1

/-! ## State -/

/-- What does not change during `transcode_main`. -/
structure Cfg where
  fullJump : Bool
  round : Bool
  writesSpeeds : Bool
  change : Int
  source : List Stitch
  plan : List (Int × Full)
  lm : Libm

/-- What `transcode_main` changes; `out`, `threads` are the destination's `stitches` and `threadlist`. -/
structure St where
  maxStitch : Option ℚ
  maxJump : Option ℚ
  explicitTrim : Bool
  sequinC : Int
  tieOnC : Int
  tieOffC : Int
  longC : Int
  matrix : Mat
  order : Int := -1
  trimmed : Bool := true
  sequinMode : Bool := false
  jumping : Bool := false
  nx : ℚ := 0
  ny : ℚ := 0
  high : Int := 0
  out : List Stitch := []
  threads : List (Option Thread) := []

/-- `add(flags)` at the needle, `EmbEncoder.py` 368-374. `flags` is a command byte and `high_flags` has only bits
8-15, so `|` is `+`. -/
def St.add (s : St) (flags : Int) : St := { s with out := s.out ++ [⟨s.nx, s.ny, flags + s.high⟩] }

/-- `add(flags, x, y)` followed by `update_needle_position(x, y)` (`EmbEncoder.py` 368-374, 353-355), the only way
`add` is called with coordinates. -/
def St.moveTo (s : St) (flags : Int) (x y : ℚ) : St :=
  { s with out := s.out ++ [⟨x, y, flags + s.high⟩], nx := x, ny := y }

/-- `next_change_sequence`, `EmbEncoder.py` 585-599, with `add_thread_change` (362-366). A missing key is `KeyError`. -/
def nextChange (cfg : Cfg) (s : St) : Except PyErr St :=
  match dget (s.order + 1) cfg.plan with
  | none => .error .keyError
  | some ch =>
    let s := { s with order := s.order + 1 }
    let word := fun c => encodeThreadChange c (some ch.thread) (some ch.needle) none
    let emit := fun (s : St) c => { s with out := s.out ++ [⟨s.nx, s.ny, word c⟩] }
    let s :=
      if cfg.change = COLOR_CHANGE then
        let s := { s with threads := s.threads ++ [ch.thr] }
        if s.order ≠ 0 then emit s COLOR_CHANGE else s
      else if cfg.change = NEEDLE_SET then emit s NEEDLE_SET
      else if cfg.change = STOP then emit { s with threads := s.threads ++ [ch.thr] } STOP
      else s
    .ok { s with trimmed := true }

/-- `declare_not_trimmed`, `EmbEncoder.py` 357-360. -/
def declareNotTrimmed (cfg : Cfg) (s : St) : Except PyErr St :=
  (if s.order = -1 then nextChange cfg s else .ok s) >>= fun s =>
  pure { s with trimmed := false }

/-- `toggle_sequins`, `EmbEncoder.py` 471-477. -/
def toggleSequins (s : St) : St :=
  if s.sequinC = CONTINGENCY_SEQUIN_UTILIZE then
    { s.add SEQUIN_MODE with sequinMode := !s.sequinMode }
  else s

/-- `trim_here`, `EmbEncoder.py` 464-469. -/
def trimHere (s : St) : St :=
  let s := if s.sequinMode then toggleSequins s else s
  { s.add TRIM with trimmed := true }

/-- `math.ceil`. -/
def ceilQ (q : ℚ) : Int := -((-q).floor)

/-- The loop of `interpolate_gap_stitches`, `EmbEncoder.py` 637-645. The needle always equals `(qx, qy)`. -/
def gapLoop (data : Int) (sx sy : ℚ) : Nat → St → St
  | 0, s => s
  | n + 1, s => gapLoop data sx sy n (s.moveTo data (s.nx + sx) (s.ny + sy))

/-- `abs(distance_x) > max_length or abs(distance_y) > max_length`, `EmbEncoder.py` 622. -/
def tooFar (limit : Option ℚ) (dx dy : ℚ) : Bool :=
  match limit with
  | none => false
  | some m => decide (|dx| > m) || decide (|dy| > m)

/-- `interpolate_gap_stitches(needle_x, needle_y, x1, y1, max_length, data)`, `EmbEncoder.py` 613-645; every caller
passes the needle position as start. -/
def gap (s : St) (x1 y1 : ℚ) (limit : Option ℚ) (data : Int) : Except PyErr St :=
  let dx := x1 - s.nx
  let dy := y1 - s.ny
  match limit with
  | none => .ok s
  | some m =>
    if tooFar (some m) dx dy then
      let s := if data = JUMP ∧ s.sequinMode then toggleSequins s else s
      if m = 0 then .error .zeroDivision
      else
        let steps_x := ceilQ |dx / m|
        let steps_y := ceilQ |dy / m|
        let steps := if steps_x > steps_y then steps_x else steps_y
        if steps = 0 then .error .zeroDivision
        else .ok (gapLoop data (dx / steps) (dy / steps) (steps - 1).toNat s)
    else .ok s

/-- `jump_at`, `EmbEncoder.py` 501-505. -/
def jumpAt (s : St) (x y : ℚ) : St :=
  let s := if s.sequinMode then toggleSequins s else s
  s.moveTo JUMP x y

/-- `jump_to_within_stitchrange`, `EmbEncoder.py` 479-492. -/
def jumpToWithin (cfg : Cfg) (s : St) (x y : ℚ) : Except PyErr St := do
  let s ← gap s x y s.maxJump JUMP
  return if cfg.fullJump ∧ (s.nx ≠ x ∨ s.ny ≠ y) then jumpAt s x y else s

/-- `jump_to`, `EmbEncoder.py` 494-499. -/
def jumpTo (s : St) (x y : ℚ) : Except PyErr St := do
  let s ← gap s x y s.maxJump JUMP
  return jumpAt s x y

/-- `stitch_at`, `EmbEncoder.py` 541-545. -/
def stitchAt (s : St) (x y : ℚ) : St := s.moveTo STITCH x y

/-- `sew_to`, `EmbEncoder.py` 515-523. -/
def sewTo (s : St) (x y : ℚ) : Except PyErr St := do
  let s ← gap s x y s.maxStitch STITCH
  return stitchAt s x y

/-- `needle_to`, `EmbEncoder.py` 525-539. -/
def needleTo (s : St) (x y : ℚ) : Except PyErr St := do
  let s ← gap s x y s.maxStitch JUMP
  return stitchAt s x y

/-- `stitch_with_contingency`, `EmbEncoder.py` 507-513. -/
def stitchWithContingency (s : St) (x y : ℚ) : Except PyErr St :=
  if s.longC = CONTINGENCY_LONG_STITCH_SEW_TO then sewTo s x y
  else if s.longC = CONTINGENCY_LONG_STITCH_JUMP_NEEDLE then needleTo s x y
  else .ok (stitchAt s x y)

/-- `sequin_at`, `EmbEncoder.py` 547-567. -/
def sequinAt (s : St) (x y : ℚ) : Except PyErr St :=
  let contingency := s.sequinC
  if contingency = CONTINGENCY_SEQUIN_REMOVE then .ok s
  else do
    let s ← gap s x y s.maxStitch STITCH
    let s := if contingency = CONTINGENCY_SEQUIN_UTILIZE then s.moveTo SEQUIN_EJECT x y
      else if contingency = CONTINGENCY_SEQUIN_JUMP then s.moveTo JUMP x y
      else if contingency = CONTINGENCY_SEQUIN_STITCH then s.moveTo STITCH x y
      else s
    return { s with nx := x, ny := y }

/-- `towards(a, b, amount)`, `EmbEncoder.py` 679-681. -/
def towards (a b amount : ℚ) : ℚ := amount * (b - a) + a

/-- `length > max_length` of `lock_stitch`, `EmbEncoder.py` 655. -/
def exceeds (limit : Option ℚ) (length : ℚ) : Bool :=
  match limit with
  | none => false
  | some m => decide (length > m)

/-- The anchor actually used by `lock_stitch`, `EmbEncoder.py` 654-658. -/
def lockAnchor (lm : Libm) (x y ax ay : ℚ) (limit : Option ℚ) : ℚ × ℚ :=
  if exceeds limit (lm.dist x y ax ay) then lm.oriented x y ax ay (limit.getD 0) else (ax, ay)

/-- The four stitches of `lock_stitch`, `EmbEncoder.py` 659-662. -/
def lockStitches (lm : Libm) (x y ax ay : ℚ) (limit : Option ℚ) : List Stitch :=
  let a := lockAnchor lm x y ax ay limit
  [33 / 100, 66 / 100, 33 / 100, 0].map fun amount => ⟨towards x a.1 amount, towards y a.2 amount, STITCH⟩

/-- `lock_stitch` towards a source stitch if it is a stitching command: the common part of `tie_off` and `tie_on`,
`EmbEncoder.py` 430-441 and 449-460. `b[2]` is compared without masking, as in the code. -/
def lockTowards (cfg : Cfg) (s : St) (b : Stitch) : St :=
  let p := s.matrix.point b.x b.y
  if b.cmd = STITCH ∨ b.cmd = NEEDLE_AT ∨ b.cmd = SEW_TO ∨ b.cmd = SEQUIN_EJECT then
    { s with out := s.out ++ lockStitches cfg.lm s.nx s.ny p.1 p.2 s.maxStitch }
  else s

/-- `tie_off`, `EmbEncoder.py` 426-443; Python's index `-1` wraps to the last stitch. -/
def tieOff (cfg : Cfg) (position : Nat) (s : St) : St :=
  if s.tieOffC = CONTINGENCY_TIE_OFF_THREE_SMALL then
    match pyGet cfg.source ((position : Int) - 1) with
    | .ok b => lockTowards cfg s b
    | .error _ => s
  else s

/-- `tie_on`, `EmbEncoder.py` 445-462. -/
def tieOn (cfg : Cfg) (position : Nat) (s : St) : St :=
  if s.tieOnC = CONTINGENCY_TIE_ON_THREE_SMALL then
    match pyGet cfg.source ((position : Int) + 1) with
    | .ok b => lockTowards cfg s b
    | .error _ => s
  else s

/-- The loop of `lookahead_stitch`, `EmbEncoder.py` 380-395 (comparisons without masking, as in the code). -/
def lookaheadIn : List Stitch → Bool
  | [] => false
  | st :: rest =>
    if st.cmd = STITCH then true
    else if st.cmd = NEEDLE_AT then true
    else if st.cmd = SEW_TO then true
    else if st.cmd = TIE_ON then true
    else if st.cmd = SEQUIN_EJECT then true
    else if st.cmd = END then false
    else lookaheadIn rest

/-- `lookahead_stitch`, `EmbEncoder.py` 376-395. -/
def lookahead (cfg : Cfg) (position : Nat) : Bool := lookaheadIn (cfg.source.drop position)

/-- `if not state_trimmed: tie_off(); if explicit_trim: trim_here()`, `EmbEncoder.py` 401-404 and 411-414. -/
def tieOffTrimIfExplicit (cfg : Cfg) (position : Nat) (s : St) : St :=
  if s.trimmed then s
  else
    let s := tieOff cfg position s
    if s.explicitTrim then trimHere s else s

/-- `color_break`, `EmbEncoder.py` 397-408. -/
def colorBreak (cfg : Cfg) (position : Nat) (s : St) : Except PyErr St :=
  if s.order < 0 then .ok s
  else
    let s := tieOffTrimIfExplicit cfg position s
    if lookahead cfg position then do
      let s ← nextChange cfg s
      return { s with trimmed := true }
    else .ok s

/-- `tie_off_trim_color_change`, `EmbEncoder.py` 410-416. -/
def colorChange (cfg : Cfg) (position : Nat) (s : St) : Except PyErr St := do
  let s ← nextChange cfg (tieOffTrimIfExplicit cfg position s)
  return { s with trimmed := true }

/-- `tie_off_and_trim_if_needed`, `EmbEncoder.py` 418-424. -/
def tieOffAndTrimIfNeeded (cfg : Cfg) (position : Nat) (s : St) : St :=
  if s.trimmed then s else trimHere (tieOff cfg position s)

/-- `stop_here`, `EmbEncoder.py` 577-579. -/
def stopHere (s : St) : St := { s.add STOP with trimmed := true }

/-- `end_here`, `EmbEncoder.py` 581-583. -/
def endHere (s : St) : St := { s.add END with trimmed := true }

/-- First strike after a trim, `EmbEncoder.py` 214-217 (also 224-228, 236-239, 279-282). -/
def firstStrike (cfg : Cfg) (position : Nat) (s : St) (x y : ℚ) : Except PyErr St := do
  let s ← declareNotTrimmed cfg s
  let s ← jumpToWithin cfg s x y
  return tieOn cfg position (stitchAt s x y)

/-- `STITCH`, `NEEDLE_AT`, `SEW_TO`, `EmbEncoder.py` 213-244; `direct` is what happens when neither trimmed nor
jumping. -/
def sewStep (cfg : Cfg) (position : Nat) (s : St) (x y : ℚ) (direct : St → ℚ → ℚ → Except PyErr St) :
    Except PyErr St :=
  if s.trimmed then firstStrike cfg position s x y
  else if s.jumping then do
    let s ← needleTo s x y
    return { s with jumping := false }
  else direct s x y

/-- `SEQUIN_EJECT`, `EmbEncoder.py` 278-286. -/
def ejectStep (cfg : Cfg) (position : Nat) (s : St) (x y : ℚ) : Except PyErr St :=
  (if s.trimmed then firstStrike cfg position s x y else .ok s) >>= fun s =>
  sequinAt (if s.sequinMode then s else toggleSequins s) x y

/-- `FRAME_EJECT`, `EmbEncoder.py` 249-252. -/
def frameEject (cfg : Cfg) (position : Nat) (s : St) (x y : ℚ) : Except PyErr St := do
  let s ← jumpTo (tieOffAndTrimIfNeeded cfg position s) x y
  return stopHere s

/-- `CONTINGENCY_SEQUIN_REMOVE/STITCH/JUMP`, `EmbEncoder.py` 322-333. -/
def leaveSequins (s : St) (c : Int) : St :=
  { (if s.sequinMode then toggleSequins s else s) with sequinC := c }

/-- `MATRIX_SCALE` and `MATRIX_ROTATE`'s first three lines, `EmbEncoder.py` 343-345, 348-350: the needle in the matrix'
own space; the matrix is inverted twice. -/
def needlePreimage (s : St) : Except PyErr (Mat × ℚ × ℚ) := do
  let inv ← s.matrix.inverse
  let q := inv.point s.nx s.ny
  let back ← inv.inverse
  return (back, q.1, q.2)

/-- On-the-fly matrix commands, `EmbEncoder.py` 336-353. Unknown commands (including `NO_COMMAND`, whose low byte is
255) do nothing. -/
def matrixStep (cfg : Cfg) (s : St) (st : Stitch) (flags : Int) : Except PyErr St :=
  if flags = MATRIX_TRANSLATE then .ok { s with matrix := s.matrix.postTranslate st.x st.y }
  else if flags = MATRIX_SCALE_ORIGIN then .ok { s with matrix := s.matrix.postScale st.x st.y 0 0 }
  else if flags = MATRIX_ROTATE_ORIGIN then
    .ok { s with matrix := s.matrix.postRotate (cfg.lm.cos st.x) (cfg.lm.sin st.x) 0 0 }
  else if flags = MATRIX_SCALE then do
    let (m, qx, qy) ← needlePreimage s
    return { s with matrix := m.postScale st.x st.y qx qy }
  else if flags = MATRIX_ROTATE then do
    let (m, qx, qy) ← needlePreimage s
    return { s with matrix := m.postRotate (cfg.lm.cos st.x) (cfg.lm.sin st.x) qx qy }
  else if flags = MATRIX_RESET then .ok { s with matrix := Mat.identity }
  else .ok s

/-- On-the-fly settings, `EmbEncoder.py` 298-335. -/
def settingStep (cfg : Cfg) (s : St) (st : Stitch) (flags : Int) : Except PyErr St :=
  if flags = CONTINGENCY_TIE_ON_THREE_SMALL then .ok { s with tieOnC := CONTINGENCY_TIE_ON_THREE_SMALL }
  else if flags = CONTINGENCY_TIE_OFF_THREE_SMALL then .ok { s with tieOffC := CONTINGENCY_TIE_OFF_THREE_SMALL }
  else if flags = CONTINGENCY_TIE_ON_NONE then .ok { s with tieOnC := CONTINGENCY_TIE_ON_NONE }
  else if flags = CONTINGENCY_TIE_OFF_NONE then .ok { s with tieOffC := CONTINGENCY_TIE_OFF_NONE }
  else if flags = OPTION_MAX_JUMP_LENGTH then .ok { s with maxJump := some st.x }
  else if flags = OPTION_MAX_STITCH_LENGTH then .ok { s with maxStitch := some st.x }
  else if flags = OPTION_EXPLICIT_TRIM then .ok { s with explicitTrim := true }
  else if flags = OPTION_IMPLICIT_TRIM then .ok { s with explicitTrim := false }
  else if flags = CONTINGENCY_LONG_STITCH_NONE then .ok { s with longC := CONTINGENCY_LONG_STITCH_NONE }
  else if flags = CONTINGENCY_LONG_STITCH_JUMP_NEEDLE then .ok { s with longC := CONTINGENCY_LONG_STITCH_JUMP_NEEDLE }
  else if flags = CONTINGENCY_LONG_STITCH_SEW_TO then .ok { s with longC := CONTINGENCY_LONG_STITCH_SEW_TO }
  else if flags = CONTINGENCY_SEQUIN_REMOVE then .ok (leaveSequins s CONTINGENCY_SEQUIN_REMOVE)
  else if flags = CONTINGENCY_SEQUIN_STITCH then .ok (leaveSequins s CONTINGENCY_SEQUIN_STITCH)
  else if flags = CONTINGENCY_SEQUIN_JUMP then .ok (leaveSequins s CONTINGENCY_SEQUIN_JUMP)
  else if flags = CONTINGENCY_SEQUIN_UTILIZE then .ok { s with sequinC := CONTINGENCY_SEQUIN_UTILIZE }
  else matrixStep cfg s st flags

/-- The `if` cascade for core and middle-level commands other than `END`, `EmbEncoder.py` 213-294. -/
def dispatch (cfg : Cfg) (position : Nat) (s : St) (st : Stitch) (x y : ℚ) (flags : Int) : Except PyErr St :=
  if flags = STITCH then sewStep cfg position s x y stitchWithContingency
  else if flags = NEEDLE_AT then sewStep cfg position s x y needleTo
  else if flags = SEW_TO then sewStep cfg position s x y sewTo
  else if flags = STITCH_BREAK then .ok { s with jumping := true }
  else if flags = FRAME_EJECT then frameEject cfg position s x y
  else if flags = SEQUENCE_BREAK then .ok (tieOffAndTrimIfNeeded cfg position s)
  else if flags = COLOR_BREAK then colorBreak cfg position s
  else if flags = TIE_OFF then .ok (tieOff cfg position s)
  else if flags = TIE_ON then .ok (tieOn cfg position s)
  else if flags = TRIM then .ok (tieOffAndTrimIfNeeded cfg position s)
  else if flags = JUMP then if s.jumping then .ok s else jumpTo s x y
  else if flags = SEQUIN_MODE then .ok (toggleSequins s)
  else if flags = SEQUIN_EJECT then ejectStep cfg position s x y
  else if flags = COLOR_CHANGE then colorChange cfg position s
  else if flags = NEEDLE_SET then colorChange cfg position s
  else if flags = STOP then .ok (stopHere s)
  else if flags = SLOW then .ok (if cfg.writesSpeeds then s.add SLOW else s)
  else if flags = FAST then .ok (if cfg.writesSpeeds then s.add FAST else s)
  else settingStep cfg s st flags

/-- The position of a source stitch in the destination, `EmbEncoder.py` 202-207. -/
def target (cfg : Cfg) (s : St) (st : Stitch) : ℚ × ℚ :=
  let p := s.matrix.point st.x st.y
  if cfg.round then ((pyRound p.1 : ℚ), (pyRound p.2 : ℚ)) else p

/-- One iteration of the loop of `transcode_main` for a command other than `END`, `EmbEncoder.py` 201-353. -/
def step (cfg : Cfg) (position : Nat) (s : St) (st : Stitch) : Except PyErr St :=
  let p := target cfg s st
  dispatch cfg position { s with high := flagsOf st.cmd } st p.1 p.2 (cmdOf st.cmd)

/-- The loop of `transcode_main` with its `END`/`break` and the final `end_here`, `EmbEncoder.py` 200-355.
The list is the rest of the source, `position` its index. -/
def runFrom (cfg : Cfg) : Nat → St → List Stitch → Except PyErr St
  | _, s, [] => .ok (endHere s)
  | position, s, st :: rest =>
    if cmdOf st.cmd = END then .ok (endHere { s with high := flagsOf st.cmd })
    else match step cfg position s st with
      | .error e => .error e
      | .ok s' => runFrom cfg (position + 1) s' rest

/-- Initial state, `EmbEncoder.py` 8-81 and 190-198. -/
def initSt (o : Settings) (lm : Libm) (threads : List Thread) : St where
  maxStitch := o.maxStitch
  maxJump := o.maxJump
  explicitTrim := o.explicitTrim
  sequinC := o.sequin
  tieOnC := o.tieOnCode
  tieOffC := o.tieOffCode
  longC := o.longStitch
  matrix := o.matrix lm
  threads := if o.changeCommand = NEEDLE_SET then threads.map some else []

/-- The fixed part of the configuration. -/
def mkCfg (o : Settings) (lm : Libm) (source : List Stitch) (plan : List (Int × Full)) : Cfg :=
  ⟨o.fullJump, o.round, o.writesSpeeds, o.changeCommand, source, plan, lm⟩

/-- `get_normalized_pattern`: `transcode` into an empty pattern, `EmbEncoder.py` 83-92, 185-355. The result gives the
destination's stitches and thread list. -/
def encode (o : Settings) (lm : Libm) (threads : List Thread) (source : List Stitch) :
    Except PyErr (List Stitch × List (Option Thread)) :=
  match buildPlan o threads source with
  | .error e => .error e
  | .ok plan =>
    match runFrom (mkCfg o lm source plan) 0 (initSt o lm threads) source with
    | .error e => .error e
    | .ok s => .ok (s.out, s.threads)

end Emb
