import Verif.Ops
import Verif.Trims
import Verif.Pattern
import Verif.Matrix
import Verif.Encoder

/-!
# Pattern objects that share stitches

A stitch is a Python list `[x, y, command]`, a mutable object: two patterns can hold the same one. `World` is a memory of stitch
cells together with the pattern objects; an object's `stitches` is a list of addresses. Thread objects are values of `τ`: no
method of a pattern writes into a thread. Metadata is not modelled.

A method either rebuilds its own list (append, insert, delete, slice: `relist`) or writes into the cells (`sweep`).
A method that raises an exception keeps what it had done until then.
-/

namespace Emb
namespace Heap

open Blocks

/-- A pattern object: the fields of `EmbPattern`, `EmbPattern.py` 79-90. -/
structure Obj (τ : Type) where
  refs : List Nat := []
  threads : List τ := []
  px : ℚ := 0
  py : ℚ := 0

/-- The memory: stitch cells, and pattern objects numbered in the order of their creation. -/
structure World (τ : Type) where
  cells : List Stitch := []
  pats : List (Obj τ) := []

/-- The stitch at an address. -/
def load (cells : List Stitch) (r : Nat) : Stitch := (cells[r]?).getD ⟨0, 0, 0⟩

/-- What a user sees of an object. -/
def Obj.view {τ : Type} (cells : List Stitch) (o : Obj τ) : Build τ := ⟨o.refs.map (load cells), o.threads, o.px, o.py⟩

/-- What a user sees of pattern `p`. -/
def World.view {τ : Type} (w : World τ) (p : Nat) : Option (Build τ) := (w.pats[p]?).map (Obj.view w.cells)

/-! ## Rebuilding the list -/

/-- Where an entry of a rebuilt list comes from: position `i` of the old list, or a new stitch. -/
abbrev Entry := Nat ⊕ Stitch

/-- Builds the list: new stitches get new cells. -/
def alloc : List Stitch → List Nat → List Entry → List Stitch × List Nat
  | cells, _, [] => (cells, [])
  | cells, refs, .inl i :: es => ((alloc cells refs es).1, (refs[i]?).toList ++ (alloc cells refs es).2)
  | cells, refs, .inr st :: es => ((alloc (cells ++ [st]) refs es).1, cells.length :: (alloc (cells ++ [st]) refs es).2)

/-- Replaces pattern `p`'s list by a rebuilt one; `f` gets the stitches as read. -/
def World.relist {τ : Type} (w : World τ) (p : Nat) (f : List Stitch → List Entry) : World τ :=
  match w.pats[p]? with
  | none => w
  | some o =>
    let r := alloc w.cells o.refs (f (o.refs.map (load w.cells)))
    ⟨r.1, w.pats.set p { o with refs := r.2 }⟩

/-- The whole old list. -/
def old (l : List Stitch) : List Entry := (List.range l.length).map .inl

/-- The stitch of an entry. -/
def valOf (l : List Stitch) : Entry → Stitch
  | .inl i => (l[i]?).getD ⟨0, 0, 0⟩
  | .inr st => st

/-- Changes the thread list or the previous position of pattern `p`. -/
def World.adjust {τ : Type} (w : World τ) (p : Nat) (f : Build τ → List τ × ℚ × ℚ) : World τ :=
  match w.pats[p]? with
  | none => w
  | some o =>
    let r := f (o.view w.cells)
    ⟨w.cells, w.pats.set p { o with threads := r.1, px := r.2.1, py := r.2.2 }⟩

/-- `add_stitch_absolute`, `EmbPattern.py` 508-512. -/
def World.abs {τ : Type} (w : World τ) (p : Nat) (cmd : Int) (x y : ℚ) : World τ :=
  (w.relist p (fun l => old l ++ [.inr ⟨x, y, cmd⟩])).adjust p (fun b => (b.threads, x, y))

/-- `add_stitch_relative`, `EmbPattern.py` 514-518. -/
def World.rel {τ : Type} (w : World τ) (p : Nat) (cmd : Int) (dx dy : ℚ) : World τ :=
  match w.pats[p]? with
  | none => w
  | some o => w.abs p cmd (o.px + dx) (o.py + dy)

/-- `add_command`, `EmbPattern.py` 546-549. -/
def World.command {τ : Type} (w : World τ) (p : Nat) (cmd : Int) (x y : ℚ) : World τ :=
  w.relist p (fun l => old l ++ [.inr ⟨x, y, cmd⟩])

/-- `prepend_command`, `EmbPattern.py` 542-544. -/
def World.prepend {τ : Type} (w : World τ) (p : Nat) (cmd : Int) (x y : ℚ) : World τ :=
  w.relist p (fun l => .inr ⟨x, y, cmd⟩ :: old l)

/-- `insert`, `EmbPattern.py` 538-540. -/
def World.insert {τ : Type} (w : World τ) (p : Nat) (position cmd : Int) (x y : ℚ) : World τ :=
  w.relist p (fun l =>
    let n : Int := l.length
    let i : Int := if position < 0 then position + n else position
    let i : Int := if i < 0 then 0 else if i > n then n else i
    (old l).take i.toNat ++ .inr ⟨x, y, cmd⟩ :: (old l).drop i.toNat)

/-- `insert_stitch_relative`, `EmbPattern.py` 520-536. -/
def World.insertRel {τ : Type} (w : World τ) (p : Nat) (position cmd : Int) (dx dy : ℚ) : World τ :=
  match w.pats[p]? with
  | none => w
  | some o =>
    let n : Int := o.refs.length
    let position : Int := if position < 0 then position + n else position
    if position = 0 then w.relist p (fun l => .inr ⟨dx, dy, cmd⟩ :: old l)
    else if position = n then w.rel p cmd dx dy
    else if 0 < position ∧ position < n then
      w.relist p (fun l =>
        let q := (l[position.toNat - 1]?).getD ⟨0, 0, 0⟩
        (old l).take position.toNat ++ .inr ⟨q.x + dx, q.y + dy, cmd⟩ :: (old l).drop position.toNat)
    else w

/-- `p[i] = [x, y, cmd]` with a new list, `EmbPattern.py` 139-143. -/
def World.setItem {τ : Type} (w : World τ) (p i : Nat) (st : Stitch) : World τ :=
  w.relist p (fun l => (old l).set i (.inr st))

/-- `add_thread`, `EmbPattern.py` 307-315. -/
def World.addThread {τ : Type} (w : World τ) (p : Nat) (t : τ) : World τ :=
  w.adjust p (fun b => (b.threads ++ [t], b.px, b.py))

/-- `fix_color_count`, `EmbPattern.py` 493-506. -/
def World.fix {τ : Type} (filler : Nat → τ) (w : World τ) (p : Nat) : World τ :=
  w.adjust p (fun b => (fixColorCount b.threads filler b.stitches, b.px, b.py))

/-- `clear`, `EmbPattern.py` 216-221. -/
def World.clear {τ : Type} (w : World τ) (p : Nat) : World τ :=
  (w.relist p (fun _ => [])).adjust p (fun _ => ([], 0, 0))

/-- The loop of `interpolate_frame_eject`, `EmbPattern.py` 707-739 (`Ops.ejectLoop`), on entries. -/
def ejectLoop {α : Type} (val : α → Stitch) (new : Stitch → α) : List α → Ops.EjectState → List α → List α
  | acc, s, [] => if s.mode ≥ 2 then acc.take s.start ++ [new ⟨s.x, s.y, FRAME_EJECT⟩] else acc
  | acc, s, a :: rest =>
    if Ops.isAnchor (cmdOf (val a).cmd) then
      if s.mode = 3 then
        ejectLoop val new (acc.take s.start ++ [new ⟨s.x, s.y, FRAME_EJECT⟩, a]) { s with mode := 0 } rest
      else ejectLoop val new (acc ++ [a]) { s with mode := 0 } rest
    else if cmdOf (val a).cmd = JUMP then
      if s.mode = 2 then ejectLoop val new (acc ++ [a]) { s with mode := 3 } rest
      else if s.mode = 0 then ejectLoop val new (acc ++ [a]) { s with start := acc.length, mode := 1 } rest
      else ejectLoop val new (acc ++ [a]) s rest
    else if cmdOf (val a).cmd = STOP then
      if s.mode = 1 then ejectLoop val new (acc ++ [a]) { s with mode := 2, x := (val a).x, y := (val a).y } rest
      else ejectLoop val new (acc ++ [a]) s rest
    else ejectLoop val new (acc ++ [a]) s rest

/-- `interpolate_frame_eject`, `EmbPattern.py` 699-739. -/
def World.frameEject {τ : Type} (w : World τ) (p : Nat) : World τ :=
  w.relist p (fun l => ejectLoop (valOf l) .inr [] {} (old l))

/-- One iteration of `interpolate_trims`, `EmbPattern.py` 756-799 (`itStep`), on entries. -/
def itStepOn {α : Type} (val : α → Stitch) (new : Stitch → α) (jumps : Option Int) (dist : Option ℚ) (clipping : Bool)
    (p : List α × ITState) (a : α) : List α × ITState :=
  let s := p.2
  let dx := (val a).x - s.x
  let dy := (val a).y - s.y
  let c := cmdOf (val a).cmd
  let acc := p.1 ++ [a]
  let s : ITState := { s with x := (val a).x, y := (val a).y }
  let s : ITState :=
    if c = STITCH ∨ c = SEQUIN_EJECT then { s with trimmed := false, jumping := false }
    else if c = COLOR_CHANGE ∨ c = NEEDLE_SET ∨ c = TRIM then { s with trimmed := true, jumping := false }
    else s
  if c = JUMP then
    let s : ITState := if s.jumping then s
      else { s with jdx := 0, jdy := 0, count := 0, start := p.1.length, jumping := true }
    let s : ITState := { s with count := s.count + 1, jdx := s.jdx + dx, jdy := s.jdy + dy }
    let far := beyond dist s.jdx s.jdy
    let q : List α × ITState :=
      if s.trimmed = false ∧ (jumps = some s.count ∨ far = true) then
        (pyInsert acc s.start (new ⟨(posBefore (acc.map val) s.start).1, (posBefore (acc.map val) s.start).2, TRIM⟩),
          { s with start := s.start + 1, trimmed := true })
      else (acc, s)
    if clipping = true ∧ q.2.jdx = 0 ∧ q.2.jdy = 0 then (q.1.take q.2.start, q.2) else q
  else (acc, s)

/-- `interpolate_trims`, `EmbPattern.py` 741-799. -/
def World.trims {τ : Type} (w : World τ) (p : Nat) (jumps : Option Int) (dist : Option ℚ) (clipping : Bool) : World τ :=
  w.relist p (fun l => ((old l).foldl (itStepOn (valOf l) .inr jumps dist clipping) ([], ITState.init)).1)

/-! ## Writing into the cells -/

/-- `for stitch in self.stitches:` with a body that reads and writes `stitch`; `σ` is the body's local state. -/
def sweep {σ : Type} (f : σ → Stitch → σ × Stitch) : σ → List Stitch → List Nat → σ × List Stitch
  | s, cells, [] => (s, cells)
  | s, cells, r :: rs => sweep f (f s (load cells r)).1 (cells.set r (f s (load cells r)).2) rs

/-- Runs such a loop over pattern `p`, from position `k` on; the state may become the thread list. -/
def World.sweep {τ σ : Type} (w : World τ) (p k : Nat) (f : σ → Stitch → σ × Stitch) (init : Obj τ → σ) (threads : σ → List τ) :
    World τ :=
  match w.pats[p]? with
  | none => w
  | some o =>
    let r := Heap.sweep f (init o) w.cells (o.refs.drop k)
    ⟨r.2, w.pats.set p { o with threads := threads r.1 }⟩

/-- A loop without local state. -/
def World.each {τ : Type} (w : World τ) (p : Nat) (f : Stitch → Stitch) : World τ :=
  w.sweep p 0 (fun (s : List τ) st => (s, f st)) (·.threads) id

/-- `translate`, `EmbPattern.py` 484-487. -/
def World.translate {τ : Type} (w : World τ) (p : Nat) (dx dy : ℚ) : World τ :=
  w.each p (fun st => { st with x := st.x + dx, y := st.y + dy })

/-- `transform`, `EmbPattern.py` 489-491. -/
def World.transform {τ : Type} (w : World τ) (p : Nat) (m : Mat) : World τ :=
  w.each p (fun st => { st with x := (m.point st.x st.y).1, y := (m.point st.x st.y).2 })

/-- `move_center_to_origin`, `EmbPattern.py` 478-482. Without stitches it raises an error and changes nothing. -/
def World.center {τ : Type} (w : World τ) (p : Nat) : World τ :=
  match w.view p with
  | none => w
  | some b =>
    match bounds b.stitches with
    | none => w
    | some b => w.translate p (-(pyRound ((b.maxX + b.minX) / 2) : Int)) (-(pyRound ((b.maxY + b.minY) / 2) : Int))

/-- The body of `interpolate_stop_as_duplicate_color`, `EmbPattern.py` 685-697; the state is the thread list, `thread_index` and
whether the method has returned. -/
def stopBody {τ : Type} (change : Int) (s : List τ × Nat × Bool) (st : Stitch) : (List τ × Nat × Bool) × Stitch :=
  if s.2.2 then (s, st)
  else if cmdOf st.cmd = STITCH ∨ cmdOf st.cmd = SEW_TO ∨ cmdOf st.cmd = NEEDLE_AT then (s, st)
  else if cmdOf st.cmd = COLOR_CHANGE ∨ cmdOf st.cmd = COLOR_BREAK ∨ cmdOf st.cmd = NEEDLE_SET then
    ((s.1, s.2.1 + 1, false), st)
  else if cmdOf st.cmd = STOP then
    match s.1[s.2.1]? with
    | none => ((s.1, s.2.1, true), st)
    | some t => ((s.1.insertIdx s.2.1 t, s.2.1 + 1, false), { st with cmd := change })
  else (s, st)

/-- `interpolate_stop_as_duplicate_color`, `EmbPattern.py` 681-697. -/
def World.stopAsDup {τ : Type} (w : World τ) (p : Nat) (change : Int) : World τ :=
  w.sweep p 0 (stopBody change) (fun o => (o.threads, 0, false)) (·.1)

/-- The loop of `interpolate_duplicate_color_as_stop`, `EmbPattern.py` 659-679, on addresses: `last` is the address at
`last_change`. -/
def dupSweep {τ : Type} (eqv : τ → τ → Bool) :
    List Stitch → List τ → Nat → Bool → Option Nat → List Nat → List Stitch × List τ
  | cells, threads, _, _, _, [] => (cells, threads)
  | cells, threads, ti, init, last, r :: rs =>
    if cmdOf (load cells r).cmd = STITCH ∨ cmdOf (load cells r).cmd = SEW_TO ∨ cmdOf (load cells r).cmd = NEEDLE_AT then
      if init then
        match last with
        | none => dupSweep eqv cells threads (ti + 1) false last rs
        | some i =>
          if ti = 0 then dupSweep eqv cells threads (ti + 1) false last rs
          else
            match threads[ti - 1]?, threads[ti]? with
            | some a, some b =>
              if eqv a b then
                dupSweep eqv (cells.set i { load cells i with cmd := STOP }) (threads.eraseIdx ti) ti false last rs
              else dupSweep eqv cells threads (ti + 1) false last rs
            | _, _ => (cells, threads)
      else dupSweep eqv cells threads ti init last rs
    else if cmdOf (load cells r).cmd = COLOR_CHANGE ∨ cmdOf (load cells r).cmd = COLOR_BREAK ∨
        cmdOf (load cells r).cmd = NEEDLE_SET then
      dupSweep eqv cells threads ti true (some r) rs
    else dupSweep eqv cells threads ti init last rs

/-- `interpolate_duplicate_color_as_stop`, `EmbPattern.py` 654-679. -/
def World.dupAsStop {τ : Type} (eqv : τ → τ → Bool) (w : World τ) (p : Nat) : World τ :=
  match w.pats[p]? with
  | none => w
  | some o =>
    let r := dupSweep eqv w.cells o.threads 0 true none o.refs
    ⟨r.1, w.pats.set p { o with threads := r.2 }⟩

/-! ## Several patterns -/

/-- A new pattern object with new cells. -/
def World.fresh {τ : Type} (w : World τ) (b : Build τ) : World τ :=
  ⟨w.cells ++ b.stitches, w.pats ++ [⟨(List.range b.stitches.length).map (w.cells.length + ·), b.threads, b.px, b.py⟩]⟩

/-- `copy`, `EmbPattern.py` 207-214: the list is new, its stitches are the same objects. -/
def World.copy {τ : Type} (w : World τ) (p : Nat) : World τ :=
  match w.pats[p]? with
  | none => w
  | some o => ⟨w.cells, w.pats ++ [o]⟩

/-- The body of the last loop of `add_pattern`, `EmbPattern.py` 646-651; the state tells whether the loop has ended. -/
def neutralBody (done : Bool) (st : Stitch) : Bool × Stitch :=
  if done then (true, st)
  else if cmdOf st.cmd = STITCH ∨ cmdOf st.cmd = SEW_TO ∨ cmdOf st.cmd = NEEDLE_AT then (true, st)
  else if cmdOf st.cmd = COLOR_CHANGE ∨ cmdOf st.cmd = COLOR_BREAK ∨ cmdOf st.cmd = NEEDLE_SET then
    (false, { st with cmd := NO_COMMAND })
  else (false, st)

/-- The end of `add_pattern`, `EmbPattern.py` 643-651: the stitch objects of `q` go into `p`'s list, then are neutralised. -/
def World.join {τ : Type} (w : World τ) (p q : Nat) : World τ :=
  match w.pats[p]?, w.pats[q]? with
  | some o, some o2 =>
    ⟨(Heap.sweep neutralBody false w.cells o2.refs).2, w.pats.set p { o with refs := o.refs ++ o2.refs }⟩
  | _, _ => w

/-- The threads and the stitches of `q` go into `p`, `EmbPattern.py` 637-651. -/
def World.append {τ : Type} (eqv : τ → τ → Bool) (w : World τ) (p q : Nat) : World τ :=
  match w.pats[p]?, w.pats[q]? with
  | some o, some o2 =>
    match o2.threads with
    | [] => w.join p q
    | t :: ts =>
      match o.threads.getLast? with
      | none => w
      | some u =>
        if eqv t u then (w.adjust p (fun b => (b.threads ++ ts, b.px, b.py))).join p q
        else ((w.adjust p (fun b => (b.threads ++ t :: ts, b.px, b.py))).rel p COLOR_CHANGE 0 0).join p q
  | _, _ => w

/-- `if self.stitches[-1][2] == END: self.stitches = self.stitches[:-1]`, `EmbPattern.py` 618-619. -/
def World.dropEnd {τ : Type} (w : World τ) (p : Nat) : World τ :=
  w.relist p (fun l => if l.getLast?.any (fun st => st.cmd == END) then (old l).dropLast else old l)

/-- `add_pattern`, `EmbPattern.py` 599-652 (`Ops.addPattern`), on objects that may be the same or share stitches. With an empty
list `self.stitches[-1]` is an `IndexError`. -/
def World.addPattern {τ : Type} (eqv : τ → τ → Bool) (filler : Nat → τ) (w : World τ) (p q : Nat)
    (dx dy sx sy rotate : Option ℚ) : World τ :=
  match w.pats[p]? with
  | none => w
  | some o =>
    if o.refs = [] then w
    else (((w.dropEnd p).relist p (fun l => old l ++ (Ops.transforms dx dy sx sy rotate).map .inr)).fix filler p).append eqv p q

/-- `p + q`, `EmbPattern.py` 197-200. -/
def World.plus {τ : Type} (eqv : τ → τ → Bool) (filler : Nat → τ) (w : World τ) (p q : Nat) : World τ :=
  if p < w.pats.length then (w.copy p).addPattern eqv filler w.pats.length q none none none none none else w

/-- A pattern made by `new_pattern = EmbPattern()` and filled with new stitches computed from pattern `p`: `get_pattern_merge_jumps`
(838-857), `get_pattern_interpolate_trim` (801-836), `get_stable_pattern` (859-865), `get_normalized_pattern` (867-872).
`none`: an exception, there is no new pattern. -/
def World.derive {τ : Type} (w : World τ) (p : Nat) (f : Build τ → Option (Build τ)) : World τ :=
  match (w.view p).bind f with
  | none => w
  | some b => w.fresh b

/-- `get_normalized_pattern`, `EmbPattern.py` 867-872: every stitch of the result is a list made in `add_thread_change` or `add`
(`EmbEncoder.py` 362-374); its thread list is new. `filler` are the random threads. -/
def normalized (o : Settings) (lm : Libm) (filler : Nat → Thread) (b : Build Thread) : Option (Build Thread) :=
  match encode o lm b.threads b.stitches with
  | .error _ => none
  | .ok r => some ⟨r.1, r.2.mapIdx (fun i t => t.getD (filler i)), 0, 0⟩

/-! ## Programs -/

/-- A call of a method. Patterns are numbers. -/
inductive Op (τ : Type)
  | new
  | copy (p : Nat)
  | plus (p q : Nat)
  | addPattern (p q : Nat) (dx dy sx sy rotate : Option ℚ)
  | derive (p : Nat) (f : Build τ → Option (Build τ))
  | abs (p : Nat) (cmd : Int) (x y : ℚ)
  | rel (p : Nat) (cmd : Int) (dx dy : ℚ)
  | command (p : Nat) (cmd : Int) (x y : ℚ)
  | prepend (p : Nat) (cmd : Int) (x y : ℚ)
  | insert (p : Nat) (position cmd : Int) (x y : ℚ)
  | insertRel (p : Nat) (position cmd : Int) (dx dy : ℚ)
  | setItem (p i : Nat) (st : Stitch)
  | addThread (p : Nat) (t : τ)
  | fix (p : Nat)
  | clear (p : Nat)
  | frameEject (p : Nat)
  | trims (p : Nat) (jumps : Option Int) (dist : Option ℚ) (clipping : Bool)
  | translate (p : Nat) (dx dy : ℚ)
  | transform (p : Nat) (m : Mat)
  | center (p : Nat)
  | stopAsDup (p : Nat) (change : Int)
  | dupAsStop (p : Nat)

/-- The effect of a call. -/
def World.step {τ : Type} (eqv : τ → τ → Bool) (filler : Nat → τ) (w : World τ) : Op τ → World τ
  | .new => w.fresh {}
  | .copy p => w.copy p
  | .plus p q => w.plus eqv filler p q
  | .addPattern p q dx dy sx sy r => w.addPattern eqv filler p q dx dy sx sy r
  | .derive p f => w.derive p f
  | .abs p c x y => w.abs p c x y
  | .rel p c x y => w.rel p c x y
  | .command p c x y => w.command p c x y
  | .prepend p c x y => w.prepend p c x y
  | .insert p i c x y => w.insert p i c x y
  | .insertRel p i c x y => w.insertRel p i c x y
  | .setItem p i st => w.setItem p i st
  | .addThread p t => w.addThread p t
  | .fix p => w.fix filler p
  | .clear p => w.clear p
  | .frameEject p => w.frameEject p
  | .trims p j d c => w.trims p j d c
  | .translate p x y => w.translate p x y
  | .transform p m => w.transform p m
  | .center p => w.center p
  | .stopAsDup p c => w.stopAsDup p c
  | .dupAsStop p => w.dupAsStop eqv p

/-- A program: calls one after the other. -/
def World.run {τ : Type} (eqv : τ → τ → Bool) (filler : Nat → τ) (w : World τ) (ops : List (Op τ)) : World τ :=
  ops.foldl (World.step eqv filler) w

end Heap
end Emb
