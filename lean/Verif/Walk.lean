import Verif.Encoder
import Verif.Spec
import Mathlib.Algebra.Order.Floor.Ring

/-!
# Where the needle strikes: a specification

A walk over the source commands that says, without reference to the encoder model's helpers, at which points the
machine must sew. Commands are written by number (README table). The walk knows nothing of trims, jumps, colour
changes or sequin modes in the output: it only follows the needle. Points are pairs, transformations are functions.
Only `Libm` (arbitrary `sqrt`, `cos`, ...) and `Settings` are shared with the model.
-/

namespace Emb

abbrev Pt := ℚ × ℚ

/-- The points sewn by a list of stitches: positions of the commands with low byte 0 (STITCH). -/
def strikes (out : List Stitch) : List Pt := (out.filter (fun a => a.low == 0)).map (fun a => (a.x, a.y))

/-- What the walk remembers. -/
structure Head where
  /-- needle position (destination coordinates) -/
  pt : Pt
  /-- where source points go -/
  f : Pt → Pt
  /-- the thread is in the fabric: something was sewn since the last trim, stop or change -/
  down : Bool
  /-- after a STITCH_BREAK -/
  jumping : Bool
  limit : Option ℚ
  explicit : Bool
  sequin : Int
  long : Int
  tieOn : Int
  tieOff : Int

/-- The points that cut the way from `p` to `q` into the least number of equal parts that fit the limit. -/
def cuts (limit : Option ℚ) (p q : Pt) : List Pt :=
  match limit with
  | none => []
  | some m =>
    if m < |q.1 - p.1| ∨ m < |q.2 - p.2| then
      let n : ℤ := max ⌈|(q.1 - p.1) / m|⌉ ⌈|(q.2 - p.2) / m|⌉
      (List.range (n - 1).toNat).map fun (i : Nat) =>
        (p.1 + (i + 1) * ((q.1 - p.1) / n), p.2 + (i + 1) * ((q.2 - p.2) / n))
    else []

/-- The four strikes of a lock at `p` towards `a`: a third, two thirds, a third, back. A far anchor is brought to the
distance of the limit. -/
def lockPts (lm : Libm) (limit : Option ℚ) (p a : Pt) : List Pt :=
  let a := match limit with
    | none => a
    | some m => if m < lm.dist p.1 p.2 a.1 a.2 then lm.oriented p.1 p.2 a.1 a.2 m else a
  [33 / 100, 66 / 100, 33 / 100, 0].map fun t => (p.1 + t * (a.1 - p.1), p.2 + t * (a.2 - p.2))

/-- A lock towards a neighbouring source command, if that is a plain sewing command. -/
def Head.lock (lm : Libm) (h : Head) (b : Option Stitch) : List Pt :=
  match b with
  | none => []
  | some b => if b.cmd ∈ [0, 0xB0, 0xB1, 7] then lockPts lm h.limit h.pt (h.f (b.x, b.y)) else []

/-- Tie off (0xD2: three small stitches) towards the previous command. -/
def Head.lockOff (lm : Libm) (h : Head) (prev : Option Stitch) : List Pt :=
  if h.tieOff = 0xD2 then h.lock lm prev else []

/-- Tie on (0xD1: three small stitches) towards the next command. -/
def Head.lockOn (lm : Libm) (h : Head) (next : Option Stitch) : List Pt :=
  if h.tieOn = 0xD1 then h.lock lm next else []

/-- Something is sewn before the END of `rest`. -/
def sewnAhead (rest : List Stitch) : Bool :=
  (rest.takeWhile (fun b => b.cmd != 4)).any (fun b => b.cmd ∈ [0, 0xB0, 0xB1, 7, 0xE4])

open Classical in
/-- A source point under the needle (if there is one). -/
noncomputable def Head.under (h : Head) : Pt := if e : ∃ q, h.f q = h.pt then choose e else (0, 0)

/-- Rotation of `p` about `c` by the angle with the given cosine and sine. -/
def rotAbout (c : Pt) (cs sn : ℚ) (p : Pt) : Pt :=
  (c.1 + ((p.1 - c.1) * cs - (p.2 - c.2) * sn), c.2 + ((p.1 - c.1) * sn + (p.2 - c.2) * cs))

/-- Scaling of `p` about `c`. -/
def scaleAbout (c : Pt) (sx sy : ℚ) (p : Pt) : Pt := (c.1 + sx * (p.1 - c.1), c.2 + sy * (p.2 - c.2))

/-- Where a source command lies in the destination. -/
def Head.image (round : Bool) (h : Head) (st : Stitch) : Pt :=
  if round then ((pyRound (h.f (st.x, st.y)).1 : ℚ), (pyRound (h.f (st.x, st.y)).2 : ℚ)) else h.f (st.x, st.y)

/-- Sewing a command at `p`: with the thread up, one strike and a tie on; else a strike, preceded by intermediate ones
if `fine`. After a STITCH_BREAK there are no intermediate strikes. -/
def Head.sew (lm : Libm) (h : Head) (next : Option Stitch) (p : Pt) (fine : Bool) : List Pt × Head :=
  if h.down then
    if h.jumping then ([p], { h with pt := p, jumping := false })
    else ((if fine then cuts h.limit h.pt p else []) ++ [p], { h with pt := p })
  else ([p] ++ ({ h with pt := p } : Head).lockOn lm next, { h with pt := p, down := true })

/-- What one source command (not END) sews, and how it leaves the needle. -/
noncomputable def Head.step (lm : Libm) (round : Bool) (h : Head) (prev : Option Stitch) (st : Stitch)
    (rest : List Stitch) : List Pt × Head :=
  let p := h.image round st
  let off := if h.down then h.lockOff lm prev else []
  let c := st.low
  -- STITCH, NEEDLE_AT, SEW_TO
  if c = 0 then h.sew lm rest.head? p (h.long = 0xF2)
  else if c = 0xB1 then h.sew lm rest.head? p false
  else if c = 0xB0 then h.sew lm rest.head? p true
  -- JUMP
  else if c = 1 then ([], if h.jumping then h else { h with pt := p })
  -- TRIM, SEQUENCE_BREAK
  else if c = 2 ∨ c = 0xE1 then (off, { h with down := false })
  -- COLOR_CHANGE, NEEDLE_SET
  else if c = 5 ∨ c = 9 then (off, { h with down := false })
  -- COLOR_BREAK
  else if c = 0xE2 then (off, { h with down := h.down && !h.explicit && !sewnAhead rest })
  -- FRAME_EJECT
  else if c = 0xE9 then (off, { h with down := false, pt := p })
  -- STOP
  else if c = 3 then ([], { h with down := false })
  -- STITCH_BREAK
  else if c = 0xE0 then ([], { h with jumping := true })
  -- SEQUIN_EJECT: a strike if the thread is up; then the sequin itself, unless sequins are removed
  else if c = 7 then
    let h1 : Head := if h.down then h else { h with pt := p, down := true }
    let first := if h.down then [] else [p] ++ h1.lockOn lm rest.head?
    if h.sequin = 0xF8 then (first, h1)
    else (first ++ cuts h1.limit h1.pt p ++ (if h.sequin = 0xF7 then [p] else []), { h1 with pt := p })
  -- TIE_OFF, TIE_ON
  else if c = 0xE5 then (h.lockOff lm prev, h)
  else if c = 0xE4 then (h.lockOn lm rest.head?, h)
  -- options and contingencies
  else if c = 0xD1 ∨ c = 0xD3 then ([], { h with tieOn := c })
  else if c = 0xD2 ∨ c = 0xD4 then ([], { h with tieOff := c })
  else if c = 0xD5 then ([], { h with limit := some st.x })
  else if c = 0xD7 then ([], { h with explicit := true })
  else if c = 0xD8 then ([], { h with explicit := false })
  else if c = 0xF0 ∨ c = 0xF1 ∨ c = 0xF2 then ([], { h with long := c })
  else if c = 0xF5 ∨ c = 0xF6 ∨ c = 0xF7 ∨ c = 0xF8 then ([], { h with sequin := c })
  -- matrix commands: translate, scale, rotate about the origin, reset, scale and rotate about the needle
  else if c = 0xC0 then ([], { h with f := fun q => h.f (q.1 + st.x, q.2 + st.y) })
  else if c = 0xC1 then ([], { h with f := fun q => h.f (scaleAbout (0, 0) st.x st.y q) })
  else if c = 0xC2 then ([], { h with f := fun q => h.f (rotAbout (0, 0) (lm.cos st.x) (lm.sin st.x) q) })
  else if c = 0xC3 then ([], { h with f := id })
  else if c = 0xC4 then ([], { h with f := fun q => h.f (scaleAbout h.under st.x st.y q) })
  else if c = 0xC5 then ([], { h with f := fun q => h.f (rotAbout h.under (lm.cos st.x) (lm.sin st.x) q) })
  else ([], h)

/-- The points sewn by a source, from a given state; END (4) finishes. -/
noncomputable def walk (lm : Libm) (round : Bool) : Head → Option Stitch → List Stitch → List Pt
  | _, _, [] => []
  | h, prev, st :: rest =>
    if st.low = 4 then []
    else (h.step lm round prev st rest).1 ++ walk lm round (h.step lm round prev st rest).2 (some st) rest

/-- The map given by the `rotate`, `scale` and `translate` settings: rotate first, then scale, then translate. -/
def Settings.place (o : Settings) (lm : Libm) (p : Pt) : Pt :=
  let p := match o.rotate with
    | none => p
    | some r => rotAbout (0, 0) (lm.cos r) (lm.sin r) p
  let p := match o.scale with
    | none => p
    | some s => (s.1 * p.1, s.2 * p.2)
  match o.translate with
  | none => p
  | some t => (p.1 + t.1, p.2 + t.2)

/-- The walk's start: needle at the origin, thread up. -/
def Settings.head (o : Settings) (lm : Libm) : Head where
  pt := (0, 0)
  f := o.place lm
  down := false
  jumping := false
  limit := o.maxStitch
  explicit := o.explicitTrim
  sequin := match o.sequinContingency with
    | some c => c
    | none => if o.stripSequins then 0xF6 else 0xF5
  long := o.longStitch
  tieOn := match o.tieOn with
    | .bool true => 0xD1
    | .bool false => 0xD3
    | .code c => c
  tieOff := match o.tieOff with
    | .bool true => 0xD2
    | .bool false => 0xD4
    | .code c => c

end Emb
