import Verif.Props.RecordProps2
import Verif.Props.DstProps
import Verif.Exp
import Verif.U01
import Verif.Tbf
import Verif.Xxx
import Verif.Jef
import Verif.Pec

/-!
# C125: files of the larger formats that another program wrote

For EXP, U01, TBF, XXX, JEF, PEC and DST: how commands are recorded, including the ways of recording them that the writers of this
library never use, and that reading such records gives these commands. `Records.Ev` and `Records.drawn` say what the commands are.
-/

namespace Emb
namespace Elsewhere

open Records

/-- A displacement, if there is one. -/
def stitchIf (dx dy : Int) : List Ev := if dx = 0 ∧ dy = 0 then [] else [.stitch dx dy]
def jumpIf (dx dy : Int) : List Ev := if dx = 0 ∧ dy = 0 then [] else [.jump dx dy]

/-! ## EXP -/

/-- A record of EXP. -/
inductive ExpItem where
  | stitch (dx dy : Int)
  /-- a stitch recorded in four bytes -/
  | wide (dx dy : Int)
  | jump (dx dy : Int)
  | trim (a b : Int)
  /-- a colour change, with the way to the first stitch of the colour -/
  | colour (dx dy : Int)

/-- Two's complement, `y` upwards; `80` introduces the longer records. -/
def ExpItem.bytes : ExpItem → Bytes
  | .stitch dx dy => [twos dx, twos (-dy)]
  | .wide dx dy => [0x80, 0x02, twos dx, twos (-dy)]
  | .jump dx dy => [0x80, 0x04, twos dx, twos (-dy)]
  | .trim a b => [0x80, 0x80, a, b]
  | .colour dx dy => [0x80, 0x01, twos dx, twos (-dy)]

def ExpItem.Fits : ExpItem → Prop
  | .stitch dx dy => Within 127 dx dy
  | .wide dx dy | .jump dx dy | .colour dx dy => -128 ≤ dx ∧ dx ≤ 127 ∧ -127 ≤ dy ∧ dy ≤ 128
  | .trim _ _ => True

def ExpItem.evs : ExpItem → List Ev
  | .stitch dx dy | .wide dx dy => [.stitch dx dy]
  | .jump dx dy => [.jump dx dy]
  | .trim _ _ => [.trim]
  | .colour dx dy => .colour :: jumpIf dx dy

/-- The end: a cut off record, or a longer record of an unknown kind. -/
def ExpEnd (tail : Bytes) : Prop :=
  tail.length < 2 ∨ ∃ c r, tail = 0x80 :: c :: r ∧ (r.length < 2 ∨ (c ≠ 0x80 ∧ c ≠ 0x01 ∧ c ≠ 0x02 ∧ c ≠ 0x04))

theorem exp_end {tail : Bytes} (h : ExpEnd tail) : Exp.readRecs tail = [] := by
  rcases h with h | ⟨c, r, rfl, h⟩
  · match tail, h with
    | [], _ => rfl
    | [_], _ => rfl
  · match r, h with
    | [], _ => simp [Exp.readRecs]
    | [_], _ => simp [Exp.readRecs]
    | _ :: _ :: _, h =>
      rcases h with h | ⟨h1, h2, h3, h4⟩
      · simp only [List.length_cons] at h; omega
      · simp [Exp.readRecs, h1, h2, h3, h4]

theorem exp_item (i : ExpItem) (h : i.Fits) (rest : Bytes) :
    Exp.readRecs (i.bytes ++ rest) = i.evs.map Ev.rec' ++ Exp.readRecs rest := by
  cases i with
  | stitch dx dy =>
    obtain ⟨h1, h2, h3, h4⟩ := h
    rw [ExpItem.bytes, List.cons_append, List.cons_append, List.nil_append, Exp.readRecs.eq_def]
    simp [ExpItem.evs, twos_ne dx h1 h2, s8 dx (by omega) (by omega), s8 (-dy) (by omega) (by omega), Ev.rec', STITCH]
  | wide dx dy =>
    obtain ⟨h1, h2, h3, h4⟩ := h
    simp [ExpItem.bytes, ExpItem.evs, Exp.readRecs, s8 dx (by omega) (by omega), s8 (-dy) (by omega) (by omega), Ev.rec', STITCH]
  | jump dx dy =>
    obtain ⟨h1, h2, h3, h4⟩ := h
    simp [ExpItem.bytes, ExpItem.evs, Exp.readRecs, s8 dx (by omega) (by omega), s8 (-dy) (by omega) (by omega), Ev.rec', JUMP]
  | trim a b => simp [ExpItem.bytes, ExpItem.evs, Exp.readRecs, Ev.rec', TRIM]
  | colour dx dy =>
    obtain ⟨h1, h2, h3, h4⟩ := h
    simp only [ExpItem.bytes, List.cons_append, List.nil_append, Exp.readRecs, s8 dx (by omega) (by omega), s8 (-dy) (by omega) (by omega), neg_neg]
    by_cases hz : dx = 0 ∧ dy = 0
    · simp [ExpItem.evs, jumpIf, hz, Ev.rec', COLOR_CHANGE]
    · have hz' : dx ≠ 0 ∨ dy ≠ 0 := by omega
      simp [ExpItem.evs, jumpIf, hz, hz', Ev.rec', COLOR_CHANGE, JUMP]

/-- Records one after the other. -/
theorem recs_flat {ι : Type} (rd : Bytes → List Rec) (bytes : ι → Bytes) (ok : ι → Prop) (evs : ι → List Ev)
    (h : ∀ i, ok i → ∀ rest, rd (bytes i ++ rest) = (evs i).map Ev.rec' ++ rd rest) (tail : Bytes) (ht : rd tail = [])
    (l : List ι) (hl : ∀ i ∈ l, ok i) : rd (l.flatMap bytes ++ tail) = (l.flatMap evs).map Ev.rec' := by
  induction l with
  | nil => simpa using ht
  | cons i l ih =>
    rw [List.flatMap_cons, List.append_assoc, h i (hl i (by simp)), ih (fun a ha => hl a (by simp [ha])), List.flatMap_cons, List.map_append]

/-- **C125**: EXP. -/
theorem C125_exp (l : List ExpItem) (hl : ∀ i ∈ l, i.Fits) (tail : Bytes) (ht : ExpEnd tail) :
    Exp.read (l.flatMap ExpItem.bytes ++ tail) = drawn 0 0 (l.flatMap ExpItem.evs) := by
  unfold Exp.read
  rw [recs_flat Exp.readRecs ExpItem.bytes ExpItem.Fits ExpItem.evs exp_item tail (exp_end ht) l hl, place_drawn]

/-- Records that meet the conditions. -/
def demoExp : List ExpItem := [.stitch 5 (-3), .wide (-128) 0, .colour 10 10, .trim 7 0]

example : demoExp.flatMap ExpItem.bytes ++ [0x80] = [5, 3, 0x80, 0x02, 0x80, 0, 0x80, 0x01, 10, 0xF6, 0x80, 0x80, 7, 0, 0x80] := by decide +kernel

example : Exp.read (demoExp.flatMap ExpItem.bytes ++ [0x80]) =
    [⟨5, -3, 0⟩, ⟨-123, -3, 0⟩, ⟨-123, -3, 5⟩, ⟨-113, 7, 1⟩, ⟨-113, 7, 2⟩, ⟨-113, 7, 4⟩] :=
  (C125_exp demoExp (by simp [demoExp, ExpItem.Fits, Within]) [0x80] (.inl (by decide))).trans (by decide +kernel)

/-! ## U01 -/

/-- What a record of U01 says besides the displacement. -/
inductive U01Kind where
  | stitch | jump | fastStitch | fastJump | slowStitch | slowJump | trim | bobbinTrim | stop
  | needle (n : Int)

/-- The code in the lower five bits. -/
def U01Kind.code : U01Kind → Int
  | .stitch => 0 | .jump => 1 | .fastStitch => 2 | .fastJump => 3 | .slowStitch => 4 | .slowJump => 5 | .trim => 6 | .bobbinTrim => 7
  | .stop => 8 | .needle n => 8 + n

def U01Kind.Fits : U01Kind → Prop
  | .needle n => 1 ≤ n ∧ n ≤ 15
  | _ => True

/-- A record: kind, displacement, and the highest bit of the first byte. -/
structure U01Item where
  kind : U01Kind
  dx : Int
  dy : Int
  high : Bool

/-- The first byte holds the signs; the sizes follow, `y` first. -/
def U01Item.bytes (i : U01Item) : Bytes :=
  [i.kind.code + neg 0x20 i.dx + pos 0x40 i.dy + (if i.high then 0x80 else 0), mag i.dy, mag i.dx]

def U01Item.Fits (i : U01Item) : Prop := i.kind.Fits

def U01Item.evs (i : U01Item) : List Ev :=
  match i.kind with
  | .stitch => [.stitch i.dx i.dy]
  | .jump => [.jump i.dx i.dy]
  | .fastStitch => .fast :: stitchIf i.dx i.dy
  | .fastJump => .fast :: jumpIf i.dx i.dy
  | .slowStitch => .slow :: stitchIf i.dx i.dy
  | .slowJump => .slow :: jumpIf i.dx i.dy
  | .trim | .bobbinTrim => .trim :: jumpIf i.dx i.dy
  | .stop => .stop :: jumpIf i.dx i.dy
  | .needle n => .needle n :: jumpIf i.dx i.dy

theorem also_jump (dx dy : Int) : U01.also JUMP dx dy = (jumpIf dx dy).map Ev.rec' := by
  unfold U01.also jumpIf
  by_cases h : dx = 0 ∧ dy = 0
  · simp [h]
  · rw [if_pos (by omega), if_neg h]; rfl

theorem also_stitch (dx dy : Int) : U01.also STITCH dx dy = (stitchIf dx dy).map Ev.rec' := by
  unfold U01.also stitchIf
  by_cases h : dx = 0 ∧ dy = 0
  · simp [h]
  · rw [if_pos (by omega), if_neg h]; rfl

theorem u01_interpret (k : U01Kind) (h : k.Fits) (dx dy : Int) (b : Bool) :
    U01.interpret k.code dx dy = some ((U01Item.evs ⟨k, dx, dy, b⟩).map Ev.rec') := by
  cases k with
  | needle n =>
    obtain ⟨h1, h2⟩ := h
    have hn := needle_rec n (by omega) (by omega)
    unfold Readers.needleChange at hn
    have hc : (U01Kind.needle n).code = 8 + n := rfl
    rw [hc]
    unfold U01.interpret
    repeat rw [if_neg (by omega)]
    rw [if_pos (by omega), show (8 + n - 8 : Int) = n by omega, hn, also_jump]
    rfl
  | _ => simp only [U01.interpret, U01Kind.code, U01Item.evs, also_jump, also_stitch, List.map_cons]; rfl

theorem u01_item (i : U01Item) (h : i.Fits) (rest : Bytes) :
    U01.readRecs (i.bytes ++ rest) = i.evs.map Ev.rec' ++ U01.readRecs rest := by
  obtain ⟨k, dx, dy, b⟩ := i
  have hk : 0 ≤ k.code ∧ k.code < 32 := by
    cases k with
    | needle n => obtain ⟨h1, h2⟩ := h; simp only [U01Kind.code]; omega
    | _ => exact ⟨by decide, by decide⟩
  have hi := u01_interpret k h dx dy b
  obtain ⟨hk1, hk2⟩ := hk
  simp only [U01Item.bytes, List.cons_append, List.nil_append, U01.readRecs]
  generalize k.code = c at *
  have e1 : (c + neg 32 dx + pos 64 dy + (if b then 128 else 0)) % 32 = c := by
    unfold neg pos; split_ifs <;> omega
  have e2 : (if (c + neg 32 dx + pos 64 dy + (if b then 128 else 0)) / 32 % 2 = 1 then -mag dx else mag dx) = dx := by
    unfold neg pos mag; split_ifs <;> omega
  have e3 : (if (c + neg 32 dx + pos 64 dy + (if b then 128 else 0)) / 64 % 2 = 1 then mag dy else -mag dy) = dy := by
    unfold neg pos mag; split_ifs <;> omega
  rw [e1, e2, e3, hi]

/-- The end: fewer than three bytes, or a record with a code from `18` on. -/
def U01End (tail : Bytes) : Prop := tail.length < 3 ∨ ∃ c r, tail = c :: r ∧ 0x18 ≤ c % 32

theorem u01_end {tail : Bytes} (h : U01End tail) : U01.readRecs tail = [] := by
  match tail, h with
  | [], _ => rfl
  | [_], _ => rfl
  | [_, _], _ => rfl
  | c :: b1 :: b2 :: r, h =>
    rcases h with h | ⟨c, r, e, h⟩
    · simp only [List.length_cons] at h; omega
    · injection e with e1 e2
      subst e1
      have : ∀ dx dy, U01.interpret (c % 32) dx dy = none := by
        intro dx dy
        unfold U01.interpret
        repeat rw [if_neg (by omega)]
      simp only [U01.readRecs, this]

/-- **C125**: U01, after 256 bytes. -/
theorem C125_u01 (head : Bytes) (hh : head.length = 0x100) (l : List U01Item) (hl : ∀ i ∈ l, i.Fits) (tail : Bytes) (ht : U01End tail) :
    U01.read (head ++ (l.flatMap U01Item.bytes ++ tail)) = drawn 0 0 (l.flatMap U01Item.evs) := by
  unfold U01.read
  rw [← hh, List.drop_left, recs_flat U01.readRecs U01Item.bytes U01Item.Fits U01Item.evs u01_item tail (u01_end ht) l hl, place_drawn]

example : U01.read (List.replicate 0x100 0x30 ++ [0xA6, 4, 5, 0xC2, 1, 0, 0xE9, 0, 0, 0x42, 0, 0, 0xF8, 0, 0]) =
    [⟨0, 0, 2⟩, ⟨-5, -4, 1⟩, ⟨-5, -4, 12⟩, ⟨-5, -3, 0⟩, ⟨-5, -3, 0x20009⟩, ⟨-5, -3, 12⟩, ⟨-5, -3, 4⟩] := by decide +kernel

/-! ## PEC -/

/-- One of the two numbers of a record of PEC: in one byte, or in two with marks for a trim and a jump. -/
inductive PecAxis where
  | short (v : Int)
  | long (v : Int) (trim jump : Bool)

def PecAxis.value : PecAxis → Int
  | .short v => v
  | .long v _ _ => v
def PecAxis.trim : PecAxis → Bool
  | .short _ => false
  | .long _ t _ => t
def PecAxis.jump : PecAxis → Bool
  | .short _ => false
  | .long _ _ j => j

/-- Seven or twelve bits in two's complement. -/
def PecAxis.bytes : PecAxis → Bytes
  | .short v => [if v < 0 then v + 0x80 else v]
  | .long v t j =>
    [0x80 + (if t then 0x20 else 0) + (if j then 0x10 else 0) + (if v < 0 then v + 0x1000 else v) / 256, (if v < 0 then v + 0x1000 else v) % 256]

def PecAxis.Fits : PecAxis → Prop
  | .short v => -64 ≤ v ∧ v ≤ 63
  | .long v _ _ => -2048 ≤ v ∧ v ≤ 2047

inductive PecItem where
  | go (x y : PecAxis)
  /-- a colour change; the third byte alternates between 1 and 2 -/
  | colour (b : Int)

def PecItem.bytes : PecItem → Bytes
  | .go x y => x.bytes ++ y.bytes
  | .colour b => [0xFE, 0xB0, b]

def PecItem.Fits : PecItem → Prop
  | .go x y => x.Fits ∧ y.Fits
  | .colour _ => True

/-- A mark on either number counts, and a jump excludes a trim. -/
def PecItem.evs : PecItem → List Ev
  | .go x y =>
    if x.jump ∨ y.jump then [.jump x.value y.value]
    else if x.trim ∨ y.trim then [.trim, .jump x.value y.value]
    else [.stitch x.value y.value]
  | .colour _ => [.colour]

def PecEnd (tail : Bytes) : Prop := tail.length < 2 ∨ ∃ r, tail = 0xFF :: 0x00 :: r

theorem pec_emit (j t : Bool) (x y : Int) :
    Pec.emit j t x y = (if j then [Ev.jump x y] else if t then [.trim, .jump x y] else [.stitch x y]).map Ev.rec' := by
  cases j <;> cases t <;> rfl

theorem pec_short (v : Int) (h1 : -64 ≤ v) (h2 : v ≤ 63) (w : Int) (hw : w = if v < 0 then v + 0x80 else v) :
    Pec.signed7 w = v ∧ Pec.isLong w = false ∧ w ≠ 0xFF ∧ w ≠ 0xFE := by
  unfold Pec.signed7 Pec.isLong
  refine ⟨?_, ?_, ?_, ?_⟩
  · split_ifs at * <;> omega
  · have : w / 128 = 0 := by split_ifs at hw <;> omega
    rw [this]; rfl
  · split_ifs at hw <;> omega
  · split_ifs at hw <;> omega

theorem pec_long (v : Int) (h1 : -2048 ≤ v) (h2 : v ≤ 2047) (t j : Bool) (w w2 : Int)
    (hw : w = 0x80 + (if t then 0x20 else 0) + (if j then 0x10 else 0) + (if v < 0 then v + 0x1000 else v) / 256)
    (hw2 : w2 = (if v < 0 then v + 0x1000 else v) % 256) :
    Pec.signed12 (w * 256 + w2) = v ∧ Pec.isLong w = true ∧ Pec.hasTrim w = t ∧ Pec.hasJump w = j ∧ w ≠ 0xFF ∧ w ≠ 0xFE := by
  have hv : ∃ u : Int, 0 ≤ u ∧ u < 4096 ∧ (if v < 0 then v + 0x1000 else v) = u ∧ (if u > 0x7FF then -0x1000 + u else u) = v := by
    refine ⟨_, ?_, ?_, rfl, ?_⟩ <;> split_ifs <;> omega
  obtain ⟨u, u1, u2, u3, u4⟩ := hv
  rw [u3] at hw hw2
  unfold Pec.signed12 Pec.isLong Pec.hasTrim Pec.hasJump
  subst hw hw2
  refine ⟨?_, ?_, ?_, ?_, ?_, ?_⟩
  · have e : ((128 + (if t then 32 else 0) + (if j then 16 else 0) + u / 256) * 256 + u % 256) % 4096 = u := by
      cases t <;> cases j <;> simp <;> omega
    simp only [e, u4]
  · have e : (128 + (if t then 32 else 0) + (if j then 16 else 0) + u / 256) / 128 % 2 = 1 := by
      cases t <;> cases j <;> simp <;> omega
    rw [e]; rfl
  · have e : (128 + (if t then 32 else 0) + (if j then 16 else 0) + u / 256) / 32 % 2 = if t then 1 else 0 := by
      cases t <;> cases j <;> simp <;> omega
    rw [e]; cases t <;> rfl
  · have e : (128 + (if t then 32 else 0) + (if j then 16 else 0) + u / 256) / 16 % 2 = if j then 1 else 0 := by
      cases t <;> cases j <;> simp <;> omega
    rw [e]; cases j <;> rfl
  · cases t <;> cases j <;> simp <;> omega
  · cases t <;> cases j <;> simp <;> omega

theorem pec_item (i : PecItem) (h : i.Fits) (rest : Bytes) :
    Pec.readRecs (i.bytes ++ rest) = i.evs.map Ev.rec' ++ Pec.readRecs rest := by
  cases i with
  | colour b =>
    rw [PecItem.bytes, List.cons_append, List.cons_append, List.cons_append, List.nil_append, Pec.readRecs.eq_def]
    simp [PecItem.evs, Ev.rec', COLOR_CHANGE]
  | go x y =>
    obtain ⟨hx, hy⟩ := h
    have fin : ∀ j t : Bool, j = (x.jump || y.jump) → t = (x.trim || y.trim) →
        Pec.emit j t x.value y.value = (PecItem.evs (.go x y)).map Ev.rec' := by
      intro j t hj ht
      rw [pec_emit, hj, ht]
      simp [PecItem.evs]
    cases x with
    | short v =>
      obtain ⟨a1, a2, a3, a4⟩ := pec_short v hx.1 hx.2 _ rfl
      cases y with
      | short u =>
        obtain ⟨b1, b2, _, _⟩ := pec_short u hy.1 hy.2 _ rfl
        simp only [PecItem.bytes, PecAxis.bytes, List.cons_append, List.nil_append]
        rw [Pec.readRecs.eq_def]
        simp only [a1, a2, a3, a4, b1, b2, false_and, if_false]
        rw [← fin false false rfl rfl]
        rfl
      | long u t j =>
        obtain ⟨b1, b2, b3, b4, _, _⟩ := pec_long u hy.1 hy.2 t j _ _ rfl rfl
        simp only [PecItem.bytes, PecAxis.bytes, List.cons_append, List.nil_append]
        rw [Pec.readRecs.eq_def]
        simp only [a1, a2, a3, a4, b1, b2, b3, b4, false_and, if_false, if_true]
        rw [← fin j t rfl rfl]
        rfl
    | long v t j =>
      obtain ⟨a1, a2, a3, a4, a5, a6⟩ := pec_long v hx.1 hx.2 t j _ _ rfl rfl
      cases y with
      | short u =>
        obtain ⟨b1, b2, _, _⟩ := pec_short u hy.1 hy.2 _ rfl
        simp only [PecItem.bytes, PecAxis.bytes, List.cons_append, List.nil_append]
        rw [Pec.readRecs.eq_def]
        simp only [a1, a2, a3, a4, a5, a6, b1, b2, false_and, if_false, if_true]
        rw [← fin j t (by cases j <;> rfl) (by cases t <;> rfl)]
        rfl
      | long u t' j' =>
        obtain ⟨b1, b2, b3, b4, _, _⟩ := pec_long u hy.1 hy.2 t' j' _ _ rfl rfl
        simp only [PecItem.bytes, PecAxis.bytes, List.cons_append, List.nil_append]
        rw [Pec.readRecs.eq_def]
        simp only [a1, a2, a3, a4, a5, a6, b1, b2, b3, b4, false_and, if_false, if_true]
        rw [← fin (j || j') (t || t') rfl rfl]
        rfl

/-- **C125**: the stitches of PEC, and so of PES. -/
theorem C125_pec (l : List PecItem) (hl : ∀ i ∈ l, i.Fits) (tail : Bytes) (ht : PecEnd tail) :
    Pec.readSection (l.flatMap PecItem.bytes ++ tail) = drawn 0 0 (l.flatMap PecItem.evs) := by
  unfold Pec.readSection
  have he : Pec.readRecs tail = [] := by
    rcases ht with h | ⟨r, rfl⟩
    · match tail, h with
      | [], _ => rfl
      | [_], _ => rfl
    · rw [Pec.readRecs.eq_def]
      simp
  rw [recs_flat Pec.readRecs PecItem.bytes PecItem.Fits PecItem.evs pec_item tail he l hl, place_drawn]

example : Pec.readSection [0x7F, 0x03, 0xA0, 0x64, 0x05, 0xFE, 0xB0, 0x02, 0x00, 0x9F, 0x9C, 0x80, 0x01, 0x80, 0x02, 0xFF, 0x00] =
    [⟨-1, 3, 0⟩, ⟨-1, 3, 2⟩, ⟨99, 8, 1⟩, ⟨99, 8, 5⟩, ⟨99, -92, 1⟩, ⟨100, -90, 0⟩, ⟨100, -90, 4⟩] := by decide +kernel

/-! ## XXX -/

/-- A record of XXX. -/
inductive XxxItem where
  | stitch (dx dy : Int)
  | jump (dx dy : Int)
  /-- sixteen bits for each direction; two codes are in use -/
  | long (second : Bool) (dx dy : Int)
  /-- a trim with the jump that follows it -/
  | trim (dx dy : Int)
  /-- a colour change; many codes are in use -/
  | colour (c a b : Int)
  /-- a record of a kind the reader does not know -/
  | other (c a b : Int)

def twos16 (v : Int) : Int := if v < 0 then v + 0x10000 else v

/-- `7F` introduces the records of four bytes, `7D` and `7E` those of five. -/
def XxxItem.bytes : XxxItem → Bytes
  | .stitch dx dy => [twos dx, twos (-dy)]
  | .jump dx dy => [0x7F, 0x01, twos dx, twos (-dy)]
  | .long second dx dy =>
    [if second then 0x7E else 0x7D, twos16 dx % 256, twos16 dx / 256, twos16 (-dy) % 256, twos16 (-dy) / 256]
  | .trim dx dy => [0x7F, 0x03, twos dx, twos (-dy)]
  | .colour c a b => [0x7F, c, a, b]
  | .other c a b => [0x7F, c, a, b]

def XxxItem.Fits : XxxItem → Prop
  | .stitch dx dy => -128 ≤ dx ∧ dx ≤ 124 ∧ -127 ≤ dy ∧ dy ≤ 128
  | .jump dx dy | .trim dx dy => -128 ≤ dx ∧ dx ≤ 127 ∧ -127 ≤ dy ∧ dy ≤ 128
  | .long _ dx dy => -32768 ≤ dx ∧ dx ≤ 32767 ∧ -32767 ≤ dy ∧ dy ≤ 32768
  | .colour c _ _ => c = 0x08 ∨ (0x0A ≤ c ∧ c ≤ 0x17)
  | .other c _ _ => c ∉ [(0x01 : Int), 0x03, 0x08, 0x18, 0x7F] ∧ (c < 0x0A ∨ 0x17 < c)

def XxxItem.evs : XxxItem → List Ev
  | .stitch dx dy => [.stitch dx dy]
  | .jump dx dy | .long _ dx dy => [.jump dx dy]
  | .trim dx dy => .trim :: jumpIf dx dy
  | .colour _ _ _ => [.colour]
  | .other _ _ _ => []

theorem s16 (v : Int) (h1 : -32768 ≤ v) (h2 : v ≤ 32767) :
    signed16 (lo8 (twos16 v % 256) + lo8 (twos16 v / 256) * 2 ^ 8) = v := by
  have hu : 0 ≤ twos16 v ∧ twos16 v < 65536 := by unfold twos16; split_ifs <;> omega
  have e : lo8 (twos16 v % 256) + lo8 (twos16 v / 256) * 2 ^ 8 = twos16 v := by
    unfold lo8; omega
  rw [e]
  unfold signed16 twos16
  simp only
  split_ifs <;> omega

theorem xxx_item (i : XxxItem) (h : i.Fits) (rest : Bytes) (t : List Rec × Bytes) (ht : Xxx.readRecs rest = .ok t) :
    Xxx.readRecs (i.bytes ++ rest) = .ok (i.evs.map Ev.rec' ++ t.1, t.2) := by
  cases i with
  | stitch dx dy =>
    obtain ⟨h1, h2, h3, h4⟩ := h
    have n1 : twos dx ≠ 0x7D ∧ twos dx ≠ 0x7E ∧ twos dx ≠ 0x7F := by
      unfold twos; refine ⟨?_, ?_, ?_⟩ <;> split_ifs <;> omega
    rw [XxxItem.bytes, List.cons_append, List.cons_append, List.nil_append, Xxx.readRecs.eq_def]
    simp [n1, ht, XxxItem.evs, s8 dx (by omega) (by omega), s8 (-dy) (by omega) (by omega), Ev.rec', STITCH, bind, Except.bind]
  | jump dx dy =>
    obtain ⟨h1, h2, h3, h4⟩ := h
    rw [XxxItem.bytes, List.cons_append, List.cons_append, List.cons_append, List.cons_append, List.nil_append, Xxx.readRecs.eq_def]
    simp [ht, XxxItem.evs, s8 dx (by omega) (by omega), s8 (-dy) (by omega) (by omega), Ev.rec', JUMP, bind, Except.bind]
  | trim dx dy =>
    obtain ⟨h1, h2, h3, h4⟩ := h
    rw [XxxItem.bytes, List.cons_append, List.cons_append, List.cons_append, List.cons_append, List.nil_append, Xxx.readRecs.eq_def]
    by_cases hz : dx = 0 ∧ dy = 0
    · simp [ht, XxxItem.evs, jumpIf, hz, s8 0 (by omega) (by omega), Ev.rec', TRIM, bind, Except.bind]
    · have hz' : ¬ dx = 0 ∨ ¬ dy = 0 := by omega
      simp [ht, XxxItem.evs, jumpIf, hz, hz', s8 dx (by omega) (by omega), s8 (-dy) (by omega) (by omega), Ev.rec', JUMP, TRIM, bind, Except.bind]
  | long second dx dy =>
    obtain ⟨h1, h2, h3, h4⟩ := h
    have e : Xxx.readRecs (XxxItem.bytes (.long second dx dy) ++ rest) =
        (Xxx.readRecs rest >>= fun t => .ok (⟨signed16 (lo8 (twos16 dx % 256) + lo8 (twos16 dx / 256) * 2 ^ 8),
          -signed16 (lo8 (twos16 (-dy) % 256) + lo8 (twos16 (-dy) / 256) * 2 ^ 8), JUMP⟩ :: t.1, t.2)) := by
      cases second <;>
      · rw [XxxItem.bytes, List.cons_append, List.cons_append, List.cons_append, List.cons_append, List.cons_append, List.nil_append, Xxx.readRecs.eq_def]
        simp
    rw [e, ht, s16 dx h1 h2, s16 (-dy) (by omega) (by omega), neg_neg]
    rfl
  | colour c a b =>
    have n : c ≠ 1 ∧ c ≠ 3 := by unfold XxxItem.Fits at h; omega
    rw [XxxItem.bytes, List.cons_append, List.cons_append, List.cons_append, List.cons_append, List.nil_append, Xxx.readRecs.eq_def]
    have h : c = 8 ∨ (10 ≤ c ∧ c ≤ 23) := h
    simp [ht, XxxItem.evs, n, h, Ev.rec', COLOR_CHANGE, bind, Except.bind]
  | other c a b =>
    obtain ⟨h1, h2⟩ := h
    simp only [List.mem_cons, List.not_mem_nil, or_false, not_or] at h1
    obtain ⟨h1, h3, h8, h18, h7F⟩ := h1
    rw [XxxItem.bytes, List.cons_append, List.cons_append, List.cons_append, List.cons_append, List.nil_append, Xxx.readRecs.eq_def]
    have n : ¬ (c = 8 ∨ (10 ≤ c ∧ c ≤ 23)) := by omega
    have n2 : ¬ (c = 127 ∨ c = 24) := by omega
    simp only [ne_eq, not_true_eq_false, if_false, h1, h3, n, n2, ht, XxxItem.evs, List.map_nil, List.nil_append]
    norm_num

/-- A number of 32 bits, the highest first. -/
def be32 (v : Int) : Bytes := [v / 0x1000000, v / 0x10000 % 256, v / 0x100 % 256, v % 256]

theorem xxx_threads (cs : List Int) (hc : ∀ v ∈ cs, 0 ≤ v ∧ v < 0x100000000) (rest : Bytes) (n : Nat)
    (hn : n = cs.length ∨ (cs.length ≤ n ∧ rest.length < 4)) : Xxx.readThreads n (cs.flatMap be32 ++ rest) = cs := by
  induction cs generalizing n with
  | nil =>
    cases n with
    | zero => rfl
    | succ n =>
      rcases hn with hn | ⟨_, hr⟩
      · simp at hn
      · match rest, hr with
        | [], _ => rfl
        | [_], _ => rfl
        | [_, _], _ => rfl
        | [_, _, _], _ => rfl
  | cons v cs ih =>
    cases n with
    | zero => simp at hn
    | succ n =>
      obtain ⟨v1, v2⟩ := hc v (by simp)
      have e : readInt32be ((v :: cs).flatMap be32 ++ rest) = (some v, cs.flatMap be32 ++ rest) := by
        rw [List.flatMap_cons, List.append_assoc]
        generalize cs.flatMap be32 ++ rest = R
        have : readInt32be (be32 v ++ R) = (some (lo8 (v % 256) + lo8 (v / 0x100 % 256) * 2 ^ 8 + lo8 (v / 0x10000 % 256) * 2 ^ 16 +
            lo8 (v / 0x1000000) * 2 ^ 24), R) := rfl
        rw [this]
        have : lo8 (v % 256) + lo8 (v / 0x100 % 256) * 2 ^ 8 + lo8 (v / 0x10000 % 256) * 2 ^ 16 + lo8 (v / 0x1000000) * 2 ^ 24 = v := by
          unfold lo8; omega
        rw [this]
      rw [Xxx.readThreads, e]
      simp only
      rw [ih (fun a ha => hc a (by simp [ha])) n (by simp only [List.length_cons] at hn; omega)]

theorem xxx_recs (l : List XxxItem) (hl : ∀ i ∈ l, i.Fits) (tail : Bytes) (t : Bytes) (ht : Xxx.readRecs tail = .ok ([], t)) :
    Xxx.readRecs (l.flatMap XxxItem.bytes ++ tail) = .ok ((l.flatMap XxxItem.evs).map Ev.rec', t) := by
  induction l with
  | nil => exact ht
  | cons i l ih =>
    rw [List.flatMap_cons, List.append_assoc, xxx_item i (hl i (by simp)) _ _ (ih (fun a ha => hl a (by simp [ha]))), List.flatMap_cons,
      List.map_append]

/-- **C125**: XXX. The number of colours stands at 39, the records begin at 256; after the end record (`7F 7F` or `7F 18`) and two
bytes come the colours, all of them or as many as there are before the end of the file. -/
theorem C125_xxx (f : Bytes) (lo hi : Int) (hlo : 0 ≤ lo ∧ lo < 256) (hhi : 0 ≤ hi ∧ hi < 256) (r : Bytes) (hn : f.drop 0x27 = lo :: hi :: r)
    (l : List XxxItem) (hl : ∀ i ∈ l, i.Fits) (e a b c d : Int) (he : e = 0x7F ∨ e = 0x18) (cs : List Int)
    (hc : ∀ v ∈ cs, 0 ≤ v ∧ v < 0x100000000) (rest : Bytes)
    (hr : lo + 256 * hi = cs.length ∨ ((cs.length : Int) ≤ lo + 256 * hi ∧ rest.length < 4))
    (hf : f.drop 0x100 = l.flatMap XxxItem.bytes ++ ([0x7F, e, a, b, c, d] ++ (cs.flatMap be32 ++ rest))) :
    Xxx.read f = .ok (cs, drawn 0 0 (l.flatMap XxxItem.evs)) := by
  have hend : Xxx.readRecs ([0x7F, e, a, b, c, d] ++ (cs.flatMap be32 ++ rest)) = .ok ([], [c, d] ++ (cs.flatMap be32 ++ rest)) := by
    simp only [List.cons_append, List.nil_append]
    rw [Xxx.readRecs.eq_def]
    rcases he with rfl | rfl <;> norm_num
  have hcount : (readInt16le (f.drop 0x27)).1 = some (lo + 256 * hi) := by
    rw [hn]
    have : (readInt16le (lo :: hi :: r)).1 = some (lo8 lo + lo8 hi * 2 ^ 8) := rfl
    rw [this]
    unfold lo8
    congr 1
    omega
  unfold Xxx.read
  rw [hf, xxx_recs l hl _ _ hend, hcount]
  simp only [bind, Except.bind]
  rw [place_drawn, show ([c, d] ++ (cs.flatMap be32 ++ rest)).drop 2 = cs.flatMap be32 ++ rest from rfl, xxx_threads cs hc rest _ (by omega)]

/-- Records that meet the conditions. -/
def demoXxx : List XxxItem := [.stitch 5 (-3), .long true 300 (-300), .other 2 9 9, .trim (-4) 0, .colour 0x0B 1 1, .trim 0 0]

example : Xxx.read (List.replicate 0x27 0 ++ [2, 0] ++ List.replicate 0xD7 0 ++ (demoXxx.flatMap XxxItem.bytes ++
      ([0x7F, 0x18, 0, 0, 0, 0] ++ ([0x00FF0000, 0x123456].flatMap be32 ++ [])))) =
    .ok ([0xFF0000, 0x123456], [⟨5, -3, 0⟩, ⟨305, -303, 1⟩, ⟨305, -303, 2⟩, ⟨301, -303, 1⟩, ⟨301, -303, 5⟩, ⟨301, -303, 2⟩, ⟨301, -303, 4⟩]) :=
  (C125_xxx _ 2 0 (by decide) (by decide) _ rfl demoXxx (by simp [demoXxx, XxxItem.Fits]) 0x18 0 0 0 0 (.inr rfl) [0x00FF0000, 0x123456]
    (by simp) [] (.inl (by decide)) (by decide +kernel)).trans (by decide +kernel)

/-! ## TBF -/

/-- A record of TBF; some records do not use their displacement. -/
inductive TbfItem where
  | stitch (dx dy : Int)
  | jump (dx dy : Int)
  | needle (a b : Int)
  | stop (a b : Int)
  | trim (a b : Int)

/-- Two's complement, `y` upwards, then the kind. -/
def TbfItem.bytes : TbfItem → Bytes
  | .stitch dx dy => [twos dx, twos (-dy), 0x80]
  | .jump dx dy => [twos dx, twos (-dy), 0x90]
  | .needle a b => [a, b, 0x81]
  | .stop a b => [a, b, 0x40]
  | .trim a b => [a, b, 0x86]

def TbfItem.Fits : TbfItem → Prop
  | .stitch dx dy | .jump dx dy => -128 ≤ dx ∧ dx ≤ 127 ∧ -127 ≤ dy ∧ dy ≤ 128
  | _ => True

/-- What the records stand for, with the needles in the order of their use; a needle 0 is a stop, and a jump that goes nowhere is a
trim. -/
def tbfEvs : List Int → List TbfItem → List Ev
  | _, [] => []
  | order, .stitch dx dy :: l => .stitch dx dy :: tbfEvs order l
  | order, .jump dx dy :: l => (if dx = 0 ∧ dy = 0 then .trim else .jump dx dy) :: tbfEvs order l
  | n :: order, .needle _ _ :: l => (if n = 0 then .stop else .needle n) :: tbfEvs order l
  | [], .needle _ _ :: _ => []
  | order, .stop _ _ :: l => .stop :: tbfEvs order l
  | order, .trim _ _ :: l => .trim :: tbfEvs order l

def TbfItem.isNeedle : TbfItem → Bool
  | .needle _ _ => true
  | _ => false

theorem twos_zero (v : Int) (h1 : -128 ≤ v) : twos v = 0 ↔ v = 0 := by
  unfold twos; split_ifs <;> omega

theorem tbf_recs (order : Bytes) (ho : ∀ n ∈ order, 0 ≤ n ∧ n < 255) (tail : Bytes) (ht : ∀ k, Tbf.readRecs order k tail = .ok [])
    (l : List TbfItem) (hl : ∀ i ∈ l, i.Fits) : ∀ k, (l.filter TbfItem.isNeedle).length + k ≤ order.length →
    Tbf.readRecs order k (l.flatMap TbfItem.bytes ++ tail) = .ok ((tbfEvs (order.drop k) l).map Ev.rec') := by
  induction l with
  | nil => intro k _; simpa [tbfEvs] using ht k
  | cons i l ih =>
    intro k hk
    have ih := ih (fun a ha => hl a (by simp [ha]))
    have hi := hl i (by simp)
    rw [List.flatMap_cons, List.append_assoc]
    cases i with
    | stitch dx dy =>
      obtain ⟨h1, h2, h3, h4⟩ := hi
      rw [TbfItem.bytes, List.cons_append, List.cons_append, List.cons_append, List.nil_append, Tbf.readRecs, ih k (by simpa [TbfItem.isNeedle] using hk)]
      simp [tbfEvs, s8 dx (by omega) (by omega), s8 (-dy) (by omega) (by omega), Ev.rec', STITCH, bind, Except.bind]
    | jump dx dy =>
      obtain ⟨h1, h2, h3, h4⟩ := hi
      rw [TbfItem.bytes, List.cons_append, List.cons_append, List.cons_append, List.nil_append, Tbf.readRecs, ih k (by simpa [TbfItem.isNeedle] using hk)]
      have z1 := twos_zero dx h1
      have z2 := twos_zero (-dy) (by omega)
      have e : (twos dx = 0 ∧ twos (-dy) = 0) ↔ (dx = 0 ∧ dy = 0) := by rw [z1, z2]; omega
      by_cases hz : dx = 0 ∧ dy = 0
      · simp [tbfEvs, hz, e.2 hz, Ev.rec', TRIM, twos, bind, Except.bind]
      · have hz' : (twos dx = 0 ∧ twos (-dy) = 0) = False := eq_false (fun q => hz (e.1 q))
        simp only [hz', if_false]
        simp [tbfEvs, hz, s8 dx (by omega) (by omega), s8 (-dy) (by omega) (by omega), Ev.rec', JUMP, bind, Except.bind]
    | needle a b =>
      have hk' : (l.filter TbfItem.isNeedle).length + (k + 1) ≤ order.length := by
        simp [List.filter_cons, TbfItem.isNeedle] at hk ⊢; omega
      have hlt : k < order.length := by omega
      have hd : order.drop k = order[k] :: order.drop (k + 1) := List.drop_eq_getElem_cons hlt
      have hg : order[k]? = some order[k] := List.getElem?_eq_getElem hlt
      obtain ⟨n1, n2⟩ := ho order[k] (List.getElem_mem hlt)
      rw [TbfItem.bytes, List.cons_append, List.cons_append, List.cons_append, List.nil_append, Tbf.readRecs, hg, hd]
      have hr := needle_rec order[k] n1 n2
      unfold Readers.needleChange at hr
      rw [ih (k + 1) hk']
      by_cases hz : order[k] = 0
      · simp [tbfEvs, hz, Ev.rec', STOP, bind, Except.bind]
      · simp [tbfEvs, hz, hr, bind, Except.bind]
    | stop a b =>
      rw [TbfItem.bytes, List.cons_append, List.cons_append, List.cons_append, List.nil_append, Tbf.readRecs, ih k (by simpa [TbfItem.isNeedle] using hk)]
      simp [tbfEvs, Ev.rec', STOP, bind, Except.bind]
    | trim a b =>
      rw [TbfItem.bytes, List.cons_append, List.cons_append, List.cons_append, List.nil_append, Tbf.readRecs, ih k (by simpa [TbfItem.isNeedle] using hk)]
      simp [tbfEvs, Ev.rec', TRIM, bind, Except.bind]

/-- The end: fewer than three bytes, or a record of another kind. -/
def TbfEnd (tail : Bytes) : Prop := tail.length < 3 ∨ ∃ a b c r, tail = a :: b :: c :: r ∧ c ∉ [(0x40 : Int), 0x80, 0x81, 0x86, 0x90]

theorem tbf_end {tail : Bytes} (h : TbfEnd tail) (order : Bytes) (k : Nat) : Tbf.readRecs order k tail = .ok [] := by
  rcases h with h | ⟨a, b, c, r, rfl, h⟩
  · match tail, h with
    | [], _ => rfl
    | [_], _ => rfl
    | [_, _], _ => rfl
  · simp only [List.mem_cons, List.not_mem_nil, or_false, not_or] at h
    simp [Tbf.readRecs, h]

/-- A thread of the table: `45`, red, green, blue, and a byte that is not used. -/
def tbfThread (c : Int × Int) : Bytes := [0x45, c.1 / 0x10000, c.1 / 0x100 % 256, c.1 % 256, c.2]

theorem tbf_threads (cs : List (Int × Int)) (hc : ∀ c ∈ cs, 0 ≤ c.1 ∧ c.1 < 0x1000000) (rest : Bytes) (hr : ∀ b r, rest = b :: r → b ≠ 0x45) :
    Tbf.readThreads (cs.flatMap tbfThread ++ rest) = cs.map (fun c => some c.1) := by
  induction cs with
  | nil =>
    cases rest with
    | nil => rw [List.flatMap_nil, List.append_nil, Tbf.readThreads]; rfl
    | cons b r =>
      rw [List.flatMap_nil, List.nil_append, Tbf.readThreads, if_neg (hr b r rfl)]
      rfl
  | cons c cs ih =>
    obtain ⟨v1, v2⟩ := hc c (by simp)
    rw [List.flatMap_cons, List.append_assoc, tbfThread, List.cons_append, Tbf.readThreads, if_pos rfl]
    have e : ∀ R : Bytes, (readInt24be ([c.1 / 0x10000, c.1 / 0x100 % 256, c.1 % 256, c.2] ++ R)).1 = some c.1 := by
      intro R
      have : (readInt24be ([c.1 / 0x10000, c.1 / 0x100 % 256, c.1 % 256, c.2] ++ R)).1 =
        some (lo8 (c.1 % 256) + lo8 (c.1 / 0x100 % 256) * 2 ^ 8 + lo8 (c.1 / 0x10000) * 2 ^ 16) := rfl
      rw [this]
      unfold lo8
      congr 1
      omega
    rw [e]
    have d : ([c.1 / 0x10000, c.1 / 0x100 % 256, c.1 % 256, c.2] ++ (cs.flatMap tbfThread ++ rest)).drop 4 = cs.flatMap tbfThread ++ rest := rfl
    rw [d, ih (fun a ha => hc a (by simp [ha]))]
    rfl

/-- **C125**: TBF. Name, order of needles, threads and records stand at fixed places. -/
theorem C125_tbf (f : Bytes) (name : Str) (hn : decodeUtf8 ((f.drop 0x83).take 0x10) = some name) (order : List Int)
    (ho : (f.drop 0x10A).take 0x100 = order) (ho' : ∀ n ∈ order, 0 ≤ n ∧ n < 255) (cs : List (Int × Int))
    (hc : ∀ c ∈ cs, 0 ≤ c.1 ∧ c.1 < 0x1000000) (rest : Bytes) (hr : ∀ b r, rest = b :: r → b ≠ 0x45)
    (ht : f.drop 0x20E = cs.flatMap tbfThread ++ rest) (l : List TbfItem) (hl : ∀ i ∈ l, i.Fits)
    (hk : (l.filter TbfItem.isNeedle).length ≤ order.length) (tail : Bytes) (he : TbfEnd tail)
    (hf : f.drop 0x600 = l.flatMap TbfItem.bytes ++ tail) :
    Tbf.read f = .ok ⟨strip name, cs.map (fun c => some c.1), drawn 0 0 (tbfEvs order l)⟩ := by
  unfold Tbf.read
  rw [hn]
  simp only
  rw [ho, hf, tbf_recs order ho' tail (tbf_end he order) l hl 0 (by omega), ht, tbf_threads cs hc rest hr, List.drop_zero]
  simp only [bind, Except.bind]
  rw [place_drawn]

/-! ## JEF -/

/-- A record of JEF; the displacement of a colour change is not used. -/
inductive JefItem where
  | stitch (dx dy : Int)
  | jump (dx dy : Int)
  | change (a b : Int)

def JefItem.bytes : JefItem → Bytes
  | .stitch dx dy => [twos dx, twos (-dy)]
  | .jump dx dy => [0x80, 0x02, twos dx, twos (-dy)]
  | .change a b => [0x80, 0x01, a, b]

def JefItem.Fits : JefItem → Prop
  | .stitch dx dy => -127 ≤ dx ∧ dx ≤ 127 ∧ -127 ≤ dy ∧ dy ≤ 128
  | .jump dx dy => -128 ≤ dx ∧ dx ≤ 127 ∧ -127 ≤ dy ∧ dy ≤ 128
  | .change _ _ => True

def JefItem.isChange : JefItem → Bool
  | .change _ _ => true
  | _ => false

/-- What the records stand for. Every change takes the next number of the colour table; a number 0 stands for a stop. -/
def jefEvs : List Int → List JefItem → List Ev
  | _, [] => []
  | cs, .stitch dx dy :: l => .stitch dx dy :: jefEvs cs l
  | cs, .jump dx dy :: l => .jump dx dy :: jefEvs cs l
  | c :: cs, .change _ _ :: l => (if c = 0 then .stop else .colour) :: jefEvs cs l
  | [], .change _ _ :: _ => []

/-- The thread of a number of the table, of which there are 79. -/
def jefThread (c : Int) : Option Nat := if c = 0 then none else some (c.toNat % 79)

theorem jef_recs (tail : Bytes) (ht : ∀ T k, Jef.readRecs T k tail = .ok ([], T))
    (l : List JefItem) (hl : ∀ i ∈ l, i.Fits) : ∀ (pre : List (Option Nat)) (cs : List Int), (l.filter JefItem.isChange).length ≤ cs.length →
    Jef.readRecs (pre ++ cs.map jefThread) pre.length (l.flatMap JefItem.bytes ++ tail) =
      .ok ((jefEvs cs l).map Ev.rec', pre ++ ((cs.take (l.filter JefItem.isChange).length).filter (· ≠ 0)).map jefThread ++
        (cs.drop (l.filter JefItem.isChange).length).map jefThread) := by
  induction l with
  | nil => intro pre cs _; simp [ht, jefEvs]
  | cons i l ih =>
    intro pre cs hk
    have ih := ih (fun a ha => hl a (by simp [ha]))
    have hi := hl i (by simp)
    rw [List.flatMap_cons, List.append_assoc]
    cases i with
    | stitch dx dy =>
      obtain ⟨h1, h2, h3, h4⟩ := hi
      have hc : ((JefItem.stitch dx dy :: l).filter JefItem.isChange) = l.filter JefItem.isChange := by simp [JefItem.isChange]
      rw [hc] at hk ⊢
      rw [JefItem.bytes, List.cons_append, List.cons_append, List.nil_append, Jef.readRecs.eq_def]
      simp only
      rw [if_pos (twos_ne dx h1 h2), ih pre cs hk]
      simp [jefEvs, s8 dx (by omega) (by omega), s8 (-dy) (by omega) (by omega), Ev.rec', STITCH, bind, Except.bind]
    | jump dx dy =>
      obtain ⟨h1, h2, h3, h4⟩ := hi
      have hc : ((JefItem.jump dx dy :: l).filter JefItem.isChange) = l.filter JefItem.isChange := by simp [JefItem.isChange]
      rw [hc] at hk ⊢
      rw [JefItem.bytes, List.cons_append, List.cons_append, List.cons_append, List.cons_append, List.nil_append, Jef.readRecs.eq_def]
      simp only
      rw [if_neg (by decide), if_pos trivial, ih pre cs hk]
      simp [jefEvs, s8 dx (by omega) (by omega), s8 (-dy) (by omega) (by omega), Ev.rec', JUMP, bind, Except.bind]
    | change a b =>
      have hc : ((JefItem.change a b :: l).filter JefItem.isChange).length = (l.filter JefItem.isChange).length + 1 := by
        rw [List.filter_cons_of_pos rfl, List.length_cons]
      rw [hc] at hk ⊢
      cases cs with
      | nil => simp at hk
      | cons c cs =>
        have hk' : (l.filter JefItem.isChange).length ≤ cs.length := by simpa using hk
        rw [JefItem.bytes, List.cons_append, List.cons_append, List.cons_append, List.cons_append, List.nil_append, Jef.readRecs.eq_def]
        simp only
        rw [if_neg (by decide), if_neg (by decide), if_pos trivial]
        have hg : (pre ++ (c :: cs).map jefThread)[pre.length]? = some (jefThread c) := by simp
        rw [hg]
        by_cases hz : c = 0
        · subst hz
          have e1 : jefThread 0 = none := rfl
          have e2 : (pre ++ ((0 : Int) :: cs).map jefThread).eraseIdx pre.length = pre ++ cs.map jefThread := by
            rw [List.eraseIdx_append_of_length_le (le_refl _)]; simp
          rw [e1, e2]
          simp only
          rw [ih pre cs hk']
          simp [jefEvs, Ev.rec', STOP, bind, Except.bind]
        · have e1 : jefThread c = some (c.toNat % 79) := by unfold jefThread; rw [if_neg hz]
          have e2 : pre ++ (c :: cs).map jefThread = (pre ++ [jefThread c]) ++ cs.map jefThread := by simp
          have e3 : (pre ++ [jefThread c]).length = pre.length + 1 := by simp
          have := ih (pre ++ [jefThread c]) cs hk'
          rw [e3] at this
          rw [e2, this, e1]
          simp [jefEvs, hz, e1, Ev.rec', COLOR_CHANGE, bind, Except.bind]

/-- The end: a cut off record, or a longer record of an unknown kind such as `80 10`. -/
def JefEnd (tail : Bytes) : Prop :=
  tail.length < 2 ∨ ∃ c r, tail = 0x80 :: c :: r ∧ (r.length < 2 ∨ (c ≠ 0x01 ∧ c ≠ 0x02))

theorem jef_end {tail : Bytes} (h : JefEnd tail) (T : List (Option Nat)) (k : Nat) : Jef.readRecs T k tail = .ok ([], T) := by
  rcases h with h | ⟨c, r, rfl, h⟩
  · match tail, h with
    | [], _ => rfl
    | [_], _ => rfl
  · rw [Jef.readRecs.eq_def]
    match r, h with
    | [], _ => simp
    | [_], _ => simp
    | _ :: _ :: _, h =>
      rcases h with h | ⟨h1, h2⟩
      · simp only [List.length_cons] at h; omega
      · simp [h1, h2]

/-- A number of 32 bits, the lowest first. -/
def le32 (v : Int) : Bytes := [v % 256, v / 0x100 % 256, v / 0x10000 % 256, v / 0x1000000]

theorem read_le32 (v : Int) (h1 : 0 ≤ v) (h2 : v < 0x100000000) (R : Bytes) : readInt32le (le32 v ++ R) = (some v, R) := by
  have : readInt32le (le32 v ++ R) = (some (lo8 (v % 256) + lo8 (v / 0x100 % 256) * 2 ^ 8 + lo8 (v / 0x10000 % 256) * 2 ^ 16 +
      lo8 (v / 0x1000000) * 2 ^ 24), R) := rfl
  rw [this]
  have : lo8 (v % 256) + lo8 (v / 0x100 % 256) * 2 ^ 8 + lo8 (v / 0x10000 % 256) * 2 ^ 16 + lo8 (v / 0x1000000) * 2 ^ 24 = v := by
    unfold lo8; omega
  rw [this]

theorem jef_colors (cs : List Int) (hc : ∀ v ∈ cs, 0 ≤ v ∧ v < 0x100000000) (rest : Bytes) :
    Jef.readColors cs.length (cs.flatMap le32 ++ rest) = .ok (cs.map jefThread) := by
  induction cs with
  | nil => rfl
  | cons v cs ih =>
    obtain ⟨v1, v2⟩ := hc v (by simp)
    rw [List.length_cons, Jef.readColors, List.flatMap_cons, List.append_assoc, read_le32 v v1 v2]
    simp only
    rw [ih (fun a ha => hc a (by simp [ha]))]
    have e : Jef.table.length = 79 := by decide +kernel
    rw [e]
    rfl

/-- **C125**: JEF, before trims are inferred (C50). The first number says where the records begin; 24 bytes on stands how many colours
there are, at 116 their numbers. Of the colours after the first those of number 0 that are used are taken out of the list. -/
theorem C125_jef (f : Bytes) (offset : Int) (h1 : 0 ≤ offset) (h2 : offset < 0x100000000) (r : Bytes) (hoff : f = le32 offset ++ r)
    (c : Int) (cs : List Int) (hc : ∀ v ∈ c :: cs, 0 ≤ v ∧ v < 0x100000000) (hlen : ((c :: cs).length : Int) < 0x100000000) (r' : Bytes)
    (hn : f.drop 24 = le32 (c :: cs).length ++ r') (r'' : Bytes) (ht : f.drop 116 = (c :: cs).flatMap le32 ++ r'')
    (l : List JefItem) (hl : ∀ i ∈ l, i.Fits) (hk : (l.filter JefItem.isChange).length ≤ cs.length) (tail : Bytes) (he : JefEnd tail)
    (hf : f.drop offset.toNat = l.flatMap JefItem.bytes ++ tail) :
    Jef.readPlain f = .ok (drawn 0 0 (jefEvs cs l), jefThread c ::
      (((cs.take (l.filter JefItem.isChange).length).filter (· ≠ 0)).map jefThread ++ (cs.drop (l.filter JefItem.isChange).length).map jefThread)) := by
  unfold Jef.readPlain
  have a1 : (readInt32le f).1 = some offset := by rw [hoff, read_le32 offset h1 h2]
  have a2 : (readInt32le (f.drop 24)).1 = some ((c :: cs).length : Int) := by rw [hn, read_le32 _ (by omega) hlen]
  rw [a1, a2]
  simp only
  rw [ht, Int.toNat_natCast, jef_colors (c :: cs) hc]
  have := jef_recs tail (jef_end he) l hl [jefThread c] cs hk
  simp only [bind, Except.bind]
  rw [hf]
  have e : ([jefThread c] : List (Option Nat)) ++ cs.map jefThread = (c :: cs).map jefThread := rfl
  rw [e, List.length_singleton] at this
  rw [this]
  simp only
  rw [place_drawn]
  rfl

theorem jef_short (tail : Bytes) (l : List JefItem) (hl : ∀ i ∈ l, i.Fits) : ∀ (pre : List (Option Nat)) (cs : List Int),
    cs.length < (l.filter JefItem.isChange).length →
    Jef.readRecs (pre ++ cs.map jefThread) pre.length (l.flatMap JefItem.bytes ++ tail) = .error .indexError := by
  induction l with
  | nil => intro pre cs h; simp at h
  | cons i l ih =>
    intro pre cs hk
    have ih := ih (fun a ha => hl a (by simp [ha]))
    have hi := hl i (by simp)
    rw [List.flatMap_cons, List.append_assoc]
    cases i with
    | stitch dx dy =>
      obtain ⟨h1, h2, h3, h4⟩ := hi
      have hc : ((JefItem.stitch dx dy :: l).filter JefItem.isChange) = l.filter JefItem.isChange := by simp [JefItem.isChange]
      rw [hc] at hk
      rw [JefItem.bytes, List.cons_append, List.cons_append, List.nil_append, Jef.readRecs.eq_def]
      simp only
      rw [if_pos (twos_ne dx h1 h2), ih pre cs hk]
      rfl
    | jump dx dy =>
      have hc : ((JefItem.jump dx dy :: l).filter JefItem.isChange) = l.filter JefItem.isChange := by simp [JefItem.isChange]
      rw [hc] at hk
      rw [JefItem.bytes, List.cons_append, List.cons_append, List.cons_append, List.cons_append, List.nil_append, Jef.readRecs.eq_def]
      simp only
      rw [if_neg (by decide), if_pos trivial, ih pre cs hk]
      rfl
    | change a b =>
      have hc : ((JefItem.change a b :: l).filter JefItem.isChange).length = (l.filter JefItem.isChange).length + 1 := by
        rw [List.filter_cons_of_pos rfl, List.length_cons]
      rw [hc] at hk
      rw [JefItem.bytes, List.cons_append, List.cons_append, List.cons_append, List.cons_append, List.nil_append, Jef.readRecs.eq_def]
      simp only
      rw [if_neg (by decide), if_neg (by decide), if_pos trivial]
      cases cs with
      | nil =>
        have hg : (pre ++ ([] : List Int).map jefThread)[pre.length]? = none := by simp
        rw [hg]
      | cons c cs =>
        have hk' : cs.length < (l.filter JefItem.isChange).length := by simpa using hk
        have hg : (pre ++ (c :: cs).map jefThread)[pre.length]? = some (jefThread c) := by simp
        rw [hg]
        by_cases hz : c = 0
        · subst hz
          have e1 : jefThread 0 = none := rfl
          have e2 : (pre ++ ((0 : Int) :: cs).map jefThread).eraseIdx pre.length = pre ++ cs.map jefThread := by
            rw [List.eraseIdx_append_of_length_le (le_refl _)]; simp
          rw [e1, e2]
          simp only
          rw [ih pre cs hk']
          rfl
        · have e1 : jefThread c = some (c.toNat % 79) := by unfold jefThread; rw [if_neg hz]
          have e2 : pre ++ (c :: cs).map jefThread = (pre ++ [jefThread c]) ++ cs.map jefThread := by simp
          have e3 : (pre ++ [jefThread c]).length = pre.length + 1 := by simp
          have := ih (pre ++ [jefThread c]) cs hk'
          rw [e3] at this
          rw [e2, this, e1]
          rfl

/-- **C125**: a JEF file with more changes than colours after the first is refused with `IndexError`. -/
theorem C125_jef_short (f : Bytes) (offset : Int) (h1 : 0 ≤ offset) (h2 : offset < 0x100000000) (r : Bytes) (hoff : f = le32 offset ++ r)
    (c : Int) (cs : List Int) (hc : ∀ v ∈ c :: cs, 0 ≤ v ∧ v < 0x100000000) (hlen : ((c :: cs).length : Int) < 0x100000000) (r' : Bytes)
    (hn : f.drop 24 = le32 (c :: cs).length ++ r') (r'' : Bytes) (ht : f.drop 116 = (c :: cs).flatMap le32 ++ r'')
    (l : List JefItem) (hl : ∀ i ∈ l, i.Fits) (hk : cs.length < (l.filter JefItem.isChange).length) (tail : Bytes)
    (hf : f.drop offset.toNat = l.flatMap JefItem.bytes ++ tail) : Jef.readPlain f = .error .indexError := by
  unfold Jef.readPlain
  have a1 : (readInt32le f).1 = some offset := by rw [hoff, read_le32 offset h1 h2]
  have a2 : (readInt32le (f.drop 24)).1 = some ((c :: cs).length : Int) := by rw [hn, read_le32 _ (by omega) hlen]
  rw [a1, a2]
  simp only
  rw [ht, Int.toNat_natCast, jef_colors (c :: cs) hc]
  have := jef_short tail l hl [jefThread c] cs hk
  simp only [bind, Except.bind]
  rw [hf]
  have e : ([jefThread c] : List (Option Nat)) ++ cs.map jefThread = (c :: cs).map jefThread := rfl
  rw [e, List.length_singleton] at this
  rw [this]

example : Jef.readPlain (le32 120 ++ (List.replicate 20 0 ++ (le32 1 ++ (List.replicate 88 0 ++ ([10].flatMap le32 ++
      ([JefItem.stitch 5 3, .change 0 0].flatMap JefItem.bytes ++ [0x80, 0x10])))))) = .error .indexError :=
  C125_jef_short _ 120 (by decide) (by decide) _ rfl 10 [] (by simp) (by decide) _ rfl _ rfl _ (by simp [JefItem.Fits]) (by decide) [0x80, 0x10] rfl

/-- A table of a red thread, a stop and a black thread; the stop is used and vanishes. -/
def demoJef : List JefItem := [.stitch 5 (-3), .change 0 0, .jump (-128) 128, .change 9 9, .stitch 1 1]

example : Jef.readPlain (le32 128 ++ (List.replicate 20 0 ++ (le32 3 ++ (List.replicate 88 0 ++ ([10, 0, 80].flatMap le32 ++
      (demoJef.flatMap JefItem.bytes ++ [0x80, 0x10])))))) =
    .ok ([⟨5, -3, 0⟩, ⟨5, -3, 3⟩, ⟨-123, 125, 1⟩, ⟨-123, 125, 5⟩, ⟨-122, 126, 0⟩, ⟨-122, 126, 4⟩], [some 10, some 1]) :=
  (C125_jef _ 128 (by decide) (by decide) _ rfl 10 [0, 80] (by simp) (by decide) _ rfl _ rfl demoJef (by simp [demoJef, JefItem.Fits])
    (by decide) [0x80, 0x10] (.inr ⟨0x10, [], rfl, .inl (by decide)⟩) rfl).trans (by decide +kernel)

/-- Needles 3 and 0 in this order; two threads. -/
def demoTbf : List TbfItem := [.stitch 5 (-3), .needle 0 0, .jump 0 0, .jump (-128) 128, .needle 1 1, .stop 0 0, .trim 0 0]

example : Tbf.read (List.replicate 0x83 0 ++ utf8 "Rose            ".toList ++ List.replicate 0x77 0 ++ [3, 0] ++ List.replicate 0x102 0 ++
      [(0xFF0000, 0x20), (0x123456, 0x20)].flatMap tbfThread ++ List.replicate 0x3E8 0 ++ (demoTbf.flatMap TbfItem.bytes ++ [0, 0, 0x8F])) =
    .ok ⟨"Rose".toList, [some 0xFF0000, some 0x123456], [⟨5, -3, 0⟩, ⟨5, -3, 0x40009⟩, ⟨5, -3, 2⟩, ⟨-123, 125, 1⟩, ⟨-123, 125, 3⟩,
      ⟨-123, 125, 3⟩, ⟨-123, 125, 2⟩, ⟨-123, 125, 4⟩]⟩ := by decide +kernel

/-! ## DST -/

/-- A number as sum of 81, 27, 9, 3 and 1, each added, subtracted or left out. -/
structure Digits where
  d81 : Int
  d27 : Int
  d9 : Int
  d3 : Int
  d1 : Int

def Digit (d : Int) : Prop := d = -1 ∨ d = 0 ∨ d = 1
def Digits.Fits (n : Digits) : Prop := Digit n.d81 ∧ Digit n.d27 ∧ Digit n.d9 ∧ Digit n.d3 ∧ Digit n.d1
def Digits.value (n : Digits) : Int := 81 * n.d81 + 27 * n.d27 + 9 * n.d9 + 3 * n.d3 + n.d1

inductive DstKind where
  | stitch | jump | colour | sequin

/-- A record: `x` to the right, `y` upwards. -/
structure DstItem where
  kind : DstKind
  x : Digits
  y : Digits

/-- The bit `b` if the digit is 1; if it is -1. -/
def plus (b d : Int) : Int := if d = 1 then b else 0
def minus (b d : Int) : Int := if d = -1 then b else 0

def DstKind.bits : DstKind → Int
  | .stitch => 0x00
  | .jump => 0x80
  | .colour => 0xC0
  | .sequin => 0x40

/-- The Tajima record. -/
def DstItem.bytes (i : DstItem) : Bytes :=
  [plus 0x80 i.y.d1 + minus 0x40 i.y.d1 + plus 0x20 i.y.d9 + minus 0x10 i.y.d9 + minus 0x08 i.x.d9 + plus 0x04 i.x.d9 + minus 0x02 i.x.d1 + plus 0x01 i.x.d1,
   plus 0x80 i.y.d3 + minus 0x40 i.y.d3 + plus 0x20 i.y.d27 + minus 0x10 i.y.d27 + minus 0x08 i.x.d27 + plus 0x04 i.x.d27 + minus 0x02 i.x.d3 + plus 0x01 i.x.d3,
   i.kind.bits + plus 0x20 i.y.d81 + minus 0x10 i.y.d81 + minus 0x08 i.x.d81 + plus 0x04 i.x.d81 + 0x03]

def DstItem.Fits (i : DstItem) : Prop := i.x.Fits ∧ i.y.Fits

/-- What the records draw: between two sequin marks jumps eject sequins. -/
def dstDrawn : Bool → ℚ → ℚ → List DstItem → List Stitch
  | _, x, y, [] => [⟨x, y, 4⟩]
  | sequins, x, y, i :: l =>
    let x' := x + i.x.value
    let y' := y - i.y.value
    match i.kind with
    | .stitch => ⟨x', y', 0⟩ :: dstDrawn sequins x' y' l
    | .jump => ⟨x', y', if sequins then 7 else 1⟩ :: dstDrawn sequins x' y' l
    | .colour => ⟨x', y', 5⟩ :: dstDrawn sequins x' y' l
    | .sequin => ⟨x', y', 6⟩ :: dstDrawn (!sequins) x' y' l

theorem plus_bit (b d : Int) : plus b d = b * plus 1 d := by unfold plus; split_ifs <;> simp
theorem minus_bit (b d : Int) : minus b d = b * minus 1 d := by unfold minus; split_ifs <;> simp
theorem plus_zero_one (d : Int) : plus 1 d = 0 ∨ plus 1 d = 1 := by unfold plus; split_ifs <;> simp
theorem minus_zero_one (d : Int) : minus 1 d = 0 ∨ minus 1 d = 1 := by unfold minus; split_ifs <;> simp
theorem digit_of {d : Int} (h : Digit d) : plus 1 d - minus 1 d = d := by
  rcases h with rfl | rfl | rfl <;> rfl
theorem not_both (d : Int) : ¬ (plus 1 d = 1 ∧ minus 1 d = 1) := by
  unfold plus minus; split_ifs <;> omega

def DstKind.cmd (sequins : Bool) : DstKind → Int
  | .stitch => 0
  | .jump => if sequins then 7 else 1
  | .colour => 5
  | .sequin => 6

theorem dst_item (i : DstItem) (h : i.Fits) (m : Bool) (rest : Bytes) :
    Dst.readRecs m (i.bytes ++ rest) = ⟨i.x.value, -i.y.value, i.kind.cmd m⟩ ::
      Dst.readRecs (if i.kind.cmd m = 6 then !m else m) rest := by
  obtain ⟨kind, x, y⟩ := i
  obtain ⟨⟨x81, x27, x9, x3, x1⟩, ⟨y81, y27, y9, y3, y1⟩⟩ := h
  simp only at x81 x27 x9 x3 x1 y81 y27 y9 y3 y1
  have kb : ∃ k6 k7 : Int, (k6 = 0 ∨ k6 = 1) ∧ (k7 = 0 ∨ k7 = 1) ∧ kind.bits = 64 * k6 + 128 * k7 ∧
      kind.cmd m = (if k6 = 1 then (if k7 = 1 then 5 else 6) else if k7 = 1 then (if m then 7 else 1) else 0) := by
    cases kind
    · exact ⟨0, 0, by simp [DstKind.bits, DstKind.cmd]⟩
    · exact ⟨0, 1, by simp [DstKind.bits, DstKind.cmd]⟩
    · exact ⟨1, 1, by simp [DstKind.bits, DstKind.cmd]⟩
    · exact ⟨1, 0, by simp [DstKind.bits, DstKind.cmd]⟩
  obtain ⟨k6, k7, hk6, hk7, hb, hcmd⟩ := kb
  have z1 := plus_zero_one
  have z2 := minus_zero_one
  obtain ⟨p0, p1, p2, p3, p4, p5, p6, p7, _⟩ := Dst.bit_values (plus 1 x.d1) (minus 1 x.d1) (plus 1 x.d9) (minus 1 x.d9) (minus 1 y.d9)
    (plus 1 y.d9) (minus 1 y.d1) (plus 1 y.d1)
    (plus 0x80 y.d1 + minus 0x40 y.d1 + plus 0x20 y.d9 + minus 0x10 y.d9 + minus 0x08 x.d9 + plus 0x04 x.d9 + minus 0x02 x.d1 + plus 0x01 x.d1)
    (z1 _) (z2 _) (z1 _) (z2 _) (z2 _) (z1 _) (z2 _) (z1 _) (by
      rw [plus_bit 0x80, minus_bit 0x40, plus_bit 0x20, minus_bit 0x10, minus_bit 0x08, plus_bit 0x04, minus_bit 0x02]; ring)
  obtain ⟨q0, q1, q2, q3, q4, q5, q6, q7, _⟩ := Dst.bit_values (plus 1 x.d3) (minus 1 x.d3) (plus 1 x.d27) (minus 1 x.d27) (minus 1 y.d27)
    (plus 1 y.d27) (minus 1 y.d3) (plus 1 y.d3)
    (plus 0x80 y.d3 + minus 0x40 y.d3 + plus 0x20 y.d27 + minus 0x10 y.d27 + minus 0x08 x.d27 + plus 0x04 x.d27 + minus 0x02 x.d3 + plus 0x01 x.d3)
    (z1 _) (z2 _) (z1 _) (z2 _) (z2 _) (z1 _) (z2 _) (z1 _) (by
      rw [plus_bit 0x80, minus_bit 0x40, plus_bit 0x20, minus_bit 0x10, minus_bit 0x08, plus_bit 0x04, minus_bit 0x02]; ring)
  obtain ⟨r0, r1, r2, r3, r4, r5, r6, r7, hbyte⟩ := Dst.bit_values 1 1 (plus 1 x.d81) (minus 1 x.d81) (minus 1 y.d81) (plus 1 y.d81) k6 k7
    (kind.bits + plus 0x20 y.d81 + minus 0x10 y.d81 + minus 0x08 x.d81 + plus 0x04 x.d81 + 0x03)
    (.inr rfl) (.inr rfl) (z1 _) (z2 _) (z2 _) (z1 _) hk6 hk7 (by
      rw [hb, plus_bit 0x20, minus_bit 0x10, minus_bit 0x08, plus_bit 0x04]; ring)
  simp only [DstItem.bytes, List.cons_append, List.nil_append]
  generalize plus 0x80 y.d1 + minus 0x40 y.d1 + plus 0x20 y.d9 + minus 0x10 y.d9 + minus 0x08 x.d9 + plus 0x04 x.d9 + minus 0x02 x.d1 + plus 0x01 x.d1 = b0 at *
  generalize plus 0x80 y.d3 + minus 0x40 y.d3 + plus 0x20 y.d27 + minus 0x10 y.d27 + minus 0x08 x.d27 + plus 0x04 x.d27 + minus 0x02 x.d3 + plus 0x01 x.d3 = b1 at *
  generalize kind.bits + plus 0x20 y.d81 + minus 0x10 y.d81 + minus 0x08 x.d81 + plus 0x04 x.d81 + 0x03 = b2 at *
  have ex : Dst.decodeDx b0 b1 b2 = x.value := by
    unfold Dst.decodeDx Digits.value
    rw [p0, p1, p2, p3, q0, q1, q2, q3, r2, r3]
    have := digit_of x81; have := digit_of x27; have := digit_of x9; have := digit_of x3; have := digit_of x1
    omega
  have ey : Dst.decodeDy b0 b1 b2 = -y.value := by
    unfold Dst.decodeDy Digits.value
    rw [p4, p5, p6, p7, q4, q5, q6, q7, r4, r5]
    have := digit_of y81; have := digit_of y27; have := digit_of y9; have := digit_of y3; have := digit_of y1
    omega
  have ec : Dst.classify m b2 = some (kind.cmd m) := by
    obtain ⟨m1, m2, m3, m4⟩ := Dst.hasMask_bits b2 hbyte
    rw [r0, r1, r4, r5, r6, r7] at m1
    rw [r0, r1, r6, r7] at m2
    rw [r0, r1, r6] at m3
    rw [r0, r1, r7] at m4
    have nb := not_both y.d81
    unfold Dst.classify
    rw [if_neg (by rw [m1]; tauto), hcmd]
    rcases hk6 with rfl | rfl <;> rcases hk7 with rfl | rfl
    · rw [if_neg (by rw [m2]; simp), if_neg (by rw [m3]; simp), if_neg (by rw [m4]; simp)]; rfl
    · rw [if_neg (by rw [m2]; simp), if_neg (by rw [m3]; simp), if_pos (by rw [m4]; simp)]; rfl
    · rw [if_neg (by rw [m2]; simp), if_pos (by rw [m3]; simp)]; rfl
    · rw [if_pos (by rw [m2]; simp)]; rfl
  rw [Dst.readRecs, ec]
  simp only [ex, ey]
  rfl

/-- The end: fewer than three bytes, or a record with the bits of the end. -/
def DstEnd (tail : Bytes) : Prop := tail.length < 3 ∨ ∃ a b r, tail = a :: b :: 0xF3 :: r

theorem dst_end {tail : Bytes} (h : DstEnd tail) (m : Bool) : Dst.readRecs m tail = [] := by
  rcases h with h | ⟨a, b, r, rfl⟩
  · match tail, h with
    | [], _ => rfl
    | [_], _ => rfl
    | [_, _], _ => rfl
  · have : Dst.classify m 0xF3 = none := by cases m <;> decide +kernel
    rw [Dst.readRecs, this]

theorem dst_drawn (l : List DstItem) (hl : ∀ i ∈ l, i.Fits) (tail : Bytes) (ht : DstEnd tail) : ∀ (m : Bool) (x y : ℚ),
    place x y (Dst.readRecs m (l.flatMap DstItem.bytes ++ tail) ++ [⟨0, 0, END⟩]) = dstDrawn m x y l := by
  induction l with
  | nil => intro m x y; simp [dst_end ht, place, dstDrawn, END]
  | cons i l ih =>
    intro m x y
    have ih := ih (fun a ha => hl a (by simp [ha]))
    rw [List.flatMap_cons, List.append_assoc, dst_item i (hl i (by simp)), List.cons_append, place, ih]
    obtain ⟨kind, dx, dy⟩ := i
    cases kind <;> cases m <;> simp [dstDrawn, DstKind.cmd, sub_eq_add_neg]

/-- **C125**: DST, after 512 bytes; what is made of the jumps is said by C50. -/
theorem C125_dst (trimAt : Int) (dist : Option ℚ) (clipping : Bool) (head : Bytes) (hh : head.length = 512) (l : List DstItem)
    (hl : ∀ i ∈ l, i.Fits) (tail : Bytes) (ht : DstEnd tail) :
    Dst.read trimAt dist clipping (head ++ (l.flatMap DstItem.bytes ++ tail)) =
      interpolateTrims (some trimAt) (dist.map (· * 10)) clipping (dstDrawn false 0 0 l) := by
  unfold Dst.read Dst.readBody
  rw [← hh, List.drop_left]
  simp only
  rw [dst_drawn l hl tail ht]

/-- A stitch, a sequin ejected, a colour change on the way. -/
def demoDst : List DstItem :=
  [⟨.stitch, ⟨0, 0, 1, 0, -1⟩, ⟨1, 0, 0, -1, 0⟩⟩, ⟨.sequin, ⟨0, 0, 0, 0, 0⟩, ⟨0, 0, 0, 0, 0⟩⟩, ⟨.jump, ⟨0, 1, 0, 0, 0⟩, ⟨0, 0, 0, 0, 0⟩⟩,
    ⟨.sequin, ⟨0, 0, 0, 0, 0⟩, ⟨0, 0, 0, 0, 0⟩⟩, ⟨.colour, ⟨0, 0, 0, 1, 1⟩, ⟨-1, -1, -1, -1, -1⟩⟩]

example : demoDst.flatMap DstItem.bytes = [0x06, 0x40, 0x23, 0, 0, 0x43, 0, 0x04, 0x83, 0, 0, 0x43, 0x51, 0x51, 0xD3] := by decide +kernel

example : Dst.read 3 none true (List.replicate 512 0x20 ++ (demoDst.flatMap DstItem.bytes ++ [0, 0, 0xF3])) =
    [⟨8, -78, 0⟩, ⟨8, -78, 6⟩, ⟨35, -78, 7⟩, ⟨35, -78, 6⟩, ⟨39, 43, 5⟩, ⟨39, 43, 4⟩] := by decide +kernel

end Elsewhere
end Emb
