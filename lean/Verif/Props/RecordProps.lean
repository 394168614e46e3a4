import Verif.Readers
import Verif.Props.Commands
import Mathlib.Tactic.Linarith
import Mathlib.Tactic.IntervalCases

/-!
# C88: the records of the smaller stitch formats

For each format: how a command is recorded, and that reading a list of such records gives these commands.
-/

namespace Emb
namespace Records

/-! ## Specification: commands -/

/-- A command of a pattern; displacements in tenths of a millimetre, `dy` downwards. -/
inductive Ev where
  | stitch (dx dy : Int)
  | jump (dx dy : Int)
  | trim
  | stop
  | colour
  /-- a colour change after a displacement -/
  | colourAt (dx dy : Int)
  /-- change to the needle `n` -/
  | needle (n : Int)
  | fast
  | slow

/-- The pattern drawn by some commands from a position, and END. -/
def drawn (x y : ℚ) : List Ev → List Stitch
  | [] => [⟨x, y, 4⟩]
  | .stitch dx dy :: l => ⟨x + dx, y + dy, 0⟩ :: drawn (x + dx) (y + dy) l
  | .jump dx dy :: l => ⟨x + dx, y + dy, 1⟩ :: drawn (x + dx) (y + dy) l
  | .trim :: l => ⟨x, y, 2⟩ :: drawn x y l
  | .stop :: l => ⟨x, y, 3⟩ :: drawn x y l
  | .colour :: l => ⟨x, y, 5⟩ :: drawn x y l
  | .colourAt dx dy :: l => ⟨x + dx, y + dy, 5⟩ :: drawn (x + dx) (y + dy) l
  | .needle n :: l => ⟨x, y, 9 + 0x10000 * (n + 1)⟩ :: drawn x y l
  | .fast :: l => ⟨x, y, 12⟩ :: drawn x y l
  | .slow :: l => ⟨x, y, 11⟩ :: drawn x y l

/-- A sign as a bit of a control byte: `b` if `v` is negative; if it is positive. -/
def neg (b v : Int) : Int := if v < 0 then b else 0
def pos (b v : Int) : Int := if 0 < v then b else 0

/-- The size of a number as one byte; a number as a byte in two's complement. -/
def mag (v : Int) : Int := if v < 0 then -v else v
def twos (v : Int) : Int := if v < 0 then v + 256 else v

/-- A displacement whose size fits into `m`. -/
def Within (m dx dy : Int) : Prop := -m ≤ dx ∧ dx ≤ m ∧ -m ≤ dy ∧ dy ≤ m

/-! ## Proofs: loops -/

/-- The record of a command. -/
def Ev.rec' : Ev → Rec
  | .stitch dx dy => ⟨dx, dy, 0⟩
  | .jump dx dy => ⟨dx, dy, 1⟩
  | .trim => ⟨0, 0, 2⟩
  | .stop => ⟨0, 0, 3⟩
  | .colour => ⟨0, 0, 5⟩
  | .colourAt dx dy => ⟨dx, dy, 5⟩
  | .needle n => ⟨0, 0, 9 + 0x10000 * (n + 1)⟩
  | .fast => ⟨0, 0, 12⟩
  | .slow => ⟨0, 0, 11⟩

theorem place_drawn (l : List Ev) (x y : ℚ) : place x y (l.map Ev.rec' ++ [⟨0, 0, END⟩]) = drawn x y l := by
  induction l generalizing x y with
  | nil => simp [place, drawn, END]
  | cons e l ih => cases e <;> simp [place, drawn, Ev.rec', ih]

theorem needle_rec (n : Int) (h : 0 ≤ n) (h2 : n < 255) : Readers.needleChange n = (Ev.needle n).rec' := by
  obtain ⟨k, rfl⟩ := Int.eq_ofNat_of_zero_le h
  have : ∀ k : Fin 255, encodeThreadChange NEEDLE_SET none (some ((k : Nat) : Int)) none = 9 + 0x10000 * (((k : Nat) : Int) + 1) := by
    decide +kernel
  have := this ⟨k, by omega⟩
  simp only [Readers.needleChange, Ev.rec', Rec.mk.injEq, true_and]
  exact this

/-- What some items stand for, with a state. -/
def Means {σ ι : Type} (evs : σ → ι → List Ev) (next : σ → ι → σ) : σ → List ι → List Ev
  | _, [] => []
  | s, i :: l => evs s i ++ Means evs next (next s i) l

theorem loop_items {σ ι : Type} (step : σ → Bytes → Readers.Next σ Rec) (enc : ι → Bytes) (ok : ι → Prop) (evs : σ → ι → List Ev)
    (next : σ → ι → σ)
    (h : ∀ s i, ok i → ∀ rest, step s (enc i ++ rest) = .again ((evs s i).map Ev.rec') (next s i) rest)
    (tail : Bytes) (ht : ∀ s, step s tail = .done []) (l : List ι) (hl : ∀ i ∈ l, ok i) (s : σ) (fuel : Nat) (hf : l.length < fuel) :
    Readers.loop step fuel s (l.flatMap enc ++ tail) = some (.ok ((Means evs next s l).map Ev.rec')) := by
  induction l generalizing s fuel with
  | nil =>
    cases fuel with
    | zero => simp at hf
    | succ fuel => simp [Readers.loop, ht, Means]
  | cons i l ih =>
    cases fuel with
    | zero => simp at hf
    | succ fuel =>
      have e : (i :: l).flatMap enc ++ tail = enc i ++ (l.flatMap enc ++ tail) := by simp [List.flatMap_cons, List.append_assoc]
      rw [e, Readers.loop, h s i (hl i (by simp))]
      simp only
      rw [ih (fun a ha => hl a (by simp [ha])) _ _ (by simpa using hf)]
      simp [Means, Except.map]

theorem finish_items {σ ι : Type} (step : σ → Bytes → Readers.Next σ Rec) (enc : ι → Bytes) (ok : ι → Prop) (evs : σ → ι → List Ev)
    (next : σ → ι → σ)
    (h : ∀ s i, ok i → ∀ rest, step s (enc i ++ rest) = .again ((evs s i).map Ev.rec') (next s i) rest)
    (tail : Bytes) (ht : ∀ s, step s tail = .done []) (l : List ι) (hl : ∀ i ∈ l, ok i) (s : σ) (fuel : Nat) (hf : l.length < fuel) :
    Readers.finish (Readers.loop step fuel s (l.flatMap enc ++ tail)) = some (.ok (drawn 0 0 (Means evs next s l))) := by
  rw [loop_items step enc ok evs next h tail ht l hl s fuel hf]
  simp only [Readers.finish, Option.map_some, Except.map, place_drawn]

theorem means_plain (l : List Ev) : Means (fun (_ : Unit) e => [e]) (fun s _ => s) () l = l := by
  induction l with
  | nil => rfl
  | cons e l ih => simp [Means, ih]

theorem means_flat {ι : Type} (evs : ι → List Ev) (l : List ι) : Means (fun (_ : Unit) e => evs e) (fun s _ => s) () l = l.flatMap evs := by
  induction l with
  | nil => rfl
  | cons e l ih => simp [Means, ih]

theorem flip_mag (v : Int) : Readers.flip (decide (v < 0)) (mag v) = v := by
  unfold Readers.flip mag
  by_cases h : v < 0 <;> simp [h]

theorem flip_mag' (v : Int) : Readers.flip (decide (0 < v)) (-mag v) = v := by
  unfold Readers.flip mag
  by_cases h : 0 < v
  · simp [h, show ¬ v < 0 by omega]
  · by_cases h2 : v < 0
    · simp [h, h2]
    · simp [h, h2]; omega

theorem s8 (v : Int) (h1 : -128 ≤ v) (h2 : v ≤ 127) : signed8 (twos v) = v := by
  unfold signed8 twos
  split_ifs <;> omega

/-- The two sign bits of a control byte. -/
theorem bits (c : Int) (k j : Nat) (dx dy : Int)
    (h : (Readers.bit c k = false ∧ Readers.bit (c + 2 ^ k) k = true ∧ Readers.bit (c + 2 ^ j) k = false ∧ Readers.bit (c + 2 ^ k + 2 ^ j) k = true) ∧
      (Readers.bit c j = false ∧ Readers.bit (c + 2 ^ k) j = false ∧ Readers.bit (c + 2 ^ j) j = true ∧ Readers.bit (c + 2 ^ k + 2 ^ j) j = true)) :
    Readers.bit (c + neg (2 ^ k) dx + pos (2 ^ j) dy) k = decide (dx < 0) ∧
    Readers.bit (c + neg (2 ^ k) dx + pos (2 ^ j) dy) j = decide (0 < dy) := by
  obtain ⟨⟨a1, a2, a3, a4⟩, b1, b2, b3, b4⟩ := h
  unfold neg pos
  constructor <;> split_ifs <;> simp_all

/-! ## DSB -/

/-- A record of DSB: control, `y`, `x`; bit 5 for negative `x`, bit 6 for positive `y`. -/
def dsb : Ev → Bytes
  | .stitch dx dy => [0x80 + neg 0x20 dx + pos 0x40 dy, mag dy, mag dx]
  | .jump dx dy => [0x81 + neg 0x20 dx + pos 0x40 dy, mag dy, mag dx]
  | .trim => [0xE7, 0, 0]
  | .stop => [0xE8, 0, 0]
  | .needle n => [0xE8 + n, 0, 0]
  | _ => []

def dsbHas : Ev → Prop
  | .stitch dx dy => Within 255 dx dy
  | .jump dx dy => Within 255 dx dy
  | .needle n => 1 ≤ n ∧ n ≤ 15
  | .trim | .stop => True
  | _ => False

/-- The end of the records: the end of the file, or the record `F8`. -/
def dsbEnd (tail : Bytes) : Prop := tail.length < 3 ∨ ∃ a b r, tail = 0xF8 :: a :: b :: r

theorem three_short {σ : Type} (g : σ → Int → Int → Int → List Rec × Option σ) (s : σ) (b : Bytes) (h : b.length < 3) :
    Readers.three g s b = .done [] := by
  match b, h with
  | [], _ => rfl
  | [_], _ => rfl
  | [_, _], _ => rfl
  | _ :: _ :: _ :: _, h => exact absurd h (by simp only [List.length_cons]; omega)

theorem signs_mod (c a b m : Int) (dx dy : Int) (ha : a % m = 0) (hb : b % m = 0) : (c + neg a dx + pos b dy) % m = c % m := by
  have h1 : neg a dx % m = 0 := by unfold neg; split_ifs <;> simp [ha]
  have h2 : pos b dy % m = 0 := by unfold pos; split_ifs <;> simp [hb]
  rw [Int.add_emod, h2, add_zero, Int.emod_emod_of_dvd _ (dvd_refl m), Int.add_emod, h1, add_zero, Int.emod_emod_of_dvd _ (dvd_refl m)]

/-- **C88**: DSB. -/
theorem C88_dsb (l : List Ev) (hl : ∀ e ∈ l, dsbHas e) (tail : Bytes) (ht : dsbEnd tail) (fuel : Nat) (hf : l.length < fuel) :
    Readers.readDsbBody fuel (l.flatMap dsb ++ tail) = some (.ok (drawn 0 0 l)) := by
  have r := finish_items (Readers.three Readers.dsbRecord) dsb dsbHas (fun _ e => [e]) (fun s _ => s) (by
    intro s e he rest
    cases e with
    | stitch dx dy =>
      have b := bits 0x80 5 6 dx dy (by decide)
      have m := signs_mod 0x80 0x20 0x40 32 dx dy (by decide) (by decide)
      simp only [dsb, List.cons_append, List.nil_append, Readers.three, Readers.dsbRecord]
      norm_num at b m ⊢
      simp only [b, m, if_true, flip_mag, flip_mag']
      rfl
    | jump dx dy =>
      have b := bits 0x81 5 6 dx dy (by decide)
      have m := signs_mod 0x81 0x20 0x40 32 dx dy (by decide) (by decide)
      simp only [dsb, List.cons_append, List.nil_append, Readers.three, Readers.dsbRecord]
      norm_num at b m ⊢
      simp only [b, m, if_true, flip_mag, flip_mag']
      norm_num
      rfl
    | needle n =>
      obtain ⟨h1, h2⟩ := he
      have e : (Readers.dsbRecord s (0xE8 + n) 0 0) = ([Readers.needleChange n], some ()) := by
        interval_cases n <;> rfl
      simp only [dsb, List.cons_append, List.nil_append, Readers.three, e, needle_rec n (by omega) (by omega)]
      rfl
    | trim => rfl
    | stop => rfl
    | _ => exact absurd he (by simp [dsbHas])) tail (by
    intro s
    rcases ht with h | ⟨a, b, r, rfl⟩
    · exact three_short _ _ _ h
    · rfl) l hl () fuel hf
  rw [means_plain] at r
  exact r

/-! ## DSZ, FXY and GT -/

/-- A record of DSZ: `y`, `x`, control; bit 6 for negative `x`, bit 5 for positive `y`. -/
def dsz : Ev → Bytes
  | .stitch dx dy => [mag dy, mag dx, 0x80 + neg 0x40 dx + pos 0x20 dy]
  | .jump dx dy => [mag dy, mag dx, 0x81 + neg 0x40 dx + pos 0x20 dy]
  | .trim => [0, 0, 0x9B]
  | .stop => [0, 0, 0x82]
  | .needle n => [0, 0, 0x83 + 2 * n]
  | _ => []

def dszHas : Ev → Prop
  | .stitch dx dy => Within 255 dx dy
  | .jump dx dy => Within 255 dx dy
  | .needle n => 0 ≤ n ∧ n ≤ 11
  | .trim | .stop => True
  | _ => False

/-- The end of the records: the end of the file, or a control byte above those of the commands. -/
def dszEnd (tail : Bytes) : Prop := tail.length < 3 ∨ ∃ a b r, tail = a :: b :: 0xF8 :: r

/-- **C88**: DSZ. -/
theorem C88_dsz (l : List Ev) (hl : ∀ e ∈ l, dszHas e) (tail : Bytes) (ht : dszEnd tail) (fuel : Nat) (hf : l.length < fuel) :
    Readers.readDszBody fuel (l.flatMap dsz ++ tail) = some (.ok (drawn 0 0 l)) := by
  have r := finish_items (Readers.three Readers.dszRecord) dsz dszHas (fun _ e => [e]) (fun s _ => s) (by
    intro s e he rest
    cases e with
    | stitch dx dy =>
      have b := bits 0x80 6 5 dx dy (by decide)
      have m := signs_mod 0x80 0x40 0x20 32 dx dy (by decide) (by decide)
      simp only [dsz, List.cons_append, List.nil_append, Readers.three, Readers.dszRecord]
      norm_num at b m ⊢
      simp only [b, m, if_true, flip_mag, flip_mag']
      rfl
    | jump dx dy =>
      have b := bits 0x81 6 5 dx dy (by decide)
      have m := signs_mod 0x81 0x40 0x20 32 dx dy (by decide) (by decide)
      simp only [dsz, List.cons_append, List.nil_append, Readers.three, Readers.dszRecord]
      norm_num at b m ⊢
      simp only [b, m, if_true, flip_mag, flip_mag']
      norm_num
      rfl
    | needle n =>
      obtain ⟨h1, h2⟩ := he
      have e : (Readers.dszRecord s 0 0 (0x83 + 2 * n)) = ([Readers.needleChange n], some ()) := by
        interval_cases n <;> rfl
      simp only [dsz, List.cons_append, List.nil_append, Readers.three, e, needle_rec n (by omega) (by omega)]
      rfl
    | trim => rfl
    | stop => rfl
    | _ => exact absurd he (by simp [dszHas])) tail (by
    intro s
    rcases ht with h | ⟨a, b, r, rfl⟩
    · exact three_short _ _ _ h
    · rfl) l hl () fuel hf
  rw [means_plain] at r
  exact r

/-- **C88**: FXY and GT are DSZ records after 256 and 512 bytes. -/
theorem C88_fxy (head : Bytes) (hh : head.length = 0x100) (l : List Ev) (hl : ∀ e ∈ l, dszHas e) (tail : Bytes) (ht : dszEnd tail) (fuel : Nat)
    (hf : l.length < fuel) : Readers.readFxy fuel (head ++ (l.flatMap dsz ++ tail)) = some (.ok (drawn 0 0 l)) := by
  unfold Readers.readFxy
  rw [List.drop_left' hh]
  exact C88_dsz l hl tail ht fuel hf

theorem C88_gt (head : Bytes) (hh : head.length = 0x200) (l : List Ev) (hl : ∀ e ∈ l, dszHas e) (tail : Bytes) (ht : dszEnd tail) (fuel : Nat)
    (hf : l.length < fuel) : Readers.readGt fuel (head ++ (l.flatMap dsz ++ tail)) = some (.ok (drawn 0 0 l)) := by
  unfold Readers.readGt
  rw [List.drop_left' hh]
  exact C88_dsz l hl tail ht fuel hf

/-! ## NEW -/

/-- A record of NEW: `x`, `y`, control. -/
def new : Ev → Bytes
  | .stitch dx dy => [mag dx, mag dy, 0x80 + neg 0x40 dx + pos 0x20 dy]
  | .jump dx dy => [mag dx, mag dy, 0x81 + neg 0x40 dx + pos 0x20 dy]
  | .colour => [0, 0, 0x82]
  | _ => []

def newHas : Ev → Prop
  | .stitch dx dy => Within 255 dx dy
  | .jump dx dy => Within 255 dx dy
  | .colour => True
  | _ => False

def newEnd (tail : Bytes) : Prop := tail.length < 3 ∨ ∃ a b r, tail = a :: b :: 0x91 :: r

/-- **C88**: NEW, after the two bytes of the stitch count. -/
theorem C88_new (b0 b1 : Int) (l : List Ev) (hl : ∀ e ∈ l, newHas e) (tail : Bytes) (ht : newEnd tail) (fuel : Nat) (hf : l.length < fuel) :
    Readers.readNew fuel (b0 :: b1 :: (l.flatMap new ++ tail)) = some (.ok (drawn 0 0 l)) := by
  have r := finish_items (Readers.three Readers.newRecord) new newHas (fun _ e => [e]) (fun s _ => s) (by
    intro s e he rest
    cases e with
    | stitch dx dy =>
      have b := bits 0x80 6 5 dx dy (by decide)
      have m := signs_mod 0x80 0x40 0x20 32 dx dy (by decide) (by decide)
      simp only [new, List.cons_append, List.nil_append, Readers.three, Readers.newRecord]
      norm_num at b m ⊢
      simp only [b, m, if_true, flip_mag, flip_mag']
      rfl
    | jump dx dy =>
      have b := bits 0x81 6 5 dx dy (by decide)
      have m := signs_mod 0x81 0x40 0x20 32 dx dy (by decide) (by decide)
      simp only [new, List.cons_append, List.nil_append, Readers.three, Readers.newRecord]
      norm_num at b m ⊢
      simp only [b, m, if_true, flip_mag, flip_mag']
      rfl
    | colour => rfl
    | _ => exact absurd he (by simp [newHas])) tail (by
    intro s
    rcases ht with h | ⟨a, b, r, rfl⟩
    · exact three_short _ _ _ h
    · rfl) l hl () fuel hf
  rw [means_plain] at r
  exact r

/-! ## INB -/

/-- A record of INB: `x`, `y`, control. -/
def inb : Ev → Bytes
  | .stitch dx dy => [mag dx, mag dy, 0x80 + neg 0x40 dx + pos 0x20 dy]
  | .jump dx dy => [mag dx, mag dy, 0x82 + neg 0x40 dx + pos 0x20 dy]
  | .colourAt dx dy => [mag dx, mag dy, 0x81 + neg 0x40 dx + pos 0x20 dy]
  | _ => []

def inbHas : Ev → Prop
  | .stitch dx dy => Within 255 dx dy
  | .jump dx dy => Within 255 dx dy
  | .colourAt dx dy => Within 255 dx dy
  | _ => False

def inbEnd (tail : Bytes) : Prop := tail.length < 3 ∨ ∃ a b r, tail = a :: b :: 0x04 :: r

/-- **C88**: INB, after 8192 bytes. -/
theorem C88_inb (head : Bytes) (hh : head.length = 0x2000) (l : List Ev) (hl : ∀ e ∈ l, inbHas e) (tail : Bytes) (ht : inbEnd tail) (fuel : Nat)
    (hf : l.length < fuel) : Readers.readInb fuel (head ++ (l.flatMap inb ++ tail)) = some (.ok (drawn 0 0 l)) := by
  have r := finish_items (Readers.three Readers.inbRecord) inb inbHas (fun _ e => [e]) (fun s _ => s) (by
    intro s e he rest
    cases e with
    | stitch dx dy =>
      have b := bits 0x80 6 5 dx dy (by decide)
      have m := signs_mod 0x80 0x40 0x20 16 dx dy (by decide) (by decide)
      simp only [inb, List.cons_append, List.nil_append, Readers.three, Readers.inbRecord]
      norm_num at b m ⊢
      simp only [b, m, if_true, flip_mag, flip_mag']
      rfl
    | jump dx dy =>
      have b := bits 0x82 6 5 dx dy (by decide)
      have m := signs_mod 0x82 0x40 0x20 16 dx dy (by decide) (by decide)
      simp only [inb, List.cons_append, List.nil_append, Readers.three, Readers.inbRecord]
      norm_num at b m ⊢
      simp only [b, m, if_true, flip_mag, flip_mag']
      rfl
    | colourAt dx dy =>
      have b := bits 0x81 6 5 dx dy (by decide)
      have m := signs_mod 0x81 0x40 0x20 16 dx dy (by decide) (by decide)
      simp only [inb, List.cons_append, List.nil_append, Readers.three, Readers.inbRecord]
      norm_num at b m ⊢
      simp only [b, m, if_true, flip_mag, flip_mag']
      rfl
    | _ => exact absurd he (by simp [inbHas])) tail (by
    intro s
    rcases ht with h | ⟨a, b, r, rfl⟩
    · exact three_short _ _ _ h
    · rfl) l hl () fuel hf
  rw [means_plain] at r
  unfold Readers.readInb
  rw [List.drop_left' hh]
  exact r

/-! ## 10O -/

/-- A record of 10O: control, `y`, `x`. -/
def ten : Ev → Bytes
  | .stitch dx dy => [0x80 + neg 0x20 dx + pos 0x40 dy, mag dy, mag dx]
  | .jump dx dy => [0x90 + neg 0x20 dx + pos 0x40 dy, mag dy, mag dx]
  | .colour => [0x85, 0, 0]
  | .stop => [0x82, 0, 0]
  | .trim => [0x81, 0, 0]
  | _ => []

def tenHas : Ev → Prop
  | .stitch dx dy => Within 255 dx dy
  | .jump dx dy => Within 255 dx dy
  | .colour | .stop | .trim => True
  | _ => False

def tenEnd (tail : Bytes) : Prop := tail.length < 3 ∨ ∃ a b r, tail = 0x87 :: a :: b :: r

/-- **C88**: 10O; the record `8A` at the beginning is passed over. -/
theorem C88_10o (a0 a1 : Int) (l : List Ev) (hl : ∀ e ∈ l, tenHas e) (tail : Bytes) (ht : tenEnd tail) (fuel : Nat) (hf : l.length + 1 < fuel) :
    Readers.read10o fuel ([0x8A, a0, a1] ++ (l.flatMap ten ++ tail)) = some (.ok (drawn 0 0 l)) := by
  have r := fun fuel hf => finish_items (Readers.three Readers.tenRecord) ten tenHas (fun _ e => [e]) (fun s _ => s) (by
    intro s e he rest
    cases e with
    | stitch dx dy =>
      have b := bits 0x80 5 6 dx dy (by decide)
      have m := signs_mod 0x80 0x20 0x40 32 dx dy (by decide) (by decide)
      simp only [ten, List.cons_append, List.nil_append, Readers.three, Readers.tenRecord]
      norm_num at b m ⊢
      simp only [b, m, if_true, flip_mag, flip_mag']
      rfl
    | jump dx dy =>
      have b := bits 0x90 5 6 dx dy (by decide)
      have m := signs_mod 0x90 0x20 0x40 32 dx dy (by decide) (by decide)
      simp only [ten, List.cons_append, List.nil_append, Readers.three, Readers.tenRecord]
      norm_num at b m ⊢
      simp only [b, m, if_true, flip_mag, flip_mag']
      rfl
    | colour => rfl
    | stop => rfl
    | trim => rfl
    | _ => exact absurd he (by simp [tenHas])) tail (by
    intro s
    rcases ht with h | ⟨a, b, r, rfl⟩
    · exact three_short _ _ _ h
    · rfl) l hl () fuel hf
  cases fuel with
  | zero => simp at hf
  | succ fuel =>
    have r := r fuel (by omega)
    rw [means_plain] at r
    rw [← r]
    unfold Readers.read10o
    simp only [List.cons_append, List.nil_append]
    rw [Readers.loop]
    have e : Readers.three Readers.tenRecord () (0x8A :: a0 :: a1 :: (l.flatMap ten ++ tail)) = .again [] () (l.flatMap ten ++ tail) := rfl
    rw [e]
    simp only [Readers.finish, Option.map_map]
    congr 1
    funext x
    cases x <;> rfl

/-! ## STC -/

/-- A record of STC: `x`, `y` upwards, control. -/
def stc : Ev → Bytes
  | .stitch dx dy => [twos dx, twos (-dy), 1]
  | .jump dx dy => [twos dx, twos (-dy), 0]
  | .needle n => [0, 0, n + 2]
  | _ => []

def stcHas : Ev → Prop
  | .stitch dx dy => Within 127 dx dy
  | .jump dx dy => Within 127 dx dy
  | .needle n => 0 ≤ n ∧ n ≤ 253 ∧ n ≠ 23
  | _ => False

def stcEnd (tail : Bytes) : Prop := tail.length < 3 ∨ ∃ a b r, tail = a :: b :: 25 :: r

/-- **C88**: STC, after 40 bytes. The control byte of needle 23 is that of the end. -/
theorem C88_stc (head : Bytes) (hh : head.length = 0x28) (l : List Ev) (hl : ∀ e ∈ l, stcHas e) (tail : Bytes) (ht : stcEnd tail) (fuel : Nat)
    (hf : l.length < fuel) : Readers.readStc fuel (head ++ (l.flatMap stc ++ tail)) = some (.ok (drawn 0 0 l)) := by
  have r := finish_items (Readers.three Readers.stcRecord) stc stcHas (fun _ e => [e]) (fun s _ => s) (by
    intro s e he rest
    cases e with
    | stitch dx dy =>
      obtain ⟨h1, h2, h3, h4⟩ := he
      simp only [stc, List.cons_append, List.nil_append, Readers.three, Readers.stcRecord, s8 dx (by omega) (by omega), s8 (-dy) (by omega) (by omega),
        neg_neg]
      rfl
    | jump dx dy =>
      obtain ⟨h1, h2, h3, h4⟩ := he
      simp only [stc, List.cons_append, List.nil_append, Readers.three, Readers.stcRecord, s8 dx (by omega) (by omega), s8 (-dy) (by omega) (by omega),
        neg_neg]
      rfl
    | needle n =>
      obtain ⟨h1, h2, h3⟩ := he
      have n1 : ¬ n + 2 = 1 := by omega
      have n2 : ¬ n + 2 = 0 := by omega
      have n3 : ¬ n + 2 = 25 := by omega
      simp only [stc, List.cons_append, List.nil_append, Readers.three, Readers.stcRecord, n1, n2, n3, if_false,
        show n + 2 - 2 = n by omega, needle_rec n (by omega) (by omega)]
      rfl
    | _ => exact absurd he (by simp [stcHas])) tail (by
    intro s
    rcases ht with h | ⟨a, b, r, rfl⟩
    · exact three_short _ _ _ h
    · rfl) l hl () fuel hf
  rw [means_plain] at r
  unfold Readers.readStc
  rw [List.drop_left' hh]
  exact r

/-! ## ZXY -/

/-- A record of ZXY: control, `x`, `y`; bit 3 for negative `x`, bit 2 for positive `y`. -/
def zxy : Ev → Bytes
  | .stitch dx dy => [0 + neg 8 dx + pos 4 dy, mag dx, mag dy]
  | .jump dx dy => [2 + neg 8 dx + pos 4 dy, mag dx, mag dy]
  | .needle n => [0x20, 0, n]
  | _ => []

def zxyHas : Ev → Prop
  | .stitch dx dy => Within 255 dx dy
  | .jump dx dy => Within 255 dx dy
  | .needle n => 0 ≤ n ∧ n ≤ 254
  | _ => False

def zxyEnd (tail : Bytes) : Prop := tail.length < 3 ∨ ∃ a r, tail = 0x20 :: 0xFF :: a :: r

/-- **C88**: ZXY; the second and third byte tell how many bytes come before the records. -/
theorem C88_zxy (b0 : Int) (head : Bytes) (hh : head.length < 65536) (l : List Ev) (hl : ∀ e ∈ l, zxyHas e) (tail : Bytes) (ht : zxyEnd tail)
    (fuel : Nat) (hf : l.length < fuel) :
    Readers.readZxy fuel ([b0, (head.length / 256 : Nat), (head.length % 256 : Nat)] ++ (head ++ (l.flatMap zxy ++ tail))) =
      some (.ok (drawn 0 0 l)) := by
  have r := finish_items (Readers.three Readers.zxyRecord) zxy zxyHas (fun _ e => [e]) (fun s _ => s) (by
    intro s e he rest
    cases e with
    | stitch dx dy =>
      have b : Readers.bit (0 + neg 8 dx + pos 4 dy) 3 = decide (dx < 0) ∧ Readers.bit (0 + neg 8 dx + pos 4 dy) 2 = decide (0 < dy) :=
        bits 0 3 2 dx dy (by decide)
      have m : (0 + neg 8 dx + pos 4 dy) - (0 + neg 8 dx + pos 4 dy) / 4 % 4 * 4 = 0 := by
        unfold neg pos; split_ifs <;> rfl
      simp only [zxy, List.cons_append, List.nil_append, Readers.three, Readers.zxyRecord]
      simp only [m, b.1, b.2, if_true, flip_mag, flip_mag']
      rfl
    | jump dx dy =>
      have b : Readers.bit (2 + neg 8 dx + pos 4 dy) 3 = decide (dx < 0) ∧ Readers.bit (2 + neg 8 dx + pos 4 dy) 2 = decide (0 < dy) :=
        bits 2 3 2 dx dy (by decide)
      have m : (2 + neg 8 dx + pos 4 dy) - (2 + neg 8 dx + pos 4 dy) / 4 % 4 * 4 = 2 := by
        unfold neg pos; split_ifs <;> rfl
      simp only [zxy, List.cons_append, List.nil_append, Readers.three, Readers.zxyRecord]
      simp only [m, b.1, b.2, flip_mag, flip_mag']
      rfl
    | needle n =>
      obtain ⟨h1, h2⟩ := he
      have e : Readers.zxyRecord s 0x20 0 n = ([Readers.needleChange n], some ()) := rfl
      simp only [zxy, List.cons_append, List.nil_append, Readers.three, e, needle_rec n h1 (by omega)]
      rfl
    | _ => exact absurd he (by simp [zxyHas])) tail (by
    intro s
    rcases ht with h | ⟨a, r, rfl⟩
    · exact three_short _ _ _ h
    · rfl) l hl () fuel hf
  rw [means_plain] at r
  have e : readInt16be (([b0, ((head.length / 256 : Nat) : Int), ((head.length % 256 : Nat) : Int)] ++ (head ++ (l.flatMap zxy ++ tail))).drop 1) =
      (some (head.length : Int), head ++ (l.flatMap zxy ++ tail)) := by
    simp only [List.cons_append, List.nil_append, List.drop_succ_cons, List.drop_zero, readInt16be, readN, List.take_succ_cons, List.take_zero, lo8,
      Prod.mk.injEq, Option.some.injEq, and_true]
    omega
  unfold Readers.readZxy
  rw [e]
  simp only [Int.toNat_natCast, List.drop_left]
  exact r

/-! ## Sunstar DAT -/

/-- A record of Sunstar DAT: `x` and `y` with the sign in the highest bit, control. A trim or colour change may have a
displacement. Control 0x84 is another stitch. -/
inductive Sunstar where
  | stitch (dx dy : Int)
  | first (dx dy : Int)
  | jump (dx dy : Int)
  | trim (dx dy : Int)
  | colour (dx dy : Int)

def Sunstar.bytes : Sunstar → Bytes
  | .stitch dx dy => [mag dx + neg 0x80 dx, mag dy + pos 0x80 dy, 0x07]
  | .first dx dy => [mag dx + neg 0x80 dx, mag dy + pos 0x80 dy, 0x84]
  | .jump dx dy => [mag dx + neg 0x80 dx, mag dy + pos 0x80 dy, 0x04]
  | .trim dx dy => [mag dx + neg 0x80 dx, mag dy + pos 0x80 dy, 0x80]
  | .colour dx dy => [mag dx + neg 0x80 dx, mag dy + pos 0x80 dy, 0x87]

def Sunstar.Fits : Sunstar → Prop
  | .stitch dx dy | .first dx dy | .jump dx dy | .trim dx dy | .colour dx dy => Within 127 dx dy

/-- A jump, unless it is none. -/
def moved (dx dy : Int) : List Ev := if dx = 0 ∧ dy = 0 then [] else [.jump dx dy]

def Sunstar.evs : Sunstar → List Ev
  | .stitch dx dy | .first dx dy => [.stitch dx dy]
  | .jump dx dy => [.jump dx dy]
  | .trim dx dy => .trim :: moved dx dy
  | .colour dx dy => .colour :: moved dx dy

/-- Where the stitches end: at the end of the file or any other control. -/
def sunstarEnd (tail : Bytes) : Prop :=
  tail.length < 3 ∨ ∃ a b c r, tail = a :: b :: c :: r ∧ c ∉ [(0x07 : Int), 0x04, 0x80, 0x87, 0x84]

theorem moved_rec (dx dy : Int) :
    (if dx ≠ 0 ∨ dy ≠ 0 then [Readers.move dx dy] else ([] : List Rec)) = (moved dx dy).map Ev.rec' := by
  unfold moved
  by_cases h : dx = 0 ∧ dy = 0
  · rw [if_pos h, if_neg (by omega)]
    rfl
  · rw [if_neg h, if_pos (by omega)]
    rfl

theorem sun_x (v : Int) (h1 : -127 ≤ v) (h2 : v ≤ 127) :
    Readers.flip (Readers.bit (mag v + neg 0x80 v) 7) ((mag v + neg 0x80 v) % 128) = v := by
  unfold mag neg Readers.flip Readers.bit
  by_cases h : v < 0
  · simp only [h, if_true]
    rw [show (-v + 128) / 2 ^ 7 % 2 = 1 by omega, show (-v + 128) % 128 = -v by omega]
    simp
  · simp only [h, if_false, add_zero]
    rw [show v / 2 ^ 7 % 2 = 0 by omega, show v % 128 = v by omega]
    simp

theorem sun_y (v : Int) (h1 : -127 ≤ v) (h2 : v ≤ 127) :
    -Readers.flip (Readers.bit (mag v + pos 0x80 v) 7) ((mag v + pos 0x80 v) % 128) = v := by
  unfold mag pos Readers.flip Readers.bit
  by_cases h : 0 < v
  · simp only [h, if_true, show ¬ v < 0 by omega, if_false]
    rw [show (v + 128) / 2 ^ 7 % 2 = 1 by omega, show (v + 128) % 128 = v by omega]
    simp
  · by_cases h' : v < 0
    · simp only [h, h', if_true, if_false, add_zero]
      rw [show -v / 2 ^ 7 % 2 = 0 by omega, show -v % 128 = -v by omega]
      simp
    · simp only [h, h', if_false, add_zero]
      rw [show v / 2 ^ 7 % 2 = 0 by omega, show v % 128 = v by omega]
      simp; omega

theorem sunstar_step (s : Unit) (i : Sunstar) (hi : i.Fits) (rest : Bytes) :
    Readers.three Readers.sunstarRecord s (i.bytes ++ rest) = .again (i.evs.map Ev.rec') s rest := by
  cases i <;> obtain ⟨h1, h2, h3, h4⟩ := hi <;>
    simp only [Sunstar.bytes, List.cons_append, List.nil_append, Readers.three, Readers.sunstarRecord, sun_x _ h1 h2, sun_y _ h3 h4, moved_rec] <;> rfl

/-- **C88**: Sunstar DAT, after 256 bytes. -/
theorem C88_sunstar (head : Bytes) (hh : head.length = 0x100) (l : List Sunstar) (hl : ∀ i ∈ l, i.Fits) (tail : Bytes) (ht : sunstarEnd tail)
    (fuel : Nat) (hf : l.length < fuel) :
    Readers.readSunstar fuel (head ++ (l.flatMap Sunstar.bytes ++ tail)) = some (.ok (drawn 0 0 (l.flatMap Sunstar.evs))) := by
  have r := finish_items (Readers.three Readers.sunstarRecord) Sunstar.bytes Sunstar.Fits (fun _ i => i.evs) (fun s _ => s) sunstar_step tail (by
    intro s
    rcases ht with h | ⟨a, b, c, r, rfl, hc⟩
    · exact three_short _ _ _ h
    · simp only [List.mem_cons, List.not_mem_nil, or_false, not_or] at hc
      unfold Readers.three Readers.sunstarRecord
      simp only [hc.1, hc.2.1, hc.2.2.1, hc.2.2.2.1, hc.2.2.2.2, if_false]) l hl () fuel hf
  rw [means_flat] at r
  unfold Readers.readSunstar
  rw [List.drop_left' hh]
  exact r

/-! ## Barudan DAT -/

/-- A record of Barudan DAT: control, `y`, `x`; bit 5 for negative `x`, bit 6 for positive `y`, bit 7 always. -/
inductive Barudan where
  | stitch (dx dy : Int)
  | jump (dx dy : Int)
  | fastStitch (dx dy : Int)
  | fastJump (dx dy : Int)
  | slowStitch (dx dy : Int)
  | slowJump (dx dy : Int)
  | trim (dx dy : Int)
  | bobbin (dx dy : Int)
  | stop (dx dy : Int)

def Barudan.code : Barudan → Int × Int × Int
  | .stitch dx dy => (0, dx, dy)
  | .jump dx dy => (1, dx, dy)
  | .fastStitch dx dy => (2, dx, dy)
  | .fastJump dx dy => (3, dx, dy)
  | .slowStitch dx dy => (4, dx, dy)
  | .slowJump dx dy => (5, dx, dy)
  | .trim dx dy => (6, dx, dy)
  | .bobbin dx dy => (7, dx, dy)
  | .stop dx dy => (8, dx, dy)

def Barudan.bytes (i : Barudan) : Bytes :=
  [0x80 + i.code.1 + neg 0x20 i.code.2.1 + pos 0x40 i.code.2.2, mag i.code.2.2, mag i.code.2.1]

def Barudan.Fits (i : Barudan) : Prop := Within 255 i.code.2.1 i.code.2.2

/-- A stitch, unless it is none. -/
def sewn (dx dy : Int) : List Ev := if dx = 0 ∧ dy = 0 then [] else [.stitch dx dy]

def Barudan.evs : Barudan → List Ev
  | .stitch dx dy => [.stitch dx dy]
  | .jump dx dy => [.jump dx dy]
  | .fastStitch dx dy => .fast :: sewn dx dy
  | .fastJump dx dy => .fast :: moved dx dy
  | .slowStitch dx dy => .slow :: sewn dx dy
  | .slowJump dx dy => .slow :: moved dx dy
  | .trim dx dy => .trim :: moved dx dy
  | .bobbin dx dy => .trim :: moved dx dy
  | .stop dx dy => .stop :: moved dx dy

def barudanEnd (tail : Bytes) : Prop := tail.length < 3 ∨ ∃ a b r, tail = 0xF8 :: a :: b :: r

theorem moved_some (dx dy : Int) :
    (if dx ≠ 0 ∨ dy ≠ 0 then [some (Readers.move dx dy)] else ([] : List (Option Rec))) = ((moved dx dy).map Ev.rec').map some := by
  rw [← moved_rec]
  split_ifs <;> rfl

theorem sewn_some (dx dy : Int) :
    (if dx ≠ 0 ∨ dy ≠ 0 then [some (Readers.stitch dx dy)] else ([] : List (Option Rec))) = ((sewn dx dy).map Ev.rec').map some := by
  unfold sewn
  by_cases h : dx = 0 ∧ dy = 0
  · rw [if_pos h, if_neg (by omega)]
    rfl
  · rw [if_neg h, if_pos (by omega)]
    rfl

theorem barudan_step (s : Unit) (i : Barudan) (rest : Bytes) :
    Readers.barudanStep s (i.bytes ++ rest) = .again ((i.evs.map Ev.rec').map some) s rest := by
  have hb : ∀ c dx dy : Int, (c = 0 ∨ c = 1 ∨ c = 2 ∨ c = 3 ∨ c = 4 ∨ c = 5 ∨ c = 6 ∨ c = 7 ∨ c = 8) →
      Readers.bit (0x80 + c + neg 0x20 dx + pos 0x40 dy) 7 = true ∧
      Readers.bit (0x80 + c + neg 0x20 dx + pos 0x40 dy) 5 = decide (dx < 0) ∧
      Readers.bit (0x80 + c + neg 0x20 dx + pos 0x40 dy) 6 = decide (0 < dy) ∧
      (0x80 + c + neg 0x20 dx + pos 0x40 dy) % 32 = c := by
    intro c dx dy h
    unfold neg pos
    by_cases h1 : dx < 0 <;> by_cases h2 : 0 < dy <;> simp only [h1, h2, if_true, if_false, decide_true, decide_false] <;>
      rcases h with rfl | rfl | rfl | rfl | rfl | rfl | rfl | rfl | rfl <;> decide
  have hc : i.code.1 = 0 ∨ i.code.1 = 1 ∨ i.code.1 = 2 ∨ i.code.1 = 3 ∨ i.code.1 = 4 ∨ i.code.1 = 5 ∨ i.code.1 = 6 ∨ i.code.1 = 7 ∨ i.code.1 = 8 := by
    cases i <;> simp [Barudan.code]
  obtain ⟨b7, b5, b6, m⟩ := hb i.code.1 i.code.2.1 i.code.2.2 hc
  simp only [Barudan.bytes, List.cons_append, List.nil_append, Readers.barudanStep, b7, b5, b6, m, flip_mag, flip_mag', moved_some, sewn_some]
  cases i <;> rfl

theorem loop_barudan (l : List Barudan) (tail : Bytes) (ht : barudanEnd tail) (fuel : Nat) (hf : l.length < fuel) :
    Readers.loop Readers.barudanStep fuel () (l.flatMap Barudan.bytes ++ tail) = some (.ok (((l.flatMap Barudan.evs).map Ev.rec').map some)) := by
  induction l generalizing fuel with
  | nil =>
    cases fuel with
    | zero => simp at hf
    | succ fuel =>
      have e : Readers.barudanStep () tail = .done [] := by
        rcases ht with h | ⟨a, b, r, rfl⟩
        · match tail, h with
          | [], _ => rfl
          | [_], _ => rfl
          | [_, _], _ => rfl
          | _ :: _ :: _ :: _, h => exact absurd h (by simp only [List.length_cons]; omega)
        · rfl
      simp [Readers.loop, e]
  | cons i l ih =>
    cases fuel with
    | zero => simp at hf
    | succ fuel =>
      have e : (i :: l).flatMap Barudan.bytes ++ tail = i.bytes ++ (l.flatMap Barudan.bytes ++ tail) := by simp [List.flatMap_cons, List.append_assoc]
      rw [e, Readers.loop, barudan_step]
      simp only
      rw [ih _ (by simpa using hf)]
      simp [Except.map]

/-- **C88**: Barudan DAT. -/
theorem C88_barudan (l : List Barudan) (_hl : ∀ i ∈ l, i.Fits) (tail : Bytes) (ht : barudanEnd tail) (fuel : Nat) (hf : l.length < fuel) :
    Readers.readDat fuel (l.flatMap Barudan.bytes ++ tail) = some (.ok (drawn 0 0 (l.flatMap Barudan.evs))) := by
  unfold Readers.readDat
  rw [loop_barudan l tail ht fuel hf]
  simp only
  rw [if_neg (by simp)]
  have e : ∀ L : List Rec, (L.map some).filterMap id = L := by
    intro L
    induction L <;> simp_all
  simp only [Readers.finish, Option.map_some, Except.map, e, place_drawn]

/-- **C88**: a DAT file whose first byte has its highest bit clear is read as Sunstar. -/
theorem C88_dat (b0 : Int) (h0 : 0 ≤ b0) (h1 : b0 < 128) (head : Bytes) (hh : head.length = 0xFF) (l : List Sunstar) (hl : ∀ i ∈ l, i.Fits)
    (tail : Bytes) (ht : sunstarEnd tail) (fuel : Nat) (hf : l.length < fuel) :
    Readers.readDat fuel (b0 :: head ++ (l.flatMap Sunstar.bytes ++ tail)) = some (.ok (drawn 0 0 (l.flatMap Sunstar.evs))) := by
  have r := C88_sunstar (b0 :: head) (by simp [hh]) l hl tail ht fuel hf
  have e : Readers.loop Readers.barudanStep fuel () (b0 :: head ++ (l.flatMap Sunstar.bytes ++ tail)) = some (.ok [none]) := by
    cases fuel with
    | zero => simp at hf
    | succ fuel =>
      match head, hh with
      | c1 :: c2 :: head, _ =>
        have hb : Readers.bit b0 7 = false := by
          unfold Readers.bit
          rw [show b0 / 2 ^ 7 % 2 = 0 by omega]
          rfl
        have : Readers.barudanStep () (b0 :: c1 :: c2 :: head ++ (l.flatMap Sunstar.bytes ++ tail)) = .done [none] := by
          simp only [List.cons_append, Readers.barudanStep, hb, if_true]
        rw [Readers.loop, this]
  unfold Readers.readDat
  rw [e]
  rw [← r]
  unfold Readers.readSunstar
  simp only [List.mem_singleton, if_true]
  cases Readers.loop (Readers.three Readers.sunstarRecord) fuel () ((b0 :: head ++ (l.flatMap Sunstar.bytes ++ tail)).drop 0x100) with
  | none => rfl
  | some e => cases e <;> rfl

/-- A Barudan needle change raises an `AttributeError`: the pattern has no `needle_out`. -/
theorem C88_barudan_needle_fails (n : Int) (h1 : 1 ≤ n) (h2 : n ≤ 15) (b1 b2 : Int) (rest : Bytes) :
    Readers.barudanStep () ((0x88 + n) :: b1 :: b2 :: rest) = .raise .attributeError := by
  interval_cases n <;> rfl

end Records
end Emb
