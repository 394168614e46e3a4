import Verif.Props.RecordProps

/-!
# C88: records of two or four bytes, records with a state, absolute coordinates
-/

namespace Emb
namespace Records

/-! ## EMD -/

/-- A record of EMD: `x`, `y` upwards, in two's complement; `80` introduces the others. -/
def emd : Ev → Bytes
  | .stitch dx dy => [twos dx, twos (-dy)]
  | .jump dx dy => [0x80, 0x80, twos dx, twos (-dy)]
  | .colour => [0x80, 0x2A]
  | .trim => [0x80, 0xAD]
  | _ => []

def emdHas : Ev → Prop
  | .stitch dx dy => Within 127 dx dy
  | .jump dx dy => Within 127 dx dy
  | .colour | .trim => True
  | _ => False

/-- The end: fewer than two bytes left, or `80 FD`. -/
def emdEnd (tail : Bytes) : Prop := tail.length < 2 ∨ ∃ r, tail = 0x80 :: 0xFD :: r

theorem twos_ne (v : Int) (h1 : -127 ≤ v) (h2 : v ≤ 127) : twos v ≠ 0x80 := by
  unfold twos
  split_ifs <;> omega

/-- **C88**: EMD, after 48 bytes. -/
theorem C88_emd (head : Bytes) (hh : head.length = 0x30) (l : List Ev) (hl : ∀ e ∈ l, emdHas e) (tail : Bytes) (ht : emdEnd tail) (fuel : Nat)
    (hf : l.length < fuel) : Readers.readEmd fuel (head ++ (l.flatMap emd ++ tail)) = some (.ok (drawn 0 0 l)) := by
  have r := finish_items Readers.emdStep emd emdHas (fun _ e => [e]) (fun s _ => s) (by
    intro s e he rest
    cases e with
    | stitch dx dy =>
      obtain ⟨h1, h2, h3, h4⟩ := he
      simp only [emd, List.cons_append, List.nil_append, Readers.emdStep, ne_eq, twos_ne dx h1 h2, not_false_eq_true, if_true,
        s8 dx (by omega) (by omega), s8 (-dy) (by omega) (by omega), neg_neg]
      rfl
    | jump dx dy =>
      obtain ⟨h1, h2, h3, h4⟩ := he
      simp only [emd, List.cons_append, List.nil_append, Readers.emdStep, ne_eq, not_true_eq_false, if_true, if_false,
        s8 dx (by omega) (by omega), s8 (-dy) (by omega) (by omega), neg_neg]
      rfl
    | colour => rfl
    | trim => rfl
    | _ => exact absurd he (by simp [emdHas])) tail (by
    intro s
    rcases ht with h | ⟨r, rfl⟩
    · match tail, h with
      | [], _ => rfl
      | [_], _ => rfl
      | _ :: _ :: _, h => exact absurd h (by simp only [List.length_cons]; omega)
    · rfl) l hl () fuel hf
  rw [means_plain] at r
  unfold Readers.readEmd
  rw [List.drop_left' hh]
  exact r

/-! ## 100 -/

/-- A record of 100: control, an unused byte, `x` and `y` with the sign in the highest bit. -/
def hundred : Ev → Bytes
  | .stitch dx dy => [0x61, 0, mag dx + neg 0x80 dx, mag dy + pos 0x80 dy]
  | .jump dx dy => [0x01, 0, mag dx + neg 0x80 dx, mag dy + pos 0x80 dy]
  | .colour => [0, 0, 0, 0]
  | _ => []

def hundredHas : Ev → Prop
  | .stitch dx dy => Within 127 dx dy
  | .jump dx dy => Within 127 dx dy
  | .colour => True
  | _ => False

/-- **C88**: 100. -/
theorem C88_100 (l : List Ev) (hl : ∀ e ∈ l, hundredHas e) (tail : Bytes) (ht : tail.length < 4) (fuel : Nat) (hf : l.length < fuel) :
    Readers.read100 fuel (l.flatMap hundred ++ tail) = some (.ok (drawn 0 0 l)) := by
  have hx : ∀ v : Int, -127 ≤ v → v ≤ 127 →
      (if mag v + neg 0x80 v > 0x80 then -(mag v + neg 0x80 v - 0x80) else mag v + neg 0x80 v) = v := by
    intro v h1 h2
    unfold mag neg
    split_ifs <;> omega
  have hy : ∀ v : Int, -127 ≤ v → v ≤ 127 →
      -(if mag v + pos 0x80 v > 0x80 then -(mag v + pos 0x80 v - 0x80) else mag v + pos 0x80 v) = v := by
    intro v h1 h2
    unfold mag pos
    split_ifs <;> omega
  have r := finish_items Readers.hundredStep hundred hundredHas (fun _ e => [e]) (fun s _ => s) (by
    intro s e he rest
    cases e with
    | stitch dx dy =>
      obtain ⟨h1, h2, h3, h4⟩ := he
      simp only [hundred, List.cons_append, List.nil_append, Readers.hundredStep, hx dx h1 h2, hy dy h3 h4]
      rfl
    | jump dx dy =>
      obtain ⟨h1, h2, h3, h4⟩ := he
      simp only [hundred, List.cons_append, List.nil_append, Readers.hundredStep, hx dx h1 h2, hy dy h3 h4]
      rfl
    | colour => rfl
    | _ => exact absurd he (by simp [hundredHas])) tail (by
    intro s
    match tail, ht with
    | [], _ => rfl
    | [_], _ => rfl
    | [_, _], _ => rfl
    | [_, _, _], _ => rfl
    | _ :: _ :: _ :: _ :: _, h => exact absurd h (by simp only [List.length_cons]; omega)) l hl () fuel hf
  rw [means_plain] at r
  exact r

/-! ## JPX -/

/-- A record of JPX. A colour change has a displacement, which is carried out after it. -/
inductive Jpx where
  | stitch (dx dy : Int)
  | jump (dx dy : Int)
  | colour (dx dy : Int)

def Jpx.bytes : Jpx → Bytes
  | .stitch dx dy => [twos dx, twos (-dy)]
  | .jump dx dy => [0x80, 2, twos dx, twos (-dy)]
  | .colour dx dy => [0x80, 1, twos dx, twos (-dy)]

/-- A colour change with a displacement along one axis only is not included (see `C88_jpx_axis_fails`). -/
def Jpx.Fits : Jpx → Prop
  | .stitch dx dy | .jump dx dy => Within 127 dx dy
  | .colour dx dy => Within 127 dx dy ∧ (dx = 0 ↔ dy = 0)

def Jpx.evs : Jpx → List Ev
  | .stitch dx dy => [.stitch dx dy]
  | .jump dx dy => [.jump dx dy]
  | .colour dx dy => .colour :: moved dx dy

/-- The end: fewer than two bytes left, or `80 10` and two more. -/
def jpxEnd (tail : Bytes) : Prop := tail.length < 2 ∨ ∃ a b r, tail = 0x80 :: 0x10 :: a :: b :: r

/-- **C88**: the stitches of JPX. -/
theorem C88_jpx_partial (l : List Jpx) (hl : ∀ i ∈ l, i.Fits) (tail : Bytes) (ht : jpxEnd tail) (fuel : Nat) (hf : l.length < fuel) :
    Readers.readJpxBody fuel (l.flatMap Jpx.bytes ++ tail) = some (.ok (drawn 0 0 (l.flatMap Jpx.evs))) := by
  have r := finish_items Readers.jpxStep Jpx.bytes Jpx.Fits (fun _ i => i.evs) (fun s _ => s) (by
    intro s e he rest
    cases e with
    | stitch dx dy =>
      obtain ⟨h1, h2, h3, h4⟩ := he
      simp only [Jpx.bytes, List.cons_append, List.nil_append, Readers.jpxStep, ne_eq, twos_ne dx h1 h2, not_false_eq_true, if_true,
        s8 dx (by omega) (by omega), s8 (-dy) (by omega) (by omega), neg_neg]
      rfl
    | jump dx dy =>
      obtain ⟨h1, h2, h3, h4⟩ := he
      simp only [Jpx.bytes, List.cons_append, List.nil_append, Readers.jpxStep, ne_eq, not_true_eq_false, if_false,
        s8 dx (by omega) (by omega), s8 (-dy) (by omega) (by omega), neg_neg]
      rfl
    | colour dx dy =>
      obtain ⟨⟨h1, h2, h3, h4⟩, h5⟩ := he
      simp only [Jpx.bytes, List.cons_append, List.nil_append, Readers.jpxStep, ne_eq, not_true_eq_false, if_false,
        s8 dx (by omega) (by omega), s8 (-dy) (by omega) (by omega), neg_neg, Jpx.evs, moved]
      by_cases h : dx = 0
      · have h' := h5.mp h
        subst h
        subst h'
        rfl
      · have h' : ¬ dy = 0 := fun e => h (h5.mpr e)
        simp only [h, h', not_false_eq_true, and_self, if_true, if_false]
        rfl) tail (by
    intro s
    rcases ht with h | ⟨a, b, r, rfl⟩
    · match tail, h with
      | [], _ => rfl
      | [_], _ => rfl
      | _ :: _ :: _, h => exact absurd h (by simp only [List.length_cons]; omega)
    · rfl) l hl () fuel hf
  rw [means_flat] at r
  exact r

/-- A colour change with a displacement along one axis loses the displacement: the reader tests `x != 0 and y != 0`. -/
theorem C88_jpx_axis_fails : ¬ ∀ (l : List Jpx) (_ : ∀ i ∈ l, ∃ dx dy, i = .colour dx dy ∧ Within 127 dx dy) (fuel : Nat), l.length < fuel →
    Readers.readJpxBody fuel (l.flatMap Jpx.bytes) = some (.ok (drawn 0 0 (l.flatMap Jpx.evs))) := by
  intro h
  have h := h [.colour 5 0] (by
    intro i hi
    simp only [List.mem_singleton] at hi
    exact ⟨5, 0, hi, by unfold Within; decide⟩) 2 (by decide)
  exact absurd h (by decide +kernel)

/-! ## SEW -/

/-- A record of SEW. -/
def sew : Ev → Bytes
  | .stitch dx dy => if dx = -128 then [0x80, 0x10, 0x80, twos (-dy)] else [twos dx, twos (-dy)]
  | .jump dx dy => [0x80, 2, twos dx, twos (-dy)]
  | .colour => [0x80, 1, 0, 0]
  | _ => []

def sewHas : Ev → Prop
  | .stitch dx dy => -128 ≤ dx ∧ dx ≤ 127 ∧ -127 ≤ dy ∧ dy ≤ 128
  | .jump dx dy => -128 ≤ dx ∧ dx ≤ 127 ∧ -127 ≤ dy ∧ dy ≤ 128
  | .colour => True
  | _ => False

/-- **C88**: the stitches of SEW. -/
theorem C88_sew (l : List Ev) (hl : ∀ e ∈ l, sewHas e) (tail : Bytes) (ht : tail.length < 2 ∨ ∃ a b r, tail = 0x80 :: 0x20 :: a :: b :: r)
    (fuel : Nat) (hf : l.length < fuel) : Readers.readSewBody fuel (l.flatMap sew ++ tail) = some (.ok (drawn 0 0 l)) := by
  have r := finish_items Readers.sewStep sew sewHas (fun _ e => [e]) (fun s _ => s) (by
    intro s e he rest
    cases e with
    | stitch dx dy =>
      obtain ⟨h1, h2, h3, h4⟩ := he
      by_cases h : dx = -128
      · subst h
        simp only [sew, if_true, List.cons_append, List.nil_append, Readers.sewStep, ne_eq, not_true_eq_false, if_false,
          s8 (-dy) (by omega) (by omega), neg_neg]
        rfl
      · simp only [sew, h, if_false, List.cons_append, List.nil_append, Readers.sewStep, ne_eq, twos_ne dx (by omega) h2, not_false_eq_true, if_true,
          s8 dx (by omega) (by omega), s8 (-dy) (by omega) (by omega), neg_neg]
        rfl
    | jump dx dy =>
      obtain ⟨h1, h2, h3, h4⟩ := he
      simp only [sew, List.cons_append, List.nil_append, Readers.sewStep, ne_eq, not_true_eq_false, if_false,
        s8 dx (by omega) (by omega), s8 (-dy) (by omega) (by omega), neg_neg]
      rfl
    | colour => rfl
    | _ => exact absurd he (by simp [sewHas])) tail (by
    intro s
    rcases ht with h | ⟨a, b, r, rfl⟩
    · match tail, h with
      | [], _ => rfl
      | [_], _ => rfl
      | _ :: _ :: _, h => exact absurd h (by simp only [List.length_cons]; omega)
    · rfl) l hl () fuel hf
  rw [means_plain] at r
  exact r

/-! ## BRO -/

/-- A record of BRO. A needle change comes with a jump. -/
inductive Bro where
  | stitch (dx dy : Int)
  | jump (dx dy : Int)
  | needle (n dx dy : Int)

def twos16le (v : Int) : Bytes := [(if v < 0 then v + 65536 else v) % 256, (if v < 0 then v + 65536 else v) / 256]
def twos16be (v : Int) : Bytes := [(if v < 0 then v + 65536 else v) / 256, (if v < 0 then v + 65536 else v) % 256]

def Bro.bytes : Bro → Bytes
  | .stitch dx dy => [twos dx, twos (-dy)]
  | .jump dx dy => [0x80, 0, 0x03] ++ (twos16le dx ++ twos16le (-dy))
  | .needle n dx dy => [0x80, 0, 0xE0 + n] ++ (twos16le dx ++ twos16le (-dy))

def Bro.Fits : Bro → Prop
  | .stitch dx dy => Within 127 dx dy
  | .jump dx dy => Within 32767 dx dy
  | .needle n dx dy => 1 ≤ n ∧ n ≤ 15 ∧ Within 32767 dx dy

def Bro.evs : Bro → List Ev
  | .stitch dx dy => [.stitch dx dy]
  | .jump dx dy => [.jump dx dy]
  | .needle n dx dy => [.needle n, .jump dx dy]

def broEnd (tail : Bytes) : Prop := tail.length < 2 ∨ ∃ a r, tail = 0x80 :: a :: 0x02 :: r

theorem read16le (v : Int) (rest : Bytes) (h1 : -32768 ≤ v) (h2 : v ≤ 32767) :
    ∃ w, readInt16le (twos16le v ++ rest) = (some w, rest) ∧ signed16 w = v := by
  refine ⟨_, rfl, ?_⟩
  unfold signed16 lo8
  simp only
  split_ifs <;> omega

theorem read16be (v : Int) (rest : Bytes) (h1 : -32768 ≤ v) (h2 : v ≤ 32767) :
    ∃ w, readInt16be (twos16be v ++ rest) = (some w, rest) ∧ signed16 w = v := by
  refine ⟨_, rfl, ?_⟩
  unfold signed16 lo8
  simp only
  split_ifs <;> omega

theorem broMove_spec (dx dy : Int) (h : Within 32767 dx dy) (rest : Bytes) (before : List Rec) :
    Readers.broMove (twos16le dx ++ (twos16le (-dy) ++ rest)) before = .again (before ++ [⟨dx, dy, 1⟩]) () rest := by
  obtain ⟨h1, h2, h3, h4⟩ := h
  obtain ⟨x, e1, e2⟩ := read16le dx (twos16le (-dy) ++ rest) (by omega) (by omega)
  obtain ⟨y, e3, e4⟩ := read16le (-dy) rest (by omega) (by omega)
  simp only [Readers.broMove, e1, e3, e2, e4, neg_neg]
  rfl

/-- **C88**: BRO, after 256 bytes. -/
theorem C88_bro (head : Bytes) (hh : head.length = 0x100) (l : List Bro) (hl : ∀ i ∈ l, i.Fits) (tail : Bytes) (ht : broEnd tail) (fuel : Nat)
    (hf : l.length < fuel) : Readers.readBro fuel (head ++ (l.flatMap Bro.bytes ++ tail)) = some (.ok (drawn 0 0 (l.flatMap Bro.evs))) := by
  have r := finish_items Readers.broStep Bro.bytes Bro.Fits (fun _ i => i.evs) (fun s _ => s) (by
    intro s e he rest
    cases e with
    | stitch dx dy =>
      obtain ⟨h1, h2, h3, h4⟩ := he
      simp only [Bro.bytes, List.cons_append, List.nil_append, Readers.broStep, ne_eq, twos_ne dx h1 h2, not_false_eq_true, if_true,
        s8 dx (by omega) (by omega), s8 (-dy) (by omega) (by omega), neg_neg]
      rfl
    | jump dx dy =>
      have m := broMove_spec dx dy he rest []
      simp only [Bro.bytes, List.append_assoc]
      exact m
    | needle n dx dy =>
      obtain ⟨h1, h2, h3⟩ := he
      have m := broMove_spec dx dy h3 rest [Readers.needleChange n]
      rw [needle_rec n (by omega) (by omega)] at m
      simp only [Bro.bytes, List.append_assoc]
      rw [show (Bro.needle n dx dy).evs.map Ev.rec' = [(Ev.needle n).rec'] ++ [⟨dx, dy, 1⟩] from rfl, ← m]
      have : ∀ r, Readers.broStep s ([0x80, 0, 0xE0 + n] ++ r) = Readers.broMove r [Readers.needleChange n] := by
        intro r
        interval_cases n <;> rfl
      rw [this, needle_rec n (by omega) (by omega)]) tail (by
    intro s
    rcases ht with h | ⟨a, r, rfl⟩
    · match tail, h with
      | [], _ => rfl
      | [_], _ => rfl
      | _ :: _ :: _, h => exact absurd h (by simp only [List.length_cons]; omega)
    · rfl) l hl () fuel hf
  rw [means_flat] at r
  unfold Readers.readBro
  rw [List.drop_left' hh]
  exact r

/-! ## SPX -/

/-- A record of SPX: nine bytes, with a vertical displacement in two parts `a` and `c`. -/
structure Spx where
  dx : Int
  a : Int
  c : Int

def Spx.bytes (i : Spx) : Bytes := [0, 0] ++ (twos16be i.a ++ (twos16be i.dx ++ ([twos i.c] ++ [0, 0])))

def Spx.Fits (i : Spx) : Prop := -32768 ≤ i.dx ∧ i.dx ≤ 32767 ∧ -32768 ≤ i.a ∧ i.a ≤ 32767 ∧ -128 ≤ i.c ∧ i.c ≤ 127

theorem flatMap_single {ι κ : Type} (f : ι → κ) (l : List ι) : l.flatMap (fun i => [f i]) = l.map f := by
  induction l with
  | nil => rfl
  | cons i l ih => rw [List.flatMap_cons, ih]; rfl

theorem place_dropLast (l : List Ev) (x y : ℚ) : place x y (l.map Ev.rec') = (drawn x y l).dropLast := by
  have ne : ∀ (l : List Ev) x y, drawn x y l ≠ [] := by
    intro l x y
    cases l with
    | nil => simp [drawn]
    | cons e l => cases e <;> simp [drawn]
  induction l generalizing x y with
  | nil => rfl
  | cons e l ih => cases e <;> simp [place, drawn, Ev.rec', ih, List.dropLast_cons_of_ne_nil (ne _ _ _)]

/-- **C88**: SPX, after 286 bytes: the vertical displacements add up, upwards. There is no END. -/
theorem C88_spx (head : Bytes) (hh : head.length = 0x11E) (l : List Spx) (hl : ∀ i ∈ l, i.Fits) (tail : Bytes) (ht : tail.length < 2) (fuel : Nat)
    (hf : l.length < fuel) :
    Readers.readSpx fuel (head ++ (l.flatMap Spx.bytes ++ tail)) =
      some (.ok (drawn 0 0 (l.map (fun i => .stitch i.dx (-(i.a + i.c))))).dropLast) := by
  have r := loop_items Readers.spxStep Spx.bytes Spx.Fits (fun _ i => [.stitch i.dx (-(i.a + i.c))]) (fun s _ => s) (by
    intro s e he rest
    obtain ⟨h1, h2, h3, h4, h5, h6⟩ := he
    obtain ⟨y, e1, e2⟩ := read16be e.a (twos16be e.dx ++ ([twos e.c] ++ ([0, 0] ++ rest))) h3 h4
    obtain ⟨x, e3, e4⟩ := read16be e.dx ([twos e.c] ++ ([0, 0] ++ rest)) h1 h2
    have e5 : readInt8 ([twos e.c] ++ ([0, 0] ++ rest)) = (some (twos e.c), [0, 0] ++ rest) := rfl
    simp only [Spx.bytes, List.append_assoc]
    show Readers.spxStep s (0 :: 0 :: (twos16be e.a ++ (twos16be e.dx ++ ([twos e.c] ++ ([0, 0] ++ rest))))) = _
    simp only [Readers.spxStep, e1, e3, e5, e2, e4, s8 e.c h5 h6]
    simp only [List.cons_append, List.nil_append, List.map_cons, List.map_nil, Ev.rec', Readers.stitch, STITCH]
    congr 3
    omega) tail (by
    intro s
    match tail, ht with
    | [], _ => rfl
    | [_], _ => rfl
    | _ :: _ :: _, h => exact absurd h (by simp only [List.length_cons]; omega)) l hl () fuel hf
  unfold Readers.readSpx
  rw [List.drop_left' hh, r, means_flat]
  simp only [Option.map_some, Except.map, place_dropLast]
  rw [flatMap_single]

/-! ## MIT -/

/-- A record of MIT: displacements in units of 0.2 mm. -/
inductive Mit where
  | stitch (dx dy : Int)
  | jump (dx dy : Int)
  /-- a colour change, if it comes directly after a stitch -/
  | colour

def Mit.bytes : Mit → Bytes
  | .stitch dx dy => [mag dx + 0x20 + neg 0x80 dx, mag dy + 0x60 + pos 0x80 dy]
  | .jump dx dy => [mag dx + 0x60 + neg 0x80 dx, mag dy + pos 0x80 dy]
  | .colour => [0x40, 0]

def Mit.Fits : Mit → Prop
  | .stitch dx dy | .jump dx dy => Within 31 dx dy
  | .colour => True

/-- The commands of some records; the flag tells whether the record before was a stitch. -/
def Mit.evs : Bool → List Mit → List Ev
  | _, [] => []
  | _, .stitch dx dy :: l => .stitch (2 * dx) (2 * dy) :: Mit.evs true l
  | _, .jump dx dy :: l => .jump (2 * dx) (2 * dy) :: Mit.evs false l
  | true, .colour :: l => .colour :: Mit.evs false l
  | false, .colour :: l => Mit.evs false l

theorem mit_byte (v c : Int) (hc : c = 0 ∨ c = 1 ∨ c = 2 ∨ c = 3) (n : Bool) (h1 : 0 ≤ v) (h2 : v ≤ 31) :
    let b := v + 0x20 * c + (if n then 0x80 else 0)
    Readers.bit b 7 = n ∧ b % 32 = v ∧ b / 32 % 4 = c := by
  intro b
  have hb : b = v + 0x20 * c + (if n then 0x80 else 0) := rfl
  cases n
  · simp only [if_false, Bool.false_eq_true] at hb
    refine ⟨?_, by omega, by omega⟩
    unfold Readers.bit
    rw [show b / 2 ^ 7 % 2 = 0 by omega]
    rfl
  · simp only [if_true] at hb
    refine ⟨?_, by omega, by omega⟩
    unfold Readers.bit
    rw [show b / 2 ^ 7 % 2 = 1 by omega]
    rfl

theorem mit_x (v c : Int) (hc : c = 0 ∨ c = 1 ∨ c = 2 ∨ c = 3) (h1 : -31 ≤ v) (h2 : v ≤ 31) :
    Readers.flip (Readers.bit (mag v + 0x20 * c + neg 0x80 v) 7) ((mag v + 0x20 * c + neg 0x80 v) % 32 * 2) = 2 * v ∧
      (mag v + 0x20 * c + neg 0x80 v) / 32 % 4 = c := by
  have hm : 0 ≤ mag v ∧ mag v ≤ 31 := by unfold mag; split_ifs <;> omega
  have := mit_byte (mag v) c hc (decide (v < 0)) hm.1 hm.2
  simp only [decide_eq_true_eq] at this
  obtain ⟨a, b, d⟩ := this
  unfold neg
  rw [a, b, d]
  refine ⟨?_, rfl⟩
  unfold Readers.flip mag
  by_cases h : v < 0 <;> simp [h] <;> omega

theorem mit_y (v c : Int) (hc : c = 0 ∨ c = 1 ∨ c = 2 ∨ c = 3) (h1 : -31 ≤ v) (h2 : v ≤ 31) :
    Readers.flip (Readers.bit (mag v + 0x20 * c + pos 0x80 v) 7) (-((mag v + 0x20 * c + pos 0x80 v) % 32) * 2) = 2 * v ∧
      (mag v + 0x20 * c + pos 0x80 v) / 32 % 4 = c := by
  have hm : 0 ≤ mag v ∧ mag v ≤ 31 := by unfold mag; split_ifs <;> omega
  have := mit_byte (mag v) c hc (decide (0 < v)) hm.1 hm.2
  simp only [decide_eq_true_eq] at this
  obtain ⟨a, b, d⟩ := this
  unfold pos
  rw [a, b, d]
  refine ⟨?_, rfl⟩
  unfold Readers.flip mag
  by_cases h : v < 0 <;> by_cases h' : 0 < v <;> simp [h, h'] <;> omega

/-- **C88**: MIT. -/
theorem C88_mit (l : List Mit) (hl : ∀ i ∈ l, i.Fits) (tail : Bytes) (ht : tail.length < 2) (fuel : Nat) (hf : l.length < fuel) :
    Readers.readMit fuel (l.flatMap Mit.bytes ++ tail) = some (.ok (drawn 0 0 (Mit.evs false l))) := by
  let evs : Int → Mit → List Ev := fun s i => match i with
    | .stitch dx dy => [.stitch (2 * dx) (2 * dy)]
    | .jump dx dy => [.jump (2 * dx) (2 * dy)]
    | .colour => if s = 7 then [.colour] else []
  let next : Int → Mit → Int := fun _ i => match i with
    | .stitch .. => 7
    | .jump .. => 12
    | .colour => 8
  have hm : ∀ (l : List Mit) (s : Int), Means evs next s l = Mit.evs (decide (s = 7)) l := by
    intro l
    induction l with
    | nil => intro s; rfl
    | cons i l ih =>
      intro s
      rw [Means, ih]
      cases i with
      | stitch dx dy => rfl
      | jump dx dy => rfl
      | colour => by_cases h : s = 7 <;> simp [evs, next, h, Mit.evs]
  have r := finish_items Readers.mitStep Mit.bytes Mit.Fits evs next (by
    intro s e he rest
    cases e with
    | stitch dx dy =>
      obtain ⟨h1, h2, h3, h4⟩ := he
      have a := mit_x dx 1 (by decide) h1 h2
      have b := mit_y dy 3 (by decide) h3 h4
      norm_num at a b
      simp only [Mit.bytes, List.cons_append, List.nil_append, Readers.mitStep]
      norm_num
      simp only [a, b]
      rfl
    | jump dx dy =>
      obtain ⟨h1, h2, h3, h4⟩ := he
      have a := mit_x dx 3 (by decide) h1 h2
      have b := mit_y dy 0 (by decide) h3 h4
      norm_num at a b
      simp only [Mit.bytes, List.cons_append, List.nil_append, Readers.mitStep]
      norm_num
      simp only [a, b]
      rfl
    | colour =>
      simp only [Mit.bytes, List.cons_append, List.nil_append]
      by_cases h : s = 7
      · subst h; rfl
      · have : Readers.mitStep s (0x40 :: 0 :: rest) = .again (if s = 0b111 then [Readers.colorChange] else []) 8 rest := rfl
        rw [this]
        simp [evs, next, h]) tail (by
    intro s
    match tail, ht with
    | [], _ => rfl
    | [_], _ => rfl
    | _ :: _ :: _, h => exact absurd h (by simp only [List.length_cons]; omega)) l hl (-1) fuel hf
  rw [hm] at r
  exact r

/-- The record that ends a MIT file adds an END of its own. -/
theorem C88_mit_end_twice : Readers.readMit 9 (Mit.bytes (.stitch 3 4) ++ [0, 0]) = some (.ok [⟨6, 8, 0⟩, ⟨6, 8, 4⟩, ⟨6, 8, 4⟩]) := by
  decide +kernel

/-! ## KSM -/

/-- What a record of KSM does after its displacement. -/
inductive KsmCtl where
  | nothing | trim | sew | stop
  | needle (n : Int)

structure Ksm where
  dx : Int
  dy : Int
  ctl : KsmCtl

def KsmCtl.code : KsmCtl → Int
  | .nothing => 0
  | .trim => 0x07
  | .sew => 0x17
  | .stop => 0x05
  | .needle n => 0x0A + n

/-- A record of KSM: `y`, `x`, control; bit 6 for negative `x`, bit 5 for positive `y`. -/
def Ksm.bytes (i : Ksm) : Bytes := [mag i.dy, mag i.dx, 0x80 + i.ctl.code + neg 0x40 i.dx + pos 0x20 i.dy]

def Ksm.Fits (i : Ksm) : Prop :=
  Within 255 i.dx i.dy ∧ match i.ctl with
    | .needle n => 1 ≤ n ∧ n ≤ 8
    | _ => True

/-- The commands of some records. After a trim or needle change displacements are jumps until the record that begins to sew; a trim
before the first stitch is none. -/
def Ksm.evs (trimmed sewed : Bool) : List Ksm → List Ev
  | [] => []
  | i :: l =>
    let still := i.dx = 0 ∧ i.dy = 0
    let sewed := sewed || (!still && !trimmed)
    (if still then [] else if trimmed then [.jump i.dx i.dy] else [.stitch i.dx i.dy]) ++
    match i.ctl with
    | .nothing => Ksm.evs trimmed sewed l
    | .trim => (if sewed then [.trim] else []) ++ Ksm.evs true sewed l
    | .sew => Ksm.evs false sewed l
    | .stop => .stop :: Ksm.evs trimmed sewed l
    | .needle n => .needle n :: Ksm.evs true sewed l

def ksmEnd (tail : Bytes) : Prop := tail.length < 3 ∨ ∃ r, tail = 0 :: 0 :: 0x88 :: r

/-- **C88**: KSM, after 512 bytes. -/
theorem C88_ksm (head : Bytes) (hh : head.length = 0x200) (l : List Ksm) (hl : ∀ i ∈ l, i.Fits) (tail : Bytes) (ht : ksmEnd tail) (fuel : Nat)
    (hf : l.length < fuel) : Readers.readKsm fuel (head ++ (l.flatMap Ksm.bytes ++ tail)) = some (.ok (drawn 0 0 (Ksm.evs false false l))) := by
  let next : Bool × Bool → Ksm → Bool × Bool := fun s i =>
    let sewed := s.2 || (!(decide (i.dx = 0 ∧ i.dy = 0)) && !s.1)
    match i.ctl with
    | .nothing => (s.1, sewed)
    | .trim => (true, sewed)
    | .sew => (false, sewed)
    | .stop => (s.1, sewed)
    | .needle _ => (true, sewed)
  let evs : Bool × Bool → Ksm → List Ev := fun s i =>
    let sewed := s.2 || (!(decide (i.dx = 0 ∧ i.dy = 0)) && !s.1)
    (if i.dx = 0 ∧ i.dy = 0 then [] else if s.1 then [.jump i.dx i.dy] else [.stitch i.dx i.dy]) ++
    match i.ctl with
    | .nothing => []
    | .trim => if sewed then [.trim] else []
    | .sew => []
    | .stop => [.stop]
    | .needle n => [.needle n]
  have hm : ∀ (l : List Ksm) (s : Bool × Bool), Means evs next s l = Ksm.evs s.1 s.2 l := by
    intro l
    induction l with
    | nil => intro s; rfl
    | cons i l ih =>
      intro s
      rw [Means, ih]
      obtain ⟨dx, dy, ctl⟩ := i
      cases ctl <;> simp [evs, next, Ksm.evs, List.append_assoc]
  have r := finish_items (Readers.three Readers.ksmRecord) Ksm.bytes Ksm.Fits evs next (by
    intro s e he rest
    obtain ⟨dx, dy, ctl⟩ := e
    obtain ⟨t, w⟩ := s
    obtain ⟨-, hc⟩ := he
    have hb : ∀ c : Int, 0 ≤ c → c < 32 → Readers.bit (0x80 + c + neg 0x40 dx + pos 0x20 dy) 6 = decide (dx < 0) ∧
        Readers.bit (0x80 + c + neg 0x40 dx + pos 0x20 dy) 5 = decide (0 < dy) ∧ (0x80 + c + neg 0x40 dx + pos 0x20 dy) % 32 = c := by
      intro c h1 h2
      unfold neg pos Readers.bit
      by_cases h : dx < 0 <;> by_cases h' : 0 < dy <;> simp only [h, h', if_true, if_false, decide_true, decide_false, add_zero] <;>
        refine ⟨?_, ?_, by omega⟩
      · rw [show (0x80 + c + 0x40 + 0x20) / 2 ^ 6 % 2 = 1 by omega]; rfl
      · rw [show (0x80 + c + 0x40 + 0x20) / 2 ^ 5 % 2 = 1 by omega]; rfl
      · rw [show (0x80 + c + 0x40) / 2 ^ 6 % 2 = 1 by omega]; rfl
      · rw [show (0x80 + c + 0x40) / 2 ^ 5 % 2 = 0 by omega]; rfl
      · rw [show (0x80 + c + 0x20) / 2 ^ 6 % 2 = 0 by omega]; rfl
      · rw [show (0x80 + c + 0x20) / 2 ^ 5 % 2 = 1 by omega]; rfl
      · rw [show (0x80 + c) / 2 ^ 6 % 2 = 0 by omega]; rfl
      · rw [show (0x80 + c) / 2 ^ 5 % 2 = 0 by omega]; rfl
    have hr : 0 ≤ ctl.code ∧ ctl.code < 32 := by
      cases ctl with
      | needle n =>
        simp only at hc
        simp only [KsmCtl.code]
        omega
      | _ => simp [KsmCtl.code]
    obtain ⟨b6, b5, m⟩ := hb ctl.code hr.1 hr.2
    have hmv : (dx ≠ 0 ∨ dy ≠ 0) ↔ ¬ (dx = 0 ∧ dy = 0) := by omega
    simp only [Ksm.bytes, List.cons_append, List.nil_append, Readers.three, Readers.ksmRecord, b6, b5, m, flip_mag, flip_mag', hmv]
    cases ctl with
    | needle n =>
      simp only at hc
      obtain ⟨n1, n2⟩ := hc
      have nr := needle_rec n (by omega) (by omega)
      have c1 : ¬ (0x0A + n = 0) := by omega
      have c2 : ¬ (0x0A + n = 0x07 ∨ 0x0A + n = 0x13 ∨ 0x0A + n = 0x1D) := by omega
      have c3 : ¬ (0x17 ≤ 0x0A + n ∧ 0x0A + n ≤ 0x19) := by omega
      have c4 : 0x0B ≤ 0x0A + n ∧ 0x0A + n ≤ 0x12 := by omega
      simp only [KsmCtl.code, evs, next, show 0x0A + n - 0x0A = n by omega, nr, c1, c2, c3, c4, if_false, if_true, and_self]
      by_cases h : dx = 0 ∧ dy = 0 <;> cases t <;> cases w <;>
        simp only [h, not_true_eq_false, not_false_eq_true, if_true, if_false, decide_true, decide_false] <;> rfl
    | _ =>
      by_cases h : dx = 0 ∧ dy = 0 <;> cases t <;> cases w <;>
        simp only [h, KsmCtl.code, evs, next, not_true_eq_false, not_false_eq_true, if_true, if_false, decide_true, decide_false] <;> rfl) tail (by
    intro s
    rcases ht with h | ⟨r, rfl⟩
    · exact three_short _ _ _ h
    · rfl) l hl (false, false) fuel hf
  rw [hm] at r
  unfold Readers.readKsm
  rw [List.drop_left' hh]
  exact r

end Records
end Emb
