import Verif.Pec
import Verif.Format
import Verif.Props.Commands

/-!
# Properties C11, C12: PEC stitch sections
-/

namespace Emb
namespace Pec

/-- The independent meaning of an encoded value: one byte below 128 is a 7-bit two's complement number; otherwise two bytes
hold a 12-bit two's complement number, with a jump mark (16) and a trim mark (32) in the first. -/
inductive Denotes : Bytes → Int → Bool → Bool → Prop
  | short (b v : Int) : 0 ≤ b → b < 128 → -64 ≤ v → v < 64 → (128 : Int) ∣ b - v → Denotes [b] v false false
  | long (h l v : Int) (hi : Int) (jump trim : Bool) : 0 ≤ l → l < 256 → 0 ≤ hi → hi < 16 →
      h = 128 + (if trim then 32 else 0) + (if jump then 16 else 0) + hi →
      -2048 ≤ v → v < 2048 → (4096 : Int) ∣ hi * 256 + l - v → Denotes [h, l] v jump trim

/-- C11: every value −2048…2047 is written as a code that denotes it, with the flags asked for; the short form is used
only for unflagged values from −63 to 62, for which it is unambiguous; the first byte is never that of a colour change or
of the end. -/
theorem C11_written (v : Int) (h1 : -2048 ≤ v) (h2 : v ≤ 2047) :
    Denotes (writeValue v false 0) v false false ∧
    Denotes (writeValue v true 0x10) v true false ∧
    Denotes (writeValue v true 0x20) v false true ∧
    ((writeValue v false 0).length = 1 ↔ -64 < v ∧ v < 63) ∧
    (writeValue v true 0x10).length = 2 ∧ (writeValue v true 0x20).length = 2 ∧
    (∀ long flag, flag = 0 ∨ flag = 0x10 ∨ flag = 0x20 → ∀ b, (writeValue v long flag).head? = some b →
      0 ≤ b ∧ b < 0xB0) := by
  have hl : ∀ flag, writeValue v true flag = [0x80 + flag + v / 256 % 16, v % 256] := fun flag => by simp [writeValue]
  refine ⟨?_, ?_, ?_, ?_, by rw [hl]; rfl, by rw [hl]; rfl, ?_⟩
  · unfold writeValue
    split
    · exact .short _ _ (by omega) (by omega) (by omega) (by omega) (by omega)
    · exact .long _ _ _ (v / 256 % 16) _ _ (by omega) (by omega) (by omega) (by omega) (by simp) h1 (by omega) (by omega)
  · rw [hl]
    exact .long _ _ _ (v / 256 % 16) _ _ (by omega) (by omega) (by omega) (by omega) (by simp) h1 (by omega) (by omega)
  · rw [hl]
    exact .long _ _ _ (v / 256 % 16) _ _ (by omega) (by omega) (by omega) (by omega) (by simp) h1 (by omega) (by omega)
  · unfold writeValue
    by_cases hv : -64 < v ∧ v < 63
    · simp [hv]
    · rw [if_neg (by simpa using hv)]; simp only [List.length_cons, List.length_nil]; omega
  · intro long flag hf b hb
    unfold writeValue at hb
    split at hb <;> simp at hb <;> omega

theorem isLong_iff {v : Int} (h0 : 0 ≤ v) (h1 : v < 256) : isLong v = true ↔ 128 ≤ v := by
  unfold isLong; rw [beq_iff_eq]; omega

theorem short_spec {v : Int} (h1 : -64 ≤ v) (h2 : v < 64) {b : Int} (hb0 : 0 ≤ b) (hb1 : b < 128) (hd : (128 : Int) ∣ b - v) :
    isLong b = false ∧ signed7 b = v := by
  constructor
  · unfold isLong; rw [beq_eq_false_iff_ne]; omega
  · unfold signed7; split <;> omega

theorem long_spec {v h l hi : Int} {jump trim : Bool} (_ : 0 ≤ l) (_ : l < 256) (hi0 : 0 ≤ hi) (hi1 : hi < 16)
    (hh : h = 128 + (if trim then 32 else 0) + (if jump then 16 else 0) + hi)
    (h1 : -2048 ≤ v) (h2 : v < 2048) (hd : (4096 : Int) ∣ hi * 256 + l - v) :
    isLong h = true ∧ hasTrim h = trim ∧ hasJump h = jump ∧ signed12 (h * 256 + l) = v ∧ h < 0xFE := by
  cases jump <;> cases trim <;> simp only [if_true, if_false, Bool.false_eq_true] at hh <;>
    refine ⟨?_, ?_, ?_, ?_, by omega⟩ <;>
    first
      | (unfold isLong; rw [beq_iff_eq]; omega)
      | (unfold hasTrim; rw [beq_iff_eq]; omega)
      | (unfold hasTrim; rw [beq_eq_false_iff_ne]; omega)
      | (unfold hasJump; rw [beq_iff_eq]; omega)
      | (unfold hasJump; rw [beq_eq_false_iff_ne]; omega)
      | (unfold signed12; split <;> omega)

/-- C11: reading two codes gives the move they denote, a jump, a trim and jump, or a stitch according to their marks. -/
theorem C11_read (bx by' : Bytes) (x y : Int) (jx tx jy ty : Bool) (hx : Denotes bx x jx tx) (hy : Denotes by' y jy ty)
    (rest : Bytes) :
    readRecs (bx ++ by' ++ rest) =
      (if (jx || jy) = true then [⟨x, y, 1⟩] else if (tx || ty) = true then [⟨0, 0, 2⟩, ⟨x, y, 1⟩] else [⟨x, y, 0⟩]) ++
        readRecs rest := by
  cases hx with
  | short b _ hb0 hb1 hv1 hv2 hd =>
    obtain ⟨e1, e2⟩ := short_spec hv1 hv2 hb0 hb1 hd
    cases hy with
    | short c _ hc0 hc1 hw1 hw2 he =>
      obtain ⟨f1, f2⟩ := short_spec hw1 hw2 hc0 hc1 he
      show readRecs (b :: c :: rest) = _
      rw [readRecs.eq_def]
      simp only
      rw [if_neg (by omega), if_neg (by omega), if_neg (by simp [e1]), if_neg (by simp [f1]), e2, f2]
      rfl
    | long h l _ hi _ _ hl0 hl1 hi0 hi1 hh hw1 hw2 he =>
      obtain ⟨f1, f2, f3, f4, f5⟩ := long_spec hl0 hl1 hi0 hi1 hh hw1 hw2 he
      show readRecs (b :: h :: l :: rest) = _
      rw [readRecs.eq_def]
      simp only
      rw [if_neg (by omega), if_neg (by omega), if_neg (by simp [e1]), if_pos f1, e2, f2, f3, f4]
      simp [emit, JUMP, TRIM, STITCH]
  | long h l _ hi _ _ hl0 hl1 hi0 hi1 hh hw1 hw2 he =>
    obtain ⟨f1, f2, f3, f4, f5⟩ := long_spec hl0 hl1 hi0 hi1 hh hw1 hw2 he
    cases hy with
    | short c _ hc0 hc1 hv1 hv2 hd =>
      obtain ⟨e1, e2⟩ := short_spec hv1 hv2 hc0 hc1 hd
      show readRecs (h :: l :: c :: rest) = _
      rw [readRecs.eq_def]
      simp only
      rw [if_neg (by omega), if_neg (by omega), if_pos f1, if_neg (by simp [e1]), e2, f2, f3, f4]
      simp [emit, JUMP, TRIM, STITCH]
    | long h' l' _ hi' _ _ hl0' hl1' hi0' hi1' hh' hw1' hw2' he' =>
      obtain ⟨g1, g2, g3, g4, g5⟩ := long_spec hl0' hl1' hi0' hi1' hh' hw1' hw2' he'
      show readRecs (h :: l :: h' :: l' :: rest) = _
      rw [readRecs.eq_def]
      simp only
      rw [if_neg (by omega), if_neg (by omega), if_pos f1, if_pos g1, f2, f3, f4, g2, g3, g4]
      simp [emit, JUMP, TRIM, STITCH]

example : writeValue (-63) false 0 = [65] ∧ writeValue 63 false 0 = [0x80, 63] ∧ writeValue (-2047) true 0x20 = [0xA8, 1] := by
  decide +kernel

/-! ## Sections -/

theorem read_stitch {dx dy : Int} (h1 : -2048 ≤ dx) (h2 : dx ≤ 2047) (h3 : -2048 ≤ dy) (h4 : dy ≤ 2047) (rest : Bytes) :
    readRecs (writeStitch dx dy ++ rest) = ⟨dx, dy, 0⟩ :: readRecs rest := by
  unfold writeStitch
  rw [C11_read _ _ _ _ _ _ _ _ (C11_written dx h1 h2).1 (C11_written dy h3 h4).1]
  rfl

theorem read_jump {dx dy : Int} (h1 : -2048 ≤ dx) (h2 : dx ≤ 2047) (h3 : -2048 ≤ dy) (h4 : dy ≤ 2047) (rest : Bytes) :
    readRecs (writeJump dx dy ++ rest) = ⟨dx, dy, 1⟩ :: readRecs rest := by
  unfold writeJump
  rw [C11_read _ _ _ _ _ _ _ _ (C11_written dx h1 h2).2.1 (C11_written dy h3 h4).2.1]
  rfl

theorem read_trimjump {dx dy : Int} (h1 : -2048 ≤ dx) (h2 : dx ≤ 2047) (h3 : -2048 ≤ dy) (h4 : dy ≤ 2047) (rest : Bytes) :
    readRecs (writeTrimjump dx dy ++ rest) = ⟨0, 0, 2⟩ :: ⟨dx, dy, 1⟩ :: readRecs rest := by
  unfold writeTrimjump
  rw [C11_read _ _ _ _ _ _ _ _ (C11_written dx h1 h2).2.2.1 (C11_written dy h3 h4).2.2.1]
  rfl

theorem read_change (n : Int) (rest : Bytes) : readRecs (0xFE :: 0xB0 :: n :: rest) = ⟨0, 0, 5⟩ :: readRecs rest := by
  rw [readRecs.eq_def]; simp [COLOR_CHANGE]

/-- What a PEC section shows of the records before END. -/
def shown (jumping init : Bool) : List Rec → List Rec
  | [] => []
  | r :: rs =>
    if r.cmd = 0 then
      (if jumping = true ∧ r.dx ≠ 0 ∧ r.dy ≠ 0 then [⟨0, 0, 0⟩] else []) ++ r :: shown false false rs
    else if r.cmd = 1 then (if init = true then [] else [⟨0, 0, 2⟩]) ++ r :: shown true false rs
    else if r.cmd = 5 then (if jumping = true then [⟨0, 0, 0⟩] else []) ++ ⟨0, 0, 5⟩ :: shown false false rs
    else shown jumping false rs

theorem readRecs_write (rs : List Rec) (hok : ∀ r ∈ rs, RecOK 2047 r) (two jumping init : Bool) (rest : Bytes) :
    readRecs (encodeRecs two jumping init (rs ++ [⟨0, 0, 4⟩]) ++ 0x00 :: rest) = shown jumping init rs := by
  induction rs generalizing two jumping init with
  | nil =>
    show readRecs (0xFF :: 0x00 :: rest) = []
    rw [readRecs.eq_def]; simp
  | cons r rs ih =>
    have ih := ih (fun a ha => hok a (by simp [ha]))
    have hr := hok r (by simp)
    obtain ⟨dx, dy, c⟩ := r
    unfold RecOK at hr
    simp only at hr
    rcases hr with ⟨hc | hc, h1, h2, h3, h4⟩ | ⟨hc, h1, h2⟩
    · subst hc
      rw [List.cons_append]
      simp only [encodeRecs, shown, STITCH, if_true]
      by_cases hj : jumping = true ∧ dx ≠ 0 ∧ dy ≠ 0
      · rw [if_pos hj, if_pos hj, List.append_assoc, List.append_assoc, read_stitch (by decide) (by decide) (by decide) (by decide),
          read_stitch (by omega) (by omega) (by omega) (by omega), ih]
        rfl
      · rw [if_neg hj, if_neg hj, List.append_assoc, List.append_assoc, List.nil_append,
          read_stitch (by omega) (by omega) (by omega) (by omega), ih]
        rfl
    · subst hc
      rw [List.cons_append]
      have e1 : encodeRecs two jumping init (⟨dx, dy, 1⟩ :: (rs ++ [⟨0, 0, 4⟩])) =
        (if init = true then writeJump dx dy else writeTrimjump dx dy) ++ encodeRecs two true false (rs ++ [⟨0, 0, 4⟩]) := rfl
      have e2 : shown jumping init (⟨dx, dy, 1⟩ :: rs) =
        (if init = true then [] else [⟨0, 0, 2⟩]) ++ ⟨dx, dy, 1⟩ :: shown true false rs := rfl
      rw [e1, e2]
      cases init with
      | true => 
        rw [if_pos rfl, if_pos rfl, List.append_assoc, read_jump (by omega) (by omega) (by omega) (by omega), ih]
        rfl
      | false =>
        rw [if_neg (by decide), if_neg (by decide), List.append_assoc,
          read_trimjump (by omega) (by omega) (by omega) (by omega), ih]
        rfl
    · have plain : c ≠ 0 → c ≠ 1 → c ≠ 5 → c ≠ 4 → 
          readRecs (encodeRecs two jumping init (⟨dx, dy, c⟩ :: rs ++ [⟨0, 0, 4⟩]) ++ 0x00 :: rest) =
            shown jumping init (⟨dx, dy, c⟩ :: rs) := by
        intro n0 n1 n5 n4
        rw [List.cons_append]
        simp only [encodeRecs, shown, STITCH, JUMP, COLOR_CHANGE, END, n0, n1, n5, n4, if_false]
        exact ih _ _ _
      by_cases h5 : c = 5
      · subst h5; subst h1; subst h2
        rw [List.cons_append]
        have e1 : encodeRecs two jumping init (⟨0, 0, 5⟩ :: (rs ++ [⟨0, 0, 4⟩])) =
          (if jumping = true then writeStitch 0 0 else []) ++ [0xFE, 0xB0] ++ (if two = true then [0x02] else [0x01]) ++
            encodeRecs (!two) false false (rs ++ [⟨0, 0, 4⟩]) := rfl
        have e2 : shown jumping init (⟨0, 0, 5⟩ :: rs) =
          (if jumping = true then [⟨0, 0, 0⟩] else []) ++ ⟨0, 0, 5⟩ :: shown false false rs := rfl
        rw [e1, e2]
        have two' : ∀ t : Bytes, readRecs ([0xFE, 0xB0] ++ ((if two = true then [0x02] else [0x01]) ++ t)) = ⟨0, 0, 5⟩ :: readRecs t := by
          intro t
          cases two <;> exact read_change _ _
        cases jumping with
        | true =>
          rw [if_pos rfl, if_pos rfl]
          simp only [List.append_assoc]
          rw [read_stitch (by decide) (by decide) (by decide) (by decide), two', ih]
          rfl
        | false =>
          rw [if_neg Bool.false_ne_true, if_neg Bool.false_ne_true]
          simp only [List.append_assoc, List.nil_append]
          rw [two', ih]
      · exact plain (by omega) (by omega) h5 (by omega)

/-- `shown` for positioned commands: what a PEC section shows of a design up to and including its END (4), with the needle
at `(px, py)`. A move is shown as a trim and a jump, except at the very start. Before the first stitch after a move there
may be another one on the spot, and so before a colour change after a move. There are no trims, stops or speeds. -/
def seen (px py : ℚ) (moved first : Bool) : List Stitch → List Stitch
  | [] => []
  | a :: l =>
    if a.cmd = 0 then
      (if moved = true ∧ a.x ≠ px ∧ a.y ≠ py then [⟨px, py, 0⟩] else []) ++ a :: seen a.x a.y false false l
    else if a.cmd = 1 then (if first = true then [] else [⟨px, py, 2⟩]) ++ a :: seen a.x a.y true false l
    else if a.cmd = 5 then (if moved = true then [⟨px, py, 0⟩] else []) ++ a :: seen a.x a.y false false l
    else if a.cmd = 4 then [a]
    else seen a.x a.y moved false l

theorem place_shown (rs : List Rec) (hok : ∀ r ∈ rs, RecOK 2047 r) (moved first : Bool) (x y : ℚ) :
    place x y (shown moved first rs ++ [⟨0, 0, 4⟩]) = seen x y moved first (place x y (rs ++ [⟨0, 0, 4⟩])) := by
  induction rs generalizing moved first x y with
  | nil => simp [shown, place, seen]
  | cons r rs ih =>
    have ih := ih (fun a ha => hok a (by simp [ha]))
    have hr := hok r (by simp)
    obtain ⟨dx, dy, c⟩ := r
    unfold RecOK at hr
    simp only at hr
    rcases hr with ⟨hc | hc, h1, h2, h3, h4⟩ | ⟨hc, h1, h2⟩
    · subst hc
      by_cases hj : moved = true ∧ dx ≠ 0 ∧ dy ≠ 0
      · simp [shown, place, seen, hj, ih]
      · have hj' : ¬ (moved = true ∧ ((dx : ℚ) ≠ 0) ∧ ((dy : ℚ) ≠ 0)) := by simpa using hj
        simp only [shown, if_neg hj, List.cons_append, place, seen, if_true, List.nil_append, ih]
        rw [if_neg (by simpa using hj')]
        rfl
    · subst hc
      cases first <;> simp [shown, place, seen, ih]
    · subst h1; subst h2
      rcases hc with rfl | rfl | rfl | rfl | rfl | rfl
      · simp [shown, place, seen, ih]
      · simp [shown, place, seen, ih]
      · cases moved <;> simp [shown, place, seen, ih]
      · simp [shown, place, seen, ih]
      · simp [shown, place, seen, ih]
      · simp [shown, place, seen, ih]

/-- A pattern with its stops turned into colour changes, as `PecWriter.py` 31 does before writing (for a pattern with a
thread for every block). -/
def stopsAsChanges (l : List Stitch) : List Stitch := l.map (fun a => if a.low = 3 then ⟨a.x, a.y, 5⟩ else a)

theorem deltas_stops (l : List Stitch) (xx yy : Int) :
    deltas xx yy (stopsAsChanges l) = (deltas xx yy l).map (fun r => if r.cmd = 3 then ⟨r.dx, r.dy, 5⟩ else r) := by
  induction l generalizing xx yy with
  | nil => rfl
  | cons a l ih =>
    have e : stopsAsChanges (a :: l) = (if a.low = 3 then ⟨a.x, a.y, 5⟩ else a) :: stopsAsChanges l := rfl
    rw [e]
    by_cases h : a.low = 3
    · rw [if_pos h]
      simp only [deltas, List.map_cons, ih]
      rw [if_pos (by exact h)]
      rfl
    · rw [if_neg h]
      simp only [deltas, List.map_cons, ih]
      rw [if_neg (by exact h)]

variable {o : Settings} {lm : Libm} {threads : List Thread} {source out : List Stitch} {ths : List (Option Thread)}

/-- C12: for every source pattern that does not change the limits or switch sequins on, encoding with the PEC settings,
turning stops into colour changes, writing the stitch section and reading it (followed, as in the file, by a zero byte)
gives exactly what `seen` says. -/
theorem C12_exact (hlm : lm.Sound) (hv : o.ValidSequins) (hr : o.round = true)
    (h1 : o.maxStitch = some 2047) (h2 : o.maxJump = some 2047) (h3 : o.longStitch = 0xF1 ∨ o.longStitch = 0xF2)
    (hs : o.sequin ≠ 0xF5)
    (hq : ∀ st ∈ source, st.low ≠ 0xD5 ∧ st.low ≠ 0xD6 ∧ st.low ≠ 0xF0 ∧ st.low ≠ 0xF5)
    (h : encode o lm threads source = .ok (out, ths)) (rest : Bytes) :
    readSection (encodeSection (stopsAsChanges out) ++ 0x00 :: rest) =
      seen 0 0 true true (place 0 0 (deltas 0 0 (stopsAsChanges out))) := by
  obtain ⟨l, e, rfl, hd, hok⟩ := encoded_recs (M := 2047) (by decide) hlm hv hr (by rw [h1]; norm_num)
    (by rw [h2]; norm_num) h3 hs hq h
  have hd' : deltas 0 0 (stopsAsChanges (l ++ [e])) =
      (deltas 0 0 l).map (fun r => if r.cmd = 3 then ⟨r.dx, r.dy, 5⟩ else r) ++ [⟨0, 0, 4⟩] := by
    rw [deltas_stops, hd, List.map_append]; rfl
  have hok' : ∀ r ∈ (deltas 0 0 l).map (fun r => if r.cmd = 3 then ⟨r.dx, r.dy, 5⟩ else r), RecOK 2047 r := by
    intro r hr
    obtain ⟨r0, h0, rfl⟩ := List.mem_map.1 hr
    have := (hok r0 h0).1
    by_cases h3 : r0.cmd = 3
    · rw [if_pos h3]
      rcases this with hh | ⟨_, hx, hy⟩
      · omega
      · exact .inr ⟨.inr (.inr (.inl rfl)), hx, hy⟩
    · rw [if_neg h3]; exact this
  unfold readSection encodeSection
  rw [hd', readRecs_write _ hok', ← place_shown _ hok']
  rfl

/-- Everything a section shows is a command of the design, or a stitch or trim where the needle is. -/
theorem seen_sublist (px py : ℚ) (moved first : Bool) (l : List Stitch) (h4 : ∀ a ∈ l.dropLast, a.cmd ≠ 4) :
    (l.filter (fun a => a.cmd = 0 ∨ a.cmd = 1 ∨ a.cmd = 4 ∨ a.cmd = 5)).Sublist (seen px py moved first l) ∧
    (seen px py moved first l).filter (fun a => a.cmd = 5) = l.filter (fun a => a.cmd = 5) ∧
    (∀ a ∈ seen px py moved first l, (a.x = px ∧ a.y = py) ∨ ∃ b ∈ l, a.x = b.x ∧ a.y = b.y) := by
  induction l generalizing px py moved first with
  | nil => simp [seen]
  | cons a l ih =>
    have ih := fun px py m f => ih px py m f (fun b hb => h4 b (by
      cases l with
      | nil => simp at hb
      | cons c l => rw [List.dropLast_cons_cons]; exact List.mem_cons_of_mem _ hb))
    have pos : ∀ (p : Prop) [Decidable p] (m f : Bool) (c : Int),
        ∀ b ∈ (if p then [⟨px, py, c⟩] else []) ++ a :: seen a.x a.y m f l,
          (b.x = px ∧ b.y = py) ∨ ∃ d ∈ a :: l, b.x = d.x ∧ b.y = d.y := by
      intro p _ m f c b hb
      rcases List.mem_append.1 hb with hb | hb
      · split at hb
        · simp at hb; subst hb; exact .inl ⟨rfl, rfl⟩
        · simp at hb
      · rcases List.mem_cons.1 hb with rfl | hb
        · exact .inr ⟨b, by simp, rfl, rfl⟩
        · rcases (ih a.x a.y m f).2.2 b hb with hh | ⟨d, hd, hh⟩
          · exact .inr ⟨a, by simp, hh⟩
          · exact .inr ⟨d, by simp [hd], hh⟩
    have pos' : ∀ (p : Prop) [Decidable p] (m f : Bool) (c : Int),
        ∀ b ∈ (if p then [] else [⟨px, py, c⟩]) ++ a :: seen a.x a.y m f l,
          (b.x = px ∧ b.y = py) ∨ ∃ d ∈ a :: l, b.x = d.x ∧ b.y = d.y := by
      intro p _ m f c b hb
      refine pos (¬ p) m f c b ?_
      by_cases hp : p <;> simpa [hp] using hb
    have sub : ∀ (w : List Stitch) (m f : Bool), (a.cmd = 0 ∨ a.cmd = 1 ∨ a.cmd = 4 ∨ a.cmd = 5) →
        ((a :: l).filter (fun a => a.cmd = 0 ∨ a.cmd = 1 ∨ a.cmd = 4 ∨ a.cmd = 5)).Sublist (w ++ a :: seen a.x a.y m f l) := by
      intro w m f hc
      rw [List.filter_cons_of_pos (by simpa using hc)]
      exact List.Sublist.trans (List.Sublist.cons_cons a (ih a.x a.y m f).1) (List.sublist_append_right _ _)
    by_cases c0 : a.cmd = 0
    · have e : seen px py moved first (a :: l) = (if moved = true ∧ a.x ≠ px ∧ a.y ≠ py then [⟨px, py, 0⟩] else []) ++
        a :: seen a.x a.y false false l := by rw [seen, if_pos c0]
      rw [e]
      refine ⟨sub _ _ _ (.inl c0), ?_, pos _ _ _ _⟩
      rw [List.filter_append, List.filter_cons_of_neg (by simp [c0]), List.filter_cons_of_neg (by simp [c0]),
        (ih _ _ _ _).2.1]
      split <;> rfl
    by_cases c1 : a.cmd = 1
    · have e : seen px py moved first (a :: l) = (if first = true then [] else [⟨px, py, 2⟩]) ++
        a :: seen a.x a.y true false l := by rw [seen, if_neg c0, if_pos c1]
      rw [e]
      refine ⟨sub _ _ _ (.inr (.inl c1)), ?_, pos' _ _ _ _⟩
      rw [List.filter_append, List.filter_cons_of_neg (by simp [c1]), List.filter_cons_of_neg (by simp [c1]),
        (ih _ _ _ _).2.1]
      split <;> rfl
    by_cases c5 : a.cmd = 5
    · have e : seen px py moved first (a :: l) = (if moved = true then [⟨px, py, 0⟩] else []) ++
        a :: seen a.x a.y false false l := by rw [seen, if_neg c0, if_neg c1, if_pos c5]
      rw [e]
      refine ⟨sub _ _ _ (.inr (.inr (.inr c5))), ?_, pos _ _ _ _⟩
      rw [List.filter_append, List.filter_cons_of_pos (by simp [c5]), List.filter_cons_of_pos (by simp [c5]),
        (ih _ _ _ _).2.1]
      split <;> rfl
    by_cases c4 : a.cmd = 4
    · have hl : l = [] := by
        cases l with
        | nil => rfl
        | cons b l => exact absurd c4 (h4 a (by simp))
      subst hl
      have e : seen px py moved first [a] = [a] := by rw [seen, if_neg c0, if_neg c1, if_neg c5, if_pos c4]
      rw [e]
      exact ⟨List.filter_sublist, rfl, fun b hb => .inr ⟨b, hb, rfl, rfl⟩⟩
    · have e : seen px py moved first (a :: l) = seen a.x a.y moved false l := by
        rw [seen, if_neg c0, if_neg c1, if_neg c5, if_neg c4]
      rw [e, List.filter_cons_of_neg (by simp [c0, c1, c4, c5]), List.filter_cons_of_neg (by simp [c5])]
      refine ⟨(ih _ _ _ _).1, (ih _ _ _ _).2.1, fun b hb => ?_⟩
      rcases (ih a.x a.y _ _).2.2 b hb with hh | ⟨d, hd, hh⟩
      · exact .inr ⟨a, by simp, hh⟩
      · exact .inr ⟨d, by simp [hd], hh⟩

/-- C12: every stitch and colour change of the design is read back in its place and order, the colour changes are exactly
those of the design (with stops), and every stitch read is at a place the design goes through (or the origin). What is
missing for the full claim: there can be additional stitches, see `C12_extra_strike`. -/
theorem C12_strikes_partial (hlm : lm.Sound) (hv : o.ValidSequins) (hr : o.round = true)
    (h1 : o.maxStitch = some 2047) (h2 : o.maxJump = some 2047) (h3 : o.longStitch = 0xF1 ∨ o.longStitch = 0xF2)
    (hs : o.sequin ≠ 0xF5)
    (hq : ∀ st ∈ source, st.low ≠ 0xD5 ∧ st.low ≠ 0xD6 ∧ st.low ≠ 0xF0 ∧ st.low ≠ 0xF5)
    (h : encode o lm threads source = .ok (out, ths)) (rest : Bytes) :
    let design := place 0 0 (deltas 0 0 (stopsAsChanges out))
    let back := readSection (encodeSection (stopsAsChanges out) ++ 0x00 :: rest)
    (design.filter (fun a => a.cmd = 0 ∨ a.cmd = 1 ∨ a.cmd = 4 ∨ a.cmd = 5)).Sublist back ∧
    back.filter (fun a => a.cmd = 5) = design.filter (fun a => a.cmd = 5) ∧
    (∀ a ∈ back, (a.x = 0 ∧ a.y = 0) ∨ ∃ b ∈ design, a.x = b.x ∧ a.y = b.y) := by
  intro design back
  have he : back = seen 0 0 true true design := C12_exact hlm hv hr h1 h2 h3 hs hq h rest
  rw [he]
  refine seen_sublist 0 0 true true design ?_
  obtain ⟨l, e, rfl, hd, hok⟩ := encoded_recs (M := 2047) (by decide) hlm hv hr (by rw [h1]; norm_num)
    (by rw [h2]; norm_num) h3 hs hq h
  have hd' : deltas 0 0 (stopsAsChanges (l ++ [e])) =
      (deltas 0 0 l).map (fun r => if r.cmd = 3 then ⟨r.dx, r.dy, 5⟩ else r) ++ [⟨0, 0, 4⟩] := by
    rw [deltas_stops, hd, List.map_append]; rfl
  show ∀ a ∈ (place 0 0 (deltas 0 0 (stopsAsChanges (l ++ [e])))).dropLast, a.cmd ≠ 4
  rw [hd', place_append]
  simp only [place]
  rw [List.dropLast_concat]
  intro a ha
  have cm : ∀ (rs : List Rec) (x y : ℚ), (place x y rs).map (·.cmd) = rs.map (·.cmd) := by
    intro rs
    induction rs with
    | nil => intros; rfl
    | cons r rs ih => intro x y; simp [place, ih]
  have : a.cmd ∈ ((deltas 0 0 l).map (fun r => if r.cmd = 3 then (⟨r.dx, r.dy, 5⟩ : Rec) else r)).map (·.cmd) := by
    rw [← cm _ 0 0]; exact List.mem_map_of_mem ha
  obtain ⟨r, hr1, hr2⟩ := List.mem_map.1 this
  obtain ⟨r0, h0, rfl⟩ := List.mem_map.1 hr1
  rw [← hr2]
  have := (hok r0 h0).1
  unfold RecOK at this
  split
  · show (5 : Int) ≠ 4; decide
  · omega

/-- The PEC settings, `PecWriter.py` 12-16. -/
def settings : Settings where
  maxStitch := some 2047
  maxJump := some 2047
  fullJump := true
  round := true
  sequinContingency := some CONTINGENCY_SEQUIN_JUMP

example : settings.ValidSequins ∧ settings.sequin ≠ 0xF5 :=
  ⟨fun v h => by injection h with h; subst h; exact .inr (.inl rfl), by decide⟩

example : readSection (encodeSection (stopsAsChanges (demoEncode settings demoPattern)) ++ [0]) =
    [⟨0, 0, 0⟩, ⟨5, 3, 0⟩, ⟨5, 3, 2⟩, ⟨-300, 4, 1⟩, ⟨-300, 4, 0⟩, ⟨-300, 4, 5⟩, ⟨-300, 4, 2⟩, ⟨-301, 4, 1⟩,
     ⟨-301, 4, 0⟩, ⟨-301, 4, 5⟩, ⟨-301, 4, 2⟩, ⟨-301, -4, 1⟩, ⟨-301, -4, 0⟩, ⟨-301, -4, 4⟩] := by decide +kernel

/-- A pattern that changes colour after a jump. -/
def jumpChange : List Stitch := [⟨0, 0, 0⟩, ⟨5, 5, 0⟩, ⟨9, 9, 1⟩, ⟨9, 9, 5⟩, ⟨20, 20, 0⟩]

/-- Why C12 is only partial: the section has a stitch at (9, 9), where the design only jumps. -/
theorem C12_extra_strike :
    ⟨9, 9, 0⟩ ∈ readSection (encodeSection (stopsAsChanges (demoEncode settings jumpChange)) ++ [0]) ∧
    ⟨9, 9, 0⟩ ∉ demoEncode settings jumpChange := by decide +kernel

/-! ## Whole files -/

theorem drop_past {α : Type} (a b : List α) {n : Nat} (k : Nat) (h : a.length = n) : (a ++ b).drop (n + k) = b.drop k := by
  subst h
  rw [List.drop_append]
  simp

theorem flatten_slice {α : Type} (ls : List (List α)) (n : Nat) (h : ∀ l ∈ ls, l.length = n) (i : Nat) (hi : i < ls.length) :
    (ls.flatten.drop (i * n)).take n = ls[i] := by
  induction ls generalizing i with
  | nil => simp at hi
  | cons l ls ih =>
    have hl := h l (by simp)
    cases i with
    | zero => simp [← hl]
    | succ i =>
      rw [List.flatten_cons, Nat.add_mul, Nat.one_mul, Nat.add_comm, drop_past _ _ _ hl]
      simpa using ih (fun a ha => h a (by simp [ha])) i (by simpa using hi)

theorem label_length (name : Str) (h : ∀ c ∈ name.take 8, c.utf8Size = 1) :
    (utf8 ("LA:".toList ++ padRight 16 (name.take 8) ++ ['\r'])).length = 20 := by
  rw [utf8_length_ascii]
  · have : (name.take 8).length ≤ 8 := by rw [List.length_take]; omega
    simp only [padRight, List.length_append, List.length_replicate]
    have e1 : ("LA:".toList).length = 3 := rfl
    have e2 : ['\r'].length = 1 := rfl
    omega
  · intro c hc
    simp only [padRight, List.mem_append, List.mem_replicate] at hc
    rcases hc with (hc | hc | ⟨_, rfl⟩) | hc
    · have : ∀ c ∈ "LA:".toList, c.utf8Size = 1 := by decide +kernel
      exact this c hc
    · exact h c hc
    · decide
    · have : ∀ c ∈ ['\r'], c.utf8Size = 1 := by decide +kernel
      exact this c hc

theorem flatten_slice_append {α : Type} (ls : List (List α)) (n : Nat) (h : ∀ l ∈ ls, l.length = n) (t : List α) (i : Nat)
    (hi : i < ls.length) : ((ls.flatten ++ t).drop (i * n)).take n = ls[i] := by
  induction ls generalizing i with
  | nil => simp at hi
  | cons l ls ih =>
    have hl := h l (by simp)
    cases i with
    | zero => simp [← hl]
    | succ i =>
      rw [List.flatten_cons, Nat.add_mul, Nat.one_mul, Nat.add_comm, List.append_assoc, drop_past _ _ _ hl]
      simpa using ih (fun a ha => h a (by simp [ha])) i (by simpa using hi)

/-- What the reader finds in a PEC part that is followed by something else. -/
theorem read_layout (name : Str) (colors : List Nat) (w h : Int) (graphics : List Bytes) (l : List Stitch)
    (hname : ∀ c ∈ name.take 8, c.utf8Size = 1) (hc1 : 1 ≤ colors.length) (hc2 : colors.length ≤ 255)
    (hl : 16 + (encodeSection l).length < 2 ^ 24) (tail : Bytes) :
    ∃ f, write name colors w h graphics l = .ok f ∧
      read (f ++ tail) = .ok ⟨some (strip (name.take 8)), colors.map (fun c : Nat => (c : Int)),
        readSection (encodeSection l ++ (graphics.flatten ++ tail)),
        (List.range (colors.length + 1)).map (fun i => ((graphics.flatten ++ tail).drop (i * 228)).take 228), 6⟩ := by
  have hne : colors.length ≠ 0 := by omega
  have eh : header name colors = .ok (utf8 ("LA:".toList ++ padRight 16 (name.take 8) ++ ['\r']) ++
    (List.replicate 12 0x20 ++ [0xFF, 0x00]) ++ writeInt8 6 ++ writeInt8 38 ++
    (List.replicate 12 0x20 ++ ((colors.length : Int) - 1) :: colors.map (fun c : Nat => (c : Int))) ++
    List.replicate (463 - colors.length) 0x20) := by
    unfold header
    rw [if_neg (by omega), if_pos hne]
  have hlab := label_length name hname
  have hdec : ∀ r : Bytes, decodeUtf8 (((utf8 ("LA:".toList ++ padRight 16 (name.take 8) ++ ['\r']) ++ r).drop 3).take 16) =
      some (padRight 16 (name.take 8)) := by
    intro r
    have e3 : (utf8 "LA:".toList).length = 3 := by decide +kernel
    have e16 : (utf8 (padRight 16 (name.take 8))).length = 16 := by
      rw [utf8_append, utf8_append, List.length_append, List.length_append, e3] at hlab
      have : (utf8 ['\r']).length = 1 := by decide +kernel
      omega
    have d := drop_past (utf8 "LA:".toList) (utf8 (padRight 16 (name.take 8)) ++ (utf8 ['\r'] ++ r)) 0 e3
    rw [utf8_append, utf8_append, List.append_assoc, List.append_assoc, d, List.drop_zero,
      List.take_left' e16, decodeUtf8_utf8]
  generalize utf8 ("LA:".toList ++ padRight 16 (name.take 8) ++ ['\r']) = label at eh hlab hdec
  refine ⟨_, by unfold write; rw [eh]; rfl, ?_⟩
  unfold block
  simp only [List.append_assoc]
  have hsec := hl
  generalize hS : encodeSection l ++ (graphics.flatten ++ tail) = S
  have cmap : (colors.map (fun c : Nat => (c : Int))).length = colors.length := List.length_map ..
  generalize hC : colors.map (fun c : Nat => (c : Int)) = C at cmap ⊢
  have h24 : (writeInt24le ((16 + (encodeSection l).length : Nat) : Int)).length = 3 := rfl
  have r24 : ∀ r : Bytes, readInt24le (writeInt24le ((16 + (encodeSection l).length : Nat) : Int) ++ r) =
      (some ((16 + (encodeSection l).length : Nat) : Int), r) := by
    intro r
    rw [(C02_read_write _ _).2.2.2.1]
    congr 2
    omega
  generalize writeInt24le ((16 + (encodeSection l).length : Nat) : Int) = L3 at h24 r24 ⊢
  have htail : (writeInt16le w ++ (writeInt16le h ++ (writeInt16le 0x1E0 ++ writeInt16le 0x1B0))).length = 8 := rfl
  have etail : writeInt16le w ++ (writeInt16le h ++ (writeInt16le 0x1E0 ++ (writeInt16le 0x1B0 ++ S))) =
    (writeInt16le w ++ (writeInt16le h ++ (writeInt16le 0x1E0 ++ writeInt16le 0x1B0))) ++ S := by simp only [List.append_assoc]
  rw [etail]
  generalize writeInt16le w ++ (writeInt16le h ++ (writeInt16le 0x1E0 ++ writeInt16le 0x1B0)) = T at htail ⊢
  have hR : (List.replicate 12 (0x20 : Int)).length = 12 := List.length_replicate ..
  generalize List.replicate 12 (0x20 : Int) = R at hR ⊢
  have hP : (List.replicate (463 - colors.length) (0x20 : Int)).length = 463 - colors.length := List.length_replicate ..
  generalize List.replicate (463 - colors.length) (0x20 : Int) = P at hP ⊢
  have d34 : ∀ (k : Nat) (r : Bytes), (label ++ (R ++ ([0xFF, 0x00] ++ r))).drop (34 + k) = r.drop k := by
    intro k r
    have : 34 + k = 20 + (12 + (2 + k)) := by omega
    rw [this, drop_past _ _ _ hlab, drop_past _ _ _ hR, drop_past _ _ (n := 2) _ rfl]
  generalize hF : label ++ (R ++ ([0xFF, 0x00] ++ (writeInt8 6 ++ (writeInt8 38 ++ (R ++ (((colors.length : Int) - 1) :: C ++
    (P ++ ([0x00, 0x00] ++ (L3 ++ ([0x31, 0xFF, 0xF0] ++ (T ++ S))))))))))) = F
  have f34 : F.drop 34 = [6] ++ ([38] ++ (R ++ ([((colors.length : Int) - 1)] ++ (C ++
      (P ++ ([0x00, 0x00] ++ (L3 ++ ([0x31, 0xFF, 0xF0] ++ (T ++ S))))))))) := by
    rw [← hF]; exact d34 0 _
  have next : ∀ (n m : Nat) (a b : Bytes), F.drop n = a ++ b → a.length = m → F.drop (n + m) = b := by
    intro n m a b h1 h2
    rw [← List.drop_drop, h1, ← h2, List.drop_left]
  have f35 := next 34 1 _ _ f34 rfl
  have f36 := next 35 1 _ _ f35 rfl
  have f48 := next 36 12 _ _ f36 hR
  have f49 := next 48 1 _ _ f48 rfl
  have f49c := next 49 colors.length _ _ f49 cmap
  have f512 := next (49 + colors.length) (463 - colors.length) _ _ f49c hP
  have e512 : 49 + colors.length + (463 - colors.length) = 512 := by omega
  rw [e512] at f512
  have f514 := next 512 2 _ _ f512 rfl
  have f517 := next 514 3 _ _ f514 h24
  have f520 := next 517 3 _ _ f517 rfl
  have f528 := next 520 8 _ _ f520 htail
  have fend := next 528 (encodeSection l).length _ _ (f528.trans hS.symm) rfl
  have i34 : (readInt8 (F.drop 34)).1 = some 6 := by rw [f34]; rfl
  have i35 : (readInt8 (F.drop 35)).1 = some 38 := by rw [f35]; rfl
  have i48 : (readInt8 (F.drop 48)).1 = some ((colors.length : Int) - 1) := by
    rw [f48]
    rfl
  have t1 : ((colors.length : Int) - 1 + 1).toNat = colors.length := by omega
  have t2 : ((colors.length : Int) - 1).toNat = colors.length - 1 := by omega
  have t3 : ((colors.length : Int) - 1 + 2).toNat = colors.length + 1 := by omega
  have tk : (F.drop 49).take colors.length = C := by rw [f49, ← cmap, List.take_left]
  have hlb : (decodeUtf8 ((F.drop 3).take 16)).map strip = some (strip (name.take 8)) := by
    rw [← hF, hdec, Option.map_some]
    unfold padRight
    rw [strip_blanks]
  unfold read
  rw [i34, i35, i48]
  simp only [t1, t2, t3, tk, cmap, hlb]
  have tp : 49 + colors.length + 0x1D0 - (colors.length - 1) = 514 := by omega
  rw [tp, f514, r24]
  have ts : ((((16 + (encodeSection l).length : Nat) : Int)) - 5 + ((514 + 3 : Nat) : Int)).toNat =
      528 + (encodeSection l).length := by omega
  simp only [ts]
  congr 2
  · show readSection (F.drop 528) = readSection S
    rw [f528]
  · have e228 : ((6 : Int) * 38).toNat = 228 := by decide
    refine List.map_congr_left (fun i _ => ?_)
    rw [e228, ← List.drop_drop, fend]

/-- C68: for a name of which the first eight characters are ASCII and 1 to 255 colours, the reader finds in a PEC file
exactly the first eight characters of the name (without blanks at the ends), the colours, the stitch section, and the thumbnails that were
written. -/
theorem C68_layout_partial (name : Str) (colors : List Nat) (w h : Int) (graphics : List Bytes) (l : List Stitch)
    (hname : ∀ c ∈ name.take 8, c.utf8Size = 1) (hc1 : 1 ≤ colors.length) (hc2 : colors.length ≤ 255)
    (hg1 : graphics.length = colors.length + 1) (hg2 : ∀ g ∈ graphics, g.length = 228)
    (hl : 16 + (encodeSection l).length < 2 ^ 24) :
    ∃ f, write name colors w h graphics l = .ok f ∧
      read f = .ok ⟨some (strip (name.take 8)), colors.map (fun c : Nat => (c : Int)),
        readSection (encodeSection l ++ graphics.flatten), graphics, 6⟩ := by
  obtain ⟨f, h1, h2⟩ := read_layout name colors w h graphics l hname hc1 hc2 hl []
  refine ⟨f, h1, ?_⟩
  rw [List.append_nil, List.append_nil] at h2
  rw [h2]
  congr 2
  rw [← hg1]
  apply List.ext_getElem
  · simp
  · intro i h1 h2
    have hi : i < graphics.length := by simpa using h1
    simp only [List.getElem_map, List.getElem_range]
    have := flatten_slice_append graphics 228 hg2 [] i hi
    rwa [List.append_nil] at this

/-- C68 is only partial: with a name that is not ASCII everything after the label is shifted; here the reader takes the
colours from the wrong place. -/
theorem C68_name_shifts :
    (match write "éé".toList [5] 100 100 [List.replicate 228 0, List.replicate 228 0] [⟨0, 0, 4⟩] with
      | .ok f => (match read f with | .ok q => q.colors | .error _ => [])
      | .error _ => []) ≠ [5] := by decide +kernel

/-- And more than 255 colours are refused. -/
theorem C68_too_many (name : Str) (colors : List Nat) (w h : Int) (graphics : List Bytes) (l : List Stitch) (hc : 256 ≤ colors.length) :
    write name colors w h graphics l = .error .assertionError := by
  unfold write header
  rw [if_pos (by omega)]
  rfl

end Pec
end Emb
