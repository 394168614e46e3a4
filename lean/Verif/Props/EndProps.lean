import Verif.Props.CutFileProps
import Verif.Props.JefProps
import Verif.Props.XxxProps
import Verif.Exp

/-!
# C100: what follows the end of a design does not matter
-/

namespace Emb
namespace Readers

/-! ## Specification -/

/-- `read` stops at the end mark `m` after whole records of `n` bytes that follow `head` other bytes: whatever these are and whatever follows. -/
def EndMark (read : Nat → Bytes → Option (Except PyErr (List Stitch))) (head n : Nat) (m : Bytes) : Prop :=
  ∀ (f g : Bytes) (k fuel : Nat), f.length = head + n * k → read fuel (f ++ m ++ g) = read fuel (f ++ m)

/-! ## Records of three bytes -/

theorem three_end {σ : Type} {r : σ → Int → Int → Int → List Rec × Option σ} {m0 m1 m2 : Int} (hm : ∀ s, (r s m0 m1 m2).2 = none) (g : Bytes) :
    ∀ (fuel k : Nat) (s : σ) (f : Bytes), f.length = 3 * k →
      loop (three r) fuel s (f ++ [m0, m1, m2] ++ g) = loop (three r) fuel s (f ++ [m0, m1, m2])
  | 0, _, _, _, _ => rfl
  | fuel + 1, 0, s, f, h => by
    obtain rfl : f = [] := List.eq_nil_of_length_eq_zero h
    have := hm s
    simp only [List.nil_append, List.cons_append, loop, three]
    generalize r s m0 m1 m2 = q at *
    match q, this with
    | (out, none), _ => rfl
  | fuel + 1, k + 1, s, f, h => by
    match f, h with
    | b0 :: b1 :: b2 :: f, h =>
      simp only [List.cons_append, loop, three]
      match hr : r s b0 b1 b2 with
      | (out, none) => rfl
      | (out, some s) =>
        dsimp only
        rw [three_end hm g fuel k s f (by simp only [List.length_cons] at h; omega)]

theorem end_of {σ : Type} {r : σ → Int → Int → Int → List Rec × Option σ} {m0 m1 m2 : Int} (hm : ∀ s, (r s m0 m1 m2).2 = none) (s : σ) (head : Nat)
    {read : Nat → Bytes → Option (Except PyErr (List Stitch))} (hr : ∀ fuel f, read fuel f = finish (loop (three r) fuel s (f.drop head))) :
    EndMark read head 3 [m0, m1, m2] := by
  intro f g k fuel h
  rw [hr, hr, List.append_assoc, List.drop_append_of_le_length (by omega), List.drop_append_of_le_length (by omega), ← List.append_assoc,
    three_end hm g fuel k s _ (by rw [List.length_drop]; omega)]

/-- **C100** for KSM: the end mark is a record with low bits 8 in its third byte. -/
theorem C100_ksm (a b c : Int) (h : c % 32 = 8) : EndMark readKsm 0x200 3 [a, b, c] :=
  end_of (r := ksmRecord) (fun s => by simp [ksmRecord, h]) _ 0x200 (fun _ _ => rfl)

/-- **C100** for DSB: the end mark is 0xF8. -/
theorem C100_dsb (b c : Int) : EndMark readDsbBody 0 3 [0xF8, b, c] :=
  end_of (r := dsbRecord) (fun s => by simp [dsbRecord]) _ 0 (fun _ _ => rfl)

/-- **C100** for DSZ, FXY and GT: the third byte of the end mark is one that is no other command. -/
theorem C100_dsz (a b c : Int) (h : c % 32 ≠ 0 ∧ c % 32 ≠ 1) (h2 : c < 0x82 ∨ 0x9B < c) : EndMark readDszBody 0 3 [a, b, c] :=
  end_of (r := dszRecord) (fun s => by
    unfold dszRecord
    dsimp only
    rw [if_neg h.1, if_neg h.2, if_neg (by omega), if_neg (by omega), if_neg (by omega)]) _ 0 (fun _ _ => rfl)

theorem C100_fxy (a b c : Int) (h : c % 32 ≠ 0 ∧ c % 32 ≠ 1) (h2 : c < 0x82 ∨ 0x9B < c) : EndMark readFxy 0x100 3 [a, b, c] :=
  end_of (r := dszRecord) (fun s => by
    unfold dszRecord
    dsimp only
    rw [if_neg h.1, if_neg h.2, if_neg (by omega), if_neg (by omega), if_neg (by omega)]) _ 0x100 (fun _ _ => rfl)

theorem C100_gt (a b c : Int) (h : c % 32 ≠ 0 ∧ c % 32 ≠ 1) (h2 : c < 0x82 ∨ 0x9B < c) : EndMark readGt 0x200 3 [a, b, c] :=
  end_of (r := dszRecord) (fun s => by
    unfold dszRecord
    dsimp only
    rw [if_neg h.1, if_neg h.2, if_neg (by omega), if_neg (by omega), if_neg (by omega)]) _ 0x200 (fun _ _ => rfl)

/-- **C100** for NEW: the end mark has the low bits 10001 in its third byte. -/
theorem C100_new (a b c : Int) (h : c % 32 = 17) : EndMark readNew 2 3 [a, b, c] :=
  end_of (r := newRecord) (fun s => by simp [newRecord, h]) _ 2 (fun _ _ => rfl)

/-- **C100** for INB: the low four bits of the third byte are 3 or more. -/
theorem C100_inb (a b c : Int) (h : 3 ≤ c % 16) : EndMark readInb 0x2000 3 [a, b, c] :=
  end_of (r := inbRecord) (fun s => by
    unfold inbRecord
    dsimp only
    rw [if_neg (by omega), if_neg (by omega), if_neg (by omega)]) _ 0x2000 (fun _ _ => rfl)

/-- **C100** for 10O: the end mark is 0x87. -/
theorem C100_10o (b c : Int) : EndMark read10o 0 3 [0x87, b, c] :=
  end_of (r := tenRecord) (fun s => by simp [tenRecord]) _ 0 (fun _ _ => rfl)

/-- **C100** for STC: the end mark is 25. -/
theorem C100_stc (a b : Int) : EndMark readStc 0x28 3 [a, b, 25] :=
  end_of (r := stcRecord) (fun s => by simp [stcRecord]) _ 0x28 (fun _ _ => rfl)

/-- **C100** for ZHS: the end mark is 0x80. -/
theorem C100_zhs (b c : Int) : EndMark readZhsBody 0 3 [0x80, b, c] :=
  end_of (r := zhsRecord) (fun s => by simp [zhsRecord]) _ 0 (fun _ _ => rfl)

/-- **C100** for Sunstar DAT files: the third byte of the end mark is 0. -/
theorem C100_sunstar (a b : Int) : EndMark readSunstar 0x100 3 [a, b, 0] :=
  end_of (r := sunstarRecord) (fun s => by simp [sunstarRecord]) _ 0x100 (fun _ _ => rfl)

/-- A stitch of 5 units, the end mark, and something else. -/
example : readDsbBody 9 ([0x80, 0, 5] ++ [0xF8, 0, 0] ++ [0x80, 0, 7]) = some (.ok [⟨5, 0, 0⟩, ⟨5, 0, 4⟩]) := by decide +kernel

/-! ## Records of nine bytes -/

theorem pcd_round (a x0 x1 x2 b y0 y1 y2 c : Int) (rest : Bytes) : pcdStep () (a :: x0 :: x1 :: x2 :: b :: y0 :: y1 :: y2 :: c :: rest) =
    (match pcdStep () [a, x0, x1, x2, b, y0, y1, y2, c] with
    | .again out s _ => .again out s rest
    | r => r) := by
  unfold pcdStep
  simp only [readInt8, readInt24le, readN, List.take, List.drop]
  split_ifs <;> rfl

theorem pcm_round (a x0 x1 x2 b y0 y1 y2 c : Int) (rest : Bytes) : pcmStep () (a :: x0 :: x1 :: x2 :: b :: y0 :: y1 :: y2 :: c :: rest) =
    (match pcmStep () [a, x0, x1, x2, b, y0, y1, y2, c] with
    | .again out s _ => .again out s rest
    | r => r) := by
  unfold pcmStep
  simp only [readInt8, readInt24be, readN, List.take, List.drop]
  split_ifs <;> rfl

theorem nine_end {step : Unit → Bytes → Next Unit Call} (hs : ∀ a x0 x1 x2 b y0 y1 y2 c rest, step () (a :: x0 :: x1 :: x2 :: b :: y0 :: y1 :: y2 :: c :: rest) =
      (match step () [a, x0, x1, x2, b, y0, y1, y2, c] with
      | .again out s _ => .again out s rest
      | r => r)) {m : Bytes} (hm : step () m = .done []) (hl : m.length = 9) (g : Bytes) :
    ∀ (fuel k : Nat) (f : Bytes), f.length = 9 * k → loop step fuel () (f ++ m ++ g) = loop step fuel () (f ++ m)
  | 0, _, _, _ => rfl
  | fuel + 1, 0, f, h => by
    obtain rfl : f = [] := List.eq_nil_of_length_eq_zero h
    match m, hl with
    | [a, x0, x1, x2, b, y0, y1, y2, c], _ =>
      simp only [List.nil_append, List.cons_append, loop]
      rw [hs, hm]
  | fuel + 1, k + 1, f, h => by
    match f, h with
    | a :: x0 :: x1 :: x2 :: b :: y0 :: y1 :: y2 :: c :: f, h =>
      simp only [List.cons_append, loop]
      rw [hs, hs _ _ _ _ _ _ _ _ _ (f ++ m)]
      cases step () [a, x0, x1, x2, b, y0, y1, y2, c] with
      | again out s _ =>
        dsimp only
        rw [nine_end hs hm hl g fuel k f (by simp only [List.length_cons] at h; omega)]
      | done _ => rfl
      | raise _ => rfl

/-- **C100** for PCD, PCQ and PCS: the control byte of the end mark is not 0 and has neither of the bits 0 and 2. -/
theorem C100_pcd (a x0 x1 x2 b y0 y1 y2 c : Int) (h0 : c ≠ 0) (h1 : c % 2 = 0) (h2 : c / 4 % 2 = 0) :
    EndMark readPcdBody 0 9 [a, x0, x1, x2, b, y0, y1, y2, c] := by
  intro f g k fuel h
  have hm : pcdStep () [a, x0, x1, x2, b, y0, y1, y2, c] = .done [] := by
    simp [pcdStep, readInt8, readInt24le, readN, h0, bit, h1, h2]
  unfold readPcdBody
  rw [nine_end pcd_round hm rfl g fuel k f (by omega)]

/-- **C100** for PCM. -/
theorem C100_pcm (a x0 x1 x2 b y0 y1 y2 c : Int) (h0 : c ≠ 0) (h1 : c % 2 = 0) (h2 : c / 4 % 2 = 0) :
    EndMark readPcmBody 0 9 [a, x0, x1, x2, b, y0, y1, y2, c] := by
  intro f g k fuel h
  have hm : pcmStep () [a, x0, x1, x2, b, y0, y1, y2, c] = .done [] := by
    simp [pcmStep, readInt8, readInt24be, readN, h0, bit, h1, h2]
  unfold readPcmBody
  rw [nine_end pcm_round hm rfl g fuel k f (by omega)]

theorem max_end (g : Bytes) : ∀ (n fuel : Nat) (f : Bytes), 8 * n ≤ f.length → loop maxStep fuel n (f ++ g) = loop maxStep fuel n f
  | _, 0, _, _ => rfl
  | 0, fuel + 1, f, _ => rfl
  | n + 1, fuel + 1, f, h => by
    match f, h with
    | x0 :: x1 :: x2 :: a :: y0 :: y1 :: y2 :: c :: f, h =>
      have := max_end g n fuel f (by simp only [List.length_cons] at h; omega)
      simp only [List.cons_append, loop, maxStep, readInt24le, readInt8, readN, List.take, List.drop]
      rw [this]

/-- **C100** for MAX: the number of stitches is at 0xD5, and what follows them is not read. -/
theorem C100_max (f g : Bytes) (fuel : Nat) (n : Int) (h : (readInt32le (f.drop 0xD5)).1 = some n) (hl : 0xD9 + 8 * n.toNat ≤ f.length) :
    readMax fuel (f ++ g) = readMax fuel f := by
  have hne : f.drop 0xD5 ≠ [] := drop_ne (by omega)
  unfold readMax
  rw [drop_cut_pos g hne, readInt32le_append _ g n h]
  have hx : readInt32le (f.drop 0xD5) = (some n, (readInt32le (f.drop 0xD5)).2) := by rw [← h]
  have hr : (readInt32le (f.drop 0xD5)).2 = f.drop 0xD9 := by
    match hd : f.drop 0xD5 with
    | [] => exact absurd hd hne
    | [_] => rw [hd] at h; cases h
    | [_, _] => rw [hd] at h; cases h
    | [_, _, _] => rw [hd] at h; cases h
    | a :: b :: c :: d :: t =>
      have : f.drop 0xD9 = (f.drop 0xD5).drop 4 := by rw [List.drop_drop]
      rw [this, hd]
      rfl
  rw [hx]
  dsimp only
  rw [max_end g n.toNat fuel _ (by rw [hr, List.length_drop]; omega)]

/-! ## Records of two or four bytes -/

/-- What the loop makes of `r` does not depend on what follows it. -/
def Whole (step : Unit → Bytes → Next Unit Rec) (r : Bytes) : Prop :=
  (∃ out, ∀ rest, step () (r ++ rest) = .again out () rest) ∨ ∃ out, ∀ rest, step () (r ++ rest) = .done out

theorem records_end {step : Unit → Bytes → Next Unit Rec} {m : Bytes} (hm : ∀ rest, step () (m ++ rest) = .done []) (g : Bytes) :
    ∀ (fuel : Nat) (rs : List Bytes), (∀ r ∈ rs, Whole step r) → loop step fuel () (rs.flatten ++ m ++ g) = loop step fuel () (rs.flatten ++ m)
  | 0, _, _ => rfl
  | fuel + 1, [], _ => by
    have := hm []
    rw [List.append_nil] at this
    simp only [List.flatten_nil, List.nil_append, loop, hm, this]
  | fuel + 1, r :: rs, h => by
    have ih := records_end hm g fuel rs (fun a ha => h a (by simp [ha]))
    rw [List.flatten_cons, List.append_assoc, List.append_assoc, loop, loop]
    rcases h r (by simp) with ⟨out, e⟩ | ⟨out, e⟩
    · rw [e, List.append_assoc, e]
      dsimp only
      rw [← List.append_assoc, ih]
    · rw [e, List.append_assoc, e]

/-- Two bytes of which the first is not 0x80, or 0x80 and three more. -/
def Short (r : Bytes) : Prop := (∃ a b, a ≠ 0x80 ∧ r = [a, b]) ∨ ∃ b c d, r = [0x80, b, c, d]

theorem jpx_whole (r : Bytes) (h : Short r) : Whole jpxStep r := by
  rcases h with ⟨a, b, ha, rfl⟩ | ⟨b, c, d, rfl⟩
  · exact .inl ⟨_, fun rest => if_pos ha⟩
  · unfold Whole
    simp only [List.cons_append, List.nil_append, jpxStep]
    simp only [ne_eq, not_true_eq_false, if_false]
    by_cases h2 : b = 0x02
    · simp only [if_pos h2]; exact .inl ⟨_, fun _ => rfl⟩
    simp only [if_neg h2]
    by_cases h1 : b = 0x01
    · simp only [if_pos h1]; exact .inl ⟨_, fun _ => rfl⟩
    simp only [if_neg h1]
    exact .inr ⟨_, fun _ => rfl⟩

theorem sew_whole (r : Bytes) (h : Short r) : Whole sewStep r := by
  rcases h with ⟨a, b, ha, rfl⟩ | ⟨b, c, d, rfl⟩
  · exact .inl ⟨_, fun rest => if_pos ha⟩
  · unfold Whole
    simp only [List.cons_append, List.nil_append, sewStep]
    simp only [ne_eq, not_true_eq_false, if_false]
    by_cases h2 : bit b 0 = true
    · simp only [if_pos h2]; exact .inl ⟨_, fun _ => rfl⟩
    simp only [if_neg h2]
    by_cases h1 : b = 0x04 ∨ b = 0x02
    · simp only [if_pos h1]; exact .inl ⟨_, fun _ => rfl⟩
    simp only [if_neg h1]
    by_cases h3 : b = 0x10
    · simp only [if_pos h3]; exact .inl ⟨_, fun _ => rfl⟩
    simp only [if_neg h3]
    exact .inr ⟨_, fun _ => rfl⟩

/-- **C100** for JPX: after any records the end mark is 0x80 with neither 1 nor 2. -/
theorem C100_jpx (rs : List Bytes) (h : ∀ r ∈ rs, Short r) (c : Int) (h1 : c ≠ 1) (h2 : c ≠ 2) (g : Bytes) (fuel : Nat) :
    readJpxBody fuel (rs.flatten ++ [0x80, c] ++ g) = readJpxBody fuel (rs.flatten ++ [0x80, c]) := by
  unfold readJpxBody
  rw [records_end _ g fuel rs (fun r hr => jpx_whole r (h r hr))]
  intro rest
  match rest with
  | [] => rfl
  | [_] => rfl
  | _ :: _ :: _ => simp [jpxStep, h1, h2]

/-- **C100** for SEW: after any records the end mark is 0x80 with an even byte that is not 2, 4 or 0x10. -/
theorem C100_sew (rs : List Bytes) (h : ∀ r ∈ rs, Short r) (c : Int) (h1 : c % 2 = 0) (h2 : c ≠ 2 ∧ c ≠ 4 ∧ c ≠ 0x10) (g : Bytes) (fuel : Nat) :
    readSewBody fuel (rs.flatten ++ [0x80, c] ++ g) = readSewBody fuel (rs.flatten ++ [0x80, c]) := by
  unfold readSewBody
  rw [records_end _ g fuel rs (fun r hr => sew_whole r (h r hr))]
  intro rest
  match rest with
  | [] => rfl
  | [_] => rfl
  | _ :: _ :: _ => simp [sewStep, bit, h1, h2]

/-- Two bytes, of which the first is 0x80 for commands, or 0x80 0x80 and two more for a move. -/
def EmdRecord (r : Bytes) : Prop := (∃ a b, ¬ (a = 0x80 ∧ b = 0x80) ∧ r = [a, b]) ∨ ∃ c d, r = [0x80, 0x80, c, d]

theorem emd_whole (r : Bytes) (h : EmdRecord r) : Whole emdStep r := by
  rcases h with ⟨a, b, ha, rfl⟩ | ⟨c, d, rfl⟩
  · unfold Whole
    simp only [List.cons_append, List.nil_append, emdStep]
    by_cases h0 : a ≠ 0x80
    · simp only [if_pos h0]; exact .inl ⟨_, fun _ => rfl⟩
    simp only [if_neg h0]
    have h1 : ¬ b = 0x80 := fun hb => ha ⟨not_not.1 h0, hb⟩
    simp only [if_neg h1]
    by_cases h2 : b = 0x2A
    · simp only [if_pos h2]; exact .inl ⟨_, fun _ => rfl⟩
    simp only [if_neg h2]
    by_cases h3 : b = 0x7D
    · simp only [if_pos h3]; exact .inl ⟨_, fun _ => rfl⟩
    simp only [if_neg h3]
    by_cases h4 : b = 0xAD
    · simp only [if_pos h4]; exact .inl ⟨_, fun _ => rfl⟩
    simp only [if_neg h4]
    by_cases h5 : b = 0x90
    · simp only [if_pos h5]; exact .inl ⟨_, fun _ => rfl⟩
    simp only [if_neg h5]
    exact .inr ⟨_, fun _ => rfl⟩
  · exact .inl ⟨_, fun _ => rfl⟩

/-- **C100** for EMD: after any records the end mark is 0x80 0xFD. -/
theorem C100_emd (head : Bytes) (hh : head.length = 0x30) (rs : List Bytes) (h : ∀ r ∈ rs, EmdRecord r) (g : Bytes) (fuel : Nat) :
    readEmd fuel (head ++ rs.flatten ++ [0x80, 0xFD] ++ g) = readEmd fuel (head ++ rs.flatten ++ [0x80, 0xFD]) := by
  unfold readEmd
  rw [List.append_assoc head, List.append_assoc head, List.drop_left' hh, List.drop_left' hh,
    records_end (m := [0x80, 0xFD]) (fun _ => rfl) g fuel rs (fun r hr => emd_whole r (h r hr))]

/-- Two bytes of which the first is not 0x80, 0x80 with a byte and 0, or 0x80 with a byte, a code and four bytes. -/
def BroRecord (r : Bytes) : Prop :=
  (∃ a b, a ≠ 0x80 ∧ r = [a, b]) ∨ (∃ a, r = [0x80, a, 0]) ∨
  ∃ a c x y z w, (c = 0x7E ∨ c = 0x03 ∨ 0xE0 < c ∧ c < 0xF0) ∧ r = [0x80, a, c, x, y, z, w]

theorem bro_whole (r : Bytes) (h : BroRecord r) : Whole broStep r := by
  rcases h with ⟨a, b, ha, rfl⟩ | ⟨a, rfl⟩ | ⟨a, c, x, y, z, w, hc, rfl⟩
  · exact .inl ⟨_, fun rest => if_pos ha⟩
  · exact .inl ⟨_, fun rest => rfl⟩
  · left
    have hb : ∀ rest, readInt8 (c :: rest) = (some c, rest) := fun _ => rfl
    simp only [List.cons_append, List.nil_append, broStep, hb]
    simp only [ne_eq, not_true_eq_false, if_false]
    have h0 : ¬ c = 0 := by omega
    have h2 : ¬ c = 2 := by omega
    have h3 : ¬ c = 0xE0 := by omega
    simp only [if_neg h0, if_neg h2, if_neg h3]
    by_cases h4 : c = 0x7E
    · simp only [if_pos h4]; exact ⟨_, fun _ => rfl⟩
    simp only [if_neg h4]
    by_cases h5 : c = 3
    · simp only [if_pos h5]; exact ⟨_, fun _ => rfl⟩
    have h6 : 0xE0 < c ∧ c < 0xF0 := by omega
    simp only [if_neg h5, if_pos h6]; exact ⟨_, fun _ => rfl⟩

/-- **C100** for BRO: after any records the end mark is 0x80, a byte, 0xE0. -/
theorem C100_bro (head : Bytes) (hh : head.length = 0x100) (rs : List Bytes) (h : ∀ r ∈ rs, BroRecord r) (a : Int) (g : Bytes) (fuel : Nat) :
    readBro fuel (head ++ rs.flatten ++ [0x80, a, 0xE0] ++ g) = readBro fuel (head ++ rs.flatten ++ [0x80, a, 0xE0]) := by
  unfold readBro
  rw [List.append_assoc head, List.append_assoc head, List.drop_left' hh, List.drop_left' hh,
    records_end (m := [0x80, a, 0xE0]) (fun _ => rfl) g fuel rs (fun r hr => bro_whole r (h r hr))]

/-- A JPX design of a stitch and a jump, its end mark, and something that could be a stitch. -/
example : readJpxBody 9 ([[5, 0], [0x80, 2, 7, 0]].flatten ++ [0x80, 0x10] ++ [3, 3]) = some (.ok [⟨5, 0, 0⟩, ⟨12, 0, 1⟩, ⟨12, 0, 4⟩]) := by
  decide +kernel

end Readers
end Emb
