import Verif.Exp
import Verif.Format

/-!
# Property C08: EXP files
-/

namespace Emb
namespace Exp

/-- What an EXP file can show: STITCH (0), JUMP (1), TRIM (2), COLOR_CHANGE (5), END (4); a STOP (3) is a colour change;
there are no speeds. -/
def shows (c : Int) : Option Int :=
  if c = 0 ∨ c = 1 ∨ c = 2 ∨ c = 4 ∨ c = 5 then some c else if c = 3 then some 5 else none

theorem readRecs_stitch (b0 b1 : Int) (rest : Bytes) (h : b0 ≠ 0x80) :
    readRecs (b0 :: b1 :: rest) = ⟨signed8 b0, -signed8 b1, STITCH⟩ :: readRecs rest := by
  rw [readRecs.eq_def]; simp only [if_pos h]

theorem one (r : Rec) (h : RecOK 127 r) (h9 : r.cmd ≠ 9) (rest : Bytes) :
    readRecs (writeRec r ++ rest) = viewRec shows [r] ++ readRecs rest := by
  have neg : ∀ v : Int, -127 ≤ v → v ≤ 127 → -signed8 (lo8 (-v)) = v := fun v h1 h2 => by
    unfold lo8; rw [signed8_mod _ (by omega) (by omega)]; omega
  have pos : ∀ v : Int, -127 ≤ v → v ≤ 127 → signed8 (lo8 v) = v := fun v h1 h2 => by
    unfold lo8; rw [signed8_mod _ (by omega) (by omega)]
  obtain ⟨dx, dy, c⟩ := r
  unfold RecOK at h
  simp only at h h9
  rcases h with ⟨h | h, h1, h2, h3, h4⟩ | ⟨hc, h1, h2⟩
  · subst h
    show readRecs (lo8 dx :: lo8 (-dy) :: rest) = ⟨dx, dy, 0⟩ :: readRecs rest
    rw [readRecs_stitch _ _ _ (by unfold lo8; omega), pos _ h1 h2, neg _ h3 h4]; rfl
  · subst h
    show readRecs (0x80 :: 0x04 :: lo8 dx :: lo8 (-dy) :: rest) = ⟨dx, dy, 1⟩ :: readRecs rest
    rw [readRecs.eq_def]
    simp [pos _ h1 h2, neg _ h3 h4, JUMP]
  · subst h1; subst h2
    rcases hc with rfl | rfl | rfl | rfl | rfl | rfl
    · show readRecs (0x80 :: 0x80 :: 0x07 :: 0x00 :: rest) = ⟨0, 0, 2⟩ :: readRecs rest
      rw [readRecs.eq_def]; simp [TRIM]
    · show readRecs (0x80 :: 0x01 :: 0x00 :: 0x00 :: rest) = ⟨0, 0, 5⟩ :: readRecs rest
      rw [readRecs.eq_def]; simp [COLOR_CHANGE, signed8]
    · show readRecs (0x80 :: 0x01 :: 0x00 :: 0x00 :: rest) = ⟨0, 0, 5⟩ :: readRecs rest
      rw [readRecs.eq_def]; simp [COLOR_CHANGE, signed8]
    · exact absurd rfl h9
    · rfl
    · rfl

/-- Records within the limits are read back one by one. -/
theorem readRecs_write (rs : List Rec) (h : ∀ r ∈ rs, RecOK 127 r ∧ r.cmd ≠ 9) :
    readRecs (rs.flatMap writeRec) = viewRec shows rs := by
  have := parse_flatMap writeRec (fun r => viewRec shows [r]) readRecs rs
    (fun r hr rest => one r (h r hr).1 (h r hr).2 rest) []
  rw [List.append_nil] at this
  rw [this]
  have e : readRecs [] = [] := by rw [readRecs.eq_def]
  rw [e, List.append_nil]
  clear h this e
  induction rs with
  | nil => rfl
  | cons r rs ih => rw [List.flatMap_cons, ih, ← viewRec_append]; rfl

variable {o : Settings} {lm : Libm} {threads : List Thread} {source out : List Stitch} {ths : List (Option Thread)}

/-- C08: for every source pattern that does not change the limits or switch sequins on, encoding with the EXP settings,
writing, and reading back gives the encoded commands in order, all of them at the positions of the encoded pattern rounded
to the grid; only a STOP becomes a colour change and speeds are dropped. -/
theorem C08_roundtrip (hlm : lm.Sound) (hv : o.ValidSequins) (hr : o.round = true)
    (h1 : o.maxStitch = some 127) (h2 : o.maxJump = some 127) (h3 : o.longStitch = 0xF1 ∨ o.longStitch = 0xF2)
    (hc : o.changeCommand ≠ 9) (hs : o.sequin ≠ 0xF5)
    (hq : ∀ st ∈ source, st.low ≠ 0xD5 ∧ st.low ≠ 0xD6 ∧ st.low ≠ 0xF0 ∧ st.low ≠ 0xF5)
    (h : encode o lm threads source = .ok (out, ths)) :
    read (write out) = view shows (place 0 0 (deltas 0 0 out)) := by
  obtain ⟨l, e, rfl, hd, hok⟩ := encoded_recs (M := 127) (by decide) hlm hv hr (by rw [h1]; norm_num)
    (by rw [h2]; norm_num) h3 hs hq h
  have hok' : ∀ r ∈ deltas 0 0 l, RecOK 127 r ∧ r.cmd ≠ 9 := fun r hr => ⟨(hok r hr).1, fun h9 => hc ((hok r hr).2.2 h9)⟩
  have e1 : write (l ++ [e]) = (deltas 0 0 l).flatMap writeRec := by
    unfold write; rw [hd, List.flatMap_append]; simp [writeRec, STITCH, JUMP, TRIM, COLOR_CHANGE, STOP]
  unfold read
  rw [e1, readRecs_write _ hok', hd]
  have : viewRec shows (deltas 0 0 l) ++ [⟨0, 0, END⟩] = viewRec shows (deltas 0 0 l ++ [⟨0, 0, 4⟩]) := by
    rw [viewRec_append]; rfl
  rw [this, place_viewRec]
  intro r hr hg
  rcases List.mem_append.1 hr with hr | hr
  · rcases (hok' r hr).1 with hh | hh
    · exfalso; unfold shows at hg; rw [if_pos (by omega)] at hg; cases hg
    · exact hh.2
  · simp at hr; subst hr; exact ⟨rfl, rfl⟩

/-- The displacement −128, outside the limit, would not survive: its byte is the escape code. -/
theorem C08_escape : ∃ r : Rec, r.cmd = 0 ∧ r.dx = -128 ∧ readRecs (writeRec r ++ writeRec ⟨1, 0, 0⟩) ≠ [r, ⟨1, 0, 0⟩] :=
  ⟨⟨-128, 0, 0⟩, rfl, rfl, by decide +kernel⟩

/-- The EXP settings, `ExpWriter.py` 3-7. -/
def settings : Settings where
  maxStitch := some 127
  maxJump := some 127
  fullJump := true
  round := true
  sequinContingency := some CONTINGENCY_SEQUIN_JUMP

example : settings.ValidSequins ∧ settings.changeCommand ≠ 9 ∧ settings.sequin ≠ 0xF5 :=
  ⟨fun v h => by injection h with h; subst h; exact .inr (.inl rfl), by decide, by decide⟩

example : read (write (demoEncode settings demoPattern)) =
    [⟨0, 0, 0⟩, ⟨5, 3, 0⟩, ⟨5, 3, 2⟩, ⟨-97, 3, 1⟩, ⟨-198, 4, 1⟩, ⟨-300, 4, 1⟩, ⟨-300, 4, 0⟩, ⟨-300, 4, 5⟩, ⟨-301, 4, 1⟩,
     ⟨-301, 4, 0⟩, ⟨-301, 4, 5⟩, ⟨-301, -4, 1⟩, ⟨-301, -4, 0⟩, ⟨-301, -4, 4⟩] := by decide +kernel

/-- A pattern that switches sequins on itself. -/
def sequinDemo : List Stitch := [⟨0, 0, 0⟩, ⟨0, 0, 0xF5⟩, ⟨10, 0, 7⟩, ⟨20, 0, 0⟩, ⟨20, 0, 4⟩]

/-- Why sources that switch sequins on are excluded: the writer has no record for an ejection and skips its displacement,
so everything after it is shifted. -/
theorem C08_sequin_shifts :
    ⟨20, 0, 0⟩ ∈ place 0 0 (deltas 0 0 (demoEncode settings sequinDemo)) ∧
    (∀ a ∈ read (write (demoEncode settings sequinDemo)), a.x ≤ 10) := by decide +kernel

end Exp
end Emb
