import Verif.Xxx
import Verif.Props.TbfProps

/-!
# Properties C15 and C66: XXX files
-/

namespace Emb
namespace Xxx

open U01 (bind_of wdeltas_cmd_mem)

/-- What an XXX file shows of a command: a STITCH (0) of 124 units along an axis is a JUMP (1), a STOP (3) is a COLOR_CHANGE (5). -/
def seen (r : Rec) : Option Rec :=
  if r.cmd % 256 = 0 then some ⟨r.dx, r.dy, if |r.dx| < 124 ∧ |r.dy| < 124 then 0 else 1⟩
  else if r.cmd % 256 = 3 then some ⟨r.dx, r.dy, 5⟩
  else if r.cmd % 256 ≤ 5 then some ⟨r.dx, r.dy, r.cmd % 256⟩
  else none

theorem readRecs_write (rs : List Rec) (e : Rec) (he : e.cmd % 256 = 4)
    (h : ∀ r ∈ rs, RecOK 124 ⟨r.dx, r.dy, r.cmd % 256⟩ ∧ r.cmd % 256 ≠ 9) (rest : Bytes) :
    readRecs (writeRecs (rs ++ [e]) ++ [0x7F, 0x7F, 0x02, 0x14] ++ rest) = .ok (rs.filterMap seen, rest) := by
  induction rs with
  | nil => simp [writeRecs, cmdOf, he, COLOR_CHANGE, STOP, END]; rw [readRecs.eq_def]; simp
  | cons r rs ih =>
    have ih := ih (fun a ha => h a (by simp [ha]))
    obtain ⟨hok, h9⟩ := h r (by simp)
    obtain ⟨dx, dy, w⟩ := r
    unfold RecOK at hok
    simp only at hok h9
    rcases hok with ⟨hc | hc, h1, h2, h3, h4⟩ | ⟨hc, h1, h2⟩
    · by_cases hs : |dx| < 124 ∧ |dy| < 124
      · have hs' := hs
        rw [abs_lt, abs_lt] at hs'
        have ew : writeRecs (⟨dx, dy, w⟩ :: rs ++ [e]) = lo8 dx :: lo8 (-dy) :: writeRecs (rs ++ [e]) := by
          simp only [List.cons_append, writeRecs, cmdOf, hc, COLOR_CHANGE, STOP, END, STITCH]
          rw [if_neg (by decide), if_neg (by decide), if_pos trivial, if_pos (by omega)]; rfl
        have es : seen ⟨dx, dy, w⟩ = some ⟨dx, dy, 0⟩ := by simp [seen, hc, hs]
        rw [ew, List.filterMap_cons, es]
        simp only [List.cons_append]
        rw [readRecs.eq_def]
        simp only
        have s1 : signed8 (lo8 dx) = dx := signed8_mod dx (by omega) (by omega)
        have s2 : signed8 (lo8 (-dy)) = -dy := signed8_mod (-dy) (by omega) (by omega)
        rw [if_neg (by unfold lo8; omega), if_pos (by unfold lo8; omega), bind_of ih, s1, s2, neg_neg]; rfl
      · have hs' := hs
        rw [abs_lt, abs_lt] at hs'
        have ew : writeRecs (⟨dx, dy, w⟩ :: rs ++ [e]) =
            0x7D :: lo8 dx :: lo8 (shr dx 8) :: lo8 (-dy) :: lo8 (shr (-dy) 8) :: writeRecs (rs ++ [e]) := by
          simp only [List.cons_append, writeRecs, cmdOf, hc, COLOR_CHANGE, STOP, END, STITCH]
          rw [if_neg (by decide), if_neg (by decide), if_pos trivial, if_neg (by omega)]
          simp [writeInt16le, shr]
        have es : seen ⟨dx, dy, w⟩ = some ⟨dx, dy, 1⟩ := by simp [seen, hc, hs]
        rw [ew, List.filterMap_cons, es]
        simp only [List.cons_append]
        rw [readRecs.eq_def]
        simp only
        have s1 : ∀ v : Int, -124 ≤ v → v ≤ 124 → signed16 (lo8 (lo8 v) + lo8 (lo8 (shr v 8)) * 2 ^ 8) = v := by
          intro v v1 v2
          simp only [signed16, lo8, shr]
          split_ifs <;> omega
        rw [if_pos (.inl trivial), bind_of ih, s1 dx h1 h2, s1 (-dy) (by omega) (by omega), neg_neg]; rfl
    · have ew : writeRecs (⟨dx, dy, w⟩ :: rs ++ [e]) = 0x7F :: 0x01 :: lo8 dx :: lo8 (-dy) :: writeRecs (rs ++ [e]) := by
        simp [writeRecs, cmdOf, hc, COLOR_CHANGE, STOP, END, STITCH, TRIM, JUMP]
      have es : seen ⟨dx, dy, w⟩ = some ⟨dx, dy, 1⟩ := by simp [seen, hc]
      rw [ew, List.filterMap_cons, es]
      simp only [List.cons_append]
      rw [readRecs.eq_def]
      simp only
      have s1 : signed8 (lo8 dx) = dx := signed8_mod dx (by omega) (by omega)
      have s2 : signed8 (lo8 (-dy)) = -dy := signed8_mod (-dy) (by omega) (by omega)
      rw [if_neg (by decide), if_neg (by decide), if_pos trivial, bind_of ih, s1, s2, neg_neg]; rfl
    · subst h1; subst h2
      rcases hc with hc | hc | hc | hc | hc | hc
      · have ew : writeRecs (⟨0, 0, w⟩ :: rs ++ [e]) = 0x7F :: 0x03 :: 0 :: 0 :: writeRecs (rs ++ [e]) := by
          simp [writeRecs, cmdOf, hc, COLOR_CHANGE, STOP, END, STITCH, TRIM, lo8]
        have es : seen ⟨0, 0, w⟩ = some ⟨0, 0, 2⟩ := by simp [seen, hc]
        rw [ew, List.filterMap_cons, es]
        simp only [List.cons_append]
        rw [readRecs.eq_def]
        simp only
        rw [if_neg (by decide), if_neg (by decide), if_neg (by decide), if_pos trivial, bind_of ih]; rfl
      · have ew : writeRecs (⟨0, 0, w⟩ :: rs ++ [e]) = 0x7F :: 0x08 :: 0 :: 0 :: writeRecs (rs ++ [e]) := by
          simp [writeRecs, cmdOf, hc, COLOR_CHANGE, STOP, lo8]
        have es : seen ⟨0, 0, w⟩ = some ⟨0, 0, 5⟩ := by simp [seen, hc]
        rw [ew, List.filterMap_cons, es]
        simp only [List.cons_append]
        rw [readRecs.eq_def]
        simp only
        rw [if_neg (by decide), if_neg (by decide), if_neg (by decide), if_neg (by decide), if_pos (by decide), bind_of ih]; rfl
      · have ew : writeRecs (⟨0, 0, w⟩ :: rs ++ [e]) = 0x7F :: 0x08 :: 0 :: 0 :: writeRecs (rs ++ [e]) := by
          simp [writeRecs, cmdOf, hc, COLOR_CHANGE, STOP, lo8]
        have es : seen ⟨0, 0, w⟩ = some ⟨0, 0, 5⟩ := by simp [seen, hc]
        rw [ew, List.filterMap_cons, es]
        simp only [List.cons_append]
        rw [readRecs.eq_def]
        simp only
        rw [if_neg (by decide), if_neg (by decide), if_neg (by decide), if_neg (by decide), if_pos (by decide), bind_of ih]; rfl
      · exact absurd hc h9
      all_goals
        have ew : writeRecs (⟨0, 0, w⟩ :: rs ++ [e]) = writeRecs (rs ++ [e]) := by
          simp [writeRecs, cmdOf, hc, COLOR_CHANGE, STOP, END, STITCH, TRIM, JUMP]
        have es : seen ⟨0, 0, w⟩ = none := by simp [seen, hc]
        rw [ew, List.filterMap_cons, es]; exact ih

theorem readThreads_write (ts : List Thread) (rest : Bytes) :
    readThreads ts.length (ts.flatMap threadBytes ++ rest) = ts.map (fun t => t.color % 16777216) := by
  induction ts with
  | nil => rfl
  | cons t ts ih =>
    rw [List.flatMap_cons, List.length_cons, List.map_cons, List.append_assoc]
    simp only [threadBytes, List.cons_append, List.nil_append, readThreads, readInt32be, readN, List.take, List.drop]
    have e : lo8 (lo8 t.blue) + lo8 (lo8 t.green) * 2 ^ 8 + lo8 (lo8 t.red) * 2 ^ 16 + lo8 0 * 2 ^ 24 = t.color % 16777216 := by
      simp only [lo8, Thread.red, Thread.green, Thread.blue]
      omega
    rw [e]
    exact congrArg _ ih

/-- C66 for XXX: the header is 0xFC bytes, so that with the place holder the stitches start at 0x100 whatever the pattern, and the number of colours
is at 0x27. -/
theorem C66_xxx (colors : Nat) (l : List Stitch) (b : Box) (last : Stitch) (rest : Bytes) :
    (header colors l b last).length = 0xFC ∧
    (readInt16le ((header colors l b last ++ rest).drop 0x27)).1 = some ((colors : Int) % 65536) := by
  constructor
  · simp only [header, writeInt16le, writeInt32le, List.length_append, List.length_replicate, List.length_cons, List.length_nil]
  · unfold header
    simp only [List.append_assoc]
    rw [← List.append_assoc (List.replicate 23 0), ← List.append_assoc _ (List.replicate 12 0)]
    rw [List.drop_left' (by simp only [writeInt32le, List.length_append, List.length_replicate, List.length_cons, List.length_nil])]
    simp only [writeInt32le, List.cons_append, readInt16le, readN, List.take, lo8, shr]
    congr 1
    omega

variable {o : Settings} {lm : Libm} {threads ts : List Thread} {source out : List Stitch} {ths : List (Option Thread)}

/-- C15, exactly: for every source pattern that does not change the limits or switch sequins on: encoding with the XXX
settings and writing succeeds, and the file is read back with the colours of up to 65535 threads and the commands as `seen` says. -/
theorem C15_exact (hlm : lm.Sound) (hv : o.ValidSequins) (hr : o.round = true)
    (h1 : o.maxStitch = some 124) (h2 : o.maxJump = some 124) (h3 : o.longStitch = 0xF1 ∨ o.longStitch = 0xF2)
    (hc : o.changeCommand ≠ 9) (hs : o.sequin ≠ 0xF5)
    (hq : ∀ st ∈ source, st.low ≠ 0xD5 ∧ st.low ≠ 0xD6 ∧ st.low ≠ 0xF0 ∧ st.low ≠ 0xF5)
    (h : encode o lm threads source = .ok (out, ths)) (ht : ts.length < 65536) :
    ∃ f, write ts out = .ok f ∧
      read f = .ok (ts.map (fun t => t.color % 16777216), place 0 0 ((wdeltas 0 0 out).filterMap seen)) := by
  obtain ⟨l, e, rfl, hd, hok⟩ := encoded_recs (M := 124) (by decide) hlm hv hr (by rw [h1]; norm_num)
    (by rw [h2]; norm_num) h3 hs hq h
  obtain ⟨he, hw, hok⟩ := recs_words hd hok
  obtain ⟨b, hb, _⟩ := C43_tight (l ++ [e]) (by simp)
  obtain ⟨hlen, _⟩ := C66_xxx ts.length (l ++ [e]) b e []
  obtain ⟨_, hcol⟩ := C66_xxx ts.length (l ++ [e]) b e
    (writeInt32le (((header ts.length (l ++ [e]) b e).length : Int) + 4 + ((writeRecs (wdeltas 0 0 (l ++ [e]))).length : Int)) ++
      (writeRecs (wdeltas 0 0 (l ++ [e])) ++ ([0x7F, 0x7F, 0x02, 0x14] ++ colorBytes ts)))
  refine ⟨header ts.length (l ++ [e]) b e ++
    writeInt32le (((header ts.length (l ++ [e]) b e).length : Int) + 4 + ((writeRecs (wdeltas 0 0 (l ++ [e]))).length : Int)) ++
    writeRecs (wdeltas 0 0 (l ++ [e])) ++ [0x7F, 0x7F, 0x02, 0x14] ++ colorBytes ts, ?_, ?_⟩
  · unfold write
    rw [hb, List.getLast?_append]
    simp only [List.getLast?_singleton, Option.some_or]
  · have hb := readRecs_write (wdeltas 0 0 l) ⟨0, 0, e.cmd⟩ he
      (fun r hr => ⟨(hok r hr).1, fun h9 => absurd ((hok r hr).2.2 h9) hc⟩) (colorBytes ts)
    unfold read
    generalize hph : (writeInt32le (((header ts.length (l ++ [e]) b e).length : Int) + 4 +
      ((writeRecs (wdeltas 0 0 (l ++ [e]))).length : Int))) = ph at *
    have hph : ph.length = 4 := by rw [← hph]; rfl
    have hd : (header ts.length (l ++ [e]) b e ++ ph ++ writeRecs (wdeltas 0 0 (l ++ [e])) ++ [0x7F, 0x7F, 0x02, 0x14] ++
        colorBytes ts).drop 0x100 = writeRecs (wdeltas 0 0 (l ++ [e])) ++ [0x7F, 0x7F, 0x02, 0x14] ++ colorBytes ts := by
      rw [List.append_assoc, List.append_assoc, ← List.append_assoc (writeRecs _), List.drop_left']
      rw [List.length_append, hlen, hph]
    have hn : ((ts.length : Int) % 65536).toNat = ts.length := by omega
    simp only
    rw [hd, hw, bind_of hb, ← hw]
    have hcol' : (readInt16le ((header ts.length (l ++ [e]) b e ++ ph ++ writeRecs (wdeltas 0 0 (l ++ [e])) ++
        [0x7F, 0x7F, 0x02, 0x14] ++ colorBytes ts).drop 0x27)).1 = some ((ts.length : Int) % 65536) := by
      rw [← hcol]; simp only [List.append_assoc]
    rw [hcol']
    simp only [hn]
    have hth : readThreads ts.length ((colorBytes ts).drop 2) = ts.map (fun t => t.color % 16777216) := by
      unfold colorBytes
      simp only [List.append_assoc]
      exact readThreads_write ts _
    rw [hth, hw, List.filterMap_append]
    have : [(⟨0, 0, e.cmd⟩ : Rec)].filterMap seen = [⟨0, 0, 4⟩] := by simp [seen, he]
    rw [this]; rfl

/-- What an XXX file shows of a command word: STITCH (0), JUMP (1), TRIM (2), END (4), COLOR_CHANGE (5) without flags, STOP (3) as a
colour change. -/
def shows (w : Int) : Option Int :=
  if w % 256 = 3 then some 5 else if w % 256 ≤ 5 then some (w % 256) else none

/-- C15: for every source pattern that does not change the limits or switch sequins on, encoded with the XXX settings: if no
encoded stitch is 124 units long along an axis, the file is read back with the same colours and the encoded commands in
order at the positions of the encoded pattern. Partial: stitches of 124 units, which the encoder produces and the format's limit allows, are
read as jumps (`C15_limit_stitch`). STOP is written as a colour change (`C15_stop`). -/
theorem C15_roundtrip_partial (hlm : lm.Sound) (hv : o.ValidSequins) (hr : o.round = true)
    (h1 : o.maxStitch = some 124) (h2 : o.maxJump = some 124) (h3 : o.longStitch = 0xF1 ∨ o.longStitch = 0xF2)
    (hc : o.changeCommand ≠ 9) (hs : o.sequin ≠ 0xF5)
    (hq : ∀ st ∈ source, st.low ≠ 0xD5 ∧ st.low ≠ 0xD6 ∧ st.low ≠ 0xF0 ∧ st.low ≠ 0xF5)
    (h : encode o lm threads source = .ok (out, ths)) (ht : ts.length < 65536)
    (hlim : ∀ r ∈ wdeltas 0 0 out, r.cmd % 256 = 0 → |r.dx| < 124 ∧ |r.dy| < 124) :
    ∃ f, write ts out = .ok f ∧
      read f = .ok (ts.map (fun t => t.color % 16777216), view shows (place 0 0 (wdeltas 0 0 out))) := by
  obtain ⟨f, hw, hrd⟩ := C15_exact hlm hv hr h1 h2 h3 hc hs hq h ht
  refine ⟨f, hw, ?_⟩
  have e2 : ∀ rs : List Rec, (∀ r ∈ rs, r.cmd % 256 = 0 → |r.dx| < 124 ∧ |r.dy| < 124) →
      rs.filterMap seen = viewRec shows rs := by
    intro rs a1
    unfold viewRec
    refine List.filterMap_congr (fun r hr => ?_)
    have b1 := a1 r hr
    unfold seen shows
    by_cases c1 : r.cmd % 256 = 0
    · rw [if_pos c1, if_pos (b1 c1), if_neg (by omega), if_pos (by omega), c1]; rfl
    rw [if_neg c1]
    by_cases c3 : r.cmd % 256 = 3
    · rw [if_pos c3, if_pos c3]; rfl
    rw [if_neg c3, if_neg c3]
    by_cases c2 : r.cmd % 256 ≤ 5
    · rw [if_pos c2, if_pos c2]; rfl
    rw [if_neg c2, if_neg c2]; rfl
  rw [hrd, e2 _ hlim, place_viewRec]
  intro r hr hg
  refine U01.hidden_still hv hs (fun st hst => (hq st hst).2.2.2) h r hr ?_
  obtain ⟨a, ha, ea⟩ := wdeltas_cmd_mem hr
  have h9 := (C21_kinds hv h a ha).2.1
  unfold Stitch.low at h9
  rw [ea] at h9
  unfold shows at hg
  split_ifs at hg with d1 d2
  unfold U01.shows
  rw [if_neg (by omega), if_neg (fun c => hc (h9 c))]

/-- The XXX settings, `XxxWriter.py` 4-7. -/
def settings : Settings where
  maxStitch := some 124
  maxJump := some 124
  round := true

example : settings.ValidSequins ∧ settings.changeCommand ≠ 9 ∧ settings.sequin ≠ 0xF5 :=
  ⟨fun v h => (by simp [settings] at h), by decide, by decide⟩

/-- What is read back from the file of an example pattern. -/
def again (ts : List Thread) (l : List Stitch) : Except PyErr (List Int × List Stitch) :=
  write ts (demoEncode settings l) >>= read

example : again [{ color := 0x102030 }] demoPattern = .ok ([0x102030],
    [⟨0, 0, 0⟩, ⟨5, 3, 0⟩, ⟨5, 3, 2⟩, ⟨-97, 3, 1⟩, ⟨-198, 4, 1⟩, ⟨-300, 4, 0⟩, ⟨-300, 4, 5⟩, ⟨-301, 4, 0⟩, ⟨-301, 4, 5⟩,
     ⟨-301, -4, 0⟩, ⟨-301, -4, 4⟩]) := by decide +kernel

/-- The claim fails at the limit: a stitch of 124 units is read as a jump. -/
theorem C15_limit_stitch : again [] [⟨0, 0, 0⟩, ⟨124, 0, 0⟩, ⟨5, 0, 0⟩] = .ok ([],
    [⟨0, 0, 0⟩, ⟨124, 0, 1⟩, ⟨5, 0, 0⟩, ⟨5, 0, 4⟩]) := by decide +kernel

/-- A stop is read as a colour change, for which there is no thread. -/
theorem C15_stop : again [{ color := 1 }] [⟨0, 0, 0⟩, ⟨0, 0, 3⟩, ⟨5, 0, 0⟩] = .ok ([1],
    [⟨0, 0, 0⟩, ⟨0, 0, 5⟩, ⟨5, 0, 0⟩, ⟨5, 0, 4⟩]) := by decide +kernel

/-- C15: a TRIM that moves, as found in a pattern that was not encoded, is read as a TRIM followed by the move. -/
theorem C15_moving_trim (dx dy : Int) (hx : -128 ≤ dx ∧ dx ≤ 127) (hy : -127 ≤ dy ∧ dy ≤ 128) (h0 : dx ≠ 0 ∨ dy ≠ 0)
    (rs : List Rec) (rest : Bytes) (t : List Rec × Bytes) (ht : readRecs (writeRecs rs ++ rest) = .ok t) :
    readRecs (writeRecs (⟨dx, dy, 2⟩ :: rs) ++ rest) = .ok (⟨0, 0, 2⟩ :: ⟨dx, dy, 1⟩ :: t.1, t.2) := by
  have ew : writeRecs (⟨dx, dy, 2⟩ :: rs) = 0x7F :: 0x03 :: lo8 dx :: lo8 (-dy) :: writeRecs rs := by
    simp [writeRecs, cmdOf, COLOR_CHANGE, STOP, END, STITCH, TRIM]
  rw [ew]
  simp only [List.cons_append]
  rw [readRecs.eq_def]
  simp only
  have s1 : signed8 (lo8 dx) = dx := signed8_mod dx (by omega) (by omega)
  have s2 : signed8 (lo8 (-dy)) = -dy := signed8_mod (-dy) (by omega) (by omega)
  rw [if_neg (by decide), if_neg (by decide), if_neg (by decide), if_pos trivial, bind_of ht, s1, s2, neg_neg, if_pos h0]; rfl

end Xxx
end Emb
