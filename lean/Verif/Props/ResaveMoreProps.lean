import Verif.Props.ResaveProps
import Verif.Props.SavedProps

/-!
# C98: saving goes on, in JEF and XXX too
-/

namespace Emb

/-- **C98**: a clean design in which something is sewn can be saved again as JEF and loaded, with any settings for it that have
needles, any date, hoop and number of jumps that mean a trim, given its threads (some may be missing: fillers replace them) and
files below 2^28 commands, which the format's offsets need. -/
theorem C98_goes_on_jef {o : Settings} {lm : Libm} {l : List Stitch} (hl : Clean l) (hs : Saving o lm 127) (hn : o.needleCount ≠ 0)
    (hq : o.sequin ≠ 0xF5) (h0 : ∃ a ∈ l, a.low = 0) (threads : List Thread) :
    ∃ out ths, encode o lm threads l = .ok (out, ths) ∧ (out.length < 2 ^ 28 →
      ∀ (T : List Thread) (filler : Nat → Thread) trimAt date w h ta dist clipping, T.length = ths.length → AllBytes date → date.length = 14 →
        ∃ f l' T', Jef.write trimAt date w h (Blocks.fixColorCount T filler out) out = .ok f ∧
          Jef.read ta dist clipping f = .ok (l', T') ∧ Resaved l l') := by
  have hlow := Resave.low_of hl
  have hk : ∀ st ∈ l, (st.low ≠ 0xD5 ∧ st.low ≠ 0xD6 ∧ st.low ≠ 0xC4 ∧ st.low ≠ 0xC5) ∧ (st.low ≠ 0xF0 ∧ st.low ≠ 0xF5) ∧
      st.low ≠ 3 ∧ st.low ≠ 0xE9 := by
    intro st h
    have := hlow st h
    simp only [List.mem_cons, List.not_mem_nil, or_false] at this
    omega
  have hm : o.Moves := ⟨hn, fun m hm => by rw [hs.stitch] at hm; cases hm; norm_num, fun m hm => by rw [hs.jump] at hm; cases hm; norm_num⟩
  have hu : Uses l := by
    obtain ⟨m, e, rfl, he, hm⟩ := hl.shape
    obtain ⟨a, ha, ha0⟩ := h0
    have ha : a ∈ m := by
      rcases List.mem_append.1 ha with h | h
      · exact h
      · simp at h; subst h; omega
    obtain ⟨p, q, rfl⟩ := List.append_of_mem ha
    refine ⟨p, a, q ++ [e], by simp, ?_, by simp [ha0]⟩
    intro b hb
    have := hm b (by simp [hb])
    simp only [List.mem_cons, List.not_mem_nil, or_false] at this
    omega
  obtain ⟨out, ths, he, hf⟩ := C103_jef_partial (lm := lm) (threads := threads) hm hs.sequins hs.change (fun st h => (hk st h).1) hu
  refine ⟨out, ths, he, fun hsz T filler trimAt date w h ta dist clipping hT hd hd14 => ?_⟩
  obtain ⟨f, hw, -⟩ := hf T filler trimAt date w h hT hd
  obtain ⟨l', T', hr, -⟩ := C94_jef_partial hs.libm hs.sequins hs.round hs.stitch hs.jump (.inl hs.long) hs.change hq
    (fun st h => ⟨(hk st h).1.1, (hk st h).1.2.1, (hk st h).2.1⟩) (fun st h => (hk st h).2.2) he (hoop := (w, h)) hd14 hw
    (Resave.no_leading hs hl he h0) hsz ta dist clipping
  exact ⟨f, l', T', hw, hr, .jef (hoop := (w, h)) hs hq he h0 hd14 hw hsz hr⟩

/-- **C98**: a clean design can be saved again as XXX and loaded, with any settings for it that have needles and fewer than 65536
threads, if no stitch gets exactly 124 units long. -/
theorem C98_goes_on_xxx {o : Settings} {lm : Libm} {l : List Stitch} (hl : Clean l) (hs : Saving o lm 124) (hn : o.needleCount ≠ 0)
    (hq : o.sequin ≠ 0xF5) (threads : List Thread) :
    ∃ out ths, encode o lm threads l = .ok (out, ths) ∧
      ((∀ r ∈ deltas 0 0 out, r.cmd = 0 → |r.dx| < 124 ∧ |r.dy| < 124) → ∀ ts : List Thread, ts.length < 65536 →
        ∃ f colours l', Xxx.write ts out = .ok f ∧ Xxx.read f = .ok (colours, l') ∧ Resaved l l') := by
  have hlow := Resave.low_of hl
  have hk : ∀ st ∈ l, (st.low ≠ 0xD5 ∧ st.low ≠ 0xD6 ∧ st.low ≠ 0xC4 ∧ st.low ≠ 0xC5) ∧ (st.low ≠ 0xF0 ∧ st.low ≠ 0xF5) ∧
      st.low ≠ 3 ∧ st.low ≠ 0xE9 := by
    intro st h
    have := hlow st h
    simp only [List.mem_cons, List.not_mem_nil, or_false] at this
    omega
  have hm : o.Moves := ⟨hn, fun m hm => by rw [hs.stitch] at hm; cases hm; norm_num, fun m hm => by rw [hs.jump] at hm; cases hm; norm_num⟩
  obtain ⟨out, ths, he, -⟩ := C103_normalized (lm := lm) (threads := threads) hm hs.sequins (fun st h => (hk st h).1)
  refine ⟨out, ths, he, fun hlim ts ht => ?_⟩
  obtain ⟨f, colours, l', hw, hr, -⟩ := C94_xxx_partial hs.libm hs.sequins hs.round hs.stitch hs.jump (.inl hs.long) hs.change hq
    (fun st h => ⟨(hk st h).1.1, (hk st h).1.2.1, (hk st h).2.1⟩) (fun st h => (hk st h).2.2) he ht hlim
  exact ⟨f, colours, l', hw, hr, .xxx hs hq he ht hlim hw hr⟩

/-! The formats' own settings qualify. -/

example : Saving Jef.settings demoLm 127 ∧ Jef.settings.needleCount ≠ 0 ∧ Jef.settings.sequin ≠ 0xF5 :=
  ⟨⟨Resave.demoSound, fun v h => by injection h with h; subst h; unfold ValidSequin; decide, rfl, rfl, rfl, rfl, rfl,
    by unfold Settings.NoTies; decide, fun p => rfl⟩, by decide, by decide⟩

example : Saving Xxx.settings demoLm 124 ∧ Xxx.settings.needleCount ≠ 0 ∧ Xxx.settings.sequin ≠ 0xF5 :=
  ⟨⟨Resave.demoSound, fun v h => (by cases h), rfl, rfl, rfl, rfl, rfl,
    by unfold Settings.NoTies; decide, fun p => rfl⟩, by decide, by decide⟩

end Emb
