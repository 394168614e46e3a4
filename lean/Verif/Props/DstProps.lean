import Verif.Dst
import Verif.Props.QuantProps
import Verif.Props.EncoderProps

/-!
# Properties C03-C06: the DST format
-/

namespace Emb
namespace Dst

theorem axis_zero_one {a : Int} (h : a = 0 ∨ a = 1) : 0 ≤ a ∧ a ≤ 1 := by omega

/-- C03: every displacement of at most 121 per axis is written as three bytes that decode to it, and the third byte is
classified as a stitch or as a jump/ejection, whichever was written (`sequin` is the reader's mode: jumps are written
outside sequin mode and ejections inside it). -/
theorem C03_record (dx dy cmd : Int) (sequin : Bool) (hx : |dx| ≤ 121) (hy : |dy| ≤ 121)
    (hc : cmd = 0 ∨ (cmd = 1 ∧ sequin = false) ∨ (cmd = 7 ∧ sequin = true)) :
    ∃ b0 b1 b2, encodeRecord dx dy cmd = .ok [b0, b1, b2] ∧ IsByte b0 ∧ IsByte b1 ∧ IsByte b2 ∧
      decodeDx b0 b1 b2 = dx ∧ decodeDy b0 b1 b2 = dy ∧ classify sequin b2 = some cmd := by
  have ha := axis_ok dx
  have hb := axis_ok (-dy)
  have hax : (axis dx).rest = 0 := ha.fits.2 hx
  have hby : (axis (-dy)).rest = 0 := hb.fits.2 (by rwa [abs_neg])
  have hj : ∃ j : Int, (j = 0 ∨ j = 1) ∧ (if cmd = JUMP ∨ cmd = SEQUIN_EJECT then (128 : Int) else 0) = 128 * j ∧
      (j = 0 ↔ cmd = 0) := by
    rcases hc with h | ⟨h, _⟩ | ⟨h, _⟩
    · exact ⟨0, .inl rfl, by rw [h]; rfl, by simp [h]⟩
    · exact ⟨1, .inr rfl, by rw [h]; rfl, by simp [h]⟩
    · exact ⟨1, .inr rfl, by rw [h]; rfl, by simp [h]⟩
  obtain ⟨j, hj01, hj, hj0⟩ := hj
  have henc : encodeRecord dx dy cmd = .ok
      [4 * (axis dx).p9 + 8 * (axis dx).m9 + (axis dx).p1 + 2 * (axis dx).m1 + 32 * (axis (-dy)).p9 +
        16 * (axis (-dy)).m9 + 128 * (axis (-dy)).p1 + 64 * (axis (-dy)).m1,
       4 * (axis dx).p27 + 8 * (axis dx).m27 + (axis dx).p3 + 2 * (axis dx).m3 + 32 * (axis (-dy)).p27 +
        16 * (axis (-dy)).m27 + 128 * (axis (-dy)).p3 + 64 * (axis (-dy)).m3,
       128 * j + 1 + 2 + 4 * (axis dx).p81 + 8 * (axis dx).m81 + 32 * (axis (-dy)).p81 + 16 * (axis (-dy)).m81] := by
    unfold encodeRecord
    simp only [hj]
    rw [if_pos (by unfold STITCH JUMP SEQUIN_EJECT; omega), if_neg (by simp [hax]), if_neg (by simp [hby])]
  refine ⟨_, _, _, henc, ?_⟩
  · clear henc
    generalize hA : axis dx = A at *
    generalize hB : axis (-dy) = B at *
    obtain ⟨a1, a2, a3, a4, a5, a6, a7, a8, a9, a10, asum, _⟩ := ha
    obtain ⟨b1, b2, b3, b4, b5, b6, b7, b8, b9, b10, bsum, _⟩ := hb
    generalize e0 : 4 * A.p9 + 8 * A.m9 + A.p1 + 2 * A.m1 + 32 * B.p9 + 16 * B.m9 + 128 * B.p1 + 64 * B.m1 = c0
    generalize e1 : 4 * A.p27 + 8 * A.m27 + A.p3 + 2 * A.m3 + 32 * B.p27 + 16 * B.m27 + 128 * B.p3 + 64 * B.m3 = c1
    generalize e2 : 128 * j + 1 + 2 + 4 * A.p81 + 8 * A.m81 + 32 * B.p81 + 16 * B.m81 = c2
    obtain ⟨v00, v01, v02, v03, v04, v05, v06, v07, i0⟩ :=
      bit_values A.p1 A.m1 A.p9 A.m9 B.m9 B.p9 B.m1 B.p1 c0 a9 a10 a5 a6 b6 b5 b10 b9 (by rw [← e0]; ring)
    obtain ⟨v10, v11, v12, v13, v14, v15, v16, v17, i1⟩ :=
      bit_values A.p3 A.m3 A.p27 A.m27 B.m27 B.p27 B.m3 B.p3 c1 a7 a8 a3 a4 b4 b3 b8 b7 (by rw [← e1]; ring)
    obtain ⟨v20, v21, v22, v23, v24, v25, v26, v27, i2⟩ :=
      bit_values 1 1 A.p81 A.m81 B.m81 B.p81 0 j c2 (.inr rfl) (.inr rfl) a1 a2 b2 b1 (.inl rfl) hj01
        (by rw [← e2]; ring)
    refine ⟨i0, i1, i2, ?_, ?_, ?_⟩
    · unfold decodeDx
      rw [v22, v23, v12, v13, v02, v03, v10, v11, v00, v01, ← asum, hax]; ring
    · unfold decodeDy
      rw [v25, v24, v15, v14, v05, v04, v17, v16, v07, v06]
      have : B.rest = 0 := hby
      rw [this] at bsum
      linarith
    · obtain ⟨m1, m2, m3, m4⟩ := hasMask_bits c2 i2
      unfold classify
      have z6 : getbit c2 6 ≠ 1 := by rw [v26]; decide
      rw [if_neg (fun h => z6 (m1.1 h).2.2.2.2.1), if_neg (fun h => z6 (m2.1 h).2.2.1),
        if_neg (fun h => z6 (m3.1 h).2.2)]
      rcases hj01 with h | h
      · rw [if_neg (fun hh => by have := (m4.1 hh).2.2; rw [v27, h] at this; cases this), hj0.1 h]
        rfl
      · rw [if_pos (m4.2 ⟨v20, v21, by rw [v27, h]⟩)]
        rcases hc with h' | ⟨h', h''⟩ | ⟨h', h''⟩
        · have := hj0.2 h'; omega
        · rw [h', h'']; rfl
        · rw [h', h'']; rfl

/-- C03: the fixed records are classified as colour change (also for STOP), sequin mode and end. -/
theorem C03_fixed (dx dy : Int) (sequin : Bool) :
    (∃ b, encodeRecord dx dy 5 = .ok [0, 0, b] ∧ IsByte b ∧ decodeDx 0 0 b = 0 ∧ decodeDy 0 0 b = 0 ∧
      classify sequin b = some 5) ∧
    (∃ b, encodeRecord dx dy 3 = .ok [0, 0, b] ∧ IsByte b ∧ decodeDx 0 0 b = 0 ∧ decodeDy 0 0 b = 0 ∧
      classify sequin b = some 5) ∧
    (∃ b, encodeRecord dx dy 6 = .ok [0, 0, b] ∧ IsByte b ∧ decodeDx 0 0 b = 0 ∧ decodeDy 0 0 b = 0 ∧
      classify sequin b = some 6) ∧
    (∃ b, encodeRecord dx dy 4 = .ok [0, 0, b] ∧ IsByte b ∧ classify sequin b = none) := by
  refine ⟨⟨0xC3, rfl, ?_, ?_, ?_, ?_⟩, ⟨0xC3, rfl, ?_, ?_, ?_, ?_⟩, ⟨0x43, rfl, ?_, ?_, ?_, ?_⟩, ⟨0xF3, rfl, ?_, ?_⟩⟩ <;>
    first | decide | (revert sequin; decide +kernel)

/-- C04: STITCH, JUMP and SEQUIN_EJECT raise `ValueError` exactly when a displacement exceeds 121; otherwise the record
written decodes to the very displacement (`C03_record`). -/
theorem C04_refuses (dx dy cmd : Int) (hc : cmd = 0 ∨ cmd = 1 ∨ cmd = 7) :
    (encodeRecord dx dy cmd = .error .valueError ↔ (|dx| > 121 ∨ |dy| > 121)) ∧
    (∀ e, encodeRecord dx dy cmd = .error e → e = .valueError) := by
  have ha := axis_ok dx
  have hb := axis_ok (-dy)
  unfold encodeRecord
  rw [if_pos (by unfold STITCH JUMP SEQUIN_EJECT; omega)]
  simp only
  by_cases h1 : (axis dx).rest = 0
  · rw [if_neg (by simp [h1])]
    by_cases h2 : (axis (-dy)).rest = 0
    · rw [if_neg (by simp [h2])]
      have h1 := ha.fits.1 h1
      have h2 := hb.fits.1 h2
      rw [abs_neg] at h2
      refine ⟨⟨fun h => (by cases h), fun h => by omega⟩, fun e h => (by cases h)⟩
    · rw [if_pos h2]
      refine ⟨⟨fun _ => .inr ?_, fun _ => rfl⟩, fun e h => by injection h with h; exact h.symm⟩
      by_contra h3
      exact h2 (hb.fits.2 (by rw [abs_neg]; omega))
  · rw [if_pos h1]
    refine ⟨⟨fun _ => .inl ?_, fun _ => rfl⟩, fun e h => by injection h with h; exact h.symm⟩
    by_contra h3
    exact h1 (ha.fits.2 (by omega))

example : encodeRecord 121 (-121) 0 = .ok [0xA5, 0xA5, 0x27] ∧ encodeRecord 122 0 0 = .error .valueError := by
  decide +kernel

/-! ## Trim bursts -/

theorem burstTail_jumps (n : Nat) (d : Int) (hd : d = 4 ∨ d = -4) :
    ∀ r ∈ burstTail n d, r.cmd = 1 ∧ |r.dx| ≤ 4 ∧ |r.dy| ≤ 4 := by
  induction n generalizing d with
  | zero =>
    intro r hr
    simp [burstTail] at hr
    subst hr
    rcases hd with rfl | rfl <;> exact ⟨rfl, by decide, by decide⟩
  | succ n ih =>
    intro r hr
    simp only [burstTail, List.mem_cons] at hr
    rcases hr with rfl | hr
    · rcases hd with rfl | rfl <;> exact ⟨rfl, by decide, by decide⟩
    · exact ih (-d) (by omega) r hr

theorem burst_jumps (t : Int) : ∀ r ∈ burst t, r.cmd = 1 ∧ |r.dx| ≤ 4 ∧ |r.dy| ≤ 4 := by
  intro r hr
  simp only [burst, List.mem_cons] at hr
  rcases hr with rfl | hr
  · exact ⟨rfl, by decide, by decide⟩
  · exact burstTail_jumps _ _ (.inr rfl) r hr

theorem burstTail_net (n : Nat) (d : Int) (hd : d = 4 ∨ d = -4) (x y : ℚ) :
    placeEnd (x - d / 2) (y - d / 2) (burstTail n d) = (x, y) := by
  induction n generalizing d with
  | zero => rcases hd with rfl | rfl <;> simp [burstTail, placeEnd] <;> constructor <;> ring
  | succ n ih =>
    have := ih (-d) (by omega)
    simp only [burstTail, placeEnd]
    rw [← this]
    congr 1 <;> push_cast <;> ring

/-- C05: the jumps written for a TRIM have no net displacement. -/
theorem C05_net (t : Int) (x y : ℚ) : placeEnd x y (burst t) = (x, y) := by
  have := burstTail_net (t - 2).toNat (-4) (.inr rfl) x y
  simp only [burst, placeEnd]
  rw [← this]
  congr 1 <;> push_cast <;> ring

theorem burstTail_length (n : Nat) (d : Int) : (burstTail n d).length = n + 1 := by
  induction n generalizing d with
  | zero => rfl
  | succ n ih => simp [burstTail, ih]

/-- C05: there are exactly `trim_at` of them (two if `trim_at` is less than that), all of them jumps within the range of
a DST record. -/
theorem C05_jumps (t : Int) : ((burst t).length : Int) = max t 2 ∧
    ∀ r ∈ burst t, r.cmd = 1 ∧ |r.dx| ≤ 121 ∧ |r.dy| ≤ 121 := by
  constructor
  · simp only [burst, List.length_cons, burstTail_length]
    omega
  · intro r hr
    obtain ⟨a, b, c⟩ := burst_jumps t r hr
    exact ⟨a, by omega, by omega⟩

/-- One jump of a pending run, not the last one of the burst. -/
theorem itStep_jump (t : Int) (dist : Option ℚ) (acc run : List Stitch) (s : ITState) (st : Stitch)
    (hc : st.cmd = 1) (hj : s.jumping = true) (hlen : s.start = acc.length)
    (hz : s.jdx + (st.x - s.x) ≠ 0) :
    ∃ acc' s', itStep (some t) dist true (acc ++ run, s) st = (acc' ++ (run ++ [st]), s') ∧ s'.start = acc'.length ∧
      s'.jumping = true ∧ s'.x = st.x ∧ s'.y = st.y ∧ s'.jdx = s.jdx + (st.x - s.x) ∧ s'.jdy = s.jdy + (st.y - s.y) ∧
      s'.count = s.count + 1 ∧
      ((acc' = acc ∧ s'.trimmed = s.trimmed ∧ (s.trimmed = false → s.count + 1 ≠ t)) ∨
       (acc' = acc ++ [⟨(lastPos acc).1, (lastPos acc).2, 2⟩] ∧ s.trimmed = false ∧ s'.trimmed = true)) := by
  unfold itStep
  have c1 : cmdOf st.cmd = 1 := by rw [hc]; rfl
  have n1 : ¬((1 : Int) = 0 ∨ (1 : Int) = 7) := by decide
  have n2 : ¬((1 : Int) = 5 ∨ (1 : Int) = 9 ∨ (1 : Int) = 2) := by decide
  simp only [c1, STITCH, SEQUIN_EJECT, COLOR_CHANGE, NEEDLE_SET, TRIM, JUMP, if_true, if_neg n1, if_neg n2, hj]
  generalize beyond dist (s.jdx + (st.x - s.x)) (s.jdy + (st.y - s.y)) = far
  by_cases hcond : s.trimmed = false ∧ (some t = some (s.count + 1) ∨ far = true)
  · rw [if_pos hcond]
    simp only
    rw [if_neg (fun h => hz h.2.1)]
    refine ⟨acc ++ [⟨(lastPos acc).1, (lastPos acc).2, 2⟩], _, Prod.ext ?_ rfl, ?_, rfl, rfl, rfl, rfl, rfl, rfl,
      .inr ⟨rfl, hcond.1, rfl⟩⟩
    · simp [pyInsert, posBefore, hlen]
    · simp [hlen]
  · rw [if_neg hcond]
    simp only
    rw [if_neg (fun h => hz h.2.1)]
    refine ⟨acc, _, Prod.ext (by simp) rfl, hlen, rfl, rfl, rfl, rfl, rfl, rfl, .inl ⟨rfl, rfl, ?_⟩⟩
    intro ht he
    exact hcond ⟨ht, .inl (by rw [he])⟩

/-- The last jump, which brings the run back. -/
theorem itStep_last (t : Int) (dist : Option ℚ) (acc run : List Stitch) (s : ITState) (st : Stitch)
    (hc : st.cmd = 1) (hj : s.jumping = true) (hlen : s.start = acc.length)
    (hx : s.jdx + (st.x - s.x) = 0) (hy : s.jdy + (st.y - s.y) = 0) :
    ∃ acc' s', itStep (some t) dist true (acc ++ run, s) st = (acc', s') ∧ s'.start = acc'.length ∧
      s'.jumping = true ∧ s'.x = st.x ∧ s'.y = st.y ∧ s'.jdx = 0 ∧ s'.jdy = 0 ∧
      ((acc' = acc ∧ s'.trimmed = s.trimmed ∧ (s.trimmed = false → s.count + 1 ≠ t)) ∨
       (acc' = acc ++ [⟨(lastPos acc).1, (lastPos acc).2, 2⟩] ∧ s.trimmed = false ∧ s'.trimmed = true)) := by
  unfold itStep
  have c1 : cmdOf st.cmd = 1 := by rw [hc]; rfl
  have n1 : ¬((1 : Int) = 0 ∨ (1 : Int) = 7) := by decide
  have n2 : ¬((1 : Int) = 5 ∨ (1 : Int) = 9 ∨ (1 : Int) = 2) := by decide
  simp only [c1, STITCH, SEQUIN_EJECT, COLOR_CHANGE, NEEDLE_SET, TRIM, JUMP, if_true, if_neg n1, if_neg n2, hj]
  generalize beyond dist (s.jdx + (st.x - s.x)) (s.jdy + (st.y - s.y)) = far
  by_cases hcond : s.trimmed = false ∧ (some t = some (s.count + 1) ∨ far = true)
  · rw [if_pos hcond]
    simp only
    rw [if_pos ⟨trivial, hx, hy⟩]
    refine ⟨acc ++ [⟨(lastPos acc).1, (lastPos acc).2, 2⟩], _, Prod.ext ?_ rfl, ?_, rfl, rfl, rfl, hx, hy,
      .inr ⟨rfl, hcond.1, rfl⟩⟩
    · simp [pyInsert, posBefore, hlen, List.take_append]
    · simp [hlen]
  · rw [if_neg hcond]
    simp only
    rw [if_pos ⟨trivial, hx, hy⟩]
    refine ⟨acc, _, Prod.ext (by simp [hlen]) rfl, hlen, rfl, rfl, rfl, hx, hy, .inl ⟨rfl, rfl, ?_⟩⟩
    intro ht he
    exact hcond ⟨ht, .inl (by rw [he])⟩

theorem fold_burstTail (t : Int) (dist : Option ℚ) (acc0 : List Stitch) (x y : ℚ) (n : Nat) :
    ∀ (d : Int), (d = 4 ∨ d = -4) → ∀ (acc run : List Stitch) (s : ITState), s.jumping = true → s.start = acc.length →
      s.x = x - d / 2 → s.y = y - d / 2 → s.jdx = -(d / 2 : ℚ) → s.jdy = -(d / 2 : ℚ) →
      ((acc = acc0 ∧ s.trimmed = false ∧ s.count + n + 1 = t) ∨
        (acc = acc0 ++ [⟨(lastPos acc0).1, (lastPos acc0).2, 2⟩] ∧ s.trimmed = true)) →
      ∃ s', (place s.x s.y (burstTail n d)).foldl (itStep (some t) dist true) (acc ++ run, s) =
        (acc0 ++ [⟨(lastPos acc0).1, (lastPos acc0).2, 2⟩], s') ∧ s'.trimmed = true ∧ s'.x = x ∧ s'.y = y ∧
        s'.jdx = 0 ∧ s'.jdy = 0 ∧ s'.jumping = true ∧ s'.start = acc0.length + 1 := by
  induction n with
  | zero =>
    intro d hd acc run s hj hlen hx hy hjx hjy hcase
    have hd2 : ((d / 2 : Int) : ℚ) = d / 2 := by rcases hd with rfl | rfl <;> norm_num
    simp only [burstTail, place, List.foldl_cons, List.foldl_nil]
    obtain ⟨acc', s', e1, e2, e3, e4, e5, e6, e7, e8⟩ := itStep_last t dist acc run s
      ⟨s.x + (d / 2 : Int), s.y + (d / 2 : Int), JUMP⟩ rfl hj hlen
      (by simp only [hd2, hjx]; ring) (by simp only [hd2, hjy]; ring)
    rw [e1]
    have px : s'.x = x := by rw [e4]; simp only [hd2, hx]; ring
    have py : s'.y = y := by rw [e5]; simp only [hd2, hy]; ring
    rcases hcase with ⟨rfl, h2, h3⟩ | ⟨rfl, h2⟩
    · rcases e8 with ⟨_, _, h⟩ | ⟨rfl, _, h⟩
      · exact absurd (by simpa using h3) (h h2)
      · exact ⟨s', rfl, h, px, py, e6, e7, e3, by simp [e2]⟩
    · rcases e8 with ⟨rfl, h, _⟩ | ⟨_, h, _⟩
      · exact ⟨s', rfl, by rw [h, h2], px, py, e6, e7, e3, by simp [e2]⟩
      · rw [h] at h2; cases h2
  | succ n ih =>
    intro d hd acc run s hj hlen hx hy hjx hjy hcase
    have hd0 : (d : ℚ) ≠ 0 := by rcases hd with rfl | rfl <;> norm_num
    simp only [burstTail, place, List.foldl_cons]
    obtain ⟨acc', s', e1, e2, e3, e4, e5, e6, e7, e8, e9⟩ := itStep_jump t dist acc run s
      ⟨s.x + (d : Int), s.y + (d : Int), JUMP⟩ rfl hj hlen
      (by simp only [hjx]; intro h; apply hd0; linarith)
    rw [e1]
    simp only at e4 e5 e6 e7
    have := ih (-d) (by omega) acc' (run ++ [⟨s.x + (d : Int), s.y + (d : Int), JUMP⟩]) s' e3 e2
      (by rw [e4, hx]; push_cast; ring) (by rw [e5, hy]; push_cast; ring)
      (by rw [e6, hjx]; push_cast; ring) (by rw [e7, hjy]; push_cast; ring)
      (by
        rcases hcase with ⟨rfl, h2, h3⟩ | ⟨rfl, h2⟩
        · rcases e9 with ⟨rfl, h4, _⟩ | ⟨rfl, _, h4⟩
          · exact .inl ⟨rfl, by rw [h4, h2], by rw [e8]; push_cast at h3; omega⟩
          · exact .inr ⟨rfl, h4⟩
        · rcases e9 with ⟨rfl, h4, _⟩ | ⟨_, h4, _⟩
          · exact .inr ⟨rfl, by rw [h4, h2]⟩
          · rw [h4] at h2; cases h2)
    rw [e4, e5] at this
    exact this

/-- C05: read back with the same `trim_at` (at least one), a burst after a stitch or an ejection is one TRIM at the
needle, and the position is unchanged. -/
theorem C05_recognised (t : Int) (ht : 1 ≤ t) (dist : Option ℚ) (l : List Stitch) (st : Stitch)
    (hst : st.low = 0 ∨ st.low = 7) :
    interpolateTrims (some t) dist true (l ++ [st] ++ place st.x st.y (burst t)) =
      interpolateTrims (some t) dist true (l ++ [st]) ++ [⟨st.x, st.y, 2⟩] := by
  unfold interpolateTrims
  rw [List.foldl_append]
  have key : ∃ acc s, (l ++ [st]).foldl (itStep (some t) dist true) ([], ITState.init) = (acc ++ [st], s) ∧
      s.x = st.x ∧ s.y = st.y ∧ s.jumping = false ∧ s.trimmed = false := by
    rw [List.foldl_append]
    generalize l.foldl (itStep (some t) dist true) ([], ITState.init) = p
    simp only [List.foldl_cons, List.foldl_nil]
    unfold itStep
    have hc : cmdOf st.cmd = st.low := rfl
    have n1 : ¬(st.low = 1) := by omega
    simp only [hc, STITCH, SEQUIN_EJECT, JUMP, if_pos hst, if_neg n1]
    exact ⟨p.1, _, rfl, rfl, rfl, rfl, rfl⟩
  obtain ⟨acc, s, e, hx, hy, hj, htr⟩ := key
  rw [e]
  simp only [burst, place, List.foldl_cons]
  have first : ∃ acc' s', itStep (some t) dist true (acc ++ [st], s) ⟨st.x + (2 : Int), st.y + (2 : Int), JUMP⟩ =
      (acc' ++ [⟨st.x + (2 : Int), st.y + (2 : Int), JUMP⟩], s') ∧ s'.jumping = true ∧ s'.start = acc'.length ∧
      s'.x = st.x + 2 ∧ s'.y = st.y + 2 ∧ s'.jdx = 2 ∧ s'.jdy = 2 ∧ s'.count = 1 ∧
      ((acc' = acc ++ [st] ∧ s'.trimmed = false ∧ 1 ≠ t) ∨ (acc' = acc ++ [st] ++ [⟨st.x, st.y, 2⟩] ∧ s'.trimmed = true)) := by
    unfold itStep
    have n1 : ¬((1 : Int) = 0 ∨ (1 : Int) = 7) := by decide
    have n2 : ¬((1 : Int) = 5 ∨ (1 : Int) = 9 ∨ (1 : Int) = 2) := by decide
    have c1 : cmdOf 1 = 1 := rfl
    simp only [c1, STITCH, SEQUIN_EJECT, COLOR_CHANGE, NEEDLE_SET, TRIM, JUMP, if_true, if_neg n1, if_neg n2, hj, hx, hy,
      Bool.false_eq_true, if_false]
    generalize beyond dist _ _ = far
    have e2 : ∀ z : ℚ, 0 + (z + (2 : Int) - z) = 2 := by intro z; push_cast; ring
    by_cases hcond : s.trimmed = false ∧ (some t = some (0 + 1) ∨ far = true)
    · simp only [if_pos hcond]
      rw [if_neg (by rw [e2]; norm_num)]
      refine ⟨acc ++ [st] ++ [⟨st.x, st.y, 2⟩], _, Prod.ext ?_ rfl, rfl, by simp, by push_cast; rfl, by push_cast; rfl,
        e2 _, e2 _, rfl, .inr ⟨rfl, rfl⟩⟩
      have hl : (acc ++ [st]).length = acc.length + 1 := by simp
      simp only [pyInsert, posBefore]
      rw [List.take_left, List.drop_left, lastPos_snoc]
      simp
    · simp only [if_neg hcond]
      rw [if_neg (by rw [e2]; norm_num)]
      refine ⟨acc ++ [st], _, Prod.ext rfl rfl, rfl, rfl, by push_cast; rfl, by push_cast; rfl, e2 _, e2 _, rfl,
        .inl ⟨rfl, htr, ?_⟩⟩
      intro h1
      exact hcond ⟨htr, .inl (by rw [← h1]; rfl)⟩
  obtain ⟨acc', s', f1, f2, f3, f4, f5, f6, f7, f8, f9⟩ := first
  rw [f1]
  obtain ⟨s'', g, _⟩ := fold_burstTail t dist (acc ++ [st]) st.x st.y (t - 2).toNat (-4) (.inr rfl) acc'
    [⟨st.x + (2 : Int), st.y + (2 : Int), JUMP⟩] s' f2 f3 (by rw [f4]; norm_num) (by rw [f5]; norm_num)
    (by rw [f6]; norm_num) (by rw [f7]; norm_num)
    (by
      rw [lastPos_snoc]
      rcases f9 with ⟨h1, h2, h3⟩ | h
      · exact .inl ⟨h1, h2, by rw [f8]; omega⟩
      · exact .inr h)
  rw [f4, f5] at g
  push_cast at g ⊢
  rw [g, lastPos_snoc]

example : interpolateTrims (some 3) none true
    (place 0 0 ([⟨5, 5, 0⟩] ++ burst 3 ++ [⟨7, 0, 0⟩])) = [⟨5, 5, 0⟩, ⟨5, 5, 2⟩, ⟨12, 5, 0⟩] := by decide +kernel

end Dst
end Emb
