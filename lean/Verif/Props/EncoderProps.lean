import Verif.EncoderInv

/-!
# Properties of normalized patterns (C20, C21, C22, C25, C26, C29)

`encode o lm threads source = .ok (out, ths)` is a successful `get_normalized_pattern`. `a.low` is a command byte
(0 STITCH, 1 JUMP, 2 TRIM, 3 STOP, 4 END, 5 COLOR_CHANGE, 6 SEQUIN_MODE, 7 SEQUIN_EJECT, 9 NEEDLE_SET, 11 SLOW, 12 FAST),
`lastPos pre` the position after the stitches `pre`. The hypothesis `ValidSequins` says that a given
`sequin_contingency` is one of the four documented codes.
-/

namespace Emb

/-- A libm for examples only. -/
def demoLm : Libm := ⟨fun x0 y0 x1 y1 => |x1 - x0| + |y1 - y0|, fun x0 y0 _ _ _ => (x0, y0), fun _ => 1, fun _ => 0⟩

/-- Settings for examples: limits of 10 units, sequins kept. -/
def demoSettings : Settings := { maxStitch := some 10, maxJump := some 10, stripSequins := false, explicitTrim := true }

/-- A source mixing sewing, sequins, colour break, trims, a stop and commands after END. -/
def demoSource : List Stitch :=
  [⟨0, 0, 226⟩, ⟨3, 4, 0⟩, ⟨28, 4, 0⟩, ⟨30, 4, 7⟩, ⟨30, 30, 1⟩, ⟨0, 0, 2⟩, ⟨0, 0, 226⟩, ⟨0, 0, 11⟩, ⟨5, 5, 176⟩, ⟨0, 0, 3⟩, ⟨0, 0, 4⟩, ⟨1, 1, 0⟩]

variable {o : Settings} {lm : Libm} {threads : List Thread} {source out : List Stitch} {ths : List (Option Thread)}

theorem encode_out (hv : o.ValidSequins) (h : encode o lm threads source = .ok (out, ths)) :
    ∃ l e, out = l ++ [e] ∧ e.low = 4 ∧ (e.x, e.y) = lastPos l ∧ EachAt GoodAt l := by
  obtain ⟨s, _, hs, rfl, _⟩ := encode_lift (P := OutInv) (Q := fun _ => True) hv h (init_out o lm threads)
    (fun _ _ => trivial) (fun plan c G a b _ _ hm => micro_out hm) (fun s v hs => ⟨flagsOf_low v, hs.2⟩)
  refine ⟨s.out, _, rfl, low_add hs.1 (by decide) (by decide), ?_, hs.2.1⟩
  rw [hs.2.2.1]

/-- C20: the last command is END and no other command is. -/
theorem C20_single_end (hv : o.ValidSequins) (h : encode o lm threads source = .ok (out, ths)) :
    ∃ l e, out = l ++ [e] ∧ e.low = 4 ∧ ∀ a ∈ l, a.low ≠ 4 := by
  obtain ⟨l, e, h1, h2, _, h3⟩ := encode_out hv h
  refine ⟨l, e, h1, h2, ?_⟩
  intro a ha
  obtain ⟨pre, post, rfl⟩ := List.append_of_mem ha
  have := (h3 pre a post rfl).1
  unfold CoreCmd at this
  omega

/-- C21: only low-level commands. -/
theorem C21_low_level (hv : o.ValidSequins) (h : encode o lm threads source = .ok (out, ths)) :
    ∀ a ∈ out, a.low ∈ [0, 1, 2, 3, 4, 5, 6, 7, 9, 11, 12] := by
  obtain ⟨l, e, h1, h2, _, h3⟩ := encode_out hv h
  subst h1
  intro a ha
  rcases List.mem_append.1 ha with ha | ha
  · obtain ⟨pre, post, rfl⟩ := List.append_of_mem ha
    have := (h3 pre a post rfl).1
    unfold CoreCmd at this
    simp only [List.mem_cons, List.not_mem_nil, or_false]
    omega
  · simp at ha; subst ha; simp [h2]

/-- C21, finer: COLOR_CHANGE and NEEDLE_SET appear only as the requested thread change command, and speed commands
only if the source contains one. -/
theorem C21_kinds (hv : o.ValidSequins) (h : encode o lm threads source = .ok (out, ths)) :
    ∀ a ∈ out, (a.low = 5 → o.changeCommand = 5) ∧ (a.low = 9 → o.changeCommand = 9) ∧
      (a.low = 11 ∨ a.low = 12 → ∃ st ∈ source, st.low = 11 ∨ st.low = 12) := by
  obtain ⟨s, _, hs, rfl, _⟩ := encode_lift
    (P := KindInv o.changeCommand (∃ st ∈ source, st.low = 11 ∨ st.low = 12)) (Q := fun st => st ∈ source) hv h
    ⟨rfl, by simp [initSt]⟩ (fun _ h => h)
    (fun plan c G a b hc _ hm => micro_kind (cfg := mkCfg o lm source plan)
      (by obtain ⟨st, h1, h2⟩ := hc; rw [← h2]; exact fun h => ⟨st, h1, h⟩) hm)
    (fun s v hs => ⟨flagsOf_low v, hs.2⟩)
  intro a ha
  rcases List.mem_append.1 ha with ha | ha
  · exact hs.2 a ha
  · simp at ha; subst ha; rw [low_add hs.1 (by decide) (by decide)]; simp [END]

/-- C21, finer: STOP appears only if the source stops (STOP or FRAME_EJECT, 0xE9), or as the requested thread change command. -/
theorem C21_stops (hv : o.ValidSequins) (h : encode o lm threads source = .ok (out, ths)) :
    ∀ a ∈ out, a.low = 3 → o.changeCommand = 3 ∨ ∃ st ∈ source, st.low = 3 ∨ st.low = 0xE9 := by
  obtain ⟨s, _, hs, rfl, _⟩ := encode_lift
    (P := StopInv o.changeCommand (∃ st ∈ source, st.low = 3 ∨ st.low = 0xE9)) (Q := fun st => st ∈ source) hv h
    ⟨rfl, by simp [initSt]⟩ (fun _ h => h)
    (fun plan c G a b hc _ hm => micro_stop (cfg := mkCfg o lm source plan)
      (by obtain ⟨st, h1, h2⟩ := hc; rw [← h2]; exact fun h => ⟨st, h1, h⟩) hm)
    (fun s v hs => ⟨flagsOf_low v, hs.2⟩)
  intro a ha
  rcases List.mem_append.1 ha with ha | ha
  · exact hs.2 a ha
  · simp at ha; subst ha; rw [low_add hs.1 (by decide) (by decide)]; simp [END]

/-- C21, finer: a sequin is ejected only if the source ejects one. -/
theorem C21_ejects (hv : o.ValidSequins) (h : encode o lm threads source = .ok (out, ths)) :
    ∀ a ∈ out, a.low = 7 → ∃ st ∈ source, st.low = 7 := by
  obtain ⟨s, _, hs, rfl, _⟩ := encode_lift
    (P := EjectInv (∃ st ∈ source, st.low = 7)) (Q := fun st => st ∈ source) hv h
    ⟨rfl, by simp [initSt]⟩ (fun _ h => h)
    (fun plan c G a b hc _ hm => micro_eject (cfg := mkCfg o lm source plan)
      (by obtain ⟨st, h1, h2⟩ := hc; rw [← h2]; exact fun h => ⟨st, h1, h⟩) hm)
    (fun s v hs => ⟨flagsOf_low v, hs.2⟩)
  intro a ha
  rcases List.mem_append.1 ha with ha | ha
  · exact hs.2 a ha
  · simp at ha; subst ha; rw [low_add hs.1 (by decide) (by decide)]; simp [END]

/-- C21, finer: a format without speed commands gets none. -/
theorem C21_no_speeds (hv : o.ValidSequins) (hw : o.writesSpeeds = false)
    (h : encode o lm threads source = .ok (out, ths)) : ∀ a ∈ out, a.low ≠ 11 ∧ a.low ≠ 12 := by
  obtain ⟨s, _, hs, rfl, _⟩ := encode_lift (P := NoSpeedInv) (Q := fun _ => True) hv h ⟨rfl, by simp [initSt]⟩
    (fun _ _ => trivial) (fun plan c G a b _ _ hm => micro_nospeed (by exact hw) hm) (fun s v hs => ⟨flagsOf_low v, hs.2⟩)
  intro a ha
  rcases List.mem_append.1 ha with ha | ha
  · exact hs.2 a ha
  · simp at ha; subst ha; rw [low_add hs.1 (by decide) (by decide)]; simp [END]

/-- C21, finer: if sequins are stripped (and the source does not turn them on again) no sequin command is left. -/
theorem C21_no_sequins (hv : o.ValidSequins) (hs : o.sequin ≠ 0xF5) (hq : ∀ st ∈ source, st.low ≠ 0xF5)
    (h : encode o lm threads source = .ok (out, ths)) : ∀ a ∈ out, a.low ≠ 6 ∧ a.low ≠ 7 := by
  obtain ⟨s, _, hs, rfl, _⟩ := encode_lift (P := NoSeqInv) (Q := fun st => st.low ≠ 0xF5) hv h
    ⟨rfl, hs, rfl, by simp [initSt]⟩ hq
    (fun plan c G a b hc _ hm => micro_noseq (by obtain ⟨st, h1, h2⟩ := hc; rw [← h2]; exact h1) hm)
    (fun s v hs => ⟨flagsOf_low v, hs.2⟩)
  intro a ha
  rcases List.mem_append.1 ha with ha | ha
  · exact hs.2.2.2 a ha
  · simp at ha; subst ha; rw [low_add hs.1 (by decide) (by decide)]; simp [END]

/-- C22: with `max_stitch = max_jump = M` no step of the result, from the origin on, is longer than `M` on either axis,
unless the source changes the limits or turns the long-stitch contingency off. -/
theorem C22_step_length {M : ℚ} (hM : 0 < M) (hlm : lm.Sound) (hv : o.ValidSequins)
    (h1 : o.maxStitch = some M) (h2 : o.maxJump = some M) (h3 : o.longStitch = 0xF1 ∨ o.longStitch = 0xF2)
    (hq : ∀ st ∈ source, st.low ≠ 0xD5 ∧ st.low ≠ 0xD6 ∧ st.low ≠ 0xF0)
    (h : encode o lm threads source = .ok (out, ths)) :
    ∀ pre a post, out = pre ++ a :: post → |a.x - (lastPos pre).1| ≤ M ∧ |a.y - (lastPos pre).2| ≤ M := by
  obtain ⟨s, _, hs, rfl, _⟩ := encode_lift (P := LenInv False M)
    (Q := fun st => st.low ≠ 0xD5 ∧ st.low ≠ 0xD6 ∧ st.low ≠ 0xF0) hv h
    (init_len lm threads h1 h2 h3.symm) hq
    (fun plan c G a b hc _ hm => micro_len hM hlm
      (by obtain ⟨st, h1, h2⟩ := hc; rw [← h2]; exact h1) (fun f => f.elim) hm)
    (fun s v hs => ⟨flagsOf_low v, hs.2⟩)
  obtain ⟨_, _, he, hp⟩ := hs
  have key : EachAt (StepAt False M) (s.out ++ [⟨s.nx, s.ny, END + s.high⟩]) := by
    rw [eachAt_snoc]
    refine ⟨he, ?_⟩
    unfold StepAt; rw [hp]; exact ⟨stepOK_self hM, stepOK_self hM⟩
  intro pre a post e
  have := key pre a post e
  exact ⟨this.1.1, this.2.1⟩

/-- C25: no JUMP or TRIM while sequin mode is on, and every ejection while it is on. -/
theorem C25_sequin_mode (hv : o.ValidSequins) (h : encode o lm threads source = .ok (out, ths)) :
    ∀ pre a post, out = pre ++ a :: post →
      (a.low = 1 ∨ a.low = 2 → pre.countP (fun b => b.low == 6) % 2 = 0) ∧
      (a.low = 7 → pre.countP (fun b => b.low == 6) % 2 = 1) := by
  obtain ⟨l, e, h1, h2, h4, h3⟩ := encode_out hv h
  subst h1
  have key : EachAt (fun pre a => (a.low = 1 ∨ a.low = 2 → sequinOn pre = false) ∧ (a.low = 7 → sequinOn pre = true))
      (l ++ [e]) := by
    rw [eachAt_snoc]
    refine ⟨h3.mono (fun _ _ g => g.2.2), ?_⟩
    constructor <;> intro hh <;> omega
  intro pre a post e'
  obtain ⟨k1, k2⟩ := key pre a post e'
  unfold sequinOn at k1 k2
  constructor
  · intro hh; have := k1 hh; simp at this; omega
  · intro hh; have := k2 hh; simp at this; omega

/-- C26: commands that are not STITCH, JUMP or SEQUIN_EJECT carry the coordinates of the command before them (the origin
if they come first). -/
theorem C26_at_needle (hv : o.ValidSequins) (h : encode o lm threads source = .ok (out, ths)) :
    ∀ pre a post, out = pre ++ a :: post → a.low ≠ 0 → a.low ≠ 1 → a.low ≠ 7 → (a.x, a.y) = lastPos pre := by
  obtain ⟨l, e, h1, h2, h4, h3⟩ := encode_out hv h
  subst h1
  have key : EachAt (fun pre a => a.low ≠ 0 → a.low ≠ 1 → a.low ≠ 7 → (a.x, a.y) = lastPos pre) (l ++ [e]) := by
    rw [eachAt_snoc]
    exact ⟨h3.mono (fun _ _ g => g.2.1), fun _ _ _ => h4⟩
  exact key

/-- C29: before every TRIM there is a STITCH, after the previous TRIM if there is one. -/
theorem C29_trims (hv : o.ValidSequins) (h : encode o lm threads source = .ok (out, ths)) :
    ∀ pre a post, out = pre ++ a :: post → a.low = 2 →
      ∃ p st q, pre = p ++ st :: q ∧ st.low = 0 ∧ ∀ b ∈ q, b.low ≠ 2 := by
  obtain ⟨s, _, hs, rfl, _⟩ := encode_lift (P := TrimInv) (Q := fun _ => True) hv h (init_trim o lm threads)
    (fun _ _ => trivial) (fun plan c G a b _ _ hm => micro_trim hm) (fun s v hs => ⟨flagsOf_low v, hs.2⟩)
  have key : EachAt TrimAt (s.out ++ [⟨s.nx, s.ny, END + s.high⟩]) := by
    rw [eachAt_snoc]
    refine ⟨hs.2.1, ?_⟩
    intro h2; rw [low_add hs.1 (by decide) (by decide)] at h2; simp [END] at h2
  exact key

/-- The encoder's result on `demoSource`: long gaps split, sequin mode switched around the sequin, the trim before the
colour change, nothing after END. -/
def demoOut : List Stitch :=
  [⟨3, 4, 0⟩, ⟨34 / 3, 4, 1⟩, ⟨59 / 3, 4, 1⟩, ⟨28, 4, 0⟩, ⟨28, 4, 6⟩, ⟨30, 4, 7⟩, ⟨30, 4, 6⟩, ⟨30, 38 / 3, 1⟩,
    ⟨30, 64 / 3, 1⟩, ⟨30, 30, 1⟩, ⟨30, 30, 2⟩, ⟨30, 30, 197125⟩, ⟨30, 30, 11⟩, ⟨65 / 3, 65 / 3, 1⟩,
    ⟨40 / 3, 40 / 3, 1⟩, ⟨5, 5, 0⟩, ⟨5, 5, 3⟩, ⟨5, 5, 4⟩]

/-- The hypotheses of the theorems above are met by a run with two colours. -/
example : encode demoSettings demoLm [] demoSource = .ok (demoOut, [none, none]) := by decide +kernel

example : demoSettings.ValidSequins := fun _ h => nomatch h

example : demoLm.Sound where
  dist_x := fun x0 y0 x1 y1 => by simp [demoLm]
  dist_y := fun x0 y0 x1 y1 => by simp [demoLm]
  orient_x := fun x0 y0 x1 y1 r h => by simpa [demoLm] using h
  orient_y := fun x0 y0 x1 y1 r h => by simpa [demoLm] using h

example : ∀ st ∈ demoSource, st.low ≠ 0xD5 ∧ st.low ≠ 0xD6 ∧ st.low ≠ 0xF0 := by decide +kernel

end Emb
