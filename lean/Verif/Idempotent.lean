import Verif.Props.PlanProps
import Verif.Props.EncoderProps
import Verif.Props.GapProps
import Mathlib.Data.List.Induction

/-!
# Lemmas for normalizing twice

First the facts about a normalized list that make every one of its commands pass the encoder unchanged (`Fixed` with the
theorems of `EncoderProps`), then the second pass itself.
-/

namespace Emb

/-- The thread is not down after these commands: nothing sewn yet, or a TRIM, STOP or colour change since the last
STITCH. -/
def isCut (l : List Stitch) : Bool :=
  l.foldl (fun t a => if a.low = 0 then false else if a.low = 2 ∨ a.low = 3 ∨ a.low = 5 ∨ a.low = 9 then true else t) true

theorem isCut_snoc (l : List Stitch) (a : Stitch) : isCut (l ++ [a]) =
    if a.low = 0 then false else if a.low = 2 ∨ a.low = 3 ∨ a.low = 5 ∨ a.low = 9 then true else isCut l := by
  unfold isCut; rw [List.foldl_append]; rfl

theorem isCut_sewn : ∀ {pre : List Stitch}, isCut pre = false → ∃ b ∈ pre, b.low = 0 := by
  intro pre
  induction pre using List.reverseRecOn with
  | nil => intro h; cases h
  | append_singleton l a ih =>
    intro h
    rw [isCut_snoc] at h
    by_cases h0 : a.low = 0
    · exact ⟨a, by simp, h0⟩
    · rw [if_neg h0] at h
      by_cases h1 : a.low = 2 ∨ a.low = 3 ∨ a.low = 5 ∨ a.low = 9
      · rw [if_pos h1] at h; cases h
      · rw [if_neg h1] at h
        obtain ⟨b, hb, e⟩ := ih h
        exact ⟨b, List.mem_append_left _ hb, e⟩

/-- What must hold of a command, given those before it, for a second pass to copy it. -/
structure Fixed (o : Settings) (pre : List Stitch) (a : Stitch) : Prop where
  trim : a.low = 2 → isCut pre = false
  eject : a.low = 7 → isCut pre = false
  change : a.low = 5 ∨ a.low = 9 → o.explicitTrim = true → isCut pre = true
  full : a.low = 0 → o.fullJump = true → isCut pre = true → (a.x, a.y) = lastPos pre
  word : a.low ≠ 5 → a.low ≠ 9 → a.cmd = a.low + flagsOf a.cmd
  led : o.changeCommand = 9 → a.low = 0 → ∃ b ∈ pre, b.low = 9

theorem flagsOf_add {k v : Int} (h0 : 0 ≤ k) (h1 : k < 256) : flagsOf (k + flagsOf v) = flagsOf v := by
  unfold flagsOf; omega

theorem low_flags {k v : Int} {x y : ℚ} (h0 : 0 ≤ k) (h1 : k < 256) : (⟨x, y, k + flagsOf v⟩ : Stitch).low = k := by
  show (k + flagsOf v) % 256 = k
  unfold flagsOf; omega

/-- Invariant of the first pass; `t` says whether the output so far ends with the thread cut. -/
structure Pass (o : Settings) (t : Bool) (s : St) : Prop where
  high : ∃ v, s.high = flagsOf v
  pos : (s.nx, s.ny) = lastPos s.out
  cut : isCut s.out = t
  each : EachAt (Fixed o) s.out
  ord : s.trimmed = false → 0 ≤ s.order
  base : -1 ≤ s.order
  ex : o.explicitTrim = true → s.explicitTrim = true
  tOn : s.tieOnC ≠ CONTINGENCY_TIE_ON_THREE_SMALL
  tOff : s.tieOffC ≠ CONTINGENCY_TIE_OFF_THREE_SMALL
  seq : ValidSequin s.sequinC
  sewn : (∃ b ∈ s.out, b.low = 0) → 0 ≤ s.order
  num : o.changeCommand = 9 → 0 ≤ s.order → ∃ b ∈ s.out, b.low = 9

/-- A run with these settings, with changes written as COLOR_CHANGE or NEEDLE_SET. -/
def Mode (o : Settings) (cfg : Cfg) : Prop := cfg.change = o.changeCommand ∧ (cfg.change = COLOR_CHANGE ∨ cfg.change = NEEDLE_SET)

variable {o : Settings} {t : Bool} {s s' : St}

/-- Whether the thread is cut after one more command. -/
def cutBy (k : Int) (t : Bool) : Bool := if k = 0 then false else if k = 2 ∨ k = 3 ∨ k = 5 ∨ k = 9 then true else t

theorem Pass.emit (h : Pass o t s) (k : Int) (x y : ℚ) (h0 : 0 ≤ k) (h1 : k < 256) (h5 : k ≠ 5 ∧ k ≠ 9)
    (h2 : k = 2 ∨ k = 7 → t = false) (hf : k = 0 → o.fullJump = true → t = true → (x, y) = (s.nx, s.ny))
    (hz : k = 0 → 0 ≤ s.order) :
    Pass o (cutBy k t) (s.moveTo k x y) := by
  obtain ⟨v, hv⟩ := h.high
  have hl : (⟨x, y, k + s.high⟩ : Stitch).low = k := by rw [hv]; exact low_flags h0 h1
  refine ⟨⟨v, hv⟩, by simp [St.moveTo], ?_, ?_, h.ord, h.base, h.ex, h.tOn, h.tOff, h.seq, ?_,
    fun e hn => by obtain ⟨b, hb, e9⟩ := h.num e hn; exact ⟨b, List.mem_append_left _ hb, e9⟩⟩
  rotate_right
  · rintro ⟨b, hb, e⟩
    have hb : b ∈ s.out ++ [⟨x, y, k + s.high⟩] := hb
    rcases List.mem_append.1 hb with hb | hb
    · exact h.sewn ⟨b, hb, e⟩
    · simp at hb; subst hb; exact hz (hl.symm.trans e)
  · show isCut (s.out ++ [_]) = _
    rw [isCut_snoc, hl, h.cut]; rfl
  · show EachAt _ (s.out ++ [_])
    rw [eachAt_snoc]
    refine ⟨h.each, ⟨?_, ?_, ?_, ?_, ?_, ?_⟩⟩
    · rw [hl, h.cut]; exact fun e => h2 (.inl e)
    · rw [hl, h.cut]; exact fun e => h2 (.inr e)
    · rw [hl]; exact fun e => by omega
    · rw [hl, h.cut, ← h.pos]; exact hf
    · rw [hl]; intro _ _; simp only; rw [hv, flagsOf_add h0 h1]
    · rw [hl]; exact fun e e0 => h.num e (hz e0)

theorem Pass.add (h : Pass o t s) (k : Int) (h0 : 0 ≤ k) (h1 : k < 256) (h5 : k ≠ 5 ∧ k ≠ 9) (h2 : k = 2 ∨ k = 7 → t = false)
    (h0' : k ≠ 0) : Pass o (cutBy k t) (s.add k) := by
  have := h.emit k s.nx s.ny h0 h1 h5 h2 (fun _ _ _ => rfl) (fun e => absurd e h0')
  exact this

theorem Pass.mode (h : Pass o t s) (b : Bool) : Pass o t { s with sequinMode := b } := ⟨h.1, h.2, h.3, h.4, h.5, h.6, h.7, h.8, h.9, h.10, h.11, h.12⟩

/-- A move that neither sews, cuts nor ejects. -/
theorem Pass.move (h : Pass o t s) (k : Int) (x y : ℚ) (hk : 0 ≤ k ∧ k < 256 ∧ k ≠ 0 ∧ k ≠ 2 ∧ k ≠ 3 ∧ k ≠ 5 ∧ k ≠ 7 ∧ k ≠ 9) :
    Pass o t (s.moveTo k x y) := by
  have := h.emit k x y hk.1 hk.2.1 (by omega) (by omega) (fun e => absurd e hk.2.2.1) (fun e => absurd e hk.2.2.1)
  have e : cutBy k t = t := by unfold cutBy; rw [if_neg (by omega), if_neg (by omega)]
  rwa [e] at this

/-- What the moves of a pass do not touch. -/
def Kept (s s' : St) : Prop := s'.trimmed = s.trimmed ∧ s'.order = s.order

theorem Pass.toggle (h : Pass o t s) : Pass o t (toggleSequins s) ∧ Kept s (toggleSequins s) := by
  unfold toggleSequins
  split_ifs
  · exact ⟨(h.move SEQUIN_MODE s.nx s.ny (by decide)).mode _, rfl, rfl⟩
  · exact ⟨h, rfl, rfl⟩

theorem Pass.toggleIf (h : Pass o t s) (p : Prop) [Decidable p] :
    Pass o t (if p then toggleSequins s else s) ∧ Kept s (if p then toggleSequins s else s) := by
  split_ifs
  · exact h.toggle
  · exact ⟨h, rfl, rfl⟩

theorem Pass.gapLoop {data : Int} (hd : data = JUMP ∨ (data = STITCH ∧ t = false)) {sx sy : ℚ} : ∀ (n : Nat) (s : St),
    Pass o t s → Pass o t (gapLoop data sx sy n s) ∧ Kept s (Emb.gapLoop data sx sy n s) := by
  intro n
  induction n with
  | zero => intro s h; exact ⟨h, rfl, rfl⟩
  | succ n ih =>
    intro s h
    have h1 : Pass o t (s.moveTo data (s.nx + sx) (s.ny + sy)) := by
      rcases hd with rfl | ⟨rfl, rfl⟩
      · exact h.move JUMP _ _ (by decide)
      · exact h.emit STITCH _ _ (by decide) (by decide) (by decide) (by decide) (fun _ _ e => nomatch e) (fun _ => h.sewn (isCut_sewn h.cut))
    exact ih _ h1

theorem Pass.gap (h : Pass o t s) {data : Int} (hd : data = JUMP ∨ (data = STITCH ∧ t = false)) {x y : ℚ} {l : Option ℚ}
    (hs : gap s x y l data = .ok s') : Pass o t s' ∧ Kept s s' := by
  unfold Emb.gap at hs
  simp only at hs
  cases l with
  | none => injection hs with hs; subst hs; exact ⟨h, rfl, rfl⟩
  | some m =>
    simp only at hs
    by_cases hf : tooFar (some m) (x - s.nx) (y - s.ny) = true
    · rw [if_pos hf] at hs
      obtain ⟨h1, k1⟩ := h.toggleIf (data = JUMP ∧ s.sequinMode = true)
      by_cases hm : m = 0
      · rw [if_pos hm] at hs; cases hs
      · rw [if_neg hm] at hs
        by_cases hz : (if ceilQ |(x - s.nx) / m| > ceilQ |(y - s.ny) / m| then ceilQ |(x - s.nx) / m|
            else ceilQ |(y - s.ny) / m|) = 0
        · rw [if_pos hz] at hs; cases hs
        · rw [if_neg hz] at hs
          injection hs with hs
          subst hs
          obtain ⟨h2, k2⟩ := Pass.gapLoop hd _ _ h1
          exact ⟨h2, k2.1.trans k1.1, k2.2.trans k1.2⟩
    · rw [if_neg hf] at hs; injection hs with hs; subst hs; exact ⟨h, rfl, rfl⟩

theorem Pass.jumpAt (h : Pass o t s) (x y : ℚ) : Pass o t (jumpAt s x y) ∧ Kept s (Emb.jumpAt s x y) := by
  unfold Emb.jumpAt
  obtain ⟨h1, k1⟩ := h.toggleIf (s.sequinMode = true)
  exact ⟨h1.move JUMP x y (by decide), k1⟩

theorem Pass.jumpTo (h : Pass o t s) {x y : ℚ} (hs : jumpTo s x y = .ok s') : Pass o t s' ∧ Kept s s' := by
  unfold Emb.jumpTo at hs
  obtain ⟨a, h1, h2⟩ := bind_ok.1 hs
  obtain ⟨p, k⟩ := h.gap (.inl rfl) h1
  obtain rfl := pure_ok.1 h2
  obtain ⟨p', k'⟩ := p.jumpAt x y
  exact ⟨p', k'.1.trans k.1, k'.2.trans k.2⟩

theorem Pass.jumpToWithin {cfg : Cfg} (hc : cfg.fullJump = o.fullJump) (h : Pass o t s) {x y : ℚ}
    (hs : jumpToWithin cfg s x y = .ok s') :
    Pass o t s' ∧ Kept s s' ∧ (o.fullJump = true → (x, y) = (s'.nx, s'.ny)) := by
  unfold Emb.jumpToWithin at hs
  obtain ⟨a, h1, h2⟩ := bind_ok.1 hs
  obtain ⟨p, k⟩ := h.gap (.inl rfl) h1
  have h2 := pure_ok.1 h2
  by_cases hf : cfg.fullJump = true ∧ (a.nx ≠ x ∨ a.ny ≠ y)
  · rw [if_pos hf] at h2; subst h2
    obtain ⟨p', k'⟩ := p.jumpAt x y
    exact ⟨p', ⟨k'.1.trans k.1, k'.2.trans k.2⟩, fun _ => rfl⟩
  · rw [if_neg hf] at h2; subst h2
    refine ⟨p, k, fun e => ?_⟩
    rw [hc] at hf
    have : a.nx = x ∧ a.ny = y := by
      constructor <;> by_contra hne
      · exact hf ⟨e, .inl hne⟩
      · exact hf ⟨e, .inr hne⟩
    rw [this.1, this.2]

/-- A STITCH while the thread is down. -/
theorem Pass.stitchAt (h : Pass o false s) (x y : ℚ) : Pass o false (stitchAt s x y) :=
  h.emit STITCH x y (by decide) (by decide) (by decide) (by decide) (fun _ _ e => nomatch e) (fun _ => h.sewn (isCut_sewn h.cut))

theorem Pass.sew (h : Pass o false s) {x y : ℚ} (hs : sewTo s x y = .ok s') : Pass o false s' ∧ Kept s s' := by
  unfold sewTo at hs
  obtain ⟨a, h1, h2⟩ := bind_ok.1 hs
  obtain ⟨p, k⟩ := h.gap (.inr ⟨rfl, rfl⟩) h1
  obtain rfl := pure_ok.1 h2
  exact ⟨p.stitchAt x y, k⟩

theorem Pass.needle (h : Pass o false s) {x y : ℚ} (hs : needleTo s x y = .ok s') : Pass o false s' ∧ Kept s s' := by
  unfold needleTo at hs
  obtain ⟨a, h1, h2⟩ := bind_ok.1 hs
  obtain ⟨p, k⟩ := h.gap (.inl rfl) h1
  obtain rfl := pure_ok.1 h2
  exact ⟨p.stitchAt x y, k⟩

theorem Pass.contingency (h : Pass o false s) {x y : ℚ} (hs : stitchWithContingency s x y = .ok s') :
    Pass o false s' ∧ Kept s s' := by
  unfold stitchWithContingency at hs
  by_cases h1 : s.longC = CONTINGENCY_LONG_STITCH_SEW_TO
  · rw [if_pos h1] at hs; exact h.sew hs
  · rw [if_neg h1] at hs
    by_cases h2 : s.longC = CONTINGENCY_LONG_STITCH_JUMP_NEEDLE
    · rw [if_pos h2] at hs; exact h.needle hs
    · rw [if_neg h2] at hs; injection hs with hs; subst hs; exact ⟨h.stitchAt x y, rfl, rfl⟩

theorem Pass.sequinAt (h : Pass o false s) {x y : ℚ} (hs : sequinAt s x y = .ok s') : Pass o false s' ∧ Kept s s' := by
  have hv := h.seq
  unfold Emb.sequinAt at hs
  simp only at hs
  by_cases h1 : s.sequinC = CONTINGENCY_SEQUIN_REMOVE
  · rw [if_pos h1] at hs; injection hs with hs; subst hs; exact ⟨h, rfl, rfl⟩
  · rw [if_neg h1] at hs
    obtain ⟨a, h2, h3⟩ := bind_ok.1 hs
    obtain ⟨p, k⟩ := h.gap (.inr ⟨rfl, rfl⟩) h2
    have h3 := pure_ok.1 h3
    by_cases c1 : s.sequinC = CONTINGENCY_SEQUIN_UTILIZE
    · rw [if_pos c1] at h3; subst h3
      exact ⟨p.emit SEQUIN_EJECT x y (by decide) (by decide) (by decide) (fun _ => rfl) (fun _ _ e => nomatch e) (fun e => absurd e (by decide)), k⟩
    · rw [if_neg c1] at h3
      by_cases c2 : s.sequinC = CONTINGENCY_SEQUIN_JUMP
      · rw [if_pos c2] at h3; subst h3
        exact ⟨p.move JUMP x y (by decide), k⟩
      · rw [if_neg c2] at h3
        by_cases c3 : s.sequinC = CONTINGENCY_SEQUIN_STITCH
        · rw [if_pos c3] at h3; subst h3
          exact ⟨p.stitchAt x y, k⟩
        · exfalso
          unfold ValidSequin at hv
          rcases hv with hv | hv | hv | hv
          · exact c1 hv
          · exact c2 hv
          · exact c3 hv
          · exact h1 hv

/-- A planned change; if it is the silent first one, the thread must be cut already. -/
theorem Pass.next {cfg : Cfg} (hc : Mode o cfg) (h : Pass o t s) (ho : s.order = -1 → t = true)
    (hx : o.explicitTrim = true → t = true) (hs : nextChange cfg s = .ok s') :
    Pass o true s' ∧ s'.trimmed = true ∧ 0 ≤ s'.order := by
  obtain ⟨_, _, f3, f4, f5, f6, _, _, f9, f10, _, _, f13, f14, f15⟩ := nextChange_fields hs
  obtain ⟨ch, _, hcase⟩ := nextChange_out hs
  have hb := h.base
  have emitted : ∀ k : Int, k = 5 ∨ k = 9 → (cfg.change = 9 → k = 9) → s'.out = s.out ++ [⟨s.nx, s.ny, encodeThreadChange k (some ch.thread) (some ch.needle) none⟩] →
      Pass o true s' ∧ s'.trimmed = true ∧ 0 ≤ s'.order := by
    intro k hk hk' e
    have hl : (⟨s.nx, s.ny, encodeThreadChange k (some ch.thread) (some ch.needle) none⟩ : Stitch).low = k := by
      rcases hk with rfl | rfl
      · exact encodeThreadChange_low 5 (by decide) (by decide) _ _ _
      · exact encodeThreadChange_low 9 (by decide) (by decide) _ _ _
    refine ⟨⟨by rw [f15]; exact h.high, by rw [f13, f14, e]; simp, by rw [e, isCut_snoc, hl, if_neg (by omega), if_pos (by omega)],
      ?_, fun _ => by omega, by omega, (by rw [f3]; exact h.ex), by rw [f5]; exact h.tOn,
      by rw [f6]; exact h.tOff, by rw [f4]; exact h.seq, fun _ => by omega, ?_⟩, f10, by omega⟩
    rotate_left
    · intro e9 _
      rw [← hc.1] at e9
      exact ⟨_, by rw [e]; exact List.mem_append_right _ (List.mem_singleton.2 rfl), by rw [hl]; exact hk' e9⟩
    rw [e, eachAt_snoc]
    refine ⟨h.each, ⟨by rw [hl]; exact fun e => by omega, by rw [hl]; exact fun e => by omega,
      fun _ => by rw [h.cut]; exact hx, by rw [hl]; exact fun e => by omega,
      by rw [hl]; exact fun _ _ => by omega, by rw [hl]; exact fun _ _ => by omega⟩⟩
  rcases hcase with ⟨h5, _, ⟨e0, e⟩ | ⟨e0, e⟩⟩ | ⟨_, _, e⟩ | ⟨hne, _⟩ | ⟨hne, hne2, _⟩
  · refine ⟨⟨by rw [f15]; exact h.high, by rw [f13, f14, e]; exact h.pos, by rw [e, h.cut]; exact ho (by omega),
      by rw [e]; exact h.each, fun _ => by omega, by omega, (by rw [f3]; exact h.ex), by rw [f5]; exact h.tOn,
      by rw [f6]; exact h.tOff, by rw [f4]; exact h.seq, fun _ => by omega,
      fun e9 => by rw [← hc.1, h5] at e9; exact absurd e9 (by decide)⟩, f10, by omega⟩
  · exact emitted 5 (.inl rfl) (fun e9 => by rw [h5] at e9; exact absurd e9 (by decide)) e
  · exact emitted 9 (.inr rfl) (fun _ => rfl) e
  · rcases hc.2 with hc | hc <;> (rw [hc] at hne; simp [COLOR_CHANGE, NEEDLE_SET, STOP] at hne)
  · rcases hc.2 with hc | hc
    · exact absurd hc hne
    · exact absurd hc hne2

theorem Pass.tieOff_eq (h : Pass o t s) (cfg : Cfg) (position : Nat) : tieOff cfg position s = s := by
  unfold tieOff; rw [if_neg h.tOff]

theorem Pass.tieOn_eq (h : Pass o t s) (cfg : Cfg) (position : Nat) : tieOn cfg position s = s := by
  unfold tieOn; rw [if_neg h.tOn]

theorem Pass.trimmedTo (h : Pass o t s) (b : Bool) (hb : b = false → 0 ≤ s.order) : Pass o t { s with trimmed := b } :=
  ⟨h.1, h.2, h.3, h.4, hb, h.6, h.7, h.8, h.9, h.10, h.11, h.12⟩

/-- Between source commands the flag and the output agree. -/
def Level (o : Settings) (s : St) : Prop := Pass o s.trimmed s

theorem Level.trimHere (h : Level o s) (ht : s.trimmed = false) : Level o (trimHere s) ∧ (Emb.trimHere s).order = s.order := by
  unfold Level at h
  rw [ht] at h
  unfold Emb.trimHere
  obtain ⟨h1, k1⟩ := h.toggleIf (s.sequinMode = true)
  have h2 := h1.add TRIM (by decide) (by decide) (by decide) (fun _ => rfl) (by decide)
  exact ⟨h2.trimmedTo true (fun e => nomatch e), k1.2⟩

theorem Level.firstStrike {cfg : Cfg} (hc : Mode o cfg) (hj : cfg.fullJump = o.fullJump) (h : Level o s)
    (ht : s.trimmed = true) {position : Nat} {x y : ℚ} (hs : firstStrike cfg position s x y = .ok s') :
    Pass o false s' ∧ s'.trimmed = false := by
  unfold Level at h
  rw [ht] at h
  unfold Emb.firstStrike at hs
  obtain ⟨s1, e1, hs⟩ := bind_ok.1 hs
  obtain ⟨s2, e2, hs⟩ := bind_ok.1 hs
  obtain rfl := pure_ok.1 hs
  unfold declareNotTrimmed at e1
  obtain ⟨s0, e0, e1⟩ := bind_ok.1 e1
  have e1 := pure_ok.1 e1
  have hb := h.base
  have h0 : Pass o true s0 ∧ 0 ≤ s0.order := by
    by_cases ho : s.order = -1
    · rw [if_pos ho] at e0
      obtain ⟨a, _, c⟩ := h.next hc (fun _ => rfl) (fun _ => rfl) e0
      exact ⟨a, c⟩
    · rw [if_neg ho] at e0; injection e0 with e0; subst e0; exact ⟨h, by omega⟩
  have h1 : Pass o true s1 := by rw [← e1]; exact h0.1.trimmedTo false (fun _ => h0.2)
  obtain ⟨h2, k2, hn⟩ := h1.jumpToWithin hj e2
  have h3 : Pass o false (Emb.stitchAt s2 x y) :=
    h2.emit STITCH x y (by decide) (by decide) (by decide) (by decide) (fun _ a _ => hn a) (fun _ => by
      rw [k2.2, ← e1]; exact h0.2)
  rw [h3.tieOn_eq]
  exact ⟨h3, k2.1.trans (by rw [← e1])⟩

theorem Level.of_kept (h : Pass o t s') (k : Kept s s') (ht : s.trimmed = t) : Level o s' := by
  unfold Level; rw [k.1, ht]; exact h

theorem Level.sewStep {cfg : Cfg} (hc : Mode o cfg) (hj : cfg.fullJump = o.fullJump) (h : Level o s)
    {position : Nat} {x y : ℚ} {direct : St → ℚ → ℚ → Except PyErr St}
    (hd : ∀ s', Pass o false s → direct s x y = .ok s' → Pass o false s' ∧ Kept s s')
    (hs : sewStep cfg position s x y direct = .ok s') : Level o s' := by
  unfold Emb.sewStep at hs
  by_cases ht : s.trimmed = true
  · rw [if_pos ht] at hs
    obtain ⟨a, b⟩ := h.firstStrike hc hj ht hs
    unfold Level; rw [b]; exact a
  · rw [if_neg ht] at hs
    have ht : s.trimmed = false := by simpa using ht
    have h' : Pass o false s := by unfold Level at h; rw [ht] at h; exact h
    by_cases hjm : s.jumping = true
    · rw [if_pos hjm] at hs
      obtain ⟨s1, e1, hs⟩ := bind_ok.1 hs
      obtain rfl := pure_ok.1 hs
      obtain ⟨a, k⟩ := h'.needle e1
      have : Level o s1 := Level.of_kept a k ht
      exact ⟨this.1, this.2, this.3, this.4, this.5, this.6, this.7, this.8, this.9, this.10, this.11, this.12⟩
    · rw [if_neg hjm] at hs
      obtain ⟨a, k⟩ := hd s' h' hs
      exact Level.of_kept a k ht

theorem Level.explicit {cfg : Cfg} (h : Level o s) (position : Nat) :
    Level o (tieOffTrimIfExplicit cfg position s) ∧ (tieOffTrimIfExplicit cfg position s).order = s.order ∧
      (o.explicitTrim = true → (tieOffTrimIfExplicit cfg position s).trimmed = true) := by
  unfold tieOffTrimIfExplicit
  by_cases ht : s.trimmed = true
  · rw [if_pos ht]; exact ⟨h, rfl, fun _ => ht⟩
  · rw [if_neg ht]
    have ht : s.trimmed = false := by simpa using ht
    rw [Pass.tieOff_eq h]
    simp only
    by_cases hx : s.explicitTrim = true
    · rw [if_pos hx]
      obtain ⟨a, b⟩ := h.trimHere ht
      exact ⟨a, b, fun _ => rfl⟩
    · rw [if_neg hx]
      exact ⟨h, rfl, fun e => absurd (h.ex e) hx⟩

theorem Level.neededTrim {cfg : Cfg} (h : Level o s) (position : Nat) : Level o (tieOffAndTrimIfNeeded cfg position s) := by
  unfold tieOffAndTrimIfNeeded
  by_cases ht : s.trimmed = true
  · rw [if_pos ht]; exact h
  · rw [if_neg ht, Pass.tieOff_eq h]; exact (h.trimHere (by simpa using ht)).1

theorem Level.nextAfter {cfg : Cfg} (hc : Mode o cfg) (h : Level o s) {position : Nat}
    (hs : nextChange cfg (tieOffTrimIfExplicit cfg position s) = .ok s') : Pass o true s' ∧ s'.trimmed = true := by
  obtain ⟨a, b, c⟩ := h.explicit (cfg := cfg) position
  obtain ⟨p, q, _⟩ := Pass.next hc a (fun e => by
    by_contra hne
    have := a.ord (by simpa using hne)
    omega) c hs
  exact ⟨p, q⟩

theorem Level.stopHere (h : Level o s) : Level o (stopHere s) := by
  have := Pass.add h STOP (by decide) (by decide) (by decide) (fun e => absurd e (by decide)) (by decide)
  exact this.trimmedTo true (fun e => nomatch e)

/-- Not one of the commands that switch explicit trims off or lock stitches on. -/
def PlainCmd (st : Stitch) : Prop := st.low ≠ 0xD8 ∧ st.low ≠ 0xD1 ∧ st.low ≠ 0xD2

theorem Level.leave (h : Level o s) {c : Int} (hc : ValidSequin c) : Level o (leaveSequins s c) := by
  unfold leaveSequins
  obtain ⟨a, k⟩ := Pass.toggleIf h (s.sequinMode = true)
  have := Level.of_kept a k rfl
  exact ⟨this.1, this.2, this.3, this.4, this.5, this.6, this.7, this.8, this.9, hc, this.11, this.12⟩

theorem Level.matrix (h : Level o s) (m : Mat) : Level o { s with matrix := m } :=
  ⟨h.1, h.2, h.3, h.4, h.5, h.6, h.7, h.8, h.9, h.10, h.11, h.12⟩

theorem Level.matrixStep {cfg : Cfg} (h : Level o s) {st : Stitch} {flags : Int} (hs : matrixStep cfg s st flags = .ok s') :
    Level o s' := by
  unfold Emb.matrixStep at hs
  by_cases h1 : flags = MATRIX_TRANSLATE
  · rw [if_pos h1] at hs; injection hs with hs; subst hs; exact h.matrix _
  rw [if_neg h1] at hs
  by_cases h2 : flags = MATRIX_SCALE_ORIGIN
  · rw [if_pos h2] at hs; injection hs with hs; subst hs; exact h.matrix _
  rw [if_neg h2] at hs
  by_cases h3 : flags = MATRIX_ROTATE_ORIGIN
  · rw [if_pos h3] at hs; injection hs with hs; subst hs; exact h.matrix _
  rw [if_neg h3] at hs
  by_cases h4 : flags = MATRIX_SCALE
  · rw [if_pos h4] at hs
    obtain ⟨⟨m, qx, qy⟩, _, hs⟩ := bind_ok.1 hs
    obtain rfl := pure_ok.1 hs
    exact h.matrix _
  rw [if_neg h4] at hs
  by_cases h5 : flags = MATRIX_ROTATE
  · rw [if_pos h5] at hs
    obtain ⟨⟨m, qx, qy⟩, _, hs⟩ := bind_ok.1 hs
    obtain rfl := pure_ok.1 hs
    exact h.matrix _
  rw [if_neg h5] at hs
  by_cases h6 : flags = MATRIX_RESET
  · rw [if_pos h6] at hs; injection hs with hs; subst hs; exact h.matrix _
  rw [if_neg h6] at hs
  injection hs with hs; subst hs; exact h

theorem Level.settingStep {cfg : Cfg} (h : Level o s) {st : Stitch} {flags : Int}
    (hp : flags ≠ 0xD8 ∧ flags ≠ 0xD1 ∧ flags ≠ 0xD2) (hs : settingStep cfg s st flags = .ok s') :
    Level o s' := by
  unfold Emb.settingStep at hs
  rw [if_neg (show flags ≠ CONTINGENCY_TIE_ON_THREE_SMALL from hp.2.1),
    if_neg (show flags ≠ CONTINGENCY_TIE_OFF_THREE_SMALL from hp.2.2)] at hs
  by_cases h1 : flags = CONTINGENCY_TIE_ON_NONE
  · rw [if_pos h1] at hs; injection hs with hs; subst hs
    exact ⟨h.1, h.2, h.3, h.4, h.5, h.6, h.7, (show CONTINGENCY_TIE_ON_NONE ≠ CONTINGENCY_TIE_ON_THREE_SMALL by decide), h.9, h.10, h.11, h.12⟩
  rw [if_neg h1] at hs
  by_cases h2 : flags = CONTINGENCY_TIE_OFF_NONE
  · rw [if_pos h2] at hs; injection hs with hs; subst hs
    exact ⟨h.1, h.2, h.3, h.4, h.5, h.6, h.7, h.8,
      (show CONTINGENCY_TIE_OFF_NONE ≠ CONTINGENCY_TIE_OFF_THREE_SMALL by decide), h.10, h.11, h.12⟩
  rw [if_neg h2] at hs
  by_cases h3 : flags = OPTION_MAX_JUMP_LENGTH
  · rw [if_pos h3] at hs; injection hs with hs; subst hs
    exact ⟨h.1, h.2, h.3, h.4, h.5, h.6, h.7, h.8, h.9, h.10, h.11, h.12⟩
  rw [if_neg h3] at hs
  by_cases h4 : flags = OPTION_MAX_STITCH_LENGTH
  · rw [if_pos h4] at hs; injection hs with hs; subst hs
    exact ⟨h.1, h.2, h.3, h.4, h.5, h.6, h.7, h.8, h.9, h.10, h.11, h.12⟩
  rw [if_neg h4] at hs
  by_cases h4' : flags = OPTION_EXPLICIT_TRIM
  · rw [if_pos h4'] at hs; injection hs with hs; subst hs
    exact ⟨h.1, h.2, h.3, h.4, h.5, h.6, fun _ => rfl, h.8, h.9, h.10, h.11, h.12⟩
  rw [if_neg h4', if_neg (show flags ≠ OPTION_IMPLICIT_TRIM from hp.1)] at hs
  by_cases h5 : flags = CONTINGENCY_LONG_STITCH_NONE
  · rw [if_pos h5] at hs; injection hs with hs; subst hs
    exact ⟨h.1, h.2, h.3, h.4, h.5, h.6, h.7, h.8, h.9, h.10, h.11, h.12⟩
  rw [if_neg h5] at hs
  by_cases h6 : flags = CONTINGENCY_LONG_STITCH_JUMP_NEEDLE
  · rw [if_pos h6] at hs; injection hs with hs; subst hs
    exact ⟨h.1, h.2, h.3, h.4, h.5, h.6, h.7, h.8, h.9, h.10, h.11, h.12⟩
  rw [if_neg h6] at hs
  by_cases h7 : flags = CONTINGENCY_LONG_STITCH_SEW_TO
  · rw [if_pos h7] at hs; injection hs with hs; subst hs
    exact ⟨h.1, h.2, h.3, h.4, h.5, h.6, h.7, h.8, h.9, h.10, h.11, h.12⟩
  rw [if_neg h7] at hs
  by_cases h8 : flags = CONTINGENCY_SEQUIN_REMOVE
  · rw [if_pos h8] at hs; injection hs with hs; subst hs; exact h.leave (.inr (.inr (.inr rfl)))
  rw [if_neg h8] at hs
  by_cases h9 : flags = CONTINGENCY_SEQUIN_STITCH
  · rw [if_pos h9] at hs; injection hs with hs; subst hs; exact h.leave (.inr (.inr (.inl rfl)))
  rw [if_neg h9] at hs
  by_cases h10 : flags = CONTINGENCY_SEQUIN_JUMP
  · rw [if_pos h10] at hs; injection hs with hs; subst hs; exact h.leave (.inr (.inl rfl))
  rw [if_neg h10] at hs
  by_cases h11 : flags = CONTINGENCY_SEQUIN_UTILIZE
  · rw [if_pos h11] at hs; injection hs with hs; subst hs
    exact ⟨h.1, h.2, h.3, h.4, h.5, h.6, h.7, h.8, h.9, .inl rfl, h.11, h.12⟩
  rw [if_neg h11] at hs
  exact h.matrixStep hs

theorem Level.dispatch {cfg : Cfg} (hc : Mode o cfg) (hj : cfg.fullJump = o.fullJump) (h : Level o s)
    {position : Nat} {st : Stitch} {x y : ℚ} {flags : Int} (hp : flags ≠ 0xD8 ∧ flags ≠ 0xD1 ∧ flags ≠ 0xD2)
    (hs : dispatch cfg position s st x y flags = .ok s') : Level o s' := by
  unfold Emb.dispatch at hs
  by_cases h1 : flags = STITCH
  · rw [if_pos h1] at hs; exact h.sewStep hc hj (fun _ p e => p.contingency e) hs
  rw [if_neg h1] at hs
  by_cases h2 : flags = NEEDLE_AT
  · rw [if_pos h2] at hs; exact h.sewStep hc hj (fun _ p e => p.needle e) hs
  rw [if_neg h2] at hs
  by_cases h3 : flags = SEW_TO
  · rw [if_pos h3] at hs; exact h.sewStep hc hj (fun _ p e => p.sew e) hs
  rw [if_neg h3] at hs
  by_cases h4 : flags = STITCH_BREAK
  · rw [if_pos h4] at hs; injection hs with hs; subst hs
    exact ⟨h.1, h.2, h.3, h.4, h.5, h.6, h.7, h.8, h.9, h.10, h.11, h.12⟩
  rw [if_neg h4] at hs
  by_cases h5 : flags = FRAME_EJECT
  · rw [if_pos h5] at hs
    unfold frameEject at hs
    obtain ⟨a, e, hs⟩ := bind_ok.1 hs
    obtain rfl := pure_ok.1 hs
    obtain ⟨p, k⟩ := Pass.jumpTo (h.neededTrim (cfg := cfg) position) e
    exact (Level.of_kept p k rfl).stopHere
  rw [if_neg h5] at hs
  by_cases h6 : flags = SEQUENCE_BREAK
  · rw [if_pos h6] at hs; injection hs with hs; subst hs; exact h.neededTrim position
  rw [if_neg h6] at hs
  by_cases h7 : flags = COLOR_BREAK
  · rw [if_pos h7] at hs
    unfold colorBreak at hs
    by_cases ho : s.order < 0
    · rw [if_pos ho] at hs; injection hs with hs; subst hs; exact h
    rw [if_neg ho] at hs
    simp only at hs
    by_cases hl : lookahead cfg position = true
    · rw [if_pos hl] at hs
      obtain ⟨a, e, hs⟩ := bind_ok.1 hs
      obtain rfl := pure_ok.1 hs
      exact (h.nextAfter hc e).1.trimmedTo true (fun e => nomatch e)
    · rw [if_neg hl] at hs; injection hs with hs; subst hs; exact (h.explicit position).1
  rw [if_neg h7] at hs
  by_cases h8 : flags = TIE_OFF
  · rw [if_pos h8, Pass.tieOff_eq h] at hs; injection hs with hs; subst hs; exact h
  rw [if_neg h8] at hs
  by_cases h9 : flags = TIE_ON
  · rw [if_pos h9, Pass.tieOn_eq h] at hs; injection hs with hs; subst hs; exact h
  rw [if_neg h9] at hs
  by_cases h10 : flags = TRIM
  · rw [if_pos h10] at hs; injection hs with hs; subst hs; exact h.neededTrim position
  rw [if_neg h10] at hs
  by_cases h11 : flags = JUMP
  · rw [if_pos h11] at hs
    by_cases hjm : s.jumping = true
    · rw [if_pos hjm] at hs; injection hs with hs; subst hs; exact h
    · rw [if_neg hjm] at hs
      obtain ⟨p, k⟩ := Pass.jumpTo h hs
      exact Level.of_kept p k rfl
  rw [if_neg h11] at hs
  by_cases h12 : flags = SEQUIN_MODE
  · rw [if_pos h12] at hs; injection hs with hs; subst hs
    obtain ⟨p, k⟩ := Pass.toggle h
    exact Level.of_kept p k rfl
  rw [if_neg h12] at hs
  by_cases h13 : flags = SEQUIN_EJECT
  · rw [if_pos h13] at hs
    unfold ejectStep at hs
    obtain ⟨a, e, hs⟩ := bind_ok.1 hs
    have ha : Pass o false a ∧ a.trimmed = false := by
      by_cases ht : s.trimmed = true
      · rw [if_pos ht] at e; exact h.firstStrike hc hj ht e
      · rw [if_neg ht] at e; injection e with e; subst e
        have ht : s.trimmed = false := by simpa using ht
        have h' := h
        unfold Level at h'
        rw [ht] at h'
        exact ⟨h', ht⟩
    have hb : Pass o false (if a.sequinMode = true then a else toggleSequins a) ∧
        (if a.sequinMode = true then a else toggleSequins a).trimmed = false := by
      split_ifs
      · exact ha
      · obtain ⟨p, k⟩ := ha.1.toggle
        exact ⟨p, k.1.trans ha.2⟩
    obtain ⟨p, k⟩ := hb.1.sequinAt hs
    exact Level.of_kept p k hb.2
  rw [if_neg h13] at hs
  have hcc : ∀ s', colorChange cfg position s = .ok s' → Level o s' := by
    intro s' hs
    unfold colorChange at hs
    obtain ⟨a, e, hs⟩ := bind_ok.1 hs
    obtain rfl := pure_ok.1 hs
    exact (h.nextAfter hc e).1.trimmedTo true (fun e => nomatch e)
  by_cases h14 : flags = COLOR_CHANGE
  · rw [if_pos h14] at hs; exact hcc _ hs
  rw [if_neg h14] at hs
  by_cases h15 : flags = NEEDLE_SET
  · rw [if_pos h15] at hs; exact hcc _ hs
  rw [if_neg h15] at hs
  by_cases h16 : flags = STOP
  · rw [if_pos h16] at hs; injection hs with hs; subst hs; exact h.stopHere
  rw [if_neg h16] at hs
  by_cases h17 : flags = SLOW
  · rw [if_pos h17] at hs; injection hs with hs; subst hs
    split_ifs
    · exact Pass.move h SLOW s.nx s.ny (by decide)
    · exact h
  rw [if_neg h17] at hs
  by_cases h18 : flags = FAST
  · rw [if_pos h18] at hs; injection hs with hs; subst hs
    split_ifs
    · exact Pass.move h FAST s.nx s.ny (by decide)
    · exact h
  rw [if_neg h18] at hs
  exact h.settingStep hp hs

theorem Level.flags (h : Level o s) (v : Int) : Level o { s with high := flagsOf v } :=
  ⟨⟨v, rfl⟩, h.2, h.3, h.4, h.5, h.6, h.7, h.8, h.9, h.10, h.11, h.12⟩

theorem Level.init (lm : Libm) (threads : List Thread) (hv : o.ValidSequins)
    (h1 : o.tieOnCode ≠ 0xD1) (h2 : o.tieOffCode ≠ 0xD2) : Level o (initSt o lm threads) :=
  ⟨⟨0, rfl⟩, rfl, rfl, eachAt_nil _, (fun e => nomatch e), le_refl (-1 : Int), fun e => e, h1, h2,
    (init_base o lm threads hv).1.2, (fun ⟨_, h, _⟩ => nomatch h), fun _ h => absurd (show (0 : Int) ≤ -1 from h) (by decide)⟩

/-- Every command of a normalized pattern (without lock stitches) satisfies `Fixed`. -/
theorem encode_fixed {lm : Libm} {threads : List Thread} {source out : List Stitch} {ths : List (Option Thread)}
    (hv : o.ValidSequins) (hc : o.changeCommand = 5 ∨ o.changeCommand = 9) (h1 : o.tieOnCode ≠ 0xD1) (h2 : o.tieOffCode ≠ 0xD2)
    (hq : ∀ st ∈ source, PlainCmd st) (h : encode o lm threads source = .ok (out, ths)) :
    ∃ l e, out = l ++ [e] ∧ EachAt (Fixed o) l ∧ (e.x, e.y) = lastPos l ∧ e.cmd = 4 + flagsOf e.cmd := by
  obtain ⟨s, _, hs, rfl, _⟩ := encode_lift_step (P := Level o) (Q := PlainCmd) hv h (Level.init lm threads hv h1 h2) hq
    (fun plan position st a b hp _ hst ha => by
      unfold step at hst
      exact (ha.flags st.cmd).dispatch ⟨rfl, hc⟩ rfl hp hst)
    (fun s v hs => hs.flags v)
  obtain ⟨v, hv⟩ := Pass.high hs
  refine ⟨_, _, rfl, Pass.each hs, Pass.pos hs, ?_⟩
  simp only
  rw [hv]
  exact congrArg _ (flagsOf_add (by decide) (by decide)).symm

end Emb
