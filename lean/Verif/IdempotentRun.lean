import Verif.IdempotentPlan
import Verif.Props.MatrixProps

/-!
# The second pass, command by command
-/

namespace Emb

/-- State of the second pass after it has copied `pre`; `R` says which change is in force. -/
structure Copied (o : Settings) (R : List Stitch → Int → Prop) (pre : List Stitch) (s : St) : Prop where
  out : s.out = pre
  pos : (s.nx, s.ny) = lastPos pre
  cut : s.trimmed = isCut pre
  mode : s.sequinMode = sequinOn pre
  jump : s.jumping = false
  mat : s.matrix = Mat.identity
  maxS : s.maxStitch = o.maxStitch
  maxJ : s.maxJump = o.maxJump
  ex : s.explicitTrim = o.explicitTrim
  seq : s.sequinC = o.sequin
  tOn : s.tieOnC ≠ CONTINGENCY_TIE_ON_THREE_SMALL
  tOff : s.tieOffC ≠ CONTINGENCY_TIE_OFF_THREE_SMALL
  ord : R pre s.order

/-- What the second pass needs to know about a command. -/
structure Ready (o : Settings) (pre : List Stitch) (a : Stitch) : Prop where
  fixed : Fixed o pre a
  kind : a.low ∈ [0, 1, 2, 3, 5, 6, 7, 9, 11, 12]
  here : a.low ≠ 0 → a.low ≠ 1 → a.low ≠ 7 → (a.x, a.y) = lastPos pre
  near : ∀ m, o.maxStitch = some m ∨ o.maxJump = some m → |a.x - (lastPos pre).1| ≤ m ∧ |a.y - (lastPos pre).2| ≤ m
  off : a.low = 1 ∨ a.low = 2 → sequinOn pre = false
  on : a.low = 7 → sequinOn pre = true
  util : a.low = 6 ∨ a.low = 7 → o.sequin = CONTINGENCY_SEQUIN_UTILIZE
  speed : a.low = 11 ∨ a.low = 12 → o.writesSpeeds = true
  grid : o.round = true → IsInt a.x ∧ IsInt a.y

/-- The changes of `l` follow the plan: `R` says which change is in force, and the next one in the plan is that of `l`. -/
structure Follows (cfg : Cfg) (R : List Stitch → Int → Prop) (l : List Stitch) : Prop where
  other : ∀ pre a post n, l = pre ++ a :: post → a.low ≠ 0 → a.low ≠ 5 → a.low ≠ 9 → R pre n → R (pre ++ [a]) n
  down : ∀ pre a post n, l = pre ++ a :: post → a.low = 0 → isCut pre = false → R pre n → R (pre ++ [a]) n
  first : ∀ pre a post (s : St), l = pre ++ a :: post → a.low = 0 → R pre s.order →
    ∃ th n, declareNotTrimmed cfg s = .ok { s with order := n, threads := th, trimmed := false } ∧ R (pre ++ [a]) n
  change : ∀ pre a post (s : St), l = pre ++ a :: post → a.low = 5 ∨ a.low = 9 → R pre s.order → a.x = s.nx → a.y = s.ny →
    ∃ th n, nextChange cfg s = .ok { s with order := n, threads := th, out := s.out ++ [a], trimmed := true } ∧ R (pre ++ [a]) n

variable {R : List Stitch → Int → Prop} {o : Settings} {pre : List Stitch} {a : Stitch} {s : St} {cfg : Cfg} {position : Nat}

theorem target_copy (h : Copied o R pre s) (ha : Ready o pre a) (hr : cfg.round = o.round) : target cfg s a = (a.x, a.y) := by
  unfold target
  have hp : s.matrix.point a.x a.y = (a.x, a.y) := by
    rw [h.mat]; exact (C35_basic_points a.x a.y 0 0 0 0 0 0).1
  simp only [hp]
  by_cases hb : cfg.round = true
  · rw [if_pos hb]
    obtain ⟨⟨i, hi⟩, ⟨j, hj⟩⟩ := ha.grid (hr.symm.trans hb)
    rw [hi, hj, pyRound_intCast, pyRound_intCast]
  · rw [if_neg hb]

theorem gap_copy (ha : Ready o pre a) {s : St} (hx : (s.nx, s.ny) = lastPos pre) {l : Option ℚ} (hl : l = o.maxStitch ∨ l = o.maxJump)
    (data : Int) : gap s a.x a.y l data = .ok s := by
  apply C23_gap_near
  intro m hm
  have := ha.near m (by rcases hl with rfl | rfl; exacts [.inl hm, .inr hm])
  rwa [← hx] at this

theorem sequinOn_mode (h : a.low = 6) : sequinOn (pre ++ [a]) = !sequinOn pre := by
  rw [sequinOn_snoc]; simp [h]

theorem sequinOn_other (h : a.low ≠ 6) : sequinOn (pre ++ [a]) = sequinOn pre := by
  rw [sequinOn_snoc]; simp [h]

/-- Copying a move that neither sews, cuts nor switches. -/
theorem Copied.move (h : Copied o R pre s) {a : Stitch} (he : a.cmd = a.low + flagsOf a.cmd)
    (hk : a.low = 1 ∨ a.low = 7 ∨ a.low = 11 ∨ a.low = 12) (hR : R (pre ++ [a]) s.order) :
    Copied o R (pre ++ [a]) ({ s with high := flagsOf a.cmd }.moveTo a.low a.x a.y) := by
  refine ⟨?_, by simp [St.moveTo], ?_, ?_, h.jump, h.mat, h.maxS, h.maxJ, h.ex, h.seq, h.tOn, h.tOff, hR⟩
  · show s.out ++ [⟨a.x, a.y, a.low + flagsOf a.cmd⟩] = _
    rw [h.out, ← he]
  · rw [isCut_snoc, if_neg (by omega), if_neg (by omega)]; exact h.cut
  · rw [sequinOn_other (by omega)]; exact h.mode

theorem here_eq (h : Copied o R pre s) (ha : (a.x, a.y) = lastPos pre) : a.x = s.nx ∧ a.y = s.ny := by
  have := ha.trans h.pos.symm
  exact ⟨congrArg Prod.fst this, congrArg Prod.snd this⟩

/-- **One command of a normalized pattern is copied.** -/
theorem step_copy {l post : List Stitch} (h : Copied o R pre s) (ha : Ready o pre a) (hr : cfg.round = o.round)
    (hj : cfg.fullJump = o.fullJump) (hw : cfg.writesSpeeds = o.writesSpeeds) (hf : Follows cfg R l) (hl : l = pre ++ a :: post) :
    ∃ s', step cfg position s a = .ok s' ∧ Copied o R (pre ++ [a]) s' := by
  unfold step
  rw [target_copy h ha hr]
  have hk := ha.kind
  have ef : cmdOf a.cmd = a.low := rfl
  rw [ef]
  simp only [List.mem_cons, List.not_mem_nil, or_false] at hk
  have hstitch : ∀ th n, a.low = 0 → R (pre ++ [a]) n →
      Copied o R (pre ++ [a]) (stitchAt { s with high := flagsOf a.cmd, order := n, trimmed := false, threads := th } a.x a.y) := by
    intro th n e hR
    have he := ha.fixed.word (by omega) (by omega)
    refine ⟨?_, by simp [St.moveTo, stitchAt], ?_, ?_, h.jump, h.mat, h.maxS, h.maxJ, h.ex, h.seq, h.tOn, h.tOff, hR⟩
    · show s.out ++ [⟨a.x, a.y, 0 + flagsOf a.cmd⟩] = _
      rw [h.out, ← e, ← he]
    · rw [isCut_snoc, if_pos e]; rfl
    · rw [sequinOn_other (by omega)]; exact h.mode
  unfold dispatch
  by_cases k0 : a.low = 0
  · rw [if_pos (show a.low = STITCH from k0)]
    unfold sewStep
    by_cases ht : s.trimmed = true
    · rw [if_pos ht]
      unfold firstStrike
      obtain ⟨th, n, hd, hR⟩ := hf.first pre a post { s with high := flagsOf a.cmd } hl k0 h.ord
      rw [hd]
      have hjw : jumpToWithin cfg { s with high := flagsOf a.cmd, order := n, trimmed := false, threads := th } a.x a.y =
          .ok { s with high := flagsOf a.cmd, order := n, trimmed := false, threads := th } := by
        unfold jumpToWithin
        rw [gap_copy ha (by exact h.pos) (.inr h.maxJ)]
        show (pure _ : Except PyErr St) = _
        have : ¬ (cfg.fullJump = true ∧ (s.nx ≠ a.x ∨ s.ny ≠ a.y)) := by
          rintro ⟨e1, e2⟩
          obtain ⟨e3, e4⟩ := here_eq h (ha.fixed.full k0 (hj.symm.trans e1) (h.cut.symm.trans ht))
          rcases e2 with e2 | e2
          · exact e2 e3.symm
          · exact e2 e4.symm
        simp only [if_neg this]
        rfl
      refine ⟨_, ?_, hstitch th n k0 hR⟩
      show (jumpToWithin cfg _ a.x a.y >>= _) = _
      rw [hjw]
      show Except.ok (tieOn cfg position _) = _
      unfold tieOn
      rw [if_neg (by exact h.tOn)]
    · rw [if_neg ht, if_neg (by show ¬ s.jumping = true; rw [h.jump]; decide)]
      have hcut : isCut pre = false := by rw [← h.cut]; simpa using ht
      have hst := hstitch s.threads s.order k0 (hf.down pre a post _ hl k0 hcut h.ord)
      have hst : Copied o R (pre ++ [a]) (stitchAt { s with high := flagsOf a.cmd } a.x a.y) := by
        have e : ({ s with high := flagsOf a.cmd, order := s.order, trimmed := false, threads := s.threads } : St) =
            { s with high := flagsOf a.cmd } := by
          rw [← show s.trimmed = false by simpa using ht]
        rwa [e] at hst
      refine ⟨_, ?_, hst⟩
      unfold stitchWithContingency sewTo needleTo
      rw [gap_copy ha (by exact h.pos) (.inl h.maxS), gap_copy ha (by exact h.pos) (.inl h.maxS)]
      show (if _ then Except.ok _ else if _ then Except.ok _ else Except.ok _) = _
      split_ifs <;> rfl
  rw [if_neg (show ¬ a.low = STITCH from k0), if_neg (show ¬ a.low = NEEDLE_AT from fun e => by have : a.low = 177 := e; omega),
    if_neg (show ¬ a.low = SEW_TO from fun e => by have : a.low = 176 := e; omega),
    if_neg (show ¬ a.low = STITCH_BREAK from fun e => by have : a.low = 224 := e; omega),
    if_neg (show ¬ a.low = FRAME_EJECT from fun e => by have : a.low = 233 := e; omega),
    if_neg (show ¬ a.low = SEQUENCE_BREAK from fun e => by have : a.low = 225 := e; omega),
    if_neg (show ¬ a.low = COLOR_BREAK from fun e => by have : a.low = 226 := e; omega),
    if_neg (show ¬ a.low = TIE_OFF from fun e => by have : a.low = 229 := e; omega),
    if_neg (show ¬ a.low = TIE_ON from fun e => by have : a.low = 228 := e; omega)]
  have hord : a.low ≠ 5 → a.low ≠ 9 → R (pre ++ [a]) s.order := fun e e' => hf.other pre a post _ hl k0 e e' h.ord
  by_cases k2 : a.low = 2
  · rw [if_pos (show a.low = TRIM from k2)]
    obtain ⟨hx, hy⟩ := here_eq h (ha.here (by omega) (by omega) (by omega))
    have he := ha.fixed.word (by omega) (by omega)
    have ht : s.trimmed = false := h.cut.trans (ha.fixed.trim k2)
    refine ⟨_, rfl, ?_⟩
    unfold tieOffAndTrimIfNeeded
    rw [if_neg (by show ¬ s.trimmed = true; rw [ht]; decide)]
    unfold tieOff
    rw [if_neg (by exact h.tOff)]
    unfold trimHere
    rw [if_neg (by show ¬ s.sequinMode = true; rw [h.mode, ha.off (.inr k2)]; decide)]
    refine ⟨?_, ?_, ?_, ?_, h.jump, h.mat, h.maxS, h.maxJ, h.ex, h.seq, h.tOn, h.tOff, hord (by omega) (by omega)⟩
    · show s.out ++ [⟨s.nx, s.ny, 2 + flagsOf a.cmd⟩] = _
      rw [h.out, ← hx, ← hy, ← k2, ← he]
    · simp only [lastPos_snoc, hx, hy]; rfl
    · rw [isCut_snoc, if_neg (by omega), if_pos (.inl k2)]
    · rw [sequinOn_other (by omega)]; exact h.mode
  rw [if_neg (show ¬ a.low = TRIM from k2)]
  by_cases k1 : a.low = 1
  · rw [if_pos (show a.low = JUMP from k1), if_neg (by show ¬ s.jumping = true; rw [h.jump]; decide)]
    refine ⟨_, ?_, h.move (ha.fixed.word (by omega) (by omega)) (.inl k1) (hord (by omega) (by omega))⟩
    unfold jumpTo
    rw [gap_copy ha (by exact h.pos) (.inr h.maxJ)]
    show Except.ok (jumpAt _ _ _) = _
    unfold jumpAt
    rw [if_neg (by show ¬ s.sequinMode = true; rw [h.mode, ha.off (.inl k1)]; decide), k1]
    rfl
  rw [if_neg (show ¬ a.low = JUMP from k1)]
  by_cases k6 : a.low = 6
  · rw [if_pos (show a.low = SEQUIN_MODE from k6)]
    obtain ⟨hx, hy⟩ := here_eq h (ha.here (by omega) (by omega) (by omega))
    have he := ha.fixed.word (by omega) (by omega)
    refine ⟨_, rfl, ?_⟩
    unfold toggleSequins
    rw [if_pos (by show s.sequinC = _; rw [h.seq]; exact ha.util (.inl k6))]
    refine ⟨?_, ?_, ?_, ?_, h.jump, h.mat, h.maxS, h.maxJ, h.ex, h.seq, h.tOn, h.tOff, hord (by omega) (by omega)⟩
    · show s.out ++ [⟨s.nx, s.ny, 6 + flagsOf a.cmd⟩] = _
      rw [h.out, ← hx, ← hy, ← k6, ← he]
    · simp only [lastPos_snoc, hx, hy]; rfl
    · rw [isCut_snoc, if_neg (by omega), if_neg (by omega)]; exact h.cut
    · rw [sequinOn_mode k6, ← h.mode]
  rw [if_neg (show ¬ a.low = SEQUIN_MODE from k6)]
  by_cases k7 : a.low = 7
  · rw [if_pos (show a.low = SEQUIN_EJECT from k7)]
    refine ⟨_, ?_, h.move (ha.fixed.word (by omega) (by omega)) (.inr (.inl k7)) (hord (by omega) (by omega))⟩
    have hu := ha.util (.inr k7)
    unfold ejectStep
    rw [if_neg (by show ¬ s.trimmed = true; rw [h.cut, ha.fixed.eject k7]; decide)]
    show sequinAt (if s.sequinMode = true then _ else _) _ _ = _
    rw [if_pos (by rw [h.mode]; exact ha.on k7)]
    have hsu : s.sequinC = CONTINGENCY_SEQUIN_UTILIZE := h.seq.trans hu
    unfold sequinAt
    simp only [hsu]
    rw [if_neg (show ¬ CONTINGENCY_SEQUIN_UTILIZE = CONTINGENCY_SEQUIN_REMOVE by decide), gap_copy ha (by exact h.pos) (.inl h.maxS)]
    rw [k7]
    rfl
  rw [if_neg (show ¬ a.low = SEQUIN_EJECT from k7)]
  by_cases k5 : a.low = 5 ∨ a.low = 9
  · have hdisp : ∀ r : Except PyErr St, (if a.low = COLOR_CHANGE then colorChange cfg position { s with high := flagsOf a.cmd }
        else if a.low = NEEDLE_SET then colorChange cfg position { s with high := flagsOf a.cmd } else r) =
        colorChange cfg position { s with high := flagsOf a.cmd } := by
      intro r
      rcases k5 with e | e
      · rw [if_pos (show a.low = COLOR_CHANGE from e)]
      · rw [if_neg (show ¬ a.low = COLOR_CHANGE by rw [e]; decide), if_pos (show a.low = NEEDLE_SET from e)]
    rw [hdisp]
    obtain ⟨hx, hy⟩ := here_eq h (ha.here (by omega) (by omega) (by omega))
    have ht : tieOffTrimIfExplicit cfg position { s with high := flagsOf a.cmd } = { s with high := flagsOf a.cmd } := by
      unfold tieOffTrimIfExplicit
      by_cases ht : s.trimmed = true
      · rw [if_pos ht]
      · rw [if_neg ht]
        have hoff : tieOff cfg position { s with high := flagsOf a.cmd } = { s with high := flagsOf a.cmd } := by
          unfold tieOff
          rw [if_neg (by exact h.tOff)]
        rw [hoff]
        have : ¬ s.explicitTrim = true := by
          intro e
          exact ht (h.cut.trans (ha.fixed.change k5 (h.ex.symm.trans e)))
        simp only [if_neg this]
    obtain ⟨th, n, hn, hR⟩ := hf.change pre a post { s with high := flagsOf a.cmd } hl k5 h.ord hx hy
    refine ⟨{ s with high := flagsOf a.cmd, order := n, threads := th, out := s.out ++ [a], trimmed := true }, ?_, ?_⟩
    · unfold colorChange
      rw [ht, hn]
      rfl
    · refine ⟨?_, ?_, ?_, ?_, h.jump, h.mat, h.maxS, h.maxJ, h.ex, h.seq, h.tOn, h.tOff, hR⟩
      · show s.out ++ [a] = _; rw [h.out]
      · simp only [lastPos_snoc, hx, hy]
      · rw [isCut_snoc, if_neg (by omega), if_pos (by omega)]
      · rw [sequinOn_other (by omega)]; exact h.mode
  have k9 : a.low ≠ 9 := fun e => k5 (.inr e)
  have k5 : a.low ≠ 5 := fun e => k5 (.inl e)
  rw [if_neg (show ¬ a.low = COLOR_CHANGE from k5), if_neg (show ¬ a.low = NEEDLE_SET from k9)]
  have he := ha.fixed.word k5 k9
  by_cases k3 : a.low = 3
  · rw [if_pos (show a.low = STOP from k3)]
    obtain ⟨hx, hy⟩ := here_eq h (ha.here (by omega) (by omega) (by omega))
    refine ⟨_, rfl, ?_⟩
    unfold stopHere
    refine ⟨?_, ?_, ?_, ?_, h.jump, h.mat, h.maxS, h.maxJ, h.ex, h.seq, h.tOn, h.tOff, hord (by omega) (by omega)⟩
    · show s.out ++ [⟨s.nx, s.ny, 3 + flagsOf a.cmd⟩] = _
      rw [h.out, ← hx, ← hy, ← k3, ← he]
    · simp only [lastPos_snoc, hx, hy]; rfl
    · rw [isCut_snoc, if_neg (by omega), if_pos (.inr (.inl k3))]
    · rw [sequinOn_other (by omega)]; exact h.mode
  rw [if_neg (show ¬ a.low = STOP from k3)]
  obtain ⟨hx, hy⟩ := here_eq h (ha.here (by omega) (by omega) (by omega))
  by_cases k11 : a.low = 11
  · rw [if_pos (show a.low = SLOW from k11), if_pos (hw.trans (ha.speed (.inl k11)))]
    refine ⟨_, ?_, h.move he (.inr (.inr (.inl k11))) (hord k5 k9)⟩
    unfold St.add St.moveTo
    rw [hx, hy, k11]; rfl
  rw [if_neg (show ¬ a.low = SLOW from k11)]
  have k12 : a.low = 12 := by omega
  rw [if_pos (show a.low = FAST from k12), if_pos (hw.trans (ha.speed (.inr k12)))]
  refine ⟨_, ?_, h.move he (.inr (.inr (.inr k12))) (hord k5 k9)⟩
  unfold St.add St.moveTo
  rw [hx, hy, k12]; rfl

/-- The whole pass. -/
theorem run_copy {l : List Stitch} {e : Stitch} (hr : cfg.round = o.round)
    (hj : cfg.fullJump = o.fullJump) (hw : cfg.writesSpeeds = o.writesSpeeds) (hf : Follows cfg R l) (hl : EachAt (Ready o) l)
    (he : (e.x, e.y) = lastPos l) (hec : e.cmd = 4 + flagsOf e.cmd) :
    ∀ (rest pre : List Stitch) (position : Nat) (s : St), l = pre ++ rest → Copied o R pre s →
      ∃ sf, runFrom cfg position s (rest ++ [e]) = .ok sf ∧ sf.out = l ++ [e] := by
  intro rest
  induction rest with
  | nil =>
    intro pre position s e1 h
    have e1 : l = pre := by simpa using e1
    subst e1
    have hlow : cmdOf e.cmd = END := by
      have : cmdOf (4 + flagsOf e.cmd) = 4 := by unfold cmdOf flagsOf; omega
      rw [← hec] at this; exact this
    obtain ⟨hx, hy⟩ := here_eq h he
    refine ⟨_, by rw [List.nil_append]; unfold runFrom; rw [if_pos hlow], ?_⟩
    show s.out ++ [⟨s.nx, s.ny, 4 + flagsOf e.cmd⟩] = _
    rw [h.out, ← hx, ← hy, ← hec]
  | cons a rest ih =>
    intro pre position s e1 h
    have ha := hl pre a rest e1
    obtain ⟨s', h1, h2⟩ := step_copy (position := position) h ha hr hj hw hf e1
    obtain ⟨sf, h3, h4⟩ := ih (pre ++ [a]) (position + 1) s' (by simpa using e1) h2
    refine ⟨sf, ?_, h4⟩
    rw [List.cons_append]
    unfold runFrom
    have hk := ha.kind
    simp only [List.mem_cons, List.not_mem_nil, or_false] at hk
    rw [if_neg (show ¬ cmdOf a.cmd = END from fun e => by have : a.low = 4 := e; omega), h1]
    exact h3

/-! ## Colour changes -/

/-- Number of the change in force after `pre`: none before the first STITCH. -/
def orderAt (pre : List Stitch) : Int := if pre.any (fun a => a.low == 0) then changes pre else -1

theorem orderAt_sewn (h : ∃ b ∈ pre, b.low = 0) : orderAt pre = changes pre := by
  unfold orderAt
  obtain ⟨b, hb, h0⟩ := h
  rw [if_pos (List.any_eq_true.2 ⟨b, hb, by simpa using h0⟩)]

/-- The changes of a pattern normalized with COLOR_CHANGE. -/
def ColorOrder (pre : List Stitch) (n : Int) : Prop := n = orderAt pre ∧ (changes pre = 0 ∨ ∃ b ∈ pre, b.low = 0)

theorem orderAt_snoc (h5 : a.low ≠ 5) (h0 : a.low ≠ 0) : orderAt (pre ++ [a]) = orderAt pre := by
  unfold orderAt
  rw [changes_snoc, if_neg h5, List.any_append]
  simp [h0]

theorem led_snoc (h : changes pre = 0 ∨ ∃ b ∈ pre, b.low = 0) (h5 : a.low ≠ 5) :
    changes (pre ++ [a]) = 0 ∨ ∃ b ∈ pre ++ [a], b.low = 0 := by
  rcases h with h | ⟨b, hb, h⟩
  · left; rw [changes_snoc, if_neg h5, h]
  · exact .inr ⟨b, List.mem_append_left _ hb, h⟩

theorem follows_colors {threads : List Thread} {l : List Stitch} (hc : cfg.change = COLOR_CHANGE)
    (hp : cfg.plan = plainPlan threads o.needleCount (changes l + 1)) (h9 : ∀ a ∈ l, a.low ≠ 9)
    (hw : EachAt (fun pre a => a.low = 5 → a.cmd = plainWord o.needleCount (changes pre + 1) ∧ ∃ b ∈ pre, b.low = 0) l) :
    Follows cfg ColorOrder l := by
  have hsum : ∀ pre a, a.low = 0 → orderAt (pre ++ [a]) = changes pre := by
    intro pre a e
    rw [orderAt_sewn ⟨a, by simp, e⟩, changes_snoc, if_neg (by omega)]; simp
  constructor
  · intro pre a post n _ h0 h5 _ h
    exact ⟨by rw [orderAt_snoc h5 h0]; exact h.1, led_snoc h.2 h5⟩
  · intro pre a post n _ h0 hcut h
    refine ⟨by rw [hsum pre a h0, h.1, orderAt_sewn (isCut_sewn hcut)], .inr ⟨a, by simp, h0⟩⟩
  · intro pre a post s _ h0 h
    have ho := h.1
    unfold declareNotTrimmed
    unfold orderAt at ho
    by_cases hany : (pre.any fun a => a.low == 0) = true
    · rw [if_pos hany] at ho
      rw [if_neg (show ¬ s.order = -1 by omega)]
      exact ⟨s.threads, s.order, rfl, by rw [hsum pre a h0, ho], .inr ⟨a, by simp, h0⟩⟩
    · rw [if_neg hany] at ho
      have h1 : changes pre = 0 := by
        rcases h.2 with h1 | ⟨b, hb, e⟩
        · exact h1
        · exact absurd (List.any_eq_true.2 ⟨b, hb, by simpa using e⟩) hany
      rw [if_pos ho]
      refine ⟨s.threads ++ [(plainFull threads o.needleCount 0).thr], 0, ?_, by rw [hsum pre a h0, h1]; rfl, .inr ⟨a, by simp, h0⟩⟩
      have hd := dget_plain (threads := threads) (limit := o.needleCount) (changes l + 1) (k := 0) (by omega)
      rw [← hp] at hd
      have e : s.order + 1 = ((0 : Nat) : Int) := by rw [ho]; rfl
      have hn : nextChange cfg s = .ok { s with order := 0, threads := s.threads ++ [(plainFull threads o.needleCount 0).thr], trimmed := true } := by
        unfold nextChange
        simp only [e, hd, if_pos hc]
        rfl
      rw [hn]; rfl
  · intro pre a post s hl h59 h hx hy
    have k5 : a.low = 5 := by
      have := h9 a (by rw [hl]; simp)
      omega
    obtain ⟨hword, hsewn⟩ := hw pre a post hl k5
    have hn : changes pre + 1 ≤ changes l := by
      rw [hl, show pre ++ a :: post = (pre ++ [a]) ++ post by simp]
      unfold changes
      rw [List.countP_append, List.countP_append, List.countP_cons_of_pos (by simpa using k5)]
      omega
    have ho : s.order = changes pre := by rw [h.1, orderAt_sewn hsewn]
    have hd := dget_plain (threads := threads) (limit := o.needleCount) (changes l + 1) (k := changes pre + 1) (by omega)
    rw [← hp] at hd
    refine ⟨s.threads ++ [(plainFull threads o.needleCount (changes pre + 1 : Nat)).thr], (changes pre + 1 : Nat), ?_, ?_, ?_⟩
    · unfold nextChange
      have e : s.order + 1 = ((changes pre + 1 : Nat) : Int) := by rw [ho]; push_cast; rfl
      have hne : ((changes pre + 1 : Nat) : Int) ≠ 0 := by omega
      simp only [e, hd, if_pos hc, if_pos hne]
      have hw2 : (⟨s.nx, s.ny, encodeThreadChange COLOR_CHANGE (some (plainFull threads o.needleCount (changes pre + 1 : Nat)).thread)
          (some (plainFull threads o.needleCount (changes pre + 1 : Nat)).needle) none⟩ : Stitch) = a := by
        have : encodeThreadChange COLOR_CHANGE (some (plainFull threads o.needleCount (changes pre + 1 : Nat)).thread)
          (some (plainFull threads o.needleCount (changes pre + 1 : Nat)).needle) none = a.cmd := by
          rw [hword]; rfl
        rw [this, ← hx, ← hy]
      rw [hw2]
    · obtain ⟨b, hb, e⟩ := hsewn
      rw [orderAt_sewn ⟨b, List.mem_append_left _ hb, e⟩, changes_snoc, if_pos k5]
    · obtain ⟨b, hb, e⟩ := hsewn
      exact .inr ⟨b, List.mem_append_left _ hb, e⟩

end Emb
