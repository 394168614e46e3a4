import Verif.Props.StrikeProps
import Verif.Props.EncoderProps

/-!
# C115: stitches, trims, stops, speeds and thread changes come in the order of the source

The score of a pattern is the list of what the machine does apart from moving the frame and from sequins. It is told, command by
command of the source, by a walk that extends the walk of `Walk.lean` by the trims, stops, speeds and thread changes. Commands
are written by number (README table): 2 TRIM, 3 STOP, 5 COLOR_CHANGE, 9 NEEDLE_SET, 11 SLOW, 12 FAST.
-/

namespace Emb

/-- What a machine does apart from moving: it sews at a point, or follows another command. -/
inductive Mark where
  | sew (p : Pt)
  | cmd (c : Int)
deriving DecidableEq

/-- STITCH counts with its position, TRIM, STOP, COLOR_CHANGE, NEEDLE_SET, SLOW and FAST without. -/
def markOf (a : Stitch) : Option Mark :=
  if a.low = 0 then some (.sew (a.x, a.y)) else if a.low ∈ [2, 3, 5, 9, 11, 12] then some (.cmd a.low) else none

/-- The score of a list of stitches. -/
def score (l : List Stitch) : List Mark := l.filterMap markOf

/-- What the thread change command `mode` shows of a change: as COLOR_CHANGE the first one is silent. -/
def announced (mode : Int) (first : Bool) : List Int :=
  if mode = 5 then (if first then [] else [5]) else if mode = 9 then [9] else if mode = 3 then [3] else []

/-- What one source command (not END) shows besides its stitches: before them, after them, and whether the first thread has been
taken up afterwards. `begun` says whether it was before. -/
def Head.signals (mode : Int) (speeds : Bool) (h : Head) (begun : Bool) (st : Stitch) (rest : List Stitch) :
    List Int × List Int × Bool :=
  let c := st.low
  let cut := if h.down && h.explicit then [2] else []
  -- sewing takes up the first thread
  if c = 0 ∨ c = 0xB0 ∨ c = 0xB1 ∨ c = 7 then (if begun then [] else announced mode true, [], true)
  -- TRIM, SEQUENCE_BREAK: only while the thread is in the fabric
  else if c = 2 ∨ c = 0xE1 then ([], if h.down then [2] else [], begun)
  -- COLOR_CHANGE, NEEDLE_SET
  else if c = 5 ∨ c = 9 then ([], cut ++ announced mode (!begun), true)
  -- COLOR_BREAK: only after the first thread, and a change only if something is sewn with it
  else if c = 0xE2 then ([], if begun then cut ++ (if sewnAhead rest then announced mode false else []) else [], begun)
  -- FRAME_EJECT
  else if c = 0xE9 then ([], (if h.down then [2] else []) ++ [3], begun)
  -- STOP
  else if c = 3 then ([], [3], begun)
  -- SLOW, FAST
  else if c = 11 ∨ c = 12 then ([], if speeds then [c] else [], begun)
  else ([], [], begun)

/-- The score of a source from a given state; END (4) finishes. -/
noncomputable def scoreWalk (lm : Libm) (round : Bool) (mode : Int) (speeds : Bool) :
    Head → Bool → Option Stitch → List Stitch → List Mark
  | _, _, _, [] => []
  | h, begun, prev, st :: rest =>
    if st.low = 4 then []
    else
      (h.signals mode speeds begun st rest).1.map .cmd ++ (h.step lm round prev st rest).1.map .sew ++
      (h.signals mode speeds begun st rest).2.1.map .cmd ++
      scoreWalk lm round mode speeds (h.step lm round prev st rest).2 (h.signals mode speeds begun st rest).2.2 (some st) rest

namespace Score

open Strike

variable {cfg : Cfg} {s s' t : St} {position : Nat} {prev : Option Stitch} {st : Stitch} {rest : List Stitch}

theorem score_append (a b : List Stitch) : score (a ++ b) = score a ++ score b := List.filterMap_append

/-- STITCH, JUMP, SEQUIN_MODE and SEQUIN_EJECT: without other marks than those of stitches. -/
def Still (a : Stitch) : Prop := a.low = 0 ∨ a.low = 1 ∨ a.low = 6 ∨ a.low = 7

theorem score_still (l : List Stitch) (h : ∀ a ∈ l, Still a) : score l = (strikes l).map .sew := by
  induction l with
  | nil => rfl
  | cons a l ih =>
    have ih := ih (fun b hb => h b (by simp [hb]))
    rw [show a :: l = [a] ++ l from rfl, score_append, strikes_append, List.map_append, ih]
    congr 1
    rcases h a (by simp) with e | e | e | e <;> simp [score, markOf, strikes, e]

/-- From `s` to `s'` only such commands were written. -/
structure Quiet (s s' : St) : Prop where
  out : ∃ new, s'.out = s.out ++ new ∧ ∀ a ∈ new, Still a
  order : s'.order = s.order
  high : s'.high = s.high

theorem Quiet.refl (s : St) : Quiet s s := ⟨⟨[], by simp, by simp⟩, rfl, rfl⟩

theorem Quiet.same (ho : s'.out = s.out) (h1 : s'.order = s.order) (h2 : s'.high = s.high) : Quiet s s' :=
  ⟨⟨[], by simp [ho], by simp⟩, h1, h2⟩

theorem Quiet.trans {a b c : St} (h : Quiet a b) (k : Quiet b c) : Quiet a c := by
  obtain ⟨⟨n, e, hn⟩, h1, h2⟩ := h
  obtain ⟨⟨m, e', hm⟩, k1, k2⟩ := k
  refine ⟨⟨n ++ m, by rw [e', e, List.append_assoc], ?_⟩, k1.trans h1, k2.trans h2⟩
  intro x hx
  rcases List.mem_append.1 hx with hx | hx
  · exact hn x hx
  · exact hm x hx

theorem Quiet.score {pts : List Pt} (q : Quiet s s') (e : strikes s'.out = strikes s.out ++ pts) :
    score s'.out = score s.out ++ pts.map .sew := by
  obtain ⟨⟨n, e', hn⟩, -, -⟩ := q
  rw [e', strikes_append] at e
  rw [e', score_append, score_still n hn, List.append_cancel_left e]

/-- From `s` to `s'` nothing was sewn, and the commands `m` were written. -/
structure Mute (s s' : St) (m : List Int) : Prop where
  score : score s'.out = score s.out ++ m.map .cmd
  strikes : strikes s'.out = strikes s.out

theorem Mute.refl (s : St) : Mute s s [] := ⟨by simp, rfl⟩

theorem Mute.trans {a b c : St} {m n : List Int} (h : Mute a b m) (k : Mute b c n) : Mute a c (m ++ n) :=
  ⟨by rw [k.score, h.score]; simp, k.strikes.trans h.strikes⟩

theorem Mute.ofQuiet (q : Quiet s s') (e : Emb.strikes s'.out = Emb.strikes s.out) : Mute s s' [] :=
  ⟨by simpa using q.score (pts := []) (by simpa using e), e⟩

theorem Mute.out (h : s'.out = s.out) : Mute s s' [] := ⟨by simp [h], by rw [h]⟩

theorem Mute.one {a : Stitch} {k : Int} (h : s'.out = s.out ++ [a]) (hl : a.low = k) (hk : k ∈ [2, 3, 5, 9, 11, 12]) :
    Mute s s' [k] := by
  have h0 : a.low ≠ 0 := by
    rw [hl]; rintro rfl; simp at hk
  refine ⟨?_, by rw [h, strikes_append, strikes_mute h0, List.append_nil]⟩
  rw [h, score_append]
  congr 1
  have : markOf a = some (.cmd k) := by
    rw [markOf, if_neg h0, hl, if_pos hk]
  simp [Emb.score, this]

theorem add_quiet (hh : s.high % 256 = 0) {k : Int} (hk : k = 1 ∨ k = 6 ∨ k = 7 ∨ k = 0) : Quiet s (s.add k) := by
  refine ⟨⟨_, rfl, ?_⟩, rfl, rfl⟩
  intro a ha
  simp only [List.mem_singleton] at ha
  subst ha
  have : (⟨s.nx, s.ny, k + s.high⟩ : Stitch).low = k := low_add hh (by omega) (by omega)
  unfold Still
  omega

theorem move_quiet (hh : s.high % 256 = 0) {k : Int} (hk : k = 1 ∨ k = 6 ∨ k = 7 ∨ k = 0) (x y : ℚ) :
    Quiet s (s.moveTo k x y) := by
  refine ⟨⟨_, rfl, ?_⟩, rfl, rfl⟩
  intro a ha
  simp only [List.mem_singleton] at ha
  subst ha
  have : (⟨x, y, k + s.high⟩ : Stitch).low = k := low_add hh (by omega) (by omega)
  unfold Still
  omega

theorem toggle_quiet (hh : s.high % 256 = 0) : Quiet s (toggleSequins s) := by
  unfold toggleSequins
  split
  · have := add_quiet hh (k := SEQUIN_MODE) (.inr (.inl rfl))
    exact ⟨this.out, this.order, this.high⟩
  · exact .refl s

theorem toggleIf_quiet (hh : s.high % 256 = 0) (b : Bool) : Quiet s (if b then toggleSequins s else s) := by
  cases b
  · exact .refl s
  · exact toggle_quiet hh

theorem gapLoop_quiet {data : Int} (hd : data = 1 ∨ data = 6 ∨ data = 7 ∨ data = 0) (sx sy : ℚ) :
    ∀ (n : Nat) (s : St), s.high % 256 = 0 → Quiet s (gapLoop data sx sy n s)
  | 0, s, _ => .refl s
  | n + 1, s, hh => (move_quiet hh hd _ _).trans (gapLoop_quiet hd sx sy n _ hh)

theorem gap_quiet (hh : s.high % 256 = 0) {data : Int} (hd : data = 1 ∨ data = 6 ∨ data = 7 ∨ data = 0) {x y : ℚ}
    {limit : Option ℚ} (h : gap s x y limit data = .ok s') : Quiet s s' := by
  unfold gap at h
  simp only at h
  split at h
  · injection h with h; subst h; exact .refl s
  · split at h
    · have q : Quiet s (if data = JUMP ∧ s.sequinMode = true then toggleSequins s else s) := by
        split
        · exact toggle_quiet hh
        · exact .refl s
      generalize (if data = JUMP ∧ s.sequinMode = true then toggleSequins s else s) = s1 at h q
      split at h
      · cases h
      · split at h
        · split at h
          · cases h
          · injection h with h; subst h
            exact q.trans (gapLoop_quiet hd _ _ _ _ (by rw [q.high]; exact hh))
        · split at h
          · cases h
          · injection h with h; subst h
            exact q.trans (gapLoop_quiet hd _ _ _ _ (by rw [q.high]; exact hh))
    · injection h with h; subst h; exact .refl s

theorem jumpAt_quiet (hh : s.high % 256 = 0) (x y : ℚ) : Quiet s (jumpAt s x y) := by
  have q := toggleIf_quiet hh s.sequinMode
  exact q.trans (move_quiet (by rw [q.high]; exact hh) (.inl rfl) x y)

theorem jumpToWithin_quiet (hh : s.high % 256 = 0) {x y : ℚ} (h : jumpToWithin cfg s x y = .ok s') : Quiet s s' := by
  unfold jumpToWithin at h
  rw [bind_ok] at h
  obtain ⟨s1, h1, h2⟩ := h
  rw [pure_ok] at h2; subst h2
  have q := gap_quiet hh (.inl rfl) h1
  split
  · exact q.trans (jumpAt_quiet (by rw [q.high]; exact hh) x y)
  · exact q

theorem jumpTo_quiet (hh : s.high % 256 = 0) {x y : ℚ} (h : jumpTo s x y = .ok s') : Quiet s s' := by
  unfold jumpTo at h
  rw [bind_ok] at h
  obtain ⟨s1, h1, h2⟩ := h
  rw [pure_ok] at h2; subst h2
  have q := gap_quiet hh (.inl rfl) h1
  exact q.trans (jumpAt_quiet (by rw [q.high]; exact hh) x y)

theorem sewTo_quiet (hh : s.high % 256 = 0) {x y : ℚ} (h : sewTo s x y = .ok s') : Quiet s s' := by
  unfold sewTo at h
  rw [bind_ok] at h
  obtain ⟨s1, h1, h2⟩ := h
  rw [pure_ok] at h2; subst h2
  have q := gap_quiet hh (.inr (.inr (.inr rfl))) h1
  exact q.trans (move_quiet (by rw [q.high]; exact hh) (.inr (.inr (.inr rfl))) x y)

theorem needleTo_quiet (hh : s.high % 256 = 0) {x y : ℚ} (h : needleTo s x y = .ok s') : Quiet s s' := by
  unfold needleTo at h
  rw [bind_ok] at h
  obtain ⟨s1, h1, h2⟩ := h
  rw [pure_ok] at h2; subst h2
  have q := gap_quiet hh (.inl rfl) h1
  exact q.trans (move_quiet (by rw [q.high]; exact hh) (.inr (.inr (.inr rfl))) x y)

theorem contingency_quiet (hh : s.high % 256 = 0) {x y : ℚ} (h : stitchWithContingency s x y = .ok s') : Quiet s s' := by
  unfold stitchWithContingency at h
  split at h
  · exact sewTo_quiet hh h
  · split at h
    · exact needleTo_quiet hh h
    · injection h with h; subst h
      exact move_quiet hh (.inr (.inr (.inr rfl))) x y

theorem sequinAt_quiet (hh : s.high % 256 = 0) {x y : ℚ} (h : sequinAt s x y = .ok s') : Quiet s s' := by
  unfold sequinAt at h
  simp only at h
  split at h
  · injection h with h; subst h; exact .refl s
  · rw [bind_ok] at h
    obtain ⟨s1, h1, h2⟩ := h
    rw [pure_ok] at h2; subst h2
    have q := gap_quiet hh (.inr (.inr (.inr rfl))) h1
    have h1 : s1.high % 256 = 0 := by rw [q.high]; exact hh
    refine q.trans ?_
    have fin : ∀ {u : St}, Quiet s1 u → Quiet s1 { u with nx := x, ny := y } := fun q => ⟨q.out, q.order, q.high⟩
    refine fin ?_
    split
    · exact move_quiet h1 (.inr (.inr (.inl rfl))) x y
    · split
      · exact move_quiet h1 (.inl rfl) x y
      · split
        · exact move_quiet h1 (.inr (.inr (.inr rfl))) x y
        · exact .refl _

theorem lock_quiet (b : Stitch) : Quiet s (lockTowards cfg s b) := by
  unfold lockTowards
  simp only
  split
  · obtain ⟨a1, a2, a3, e, e1, e2, e3⟩ := lockStitches_eq cfg.lm s.nx s.ny (s.matrix.point b.x b.y).1 (s.matrix.point b.x b.y).2
      s.maxStitch
    refine ⟨⟨_, rfl, ?_⟩, rfl, rfl⟩
    rw [e]
    intro a ha
    left
    simp only [List.mem_cons, List.not_mem_nil, or_false] at ha
    rcases ha with rfl | rfl | rfl | rfl <;> simp [Stitch.low, e1, e2, e3]
  · exact .refl s

theorem tieOff_quiet : Quiet s (tieOff cfg position s) := by
  unfold tieOff
  split
  · split
    · exact lock_quiet _
    · exact .refl s
  · exact .refl s

theorem tieOn_quiet : Quiet s (tieOn cfg position s) := by
  unfold tieOn
  split
  · split
    · exact lock_quiet _
    · exact .refl s
  · exact .refl s

/-! ## Marks -/

/-- A thread change shows what is announced of it. -/
theorem nextChange_mute (h : nextChange cfg s = .ok s') :
    Mute s s' (announced cfg.change (decide (s.order = -1))) ∧ s'.order = s.order + 1 ∧ s'.high = s.high := by
  have hf := nextChange_fields h
  refine ⟨?_, ?_⟩
  · obtain ⟨ch, -, hcase⟩ := nextChange_out h
    unfold announced
    rcases hcase with ⟨hc, -, ⟨h0, e⟩ | ⟨h0, e⟩⟩ | ⟨hc, -, e⟩ | ⟨hc, -, e⟩ | ⟨h5, h9, h3, -, e⟩
    · rw [if_pos (show cfg.change = 5 from hc), if_pos (by simp; omega)]
      exact .out e
    · rw [if_pos (show cfg.change = 5 from hc), if_neg (by simp; omega)]
      exact .one e (encodeThreadChange_low 5 (by decide) (by decide) _ _ _) (by simp)
    · rw [if_neg (by rw [hc]; decide), if_pos (show cfg.change = 9 from hc)]
      exact .one e (encodeThreadChange_low 9 (by decide) (by decide) _ _ _) (by simp)
    · rw [if_neg (by rw [hc]; decide), if_neg (by rw [hc]; decide), if_pos (show cfg.change = 3 from hc)]
      exact .one e (encodeThreadChange_low 3 (by decide) (by decide) _ _ _) (by simp)
    · rw [if_neg (show ¬ cfg.change = 5 from h5), if_neg (show ¬ cfg.change = 9 from h9), if_neg (show ¬ cfg.change = 3 from h3)]
      exact .out e
  · unfold nextChange at h
    split at h
    · cases h
    · injection h with h; subst h
      constructor
      · simp only
        split
        · split <;> rfl
        · split
          · rfl
          · split <;> rfl
      · simp only
        split
        · split <;> rfl
        · split
          · rfl
          · split <;> rfl

theorem trimHere_mute (g : Good s) : Mute s (trimHere s) [2] ∧ (trimHere s).order = s.order ∧ (trimHere s).high = s.high := by
  have hh := g.high
  have q := toggleIf_quiet hh s.sequinMode
  have e := toggleIf_eff g s.sequinMode
  unfold trimHere
  simp only
  generalize (if s.sequinMode = true then toggleSequins s else s) = s1 at q e
  refine ⟨?_, q.order, q.high⟩
  have m1 : Mute s s1 [] := .ofQuiet q (by simpa using e.out)
  have m2 : Mute s1 { s1.add TRIM with trimmed := true } [2] :=
    .one (a := ⟨s1.nx, s1.ny, 2 + s1.high⟩) rfl (low_add e.good.high (by decide) (by decide)) (by simp)
  exact m1.trans m2

/-- Something sewn, framed by marks. -/
structure Shown (s s' : St) (pre post : List Int) (order : Int) : Prop where
  parts : ∃ a b, Mute s a pre ∧ Quiet a b ∧ Mute b s' post
  order : s'.order = order

theorem Shown.score {pre post : List Int} {order : Int} {pts : List Pt} (h : Shown s s' pre post order)
    (e : strikes s'.out = strikes s.out ++ pts) :
    score s'.out = score s.out ++ pre.map .cmd ++ pts.map .sew ++ post.map .cmd := by
  obtain ⟨⟨a, b, ha, hq, hb⟩, -⟩ := h
  rw [hb.score, hq.score (pts := pts), ha.score]
  rw [← hb.strikes, ha.strikes, e]

theorem Shown.quiet (q : Quiet s s') : Shown s s' [] [] s.order := ⟨⟨s, s', .refl s, q, .refl s'⟩, q.order⟩

theorem tieOff_good (g : Good s) (a : Around cfg.source position prev st rest) :
    (tieOff cfg position s).explicitTrim = s.explicitTrim ∧ Good (tieOff cfg position s) := by
  have e := tieOff_eff g a
  exact ⟨congrArg Head.explicit e.head, e.good⟩

theorem trimIfNeeded_shown (g : Good s) (a : Around cfg.source position prev st rest) :
    Shown s (tieOffAndTrimIfNeeded cfg position s) [] (if (headOf s).down then [2] else []) s.order ∧
    (tieOffAndTrimIfNeeded cfg position s).high = s.high := by
  unfold tieOffAndTrimIfNeeded
  cases ht : s.trimmed with
  | true =>
    rw [if_pos rfl, if_neg (by simp [headOf, ht])]
    exact ⟨.quiet (.refl s), rfl⟩
  | false =>
    rw [if_neg (by simp), if_pos (by simp [headOf, ht])]
    obtain ⟨-, g1⟩ := tieOff_good g a
    have q : Quiet s (tieOff cfg position s) := tieOff_quiet
    obtain ⟨m, o, hi⟩ := trimHere_mute g1
    exact ⟨⟨⟨s, _, .refl s, q, m⟩, o.trans q.order⟩, hi.trans q.high⟩

theorem trimIfExplicit_shown (g : Good s) (a : Around cfg.source position prev st rest) :
    Shown s (tieOffTrimIfExplicit cfg position s) [] (if (headOf s).down && (headOf s).explicit then [2] else []) s.order := by
  have hdef : tieOffTrimIfExplicit cfg position s = if s.trimmed = true then s else
    if (tieOff cfg position s).explicitTrim = true then trimHere (tieOff cfg position s) else tieOff cfg position s := rfl
  rw [hdef]
  cases ht : s.trimmed with
  | true =>
    rw [if_pos rfl, if_neg (by simp [headOf, ht])]
    exact .quiet (.refl s)
  | false =>
    rw [if_neg (c := false = true) (by simp)]
    obtain ⟨hx, g1⟩ := tieOff_good g a
    have q : Quiet s (tieOff cfg position s) := tieOff_quiet
    rw [hx]
    cases hexp : s.explicitTrim with
    | true =>
      rw [if_pos rfl, if_pos (by simp [headOf, ht, hexp])]
      obtain ⟨m, o, -⟩ := trimHere_mute g1
      exact ⟨⟨s, _, .refl s, q, m⟩, o.trans q.order⟩
    | false =>
      rw [if_neg (by simp), if_neg (by simp [headOf, hexp])]
      exact .quiet q

theorem Shown.mute {pre post m : List Int} {o o' : Int} {s1 : St} (h : Shown s s1 pre post o) (k : Mute s1 s' m)
    (ho : s'.order = o') : Shown s s' pre (post ++ m) o' := by
  obtain ⟨⟨a, b, h1, h2, h3⟩, -⟩ := h
  exact ⟨⟨a, b, h1, h2, h3.trans k⟩, ho⟩

theorem change_shown (g : Good s) (a : Around cfg.source position prev st rest) (h : colorChange cfg position s = .ok s') :
    Shown s s' [] ((if (headOf s).down && (headOf s).explicit then [2] else []) ++ announced cfg.change (decide (s.order = -1)))
      (s.order + 1) := by
  unfold colorChange at h
  rw [bind_ok] at h
  obtain ⟨s1, h1, h2⟩ := h
  rw [pure_ok] at h2; subst h2
  have e1 := trimIfExplicit_shown g a
  obtain ⟨m, o, -⟩ := nextChange_mute h1
  rw [e1.order] at m o
  exact e1.mute (s' := { s1 with trimmed := true }) ⟨m.score, m.strikes⟩ o

theorem break_shown (g : Good s) (a : Around cfg.source position prev st rest) (hst : st.low = 0xE2)
    (h : colorBreak cfg position s = .ok s') :
    ∃ o, Shown s s' [] (if 0 ≤ s.order then (if (headOf s).down && (headOf s).explicit then [2] else []) ++
      (if sewnAhead rest then announced cfg.change false else []) else []) o ∧ (0 ≤ o ↔ 0 ≤ s.order) := by
  unfold colorBreak at h
  by_cases ho : s.order < 0
  · rw [if_pos ho] at h
    injection h with h; subst h
    rw [if_neg (by omega)]
    exact ⟨_, .quiet (.refl s), Iff.rfl⟩
  · rw [if_neg ho] at h
    rw [if_pos (by omega)]
    simp only at h
    rw [lookahead_eq a hst] at h
    have e1 := trimIfExplicit_shown g a
    cases hl : sewnAhead rest with
    | true =>
      rw [hl, if_pos rfl, bind_ok] at h
      obtain ⟨s1, h1, h2⟩ := h
      rw [pure_ok] at h2; subst h2
      obtain ⟨m, o, -⟩ := nextChange_mute h1
      rw [e1.order] at m o
      rw [decide_eq_false (by omega)] at m
      exact ⟨_, e1.mute (s' := { s1 with trimmed := true }) ⟨m.score, m.strikes⟩ o, by omega⟩
    | false =>
      rw [hl, if_neg (by simp)] at h
      injection h with h; subst h
      exact ⟨_, by simpa using e1, Iff.rfl⟩

theorem declare_mute (g : Good s) (h : declareNotTrimmed cfg s = .ok s') :
    Mute s s' (if 0 ≤ s.order then [] else announced cfg.change true) ∧ 0 ≤ s'.order ∧ s'.high = s.high := by
  have := g.order
  unfold declareNotTrimmed at h
  rw [bind_ok] at h
  obtain ⟨s1, h1, h2⟩ := h
  rw [pure_ok] at h2; subst h2
  by_cases ho : s.order = -1
  · rw [if_pos ho] at h1
    obtain ⟨m, o, hi⟩ := nextChange_mute h1
    rw [decide_eq_true ho] at m
    rw [if_neg (by omega)]
    exact ⟨⟨m.score, m.strikes⟩, by show 0 ≤ s1.order; omega, hi⟩
  · rw [if_neg ho] at h1
    injection h1 with h1; subst h1
    rw [if_pos (by omega)]
    exact ⟨.out rfl, by show 0 ≤ s.order; omega, rfl⟩

/-- Sewing: the announcement of the first thread, then stitches. -/
def Sewn (cfg : Cfg) (s s' : St) : Prop :=
  ∃ a, Mute s a (if 0 ≤ s.order then [] else announced cfg.change true) ∧ Quiet a s' ∧ 0 ≤ a.order ∧ a.high = s.high

theorem Sewn.shown (h : Sewn cfg s s') :
    ∃ o, Shown s s' (if 0 ≤ s.order then [] else announced cfg.change true) [] o ∧ 0 ≤ o := by
  obtain ⟨a, h1, h2, h3, -⟩ := h
  exact ⟨_, ⟨⟨a, s', h1, h2, .refl _⟩, h2.order⟩, h3⟩

theorem Sewn.more {s1 : St} (h : Sewn cfg s s1) (q : Quiet s1 s') : Sewn cfg s s' := by
  obtain ⟨a, h1, h2, h3⟩ := h
  exact ⟨a, h1, h2.trans q, h3⟩

theorem Sewn.quiet (ho : 0 ≤ s.order) (q : Quiet s s') : Sewn cfg s s' :=
  ⟨s, by rw [if_pos ho]; exact .refl s, q, ho, rfl⟩

theorem Sewn.high (h : Sewn cfg s s') : s'.high = s.high := by
  obtain ⟨a, -, h2, -, h3⟩ := h
  exact h2.high.trans h3

theorem firstStrike_sewn (g : Good s) {x y : ℚ} (h : firstStrike cfg position s x y = .ok s') : Sewn cfg s s' := by
  unfold firstStrike at h
  rw [bind_ok] at h
  obtain ⟨s1, h1, h⟩ := h
  rw [bind_ok] at h
  obtain ⟨s2, h2, h3⟩ := h
  rw [pure_ok] at h3; subst h3
  obtain ⟨m, o, hi⟩ := declare_mute g h1
  have hh : s1.high % 256 = 0 := by rw [hi]; exact g.high
  have q2 := jumpToWithin_quiet hh h2
  have q3 : Quiet s2 (stitchAt s2 x y) := move_quiet (by rw [q2.high]; exact hh) (.inr (.inr (.inr rfl))) x y
  exact ⟨s1, m, (q2.trans q3).trans tieOn_quiet, o, hi⟩

theorem sew_sewn (g : Good s) {x y : ℚ} {direct : St → ℚ → ℚ → Except PyErr St}
    (hd : ∀ s', direct s x y = .ok s' → Quiet s s') (h : sewStep cfg position s x y direct = .ok s') : Sewn cfg s s' := by
  unfold sewStep at h
  cases ht : s.trimmed with
  | true =>
    rw [ht, if_pos rfl] at h
    exact firstStrike_sewn g h
  | false =>
    have ho := g.down ht
    rw [ht, if_neg (by simp)] at h
    split at h
    · rw [bind_ok] at h
      obtain ⟨s1, h1, h2⟩ := h
      rw [pure_ok] at h2; subst h2
      have q := needleTo_quiet g.high h1
      exact .quiet ho ⟨q.out, q.order, q.high⟩
    · exact .quiet ho (hd _ h)

theorem eject_sewn (g : Good s) {x y : ℚ} (h : ejectStep cfg position s x y = .ok s') : Sewn cfg s s' := by
  unfold ejectStep at h
  rw [bind_ok] at h
  obtain ⟨s1, h1, h2⟩ := h
  have e1 : Sewn cfg s s1 := by
    cases ht : s.trimmed with
    | true =>
      rw [ht, if_pos rfl] at h1
      exact firstStrike_sewn g h1
    | false =>
      rw [ht, if_neg (by simp)] at h1
      injection h1 with h1; subst h1
      exact .quiet (g.down ht) (.refl s)
  have hh : s1.high % 256 = 0 := by rw [e1.high]; exact g.high
  have q : Quiet s1 (if s1.sequinMode = true then s1 else toggleSequins s1) := by
    split
    · exact .refl _
    · exact toggle_quiet hh
  exact (e1.more q).more (sequinAt_quiet (by rw [q.high]; exact hh) h2)

theorem frame_shown (g : Good s) (a : Around cfg.source position prev st rest) {x y : ℚ}
    (h : frameEject cfg position s x y = .ok s') :
    Shown s s' [] ((if (headOf s).down then [2] else []) ++ [3]) s.order := by
  unfold frameEject at h
  rw [bind_ok] at h
  obtain ⟨s1, h1, h2⟩ := h
  rw [pure_ok] at h2; subst h2
  obtain ⟨e1, hi⟩ := trimIfNeeded_shown g a
  have g1 := (trimIfNeeded_eff g a).good
  have q := jumpTo_quiet (by rw [hi]; exact g.high) h1
  have ej := jumpTo_eff g1 h1
  have m1 : Mute _ s1 [] := .ofQuiet q (by simpa using ej.out)
  have m2 : Mute s1 (stopHere s1) [3] :=
    .one (a := ⟨s1.nx, s1.ny, 3 + s1.high⟩) rfl (low_add ej.good.high (by decide) (by decide)) (by simp)
  exact e1.mute (m1.trans m2) (by show s1.order = _; rw [q.order, e1.order])

theorem leave_quiet (hh : s.high % 256 = 0) (c : Int) : Quiet s (leaveSequins s c) := by
  have q := toggleIf_quiet hh s.sequinMode
  exact ⟨q.out, q.order, q.high⟩

theorem matrixStep_quiet {c : Int} (h : matrixStep cfg s st c = .ok s') : Quiet s s' := by
  unfold matrixStep at h
  split at h
  · injection h with h; subst h; exact .same rfl rfl rfl
  split at h
  · injection h with h; subst h; exact .same rfl rfl rfl
  split at h
  · injection h with h; subst h; exact .same rfl rfl rfl
  split at h
  · rw [bind_ok] at h
    obtain ⟨r, -, h2⟩ := h
    rw [pure_ok] at h2; subst h2; exact .same rfl rfl rfl
  split at h
  · rw [bind_ok] at h
    obtain ⟨r, -, h2⟩ := h
    rw [pure_ok] at h2; subst h2; exact .same rfl rfl rfl
  split at h <;> (injection h with h; subst h; exact .same rfl rfl rfl)

theorem ite_ok {p : Prop} [Decidable p] {b s' : St} {x : Except PyErr St} (h : (if p then .ok b else x) = .ok s') :
    b = s' ∨ x = .ok s' := by
  split at h
  · injection h with h; exact .inl h
  · exact .inr h

theorem settingStep_quiet (hh : s.high % 256 = 0) {c : Int} (h : settingStep cfg s st c = .ok s') : Quiet s s' := by
  unfold settingStep at h
  iterate 11 rcases ite_ok h with rfl | h; · exact .same rfl rfl rfl
  iterate 3 rcases ite_ok h with rfl | h; · exact leave_quiet hh _
  rcases ite_ok h with rfl | h
  · exact .same rfl rfl rfl
  exact matrixStep_quiet h

/-- One command: the encoder's step shows what the walk's signals say. -/
theorem step_shown (g : Good s) (a : Around cfg.source position prev st rest) (h : Emb.step cfg position s st = .ok s') :
    let sig := (headOf s).signals cfg.change cfg.writesSpeeds (decide (0 ≤ s.order)) st rest
    ∃ o, Shown s s' sig.1 sig.2.1 o ∧ decide (0 ≤ o) = sig.2.2 := by
  intro sig
  have hord := g.order
  unfold Emb.step at h
  simp only at h
  have g1 : Good { s with high := flagsOf st.cmd } := ⟨flagsOf_low _, g.affine, g.order, g.down⟩
  suffices ∀ t : St, Good t → headOf t = headOf s → t.order = s.order → ∀ x y : ℚ,
      dispatch cfg position t st x y st.low = .ok s' →
      ∃ o, Shown t s' sig.1 sig.2.1 o ∧ decide (0 ≤ o) = sig.2.2 by
    obtain ⟨o, ⟨⟨b, c, h1, h2, h3⟩, h4⟩, h5⟩ := this _ g1 rfl rfl _ _ h
    exact ⟨o, ⟨⟨b, c, ⟨h1.score, h1.strikes⟩, h2, h3⟩, h4⟩, h5⟩
  clear h g g1
  intro t g ht ho x y h
  rw [← ho] at hord
  simp only [sig, ← ht, ← ho]
  clear sig ht ho
  have sewn : (st.low = 0 ∨ st.low = 0xB0 ∨ st.low = 0xB1 ∨ st.low = 7) → Sewn cfg t s' →
      ∃ o, Shown t s' ((headOf t).signals cfg.change cfg.writesSpeeds (decide (0 ≤ t.order)) st rest).1
        ((headOf t).signals cfg.change cfg.writesSpeeds (decide (0 ≤ t.order)) st rest).2.1 o ∧
        decide (0 ≤ o) = ((headOf t).signals cfg.change cfg.writesSpeeds (decide (0 ≤ t.order)) st rest).2.2 := by
    intro hc hs
    obtain ⟨o, h1, h2⟩ := hs.shown
    unfold Head.signals
    simp only [if_pos hc, decide_eq_true_eq]
    exact ⟨o, h1, h2⟩
  have quiet : (∀ k ∈ [(0 : Int), 0xB0, 0xB1, 7, 2, 0xE1, 5, 9, 0xE2, 0xE9, 3, 11, 12], st.low ≠ k) → Quiet t s' →
      ∃ o, Shown t s' ((headOf t).signals cfg.change cfg.writesSpeeds (decide (0 ≤ t.order)) st rest).1
        ((headOf t).signals cfg.change cfg.writesSpeeds (decide (0 ≤ t.order)) st rest).2.1 o ∧
        decide (0 ≤ o) = ((headOf t).signals cfg.change cfg.writesSpeeds (decide (0 ≤ t.order)) st rest).2.2 := by
    intro hc q
    simp only [List.forall_mem_cons] at hc
    obtain ⟨n0, n1, n2, n3, n4, n5, n6, n7, n8, n9, n10, n11, n12, -⟩ := hc
    unfold Head.signals
    simp only [n0, n1, n2, n3, n4, n5, n6, n7, n8, n9, n10, n11, n12, or_self, if_false]
    exact ⟨_, .quiet q, rfl⟩
  unfold dispatch at h
  by_cases c0 : st.low = STITCH
  · rw [if_pos c0] at h
    exact sewn (.inl c0) (sew_sewn g (fun _ => contingency_quiet g.high) h)
  rw [if_neg c0] at h
  by_cases c1 : st.low = NEEDLE_AT
  · rw [if_pos c1] at h
    exact sewn (.inr (.inr (.inl c1))) (sew_sewn g (fun _ => needleTo_quiet g.high) h)
  rw [if_neg c1] at h
  by_cases c2 : st.low = SEW_TO
  · rw [if_pos c2] at h
    exact sewn (.inr (.inl c2)) (sew_sewn g (fun _ => sewTo_quiet g.high) h)
  rw [if_neg c2] at h
  by_cases c3 : st.low = STITCH_BREAK
  · rw [if_pos c3] at h
    injection h with h; subst h
    exact quiet (by rw [c3]; decide) (.same rfl rfl rfl)
  rw [if_neg c3] at h
  by_cases c4 : st.low = FRAME_EJECT
  · rw [if_pos c4] at h
    unfold Head.signals
    simp only [c4]
    exact ⟨_, frame_shown g a h, rfl⟩
  rw [if_neg c4] at h
  by_cases c5 : st.low = SEQUENCE_BREAK
  · rw [if_pos c5] at h
    injection h with h; subst h
    unfold Head.signals
    simp only [c5]
    exact ⟨_, (trimIfNeeded_shown g a).1, rfl⟩
  rw [if_neg c5] at h
  by_cases c6 : st.low = COLOR_BREAK
  · rw [if_pos c6] at h
    unfold Head.signals
    simp only [c6]
    obtain ⟨o, h1, h2⟩ := break_shown g a c6 h
    refine ⟨o, ?_, by simpa [COLOR_BREAK] using h2⟩
    simpa [COLOR_BREAK] using h1
  rw [if_neg c6] at h
  by_cases c7 : st.low = TIE_OFF
  · rw [if_pos c7] at h
    injection h with h; subst h
    exact quiet (by rw [c7]; decide) tieOff_quiet
  rw [if_neg c7] at h
  by_cases c8 : st.low = TIE_ON
  · rw [if_pos c8] at h
    injection h with h; subst h
    exact quiet (by rw [c8]; decide) tieOn_quiet
  rw [if_neg c8] at h
  by_cases c9 : st.low = TRIM
  · rw [if_pos c9] at h
    injection h with h; subst h
    unfold Head.signals
    simp only [c9]
    exact ⟨_, (trimIfNeeded_shown g a).1, rfl⟩
  rw [if_neg c9] at h
  by_cases c10 : st.low = JUMP
  · rw [if_pos c10] at h
    refine quiet (by rw [c10]; decide) ?_
    split at h
    · injection h with h; subst h; exact .refl _
    · exact jumpTo_quiet g.high h
  rw [if_neg c10] at h
  by_cases c11 : st.low = SEQUIN_MODE
  · rw [if_pos c11] at h
    injection h with h; subst h
    exact quiet (by rw [c11]; decide) (toggle_quiet g.high)
  rw [if_neg c11] at h
  by_cases c12 : st.low = SEQUIN_EJECT
  · rw [if_pos c12] at h
    exact sewn (.inr (.inr (.inr c12))) (eject_sewn g h)
  rw [if_neg c12] at h
  have first : decide (t.order = -1) = !decide (0 ≤ t.order) := by
    rw [Bool.eq_iff_iff]; simp; omega
  have chg : (st.low = 5 ∨ st.low = 9) → colorChange cfg position t = .ok s' →
      ∃ o, Shown t s' ((headOf t).signals cfg.change cfg.writesSpeeds (decide (0 ≤ t.order)) st rest).1
        ((headOf t).signals cfg.change cfg.writesSpeeds (decide (0 ≤ t.order)) st rest).2.1 o ∧
        decide (0 ≤ o) = ((headOf t).signals cfg.change cfg.writesSpeeds (decide (0 ≤ t.order)) st rest).2.2 := by
    intro hc h
    have e := change_shown g a h
    rw [first] at e
    unfold Head.signals
    rcases hc with hc | hc
    · simp only [hc]
      exact ⟨_, e, by simp; omega⟩
    · simp only [hc]
      exact ⟨_, e, by simp; omega⟩
  by_cases c13 : st.low = COLOR_CHANGE
  · rw [if_pos c13] at h
    exact chg (.inl c13) h
  rw [if_neg c13] at h
  by_cases c14 : st.low = NEEDLE_SET
  · rw [if_pos c14] at h
    exact chg (.inr c14) h
  rw [if_neg c14] at h
  by_cases c15 : st.low = STOP
  · rw [if_pos c15] at h
    injection h with h; subst h
    unfold Head.signals
    simp only [c15]
    refine ⟨t.order, ⟨⟨t, t, .refl _, .refl _, ?_⟩, rfl⟩, rfl⟩
    exact .one (a := ⟨t.nx, t.ny, 3 + t.high⟩) rfl (low_add g.high (by decide) (by decide)) (by simp)
  rw [if_neg c15] at h
  have speed : ∀ k : Int, (k = 11 ∨ k = 12) → st.low = k → (if cfg.writesSpeeds = true then t.add k else t) = s' →
      ∃ o, Shown t s' ((headOf t).signals cfg.change cfg.writesSpeeds (decide (0 ≤ t.order)) st rest).1
        ((headOf t).signals cfg.change cfg.writesSpeeds (decide (0 ≤ t.order)) st rest).2.1 o ∧
        decide (0 ≤ o) = ((headOf t).signals cfg.change cfg.writesSpeeds (decide (0 ≤ t.order)) st rest).2.2 := by
    intro k hk hc h
    have hs : ((headOf t).signals cfg.change cfg.writesSpeeds (decide (0 ≤ t.order)) st rest) =
        ([], if cfg.writesSpeeds then [k] else [], decide (0 ≤ t.order)) := by
      unfold Head.signals
      rcases hk with rfl | rfl <;> simp [hc]
    rw [hs]
    subst h
    cases cfg.writesSpeeds with
    | false => exact ⟨_, .quiet (.refl _), rfl⟩
    | true =>
      refine ⟨t.order, ⟨⟨t, t, .refl _, .refl _, ?_⟩, rfl⟩, rfl⟩
      exact .one (a := ⟨t.nx, t.ny, k + t.high⟩) rfl (low_add g.high (by omega) (by omega)) (by rcases hk with rfl | rfl <;> simp)
  by_cases c16 : st.low = SLOW
  · rw [if_pos c16] at h
    injection h with h
    exact speed 11 (.inl rfl) c16 h
  rw [if_neg c16] at h
  by_cases c17 : st.low = FAST
  · rw [if_pos c17] at h
    injection h with h
    exact speed 12 (.inr rfl) c17 h
  rw [if_neg c17] at h
  refine quiet ?_ (settingStep_quiet g.high h)
  simp only [List.forall_mem_cons]
  exact ⟨c0, c2, c1, c12, c9, c5, c13, c14, c6, c4, c15, c16, c17, by simp⟩

theorem run_score (cfg : Cfg) : ∀ (rest : List Stitch) (position : Nat) (s sf : St) (prev : Option Stitch), Good s →
    (∃ pre, cfg.source = pre ++ rest ∧ pre.length = position) →
    prev = (if position = 0 then cfg.source.getLast? else cfg.source[position - 1]?) →
    runFrom cfg position s rest = .ok sf →
    score sf.out = score s.out ++
      scoreWalk cfg.lm cfg.round cfg.change cfg.writesSpeeds (headOf s) (decide (0 ≤ s.order)) prev rest := by
  intro rest
  have hend : ∀ s : St, s.high % 256 = 0 → score (endHere s).out = score s.out := by
    intro s hh
    have hl : (⟨s.nx, s.ny, END + s.high⟩ : Stitch).low = 4 := low_add hh (by decide) (by decide)
    show score (s.out ++ [⟨s.nx, s.ny, END + s.high⟩]) = _
    rw [score_append]
    have : markOf ⟨s.nx, s.ny, END + s.high⟩ = none := by simp [markOf, hl]
    simp [score, this]
  induction rest with
  | nil =>
    intro position s sf prev g _ _ h
    rw [runFrom] at h
    injection h with h; subst h
    rw [hend s g.high, scoreWalk]; simp
  | cons st rest ih =>
    intro position s sf prev g hs hp h
    rw [runFrom] at h
    rw [scoreWalk]
    by_cases h4 : st.low = 4
    · rw [if_pos (show cmdOf st.cmd = END from h4)] at h
      injection h with h; subst h
      rw [if_pos h4, hend _ (flagsOf_low _)]; simp
    · rw [if_neg (show ¬ cmdOf st.cmd = END from h4)] at h
      rw [if_neg h4]
      cases hst : Emb.step cfg position s st with
      | error e => rw [hst] at h; cases h
      | ok s' =>
        rw [hst] at h
        simp only at h
        obtain ⟨pre, e1, e2⟩ := hs
        have e := step_eff g ⟨⟨pre, e1, e2⟩, hp⟩ hst
        obtain ⟨o, hsh, ho⟩ := step_shown g ⟨⟨pre, e1, e2⟩, hp⟩ hst
        have := ih (position + 1) s' sf (some st) e.good ⟨pre ++ [st], by simp [e1], by simp [e2]⟩ ?_ h
        · rw [this, hsh.score e.out, e.head, hsh.order, ho]
          simp only [List.append_assoc]
        · rw [if_neg (by omega), e1]
          simp [← e2]

end Score

/-- **C115**: the score of a normalized pattern is the one the walk over the source tells: every stitch, trim, stop, speed and
thread change stands where its source command puts it, and there are no others. -/
theorem C115_score {o : Settings} {lm : Libm} {threads : List Thread} {source out : List Stitch}
    {ths : List (Option Thread)} (h : encode o lm threads source = .ok (out, ths)) :
    score out = scoreWalk lm o.round o.changeCommand o.writesSpeeds (o.head lm) false source.getLast? source := by
  obtain ⟨plan, sf, -, hr, rfl, -⟩ := encode_state h
  have := Score.run_score _ _ _ _ _ source.getLast?
    (⟨rfl, (Strike.place_affine o lm).1, le_refl _, fun h => nomatch h⟩ : Strike.Good (initSt o lm threads))
    ⟨[], rfl, rfl⟩ rfl hr
  rw [Strike.init_head] at this
  rw [this]
  rfl

/-- Stops and speeds. -/
def Mark.pace : Mark → Bool
  | .sew _ => false
  | .cmd c => c = 3 || c = 11 || c = 12

/-- Stitches, stops and speeds. -/
def Mark.beat : Mark → Bool
  | .sew _ => true
  | .cmd c => c = 3 || c = 11 || c = 12

/-- The stop or speed a source command asks for: STOP and FRAME_EJECT stop, SLOW and FAST count if speeds are written. -/
def paceOf (speeds : Bool) (st : Stitch) : List Mark :=
  if st.low = 3 ∨ st.low = 0xE9 then [.cmd 3] else if (st.low = 11 ∨ st.low = 12) ∧ speeds = true then [.cmd st.low] else []

namespace Score

theorem announced_pace {mode : Int} (hm : mode ≠ 3) (first : Bool) :
    ((announced mode first).map Mark.cmd).filter Mark.pace = [] ∧ ((announced mode first).map Mark.cmd).filter Mark.beat = [] := by
  unfold announced
  by_cases h5 : mode = 5
  · rw [if_pos h5]; cases first <;> decide
  · rw [if_neg h5]
    by_cases h9 : mode = 9
    · rw [if_pos h9]; decide
    · rw [if_neg h9, if_neg hm]; decide

theorem signals_pace {mode : Int} (hm : mode ≠ 3) (speeds : Bool) (h : Head) (begun : Bool) (st : Stitch) (rest : List Stitch) :
    let sig := h.signals mode speeds begun st rest
    (sig.1.map Mark.cmd).filter Mark.pace = [] ∧ (sig.1.map Mark.cmd).filter Mark.beat = [] ∧
    (sig.2.1.map Mark.cmd).filter Mark.pace = paceOf speeds st ∧ (sig.2.1.map Mark.cmd).filter Mark.beat = paceOf speeds st := by
  intro sig
  have ha := fun b => announced_pace hm b
  have hcut : ∀ b : Bool, ((if b then [(2 : Int)] else []).map Mark.cmd).filter Mark.pace = [] ∧
      ((if b then [(2 : Int)] else []).map Mark.cmd).filter Mark.beat = [] := by intro b; cases b <;> decide
  have hno : ∀ c : Int, st.low = c → c ≠ 3 → c ≠ 0xE9 → c ≠ 11 → c ≠ 12 → paceOf speeds st = [] := by
    intro c hc h1 h2 h3 h4
    simp [paceOf, hc, h1, h2, h3, h4]
  simp only [sig]
  unfold Head.signals
  simp only
  by_cases c1 : st.low = 0 ∨ st.low = 0xB0 ∨ st.low = 0xB1 ∨ st.low = 7
  · have : paceOf speeds st = [] := by
      rcases c1 with e | e | e | e <;> exact hno _ e (by decide) (by decide) (by decide) (by decide)
    rw [if_pos c1, this]
    cases begun
    · exact ⟨(ha true).1, (ha true).2, rfl, rfl⟩
    · exact ⟨rfl, rfl, rfl, rfl⟩
  rw [if_neg c1]
  by_cases c2 : st.low = 2 ∨ st.low = 0xE1
  · have : paceOf speeds st = [] := by
      rcases c2 with e | e <;> exact hno _ e (by decide) (by decide) (by decide) (by decide)
    rw [if_pos c2, this]
    exact ⟨rfl, rfl, hcut h.down⟩
  rw [if_neg c2]
  by_cases c3 : st.low = 5 ∨ st.low = 9
  · have : paceOf speeds st = [] := by
      rcases c3 with e | e <;> exact hno _ e (by decide) (by decide) (by decide) (by decide)
    rw [if_pos c3, this]
    simp only [List.map_append, List.filter_append]
    rw [(hcut _).1, (hcut _).2, (ha _).1, (ha _).2]
    exact ⟨rfl, rfl, rfl, rfl⟩
  rw [if_neg c3]
  by_cases c4 : st.low = 0xE2
  · have : paceOf speeds st = [] := hno _ c4 (by decide) (by decide) (by decide) (by decide)
    rw [if_pos c4, this]
    cases begun
    · exact ⟨rfl, rfl, rfl, rfl⟩
    · simp only [if_true, List.map_append, List.filter_append]
      rw [(hcut _).1, (hcut _).2]
      cases sewnAhead rest
      · exact ⟨rfl, rfl, rfl, rfl⟩
      · simp only [if_true]
        rw [(ha _).1, (ha _).2]
        exact ⟨rfl, rfl, rfl, rfl⟩
  rw [if_neg c4]
  by_cases c5 : st.low = 0xE9
  · have : paceOf speeds st = [.cmd 3] := by simp [paceOf, c5]
    rw [if_pos c5, this]
    simp only [List.map_append, List.filter_append]
    rw [(hcut _).1, (hcut _).2]
    exact ⟨rfl, rfl, rfl, rfl⟩
  rw [if_neg c5]
  by_cases c6 : st.low = 3
  · have : paceOf speeds st = [.cmd 3] := by simp [paceOf, c6]
    rw [if_pos c6, this]
    exact ⟨rfl, rfl, rfl, rfl⟩
  rw [if_neg c6]
  by_cases c7 : st.low = 11 ∨ st.low = 12
  · rw [if_pos c7]
    rcases c7 with e | e <;> cases speeds <;> simp [paceOf, e, Mark.pace, Mark.beat]
  rw [if_neg c7]
  have : paceOf speeds st = [] := by simp [paceOf, c5, c6, c7]
  rw [this]
  exact ⟨rfl, rfl, rfl, rfl⟩

theorem sew_pace (l : List Pt) : (l.map Mark.sew).filter Mark.pace = [] := by
  rw [List.filter_eq_nil_iff]
  intro m hm
  obtain ⟨p, -, rfl⟩ := List.mem_map.1 hm
  simp [Mark.pace]

theorem sew_beat (l : List Pt) : (l.map Mark.sew).filter Mark.beat = l.map Mark.sew := by
  rw [List.filter_eq_self]
  intro m hm
  obtain ⟨p, -, rfl⟩ := List.mem_map.1 hm
  rfl

theorem walk_pace (lm : Libm) (round : Bool) {mode : Int} (hm : mode ≠ 3) (speeds : Bool) :
    ∀ (l : List Stitch) (h : Head) (begun : Bool) (prev : Option Stitch),
      (scoreWalk lm round mode speeds h begun prev l).filter Mark.pace =
        (l.takeWhile (fun st => st.low != 4)).flatMap (paceOf speeds) := by
  intro l
  induction l with
  | nil => intro h begun prev; rfl
  | cons st l ih =>
    intro h begun prev
    rw [scoreWalk]
    by_cases h4 : st.low = 4
    · rw [if_pos h4, List.takeWhile_cons_of_neg (by simp [h4])]; rfl
    · rw [if_neg h4, List.takeWhile_cons_of_pos (by simp [h4]), List.flatMap_cons]
      obtain ⟨p1, -, p3, -⟩ := signals_pace hm speeds h begun st l
      simp only [List.filter_append, p1, p3, sew_pace, ih, List.nil_append]

theorem walk_beat (lm : Libm) (round : Bool) {mode : Int} (hm : mode ≠ 3) (speeds : Bool) (f : Pt → Pt) (limit : Option ℚ)
    (E : List Stitch) (hE : ∀ e ∈ E.head?, e.low = 4) :
    ∀ (A : List Stitch) (h : Head) (begun : Bool) (prev : Option Stitch), h.Simple → h.f = f → h.limit = limit →
      (∀ st ∈ A, Plain limit st) →
      (scoreWalk lm round mode speeds h begun prev (A ++ E)).filter Mark.beat =
        A.flatMap (fun st => (images round f [st]).map Mark.sew ++ paceOf speeds st) := by
  intro A
  induction A with
  | nil =>
    intro h begun prev _ _ _ _
    cases E with
    | nil => rfl
    | cons e E =>
      rw [List.nil_append, scoreWalk, if_pos (hE e (by simp))]; rfl
  | cons st A ih =>
    intro h begun prev hs hf hl hp
    have hst : Plain h.limit st := by rw [hl]; exact hp st (by simp)
    obtain ⟨e1, e2, e3, e4⟩ := Strike.step_plain (lm := lm) (round := round) hs prev (A ++ E) hst
    rw [List.cons_append, scoreWalk, if_neg (fun h4 => (hp st (by simp)).1 (by simp [h4])), List.flatMap_cons]
    obtain ⟨-, p2, -, p4⟩ := signals_pace hm speeds h begun st (A ++ E)
    simp only [List.filter_append, p2, p4, sew_beat, List.nil_append, List.append_assoc]
    rw [ih _ _ _ e4 (e2.trans hf) (e3.trans hl) (fun b hb => hp b (by simp [hb])), e1, hf]

end Score

/-- **C115**: stops and speeds survive in order, for every source and all settings except STOP as the thread change command:
one STOP for each STOP and FRAME_EJECT before END, and, where speeds are written, one SLOW or FAST for each. -/
theorem C115_pace {o : Settings} {lm : Libm} {threads : List Thread} {source out : List Stitch} {ths : List (Option Thread)}
    (hm : o.changeCommand ≠ 3) (h : encode o lm threads source = .ok (out, ths)) :
    (score out).filter Mark.pace = (source.takeWhile (fun st => st.low != 4)).flatMap (paceOf o.writesSpeeds) := by
  rw [C115_score h, Score.walk_pace lm _ hm]

/-- **C115**: without ties, cuts, sequins and matrix commands every stop and speed stands between the same two stitches as in the
source. `E` is empty or starts with END. -/
theorem C115_between {o : Settings} {lm : Libm} {threads : List Thread} {A E out : List Stitch} {ths : List (Option Thread)}
    (ho : o.NoTies) (hm : o.changeCommand ≠ 3) (hA : ∀ st ∈ A, Plain o.maxStitch st) (hE : ∀ e ∈ E.head?, e.low = 4)
    (h : encode o lm threads (A ++ E) = .ok (out, ths)) :
    (score out).filter Mark.beat =
      A.flatMap (fun st => (images o.round (o.place lm) [st]).map Mark.sew ++ paceOf o.writesSpeeds st) := by
  rw [C115_score h]
  exact Score.walk_beat lm _ hm _ _ o.maxStitch E hE A _ _ _ (ho.simple lm) rfl rfl hA

/-- With STOP as the thread change command a STOP may be a thread change: a source without a stop gets one for its thread. -/
theorem C115_stop_mode : ∃ (source out : List Stitch) (ths : List (Option Thread)),
    encode { threadChange := 3 } demoLm [] source = .ok (out, ths) ∧ source.flatMap (paceOf true) = [] ∧
    (score out).filter Mark.pace ≠ [] :=
  ⟨[⟨0, 0, 0⟩], [⟨0, 0, 0x20103⟩, ⟨0, 0, 0⟩, ⟨0, 0, 4⟩], [none], by decide +kernel, by decide +kernel, by decide +kernel⟩

/-- A design with speeds, a stop, a colour change and a frame ejection. -/
def scoreDemo : List Stitch :=
  [⟨1, 0, 11⟩, ⟨1, 0, 0⟩, ⟨2, 0, 0⟩, ⟨2, 0, 3⟩, ⟨2, 0, 5⟩, ⟨3, 0, 0⟩, ⟨4, 0, 12⟩, ⟨5, 0, 0⟩, ⟨5, 0, 0xE9⟩, ⟨6, 0, 0⟩]

example : encode {} demoLm [] scoreDemo = .ok ([⟨0, 0, 11⟩, ⟨1, 0, 0⟩, ⟨2, 0, 0⟩, ⟨2, 0, 3⟩, ⟨2, 0, 0x30205⟩, ⟨3, 0, 0⟩, ⟨3, 0, 12⟩,
    ⟨5, 0, 0⟩, ⟨5, 0, 2⟩, ⟨5, 0, 1⟩, ⟨5, 0, 3⟩, ⟨6, 0, 0⟩, ⟨6, 0, 4⟩], [none, none]) ∧
    (∀ st ∈ scoreDemo, Plain none st) := by
  refine ⟨by decide +kernel, ?_⟩
  intro st hst
  refine ⟨?_, fun _ => rfl⟩
  revert st
  decide +kernel

end Emb
