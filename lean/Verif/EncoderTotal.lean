import Verif.Props.GapProps

/-!
# When encoder steps fail, and how the change index advances
-/

namespace Emb

variable {cfg : Cfg} {s s' : St} {x y : ℚ} {position : Nat} {e : PyErr}

/-- One of the limits is not positive. -/
def BadLimit (s : St) : Prop := ∃ m, (s.maxStitch = some m ∨ s.maxJump = some m) ∧ m ≤ 0

/-- The only failure of moving operations: division by a bad limit. -/
def ZeroFail (s : St) (e : PyErr) : Prop := e = .zeroDivision ∧ BadLimit s

theorem BadLimit.of_same (h : BadLimit s') (hs : Same s s') : BadLimit s := by
  obtain ⟨m, h1, h2⟩ := h
  rw [hs.maxStitch, hs.maxJump] at h1
  exact ⟨m, h1, h2⟩

theorem ZeroFail.of_same (h : ZeroFail s' e) (hs : Same s s') : ZeroFail s e := ⟨h.1, h.2.of_same hs⟩

theorem toggle_same (s : St) : Same s (toggleSequins s) := by
  unfold toggleSequins
  split
  · constructor <;> rfl
  · exact Same.refl s

theorem gapLoop_same (d : Int) (sx sy : ℚ) : ∀ (n : Nat) (s : St), Same s (gapLoop d sx sy n s)
  | 0, s => Same.refl s
  | n + 1, s => (moveTo_same s d (s.nx + sx) (s.ny + sy)).trans (gapLoop_same d sx sy n _)

theorem gap_same {l : Option ℚ} {d : Int} (h : gap s x y l d = .ok s') : Same s s' := by
  unfold gap at h
  cases l with
  | none => simp only at h; injection h with h; subst h; exact Same.refl s
  | some m =>
    simp only at h
    by_cases hfar : tooFar (some m) (x - s.nx) (y - s.ny) = true
    · rw [if_pos hfar] at h
      by_cases hm : m = 0
      · rw [if_pos hm] at h; cases h
      · rw [if_neg hm] at h
        generalize (if ceilQ |(x - s.nx) / m| > ceilQ |(y - s.ny) / m| then ceilQ |(x - s.nx) / m|
          else ceilQ |(y - s.ny) / m|) = n at h
        by_cases hn : n = 0
        · rw [if_pos hn] at h; cases h
        · rw [if_neg hn] at h; injection h with h; subst h
          refine Same.trans ?_ (gapLoop_same _ _ _ _ _)
          split
          · exact toggle_same s
          · exact Same.refl s
    · rw [if_neg hfar] at h; injection h with h; subst h; exact Same.refl s

theorem gap_err {l : Option ℚ} {d : Int} (h : gap s x y l d = .error e) (hl : l = s.maxStitch ∨ l = s.maxJump) :
    ZeroFail s e := by
  constructor
  · unfold gap at h
    cases l with
    | none => simp only at h; cases h
    | some m =>
      simp only at h
      by_cases hfar : tooFar (some m) (x - s.nx) (y - s.ny) = true
      · rw [if_pos hfar] at h
        by_cases hm : m = 0
        · rw [if_pos hm] at h; injection h with h; exact h.symm
        · rw [if_neg hm] at h
          generalize (if ceilQ |(x - s.nx) / m| > ceilQ |(y - s.ny) / m| then ceilQ |(x - s.nx) / m|
            else ceilQ |(y - s.ny) / m|) = n at h
          by_cases hn : n = 0
          · rw [if_pos hn] at h; injection h with h; exact h.symm
          · rw [if_neg hn] at h; cases h
      · rw [if_neg hfar] at h; cases h
  · by_contra hb
    have : ∀ m, l = some m → 0 < m := by
      intro m hm
      by_contra hm0
      apply hb
      refine ⟨m, ?_, not_lt.1 hm0⟩
      rcases hl with hl | hl
      · left; rw [← hl]; exact hm
      · right; rw [← hl]; exact hm
    obtain ⟨s', hs'⟩ := C23_gap_total (s := s) (x := x) (y := y) (data := d) this
    rw [hs'] at h; cases h

theorem bind_err {α β : Type} {x : Except PyErr α} {f : α → Except PyErr β} {e : PyErr} :
    (x >>= f) = .error e ↔ x = .error e ∨ ∃ a, x = .ok a ∧ f a = .error e := by
  cases x <;> simp [bind, Except.bind]

theorem pure_err {α : Type} {a : α} {e : PyErr} : (pure a : Except PyErr α) = .error e ↔ False := by
  simp [pure, Except.pure]

theorem jumpAt_same : Same s (jumpAt s x y) := by
  unfold jumpAt
  simp only
  refine Same.trans ?_ (moveTo_same _ _ _ _)
  split
  · exact toggle_same s
  · exact Same.refl s

/-- An operation that only moves: keeps everything but output, needle and sequin mode; fails only on a bad limit. -/
def MoveOp (s : St) (r : Except PyErr St) : Prop := (∀ s', r = .ok s' → Same s s') ∧ (∀ e, r = .error e → ZeroFail s e)

theorem gap_then {l : Option ℚ} {d : Int} (hl : l = s.maxStitch ∨ l = s.maxJump) {f : St → Except PyErr St}
    (hf : ∀ t, Same s t → ∃ t', f t = .ok t' ∧ Same t t') : MoveOp s (gap s x y l d >>= f) := by
  constructor
  · intro s' h
    obtain ⟨t, h1, h2⟩ := bind_ok.1 h
    have a := gap_same h1
    obtain ⟨t', h3, h4⟩ := hf t a
    rw [h3] at h2; injection h2 with h2; subst h2
    exact a.trans h4
  · intro e h
    rcases bind_err.1 h with h | ⟨t, h1, h2⟩
    · exact gap_err h hl
    · obtain ⟨t', h3, _⟩ := hf t (gap_same h1)
      rw [h3] at h2; cases h2

theorem jumpTo_op : MoveOp s (jumpTo s x y) :=
  gap_then (.inr rfl) fun _ _ => ⟨_, rfl, jumpAt_same⟩

theorem jumpToWithin_op : MoveOp s (jumpToWithin cfg s x y) :=
  gap_then (.inr rfl) fun t _ => ⟨_, rfl, by split; exacts [jumpAt_same, Same.refl t]⟩

theorem sewTo_op : MoveOp s (sewTo s x y) :=
  gap_then (.inl rfl) fun _ _ => ⟨_, rfl, moveTo_same _ _ _ _⟩

theorem needleTo_op : MoveOp s (needleTo s x y) :=
  gap_then (.inl rfl) fun _ _ => ⟨_, rfl, moveTo_same _ _ _ _⟩

theorem MoveOp.ok {t : St} (h : Same s t) : MoveOp s (.ok t) :=
  ⟨fun s' e => by injection e with e; subst e; exact h, fun e h => by cases h⟩

theorem stitchWithContingency_op : MoveOp s (stitchWithContingency s x y) := by
  unfold stitchWithContingency
  split_ifs
  · exact sewTo_op
  · exact needleTo_op
  · exact .ok (moveTo_same _ _ _ _)

theorem sequinAt_op : MoveOp s (sequinAt s x y) := by
  unfold sequinAt
  simp only
  split_ifs
  · exact .ok (Same.refl s)
  all_goals
    refine gap_then (.inl rfl) fun t _ => ⟨_, rfl, ?_⟩
    constructor <;> rfl

theorem MoveOp.of_same {t : St} {r : Except PyErr St} (hs : Same s t) (h : MoveOp t r) : MoveOp s r :=
  ⟨fun s' e => hs.trans (h.1 s' e), fun e he => (h.2 e he).of_same hs⟩

theorem lockTowards_out (b : Stitch) : ∃ l, lockTowards cfg s b = { s with out := l } := by
  unfold lockTowards; simp only; split_ifs
  · exact ⟨_, rfl⟩
  · exact ⟨s.out, rfl⟩

theorem tieOn_out : ∃ l, tieOn cfg position s = { s with out := l } := by
  unfold tieOn
  split
  · split
    · exact lockTowards_out _
    · exact ⟨s.out, rfl⟩
  · exact ⟨s.out, rfl⟩

theorem tieOff_out : ∃ l, tieOff cfg position s = { s with out := l } := by
  unfold tieOff
  split
  · split
    · exact lockTowards_out _
    · exact ⟨s.out, rfl⟩
  · exact ⟨s.out, rfl⟩

theorem tieOn_same : Same s (tieOn cfg position s) := by
  obtain ⟨l, h⟩ := tieOn_out (cfg := cfg) (position := position) (s := s)
  rw [h]; constructor <;> rfl

theorem tieOff_same : Same s (tieOff cfg position s) := by
  obtain ⟨l, h⟩ := tieOff_out (cfg := cfg) (position := position) (s := s)
  rw [h]; constructor <;> rfl

/-- Limits and order index agree. -/
structure Keep (s s' : St) : Prop where
  maxStitch : s'.maxStitch = s.maxStitch
  maxJump : s'.maxJump = s.maxJump
  order : s'.order = s.order

theorem Same.keep (h : Same s s') : Keep s s' := ⟨h.maxStitch, h.maxJump, h.order⟩
theorem Keep.refl (s : St) : Keep s s := ⟨rfl, rfl, rfl⟩
theorem Keep.trans {a b c : St} (h : Keep a b) (k : Keep b c) : Keep a c :=
  ⟨k.maxStitch.trans h.maxStitch, k.maxJump.trans h.maxJump, k.order.trans h.order⟩

theorem BadLimit.of_keep (h : BadLimit s') (h1 : s'.maxStitch = s.maxStitch) (h2 : s'.maxJump = s.maxJump) :
    BadLimit s := by
  obtain ⟨m, h, h'⟩ := h
  rw [h1, h2] at h; exact ⟨m, h, h'⟩

theorem trimHere_keep : Keep s (trimHere s) := by
  unfold trimHere
  simp only
  split
  · exact (toggle_same s).keep.trans ⟨rfl, rfl, rfl⟩
  · exact ⟨rfl, rfl, rfl⟩

theorem tieOffTrimIfExplicit_keep : Keep s (tieOffTrimIfExplicit cfg position s) := by
  unfold tieOffTrimIfExplicit
  simp only
  split
  · exact Keep.refl s
  · split
    · exact tieOff_same.keep.trans trimHere_keep
    · exact tieOff_same.keep

theorem tieOffAndTrimIfNeeded_keep : Keep s (tieOffAndTrimIfNeeded cfg position s) := by
  unfold tieOffAndTrimIfNeeded
  split
  · exact Keep.refl s
  · exact tieOff_same.keep.trans trimHere_keep

theorem nextChange_err (h : nextChange cfg s = .error e) : e = .keyError ∧ dget (s.order + 1) cfg.plan = none := by
  unfold nextChange at h
  split at h
  · rename_i hd; injection h with h; exact ⟨h.symm, hd⟩
  · cases h

/-- The next planned change is missing. -/
def NoKey (cfg : Cfg) (s : St) (e : PyErr) : Prop := e = .keyError ∧ dget (s.order + 1) cfg.plan = none

theorem colorChange_res :
    (∀ s', colorChange cfg position s = .ok s' →
      s'.order = s.order + 1 ∧ s'.maxStitch = s.maxStitch ∧ s'.maxJump = s.maxJump ∧ s'.trimmed = true) ∧
    (∀ e, colorChange cfg position s = .error e → NoKey cfg s e) := by
  have k := tieOffTrimIfExplicit_keep (cfg := cfg) (position := position) (s := s)
  constructor
  · intro s' h
    obtain ⟨t, h1, h2⟩ := bind_ok.1 h
    rw [pure_ok] at h2; subst h2
    have f := nextChange_fields h1
    refine ⟨?_, ?_, ?_, rfl⟩
    · show t.order = _; rw [f.2.2.2.2.2.2.2.2.1, k.order]
    · show t.maxStitch = _; rw [f.1, k.maxStitch]
    · show t.maxJump = _; rw [f.2.1, k.maxJump]
  · intro e h
    rcases bind_err.1 h with h | ⟨t, _, h2⟩
    · have := nextChange_err h; rw [k.order] at this; exact this
    · rw [pure_err] at h2; exact h2.elim

theorem colorBreak_res :
    (∀ s', colorBreak cfg position s = .ok s' →
      (s'.order = s.order ∨ (0 ≤ s.order ∧ s'.order = s.order + 1)) ∧ s'.maxStitch = s.maxStitch ∧ s'.maxJump = s.maxJump) ∧
    (∀ e, colorBreak cfg position s = .error e → NoKey cfg s e) := by
  have k := tieOffTrimIfExplicit_keep (cfg := cfg) (position := position) (s := s)
  unfold colorBreak
  by_cases h0 : s.order < 0
  · simp only [if_pos h0]
    exact ⟨fun s' h => by injection h with h; subst h; exact ⟨.inl rfl, rfl, rfl⟩, fun e h => by cases h⟩
  · simp only [if_neg h0]
    by_cases hl : lookahead cfg position = true
    · simp only [hl, if_true]
      constructor
      · intro s' h
        obtain ⟨t, h1, h2⟩ := bind_ok.1 h
        rw [pure_ok] at h2; subst h2
        have f := nextChange_fields h1
        refine ⟨.inr ⟨by omega, ?_⟩, ?_, ?_⟩
        · show t.order = _; rw [f.2.2.2.2.2.2.2.2.1, k.order]
        · show t.maxStitch = _; rw [f.1, k.maxStitch]
        · show t.maxJump = _; rw [f.2.1, k.maxJump]
      · intro e h
        rcases bind_err.1 h with h | ⟨t, _, h2⟩
        · have := nextChange_err h; rw [k.order] at this; exact this
        · rw [pure_err] at h2; exact h2.elim
    · simp only [if_neg hl]
      exact ⟨fun s' h => by injection h with h; subst h; exact ⟨.inl k.order, k.maxStitch, k.maxJump⟩, fun e h => by cases h⟩

theorem declare_res :
    (∀ s', declareNotTrimmed cfg s = .ok s' → s'.order = (if s.order = -1 then 0 else s.order) ∧
      s'.maxStitch = s.maxStitch ∧ s'.maxJump = s.maxJump ∧ s'.trimmed = false ∧ s'.sequinMode = s.sequinMode ∧
      s'.nx = s.nx ∧ s'.ny = s.ny ∧ s'.high = s.high) ∧
    (∀ e, declareNotTrimmed cfg s = .error e → s.order = -1 ∧ NoKey cfg s e) := by
  unfold declareNotTrimmed
  by_cases h0 : s.order = -1
  · simp only [if_pos h0]
    constructor
    · intro s' h
      obtain ⟨t, h1, h2⟩ := bind_ok.1 h
      rw [pure_ok] at h2; subst h2
      have f := nextChange_fields h1
      refine ⟨?_, f.1, f.2.1, rfl, f.2.2.2.2.2.2.2.2.2.2.1, f.2.2.2.2.2.2.2.2.2.2.2.2.1, f.2.2.2.2.2.2.2.2.2.2.2.2.2.1,
        f.2.2.2.2.2.2.2.2.2.2.2.2.2.2⟩
      show t.order = _; rw [f.2.2.2.2.2.2.2.2.1, h0]; rfl
    · intro e h
      rcases bind_err.1 h with h | ⟨t, _, h2⟩
      · exact ⟨h0, nextChange_err h⟩
      · rw [pure_err] at h2; exact h2.elim
  · simp only [if_neg h0]
    constructor
    · intro s' h
      obtain ⟨t, h1, h2⟩ := bind_ok.1 h
      rw [pure_ok] at h2; subst h2
      injection h1 with h1; subst h1
      exact ⟨rfl, rfl, rfl, rfl, rfl, rfl, rfl, rfl⟩
    · intro e h
      rcases bind_err.1 h with h | ⟨t, _, h2⟩
      · cases h
      · rw [pure_err] at h2; exact h2.elim

/-- What a sewing operation does to the change index. -/
def SewOp (cfg : Cfg) (s : St) (r : Except PyErr St) : Prop :=
  (∀ s', r = .ok s' → s'.order = (if s.trimmed ∧ s.order = -1 then 0 else s.order) ∧ s'.maxStitch = s.maxStitch ∧
    s'.maxJump = s.maxJump ∧ s'.trimmed = false) ∧
  (∀ e, r = .error e → ZeroFail s e ∨ (s.order = -1 ∧ NoKey cfg s e))

theorem firstStrike_res (ht : s.trimmed = true) : SewOp cfg s (firstStrike cfg position s x y) := by
  unfold firstStrike
  constructor
  · intro s' h
    obtain ⟨t, h1, h⟩ := bind_ok.1 h
    obtain ⟨u, h2, h⟩ := bind_ok.1 h
    rw [pure_ok] at h; subst h
    obtain ⟨a, b, c, d, _⟩ := declare_res.1 t h1
    have k := jumpToWithin_op.1 u h2
    have k2 : Same u (tieOn cfg position (stitchAt u x y)) := (moveTo_same u STITCH x y).trans tieOn_same
    have k3 := k.trans k2
    refine ⟨?_, by rw [k3.maxStitch, b], by rw [k3.maxJump, c], by rw [k3.trimmed, d]⟩
    rw [k3.order, a, ht]; simp
  · intro e h
    rcases bind_err.1 h with h | ⟨t, h1, h⟩
    · exact .inr (declare_res.2 e h)
    · rcases bind_err.1 h with h | ⟨u, h2, h⟩
      · left
        have z := jumpToWithin_op.2 e h
        obtain ⟨a, b, c, d, _⟩ := declare_res.1 t h1
        exact ⟨z.1, z.2.of_keep b c⟩
      · rw [pure_err] at h; exact h.elim

theorem sewStep_res {direct : St → ℚ → ℚ → Except PyErr St} (hd : ∀ s x y, MoveOp s (direct s x y)) :
    SewOp cfg s (sewStep cfg position s x y direct) := by
  unfold sewStep
  by_cases ht : s.trimmed = true
  · rw [if_pos ht]; exact firstStrike_res ht
  · rw [if_neg ht]
    have ht' : s.trimmed = false := by simpa using ht
    have mo : ∀ r, MoveOp s r → SewOp cfg s r := by
      intro r hr
      refine ⟨fun s' h => ?_, fun e h => .inl (hr.2 e h)⟩
      have k := hr.1 s' h
      exact ⟨by rw [k.order, ht']; simp, k.maxStitch, k.maxJump, by rw [k.trimmed, ht']⟩
    by_cases hj : s.jumping = true
    · rw [if_pos hj]
      constructor
      · intro s' h
        obtain ⟨t, h1, h⟩ := bind_ok.1 h
        rw [pure_ok] at h; subst h
        exact (mo _ needleTo_op).1 t h1
      · intro e h
        rcases bind_err.1 h with h | ⟨t, h1, h⟩
        · exact .inl (needleTo_op.2 e h)
        · rw [pure_err] at h; exact h.elim
    · rw [if_neg hj]; exact mo _ (hd s x y)

theorem ejectStep_res : SewOp cfg s (ejectStep cfg position s x y) := by
  unfold ejectStep
  by_cases ht : s.trimmed = true
  · simp only [if_pos ht]
    have f := firstStrike_res (cfg := cfg) (position := position) (x := x) (y := y) ht
    constructor
    · intro s' h
      obtain ⟨t, h1, h⟩ := bind_ok.1 h
      obtain ⟨a, b, c, d⟩ := f.1 t h1
      have k := (sequinAt_op (s := if t.sequinMode then t else toggleSequins t)).1 s' h
      have k0 : Same t (if t.sequinMode then t else toggleSequins t) := by
        split; exacts [Same.refl t, toggle_same t]
      have k := k0.trans k
      exact ⟨by rw [k.order, a], by rw [k.maxStitch, b], by rw [k.maxJump, c], by rw [k.trimmed, d]⟩
    · intro e h
      rcases bind_err.1 h with h | ⟨t, h1, h⟩
      · exact f.2 e h
      · left
        obtain ⟨a, b, c, d⟩ := f.1 t h1
        have k0 : Same t (if t.sequinMode then t else toggleSequins t) := by
          split; exacts [Same.refl t, toggle_same t]
        have z := (sequinAt_op.2 e h).of_same k0
        exact ⟨z.1, z.2.of_keep b c⟩
  · simp only [if_neg ht]
    have ht' : s.trimmed = false := by simpa using ht
    have k0 : Same s (if s.sequinMode then s else toggleSequins s) := by
      split; exacts [Same.refl s, toggle_same s]
    have mo : MoveOp s (sequinAt (if s.sequinMode then s else toggleSequins s) x y) := sequinAt_op.of_same k0
    refine ⟨fun s' h => ?_, fun e h => .inl (mo.2 e h)⟩
    have k := mo.1 s' h
    exact ⟨by rw [k.order, ht']; simp, k.maxStitch, k.maxJump, by rw [k.trimmed, ht']⟩

theorem frameEject_res : (∀ s', frameEject cfg position s x y = .ok s' → Keep s s') ∧
    (∀ e, frameEject cfg position s x y = .error e → ZeroFail s e) := by
  unfold frameEject
  have k := tieOffAndTrimIfNeeded_keep (cfg := cfg) (position := position) (s := s)
  constructor
  · intro s' h
    obtain ⟨t, h1, h⟩ := bind_ok.1 h
    rw [pure_ok] at h; subst h
    exact (k.trans (jumpTo_op.1 t h1).keep).trans ⟨rfl, rfl, rfl⟩
  · intro e h
    rcases bind_err.1 h with h | ⟨t, h1, h⟩
    · have z := jumpTo_op.2 e h; exact ⟨z.1, z.2.of_keep k.maxStitch k.maxJump⟩
    · rw [pure_err] at h; exact h.elim

theorem leaveSequins_keep (c : Int) : Keep s (leaveSequins s c) := by
  unfold leaveSequins
  simp only
  split
  · exact ⟨(toggle_same s).maxStitch, (toggle_same s).maxJump, (toggle_same s).order⟩
  · exact ⟨rfl, rfl, rfl⟩

theorem needlePreimage_err (h : needlePreimage s = .error e) : e = .zeroDivision := by
  unfold needlePreimage at h
  rcases bind_err.1 h with h | ⟨i, h1, h⟩
  · unfold Mat.inverse at h; simp only at h; split at h
    · injection h with h; exact h.symm
    · cases h
  · rcases bind_err.1 h with h | ⟨i', h1, h⟩
    · unfold Mat.inverse at h; simp only at h; split at h
      · injection h with h; exact h.symm
      · cases h
    · rw [pure_err] at h; exact h.elim

theorem matrixStep_res (st : Stitch) (c : Int) : (∀ s', matrixStep cfg s st c = .ok s' → Keep s s') ∧
    (∀ e, matrixStep cfg s st c = .error e → e = .zeroDivision ∧ (c = MATRIX_SCALE ∨ c = MATRIX_ROTATE)) := by
  unfold matrixStep
  split_ifs with h1 h2 h3 h4 h5 h6
  all_goals constructor <;> intro e h
  all_goals try (injection h with h; subst h; exact ⟨rfl, rfl, rfl⟩)
  all_goals try (cases h)
  · obtain ⟨_, _, h⟩ := bind_ok.1 h; rw [pure_ok] at h; subst h; exact ⟨rfl, rfl, rfl⟩
  · rcases bind_err.1 h with h | ⟨_, _, h⟩
    · exact ⟨needlePreimage_err h, .inl h4⟩
    · rw [pure_err] at h; exact h.elim
  · obtain ⟨_, _, h⟩ := bind_ok.1 h; rw [pure_ok] at h; subst h; exact ⟨rfl, rfl, rfl⟩
  · rcases bind_err.1 h with h | ⟨_, _, h⟩
    · exact ⟨needlePreimage_err h, .inr h5⟩
    · rw [pure_err] at h; exact h.elim

/-- Outcome of a settings or matrix command with byte `c`. -/
def SetRes (s : St) (c : Int) (r : Except PyErr St) : Prop :=
  (∀ s', r = .ok s' → s'.order = s.order ∧
    (c ≠ OPTION_MAX_STITCH_LENGTH → s'.maxStitch = s.maxStitch) ∧ (c ≠ OPTION_MAX_JUMP_LENGTH → s'.maxJump = s.maxJump)) ∧
  (∀ e, r = .error e → e = .zeroDivision ∧ (c = MATRIX_SCALE ∨ c = MATRIX_ROTATE))

theorem SetRes.of_ok {c : Int} {t : St} (ho : t.order = s.order) (h1 : c ≠ OPTION_MAX_STITCH_LENGTH → t.maxStitch = s.maxStitch)
    (h2 : c ≠ OPTION_MAX_JUMP_LENGTH → t.maxJump = s.maxJump) : SetRes s c (.ok t) :=
  ⟨fun s' h => by injection h with h; subst h; exact ⟨ho, h1, h2⟩, fun e h => by cases h⟩

theorem SetRes.of_keep {c : Int} {t : St} (k : Keep s t) : SetRes s c (.ok t) :=
  .of_ok k.order (fun _ => k.maxStitch) (fun _ => k.maxJump)

theorem settingStep_res (st : Stitch) (c : Int) : SetRes s c (settingStep cfg s st c) := by
  unfold settingStep
  by_cases h : c = CONTINGENCY_TIE_ON_THREE_SMALL
  · rw [if_pos h]; exact .of_keep ⟨rfl, rfl, rfl⟩
  rw [if_neg h]; clear h
  by_cases h : c = CONTINGENCY_TIE_OFF_THREE_SMALL
  · rw [if_pos h]; exact .of_keep ⟨rfl, rfl, rfl⟩
  rw [if_neg h]; clear h
  by_cases h : c = CONTINGENCY_TIE_ON_NONE
  · rw [if_pos h]; exact .of_keep ⟨rfl, rfl, rfl⟩
  rw [if_neg h]; clear h
  by_cases h : c = CONTINGENCY_TIE_OFF_NONE
  · rw [if_pos h]; exact .of_keep ⟨rfl, rfl, rfl⟩
  rw [if_neg h]; clear h
  by_cases h : c = OPTION_MAX_JUMP_LENGTH
  · rw [if_pos h]; exact .of_ok rfl (fun _ => rfl) (fun hn => absurd h hn)
  rw [if_neg h]; clear h
  by_cases h : c = OPTION_MAX_STITCH_LENGTH
  · rw [if_pos h]; exact .of_ok rfl (fun hn => absurd h hn) (fun _ => rfl)
  rw [if_neg h]; clear h
  by_cases h : c = OPTION_EXPLICIT_TRIM
  · rw [if_pos h]; exact .of_keep ⟨rfl, rfl, rfl⟩
  rw [if_neg h]; clear h
  by_cases h : c = OPTION_IMPLICIT_TRIM
  · rw [if_pos h]; exact .of_keep ⟨rfl, rfl, rfl⟩
  rw [if_neg h]; clear h
  by_cases h : c = CONTINGENCY_LONG_STITCH_NONE
  · rw [if_pos h]; exact .of_keep ⟨rfl, rfl, rfl⟩
  rw [if_neg h]; clear h
  by_cases h : c = CONTINGENCY_LONG_STITCH_JUMP_NEEDLE
  · rw [if_pos h]; exact .of_keep ⟨rfl, rfl, rfl⟩
  rw [if_neg h]; clear h
  by_cases h : c = CONTINGENCY_LONG_STITCH_SEW_TO
  · rw [if_pos h]; exact .of_keep ⟨rfl, rfl, rfl⟩
  rw [if_neg h]; clear h
  by_cases h : c = CONTINGENCY_SEQUIN_REMOVE
  · rw [if_pos h]; exact .of_keep (leaveSequins_keep _)
  rw [if_neg h]; clear h
  by_cases h : c = CONTINGENCY_SEQUIN_STITCH
  · rw [if_pos h]; exact .of_keep (leaveSequins_keep _)
  rw [if_neg h]; clear h
  by_cases h : c = CONTINGENCY_SEQUIN_JUMP
  · rw [if_pos h]; exact .of_keep (leaveSequins_keep _)
  rw [if_neg h]; clear h
  by_cases h : c = CONTINGENCY_SEQUIN_UTILIZE
  · rw [if_pos h]; exact .of_keep ⟨rfl, rfl, rfl⟩
  rw [if_neg h]; clear h
  have r := matrixStep_res (cfg := cfg) (s := s) st c
  exact ⟨fun s' h => ⟨(r.1 s' h).order, fun _ => (r.1 s' h).maxStitch, fun _ => (r.1 s' h).maxJump⟩, r.2⟩

/-- Commands that consume a planned change. -/
def isChange (c : Int) : Bool := c == COLOR_CHANGE || c == NEEDLE_SET || c == COLOR_BREAK

/-- What one step does to the change index and the limits, and how it can fail. -/
structure StepRes (cfg : Cfg) (s : St) (c : Int) (r : Except PyErr St) : Prop where
  order : ∀ s', r = .ok s' → s'.order = s.order ∨ (isChange c = true ∧ s'.order = s.order + 1) ∨
    (isSewing c = true ∧ s.order = -1 ∧ s'.order = 0)
  change : ∀ s', r = .ok s' → c = COLOR_CHANGE ∨ c = NEEDLE_SET → s'.order = s.order + 1
  sewing : ∀ s', r = .ok s' → isSewing c = true → s'.trimmed = false ∧ (s.trimmed = true → s.order = -1 → s'.order = 0)
  breaks : ∀ s', r = .ok s' → c = COLOR_BREAK → s.order < 0 → s' = s
  limits : ∀ s', r = .ok s' → (c ≠ OPTION_MAX_STITCH_LENGTH → s'.maxStitch = s.maxStitch) ∧
    (c ≠ OPTION_MAX_JUMP_LENGTH → s'.maxJump = s.maxJump)
  err : ∀ e, r = .error e → (e = .zeroDivision ∧ (BadLimit s ∨ c = MATRIX_SCALE ∨ c = MATRIX_ROTATE)) ∨
    (NoKey cfg s e ∧ (isChange c = true ∨ (isSewing c = true ∧ s.order = -1)))

theorem StepRes.of_keep {c : Int} {r : Except PyErr St} (h1 : ¬ isChange c = true) (h2 : ¬ isSewing c = true)
    (hk : ∀ s', r = .ok s' → Keep s s') (he : ∀ e, r = .error e → ZeroFail s e) : StepRes cfg s c r where
  order := fun s' h => .inl (hk s' h).order
  change := fun s' h hc => absurd (by rcases hc with rfl | rfl <;> rfl) h1
  sewing := fun s' h hc => absurd hc h2
  breaks := fun s' h hc => absurd (by rw [hc]; rfl) h1
  limits := fun s' h => ⟨fun _ => (hk s' h).maxStitch, fun _ => (hk s' h).maxJump⟩
  err := fun e h => .inl ⟨(he e h).1, .inl (he e h).2⟩

theorem StepRes.of_ok {c : Int} {t : St} (h1 : ¬ isChange c = true) (h2 : ¬ isSewing c = true)
    (hk : Keep s t) : StepRes cfg s c (.ok t) :=
  .of_keep h1 h2 (fun s' h => by injection h with h; subst h; exact hk) (fun e h => by cases h)

theorem StepRes.of_sew {c : Int} {r : Except PyErr St} (h1 : ¬ isChange c = true) (h2 : isSewing c = true)
    (hr : SewOp cfg s r) : StepRes cfg s c r where
  order := fun s' h => by
    have := (hr.1 s' h).1
    by_cases hc : s.trimmed = true ∧ s.order = -1
    · rw [if_pos hc] at this; exact .inr (.inr ⟨h2, hc.2, this⟩)
    · rw [if_neg hc] at this; exact .inl this
  change := fun s' h hc => absurd (by rcases hc with rfl | rfl <;> rfl) h1
  sewing := fun s' h _ => ⟨(hr.1 s' h).2.2.2, fun ht ho => by have := (hr.1 s' h).1; rwa [if_pos ⟨ht, ho⟩] at this⟩
  breaks := fun s' h hc => absurd (by rw [hc]; rfl) h1
  limits := fun s' h => ⟨fun _ => (hr.1 s' h).2.1, fun _ => (hr.1 s' h).2.2.1⟩
  err := fun e h => by
    rcases hr.2 e h with z | ⟨a, b⟩
    · exact .inl ⟨z.1, .inl z.2⟩
    · exact .inr ⟨b, .inr ⟨h2, a⟩⟩

theorem colorChange_stepRes {c : Int} (hc : c = COLOR_CHANGE ∨ c = NEEDLE_SET) :
    StepRes cfg s c (colorChange cfg position s) where
  order := fun s' h => .inr (.inl ⟨by rcases hc with rfl | rfl <;> rfl, (colorChange_res.1 s' h).1⟩)
  change := fun s' h _ => (colorChange_res.1 s' h).1
  sewing := fun s' h hs => by rcases hc with rfl | rfl <;> cases hs
  breaks := fun s' h hb => by subst hb; rcases hc with h | h <;> cases h
  limits := fun s' h => ⟨fun _ => (colorChange_res.1 s' h).2.1, fun _ => (colorChange_res.1 s' h).2.2.1⟩
  err := fun e h => .inr ⟨colorChange_res.2 e h, .inl (by rcases hc with rfl | rfl <;> rfl)⟩

theorem colorBreak_stepRes : StepRes cfg s COLOR_BREAK (colorBreak cfg position s) where
  order := fun s' h => by
    rcases (colorBreak_res.1 s' h).1 with h | h
    · exact .inl h
    · exact .inr (.inl ⟨rfl, h.2⟩)
  change := fun s' h hc => by rcases hc with h | h <;> cases h
  sewing := fun s' h hs => by cases hs
  breaks := fun s' h _ ho => by
    unfold colorBreak at h; rw [if_pos ho] at h; injection h with h; exact h.symm
  limits := fun s' h => ⟨fun _ => (colorBreak_res.1 s' h).2.1, fun _ => (colorBreak_res.1 s' h).2.2⟩
  err := fun e h => .inr ⟨colorBreak_res.2 e h, .inl rfl⟩

theorem dispatch_res (st : Stitch) (c : Int) : StepRes cfg s c (dispatch cfg position s st x y c) := by
  unfold dispatch
  by_cases h1 : c = STITCH
  · subst h1; rw [if_pos rfl]; exact .of_sew (by decide) (by decide) (sewStep_res fun _ _ _ => stitchWithContingency_op)
  rw [if_neg h1]
  by_cases h2 : c = NEEDLE_AT
  · subst h2; rw [if_pos rfl]; exact .of_sew (by decide) (by decide) (sewStep_res fun _ _ _ => needleTo_op)
  rw [if_neg h2]
  by_cases h3 : c = SEW_TO
  · subst h3; rw [if_pos rfl]; exact .of_sew (by decide) (by decide) (sewStep_res fun _ _ _ => sewTo_op)
  rw [if_neg h3]
  by_cases h4 : c = STITCH_BREAK
  · subst h4; rw [if_pos rfl]; exact .of_ok (by decide) (by decide) ⟨rfl, rfl, rfl⟩
  rw [if_neg h4]
  by_cases h5 : c = FRAME_EJECT
  · subst h5; rw [if_pos rfl]; exact .of_keep (by decide) (by decide) frameEject_res.1 frameEject_res.2
  rw [if_neg h5]
  by_cases h6 : c = SEQUENCE_BREAK
  · subst h6; rw [if_pos rfl]; exact .of_ok (by decide) (by decide) tieOffAndTrimIfNeeded_keep
  rw [if_neg h6]
  by_cases h7 : c = COLOR_BREAK
  · subst h7; rw [if_pos rfl]; exact colorBreak_stepRes
  rw [if_neg h7]
  by_cases h8 : c = TIE_OFF
  · subst h8; rw [if_pos rfl]; exact .of_ok (by decide) (by decide) tieOff_same.keep
  rw [if_neg h8]
  by_cases h9 : c = TIE_ON
  · subst h9; rw [if_pos rfl]; exact .of_ok (by decide) (by decide) tieOn_same.keep
  rw [if_neg h9]
  by_cases h10 : c = TRIM
  · subst h10; rw [if_pos rfl]; exact .of_ok (by decide) (by decide) tieOffAndTrimIfNeeded_keep
  rw [if_neg h10]
  by_cases h11 : c = JUMP
  · subst h11; rw [if_pos rfl]
    by_cases hj : s.jumping = true
    · rw [if_pos hj]; exact .of_ok (by decide) (by decide) (Keep.refl s)
    · rw [if_neg hj]; exact .of_keep (by decide) (by decide) (fun s' h => (jumpTo_op.1 s' h).keep) jumpTo_op.2
  rw [if_neg h11]
  by_cases h12 : c = SEQUIN_MODE
  · subst h12; rw [if_pos rfl]; exact .of_ok (by decide) (by decide) (toggle_same s).keep
  rw [if_neg h12]
  by_cases h13 : c = SEQUIN_EJECT
  · subst h13; rw [if_pos rfl]; exact .of_sew (by decide) (by decide) ejectStep_res
  rw [if_neg h13]
  by_cases h14 : c = COLOR_CHANGE
  · rw [if_pos h14]; exact colorChange_stepRes (.inl h14)
  rw [if_neg h14]
  by_cases h15 : c = NEEDLE_SET
  · rw [if_pos h15]; exact colorChange_stepRes (.inr h15)
  rw [if_neg h15]
  by_cases h16 : c = STOP
  · subst h16; rw [if_pos rfl]; exact .of_ok (by decide) (by decide) ⟨rfl, rfl, rfl⟩
  rw [if_neg h16]
  by_cases h17 : c = SLOW
  · subst h17; rw [if_pos rfl]
    refine .of_ok (by decide) (by decide) ?_
    split <;> exact ⟨rfl, rfl, rfl⟩
  rw [if_neg h17]
  by_cases h18 : c = FAST
  · subst h18; rw [if_pos rfl]
    refine .of_ok (by decide) (by decide) ?_
    split <;> exact ⟨rfl, rfl, rfl⟩
  rw [if_neg h18]
  have r := settingStep_res (cfg := cfg) (s := s) st c
  refine ⟨fun s' h => .inl (r.1 s' h).1, ?_, ?_, ?_, fun s' h => (r.1 s' h).2, fun e h => .inl ⟨(r.2 e h).1, .inr (r.2 e h).2⟩⟩
  · rintro s' _ (h | h)
    · exact absurd h h14
    · exact absurd h h15
  · intro s' _ h
    exfalso
    unfold isSewing at h
    simp only [Bool.or_eq_true, beq_iff_eq] at h
    tauto
  · intro s' _ h; exact absurd h h7

theorem step_res (st : Stitch) :
    StepRes cfg { s with high := flagsOf st.cmd } (cmdOf st.cmd) (step cfg position s st) := dispatch_res st _

end Emb
