import Verif.Spec
import Verif.EncoderInv
import Verif.Props.EncoderProps

/-!
# C109: a setting changes only what it names

Two runs of the encoder over the same design with different settings are compared command by command.
-/

namespace Emb

namespace Setting

/-- Both raise the same exception, or both have results and these are related. -/
inductive Both {α β : Type} (P : α → β → Prop) : Except PyErr α → Except PyErr β → Prop where
  | ok {a : α} {b : β} (h : P a b) : Both P (.ok a) (.ok b)
  | error (e : PyErr) : Both P (.error e) (.error e)

theorem Both.bind {α β γ δ : Type} {P : α → β → Prop} {Q : γ → δ → Prop} {x : Except PyErr α} {y : Except PyErr β}
    {f : α → Except PyErr γ} {g : β → Except PyErr δ} (h : Both P x y) (hf : ∀ a b, P a b → Both Q (f a) (g b)) :
    Both Q (x >>= f) (y >>= g) := by
  cases h with
  | ok h => exact hf _ _ h
  | error e => exact .error e

theorem Both.mono {α β : Type} {P Q : α → β → Prop} {x : Except PyErr α} {y : Except PyErr β} (h : Both P x y)
    (hi : ∀ a b, P a b → Q a b) : Both Q x y := by
  cases h with
  | ok h => exact .ok (hi _ _ h)
  | error e => exact .error e

theorem Both.ite {α β : Type} {P : α → β → Prop} {c : Prop} [Decidable c] {x x' : Except PyErr α} {y y' : Except PyErr β}
    (h : c → Both P x y) (h' : ¬ c → Both P x' y') : Both P (if c then x else x') (if c then y else y') := by
  split
  · exact h ‹_›
  · exact h' ‹_›

/-- Four stitches of a lock: a third, two thirds and a third of the way from a point towards another, and back at the point. -/
def IsLock (q : List Stitch) : Prop :=
  ∃ x y u v : ℚ, q = [⟨x + 33 / 100 * (u - x), y + 33 / 100 * (v - y), 0⟩, ⟨x + 66 / 100 * (u - x), y + 66 / 100 * (v - y), 0⟩,
    ⟨x + 33 / 100 * (u - x), y + 33 / 100 * (v - y), 0⟩, ⟨x, y, 0⟩]

/-- The part of the state in which the two runs may differ. -/
structure Part where
  out : List Stitch
  threads : List (Option Thread)
  on : Int
  off : Int
  trim : Bool

/-- The state of the second run. -/
def dress (k : Part) (s : St) : St :=
  { s with out := k.out, threads := k.threads, tieOnC := k.on, tieOffC := k.off, explicitTrim := k.trim }

/-- What a change adds to the stitches. -/
def announce (cfg : Cfg) (k : Int) (ch : Full) (x y : ℚ) : List Stitch :=
  let word := fun c => (⟨x, y, encodeThreadChange c (some ch.thread) (some ch.needle) none⟩ : Stitch)
  if cfg.change = COLOR_CHANGE then (if k ≠ 0 then [word COLOR_CHANGE] else [])
  else if cfg.change = NEEDLE_SET then [word NEEDLE_SET]
  else if cfg.change = STOP then [word STOP]
  else []

/-- What a change adds to the threads. -/
def learned (cfg : Cfg) (ch : Full) : List (Option Thread) :=
  if cfg.change = COLOR_CHANGE then [ch.thr]
  else if cfg.change = NEEDLE_SET then []
  else if cfg.change = STOP then [ch.thr]
  else []

/-- The state after a change. -/
def changed (cfg : Cfg) (s : St) (ch : Full) : St :=
  { s with
    order := s.order + 1, out := s.out ++ announce cfg (s.order + 1) ch s.nx s.ny, threads := s.threads ++ learned cfg ch, trimmed := true }

theorem nextChange_eq (cfg : Cfg) (s : St) : nextChange cfg s =
    match dget (s.order + 1) cfg.plan with
    | none => .error .keyError
    | some ch => .ok (changed cfg s ch) := by
  unfold nextChange
  cases dget (s.order + 1) cfg.plan with
  | none => rfl
  | some ch =>
    simp only [changed, announce, learned]
    split_ifs <;> simp_all

/-- How results of the two runs are related: `R` relates what is written, `T` the threads. `L`: lock stitches of the first run may be
missing in the second; `Q`: there are no sequins; `C`: there are no colour breaks. -/
structure Frame where
  R : Int → List Stitch → List Stitch → Prop
  T : List (Option Thread) → List (Option Thread) → Prop
  L : Prop
  Q : Prop
  C : Prop

/-- The two states belong together. -/
structure Rel (F : Frame) (order : Int) (out : List Stitch) (threads : List (Option Thread)) (on off : Int) (trim : Bool) (high : Int)
    (mode : Bool) (sequins : Int) (k : Part) : Prop where
  out : F.R order out k.out
  thr : F.T threads k.threads
  on : k.on = on ∨ (F.L ∧ k.on ≠ 0xD1)
  off : k.off = off ∨ (F.L ∧ k.off ≠ 0xD2)
  trim : k.trim = trim ∨ (F.Q ∧ F.C ∧ trim = true ∧ k.trim = false ∧
    ∀ n a b (e : Stitch), e.cmd % 256 = 2 → F.R n a b → F.R n (a ++ [e]) b)
  high : high % 256 = 0
  quiet : F.Q → mode = false ∧ sequins ≠ 0xF5
  ord : -1 ≤ order

/-- The second run is in the state of the first, apart from what may differ. -/
def Sim (F : Frame) (s t : St) : Prop :=
  ∃ k, t = dress k s ∧ Rel F s.order s.out s.threads s.tieOnC s.tieOffC s.explicitTrim s.high s.sequinMode s.sequinC k

/-- Not a change of colour or needle and not a speed. -/
def Plain (c : Int) : Prop := c % 256 ∉ [5, 9, 0xB, 0xC]

instance (c : Int) : Decidable (Plain c) := inferInstanceAs (Decidable (c % 256 ∉ [5, 9, 0xB, 0xC]))

theorem Plain.flags {c v : Int} (h : Plain c) (hv : v % 256 = 0) : Plain (c + v) := by
  unfold Plain at *
  rwa [show (c + v) % 256 = c % 256 by omega]

/-- The configurations of the two runs. -/
structure World (F : Frame) (cfg cfg' : Cfg) : Prop where
  same : cfg' = { cfg with fullJump := cfg'.fullJump, writesSpeeds := cfg'.writesSpeeds, change := cfg'.change, plan := cfg'.plan }
  snoc : ∀ n a b (e : Stitch), Plain e.cmd → F.R n a b → F.R n (a ++ [e]) (b ++ [e])
  full : cfg'.fullJump = cfg.fullJump ∨ (F.Q ∧ cfg.fullJump = true ∧ cfg'.fullJump = false ∧
    ∀ n a b (e : Stitch), e.cmd % 256 = 1 → F.R n a b → F.R n (a ++ [e]) b)
  speeds : (cfg'.writesSpeeds = cfg.writesSpeeds ∧
    ∀ n a b (e : Stitch), e.cmd % 256 = 0xB ∨ e.cmd % 256 = 0xC → F.R n a b → F.R n (a ++ [e]) (b ++ [e])) ∨ (cfg.writesSpeeds = true ∧ cfg'.writesSpeeds = false ∧
    ∀ n a b (e : Stitch), e.cmd % 256 = 0xB ∨ e.cmd % 256 = 0xC → F.R n a b → F.R n (a ++ [e]) b)
  lock : F.L → ∀ n a b q, IsLock q → F.R n a b → F.R n (a ++ q) b
  next : ∀ n, 0 ≤ n → Option.Rel (fun c c' => (∀ x y a b, F.R (n - 1) a b → F.R n (a ++ announce cfg n c x y) (b ++ announce cfg' n c' x y)) ∧
    ∀ l l', F.T l l' → F.T (l ++ learned cfg c) (l' ++ learned cfg' c')) (dget n cfg.plan) (dget n cfg'.plan)

variable {F : Frame} {cfg cfg' : Cfg} {s t : St}

theorem add (w : World F cfg cfg') (h : Sim F s t) {c : Int} (hc : Plain c) : Sim F (s.add c) (t.add c) := by
  obtain ⟨k, rfl, h⟩ := h
  have hh := h.high
  refine ⟨{ k with out := k.out ++ [⟨s.nx, s.ny, c + s.high⟩] }, rfl, { h with out := ?_ }⟩
  exact w.snoc _ _ _ _ (hc.flags hh) h.out

theorem moveTo (w : World F cfg cfg') (h : Sim F s t) {c : Int} (hc : Plain c) (x y : ℚ) :
    Sim F (s.moveTo c x y) (t.moveTo c x y) := by
  obtain ⟨k, rfl, h⟩ := h
  have hh := h.high
  refine ⟨{ k with out := k.out ++ [⟨x, y, c + s.high⟩] }, rfl, { h with out := ?_ }⟩
  exact w.snoc _ _ _ _ (hc.flags hh) h.out

theorem trimmed (h : Sim F s t) (b : Bool) : Sim F { s with trimmed := b } { t with trimmed := b } := by
  obtain ⟨k, rfl, h⟩ := h
  exact ⟨k, rfl, h⟩

theorem jumping (h : Sim F s t) (b : Bool) : Sim F { s with jumping := b } { t with jumping := b } := by
  obtain ⟨k, rfl, h⟩ := h
  exact ⟨k, rfl, h⟩

theorem here (h : Sim F s t) (x y : ℚ) : Sim F { s with nx := x, ny := y } { t with nx := x, ny := y } := by
  obtain ⟨k, rfl, h⟩ := h
  exact ⟨k, rfl, h⟩

theorem flags (h : Sim F s t) (v : Int) : Sim F { s with high := flagsOf v } { t with high := flagsOf v } := by
  obtain ⟨k, rfl, h⟩ := h
  exact ⟨k, rfl, { h with high := flagsOf_low v }⟩

theorem nextChange (w : World F cfg cfg') (h : Sim F s t) : Both (Sim F) (Emb.nextChange cfg s) (Emb.nextChange cfg' t) := by
  obtain ⟨k, rfl, h⟩ := h
  rw [nextChange_eq, nextChange_eq]
  have hn := w.next (s.order + 1) (by have := h.ord; omega)
  rw [show (dress k s).order = s.order from rfl]
  revert hn
  generalize dget (s.order + 1) cfg.plan = a
  generalize dget (s.order + 1) cfg'.plan = b
  intro hn
  cases hn with
  | none => exact .error _
  | some hc =>
    rename_i c c'
    refine .ok ⟨{ k with
      out := k.out ++ announce cfg' (s.order + 1) c' s.nx s.ny, threads := k.threads ++ learned cfg' c' }, rfl, { h with out := ?_, thr := ?_, ord := by have := h.ord; simp only [changed]; omega }⟩
    · exact hc.1 _ _ _ _ (by rw [show s.order + 1 - 1 = s.order by ring]; exact h.out)
    · exact hc.2 _ _ h.thr

theorem declare (w : World F cfg cfg') (h : Sim F s t) : Both (Sim F) (declareNotTrimmed cfg s) (declareNotTrimmed cfg' t) := by
  unfold declareNotTrimmed
  have ho : t.order = s.order := by obtain ⟨k, rfl, _⟩ := h; rfl
  rw [ho]
  refine Both.bind (Both.ite (fun _ => nextChange w h) fun _ => .ok h) fun a b hab => .ok (trimmed hab false)

theorem toggle (w : World F cfg cfg') (h : Sim F s t) : Sim F (toggleSequins s) (toggleSequins t) := by
  unfold toggleSequins
  have hc : t.sequinC = s.sequinC := by obtain ⟨k, rfl, _⟩ := h; rfl
  rw [hc]
  split_ifs with hu
  · have h' := add w h (c := SEQUIN_MODE) (by decide)
    obtain ⟨k, hk, h'⟩ := h'
    refine ⟨k, ?_, { h' with quiet := fun q => absurd hu (h'.quiet q).2 }⟩
    have : t.sequinMode = s.sequinMode := by obtain ⟨k, rfl, _⟩ := h; rfl
    rw [hk, this]; rfl
  · exact h

theorem off (w : World F cfg cfg') (h : Sim F s t) :
    Sim F (if s.sequinMode then toggleSequins s else s) (if t.sequinMode then toggleSequins t else t) := by
  have hc : t.sequinMode = s.sequinMode := by obtain ⟨k, rfl, _⟩ := h; rfl
  rw [hc]
  split_ifs
  · exact toggle w h
  · exact h

theorem trimHere (w : World F cfg cfg') (h : Sim F s t) : Sim F (Emb.trimHere s) (Emb.trimHere t) :=
  trimmed (add w (off w h) (c := TRIM) (by decide)) true

theorem gapLoop (w : World F cfg cfg') {data : Int} (hd : Plain data) (sx sy : ℚ) :
    ∀ (n : Nat) {s t : St}, Sim F s t → Sim F (Emb.gapLoop data sx sy n s) (Emb.gapLoop data sx sy n t)
  | 0, _, _, h => h
  | n + 1, s, t, h => by
    unfold Emb.gapLoop
    have hx : t.nx = s.nx := by obtain ⟨k, rfl, _⟩ := h; rfl
    have hy : t.ny = s.ny := by obtain ⟨k, rfl, _⟩ := h; rfl
    rw [hx, hy]
    exact gapLoop w hd sx sy n (moveTo w h hd _ _)

theorem gap (w : World F cfg cfg') (h : Sim F s t) (x y : ℚ) {data : Int} (hd : Plain data)
    (limit : Option ℚ) : Both (Sim F) (Emb.gap s x y limit data) (Emb.gap t x y limit data) := by
  cases limit with
  | none => exact .ok h
  | some m =>
    have hx : t.nx = s.nx := by obtain ⟨k, rfl, _⟩ := h; rfl
    have hy : t.ny = s.ny := by obtain ⟨k, rfl, _⟩ := h; rfl
    have hm : t.sequinMode = s.sequinMode := by obtain ⟨k, rfl, _⟩ := h; rfl
    unfold Emb.gap
    simp only [hx, hy]
    have ht : Sim F (if data = JUMP ∧ s.sequinMode then toggleSequins s else s) (if data = JUMP ∧ t.sequinMode then toggleSequins t else t) := by
      rw [hm]
      split_ifs
      · exact toggle w h
      · exact h
    revert ht
    generalize (if data = JUMP ∧ s.sequinMode then toggleSequins s else s) = s'
    generalize (if data = JUMP ∧ t.sequinMode then toggleSequins t else t) = t'
    generalize (if ceilQ |(x - s.nx) / m| > ceilQ |(y - s.ny) / m| then ceilQ |(x - s.nx) / m| else ceilQ |(y - s.ny) / m|) = n
    intro ht
    exact .ite (fun _ => .ite (fun _ => .error _) fun _ => .ite (fun _ => .error _) fun _ => .ok (gapLoop w hd _ _ _ ht))
      fun _ => .ok h

theorem jumpAt (w : World F cfg cfg') (h : Sim F s t) (x y : ℚ) : Sim F (Emb.jumpAt s x y) (Emb.jumpAt t x y) :=
  moveTo w (off w h) (c := JUMP) (by decide) x y

theorem jumpTo (w : World F cfg cfg') (h : Sim F s t) (x y : ℚ) : Both (Sim F) (Emb.jumpTo s x y) (Emb.jumpTo t x y) := by
  unfold Emb.jumpTo
  rw [show t.maxJump = s.maxJump by obtain ⟨k, rfl, _⟩ := h; rfl]
  exact (gap w h x y (data := JUMP) (by decide) _).bind fun a b hab => .ok (jumpAt w hab x y)

theorem stitchAt (w : World F cfg cfg') (h : Sim F s t) (x y : ℚ) : Sim F (Emb.stitchAt s x y) (Emb.stitchAt t x y) :=
  moveTo w h (c := STITCH) (by decide) x y

theorem sewTo (w : World F cfg cfg') (h : Sim F s t) (x y : ℚ) : Both (Sim F) (Emb.sewTo s x y) (Emb.sewTo t x y) := by
  unfold Emb.sewTo
  rw [show t.maxStitch = s.maxStitch by obtain ⟨k, rfl, _⟩ := h; rfl]
  exact (gap w h x y (data := STITCH) (by decide) _).bind fun a b hab => .ok (stitchAt w hab x y)

theorem needleTo (w : World F cfg cfg') (h : Sim F s t) (x y : ℚ) : Both (Sim F) (Emb.needleTo s x y) (Emb.needleTo t x y) := by
  unfold Emb.needleTo
  rw [show t.maxStitch = s.maxStitch by obtain ⟨k, rfl, _⟩ := h; rfl]
  exact (gap w h x y (data := JUMP) (by decide) _).bind fun a b hab => .ok (stitchAt w hab x y)

theorem contingency (w : World F cfg cfg') (h : Sim F s t) (x y : ℚ) :
    Both (Sim F) (stitchWithContingency s x y) (stitchWithContingency t x y) := by
  unfold stitchWithContingency
  rw [show t.longC = s.longC by obtain ⟨k, rfl, _⟩ := h; rfl]
  exact .ite (fun _ => sewTo w h x y) fun _ => .ite (fun _ => needleTo w h x y) fun _ => .ok (stitchAt w h x y)

theorem sequinAt (w : World F cfg cfg') (h : Sim F s t) (x y : ℚ) : Both (Sim F) (Emb.sequinAt s x y) (Emb.sequinAt t x y) := by
  unfold Emb.sequinAt
  simp only
  rw [show t.sequinC = s.sequinC by obtain ⟨k, rfl, _⟩ := h; rfl, show t.maxStitch = s.maxStitch by obtain ⟨k, rfl, _⟩ := h; rfl]
  refine .ite (fun _ => .ok h) fun _ => ?_
  refine (gap w h x y (data := STITCH) (by decide) _).bind fun a b hab => .ok (here ?_ x y)
  split_ifs
  · exact moveTo w hab (c := SEQUIN_EJECT) (by decide) x y
  · exact moveTo w hab (c := JUMP) (by decide) x y
  · exact moveTo w hab (c := STITCH) (by decide) x y
  · exact hab

theorem isLock (lm : Libm) (x y u v : ℚ) (limit : Option ℚ) : IsLock (lockStitches lm x y u v limit) := by
  refine ⟨x, y, (lockAnchor lm x y u v limit).1, (lockAnchor lm x y u v limit).2, ?_⟩
  unfold lockStitches
  simp only [List.map_cons, List.map_nil, towards, STITCH]
  norm_num [add_comm]

/-- The same lock in both runs. -/
theorem lockBoth (w : World F cfg cfg') (h : Sim F s t) (b : Stitch) : Sim F (lockTowards cfg s b) (lockTowards cfg' t b) := by
  have hl : cfg'.lm = cfg.lm := by rw [w.same]
  obtain ⟨k, rfl, h⟩ := h
  unfold lockTowards
  simp only [hl]
  split_ifs
  · have hq : lockStitches cfg.lm (dress k s).nx (dress k s).ny ((dress k s).matrix.point b.x b.y).1 ((dress k s).matrix.point b.x b.y).2
        (dress k s).maxStitch = lockStitches cfg.lm s.nx s.ny (s.matrix.point b.x b.y).1 (s.matrix.point b.x b.y).2 s.maxStitch := rfl
    rw [hq]
    obtain ⟨x, y, u, v, e⟩ := isLock cfg.lm s.nx s.ny (s.matrix.point b.x b.y).1 (s.matrix.point b.x b.y).2 s.maxStitch
    rw [e]
    refine ⟨{ k with out := _ }, rfl, { h with out := ?_ }⟩
    rw [show (dress k s).out = k.out from rfl]
    have h4 := w.snoc _ _ _ ⟨x, y, 0⟩ (by simp [Plain]) (w.snoc _ _ _ ⟨x + 33 / 100 * (u - x), y + 33 / 100 * (v - y), 0⟩ (by simp [Plain])
      (w.snoc _ _ _ ⟨x + 66 / 100 * (u - x), y + 66 / 100 * (v - y), 0⟩ (by simp [Plain])
        (w.snoc _ _ _ ⟨x + 33 / 100 * (u - x), y + 33 / 100 * (v - y), 0⟩ (by simp [Plain]) h.out)))
    simpa using h4
  · exact ⟨k, rfl, h⟩

/-- A lock in the first run only. -/
theorem lockOne (w : World F cfg cfg') (hL : F.L) (h : Sim F s t) (b : Stitch) : Sim F (lockTowards cfg s b) t := by
  obtain ⟨k, rfl, h⟩ := h
  unfold lockTowards
  simp only
  split_ifs
  · exact ⟨k, rfl, { h with out := w.lock hL _ _ _ _ (isLock ..) h.out }⟩
  · exact ⟨k, rfl, h⟩

theorem tieOff (w : World F cfg cfg') (h : Sim F s t) (i : Nat) : Sim F (Emb.tieOff cfg i s) (Emb.tieOff cfg' i t) := by
  have hs : cfg'.source = cfg.source := by rw [w.same]
  have ht : t.tieOffC = s.tieOffC ∨ (F.L ∧ t.tieOffC ≠ 0xD2) := by obtain ⟨k, rfl, h⟩ := h; exact h.off
  unfold Emb.tieOff
  rw [hs]
  rcases ht with e | ⟨hL, hn⟩
  · rw [e]
    split_ifs
    · cases pyGet cfg.source ((i : Int) - 1) with
      | ok b => exact lockBoth w h b
      | error e => exact h
    · exact h
  · rw [if_neg (show ¬ t.tieOffC = CONTINGENCY_TIE_OFF_THREE_SMALL from hn)]
    split_ifs
    · cases pyGet cfg.source ((i : Int) - 1) with
      | ok b => exact lockOne w hL h b
      | error e => exact h
    · exact h

theorem tieOn (w : World F cfg cfg') (h : Sim F s t) (i : Nat) : Sim F (Emb.tieOn cfg i s) (Emb.tieOn cfg' i t) := by
  have hs : cfg'.source = cfg.source := by rw [w.same]
  have ht : t.tieOnC = s.tieOnC ∨ (F.L ∧ t.tieOnC ≠ 0xD1) := by obtain ⟨k, rfl, h⟩ := h; exact h.on
  unfold Emb.tieOn
  rw [hs]
  rcases ht with e | ⟨hL, hn⟩
  · rw [e]
    split_ifs
    · cases pyGet cfg.source ((i : Int) + 1) with
      | ok b => exact lockBoth w h b
      | error e => exact h
    · exact h
  · rw [if_neg (show ¬ t.tieOnC = CONTINGENCY_TIE_ON_THREE_SMALL from hn)]
    split_ifs
    · cases pyGet cfg.source ((i : Int) + 1) with
      | ok b => exact lockOne w hL h b
      | error e => exact h
    · exact h

theorem explicitTrim (w : World F cfg cfg') (h : Sim F s t) (i : Nat) :
    Sim F { tieOffTrimIfExplicit cfg i s with trimmed := true } { tieOffTrimIfExplicit cfg' i t with trimmed := true } := by
  unfold tieOffTrimIfExplicit
  rw [show t.trimmed = s.trimmed by obtain ⟨k, rfl, _⟩ := h; rfl]
  simp only
  split
  · exact trimmed h true
  · have h' := tieOff w h i
    revert h'
    generalize Emb.tieOff cfg i s = a
    generalize Emb.tieOff cfg' i t = b
    intro h'
    have ht := h'
    obtain ⟨k, rfl, hk⟩ := ht
    rcases hk.trim with e | ⟨hQ, _, e, e', hR⟩
    · rw [show (dress k a).explicitTrim = a.explicitTrim from e]
      split_ifs
      · exact trimmed (trimHere w h') true
      · exact trimmed h' true
    · rw [if_pos e, if_neg (show ¬ (dress k a).explicitTrim = true by rw [show (dress k a).explicitTrim = k.trim from rfl, e']; decide)]
      have hq := (hk.quiet hQ).1
      have hh := hk.high
      have : Emb.trimHere a = { a.add TRIM with trimmed := true } := by unfold Emb.trimHere; simp [hq]
      rw [this]
      refine ⟨k, rfl, { hk with out := hR _ _ _ _ ?_ hk.out }⟩
      simp only [TRIM]
      omega

/-- With equal settings for trims, also whether the thread is cut. -/
theorem explicitTrim' (w : World F cfg cfg') (h : Sim F s t) (hC : ¬ F.C) (i : Nat) :
    Sim F (tieOffTrimIfExplicit cfg i s) (tieOffTrimIfExplicit cfg' i t) := by
  unfold tieOffTrimIfExplicit
  rw [show t.trimmed = s.trimmed by obtain ⟨k, rfl, _⟩ := h; rfl]
  simp only
  split
  · exact h
  · have h' := tieOff w h i
    revert h'
    generalize Emb.tieOff cfg i s = a
    generalize Emb.tieOff cfg' i t = b
    intro h'
    have ht := h'
    obtain ⟨k, rfl, hk⟩ := ht
    rcases hk.trim with e | ⟨_, hc, _⟩
    · rw [show (dress k a).explicitTrim = a.explicitTrim from e]
      split_ifs
      · exact trimHere w h'
      · exact h'
    · exact absurd hc hC

theorem trimIfNeeded (w : World F cfg cfg') (h : Sim F s t) (i : Nat) :
    Sim F (tieOffAndTrimIfNeeded cfg i s) (tieOffAndTrimIfNeeded cfg' i t) := by
  unfold tieOffAndTrimIfNeeded
  rw [show t.trimmed = s.trimmed by obtain ⟨k, rfl, _⟩ := h; rfl]
  split_ifs
  · exact h
  · exact trimHere w (tieOff w h i)

theorem nextChange_trimmed (cfg : Cfg) (s : St) (b : Bool) : Emb.nextChange cfg { s with trimmed := b } = Emb.nextChange cfg s := by
  rw [nextChange_eq, nextChange_eq]
  rfl

theorem colorChange (w : World F cfg cfg') (h : Sim F s t) (i : Nat) :
    Both (Sim F) (Emb.colorChange cfg i s) (Emb.colorChange cfg' i t) := by
  unfold Emb.colorChange
  rw [← nextChange_trimmed cfg _ true, ← nextChange_trimmed cfg' _ true]
  exact (nextChange w (explicitTrim w h i)).bind fun a b hab => .ok (trimmed hab true)

theorem colorBreak (w : World F cfg cfg') (h : Sim F s t) (hC : ¬ F.C) (i : Nat) :
    Both (Sim F) (Emb.colorBreak cfg i s) (Emb.colorBreak cfg' i t) := by
  unfold Emb.colorBreak
  rw [show t.order = s.order by obtain ⟨k, rfl, _⟩ := h; rfl,
    show lookahead cfg' i = lookahead cfg i by unfold lookahead; rw [show cfg'.source = cfg.source by rw [w.same]]]
  simp only
  refine .ite (fun _ => .ok h) fun _ => .ite (fun _ => ?_) fun _ => .ok (explicitTrim' w h hC i)
  exact (nextChange w (explicitTrim' w h hC i)).bind fun a b hab => .ok (trimmed hab true)

theorem arrive (w : World F cfg cfg') (h : Sim F s t) (x y : ℚ) :
    Sim F (Emb.stitchAt (if cfg.fullJump ∧ (s.nx ≠ x ∨ s.ny ≠ y) then Emb.jumpAt s x y else s) x y)
      (Emb.stitchAt (if cfg'.fullJump ∧ (t.nx ≠ x ∨ t.ny ≠ y) then Emb.jumpAt t x y else t) x y) := by
  rw [show t.nx = s.nx by obtain ⟨k, rfl, _⟩ := h; rfl, show t.ny = s.ny by obtain ⟨k, rfl, _⟩ := h; rfl]
  rcases w.full with e | ⟨hQ, e, e', hR⟩
  · rw [e]
    split_ifs
    · exact stitchAt w (jumpAt w h x y) x y
    · exact stitchAt w h x y
  · simp only [e, e', Bool.false_eq_true, false_and, if_false, true_and]
    split_ifs
    · obtain ⟨k, rfl, hk⟩ := h
      have hq := (hk.quiet hQ).1
      have hh := hk.high
      have : Emb.jumpAt s x y = s.moveTo JUMP x y := by unfold Emb.jumpAt; simp [hq]
      rw [this]
      refine ⟨{ k with out := k.out ++ [⟨x, y, STITCH + s.high⟩] }, rfl, { hk with out := ?_ }⟩
      refine w.snoc _ _ _ ⟨x, y, STITCH + s.high⟩ (Plain.flags (by decide) hh) (hR _ _ _ _ ?_ hk.out)
      simp only [JUMP]
      omega
    · exact stitchAt w h x y

theorem firstStrike (w : World F cfg cfg') (h : Sim F s t) (i : Nat) (x y : ℚ) :
    Both (Sim F) (Emb.firstStrike cfg i s x y) (Emb.firstStrike cfg' i t x y) := by
  unfold Emb.firstStrike
  refine (declare w h).bind fun a b hab => ?_
  unfold Emb.jumpToWithin
  rw [show b.maxJump = a.maxJump by obtain ⟨k, rfl, _⟩ := hab; rfl, bind_assoc, bind_assoc]
  exact (gap w hab x y (data := JUMP) (by decide) _).bind fun c d hcd => .ok (tieOn w (arrive w hcd x y) i)

theorem sewStep (w : World F cfg cfg') (h : Sim F s t) (i : Nat) (x y : ℚ) {direct : St → ℚ → ℚ → Except PyErr St}
    (hd : Both (Sim F) (direct s x y) (direct t x y)) :
    Both (Sim F) (Emb.sewStep cfg i s x y direct) (Emb.sewStep cfg' i t x y direct) := by
  unfold Emb.sewStep
  rw [show t.trimmed = s.trimmed by obtain ⟨k, rfl, _⟩ := h; rfl, show t.jumping = s.jumping by obtain ⟨k, rfl, _⟩ := h; rfl]
  refine .ite (fun _ => firstStrike w h i x y) fun _ => .ite (fun _ => ?_) fun _ => hd
  exact (needleTo w h x y).bind fun a b hab => .ok (jumping hab false)

theorem ejectStep (w : World F cfg cfg') (h : Sim F s t) (i : Nat) (x y : ℚ) :
    Both (Sim F) (Emb.ejectStep cfg i s x y) (Emb.ejectStep cfg' i t x y) := by
  unfold Emb.ejectStep
  rw [show t.trimmed = s.trimmed by obtain ⟨k, rfl, _⟩ := h; rfl]
  refine Both.bind (.ite (fun _ => firstStrike w h i x y) fun _ => .ok h) fun a b hab => sequinAt w ?_ x y
  rw [show b.sequinMode = a.sequinMode by obtain ⟨k, rfl, _⟩ := hab; rfl]
  split_ifs
  · exact hab
  · exact toggle w hab

theorem stopHere (w : World F cfg cfg') (h : Sim F s t) : Sim F (Emb.stopHere s) (Emb.stopHere t) :=
  trimmed (add w h (c := STOP) (by decide)) true

theorem endHere (w : World F cfg cfg') (h : Sim F s t) : Sim F (Emb.endHere s) (Emb.endHere t) :=
  trimmed (add w h (c := END) (by decide)) true

theorem frameEject (w : World F cfg cfg') (h : Sim F s t) (i : Nat) (x y : ℚ) :
    Both (Sim F) (Emb.frameEject cfg i s x y) (Emb.frameEject cfg' i t x y) := by
  unfold Emb.frameEject
  exact (jumpTo w (trimIfNeeded w h i) x y).bind fun a b hab => .ok (stopHere w hab)

theorem speed (w : World F cfg cfg') (h : Sim F s t) {c : Int} (hc : c = 0xB ∨ c = 0xC) :
    Sim F (if cfg.writesSpeeds then s.add c else s) (if cfg'.writesSpeeds then t.add c else t) := by
  rcases w.speeds with ⟨e, hR⟩ | ⟨e, e', hR⟩
  · rw [e]
    split_ifs
    · obtain ⟨k, rfl, hk⟩ := h
      have hh := hk.high
      refine ⟨{ k with out := k.out ++ [⟨s.nx, s.ny, c + s.high⟩] }, rfl, { hk with out := hR _ _ _ _ ?_ hk.out }⟩
      simp only
      omega
    · exact h
  · rw [if_pos e, if_neg (by rw [e']; decide)]
    obtain ⟨k, rfl, hk⟩ := h
    have hh := hk.high
    refine ⟨k, rfl, { hk with out := hR _ _ _ _ ?_ hk.out }⟩
    simp only
    omega

theorem matrixStep (w : World F cfg cfg') (h : Sim F s t) (a : Stitch) (c : Int) :
    Both (Sim F) (Emb.matrixStep cfg s a c) (Emb.matrixStep cfg' t a c) := by
  have hl : cfg'.lm = cfg.lm := by rw [w.same]
  have hp : needlePreimage t = needlePreimage s := by obtain ⟨k, rfl, h⟩ := h; rfl
  have hm : ∀ m, Sim F { s with matrix := m } { t with matrix := m } := by
    intro m
    obtain ⟨k, rfl, h⟩ := h
    exact ⟨k, rfl, h⟩
  have ht : t.matrix = s.matrix := by obtain ⟨k, rfl, h⟩ := h; rfl
  unfold Emb.matrixStep
  rw [hl, hp, ht]
  refine .ite (fun _ => .ok (hm _)) fun _ => .ite (fun _ => .ok (hm _)) fun _ => .ite (fun _ => .ok (hm _)) fun _ => ?_
  refine .ite (fun _ => ?_) fun _ => .ite (fun _ => ?_) fun _ => .ite (fun _ => .ok (hm _)) fun _ => .ok h
  all_goals
    cases needlePreimage s with
    | error e => exact .error e
    | ok p => exact .ok (hm _)

theorem leave (w : World F cfg cfg') (h : Sim F s t) {v : Int} (hv : v ≠ 0xF5) : Sim F (leaveSequins s v) (leaveSequins t v) := by
  unfold leaveSequins
  obtain ⟨k, e, hk⟩ := off w h
  rw [e]
  exact ⟨k, rfl, { hk with quiet := fun q => ⟨(hk.quiet q).1, hv⟩ }⟩

theorem settingStep (w : World F cfg cfg') (h : Sim F s t) (a : Stitch) {c : Int} (hc : F.Q → c ≠ 0xF5) :
    Both (Sim F) (Emb.settingStep cfg s a c) (Emb.settingStep cfg' t a c) := by
  unfold Emb.settingStep
  have hon : ∀ v, Sim F { s with tieOnC := v } { t with tieOnC := v } := by
    intro v
    obtain ⟨k, rfl, h⟩ := h
    exact ⟨{ k with on := v }, rfl, { h with on := .inl rfl }⟩
  have hoff : ∀ v, Sim F { s with tieOffC := v } { t with tieOffC := v } := by
    intro v
    obtain ⟨k, rfl, h⟩ := h
    exact ⟨{ k with off := v }, rfl, { h with off := .inl rfl }⟩
  have htrim : ∀ v, Sim F { s with explicitTrim := v } { t with explicitTrim := v } := by
    intro v
    obtain ⟨k, rfl, h⟩ := h
    exact ⟨{ k with trim := v }, rfl, { h with trim := .inl rfl }⟩
  have hjump : ∀ v, Sim F { s with maxJump := v } { t with maxJump := v } := by
    intro v
    obtain ⟨k, rfl, h⟩ := h
    exact ⟨k, rfl, h⟩
  have hstitch : ∀ v, Sim F { s with maxStitch := v } { t with maxStitch := v } := by
    intro v
    obtain ⟨k, rfl, h⟩ := h
    exact ⟨k, rfl, h⟩
  have hlong : ∀ v, Sim F { s with longC := v } { t with longC := v } := by
    intro v
    obtain ⟨k, rfl, h⟩ := h
    exact ⟨k, rfl, h⟩
  refine .ite (fun _ => .ok (hon _)) fun _ => .ite (fun _ => .ok (hoff _)) fun _ => .ite (fun _ => .ok (hon _)) fun _ =>
    .ite (fun _ => .ok (hoff _)) fun _ => .ite (fun _ => .ok (hjump _)) fun _ => .ite (fun _ => .ok (hstitch _)) fun _ =>
    .ite (fun _ => .ok (htrim _)) fun _ => .ite (fun _ => .ok (htrim _)) fun _ => .ite (fun _ => .ok (hlong _)) fun _ =>
    .ite (fun _ => .ok (hlong _)) fun _ => .ite (fun _ => .ok (hlong _)) fun _ => .ite (fun _ => .ok (leave w h (by decide))) fun _ =>
    .ite (fun _ => .ok (leave w h (by decide))) fun _ => .ite (fun _ => .ok (leave w h (by decide))) fun _ =>
    .ite (fun hu => ?_) fun _ => matrixStep w h a c
  obtain ⟨k, rfl, h⟩ := h
  exact .ok ⟨k, rfl, { h with quiet := fun q => absurd hu (hc q) }⟩

theorem dispatch (w : World F cfg cfg') (h : Sim F s t) (i : Nat) (a : Stitch) (x y : ℚ) {c : Int} (hc : F.Q → c ≠ 0xF5)
    (hC : F.C → c ≠ 0xE2) : Both (Sim F) (Emb.dispatch cfg i s a x y c) (Emb.dispatch cfg' i t a x y c) := by
  unfold Emb.dispatch
  refine .ite (fun _ => sewStep w h i x y (contingency w h x y)) fun _ => .ite (fun _ => sewStep w h i x y (needleTo w h x y)) fun _ =>
    .ite (fun _ => sewStep w h i x y (sewTo w h x y)) fun _ => .ite (fun _ => .ok (jumping h true)) fun _ =>
    .ite (fun _ => frameEject w h i x y) fun _ => .ite (fun _ => .ok (trimIfNeeded w h i)) fun _ =>
    .ite (fun hb => colorBreak w h (fun q => hC q hb) i) fun _ => .ite (fun _ => .ok (tieOff w h i)) fun _ =>
    .ite (fun _ => .ok (tieOn w h i)) fun _ => .ite (fun _ => .ok (trimIfNeeded w h i)) fun _ =>
    .ite (fun _ => ?_) fun _ => .ite (fun _ => .ok (toggle w h)) fun _ => .ite (fun _ => ejectStep w h i x y) fun _ =>
    .ite (fun _ => colorChange w h i) fun _ => .ite (fun _ => colorChange w h i) fun _ => .ite (fun _ => .ok (stopHere w h)) fun _ =>
    .ite (fun _ => .ok (speed w h (.inl rfl))) fun _ => .ite (fun _ => .ok (speed w h (.inr rfl))) fun _ => settingStep w h a hc
  rw [show t.jumping = s.jumping by obtain ⟨k, rfl, _⟩ := h; rfl]
  exact .ite (fun _ => .ok h) fun _ => jumpTo w h x y

theorem step (w : World F cfg cfg') (h : Sim F s t) (i : Nat) (a : Stitch) (hc : F.Q → a.cmd % 256 ≠ 0xF5)
    (hC : F.C → a.cmd % 256 ≠ 0xE2) : Both (Sim F) (Emb.step cfg i s a) (Emb.step cfg' i t a) := by
  unfold Emb.step
  have : target cfg' t a = target cfg s a := by
    obtain ⟨k, rfl, _⟩ := h
    unfold target
    rw [show cfg'.round = cfg.round by rw [w.same]]
    rfl
  rw [this]
  exact dispatch w (flags h a.cmd) i a _ _ hc hC

theorem run (w : World F cfg cfg') : ∀ (l : List Stitch) (i : Nat) {s t : St}, Sim F s t → (F.Q → ∀ a ∈ l, a.cmd % 256 ≠ 0xF5) →
    (F.C → ∀ a ∈ l, a.cmd % 256 ≠ 0xE2) → Both (Sim F) (runFrom cfg i s l) (runFrom cfg' i t l)
  | [], _, _, _, h, _, _ => .ok (endHere w h)
  | a :: l, i, s, t, h, hc, hC => by
    unfold runFrom
    refine .ite (fun _ => .ok (endHere w (flags h a.cmd))) fun _ => ?_
    have hs := step w h i a (fun q => hc q a (by simp)) fun q => hC q a (by simp)
    revert hs
    generalize Emb.step cfg i s a = p
    generalize Emb.step cfg' i t a = q
    intro hs
    cases hs with
    | error e => exact .error e
    | ok hs => exact run w l (i + 1) hs (fun q b hb => hc q b (by simp [hb])) fun q b hb => hC q b (by simp [hb])

/-- Two normalizations of the same design with related settings have related results. -/
theorem encode {F : Frame} {o o' : Settings} {lm : Libm} {threads threads' : List Thread} {l : List Stitch}
    (hp : Both (fun p p' => World F (mkCfg o lm l p) (mkCfg o' lm l p')) (buildPlan o threads l) (buildPlan o' threads' l))
    (hi : Sim F (initSt o lm threads) (initSt o' lm threads')) (hQ : F.Q → ∀ a ∈ l, a.cmd % 256 ≠ 0xF5)
    (hC : F.C → ∀ a ∈ l, a.cmd % 256 ≠ 0xE2) :
    Both (fun p q => (∃ n, F.R n p.1 q.1) ∧ F.T p.2 q.2) (Emb.encode o lm threads l) (Emb.encode o' lm threads' l) := by
  unfold Emb.encode
  revert hp
  generalize buildPlan o threads l = x
  generalize buildPlan o' threads' l = y
  intro hp
  cases hp with
  | error e => exact .error e
  | ok w =>
    rename_i p p'
    have hr := run w l 0 hi hQ hC
    simp only
    revert hr
    generalize runFrom (mkCfg o lm l p) 0 (initSt o lm threads) l = x
    generalize runFrom (mkCfg o' lm l p') 0 (initSt o' lm threads') l = y
    intro hr
    cases hr with
    | error e => exact .error e
    | ok h =>
      obtain ⟨k, rfl, h⟩ := h
      exact .ok ⟨⟨_, h.out⟩, h.thr⟩

theorem announce_low (cfg : Cfg) (n : Int) (ch : Full) (x y : ℚ) : announce cfg n ch x y = [] ∨
    ∃ e : Stitch, announce cfg n ch x y = [e] ∧ (e.cmd % 256 = 3 ∨ e.cmd % 256 = 5 ∨ e.cmd % 256 = 9) := by
  unfold announce
  simp only
  split_ifs
  · exact .inr ⟨_, rfl, .inr (.inl (encodeThreadChange_low 5 (by decide) (by decide) _ _ _))⟩
  · exact .inl rfl
  · exact .inr ⟨_, rfl, .inr (.inr (encodeThreadChange_low 9 (by decide) (by decide) _ _ _))⟩
  · exact .inr ⟨_, rfl, .inl (encodeThreadChange_low 3 (by decide) (by decide) _ _ _)⟩
  · exact .inl rfl

/-- The same plan in both runs. -/
theorem next_same {R : List Stitch → List Stitch → Prop} (he : cfg'.change = cfg.change) (hp : cfg'.plan = cfg.plan)
    (hR : ∀ a b (e : Stitch), e.cmd % 256 = 3 ∨ e.cmd % 256 = 5 ∨ e.cmd % 256 = 9 → R a b → R (a ++ [e]) (b ++ [e])) (n : Int) :
    Option.Rel (fun c c' => (∀ x y a b, R a b → R (a ++ announce cfg n c x y) (b ++ announce cfg' n c' x y)) ∧
      ∀ l l' : List (Option Thread), l = l' → l ++ learned cfg c = l' ++ learned cfg' c') (dget n cfg.plan) (dget n cfg'.plan) := by
  rw [hp]
  cases dget n cfg.plan with
  | none => exact .none
  | some c =>
    refine .some ⟨fun x y a b h => ?_, fun l l' h => by rw [h]; unfold learned; rw [he]⟩
    have hc : announce cfg' n c x y = announce cfg n c x y := by unfold announce; rw [he]
    rw [hc]
    rcases announce_low cfg n c x y with e | ⟨e, h1, h2⟩
    · rw [e]; simpa using h
    · rw [h1]; exact hR _ _ _ h2 h

theorem both_self {α : Type} {P : α → α → Prop} {x : Except PyErr α} (h : ∀ a, P a a) : Both P x x := by
  cases x with
  | error e => exact .error e
  | ok a => exact .ok (h a)

/-- A relation of what is written, with the same threads. -/
def frame (R : List Stitch → List Stitch → Prop) (L Q C : Prop) : Frame := ⟨fun _ => R, fun l l' => l = l', L, Q, C⟩

theorem plain_low {e : Stitch} (h : Plain e.cmd) : e.low ≠ 5 ∧ e.low ≠ 9 ∧ e.low ≠ 0xB ∧ e.low ≠ 0xC := by
  simpa [Plain, Stitch.low] using h

/-- Two settings that have the same plan. -/
theorem encode_frame {R : List Stitch → List Stitch → Prop} {L Q C : Prop} {o o' : Settings} {lm : Libm} {threads : List Thread}
    {l : List Stitch} (hw : ∀ p, World (frame R L Q C) (mkCfg o lm l p) (mkCfg o' lm l p))
    (hp : buildPlan o' threads l = buildPlan o threads l) (hi : Sim (frame R L Q C) (initSt o lm threads) (initSt o' lm threads))
    (hQ : Q → ∀ a ∈ l, a.cmd % 256 ≠ 0xF5) (hC : C → ∀ a ∈ l, a.cmd % 256 ≠ 0xE2) :
    Both (fun p q => R p.1 q.1 ∧ q.2 = p.2) (Emb.encode o lm threads l) (Emb.encode o' lm threads l) := by
  refine (Setting.encode (F := frame R L Q C) ?_ hi hQ hC).mono fun p q h => ?_
  · rw [hp]; exact both_self hw
  · obtain ⟨⟨_, h1⟩, h2⟩ := h
    exact ⟨h1, h2.symm⟩

end Setting

open Setting

/-- SLOW or FAST. -/
def Stitch.speed (e : Stitch) : Bool := e.low == 0xB || e.low == 0xC

/-- **C109.** Without speeds, exactly the SLOW and FAST commands are missing. -/
theorem C109_speeds (o : Settings) (lm : Libm) (threads : List Thread) (l : List Stitch) :
    Both (fun p q => q.1 = p.1.filter (fun e => !e.speed) ∧ q.2 = p.2)
      (encode { o with writesSpeeds := true } lm threads l) (encode { o with writesSpeeds := false } lm threads l) := by
  refine encode_frame (R := fun a b => b = a.filter fun e => !e.speed) (L := False) (Q := False) (C := False) (fun p => ?_) rfl
    ⟨⟨[], _, _, _, _⟩, rfl, ⟨rfl, rfl, .inl rfl, .inl rfl, .inl rfl, rfl, False.elim, le_refl _⟩⟩ False.elim False.elim
  refine ⟨rfl, fun n a b e he h => ?_, .inl rfl, .inr ⟨rfl, rfl, fun n a b e he h => ?_⟩, False.elim, fun n _ =>
    next_same (R := fun a b => b = a.filter fun e => !e.speed) rfl rfl (fun a b e he h => ?_) n⟩
  · obtain ⟨_, _, h1, h2⟩ := plain_low he
    show b ++ [e] = (a ++ [e]).filter _
    rw [h]
    simp [Stitch.speed, h1, h2]
  · show b = (a ++ [e]).filter _
    rw [h]
    rcases he with he | he <;> simp [Stitch.speed, Stitch.low, he]
  · show b ++ [e] = (a ++ [e]).filter _
    rw [h]
    rcases he with he | he | he <;> simp [Stitch.speed, Stitch.low, he]

/-- The first list is the second with lock stitches in between. -/
inductive Tied : List Stitch → List Stitch → Prop where
  | nil : Tied [] []
  | same {a b : List Stitch} (e : Stitch) (h : Tied a b) : Tied (a ++ [e]) (b ++ [e])
  | lock {a b q : List Stitch} (hq : IsLock q) (h : Tied a b) : Tied (a ++ q) b

/-- **C109.** Ties only add locks of four stitches. -/
theorem C109_ties (o : Settings) (x y : Tie) (hon : o.tieOn ≠ .bool true ∧ o.tieOn ≠ .code 0xD1)
    (hoff : o.tieOff ≠ .bool true ∧ o.tieOff ≠ .code 0xD2) (lm : Libm) (threads : List Thread) (l : List Stitch) :
    Both (fun p q => Tied p.1 q.1 ∧ q.2 = p.2) (encode { o with tieOn := x, tieOff := y } lm threads l) (encode o lm threads l) := by
  have h1 : o.tieOnCode ≠ 0xD1 := by
    unfold Settings.tieOnCode
    rcases ho : o.tieOn with (_ | _) | c
    · decide
    · exact absurd ho hon.1
    · rintro rfl; exact hon.2 ho
  have h2 : o.tieOffCode ≠ 0xD2 := by
    unfold Settings.tieOffCode
    rcases ho : o.tieOff with (_ | _) | c
    · decide
    · exact absurd ho hoff.1
    · rintro rfl; exact hoff.2 ho
  refine encode_frame (R := Tied) (L := True) (Q := False) (C := False) (fun p => ?_) rfl
    ⟨⟨[], _, _, _, _⟩, rfl, ⟨.nil, rfl, .inr ⟨trivial, h1⟩, .inr ⟨trivial, h2⟩, .inl rfl, rfl, False.elim, le_refl _⟩⟩ False.elim False.elim
  exact ⟨rfl, fun n a b e he h => .same e h, .inl rfl, .inl ⟨rfl, fun n a b e he h => .same e h⟩, fun _ n a b q hq h => .lock hq h,
    fun n _ => next_same rfl rfl (fun a b e he h => .same e h) n⟩

/-- The first list is the second with commands of one kind in between. -/
inductive With (k : Int) : List Stitch → List Stitch → Prop where
  | nil : With k [] []
  | same {a b : List Stitch} (e : Stitch) (h : With k a b) : With k (a ++ [e]) (b ++ [e])
  | more {a b : List Stitch} (e : Stitch) (he : e.low = k) (h : With k a b) : With k (a ++ [e]) b

/-- No sequins are asked for. -/
def Settings.Bare (o : Settings) (l : List Stitch) : Prop :=
  o.sequinContingency ≠ some 0xF5 ∧ (o.sequinContingency = none → o.stripSequins = true) ∧ ∀ a ∈ l, a.low ≠ 0xF5

theorem Settings.Bare.sequin {o : Settings} {l : List Stitch} (h : o.Bare l) : o.sequin ≠ 0xF5 := by
  unfold Settings.sequin
  rcases ho : o.sequinContingency with _ | c
  · rw [h.2.1 ho]; decide
  · rintro rfl; exact h.1 ho

/-- **C109.** Full jumps only add JUMPs. -/
theorem C109_full_jump_partial (o : Settings) (lm : Libm) (threads : List Thread) (l : List Stitch) (hb : o.Bare l) :
    Both (fun p q => With 1 p.1 q.1 ∧ q.2 = p.2)
      (encode { o with fullJump := true } lm threads l) (encode { o with fullJump := false } lm threads l) := by
  refine encode_frame (R := With 1) (L := False) (Q := True) (C := False) (fun p => ?_) rfl
    ⟨⟨[], _, _, _, _⟩, rfl, ⟨.nil, rfl, .inl rfl, .inl rfl, .inl rfl, rfl, fun _ => ⟨rfl, hb.sequin⟩, le_refl _⟩⟩ (fun _ => hb.2.2) False.elim
  exact ⟨rfl, fun n a b e he h => .same e h, .inr ⟨trivial, rfl, rfl, fun n a b e he h => .more e he h⟩,
    .inl ⟨rfl, fun n a b e he h => .same e h⟩, False.elim, fun n _ => next_same rfl rfl (fun a b e he h => .same e h) n⟩

/-- **C109.** Explicit trims only add TRIMs. -/
theorem C109_explicit_trim_partial (o : Settings) (lm : Libm) (threads : List Thread) (l : List Stitch) (hb : o.Bare l)
    (hl : ∀ a ∈ l, a.low ≠ 0xE2) :
    Both (fun p q => With 2 p.1 q.1 ∧ q.2 = p.2)
      (encode { o with explicitTrim := true } lm threads l) (encode { o with explicitTrim := false } lm threads l) := by
  refine encode_frame (R := With 2) (L := False) (Q := True) (C := True) (fun p => ?_) rfl
    ⟨⟨[], _, _, _, _⟩, rfl, ⟨.nil, rfl, .inl rfl, .inl rfl,
      .inr ⟨trivial, trivial, rfl, rfl, fun n a b e he h => .more e he h⟩, rfl, fun _ => ⟨rfl, hb.sequin⟩, le_refl _⟩⟩
    (fun _ => hb.2.2) fun _ => hl
  exact ⟨rfl, fun n a b e he h => .same e h, .inl rfl, .inl ⟨rfl, fun n a b e he h => .same e h⟩, False.elim,
    fun n _ => next_same rfl rfl (fun a b e he h => .same e h) n⟩

namespace Setting

/-- Two plans with related changes at the same places. -/
theorem dget_rel {P : Full → Full → Prop} {p q : List (Int × Full)} (h : List.Forall₂ (fun a b => a.1 = b.1 ∧ P a.2 b.2) p q) (n : Int) :
    Option.Rel P (dget n p) (dget n q) := by
  induction h with
  | nil => exact .none
  | cons h _ ih =>
    rename_i a b l l' _
    rcases a with ⟨k, c⟩
    rcases b with ⟨k', c'⟩
    obtain ⟨rfl, h⟩ := h
    unfold dget
    split_ifs
    · exact .some h
    · exact ih

theorem fill_rel {threads threads' : List Thread} {change change' limit limit' : Int} (P : Full → Full → Prop) (Q : Change → Change → Prop)
    (hQ : ∀ c c', Q c c' → c.thread = c'.thread ∧ c.needle = c'.needle ∧ ∀ ti ni,
      Both P (fillOne threads change limit c ti ni) (fillOne threads' change' limit' c' ti ni))
    {p q : List (Int × Change)} (h : List.Forall₂ (fun a b => a.1 = b.1 ∧ Q a.2 b.2) p q) :
    ∀ ti ni, Both (List.Forall₂ fun a b => a.1 = b.1 ∧ P a.2 b.2) (fillPlan threads change limit p ti ni)
      (fillPlan threads' change' limit' q ti ni) := by
  induction h with
  | nil => exact fun _ _ => .ok .nil
  | cons h _ ih =>
    intro ti ni
    rename_i a b l l' _
    rcases a with ⟨k, c⟩
    rcases b with ⟨k', c'⟩
    obtain ⟨rfl, h⟩ := h
    obtain ⟨h1, h2, h3⟩ := hQ c c' h
    unfold fillPlan
    refine (h3 ti ni).bind fun f f' hf => ?_
    rw [h1, h2]
    exact (ih _ _).bind fun r r' hr => .ok (.cons ⟨rfl, hf⟩ hr)

theorem word_fields (c : Nat) (t n m : Option Int) : encodeThreadChange c t n none % 65536 = encodeThreadChange c t m none % 65536 := by
  unfold encodeThreadChange
  have : ∀ a b d : Nat, (a ||| (encField none <<< 24) ||| (b <<< 16) ||| d) % 65536 = (a % 65536 ||| d % 65536) := by
    intro a b d
    rw [show (65536 : Nat) = 2 ^ 16 from rfl, Nat.or_mod_two_pow, Nat.or_mod_two_pow, Nat.or_mod_two_pow, Nat.shiftLeft_eq b]
    simp [encField]
  have h := (this ((c : Int) % 256).toNat (encField n) (encField t <<< 8)).trans (this ((c : Int) % 256).toNat (encField m) (encField t <<< 8)).symm
  exact_mod_cast congrArg (Nat.cast (R := Int)) h

theorem word_mode (t n : Option Int) : encodeThreadChange 9 t n none = encodeThreadChange 5 t n none + 4 := by
  unfold encodeThreadChange
  have : ∀ a b d : Nat, a < 256 → (a ||| (encField none <<< 24) ||| (b <<< 16) ||| (d <<< 8)) = a + 256 * ((b <<< 8) ||| d) := by
    intro a b d h
    have e : (a ||| (encField none <<< 24) ||| (b <<< 16) ||| (d <<< 8)) = 2 ^ 8 * ((b <<< 8) ||| d) ||| a := by
      rw [Nat.mul_comm, ← Nat.shiftLeft_eq, Nat.shiftLeft_or_distrib, ← Nat.shiftLeft_add]
      simp only [encField, Nat.zero_shiftLeft, Nat.or_zero, Nat.reduceAdd]
      ac_rfl
    rw [e, ← Nat.two_pow_add_eq_or_of_lt h]
    ring
  rw [this _ _ _ (by decide), this _ _ _ (by decide)]
  push_cast
  ring

theorem fillOne_alike (threads threads' : List Thread) (change change' limit : Int) {c c' : Change} (h1 : c.thread = c'.thread)
    (h2 : c.needle = c'.needle) (ti ni : Int) :
    Both (fun f f' => f.thread = f'.thread ∧ f.needle = f'.needle) (fillOne threads change limit c ti ni)
      (fillOne threads' change' limit c' ti ni) := by
  unfold fillOne
  rw [h1, h2]
  cases c'.needle with
  | some n => exact .ok ⟨rfl, rfl⟩
  | none =>
    cases autoNeedle limit ni with
    | error e => exact .error e
    | ok n => exact .ok ⟨rfl, rfl⟩

theorem upsert_rel {P : Change → Change → Prop} {f g : Change → Change} (h0 : P {} {}) (hf : ∀ c c', P c c' → P (f c) (g c')) (k : Int)
    {p q : List (Int × Change)} (h : List.Forall₂ (fun a b => a.1 = b.1 ∧ P a.2 b.2) p q) :
    List.Forall₂ (fun a b => a.1 = b.1 ∧ P a.2 b.2) (upsert k {} f p) (upsert k {} g q) := by
  induction h with
  | nil => exact .cons ⟨rfl, hf _ _ h0⟩ .nil
  | cons h hr ih =>
    rename_i a b l l'
    rcases a with ⟨k1, c⟩
    rcases b with ⟨k2, c'⟩
    obtain ⟨rfl, h⟩ := h
    unfold upsert
    split_ifs
    · exact .cons ⟨rfl, hf _ _ h⟩ hr
    · exact .cons ⟨rfl, h⟩ ih

/-- The same change, apart from the threads themselves. -/
def Alike (c c' : Change) : Prop := c.cmd = c'.cmd ∧ c.thread = c'.thread ∧ c.needle = c'.needle

theorem record_alike (threads threads' : List Thread) (e : Event) {c c' : Change} (h : Alike c c') :
    Alike (c.record threads e) (c'.record threads' e) := by
  obtain ⟨h1, h2, h3⟩ := h
  unfold Change.record Alike
  rcases e.thread with _ | t <;> rcases e.needle with _ | n <;> split_ifs <;> simp [*]

theorem raw_alike (threads threads' : List Thread) (l : List Stitch) :
    List.Forall₂ (fun a b => a.1 = b.1 ∧ Alike a.2 b.2) (rawPlan threads l) (rawPlan threads' l) := by
  have : ∀ (es : List Event) (p q : List (Int × Change) × Int), List.Forall₂ (fun a b => a.1 = b.1 ∧ Alike a.2 b.2) p.1 q.1 → p.2 = q.2 →
      List.Forall₂ (fun a b => a.1 = b.1 ∧ Alike a.2 b.2) (es.foldl (planEvent threads) p).1 (es.foldl (planEvent threads') q).1 := by
    intro es
    induction es with
    | nil => exact fun p q h _ => h
    | cons e es ih =>
      rintro ⟨p, i⟩ ⟨q, j⟩ h rfl
      refine ih _ _ ?_ ?_
      · unfold planEvent
        simp only
        have := fun k => upsert_rel (P := Alike) ⟨rfl, rfl, rfl⟩ (fun c c' => record_alike threads threads' e) k h
        split_ifs
        · cases e.order <;> exact this _
        all_goals exact this _
      · unfold planEvent
        simp only
        split_ifs
        · cases e.order <;> rfl
        all_goals rfl
  exact this _ _ _ (.cons ⟨rfl, rfl, rfl, rfl⟩ .nil) rfl

end Setting

/-- **C109.** The thread list has no influence on the stitches. -/
theorem C109_threads (o : Settings) (lm : Libm) (threads threads' : List Thread) (l : List Stitch) :
    Both (fun p q => p.1 = q.1) (encode o lm threads l) (encode o lm threads' l) := by
  let F : Frame := ⟨fun _ a b => a = b, fun _ _ => True, False, False, False⟩
  refine (Setting.encode (F := F) ?_ ⟨⟨[], _, _, _, _⟩, rfl, ⟨rfl, trivial, .inl rfl, .inl rfl, .inl rfl, rfl, False.elim, le_refl _⟩⟩
    False.elim False.elim).mono fun p q h => h.1.choose_spec
  refine (fill_rel (fun f f' => f.thread = f'.thread ∧ f.needle = f'.needle) Alike (fun c c' h => ⟨h.2.1, h.2.2, fun ti ni => ?_⟩)
    (raw_alike threads threads' l) 0 1).mono fun p p' h => ?_
  · exact fillOne_alike _ _ _ _ _ h.2.1 h.2.2 _ _
  · have hs : ∀ (a b : List Stitch) (q : List Stitch), a = b → a ++ q = b ++ q := fun a b q h => by rw [h]
    refine ⟨rfl, fun n a b e _ h => hs _ _ _ h, .inl rfl, .inl ⟨rfl, fun n a b e _ h => hs _ _ _ h⟩, False.elim, fun n _ => ?_⟩
    have hd := dget_rel (P := fun f f' => f.thread = f'.thread ∧ f.needle = f'.needle) h n
    show Option.Rel _ (dget n p) (dget n p')
    revert hd
    generalize dget n p = u
    generalize dget n p' = v
    intro hd
    cases hd with
    | none => exact .none
    | some hc =>
      refine .some ⟨fun x y a b h => ?_, fun _ _ _ => trivial⟩
      unfold announce
      rw [hc.1, hc.2]
      exact hs _ _ _ h

/-- The same commands at the same places; changes have the same thread, but may have different needles. -/
def SameButNeedle (e f : Stitch) : Prop :=
  e.x = f.x ∧ e.y = f.y ∧ e.cmd % 65536 = f.cmd % 65536 ∧ (e.low ∉ [3, 5, 9] → e = f)

/-- **C109.** The number of needles has influence on the needles only. -/
theorem C109_needles (o : Settings) (n m : Int) (hn : 1 < n) (hm : 1 < m) (lm : Libm) (threads : List Thread) (l : List Stitch) :
    Both (fun p q => List.Forall₂ SameButNeedle p.1 q.1 ∧ q.2 = p.2)
      (encode { o with needleCount := n } lm threads l) (encode { o with needleCount := m } lm threads l) := by
  have hcc : ∀ k : Int, 1 < k → { o with needleCount := k }.changeCommand = o.threadChange := by
    intro k hk
    unfold Settings.changeCommand
    rw [if_neg (by show ¬ (k ≤ 1 ∧ _); omega)]
  let F : Frame := ⟨fun _ a b => List.Forall₂ SameButNeedle a b, fun l l' => l = l', False, False, False⟩
  have hi : (initSt { o with needleCount := m } lm threads) = initSt { o with needleCount := n } lm threads := by
    unfold initSt
    rw [hcc n hn, hcc m hm]
    rfl
  refine (Setting.encode (F := F) (o := { o with needleCount := n }) (o' := { o with needleCount := m }) (lm := lm) (threads := threads)
    (threads' := threads) (l := l) ?_ ⟨⟨[], (initSt { o with needleCount := n } lm threads).threads, o.tieOnCode, o.tieOffCode, o.explicitTrim⟩, hi, ⟨.nil, rfl, .inl rfl, .inl rfl, .inl rfl, rfl, False.elim, le_refl _⟩⟩
    False.elim False.elim).mono fun p q h => ⟨h.1.choose_spec, h.2.symm⟩
  refine (fill_rel (fun f f' => f.thread = f'.thread ∧ f.thr = f'.thr) (fun c c' => c = c') (fun c c' h => ?_)
    (List.forall₂_same.mpr fun a _ => ⟨rfl, rfl⟩) 0 1).mono fun p p' h => ?_
  · subst h
    refine ⟨rfl, rfl, fun ti ni => ?_⟩
    unfold fillOne
    have ha : ∀ k : Int, 1 < k → ∃ v, autoNeedle k ni = .ok v := by
      intro k hk
      unfold autoNeedle
      split_ifs
      · omega
      · exact ⟨_, rfl⟩
      · exact ⟨_, rfl⟩
    obtain ⟨v, hv⟩ := ha n hn
    obtain ⟨v', hv'⟩ := ha m hm
    cases c.needle with
    | some v => exact .ok ⟨rfl, rfl⟩
    | none =>
      show Both _ (autoNeedle n ni >>= _) (autoNeedle m ni >>= _)
      rw [hv, hv']
      exact .ok ⟨rfl, rfl⟩
  · have hs : ∀ (a b : List Stitch) (e f : Stitch), SameButNeedle e f → List.Forall₂ SameButNeedle a b →
        List.Forall₂ SameButNeedle (a ++ [e]) (b ++ [f]) := fun a b e f h hr => List.rel_append hr (.cons h .nil)
    have hr : ∀ e : Stitch, SameButNeedle e e := fun e => ⟨rfl, rfl, rfl, fun _ => rfl⟩
    have hc : (mkCfg { o with needleCount := m } lm l p').change = (mkCfg { o with needleCount := n } lm l p).change := by
      show Settings.changeCommand _ = Settings.changeCommand _
      rw [hcc n hn, hcc m hm]
    refine ⟨?_, fun n a b e _ h => hs _ _ _ _ (hr e) h, .inl rfl, .inl ⟨rfl, fun n a b e _ h => hs _ _ _ _ (hr e) h⟩, False.elim, fun k _ => ?_⟩
    · rfl
    have hd := dget_rel (P := fun f f' => f.thread = f'.thread ∧ f.thr = f'.thr) h k
    show Option.Rel _ (dget k p) (dget k p')
    revert hd
    generalize dget k p = u
    generalize dget k p' = v
    intro hd
    cases hd with
    | none => exact .none
    | some hf =>
      rename_i c c'
      have hw : ∀ (w : Nat) (x y : ℚ), w ∈ [3, 5, 9] → SameButNeedle ⟨x, y, encodeThreadChange w (some c'.thread) (some c.needle) none⟩
          ⟨x, y, encodeThreadChange w (some c'.thread) (some c'.needle) none⟩ := by
        intro w x y hw
        refine ⟨rfl, rfl, word_fields w _ _ _, fun hl => ?_⟩
        refine absurd ?_ hl
        unfold Stitch.low
        simp only
        rw [encodeThreadChange_low (w : Int) (by omega) (by simp at hw; omega)]
        simp at hw ⊢
        omega
      refine .some ⟨fun x y a b h => ?_, fun l l' h => ?_⟩
      · unfold announce
        rw [hc, hf.1]
        simp only
        split_ifs
        · exact hs _ _ _ _ (hw 5 x y (by decide)) h
        · simpa using h
        · exact hs _ _ _ _ (hw 9 x y (by decide)) h
        · exact hs _ _ _ _ (hw 3 x y (by decide)) h
        · simpa using h
      · show l ++ _ = l' ++ _
        rw [show l = l' from h]
        unfold learned
        rw [hc, hf.2]

/-- A choice of needle as a change of colour with the same thread, needle and place. -/
def Stitch.asChange (e : Stitch) : Stitch := if e.low = 9 then { e with cmd := e.cmd - 4 } else e

/-- The first choice of needle is left out, the others are changes of colour. -/
def ByColour (a b : List Stitch) : Prop :=
  (b = a ∧ ∀ e ∈ a, e.low ≠ 9) ∨
    ∃ (before : List Stitch) (first : Stitch) (after : List Stitch), a = before ++ first :: after ∧ (∀ e ∈ before, e.low ≠ 9) ∧ first.low = 9 ∧
      b = before ++ after.map Stitch.asChange

/-- **C109.** Choosing needles or changing colours: the same commands, apart from the choice of the first needle. -/
theorem C109_mode (o : Settings) (hn : 1 < o.needleCount) (lm : Libm) (threads : List Thread) (l : List Stitch) :
    Both (fun p q => ByColour p.1 q.1)
      (encode { o with threadChange := NEEDLE_SET } lm threads l) (encode { o with threadChange := COLOR_CHANGE } lm threads l) := by
  have hcc : ∀ k : Int, { o with threadChange := k }.changeCommand = k := by
    intro k
    unfold Settings.changeCommand
    rw [if_neg (by show ¬ (o.needleCount ≤ 1 ∧ _); omega)]
  let R : Int → List Stitch → List Stitch → Prop := fun n a b =>
    (n < 0 ∧ b = a ∧ ∀ e ∈ a, e.low ≠ 9) ∨
      (0 ≤ n ∧ ∃ (before : List Stitch) (first : Stitch) (after : List Stitch), a = before ++ first :: after ∧ (∀ e ∈ before, e.low ≠ 9) ∧
        first.low = 9 ∧ b = before ++ after.map Stitch.asChange)
  let F : Frame := ⟨R, fun _ _ => True, False, False, False⟩
  have hsnoc : ∀ n a b (e : Stitch), e.low ≠ 9 → R n a b → R n (a ++ [e]) (b ++ [e]) := by
    rintro n a b e he (⟨h0, rfl, h1⟩ | ⟨h0, pre, f, post, rfl, h1, h2, rfl⟩)
    · refine .inl ⟨h0, rfl, fun q hq => ?_⟩
      rcases List.mem_append.mp hq with h | h
      · exact h1 q h
      · rw [List.mem_singleton.mp h]; exact he
    · refine .inr ⟨h0, pre, f, post ++ [e], by simp, h1, h2, ?_⟩
      simp [Stitch.asChange, he]
  refine (Setting.encode (F := F) (o := { o with threadChange := NEEDLE_SET }) (o' := { o with threadChange := COLOR_CHANGE }) (lm := lm)
    (threads := threads) (threads' := threads) (l := l) ?_ ⟨⟨[], [], o.tieOnCode, o.tieOffCode, o.explicitTrim⟩, ?_, ⟨.inl ⟨by show (-1 : Int) < 0; decide, rfl, by simp [initSt]⟩, trivial, .inl rfl, .inl rfl, .inl rfl, rfl, False.elim, le_refl _⟩⟩
    False.elim False.elim).mono fun p q h => ?_
  · refine (fill_rel (fun f f' => f.thread = f'.thread ∧ f.needle = f'.needle) (fun c c' => c = c') (fun c c' h => ?_)
      (List.forall₂_same.mpr fun a _ => ⟨rfl, rfl⟩) 0 1).mono fun p p' h => ?_
    · subst h
      exact ⟨rfl, rfl, fun ti ni => fillOne_alike _ _ _ _ _ rfl rfl _ _⟩
    · refine ⟨rfl, fun n a b e he h => hsnoc n a b e (plain_low he).2.1 h, .inl rfl,
        .inl ⟨rfl, fun n a b e he h => hsnoc n a b e (by rcases he with he | he <;> simp [Stitch.low, he]) h⟩, False.elim, fun k hk => ?_⟩
      have hd := dget_rel (P := fun f f' => f.thread = f'.thread ∧ f.needle = f'.needle) h k
      show Option.Rel _ (dget k p) (dget k p')
      revert hd
      generalize dget k p = u
      generalize dget k p' = v
      intro hd
      cases hd with
      | none => exact .none
      | some hf =>
        rename_i c c'
        refine .some ⟨fun x y a b h => ?_, fun _ _ _ => trivial⟩
        have h1 : announce (mkCfg { o with threadChange := NEEDLE_SET } lm l p) k c x y =
            [⟨x, y, encodeThreadChange 9 (some c.thread) (some c.needle) none⟩] := by
          unfold announce
          rw [show (mkCfg { o with threadChange := NEEDLE_SET } lm l p).change = NEEDLE_SET from hcc _]
          rfl
        have h2 : announce (mkCfg { o with threadChange := COLOR_CHANGE } lm l p') k c' x y =
            if k ≠ 0 then [⟨x, y, encodeThreadChange 5 (some c.thread) (some c.needle) none⟩] else [] := by
          unfold announce
          rw [show (mkCfg { o with threadChange := COLOR_CHANGE } lm l p').change = COLOR_CHANGE from hcc _, hf.1, hf.2]
          rfl
        have h9 : (⟨x, y, encodeThreadChange 9 (some c.thread) (some c.needle) none⟩ : Stitch).low = 9 :=
          encodeThreadChange_low 9 (by decide) (by decide) _ _ _
        rw [h1, h2]
        rcases h with ⟨h0, rfl, h1⟩ | ⟨h0, pre, f, post, rfl, h1, h2, rfl⟩
        · rw [if_neg (by omega)]
          exact .inr ⟨hk, b, _, [], rfl, h1, h9, by simp⟩
        · rw [if_pos (by omega)]
          refine .inr ⟨hk, pre, f, post ++ [_], by simp; rfl, h1, h2, ?_⟩
          rw [List.map_append, ← List.append_assoc]
          refine congrArg _ ?_
          simp only [List.map_cons, List.map_nil, Stitch.asChange]
          rw [if_pos h9, word_mode]
          simp
  · unfold initSt
    rw [hcc]
    rfl
  · obtain ⟨⟨n, h⟩, _⟩ := h
    rcases h with ⟨_, h⟩ | ⟨_, h⟩
    · exact .inl h
    · exact .inr h

/-- What `With` says: nothing of the second list is missing in the first, and without the commands of this kind they are the same. -/
theorem With.spec {k : Int} {a b : List Stitch} (h : With k a b) :
    b.Sublist a ∧ a.filter (fun e => e.low ≠ k) = b.filter (fun e => e.low ≠ k) := by
  induction h with
  | nil => exact ⟨.refl _, rfl⟩
  | same e _ ih => exact ⟨ih.1.append (.refl _), by rw [List.filter_append, List.filter_append, ih.2]⟩
  | more e he _ ih => exact ⟨ih.1.trans (List.sublist_append_left _ _), by rw [List.filter_append, ih.2]; simp [he]⟩

/-- With colour breaks (the jump is before the trim in one list, after it in the other) this does not hold for explicit trims. -/
theorem C109_not_explicit_trim : ∃ l : List Stitch, ∃ a b : List Stitch × List (Option Thread),
    encode { explicitTrim := true } demoLm [] l = .ok a ∧ encode { explicitTrim := false } demoLm [] l = .ok b ∧ ¬ b.1.Sublist a.1 :=
  ⟨[⟨1, 0, 0⟩, ⟨2, 0, 0⟩, ⟨2, 0, 0xE2⟩, ⟨9, 0, 1⟩, ⟨9, 0, 2⟩, ⟨9, 0, 4⟩],
    ([⟨1, 0, 0⟩, ⟨2, 0, 0⟩, ⟨2, 0, 2⟩, ⟨9, 0, 1⟩, ⟨9, 0, 4⟩], [none]),
    ([⟨1, 0, 0⟩, ⟨2, 0, 0⟩, ⟨9, 0, 1⟩, ⟨9, 0, 2⟩, ⟨9, 0, 4⟩], [none]), by decide +kernel, by decide +kernel, by decide +kernel⟩

/-- With sequins (a jump ends the sequin mode) it does not hold for full jumps. -/
theorem C109_not_full_jump : ∃ l : List Stitch, ∃ a b : List Stitch × List (Option Thread),
    encode { fullJump := true, stripSequins := false } demoLm [] l = .ok a ∧
      encode { fullJump := false, stripSequins := false } demoLm [] l = .ok b ∧
      (a.1.filter fun e => e.low ≠ 1) ≠ b.1.filter fun e => e.low ≠ 1 :=
  ⟨[⟨1, 0, 0⟩, ⟨2, 0, 7⟩, ⟨2, 0, 5⟩, ⟨9, 0, 0⟩, ⟨9, 0, 4⟩], 
    ([⟨1, 0, 1⟩, ⟨1, 0, 0⟩, ⟨1, 0, 6⟩, ⟨2, 0, 7⟩, ⟨2, 0, 197125⟩, ⟨2, 0, 6⟩, ⟨9, 0, 1⟩, ⟨9, 0, 0⟩, ⟨9, 0, 4⟩], [none, none]),
    ([⟨1, 0, 0⟩, ⟨1, 0, 6⟩, ⟨2, 0, 7⟩, ⟨2, 0, 197125⟩, ⟨9, 0, 0⟩, ⟨9, 0, 4⟩], [none, none]),
    by decide +kernel, by decide +kernel, by decide +kernel⟩

/-! Beside them: two colours, a trim, ties, a speed. -/

def settingDemo : List Stitch := [⟨1, 0, 0⟩, ⟨20, 0, 0⟩, ⟨20, 0, 2⟩, ⟨30, 0, 0⟩, ⟨30, 0, 0xB⟩, ⟨40, 0, 0⟩, ⟨40, 0, 5⟩, ⟨50, 0, 0⟩, ⟨60, 0, 0⟩, ⟨60, 0, 4⟩]

/-- As it is normalized by default. -/
def settingOut : List Stitch := [⟨1, 0, 0⟩, ⟨20, 0, 0⟩, ⟨20, 0, 2⟩, ⟨30, 0, 0⟩, ⟨30, 0, 0xB⟩, ⟨40, 0, 0⟩, ⟨40, 0, 0x30205⟩, ⟨50, 0, 0⟩, ⟨60, 0, 0⟩, ⟨60, 0, 4⟩]

example : encode {} demoLm [] settingDemo = .ok (settingOut, [none, none]) := by decide +kernel

example : encode { writesSpeeds := false } demoLm [] settingDemo = .ok (settingOut.filter (·.low ≠ 0xB), [none, none]) := by decide +kernel

example : encode { tieOn := .bool true } demoLm [] settingDemo = .ok
    ([⟨1, 0, 0⟩] ++ [⟨727 / 100, 0, 0⟩, ⟨1354 / 100, 0, 0⟩, ⟨727 / 100, 0, 0⟩, ⟨1, 0, 0⟩] ++ [⟨20, 0, 0⟩, ⟨20, 0, 2⟩, ⟨30, 0, 0⟩, ⟨30, 0, 0xB⟩,
      ⟨40, 0, 0⟩, ⟨40, 0, 0x30205⟩, ⟨50, 0, 0⟩] ++ [⟨533 / 10, 0, 0⟩, ⟨566 / 10, 0, 0⟩, ⟨533 / 10, 0, 0⟩, ⟨50, 0, 0⟩] ++
      [⟨60, 0, 0⟩, ⟨60, 0, 4⟩], [none, none]) := by decide +kernel

example : encode { fullJump := true } demoLm [] settingDemo = .ok
    ([⟨1, 0, 1⟩, ⟨1, 0, 0⟩, ⟨20, 0, 0⟩, ⟨20, 0, 2⟩, ⟨30, 0, 1⟩, ⟨30, 0, 0⟩, ⟨30, 0, 0xB⟩, ⟨40, 0, 0⟩, ⟨40, 0, 0x30205⟩, ⟨50, 0, 1⟩, ⟨50, 0, 0⟩,
      ⟨60, 0, 0⟩, ⟨60, 0, 4⟩], [none, none]) := by decide +kernel

example : encode { explicitTrim := true } demoLm [] settingDemo = .ok
    ([⟨1, 0, 0⟩, ⟨20, 0, 0⟩, ⟨20, 0, 2⟩, ⟨30, 0, 0⟩, ⟨30, 0, 0xB⟩, ⟨40, 0, 0⟩, ⟨40, 0, 2⟩, ⟨40, 0, 0x30205⟩, ⟨50, 0, 0⟩,
      ⟨60, 0, 0⟩, ⟨60, 0, 4⟩], [none, none]) := by decide +kernel

/-- The needles 1 and 2, then 3 (with two needles: 1) would follow. -/
example : encode { threadChange := NEEDLE_SET } demoLm [] settingDemo = .ok
    ([⟨0, 0, 0x20109⟩, ⟨1, 0, 0⟩, ⟨20, 0, 0⟩, ⟨20, 0, 2⟩, ⟨30, 0, 0⟩, ⟨30, 0, 0xB⟩, ⟨40, 0, 0⟩, ⟨40, 0, 0x30209⟩, ⟨50, 0, 0⟩,
      ⟨60, 0, 0⟩, ⟨60, 0, 4⟩], []) := by decide +kernel

example : Settings.Bare {} settingDemo ∧ (∀ a ∈ settingDemo, a.low ≠ 0xE2) ∧ (1 : Int) < ({} : Settings).needleCount := by
  unfold Settings.Bare; decide +kernel

end Emb
