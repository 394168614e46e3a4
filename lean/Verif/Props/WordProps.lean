import Verif.Props.SettingProps
import Verif.PlanLemmas
import Verif.Format

/-!
# C123: which thread or needle a change asks for moves no stitch

Two runs of the encoder over designs that have the same commands at the same places, but in which the changes ask for different
threads and needles, are compared command by command.
-/

namespace Emb

/-! ## Specification -/

/-- The same command at the same place. -/
def SameCommand (a b : Stitch) : Prop := a.x = b.x ∧ a.y = b.y ∧ a.low = b.low

/-- The same command at the same place; what it asks for differs only if it is a change (COLOR_CHANGE, NEEDLE_SET, COLOR_BREAK) or,
as to thread and needle, a SET_CHANGE_SEQUENCE. -/
def SameButAsked (a b : Stitch) : Prop :=
  SameCommand a b ∧ (a.low ∉ [5, 9, 0xE2, 0x10] → a.cmd = b.cmd) ∧
    (a.low = 0x10 → a.cmd / 16777216 % 256 = b.cmd / 16777216 % 256)

namespace Word

open Setting

/-- The part of the state in which the two runs may differ. -/
structure Part where
  out : List Stitch
  threads : List (Option Thread)
  high : Int

/-- The state of the second run. -/
def dress (k : Part) (s : St) : St := { s with out := k.out, threads := k.threads, high := k.high }

/-- `W`: words of commands other than changes are the same. `N`: the thread lists are as long at the start. -/
structure Frame where
  W : Prop
  N : Prop

/-- The two states belong together. -/
structure Rel (F : Frame) (out : List Stitch) (threads : List (Option Thread)) (on off high : Int) (k : Part) : Prop where
  out : List.Forall₂ SameCommand out k.out
  high : high % 256 = 0
  high' : k.high % 256 = 0
  ties : F.W ∨ (on ≠ 0xD1 ∧ off ≠ 0xD2)
  len : F.N → threads.length = k.threads.length

/-- The second run is in the state of the first, apart from what may differ. -/
def Sim (F : Frame) (s t : St) : Prop :=
  ∃ k, t = dress k s ∧ Rel F s.out s.threads s.tieOnC s.tieOffC s.high k

/-- The configurations of the two runs. -/
structure World (F : Frame) (cfg cfg' : Cfg) : Prop where
  same : cfg' = { cfg with source := cfg'.source, plan := cfg'.plan }
  src : List.Forall₂ SameCommand cfg.source cfg'.source
  words : F.W → List.Forall₂ SameButAsked cfg.source cfg'.source
  next : ∀ n, Option.Rel (fun _ _ => True) (dget n cfg.plan) (dget n cfg'.plan)

variable {F : Frame} {cfg cfg' : Cfg} {s t : St}

theorem snoc {a b : List Stitch} (h : List.Forall₂ SameCommand a b) (x y : ℚ) {c v v' : Int} (hv : v % 256 = 0) (hv' : v' % 256 = 0) :
    List.Forall₂ SameCommand (a ++ [⟨x, y, c + v⟩]) (b ++ [⟨x, y, c + v'⟩]) :=
  List.rel_append h (.cons ⟨rfl, rfl, by simp only [Stitch.low]; omega⟩ .nil)

theorem add (w : World F cfg cfg') (h : Sim F s t) {c : Int} : Sim F (s.add c) (t.add c) := by
  obtain ⟨k, rfl, h⟩ := h
  exact ⟨{ k with out := k.out ++ [⟨s.nx, s.ny, c + k.high⟩] }, rfl, { h with out := snoc h.out _ _ h.high h.high' }⟩

theorem moveTo (w : World F cfg cfg') (h : Sim F s t) {c : Int} (x y : ℚ) :
    Sim F (s.moveTo c x y) (t.moveTo c x y) := by
  obtain ⟨k, rfl, h⟩ := h
  exact ⟨{ k with out := k.out ++ [⟨x, y, c + k.high⟩] }, rfl, { h with out := snoc h.out _ _ h.high h.high' }⟩

theorem trimmed (h : Sim F s t) (b : Bool) : Sim F { s with trimmed := b } { t with trimmed := b } := by
  obtain ⟨k, rfl, h⟩ := h
  exact ⟨k, rfl, h⟩

theorem jumping (h : Sim F s t) (b : Bool) : Sim F { s with jumping := b } { t with jumping := b } := by
  obtain ⟨k, rfl, h⟩ := h
  exact ⟨k, rfl, h⟩

theorem here (h : Sim F s t) (x y : ℚ) : Sim F { s with nx := x, ny := y } { t with nx := x, ny := y } := by
  obtain ⟨k, rfl, h⟩ := h
  exact ⟨k, rfl, h⟩

theorem flags (h : Sim F s t) (v v' : Int) : Sim F { s with high := flagsOf v } { t with high := flagsOf v' } := by
  obtain ⟨k, rfl, h⟩ := h
  exact ⟨{ k with high := flagsOf v' }, rfl, { h with high := flagsOf_low v, high' := flagsOf_low v' }⟩

theorem announce_same {change : Int} (hc : cfg.change = change) (hc' : cfg'.change = change) (n : Int) (c c' : Full) (x y : ℚ) :
    List.Forall₂ SameCommand (announce cfg n c x y) (announce cfg' n c' x y) := by
  unfold announce
  rw [hc, hc']
  simp only
  split_ifs
  · exact .cons ⟨rfl, rfl, (encodeThreadChange_low 5 (by decide) (by decide) _ _ _).trans
      (encodeThreadChange_low 5 (by decide) (by decide) _ _ _).symm⟩ .nil
  · exact .nil
  · exact .cons ⟨rfl, rfl, (encodeThreadChange_low 9 (by decide) (by decide) _ _ _).trans
      (encodeThreadChange_low 9 (by decide) (by decide) _ _ _).symm⟩ .nil
  · exact .cons ⟨rfl, rfl, (encodeThreadChange_low 3 (by decide) (by decide) _ _ _).trans
      (encodeThreadChange_low 3 (by decide) (by decide) _ _ _).symm⟩ .nil
  · exact .nil

theorem learned_same {change : Int} (hc : cfg.change = change) (hc' : cfg'.change = change) (c c' : Full) :
    (learned cfg c).length = (learned cfg' c').length := by
  unfold learned
  rw [hc, hc']
  split_ifs <;> rfl

theorem nextChange (w : World F cfg cfg') (h : Sim F s t) : Both (Sim F) (Emb.nextChange cfg s) (Emb.nextChange cfg' t) := by
  obtain ⟨k, rfl, h⟩ := h
  rw [nextChange_eq, nextChange_eq]
  have hn := w.next (s.order + 1)
  have he : cfg'.change = cfg.change := by rw [w.same]
  rw [show (dress k s).order = s.order from rfl]
  revert hn
  generalize dget (s.order + 1) cfg.plan = a
  generalize dget (s.order + 1) cfg'.plan = b
  intro hn
  cases hn with
  | none => exact .error _
  | some hc =>
    rename_i c c'
    refine .ok ⟨{ k with
      out := k.out ++ announce cfg' (s.order + 1) c' s.nx s.ny, threads := k.threads ++ learned cfg' c' }, rfl, { h with out := ?_, len := ?_ }⟩
    · exact List.rel_append h.out (announce_same rfl he _ _ _ _ _)
    · intro hN
      simp only [changed, List.length_append, h.len hN, learned_same (cfg := cfg) (cfg' := cfg') rfl he c c']

theorem declare (w : World F cfg cfg') (h : Sim F s t) : Both (Sim F) (declareNotTrimmed cfg s) (declareNotTrimmed cfg' t) := by
  unfold declareNotTrimmed
  have ho : t.order = s.order := by obtain ⟨k, rfl, _⟩ := h; rfl
  rw [ho]
  refine Both.bind (Both.ite (fun _ => nextChange w h) fun _ => .ok h) fun a b hab => .ok (trimmed hab false)

theorem toggle (w : World F cfg cfg') (h : Sim F s t) : Sim F (toggleSequins s) (toggleSequins t) := by
  unfold toggleSequins
  have hc : t.sequinC = s.sequinC := by obtain ⟨k, rfl, _⟩ := h; rfl
  rw [hc]
  split_ifs with hu
  · have h' := add w h (c := SEQUIN_MODE)
    obtain ⟨k, hk, h'⟩ := h'
    refine ⟨k, ?_, h'⟩
    have : t.sequinMode = s.sequinMode := by obtain ⟨k, rfl, _⟩ := h; rfl
    rw [hk, this]; rfl
  · exact h

theorem off (w : World F cfg cfg') (h : Sim F s t) :
    Sim F (if s.sequinMode then toggleSequins s else s) (if t.sequinMode then toggleSequins t else t) := by
  have hc : t.sequinMode = s.sequinMode := by obtain ⟨k, rfl, _⟩ := h; rfl
  rw [hc]
  split_ifs
  · exact toggle w h
  · exact h

theorem trimHere (w : World F cfg cfg') (h : Sim F s t) : Sim F (Emb.trimHere s) (Emb.trimHere t) :=
  trimmed (add w (off w h) (c := TRIM)) true

theorem gapLoop (w : World F cfg cfg') (data : Int) (sx sy : ℚ) :
    ∀ (n : Nat) {s t : St}, Sim F s t → Sim F (Emb.gapLoop data sx sy n s) (Emb.gapLoop data sx sy n t)
  | 0, _, _, h => h
  | n + 1, s, t, h => by
    unfold Emb.gapLoop
    have hx : t.nx = s.nx := by obtain ⟨k, rfl, _⟩ := h; rfl
    have hy : t.ny = s.ny := by obtain ⟨k, rfl, _⟩ := h; rfl
    rw [hx, hy]
    exact gapLoop w data sx sy n (moveTo w h (c := data) _ _)

theorem gap (w : World F cfg cfg') (h : Sim F s t) (x y : ℚ) {data : Int}
    (limit : Option ℚ) : Both (Sim F) (Emb.gap s x y limit data) (Emb.gap t x y limit data) := by
  cases limit with
  | none => exact .ok h
  | some m =>
    have hx : t.nx = s.nx := by obtain ⟨k, rfl, _⟩ := h; rfl
    have hy : t.ny = s.ny := by obtain ⟨k, rfl, _⟩ := h; rfl
    have hm : t.sequinMode = s.sequinMode := by obtain ⟨k, rfl, _⟩ := h; rfl
    unfold Emb.gap
    simp only [hx, hy]
    have ht : Sim F (if data = JUMP ∧ s.sequinMode then toggleSequins s else s) (if data = JUMP ∧ t.sequinMode then toggleSequins t else t) := by
      rw [hm]
      split_ifs
      · exact toggle w h
      · exact h
    revert ht
    generalize (if data = JUMP ∧ s.sequinMode then toggleSequins s else s) = s'
    generalize (if data = JUMP ∧ t.sequinMode then toggleSequins t else t) = t'
    generalize (if ceilQ |(x - s.nx) / m| > ceilQ |(y - s.ny) / m| then ceilQ |(x - s.nx) / m| else ceilQ |(y - s.ny) / m|) = n
    intro ht
    exact .ite (fun _ => .ite (fun _ => .error _) fun _ => .ite (fun _ => .error _) fun _ => .ok (gapLoop w data _ _ _ ht))
      fun _ => .ok h

theorem jumpAt (w : World F cfg cfg') (h : Sim F s t) (x y : ℚ) : Sim F (Emb.jumpAt s x y) (Emb.jumpAt t x y) :=
  moveTo w (off w h) (c := JUMP) x y

theorem jumpTo (w : World F cfg cfg') (h : Sim F s t) (x y : ℚ) : Both (Sim F) (Emb.jumpTo s x y) (Emb.jumpTo t x y) := by
  unfold Emb.jumpTo
  rw [show t.maxJump = s.maxJump by obtain ⟨k, rfl, _⟩ := h; rfl]
  exact (gap w h x y (data := JUMP) _).bind fun a b hab => .ok (jumpAt w hab x y)

theorem stitchAt (w : World F cfg cfg') (h : Sim F s t) (x y : ℚ) : Sim F (Emb.stitchAt s x y) (Emb.stitchAt t x y) :=
  moveTo w h (c := STITCH) x y

theorem sewTo (w : World F cfg cfg') (h : Sim F s t) (x y : ℚ) : Both (Sim F) (Emb.sewTo s x y) (Emb.sewTo t x y) := by
  unfold Emb.sewTo
  rw [show t.maxStitch = s.maxStitch by obtain ⟨k, rfl, _⟩ := h; rfl]
  exact (gap w h x y (data := STITCH) _).bind fun a b hab => .ok (stitchAt w hab x y)

theorem needleTo (w : World F cfg cfg') (h : Sim F s t) (x y : ℚ) : Both (Sim F) (Emb.needleTo s x y) (Emb.needleTo t x y) := by
  unfold Emb.needleTo
  rw [show t.maxStitch = s.maxStitch by obtain ⟨k, rfl, _⟩ := h; rfl]
  exact (gap w h x y (data := JUMP) _).bind fun a b hab => .ok (stitchAt w hab x y)

theorem contingency (w : World F cfg cfg') (h : Sim F s t) (x y : ℚ) :
    Both (Sim F) (stitchWithContingency s x y) (stitchWithContingency t x y) := by
  unfold stitchWithContingency
  rw [show t.longC = s.longC by obtain ⟨k, rfl, _⟩ := h; rfl]
  exact .ite (fun _ => sewTo w h x y) fun _ => .ite (fun _ => needleTo w h x y) fun _ => .ok (stitchAt w h x y)

theorem sequinAt (w : World F cfg cfg') (h : Sim F s t) (x y : ℚ) : Both (Sim F) (Emb.sequinAt s x y) (Emb.sequinAt t x y) := by
  unfold Emb.sequinAt
  simp only
  rw [show t.sequinC = s.sequinC by obtain ⟨k, rfl, _⟩ := h; rfl, show t.maxStitch = s.maxStitch by obtain ⟨k, rfl, _⟩ := h; rfl]
  refine .ite (fun _ => .ok h) fun _ => ?_
  refine (gap w h x y (data := STITCH) _).bind fun a b hab => .ok (here ?_ x y)
  split_ifs
  · exact moveTo w hab (c := SEQUIN_EJECT) x y
  · exact moveTo w hab (c := JUMP) x y
  · exact moveTo w hab (c := STITCH) x y
  · exact hab

theorem get_rel {α : Type} {P : α → α → Prop} {l l' : List α} (h : List.Forall₂ P l l') : ∀ n : Nat, Option.Rel P l[n]? l'[n]? := by
  induction h with
  | nil => exact fun _ => .none
  | cons hd _ ih =>
    intro n
    cases n with
    | zero => exact .some hd
    | succ n => simpa using ih n

theorem pyGet_rel {α : Type} {P : α → α → Prop} {l l' : List α} (h : List.Forall₂ P l l') (i : Int) : Both P (pyGet l i) (pyGet l' i) := by
  unfold pyGet
  rw [h.length_eq]
  simp only
  generalize (if i < 0 then i + (l'.length : Int) else i) = j
  split
  · exact .error _
  · have hg := get_rel h j.toNat
    revert hg
    generalize l[j.toNat]? = u
    generalize l'[j.toNat]? = v
    intro hg
    cases hg with
    | none => exact .error _
    | some h => exact .ok h

/-- The word of a related command is compared with the same result, if the number is one of a command that is no change. -/
theorem asked {a b : Stitch} (h : SameButAsked a b) {c : Int} (hc : c % 256 ∉ [5, 9, 0xE2, 0x10]) : a.cmd = c ↔ b.cmd = c := by
  obtain ⟨⟨_, _, hl⟩, hw, _⟩ := h
  constructor
  · intro e
    rw [← hw (by unfold Stitch.low; rwa [e]), e]
  · intro e
    rw [hw (by rw [hl]; unfold Stitch.low; rwa [e]), e]

theorem lockBoth (w : World F cfg cfg') (h : Sim F s t) {b b' : Stitch} (hb : SameButAsked b b') :
    Sim F (lockTowards cfg s b) (lockTowards cfg' t b') := by
  have hl : cfg'.lm = cfg.lm := by rw [w.same]
  unfold lockTowards
  simp only [hl, ← hb.1.1, ← hb.1.2.1, asked hb (c := STITCH) (by decide), asked hb (c := NEEDLE_AT) (by decide),
    asked hb (c := SEW_TO) (by decide), asked hb (c := SEQUIN_EJECT) (by decide)]
  split_ifs
  · obtain ⟨k, rfl, h⟩ := h
    refine ⟨{ k with out := _ }, rfl, { h with out := ?_ }⟩
    exact List.rel_append h.out (List.forall₂_same.2 fun _ _ => ⟨rfl, rfl, rfl⟩)
  · exact h

theorem tieOff (w : World F cfg cfg') (h : Sim F s t) (i : Nat) : Sim F (Emb.tieOff cfg i s) (Emb.tieOff cfg' i t) := by
  have ht : t.tieOffC = s.tieOffC := by obtain ⟨k, rfl, h⟩ := h; rfl
  have hW : F.W ∨ s.tieOffC ≠ 0xD2 := by obtain ⟨k, rfl, h⟩ := h; exact h.ties.imp id And.right
  unfold Emb.tieOff
  rw [ht]
  rcases hW with hW | hn
  · have hg := pyGet_rel (w.words hW) ((i : Int) - 1)
    revert hg
    generalize pyGet cfg.source ((i : Int) - 1) = a
    generalize pyGet cfg'.source ((i : Int) - 1) = b
    intro hg
    split_ifs
    · cases hg with
      | ok hb => exact lockBoth w h hb
      | error e => exact h
    · exact h
  · rw [if_neg (show ¬ s.tieOffC = CONTINGENCY_TIE_OFF_THREE_SMALL from hn), if_neg (show ¬ s.tieOffC = CONTINGENCY_TIE_OFF_THREE_SMALL from hn)]
    exact h

theorem tieOn (w : World F cfg cfg') (h : Sim F s t) (i : Nat) : Sim F (Emb.tieOn cfg i s) (Emb.tieOn cfg' i t) := by
  have ht : t.tieOnC = s.tieOnC := by obtain ⟨k, rfl, h⟩ := h; rfl
  have hW : F.W ∨ s.tieOnC ≠ 0xD1 := by obtain ⟨k, rfl, h⟩ := h; exact h.ties.imp id And.left
  unfold Emb.tieOn
  rw [ht]
  rcases hW with hW | hn
  · have hg := pyGet_rel (w.words hW) ((i : Int) + 1)
    revert hg
    generalize pyGet cfg.source ((i : Int) + 1) = a
    generalize pyGet cfg'.source ((i : Int) + 1) = b
    intro hg
    split_ifs
    · cases hg with
      | ok hb => exact lockBoth w h hb
      | error e => exact h
    · exact h
  · rw [if_neg (show ¬ s.tieOnC = CONTINGENCY_TIE_ON_THREE_SMALL from hn), if_neg (show ¬ s.tieOnC = CONTINGENCY_TIE_ON_THREE_SMALL from hn)]
    exact h

theorem explicitTrim (w : World F cfg cfg') (h : Sim F s t) (i : Nat) :
    Sim F (tieOffTrimIfExplicit cfg i s) (tieOffTrimIfExplicit cfg' i t) := by
  unfold tieOffTrimIfExplicit
  rw [show t.trimmed = s.trimmed by obtain ⟨k, rfl, _⟩ := h; rfl]
  simp only
  split
  · exact h
  · have h' := tieOff w h i
    revert h'
    generalize Emb.tieOff cfg i s = a
    generalize Emb.tieOff cfg' i t = b
    intro h'
    rw [show b.explicitTrim = a.explicitTrim by obtain ⟨k, rfl, _⟩ := h'; rfl]
    split_ifs
    · exact trimHere w h'
    · exact h'

theorem lookaheadIn_rel {l l' : List Stitch} (h : List.Forall₂ SameButAsked l l') : lookaheadIn l' = lookaheadIn l := by
  induction h with
  | nil => rfl
  | cons hb _ ih =>
    unfold lookaheadIn
    rw [ih]
    simp only [asked hb (c := STITCH) (by decide), asked hb (c := NEEDLE_AT) (by decide), asked hb (c := SEW_TO) (by decide),
      asked hb (c := TIE_ON) (by decide), asked hb (c := SEQUIN_EJECT) (by decide), asked hb (c := END) (by decide)]

theorem trimIfNeeded (w : World F cfg cfg') (h : Sim F s t) (i : Nat) :
    Sim F (tieOffAndTrimIfNeeded cfg i s) (tieOffAndTrimIfNeeded cfg' i t) := by
  unfold tieOffAndTrimIfNeeded
  rw [show t.trimmed = s.trimmed by obtain ⟨k, rfl, _⟩ := h; rfl]
  split_ifs
  · exact h
  · exact trimHere w (tieOff w h i)

theorem colorChange (w : World F cfg cfg') (h : Sim F s t) (i : Nat) :
    Both (Sim F) (Emb.colorChange cfg i s) (Emb.colorChange cfg' i t) := by
  unfold Emb.colorChange
  exact (nextChange w (explicitTrim w h i)).bind fun a b hab => .ok (trimmed hab true)

theorem colorBreak (w : World F cfg cfg') (h : Sim F s t) (hW : F.W) (i : Nat) :
    Both (Sim F) (Emb.colorBreak cfg i s) (Emb.colorBreak cfg' i t) := by
  unfold Emb.colorBreak
  rw [show t.order = s.order by obtain ⟨k, rfl, _⟩ := h; rfl,
    show lookahead cfg' i = lookahead cfg i from lookaheadIn_rel (List.forall₂_drop i (w.words hW))]
  simp only
  refine .ite (fun _ => .ok h) fun _ => .ite (fun _ => ?_) fun _ => .ok (explicitTrim w h i)
  exact (nextChange w (explicitTrim w h i)).bind fun a b hab => .ok (trimmed hab true)

theorem arrive (w : World F cfg cfg') (h : Sim F s t) (x y : ℚ) :
    Sim F (Emb.stitchAt (if cfg.fullJump ∧ (s.nx ≠ x ∨ s.ny ≠ y) then Emb.jumpAt s x y else s) x y)
      (Emb.stitchAt (if cfg'.fullJump ∧ (t.nx ≠ x ∨ t.ny ≠ y) then Emb.jumpAt t x y else t) x y) := by
  rw [show t.nx = s.nx by obtain ⟨k, rfl, _⟩ := h; rfl, show t.ny = s.ny by obtain ⟨k, rfl, _⟩ := h; rfl,
    show cfg'.fullJump = cfg.fullJump by rw [w.same]]
  split_ifs
  · exact stitchAt w (jumpAt w h x y) x y
  · exact stitchAt w h x y

theorem firstStrike (w : World F cfg cfg') (h : Sim F s t) (i : Nat) (x y : ℚ) :
    Both (Sim F) (Emb.firstStrike cfg i s x y) (Emb.firstStrike cfg' i t x y) := by
  unfold Emb.firstStrike
  refine (declare w h).bind fun a b hab => ?_
  unfold Emb.jumpToWithin
  rw [show b.maxJump = a.maxJump by obtain ⟨k, rfl, _⟩ := hab; rfl, bind_assoc, bind_assoc]
  exact (gap w hab x y (data := JUMP) _).bind fun c d hcd => .ok (tieOn w (arrive w hcd x y) i)

theorem sewStep (w : World F cfg cfg') (h : Sim F s t) (i : Nat) (x y : ℚ) {direct : St → ℚ → ℚ → Except PyErr St}
    (hd : Both (Sim F) (direct s x y) (direct t x y)) :
    Both (Sim F) (Emb.sewStep cfg i s x y direct) (Emb.sewStep cfg' i t x y direct) := by
  unfold Emb.sewStep
  rw [show t.trimmed = s.trimmed by obtain ⟨k, rfl, _⟩ := h; rfl, show t.jumping = s.jumping by obtain ⟨k, rfl, _⟩ := h; rfl]
  refine .ite (fun _ => firstStrike w h i x y) fun _ => .ite (fun _ => ?_) fun _ => hd
  exact (needleTo w h x y).bind fun a b hab => .ok (jumping hab false)

theorem ejectStep (w : World F cfg cfg') (h : Sim F s t) (i : Nat) (x y : ℚ) :
    Both (Sim F) (Emb.ejectStep cfg i s x y) (Emb.ejectStep cfg' i t x y) := by
  unfold Emb.ejectStep
  rw [show t.trimmed = s.trimmed by obtain ⟨k, rfl, _⟩ := h; rfl]
  refine Both.bind (.ite (fun _ => firstStrike w h i x y) fun _ => .ok h) fun a b hab => sequinAt w ?_ x y
  rw [show b.sequinMode = a.sequinMode by obtain ⟨k, rfl, _⟩ := hab; rfl]
  split_ifs
  · exact hab
  · exact toggle w hab

theorem stopHere (w : World F cfg cfg') (h : Sim F s t) : Sim F (Emb.stopHere s) (Emb.stopHere t) :=
  trimmed (add w h (c := STOP)) true

theorem endHere (w : World F cfg cfg') (h : Sim F s t) : Sim F (Emb.endHere s) (Emb.endHere t) :=
  trimmed (add w h (c := END)) true

theorem frameEject (w : World F cfg cfg') (h : Sim F s t) (i : Nat) (x y : ℚ) :
    Both (Sim F) (Emb.frameEject cfg i s x y) (Emb.frameEject cfg' i t x y) := by
  unfold Emb.frameEject
  exact (jumpTo w (trimIfNeeded w h i) x y).bind fun a b hab => .ok (stopHere w hab)

theorem speed (w : World F cfg cfg') (h : Sim F s t) (c : Int) :
    Sim F (if cfg.writesSpeeds then s.add c else s) (if cfg'.writesSpeeds then t.add c else t) := by
  rw [show cfg'.writesSpeeds = cfg.writesSpeeds by rw [w.same]]
  split_ifs
  · exact add w h
  · exact h

theorem matrixStep (w : World F cfg cfg') (h : Sim F s t) {a a' : Stitch} (ha : SameCommand a a') (c : Int) :
    Both (Sim F) (Emb.matrixStep cfg s a c) (Emb.matrixStep cfg' t a' c) := by
  have hl : cfg'.lm = cfg.lm := by rw [w.same]
  have hp : needlePreimage t = needlePreimage s := by obtain ⟨k, rfl, h⟩ := h; rfl
  have hm : ∀ m, Sim F { s with matrix := m } { t with matrix := m } := by
    intro m
    obtain ⟨k, rfl, h⟩ := h
    exact ⟨k, rfl, h⟩
  have ht : t.matrix = s.matrix := by obtain ⟨k, rfl, h⟩ := h; rfl
  unfold Emb.matrixStep
  rw [hl, hp, ht, ← ha.1, ← ha.2.1]
  refine .ite (fun _ => .ok (hm _)) fun _ => .ite (fun _ => .ok (hm _)) fun _ => .ite (fun _ => .ok (hm _)) fun _ => ?_
  refine .ite (fun _ => ?_) fun _ => .ite (fun _ => ?_) fun _ => .ite (fun _ => .ok (hm _)) fun _ => .ok h
  all_goals
    cases needlePreimage s with
    | error e => exact .error e
    | ok p => exact .ok (hm _)

theorem leave (w : World F cfg cfg') (h : Sim F s t) (v : Int) : Sim F (leaveSequins s v) (leaveSequins t v) := by
  unfold leaveSequins
  obtain ⟨k, e, hk⟩ := off w h
  rw [e]
  exact ⟨k, rfl, hk⟩

theorem settingStep (w : World F cfg cfg') (h : Sim F s t) {a a' : Stitch} (ha : SameCommand a a') {c : Int}
    (hc : F.W ∨ (c ≠ 0xD1 ∧ c ≠ 0xD2)) : Both (Sim F) (Emb.settingStep cfg s a c) (Emb.settingStep cfg' t a' c) := by
  unfold Emb.settingStep
  rw [← ha.1]
  have hon : ∀ v, (F.W ∨ v ≠ 0xD1) → Sim F { s with tieOnC := v } { t with tieOnC := v } := by
    intro v hv
    obtain ⟨k, rfl, h⟩ := h
    refine ⟨k, rfl, { h with ties := ?_ }⟩
    rcases h.ties with hw | h
    · exact .inl hw
    · exact hv.imp id fun hv => ⟨hv, h.2⟩
  have hoff : ∀ v, (F.W ∨ v ≠ 0xD2) → Sim F { s with tieOffC := v } { t with tieOffC := v } := by
    intro v hv
    obtain ⟨k, rfl, h⟩ := h
    refine ⟨k, rfl, { h with ties := ?_ }⟩
    rcases h.ties with hw | h
    · exact .inl hw
    · exact hv.imp id fun hv => ⟨h.1, hv⟩
  have htrim : ∀ v, Sim F { s with explicitTrim := v } { t with explicitTrim := v } := by
    intro v
    obtain ⟨k, rfl, h⟩ := h
    exact ⟨k, rfl, h⟩
  have hjump : ∀ v, Sim F { s with maxJump := v } { t with maxJump := v } := by
    intro v
    obtain ⟨k, rfl, h⟩ := h
    exact ⟨k, rfl, h⟩
  have hstitch : ∀ v, Sim F { s with maxStitch := v } { t with maxStitch := v } := by
    intro v
    obtain ⟨k, rfl, h⟩ := h
    exact ⟨k, rfl, h⟩
  have hlong : ∀ v, Sim F { s with longC := v } { t with longC := v } := by
    intro v
    obtain ⟨k, rfl, h⟩ := h
    exact ⟨k, rfl, h⟩
  refine .ite (fun e => .ok (hon _ (hc.imp id fun hc => absurd e hc.1))) fun _ =>
    .ite (fun e => .ok (hoff _ (hc.imp id fun hc => absurd e hc.2))) fun _ => .ite (fun _ => .ok (hon _ (.inr (by decide)))) fun _ =>
    .ite (fun _ => .ok (hoff _ (.inr (by decide)))) fun _ => .ite (fun _ => .ok (hjump _)) fun _ => .ite (fun _ => .ok (hstitch _)) fun _ =>
    .ite (fun _ => .ok (htrim _)) fun _ => .ite (fun _ => .ok (htrim _)) fun _ => .ite (fun _ => .ok (hlong _)) fun _ =>
    .ite (fun _ => .ok (hlong _)) fun _ => .ite (fun _ => .ok (hlong _)) fun _ => .ite (fun _ => .ok (leave w h _)) fun _ =>
    .ite (fun _ => .ok (leave w h _)) fun _ => .ite (fun _ => .ok (leave w h _)) fun _ =>
    .ite (fun hu => ?_) fun _ => matrixStep w h ha c
  obtain ⟨k, rfl, h⟩ := h
  exact .ok ⟨k, rfl, h⟩

/-- The commands whose effect looks at words of other commands are absent, unless words are the same. -/
def Fits (F : Frame) (c : Int) : Prop := F.W ∨ (c ≠ 0xE2 ∧ c ≠ 0xD1 ∧ c ≠ 0xD2)

theorem dispatch (w : World F cfg cfg') (h : Sim F s t) (i : Nat) {a a' : Stitch} (ha : SameCommand a a') (x y : ℚ) {c : Int}
    (hc : Fits F c) : Both (Sim F) (Emb.dispatch cfg i s a x y c) (Emb.dispatch cfg' i t a' x y c) := by
  unfold Emb.dispatch
  refine .ite (fun _ => sewStep w h i x y (contingency w h x y)) fun _ => .ite (fun _ => sewStep w h i x y (needleTo w h x y)) fun _ =>
    .ite (fun _ => sewStep w h i x y (sewTo w h x y)) fun _ => .ite (fun _ => .ok (jumping h true)) fun _ =>
    .ite (fun _ => frameEject w h i x y) fun _ => .ite (fun _ => .ok (trimIfNeeded w h i)) fun _ =>
    .ite (fun hb => colorBreak w h (hc.resolve_right fun q => q.1 hb) i) fun _ => .ite (fun _ => .ok (tieOff w h i)) fun _ =>
    .ite (fun _ => .ok (tieOn w h i)) fun _ => .ite (fun _ => .ok (trimIfNeeded w h i)) fun _ =>
    .ite (fun _ => ?_) fun _ => .ite (fun _ => .ok (toggle w h)) fun _ => .ite (fun _ => ejectStep w h i x y) fun _ =>
    .ite (fun _ => colorChange w h i) fun _ => .ite (fun _ => colorChange w h i) fun _ => .ite (fun _ => .ok (stopHere w h)) fun _ =>
    .ite (fun _ => .ok (speed w h _)) fun _ => .ite (fun _ => .ok (speed w h _)) fun _ => settingStep w h ha (hc.imp id And.right)
  rw [show t.jumping = s.jumping by obtain ⟨k, rfl, _⟩ := h; rfl]
  exact .ite (fun _ => .ok h) fun _ => jumpTo w h x y

theorem step (w : World F cfg cfg') (h : Sim F s t) (i : Nat) {a a' : Stitch} (ha : SameCommand a a') (hc : Fits F (a.cmd % 256)) :
    Both (Sim F) (Emb.step cfg i s a) (Emb.step cfg' i t a') := by
  unfold Emb.step
  have : target cfg' t a' = target cfg s a := by
    obtain ⟨k, rfl, _⟩ := h
    unfold target
    rw [show cfg'.round = cfg.round by rw [w.same], ← ha.1, ← ha.2.1]
    rfl
  rw [this, show cmdOf a'.cmd = cmdOf a.cmd from ha.2.2.symm]
  exact dispatch w (flags h a.cmd a'.cmd) i ha _ _ hc

theorem run (w : World F cfg cfg') {l l' : List Stitch} (hl : List.Forall₂ SameCommand l l') : ∀ (i : Nat) {s t : St}, Sim F s t →
    (∀ a ∈ l, Fits F (a.cmd % 256)) → Both (Sim F) (runFrom cfg i s l) (runFrom cfg' i t l') := by
  induction hl with
  | nil => exact fun _ _ _ h _ => .ok (endHere w h)
  | cons ha _ ih =>
    rename_i a a' l l' _
    intro i s t h hc
    unfold runFrom
    rw [show cmdOf a'.cmd = cmdOf a.cmd from ha.2.2.symm]
    refine .ite (fun _ => .ok (endHere w (flags h a.cmd a'.cmd))) fun _ => ?_
    have hs := step w h i ha (hc a (by simp))
    revert hs
    generalize Emb.step cfg i s a = p
    generalize Emb.step cfg' i t a' = q
    intro hs
    cases hs with
    | error e => exact .error e
    | ok hs => exact ih (i + 1) hs fun b hb => hc b (by simp [hb])
/-! ## Plans -/

/-- The event has the same place in the plan. -/
def SamePlace (e e' : Event) : Prop := e.flags = e'.flags ∧ e.index = e'.index ∧ (e.flags = 0x10 → e.order = e'.order)

theorem events_rel {l l' : List Stitch}
    (h : List.Forall₂ (fun a b => SameCommand a b ∧ (a.low = 0x10 → a.cmd / 16777216 % 256 = b.cmd / 16777216 % 256)) l l') :
    ∀ ci, List.Forall₂ SamePlace (events l ci) (events l' ci) := by
  induction h with
  | nil => exact fun _ => .nil
  | cons ha _ ih =>
    rename_i a a' l l' _
    obtain ⟨⟨_, _, hl⟩, ho⟩ := ha
    intro ci
    have hl' : a'.cmd % 256 = a.cmd % 256 := hl.symm
    unfold events decodeCommand
    simp only [hl']
    generalize (if ci = 0 ∧ isSewing (a.cmd % 256) = true then (1 : Int) else ci) = n
    split_ifs with h1 h2
    · exact .cons ⟨rfl, rfl, fun _ => by simp only; rw [ho h1]⟩ (ih _)
    · exact .cons ⟨rfl, rfl, fun e => absurd e h1⟩ (ih _)
    · exact ih _

theorem raw_rel (threads threads' : List Thread) {l l' : List Stitch}
    (h : List.Forall₂ (fun a b => SameCommand a b ∧ (a.low = 0x10 → a.cmd / 16777216 % 256 = b.cmd / 16777216 % 256)) l l') :
    List.Forall₂ (fun a b => a.1 = b.1 ∧ True) (rawPlan threads l) (rawPlan threads' l') := by
  have : ∀ {es es' : List Event}, List.Forall₂ SamePlace es es' → ∀ (p q : List (Int × Change) × Int),
      List.Forall₂ (fun a b => a.1 = b.1 ∧ True) p.1 q.1 → p.2 = q.2 →
      List.Forall₂ (fun a b => a.1 = b.1 ∧ True) (es.foldl (planEvent threads) p).1 (es'.foldl (planEvent threads') q).1 := by
    intro es es' he
    induction he with
    | nil => exact fun p q h _ => h
    | cons hd _ ih =>
      rename_i e e' es es' _
      obtain ⟨h1, h2, h3⟩ := hd
      rintro ⟨p, i⟩ ⟨q, j⟩ h rfl
      have hu := fun k => upsert_rel (P := fun _ _ => True) (f := Change.record threads e) (g := Change.record threads' e') trivial
        (fun c c' _ => trivial) k h
      refine ih _ _ ?_ ?_
      · unfold planEvent
        simp only [← h1, ← h2]
        split_ifs with hs
        · rw [← h3 hs]
          cases e.order <;> exact hu _
        all_goals exact hu _
      · unfold planEvent
        simp only [← h1, ← h2]
        split_ifs with hs
        · rw [← h3 hs]
          cases e.order <;> rfl
        all_goals rfl
  exact this (events_rel h 0) _ _ (.cons ⟨rfl, trivial⟩ .nil) rfl

theorem dget_keys {α β : Type} {p : List (Int × α)} {q : List (Int × β)} (h : p.map (·.1) = q.map (·.1)) (n : Int) :
    Option.Rel (fun _ _ => True) (dget n p) (dget n q) := by
  cases hp : dget n p with
  | none =>
    have := dget_none.1 hp
    rw [h] at this
    rw [dget_none.2 this]
    exact .none
  | some a =>
    cases hq : dget n q with
    | none =>
      have := dget_none.1 hq
      rw [← h] at this
      rw [dget_none.2 this] at hp
      cases hp
    | some b => exact .some trivial

theorem keys_eq {α β : Type} {p : List (Int × α)} {q : List (Int × β)} (h : List.Forall₂ (fun a b => a.1 = b.1 ∧ True) p q) :
    p.map (·.1) = q.map (·.1) := by
  induction h with
  | nil => rfl
  | cons h _ ih => simp [h.1, ih]

theorem plan_rel (o : Settings) (hn : o.needleCount ≠ 0) (threads threads' : List Thread) {l l' : List Stitch}
    (h : List.Forall₂ (fun a b => SameCommand a b ∧ (a.low = 0x10 → a.cmd / 16777216 % 256 = b.cmd / 16777216 % 256)) l l') :
    Both (fun p q => ∀ n, Option.Rel (fun _ _ => True) (dget n p) (dget n q)) (buildPlan o threads l) (buildPlan o threads' l') := by
  unfold buildPlan
  cases hp : fillPlan threads o.changeCommand o.needleCount (rawPlan threads l) 0 1 with
  | error e => exact absurd (fillPlan_err _ _ _ _ hp).2 hn
  | ok p =>
    cases hq : fillPlan threads' o.changeCommand o.needleCount (rawPlan threads' l') 0 1 with
    | error e => exact absurd (fillPlan_err _ _ _ _ hq).2 hn
    | ok q =>
      refine .ok (dget_keys ?_)
      rw [fillPlan_keys _ _ _ _ hp, fillPlan_keys _ _ _ _ hq, keys_eq (raw_rel threads threads' h)]

/-- The two runs, for both ways to relate the sources. -/
theorem encode (W : Prop) {o : Settings} (hn : o.needleCount ≠ 0) (lm : Libm) (threads threads' : List Thread) {l l' : List Stitch}
    (h : List.Forall₂ (fun a b => SameCommand a b ∧ (a.low = 0x10 → a.cmd / 16777216 % 256 = b.cmd / 16777216 % 256)) l l')
    (hW : W → List.Forall₂ SameButAsked l l') (ht : W ∨ (o.tieOnCode ≠ 0xD1 ∧ o.tieOffCode ≠ 0xD2))
    (hl : W ∨ ∀ a ∈ l, a.low ∉ [0xE2, 0xD1, 0xD2]) :
    Both (fun p q => List.Forall₂ SameCommand p.1 q.1 ∧
        ((o.changeCommand = 9 → threads.length = threads'.length) → p.2.length = q.2.length))
      (Emb.encode o lm threads l) (Emb.encode o lm threads' l') := by
  unfold Emb.encode
  have hp := plan_rel o hn threads threads' h
  revert hp
  generalize buildPlan o threads l = x
  generalize buildPlan o threads' l' = y
  intro hp
  cases hp with
  | error e => exact .error e
  | ok hd =>
    rename_i p p'
    have hs : List.Forall₂ SameCommand l l' := h.imp fun _ _ h => h.1
    let F : Frame := ⟨W, o.changeCommand = 9 → threads.length = threads'.length⟩
    have w : World F (mkCfg o lm l p) (mkCfg o lm l' p') := ⟨rfl, hs, hW, hd⟩
    have hi : Sim F (initSt o lm threads) (initSt o lm threads') := by
      refine ⟨⟨[], (initSt o lm threads').threads, 0⟩, rfl, ⟨.nil, rfl, rfl, ht, fun hN => ?_⟩⟩
      unfold initSt
      simp only
      split_ifs with hc
      · simpa using hN hc
      · rfl
    have hr := run w hs 0 hi fun a ha => hl.imp id fun hl => by
      have := hl a ha
      simp only [List.mem_cons, List.not_mem_nil, or_false, not_or] at this
      exact this
    simp only
    revert hr
    generalize runFrom (mkCfg o lm l p) 0 (initSt o lm threads) l = x
    generalize runFrom (mkCfg o lm l' p') 0 (initSt o lm threads') l' = y
    intro hr
    cases hr with
    | error e => exact .error e
    | ok h =>
      obtain ⟨k, rfl, h⟩ := h
      exact .ok ⟨h.out, h.len⟩

end Word

open Setting

/-- **C123.** Two designs with the same commands at the same places, in which the changes may ask for other threads and needles, are
normalized to the same commands at the same places (or with the same exception), whatever the settings and the two thread lists; and as
many threads are named. -/
theorem C123_asked {o : Settings} (hn : o.needleCount ≠ 0) (lm : Libm) (threads threads' : List Thread) {l l' : List Stitch}
    (h : List.Forall₂ SameButAsked l l') :
    Both (fun p q => List.Forall₂ SameCommand p.1 q.1 ∧
        ((o.changeCommand = 9 → threads.length = threads'.length) → p.2.length = q.2.length))
      (encode o lm threads l) (encode o lm threads' l') :=
  Word.encode True hn lm threads threads' (h.imp fun _ _ h => ⟨h.1, h.2.2⟩) (fun _ => h) (.inl trivial) (.inl trivial)

/-- **C123.** Without lock stitches, COLOR_BREAK and SET_CHANGE_SEQUENCE the words of all commands may differ: what is normalized depends
on the command bytes and places only. -/
theorem C123_words {o : Settings} (hn : o.needleCount ≠ 0) (ht : o.tieOnCode ≠ 0xD1 ∧ o.tieOffCode ≠ 0xD2) (lm : Libm)
    (threads threads' : List Thread) {l l' : List Stitch} (h : List.Forall₂ SameCommand l l') (hl : ∀ a ∈ l, a.low ∉ [0x10, 0xE2, 0xD1, 0xD2]) :
    Both (fun p q => List.Forall₂ SameCommand p.1 q.1 ∧
        ((o.changeCommand = 9 → threads.length = threads'.length) → p.2.length = q.2.length))
      (encode o lm threads l) (encode o lm threads' l') := by
  refine Word.encode False hn lm threads threads' ?_ False.elim (.inr ht) (.inr fun a ha => ?_)
  · clear ht
    induction h with
    | nil => exact .nil
    | cons h _ ih =>
      refine .cons ⟨h, fun e => ?_⟩ (ih fun a ha => hl a (by simp [ha]))
      exact absurd (hl _ (List.mem_cons_self ..)) (by simp [e])
  · have := hl a ha
    simp only [List.mem_cons, List.not_mem_nil, or_false, not_or] at this ⊢
    exact ⟨this.2.1, this.2.2⟩

/-- The hypotheses are met by designs whose changes ask for different things; what comes out has the same commands at the same places, and
asks for different needles. -/
def askedDemo (w v : Int) : List Stitch := [⟨0, 0, 0⟩, ⟨0, 0, w⟩, ⟨10, 0, 0⟩, ⟨0, 0, v⟩, ⟨0, 10, 0⟩, ⟨0, 10, 4⟩]

example : List.Forall₂ SameButAsked (askedDemo 5 0xE2) (askedDemo (encodeThreadChange 5 (some 7) (some 3) none) 0xE2) := by
  unfold askedDemo
  refine .cons ?_ (.cons ?_ (.cons ?_ (.cons ?_ (.cons ?_ (.cons ?_ .nil))))) <;>
    exact ⟨⟨rfl, rfl, by decide +kernel⟩, by decide +kernel, by decide +kernel⟩

example : demoEncode { threadChange := 9 } (askedDemo 5 0xE2) ≠
    demoEncode { threadChange := 9 } (askedDemo (encodeThreadChange 5 (some 7) (some 3) none) 0xE2) := by decide +kernel

example : (demoEncode { threadChange := 9 } (askedDemo (encodeThreadChange 5 (some 7) (some 3) none) 0xE2)).map (fun a => a.low) =
    (demoEncode { threadChange := 9 } (askedDemo 5 0xE2)).map (fun a => a.low) := by decide +kernel

/-- What the words of other commands say is not without consequence: behind a COLOR_BREAK the encoder looks for a command whose whole word is
that of a STITCH, so a STITCH that names a thread is not found and the change is left out. -/
theorem C123_not_stitches :
    (demoEncode {} [⟨0, 0, 0⟩, ⟨0, 0, 0xE2⟩, ⟨10, 0, 0⟩]).map (fun a => a.low) ≠
      (demoEncode {} [⟨0, 0, 0⟩, ⟨0, 0, 0xE2⟩, ⟨10, 0, 256⟩]).map (fun a => a.low) := by decide +kernel

/-- With no needles at all, naming a needle is what avoids the division by zero. -/
theorem C123_not_no_needles :
    demoEncode { needleCount := 0 } [⟨0, 0, 0⟩, ⟨0, 0, 5⟩, ⟨10, 0, 0⟩] = [] ∧
      demoEncode { needleCount := 0 } [⟨0, 0, encodeThreadChange 5 none (some 1) none⟩, ⟨0, 0, 0⟩,
        ⟨0, 0, encodeThreadChange 5 none (some 1) none⟩, ⟨10, 0, 0⟩] ≠ [] := by decide +kernel

end Emb
