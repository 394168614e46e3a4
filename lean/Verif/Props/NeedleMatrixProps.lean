import Verif.Props.TransformProps
import Verif.Props.StrikeProps
import Verif.Props.AppendTranslationProps

/-!
# C107 with the matrix commands about the needle

The transformation in force is the one of the specification in `Verif.Walk`, which follows the needle.
-/

namespace Emb

open Transform

namespace Laid

/-- The six matrix commands. -/
def matrices : List Int := [0xC0, 0xC1, 0xC2, 0xC3, 0xC4, 0xC5]

/-- A command without its matrix: a matrix command becomes a command that does nothing (0xFF), the position of any other command is transformed,
and lengths remain. -/
def plain (T : Plane) (a : Stitch) : Stitch :=
  if a.cmd % 256 ∈ matrices then { a with cmd := a.cmd - a.cmd % 256 + 0xFF }
  else if a.Length then a
  else ⟨(T (a.x, a.y)).1, (T (a.x, a.y)).2, a.cmd⟩

end Laid

/-- A design without its matrix commands, every command put where the transformation in force there puts it: the walk over the source knows the transformation and
the needle it may be about. -/
noncomputable def laid (lm : Libm) (round : Bool) : Head → Option Stitch → List Stitch → List Stitch
  | _, _, [] => []
  | h, prev, a :: rest => Laid.plain h.f a :: laid lm round (h.step lm round prev a rest).2 (some a) rest

namespace Laid

/-- The second command stands for the first. -/
def Like (a a' : Stitch) : Prop :=
  (a.cmd % 256 ∈ matrices ∧ a'.cmd % 256 = 0xFF) ∨ (a.cmd % 256 ∉ matrices ∧ a'.cmd = a.cmd)

theorem plain_low {T : Plane} {a : Stitch} (h : a.cmd % 256 ∈ matrices) : (plain T a).cmd % 256 = 0xFF := by
  unfold plain
  rw [if_pos h]
  show (a.cmd - a.cmd % 256 + 0xFF) % 256 = 0xFF
  omega

theorem plain_cmd {T : Plane} {a : Stitch} (h : a.cmd % 256 ∉ matrices) : (plain T a).cmd = a.cmd := by
  unfold plain
  rw [if_neg h]
  split <;> rfl

theorem plain_like (T : Plane) (a : Stitch) : Like a (plain T a) := by
  by_cases h : a.cmd % 256 ∈ matrices
  · exact .inl ⟨h, plain_low h⟩
  · exact .inr ⟨h, plain_cmd h⟩

theorem laid_like (lm : Libm) (round : Bool) : ∀ (l : List Stitch) (h : Head) (prev : Option Stitch), List.Forall₂ Like l (laid lm round h prev l)
  | [], _, _ => .nil
  | a :: l, h, prev => .cons (plain_like _ a) (laid_like lm round l _ _)

theorem ahead {l l' : List Stitch} (h : List.Forall₂ Like l l') : lookaheadIn l' = lookaheadIn l := by
  induction h with
  | nil => rfl
  | cons h _ ih =>
    rename_i a a' l l' _
    rw [lookaheadIn, lookaheadIn, ih]
    rcases h with ⟨hm, h1⟩ | ⟨-, h1⟩
    · have e : ∀ c : Int, c % 256 ∉ matrices → a.cmd ≠ c := fun c hc h => hc (h ▸ hm)
      have e' : ∀ c : Int, c % 256 ≠ 0xFF → a'.cmd ≠ c := fun c hc h => hc (h ▸ h1)
      iterate 6 rw [if_neg (e' _ (by decide)), if_neg (e _ (by decide))]
    · rw [h1]

theorem plan {l l' : List Stitch} (h : List.Forall₂ Like l l') : ∀ ci : Int, events l' ci = events l ci := by
  induction h with
  | nil => intro _; rfl
  | cons h _ ih =>
    rename_i a a' l l' _
    intro ci
    rw [events, events]
    rcases h with ⟨hm, h1⟩ | ⟨-, h1⟩
    · have e : ∀ c : Int, c ∉ matrices → a.cmd % 256 ≠ c := fun c hc h => hc (h ▸ hm)
      have s1 : isSewing (a.cmd % 256) = false := by
        unfold isSewing
        simp only [Bool.or_eq_false_iff, beq_eq_false_iff_ne]
        exact ⟨⟨⟨e _ (by decide), e _ (by decide)⟩, e _ (by decide)⟩, e _ (by decide)⟩
      have s2 : isSewing 255 = false := by decide
      have n1 : ¬ (a.cmd % 256 = NEEDLE_SET ∨ a.cmd % 256 = COLOR_CHANGE ∨ a.cmd % 256 = COLOR_BREAK) := by
        rintro (h | h | h) <;> exact e _ (by decide) h
      have n2 : ¬ ((255 : Int) = NEEDLE_SET ∨ (255 : Int) = COLOR_CHANGE ∨ (255 : Int) = COLOR_BREAK) := by decide
      have n3 : ¬ ((255 : Int) = SET_CHANGE_SEQUENCE) := by decide
      simp only [decodeCommand, h1, s1, s2, if_neg n1, if_neg n2, if_neg n3, if_neg (e SET_CHANGE_SEQUENCE (by decide))]
      exact ih _
    · rw [h1]
      simp only [ih]

theorem sewn_low {b : Stitch} (h : Sewn b) : b.cmd % 256 ∉ matrices ∧ ¬ b.Length := by
  unfold Stitch.Length
  rcases h with h | h | h | h <;> rw [h] <;> decide

theorem plain_stands (T : Plane) (a : Stitch) : Stands T a (plain T a) := by
  by_cases hm : a.cmd % 256 ∈ matrices
  · have h1 : ¬ Sewn a := fun h => (sewn_low h).1 hm
    refine ⟨⟨fun h => ?_, fun h => absurd h h1⟩, fun h => absurd h h1⟩
    have := plain_low (T := T) hm
    rcases h with h | h | h | h <;> rw [h] at this <;> exact absurd this (by decide)
  · refine ⟨by unfold Sewn; rw [plain_cmd hm], fun h => ?_⟩
    unfold plain
    rw [if_neg hm, if_neg (sewn_low h).2]

/-- Only matrix commands change the transformation. -/
theorem step_f {lm : Libm} {round : Bool} {h : Head} {prev : Option Stitch} {a : Stitch} {rest : List Stitch} (ha : a.cmd % 256 ∉ matrices) :
    (h.step lm round prev a rest).2.f = h.f := by
  have hl : a.low = a.cmd % 256 := rfl
  rw [← hl] at ha
  simp only [matrices, List.mem_cons, List.not_mem_nil, or_false, not_or] at ha
  have sew : ∀ n p b, (h.sew lm n p b).2.f = h.f := by
    intro n p b
    unfold Head.sew
    split_ifs <;> rfl
  have pick : ∀ {c : Prop} [Decidable c] {x y : List Pt × Head}, (c → x.2.f = h.f) → (¬ c → y.2.f = h.f) → (if c then x else y).2.f = h.f := by
    intro c _ x y h1 h2
    split
    · exact h1 ‹_›
    · exact h2 ‹_›
  unfold Head.step
  refine pick (fun _ => sew _ _ _) fun _ => ?_
  refine pick (fun _ => sew _ _ _) fun _ => ?_
  refine pick (fun _ => sew _ _ _) fun _ => ?_
  refine pick (fun _ => by dsimp only; split <;> rfl) fun _ => ?_
  refine pick (fun _ => rfl) fun _ => ?_
  refine pick (fun _ => rfl) fun _ => ?_
  refine pick (fun _ => rfl) fun _ => ?_
  refine pick (fun _ => rfl) fun _ => ?_
  refine pick (fun _ => rfl) fun _ => ?_
  refine pick (fun _ => rfl) fun _ => ?_
  refine pick (fun _ => ?_) fun _ => ?_
  · have h1 : (if h.down then h else { h with pt := h.image round a, down := true } : Head).f = h.f := by split <;> rfl
    exact pick (fun _ => h1) fun _ => h1
  refine pick (fun _ => rfl) fun _ => ?_
  refine pick (fun _ => rfl) fun _ => ?_
  refine pick (fun _ => rfl) fun _ => ?_
  refine pick (fun _ => rfl) fun _ => ?_
  refine pick (fun _ => rfl) fun _ => ?_
  refine pick (fun _ => rfl) fun _ => ?_
  refine pick (fun _ => rfl) fun _ => ?_
  refine pick (fun _ => rfl) fun _ => ?_
  refine pick (fun _ => rfl) fun _ => ?_
  refine pick (fun h => absurd h ha.1) fun _ => ?_
  refine pick (fun h => absurd h ha.2.1) fun _ => ?_
  refine pick (fun h => absurd h ha.2.2.1) fun _ => ?_
  refine pick (fun h => absurd h ha.2.2.2.1) fun _ => ?_
  refine pick (fun h => absurd h ha.2.2.2.2.1) fun _ => ?_
  refine pick (fun h => absurd h ha.2.2.2.2.2) fun _ => ?_
  rfl

/-- The head of the walk behind the first commands. -/
noncomputable def headAt (lm : Libm) (round : Bool) : Head → Option Stitch → List Stitch → List Stitch → Head
  | h, _, [], _ => h
  | h, prev, a :: pre, rest => headAt lm round (h.step lm round prev a (pre ++ rest)).2 (some a) pre rest

theorem headAt_snoc (lm : Libm) (round : Bool) : ∀ (pre : List Stitch) (h : Head) (prev : Option Stitch) (a : Stitch) (rest : List Stitch),
    headAt lm round h prev (pre ++ [a]) rest = ((headAt lm round h prev pre (a :: rest)).step lm round (if pre = [] then prev else pre.getLast?) a rest).2
  | [], h, prev, a, rest => rfl
  | b :: pre, h, prev, a, rest => by
    rw [List.cons_append, headAt, headAt, headAt_snoc lm round pre, List.append_assoc, List.singleton_append]
    cases pre with
    | nil => simp
    | cons c pre => simp [List.getLast?_cons]

theorem laid_get (lm : Libm) (round : Bool) : ∀ (l : List Stitch) (h : Head) (prev : Option Stitch) (k : Nat) {b : Stitch}, l[k]? = some b →
    (laid lm round h prev l)[k]? = some (plain (headAt lm round h prev (l.take k) (l.drop k)).f b)
  | [], _, _, k, _, h => by simp at h
  | a :: l, h, prev, 0, b, hb => by
    simp only [List.getElem?_cons_zero, Option.some.injEq] at hb
    subst hb; rfl
  | a :: l, h, prev, k + 1, b, hb => by
    rw [laid, List.take_succ_cons, List.drop_succ_cons, headAt, List.take_append_drop]
    simp only [List.getElem?_cons_succ] at hb ⊢
    exact laid_get lm round l _ _ k hb

theorem laid_length (lm : Libm) (round : Bool) (l : List Stitch) (h : Head) (prev : Option Stitch) : (laid lm round h prev l).length = l.length :=
  (laid_like lm round l h prev).length_eq.symm

theorem matrix_step {cfg cfg' : Cfg} {i : Nat} {s s' : St} {a : Stitch} (hm : a.cmd % 256 ∈ matrices) (T : Plane) (h : Emb.step cfg i s a = .ok s') :
    Emb.step cfg' i { s with matrix := Mat.identity } (plain T a) = .ok { s' with matrix := Mat.identity } := by
  have h2 : Emb.step cfg' i { s with matrix := Mat.identity } (plain T a) = .ok { s with matrix := Mat.identity, high := flagsOf a.cmd } := by
    have hh : flagsOf (plain T a).cmd = flagsOf a.cmd := by
      unfold plain
      rw [if_pos hm]
      unfold flagsOf
      show (a.cmd - a.cmd % 256 + 0xFF) / 256 % 256 * 256 = _
      have : (a.cmd - a.cmd % 256 + 0xFF) / 256 = a.cmd / 256 := by omega
      rw [this]
    unfold Emb.step
    simp only
    rw [show cmdOf (plain T a).cmd = 0xFF from plain_low hm, hh]
    rfl
  rw [h2]
  have key : ∃ N, s' = { s with matrix := N, high := flagsOf a.cmd } := by
    unfold Emb.step at h
    simp only at h
    generalize ht : ({ s with high := flagsOf a.cmd } : St) = t at h
    have back : ∀ N, { t with matrix := N } = { s with matrix := N, high := flagsOf a.cmd } := fun N => by rw [← ht]
    simp only [matrices, List.mem_cons, List.not_mem_nil, or_false] at hm
    have hl : cmdOf a.cmd = a.cmd % 256 := rfl
    rw [hl] at h
    rcases hm with hm | hm | hm | hm | hm | hm <;> rw [hm] at h
    · exact ⟨_, (Except.ok.inj h).symm.trans (back _)⟩
    · exact ⟨_, (Except.ok.inj h).symm.trans (back _)⟩
    · exact ⟨_, (Except.ok.inj h).symm.trans (back _)⟩
    · exact ⟨_, (Except.ok.inj h).symm.trans (back _)⟩
    · have h : (needlePreimage t >>= fun r => pure { t with matrix := r.1.postScale a.x a.y r.2.1 r.2.2 }) = .ok s' := h
      rw [bind_ok] at h
      obtain ⟨r, -, h⟩ := h
      rw [pure_ok] at h
      exact ⟨_, h.symm.trans (back _)⟩
    · have h : (needlePreimage t >>= fun r =>
        pure { t with matrix := r.1.postRotate (cfg.lm.cos a.x) (cfg.lm.sin a.x) r.2.1 r.2.2 }) = .ok s' := h
      rw [bind_ok] at h
      obtain ⟨r, -, h⟩ := h
      rw [pure_ok] at h
      exact ⟨_, h.symm.trans (back _)⟩
  obtain ⟨N, rfl⟩ := key
  rfl

/-- The second run goes over the transformed design; the last command is not sewn. -/
structure Pair (cfg cfg' : Cfg) (h₀ : Head) : Prop where
  eq : cfg' = { cfg with source := laid cfg.lm cfg.round h₀ cfg.source.getLast? cfg.source }
  last : ∀ b, cfg.source.getLast? = some b → ¬ Sewn b

theorem near {cfg cfg' : Cfg} {h₀ : Head} (t : Pair cfg cfg' h₀) {pre : List Stitch} {a : Stitch} {rest : List Stitch}
    (hsrc : cfg.source = pre ++ a :: rest) {N : Mat}
    (hN : (fun p => N.point p.1 p.2) = (headAt cfg.lm cfg.round h₀ cfg.source.getLast? pre (a :: rest)).f)
    (ha : a.cmd % 256 ∉ matrices) : Mirror.Near still N Mat.identity [] cfg cfg' pre.length := by
  have hflat : cfg'.source = laid cfg.lm cfg.round h₀ cfg.source.getLast? cfg.source := by rw [t.eq]
  have hlm : cfg'.lm = cfg.lm := by rw [t.eq]
  have hlen : cfg'.source.length = cfg.source.length := by rw [hflat, laid_length]
  have hlike := laid_like cfg.lm cfg.round cfg.source h₀ cfg.source.getLast?
  refine ⟨by rw [t.eq], ?ahead, ?off, ?on⟩
  case ahead =>
    unfold lookahead
    rw [hflat]
    exact ahead (List.forall₂_drop _ hlike)
  case off =>
    intro s hs _
    rw [still_st, still_st]
    refine off hlm ?_ ?_
    · intro b hb
      rw [hs, hN]
      rcases List.eq_nil_or_concat pre with rfl | ⟨pre', c, rfl⟩
      · rw [show ((([] : List Stitch).length : Nat) : Int) - 1 = -1 by simp, pyGet_last (by rw [hsrc]; simp), pyGet_nat] at hb
        rw [show ((([] : List Stitch).length : Nat) : Int) - 1 = -1 by simp]
        have hne : cfg'.source ≠ [] := by
          intro e
          rw [e, hsrc] at hlen
          simp at hlen
        rw [pyGet_last hne, pyGet_nat]
        rw [← List.getLast?_eq_getElem?] at hb
        cases hg : cfg.source.getLast? with
        | none => rw [hg] at hb; exact absurd hb (by simp)
        | some c =>
          rw [hg] at hb
          injection hb with hb
          subst hb
          rw [List.getLast?_eq_getElem?] at hg
          refine ⟨plain (headAt cfg.lm cfg.round h₀ cfg.source.getLast? (cfg.source.take (cfg.source.length - 1)) (cfg.source.drop (cfg.source.length - 1))).f c, ?_, ?_⟩
          · rw [hlen, hflat, laid_get cfg.lm cfg.round _ _ _ _ hg]
          · rw [← List.getLast?_eq_getElem?] at hg
            have := t.last c hg
            obtain ⟨h1, -⟩ := plain_stands (headAt cfg.lm cfg.round h₀ cfg.source.getLast? (cfg.source.take (cfg.source.length - 1)) (cfg.source.drop (cfg.source.length - 1))).f c
            exact ⟨h1, fun h => absurd h this⟩
      · rw [show (((pre'.concat c).length : Nat) : Int) - 1 = (pre'.length : Nat) by simp, pyGet_nat] at hb ⊢
        rw [List.concat_eq_append] at hsrc hN ⊢
        have hg : cfg.source[pre'.length]? = some c := by rw [hsrc]; simp
        have ht : cfg.source.take pre'.length = pre' := by rw [hsrc]; simp
        have hd : cfg.source.drop pre'.length = c :: a :: rest := by rw [hsrc]; simp
        rw [hg] at hb
        injection hb with hb
        subst hb
        refine ⟨plain (headAt cfg.lm cfg.round h₀ cfg.source.getLast? pre' (c :: a :: rest)).f c, ?_, ?_⟩
        · rw [hflat, laid_get cfg.lm cfg.round _ _ _ _ hg, ht, hd]
        · obtain ⟨h1, h2⟩ := plain_stands (headAt cfg.lm cfg.round h₀ cfg.source.getLast? pre' (c :: a :: rest)).f c
          refine ⟨h1, fun h => ?_⟩
          rw [h2 h, headAt_snoc, step_f (sewn_low h).1]
    · intro e he
      exact pyGet_error hlen he
  case on =>
    intro s hs _
    rw [still_st, still_st]
    refine on hlm ?_ ?_
    · intro b hb
      rw [hs, hN]
      rw [show ((pre.length : Nat) : Int) + 1 = ((pre.length + 1 : Nat) : Int) by simp, pyGet_nat] at hb ⊢
      cases hg : cfg.source[pre.length + 1]? with
      | none => rw [hg] at hb; exact absurd hb (by simp)
      | some c =>
        rw [hg] at hb
        injection hb with hb
        subst hb
        have ht : cfg.source.take (pre.length + 1) = pre ++ [a] := by rw [hsrc]; simp [List.take_append]
        have hd : cfg.source.drop (pre.length + 1) = rest := by rw [hsrc]; simp [List.drop_append]
        refine ⟨plain (headAt cfg.lm cfg.round h₀ cfg.source.getLast? pre (a :: rest)).f c, ?_, plain_stands _ _⟩
        rw [hflat, laid_get cfg.lm cfg.round _ _ _ _ hg, ht, hd, headAt_snoc, step_f ha]
    · intro e he
      exact pyGet_error hlen he

theorem run {cfg cfg' : Cfg} {h₀ : Head} (t : Pair cfg cfg' h₀) : ∀ (rest pre : List Stitch) {s sf : St} (prev : Option Stitch),
    cfg.source = pre ++ rest → Strike.Good s → Strike.headOf s = headAt cfg.lm cfg.round h₀ cfg.source.getLast? pre rest →
    prev = (if pre.length = 0 then cfg.source.getLast? else cfg.source[pre.length - 1]?) →
    runFrom cfg pre.length s rest = .ok sf →
    runFrom cfg' pre.length { s with matrix := Mat.identity } (laid cfg.lm cfg.round (Strike.headOf s) prev rest) = .ok { sf with matrix := Mat.identity }
  | [], pre, s, sf, prev, _, _, _, _, h => by
    have h := Except.ok.inj h
    rw [← h]; rfl
  | a :: rest, pre, s, sf, prev, hsrc, g, hN, hp, h => by
    rw [runFrom] at h
    rw [laid, runFrom]
    by_cases h4 : cmdOf a.cmd = END
    · have hm : a.cmd % 256 ∉ matrices := by
        rw [show a.cmd % 256 = END from h4]; decide
      rw [if_pos h4] at h
      rw [plain_cmd hm, if_pos h4]
      have h := Except.ok.inj h
      rw [← h]; rfl
    rw [if_neg h4] at h
    have h4' : cmdOf (plain (Strike.headOf s).f a).cmd ≠ END := by
      by_cases hm : a.cmd % 256 ∈ matrices
      · rw [show cmdOf (plain (Strike.headOf s).f a).cmd = 0xFF from plain_low hm]; decide
      · rw [plain_cmd hm]; exact h4
    rw [if_neg h4']
    cases hr : Emb.step cfg pre.length s a with
    | error e => rw [hr] at h; cases h
    | ok s' =>
      rw [hr] at h
      have e := Strike.step_eff g ⟨⟨pre, hsrc, rfl⟩, hp⟩ hr
      have hprev : (if pre = [] then cfg.source.getLast? else pre.getLast?) = prev := by
        rw [hp]
        rcases List.eq_nil_or_concat pre with rfl | ⟨pre', c, rfl⟩
        · simp
        · rw [hsrc]
          simp
      have hstep : Emb.step cfg' pre.length { s with matrix := Mat.identity } (plain (Strike.headOf s).f a) = .ok { s' with matrix := Mat.identity } := by
        by_cases hm : a.cmd % 256 ∈ matrices
        · exact matrix_step hm _ hr
        · have n := near t hsrc (N := s.matrix) (by rw [← hN]; rfl) hm
          have hc : Mirror.Calm (still.Fair cfg.lm) (a.cmd % 256) := ⟨hm, fun h => absurd (still_fair _) h⟩
          have hs : Mirror.Fine still s.matrix cfg.lm { s with high := flagsOf a.cmd } := ⟨rfl, .inl (still_fair _)⟩
          have hlen : a.cmd % 256 = 0xD5 ∨ a.cmd % 256 = 0xD6 → plain (Strike.headOf s).f a = a := by
            intro h
            have h : a.Length := h
            unfold plain
            rw [if_neg hm, if_pos h]
          have := Mirror.dispatch n hs hc hlen (p := target cfg s a)
            (x := (target cfg' { s with matrix := Mat.identity } (plain (Strike.headOf s).f a)).1)
            (y := (target cfg' { s with matrix := Mat.identity } (plain (Strike.headOf s).f a)).2) (fun h => ?_)
          · rw [still_st] at this
            have hst : Mirror.st still Mat.identity [] = (fun s : St => { s with matrix := Mat.identity }) := by
              funext s; rw [still_st]
            have hd : Emb.dispatch cfg pre.length { s with high := flagsOf a.cmd } a (target cfg s a).1 (target cfg s a).2 (a.cmd % 256) = .ok s' := hr
            rw [hd, hst] at this
            unfold Emb.step
            rw [plain_cmd hm]
            exact this
          · rw [still_act]
            have h : ¬ a.Length := h
            unfold target plain
            rw [if_neg hm, if_neg h]
            simp only [show cfg'.round = cfg.round by rw [t.eq]]
            have hid : ∀ q : ℚ × ℚ, Mat.identity.point q.1 q.2 = q := fun q => by simp [Mat.point, Mat.identity]
            rw [show (Strike.headOf s).f (a.x, a.y) = s.matrix.point a.x a.y from rfl, hid]
      rw [hstep]
      have := run t rest (pre ++ [a]) (s := s') (sf := sf) (some a) (by rw [hsrc]; simp) e.good
        (by rw [headAt_snoc, hprev, ← hN]; exact e.head) (by rw [if_neg (by simp), hsrc]; simp) (by rw [List.length_append]; exact h)
      rw [List.length_append, e.head] at this
      exact this

end Laid

/-- **C107**, with all matrix commands, also those about the needle: whatever a design is normalized to, the design without its matrix commands, with each point put where the transformation in
force there puts it, is normalized to the same by the settings without the transformation. The transformation and the needle are those of the specification that says where is sewn
(`Verif.Walk`). The last command must not be sewn, as with an END. (Where the transformation maps everything to a line the commands about the needle are errors.) -/
theorem C107_needle_partial {o : Settings} {lm : Libm} {threads : List Thread} {l out : List Stitch} {ths : List (Option Thread)}
    (hlast : ∀ b, l.getLast? = some b → b.cmd ∉ [0, 0xB0, 0xB1, 7]) (h : encode o lm threads l = .ok (out, ths)) :
    encode (bare o) lm threads (laid lm o.round (o.head lm) l.getLast? l) = .ok (out, ths) := by
  have hp : buildPlan (bare o) threads (laid lm o.round (o.head lm) l.getLast? l) = buildPlan o threads l := by
    unfold buildPlan rawPlan
    rw [Laid.plan (Laid.laid_like _ _ _ _ _)]; rfl
  unfold encode at h ⊢
  rw [hp]
  cases hpl : buildPlan o threads l with
  | error e => rw [hpl] at h; cases h
  | ok pl =>
    rw [hpl] at h
    have t : Laid.Pair (mkCfg o lm l pl) (mkCfg (bare o) lm (laid lm o.round (o.head lm) l.getLast? l) pl) (o.head lm) := by
      refine ⟨rfl, fun b hb hs => hlast b hb ?_⟩
      rcases hs with hs | hs | hs | hs <;> rw [hs] <;> decide
    simp only at h ⊢
    cases hr : runFrom (mkCfg o lm l pl) 0 (initSt o lm threads) l with
    | error e => rw [hr] at h; cases h
    | ok sf =>
      rw [hr] at h
      have := Laid.run t l [] (s := initSt o lm threads) l.getLast? rfl ⟨rfl, (Strike.place_affine o lm).1, le_refl _, fun h => nomatch h⟩
        (Strike.init_head o lm threads) rfl hr
      rw [Strike.init_head] at this
      have hi : initSt (bare o) lm threads = { initSt o lm threads with matrix := Mat.identity } := rfl
      rw [hi]
      have this : runFrom (mkCfg (bare o) lm (laid lm o.round (o.head lm) l.getLast? l) pl) 0 { initSt o lm threads with matrix := Mat.identity }
        (laid lm o.round (o.head lm) l.getLast? l) = _ := this
      rw [this]
      exact h

/-- The needle is at (10, 0) when the scaling by 2 comes: (20, 0) is put at (30, 0), and the two designs are normalized alike, with lock stitches. -/
example :
    let o : Settings := { tieOn := .bool true }
    demoEncode o [⟨10, 0, 0⟩, ⟨2, 2, 0xC4⟩, ⟨20, 0, 0⟩, ⟨20, 0, 4⟩] = demoEncode (bare o) [⟨10, 0, 0⟩, ⟨2, 2, 0xFF⟩, ⟨30, 0, 0⟩, ⟨30, 0, 4⟩] ∧
    (30, 0) ∈ strikes (demoEncode o [⟨10, 0, 0⟩, ⟨2, 2, 0xC4⟩, ⟨20, 0, 0⟩, ⟨20, 0, 4⟩]) := by
  decide +kernel

namespace Laid

theorem under_eq {h : Head} {q : Pt} (h1 : h.f q = h.pt) (h2 : Function.Injective h.f) : h.under = q := by
  have hex : ∃ q, h.f q = h.pt := ⟨q, h1⟩
  unfold Head.under
  rw [dif_pos hex]
  exact h2 ((Classical.choose_spec hex).trans h1.symm)

/-- A stretch without matrix commands and lengths is put elsewhere as a whole. -/
theorem stretch (lm : Libm) (round : Bool) : ∀ (l : List Stitch) (h : Head) (prev : Option Stitch) (m : List Stitch),
    (∀ a ∈ l, a.cmd % 256 ∉ matrices ∧ ¬ a.Length) →
    ∃ h' prev', laid lm round h prev (l ++ m) = l.map (Stitch.under h.f) ++ laid lm round h' prev' m ∧ h'.f = h.f ∧
      ((∀ a ∈ l, a.low ∉ Strike.moves ∧ a.low ≠ 7) → h'.pt = h.pt)
  | [], h, prev, m, _ => ⟨h, prev, rfl, rfl, fun _ => rfl⟩
  | a :: l, h, prev, m, hl => by
    obtain ⟨h', prev', e1, e2, e3⟩ := stretch lm round l (h.step lm round prev a (l ++ m)).2 (some a) m fun b hb => hl b (by simp [hb])
    rw [step_f (hl a (by simp)).1] at e1 e2
    refine ⟨h', prev', ?_, e2, fun hs => ?_⟩
    · rw [List.cons_append, laid, e1, List.map_cons, List.cons_append]
      unfold plain
      rw [if_neg (hl a (by simp)).1, if_neg (hl a (by simp)).2]
      rfl
    · rw [e3 fun b hb => hs b (by simp [hb]), Strike.step_stays _ _ (hs a (by simp)).1 (hs a (by simp)).2]

theorem sewn_pt {lm : Libm} {round : Bool} {h : Head} (prev : Option Stitch) {a : Stitch} (rest : List Stitch) (ha : a.low ∈ [(0 : Int), 0xB0, 0xB1]) :
    (h.step lm round prev a rest).2.pt = h.image round a := by
  have sew : ∀ n p b, (h.sew lm n p b).2.pt = p := by
    intro n p b
    unfold Head.sew
    split_ifs <;> rfl
  simp only [List.mem_cons, List.not_mem_nil, or_false] at ha
  unfold Head.step
  rcases ha with ha | ha | ha <;> simp only [ha]
  · rw [if_pos trivial]; exact sew _ _ _
  · rw [if_neg (by decide), if_neg (by decide), if_pos trivial]; exact sew _ _ _
  · rw [if_neg (by decide), if_pos trivial]; exact sew _ _ _

/-- The matrix commands of `add_pattern`, without their matrix. -/
def idle (c : Stitch) : Stitch := { c with cmd := 0xFF }

open Ops in
/-- Behind the matrix commands of `add_pattern` the transformation is the one asked for. -/
theorem laid_transforms {lm : Libm} {round : Bool} {h : Head} (prev : Option Stitch) (rest : List Stitch)
    (dx dy sx sy rotate : Option ℚ) {q : Pt}
    (hq : sx ≠ none ∨ rotate ≠ none → h.f q = h.pt ∧ Function.Injective h.f)
    (hz : ∀ s ∈ sx, s ≠ 0 ∧ sy.getD s ≠ 0) :
    ∃ h' prev', h'.f = (fun p => h.f (moved lm q dx dy sx sy rotate p)) ∧
      laid lm round h prev (transforms dx dy sx sy rotate ++ rest) = (transforms dx dy sx sy rotate).map idle ++ laid lm round h' prev' rest := by
  have trans : ∀ (h : Head) (prev : Option Stitch) (x y : ℚ) (rest : List Stitch), ∃ h' prev', h'.f = (fun p => h.f (p.1 + x, p.2 + y)) ∧ h'.pt = h.pt ∧
      laid lm round h prev (⟨x, y, MATRIX_TRANSLATE⟩ :: rest) = idle ⟨x, y, MATRIX_TRANSLATE⟩ :: laid lm round h' prev' rest :=
    fun h prev x y rest => ⟨{ h with f := fun q => h.f (q.1 + x, q.2 + y) }, some ⟨x, y, MATRIX_TRANSLATE⟩, rfl, rfl, rfl⟩
  have scale : ∀ (h : Head) (prev : Option Stitch) (x y : ℚ) (rest : List Stitch) (q : Pt), h.f q = h.pt → Function.Injective h.f →
      ∃ h' prev', h'.f = (fun p => h.f (scaleAbout q x y p)) ∧ h'.pt = h.pt ∧
      laid lm round h prev (⟨x, y, MATRIX_SCALE⟩ :: rest) = idle ⟨x, y, MATRIX_SCALE⟩ :: laid lm round h' prev' rest :=
    fun h prev x y rest q h1 h2 => ⟨{ h with f := fun p => h.f (scaleAbout h.under x y p) }, some ⟨x, y, MATRIX_SCALE⟩, by rw [under_eq h1 h2], rfl, rfl⟩
  have rot : ∀ (h : Head) (prev : Option Stitch) (x : ℚ) (rest : List Stitch) (q : Pt), h.f q = h.pt → Function.Injective h.f →
      ∃ h' prev', h'.f = (fun p => h.f (rotAbout q (lm.cos x) (lm.sin x) p)) ∧ h'.pt = h.pt ∧
      laid lm round h prev (⟨x, 0, MATRIX_ROTATE⟩ :: rest) = idle ⟨x, 0, MATRIX_ROTATE⟩ :: laid lm round h' prev' rest :=
    fun h prev x rest q h1 h2 => ⟨{ h with f := fun p => h.f (rotAbout h.under (lm.cos x) (lm.sin x) p) }, some ⟨x, 0, MATRIX_ROTATE⟩, by rw [under_eq h1 h2], rfl, rfl⟩
  have split : transforms dx dy sx sy rotate = transforms dx dy none none none ++ (transforms none none sx sy none ++ transforms none none none none rotate) := by
    cases dx <;> cases dy <;> cases sx <;> cases rotate <;> rfl
  -- the translation
  obtain ⟨h1, prev1, f1, p1, w1⟩ : ∃ h' prev', h'.f = (fun p => h.f (p.1 + dx.getD 0, p.2 + dy.getD 0)) ∧ h'.pt = h.pt ∧
      ∀ rest, laid lm round h prev (transforms dx dy none none none ++ rest) = (transforms dx dy none none none).map idle ++ laid lm round h' prev' rest := by
    by_cases hd : dx ≠ none ∨ dy ≠ none
    · have e : transforms dx dy none none none = [⟨dx.getD 0, dy.getD 0, MATRIX_TRANSLATE⟩] := by simp [transforms, hd]
      rw [e]
      exact ⟨{ h with f := fun q => h.f (q.1 + dx.getD 0, q.2 + dy.getD 0) }, some ⟨dx.getD 0, dy.getD 0, MATRIX_TRANSLATE⟩, rfl, rfl, fun _ => rfl⟩
    · obtain ⟨rfl, rfl⟩ : dx = none ∧ dy = none := by simpa using hd
      exact ⟨h, prev, by simp, rfl, fun _ => rfl⟩
  -- the scaling
  have hq1 : sx ≠ none ∨ rotate ≠ none → h1.f (q.1 - dx.getD 0, q.2 - dy.getD 0) = h1.pt ∧ Function.Injective h1.f := by
    intro hn
    obtain ⟨b1, b2⟩ := hq hn
    refine ⟨by rw [f1, p1]; simpa using b1, ?_⟩
    rw [f1]
    intro p p' e
    have := b2 e
    simp only [Prod.mk.injEq, add_left_inj] at this
    exact Prod.ext this.1 this.2
  obtain ⟨h2, prev2, f2, p2, w2⟩ : ∃ h' prev', h'.f = (fun p => h1.f (match sx with
        | none => p
        | some s => scaleAbout (q.1 - dx.getD 0, q.2 - dy.getD 0) s (sy.getD s) p)) ∧ h'.pt = h1.pt ∧
      laid lm round h1 prev1 (transforms none none sx sy none ++ (transforms none none none none rotate ++ rest)) =
        (transforms none none sx sy none).map idle ++ laid lm round h' prev' (transforms none none none none rotate ++ rest) := by
    cases sx with
    | none => exact ⟨h1, prev1, rfl, rfl, rfl⟩
    | some s =>
      obtain ⟨c1, c2⟩ := hq1 (.inl (by simp))
      exact scale h1 prev1 s (sy.getD s) (transforms none none none none rotate ++ rest) _ c1 c2
  -- the rotation
  have hq2 : rotate ≠ none → h2.f (q.1 - dx.getD 0, q.2 - dy.getD 0) = h2.pt ∧ Function.Injective h2.f := by
    intro hn
    obtain ⟨b1, b2⟩ := hq1 (.inr hn)
    rw [f2, p2]
    cases sx with
    | none => exact ⟨b1, b2⟩
    | some s =>
      obtain ⟨z1, z2⟩ := hz s (by simp)
      exact ⟨by simpa [scaleAbout] using b1, b2.comp (Strike.scaleAbout_injective z1 z2)⟩
  obtain ⟨h3, prev3, f3, w3⟩ : ∃ h' prev', h'.f = (fun p => h2.f (match rotate with
        | none => p
        | some r => rotAbout (q.1 - dx.getD 0, q.2 - dy.getD 0) (lm.cos r) (lm.sin r) p)) ∧
      laid lm round h2 prev2 (transforms none none none none rotate ++ rest) =
        (transforms none none none none rotate).map idle ++ laid lm round h' prev' rest := by
    cases rotate with
    | none => exact ⟨h2, prev2, rfl, rfl⟩
    | some r =>
      obtain ⟨c1, c2⟩ := hq2 (by simp)
      obtain ⟨h', prev', e1, -, e2⟩ := rot h2 prev2 r rest _ c1 c2
      exact ⟨h', prev', e1, e2⟩
  refine ⟨h3, prev3, ?_, ?_⟩
  · rw [f3, f2, f1]
    cases sx <;> cases rotate <;> rfl
  · rw [split, List.append_assoc, List.append_assoc, w1, w2, w3]
    simp only [List.map_append, List.append_assoc]

end Laid

/-- **C74**, an added pattern that is moved, scaled and turned, with everything the encoder does: what `p.add_pattern(q, dx, dy, sx, sy, rotate)` is normalized to is what the commands of `p`,
commands that do nothing (0xFF), and what is added for `q`, with each point put where it is asked for, are normalized to. This includes sequins, lock stitches and subdivided stitches. The first
pattern has a sewing command `a` that only commands that do not move follow, up to an END; both patterns are without matrix commands and commands that carry lengths, and `q` does not end with a
command that is sewn. Scaling and turning need unrounded positions and settings that do not map two points to one. -/
theorem C74_normalized {τ : Type} (eqv : τ → τ → Bool) (filler : Nat → τ) {o : Settings} {lm : Libm} (b q : Blocks.Build τ) (dx dy sx sy rotate : Option ℚ)
    {A T e : List Stitch} {a : Stitch} (hb : b.stitches = A ++ a :: (T ++ e)) (he : (e = [] ∧ ∀ c, (a :: T).getLast? = some c → c.cmd ≠ 4) ∨ ∃ x y, e = [⟨x, y, 4⟩])
    (hq : q.threads = [] ∨ Blocks.fixColorCount b.threads filler b.stitches ≠ [])
    (hl : ∀ c ∈ A ++ a :: T ++ q.stitches, c.cmd % 256 ∉ [0xC0, 0xC1, 0xC2, 0xC3, 0xC4, 0xC5, 0xD5, 0xD6])
    (ha : a.low ∈ [(0 : Int), 0xB0, 0xB1]) (hT : ∀ c ∈ T, c.low ∉ [(0 : Int), 0xB0, 0xB1, 1, 0xE9, 7])
    (hend : ∀ c, q.stitches.getLast? = some c → c.cmd ∉ [0, 0xB0, 0xB1, 7]) (hne : q.stitches ≠ [])
    (hn : sx ≠ none ∨ rotate ≠ none → o.round = false ∧ Function.Injective (o.place lm)) (hz : ∀ s ∈ sx, s ≠ 0 ∧ sy.getD s ≠ 0) :
    ∃ r change lead tail, Ops.addPattern eqv filler b q dx dy sx sy rotate = .ok r ∧ q.stitches = lead ++ tail ∧
      (∀ c ∈ lead, Blocks.isSew c = false) ∧ (∀ c ∈ tail.head?, Blocks.isSew c = true) ∧ (change = [] ∨ change = [⟨b.px, b.py, 5⟩]) ∧
      ∀ threads out ths, encode o lm threads r.stitches = .ok (out, ths) →
        encode (bare o) lm threads ((A ++ a :: T).map (Stitch.under (o.place lm)) ++ (Ops.transforms dx dy sx sy rotate).map (fun c => { c with cmd := 0xFF }) ++
          (change ++ (lead.map (fun c => if Blocks.isChange c then { c with cmd := -1 } else c) ++ tail)).map
            (Stitch.under fun p => o.place lm (moved lm (a.x, a.y) dx dy sx sy rotate p))) = .ok (out, ths) := by
  obtain ⟨r, change, lead, tail, extra, new, h1, h2, h3, h4, h5, -, h6⟩ := Ops.C56_appends_partial eqv filler b q dx dy sx sy rotate (by rw [hb]; simp) hq
  have hch : change = [] ∨ change = [⟨b.px, b.py, 5⟩] := by
    rcases h6 with ⟨-, h6⟩ | ⟨_, _, -, -, -, h6⟩
    · rw [h6]; split <;> simp
    · exact .inl h6
  refine ⟨r, change, lead, tail, h1, h3, h4, h5, hch, fun threads out ths henc => ?_⟩
  have hw : Ops.withoutEnd b.stitches = A ++ a :: T := by
    unfold Ops.withoutEnd
    rcases he with ⟨rfl, he⟩ | ⟨x, y, rfl⟩
    · rw [hb, List.append_nil, if_neg]
      rw [List.getLast?_append_of_ne_nil _ (by simp)]
      cases hg : (a :: T).getLast? with
      | none => simp
      | some c => simpa using he c hg
    · rw [hb]
      have e : A ++ a :: (T ++ [(⟨x, y, 4⟩ : Stitch)]) = (A ++ a :: T) ++ [⟨x, y, 4⟩] := by simp
      rw [e, List.getLast?_concat, if_pos (by rfl), List.dropLast_concat]
  generalize hm : change ++ (lead.map (fun c => if Blocks.isChange c then { c with cmd := -1 } else c) ++ tail) = m at *
  have hr : r.stitches = A ++ a :: T ++ (Ops.transforms dx dy sx sy rotate ++ m) := by
    rw [h2, hw, ← hm]; simp only [List.append_assoc]
  have ok : ∀ c : Stitch, c.cmd % 256 ∉ [(0xC0 : Int), 0xC1, 0xC2, 0xC3, 0xC4, 0xC5, 0xD5, 0xD6] → c.cmd % 256 ∉ Laid.matrices ∧ ¬ c.Length := by
    intro c hc
    refine ⟨fun h => hc (List.mem_of_mem_take (i := 6) h), fun hn => hc ?_⟩
    rcases hn with hn | hn <;> rw [hn] <;> decide
  have hml : ∀ c ∈ m, c.cmd % 256 ∉ [(0xC0 : Int), 0xC1, 0xC2, 0xC3, 0xC4, 0xC5, 0xD5, 0xD6] := by
    intro c hc
    rw [← hm, List.mem_append, List.mem_append] at hc
    rcases hc with hc | hc | hc
    · rcases hch with h | h <;> rw [h] at hc
      · simp at hc
      · rw [List.mem_singleton.1 hc]; show (5 : Int) % 256 ∉ _; decide
    · obtain ⟨d, hd, rfl⟩ := List.mem_map.1 hc
      split
      · show (-1 : Int) % 256 ∉ _; decide
      · exact hl d (List.mem_append_right _ (by rw [h3]; simp [hd]))
    · exact hl c (List.mem_append_right _ (by rw [h3]; simp [hc]))
  have hmne : m ≠ [] := by
    intro h
    rw [h, List.append_eq_nil_iff, List.append_eq_nil_iff, List.map_eq_nil_iff] at hm
    exact hne (by rw [h3, hm.2.1, hm.2.2]; rfl)
  have hlast : ∀ c, r.stitches.getLast? = some c → c.cmd ∉ [(0 : Int), 0xB0, 0xB1, 7] := by
    intro c hc
    rw [hr, ← List.append_assoc, List.getLast?_append_of_ne_nil _ hmne, ← hm, List.getLast?_append, List.getLast?_append] at hc
    rcases htl : tail.getLast? with _ | d
    · rw [htl, Option.none_or, List.getLast?_map] at hc
      rcases hld : lead.getLast? with _ | d
      · rw [hld, Option.map_none, Option.none_or] at hc
        rcases hch with h | h <;> rw [h] at hc
        · simp at hc
        · have := Option.some.inj hc
          rw [← this]; show (5 : Int) ∉ _; decide
      · rw [hld, Option.map_some, Option.some_or] at hc
        have := Option.some.inj hc
        rw [← this]
        split
        · show (-1 : Int) ∉ _; decide
        · exact hend d (by rw [h3, List.getLast?_append, htl, hld]; rfl)
    · rw [htl, Option.some_or] at hc
      have := Option.some.inj hc
      rw [← this]
      exact hend d (by rw [h3, List.getLast?_append, htl]; rfl)
  have hfin := C107_needle_partial hlast henc
  have hA : ∀ c ∈ A ++ a :: T, c.cmd % 256 ∉ Laid.matrices ∧ ¬ c.Length := fun c hc => ok c (hl c (List.mem_append_left _ hc))
  have hf0 : (o.head lm).f = o.place lm := rfl
  -- up to the last sewing command
  obtain ⟨g1, prev1, w1, f1, -⟩ := Laid.stretch lm o.round A (o.head lm) r.stitches.getLast? (a :: (T ++ (Ops.transforms dx dy sx sy rotate ++ m)))
    fun c hc => hA c (by simp [hc])
  -- it
  have w2 : laid lm o.round g1 prev1 (a :: (T ++ (Ops.transforms dx dy sx sy rotate ++ m))) = Stitch.under g1.f a ::
      laid lm o.round (g1.step lm o.round prev1 a (T ++ (Ops.transforms dx dy sx sy rotate ++ m))).2 (some a) (T ++ (Ops.transforms dx dy sx sy rotate ++ m)) := by
    rw [laid]
    unfold Laid.plain
    rw [if_neg (hA a (by simp)).1, if_neg (hA a (by simp)).2]
    rfl
  have p2 := Laid.sewn_pt (lm := lm) (round := o.round) (h := g1) prev1 (T ++ (Ops.transforms dx dy sx sy rotate ++ m)) ha
  have f2 := Laid.step_f (lm := lm) (round := o.round) (h := g1) (prev := prev1) (rest := T ++ (Ops.transforms dx dy sx sy rotate ++ m)) (hA a (by simp)).1
  generalize (g1.step lm o.round prev1 a (T ++ (Ops.transforms dx dy sx sy rotate ++ m))).2 = g2 at w2 p2 f2
  -- the commands behind it
  obtain ⟨g3, prev3, w3, f3, p3⟩ := Laid.stretch lm o.round T g2 (some a) (Ops.transforms dx dy sx sy rotate ++ m) fun c hc => hA c (by simp [hc])
  have p3 := p3 fun c hc => by
    have := hT c hc
    unfold Strike.moves
    simp only [List.mem_cons, List.not_mem_nil, or_false, not_or] at this ⊢
    tauto
  -- the transforms
  obtain ⟨g4, prev4, f4, w4⟩ := Laid.laid_transforms (lm := lm) (round := o.round) (h := g3) prev3 m dx dy sx sy rotate (q := (a.x, a.y))
    (fun hh => by
      obtain ⟨hr0, hinj⟩ := hn hh
      refine ⟨?_, by rw [f3, f2, f1, hf0]; exact hinj⟩
      rw [p3, p2, f3, f2]
      unfold Head.image
      rw [if_neg (by rw [hr0]; decide)]) hz
  -- the added pattern
  obtain ⟨g5, prev5, w5, f5, -⟩ := Laid.stretch lm o.round m g4 prev4 [] fun c hc => ok c (hml c hc)
  rw [List.append_nil] at w5
  have key : laid lm o.round (o.head lm) r.stitches.getLast? r.stitches = (A ++ a :: T).map (Stitch.under (o.place lm)) ++
      (Ops.transforms dx dy sx sy rotate).map (fun c => { c with cmd := 0xFF }) ++ m.map (Stitch.under fun p => o.place lm (moved lm (a.x, a.y) dx dy sx sy rotate p)) := by
    have e : r.stitches = A ++ (a :: (T ++ (Ops.transforms dx dy sx sy rotate ++ m))) := by rw [hr]; simp
    generalize r.stitches.getLast? = pv at w1 ⊢
    rw [e, w1, w2, w3, w4, w5, f4, f3, f2, f1, hf0]
    simp only [laid, List.append_nil, List.map_append, List.map_cons, List.append_assoc, List.cons_append]
    rfl
  rw [key] at hfin
  exact hfin

/-- A pattern of stitches and sequins with lock stitches, scaled about the needle at (4, 0): the two designs of the theorem and what both are normalized to, in which the lock stitches are those
of the scaled pattern. -/
example :
    let o : Settings := { tieOn := .bool true, tieOff := .bool true, stripSequins := false }
    let b : Blocks.Build Char := ⟨[⟨0, 0, 0⟩, ⟨4, 0, 0⟩, ⟨9, 9, 2⟩, ⟨4, 0, 4⟩], ['r'], 4, 0⟩
    let q : Blocks.Build Char := ⟨[⟨4, 0, 0⟩, ⟨40, 0, 0⟩, ⟨40, 20, 7⟩, ⟨40, 20, 4⟩], ['r'], 40, 20⟩
    ((Ops.addPattern (· == ·) (fun _ => 'f') b q none none (some (1/2)) none none).toOption.map fun r => (r.stitches, demoEncode o r.stitches)) =
      some ([⟨0, 0, 0⟩, ⟨4, 0, 0⟩, ⟨9, 9, 2⟩, ⟨1/2, 1/2, 0xC4⟩] ++ q.stitches,
        demoEncode (bare o) ([⟨0, 0, 0⟩, ⟨4, 0, 0⟩, ⟨9, 9, 2⟩, ⟨1/2, 1/2, 0xFF⟩] ++ q.stitches.map (Stitch.under (moved demoLm (4, 0) none none (some (1/2)) none none)))) ∧
    q.stitches.map (Stitch.under (moved demoLm (4, 0) none none (some (1/2)) none none)) = [⟨4, 0, 0⟩, ⟨22, 0, 0⟩, ⟨22, 10, 7⟩, ⟨22, 10, 4⟩] ∧
    (demoEncode o ([⟨0, 0, 0⟩, ⟨4, 0, 0⟩, ⟨9, 9, 2⟩, ⟨1/2, 1/2, 0xC4⟩] ++ q.stitches)).length > 12 := by
  decide +kernel

end Emb
