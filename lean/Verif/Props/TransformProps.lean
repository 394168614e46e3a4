import Verif.Props.MatrixProps
import Verif.Props.MirrorProps

/-!
# C107: transforming while normalizing is transforming before normalizing

The transformation asked for in the settings and the matrix commands in the design may be replaced by transforming the positions of
the design beforehand.
-/

namespace Emb

namespace Transform

/-- A map of the plane. -/
abbrev Plane := ℚ × ℚ → ℚ × ℚ

/-- What a matrix command makes of the transformation in force: what it says is done first. -/
def after (lm : Libm) (T : Plane) (a : Stitch) : Plane :=
  if a.cmd % 256 = 0xC0 then fun p => T (p.1 + a.x, p.2 + a.y)
  else if a.cmd % 256 = 0xC1 then fun p => T (a.x * p.1, a.y * p.2)
  else if a.cmd % 256 = 0xC2 then fun p => T (lm.cos a.x * p.1 - lm.sin a.x * p.2, lm.sin a.x * p.1 + lm.cos a.x * p.2)
  else if a.cmd % 256 = 0xC3 then id
  else T

/-- A command without its matrix: a matrix command becomes a command that does nothing (0xFF), the position of any other command
is transformed, and lengths remain. -/
def plain (T : Plane) (a : Stitch) : Stitch :=
  if a.cmd % 256 ∈ [0xC0, 0xC1, 0xC2, 0xC3] then { a with cmd := a.cmd - a.cmd % 256 + 0xFF }
  else if a.Length then a
  else ⟨(T (a.x, a.y)).1, (T (a.x, a.y)).2, a.cmd⟩

/-- A design without its matrix commands, transformed as they say. -/
def flat (lm : Libm) : Plane → List Stitch → List Stitch
  | _, [] => []
  | T, a :: l => plain T a :: flat lm (after lm T a) l

/-- The transformation asked for in the settings: turned, then scaled, then moved. -/
def asked (o : Settings) (lm : Libm) : Plane := fun p =>
  let p := match o.rotate with
    | none => p
    | some r => (lm.cos r * p.1 - lm.sin r * p.2, lm.sin r * p.1 + lm.cos r * p.2)
  let p := match o.scale with
    | none => p
    | some s => (s.1 * p.1, s.2 * p.2)
  match o.translate with
  | none => p
  | some t => (p.1 + t.1, p.2 + t.2)

/-- The settings without the transformation. -/
def bare (o : Settings) : Settings := { o with translate := none, scale := none, rotate := none }

theorem affine_translate (x y : ℚ) : (Mat.getTranslate x y).Affine := ⟨rfl, rfl, rfl⟩
theorem affine_scale (x y : ℚ) : (Mat.getScale x (some y)).Affine := ⟨rfl, rfl, rfl⟩
theorem affine_rotate (x y : ℚ) : (Mat.getRotate x y).Affine := ⟨rfl, rfl, rfl⟩

theorem post_translate (m : Mat) (x y u v : ℚ) : (m.postTranslate x y).point u v = m.point (u + x) (v + y) := by
  unfold Mat.postTranslate
  rw [C35_point_multiply _ _ (affine_translate x y)]
  simp [Mat.point, Mat.getTranslate]

theorem post_scale (m : Mat) (x y u v : ℚ) : (m.postScale x y 0 0).point u v = m.point (x * u) (y * v) := by
  unfold Mat.postScale
  rw [if_pos ⟨rfl, rfl⟩, C35_point_multiply _ _ (affine_scale x y)]
  simp [Mat.point, Mat.getScale, mul_comm]

theorem post_rotate (m : Mat) (c s u v : ℚ) :
    (m.postRotate c s 0 0).point u v = m.point (c * u - s * v) (s * u + c * v) := by
  unfold Mat.postRotate
  rw [if_pos ⟨rfl, rfl⟩, C35_point_multiply _ _ (affine_rotate c s)]
  simp only [Mat.point, Mat.getRotate]
  ext <;> simp only <;> ring

theorem asked_matrix (o : Settings) (lm : Libm) (p : ℚ × ℚ) : (o.matrix lm).point p.1 p.2 = asked o lm p := by
  have hid : ∀ u v : ℚ, Mat.identity.point u v = (u, v) := fun u v => by simp [Mat.point, Mat.identity]
  unfold Settings.matrix asked
  cases o.translate <;> cases o.scale <;> cases o.rotate <;> simp only [post_translate, post_rotate, post_scale, hid]

theorem bare_matrix (o : Settings) (lm : Libm) : (bare o).matrix lm = Mat.identity := rfl

/-- Nothing moves. -/
def still : Motion := ⟨⟨false, false, false⟩, 0, 0⟩

theorem still_act (p : ℚ × ℚ) : still.act p = p := by simp [still, Motion.act, Sym.act]

theorem still_fair (lm : Libm) : still.Fair lm := ⟨fun p q => by simp only [still_act], fun p q d => by simp only [still_act]⟩

theorem still_st (M : Mat) (s : St) : Mirror.st still M [] s = { s with matrix := M } := by
  have : still.stitch = id := by
    funext a
    unfold Motion.stitch
    rw [still_act]; rfl
  unfold Mirror.st
  rw [still_act, this, List.map_id]; rfl

/-- Commands lock stitches are made towards. -/
def Sewn (b : Stitch) : Prop := b.cmd = STITCH ∨ b.cmd = NEEDLE_AT ∨ b.cmd = SEW_TO ∨ b.cmd = SEQUIN_EJECT

/-- `b'` stands for `b` where lock stitches are concerned. -/
def Stands (T : Plane) (b b' : Stitch) : Prop := (Sewn b' ↔ Sewn b) ∧ (Sewn b → (b'.x, b'.y) = T (b.x, b.y))

theorem lock {cfg cfg' : Cfg} (hlm : cfg'.lm = cfg.lm) {s : St} {b b' : Stitch} (h : Stands (fun p => s.matrix.point p.1 p.2) b b') :
    lockTowards cfg' { s with matrix := Mat.identity } b' = { lockTowards cfg s b with matrix := Mat.identity } := by
  unfold lockTowards
  simp only [hlm]
  by_cases hb : Sewn b
  · have h1 := h.2 hb
    have h2 : Mat.identity.point b'.x b'.y = s.matrix.point b.x b.y := by
      have h1 : (b'.x, b'.y) = s.matrix.point b.x b.y := h1
      rw [← h1]; simp [Mat.point, Mat.identity]
    have hb' := h.1.2 hb
    unfold Sewn at hb hb'
    rw [if_pos hb', if_pos hb, h2]
  · have hb' : ¬ Sewn b' := fun hn => hb (h.1.1 hn)
    unfold Sewn at hb hb'
    rw [if_neg hb', if_neg hb]

theorem off {cfg cfg' : Cfg} (hlm : cfg'.lm = cfg.lm) {i : Nat} {s : St}
    (h : ∀ b, pyGet cfg.source ((i : Int) - 1) = .ok b →
      ∃ b', pyGet cfg'.source ((i : Int) - 1) = .ok b' ∧ Stands (fun p => s.matrix.point p.1 p.2) b b')
    (he : ∀ e, pyGet cfg.source ((i : Int) - 1) = .error e → ∃ e, pyGet cfg'.source ((i : Int) - 1) = .error e) :
    tieOff cfg' i { s with matrix := Mat.identity } = { tieOff cfg i s with matrix := Mat.identity } := by
  unfold tieOff
  simp only
  split
  · cases hg : pyGet cfg.source ((i : Int) - 1) with
    | error e => obtain ⟨e', he'⟩ := he e hg; rw [he']
    | ok b => obtain ⟨b', hb', hs⟩ := h b hg; rw [hb']; exact lock hlm hs
  · rfl

theorem on {cfg cfg' : Cfg} (hlm : cfg'.lm = cfg.lm) {i : Nat} {s : St}
    (h : ∀ b, pyGet cfg.source ((i : Int) + 1) = .ok b →
      ∃ b', pyGet cfg'.source ((i : Int) + 1) = .ok b' ∧ Stands (fun p => s.matrix.point p.1 p.2) b b')
    (he : ∀ e, pyGet cfg.source ((i : Int) + 1) = .error e → ∃ e, pyGet cfg'.source ((i : Int) + 1) = .error e) :
    tieOn cfg' i { s with matrix := Mat.identity } = { tieOn cfg i s with matrix := Mat.identity } := by
  unfold tieOn
  simp only
  split
  · cases hg : pyGet cfg.source ((i : Int) + 1) with
    | error e => obtain ⟨e', he'⟩ := he e hg; rw [he']
    | ok b => obtain ⟨b', hb', hs⟩ := h b hg; rw [hb']; exact lock hlm hs
  · rfl

theorem sewn_low {b : Stitch} (h : Sewn b) : b.cmd % 256 ∉ [0xC0, 0xC1, 0xC2, 0xC3] ∧ ¬ b.Length := by
  unfold Stitch.Length
  rcases h with h | h | h | h <;> rw [h] <;> decide

theorem plain_low {T : Plane} {a : Stitch} : a.cmd % 256 ∈ [0xC0, 0xC1, 0xC2, 0xC3] → (plain T a).cmd % 256 = 0xFF := by
  intro h
  unfold plain
  rw [if_pos h]
  show (a.cmd - a.cmd % 256 + 0xFF) % 256 = 0xFF
  omega

theorem plain_cmd {T : Plane} {a : Stitch} (h : a.cmd % 256 ∉ [0xC0, 0xC1, 0xC2, 0xC3]) : (plain T a).cmd = a.cmd := by
  unfold plain
  rw [if_neg h]
  split <;> rfl

theorem plain_stands (T : Plane) (a : Stitch) : Stands T a (plain T a) := by
  by_cases hm : a.cmd % 256 ∈ [0xC0, 0xC1, 0xC2, 0xC3]
  · have h1 : ¬ Sewn a := fun h => (sewn_low h).1 hm
    refine ⟨⟨fun h => ?_, fun h => absurd h h1⟩, fun h => absurd h h1⟩
    have := plain_low (T := T) hm
    rcases h with h | h | h | h <;> rw [h] at this <;> exact absurd this (by decide)
  · refine ⟨by unfold Sewn; rw [plain_cmd hm], fun h => ?_⟩
    unfold plain
    rw [if_neg hm, if_neg (sewn_low h).2]

theorem after_other (lm : Libm) (T : Plane) {a : Stitch} (h : a.cmd % 256 ∉ [0xC0, 0xC1, 0xC2, 0xC3]) : after lm T a = T := by
  simp only [List.mem_cons, List.not_mem_nil, or_false, not_or] at h
  unfold after
  rw [if_neg h.1, if_neg h.2.1, if_neg h.2.2.1, if_neg h.2.2.2]

theorem flat_length (lm : Libm) : ∀ (T : Plane) (l : List Stitch), (flat lm T l).length = l.length
  | _, [] => rfl
  | T, a :: l => by rw [flat, List.length_cons, List.length_cons, flat_length]

theorem ahead (lm : Libm) : ∀ (T : Plane) (l : List Stitch), lookaheadIn (flat lm T l) = lookaheadIn l
  | _, [] => rfl
  | T, a :: l => by
    rw [flat, lookaheadIn, lookaheadIn, ahead lm]
    by_cases hm : a.cmd % 256 ∈ [0xC0, 0xC1, 0xC2, 0xC3]
    · have h1 := plain_low (T := T) hm
      have e : ∀ c : Int, c % 256 ∉ [0xC0, 0xC1, 0xC2, 0xC3] → a.cmd ≠ c := fun c hc h => hc (h ▸ hm)
      have e' : ∀ c : Int, c % 256 ≠ 0xFF → (plain T a).cmd ≠ c := fun c hc h => hc (h ▸ h1)
      iterate 6 rw [if_neg (e' _ (by decide)), if_neg (e _ (by decide))]
    · rw [plain_cmd hm]

theorem plan (lm : Libm) : ∀ (T : Plane) (l : List Stitch) (ci : Int), events (flat lm T l) ci = events l ci
  | _, [], _ => rfl
  | T, a :: l, ci => by
    rw [flat, events, events]
    by_cases hm : a.cmd % 256 ∈ [0xC0, 0xC1, 0xC2, 0xC3]
    · have h1 := plain_low (T := T) hm
      have e : ∀ c : Int, c ∉ [0xC0, 0xC1, 0xC2, 0xC3] → a.cmd % 256 ≠ c := fun c hc h => hc (h ▸ hm)
      have s1 : isSewing (a.cmd % 256) = false := by
        unfold isSewing
        simp only [Bool.or_eq_false_iff, beq_eq_false_iff_ne]
        exact ⟨⟨⟨e _ (by decide), e _ (by decide)⟩, e _ (by decide)⟩, e _ (by decide)⟩
      have s2 : isSewing 255 = false := by decide
      have n1 : ¬ (a.cmd % 256 = NEEDLE_SET ∨ a.cmd % 256 = COLOR_CHANGE ∨ a.cmd % 256 = COLOR_BREAK) := by
        rintro (h | h | h) <;> exact e _ (by decide) h
      have n2 : ¬ ((255 : Int) = NEEDLE_SET ∨ (255 : Int) = COLOR_CHANGE ∨ (255 : Int) = COLOR_BREAK) := by decide
      have n3 : ¬ ((255 : Int) = SET_CHANGE_SEQUENCE) := by decide
      simp only [decodeCommand, h1, s1, s2, if_neg n1, if_neg n2, if_neg n3, if_neg (e SET_CHANGE_SEQUENCE (by decide))]
      exact plan lm _ l _
    · rw [plain_cmd hm]
      simp only [plan lm]

/-- The transformation that remains at the end. -/
def final (lm : Libm) : Plane → List Stitch → Plane
  | T, [] => T
  | T, a :: l => final lm (after lm T a) l

theorem flat_get (lm : Libm) : ∀ (T : Plane) (l : List Stitch) (k : Nat) {b : Stitch}, l[k]? = some b →
    (flat lm T l)[k]? = some (plain (final lm T (l.take k)) b)
  | _, [], k, _, h => by simp at h
  | T, a :: l, 0, b, h => by
    simp only [List.getElem?_cons_zero, Option.some.injEq] at h
    subst h; rfl
  | T, a :: l, k + 1, b, h => by
    rw [flat, List.take_succ_cons, final]
    simp only [List.getElem?_cons_succ] at h ⊢
    exact flat_get lm _ l k h

theorem pyGet_nat {α : Type} (l : List α) (k : Nat) : pyGet l (k : Int) = match l[k]? with
    | some v => .ok v
    | none => .error .indexError := by
  unfold pyGet
  simp only
  rw [if_neg (by omega), if_neg (by omega), Int.toNat_natCast]
  cases l[k]? <;> rfl

theorem pyGet_error {α β : Type} {l : List α} {l' : List β} (h : l'.length = l.length) {i : Int} {e : PyErr}
    (he : pyGet l i = .error e) : ∃ e, pyGet l' i = .error e := by
  unfold pyGet at he ⊢
  simp only [h]
  simp only at he
  generalize (if i < 0 then i + (l.length : Int) else i) = j at he ⊢
  split_ifs at he ⊢
  · exact ⟨_, rfl⟩
  · cases hg : l[j.toNat]? with
    | some v => rw [hg] at he; exact absurd he (by simp)
    | none =>
      have : l'[j.toNat]? = none := by
        rw [List.getElem?_eq_none_iff] at hg ⊢
        omega
      rw [this]
      exact ⟨_, rfl⟩

theorem pyGet_last {α : Type} {l : List α} (h : l ≠ []) : pyGet l (-1) = pyGet l ((l.length - 1 : Nat) : Int) := by
  have : 0 < l.length := List.length_pos_iff.2 h
  unfold pyGet
  simp only
  rw [show (if (-1 : Int) < 0 then -1 + (l.length : Int) else -1) = ((l.length - 1 : Nat) : Int) by split <;> omega,
    show (if ((l.length - 1 : Nat) : Int) < 0 then ((l.length - 1 : Nat) : Int) + (l.length : Int) else ((l.length - 1 : Nat) : Int))
      = ((l.length - 1 : Nat) : Int) by split <;> omega]

/-- The command is none of those about the needle. -/
def Origin (a : Stitch) : Prop := a.cmd % 256 ≠ 0xC4 ∧ a.cmd % 256 ≠ 0xC5

theorem matrix_step {cfg cfg' : Cfg} {i : Nat} {s : St} {a : Stitch} (hm : a.cmd % 256 ∈ [0xC0, 0xC1, 0xC2, 0xC3]) (T : Plane) :
    ∃ N, Emb.step cfg i s a = .ok { s with matrix := N, high := flagsOf a.cmd } ∧
      (∀ p, N.point p.1 p.2 = after cfg.lm (fun p => s.matrix.point p.1 p.2) a p) ∧
      Emb.step cfg' i { s with matrix := Mat.identity } (plain T a)
        = .ok { s with matrix := Mat.identity, high := flagsOf a.cmd } := by
  have h2 : Emb.step cfg' i { s with matrix := Mat.identity } (plain T a)
        = .ok { s with matrix := Mat.identity, high := flagsOf a.cmd } := by
    have hh : flagsOf (plain T a).cmd = flagsOf a.cmd := by
      unfold plain
      rw [if_pos hm]
      unfold flagsOf
      show (a.cmd - a.cmd % 256 + 0xFF) / 256 % 256 * 256 = _
      have : (a.cmd - a.cmd % 256 + 0xFF) / 256 = a.cmd / 256 := by omega
      rw [this]
    unfold Emb.step
    simp only
    rw [show cmdOf (plain T a).cmd = 0xFF from plain_low hm, hh]
    rfl
  have hid : ∀ q : ℚ × ℚ, Mat.identity.point q.1 q.2 = q := fun q => by simp [Mat.point, Mat.identity]
  simp only [List.mem_cons, List.not_mem_nil, or_false] at hm
  rcases hm with hm | hm | hm | hm
  · refine ⟨s.matrix.postTranslate a.x a.y, ?_, fun p => ?_, h2⟩
    · unfold Emb.step
      rw [show cmdOf a.cmd = 0xC0 from hm]; rfl
    · rw [post_translate]
      unfold after
      rw [if_pos hm]
  · refine ⟨s.matrix.postScale a.x a.y 0 0, ?_, fun p => ?_, h2⟩
    · unfold Emb.step
      rw [show cmdOf a.cmd = 0xC1 from hm]; rfl
    · rw [post_scale]
      unfold after
      rw [hm]; rfl
  · refine ⟨s.matrix.postRotate (cfg.lm.cos a.x) (cfg.lm.sin a.x) 0 0, ?_, fun p => ?_, h2⟩
    · unfold Emb.step
      rw [show cmdOf a.cmd = 0xC2 from hm]; rfl
    · rw [post_rotate]
      unfold after
      rw [hm]; rfl
  · refine ⟨Mat.identity, ?_, fun p => ?_, h2⟩
    · unfold Emb.step
      rw [show cmdOf a.cmd = 0xC3 from hm]; rfl
    · rw [hid]
      unfold after
      rw [hm]; rfl

/-- The second run goes over the transformed design; nothing is sewn by the last command if the transformation has changed. -/
structure Pair (cfg cfg' : Cfg) (T₀ : Plane) : Prop where
  eq : cfg' = { cfg with source := flat cfg.lm T₀ cfg.source }
  last : ∀ b, cfg.source.getLast? = some b → Sewn b → final cfg.lm T₀ cfg.source.dropLast = T₀

theorem final_append (lm : Libm) : ∀ (T : Plane) (l m : List Stitch), final lm T (l ++ m) = final lm (final lm T l) m
  | _, [], _ => rfl
  | T, a :: l, m => by rw [List.cons_append, final, final, final_append]

theorem near {cfg cfg' : Cfg} {T₀ : Plane} (t : Pair cfg cfg' T₀) {pre : List Stitch} {a : Stitch} {rest : List Stitch}
    (hsrc : cfg.source = pre ++ a :: rest) {N : Mat} (hN : (fun p => N.point p.1 p.2) = final cfg.lm T₀ pre)
    (ha : a.cmd % 256 ∉ [0xC0, 0xC1, 0xC2, 0xC3]) : Mirror.Near still N Mat.identity [] cfg cfg' pre.length := by
  have hflat : cfg'.source = flat cfg.lm T₀ cfg.source := by rw [t.eq]
  have hlm : cfg'.lm = cfg.lm := by rw [t.eq]
  refine ⟨by rw [t.eq], ?ahead, ?off, ?on⟩
  case ahead =>
    unfold lookahead
    have hd : ∀ (T : Plane) (k : Nat) (l : List Stitch), (flat cfg.lm T l).drop k = flat cfg.lm (final cfg.lm T (l.take k)) (l.drop k) := by
      intro T k l
      induction l generalizing T k with
      | nil => simp [flat]
      | cons b l ih =>
        cases k with
        | zero => rfl
        | succ k => rw [flat, List.drop_succ_cons, List.take_succ_cons, final, List.drop_succ_cons, ih]
    rw [hflat, hd, ahead]
  case off =>
    intro s hs _
    rw [still_st, still_st]
    refine off hlm ?_ ?_
    · intro b hb
      rw [hs, hN]
      rcases List.eq_nil_or_concat pre with rfl | ⟨pre', c, rfl⟩
      · rw [show ((([] : List Stitch).length : Nat) : Int) - 1 = -1 by simp, pyGet_last (by rw [hsrc]; simp), pyGet_nat] at hb
        rw [show ((([] : List Stitch).length : Nat) : Int) - 1 = -1 by simp]
        have hne : cfg'.source ≠ [] := by
          rw [hflat, hsrc, List.nil_append, flat]; simp
        rw [pyGet_last hne, pyGet_nat]
        rw [← List.getLast?_eq_getElem?] at hb
        cases hg : cfg.source.getLast? with
        | none => rw [hg] at hb; exact absurd hb (by simp)
        | some c =>
          rw [hg] at hb
          injection hb with hb
          subst hb
          refine ⟨plain (final cfg.lm T₀ cfg.source.dropLast) c, ?_, ?_⟩
          · rw [hflat, flat_length]
            rw [List.getLast?_eq_getElem?] at hg
            rw [flat_get cfg.lm T₀ _ _ hg, List.dropLast_eq_take]
          · obtain ⟨h1, h2⟩ := plain_stands (final cfg.lm T₀ cfg.source.dropLast) c
            refine ⟨h1, fun h => ?_⟩
            rw [h2 h, t.last c hg h]; rfl
      · rw [show (((pre'.concat c).length : Nat) : Int) - 1 = (pre'.length : Nat) by simp, pyGet_nat] at hb ⊢
        rw [List.concat_eq_append] at hsrc hN ⊢
        have hg : cfg.source[pre'.length]? = some c := by rw [hsrc]; simp
        have ht : cfg.source.take pre'.length = pre' := by rw [hsrc]; simp
        rw [hg] at hb
        injection hb with hb
        subst hb
        refine ⟨plain (final cfg.lm T₀ pre') c, ?_, ?_⟩
        · rw [hflat, flat_get cfg.lm T₀ _ _ hg, ht]
        · obtain ⟨h1, h2⟩ := plain_stands (final cfg.lm T₀ pre') c
          refine ⟨h1, fun h => ?_⟩
          rw [h2 h, final_append, final, final, after_other _ _ (sewn_low h).1]
    · intro e he
      exact pyGet_error (by rw [hflat, flat_length]) he
  case on =>
    intro s hs _
    rw [still_st, still_st]
    refine on hlm ?_ ?_
    · intro b hb
      rw [hs, hN]
      rw [show ((pre.length : Nat) : Int) + 1 = ((pre.length + 1 : Nat) : Int) by simp, pyGet_nat] at hb ⊢
      cases hg : cfg.source[pre.length + 1]? with
      | none => rw [hg] at hb; exact absurd hb (by simp)
      | some c =>
        rw [hg] at hb
        injection hb with hb
        subst hb
        have ht : cfg.source.take (pre.length + 1) = pre ++ [a] := by rw [hsrc]; simp [List.take_append]
        refine ⟨plain (final cfg.lm T₀ pre) c, ?_, plain_stands _ _⟩
        rw [hflat, flat_get cfg.lm T₀ _ _ hg, ht, final_append, final, final, after_other _ _ ha]
    · intro e he
      exact pyGet_error (by rw [hflat, flat_length]) he

theorem run {cfg cfg' : Cfg} {T₀ : Plane} (t : Pair cfg cfg' T₀) : ∀ (rest pre : List Stitch) {s : St},
    cfg.source = pre ++ rest → (fun p => s.matrix.point p.1 p.2) = final cfg.lm T₀ pre → (∀ a ∈ rest, Origin a) →
    runFrom cfg' pre.length { s with matrix := Mat.identity } (flat cfg.lm (final cfg.lm T₀ pre) rest)
      = (runFrom cfg pre.length s rest).map fun s => { s with matrix := Mat.identity }
  | [], pre, s, _, _, _ => rfl
  | a :: rest, pre, s, hsrc, hN, ho => by
    rw [flat, runFrom, runFrom]
    by_cases hm : a.cmd % 256 ∈ [0xC0, 0xC1, 0xC2, 0xC3]
    · have h1 : cmdOf (plain (final cfg.lm T₀ pre) a).cmd ≠ END := by
        rw [show cmdOf (plain (final cfg.lm T₀ pre) a).cmd = 0xFF from plain_low hm]; decide
      have h2 : cmdOf a.cmd ≠ END := fun h => absurd (show a.cmd % 256 = END from h) fun h => by
        rw [h] at hm; exact absurd hm (by decide)
      rw [if_neg h1, if_neg h2]
      obtain ⟨N, e1, e2, e3⟩ := matrix_step (cfg := cfg) (cfg' := cfg') (i := pre.length) (s := s) hm (final cfg.lm T₀ pre)
      rw [e1, e3]
      have hf : final cfg.lm T₀ (pre ++ [a]) = after cfg.lm (final cfg.lm T₀ pre) a := by rw [final_append, final, final]
      have := run t rest (pre ++ [a]) (s := { s with matrix := N, high := flagsOf a.cmd }) (by rw [hsrc]; simp)
        (by rw [hf, ← hN]; funext p; exact e2 p) (fun b hb => ho b (by simp [hb]))
      rw [hf] at this
      rw [List.length_append] at this
      exact this
    · rw [plain_cmd hm]
      split
      · rfl
      · have n := near t hsrc hN hm
        have hc : Mirror.Calm (still.Fair cfg.lm) (a.cmd % 256) := by
          refine ⟨fun h => ?_, fun h => absurd (still_fair _) h⟩
          simp only [List.mem_cons, List.not_mem_nil, or_false, not_or] at h hm
          have := ho a (by simp)
          unfold Origin at this
          tauto
        have hs : Mirror.Fine still s.matrix cfg.lm { s with high := flagsOf a.cmd } := ⟨rfl, .inl (still_fair _)⟩
        have hstep : Emb.step cfg' pre.length { s with matrix := Mat.identity } (plain (final cfg.lm T₀ pre) a)
            = (Emb.step cfg pre.length s a).map fun s => { s with matrix := Mat.identity } := by
          have hst : (fun s : St => { s with matrix := Mat.identity }) = Mirror.st still Mat.identity [] := by
            funext s; rw [still_st]
          rw [hst]
          have hlen : a.cmd % 256 = 0xD5 ∨ a.cmd % 256 = 0xD6 → plain (final cfg.lm T₀ pre) a = a := by
            intro h
            have h : a.Length := h
            unfold plain
            rw [if_neg hm, if_pos h]
          have := Mirror.dispatch n hs hc hlen (p := target cfg s a)
            (x := (target cfg' { s with matrix := Mat.identity } (plain (final cfg.lm T₀ pre) a)).1)
            (y := (target cfg' { s with matrix := Mat.identity } (plain (final cfg.lm T₀ pre) a)).2) (fun h => ?_)
          · rw [still_st] at this
            unfold Emb.step
            rw [plain_cmd hm]
            exact this
          · rw [still_act]
            have h : ¬ a.Length := h
            unfold target plain
            rw [if_neg hm, if_neg h]
            have : s.matrix.point a.x a.y = final cfg.lm T₀ pre (a.x, a.y) := congrFun hN (a.x, a.y)
            simp only [this, show cfg'.round = cfg.round by rw [t.eq]]
            generalize final cfg.lm T₀ pre (a.x, a.y) = q
            have hid : Mat.identity.point q.1 q.2 = q := by simp [Mat.point, Mat.identity]
            rw [hid]
        rw [hstep]
        cases hr : Emb.step cfg pre.length s a with
        | error e => rfl
        | ok s' =>
          have hk : s'.matrix = s.matrix := by
            unfold Emb.step at hr
            exact (Mirror.fine_dispatch hs hc hr).1
          have hf : final cfg.lm T₀ (pre ++ [a]) = final cfg.lm T₀ pre := by
            rw [final_append, final, final, after_other _ _ hm]
          have := run t rest (pre ++ [a]) (s := s') (by rw [hsrc]; simp) (by rw [hf, hk]; exact hN) (fun b hb => ho b (by simp [hb]))
          rw [hf, List.length_append] at this
          rw [after_other _ _ hm]
          exact this

end Transform

open Transform

/-- **C107**: normalizing with a transformation asked for in the settings and with matrix commands in the design gives what
normalizing the transformed design without any gives: the same commands at the same positions, the same threads, the same errors,
whatever is rounded, subdivided or locked. The commands that scale and turn about the needle are left out; the last command must
not be sewn (as with a design that has an END) unless the transformation does not change. -/
theorem C107_flat_partial {o : Settings} {lm : Libm} {threads : List Thread} {l : List Stitch}
    (ho : ∀ a ∈ l, a.cmd % 256 ≠ 0xC4 ∧ a.cmd % 256 ≠ 0xC5)
    (hlast : (∀ b, l.getLast? = some b → b.cmd ∉ [0, 0xB0, 0xB1, 7]) ∨ ∀ a ∈ l, a.cmd % 256 ∉ [0xC0, 0xC1, 0xC2, 0xC3]) :
    encode o lm threads l = encode (bare o) lm threads (flat lm (asked o lm) l) := by
  have hp : buildPlan (bare o) threads (flat lm (asked o lm) l) = buildPlan o threads l := by
    unfold buildPlan rawPlan
    rw [plan]; rfl
  unfold encode
  rw [hp]
  cases hpl : buildPlan o threads l with
  | error e => rfl
  | ok pl =>
    have t : Pair (mkCfg o lm l pl) (mkCfg (bare o) lm (flat lm (asked o lm) l) pl) (asked o lm) := by
      refine ⟨rfl, fun b hb hs => ?_⟩
      rcases hlast with h | h
      · refine absurd ?_ (h b hb)
        rcases hs with hs | hs | hs | hs <;> rw [hs] <;> decide
      · have : ∀ (T : Plane) (l : List Stitch), (∀ a ∈ l, a.cmd % 256 ∉ [0xC0, 0xC1, 0xC2, 0xC3]) → final lm T l = T := by
          intro T l hl
          induction l with
          | nil => rfl
          | cons a l ih => rw [final, after_other lm T (hl a (by simp)), ih fun b hb => hl b (by simp [hb])]
        exact this _ _ fun a ha => h a (List.dropLast_subset l ha)
    have hr := Transform.run t l [] (s := initSt o lm threads) rfl (by funext p; exact asked_matrix o lm p) ho
    have hi : initSt (bare o) lm threads = { initSt o lm threads with matrix := Mat.identity } := rfl
    simp only [List.length_nil] at hr
    simp only
    rw [hi]
    have hr' : runFrom (mkCfg (bare o) lm (flat lm (asked o lm) l) pl) 0 { initSt o lm threads with matrix := Mat.identity }
        (flat lm (asked o lm) l) = _ := hr
    rw [hr']
    cases runFrom (mkCfg o lm l pl) 0 (initSt o lm threads) l <;> rfl

theorem Transform.flat_map (lm : Libm) (T : Plane) : ∀ l : List Stitch, (∀ a ∈ l, a.cmd % 256 ∉ [0xC0, 0xC1, 0xC2, 0xC3] ∧ ¬ a.Length) →
    flat lm T l = l.map fun a => ⟨(T (a.x, a.y)).1, (T (a.x, a.y)).2, a.cmd⟩
  | [], _ => rfl
  | a :: l, h => by
    obtain ⟨h1, h2⟩ := h a (by simp)
    rw [flat, after_other lm T h1, Transform.flat_map lm T l fun b hb => h b (by simp [hb]), List.map_cons]
    unfold plain
    rw [if_neg h1, if_neg h2]

/-- **C107**: calling `transform` on the design, with the matrix the settings would give, and normalizing it without, is the same as
normalizing it with the settings; for designs without matrix commands and without commands that carry a length. -/
theorem C107_transform {o : Settings} {lm : Libm} {threads : List Thread} {l : List Stitch} {M : Mat}
    (hM : ∀ x y, M.point x y = asked o lm (x, y))
    (hl : ∀ a ∈ l, a.cmd % 256 ∉ [0xC0, 0xC1, 0xC2, 0xC3, 0xC4, 0xC5, 0xD5, 0xD6]) :
    encode o lm threads l
      = encode (bare o) lm threads (l.map fun st => { st with x := (M.point st.x st.y).1, y := (M.point st.x st.y).2 }) := by
  have h : ∀ a ∈ l, ∀ c ∈ [(0xC0 : Int), 0xC1, 0xC2, 0xC3, 0xC4, 0xC5, 0xD5, 0xD6], a.cmd % 256 ≠ c :=
    fun a ha c hc e => hl a ha (e ▸ hc)
  have h1 : ∀ a ∈ l, a.cmd % 256 ∉ [(0xC0 : Int), 0xC1, 0xC2, 0xC3] := by
    intro a ha hm
    exact hl a ha (List.mem_of_mem_take (i := 4) hm)
  rw [C107_flat_partial (fun a ha => ⟨h a ha _ (by decide), h a ha _ (by decide)⟩) (.inr h1),
    Transform.flat_map lm _ l fun a ha => ⟨h1 a ha, fun hn => hn.elim (h a ha _ (by decide)) (h a ha _ (by decide))⟩]
  congr 1
  refine List.map_congr_left fun a _ => ?_
  rw [hM]

/-! Beside them: a design that is turned and moved while it is sewn, with a changed limit and lock stitches; the settings ask for
a scale. -/

def flatDemo : List Stitch :=
  [⟨5, 0, 0xC0⟩, ⟨1, 1, 0⟩, ⟨30, 0, 0xD5⟩, ⟨1, 2, 0⟩, ⟨2, 3, 0xC1⟩, ⟨10, 10, 0⟩, ⟨0, 0, 0xC3⟩, ⟨3, 3, 0⟩, ⟨0, 0, 4⟩]

example : flat demoLm (asked { scale := some (10, 10) } demoLm) flatDemo
    = [⟨5, 0, 0xFF⟩, ⟨60, 10, 0⟩, ⟨30, 0, 0xD5⟩, ⟨60, 20, 0⟩, ⟨2, 3, 0xFF⟩, ⟨250, 300, 0⟩, ⟨0, 0, 0xFF⟩, ⟨3, 3, 0⟩, ⟨0, 0, 4⟩] := by
  decide +kernel

example : (∀ a ∈ flatDemo, a.cmd % 256 ≠ 0xC4 ∧ a.cmd % 256 ≠ 0xC5)
    ∧ ∀ b, flatDemo.getLast? = some b → b.cmd ∉ [0, 0xB0, 0xB1, 7] := by
  refine ⟨by decide, ?_⟩
  intro b hb
  have : b = ⟨0, 0, 4⟩ := by simpa [flatDemo] using hb.symm
  subst this; decide

/-- **C107**: `transform` also scales the lengths that commands carry, so there the two ways differ: the limit of 30 for stitches
becomes 60. -/
theorem C107_lengths_fails : ∃ (o : Settings) (lm : Libm) (M : Mat) (l : List Stitch), (∀ x y, M.point x y = asked o lm (x, y)) ∧
    (∀ a ∈ l, a.cmd % 256 ∉ [0xC0, 0xC1, 0xC2, 0xC3, 0xC4, 0xC5]) ∧
    encode o lm [] l
      ≠ encode (bare o) lm [] (l.map fun st => { st with x := (M.point st.x st.y).1, y := (M.point st.x st.y).2 }) := by
  refine ⟨{ scale := some (2, 2) }, demoLm, Mat.getScale 2 none, [⟨0, 0, 0⟩, ⟨30, 0, 0xD5⟩, ⟨25, 0, 0⟩, ⟨0, 0, 4⟩], ?_, by decide, ?_⟩
  · intro x y
    simp [Mat.point, Mat.getScale, asked, mul_comm]
  · decide +kernel

/-- **C107**: why the last command must not be sewn where the transformation changes: a TIE_OFF that comes first looks at the last command
(index -1) and places it by the matrix of the beginning. -/
theorem C107_wrap_fails : ∃ (o : Settings) (lm : Libm) (l : List Stitch), (∀ a ∈ l, a.cmd % 256 ≠ 0xC4 ∧ a.cmd % 256 ≠ 0xC5) ∧
    encode o lm [] l ≠ encode (bare o) lm [] (flat lm (asked o lm) l) := by
  refine ⟨{ tieOff := .bool true }, demoLm, [⟨0, 0, TIE_OFF⟩, ⟨10, 0, 0xC0⟩, ⟨5, 0, 0⟩], by decide, ?_⟩
  decide +kernel

end Emb
