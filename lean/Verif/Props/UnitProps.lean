import Verif.Props.MirrorProps
import Mathlib.Tactic.FieldSimp

/-!
# C111: the normalization knows no unit of length

A design given in another unit, with the limits and the shift given in that unit too, is normalized to the same result in that
unit.
-/

namespace Emb

/-- The commands that carry factors or an angle instead of a position or a length: `MATRIX_SCALE_ORIGIN`,
`MATRIX_ROTATE_ORIGIN`, `MATRIX_SCALE`, `MATRIX_ROTATE`. -/
def Stitch.Unitless (st : Stitch) : Prop := st.cmd % 256 ∈ ([0xC1, 0xC2, 0xC4, 0xC5] : List Int)

instance (st : Stitch) : Decidable st.Unitless := inferInstanceAs (Decidable (_ ∈ _))

/-- The stitch with its position (or length) in a unit of which `k` make one. -/
def Stitch.times (k : ℚ) (st : Stitch) : Stitch := ⟨k * st.x, k * st.y, st.cmd⟩

/-- A command of a design in the other unit. -/
def Stitch.inUnit (k : ℚ) (st : Stitch) : Stitch := if st.Unitless then st else st.times k

/-- The settings in the other unit. -/
def Settings.inUnit (k : ℚ) (o : Settings) : Settings :=
  { o with
    maxStitch := o.maxStitch.map (k * ·)
    maxJump := o.maxJump.map (k * ·)
    translate := o.translate.map fun t => (k * t.1, k * t.2) }

/-- The C functions know no unit either. -/
structure Libm.Unitless (lm : Libm) (k : ℚ) : Prop where
  dist : ∀ x y x' y', lm.dist (k * x) (k * y) (k * x') (k * y') = k * lm.dist x y x' y'
  oriented : ∀ x y x' y' d, lm.oriented (k * x) (k * y) (k * x') (k * y') (k * d)
    = (k * (lm.oriented x y x' y' d).1, k * (lm.oriented x y x' y' d).2)

namespace Units

variable (k : ℚ)

/-- The matrix in the other unit. -/
def mat (m : Mat) : Mat := ⟨m.m0, m.m1, m.m2 / k, m.m3, m.m4, m.m5 / k, k * m.m6, k * m.m7, m.m8⟩

/-- The state in the other unit. -/
def st (s : St) : St :=
  { s with
    nx := k * s.nx
    ny := k * s.ny
    out := s.out.map (Stitch.times k)
    maxStitch := s.maxStitch.map (k * ·)
    maxJump := s.maxJump.map (k * ·)
    matrix := mat k s.matrix }

variable {k : ℚ}

theorem mat_point (m : Mat) (x y : ℚ) : (mat k m).point (k * x) (k * y) = (k * (m.point x y).1, k * (m.point x y).2) := by
  simp only [mat, Mat.point, Prod.mk.injEq]
  constructor <;> ring

theorem mat_multiply (hk : 0 < k) (a b : Mat) : (mat k a).multiply (mat k b) = mat k (a.multiply b) := by
  have := hk.ne'
  simp only [mat, Mat.multiply, Mat.mk.injEq]
  refine ⟨?_, ?_, ?_, ?_, ?_, ?_, ?_, ?_, ?_⟩ <;> field_simp

theorem mat_scale (x : ℚ) (y : Option ℚ) : mat k (.getScale x y) = .getScale x y := by simp [mat, Mat.getScale]

theorem mat_rotate (c s : ℚ) : mat k (.getRotate c s) = .getRotate c s := by simp [mat, Mat.getRotate]

theorem mat_translate (x y : ℚ) : mat k (.getTranslate x y) = .getTranslate (k * x) (k * y) := by simp [mat, Mat.getTranslate]

theorem mat_identity : mat k .identity = .identity := by simp [mat, Mat.identity]

theorem post_translate (hk : 0 < k) (m : Mat) (x y : ℚ) : (mat k m).postTranslate (k * x) (k * y) = mat k (m.postTranslate x y) := by
  unfold Mat.postTranslate
  rw [← mat_translate, mat_multiply hk]

theorem post_scale (hk : 0 < k) (m : Mat) (a b x y : ℚ) : (mat k m).postScale a b (k * x) (k * y) = mat k (m.postScale a b x y) := by
  unfold Mat.postScale
  simp only [mul_eq_zero, hk.ne', false_or]
  split
  · rw [← mat_multiply hk, mat_scale]
  · conv_lhs => rw [← mul_neg, ← mul_neg, post_translate hk, ← mat_scale (k := k), mat_multiply hk, post_translate hk]

theorem post_rotate (hk : 0 < k) (m : Mat) (a b x y : ℚ) : (mat k m).postRotate a b (k * x) (k * y) = mat k (m.postRotate a b x y) := by
  unfold Mat.postRotate
  simp only [mul_eq_zero, hk.ne', false_or]
  split
  · rw [← mat_multiply hk, mat_rotate]
  · conv_lhs => rw [← mul_neg, ← mul_neg, post_translate hk, ← mat_rotate (k := k), mat_multiply hk, post_translate hk]

theorem inverse (hk : 0 < k) (m : Mat) : (mat k m).inverse = m.inverse.map (mat k) := by
  have h := hk.ne'
  have hd : (mat k m).m0 * ((mat k m).m4 * (mat k m).m8 - (mat k m).m7 * (mat k m).m5)
      + (mat k m).m1 * ((mat k m).m5 * (mat k m).m6 - (mat k m).m3 * (mat k m).m8)
      + (mat k m).m2 * ((mat k m).m3 * (mat k m).m7 - (mat k m).m4 * (mat k m).m6)
      = m.m0 * (m.m4 * m.m8 - m.m7 * m.m5) + m.m1 * (m.m5 * m.m6 - m.m3 * m.m8) + m.m2 * (m.m3 * m.m7 - m.m4 * m.m6) := by
    simp only [mat]
    field_simp
  unfold Mat.inverse
  simp only [hd]
  generalize m.m0 * (m.m4 * m.m8 - m.m7 * m.m5) + m.m1 * (m.m5 * m.m6 - m.m3 * m.m8)
    + m.m2 * (m.m3 * m.m7 - m.m4 * m.m6) = d
  split
  · rfl
  · rw [Mirror.map_ok]
    congr 1
    simp only [mat, Mat.mk.injEq]
    refine ⟨?_, ?_, ?_, ?_, ?_, ?_, ?_, ?_, ?_⟩ <;> first | trivial | field_simp

theorem settings_matrix (hk : 0 < k) (o : Settings) (lm : Libm) : (o.inUnit k).matrix lm = mat k (o.matrix lm) := by
  have hs : ∀ (m : Mat) (a b : ℚ), (mat k m).postScale a b 0 0 = mat k (m.postScale a b 0 0) := fun m a b => by
    simpa using post_scale hk m a b 0 0
  have hr : ∀ (m : Mat) (a b : ℚ), (mat k m).postRotate a b 0 0 = mat k (m.postRotate a b 0 0) := fun m a b => by
    simpa using post_rotate hk m a b 0 0
  unfold Settings.matrix Settings.inUnit
  rcases o.translate with _ | t <;> rcases o.scale with _ | s <;> rcases o.rotate with _ | r <;>
    simp only [Option.map_none, Option.map_some, ← hs, ← hr, ← post_translate hk, mat_identity]

/-! ## The commands -/

theorem add (s : St) (c : Int) : (st k s).add c = st k (s.add c) := by
  simp [st, St.add, Stitch.times]

theorem moveTo (s : St) (c : Int) (x y : ℚ) : (st k s).moveTo c (k * x) (k * y) = st k (s.moveTo c x y) := by
  simp [st, St.moveTo, Stitch.times]

theorem nextChange (cfg : Cfg) (s : St) : Emb.nextChange cfg (st k s) = (Emb.nextChange cfg s).map (st k) := by
  unfold Emb.nextChange
  rw [show (st k s).order = s.order from rfl]
  cases dget (s.order + 1) cfg.plan with
  | none => rfl
  | some ch =>
    simp only [Mirror.map_ok]
    split_ifs <;> simp [st, Stitch.times]

theorem declare (cfg : Cfg) (s : St) : declareNotTrimmed cfg (st k s) = (declareNotTrimmed cfg s).map (st k) := by
  unfold declareNotTrimmed
  rw [show (st k s).order = s.order from rfl]
  split_ifs
  · rw [nextChange]
    exact Mirror.map_bind fun a => rfl
  · rfl

theorem toggle (s : St) : toggleSequins (st k s) = st k (toggleSequins s) := by
  unfold toggleSequins
  rw [show (st k s).sequinC = s.sequinC from rfl]
  split_ifs
  · rw [add]; rfl
  · rfl

theorem leave_mode (s : St) :
    (if (st k s).sequinMode then toggleSequins (st k s) else st k s) = st k (if s.sequinMode then toggleSequins s else s) := by
  rw [show (st k s).sequinMode = s.sequinMode from rfl, toggle]
  split_ifs <;> rfl

theorem trim (s : St) : trimHere (st k s) = st k (trimHere s) := by
  unfold trimHere
  simp only
  rw [leave_mode, add]
  rfl

theorem gapLoop (data : Int) (x y : ℚ) : ∀ (n : Nat) (s : St),
    Emb.gapLoop data (k * x) (k * y) n (st k s) = st k (Emb.gapLoop data x y n s)
  | 0, s => rfl
  | n + 1, s => by
    unfold Emb.gapLoop
    rw [← gapLoop data x y n, ← moveTo, mul_add, mul_add]; rfl

theorem tooFar (hk : 0 < k) (limit : Option ℚ) (x y : ℚ) : Emb.tooFar (limit.map (k * ·)) (k * x) (k * y) = Emb.tooFar limit x y := by
  cases limit with
  | none => rfl
  | some m => simp [Emb.tooFar, abs_mul, abs_of_pos hk, hk]

theorem gap (hk : 0 < k) (s : St) (x y : ℚ) (limit : Option ℚ) (data : Int) :
    Emb.gap (st k s) (k * x) (k * y) (limit.map (k * ·)) data = (Emb.gap s x y limit data).map (st k) := by
  cases limit with
  | none => rfl
  | some m =>
    have hf := tooFar hk (some m) (x - s.nx) (y - s.ny)
    have hd : ∀ a : ℚ, k * a / (k * m) = a / m := fun a => mul_div_mul_left a m hk.ne'
    unfold Emb.gap
    simp only [Option.map_some] at hf ⊢
    rw [show k * x - (st k s).nx = k * (x - s.nx) by rw [mul_sub]; rfl, show k * y - (st k s).ny = k * (y - s.ny) by rw [mul_sub]; rfl]
    rw [hf, hd, hd]
    generalize x - s.nx = dx
    generalize y - s.ny = dy
    have ht : (if data = JUMP ∧ (st k s).sequinMode then toggleSequins (st k s) else st k s)
        = st k (if data = JUMP ∧ s.sequinMode then toggleSequins s else s) := by
      rw [show (st k s).sequinMode = s.sequinMode from rfl, toggle]
      split_ifs <;> rfl
    rw [ht]
    generalize (if ceilQ |dx / m| > ceilQ |dy / m| then ceilQ |dx / m| else ceilQ |dy / m|) = n
    generalize (if data = JUMP ∧ s.sequinMode then toggleSequins s else s) = s'
    simp only [mul_eq_zero, hk.ne', false_or]
    split_ifs
    · rfl
    · rfl
    · rw [Mirror.map_ok, ← gapLoop, mul_div_assoc, mul_div_assoc]
    · rfl

theorem jumpAt (s : St) (x y : ℚ) : Emb.jumpAt (st k s) (k * x) (k * y) = st k (Emb.jumpAt s x y) := by
  unfold Emb.jumpAt
  simp only
  rw [leave_mode, moveTo]

theorem jumpToWithin (hk : 0 < k) (cfg : Cfg) (s : St) (x y : ℚ) :
    Emb.jumpToWithin cfg (st k s) (k * x) (k * y) = (Emb.jumpToWithin cfg s x y).map (st k) := by
  unfold Emb.jumpToWithin
  rw [show (st k s).maxJump = s.maxJump.map (k * ·) from rfl, gap hk]
  refine Mirror.map_bind fun a => ?_
  have hn : ((st k a).nx ≠ k * x ∨ (st k a).ny ≠ k * y) ↔ (a.nx ≠ x ∨ a.ny ≠ y) := by
    simp [st, hk.ne']
  simp only [hn, jumpAt]
  split_ifs <;> rfl

theorem jumpTo (hk : 0 < k) (s : St) (x y : ℚ) : Emb.jumpTo (st k s) (k * x) (k * y) = (Emb.jumpTo s x y).map (st k) := by
  unfold Emb.jumpTo
  rw [show (st k s).maxJump = s.maxJump.map (k * ·) from rfl, gap hk]
  exact Mirror.map_bind fun a => congrArg Except.ok (jumpAt a x y)

theorem stitchAt (s : St) (x y : ℚ) : Emb.stitchAt (st k s) (k * x) (k * y) = st k (Emb.stitchAt s x y) := moveTo s _ x y

theorem sewTo (hk : 0 < k) (s : St) (x y : ℚ) : Emb.sewTo (st k s) (k * x) (k * y) = (Emb.sewTo s x y).map (st k) := by
  unfold Emb.sewTo
  rw [show (st k s).maxStitch = s.maxStitch.map (k * ·) from rfl, gap hk]
  exact Mirror.map_bind fun a => congrArg Except.ok (stitchAt a x y)

theorem needleTo (hk : 0 < k) (s : St) (x y : ℚ) : Emb.needleTo (st k s) (k * x) (k * y) = (Emb.needleTo s x y).map (st k) := by
  unfold Emb.needleTo
  rw [show (st k s).maxStitch = s.maxStitch.map (k * ·) from rfl, gap hk]
  exact Mirror.map_bind fun a => congrArg Except.ok (stitchAt a x y)

theorem contingency (hk : 0 < k) (s : St) (x y : ℚ) :
    stitchWithContingency (st k s) (k * x) (k * y) = (stitchWithContingency s x y).map (st k) := by
  unfold stitchWithContingency
  rw [show (st k s).longC = s.longC from rfl, sewTo hk, needleTo hk, stitchAt]
  split_ifs <;> rfl

theorem sequinAt (hk : 0 < k) (s : St) (x y : ℚ) : Emb.sequinAt (st k s) (k * x) (k * y) = (Emb.sequinAt s x y).map (st k) := by
  unfold Emb.sequinAt
  simp only
  rw [show (st k s).sequinC = s.sequinC from rfl, show (st k s).maxStitch = s.maxStitch.map (k * ·) from rfl, gap hk]
  split_ifs with h1 h2 h3 h4
  · rfl
  all_goals
    refine Mirror.map_bind fun a => congrArg Except.ok ?_
    try rw [moveTo]
    rfl

theorem matrixStep (hk : 0 < k) (cfg cfg' : Cfg) (hlm : cfg'.lm = cfg.lm) (s : St) (a : Stitch) :
    Emb.matrixStep cfg' (st k s) (a.inUnit k) (a.cmd % 256) = (Emb.matrixStep cfg s a (a.cmd % 256)).map (st k) := by
  have hp : needlePreimage (st k s) = (needlePreimage s).map fun r => (mat k r.1, k * r.2.1, k * r.2.2) := by
    unfold needlePreimage
    rw [show (st k s).matrix = mat k s.matrix from rfl, inverse hk]
    refine Mirror.map_bind fun m => ?_
    simp only
    rw [inverse hk, show (st k s).nx = k * s.nx from rfl, show (st k s).ny = k * s.ny from rfl, mat_point]
    exact Mirror.map_bind fun m' => rfl
  have hu : a.cmd % 256 ∈ ([0xC1, 0xC2, 0xC4, 0xC5] : List Int) → a.inUnit k = a := fun h => if_pos h
  unfold Emb.matrixStep
  rw [hlm, hp]
  refine Mirror.ite_map (fun h => ?_) fun _ => Mirror.ite_map (fun h => ?_) fun _ => Mirror.ite_map (fun h => ?_) fun _ =>
    Mirror.ite_map (fun h => ?_) fun _ => Mirror.ite_map (fun h => ?_) fun _ => Mirror.ite_map (fun h => ?_) fun _ => rfl
  · have : ¬ a.Unitless := by unfold Stitch.Unitless; rw [h]; decide
    unfold Stitch.inUnit
    rw [if_neg this, show (st k s).matrix = mat k s.matrix from rfl,
      show (a.times k).x = k * a.x from rfl, show (a.times k).y = k * a.y from rfl, post_translate hk]
    rfl
  · rw [hu (by rw [h]; decide), show (st k s).matrix = mat k s.matrix from rfl]
    have := post_scale hk s.matrix a.x a.y 0 0
    rw [mul_zero] at this
    rw [this]; rfl
  · rw [hu (by rw [h]; decide), show (st k s).matrix = mat k s.matrix from rfl]
    have := post_rotate hk s.matrix (cfg.lm.cos a.x) (cfg.lm.sin a.x) 0 0
    rw [mul_zero] at this
    rw [this]; rfl
  · rw [hu (by rw [h]; decide)]
    refine Mirror.map_bind fun r => congrArg Except.ok ?_
    rw [post_scale hk]; rfl
  · rw [hu (by rw [h]; decide)]
    refine Mirror.map_bind fun r => congrArg Except.ok ?_
    rw [post_rotate hk]; rfl
  · rw [Mirror.map_ok]
    unfold st
    simp only [mat_identity]

theorem leave (s : St) (v : Int) : leaveSequins (st k s) v = st k (leaveSequins s v) := by
  unfold leaveSequins
  rw [leave_mode]; rfl

theorem setting (hk : 0 < k) (cfg cfg' : Cfg) (hlm : cfg'.lm = cfg.lm) (s : St) (a : Stitch) :
    settingStep cfg' (st k s) (a.inUnit k) (a.cmd % 256) = (settingStep cfg s a (a.cmd % 256)).map (st k) := by
  have hx : a.cmd % 256 = 0xD5 ∨ a.cmd % 256 = 0xD6 → (a.inUnit k).x = k * a.x := by
    intro h
    have : ¬ a.Unitless := by unfold Stitch.Unitless; rcases h with h | h <;> rw [h] <;> decide
    unfold Stitch.inUnit
    rw [if_neg this]; rfl
  unfold settingStep
  iterate 4 refine Mirror.ite_map (fun _ => rfl) fun _ => ?_
  refine Mirror.ite_map (fun h => by rw [hx (.inr h)]; rfl) fun _ => ?_
  refine Mirror.ite_map (fun h => by rw [hx (.inl h)]; rfl) fun _ => ?_
  iterate 5 refine Mirror.ite_map (fun _ => rfl) fun _ => ?_
  iterate 3 refine Mirror.ite_map (fun _ => by rw [leave]; rfl) fun _ => ?_
  refine Mirror.ite_map (fun _ => rfl) fun _ => ?_
  exact matrixStep hk cfg cfg' hlm s a

/-! ## The ties -/

/-- Either no lock stitches are asked for, or the C functions know no unit. -/
def Locks (k : ℚ) (lm : Libm) (s : St) : Prop :=
  lm.Unitless k ∨ (s.tieOnC ≠ CONTINGENCY_TIE_ON_THREE_SMALL ∧ s.tieOffC ≠ CONTINGENCY_TIE_OFF_THREE_SMALL)

theorem Locks.of_kept {lm : Libm} {s s' : St} (h : Locks k lm s) (e : Mirror.Kept s s') : Locks k lm s' := by
  rcases h with hf | hn
  · exact .inl hf
  · exact .inr (by rw [e.2.1, e.2.2]; exact hn)

section
variable {cfg : Cfg}

/-- The other run goes over the design in the other unit. -/
def conf (k : ℚ) (cfg : Cfg) : Cfg := { cfg with source := cfg.source.map (Stitch.inUnit k) }

theorem inUnit_cmd (a : Stitch) : (a.inUnit k).cmd = a.cmd := by
  unfold Stitch.inUnit
  split <;> rfl

theorem locks (hk : 0 < k) (hf : cfg.lm.Unitless k) (s : St) (b : Stitch) :
    lockTowards (conf k cfg) (st k s) (b.inUnit k) = st k (lockTowards cfg s b) := by
  unfold lockTowards
  simp only [inUnit_cmd]
  split_ifs with hb
  · have hb' : ¬ b.Unitless := by
      unfold Stitch.Unitless
      rcases hb with hb | hb | hb | hb <;> rw [hb] <;> decide
    unfold Stitch.inUnit
    rw [if_neg hb', show (b.times k).x = k * b.x from rfl, show (b.times k).y = k * b.y from rfl,
      show (st k s).matrix = mat k s.matrix from rfl, mat_point, show (conf k cfg).lm = cfg.lm from rfl]
    generalize s.matrix.point b.x b.y = p
    have ha : lockAnchor cfg.lm (k * s.nx) (k * s.ny) (k * p.1) (k * p.2) (s.maxStitch.map (k * ·))
        = (k * (lockAnchor cfg.lm s.nx s.ny p.1 p.2 s.maxStitch).1, k * (lockAnchor cfg.lm s.nx s.ny p.1 p.2 s.maxStitch).2) := by
      unfold lockAnchor
      rw [hf.dist]
      cases s.maxStitch with
      | none => rfl
      | some m =>
        have : exceeds (some (k * m)) (k * cfg.lm.dist s.nx s.ny p.1 p.2) = exceeds (some m) (cfg.lm.dist s.nx s.ny p.1 p.2) := by
          simp [exceeds, hk]
        simp only [Option.map_some, Option.getD_some, this, hf.oriented]
        split_ifs <;> rfl
    unfold lockStitches
    rw [show (st k s).nx = k * s.nx from rfl, show (st k s).ny = k * s.ny from rfl,
      show (st k s).maxStitch = s.maxStitch.map (k * ·) from rfl]
    simp only [ha]
    generalize lockAnchor cfg.lm s.nx s.ny p.1 p.2 s.maxStitch = a
    have ht : ∀ u v c : ℚ, towards (k * u) (k * v) c = k * towards u v c := fun u v c => by unfold towards; ring
    simp only [ht]
    simp only [st, List.map_append, List.map_map, Function.comp_def, Stitch.times]
  · rfl

theorem tieOff (hk : 0 < k) {s : St} (hl : Locks k cfg.lm s) (i : Nat) :
    Emb.tieOff (conf k cfg) i (st k s) = st k (Emb.tieOff cfg i s) := by
  unfold Emb.tieOff
  rw [show (st k s).tieOffC = s.tieOffC from rfl]
  split_ifs with hc
  · rcases hl with hf | ⟨-, hn⟩
    · rw [show (conf k cfg).source = cfg.source.map (Stitch.inUnit k) from rfl, Mirror.pyGet_map]
      cases pyGet cfg.source ((i : Int) - 1) with
      | error e => rfl
      | ok b => exact locks hk hf s b
    · exact absurd hc hn
  · rfl

theorem tieOn (hk : 0 < k) {s : St} (hl : Locks k cfg.lm s) (i : Nat) :
    Emb.tieOn (conf k cfg) i (st k s) = st k (Emb.tieOn cfg i s) := by
  unfold Emb.tieOn
  rw [show (st k s).tieOnC = s.tieOnC from rfl]
  split_ifs with hc
  · rcases hl with hf | ⟨hn, -⟩
    · rw [show (conf k cfg).source = cfg.source.map (Stitch.inUnit k) from rfl, Mirror.pyGet_map]
      cases pyGet cfg.source ((i : Int) + 1) with
      | error e => rfl
      | ok b => exact locks hk hf s b
    · exact absurd hc hn
  · rfl

theorem lookahead (i : Nat) : Emb.lookahead (conf k cfg) i = Emb.lookahead cfg i := by
  unfold Emb.lookahead
  rw [show (conf k cfg).source = cfg.source.map (Stitch.inUnit k) from rfl, ← List.map_drop, Mirror.lookaheadIn inUnit_cmd]

theorem explicitTrim (hk : 0 < k) {s : St} (hl : Locks k cfg.lm s) (i : Nat) :
    tieOffTrimIfExplicit (conf k cfg) i (st k s) = st k (tieOffTrimIfExplicit cfg i s) := by
  unfold tieOffTrimIfExplicit
  simp only
  rw [show (st k s).trimmed = s.trimmed from rfl, tieOff hk hl]
  rw [show ∀ s, (st k s).explicitTrim = s.explicitTrim from fun _ => rfl, trim]
  split_ifs <;> rfl

theorem trimIfNeeded (hk : 0 < k) {s : St} (hl : Locks k cfg.lm s) (i : Nat) :
    tieOffAndTrimIfNeeded (conf k cfg) i (st k s) = st k (tieOffAndTrimIfNeeded cfg i s) := by
  unfold tieOffAndTrimIfNeeded
  rw [show (st k s).trimmed = s.trimmed from rfl, tieOff hk hl, trim]
  split_ifs <;> rfl

theorem nextChange' (s : St) : Emb.nextChange (conf k cfg) (st k s) = (Emb.nextChange cfg s).map (st k) := by
  rw [nextChange]; rfl

theorem colorChange (hk : 0 < k) {s : St} (hl : Locks k cfg.lm s) (i : Nat) :
    Emb.colorChange (conf k cfg) i (st k s) = (Emb.colorChange cfg i s).map (st k) := by
  unfold Emb.colorChange
  rw [explicitTrim hk hl, nextChange']
  exact Mirror.map_bind fun a => rfl

theorem colorBreak (hk : 0 < k) {s : St} (hl : Locks k cfg.lm s) (i : Nat) :
    Emb.colorBreak (conf k cfg) i (st k s) = (Emb.colorBreak cfg i s).map (st k) := by
  unfold Emb.colorBreak
  simp only
  rw [show (st k s).order = s.order from rfl, explicitTrim hk hl, lookahead, nextChange']
  split_ifs
  · rfl
  · exact Mirror.map_bind fun a => rfl
  · rfl

theorem firstStrike (hk : 0 < k) {s : St} (hl : Locks k cfg.lm s) (i : Nat) (x y : ℚ) :
    Emb.firstStrike (conf k cfg) i (st k s) (k * x) (k * y) = (Emb.firstStrike cfg i s x y).map (st k) := by
  unfold Emb.firstStrike
  have hd : declareNotTrimmed (conf k cfg) (st k s) = (declareNotTrimmed cfg s).map (st k) := by rw [declare]; rfl
  rw [hd]
  refine Mirror.map_bind_ok fun a ha => ?_
  have hj : Emb.jumpToWithin (conf k cfg) (st k a) (k * x) (k * y) = (Emb.jumpToWithin cfg a x y).map (st k) := by
    rw [jumpToWithin hk]; rfl
  rw [hj]
  refine Mirror.map_bind_ok fun b hb => congrArg Except.ok ?_
  rw [stitchAt]
  exact tieOn hk (s := Emb.stitchAt b x y) (hl.of_kept (((Mirror.kept_declare ha).trans (Mirror.kept_jumpToWithin hb)).trans ⟨rfl, rfl, rfl⟩)) i

theorem sewStep (hk : 0 < k) {s : St} (hl : Locks k cfg.lm s) (i : Nat) (x y : ℚ) {direct : St → ℚ → ℚ → Except PyErr St}
    (hd : direct (st k s) (k * x) (k * y) = (direct s x y).map (st k)) :
    Emb.sewStep (conf k cfg) i (st k s) (k * x) (k * y) direct = (Emb.sewStep cfg i s x y direct).map (st k) := by
  unfold Emb.sewStep
  rw [show (st k s).trimmed = s.trimmed from rfl, show (st k s).jumping = s.jumping from rfl, firstStrike hk hl, needleTo hk, hd]
  split_ifs
  · rfl
  · exact Mirror.map_bind fun a => rfl
  · rfl

theorem ejectStep (hk : 0 < k) {s : St} (hl : Locks k cfg.lm s) (i : Nat) (x y : ℚ) :
    Emb.ejectStep (conf k cfg) i (st k s) (k * x) (k * y) = (Emb.ejectStep cfg i s x y).map (st k) := by
  unfold Emb.ejectStep
  rw [show (st k s).trimmed = s.trimmed from rfl, firstStrike hk hl]
  have : (if s.trimmed then (Emb.firstStrike cfg i s x y).map (st k) else .ok (st k s))
      = (if s.trimmed then Emb.firstStrike cfg i s x y else .ok s).map (st k) := by
    split_ifs <;> rfl
  rw [this]
  refine Mirror.map_bind fun a => ?_
  have : (if (st k a).sequinMode then st k a else toggleSequins (st k a)) = st k (if a.sequinMode then a else toggleSequins a) := by
    rw [show (st k a).sequinMode = a.sequinMode from rfl, toggle]
    split_ifs <;> rfl
  rw [this, sequinAt hk]

theorem frameEject (hk : 0 < k) {s : St} (hl : Locks k cfg.lm s) (i : Nat) (x y : ℚ) :
    Emb.frameEject (conf k cfg) i (st k s) (k * x) (k * y) = (Emb.frameEject cfg i s x y).map (st k) := by
  unfold Emb.frameEject
  rw [trimIfNeeded hk hl, jumpTo hk]
  refine Mirror.map_bind fun a => congrArg Except.ok ?_
  unfold stopHere
  rw [add]; rfl

theorem dispatch (hk : 0 < k) {s : St} (hl : Locks k cfg.lm s) (i : Nat) (a : Stitch) {p : ℚ × ℚ} {x y : ℚ}
    (hp : ¬ a.Unitless → x = k * p.1 ∧ y = k * p.2) :
    Emb.dispatch (conf k cfg) i (st k s) (a.inUnit k) x y (a.cmd % 256) = (Emb.dispatch cfg i s a p.1 p.2 (a.cmd % 256)).map (st k) := by
  have hS := setting hk cfg (conf k cfg) rfl s a
  by_cases hu : a.Unitless
  · have hu' : a.cmd % 256 ∈ ([0xC1, 0xC2, 0xC4, 0xC5] : List Int) := hu
    simp only [List.mem_cons, List.not_mem_nil, or_false] at hu'
    rcases hu' with h | h | h | h <;> rw [h] at hS ⊢ <;> exact hS
  · obtain ⟨hx, hy⟩ := hp hu
    subst hx hy
    unfold Emb.dispatch
    refine Mirror.ite_map (fun _ => sewStep hk hl i _ _ (contingency hk s _ _)) fun _ => ?_
    refine Mirror.ite_map (fun _ => sewStep hk hl i _ _ (needleTo hk s _ _)) fun _ => ?_
    refine Mirror.ite_map (fun _ => sewStep hk hl i _ _ (sewTo hk s _ _)) fun _ => ?_
    refine Mirror.ite_map (fun _ => rfl) fun _ => ?_
    refine Mirror.ite_map (fun _ => frameEject hk hl i _ _) fun _ => ?_
    refine Mirror.ite_map (fun _ => congrArg Except.ok (trimIfNeeded hk hl i)) fun _ => ?_
    refine Mirror.ite_map (fun _ => colorBreak hk hl i) fun _ => ?_
    refine Mirror.ite_map (fun _ => congrArg Except.ok (tieOff hk hl i)) fun _ => ?_
    refine Mirror.ite_map (fun _ => congrArg Except.ok (tieOn hk hl i)) fun _ => ?_
    refine Mirror.ite_map (fun _ => congrArg Except.ok (trimIfNeeded hk hl i)) fun _ => ?_
    refine Mirror.ite_map (fun _ => Mirror.ite_map (fun _ => rfl) fun _ => jumpTo hk s _ _) fun _ => ?_
    refine Mirror.ite_map (fun _ => congrArg Except.ok (toggle s)) fun _ => ?_
    refine Mirror.ite_map (fun _ => ejectStep hk hl i _ _) fun _ => ?_
    refine Mirror.ite_map (fun _ => colorChange hk hl i) fun _ => ?_
    refine Mirror.ite_map (fun _ => colorChange hk hl i) fun _ => ?_
    refine Mirror.ite_map (fun _ => congrArg Except.ok (by unfold stopHere; rw [add]; rfl)) fun _ => ?_
    refine Mirror.ite_map (fun _ => congrArg Except.ok ?_) fun _ => ?_
    · rw [show (conf k cfg).writesSpeeds = cfg.writesSpeeds from rfl, add]
      split <;> rfl
    refine Mirror.ite_map (fun _ => congrArg Except.ok ?_) fun _ => hS
    rw [show (conf k cfg).writesSpeeds = cfg.writesSpeeds from rfl, add]
    split <;> rfl

/-- If the C functions may know a unit, the design asks for no lock stitches. -/
def Calm (k : ℚ) (lm : Libm) (c : Int) : Prop := lm.Unitless k ∨ c ∉ ([0xD1, 0xD2] : List Int)

theorem locks_setting {s s' : St} {a : Stitch} {c : Int} (hc : Calm k cfg.lm c) (hs : Locks k cfg.lm s)
    (h : settingStep cfg s a c = .ok s') : Locks k cfg.lm s' := by
  rcases hc with hf | hd
  · exact .inl hf
  simp only [List.mem_cons, List.not_mem_nil, or_false, not_or] at hd
  have ho : ∀ v, Mirror.Kept s (leaveSequins s v) := fun v => (Mirror.kept_off s).trans ⟨rfl, rfl, rfl⟩
  have hm : ∀ {s' : St}, Emb.matrixStep cfg s a c = .ok s' → Locks k cfg.lm s' := by
    intro s' h
    unfold Emb.matrixStep at h
    refine Mirror.ite_ok h (fun _ h => by injection h with h; subst h; exact hs) fun _ h => ?_
    refine Mirror.ite_ok h (fun _ h => by injection h with h; subst h; exact hs) fun _ h => ?_
    refine Mirror.ite_ok h (fun _ h => by injection h with h; subst h; exact hs) fun _ h => ?_
    refine Mirror.ite_ok h (fun _ h => ?_) fun _ h => ?_
    · cases hp : needlePreimage s with
      | error e => rw [hp] at h; exact nomatch h
      | ok r => rw [hp] at h; injection h with h; subst h; exact hs
    refine Mirror.ite_ok h (fun _ h => ?_) fun _ h => ?_
    · cases hp : needlePreimage s with
      | error e => rw [hp] at h; exact nomatch h
      | ok r => rw [hp] at h; injection h with h; subst h; exact hs
    refine Mirror.ite_ok h (fun _ h => by injection h with h; subst h; exact hs) fun _ h => ?_
    injection h with h; subst h; exact hs
  unfold settingStep at h
  refine Mirror.ite_ok h (fun h1 h => absurd h1 hd.1) fun _ h => ?_
  refine Mirror.ite_ok h (fun h1 h => absurd h1 hd.2) fun _ h => ?_
  refine Mirror.ite_ok h (fun h1 h => ?_) fun _ h => ?_
  · injection h with h; subst h
    exact hs.imp_right fun hn => ⟨by simp [CONTINGENCY_TIE_ON_NONE, CONTINGENCY_TIE_ON_THREE_SMALL], hn.2⟩
  refine Mirror.ite_ok h (fun h1 h => ?_) fun _ h => ?_
  · injection h with h; subst h
    exact hs.imp_right fun hn => ⟨hn.1, by simp [CONTINGENCY_TIE_OFF_NONE, CONTINGENCY_TIE_OFF_THREE_SMALL]⟩
  iterate 7
    refine Mirror.ite_ok h (fun h1 h => by injection h with h; subst h; exact hs.of_kept ⟨rfl, rfl, rfl⟩) fun _ h => ?_
  iterate 3
    refine Mirror.ite_ok h (fun h1 h => by injection h with h; subst h; exact hs.of_kept (ho _)) fun _ h => ?_
  refine Mirror.ite_ok h (fun h1 h => by injection h with h; subst h; exact hs.of_kept ⟨rfl, rfl, rfl⟩) fun _ h => ?_
  exact hm h

theorem locks_dispatch {s s' : St} (hs : Locks k cfg.lm s) {i : Nat} {a : Stitch} {c : Int} (hc : Calm k cfg.lm c)
    {x y : ℚ} (h : Emb.dispatch cfg i s a x y c = .ok s') : Locks k cfg.lm s' := by
  have now : ∀ {r : St}, (.ok r : Except PyErr St) = .ok s' → Mirror.Kept s r → Locks k cfg.lm s' := by
    intro r h hr
    injection h with h; subst h; exact hs.of_kept hr
  unfold Emb.dispatch at h
  refine Mirror.ite_ok h (fun _ h => hs.of_kept (Mirror.kept_sew (fun _ => Mirror.kept_contingency) h)) fun _ h => ?_
  refine Mirror.ite_ok h (fun _ h => hs.of_kept (Mirror.kept_sew (fun _ => Mirror.kept_needleTo) h)) fun _ h => ?_
  refine Mirror.ite_ok h (fun _ h => hs.of_kept (Mirror.kept_sew (fun _ => Mirror.kept_sewTo) h)) fun _ h => ?_
  refine Mirror.ite_ok h (fun _ h => now h ⟨rfl, rfl, rfl⟩) fun _ h => ?_
  refine Mirror.ite_ok h (fun _ h => hs.of_kept (Mirror.kept_frame h)) fun _ h => ?_
  refine Mirror.ite_ok h (fun _ h => now h (Mirror.kept_needed _ _ _)) fun _ h => ?_
  refine Mirror.ite_ok h (fun _ h => hs.of_kept (Mirror.kept_break h)) fun _ h => ?_
  refine Mirror.ite_ok h (fun _ h => now h (Mirror.kept_tieOff _ _ _)) fun _ h => ?_
  refine Mirror.ite_ok h (fun _ h => now h (Mirror.kept_tieOn _ _ _)) fun _ h => ?_
  refine Mirror.ite_ok h (fun _ h => now h (Mirror.kept_needed _ _ _)) fun _ h => ?_
  refine Mirror.ite_ok h (fun _ h => Mirror.ite_ok h (fun _ h => now h (.refl s)) fun _ h => hs.of_kept (Mirror.kept_jumpTo h)) fun _ h => ?_
  refine Mirror.ite_ok h (fun _ h => now h (Mirror.kept_toggle _)) fun _ h => ?_
  refine Mirror.ite_ok h (fun _ h => hs.of_kept (Mirror.kept_eject h)) fun _ h => ?_
  refine Mirror.ite_ok h (fun _ h => hs.of_kept (Mirror.kept_change h)) fun _ h => ?_
  refine Mirror.ite_ok h (fun _ h => hs.of_kept (Mirror.kept_change h)) fun _ h => ?_
  refine Mirror.ite_ok h (fun _ h => now h ⟨rfl, rfl, rfl⟩) fun _ h => ?_
  refine Mirror.ite_ok h (fun _ h => now h (by split <;> exact ⟨rfl, rfl, rfl⟩)) fun _ h => ?_
  refine Mirror.ite_ok h (fun _ h => now h (by split <;> exact ⟨rfl, rfl, rfl⟩)) fun _ h => ?_
  exact locks_setting hc hs h

theorem step (hk : 0 < k) (hr : cfg.round = false) {s : St} (hs : Locks k cfg.lm s) (i : Nat) (a : Stitch) :
    Emb.step (conf k cfg) i (st k s) (a.inUnit k) = (Emb.step cfg i s a).map (st k) := by
  unfold Emb.step
  simp only [inUnit_cmd]
  refine dispatch hk (s := { s with high := flagsOf a.cmd }) hs i a fun hu => ?_
  unfold target
  simp only
  rw [show (conf k cfg).round = false from hr, hr, if_neg (by decide), if_neg (by decide)]
  unfold Stitch.inUnit
  rw [if_neg hu, show (st k s).matrix = mat k s.matrix from rfl, show (a.times k).x = k * a.x from rfl,
    show (a.times k).y = k * a.y from rfl, mat_point]
  exact ⟨rfl, rfl⟩

theorem run (hk : 0 < k) (hr : cfg.round = false) : ∀ (l : List Stitch) (i : Nat) {s : St}, Locks k cfg.lm s →
    (∀ a ∈ l, Calm k cfg.lm (a.cmd % 256)) →
    runFrom (conf k cfg) i (st k s) (l.map (Stitch.inUnit k)) = (runFrom cfg i s l).map (st k)
  | [], i, s, hs, hc => by
    simp only [List.map_nil, runFrom, endHere, add, Mirror.map_ok]; rfl
  | a :: l, i, s, hs, hc => by
    simp only [List.map_cons, runFrom, inUnit_cmd]
    split
    · rw [Mirror.map_ok]
      unfold endHere
      congr 1
      rw [show ({ st k s with high := flagsOf a.cmd } : St) = st k { s with high := flagsOf a.cmd } from rfl, add]; rfl
    · rw [step hk hr hs i a]
      cases hstep : Emb.step cfg i s a with
      | error e => rfl
      | ok s' =>
        unfold Emb.step at hstep
        exact run hk hr l (i + 1) (locks_dispatch (s := { s with high := flagsOf a.cmd }) hs (hc a (by simp)) hstep)
          fun b hb => hc b (by simp [hb])

end

end Units

/-- **C111**: the normalization knows no unit of length. A design in another unit, with the limits, the shift and the limits set on
the way in that unit too, is normalized to the same commands and threads, refused with the same errors, and all positions are the
same ones in the other unit. Positions must not be rounded to whole units; lock stitches (if any) need C functions that know
no unit. Transformations, also those asked for on the way, are allowed. -/
theorem C111_units {k : ℚ} (hk : 0 < k) {o : Settings} {lm : Libm} {threads : List Thread} {l : List Stitch}
    (hr : o.round = false)
    (ht : lm.Unitless k ∨ (o.tieOnCode ≠ 0xD1 ∧ o.tieOffCode ≠ 0xD2 ∧ ∀ a ∈ l, a.cmd % 256 ∉ ([0xD1, 0xD2] : List Int))) :
    encode (o.inUnit k) lm threads (l.map (Stitch.inUnit k))
      = (encode o lm threads l).map fun r => (r.1.map (Stitch.times k), r.2) := by
  have hp : buildPlan (o.inUnit k) threads (l.map (Stitch.inUnit k)) = buildPlan o threads l := by
    unfold buildPlan rawPlan
    rw [Mirror.events_map Units.inUnit_cmd]; rfl
  unfold encode
  rw [hp]
  cases buildPlan o threads l with
  | error e => rfl
  | ok plan =>
    have hi : initSt (o.inUnit k) lm threads = Units.st k (initSt o lm threads) := by
      unfold initSt
      rw [Units.settings_matrix hk]
      simp only [Units.st, mul_zero]
      rfl
    have hc : mkCfg (o.inUnit k) lm (l.map (Stitch.inUnit k)) plan = Units.conf k (mkCfg o lm l plan) := rfl
    simp only
    rw [hi, hc, Units.run hk hr l 0 (s := initSt o lm threads) (ht.imp_right fun h => ⟨h.1, h.2.1⟩)
      fun a ha => ht.imp_right fun h => h.2.2 a ha]
    cases runFrom (mkCfg o lm l plan) 0 (initSt o lm threads) l <;> rfl

/-- Rounding to whole units does know the unit: half a unit is rounded away, one unit of half the size is not. -/
theorem C111_not_round : ¬ ∀ (k : ℚ) (_ : 0 < k) (o : Settings) (lm : Libm) (threads : List Thread) (l : List Stitch),
    encode (o.inUnit k) lm threads (l.map (Stitch.inUnit k))
      = (encode o lm threads l).map fun r => (r.1.map (Stitch.times k), r.2) := by
  intro h
  have := h 2 (by norm_num) { round := true } fairLm [] [⟨1 / 2, 0, 1⟩]
  revert this
  decide +kernel

/-! Beside it: the lengths of lock stitches, a limit set on the way, a matrix turned about the needle. -/

theorem fairLm_unitless {k : ℚ} (hk : 0 < k) : fairLm.Unitless k := by
  constructor
  · intro x y x' y'
    simp only [fairLm, ← mul_sub, abs_mul, abs_of_pos hk]
    exact (mul_max_of_nonneg _ _ hk.le).symm
  · intro x y x' y' d
    simp only [fairLm, Prod.mk.injEq]
    constructor <;> ring

def unitDemo : List Stitch :=
  [⟨5 / 2, 1, 0⟩, ⟨7 / 2, 100, 0⟩, ⟨30, 0, 0xD5⟩, ⟨-300, 7, 0⟩, ⟨0, 0, 2⟩, ⟨2, 3, 0xC4⟩, ⟨9, 9, 1⟩, ⟨4, 4, 0xC0⟩, ⟨1, 1, 0⟩, ⟨1, 1, 4⟩]

example : encode (({ maxStitch := some 40, tieOn := .bool true, translate := some (1, 2) } : Settings).inUnit (1 / 10)) fairLm []
      (unitDemo.map (Stitch.inUnit (1 / 10)))
    = (encode { maxStitch := some 40, tieOn := .bool true, translate := some (1, 2) } fairLm [] unitDemo).map
      fun r => (r.1.map (Stitch.times (1 / 10)), r.2) :=
  C111_units (by norm_num) rfl (.inl (fairLm_unitless (by norm_num)))

example : unitDemo.map (Stitch.inUnit 2)
    = [⟨5, 2, 0⟩, ⟨7, 200, 0⟩, ⟨60, 0, 0xD5⟩, ⟨-600, 14, 0⟩, ⟨0, 0, 2⟩, ⟨2, 3, 0xC4⟩, ⟨18, 18, 1⟩, ⟨8, 8, 0xC0⟩, ⟨2, 2, 0⟩, ⟨2, 2, 4⟩] := by
  decide +kernel

example : (encode { maxStitch := some 40, tieOn := .bool true, translate := some (1, 2) } fairLm [] unitDemo).toOption.isSome := by
  decide +kernel

end Emb
