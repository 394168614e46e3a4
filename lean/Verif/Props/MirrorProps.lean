import Verif.Encoder
import Verif.Props.GcodeProps

/-!
# C104: a mirrored or turned design is encoded to the mirrored or turned result

The symmetries are the eight ways of putting a square on itself: mirroring along either axis, and exchanging the axes.
-/

namespace Emb

/-- A symmetry of the square: exchange the axes, then mirror horizontally, then vertically. -/
structure Sym where
  swap : Bool
  flipX : Bool
  flipY : Bool
deriving DecidableEq

namespace Sym

/-- Where the symmetry takes a point. -/
def act (g : Sym) (p : ℚ × ℚ) : ℚ × ℚ :=
  let q := if g.swap then (p.2, p.1) else p
  (if g.flipX then -q.1 else q.1, if g.flipY then -q.2 else q.2)

/-- A stitch taken along. -/
def stitch (g : Sym) (st : Stitch) : Stitch := ⟨(g.act (st.x, st.y)).1, (g.act (st.x, st.y)).2, st.cmd⟩

end Sym

/-- The commands that carry a length instead of a position. -/
def Stitch.Length (st : Stitch) : Prop := st.cmd % 256 = 0xD5 ∨ st.cmd % 256 = 0xD6

instance (st : Stitch) : Decidable st.Length := inferInstanceAs (Decidable (_ ∨ _))

/-- A design taken along by the symmetry: positions move, lengths remain. -/
def Sym.design (g : Sym) (l : List Stitch) : List Stitch := l.map fun st => if st.Length then st else g.stitch st

/-- A symmetry followed by a shift. -/
structure Motion where
  sym : Sym
  tx : ℚ
  ty : ℚ

/-- Where the motion takes a point. -/
def Motion.act (g : Motion) (p : ℚ × ℚ) : ℚ × ℚ := ((g.sym.act p).1 + g.tx, (g.sym.act p).2 + g.ty)

/-- A stitch taken along. -/
def Motion.stitch (g : Motion) (st : Stitch) : Stitch := ⟨(g.act (st.x, st.y)).1, (g.act (st.x, st.y)).2, st.cmd⟩

/-- The C functions treat the directions and places alike. -/
structure Motion.Fair (g : Motion) (lm : Libm) : Prop where
  dist : ∀ p q : ℚ × ℚ, lm.dist (g.act p).1 (g.act p).2 (g.act q).1 (g.act q).2 = lm.dist p.1 p.2 q.1 q.2
  oriented : ∀ (p q : ℚ × ℚ) (d : ℚ),
    lm.oriented (g.act p).1 (g.act p).2 (g.act q).1 (g.act q).2 d = g.act (lm.oriented p.1 p.2 q.1 q.2 d)

/-- The C functions treat the directions alike. -/
structure Sym.Fair (g : Sym) (lm : Libm) : Prop where
  dist : ∀ p q : ℚ × ℚ, lm.dist (g.act p).1 (g.act p).2 (g.act q).1 (g.act q).2 = lm.dist p.1 p.2 q.1 q.2
  oriented : ∀ (p q : ℚ × ℚ) (d : ℚ),
    lm.oriented (g.act p).1 (g.act p).2 (g.act q).1 (g.act q).2 d = g.act (lm.oriented p.1 p.2 q.1 q.2 d)

namespace Mirror

variable (g : Motion)

theorem act_sub (p q : ℚ × ℚ) :
    g.sym.act (p.1 - q.1, p.2 - q.2) = ((g.act p).1 - (g.act q).1, (g.act p).2 - (g.act q).2) := by
  rcases g with ⟨⟨_ | _, _ | _, _ | _⟩, tx, ty⟩ <;> simp [Sym.act, Motion.act] <;> ring_nf <;> simp

theorem act_add (p q : ℚ × ℚ) :
    g.act (p.1 + q.1, p.2 + q.2) = ((g.act p).1 + (g.sym.act q).1, (g.act p).2 + (g.sym.act q).2) := by
  rcases g with ⟨⟨_ | _, _ | _, _ | _⟩, tx, ty⟩ <;> simp [Sym.act, Motion.act] <;> ring_nf <;> simp

theorem act_div (g : Sym) (p : ℚ × ℚ) (c : ℚ) : g.act (p.1 / c, p.2 / c) = ((g.act p).1 / c, (g.act p).2 / c) := by
  rcases g with ⟨_ | _, _ | _, _ | _⟩ <;> simp [Sym.act] <;> ring_nf <;> simp

theorem act_towards (p q : ℚ × ℚ) (c : ℚ) :
    g.act (towards p.1 q.1 c, towards p.2 q.2 c) = (towards (g.act p).1 (g.act q).1 c, towards (g.act p).2 (g.act q).2 c) := by
  rcases g with ⟨⟨_ | _, _ | _, _ | _⟩, tx, ty⟩ <;> simp [Sym.act, Motion.act, towards] <;> ring_nf <;> simp

/-- Shifted by even numbers of units. -/
def Even : Prop := ∃ a b : Int, g.tx = ((2 * a : Int) : ℚ) ∧ g.ty = ((2 * b : Int) : ℚ)

theorem round_even (q : ℚ) (a : Int) : pyRound (q + ((2 * a : Int) : ℚ)) = pyRound q + 2 * a := by
  have hf : (q + ((2 * a : Int) : ℚ)).floor = q.floor + 2 * a := Int.floor_add_intCast q (2 * a)
  unfold pyRound
  simp only [hf]
  have : (q + ((2 * a : Int) : ℚ)) - ((q.floor + 2 * a : Int) : ℚ) = q - q.floor := by push_cast; ring
  rw [this]
  split_ifs <;> omega

theorem act_round (he : Even g) (p : ℚ × ℚ) :
    g.act ((pyRound p.1 : ℚ), (pyRound p.2 : ℚ)) = ((pyRound (g.act p).1 : ℚ), (pyRound (g.act p).2 : ℚ)) := by
  obtain ⟨a, b, ha, hb⟩ := he
  have h : g.sym.act ((pyRound p.1 : ℚ), (pyRound p.2 : ℚ)) = ((pyRound (g.sym.act p).1 : ℚ), (pyRound (g.sym.act p).2 : ℚ)) := by
    rcases g with ⟨⟨_ | _, _ | _, _ | _⟩, tx, ty⟩ <;> simp [Sym.act, Gcode.pyRound_neg]
  unfold Motion.act
  simp only [ha, hb, round_even, h]
  push_cast
  rfl

theorem tooFar_act (g : Sym) (limit : Option ℚ) (p : ℚ × ℚ) : tooFar limit (g.act p).1 (g.act p).2 = tooFar limit p.1 p.2 := by
  rcases g with ⟨_ | _, _ | _, _ | _⟩ <;> cases limit <;> simp [Sym.act, tooFar, Bool.or_comm]

theorem act_inj {p q : ℚ × ℚ} : g.act p = g.act q ↔ p = q := by
  rcases g with ⟨⟨_ | _, _ | _, _ | _⟩, tx, ty⟩ <;> rcases p with ⟨p, p'⟩ <;> rcases q with ⟨q, q'⟩ <;>
    simp [Sym.act, Motion.act, and_comm]

/-- The number of steps of a subdivided gap. -/
def steps (m : ℚ) (p : ℚ × ℚ) : Int := if ceilQ |p.1 / m| > ceilQ |p.2 / m| then ceilQ |p.1 / m| else ceilQ |p.2 / m|

theorem steps_max (m : ℚ) (p : ℚ × ℚ) : steps m p = max (ceilQ |p.1 / m|) (ceilQ |p.2 / m|) := by
  unfold steps
  split <;> omega

theorem steps_act (g : Sym) (m : ℚ) (p : ℚ × ℚ) : steps m (g.act p) = steps m p := by
  rw [steps_max, steps_max]
  rcases g with ⟨_ | _, _ | _, _ | _⟩ <;> simp [Sym.act, neg_div, max_comm]

/-- The state of the encoder, taken along; `M` is the matrix of the other run and `P` what it has written before. -/
def st (M : Mat) (P : List Stitch) (s : St) : St :=
  { s with nx := (g.act (s.nx, s.ny)).1, ny := (g.act (s.nx, s.ny)).2, out := P ++ s.out.map g.stitch, matrix := M }

variable {g : Motion} {M : Mat} {P : List Stitch}

theorem map_ok {α β : Type} (f : α → β) (a : α) : (Except.ok a : Except PyErr α).map f = .ok (f a) := rfl

theorem map_bind {α β γ δ : Type} {x : Except PyErr α} {k : α → Except PyErr β} {f : β → δ} {k' : γ → Except PyErr δ} {h : α → γ}
    (hk : ∀ a, k' (h a) = (k a).map f) : ((x.map h) >>= k') = (x >>= k).map f := by
  cases x with
  | error e => rfl
  | ok a => exact hk a

theorem map_bind_ok {α β γ δ : Type} {x : Except PyErr α} {k : α → Except PyErr β} {f : β → δ} {k' : γ → Except PyErr δ} {h : α → γ}
    (hk : ∀ a, x = .ok a → k' (h a) = (k a).map f) : ((x.map h) >>= k') = (x >>= k).map f := by
  cases x with
  | error e => rfl
  | ok a => exact hk a rfl

theorem add (s : St) (c : Int) : (st g M P s).add c = st g M P (s.add c) := by
  simp [st, St.add, Motion.stitch]

theorem moveTo (s : St) (c : Int) (p : ℚ × ℚ) :
    (st g M P s).moveTo c (g.act p).1 (g.act p).2 = st g M P (s.moveTo c p.1 p.2) := by
  simp [st, St.moveTo, Motion.stitch]

theorem nextChange (cfg : Cfg) (s : St) : Emb.nextChange cfg (st g M P s) = (Emb.nextChange cfg s).map (st g M P) := by
  unfold Emb.nextChange
  rw [show (st g M P s).order = s.order from rfl]
  cases dget (s.order + 1) cfg.plan with
  | none => rfl
  | some ch =>
    simp only [map_ok]
    split_ifs <;> simp [st, Motion.stitch]


theorem declare (cfg : Cfg) (s : St) : declareNotTrimmed cfg (st g M P s) = (declareNotTrimmed cfg s).map (st g M P) := by
  unfold declareNotTrimmed
  rw [show (st g M P s).order = s.order from rfl]
  split_ifs
  · rw [nextChange]
    exact map_bind fun a => rfl
  · rfl

theorem toggle (s : St) : toggleSequins (st g M P s) = st g M P (toggleSequins s) := by
  unfold toggleSequins
  rw [show (st g M P s).sequinC = s.sequinC from rfl]
  split_ifs
  · rw [add]; rfl
  · rfl

theorem leave_mode (s : St) :
    (if (st g M P s).sequinMode then toggleSequins (st g M P s) else st g M P s) = st g M P (if s.sequinMode then toggleSequins s else s) := by
  rw [show (st g M P s).sequinMode = s.sequinMode from rfl, toggle]
  split_ifs <;> rfl

theorem trim (s : St) : trimHere (st g M P s) = st g M P (trimHere s) := by
  unfold trimHere
  simp only
  rw [leave_mode, add]
  rfl

theorem gapLoop (data : Int) (p : ℚ × ℚ) : ∀ (n : Nat) (s : St),
    Emb.gapLoop data (g.sym.act p).1 (g.sym.act p).2 n (st g M P s) = st g M P (Emb.gapLoop data p.1 p.2 n s)
  | 0, s => rfl
  | n + 1, s => by
    unfold Emb.gapLoop
    have h := act_add g (s.nx, s.ny) p
    have h' : (st g M P s).moveTo data ((st g M P s).nx + (g.sym.act p).1) ((st g M P s).ny + (g.sym.act p).2)
        = st g M P (s.moveTo data (s.nx + p.1) (s.ny + p.2)) := by
      rw [← moveTo s data (s.nx + p.1, s.ny + p.2), h]; rfl
    rw [h', gapLoop data p n]

theorem gap (s : St) (p : ℚ × ℚ) (limit : Option ℚ) (data : Int) :
    Emb.gap (st g M P s) (g.act p).1 (g.act p).2 limit data = (Emb.gap s p.1 p.2 limit data).map (st g M P) := by
  cases limit with
  | none => rfl
  | some m =>
    have hd := act_sub g p (s.nx, s.ny)
    have hn : (st g M P s).nx = (g.act (s.nx, s.ny)).1 := rfl
    have hn' : (st g M P s).ny = (g.act (s.nx, s.ny)).2 := rfl
    have h1 : (g.act p).1 - (g.act (s.nx, s.ny)).1 = (g.sym.act (p.1 - s.nx, p.2 - s.ny)).1 := by rw [hd]
    have h2 : (g.act p).2 - (g.act (s.nx, s.ny)).2 = (g.sym.act (p.1 - s.nx, p.2 - s.ny)).2 := by rw [hd]
    unfold Emb.gap
    simp only [hn, hn', h1, h2, tooFar_act]
    generalize p.1 - s.nx = dx
    generalize p.2 - s.ny = dy
    have e1 : (if ceilQ |(g.sym.act (dx, dy)).1 / m| > ceilQ |(g.sym.act (dx, dy)).2 / m| then ceilQ |(g.sym.act (dx, dy)).1 / m|
        else ceilQ |(g.sym.act (dx, dy)).2 / m|) = steps m (dx, dy) := steps_act g.sym m (dx, dy)
    have e2 : (if ceilQ |dx / m| > ceilQ |dy / m| then ceilQ |dx / m| else ceilQ |dy / m|) = steps m (dx, dy) := rfl
    have ht : (if data = JUMP ∧ (st g M P s).sequinMode then toggleSequins (st g M P s) else st g M P s)
        = st g M P (if data = JUMP ∧ s.sequinMode then toggleSequins s else s) := by
      rw [show (st g M P s).sequinMode = s.sequinMode from rfl, toggle]
      split_ifs <;> rfl
    rw [e1, e2, ht]
    generalize steps m (dx, dy) = n
    generalize (if data = JUMP ∧ s.sequinMode then toggleSequins s else s) = s'
    have hv := act_div g.sym (dx, dy) (n : ℚ)
    split_ifs
    · rfl
    · rfl
    · rw [map_ok, ← gapLoop data (dx / n, dy / n), hv]
    · rfl

theorem jumpAt (s : St) (p : ℚ × ℚ) : Emb.jumpAt (st g M P s) (g.act p).1 (g.act p).2 = st g M P (Emb.jumpAt s p.1 p.2) := by
  unfold Emb.jumpAt
  simp only
  rw [leave_mode, moveTo]

theorem not_at (s : St) (p : ℚ × ℚ) : ((st g M P s).nx ≠ (g.act p).1 ∨ (st g M P s).ny ≠ (g.act p).2) ↔ (s.nx ≠ p.1 ∨ s.ny ≠ p.2) := by
  have h := act_inj g (p := (s.nx, s.ny)) (q := p)
  rw [Prod.ext_iff, Prod.ext_iff] at h
  have : (st g M P s).nx = (g.act (s.nx, s.ny)).1 := rfl
  have : (st g M P s).ny = (g.act (s.nx, s.ny)).2 := rfl
  simp only at h
  rw [‹(st g M P s).nx = _›, ‹(st g M P s).ny = _›]
  tauto

theorem jumpToWithin (cfg : Cfg) (s : St) (p : ℚ × ℚ) :
    Emb.jumpToWithin cfg (st g M P s) (g.act p).1 (g.act p).2 = (Emb.jumpToWithin cfg s p.1 p.2).map (st g M P) := by
  unfold Emb.jumpToWithin
  rw [show (st g M P s).maxJump = s.maxJump from rfl, gap]
  refine map_bind fun a => ?_
  simp only [not_at, jumpAt]
  split_ifs <;> rfl

theorem jumpTo (s : St) (p : ℚ × ℚ) : Emb.jumpTo (st g M P s) (g.act p).1 (g.act p).2 = (Emb.jumpTo s p.1 p.2).map (st g M P) := by
  unfold Emb.jumpTo
  rw [show (st g M P s).maxJump = s.maxJump from rfl, gap]
  exact map_bind fun a => congrArg Except.ok (jumpAt a p)

theorem stitchAt (s : St) (p : ℚ × ℚ) : Emb.stitchAt (st g M P s) (g.act p).1 (g.act p).2 = st g M P (Emb.stitchAt s p.1 p.2) :=
  moveTo s _ p

theorem sewTo (s : St) (p : ℚ × ℚ) : Emb.sewTo (st g M P s) (g.act p).1 (g.act p).2 = (Emb.sewTo s p.1 p.2).map (st g M P) := by
  unfold Emb.sewTo
  rw [show (st g M P s).maxStitch = s.maxStitch from rfl, gap]
  exact map_bind fun a => congrArg Except.ok (stitchAt a p)

theorem needleTo (s : St) (p : ℚ × ℚ) :
    Emb.needleTo (st g M P s) (g.act p).1 (g.act p).2 = (Emb.needleTo s p.1 p.2).map (st g M P) := by
  unfold Emb.needleTo
  rw [show (st g M P s).maxStitch = s.maxStitch from rfl, gap]
  exact map_bind fun a => congrArg Except.ok (stitchAt a p)

theorem contingency (s : St) (p : ℚ × ℚ) :
    stitchWithContingency (st g M P s) (g.act p).1 (g.act p).2 = (stitchWithContingency s p.1 p.2).map (st g M P) := by
  unfold stitchWithContingency
  rw [show (st g M P s).longC = s.longC from rfl, sewTo, needleTo, stitchAt]
  split_ifs <;> rfl

theorem sequinAt (s : St) (p : ℚ × ℚ) :
    Emb.sequinAt (st g M P s) (g.act p).1 (g.act p).2 = (Emb.sequinAt s p.1 p.2).map (st g M P) := by
  unfold Emb.sequinAt
  simp only
  rw [show (st g M P s).sequinC = s.sequinC from rfl, show (st g M P s).maxStitch = s.maxStitch from rfl, gap]
  split_ifs with h1 h2 h3 h4
  · rfl
  all_goals
    refine map_bind fun a => congrArg Except.ok ?_
    try rw [moveTo]
    rfl

/-! The matrix and the ties remain. -/

def Kept (s s' : St) : Prop := s'.matrix = s.matrix ∧ s'.tieOnC = s.tieOnC ∧ s'.tieOffC = s.tieOffC

theorem Kept.refl (s : St) : Kept s s := ⟨rfl, rfl, rfl⟩

theorem Kept.trans {a b c : St} (h : Kept a b) (k : Kept b c) : Kept a c :=
  ⟨k.1.trans h.1, k.2.1.trans h.2.1, k.2.2.trans h.2.2⟩

theorem kept_toggle (s : St) : Kept s (toggleSequins s) := by
  unfold toggleSequins
  split_ifs <;> exact .refl _

theorem kept_off (s : St) : Kept s (if s.sequinMode then toggleSequins s else s) := by
  split_ifs
  · exact kept_toggle s
  · exact .refl s

theorem kept_gapLoop (data : Int) (sx sy : ℚ) : ∀ (n : Nat) (s : St), Kept s (Emb.gapLoop data sx sy n s)
  | 0, s => .refl s
  | n + 1, s => Kept.trans (⟨rfl, rfl, rfl⟩ : Kept s (s.moveTo data (s.nx + sx) (s.ny + sy))) (kept_gapLoop data sx sy n _)

theorem kept_gap {s s' : St} {x y : ℚ} {limit : Option ℚ} {data : Int} (h : Emb.gap s x y limit data = .ok s') : Kept s s' := by
  cases limit with
  | none => cases h; exact .refl _
  | some m =>
    unfold Emb.gap at h
    simp only at h
    have ht : Kept s (if data = JUMP ∧ s.sequinMode then toggleSequins s else s) := by
      split
      · exact kept_toggle s
      · exact .refl s
    generalize (if data = JUMP ∧ s.sequinMode then toggleSequins s else s) = t at h ht
    generalize (if ceilQ |(x - s.nx) / m| > ceilQ |(y - s.ny) / m| then ceilQ |(x - s.nx) / m| else ceilQ |(y - s.ny) / m|) = n at h
    split_ifs at h
    · cases h; exact ht.trans (kept_gapLoop _ _ _ _ _)
    · cases h; exact .refl _

theorem kept_jumpAt (s : St) (x y : ℚ) : Kept s (Emb.jumpAt s x y) := (kept_off s).trans ⟨rfl, rfl, rfl⟩

theorem kept_bind {α : Type} {P : α → Prop} {x : Except PyErr α} {β : Type} {k : α → Except PyErr β} {b : β} {Q : Prop}
    (h : (x >>= k) = .ok b) (hx : ∀ a, x = .ok a → P a) (hk : ∀ a, P a → k a = .ok b → Q) : Q := by
  cases x with
  | error e => cases h
  | ok a => exact hk a (hx a rfl) h

theorem kept_jumpToWithin {cfg : Cfg} {s s' : St} {x y : ℚ} (h : Emb.jumpToWithin cfg s x y = .ok s') : Kept s s' := by
  refine kept_bind h (fun a => kept_gap) fun a ha hk => ?_
  injection hk with hk
  subst hk
  refine ha.trans ?_
  split
  · exact kept_jumpAt a x y
  · exact .refl _

theorem kept_jumpTo {s s' : St} {x y : ℚ} (h : Emb.jumpTo s x y = .ok s') : Kept s s' := by
  refine kept_bind h (fun a => kept_gap) fun a ha hk => ?_
  injection hk with hk
  subst hk
  exact ha.trans (kept_jumpAt a x y)

theorem kept_sewTo {s s' : St} {x y : ℚ} (h : Emb.sewTo s x y = .ok s') : Kept s s' := by
  refine kept_bind h (fun a => kept_gap) fun a ha hk => ?_
  injection hk with hk
  subst hk
  exact ha.trans ⟨rfl, rfl, rfl⟩

theorem kept_needleTo {s s' : St} {x y : ℚ} (h : Emb.needleTo s x y = .ok s') : Kept s s' := by
  refine kept_bind h (fun a => kept_gap) fun a ha hk => ?_
  injection hk with hk
  subst hk
  exact ha.trans ⟨rfl, rfl, rfl⟩

theorem kept_contingency {s s' : St} {x y : ℚ} (h : stitchWithContingency s x y = .ok s') : Kept s s' := by
  unfold stitchWithContingency at h
  split_ifs at h
  · exact kept_sewTo h
  · exact kept_needleTo h
  · injection h with h; subst h; exact ⟨rfl, rfl, rfl⟩

theorem kept_sequinAt {s s' : St} {x y : ℚ} (h : Emb.sequinAt s x y = .ok s') : Kept s s' := by
  unfold Emb.sequinAt at h
  simp only at h
  split_ifs at h
  · injection h with h; subst h; exact .refl _
  all_goals
    refine kept_bind h (fun a => kept_gap) fun a ha hk => ?_
    injection hk with hk
    subst hk
    exact ha.trans ⟨rfl, rfl, rfl⟩

theorem kept_next {cfg : Cfg} {s s' : St} (h : Emb.nextChange cfg s = .ok s') : Kept s s' := by
  unfold Emb.nextChange at h
  split at h
  · cases h
  · injection h with h
    subst h
    simp only
    split_ifs <;> exact ⟨rfl, rfl, rfl⟩

theorem kept_declare {cfg : Cfg} {s s' : St} (h : declareNotTrimmed cfg s = .ok s') : Kept s s' := by
  unfold declareNotTrimmed at h
  split_ifs at h
  · refine kept_bind h (fun a => kept_next) fun a ha hk => ?_
    injection hk with hk
    subst hk
    exact ha.trans ⟨rfl, rfl, rfl⟩
  · injection h with h; subst h; exact ⟨rfl, rfl, rfl⟩

theorem kept_lock (cfg : Cfg) (s : St) (b : Stitch) : Kept s (lockTowards cfg s b) := by
  unfold lockTowards
  simp only
  split_ifs <;> exact ⟨rfl, rfl, rfl⟩

theorem kept_tieOff (cfg : Cfg) (i : Nat) (s : St) : Kept s (Emb.tieOff cfg i s) := by
  unfold Emb.tieOff
  split_ifs
  · split
    · exact kept_lock _ _ _
    · exact .refl _
  · exact .refl _

theorem kept_tieOn (cfg : Cfg) (i : Nat) (s : St) : Kept s (Emb.tieOn cfg i s) := by
  unfold Emb.tieOn
  split_ifs
  · split
    · exact kept_lock _ _ _
    · exact .refl _
  · exact .refl _

theorem kept_trim (s : St) : Kept s (trimHere s) := (kept_off s).trans ⟨rfl, rfl, rfl⟩

theorem kept_explicit (cfg : Cfg) (i : Nat) (s : St) : Kept s (tieOffTrimIfExplicit cfg i s) := by
  unfold tieOffTrimIfExplicit
  simp only
  split_ifs
  · exact .refl _
  · exact (kept_tieOff cfg i s).trans (kept_trim _)
  · exact kept_tieOff cfg i s

theorem kept_needed (cfg : Cfg) (i : Nat) (s : St) : Kept s (tieOffAndTrimIfNeeded cfg i s) := by
  unfold tieOffAndTrimIfNeeded
  split_ifs
  · exact .refl _
  · exact (kept_tieOff cfg i s).trans (kept_trim _)

theorem kept_change {cfg : Cfg} {i : Nat} {s s' : St} (h : Emb.colorChange cfg i s = .ok s') : Kept s s' := by
  refine kept_bind h (fun a => kept_next) fun a ha hk => ?_
  injection hk with hk
  subst hk
  exact ((kept_explicit cfg i s).trans ha).trans ⟨rfl, rfl, rfl⟩

theorem kept_break {cfg : Cfg} {i : Nat} {s s' : St} (h : Emb.colorBreak cfg i s = .ok s') : Kept s s' := by
  unfold Emb.colorBreak at h
  simp only at h
  split_ifs at h
  · injection h with h; subst h; exact .refl _
  · refine kept_bind h (fun a => kept_next) fun a ha hk => ?_
    injection hk with hk
    subst hk
    exact ((kept_explicit cfg i s).trans ha).trans ⟨rfl, rfl, rfl⟩
  · injection h with h; subst h; exact kept_explicit cfg i s

theorem kept_first {cfg : Cfg} {i : Nat} {s s' : St} {x y : ℚ} (h : Emb.firstStrike cfg i s x y = .ok s') : Kept s s' := by
  refine kept_bind h (fun a => kept_declare) fun a ha hk => ?_
  refine kept_bind hk (fun b => kept_jumpToWithin) fun b hb hk => ?_
  injection hk with hk
  subst hk
  exact ha.trans (hb.trans (Kept.trans ⟨rfl, rfl, rfl⟩ (kept_tieOn cfg i _)))

theorem kept_sew {cfg : Cfg} {i : Nat} {s s' : St} {x y : ℚ} {direct : St → ℚ → ℚ → Except PyErr St}
    (hd : ∀ s', direct s x y = .ok s' → Kept s s') (h : sewStep cfg i s x y direct = .ok s') : Kept s s' := by
  unfold sewStep at h
  split_ifs at h
  · exact kept_first h
  · refine kept_bind h (fun a => kept_needleTo) fun a ha hk => ?_
    injection hk with hk
    subst hk
    exact ha.trans ⟨rfl, rfl, rfl⟩
  · exact hd s' h

theorem kept_eject {cfg : Cfg} {i : Nat} {s s' : St} {x y : ℚ} (h : ejectStep cfg i s x y = .ok s') : Kept s s' := by
  unfold ejectStep at h
  have : ∀ a, (if s.trimmed then Emb.firstStrike cfg i s x y else .ok s) = .ok a → Kept s a := by
    intro a ha
    split_ifs at ha
    · exact kept_first ha
    · injection ha with ha; subst ha; exact .refl _
  refine kept_bind h this fun a ha hk => ?_
  refine (ha.trans ?_).trans (kept_sequinAt hk)
  split
  · exact .refl _
  · exact kept_toggle a

theorem kept_frame {cfg : Cfg} {i : Nat} {s s' : St} {x y : ℚ} (h : frameEject cfg i s x y = .ok s') : Kept s s' := by
  refine kept_bind h (fun a => kept_jumpTo) fun a ha hk => ?_
  injection hk with hk
  subst hk
  exact ((kept_needed cfg i s).trans ha).trans ⟨rfl, rfl, rfl⟩

/-- Either no lock stitches are asked for, or the C functions treat the directions alike. -/
def Locks (g : Motion) (lm : Libm) (s : St) : Prop :=
  g.Fair lm ∨ (s.tieOnC ≠ CONTINGENCY_TIE_ON_THREE_SMALL ∧ s.tieOffC ≠ CONTINGENCY_TIE_OFF_THREE_SMALL)

/-- The second run goes over a source and with a matrix that give the images of the points of the first. -/
structure Twin (g : Motion) (N M : Mat) (h : Stitch → Stitch) (cfg cfg' : Cfg) : Prop where
  eq : cfg' = { cfg with source := cfg.source.map h }
  cmd : ∀ a, (h a).cmd = a.cmd
  len : ∀ a, a.Length → h a = a
  pos : ∀ a, ¬ a.Length → M.point (h a).x (h a).y = g.act (N.point a.x a.y)
  even : cfg.round = true → Even g

section
variable {N : Mat} {h : Stitch → Stitch} {cfg cfg' : Cfg}

theorem locks (t : Twin g N M h cfg cfg') {s : St} (hN : s.matrix = N) (hf : g.Fair cfg.lm) (b : Stitch) :
    lockTowards cfg' (st g M P s) (h b) = st g M P (lockTowards cfg s b) := by
  unfold lockTowards
  simp only [t.cmd]
  split_ifs with hb
  · have hb' : ¬ b.Length := by
      unfold Stitch.Length
      rcases hb with hb | hb | hb | hb <;> rw [hb] <;> decide
    rw [show (st g M P s).matrix = M from rfl, t.pos b hb', hN, show cfg'.lm = cfg.lm by rw [t.eq]]
    generalize N.point b.x b.y = p
    have ha : lockAnchor cfg.lm (st g M P s).nx (st g M P s).ny (g.act p).1 (g.act p).2 (st g M P s).maxStitch
        = g.act (lockAnchor cfg.lm s.nx s.ny p.1 p.2 s.maxStitch) := by
      unfold lockAnchor
      rw [show (st g M P s).nx = (g.act (s.nx, s.ny)).1 from rfl, show (st g M P s).ny = (g.act (s.nx, s.ny)).2 from rfl,
        show (st g M P s).maxStitch = s.maxStitch from rfl, hf.dist, hf.oriented]
      split_ifs <;> rfl
    unfold lockStitches
    simp only [ha]
    generalize lockAnchor cfg.lm s.nx s.ny p.1 p.2 s.maxStitch = a
    have hs : ∀ c, (⟨towards (st g M P s).nx (g.act a).1 c, towards (st g M P s).ny (g.act a).2 c, STITCH⟩ : Stitch)
        = g.stitch ⟨towards s.nx a.1 c, towards s.ny a.2 c, STITCH⟩ := by
      intro c
      have := act_towards g (s.nx, s.ny) a c
      simp only at this
      unfold Motion.stitch
      simp only [this]
      rfl
    simp only [hs]
    simp only [st, List.map_append, List.map_map, Function.comp_def]
    rw [List.append_assoc]
  · rfl

theorem pyGet_map {α β : Type} (f : α → β) (l : List α) (i : Int) : pyGet (l.map f) i = (pyGet l i).map f := by
  unfold pyGet
  simp only [List.length_map, List.getElem?_map]
  generalize (if i < 0 then i + (l.length : Int) else i) = j
  split_ifs
  · rfl
  · cases l[j.toNat]? <;> rfl

theorem tieOff (t : Twin g N M h cfg cfg') {s : St} (hN : s.matrix = N) (hl : Locks g cfg.lm s) (i : Nat) :
    Emb.tieOff cfg' i (st g M P s) = st g M P (Emb.tieOff cfg i s) := by
  unfold Emb.tieOff
  rw [show (st g M P s).tieOffC = s.tieOffC from rfl]
  split_ifs with hc
  · rcases hl with hf | ⟨-, hn⟩
    · rw [show cfg'.source = cfg.source.map h by rw [t.eq], pyGet_map]
      cases pyGet cfg.source ((i : Int) - 1) with
      | error e => rfl
      | ok b => exact locks t hN hf b
    · exact absurd hc hn
  · rfl

theorem tieOn (t : Twin g N M h cfg cfg') {s : St} (hN : s.matrix = N) (hl : Locks g cfg.lm s) (i : Nat) :
    Emb.tieOn cfg' i (st g M P s) = st g M P (Emb.tieOn cfg i s) := by
  unfold Emb.tieOn
  rw [show (st g M P s).tieOnC = s.tieOnC from rfl]
  split_ifs with hc
  · rcases hl with hf | ⟨hn, -⟩
    · rw [show cfg'.source = cfg.source.map h by rw [t.eq], pyGet_map]
      cases pyGet cfg.source ((i : Int) + 1) with
      | error e => rfl
      | ok b => exact locks t hN hf b
    · exact absurd hc hn
  · rfl

theorem lookaheadIn (hc : ∀ a, (h a).cmd = a.cmd) : ∀ l : List Stitch, Emb.lookaheadIn (l.map h) = Emb.lookaheadIn l
  | [] => rfl
  | a :: l => by
    simp only [List.map_cons, Emb.lookaheadIn, hc, lookaheadIn hc l]

theorem lookahead (t : Twin g N M h cfg cfg') (i : Nat) : Emb.lookahead cfg' i = Emb.lookahead cfg i := by
  unfold Emb.lookahead
  rw [show cfg'.source = cfg.source.map h by rw [t.eq], ← List.map_drop, lookaheadIn t.cmd]

/-- At step `i` the two runs agree apart from the positions: lock stitches are taken along, and the same commands follow. -/
structure Near (g : Motion) (N M : Mat) (P : List Stitch) (cfg cfg' : Cfg) (i : Nat) : Prop where
  eq : cfg' = { cfg with source := cfg'.source }
  ahead : Emb.lookahead cfg' i = Emb.lookahead cfg i
  off : ∀ {s : St}, s.matrix = N → Locks g cfg.lm s → Emb.tieOff cfg' i (st g M P s) = st g M P (Emb.tieOff cfg i s)
  on : ∀ {s : St}, s.matrix = N → Locks g cfg.lm s → Emb.tieOn cfg' i (st g M P s) = st g M P (Emb.tieOn cfg i s)

theorem Twin.near (t : Twin g N M h cfg cfg') (P : List Stitch) (i : Nat) : Near g N M P cfg cfg' i :=
  ⟨by rw [t.eq], lookahead t i, fun hN hl => tieOff t hN hl i, fun hN hl => tieOn t hN hl i⟩

theorem explicitTrim {i : Nat} (t : Near g N M P cfg cfg' i) {s : St} (hN : s.matrix = N) (hl : Locks g cfg.lm s) :
    tieOffTrimIfExplicit cfg' i (st g M P s) = st g M P (tieOffTrimIfExplicit cfg i s) := by
  unfold tieOffTrimIfExplicit
  simp only
  rw [show (st g M P s).trimmed = s.trimmed from rfl, t.off hN hl]
  rw [show ∀ s, (st g M P s).explicitTrim = s.explicitTrim from fun _ => rfl, trim]
  split_ifs <;> rfl

theorem trimIfNeeded {i : Nat} (t : Near g N M P cfg cfg' i) {s : St} (hN : s.matrix = N) (hl : Locks g cfg.lm s) :
    tieOffAndTrimIfNeeded cfg' i (st g M P s) = st g M P (tieOffAndTrimIfNeeded cfg i s) := by
  unfold tieOffAndTrimIfNeeded
  rw [show (st g M P s).trimmed = s.trimmed from rfl, t.off hN hl, trim]
  split_ifs <;> rfl

theorem nextChange' {i : Nat} (t : Near g N M P cfg cfg' i) (s : St) : Emb.nextChange cfg' (st g M P s) = (Emb.nextChange cfg s).map (st g M P) := by
  rw [nextChange, t.eq]; rfl

theorem declare' {i : Nat} (t : Near g N M P cfg cfg' i) (s : St) :
    declareNotTrimmed cfg' (st g M P s) = (declareNotTrimmed cfg s).map (st g M P) := by
  rw [declare, t.eq]; rfl

theorem colorChange {i : Nat} (t : Near g N M P cfg cfg' i) {s : St} (hN : s.matrix = N) (hl : Locks g cfg.lm s) :
    Emb.colorChange cfg' i (st g M P s) = (Emb.colorChange cfg i s).map (st g M P) := by
  unfold Emb.colorChange
  rw [explicitTrim t hN hl, nextChange' t]
  exact map_bind fun a => rfl

theorem colorBreak {i : Nat} (t : Near g N M P cfg cfg' i) {s : St} (hN : s.matrix = N) (hl : Locks g cfg.lm s) :
    Emb.colorBreak cfg' i (st g M P s) = (Emb.colorBreak cfg i s).map (st g M P) := by
  unfold Emb.colorBreak
  simp only
  rw [show (st g M P s).order = s.order from rfl, explicitTrim t hN hl, t.ahead, nextChange' t]
  split_ifs
  · rfl
  · exact map_bind fun a => rfl
  · rfl

theorem firstStrike {i : Nat} (t : Near g N M P cfg cfg' i) {s : St} (hN : s.matrix = N) (hl : Locks g cfg.lm s) (p : ℚ × ℚ) :
    Emb.firstStrike cfg' i (st g M P s) (g.act p).1 (g.act p).2 = (Emb.firstStrike cfg i s p.1 p.2).map (st g M P) := by
  unfold Emb.firstStrike
  rw [declare' t]
  refine map_bind_ok fun a ha => ?_
  have hj : Emb.jumpToWithin cfg' (st g M P a) (g.act p).1 (g.act p).2 = (Emb.jumpToWithin cfg a p.1 p.2).map (st g M P) := by
    rw [jumpToWithin, t.eq]; rfl
  rw [hj]
  refine map_bind_ok fun b hb => congrArg Except.ok ?_
  obtain ⟨h1, h2, h3⟩ := (kept_declare ha).trans (kept_jumpToWithin hb)
  rw [stitchAt]
  refine t.on (by rw [← hN, ← h1]; rfl) ?_
  rcases hl with hf | hn
  · exact .inl hf
  · exact .inr ⟨by rw [show (Emb.stitchAt b p.1 p.2).tieOnC = b.tieOnC from rfl, h2]; exact hn.1,
      by rw [show (Emb.stitchAt b p.1 p.2).tieOffC = b.tieOffC from rfl, h3]; exact hn.2⟩

theorem sewStep {i : Nat} (t : Near g N M P cfg cfg' i) {s : St} (hN : s.matrix = N) (hl : Locks g cfg.lm s) (p : ℚ × ℚ)
    {direct : St → ℚ → ℚ → Except PyErr St}
    (hd : direct (st g M P s) (g.act p).1 (g.act p).2 = (direct s p.1 p.2).map (st g M P)) :
    Emb.sewStep cfg' i (st g M P s) (g.act p).1 (g.act p).2 direct = (Emb.sewStep cfg i s p.1 p.2 direct).map (st g M P) := by
  unfold Emb.sewStep
  rw [show (st g M P s).trimmed = s.trimmed from rfl, show (st g M P s).jumping = s.jumping from rfl, firstStrike t hN hl, needleTo, hd]
  split_ifs
  · rfl
  · exact map_bind fun a => rfl
  · rfl

theorem ejectStep {i : Nat} (t : Near g N M P cfg cfg' i) {s : St} (hN : s.matrix = N) (hl : Locks g cfg.lm s) (p : ℚ × ℚ) :
    Emb.ejectStep cfg' i (st g M P s) (g.act p).1 (g.act p).2 = (Emb.ejectStep cfg i s p.1 p.2).map (st g M P) := by
  unfold Emb.ejectStep
  rw [show (st g M P s).trimmed = s.trimmed from rfl, firstStrike t hN hl]
  have : (if s.trimmed then (Emb.firstStrike cfg i s p.1 p.2).map (st g M P) else .ok (st g M P s))
      = (if s.trimmed then Emb.firstStrike cfg i s p.1 p.2 else .ok s).map (st g M P) := by
    split_ifs <;> rfl
  rw [this]
  refine map_bind fun a => ?_
  have : (if (st g M P a).sequinMode then st g M P a else toggleSequins (st g M P a)) = st g M P (if a.sequinMode then a else toggleSequins a) := by
    rw [show (st g M P a).sequinMode = a.sequinMode from rfl, toggle]
    split_ifs <;> rfl
  rw [this, sequinAt]

theorem frameEject {i : Nat} (t : Near g N M P cfg cfg' i) {s : St} (hN : s.matrix = N) (hl : Locks g cfg.lm s) (p : ℚ × ℚ) :
    Emb.frameEject cfg' i (st g M P s) (g.act p).1 (g.act p).2 = (Emb.frameEject cfg i s p.1 p.2).map (st g M P) := by
  unfold Emb.frameEject
  rw [trimIfNeeded t hN hl, jumpTo]
  refine map_bind fun a => congrArg Except.ok ?_
  unfold stopHere
  rw [add]; rfl

/-- The command neither changes the matrix nor asks for lock stitches. -/
def Calm (fair : Prop) (c : Int) : Prop :=
  c ∉ [0xC0, 0xC1, 0xC2, 0xC3, 0xC4, 0xC5] ∧ (¬ fair → c ∉ [0xD1, 0xD2])

theorem matrixStep_calm {cfg : Cfg} {fair : Prop} {c : Int} (hc : Calm fair c) (s : St) (a : Stitch) : matrixStep cfg s a c = .ok s := by
  have h := hc.1
  simp only [List.mem_cons, List.not_mem_nil, or_false, not_or] at h
  unfold matrixStep MATRIX_TRANSLATE MATRIX_SCALE_ORIGIN MATRIX_ROTATE_ORIGIN MATRIX_SCALE MATRIX_ROTATE MATRIX_RESET
  rw [if_neg h.1, if_neg h.2.1, if_neg h.2.2.1, if_neg h.2.2.2.2.1, if_neg h.2.2.2.2.2, if_neg h.2.2.2.1]

theorem ite_map {α β : Type} {c : Prop} [Decidable c] {f : α → β} {x y : Except PyErr α} {x' y' : Except PyErr β}
    (h1 : c → x' = x.map f) (h2 : ¬ c → y' = y.map f) : (if c then x' else y') = (if c then x else y).map f := by
  split
  · exact h1 ‹_›
  · exact h2 ‹_›

theorem ite_ok {α : Type} {c P : Prop} [Decidable c] {x y : Except PyErr α} {a : α} (h : (if c then x else y) = .ok a)
    (h1 : c → x = .ok a → P) (h2 : ¬ c → y = .ok a → P) : P := by
  split at h
  · exact h1 ‹_› h
  · exact h2 ‹_› h

theorem leave (s : St) (v : Int) : leaveSequins (st g M P s) v = st g M P (leaveSequins s v) := by
  unfold leaveSequins
  rw [leave_mode]; rfl

theorem setting {c : Int} (hc : Calm (g.Fair cfg.lm) c) (s : St) {a b : Stitch} (hb : c = 0xD5 ∨ c = 0xD6 → b = a) :
    settingStep cfg' (st g M P s) b c = (settingStep cfg s a c).map (st g M P) := by
  unfold settingStep
  iterate 4 refine ite_map (fun _ => rfl) fun _ => ?_
  refine ite_map (fun h => by rw [hb (.inr h)]; rfl) fun _ => ?_
  refine ite_map (fun h => by rw [hb (.inl h)]; rfl) fun _ => ?_
  iterate 5 refine ite_map (fun _ => rfl) fun _ => ?_
  iterate 3 refine ite_map (fun _ => by rw [leave]; rfl) fun _ => ?_
  refine ite_map (fun _ => rfl) fun _ => ?_
  rw [matrixStep_calm hc, matrixStep_calm hc]; rfl

/-- What remains true of the settings in force. -/
def Fine (g : Motion) (N : Mat) (lm : Libm) (s : St) : Prop := s.matrix = N ∧ Locks g lm s

theorem Fine.of_kept {lm : Libm} {s s' : St} (h : Fine g N lm s) (k : Kept s s') : Fine g N lm s' := by
  refine ⟨k.1.trans h.1, ?_⟩
  rcases h.2 with hf | hn
  · exact .inl hf
  · exact .inr (by rw [k.2.1, k.2.2]; exact hn)

theorem fine_setting {c : Int} (hc : Calm (g.Fair cfg.lm) c) {s s' : St} {a : Stitch} (hs : Fine g N cfg.lm s)
    (h : settingStep cfg s a c = .ok s') : Fine g N cfg.lm s' := by
  have hd := hc.2
  simp only [List.mem_cons, List.not_mem_nil, or_false, not_or] at hd
  have ho : ∀ v, Kept s (leaveSequins s v) := fun v => (kept_off s).trans ⟨rfl, rfl, rfl⟩
  unfold settingStep at h
  refine ite_ok h (fun h1 h => ?_) fun _ h => ?_
  · injection h with h; subst h
    refine ⟨hs.1, .inl ?_⟩
    by_contra hn
    exact (hd hn).1 h1
  refine ite_ok h (fun h1 h => ?_) fun _ h => ?_
  · injection h with h; subst h
    refine ⟨hs.1, .inl ?_⟩
    by_contra hn
    exact (hd hn).2 h1
  refine ite_ok h (fun h1 h => ?_) fun _ h => ?_
  · injection h with h; subst h
    exact ⟨hs.1, hs.2.imp_right fun hn => ⟨by simp [CONTINGENCY_TIE_ON_NONE, CONTINGENCY_TIE_ON_THREE_SMALL], hn.2⟩⟩
  refine ite_ok h (fun h1 h => ?_) fun _ h => ?_
  · injection h with h; subst h
    exact ⟨hs.1, hs.2.imp_right fun hn => ⟨hn.1, by simp [CONTINGENCY_TIE_OFF_NONE, CONTINGENCY_TIE_OFF_THREE_SMALL]⟩⟩
  iterate 7
    refine ite_ok h (fun h1 h => by injection h with h; subst h; exact hs.of_kept ⟨rfl, rfl, rfl⟩) fun _ h => ?_
  iterate 3
    refine ite_ok h (fun h1 h => by injection h with h; subst h; exact hs.of_kept (ho _)) fun _ h => ?_
  refine ite_ok h (fun h1 h => by injection h with h; subst h; exact hs.of_kept ⟨rfl, rfl, rfl⟩) fun _ h => ?_
  rw [matrixStep_calm hc] at h
  injection h with h; subst h; exact hs

theorem dispatch {i : Nat} (t : Near g N M P cfg cfg' i) {s : St} (hs : Fine g N cfg.lm s) {a b : Stitch} {c : Int}
    (hc : Calm (g.Fair cfg.lm) c) (hb : c = 0xD5 ∨ c = 0xD6 → b = a) {p : ℚ × ℚ} {x y : ℚ}
    (hp : ¬ (c = 0xD5 ∨ c = 0xD6) → (x, y) = g.act p) :
    Emb.dispatch cfg' i (st g M P s) b x y c = (Emb.dispatch cfg i s a p.1 p.2 c).map (st g M P) := by
  have hS := setting (cfg' := cfg') (M := M) (P := P) hc s hb
  by_cases hl : c = 0xD5 ∨ c = 0xD6
  · rcases hl with rfl | rfl <;> exact hS
  · have hx : x = (g.act p).1 := congrArg Prod.fst (hp hl)
    have hy : y = (g.act p).2 := congrArg Prod.snd (hp hl)
    subst hx hy
    unfold Emb.dispatch
    refine ite_map (fun _ => sewStep t hs.1 hs.2 p (contingency s p)) fun _ => ?_
    refine ite_map (fun _ => sewStep t hs.1 hs.2 p (needleTo s p)) fun _ => ?_
    refine ite_map (fun _ => sewStep t hs.1 hs.2 p (sewTo s p)) fun _ => ?_
    refine ite_map (fun _ => rfl) fun _ => ?_
    refine ite_map (fun _ => frameEject t hs.1 hs.2 p) fun _ => ?_
    refine ite_map (fun _ => congrArg Except.ok (trimIfNeeded t hs.1 hs.2)) fun _ => ?_
    refine ite_map (fun _ => colorBreak t hs.1 hs.2) fun _ => ?_
    refine ite_map (fun _ => congrArg Except.ok (t.off hs.1 hs.2)) fun _ => ?_
    refine ite_map (fun _ => congrArg Except.ok (t.on hs.1 hs.2)) fun _ => ?_
    refine ite_map (fun _ => congrArg Except.ok (trimIfNeeded t hs.1 hs.2)) fun _ => ?_
    refine ite_map (fun _ => ite_map (fun _ => rfl) fun _ => jumpTo s p) fun _ => ?_
    refine ite_map (fun _ => congrArg Except.ok (toggle s)) fun _ => ?_
    refine ite_map (fun _ => ejectStep t hs.1 hs.2 p) fun _ => ?_
    refine ite_map (fun _ => colorChange t hs.1 hs.2) fun _ => ?_
    refine ite_map (fun _ => colorChange t hs.1 hs.2) fun _ => ?_
    refine ite_map (fun _ => congrArg Except.ok (by unfold stopHere; rw [add]; rfl)) fun _ => ?_
    refine ite_map (fun _ => congrArg Except.ok ?_) fun _ => ?_
    · rw [show cfg'.writesSpeeds = cfg.writesSpeeds by rw [t.eq], add]
      split <;> rfl
    refine ite_map (fun _ => congrArg Except.ok ?_) fun _ => hS
    rw [show cfg'.writesSpeeds = cfg.writesSpeeds by rw [t.eq], add]
    split <;> rfl

theorem fine_dispatch {s s' : St} (hs : Fine g N cfg.lm s) {i : Nat} {a : Stitch} {c : Int} (hc : Calm (g.Fair cfg.lm) c)
    {x y : ℚ} (h : Emb.dispatch cfg i s a x y c = .ok s') : Fine g N cfg.lm s' := by
  have now : ∀ {r : St}, (.ok r : Except PyErr St) = .ok s' → Kept s r → Fine g N cfg.lm s' := by
    intro r h hr
    injection h with h; subst h; exact hs.of_kept hr
  unfold Emb.dispatch at h
  refine ite_ok h (fun _ h => hs.of_kept (kept_sew (fun _ => kept_contingency) h)) fun _ h => ?_
  refine ite_ok h (fun _ h => hs.of_kept (kept_sew (fun _ => kept_needleTo) h)) fun _ h => ?_
  refine ite_ok h (fun _ h => hs.of_kept (kept_sew (fun _ => kept_sewTo) h)) fun _ h => ?_
  refine ite_ok h (fun _ h => now h ⟨rfl, rfl, rfl⟩) fun _ h => ?_
  refine ite_ok h (fun _ h => hs.of_kept (kept_frame h)) fun _ h => ?_
  refine ite_ok h (fun _ h => now h (kept_needed _ _ _)) fun _ h => ?_
  refine ite_ok h (fun _ h => hs.of_kept (kept_break h)) fun _ h => ?_
  refine ite_ok h (fun _ h => now h (kept_tieOff _ _ _)) fun _ h => ?_
  refine ite_ok h (fun _ h => now h (kept_tieOn _ _ _)) fun _ h => ?_
  refine ite_ok h (fun _ h => now h (kept_needed _ _ _)) fun _ h => ?_
  refine ite_ok h (fun _ h => ite_ok h (fun _ h => now h (.refl s)) fun _ h => hs.of_kept (kept_jumpTo h)) fun _ h => ?_
  refine ite_ok h (fun _ h => now h (kept_toggle _)) fun _ h => ?_
  refine ite_ok h (fun _ h => hs.of_kept (kept_eject h)) fun _ h => ?_
  refine ite_ok h (fun _ h => hs.of_kept (kept_change h)) fun _ h => ?_
  refine ite_ok h (fun _ h => hs.of_kept (kept_change h)) fun _ h => ?_
  refine ite_ok h (fun _ h => now h ⟨rfl, rfl, rfl⟩) fun _ h => ?_
  refine ite_ok h (fun _ h => now h (by split <;> exact ⟨rfl, rfl, rfl⟩)) fun _ h => ?_
  refine ite_ok h (fun _ h => now h (by split <;> exact ⟨rfl, rfl, rfl⟩)) fun _ h => ?_
  exact fine_setting hc hs h

theorem step (t : Twin g N M h cfg cfg') {s : St} (hs : Fine g N cfg.lm s) (i : Nat) (a : Stitch)
    (hc : Calm (g.Fair cfg.lm) (a.cmd % 256)) : Emb.step cfg' i (st g M P s) (h a) = (Emb.step cfg i s a).map (st g M P) := by
  unfold Emb.step
  simp only [t.cmd]
  refine dispatch (t.near P i) (s := { s with high := flagsOf a.cmd }) (hs.of_kept ⟨rfl, rfl, rfl⟩) hc (fun hl => t.len a hl) fun hl => ?_
  unfold target
  simp only
  rw [show (st g M P s).matrix = M from rfl, t.pos a hl, hs.1, show cfg'.round = cfg.round by rw [t.eq]]
  split
  · exact (act_round g (t.even ‹_›) (N.point a.x a.y)).symm
  · rfl

theorem run (t : Twin g N M h cfg cfg') : ∀ (l : List Stitch) (i : Nat) {s : St}, Fine g N cfg.lm s →
    (∀ a ∈ l, Calm (g.Fair cfg.lm) (a.cmd % 256)) → runFrom cfg' i (st g M P s) (l.map h) = (runFrom cfg i s l).map (st g M P)
  | [], i, s, hs, hc => by
    simp only [List.map_nil, runFrom, endHere, add, map_ok]; rfl
  | a :: l, i, s, hs, hc => by
    simp only [List.map_cons, runFrom, t.cmd]
    split
    · rw [map_ok]
      unfold endHere
      congr 1
      rw [show ({ st g M P s with high := flagsOf a.cmd } : St) = st g M P { s with high := flagsOf a.cmd } from rfl, add]; rfl
    · rw [step t hs i a (hc a (by simp))]
      cases hstep : Emb.step cfg i s a with
      | error e => rfl
      | ok s' =>
        have hs' : Fine g N cfg.lm { s with high := flagsOf a.cmd } := hs.of_kept ⟨rfl, rfl, rfl⟩
        unfold Emb.step at hstep
        exact run t l (i + 1) (fine_dispatch hs' (hc a (by simp)) hstep) fun b hb => hc b (by simp [hb])

theorem events_map (hc : ∀ a, (h a).cmd = a.cmd) : ∀ (l : List Stitch) (ci : Int), events (l.map h) ci = events l ci
  | [], _ => rfl
  | a :: l, ci => by simp only [List.map_cons, events, hc, events_map hc l]

end

theorem init_moved {o o' : Settings} (lm : Libm) (threads : List Thread)
    (ho : o' = { o with translate := o'.translate, scale := o'.scale, rotate := o'.rotate }) :
    initSt o' lm threads = { initSt o lm threads with matrix := o'.matrix lm } := by
  have e : ∀ t s r, initSt { o with translate := t, scale := s, rotate := r } lm threads
      = { initSt o lm threads with matrix := Settings.matrix { o with translate := t, scale := s, rotate := r } lm } :=
    fun _ _ _ => rfl
  have e := e o'.translate o'.scale o'.rotate
  rwa [← ho] at e

theorem encode {g : Sym} {h : Stitch → Stitch} {o o' : Settings} {lm : Libm} {threads : List Thread} {l : List Stitch}
    (ho : o' = { o with translate := o'.translate, scale := o'.scale, rotate := o'.rotate })
    (hcmd : ∀ a, (h a).cmd = a.cmd) (hlen : ∀ a, a.Length → h a = a)
    (hpos : ∀ a, ¬ a.Length → (o'.matrix lm).point (h a).x (h a).y = g.act ((o.matrix lm).point a.x a.y))
    (hl : g.Fair lm ∨ (o.tieOnCode ≠ 0xD1 ∧ o.tieOffCode ≠ 0xD2)) (hc : ∀ a ∈ l, Calm (g.Fair lm) (a.cmd % 256)) :
    Emb.encode o' lm threads (l.map h) = (Emb.encode o lm threads l).map fun r => (r.1.map g.stitch, r.2) := by
  have h1 : o'.changeCommand = o.changeCommand := by rw [ho]; rfl
  have h2 : o'.needleCount = o.needleCount := by rw [ho]
  have hp : buildPlan o' threads (l.map h) = buildPlan o threads l := by
    unfold buildPlan rawPlan
    rw [events_map hcmd, h1, h2]
  have ha : ∀ p, (⟨g, 0, 0⟩ : Motion).act p = g.act p := fun p => by simp [Motion.act]
  have hfair : (⟨g, 0, 0⟩ : Motion).Fair lm ↔ g.Fair lm :=
    ⟨fun ⟨a, b⟩ => ⟨by simpa only [ha] using a, by simpa only [ha] using b⟩,
      fun ⟨a, b⟩ => ⟨by simpa only [ha] using a, by simpa only [ha] using b⟩⟩
  have hst : (⟨g, 0, 0⟩ : Motion).stitch = g.stitch := by
    funext a
    unfold Motion.stitch Sym.stitch
    rw [ha]
  unfold Emb.encode
  rw [hp]
  cases buildPlan o threads l with
  | error e => rfl
  | ok plan =>
    have hi : initSt o' lm threads = st ⟨g, 0, 0⟩ (o'.matrix lm) [] (initSt o lm threads) := by
      have h0 : g.act (0, 0) = (0, 0) := by rcases g with ⟨_ | _, _ | _, _ | _⟩ <;> simp [Sym.act]
      rw [init_moved lm threads ho]
      unfold st
      rw [show (initSt o lm threads).nx = 0 from rfl, show (initSt o lm threads).ny = 0 from rfl, ha, h0]
      rfl
    have t : Twin ⟨g, 0, 0⟩ (o.matrix lm) (o'.matrix lm) h (mkCfg o lm l plan) (mkCfg o' lm (l.map h) plan) :=
      ⟨by rw [ho]; rfl, hcmd, hlen, fun a h => by rw [ha]; exact hpos a h, fun _ => ⟨0, 0, by simp, by simp⟩⟩
    have hf : Fine ⟨g, 0, 0⟩ (o.matrix lm) (mkCfg o lm l plan).lm (initSt o lm threads) := ⟨rfl, hl.imp_left hfair.2⟩
    simp only
    rw [hi, run t l 0 hf fun a hm => ⟨(hc a hm).1, fun hn => (hc a hm).2 fun h => hn (hfair.2 h)⟩]
    cases runFrom (mkCfg o lm l plan) 0 (initSt o lm threads) l
    · rfl
    · rw [← hst]; rfl

end Mirror

/-- No command changes the matrix within the design; if the C functions do not treat the directions alike, none asks for lock
stitches. -/
def Sym.Suits (g : Sym) (lm : Libm) (o : Settings) (l : List Stitch) : Prop :=
  (∀ a ∈ l, a.cmd % 256 ∉ [0xC0, 0xC1, 0xC2, 0xC3, 0xC4, 0xC5]) ∧
  (g.Fair lm ∨ (o.tieOnCode ≠ 0xD1 ∧ o.tieOffCode ≠ 0xD2 ∧ ∀ a ∈ l, a.cmd % 256 ∉ [0xD1, 0xD2]))

/-- **C104**: normalizing a design that was mirrored, or turned by quarter turns, gives what normalizing the design itself gives,
mirrored or turned: the same commands, threads and errors, and exactly the images of the positions, whatever is rounded or
subdivided. The transformation asked for in the settings (if any) has to treat the directions alike. -/
theorem C104_design (g : Sym) {o : Settings} {lm : Libm} {threads : List Thread} {l : List Stitch}
    (hM : ∀ p : ℚ × ℚ, (o.matrix lm).point (g.act p).1 (g.act p).2 = g.act ((o.matrix lm).point p.1 p.2)) (hs : g.Suits lm o l) :
    encode o lm threads (g.design l) = (encode o lm threads l).map fun r => (r.1.map g.stitch, r.2) := by
  unfold Sym.design
  refine Mirror.encode (o := o) (o' := o) rfl ?_ ?_ ?_ ?_ ?_
  · intro a
    split <;> rfl
  · intro a ha
    rw [if_pos ha]
  · intro a ha
    rw [if_neg ha]
    exact hM (a.x, a.y)
  · exact hs.2.imp_right fun h => ⟨h.1, h.2.1⟩
  · exact fun a ha => ⟨hs.1 a ha, fun hn => (hs.2.resolve_left hn).2.2 a ha⟩

/-- **C104**: the same if the encoder is asked to mirror or turn: with settings whose transformation is the one of `o` followed by
the symmetry. -/
theorem C104_settings (g : Sym) {o o' : Settings} {lm : Libm} {threads : List Thread} {l : List Stitch}
    (ho : o' = { o with translate := o'.translate, scale := o'.scale, rotate := o'.rotate })
    (hM : ∀ x y, (o'.matrix lm).point x y = g.act ((o.matrix lm).point x y)) (hs : g.Suits lm o l) :
    encode o' lm threads l = (encode o lm threads l).map fun r => (r.1.map g.stitch, r.2) := by
  have := Mirror.encode (g := g) (h := id) (threads := threads) (l := l) ho (fun _ => rfl) (fun _ _ => rfl)
    (fun a _ => hM a.x a.y) (hs.2.imp_right fun h => ⟨h.1, h.2.1⟩)
    (fun a ha => ⟨hs.1 a ha, fun hn => (hs.2.resolve_left hn).2.2 a ha⟩)
  rwa [List.map_id] at this

/-- **C104**: `scale=(-1, 1)` and the like mirror the result. -/
theorem C104_scale (fx fy : Bool) {o : Settings} {lm : Libm} {threads : List Thread} {l : List Stitch}
    (h1 : o.translate = none) (h2 : o.scale = none) (h3 : o.rotate = none) (hs : (⟨false, fx, fy⟩ : Sym).Suits lm o l) :
    encode { o with scale := some (if fx then -1 else 1, if fy then -1 else 1) } lm threads l
      = (encode o lm threads l).map fun r =>
        (r.1.map fun st => ⟨if fx then -st.x else st.x, if fy then -st.y else st.y, st.cmd⟩, r.2) := by
  refine C104_settings ⟨false, fx, fy⟩ rfl ?_ hs
  intro x y
  have e1 : o.matrix lm = Mat.identity := by unfold Settings.matrix; rw [h1, h2, h3]
  have e2 : Settings.matrix { o with scale := some (if fx then -1 else 1, if fy then -1 else 1) } lm
      = Mat.identity.postScale (if fx then -1 else 1) (if fy then -1 else 1) 0 0 := by unfold Settings.matrix; rw [h1, h3]
  rw [e1, e2]
  cases fx <;> cases fy <;> simp [Mat.point, Mat.postScale, Mat.multiply, Mat.getScale, Mat.identity, Sym.act]

/-- **C104**: turned by a quarter (`rotate=90`, with exact cosine 0 and sine 1). -/
theorem C104_rotate {o : Settings} {lm : Libm} {threads : List Thread} {l : List Stitch} {r : ℚ} (h1 : o.translate = none)
    (h2 : o.scale = none) (h3 : o.rotate = none) (hcos : lm.cos r = 0) (hsin : lm.sin r = 1)
    (hs : (⟨true, true, false⟩ : Sym).Suits lm o l) :
    encode { o with rotate := some r } lm threads l
      = (encode o lm threads l).map fun r => (r.1.map fun st => ⟨-st.y, st.x, st.cmd⟩, r.2) := by
  refine C104_settings ⟨true, true, false⟩ rfl ?_ hs
  intro x y
  have e1 : o.matrix lm = Mat.identity := by unfold Settings.matrix; rw [h1, h2, h3]
  have e2 : Settings.matrix { o with rotate := some r } lm = Mat.identity.postRotate 0 1 0 0 := by
    unfold Settings.matrix; simp only [h1, h2, hcos, hsin]
  rw [e1, e2]
  simp [Mat.point, Mat.postRotate, Mat.multiply, Mat.getRotate, Mat.identity, Sym.act]

/-! Beside them: exact half positions, a long stitch that is subdivided, and a changed limit; and a fair `Libm` whose distance is
the larger difference. -/

def mirrorDemo : List Stitch := [⟨5 / 2, 1, 0⟩, ⟨7 / 2, 100, 0⟩, ⟨30, 0, 0xD5⟩, ⟨-300, 7, 0⟩, ⟨0, 0, 2⟩, ⟨9, 9, 1⟩, ⟨1, 1, 0⟩, ⟨1, 1, 4⟩]

def fairLm : Libm := ⟨fun a b c d => max |a - c| |b - d|, fun a b c d _ => ((a + c) / 2, (b + d) / 2), fun _ => 0, fun _ => 1⟩

example (g : Sym) : g.Fair fairLm := by
  constructor
  · intro p q
    rcases g with ⟨_ | _, _ | _, _ | _⟩ <;> simp [Sym.act, fairLm, abs_sub_comm, max_comm, neg_add_eq_sub]
  · intro p q d
    rcases g with ⟨_ | _, _ | _, _ | _⟩ <;> simp [Sym.act, fairLm] <;> ring_nf <;> simp

example (g : Sym) : g.Suits fairLm {} mirrorDemo := by
  refine ⟨by decide, .inr ⟨by decide, by decide, by decide⟩⟩

example : (⟨false, true, false⟩ : Sym).design mirrorDemo
    = [⟨-5 / 2, 1, 0⟩, ⟨-7 / 2, 100, 0⟩, ⟨30, 0, 0xD5⟩, ⟨300, 7, 0⟩, ⟨0, 0, 2⟩, ⟨-9, 9, 1⟩, ⟨-1, 1, 0⟩, ⟨-1, 1, 4⟩] := by
  simp [Sym.design, mirrorDemo, Stitch.Length, Sym.stitch, Sym.act]; norm_num

end Emb
