import Verif.Encoder
import Mathlib.Logic.Relation

/-!
# Elementary actions of the encoder

Every step of the encoder is a chain of elementary actions (`Micro`), each with the guard under which the code performs
it. Invariants of the output are then proved once per action.
-/

namespace Emb

theorem bind_ok {α β : Type} {x : Except PyErr α} {f : α → Except PyErr β} {b : β} :
    (x >>= f) = .ok b ↔ ∃ a, x = .ok a ∧ f a = .ok b := by
  cases x <;> simp [bind, Except.bind]

theorem pure_ok {α : Type} {a b : α} : (pure a : Except PyErr α) = .ok b ↔ a = b := by
  simp [pure, Except.pure]

/-- A coordinate on the integer grid. -/
def IsInt (q : ℚ) : Prop := ∃ k : ℤ, q = k

theorem IsInt.add {a b : ℚ} (ha : IsInt a) (hb : IsInt b) : IsInt (a + b) := by
  obtain ⟨k, rfl⟩ := ha; obtain ⟨l, rfl⟩ := hb; exact ⟨k + l, by push_cast; ring⟩

theorem IsInt.neg {a : ℚ} (ha : IsInt a) : IsInt (-a) := by
  obtain ⟨k, rfl⟩ := ha; exact ⟨-k, by push_cast; ring⟩

theorem isInt_of_abs {a m : ℚ} (h : |a| = m) (hm : IsInt m) : IsInt a := by
  rcases abs_choice a with h' | h'
  · rw [h'] at h; rw [h]; exact hm
  · have : a = -m := by rw [h'] at h; linarith
    rw [this]; exact hm.neg

/-- One axis of a step from `p` to `q` under the limit `m`: not longer than `m`, and exactly `m` long only from a grid
point (given the limit is an integer and the assumption `G` that the gap's end points are on the grid). -/
def StepOK (G : Prop) (m p q : ℚ) : Prop := |q - p| ≤ m ∧ (|q - p| = m → IsInt m → G → IsInt p)

/-- The step from the needle to `(x, y)` respects `limit`. -/
def NearL (G : Prop) (limit : Option ℚ) (s : St) (x y : ℚ) : Prop :=
  ∀ m, limit = some m → 0 ≤ m → StepOK G m s.nx x ∧ StepOK G m s.ny y

/-- The step respects one of the limits, or the long-stitch contingency is off. -/
def Near (G : Prop) (s : St) (x y : ℚ) : Prop :=
  NearL G s.maxStitch s x y ∨ NearL G s.maxJump s x y ∨
    (s.longC ≠ CONTINGENCY_LONG_STITCH_SEW_TO ∧ s.longC ≠ CONTINGENCY_LONG_STITCH_JUMP_NEEDLE)

/-- The four documented sequin contingencies. -/
def ValidSequin (c : Int) : Prop :=
  c = CONTINGENCY_SEQUIN_UTILIZE ∨ c = CONTINGENCY_SEQUIN_JUMP ∨ c = CONTINGENCY_SEQUIN_STITCH ∨
    c = CONTINGENCY_SEQUIN_REMOVE

/-- Elementary actions while processing a source command with low byte `c`. -/
inductive Micro (cfg : Cfg) (c : Int) (G : Prop) : St → St → Prop
  | quiet (s : St) (e j : Bool) (a b : Int) (m : Mat) :
      Micro cfg c G s { s with explicitTrim := e, jumping := j, tieOnC := a, tieOffC := b, matrix := m }
  | high (s : St) (v : Int) : Micro cfg c G s { s with high := flagsOf v }
  | maxStitch (s : St) (m : ℚ) (h : c = OPTION_MAX_STITCH_LENGTH) : Micro cfg c G s { s with maxStitch := some m }
  | maxJump (s : St) (m : ℚ) (h : c = OPTION_MAX_JUMP_LENGTH) : Micro cfg c G s { s with maxJump := some m }
  | long (s : St) (v : Int) (h : v = CONTINGENCY_LONG_STITCH_SEW_TO ∨ v = CONTINGENCY_LONG_STITCH_JUMP_NEEDLE ∨
      c = CONTINGENCY_LONG_STITCH_NONE) : Micro cfg c G s { s with longC := v }
  | sequin (s : St) (v : Int) (hv : ValidSequin v) (h : (v = CONTINGENCY_SEQUIN_UTILIZE ∧ c = CONTINGENCY_SEQUIN_UTILIZE) ∨
      (v ≠ CONTINGENCY_SEQUIN_UTILIZE ∧ s.sequinMode = false)) :
      Micro cfg c G s { s with sequinC := v }
  | toggle (s : St) (h : s.sequinC = CONTINGENCY_SEQUIN_UTILIZE) :
      Micro cfg c G s { s.add SEQUIN_MODE with sequinMode := !s.sequinMode }
  | stitch (s : St) (x y : ℚ) (h : Near G s x y) : Micro cfg c G s (s.moveTo STITCH x y)
  | jump (s : St) (x y : ℚ) (h : Near G s x y) (hm : s.sequinMode = false) : Micro cfg c G s (s.moveTo JUMP x y)
  | eject (s : St) (x y : ℚ) (h : Near G s x y) (hm : s.sequinMode = true) (hc : c = SEQUIN_EJECT) :
      Micro cfg c G s (s.moveTo SEQUIN_EJECT x y)
  | untrim (s : St) (l : List Stitch) (x y : ℚ) (h : s.out = l ++ [⟨x, y, STITCH + s.high⟩]) (ho : 0 ≤ s.order) :
      Micro cfg c G s { s with trimmed := false }
  | trim (s : St) (h : s.trimmed = false) (hm : s.sequinMode = false) :
      Micro cfg c G s { s.add TRIM with trimmed := true }
  | stop (s : St) (h : c = STOP ∨ c = FRAME_EJECT) : Micro cfg c G s { s.add STOP with trimmed := true }
  | speed (s : St) (v : Int) (h : v = SLOW ∨ v = FAST) (hw : cfg.writesSpeeds = true) (hc : c = v) :
      Micro cfg c G s (s.add v)
  | change (s s' : St) (h : nextChange cfg s = .ok s') : Micro cfg c G s s'
  | lock (s : St) (ax ay : ℚ) :
      Micro cfg c G s { s with out := s.out ++ lockStitches cfg.lm s.nx s.ny ax ay s.maxStitch }

/-- Any number of elementary actions. -/
abbrev Chain (cfg : Cfg) (c : Int) (G : Prop) : St → St → Prop := Relation.ReflTransGen (Micro cfg c G)

/-- Sequin mode is only on under the `UTILIZE` contingency, and the contingency is a documented one. -/
def SeqInv (s : St) : Prop :=
  (s.sequinMode = true → s.sequinC = CONTINGENCY_SEQUIN_UTILIZE) ∧ ValidSequin s.sequinC

/-- Everything except output, needle position and sequin mode agrees. -/
structure Same (s s' : St) : Prop where
  maxStitch : s'.maxStitch = s.maxStitch
  maxJump : s'.maxJump = s.maxJump
  explicitTrim : s'.explicitTrim = s.explicitTrim
  sequinC : s'.sequinC = s.sequinC
  tieOnC : s'.tieOnC = s.tieOnC
  tieOffC : s'.tieOffC = s.tieOffC
  longC : s'.longC = s.longC
  matrix : s'.matrix = s.matrix
  order : s'.order = s.order
  trimmed : s'.trimmed = s.trimmed
  jumping : s'.jumping = s.jumping
  high : s'.high = s.high
  threads : s'.threads = s.threads

theorem Same.refl (s : St) : Same s s := by constructor <;> rfl
theorem Same.trans {a b c : St} (h : Same a b) (k : Same b c) : Same a c := by
  obtain ⟨_, _, _, _, _, _, _, _, _, _, _, _, _⟩ := h
  obtain ⟨_, _, _, _, _, _, _, _, _, _, _, _, _⟩ := k
  constructor <;> simp_all

theorem ceilQ_ge (q : ℚ) : q ≤ ceilQ q := by
  have := floor_le' (-q); unfold ceilQ; push_cast; linarith
theorem ceilQ_lt (q : ℚ) : (ceilQ q : ℚ) < q + 1 := by
  have := lt_floor' (-q); unfold ceilQ; push_cast; linarith

/-! ## nextChange -/

theorem nextChange_fields {cfg : Cfg} {s s' : St} (h : nextChange cfg s = .ok s') :
    s'.maxStitch = s.maxStitch ∧ s'.maxJump = s.maxJump ∧ s'.explicitTrim = s.explicitTrim ∧ s'.sequinC = s.sequinC ∧
    s'.tieOnC = s.tieOnC ∧ s'.tieOffC = s.tieOffC ∧ s'.longC = s.longC ∧ s'.matrix = s.matrix ∧
    s'.order = s.order + 1 ∧ s'.trimmed = true ∧ s'.sequinMode = s.sequinMode ∧ s'.jumping = s.jumping ∧
    s'.nx = s.nx ∧ s'.ny = s.ny ∧ s'.high = s.high := by
  unfold nextChange at h
  split at h
  · cases h
  · injection h with h
    subst h
    simp only
    split_ifs <;> simp

/-- What a colour change writes: nothing, or one word at the needle. -/
theorem nextChange_out {cfg : Cfg} {s s' : St} (h : nextChange cfg s = .ok s') :
    ∃ ch, dget (s.order + 1) cfg.plan = some ch ∧
    ((cfg.change = COLOR_CHANGE ∧ s'.threads = s.threads ++ [ch.thr] ∧
        ((s.order + 1 = 0 ∧ s'.out = s.out) ∨
         (s.order + 1 ≠ 0 ∧
          s'.out = s.out ++ [⟨s.nx, s.ny, encodeThreadChange COLOR_CHANGE (some ch.thread) (some ch.needle) none⟩]))) ∨
     (cfg.change = NEEDLE_SET ∧ s'.threads = s.threads ∧
        s'.out = s.out ++ [⟨s.nx, s.ny, encodeThreadChange NEEDLE_SET (some ch.thread) (some ch.needle) none⟩]) ∨
     (cfg.change = STOP ∧ s'.threads = s.threads ++ [ch.thr] ∧
        s'.out = s.out ++ [⟨s.nx, s.ny, encodeThreadChange STOP (some ch.thread) (some ch.needle) none⟩]) ∨
     (cfg.change ≠ COLOR_CHANGE ∧ cfg.change ≠ NEEDLE_SET ∧ cfg.change ≠ STOP ∧
        s'.threads = s.threads ∧ s'.out = s.out)) := by
  unfold nextChange at h
  split at h
  · cases h
  · rename_i ch hch
    injection h with h
    subst h
    refine ⟨ch, hch, ?_⟩
    by_cases h1 : cfg.change = COLOR_CHANGE
    · left
      by_cases h0 : s.order + 1 = 0
      · simp [h1, h0]
      · simp [h1, h0]
    · right
      by_cases h2 : cfg.change = NEEDLE_SET
      · left; simp [h2, NEEDLE_SET, COLOR_CHANGE]
      · right
        by_cases h3 : cfg.change = STOP
        · left; simp [h3, STOP, NEEDLE_SET, COLOR_CHANGE]
        · right; simp [h1, h2, h3]

/-! ## Sequin toggling -/

theorem toggle_off {cfg : Cfg} {c : Int} {G : Prop} {s : St} (hI : SeqInv s) (hm : s.sequinMode = true) :
    Chain cfg c G s (toggleSequins s) ∧ (toggleSequins s).sequinMode = false ∧ Same s (toggleSequins s) ∧
    (toggleSequins s).nx = s.nx ∧ (toggleSequins s).ny = s.ny := by
  have hu := hI.1 hm
  have e : toggleSequins s = { s.add SEQUIN_MODE with sequinMode := !s.sequinMode } := by
    unfold toggleSequins; rw [if_pos hu]
  rw [e]
  refine ⟨.single (.toggle s hu), by simp [hm], ?_, rfl, rfl⟩
  constructor <;> rfl

/-- `if state_sequin_mode: toggle_sequins()` always leaves sequin mode off. -/
theorem ensure_off {cfg : Cfg} {c : Int} {G : Prop} {s : St} (hI : SeqInv s) :
    let s' := if s.sequinMode then toggleSequins s else s
    Chain cfg c G s s' ∧ s'.sequinMode = false ∧ Same s s' ∧ s'.nx = s.nx ∧ s'.ny = s.ny := by
  by_cases hm : s.sequinMode = true
  · simp only [hm, if_true]; exact toggle_off hI hm
  · have hm' : s.sequinMode = false := by simpa using hm
    simp only [hm']
    exact ⟨.refl, by simp [hm'], Same.refl s, rfl, rfl⟩

theorem SeqInv.of_same {s s' : St} (hI : SeqInv s) (h : Same s s') (hm : s'.sequinMode = s.sequinMode ∨
    s'.sequinMode = false) : SeqInv s' := by
  refine ⟨?_, by rw [h.sequinC]; exact hI.2⟩
  intro ht
  rw [h.sequinC]
  rcases hm with hm | hm
  · exact hI.1 (by rw [← hm]; exact ht)
  · rw [hm] at ht; cases ht

/-! ## Gaps -/

theorem moveTo_same (s : St) (d : Int) (x y : ℚ) : Same s (s.moveTo d x y) := by constructor <;> rfl

theorem gapLoop_chain {cfg : Cfg} {c : Int} {G : Prop} {data : Int} {sx sy m : ℚ} {limit : Option ℚ}
    (hd : data = JUMP ∨ data = STITCH) (hx : 0 ≤ m → |sx| ≤ m) (hy : 0 ≤ m → |sy| ≤ m) (hl : limit = some m) :
    ∀ (n : Nat) (s : St), (limit = s.maxStitch ∨ limit = s.maxJump) → (data = JUMP → s.sequinMode = false) →
      (|sx| = m → IsInt m → G → IsInt s.nx) → (|sy| = m → IsInt m → G → IsInt s.ny) →
      let s' := gapLoop data sx sy n s
      Chain cfg c G s s' ∧ Same s s' ∧ s'.sequinMode = s.sequinMode ∧
        s'.nx = s.nx + n * sx ∧ s'.ny = s.ny + n * sy ∧
        (|sx| = m → IsInt m → G → IsInt s'.nx) ∧ (|sy| = m → IsInt m → G → IsInt s'.ny) := by
  intro n
  induction n with
  | zero => intro s _ _ h1 h2; exact ⟨.refl, Same.refl s, rfl, by simp [gapLoop], by simp [gapLoop], h1, h2⟩
  | succ n ih =>
    intro s hlim hm h1 h2
    have near : Near G s (s.nx + sx) (s.ny + sy) := by
      have : NearL G limit s (s.nx + sx) (s.ny + sy) := by
        intro m' hm' h0
        rw [hl] at hm'; injection hm' with hm'; subst hm'
        refine ⟨⟨by simpa using hx h0, ?_⟩, ⟨by simpa using hy h0, ?_⟩⟩
        · intro h; apply h1; simpa using h
        · intro h; apply h2; simpa using h
      rcases hlim with h | h
      · left; rw [← h]; exact this
      · right; left; rw [← h]; exact this
    have hstep : Micro cfg c G s (s.moveTo data (s.nx + sx) (s.ny + sy)) := by
      rcases hd with rfl | rfl
      · exact .jump s _ _ near (hm rfl)
      · exact .stitch s _ _ near
    obtain ⟨c1, c2, c3, c4, c5, c6, c7⟩ := ih (s.moveTo data (s.nx + sx) (s.ny + sy)) hlim hm
      (fun a b g => (h1 a b g).add (isInt_of_abs a b)) (fun a b g => (h2 a b g).add (isInt_of_abs a b))
    refine ⟨.head hstep c1, (moveTo_same s _ _ _).trans c2, c3, ?_, ?_, c6, c7⟩
    · rw [gapLoop, c4]; simp only [St.moveTo]; push_cast; ring
    · rw [gapLoop, c5]; simp only [St.moveTo]; push_cast; ring

theorem steps_bound {d m : ℚ} {n : Int} (hm : 0 < m) (hn : 0 < n) (h : ceilQ |d / m| ≤ n) : |d / n| ≤ m := by
  have h1 := ceilQ_ge |d / m|
  have h2 : |d / m| ≤ n := le_trans h1 (by exact_mod_cast h)
  have hn' : (0 : ℚ) < n := by exact_mod_cast hn
  rw [abs_div, abs_of_pos hm] at h2
  rw [abs_div, abs_of_pos hn']
  rw [div_le_iff₀ hm] at h2
  rw [div_le_iff₀ hn']
  linarith

/-- The contract of `interpolate_gap_stitches`. -/
theorem gap_chain {cfg : Cfg} {c : Int} {G : Prop} {s s' : St} {x y : ℚ} {limit : Option ℚ} {data : Int}
    (hI : SeqInv s) (hd : data = JUMP ∨ data = STITCH) (hlim : limit = s.maxStitch ∨ limit = s.maxJump)
    (hG : G → IsInt s.nx ∧ IsInt s.ny)
    (h : gap s x y limit data = .ok s') :
    Chain cfg c G s s' ∧ Same s s' ∧ NearL G limit s' x y ∧
      (s'.sequinMode = s.sequinMode ∨ s'.sequinMode = false) ∧
      (data = STITCH → s'.sequinMode = s.sequinMode) := by
  unfold gap at h
  simp only at h
  cases limit with
  | none =>
    simp at h; subst h
    exact ⟨.refl, Same.refl s, (by intro m hm; cases hm), .inl rfl, fun _ => rfl⟩
  | some m =>
    simp only at h
    by_cases hfar : tooFar (some m) (x - s.nx) (y - s.ny) = true
    · rw [if_pos hfar] at h
      by_cases hmz : m = 0
      · rw [if_pos hmz] at h; cases h
      · rw [if_neg hmz] at h
        have hmp : 0 ≤ m → 0 < m := fun hm0 => lt_of_le_of_ne hm0 (Ne.symm hmz)
        generalize hsteps : (if ceilQ |(x - s.nx) / m| > ceilQ |(y - s.ny) / m| then ceilQ |(x - s.nx) / m|
          else ceilQ |(y - s.ny) / m|) = n at h
        have hnx : ceilQ |(x - s.nx) / m| ≤ n := by rw [← hsteps]; split_ifs <;> omega
        have hny : ceilQ |(y - s.ny) / m| ≤ n := by rw [← hsteps]; split_ifs <;> omega
        by_cases hn0 : n = 0
        · rw [if_pos hn0] at h; cases h
        · rw [if_neg hn0] at h
          injection h with h
          have hcn : 0 ≤ ceilQ |(x - s.nx) / m| := by
            have h1 := ceilQ_ge |(x - s.nx) / m|
            have h2 : (0 : ℚ) ≤ ceilQ |(x - s.nx) / m| := le_trans (abs_nonneg _) h1
            exact_mod_cast h2
          have hnpos : 0 < n := by omega
          have hnq : (n : ℚ) ≠ 0 := by exact_mod_cast hn0
          -- the optional toggle
          obtain ⟨t1, t2, t3, t4, t5, t6⟩ : Chain cfg c G s (if data = JUMP ∧ s.sequinMode then toggleSequins s else s) ∧
              (data = JUMP → (if data = JUMP ∧ s.sequinMode then toggleSequins s else s).sequinMode = false) ∧
              Same s (if data = JUMP ∧ s.sequinMode then toggleSequins s else s) ∧
              (if data = JUMP ∧ s.sequinMode then toggleSequins s else s).nx = s.nx ∧
              (if data = JUMP ∧ s.sequinMode then toggleSequins s else s).ny = s.ny ∧
              (data = STITCH → (if data = JUMP ∧ s.sequinMode then toggleSequins s else s) = s) := by
            have e := ensure_off (cfg := cfg) (c := c) (G := G) hI
            simp only at e
            rcases hd with rfl | rfl
            · by_cases hmm : s.sequinMode = true
              · rw [if_pos ⟨rfl, hmm⟩]; rw [if_pos hmm] at e
                exact ⟨e.1, fun _ => e.2.1, e.2.2.1, e.2.2.2.1, e.2.2.2.2, fun hc => by simp [JUMP, STITCH] at hc⟩
              · rw [if_neg (by tauto)]
                exact ⟨.refl, fun _ => by simpa using hmm, Same.refl s, rfl, rfl, fun _ => rfl⟩
            · rw [if_neg (by simp [JUMP, STITCH])]
              exact ⟨.refl, fun hc => by simp [JUMP, STITCH] at hc, Same.refl s, rfl, rfl, fun _ => rfl⟩
          generalize hs1 : (if data = JUMP ∧ s.sequinMode then toggleSequins s else s) = s1 at h t1 t2 t3 t4 t5 t6
          have bx := fun hm0 => steps_bound (hmp hm0) hnpos hnx
          have by' := fun hm0 => steps_bound (hmp hm0) hnpos hny
          obtain ⟨g1, g2, g3, g4, g5, g6, g7⟩ := gapLoop_chain (cfg := cfg) (c := c) (G := G) (limit := some m)
            hd bx by' rfl (n - 1).toNat s1
            (by rw [t3.maxStitch, t3.maxJump]; exact hlim) t2
            (fun _ _ g => by rw [t4]; exact (hG g).1) (fun _ _ g => by rw [t5]; exact (hG g).2)
          rw [h] at g1 g2 g3 g4 g5 g6 g7
          have hcast : (((n - 1).toNat : ℕ) : ℚ) = n - 1 := by
            have : (((n - 1).toNat : ℕ) : ℤ) = n - 1 := Int.toNat_of_nonneg (by omega)
            exact_mod_cast congrArg (Int.cast (R := ℚ)) this
          refine ⟨t1.trans g1, t3.trans g2, ?_, ?_, ?_⟩
          · intro m' hm' h0
            injection hm' with hm'; subst hm'
            have ex : x - s'.nx = (x - s.nx) / n := by
              rw [g4, t4, hcast]; field_simp; ring
            have ey : y - s'.ny = (y - s.ny) / n := by
              rw [g5, t5, hcast]; field_simp; ring
            refine ⟨⟨by rw [ex]; exact bx h0, ?_⟩, ⟨by rw [ey]; exact by' h0, ?_⟩⟩
            · intro e i g; rw [ex] at e; exact g6 e i g
            · intro e i g; rw [ey] at e; exact g7 e i g
          · rw [g3]
            rcases hd with rfl | rfl
            · right; exact t2 rfl
            · left; rw [t6 rfl]
          · intro hc; rw [g3, t6 hc]
    · rw [if_neg hfar] at h
      injection h with h; subst h
      refine ⟨.refl, Same.refl s, ?_, .inl rfl, fun _ => rfl⟩
      intro m' hm' _
      injection hm' with hm'; subst hm'
      simp only [tooFar, Bool.or_eq_true, decide_eq_true_eq, not_or, not_lt] at hfar
      exact ⟨⟨hfar.1, fun _ _ g => (hG g).1⟩, ⟨hfar.2, fun _ _ g => (hG g).2⟩⟩

end Emb
