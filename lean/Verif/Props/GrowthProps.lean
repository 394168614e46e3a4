import Verif.Props.StrikeProps
import Verif.Props.EncoderProps

/-!
# C116: the normal form is at most so much longer than the design

A source command becomes at most ten commands and as many as the longest way through the design has steps.
-/

namespace Emb
namespace Growth

/-- A rectangle: the smallest coordinates, and the length of the sides. -/
structure Box where
  x : ℚ
  y : ℚ
  side : ℚ

/-- The point is in the rectangle. -/
def Box.has (B : Box) (p : Pt) : Prop := B.x ≤ p.1 ∧ p.1 ≤ B.x + B.side ∧ B.y ≤ p.2 ∧ p.2 ≤ B.y + B.side

/-- A length limit that is absent or at least `m`. -/
def AtLeast (m : ℚ) (limit : Option ℚ) : Prop := ∀ l, limit = some l → m ≤ l

variable {K : Nat} {B : Box} {m : ℚ} {cfg : Cfg} {s s' t : St} {position : Nat} {st : Stitch} {x y : ℚ}

/-- The needle is in the rectangle, and the limits are at least `m`. -/
structure Room (B : Box) (m : ℚ) (s : St) : Prop where
  needle : B.has (s.nx, s.ny)
  stitch : AtLeast m s.maxStitch
  jump : AtLeast m s.maxJump

/-- At most `n` commands more; room and matrix are kept. -/
structure Grow (B : Box) (m : ℚ) (n : Nat) (s s' : St) : Prop where
  len : s'.out.length ≤ s.out.length + n
  room : Room B m s → Room B m s'
  matrix : s'.matrix = s.matrix

theorem Grow.trans {a b c : St} {k n : Nat} (h1 : Grow B m k a b) (h2 : Grow B m n b c) : Grow B m (k + n) a c :=
  ⟨by have := h1.len; have := h2.len; omega, fun r => h2.room (h1.room r), h2.matrix.trans h1.matrix⟩

theorem Grow.mono {a b : St} {k n : Nat} (h : Grow B m k a b) (hk : k ≤ n) : Grow B m n a b :=
  ⟨by have := h.len; omega, h.room, h.matrix⟩

theorem Grow.same {a b : St} {n : Nat} (h1 : b.out.length ≤ a.out.length + n) (h2 : b.nx = a.nx) (h3 : b.ny = a.ny) (h4 : b.maxStitch = a.maxStitch)
    (h5 : b.maxJump = a.maxJump) (h6 : b.matrix = a.matrix) : Grow B m n a b :=
  ⟨h1, fun r => ⟨by rw [h2, h3]; exact r.needle, by rw [h4]; exact r.stitch, by rw [h5]; exact r.jump⟩, h6⟩

theorem Grow.refl (n : Nat) (s : St) : Grow B m n s s := .same (by omega) rfl rfl rfl rfl rfl

theorem add_grow (c : Int) : Grow B m 1 s (s.add c) := .same (by simp [St.add]) rfl rfl rfl rfl rfl

theorem move_grow (c : Int) (h : B.has (x, y)) : Grow B m 1 s (s.moveTo c x y) :=
  ⟨by simp [St.moveTo], fun r => ⟨h, r.stitch, r.jump⟩, rfl⟩

theorem toggle_grow : Grow B m 1 s (toggleSequins s) := by
  unfold toggleSequins
  split
  · exact .same (by simp [St.add]) rfl rfl rfl rfl rfl
  · exact .refl _ _

theorem leaveMode_grow : Grow B m 1 s (if s.sequinMode = true then toggleSequins s else s) := by
  split
  · exact toggle_grow
  · exact .refl _ _

theorem trimHere_grow : Grow B m 2 s (trimHere s) := by
  unfold trimHere
  have h := (leaveMode_grow (B := B) (m := m) (s := s)).trans (add_grow (s := if s.sequinMode = true then toggleSequins s else s) TRIM)
  exact ⟨h.len, fun r => ⟨(h.room r).needle, (h.room r).stitch, (h.room r).jump⟩, h.matrix⟩

theorem nextChange_grow (h : nextChange cfg s = .ok s') : Grow B m 1 s s' := by
  unfold nextChange at h
  split at h
  · cases h
  · injection h with h
    subst h
    simp only
    repeat' split
    all_goals exact .same (by simp) rfl rfl rfl rfl rfl

theorem declare_grow (h : declareNotTrimmed cfg s = .ok s') : Grow B m 1 s s' := by
  unfold declareNotTrimmed at h
  split at h
  · cases hn : nextChange cfg s with
    | error e => rw [hn] at h; cases h
    | ok t =>
      rw [hn] at h
      injection h with h
      subst h
      have h := nextChange_grow (B := B) (m := m) hn
      exact ⟨h.len, fun r => ⟨(h.room r).needle, (h.room r).stitch, (h.room r).jump⟩, h.matrix⟩
  · injection h with h
    subst h
    exact .same (by simp) rfl rfl rfl rfl rfl

/-- Between two points of the rectangle. -/
theorem has_between {p q : Pt} (hp : B.has p) (hq : B.has q) {u : ℚ} (h0 : 0 ≤ u) (h1 : u ≤ 1) :
    B.has (p.1 + u * (q.1 - p.1), p.2 + u * (q.2 - p.2)) := by
  obtain ⟨a1, a2, a3, a4⟩ := hp
  obtain ⟨b1, b2, b3, b4⟩ := hq
  refine ⟨?_, ?_, ?_, ?_⟩ <;> simp only <;> nlinarith

theorem gapLoop_out (c : Int) (sx sy : ℚ) (n : Nat) (s : St) : (gapLoop c sx sy n s).out.length = s.out.length + n ∧
    (gapLoop c sx sy n s).nx = s.nx + n * sx ∧ (gapLoop c sx sy n s).ny = s.ny + n * sy ∧ (gapLoop c sx sy n s).maxStitch = s.maxStitch ∧
    (gapLoop c sx sy n s).maxJump = s.maxJump ∧ (gapLoop c sx sy n s).matrix = s.matrix := by
  induction n generalizing s with
  | zero => simp [gapLoop]
  | succ n ih =>
    rw [gapLoop]
    obtain ⟨h1, h2, h3, h4, h5, h6⟩ := ih (s.moveTo c (s.nx + sx) (s.ny + sy))
    refine ⟨by rw [h1]; simp [St.moveTo]; omega, by rw [h2]; simp [St.moveTo]; ring, by rw [h3]; simp [St.moveTo]; ring, h4, h5, h6⟩

theorem gap_grow {limit : Option ℚ} {c : Int} (hm : 0 < m) (hK : B.side ≤ K * m) (hl : AtLeast m limit) (r : Room B m s) (hp : B.has (x, y))
    (h : gap s x y limit c = .ok s') : Grow B m K s s' := by
  unfold gap at h
  simp only at h
  cases limit with
  | none => injection h with h; subst h; exact .refl _ _
  | some l =>
    have hml := hl l rfl
    have hl0 : 0 < l := lt_of_lt_of_le hm hml
    simp only at h
    by_cases hf : tooFar (some l) (x - s.nx) (y - s.ny) = true
    · rw [if_pos hf, if_neg (ne_of_gt hl0)] at h
      generalize hu : (if c = JUMP ∧ s.sequinMode = true then toggleSequins s else s) = u at h
      have gu : Grow B m 1 s u := by
        rw [← hu]
        split
        · exact toggle_grow
        · exact .refl _ _
      have hux : u.nx = s.nx ∧ u.ny = s.ny := by
        rw [← hu]
        split
        · unfold toggleSequins; split <;> exact ⟨rfl, rfl⟩
        · exact ⟨rfl, rfl⟩
      obtain ⟨n1, n2, n3, n4⟩ := r.needle
      obtain ⟨p1, p2, p3, p4⟩ := hp
      simp only at n1 n2 n3 n4 p1 p2 p3 p4
      have hx : |x - s.nx| ≤ B.side := abs_le.2 ⟨by linarith, by linarith⟩
      have hy : |y - s.ny| ≤ B.side := abs_le.2 ⟨by linarith, by linarith⟩
      have hK0 : 0 < K := by
        rcases Nat.eq_zero_or_pos K with h0 | h0
        · exfalso
          rw [h0] at hK
          have : B.side ≤ 0 := by simpa using hK
          simp only [tooFar, Bool.or_eq_true, decide_eq_true_eq] at hf
          rcases hf with h1 | h1 <;> linarith
        · exact h0
      have hKq : (0 : ℚ) < K := by exact_mod_cast hK0
      have hle : ∀ d : ℚ, |d| ≤ B.side → ceilQ |d / l| ≤ K := fun d hd => by
        refine steps_least hl0 hK0 ?_
        rw [div_le_iff₀ hKq]
        have : (K : ℚ) * m ≤ l * K := by nlinarith
        linarith
      have h1 := hle _ hx
      have h2 := hle _ hy
      generalize hst : (if ceilQ |(x - s.nx) / l| > ceilQ |(y - s.ny) / l| then ceilQ |(x - s.nx) / l| else ceilQ |(y - s.ny) / l|) = n at h
      have hnK : n ≤ K := by rw [← hst]; split_ifs <;> omega
      have hn0 : 0 ≤ n := by
        have hc : ∀ d : ℚ, 0 ≤ ceilQ |d| := fun d => by
          have := ceilQ_ge |d|
          have h3 := abs_nonneg d
          have : (0 : ℚ) ≤ ceilQ |d| := by linarith
          exact_mod_cast this
        rw [← hst]; split_ifs <;> exact hc _
      by_cases hz : n = 0
      · rw [if_pos hz] at h; cases h
      · rw [if_neg hz] at h
        injection h with h
        obtain ⟨e1, e2, e3, e4, e5, e6⟩ := gapLoop_out c ((x - s.nx) / n) ((y - s.ny) / n) (n - 1).toNat u
        rw [h] at e1 e2 e3 e4 e5 e6
        have hnq : (0 : ℚ) < n := by exact_mod_cast (lt_of_le_of_ne hn0 (Ne.symm hz))
        have hcast : (((n - 1).toNat : ℕ) : ℚ) = n - 1 := by
          have : ((n - 1).toNat : ℤ) = n - 1 := Int.toNat_of_nonneg (by omega)
          have h4 : (((n - 1).toNat : ℤ) : ℚ) = ((n - 1 : ℤ) : ℚ) := by rw [this]
          push_cast at h4
          exact_mod_cast h4
        refine ⟨?_, fun r => ⟨?_, ?_, ?_⟩, e6.trans gu.matrix⟩
        · have := gu.len; omega
        · have hb := has_between (B := B) (p := (s.nx, s.ny)) (q := (x, y)) r.needle ⟨p1, p2, p3, p4⟩ (u := (n - 1) / n)
            (div_nonneg (by have : (1 : ℚ) ≤ n := by exact_mod_cast (by omega : 1 ≤ n)
                            linarith) hnq.le) ((div_le_one hnq).2 (by linarith))
          have ex : s'.nx = s.nx + (n - 1) / n * (x - s.nx) := by rw [e2, hux.1, hcast]; field_simp
          have ey : s'.ny = s.ny + (n - 1) / n * (y - s.ny) := by rw [e3, hux.2, hcast]; field_simp
          rw [ex, ey]
          exact hb
        · rw [e4]; exact (gu.room r).stitch
        · rw [e5]; exact (gu.room r).jump
    · rw [if_neg hf] at h
      injection h with h
      subst h
      exact .refl _ _

theorem jumpAt_grow (hp : B.has (x, y)) : Grow B m 2 s (jumpAt s x y) := by
  unfold jumpAt
  exact leaveMode_grow.trans (move_grow _ hp)

theorem jumpToWithin_grow (hm : 0 < m) (hK : B.side ≤ K * m) (r : Room B m s) (hp : B.has (x, y)) (h : jumpToWithin cfg s x y = .ok s') :
    Grow B m (K + 2) s s' := by
  unfold jumpToWithin at h
  cases hg : gap s x y s.maxJump JUMP with
  | error e => rw [hg] at h; cases h
  | ok t =>
    rw [hg] at h
    injection h with h
    subst h
    refine (gap_grow hm hK r.jump r hp hg).trans ?_
    split
    · exact jumpAt_grow hp
    · exact .refl _ _

theorem jumpTo_grow (hm : 0 < m) (hK : B.side ≤ K * m) (r : Room B m s) (hp : B.has (x, y)) (h : jumpTo s x y = .ok s') :
    Grow B m (K + 2) s s' := by
  unfold jumpTo at h
  cases hg : gap s x y s.maxJump JUMP with
  | error e => rw [hg] at h; cases h
  | ok t =>
    rw [hg] at h
    injection h with h
    subst h
    exact (gap_grow hm hK r.jump r hp hg).trans (jumpAt_grow hp)

theorem gapStitch_grow {c : Int} (hm : 0 < m) (hK : B.side ≤ K * m) (r : Room B m s) (hp : B.has (x, y))
    (h : (gap s x y s.maxStitch c >>= fun s => (pure (stitchAt s x y) : Except PyErr St)) = .ok s') : Grow B m (K + 1) s s' := by
  cases hg : gap s x y s.maxStitch c with
  | error e => rw [hg] at h; cases h
  | ok t =>
    rw [hg] at h
    injection h with h
    subst h
    exact (gap_grow hm hK r.stitch r hp hg).trans (move_grow _ hp)

theorem contingency_grow (hm : 0 < m) (hK : B.side ≤ K * m) (r : Room B m s) (hp : B.has (x, y)) (h : stitchWithContingency s x y = .ok s') :
    Grow B m (K + 1) s s' := by
  unfold stitchWithContingency at h
  split at h
  · exact gapStitch_grow hm hK r hp h
  · split at h
    · exact gapStitch_grow hm hK r hp h
    · injection h with h
      subst h
      exact (move_grow _ hp).mono (by omega)

theorem lock_grow (b : Stitch) : Grow B m 4 s (lockTowards cfg s b) := by
  unfold lockTowards
  simp only
  split
  · exact .same (by simp [lockStitches]) rfl rfl rfl rfl rfl
  · exact .refl _ _

theorem tieOff_grow : Grow B m 4 s (tieOff cfg position s) := by
  unfold tieOff
  split
  · split
    · exact lock_grow _
    · exact .refl _ _
  · exact .refl _ _

theorem tieOn_grow : Grow B m 4 s (tieOn cfg position s) := by
  unfold tieOn
  split
  · split
    · exact lock_grow _
    · exact .refl _ _
  · exact .refl _ _

theorem tieOn_needle : (tieOn cfg position s).nx = s.nx ∧ (tieOn cfg position s).ny = s.ny := by
  unfold tieOn
  split
  · split
    · unfold lockTowards
      simp only
      split <;> exact ⟨rfl, rfl⟩
    · exact ⟨rfl, rfl⟩
  · exact ⟨rfl, rfl⟩

theorem explicit_grow : Grow B m 6 s (tieOffTrimIfExplicit cfg position s) := by
  unfold tieOffTrimIfExplicit
  split
  · exact .refl _ _
  · simp only
    split
    · exact tieOff_grow.trans trimHere_grow
    · exact tieOff_grow.mono (by omega)

theorem needed_grow : Grow B m 6 s (tieOffAndTrimIfNeeded cfg position s) := by
  unfold tieOffAndTrimIfNeeded
  split
  · exact .refl _ _
  · exact tieOff_grow.trans trimHere_grow

theorem Grow.flags {a b : St} {n : Nat} (h : Grow B m n a b) (v : Bool) : Grow B m n a { b with trimmed := v } :=
  ⟨h.len, fun r => ⟨(h.room r).needle, (h.room r).stitch, (h.room r).jump⟩, h.matrix⟩

theorem Grow.jumps {a b : St} {n : Nat} (h : Grow B m n a b) (v : Bool) : Grow B m n a { b with jumping := v } :=
  ⟨h.len, fun r => ⟨(h.room r).needle, (h.room r).stitch, (h.room r).jump⟩, h.matrix⟩

theorem change_grow (h : colorChange cfg position s = .ok s') : Grow B m 7 s s' := by
  unfold colorChange at h
  cases hn : nextChange cfg (tieOffTrimIfExplicit cfg position s) with
  | error e => rw [hn] at h; cases h
  | ok t =>
    rw [hn] at h
    injection h with h
    subst h
    exact (explicit_grow.trans (nextChange_grow hn)).flags true

theorem break_grow (h : colorBreak cfg position s = .ok s') : Grow B m 7 s s' := by
  unfold colorBreak at h
  split at h
  · injection h with h; subst h; exact .refl _ _
  · simp only at h
    split at h
    · exact change_grow h
    · injection h with h; subst h; exact explicit_grow.mono (by omega)

theorem firstStrike_grow (hm : 0 < m) (hK : B.side ≤ K * m) (r : Room B m s) (hp : B.has (x, y)) (h : firstStrike cfg position s x y = .ok s') :
    Grow B m (K + 8) s s' ∧ s'.nx = x ∧ s'.ny = y := by
  unfold firstStrike at h
  cases hd : declareNotTrimmed cfg s with
  | error e => rw [hd] at h; cases h
  | ok t =>
    rw [hd] at h
    change (jumpToWithin cfg t x y >>= fun s => pure (tieOn cfg position (stitchAt s x y))) = _ at h
    have g1 := declare_grow (B := B) (m := m) hd
    cases hj : jumpToWithin cfg t x y with
    | error e => rw [hj] at h; cases h
    | ok u =>
      rw [hj] at h
      injection h with h
      subst h
      have g2 := jumpToWithin_grow hm hK (g1.room r) hp hj
      refine ⟨((g1.trans g2).trans ((move_grow STITCH hp).trans tieOn_grow)).mono (by omega), ?_, ?_⟩
      · rw [tieOn_needle.1]; rfl
      · rw [tieOn_needle.2]; rfl

theorem sew_grow {direct : St → ℚ → ℚ → Except PyErr St} (hm : 0 < m) (hK : B.side ≤ K * m) (r : Room B m s) (hp : B.has (x, y))
    (hd : ∀ t, direct s x y = .ok t → Grow B m (K + 1) s t) (h : sewStep cfg position s x y direct = .ok s') : Grow B m (K + 8) s s' := by
  unfold sewStep at h
  split at h
  · exact (firstStrike_grow hm hK r hp h).1
  · split at h
    · cases hn : needleTo s x y with
      | error e => rw [hn] at h; cases h
      | ok t =>
        rw [hn] at h
        injection h with h
        subst h
        exact ((gapStitch_grow hm hK r hp hn).jumps false).mono (by omega)
    · exact (hd _ h).mono (by omega)

/-- No gap where the needle is. -/
theorem gap_here {limit : Option ℚ} {c : Int} (hm : 0 < m) (hl : AtLeast m limit) : gap s s.nx s.ny limit c = .ok s := by
  unfold gap
  cases limit with
  | none => rfl
  | some l =>
    have := hl l rfl
    have h : ¬ tooFar (some l) (s.nx - s.nx) (s.ny - s.ny) = true := by
      simp only [tooFar, sub_self, abs_zero, Bool.or_eq_true, decide_eq_true_eq, or_self]
      linarith
    simp only
    rw [if_neg h]

theorem sequinAt_grow (hp : B.has (x, y)) (hg : ∀ t, gap s x y s.maxStitch STITCH = .ok t → Grow B m K s t) (h : sequinAt s x y = .ok s') :
    Grow B m (K + 1) s s' := by
  unfold sequinAt at h
  simp only at h
  split at h
  · injection h with h; subst h; exact .refl _ _
  · cases hq : gap s x y s.maxStitch STITCH with
    | error e => rw [hq] at h; cases h
    | ok t =>
      rw [hq] at h
      injection h with h
      subst h
      refine (hg t hq).trans ⟨?_, fun r => ⟨hp, ?_, ?_⟩, ?_⟩
      · repeat' split
        all_goals simp [St.moveTo]
      · have := r.stitch
        repeat' split
        all_goals exact this
      · have := r.jump
        repeat' split
        all_goals exact this
      · repeat' split
        all_goals rfl

theorem toggle_needle : (toggleSequins s).nx = s.nx ∧ (toggleSequins s).ny = s.ny ∧ (toggleSequins s).maxStitch = s.maxStitch := by
  unfold toggleSequins
  split <;> exact ⟨rfl, rfl, rfl⟩

theorem eject_grow (hm : 0 < m) (hK : B.side ≤ K * m) (r : Room B m s) (hp : B.has (x, y)) (h : ejectStep cfg position s x y = .ok s') :
    Grow B m (K + 10) s s' := by
  unfold ejectStep at h
  split at h
  · cases hf : firstStrike cfg position s x y with
    | error e => rw [hf] at h; cases h
    | ok t =>
      rw [hf] at h
      change sequinAt (if t.sequinMode = true then t else toggleSequins t) x y = _ at h
      obtain ⟨g1, hx, hy⟩ := firstStrike_grow hm hK r hp hf
      have g2 : Grow B m 1 t (if t.sequinMode = true then t else toggleSequins t) := by
        split
        · exact .refl _ _
        · exact toggle_grow
      have hn : (if t.sequinMode = true then t else toggleSequins t).nx = x ∧ (if t.sequinMode = true then t else toggleSequins t).ny = y := by
        split
        · exact ⟨hx, hy⟩
        · exact ⟨toggle_needle.1.trans hx, toggle_needle.2.1.trans hy⟩
      generalize (if t.sequinMode = true then t else toggleSequins t) = u at h g2 hn
      obtain ⟨rfl, rfl⟩ := hn
      have g3 := sequinAt_grow (K := 0) (m := m) hp (fun v hv => by
        rw [gap_here hm ((g1.trans g2).room r).stitch] at hv
        injection hv with hv
        subst hv
        exact .refl _ _) h
      exact ((g1.trans g2).trans g3).mono (by omega)
  · change sequinAt (if s.sequinMode = true then s else toggleSequins s) x y = _ at h
    have g2 : Grow B m 1 s (if s.sequinMode = true then s else toggleSequins s) := by
      split
      · exact .refl _ _
      · exact toggle_grow
    generalize (if s.sequinMode = true then s else toggleSequins s) = u at h g2
    have g3 := sequinAt_grow (K := K) (m := m) hp (fun v hv => gap_grow hm hK (g2.room r).stitch (g2.room r) hp hv) h
    exact (g2.trans g3).mono (by omega)

theorem frame_grow (hm : 0 < m) (hK : B.side ≤ K * m) (r : Room B m s) (hp : B.has (x, y)) (h : frameEject cfg position s x y = .ok s') :
    Grow B m (K + 9) s s' := by
  unfold frameEject at h
  cases hj : jumpTo (tieOffAndTrimIfNeeded cfg position s) x y with
  | error e => rw [hj] at h; cases h
  | ok t =>
    rw [hj] at h
    injection h with h
    subst h
    have g1 := needed_grow (B := B) (m := m) (cfg := cfg) (position := position) (s := s)
    have g2 := jumpTo_grow hm hK (g1.room r) hp hj
    exact (((g1.trans g2).trans (add_grow STOP)).flags true).mono (by omega)

theorem ite_of {P : Prop} {p : Prop} [Decidable p] {a b : Except PyErr St} (h : (if p then a else b) = .ok s') (h1 : p → a = .ok s' → P)
    (h2 : ¬ p → b = .ok s' → P) : P := by
  split at h
  · exact h1 ‹_› h
  · exact h2 ‹_› h

theorem matrix_grow {c : Int} (hc : c ∉ [0xC0, 0xC1, 0xC2, 0xC3, 0xC4, (0xC5 : Int)]) (h : matrixStep cfg s st c = .ok s') : Grow B m 0 s s' := by
  simp only [List.mem_cons, List.not_mem_nil, or_false, not_or] at hc
  obtain ⟨c0, c1, c2, c3, c4, c5⟩ := hc
  unfold matrixStep at h
  rw [if_neg (show ¬ c = MATRIX_TRANSLATE from c0), if_neg (show ¬ c = MATRIX_SCALE_ORIGIN from c1),
    if_neg (show ¬ c = MATRIX_ROTATE_ORIGIN from c2), if_neg (show ¬ c = MATRIX_SCALE from c4),
    if_neg (show ¬ c = MATRIX_ROTATE from c5), if_neg (show ¬ c = MATRIX_RESET from c3)] at h
  injection h with h
  subst h
  exact .refl _ _

theorem leave_grow (c : Int) : Grow B m 1 s (leaveSequins s c) := by
  unfold leaveSequins
  have h := leaveMode_grow (B := B) (m := m) (s := s)
  exact ⟨h.len, fun r => ⟨(h.room r).needle, (h.room r).stitch, (h.room r).jump⟩, h.matrix⟩

/-- What is asked of a command: it does not change the matrix, and does not set a smaller limit. -/
def Calm (m : ℚ) (st : Stitch) : Prop :=
  st.low ∉ [0xC0, 0xC1, 0xC2, 0xC3, 0xC4, (0xC5 : Int)] ∧ (st.low = 0xD5 ∨ st.low = 0xD6 → m ≤ st.x)

theorem setting_grow (hc : Calm m st) (h : settingStep cfg s st st.low = .ok s') : Grow B m 1 s s' := by
  have easy : ∀ {u : St}, (Except.ok u : Except PyErr St) = .ok s' → Grow B m 1 s u → Grow B m 1 s s' := fun h g => by
    injection h with h; subst h; exact g
  unfold settingStep at h
  refine ite_of h (fun _ h => easy h (.same (by simp) rfl rfl rfl rfl rfl)) fun _ h => ?_
  refine ite_of h (fun _ h => easy h (.same (by simp) rfl rfl rfl rfl rfl)) fun _ h => ?_
  refine ite_of h (fun _ h => easy h (.same (by simp) rfl rfl rfl rfl rfl)) fun _ h => ?_
  refine ite_of h (fun _ h => easy h (.same (by simp) rfl rfl rfl rfl rfl)) fun _ h => ?_
  refine ite_of h (fun e h => easy h ⟨by simp, fun r => ⟨r.needle, r.stitch, fun l hl => ?_⟩, rfl⟩) fun _ h => ?_
  · injection hl with hl; rw [← hl]; exact hc.2 (.inr e)
  refine ite_of h (fun e h => easy h ⟨by simp, fun r => ⟨r.needle, fun l hl => ?_, r.jump⟩, rfl⟩) fun _ h => ?_
  · injection hl with hl; rw [← hl]; exact hc.2 (.inl e)
  refine ite_of h (fun _ h => easy h (.same (by simp) rfl rfl rfl rfl rfl)) fun _ h => ?_
  refine ite_of h (fun _ h => easy h (.same (by simp) rfl rfl rfl rfl rfl)) fun _ h => ?_
  refine ite_of h (fun _ h => easy h (.same (by simp) rfl rfl rfl rfl rfl)) fun _ h => ?_
  refine ite_of h (fun _ h => easy h (.same (by simp) rfl rfl rfl rfl rfl)) fun _ h => ?_
  refine ite_of h (fun _ h => easy h (.same (by simp) rfl rfl rfl rfl rfl)) fun _ h => ?_
  refine ite_of h (fun _ h => easy h (leave_grow _)) fun _ h => ?_
  refine ite_of h (fun _ h => easy h (leave_grow _)) fun _ h => ?_
  refine ite_of h (fun _ h => easy h (leave_grow _)) fun _ h => ?_
  refine ite_of h (fun _ h => easy h (.same (by simp) rfl rfl rfl rfl rfl)) fun _ h => ?_
  exact (matrix_grow hc.1 h).mono (by omega)

theorem dispatch_grow (hm : 0 < m) (hK : B.side ≤ K * m) (r : Room B m s) (hp : B.has (x, y)) (hc : Calm m st)
    (h : dispatch cfg position s st x y st.low = .ok s') : Grow B m (K + 10) s s' := by
  have easy : ∀ {u : St} {n : Nat}, (Except.ok u : Except PyErr St) = .ok s' → Grow B m n s u → n ≤ K + 10 → Grow B m (K + 10) s s' :=
    fun h g hn => by injection h with h; subst h; exact g.mono hn
  unfold dispatch at h
  refine ite_of h (fun _ h => (sew_grow hm hK r hp (fun t ht => contingency_grow hm hK r hp ht) h).mono (by omega)) fun _ h => ?_
  refine ite_of h (fun _ h => (sew_grow hm hK r hp (fun t ht => gapStitch_grow hm hK r hp ht) h).mono (by omega)) fun _ h => ?_
  refine ite_of h (fun _ h => (sew_grow hm hK r hp (fun t ht => gapStitch_grow hm hK r hp ht) h).mono (by omega)) fun _ h => ?_
  refine ite_of h (fun _ h => easy h (.same (n := 0) (by simp) rfl rfl rfl rfl rfl) (by omega)) fun _ h => ?_
  refine ite_of h (fun _ h => (frame_grow hm hK r hp h).mono (by omega)) fun _ h => ?_
  refine ite_of h (fun _ h => easy h needed_grow (by omega)) fun _ h => ?_
  refine ite_of h (fun _ h => (break_grow h).mono (by omega)) fun _ h => ?_
  refine ite_of h (fun _ h => easy h tieOff_grow (by omega)) fun _ h => ?_
  refine ite_of h (fun _ h => easy h tieOn_grow (by omega)) fun _ h => ?_
  refine ite_of h (fun _ h => easy h needed_grow (by omega)) fun _ h => ?_
  refine ite_of h (fun _ h => ?_) fun _ h => ?_
  · split at h
    · exact easy h (.refl 0 _) (by omega)
    · exact (jumpTo_grow hm hK r hp h).mono (by omega)
  refine ite_of h (fun _ h => easy h toggle_grow (by omega)) fun _ h => ?_
  refine ite_of h (fun _ h => eject_grow hm hK r hp h) fun _ h => ?_
  refine ite_of h (fun _ h => (change_grow h).mono (by omega)) fun _ h => ?_
  refine ite_of h (fun _ h => (change_grow h).mono (by omega)) fun _ h => ?_
  refine ite_of h (fun _ h => easy h ((add_grow STOP).flags true) (by omega)) fun _ h => ?_
  have speed : ∀ c : Int, Grow B m 1 s (if cfg.writesSpeeds = true then s.add c else s) := fun c => by
    split
    · exact add_grow c
    · exact .refl _ _
  refine ite_of h (fun _ h => easy h (speed _) (by omega)) fun _ h => ?_
  refine ite_of h (fun _ h => easy h (speed _) (by omega)) fun _ h => ?_
  exact (setting_grow hc h).mono (by omega)

theorem step_grow (hm : 0 < m) (hK : B.side ≤ K * m) (r : Room B m s) (hp : B.has (target cfg s st)) (hc : Calm m st)
    (h : step cfg position s st = .ok s') : Grow B m (K + 10) s s' := by
  unfold step at h
  have r' : Room B m { s with high := flagsOf st.cmd } := ⟨r.needle, r.stitch, r.jump⟩
  have g := dispatch_grow (s := { s with high := flagsOf st.cmd }) hm hK r' hp hc h
  exact ⟨g.len, fun _ => g.room r', g.matrix⟩

theorem run_grow (hm : 0 < m) (hK : B.side ≤ K * m) (M : Mat) : ∀ (l : List Stitch) (position : Nat) (s : St), Room B m s → s.matrix = M →
    (∀ st ∈ l, Calm m st ∧ ∀ u : St, u.matrix = M → B.has (target cfg u st)) → runFrom cfg position s l = .ok s' →
    s'.out.length ≤ s.out.length + l.length * (K + 10) + 1 := by
  intro l
  induction l with
  | nil =>
    intro position s r hM hl h
    rw [runFrom] at h
    injection h with h
    subst h
    simp [endHere, St.add]
  | cons st rest ih =>
    intro position s r hM hl h
    rw [runFrom] at h
    split at h
    · injection h with h
      subst h
      simp [endHere, St.add]
    · split at h
      · cases h
      · rename_i t ht
        have g := step_grow hm hK r ((hl st (by simp)).2 s hM) (hl st (by simp)).1 ht
        have := ih (position + 1) t (g.room r) (g.matrix.trans hM) (fun a ha => hl a (by simp [ha])) h
        have h1 := g.len
        simp only [List.length_cons]
        have : (rest.length + 1) * (K + 10) = rest.length * (K + 10) + (K + 10) := by ring
        omega

/-- Where a command is placed: the matrix of the settings, and rounding if they ask for it. -/
def placed (o : Settings) (lm : Libm) (st : Stitch) : Pt :=
  let p := (o.matrix lm).point st.x st.y
  if o.round then ((pyRound p.1 : ℚ), (pyRound p.2 : ℚ)) else p

/-- C116: in a design that lies in a rectangle with the side `B.side` (the start at the origin counts), no length limit being below `m`, each
command becomes at most ten commands and as many as steps of length `m` are needed for the side; one END comes on top. -/
theorem C116_length {o : Settings} {lm : Libm} {threads : List Thread} {source out : List Stitch} {ths : List (Option Thread)} {B : Box} {m : ℚ} {K : Nat}
    (hm : 0 < m) (hK : B.side ≤ K * m) (hstitch : AtLeast m o.maxStitch) (hjump : AtLeast m o.maxJump) (h0 : B.has (0, 0))
    (hs : ∀ st ∈ source, Calm m st ∧ B.has (placed o lm st)) (h : encode o lm threads source = .ok (out, ths)) :
    out.length ≤ source.length * (10 + K) + 1 := by
  unfold encode at h
  split at h
  · cases h
  · split at h
    · cases h
    · rename_i plan _ _ s hr
      injection h with h
      injection h with h1 h2
      subst h1
      have := run_grow (cfg := mkCfg o lm source plan) hm hK (o.matrix lm) source 0 (initSt o lm threads) ⟨h0, hstitch, hjump⟩ rfl
        (fun st hst => ⟨(hs st hst).1, fun u hu => by
          have := (hs st hst).2
          unfold placed at this
          unfold target
          rw [hu]
          exact this⟩) hr
      rw [Nat.add_comm 10 K]
      simpa [initSt] using this

/-- C116: without length limits the size of the design does not matter. -/
theorem C116_unlimited {o : Settings} {lm : Libm} {threads : List Thread} {source out : List Stitch} {ths : List (Option Thread)}
    (hstitch : o.maxStitch = none) (hjump : o.maxJump = none)
    (hs : ∀ st ∈ source, st.low ∉ [0xC0, 0xC1, 0xC2, 0xC3, 0xC4, 0xC5, 0xD5, (0xD6 : Int)])
    (h : encode o lm threads source = .ok (out, ths)) : out.length ≤ source.length * 11 + 1 := by
  -- a rectangle around all the points, and its side as the limit
  obtain ⟨b, hb⟩ : ∃ b : ℚ, ∀ st ∈ source, |(placed o lm st).1| ≤ b ∧ |(placed o lm st).2| ≤ b := by
    clear h hs
    induction source with
    | nil => exact ⟨0, by simp⟩
    | cons a l ih =>
      obtain ⟨b, hb⟩ := ih
      refine ⟨max b (max |(placed o lm a).1| |(placed o lm a).2|), fun st hst => ?_⟩
      rcases List.mem_cons.1 hst with rfl | hst
      · exact ⟨le_trans (le_max_left _ _) (le_max_right _ _), le_trans (le_max_right _ _) (le_max_right _ _)⟩
      · exact ⟨le_trans (hb st hst).1 (le_max_left _ _), le_trans (hb st hst).2 (le_max_left _ _)⟩
  refine C116_length (B := ⟨-(|b| + 1), -(|b| + 1), 2 * (|b| + 1)⟩) (m := 2 * (|b| + 1)) (K := 1) (by positivity) (by simp) (by rw [hstitch]; intro l hl; cases hl)
    (by rw [hjump]; intro l hl; cases hl) ?_ (fun st hst => ⟨⟨?_, ?_⟩, ?_⟩) h
  · have := abs_nonneg b
    refine ⟨?_, ?_, ?_, ?_⟩ <;> simp only <;> linarith
  · have := hs st hst
    simp only [List.mem_cons, List.not_mem_nil, or_false, not_or] at this ⊢
    tauto
  · have := hs st hst
    simp only [List.mem_cons, List.not_mem_nil, or_false, not_or] at this
    intro h
    tauto
  · obtain ⟨h1, h2⟩ := hb st hst
    have h3 := abs_le.1 h1
    have h4 := abs_le.1 h2
    have h5 := le_abs_self b
    refine ⟨?_, ?_, ?_, ?_⟩ <;> simp only <;> linarith [h3.1, h3.2, h4.1, h4.2]

/-! ## Cases -/

/-- One stitch 200 units away, jumps of at most 10 units. -/
def farOff : List Stitch := [⟨200, 0, 0⟩, ⟨200, 0, 4⟩]

def farSettings : Settings := { demoSettings with maxStitch := some 10, maxJump := some 10 }

example : (encode farSettings demoLm [] farOff).toOption.map (fun r => r.1.length) = some 21 := by decide +kernel
example : (21 : Nat) ≤ farOff.length * (10 + 20) + 1 := by decide
/-- Its hypotheses: the rectangle from the origin, 20 steps of 10 units. -/
example : (Box.mk 0 0 200).has (0, 0) ∧ (∀ st ∈ farOff, Calm 10 st ∧ (Box.mk 0 0 200).has (placed farSettings demoLm st)) := by
  refine ⟨⟨by norm_num, by norm_num, by norm_num, by norm_num⟩, fun st hst => ?_⟩
  have h : ∀ st ∈ farOff, (st.low = 0 ∨ st.low = 4) ∧ placed farSettings demoLm st = (200, 0) := by decide +kernel
  obtain ⟨h1, h2⟩ := h st hst
  refine ⟨⟨?_, ?_⟩, ?_⟩
  · rcases h1 with h1 | h1 <;> rw [h1] <;> decide
  · rcases h1 with h1 | h1 <;> rw [h1] <;> intro h <;> rcases h with h | h <;> exact absurd h (by decide)
  · rw [h2]; exact ⟨by norm_num, by norm_num, by norm_num, by norm_num⟩

/-- Why limits set within the design are bounded too: the same two points with a jump limit of 1/4 become 801 commands. -/
example : (encode farSettings demoLm [] (⟨1 / 4, 0, 0xD6⟩ :: farOff)).toOption.map (fun r => r.1.length) = some 801 := by decide +kernel

end Growth
end Emb
