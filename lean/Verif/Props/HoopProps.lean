import Verif.Props.GrowthProps
import Verif.Props.TransformProps
import Verif.Props.MirrorProps
import Mathlib.Analysis.Convex.Hull

/-!
# C119: the needle stays within the outline of the design

Every position of the normal form lies in the convex hull of the points the design asks for and the start; everything sewn lies in the
convex hull of the points alone.
-/

namespace Emb

/-- What is supposed of `sqrt`, `atan2`, `cos` and `sin` for lock stitches: the point at a distance of less than the whole way lies on
the way. -/
def Libm.Straight (lm : Libm) : Prop :=
  ∀ x0 y0 x1 y1 r, 0 ≤ r → r < lm.dist x0 y0 x1 y1 →
    ∃ t : ℚ, 0 ≤ t ∧ t ≤ 1 ∧ lm.oriented x0 y0 x1 y1 r = (x0 + t * (x1 - x0), y0 + t * (y1 - y0))

namespace Hoop

open Transform (Plane plain flat asked bare after)

/-- With two points everything between them. -/
def Conv (K : Pt → Prop) : Prop := ∀ p q : Pt, K p → K q → ∀ t : ℚ, 0 ≤ t → t ≤ 1 → K (p.1 + t * (q.1 - p.1), p.2 + t * (q.2 - p.2))

/-- The sewn points are to stay in `K`, the others in `C`; `T` says that there may be lock stitches. -/
structure Area (K C : Pt → Prop) (T : Prop) (M : Mat) (cfg : Cfg) : Prop where
  inner : Conv K
  outer : Conv C
  sub : ∀ p, K p → C p
  anchor : T → ∀ b ∈ cfg.source, b.cmd = STITCH ∨ b.cmd = NEEDLE_AT ∨ b.cmd = SEW_TO ∨ b.cmd = SEQUIN_EJECT → K (M.point b.x b.y)
  straight : T → cfg.lm.Straight

/-- What holds all the time; `b` says that the needle is in `K`. -/
structure Within (K C : Pt → Prop) (T : Prop) (M : Mat) (b : Bool) (s : St) : Prop where
  all : ∀ a ∈ s.out, C (a.x, a.y)
  sewn : ∀ a ∈ s.out, a.low = 0 → K (a.x, a.y)
  needle : C (s.nx, s.ny)
  down : b = true → K (s.nx, s.ny)
  high : s.high % 256 = 0
  matrix : s.matrix = M
  ties : T ∨ (s.tieOnC ≠ CONTINGENCY_TIE_ON_THREE_SMALL ∧ s.tieOffC ≠ CONTINGENCY_TIE_OFF_THREE_SMALL)
  limit : T → ∀ l, s.maxStitch = some l → 0 ≤ l

variable {K C : Pt → Prop} {T : Prop} {M : Mat} {cfg : Cfg} {b : Bool} {s s' : St} {position : Nat} {st : Stitch} {x y : ℚ}

theorem Within.weaken (w : Within K C T M true s) (b : Bool) : Within K C T M b s :=
  ⟨w.all, w.sewn, w.needle, fun _ => w.down rfl, w.high, w.matrix, w.ties, w.limit⟩

theorem Within.up (w : Within K C T M b s) : Within K C T M false s :=
  ⟨w.all, w.sewn, w.needle, fun h => (by cases h), w.high, w.matrix, w.ties, w.limit⟩

/-- A state that differs in other things only. -/
theorem Within.same (w : Within K C T M b s) (h1 : s'.out = s.out) (h2 : s'.nx = s.nx) (h3 : s'.ny = s.ny) (h4 : s'.high = s.high)
    (h5 : s'.matrix = s.matrix) (h6 : s'.tieOnC = s.tieOnC) (h7 : s'.tieOffC = s.tieOffC) (h8 : s'.maxStitch = s.maxStitch) : Within K C T M b s' :=
  ⟨by rw [h1]; exact w.all, by rw [h1]; exact w.sewn, by rw [h2, h3]; exact w.needle, by rw [h2, h3]; exact w.down, by rw [h4]; exact w.high,
    by rw [h5]; exact w.matrix, by rw [h6, h7]; exact w.ties, by rw [h8]; exact w.limit⟩

/-- A command at the needle. -/
theorem Within.here (w : Within K C T M b s) {c : Int} (hc : c % 256 ≠ 0) (h1 : s'.out = s.out ++ [⟨s.nx, s.ny, c⟩]) (h2 : s'.nx = s.nx)
    (h3 : s'.ny = s.ny) (h4 : s'.high = s.high) (h5 : s'.matrix = s.matrix) (h6 : s'.tieOnC = s.tieOnC) (h7 : s'.tieOffC = s.tieOffC)
    (h8 : s'.maxStitch = s.maxStitch) : Within K C T M b s' := by
  refine ⟨?_, ?_, by rw [h2, h3]; exact w.needle, by rw [h2, h3]; exact w.down, by rw [h4]; exact w.high,
    by rw [h5]; exact w.matrix, by rw [h6, h7]; exact w.ties, by rw [h8]; exact w.limit⟩
  · intro a ha
    rw [h1, List.mem_append, List.mem_singleton] at ha
    rcases ha with ha | rfl
    · exact w.all a ha
    · exact w.needle
  · intro a ha h0
    rw [h1, List.mem_append, List.mem_singleton] at ha
    rcases ha with ha | rfl
    · exact w.sewn a ha h0
    · exact absurd h0 hc

theorem add_in (w : Within K C T M b s) {c : Int} (h0 : 0 < c) (h1 : c < 256) : Within K C T M b (s.add c) := by
  have := w.high
  exact w.here (c := c + s.high) (by omega) rfl rfl rfl rfl rfl rfl rfl rfl

/-- A move to a point of `K`. -/
theorem move_in (A : Area K C T M cfg) (w : Within K C T M b s) (c : Int) (hp : K (x, y)) : Within K C T M true (s.moveTo c x y) := by
  refine ⟨?_, ?_, A.sub _ hp, fun _ => hp, w.high, w.matrix, w.ties, w.limit⟩
  · intro a ha
    simp only [St.moveTo, List.mem_append, List.mem_singleton] at ha
    rcases ha with ha | rfl
    · exact w.all a ha
    · exact A.sub _ hp
  · intro a ha h0
    simp only [St.moveTo, List.mem_append, List.mem_singleton] at ha
    rcases ha with ha | rfl
    · exact w.sewn a ha h0
    · exact hp

theorem toggle_in (w : Within K C T M b s) : Within K C T M b (toggleSequins s) := by
  unfold toggleSequins
  split
  · have := w.high
    exact w.here (c := SEQUIN_MODE + s.high) (by unfold SEQUIN_MODE; omega) rfl rfl rfl rfl rfl rfl rfl rfl
  · exact w

theorem leaveMode_in (w : Within K C T M b s) : Within K C T M b (if s.sequinMode = true then toggleSequins s else s) := by
  split
  · exact toggle_in w
  · exact w

theorem trimHere_in (w : Within K C T M b s) : Within K C T M b (trimHere s) := by
  unfold trimHere
  exact (add_in (leaveMode_in w) (c := TRIM) (by decide) (by decide)).same rfl rfl rfl rfl rfl rfl rfl rfl

theorem nextChange_in (w : Within K C T M b s) (h : nextChange cfg s = .ok s') : Within K C T M b s' := by
  have hw : ∀ (c : Int) t n, 0 < c → c < 256 → encodeThreadChange c t n none % 256 ≠ 0 := fun c t n h0 h1 => by
    rw [encodeThreadChange_low c h0.le h1]; omega
  unfold nextChange at h
  split at h
  · cases h
  · injection h with h
    subst h
    simp only
    split
    · split
      · exact w.here (hw _ _ _ (by decide) (by decide)) rfl rfl rfl rfl rfl rfl rfl rfl
      · exact w.same rfl rfl rfl rfl rfl rfl rfl rfl
    · split
      · exact w.here (hw _ _ _ (by decide) (by decide)) rfl rfl rfl rfl rfl rfl rfl rfl
      · split
        · exact w.here (hw _ _ _ (by decide) (by decide)) rfl rfl rfl rfl rfl rfl rfl rfl
        · exact w.same rfl rfl rfl rfl rfl rfl rfl rfl

theorem declare_in (w : Within K C T M b s) (h : declareNotTrimmed cfg s = .ok s') : Within K C T M b s' := by
  unfold declareNotTrimmed at h
  split at h
  · cases hn : nextChange cfg s with
    | error e => rw [hn] at h; cases h
    | ok t =>
      rw [hn] at h
      injection h with h
      subst h
      exact (nextChange_in w hn).same rfl rfl rfl rfl rfl rfl rfl rfl
  · injection h with h
    subst h
    exact w.same rfl rfl rfl rfl rfl rfl rfl rfl

theorem gapLoop_in (c : Int) (hc : c = 0 ∨ c = 1) (sx sy : ℚ) : ∀ (n : Nat) (s : St), Within K C T M b s →
    (∀ j : Nat, 1 ≤ j → j ≤ n → C (s.nx + j * sx, s.ny + j * sy)) →
    (c = 0 ∨ b = true → ∀ j : Nat, 1 ≤ j → j ≤ n → K (s.nx + j * sx, s.ny + j * sy)) → Within K C T M b (gapLoop c sx sy n s) := by
  intro n
  induction n with
  | zero => intro s w _ _; exact w
  | succ n ih =>
    intro s w h1 h2
    rw [gapLoop]
    have hh := w.high
    refine ih _ ⟨?_, ?_, ?_, fun hb => ?_, w.high, w.matrix, w.ties, w.limit⟩ (fun j hj1 hj2 => ?_) (fun hb j hj1 hj2 => ?_)
    · intro a ha
      simp only [St.moveTo, List.mem_append, List.mem_singleton] at ha
      rcases ha with ha | rfl
      · exact w.all a ha
      · simpa using h1 1 (by omega) (by omega)
    · intro a ha h0
      simp only [St.moveTo, List.mem_append, List.mem_singleton] at ha
      rcases ha with ha | rfl
      · exact w.sewn a ha h0
      · have h0' : (c + s.high) % 256 = 0 := h0
        have : c = 0 := by omega
        simpa using h2 (.inl this) 1 (by omega) (by omega)
    · simpa [St.moveTo] using h1 1 (by omega) (by omega)
    · simpa [St.moveTo] using h2 (.inr hb) 1 (by omega) (by omega)
    · have := h1 (j + 1) (by omega) (by omega)
      push_cast at this
      simp only [St.moveTo]
      rw [show s.nx + sx + j * sx = s.nx + (j + 1) * sx by ring, show s.ny + sy + j * sy = s.ny + (j + 1) * sy by ring]
      exact this
    · have := h2 hb (j + 1) (by omega) (by omega)
      push_cast at this
      simp only [St.moveTo]
      rw [show s.nx + sx + j * sx = s.nx + (j + 1) * sx by ring, show s.ny + sy + j * sy = s.ny + (j + 1) * sy by ring]
      exact this

theorem gap_in {limit : Option ℚ} {c : Int} (A : Area K C T M cfg) (hc : c = 0 ∨ c = 1) (hb : c = 0 → b = true) (w : Within K C T M b s) (hp : K (x, y))
    (h : gap s x y limit c = .ok s') : Within K C T M b s' := by
  unfold gap at h
  simp only at h
  cases limit with
  | none => injection h with h; subst h; exact w
  | some l =>
    simp only at h
    split at h
    · generalize hu : (if c = JUMP ∧ s.sequinMode = true then toggleSequins s else s) = u at h
      have wu : Within K C T M b u := by
        rw [← hu]
        split
        · exact toggle_in w
        · exact w
      have hux : u.nx = s.nx ∧ u.ny = s.ny := by
        rw [← hu]
        split
        · exact ⟨Growth.toggle_needle.1, Growth.toggle_needle.2.1⟩
        · exact ⟨rfl, rfl⟩
      split at h
      · cases h
      · generalize hst : (if ceilQ |(x - s.nx) / l| > ceilQ |(y - s.ny) / l| then ceilQ |(x - s.nx) / l| else ceilQ |(y - s.ny) / l|) = n at h
        by_cases hz : n = 0
        · rw [if_pos hz] at h; cases h
        · rw [if_neg hz] at h
          injection h with h
          subst h
          have between : ∀ j : Nat, 1 ≤ j → j ≤ (n - 1).toNat → ∃ t : ℚ, 0 ≤ t ∧ t ≤ 1 ∧
              u.nx + j * ((x - s.nx) / n) = u.nx + t * (x - u.nx) ∧ u.ny + j * ((y - s.ny) / n) = u.ny + t * (y - u.ny) := by
            intro j h1 h2
            have hn : (j : Int) ≤ n := by omega
            have hn0 : (0 : ℚ) < n := by exact_mod_cast (by omega : 0 < n)
            have hj : (j : ℚ) ≤ n := by exact_mod_cast hn
            refine ⟨j / n, by positivity, (div_le_one hn0).2 hj, ?_, ?_⟩
            · rw [hux.1]; field_simp
            · rw [hux.2]; field_simp
          refine gapLoop_in c hc _ _ _ u wu (fun j h1 h2 => ?_) (fun hk j h1 h2 => ?_)
          · obtain ⟨t, t0, t1, ex, ey⟩ := between j h1 h2
            rw [ex, ey]
            exact A.outer (u.nx, u.ny) (x, y) wu.needle (A.sub _ hp) t t0 t1
          · obtain ⟨t, t0, t1, ex, ey⟩ := between j h1 h2
            rw [ex, ey]
            exact A.inner (u.nx, u.ny) (x, y) (wu.down (hk.elim hb id)) hp t t0 t1
    · injection h with h
      subst h
      exact w

theorem jumpAt_in (A : Area K C T M cfg) (w : Within K C T M b s) (hp : K (x, y)) : Within K C T M true (jumpAt s x y) := by
  unfold jumpAt
  exact move_in A (leaveMode_in w) _ hp

theorem jumpToWithin_in (A : Area K C T M cfg) (w : Within K C T M b s) (hp : K (x, y)) (h : jumpToWithin cfg s x y = .ok s') :
    Within K C T M b s' := by
  unfold jumpToWithin at h
  cases hg : gap s x y s.maxJump JUMP with
  | error e => rw [hg] at h; cases h
  | ok t =>
    rw [hg] at h
    injection h with h
    subst h
    have wt := gap_in A (.inr rfl) (fun h => by cases h) w hp hg
    split
    · exact (jumpAt_in A wt hp).weaken b
    · exact wt

theorem jumpTo_in (A : Area K C T M cfg) (w : Within K C T M b s) (hp : K (x, y)) (h : jumpTo s x y = .ok s') : Within K C T M true s' := by
  unfold jumpTo at h
  cases hg : gap s x y s.maxJump JUMP with
  | error e => rw [hg] at h; cases h
  | ok t =>
    rw [hg] at h
    injection h with h
    subst h
    exact jumpAt_in A (gap_in A (.inr rfl) (fun h => by cases h) w hp hg) hp

theorem gapStitch_in {c : Int} (A : Area K C T M cfg) (hc : c = 0 ∨ c = 1) (w : Within K C T M true s) (hp : K (x, y))
    (h : (gap s x y s.maxStitch c >>= fun s => (pure (stitchAt s x y) : Except PyErr St)) = .ok s') : Within K C T M true s' := by
  cases hg : gap s x y s.maxStitch c with
  | error e => rw [hg] at h; cases h
  | ok t =>
    rw [hg] at h
    injection h with h
    subst h
    exact move_in A (gap_in A hc (fun _ => rfl) w hp hg) _ hp

theorem contingency_in (A : Area K C T M cfg) (w : Within K C T M true s) (hp : K (x, y)) (h : stitchWithContingency s x y = .ok s') :
    Within K C T M true s' := by
  unfold stitchWithContingency at h
  split at h
  · exact gapStitch_in A (.inl rfl) w hp h
  · split at h
    · exact gapStitch_in A (.inr rfl) w hp h
    · injection h with h
      subst h
      exact move_in A w _ hp

theorem lock_in (A : Area K C T M cfg) (hT : T) (w : Within K C T M true s) {a : Stitch} (ha : a ∈ cfg.source) : Within K C T M true (lockTowards cfg s a) := by
  unfold lockTowards
  simp only
  split
  · rename_i hs
    have hk := A.anchor hT a ha hs
    rw [w.matrix]
    have hn := w.down rfl
    have hanchor : K (lockAnchor cfg.lm s.nx s.ny (M.point a.x a.y).1 (M.point a.x a.y).2 s.maxStitch) := by
      unfold lockAnchor
      split
      · rename_i he
        unfold exceeds at he
        cases hl : s.maxStitch with
        | none => rw [hl] at he; cases he
        | some l =>
          rw [hl] at he
          simp only [gt_iff_lt, decide_eq_true_eq] at he
          obtain ⟨t, t0, t1, e⟩ := A.straight hT _ _ _ _ l (w.limit hT l hl) he
          rw [Option.getD_some, e]
          exact A.inner (s.nx, s.ny) _ hn hk t t0 t1
      · exact hk
    have hpts : ∀ p ∈ lockStitches cfg.lm s.nx s.ny (M.point a.x a.y).1 (M.point a.x a.y).2 s.maxStitch, K (p.x, p.y) := by
      intro p hp
      unfold lockStitches at hp
      simp only [List.mem_map] at hp
      obtain ⟨t, ht, rfl⟩ := hp
      have ht' : 0 ≤ t ∧ t ≤ 1 := by
        simp only [List.mem_cons, List.not_mem_nil, or_false] at ht
        rcases ht with rfl | rfl | rfl | rfl <;> norm_num
      have := A.inner (s.nx, s.ny) _ hn hanchor t ht'.1 ht'.2
      unfold towards
      simp only
      rw [add_comm _ s.nx, add_comm _ s.ny]
      exact this
    refine ⟨?_, ?_, w.needle, w.down, w.high, rfl, w.ties, w.limit⟩
    · intro p hp
      rcases List.mem_append.1 hp with hp | hp
      · exact w.all p hp
      · exact A.sub _ (hpts p hp)
    · intro p hp h0
      rcases List.mem_append.1 hp with hp | hp
      · exact w.sewn p hp h0
      · exact hpts p hp
  · exact w

theorem pyGet_mem {α : Type} {l : List α} {i : Int} {v : α} (h : pyGet l i = .ok v) : v ∈ l := by
  unfold pyGet at h
  simp only at h
  generalize (if i < 0 then i + (l.length : Int) else i) = j at h
  by_cases hj : j < 0
  · rw [if_pos hj] at h; cases h
  · rw [if_neg hj] at h
    cases e : l[j.toNat]? with
    | none => rw [e] at h; cases h
    | some v' =>
      rw [e] at h
      injection h with h
      subst h
      exact List.mem_of_getElem? e

theorem tieOff_in (A : Area K C T M cfg) (w : Within K C T M true s) : Within K C T M true (tieOff cfg position s) := by
  unfold tieOff
  split
  · rename_i h
    split
    · rename_i e
      exact lock_in A (w.ties.resolve_right fun h' => h'.2 h) w (pyGet_mem e)
    · exact w
  · exact w

theorem tieOn_in (A : Area K C T M cfg) (w : Within K C T M true s) : Within K C T M true (tieOn cfg position s) := by
  unfold tieOn
  split
  · rename_i h
    split
    · rename_i e
      exact lock_in A (w.ties.resolve_right fun h' => h'.1 h) w (pyGet_mem e)
    · exact w
  · exact w

/-- The state between two source commands: not trimmed, the needle is where something was sewn. -/
def Top (K C : Pt → Prop) (T : Prop) (M : Mat) (s : St) : Prop := Within K C T M (!s.trimmed) s

theorem Top.of_true (w : Within K C T M true s) : Top K C T M s := w.weaken _

theorem Top.of_trimmed (w : Within K C T M b s) (h : s.trimmed = true) : Top K C T M s := by
  unfold Top; rw [h]; exact w.up

theorem Top.sewing (w : Top K C T M s) (h : s.trimmed = false) : Within K C T M true s := by
  unfold Top at w; rw [h] at w; exact w

theorem tieOff_trimmed : (tieOff cfg position s).trimmed = s.trimmed := by
  unfold tieOff
  split
  · split
    · unfold lockTowards
      simp only
      split <;> rfl
    · rfl
  · rfl

theorem tieOn_trimmed : (tieOn cfg position s).trimmed = s.trimmed := by
  unfold tieOn
  split
  · split
    · unfold lockTowards
      simp only
      split <;> rfl
    · rfl
  · rfl

theorem explicit_in (A : Area K C T M cfg) (w : Top K C T M s) : Top K C T M (tieOffTrimIfExplicit cfg position s) := by
  unfold tieOffTrimIfExplicit
  split
  · exact w
  · rename_i h
    have w' := tieOff_in (position := position) A (w.sewing (by simpa using h))
    simp only
    split
    · exact .of_true (trimHere_in w')
    · exact .of_true w'

theorem needed_in (A : Area K C T M cfg) (w : Top K C T M s) : Top K C T M (tieOffAndTrimIfNeeded cfg position s) := by
  unfold tieOffAndTrimIfNeeded
  split
  · exact w
  · rename_i h
    exact .of_true (trimHere_in (tieOff_in A (w.sewing (by simpa using h))))

theorem change_in (A : Area K C T M cfg) (w : Top K C T M s) (h : colorChange cfg position s = .ok s') : Top K C T M s' := by
  unfold colorChange at h
  cases hn : nextChange cfg (tieOffTrimIfExplicit cfg position s) with
  | error e => rw [hn] at h; cases h
  | ok t =>
    rw [hn] at h
    injection h with h
    subst h
    exact .of_trimmed ((nextChange_in (explicit_in A w) hn).same rfl rfl rfl rfl rfl rfl rfl rfl) rfl

theorem break_in (A : Area K C T M cfg) (w : Top K C T M s) (h : colorBreak cfg position s = .ok s') : Top K C T M s' := by
  unfold colorBreak at h
  split at h
  · injection h with h; subst h; exact w
  · simp only at h
    split at h
    · exact change_in A w h
    · injection h with h; subst h; exact explicit_in A w

theorem firstStrike_in (A : Area K C T M cfg) (w : Within K C T M b s) (hp : K (x, y)) (h : firstStrike cfg position s x y = .ok s') :
    Within K C T M true s' := by
  unfold firstStrike at h
  cases hd : declareNotTrimmed cfg s with
  | error e => rw [hd] at h; cases h
  | ok t =>
    rw [hd] at h
    change (jumpToWithin cfg t x y >>= fun s => pure (tieOn cfg position (stitchAt s x y))) = _ at h
    cases hj : jumpToWithin cfg t x y with
    | error e => rw [hj] at h; cases h
    | ok u =>
      rw [hj] at h
      injection h with h
      subst h
      exact tieOn_in A (move_in A (jumpToWithin_in A (declare_in w hd) hp hj) _ hp)

theorem sew_in {direct : St → ℚ → ℚ → Except PyErr St} (A : Area K C T M cfg) (w : Top K C T M s) (hp : K (x, y))
    (hd : ∀ t, Within K C T M true s → direct s x y = .ok t → Within K C T M true t) (h : sewStep cfg position s x y direct = .ok s') :
    Top K C T M s' := by
  unfold sewStep at h
  split at h
  · exact .of_true (firstStrike_in A w hp h)
  · rename_i ht
    have w' := w.sewing (by simpa using ht)
    split at h
    · cases hn : needleTo s x y with
      | error e => rw [hn] at h; cases h
      | ok t =>
        rw [hn] at h
        injection h with h
        subst h
        exact .of_true ((gapStitch_in A (.inr rfl) w' hp hn).same rfl rfl rfl rfl rfl rfl rfl rfl)
    · exact .of_true (hd _ w' h)

theorem sequinAt_in (A : Area K C T M cfg) (w : Within K C T M true s) (hp : K (x, y)) (h : sequinAt s x y = .ok s') : Within K C T M true s' := by
  unfold sequinAt at h
  simp only at h
  split at h
  · injection h with h; subst h; exact w
  · cases hq : gap s x y s.maxStitch STITCH with
    | error e => rw [hq] at h; cases h
    | ok t =>
      rw [hq] at h
      injection h with h
      subst h
      have wt := gap_in A (.inl rfl) (fun _ => rfl) w hp hq
      have fin : ∀ u, Within K C T M true u → Within K C T M true { u with nx := x, ny := y } := fun u wu =>
        ⟨wu.all, wu.sewn, A.sub _ hp, fun _ => hp, wu.high, wu.matrix, wu.ties, wu.limit⟩
      refine fin _ ?_
      repeat' split
      · exact move_in A wt _ hp
      · exact move_in A wt _ hp
      · exact move_in A wt _ hp
      · exact wt

theorem eject_in (A : Area K C T M cfg) (w : Top K C T M s) (hp : K (x, y)) (h : ejectStep cfg position s x y = .ok s') : Top K C T M s' := by
  have mode : ∀ t, Within K C T M true t → Within K C T M true (if t.sequinMode = true then t else toggleSequins t) := fun t wt => by
    split
    · exact wt
    · exact toggle_in wt
  unfold ejectStep at h
  split at h
  · cases hf : firstStrike cfg position s x y with
    | error e => rw [hf] at h; cases h
    | ok t =>
      rw [hf] at h
      change sequinAt (if t.sequinMode = true then t else toggleSequins t) x y = _ at h
      exact .of_true (sequinAt_in A (mode t (firstStrike_in A w hp hf)) hp h)
  · rename_i ht
    change sequinAt (if s.sequinMode = true then s else toggleSequins s) x y = _ at h
    exact .of_true (sequinAt_in A (mode s (w.sewing (by simpa using ht))) hp h)

theorem frame_in (A : Area K C T M cfg) (w : Top K C T M s) (hp : K (x, y)) (h : frameEject cfg position s x y = .ok s') : Top K C T M s' := by
  unfold frameEject at h
  cases hj : jumpTo (tieOffAndTrimIfNeeded cfg position s) x y with
  | error e => rw [hj] at h; cases h
  | ok t =>
    rw [hj] at h
    injection h with h
    subst h
    exact .of_trimmed ((add_in (jumpTo_in A (needed_in A w) hp hj) (c := STOP) (by decide) (by decide)).same rfl rfl rfl rfl rfl rfl rfl rfl) rfl

/-- The commands that name a point: STITCH, SEW_TO, NEEDLE_AT, JUMP, SEQUIN_EJECT, FRAME_EJECT. -/
def Names (st : Stitch) : Prop := st.low ∈ [0, 0xB0, 0xB1, 1, 7, (0xE9 : Int)]

/-- What is asked of a command besides its point: no matrix command; lock stitches, and then no negative limit, only if `T`; TIE_ON and
TIE_OFF only if all of `C` may be sewn. -/
structure Calm (K C : Pt → Prop) (T : Prop) (st : Stitch) : Prop where
  matrix : st.low ∉ [0xC0, 0xC1, 0xC2, 0xC3, 0xC4, (0xC5 : Int)]
  ties : st.low = 0xD1 ∨ st.low = 0xD2 → T
  limit : T → st.low = 0xD5 → 0 ≤ st.x
  lock : T → st.low = 0xE4 ∨ st.low = 0xE5 → ∀ p, C p → K p

theorem matrix_in (w : Top K C T M s) {c : Int} (hc : c ∉ [0xC0, 0xC1, 0xC2, 0xC3, 0xC4, (0xC5 : Int)]) (h : matrixStep cfg s st c = .ok s') :
    Top K C T M s' := by
  simp only [List.mem_cons, List.not_mem_nil, or_false, not_or] at hc
  obtain ⟨c0, c1, c2, c3, c4, c5⟩ := hc
  unfold matrixStep at h
  rw [if_neg (show ¬ c = MATRIX_TRANSLATE from c0), if_neg (show ¬ c = MATRIX_SCALE_ORIGIN from c1),
    if_neg (show ¬ c = MATRIX_ROTATE_ORIGIN from c2), if_neg (show ¬ c = MATRIX_SCALE from c4),
    if_neg (show ¬ c = MATRIX_ROTATE from c5), if_neg (show ¬ c = MATRIX_RESET from c3)] at h
  injection h with h
  subst h
  exact w

theorem leave_in (w : Top K C T M s) (c : Int) : Top K C T M (leaveSequins s c) := by
  unfold leaveSequins Top
  split
  · have h : (toggleSequins s).trimmed = s.trimmed := by unfold toggleSequins; split <;> rfl
    have := toggle_in w
    simp only [h]
    exact this.same rfl rfl rfl rfl rfl rfl rfl rfl
  · exact w.same rfl rfl rfl rfl rfl rfl rfl rfl

theorem setting_in (w : Top K C T M s) (hc : Calm K C T st) (h : settingStep cfg s st st.low = .ok s') : Top K C T M s' := by
  have easy : ∀ {u : St}, (Except.ok u : Except PyErr St) = .ok s' → Top K C T M u → Top K C T M s' := fun h g => by
    injection h with h; subst h; exact g
  have same : ∀ {u : St}, u.out = s.out → u.nx = s.nx → u.ny = s.ny → u.high = s.high → u.matrix = s.matrix → u.tieOnC = s.tieOnC →
      u.tieOffC = s.tieOffC → u.maxStitch = s.maxStitch → u.trimmed = s.trimmed → Top K C T M u := fun h1 h2 h3 h4 h5 h6 h7 h8 h9 => by
    unfold Top; rw [h9]; exact w.same h1 h2 h3 h4 h5 h6 h7 h8
  have off : (CONTINGENCY_TIE_ON_NONE ≠ CONTINGENCY_TIE_ON_THREE_SMALL) ∧ CONTINGENCY_TIE_OFF_NONE ≠ CONTINGENCY_TIE_OFF_THREE_SMALL := by decide
  unfold settingStep at h
  refine Growth.ite_of h (fun e h => easy h ⟨w.all, w.sewn, w.needle, w.down, w.high, w.matrix, .inl (hc.ties (.inl e)), w.limit⟩) fun _ h => ?_
  refine Growth.ite_of h (fun e h => easy h ⟨w.all, w.sewn, w.needle, w.down, w.high, w.matrix, .inl (hc.ties (.inr e)), w.limit⟩) fun _ h => ?_
  refine Growth.ite_of h (fun e h => easy h ⟨w.all, w.sewn, w.needle, w.down, w.high, w.matrix, w.ties.imp_right fun t => ⟨off.1, t.2⟩, w.limit⟩) fun _ h => ?_
  refine Growth.ite_of h (fun e h => easy h ⟨w.all, w.sewn, w.needle, w.down, w.high, w.matrix, w.ties.imp_right fun t => ⟨t.1, off.2⟩, w.limit⟩) fun _ h => ?_
  refine Growth.ite_of h (fun _ h => easy h (same rfl rfl rfl rfl rfl rfl rfl rfl rfl)) fun _ h => ?_
  refine Growth.ite_of h (fun e h => easy h ⟨w.all, w.sewn, w.needle, w.down, w.high, w.matrix, w.ties, fun t l hl => ?_⟩) fun _ h => ?_
  · injection hl with hl; rw [← hl]; exact hc.limit t e
  refine Growth.ite_of h (fun _ h => easy h (same rfl rfl rfl rfl rfl rfl rfl rfl rfl)) fun _ h => ?_
  refine Growth.ite_of h (fun _ h => easy h (same rfl rfl rfl rfl rfl rfl rfl rfl rfl)) fun _ h => ?_
  refine Growth.ite_of h (fun _ h => easy h (same rfl rfl rfl rfl rfl rfl rfl rfl rfl)) fun _ h => ?_
  refine Growth.ite_of h (fun _ h => easy h (same rfl rfl rfl rfl rfl rfl rfl rfl rfl)) fun _ h => ?_
  refine Growth.ite_of h (fun _ h => easy h (same rfl rfl rfl rfl rfl rfl rfl rfl rfl)) fun _ h => ?_
  refine Growth.ite_of h (fun _ h => easy h (leave_in w _)) fun _ h => ?_
  refine Growth.ite_of h (fun _ h => easy h (leave_in w _)) fun _ h => ?_
  refine Growth.ite_of h (fun _ h => easy h (leave_in w _)) fun _ h => ?_
  refine Growth.ite_of h (fun _ h => easy h (same rfl rfl rfl rfl rfl rfl rfl rfl rfl)) fun _ h => ?_
  exact matrix_in w hc.matrix h

theorem dispatch_in (A : Area K C T M cfg) (w : Top K C T M s) (hp : Names st → K (x, y)) (hc : Calm K C T st)
    (h : dispatch cfg position s st x y st.low = .ok s') : Top K C T M s' := by
  have easy : ∀ {u : St}, (Except.ok u : Except PyErr St) = .ok s' → Top K C T M u → Top K C T M s' := fun h g => by
    injection h with h; subst h; exact g
  have named : ∀ c : Int, st.low = c → c ∈ [0, 0xB0, 0xB1, 1, 7, (0xE9 : Int)] → K (x, y) := fun c e m => hp (by unfold Names; rw [e]; exact m)
  have lockOn : st.low = 0xE4 ∨ st.low = 0xE5 → T → Within K C T M true s := fun e t =>
    ⟨w.all, w.sewn, w.needle, fun _ => hc.lock t e _ w.needle, w.high, w.matrix, w.ties, w.limit⟩
  have offTop : st.low = 0xE5 → Top K C T M (tieOff cfg position s) := fun e => by
    rcases w.ties with t | t
    · exact .of_true (tieOff_in A (lockOn (.inr e) t))
    · unfold tieOff; rw [if_neg t.2]; exact w
  have onTop : st.low = 0xE4 → Top K C T M (tieOn cfg position s) := fun e => by
    rcases w.ties with t | t
    · exact .of_true (tieOn_in A (lockOn (.inl e) t))
    · unfold tieOn; rw [if_neg t.1]; exact w
  have adds : ∀ c : Int, 0 < c → c < 256 → Top K C T M (s.add c) := fun c h0 h1 => add_in w h0 h1
  unfold dispatch at h
  refine Growth.ite_of h (fun e h => sew_in A w (named _ e (by decide)) (fun t wt ht => contingency_in A wt (named _ e (by decide)) ht) h) fun _ h => ?_
  refine Growth.ite_of h (fun e h => sew_in A w (named _ e (by decide)) (fun t wt ht => gapStitch_in A (.inr rfl) wt (named _ e (by decide)) ht) h) fun _ h => ?_
  refine Growth.ite_of h (fun e h => sew_in A w (named _ e (by decide)) (fun t wt ht => gapStitch_in A (.inl rfl) wt (named _ e (by decide)) ht) h) fun _ h => ?_
  refine Growth.ite_of h (fun _ h => easy h (w.same rfl rfl rfl rfl rfl rfl rfl rfl)) fun _ h => ?_
  refine Growth.ite_of h (fun e h => frame_in A w (named _ e (by decide)) h) fun _ h => ?_
  refine Growth.ite_of h (fun _ h => easy h (needed_in A w)) fun _ h => ?_
  refine Growth.ite_of h (fun _ h => break_in A w h) fun _ h => ?_
  refine Growth.ite_of h (fun e h => easy h (offTop e)) fun _ h => ?_
  refine Growth.ite_of h (fun e h => easy h (onTop e)) fun _ h => ?_
  refine Growth.ite_of h (fun _ h => easy h (needed_in A w)) fun _ h => ?_
  refine Growth.ite_of h (fun e h => ?_) fun _ h => ?_
  · split at h
    · exact easy h w
    · exact .of_true (jumpTo_in A w (named _ e (by decide)) h)
  refine Growth.ite_of h (fun _ h => easy h ?_) fun _ h => ?_
  · have ht : (toggleSequins s).trimmed = s.trimmed := by unfold toggleSequins; split <;> rfl
    unfold Top; rw [ht]; exact toggle_in w
  refine Growth.ite_of h (fun e h => eject_in A w (named _ e (by decide)) h) fun _ h => ?_
  refine Growth.ite_of h (fun _ h => change_in A w h) fun _ h => ?_
  refine Growth.ite_of h (fun _ h => change_in A w h) fun _ h => ?_
  refine Growth.ite_of h (fun _ h => easy h (.of_trimmed ((adds STOP (by decide) (by decide)).same rfl rfl rfl rfl rfl rfl rfl rfl) rfl)) fun _ h => ?_
  refine Growth.ite_of h (fun _ h => easy h ?_) fun _ h => ?_
  · split
    · exact adds _ (by decide) (by decide)
    · exact w
  refine Growth.ite_of h (fun _ h => easy h ?_) fun _ h => ?_
  · split
    · exact adds _ (by decide) (by decide)
    · exact w
  exact setting_in w hc h

theorem run_in (A : Area K C T M cfg) : ∀ (l : List Stitch) (position : Nat) (s : St), Top K C T M s →
    (∀ st ∈ l, Calm K C T st ∧ (Names st → ∀ u : St, u.matrix = M → K (target cfg u st))) → runFrom cfg position s l = .ok s' →
    (∀ a ∈ s'.out, C (a.x, a.y)) ∧ ∀ a ∈ s'.out, a.low = 0 → K (a.x, a.y) := by
  intro l
  induction l with
  | nil =>
    intro position s w hl h
    rw [runFrom] at h
    injection h with h
    subst h
    have := add_in w (c := END) (by decide) (by decide)
    exact ⟨this.all, this.sewn⟩
  | cons st rest ih =>
    intro position s w hl h
    rw [runFrom] at h
    split at h
    · injection h with h
      subst h
      have w' : Within K C T M (!s.trimmed) { s with high := flagsOf st.cmd } :=
        ⟨w.all, w.sewn, w.needle, w.down, flagsOf_low _, w.matrix, w.ties, w.limit⟩
      have := add_in w' (c := END) (by decide) (by decide)
      exact ⟨this.all, this.sewn⟩
    · split at h
      · cases h
      · rename_i t ht
        refine ih (position + 1) t ?_ (fun a ha => hl a (by simp [ha])) h
        unfold step at ht
        have w' : Top K C T M { s with high := flagsOf st.cmd } :=
          ⟨w.all, w.sewn, w.needle, w.down, flagsOf_low _, w.matrix, w.ties, w.limit⟩
        exact dispatch_in A w' (fun n => (hl st (by simp)).2 n s w.matrix) (hl st (by simp)).1 ht

/-- Where a command lies: placed as the settings say, and rounded if they say so. -/
def spot (o : Settings) (lm : Libm) (st : Stitch) : Pt :=
  let p := o.place lm (st.x, st.y)
  if o.round then ((pyRound p.1 : ℚ), (pyRound p.2 : ℚ)) else p

/-- The points a design asks for. -/
def spots (o : Settings) (lm : Libm) (source : List Stitch) : Set Pt := {p | ∃ st ∈ source, Names st ∧ p = spot o lm st}

/-- The same points before rounding. -/
def exact (o : Settings) (lm : Libm) (source : List Stitch) : Set Pt := {p | ∃ st ∈ source, Names st ∧ p = o.place lm (st.x, st.y)}

/-- No lock stitches are asked for by the settings. -/
def Unlocked (o : Settings) : Prop :=
  (o.tieOn ≠ .bool true ∧ o.tieOn ≠ .code 0xD1) ∧ o.tieOff ≠ .bool true ∧ o.tieOff ≠ .code 0xD2

/-- No matrix command. -/
def Unturned (st : Stitch) : Prop := st.low ∉ [0xC0, 0xC1, 0xC2, 0xC3, 0xC4, (0xC5 : Int)]

theorem unlocked {o : Settings} (h : Unlocked o) :
    o.tieOnCode ≠ CONTINGENCY_TIE_ON_THREE_SMALL ∧ o.tieOffCode ≠ CONTINGENCY_TIE_OFF_THREE_SMALL := by
  obtain ⟨⟨h1, h2⟩, h3, h4⟩ := h
  unfold Settings.tieOnCode Settings.tieOffCode
  constructor
  · cases ht : o.tieOn with
    | bool b => cases b with
      | true => exact absurd ht h1
      | false => decide
    | code c => intro e; exact h2 (by rw [ht]; exact congrArg _ e)
  · cases ht : o.tieOff with
    | bool b => cases b with
      | true => exact absurd ht h3
      | false => decide
    | code c => intro e; exact h4 (by rw [ht]; exact congrArg _ e)

/-- The whole normalization. -/
theorem encode_in {o : Settings} {lm : Libm} {threads : List Thread} {source out : List Stitch} {ths : List (Option Thread)}
    (hK : Conv K) (hC : Conv C) (hs : ∀ p, K p → C p) (h0 : C (0, 0)) (hT : T → lm.Straight)
    (ho : T ∨ Unlocked o) (hl : T → ∀ l, o.maxStitch = some l → 0 ≤ l)
    (hp : ∀ st ∈ source, Calm K C T st ∧ (Names st → K (spot o lm st) ∧ (T → K (o.place lm (st.x, st.y)))))
    (h : encode o lm threads source = .ok (out, ths)) : (∀ a ∈ out, C (a.x, a.y)) ∧ ∀ a ∈ out, a.low = 0 → K (a.x, a.y) := by
  have hM : ∀ x y, (o.matrix lm).point x y = o.place lm (x, y) := fun x y => (Strike.place_affine o lm).2 (x, y)
  unfold encode at h
  split at h
  · cases h
  · split at h
    · cases h
    · rename_i plan _ _ s hr
      injection h with h
      injection h with h1 h2
      subst h1
      refine run_in (cfg := mkCfg o lm source plan) (K := K) (C := C) (T := T) (M := o.matrix lm) ⟨hK, hC, hs, fun t b hb hc => ?_, hT⟩ source 0
        (initSt o lm threads) ⟨fun a ha => (by cases ha), fun a ha => (by cases ha), h0, fun h => (by cases h), rfl, rfl, ?_, hl⟩
        (fun st hst => ⟨(hp st hst).1, fun n u hu => ?_⟩) hr
      · rw [hM]
        refine ((hp b hb).2 ?_).2 t
        unfold Names Stitch.low
        rcases hc with e | e | e | e <;> rw [e] <;> decide
      · exact ho.imp_right unlocked
      · have := ((hp st hst).2 n).1
        unfold spot at this
        unfold target
        rw [hu]
        simp only [hM]
        exact this

theorem conv_of {S : Set Pt} (h : Convex ℚ S) : Conv (· ∈ S) := by
  intro p q hp hq t t0 t1
  have := h.add_smul_sub_mem hp hq (t := t) ⟨t0, t1⟩
  exact this

/-- C119: without lock stitches every position of the normal form lies in the convex hull of the points the design asks for and the
start, and everything sewn in the convex hull of the points. -/
theorem C119_hull {o : Settings} {lm : Libm} {threads : List Thread} {source out : List Stitch} {ths : List (Option Thread)} (ho : Unlocked o)
    (hs : ∀ st ∈ source, Unturned st ∧ st.low ≠ 0xD1 ∧ st.low ≠ 0xD2) (h : encode o lm threads source = .ok (out, ths)) :
    (∀ a ∈ out, (a.x, a.y) ∈ convexHull ℚ (insert (0, 0) (spots o lm source))) ∧
    ∀ a ∈ out, a.low = 0 → (a.x, a.y) ∈ convexHull ℚ (spots o lm source) := by
  refine encode_in (K := (· ∈ convexHull ℚ (spots o lm source))) (C := (· ∈ convexHull ℚ (insert (0, 0) (spots o lm source)))) (T := False)
    (conv_of (convex_convexHull _ _)) (conv_of (convex_convexHull _ _)) (fun p hp => convexHull_mono (Set.subset_insert _ _) hp)
    (subset_convexHull _ _ (Set.mem_insert _ _)) (fun t => t.elim) (.inr ho) (fun t => t.elim) (fun st hst => ?_) h
  obtain ⟨h1, h2, h3⟩ := hs st hst
  exact ⟨⟨h1, fun e => e.elim h2 h3, fun t => t.elim, fun t => t.elim⟩,
    fun n => ⟨subset_convexHull _ _ ⟨st, hst, n, rfl⟩, fun t => t.elim⟩⟩

/-- C119: with lock stitches the points before rounding count too, since locks go towards them. Limits must not be negative. -/
theorem C119_locked {o : Settings} {lm : Libm} {threads : List Thread} {source out : List Stitch} {ths : List (Option Thread)} (hlm : lm.Straight)
    (hl : ∀ l, o.maxStitch = some l → 0 ≤ l) (hs : ∀ st ∈ source, Unturned st ∧ (st.low = 0xD5 → 0 ≤ st.x))
    (h : encode o lm threads source = .ok (out, ths)) :
    (∀ a ∈ out, (a.x, a.y) ∈ convexHull ℚ (insert (0, 0) (spots o lm source ∪ exact o lm source))) ∧
    ((∀ st ∈ source, st.low ≠ 0xE4 ∧ st.low ≠ 0xE5) →
      ∀ a ∈ out, a.low = 0 → (a.x, a.y) ∈ convexHull ℚ (spots o lm source ∪ exact o lm source)) := by
  constructor
  · refine (encode_in (K := (· ∈ convexHull ℚ (insert (0, 0) (spots o lm source ∪ exact o lm source))))
      (C := (· ∈ convexHull ℚ (insert (0, 0) (spots o lm source ∪ exact o lm source)))) (T := True)
      (conv_of (convex_convexHull _ _)) (conv_of (convex_convexHull _ _)) (fun p hp => hp)
      (subset_convexHull _ _ (Set.mem_insert _ _)) (fun _ => hlm) (.inl trivial) (fun _ => hl) (fun st hst => ?_) h).1
    exact ⟨⟨(hs st hst).1, fun _ => trivial, fun _ => (hs st hst).2, fun _ _ p hp => hp⟩,
      fun n => ⟨subset_convexHull _ _ (.inr (.inl ⟨st, hst, n, rfl⟩)), fun _ => subset_convexHull _ _ (.inr (.inr ⟨st, hst, n, rfl⟩))⟩⟩
  · intro ht
    refine (encode_in (K := (· ∈ convexHull ℚ (spots o lm source ∪ exact o lm source)))
      (C := (· ∈ convexHull ℚ (insert (0, 0) (spots o lm source ∪ exact o lm source)))) (T := True)
      (conv_of (convex_convexHull _ _)) (conv_of (convex_convexHull _ _)) (fun p hp => convexHull_mono (Set.subset_insert _ _) hp)
      (subset_convexHull _ _ (Set.mem_insert _ _)) (fun _ => hlm) (.inl trivial) (fun _ => hl) (fun st hst => ?_) h).2
    exact ⟨⟨(hs st hst).1, fun _ => trivial, fun _ => (hs st hst).2, fun _ e => absurd e (by have := ht st hst; tauto)⟩,
      fun n => ⟨subset_convexHull _ _ (.inl ⟨st, hst, n, rfl⟩), fun _ => subset_convexHull _ _ (.inr ⟨st, hst, n, rfl⟩)⟩⟩

/-- A rectangle, given by its edges. -/
def Frame (left right bottom top : ℤ) (p : Pt) : Prop := (left ≤ p.1 ∧ p.1 ≤ right) ∧ bottom ≤ p.2 ∧ p.2 ≤ top

theorem frame_conv (l r b t : ℤ) : Conv (Frame l r b t) := by
  rintro p q ⟨⟨p1, p2⟩, p3, p4⟩ ⟨⟨q1, q2⟩, q3, q4⟩ u u0 u1
  refine ⟨⟨?_, ?_⟩, ?_, ?_⟩ <;> simp only <;> nlinarith

/-- Rounding does not leave an interval of whole numbers. -/
theorem round_between {l r : ℤ} {q : ℚ} (h1 : (l : ℚ) ≤ q) (h2 : q ≤ r) : (l : ℚ) ≤ pyRound q ∧ (pyRound q : ℚ) ≤ r := by
  have a := pyRound_le q
  have b := le_pyRound q
  constructor
  · have : (l : ℚ) - 1 < pyRound q := by linarith
    have : l - 1 < pyRound q := by exact_mod_cast this
    exact_mod_cast (by omega : l ≤ pyRound q)
  · have : (pyRound q : ℚ) < r + 1 := by linarith
    have : pyRound q < r + 1 := by exact_mod_cast this
    exact_mod_cast (by omega : pyRound q ≤ r)

/-- C119: a hoop that holds the design and the start holds the normal form, with lock stitches, rounding and all; if the edges of the
hoop are whole numbers. -/
theorem C119_hoop {o : Settings} {lm : Libm} {threads : List Thread} {source out : List Stitch} {ths : List (Option Thread)} {l r b t : ℤ}
    (hlm : Unlocked o ∧ (∀ st ∈ source, st.low ≠ 0xD1 ∧ st.low ≠ 0xD2) ∨
      lm.Straight ∧ (∀ m, o.maxStitch = some m → 0 ≤ m) ∧ ∀ st ∈ source, st.low = 0xD5 → 0 ≤ st.x)
    (h0 : Frame l r b t (0, 0)) (hs : ∀ st ∈ source, Unturned st ∧ (Names st → Frame l r b t (o.place lm (st.x, st.y))))
    (h : encode o lm threads source = .ok (out, ths)) : ∀ a ∈ out, Frame l r b t (a.x, a.y) := by
  have hspot : ∀ st ∈ source, Names st → Frame l r b t (spot o lm st) := by
    intro st hst n
    have hf := (hs st hst).2 n
    unfold spot
    simp only
    split
    · obtain ⟨⟨f1, f2⟩, f3, f4⟩ := hf
      exact ⟨round_between f1 f2, round_between f3 f4⟩
    · exact hf
  rcases hlm with ⟨hu, hn⟩ | ⟨hst, hl, hd⟩
  · refine (encode_in (K := Frame l r b t) (C := Frame l r b t) (T := False) (frame_conv _ _ _ _) (frame_conv _ _ _ _) (fun p hp => hp) h0
      (fun t => t.elim) (.inr hu) (fun t => t.elim) (fun st hst => ?_) h).1
    exact ⟨⟨(hs st hst).1, fun e => e.elim (hn st hst).1 (hn st hst).2, fun t => t.elim, fun t => t.elim⟩,
      fun n => ⟨hspot st hst n, fun t => t.elim⟩⟩
  · refine (encode_in (K := Frame l r b t) (C := Frame l r b t) (T := True) (frame_conv _ _ _ _) (frame_conv _ _ _ _) (fun p hp => hp) h0
      (fun _ => hst) (.inl trivial) (fun _ => hl) (fun st hst => ?_) h).1
    exact ⟨⟨(hs st hst).1, fun _ => trivial, fun _ => hd st hst, fun _ _ p hp => hp⟩,
      fun n => ⟨hspot st hst n, fun _ => (hs st hst).2 n⟩⟩

theorem flat_low (lm : Libm) : ∀ (l : List Stitch) (f : Plane), ∀ b ∈ flat lm f l,
    b.low = 0xFF ∨ ∃ a ∈ l, b.cmd = a.cmd ∧ a.low ∉ [0xC0, 0xC1, 0xC2, (0xC3 : Int)]
  | [], _, b, hb => by cases hb
  | a :: l, f, b, hb => by
    rcases List.mem_cons.1 hb with rfl | hb
    · unfold plain
      split
      · left
        show (a.cmd - a.cmd % 256 + 0xFF) % 256 = 0xFF
        omega
      · rename_i h
        right
        refine ⟨a, by simp, ?_, h⟩
        split <;> rfl
    · rcases flat_low lm l _ b hb with h | ⟨c, hc, e⟩
      · exact .inl h
      · exact .inr ⟨c, by simp [hc], e⟩

/-- C119: with the matrix commands that do not depend on the needle: the points are placed by the transformation in force where they
are named (`flat`, see C107). -/
theorem C119_matrix {o : Settings} {lm : Libm} {threads : List Thread} {source out : List Stitch} {ths : List (Option Thread)} (ho : Unlocked o)
    (hs : ∀ st ∈ source, st.low ∉ [0xC4, 0xC5, 0xD1, (0xD2 : Int)]) (hlast : ∀ b, source.getLast? = some b → b.cmd ∉ [0, 0xB0, 0xB1, 7])
    (h : encode o lm threads source = .ok (out, ths)) :
    (∀ a ∈ out, (a.x, a.y) ∈ convexHull ℚ (insert (0, 0) (spots (bare o) lm (flat lm (asked o lm) source)))) ∧
    ∀ a ∈ out, a.low = 0 → (a.x, a.y) ∈ convexHull ℚ (spots (bare o) lm (flat lm (asked o lm) source)) := by
  have hne : ∀ st ∈ source, st.low ≠ 0xC4 ∧ st.low ≠ 0xC5 ∧ st.low ≠ 0xD1 ∧ st.low ≠ 0xD2 := fun st hst => by
    have := hs st hst
    simpa only [List.mem_cons, List.not_mem_nil, or_false, not_or] using this
  rw [C107_flat_partial (fun a ha => ⟨(hne a ha).1, (hne a ha).2.1⟩) (.inl hlast)] at h
  refine C119_hull ho (fun st hst => ?_) h
  rcases flat_low lm source _ st hst with e | ⟨a, ha, e, hc⟩
  · unfold Unturned; rw [e]; decide
  · have el : st.low = a.low := by unfold Stitch.low; rw [e]
    obtain ⟨h1, h2, h3, h4⟩ := hne a ha
    unfold Unturned
    rw [el]
    simp only [List.mem_cons, List.not_mem_nil, or_false, not_or] at hc ⊢
    tauto

/-! ## Cases -/

/-- A triangle away from the start, with limits, a trim, a colour change, a sequin and a jump. -/
def triangle : List Stitch :=
  [⟨50, 20, 0⟩, ⟨90, 20, 0xB0⟩, ⟨90, 60, 7⟩, ⟨90, 60, 2⟩, ⟨50, 20, 1⟩, ⟨0, 0, 5⟩, ⟨60, 30, 0⟩, ⟨0, 0, 0xE5⟩, ⟨0, 0, 4⟩]

example : Unlocked demoSettings := ⟨⟨by decide, by decide⟩, by decide, by decide⟩
example : ∀ st ∈ triangle, Unturned st ∧ st.low ≠ 0xD1 ∧ st.low ≠ 0xD2 := by unfold Unturned; decide
example : (encode demoSettings demoLm [] triangle).toOption.map (fun r => (r.1.length, r.1.take 3)) =
    some (23, [⟨10, 4, 1⟩, ⟨20, 8, 1⟩, ⟨30, 12, 1⟩]) := by decide +kernel

/-- A library that is straight: distances are sums, and the point at a distance is in the middle. -/
example : fairLm.Straight := fun x0 y0 x1 y1 r _ _ => ⟨1 / 2, by norm_num, by norm_num, by simp only [fairLm]; exact Prod.ext (by ring) (by ring)⟩

/-- With locks, rounding and a scale; the hoop from the start to (181, 121). -/
example : (encode { demoSettings with tieOn := .bool true, tieOff := .bool true, round := true, scale := some (2, 2) } fairLm [] triangle).toOption.map
    (fun r => r.1.all fun a => decide (0 ≤ a.x ∧ a.x ≤ 180 ∧ 0 ≤ a.y ∧ a.y ≤ 120)) = some true := by decide +kernel

/-- Why the start counts: the normal form begins with a jump there. -/
example : (encode demoSettings demoLm [] triangle).toOption.map (fun r => r.1.any fun a => decide (a.x < 50)) = some true := by decide +kernel

/-- C119 fails for a negative limit with lock stitches: they are then sewn on the other side, here at (-33/10, 0), in a design between
(0, 0) and (10, 0). -/
theorem C119_negative_fails : ∃ (lm : Libm) (source out : List Stitch) (ths : List (Option Thread)), lm.Straight ∧
    (∀ st ∈ source, Unturned st ∧ (Names st → Frame 0 10 0 0 (st.x, st.y))) ∧
    encode { tieOn := .bool true } lm [] source = .ok (out, ths) ∧ ∃ a ∈ out, ¬ Frame 0 10 0 0 (a.x, a.y) := by
  refine ⟨⟨fun x0 y0 x1 y1 => |x1 - x0| + |y1 - y0|, fun x0 y0 _ _ r => if r < 0 then (x0 + r, y0) else (x0, y0), fun _ => 1, fun _ => 0⟩,
    [⟨-10, 0, 0xD5⟩, ⟨0, 0, 0⟩, ⟨10, 0, 0⟩, ⟨0, 0, 4⟩],
    [⟨0, 0, 0⟩, ⟨-33 / 10, 0, 0⟩, ⟨-33 / 5, 0, 0⟩, ⟨-33 / 10, 0, 0⟩, ⟨0, 0, 0⟩, ⟨10, 0, 0⟩, ⟨10, 0, 4⟩], [none], ?_, ?_, by decide +kernel, ⟨-33 / 10, 0, 0⟩, ?_, ?_⟩
  · intro x0 y0 x1 y1 r h0 _
    refine ⟨0, le_refl _, by norm_num, ?_⟩
    simp only
    rw [if_neg (by linarith)]
    simp
  · intro st hst
    simp only [List.mem_cons, List.not_mem_nil, or_false] at hst
    refine ⟨?_, ?_⟩
    · rcases hst with rfl | rfl | rfl | rfl <;> (unfold Unturned; decide)
    · rcases hst with rfl | rfl | rfl | rfl <;> intro n
      · exact absurd n (by unfold Names; decide)
      · exact ⟨⟨by norm_num, by norm_num⟩, by norm_num, by norm_num⟩
      · exact ⟨⟨by norm_num, by norm_num⟩, by norm_num, by norm_num⟩
      · exact ⟨⟨by norm_num, by norm_num⟩, by norm_num, by norm_num⟩
  · simp
  · rintro ⟨⟨h, -⟩, -⟩
    norm_num at h

end Hoop
end Emb
