import Verif.EncoderInv

/-!
# Gap subdivision (C23) and lock stitches (C32)
-/

namespace Emb

/-- `n + 1` equal steps from `(x0, y0)` to `(x1, y1)`: the `i`-th intermediate point. -/
def cut (x0 y0 x1 y1 : ℚ) (n : Nat) (i : Nat) : ℚ × ℚ :=
  (x0 + (i + 1) * ((x1 - x0) / (n + 1)), y0 + (i + 1) * ((y1 - y0) / (n + 1)))

theorem gapLoop_out (data : Int) (sx sy : ℚ) : ∀ (n : Nat) (s : St),
    (gapLoop data sx sy n s).out = s.out ++
      (List.range n).map (fun (i : Nat) => (⟨s.nx + (i + 1) * sx, s.ny + (i + 1) * sy, data + s.high⟩ : Stitch)) ∧
    (gapLoop data sx sy n s).nx = s.nx + n * sx ∧ (gapLoop data sx sy n s).ny = s.ny + n * sy := by
  intro n
  induction n with
  | zero => intro s; simp [gapLoop]
  | succ n ih =>
    intro s
    obtain ⟨h1, h2, h3⟩ := ih (s.moveTo data (s.nx + sx) (s.ny + sy))
    rw [gapLoop, h1, h2, h3]
    refine ⟨?_, by simp only [St.moveTo]; push_cast; ring, by simp only [St.moveTo]; push_cast; ring⟩
    rw [List.range_succ_eq_map, List.map_cons, List.map_map]
    simp only [St.moveTo, List.append_assoc, List.singleton_append]
    congr 1
    congr 1
    · simp
    · apply List.map_congr_left
      intro i _
      simp only [Function.comp_apply]
      congr 1
      · push_cast; ring
      · push_cast; ring

/-- The number of steps is the smallest that respects the limit. -/
theorem steps_least {d m : ℚ} (hm : 0 < m) {k : Nat} (hk : 0 < k) (h : |d| / k ≤ m) : ceilQ |d / m| ≤ k := by
  have hk' : (0 : ℚ) < k := by exact_mod_cast hk
  rw [div_le_iff₀ hk'] at h
  have : |d / m| ≤ k := by
    rw [abs_div, abs_of_pos hm, div_le_iff₀ hm]; linarith
  have h2 := ceilQ_lt |d / m|
  have : (ceilQ |d / m| : ℚ) < k + 1 := by linarith
  have : ceilQ |d / m| < (k : ℤ) + 1 := by exact_mod_cast this
  omega

/-- C23: when the target is out of reach, a gap is cut into equal steps on the straight line. The inserted stitches are
exactly the `n` inner cutting points (after an optional switch out of sequin mode for jumps); every one of the `n + 1`
steps, including the one left for the caller, is within the limit; and no smaller number of equal steps would be. -/
theorem C23_gap_far {s s' : St} {x y m : ℚ} {data : Int} (hm : 0 < m) (hf : |x - s.nx| > m ∨ |y - s.ny| > m)
    (h : gap s x y (some m) data = .ok s') :
    ∃ (n : Nat) (sw : List Stitch), (sw = [] ∨ (data = 1 ∧ sw = [⟨s.nx, s.ny, 6 + s.high⟩])) ∧ 1 ≤ n ∧
      s'.out = s.out ++ sw ++ (List.range n).map (fun (i : Nat) =>
        (⟨(cut s.nx s.ny x y n i).1, (cut s.nx s.ny x y n i).2, data + s.high⟩ : Stitch)) ∧
      (s'.nx, s'.ny) = cut s.nx s.ny x y n (n - 1) ∧
      |(x - s.nx) / (n + 1)| ≤ m ∧ |(y - s.ny) / (n + 1)| ≤ m ∧
      |x - s'.nx| ≤ m ∧ |y - s'.ny| ≤ m ∧
      ∀ k : Nat, 0 < k → |x - s.nx| / k ≤ m → |y - s.ny| / k ≤ m → n + 1 ≤ k := by
  unfold gap at h
  simp only at h
  have hfar : tooFar (some m) (x - s.nx) (y - s.ny) = true := by
    simp only [tooFar, Bool.or_eq_true, decide_eq_true_eq]; exact hf
  rw [if_pos hfar, if_neg hm.ne'] at h
  generalize hsteps : (if ceilQ |(x - s.nx) / m| > ceilQ |(y - s.ny) / m| then ceilQ |(x - s.nx) / m|
    else ceilQ |(y - s.ny) / m|) = n at h
  have hnx : ceilQ |(x - s.nx) / m| ≤ n := by rw [← hsteps]; split_ifs <;> omega
  have hny : ceilQ |(y - s.ny) / m| ≤ n := by rw [← hsteps]; split_ifs <;> omega
  have hor : n = ceilQ |(x - s.nx) / m| ∨ n = ceilQ |(y - s.ny) / m| := by rw [← hsteps]; split_ifs <;> simp
  have two : 1 < n := by
    have big : ∀ d : ℚ, |d| > m → 1 < ceilQ |d / m| := by
      intro d hd
      have h1 : 1 < |d / m| := by rw [abs_div, abs_of_pos hm, lt_div_iff₀ hm]; linarith
      have h2 := ceilQ_ge |d / m|
      have : (1 : ℚ) < ceilQ |d / m| := by linarith
      exact_mod_cast this
    rcases hf with hf | hf
    · have := big _ hf; omega
    · have := big _ hf; omega
  rw [if_neg (by omega)] at h
  injection h with h
  have bx := steps_bound hm (by omega : 0 < n) hnx
  have by' := steps_bound hm (by omega : 0 < n) hny
  have hcast : (((n - 1).toNat : ℕ) : ℚ) = n - 1 := by
    have : (((n - 1).toNat : ℕ) : ℤ) = n - 1 := Int.toNat_of_nonneg (by omega)
    exact_mod_cast congrArg (Int.cast (R := ℚ)) this
  have hnq : (n : ℚ) ≠ 0 := by have : n ≠ 0 := by omega
                               exact_mod_cast this
  have hn1 : (((n - 1).toNat : ℕ) : ℚ) + 1 = n := by rw [hcast]; ring
  -- the switch
  obtain ⟨sw, hsw, e1, e2, e3, e4⟩ : ∃ sw : List Stitch, (sw = [] ∨ (data = 1 ∧ sw = [⟨s.nx, s.ny, 6 + s.high⟩])) ∧
      (if data = JUMP ∧ s.sequinMode then toggleSequins s else s).out = s.out ++ sw ∧
      (if data = JUMP ∧ s.sequinMode then toggleSequins s else s).nx = s.nx ∧
      (if data = JUMP ∧ s.sequinMode then toggleSequins s else s).ny = s.ny ∧
      (if data = JUMP ∧ s.sequinMode then toggleSequins s else s).high = s.high := by
    by_cases hj : data = JUMP ∧ s.sequinMode
    · rw [if_pos hj]
      unfold toggleSequins
      by_cases hu : s.sequinC = CONTINGENCY_SEQUIN_UTILIZE
      · rw [if_pos hu]; exact ⟨_, .inr ⟨hj.1, rfl⟩, rfl, rfl, rfl, rfl⟩
      · rw [if_neg hu]; exact ⟨[], .inl rfl, by simp, rfl, rfl, rfl⟩
    · rw [if_neg hj]; exact ⟨[], .inl rfl, by simp, rfl, rfl, rfl⟩
  generalize (if data = JUMP ∧ s.sequinMode then toggleSequins s else s) = s1 at h e1 e2 e3 e4
  obtain ⟨g1, g2, g3⟩ := gapLoop_out data ((x - s.nx) / n) ((y - s.ny) / n) (n - 1).toNat s1
  rw [h] at g1 g2 g3
  rw [e2] at g2
  rw [e3] at g3
  refine ⟨(n - 1).toNat, sw, hsw, by omega, ?_, ?_, ?_, ?_, ?_, ?_, ?_⟩
  · rw [g1, e1, e2, e3, e4]
    simp only [cut, hn1]
  · rw [g2, g3]
    have : (((n - 1).toNat - 1 : ℕ) : ℚ) + 1 = ((n - 1).toNat : ℕ) := by
      have : (n - 1).toNat - 1 + 1 = (n - 1).toNat := by omega
      exact_mod_cast this
    simp only [cut, hn1, this]
  · rw [hn1]; exact bx
  · rw [hn1]; exact by'
  · have ex : x - s'.nx = (x - s.nx) / n := by rw [g2, hcast]; field_simp; ring
    rw [ex]; exact bx
  · have ey : y - s'.ny = (y - s.ny) / n := by rw [g3, hcast]; field_simp; ring
    rw [ey]; exact by'
  · intro k hk hx hy
    have h1 := steps_least hm hk hx
    have h2 := steps_least hm hk hy
    omega

/-- C23: within reach, or without a limit, nothing is inserted. -/
theorem C23_gap_near {s : St} {x y : ℚ} {limit : Option ℚ} {data : Int}
    (hf : ∀ m, limit = some m → |x - s.nx| ≤ m ∧ |y - s.ny| ≤ m) : gap s x y limit data = .ok s := by
  unfold gap
  cases limit with
  | none => rfl
  | some m =>
    obtain ⟨h1, h2⟩ := hf m rfl
    have : tooFar (some m) (x - s.nx) (y - s.ny) = false := by
      simp only [tooFar, Bool.or_eq_false_iff, decide_eq_false_iff_not, not_lt]; exact ⟨h1, h2⟩
    simp only [this]; rfl

/-- C23: with a positive limit the subdivision always succeeds. -/
theorem C23_gap_total {s : St} {x y : ℚ} {limit : Option ℚ} {data : Int} (hm : ∀ m, limit = some m → 0 < m) :
    ∃ s', gap s x y limit data = .ok s' := by
  unfold gap
  cases limit with
  | none => exact ⟨_, rfl⟩
  | some m =>
    have hm := hm m rfl
    simp only
    by_cases hfar : tooFar (some m) (x - s.nx) (y - s.ny) = true
    · rw [if_pos hfar, if_neg hm.ne']
      simp only [tooFar, Bool.or_eq_true, decide_eq_true_eq] at hfar
      have big : ∀ d : ℚ, |d| > m → 1 < ceilQ |d / m| := by
        intro d hd
        have h1 : 1 < |d / m| := by rw [abs_div, abs_of_pos hm, lt_div_iff₀ hm]; linarith
        have h2 := ceilQ_ge |d / m|
        have : (1 : ℚ) < ceilQ |d / m| := by linarith
        exact_mod_cast this
      rw [if_neg]
      · exact ⟨_, rfl⟩
      · rcases hfar with hf | hf
        · have := big _ hf; split_ifs <;> omega
        · have := big _ hf; split_ifs <;> omega
    · rw [if_neg hfar]; exact ⟨_, rfl⟩

/-- C32: a lock is four STITCHes on the segment from the needle towards the anchor, at 33%, 66%, 33% and 0% of it; the
last is the needle position. The anchor is the neighbouring stitch, or the point `max_stitch` away in its direction if it
is farther than that. -/
theorem C32_lock (lm : Libm) (x y ax ay : ℚ) (limit : Option ℚ) :
    ∃ bx bY : ℚ, ((bx, bY) = (ax, ay) ∨ ∃ m, limit = some m ∧ m < lm.dist x y ax ay ∧ (bx, bY) = lm.oriented x y ax ay m) ∧
      (bx, bY) = lockAnchor lm x y ax ay limit ∧
      (lockStitches lm x y ax ay limit).length = 4 ∧
      (∀ a ∈ lockStitches lm x y ax ay limit, a.cmd = 0 ∧ ∃ t : ℚ, 0 ≤ t ∧ t < 1 ∧
        a.x = x + t * (bx - x) ∧ a.y = y + t * (bY - y)) ∧
      (lockStitches lm x y ax ay limit).getLast? = some ⟨x, y, 0⟩ := by
  refine ⟨(lockAnchor lm x y ax ay limit).1, (lockAnchor lm x y ax ay limit).2, ?_, rfl, rfl, ?_, ?_⟩
  · unfold lockAnchor exceeds
    cases limit with
    | none => left; rfl
    | some m =>
      simp only
      by_cases h : lm.dist x y ax ay > m
      · right; simp [h]
      · left; simp [h]
  · intro a ha
    simp only [lockStitches, List.map_cons, List.map_nil, List.mem_cons, List.not_mem_nil, or_false] at ha
    rcases ha with rfl | rfl | rfl | rfl
    · exact ⟨rfl, 33 / 100, by norm_num, by norm_num, by simp only [towards]; ring, by simp only [towards]; ring⟩
    · exact ⟨rfl, 66 / 100, by norm_num, by norm_num, by simp only [towards]; ring, by simp only [towards]; ring⟩
    · exact ⟨rfl, 33 / 100, by norm_num, by norm_num, by simp only [towards]; ring, by simp only [towards]; ring⟩
    · exact ⟨rfl, 0, by norm_num, by norm_num, by simp only [towards]; ring, by simp only [towards]; ring⟩
  · simp [lockStitches, towards, STITCH]

/-- C32: if the neighbouring stitch is within the limit (or there is none) the anchor is that stitch itself. -/
theorem C32_anchor_near (lm : Libm) (x y ax ay : ℚ) (limit : Option ℚ)
    (h : ∀ m, limit = some m → lm.dist x y ax ay ≤ m) : lockAnchor lm x y ax ay limit = (ax, ay) := by
  unfold lockAnchor exceeds
  cases limit with
  | none => rfl
  | some m =>
    have : ¬ lm.dist x y ax ay > m := not_lt.2 (h m rfl)
    simp [this]

/-- C32: with a limit every lock stitch is within it on both axes of the needle. -/
theorem C32_within {lm : Libm} (hl : lm.Sound) {x y ax ay m : ℚ} (hm : 0 ≤ m) :
    ∀ a ∈ lockStitches lm x y ax ay (some m), |a.x - x| ≤ m ∧ |a.y - y| ≤ m := by
  intro a ha
  obtain ⟨bx, bY, _, e, _, h, _⟩ := C32_lock lm x y ax ay (some m)
  obtain ⟨_, t, h0, h1, ex, ey⟩ := h a ha
  obtain ⟨b1, b2⟩ := lockAnchor_bound hl (x := x) (y := y) (ax := ax) (ay := ay) hm
  rw [← e] at b1 b2
  have key : ∀ p q : ℚ, |q - p| ≤ m → |p + t * (q - p) - p| ≤ m := by
    intro p q hpq
    have : p + t * (q - p) - p = t * (q - p) := by ring
    rw [this, abs_mul, abs_of_nonneg h0]
    nlinarith [abs_nonneg (q - p)]
  rw [ex, ey]
  exact ⟨key _ _ b1, key _ _ b2⟩

/-- C32: tying does not move the needle, nor change anything but the output. -/
theorem C32_needle_stays (cfg : Cfg) (position : Nat) (s : St) :
    (∃ l, tieOn cfg position s = { s with out := s.out ++ l } ∧ (l = [] ∨ lastPos l = (s.nx, s.ny))) ∧
    (∃ l, tieOff cfg position s = { s with out := s.out ++ l } ∧ (l = [] ∨ lastPos l = (s.nx, s.ny))) := by
  have key : ∀ b, ∃ l, lockTowards cfg s b = { s with out := s.out ++ l } ∧ (l = [] ∨ lastPos l = (s.nx, s.ny)) := by
    intro b
    unfold lockTowards
    simp only
    split
    · refine ⟨_, rfl, .inr ?_⟩
      obtain ⟨_, _, _, _, _, _, h⟩ := C32_lock cfg.lm s.nx s.ny (s.matrix.point b.x b.y).1 (s.matrix.point b.x b.y).2 s.maxStitch
      simp only [lastPos, h]
    · exact ⟨[], by simp, .inl rfl⟩
  have triv : ∃ l, s = { s with out := s.out ++ l } ∧ (l = [] ∨ lastPos l = (s.nx, s.ny)) := ⟨[], by simp, .inl rfl⟩
  constructor
  · unfold tieOn
    split
    · split
      · exact key _
      · exact triv
    · exact triv
  · unfold tieOff
    split
    · split
      · exact key _
      · exact triv
    · exact triv

/-- A state for examples: at the origin, limit 10. -/
def demoSt : St where
  maxStitch := some 10
  maxJump := some 10
  explicitTrim := false
  sequinC := 0xF6
  tieOnC := 0xD3
  tieOffC := 0xD4
  longC := 0xF1
  matrix := Mat.identity

/-- A gap of 25 with limit 10 gets two intermediate jumps. -/
example : (match gap demoSt 25 5 (some 10) 1 with | .ok s => s.out | .error _ => []) =
    [⟨25 / 3, 5 / 3, 1⟩, ⟨50 / 3, 10 / 3, 1⟩] := by decide +kernel

example : lockStitches ⟨fun _ _ _ _ => 3, fun x y _ _ _ => (x, y), fun _ => 1, fun _ => 0⟩ 0 0 3 0 (some 10) =
    [⟨99 / 100, 0, 0⟩, ⟨198 / 100, 0, 0⟩, ⟨99 / 100, 0, 0⟩, ⟨0, 0, 0⟩] := by decide +kernel

end Emb
