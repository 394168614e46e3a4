import Mathlib.Data.Int.Log
import Verif.Encoder
import Verif.Quant

/-!
# Binary floating point in the subdivision of gaps and in the writers

Everywhere else in the model Python floats are exact rationals. Here the two places in which the library computes new
coordinates on the way to a file -- dividing a gap that is too long, and taking displacements in the writers -- are
modelled again with every operation rounded to the 53 bits of a Python `float`.
-/

namespace Emb

/-- The value of a Python `float` nearest to `q`: 53 significant bits, ties to the even one (IEEE 754 binary64,
language semantics). **Simplification**: the exponent is unbounded, that is, no overflow and no subnormal numbers. -/
def double (q : ℚ) : ℚ :=
  if q = 0 then 0
  else
    let u : ℚ := (2 : ℚ) ^ (Int.log 2 |q| - 52)
    pyRound (q / u) * u

/-- The loop of `interpolate_gap_stitches`, `EmbEncoder.py` 637-645, in floating point (compare `gapLoop`). -/
def gapLoopF (data : Int) (sx sy : ℚ) : Nat → St → St
  | 0, s => s
  | n + 1, s => gapLoopF data sx sy n (s.moveTo data (double (s.nx + sx)) (double (s.ny + sy)))

/-- `interpolate_gap_stitches(needle_x, needle_y, x1, y1, max_length, data)`, `EmbEncoder.py` 613-645, in floating point
(compare `gap`). -/
def gapF (s : St) (x1 y1 : ℚ) (limit : Option ℚ) (data : Int) : Except PyErr St :=
  let dx := double (x1 - s.nx)
  let dy := double (y1 - s.ny)
  match limit with
  | none => .ok s
  | some m =>
    if tooFar (some m) dx dy then
      let s := if data = JUMP ∧ s.sequinMode then toggleSequins s else s
      if m = 0 then .error .zeroDivision
      else
        let steps_x := ceilQ |double (dx / m)|
        let steps_y := ceilQ |double (dy / m)|
        let steps := if steps_x > steps_y then steps_x else steps_y
        if steps = 0 then .error .zeroDivision
        else .ok (gapLoopF data (double (dx / steps)) (double (dy / steps)) (steps - 1).toNat s)
    else .ok s

/-- `towards(a, b, amount)`, `EmbEncoder.py` 679-681, in floating point. -/
def towardsF (a b amount : ℚ) : ℚ := double (double (amount * double (b - a)) + a)

/-- The four stitches of `lock_stitch`, `EmbEncoder.py` 647-662, in floating point (compare `lockStitches`); `math.sqrt`,
`atan2`, `cos` and `sin` are the arbitrary functions `lm`, rounded or not. -/
def lockStitchesF (lm : Libm) (x y ax ay : ℚ) (limit : Option ℚ) : List Stitch :=
  let a := lockAnchor lm x y ax ay limit
  [double (33 / 100), double (66 / 100), double (33 / 100), 0].map fun amount =>
    ⟨towardsF x a.1 amount, towardsF y a.2 amount, STITCH⟩

/-- The loop shared by the writers, `dx = int(round(x - xx)); xx += dx`, in floating point (compare `deltas`, where the
code is cited). `xx` is a Python `int`. -/
def deltasF (xx yy : Int) : List Stitch → List Rec
  | [] => []
  | st :: rest =>
    let dx := pyRound (double (st.x - xx))
    let dy := pyRound (double (st.y - yy))
    ⟨dx, dy, cmdOf st.cmd⟩ :: deltasF (xx + dx) (yy + dy) rest

/-! ## Rounding to 53 bits -/

theorem double_err (q : ℚ) : |double q - q| ≤ |q| * (1 / 2 ^ 53) := by
  unfold double
  by_cases h : q = 0
  · simp [h]
  · rw [if_neg h]
    simp only
    set e := Int.log 2 |q| with he
    have hq : 0 < |q| := abs_pos.2 h
    have h1 : (2 : ℚ) ^ e ≤ |q| := by
      have := Int.zpow_log_le_self (b := 2) (r := |q|) (by norm_num) hq
      simpa using this
    have hu : (2 : ℚ) ^ (e - 52) = 2 ^ e / 2 ^ 52 := by
      rw [zpow_sub₀ (by norm_num)]; norm_cast
    have hpos : (0 : ℚ) < 2 ^ (e - 52) := zpow_pos (by norm_num) _
    have h2 := pyRound_abs (q / 2 ^ (e - 52))
    have h3 : (pyRound (q / 2 ^ (e - 52)) : ℚ) * 2 ^ (e - 52) - q =
        ((pyRound (q / 2 ^ (e - 52)) : ℚ) - q / 2 ^ (e - 52)) * 2 ^ (e - 52) := by
      rw [sub_mul, div_mul_cancel₀ _ hpos.ne']
    rw [h3, abs_mul, abs_of_pos hpos]
    calc _ ≤ 1 / 2 * (2 : ℚ) ^ (e - 52) := by
            apply mul_le_mul_of_nonneg_right h2 hpos.le
      _ = 2 ^ e * (1 / 2 ^ 53) := by rw [hu]; ring
      _ ≤ _ := by apply mul_le_mul_of_nonneg_right h1 (by positivity)

/-- Whole numbers of at most 53 bits are floats. -/
theorem double_int (n : Int) (h : |n| ≤ 2 ^ 53) : double (n : ℚ) = n := by
  unfold double
  by_cases h0 : (n : ℚ) = 0
  · rw [if_pos h0, h0]
  · rw [if_neg h0]
    simp only
    set e := Int.log 2 |(n : ℚ)| with he
    have hq : 0 < |(n : ℚ)| := abs_pos.2 h0
    have hpos : (0 : ℚ) < 2 ^ (e - 52) := zpow_pos (by norm_num) _
    have hnice : ∃ k : Int, (n : ℚ) / 2 ^ (e - 52) = k := by
      have hup : e ≤ 53 := by
        have h1 : (2 : ℚ) ^ e ≤ |(n : ℚ)| := by
          have := Int.zpow_log_le_self (b := 2) (r := |(n : ℚ)|) (by norm_num) hq
          simpa using this
        have h2 : |(n : ℚ)| ≤ 2 ^ 53 := by exact_mod_cast h
        have h3 : (2 : ℚ) ^ e ≤ 2 ^ (53 : Int) := by
          refine (h1.trans h2).trans (le_of_eq ?_); norm_cast
        exact (zpow_le_zpow_iff_right₀ (by norm_num : (1 : ℚ) < 2)).1 h3
      rcases Int.lt_or_le e 53 with hlt | hge
      · refine ⟨n * 2 ^ (52 - e).toNat, ?_⟩
        rw [div_eq_iff hpos.ne']
        push_cast
        rw [mul_assoc, ← zpow_natCast, Int.toNat_of_nonneg (by omega), ← zpow_add₀ (by norm_num)]
        simp
      · have he53 : e = 53 := by omega
        have h1 : (2 : ℚ) ^ (53 : Int) ≤ |(n : ℚ)| := by
          have := Int.zpow_log_le_self (b := 2) (r := |(n : ℚ)|) (by norm_num) hq
          rw [← he, he53] at this
          simpa using this
        have h1' : (2 : Int) ^ 53 ≤ |n| := by
          have : ((2 : Int) ^ 53 : ℚ) ≤ ((|n| : Int) : ℚ) := by
            push_cast; refine le_trans (le_of_eq ?_) h1; norm_cast
          exact_mod_cast this
        have hn : n = 2 ^ 53 ∨ n = -2 ^ 53 := by
          have : |n| = 2 ^ 53 := le_antisymm h h1'
          rcases abs_choice n with h' | h' <;> omega
        rcases hn with rfl | rfl
        · refine ⟨2 ^ 52, ?_⟩
          rw [he53]; norm_num
        · refine ⟨-2 ^ 52, ?_⟩
          rw [he53]; norm_num
    obtain ⟨k, hk⟩ := hnice
    rw [hk, pyRound_intCast, ← hk, div_mul_cancel₀ _ hpos.ne']

theorem double_zero : double 0 = 0 := by simp [double]

theorem double_abs (q : ℚ) : |double q| ≤ |q| * (1 + 1 / 2 ^ 53) := by
  have := double_err q
  have h2 : |double q| ≤ |double q - q| + |q| := by
    have := abs_add_le (double q - q) q
    simpa using this
  linarith

end Emb
