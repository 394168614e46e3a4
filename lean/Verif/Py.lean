import Mathlib.Data.Rat.Floor
import Mathlib.Tactic.Linarith
import Mathlib.Tactic.Ring
import Mathlib.Tactic.FieldSimp
import Mathlib.Tactic.NormNum

/-!
# Python primitives used by the model

Python `int` is `Int`, Python `float` is an exact rational (simplification: no IEEE rounding), exceptions are values.
-/

namespace Emb

/-- The exceptions the modelled code can raise. -/
inductive PyErr where
  | valueError | typeError | keyError | indexError | zeroDivision | ioError | attributeError | assertionError
  | overflowError
deriving DecidableEq, Repr

/-- Python 3 `round(v)` on a number: nearest integer, ties to the even one
(language semantics; used e.g. in `EmbEncoder.py` 206-207 and every writer's `int(round(x - xx))`). -/
def pyRound (q : ℚ) : Int :=
  let f := q.floor
  if q - f < 1 / 2 then f
  else if 1 / 2 < q - f then f + 1
  else if f % 2 = 0 then f else f + 1

/-- Python `int(v)` on a float: truncation towards zero (used e.g. in `Vp3Writer.py`). -/
def pyInt (q : ℚ) : Int := if 0 ≤ q then q.floor else -((-q).floor)

/-- Python `v & 0xFF` on an `int` of either sign (two's complement with infinitely many sign bits) is `v mod 256`. -/
def lo8 (v : Int) : Int := v % 256

/-- Python indexing `l[i]` with a possibly negative index; out of range is `IndexError`. -/
def pyGet {α : Type} (l : List α) (i : Int) : Except PyErr α :=
  let j := if i < 0 then i + l.length else i
  if j < 0 then .error .indexError
  else match l[j.toNat]? with
    | some v => .ok v
    | none => .error .indexError

/-- Python `l.insert(i, v)` for `0 ≤ i` (an index past the end appends). -/
def pyInsert {α : Type} (l : List α) (i : Nat) (v : α) : List α := l.take i ++ v :: l.drop i

/-! ## Lemmas about rounding -/

theorem floor_le' (q : ℚ) : (q.floor : ℚ) ≤ q := Int.floor_le q
theorem lt_floor' (q : ℚ) : q < q.floor + 1 := Int.lt_floor_add_one q

/-- `round` is within one half of its argument. -/
theorem pyRound_abs (q : ℚ) : |(pyRound q : ℚ) - q| ≤ 1 / 2 := by
  have h1 := floor_le' q
  have h2 := lt_floor' q
  unfold pyRound
  rw [abs_le]
  simp only
  split_ifs <;> push_cast <;> constructor <;> linarith

theorem pyRound_le (q : ℚ) : (pyRound q : ℚ) ≤ q + 1 / 2 := by
  have := abs_le.1 (pyRound_abs q); linarith

theorem le_pyRound (q : ℚ) : q - 1 / 2 ≤ (pyRound q : ℚ) := by
  have := abs_le.1 (pyRound_abs q); linarith

/-- `round` of an integer is that integer. -/
@[simp] theorem pyRound_intCast (n : Int) : pyRound (n : ℚ) = n := by
  have h : ((n : ℚ)).floor = n := by simp
  unfold pyRound
  simp [h]

/-- `round` of a half is the even neighbour. -/
theorem pyRound_half (n : Int) : pyRound (n + 1 / 2) = if n % 2 = 0 then n else n + 1 := by
  have h : ((n : ℚ) + 1 / 2).floor = n := by
    have := floor_le' ((n : ℚ) + 1 / 2)
    have := lt_floor' ((n : ℚ) + 1 / 2)
    have h1 : (((n : ℚ) + 1 / 2).floor : ℚ) < n + 1 := by linarith
    have h2 : (n : ℚ) < ((n : ℚ) + 1 / 2).floor + 1 := by linarith
    have h1 : ((n : ℚ) + 1 / 2).floor < n + 1 := by exact_mod_cast h1
    have h2 : n < ((n : ℚ) + 1 / 2).floor + 1 := by exact_mod_cast h2
    omega
  unfold pyRound
  simp only [h]
  simp

theorem pyRound_intCast_sub (m n : Int) : pyRound ((m : ℚ) - n) = m - n := by
  rw [← Int.cast_sub]; exact pyRound_intCast _

/-- If `|q| < M + 1/2` then `round q` is within `M`. -/
theorem pyRound_bound {q : ℚ} {M : Int} (h1 : q < M + 1 / 2) (h2 : -(M : ℚ) - 1 / 2 < q) :
    -M ≤ pyRound q ∧ pyRound q ≤ M := by
  have a := pyRound_le q
  have b := le_pyRound q
  constructor
  · have : (-(M : ℚ) - 1) < (pyRound q : ℚ) := by linarith
    have : (-M - 1 : Int) < pyRound q := by exact_mod_cast this
    omega
  · have : (pyRound q : ℚ) < M + 1 := by linarith
    have : pyRound q < M + 1 := by exact_mod_cast this
    omega

example : pyRound (5 / 2) = 2 ∧ pyRound (7 / 2) = 4 ∧ pyRound (-5 / 2) = -2 ∧ pyRound (27 / 5) = 5 := by
  decide +kernel

end Emb
