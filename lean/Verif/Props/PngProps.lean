import Verif.Png
import Verif.Props.BlockProps
import Verif.Props.BoundsProps
import Mathlib.Algebra.Order.Floor.Ring
import Mathlib.Data.Rat.Floor
import Mathlib.Tactic.Linarith
import Mathlib.Tactic.Ring
import Mathlib.Tactic.NormNum

/-!
# C62, C73: the lines and pixels of a PNG picture
-/

namespace Emb
namespace Png

/-! ## C62: lines -/

/-- Rounding, halves upwards. -/
def halfUp (q : ℚ) : Int := ⌊q + 1 / 2⌋

/-- The pixels of the line from `(x0, y0)` to `(x1, y1)`: one in every column (flat lines) or in every row (others), the nearest
one to the exact line; halves are rounded away from the start. -/
def pixelsOf (x0 y0 x1 y1 : Int) : List (Int × Int) :=
  let dx := x1 - x0
  let dy := y1 - y0
  if |dx| > |dy| then
    (List.range (dx.natAbs + 1)).map (fun (k : Nat) => (x0 + dx.sign * k, y0 + dy.sign * halfUp (|dy| * k / |dx|)))
  else
    (List.range (dy.natAbs + 1)).map (fun (k : Nat) => (x0 + dx.sign * halfUp (|dx| * k / |dy|), y0 + dy.sign * k))

theorem halfUp_eq (a b k m : Int) (ha : 0 < a) (h1 : -a ≤ 2 * b * k - 2 * a * m) (h2 : 2 * b * k - 2 * a * m < a) :
    halfUp ((b : ℚ) * k / a) = m := by
  unfold halfUp
  rw [Int.floor_eq_iff]
  have ha' : (0 : ℚ) < a := by exact_mod_cast ha
  have e1 : -(a : ℚ) ≤ 2 * b * k - 2 * a * m := by exact_mod_cast h1
  have e2 : 2 * (b : ℚ) * k - 2 * a * m < a := by exact_mod_cast h2
  constructor
  · have : (m : ℚ) - 1 / 2 ≤ b * k / a := by rw [le_div_iff₀ ha']; linarith
    linarith
  · have : (b : ℚ) * k / a < m + 1 / 2 := by rw [div_lt_iff₀ ha']; linarith
    linarith

/-- The loop for flat lines from the `k`-th point on. -/
theorem walkX_spec (a b X0 Y0 sx sy : Int) (hb : 0 ≤ b) (hba : b ≤ a) (hs : sx = 1 ∨ sx = -1) :
    ∀ (n k : Nat), (k : Int) + n = a → ∀ (m F : Int) (i fuel : Nat), n < fuel → -a ≤ 2 * b * k - 2 * a * m →
    (2 * b * k - 2 * a * m < a ∨ a = 0) → F = 2 * b * (k + 1) - a - 2 * a * m →
    walkX fuel (X0 + sx * k) (Y0 + sy * m) (X0 + sx * a) sx sy (a * 2) (b * 2) F i =
      some ((List.range n).map (fun (j : Nat) =>
        (X0 + sx * ((k + 1 + j : Nat) : Int), Y0 + sy * halfUp ((b : ℚ) * ((k + 1 + j : Nat) : Int) / a), i + j))) := by
  intro n
  induction n with
  | zero =>
    intro k hk m F i fuel hf h1 h2 hF
    obtain ⟨fuel, rfl⟩ := Nat.exists_eq_succ_of_ne_zero (by omega : fuel ≠ 0)
    have : (k : Int) = a := by simpa using hk
    simp [walkX, this]
  | succ n ih =>
    intro k hk m F i fuel hf h1 h2 hF
    obtain ⟨fuel, rfl⟩ := Nat.exists_eq_succ_of_ne_zero (by omega : fuel ≠ 0)
    have ha : 0 < a := by push_cast at hk; omega
    have h2 : 2 * b * k - 2 * a * m < a := by rcases h2 with h | h <;> omega
    have hne : ¬ X0 + sx * (k : Int) = X0 + sx * a := by
      push_cast at hk
      rcases hs with rfl | rfl <;> omega
    rw [walkX, if_neg hne]
    by_cases hF0 : F ≥ 0
    · simp only [if_pos hF0]
      have e1 : X0 + sx * (k : Int) + sx = X0 + sx * ((k + 1 : Nat) : Int) := by push_cast; ring
      have e2 : Y0 + sy * m + sy = Y0 + sy * (m + 1) := by ring
      have i1 : -a ≤ 2 * b * ((k + 1 : Nat) : Int) - 2 * a * (m + 1) := by push_cast; linarith
      have i2 : 2 * b * ((k + 1 : Nat) : Int) - 2 * a * (m + 1) < a := by push_cast; linarith
      rw [e1, e2, ih (k + 1) (by push_cast at hk ⊢; linarith) (m + 1) _ (i + 1) fuel (by omega) i1 (Or.inl i2)
        (by rw [hF]; push_cast; ring)]
      have := halfUp_eq a b _ _ ha i1 i2
      rw [List.range_succ_eq_map, List.map_cons, List.map_map, Option.map_some, Nat.add_zero, this]
      refine congrArg (fun r => some (_ :: r)) (List.map_congr_left fun j _ => ?_)
      have e : k + 1 + 1 + j = k + 1 + (j + 1) := by omega
      have e' : i + 1 + j = i + (j + 1) := by omega
      simp only [Function.comp, Nat.succ_eq_add_one, e, e']
    · simp only [if_neg hF0]
      have e1 : X0 + sx * (k : Int) + sx = X0 + sx * ((k + 1 : Nat) : Int) := by push_cast; ring
      have i1 : -a ≤ 2 * b * ((k + 1 : Nat) : Int) - 2 * a * m := by push_cast; linarith
      have i2 : 2 * b * ((k + 1 : Nat) : Int) - 2 * a * m < a := by push_cast; linarith
      rw [e1, ih (k + 1) (by push_cast at hk ⊢; linarith) m _ (i + 1) fuel (by omega) i1 (Or.inl i2)
        (by rw [hF]; push_cast; ring)]
      have := halfUp_eq a b _ _ ha i1 i2
      rw [List.range_succ_eq_map, List.map_cons, List.map_map, Option.map_some, Nat.add_zero, this]
      refine congrArg (fun r => some (_ :: r)) (List.map_congr_left fun j _ => ?_)
      have e : k + 1 + 1 + j = k + 1 + (j + 1) := by omega
      have e' : i + 1 + j = i + (j + 1) := by omega
      simp only [Function.comp, Nat.succ_eq_add_one, e, e']

/-- The loop for steep lines is the other one with the coordinates exchanged, but for the index. -/
theorem walkY_eq (fuel : Nat) : ∀ (x0 y0 y1 sx sy dx dy F : Int) (i j : Nat),
    walkY fuel x0 y0 y1 sx sy dx dy F i = (walkX fuel y0 x0 y1 sy sx dy dx F j).map (List.map (fun p => (p.2.1, p.1, i))) := by
  induction fuel with
  | zero => intros; rfl
  | succ fuel ih =>
    intro x0 y0 y1 sx sy dx dy F i j
    rw [walkX, walkY]
    by_cases h : y0 = y1
    · rw [if_pos h, if_pos h]; rfl
    · rw [if_neg h, if_neg h]
      simp only
      rw [ih _ _ _ _ _ _ _ _ i (j + 1), Option.map_map, Option.map_map]
      rfl

theorem step_eq (d : Int) : d = (if d < 0 then -1 else 1) * |d| := by
  by_cases h : d < 0
  · rw [if_pos h, abs_of_neg h]; ring
  · rw [if_neg h, abs_of_nonneg (by omega)]; ring

theorem abs_eq (d : Int) : (if d < 0 then -d else d) = |d| := by
  by_cases h : d < 0
  · rw [if_pos h, abs_of_neg h]
  · rw [if_neg h, abs_of_nonneg (by omega)]

theorem step_pm (d : Int) : (if d < 0 then (-1 : Int) else 1) = 1 ∨ (if d < 0 then (-1 : Int) else 1) = -1 := by
  by_cases h : d < 0
  · rw [if_pos h]; exact Or.inr rfl
  · rw [if_neg h]; exact Or.inl rfl

/-- Multiplying with the step or with the sign makes no difference for a multiple of the distance. -/
theorem step_sign (d m : Int) (h : d = 0 → m = 0) : (if d < 0 then -1 else 1) * m = d.sign * m := by
  by_cases h0 : d = 0
  · rw [h h0, mul_zero, mul_zero]
  · by_cases hd : d < 0
    · rw [if_pos hd, Int.sign_eq_neg_one_of_neg hd]
    · rw [if_neg hd, Int.sign_eq_one_of_pos (by omega)]

theorem halfUp_zero : halfUp 0 = 0 := by unfold halfUp; norm_num

/-- The index with which `draw_line` asks for the shade of the `k`-th pixel. -/
def shadeIndex (steep : Bool) (k : Nat) : Nat := if steep then min k 1 else k

theorem zipIdx_map {α : Type} (f : Nat → α) (n : Nat) : ((List.range n).map f).zipIdx = (List.range n).map (fun k => (f k, k)) := by
  apply List.ext_getElem
  · simp
  · intro i h1 h2; simp

/-- **C62.** For every two points the loop of `draw_line` ends, after at most as many rounds as the larger distance, and the
pixels it has asked for are those of the line. -/
theorem C62_points (x0 y0 x1 y1 : Int) (fuel : Nat) (h : max (x1 - x0).natAbs (y1 - y0).natAbs < fuel) :
    line fuel x0 y0 x1 y1 = some (decide (|x1 - x0| ≤ |y1 - y0|), max |x1 - x0| |y1 - y0|,
      (pixelsOf x0 y0 x1 y1).zipIdx.map
        (fun p => (p.1.1, p.1.2, shadeIndex (decide (|x1 - x0| ≤ |y1 - y0|)) p.2))) := by
  unfold line pixelsOf
  simp only [abs_eq, abs_abs]
  generalize hdx : x1 - x0 = dx at *
  generalize hdy : y1 - y0 = dy at *
  have sh : ∀ v : Int, shr (v * 2) 1 = v := by intro v; unfold shr; rw [pow_one]; omega
  by_cases hc : |dx| > |dy|
  · have hx1 : x1 = x0 + (if dx < 0 then -1 else 1) * |dx| := by rw [← step_eq]; omega
    have hn : (dx.natAbs : Int) = |dx| := Int.natCast_natAbs dx
    have := walkX_spec |dx| |dy| x0 y0 (if dx < 0 then -1 else 1) (if dy < 0 then -1 else 1) (abs_nonneg _) hc.le (step_pm dx)
      dx.natAbs 0 (by rw [hn]; simp) 0 (|dy| * 2 - |dx|) 1 fuel (lt_of_le_of_lt (le_max_left _ _) h)
      (by simp) (Or.inl (by have := abs_nonneg dy; simp only [Nat.cast_zero]; linarith)) (by push_cast; ring)
    rw [if_pos hc, if_pos hc, sh, max_eq_left hc.le]
    simp only [Nat.cast_zero, mul_zero, add_zero, Nat.zero_add] at this
    rw [← hx1] at this
    have hd : decide (|dx| ≤ |dy|) = false := by simpa using hc
    rw [this, zipIdx_map, List.map_map, List.range_succ_eq_map, List.map_cons, List.map_map, hd]
    refine congrArg (fun r => some (false, |dx|, r)) ?_
    have he : ∀ k : Nat, (if dy < 0 then -1 else 1) * halfUp (((|dy| : Int) : ℚ) * k / |dx|) = dy.sign * halfUp (|dy| * k / |dx|) := by
      intro k
      apply step_sign
      rintro rfl
      simp [halfUp_zero]
    have he' : ∀ k : Int, (if dx < 0 then -1 else 1) * k = dx.sign * k := by
      intro k
      apply step_sign
      rintro rfl
      have := abs_nonneg dy
      simp at hc; omega
    refine congr (congrArg List.cons ?_) (List.map_congr_left fun j _ => ?_)
    · simp [shadeIndex, halfUp_zero]
    · have := he (1 + j)
      simp only [Function.comp, shadeIndex]
      rw [he']
      push_cast at this ⊢
      rw [this]
      simp only [Prod.mk.injEq, Nat.succ_eq_add_one]
      rw [add_comm (1 : Int), add_comm (1 : ℚ), add_comm 1 j]
      simp
  · have hc' : |dx| ≤ |dy| := by omega
    have hy1 : y1 = y0 + (if dy < 0 then -1 else 1) * |dy| := by rw [← step_eq]; omega
    have hn : (dy.natAbs : Int) = |dy| := Int.natCast_natAbs dy
    have := walkX_spec |dy| |dx| y0 x0 (if dy < 0 then -1 else 1) (if dx < 0 then -1 else 1) (abs_nonneg _) hc' (step_pm dy)
      dy.natAbs 0 (by rw [hn]; simp) 0 (|dx| * 2 - |dy|) 1 fuel (lt_of_le_of_lt (le_max_right _ _) h)
      (by simp) (by have := abs_nonneg dy; simp only [Nat.cast_zero]; omega) (by push_cast; ring)
    rw [if_neg hc, if_neg hc, sh, max_eq_right hc', walkY_eq _ _ _ _ _ _ _ _ _ 1 1]
    simp only [Nat.cast_zero, mul_zero, add_zero, Nat.zero_add] at this
    rw [← hy1] at this
    have hd : decide (|dx| ≤ |dy|) = true := by simpa using hc'
    rw [this, zipIdx_map, List.map_map, List.range_succ_eq_map, List.map_cons, List.map_map, hd]
    refine congrArg (fun r => some (true, |dy|, r)) ?_
    have he : ∀ k : Nat, (if dx < 0 then -1 else 1) * halfUp (((|dx| : Int) : ℚ) * k / |dy|) = dx.sign * halfUp (|dx| * k / |dy|) := by
      intro k
      apply step_sign
      rintro rfl
      simp [halfUp_zero]
    have he' : dy ≠ 0 → ∀ k : Int, (if dy < 0 then -1 else 1) * k = dy.sign * k := by
      intro h k
      apply step_sign
      intro h'; exact absurd h' h
    refine congr (congrArg List.cons ?_) ?_
    · simp [shadeIndex, halfUp_zero]
    · rw [List.map_map]
      refine (List.map_congr_left fun j hj => ?_)
      have := he (1 + j)
      have h0 : dy ≠ 0 := by rintro rfl; simp at hj
      simp only [Function.comp, shadeIndex]
      rw [he' h0]
      push_cast at this ⊢
      rw [this]
      simp only [Prod.mk.injEq, Nat.succ_eq_add_one]
      rw [add_comm (1 : Int), add_comm (1 : ℚ)]
      simp

theorem halfUp_int (n : Int) : halfUp n = n := by
  unfold halfUp
  rw [Int.floor_eq_iff]
  constructor <;> linarith

theorem halfUp_near (q : ℚ) : |(halfUp q : ℚ) - q| ≤ 1 / 2 := by
  unfold halfUp
  have h1 := Int.floor_le (q + 1 / 2)
  have h2 := Int.lt_floor_add_one (q + 1 / 2)
  rw [abs_le]
  constructor <;> linarith

theorem halfUp_mono {p q : ℚ} (h : p ≤ q) : halfUp p ≤ halfUp q := Int.floor_mono (by linarith)

/-- A step of at most one in the exact value is a step of at most one after rounding. -/
theorem halfUp_step (a b : Int) (hb : 0 ≤ b) (hba : b ≤ a) (k : Nat) :
    halfUp ((b : ℚ) * (k + 1 : Nat) / a) = halfUp ((b : ℚ) * k / a) ∨
      halfUp ((b : ℚ) * (k + 1 : Nat) / a) = halfUp ((b : ℚ) * k / a) + 1 := by
  by_cases ha : a = 0
  · left; simp [ha]
  have ha' : (0 : ℚ) < a := by exact_mod_cast (by omega : 0 < a)
  have e : (b : ℚ) * (k + 1 : Nat) / a = b * k / a + b / a := by push_cast; ring
  have h0 : (0 : ℚ) ≤ b / a := div_nonneg (by exact_mod_cast hb) ha'.le
  have h1 : (b : ℚ) / a ≤ 1 := by rw [div_le_one ha']; exact_mod_cast hba
  have l := halfUp_mono (show (b : ℚ) * k / a ≤ b * (k + 1 : Nat) / a by rw [e]; linarith)
  have u := halfUp_mono (show (b : ℚ) * (k + 1 : Nat) / a ≤ b * k / a + 1 by rw [e]; linarith)
  have u' : halfUp ((b : ℚ) * k / a + 1) = halfUp ((b : ℚ) * k / a) + 1 := by
    unfold halfUp
    rw [add_right_comm, Int.floor_add_one]
  omega

/-- Neighbours, also diagonally, and not the same. -/
def Adjacent (p q : Int × Int) : Prop := |q.1 - p.1| ≤ 1 ∧ |q.2 - p.2| ≤ 1 ∧ p ≠ q

theorem chain_range {α : Type} (R : α → α → Prop) (f : Nat → α) (n : Nat) (h : ∀ k, k + 1 < n → R (f k) (f (k + 1))) :
    ((List.range n).map f).IsChain R := by
  rw [List.isChain_iff_getElem]
  intro i hi
  simp only [List.length_map, List.length_range] at hi
  simpa using h i hi

/-- What a drawn line should be. -/
structure IsLine (x0 y0 x1 y1 : Int) (pts : List (Int × Int)) : Prop where
  /-- It starts at the first point, -/
  start : pts.head? = some (x0, y0)
  /-- ends at the other one, -/
  finish : pts.getLast? = some (x1, y1)
  /-- has no gaps and no repeated pixel, -/
  joined : pts.IsChain Adjacent
  /-- is as short as possible, -/
  size : pts.length = max (x1 - x0).natAbs (y1 - y0).natAbs + 1
  /-- and no pixel of it is farther than half a pixel from the exact line (measured along the shorter distance). -/
  near : ∀ p ∈ pts, 2 * |(p.2 - y0) * (x1 - x0) - (p.1 - x0) * (y1 - y0)| ≤ max |x1 - x0| |y1 - y0|
  /-- All of it is between the two points. -/
  within : ∀ p ∈ pts, min x0 x1 ≤ p.1 ∧ p.1 ≤ max x0 x1 ∧ min y0 y1 ≤ p.2 ∧ p.2 ≤ max y0 y1

theorem sign_mul_between (x0 d m : Int) (h0 : 0 ≤ m) (h1 : m ≤ |d|) : min x0 (x0 + d) ≤ x0 + d.sign * m ∧ x0 + d.sign * m ≤ max x0 (x0 + d) := by
  rcases lt_trichotomy d 0 with h | h | h
  · rw [Int.sign_eq_neg_one_of_neg h]; rw [abs_of_neg h] at h1; omega
  · subst h; simp
  · rw [Int.sign_eq_one_of_pos h]; rw [abs_of_pos h] at h1; omega

/-- One direction: `a` is the longer distance (with sign), `b` the shorter. -/
theorem major (x0 y0 a b : Int) (h : |b| ≤ |a|) :
    let pts := (List.range (a.natAbs + 1)).map (fun (k : Nat) => (x0 + a.sign * k, y0 + b.sign * halfUp (|b| * k / |a|)))
    pts.head? = some (x0, y0) ∧ pts.getLast? = some (x0 + a, y0 + b) ∧ pts.IsChain Adjacent ∧ pts.length = a.natAbs + 1 ∧
    (∀ p ∈ pts, 2 * |(p.2 - y0) * a - (p.1 - x0) * b| ≤ |a|) ∧
    ∀ p ∈ pts, min x0 (x0 + a) ≤ p.1 ∧ p.1 ≤ max x0 (x0 + a) ∧ min y0 (y0 + b) ≤ p.2 ∧ p.2 ≤ max y0 (y0 + b) := by
  have hn : (a.natAbs : Int) = |a| := Int.natCast_natAbs a
  intro pts
  refine ⟨?_, ?_, ?_, by simp [pts], ?_, ?_⟩
  · simp [pts, List.range_succ_eq_map, halfUp_zero]
  · have e : halfUp (((|b| : Int) : ℚ) * ((|a| : Int) : ℚ) / ((|a| : Int) : ℚ)) = |b| := by
      by_cases ha : a = 0
      · have : b = 0 := by rw [ha, abs_zero] at h; exact abs_eq_zero.1 (le_antisymm h (abs_nonneg b))
        simp [ha, this, halfUp_zero]
      · rw [mul_div_assoc, div_self (by exact_mod_cast abs_ne_zero.2 ha), mul_one, halfUp_int]
    have hq : (a.natAbs : ℚ) = ((|a| : Int) : ℚ) := by rw [← hn]; rfl
    simp only [pts, List.range_succ, List.map_append, List.map_cons, List.map_nil, List.getLast?_append, List.getLast?_singleton,
      Option.some_or]
    rw [hq, hn, e, Int.sign_mul_abs, Int.sign_mul_abs]
  · apply chain_range
    intro k hk
    have ha : a ≠ 0 := by rintro rfl; simp at hk
    have s1 : |a.sign| = 1 := by
      rcases lt_or_gt_of_ne ha with h | h
      · rw [Int.sign_eq_neg_one_of_neg h]; decide
      · rw [Int.sign_eq_one_of_pos h]; decide
    have s2 : |b.sign| ≤ 1 := by
      rcases lt_trichotomy b 0 with h | h | h
      · rw [Int.sign_eq_neg_one_of_neg h]; decide
      · rw [h]; decide
      · rw [Int.sign_eq_one_of_pos h]; decide
    have e : x0 + a.sign * ((k + 1 : Nat) : Int) - (x0 + a.sign * k) = a.sign := by push_cast; ring
    have hs := halfUp_step |a| |b| (abs_nonneg _) h k
    refine ⟨by rw [e, s1], ?_, ?_⟩
    · rcases hs with hs | hs
      · simp only [hs, sub_self, abs_zero]; decide
      · simp only [hs]
        rw [show ∀ u v w : Int, u + v * (w + 1) - (u + v * w) = v by intros; ring]
        exact s2
    · intro hh
      have h1 := congrArg Prod.fst hh
      simp only at h1
      have : a.sign = 0 := by rw [← e]; omega
      rw [this] at s1; simp at s1
  · intro p hp
    obtain ⟨k, hk, rfl⟩ := List.mem_map.1 hp
    have hk' : k ≤ a.natAbs := by simpa [Nat.lt_succ_iff] using hk
    simp only [add_sub_cancel_left]
    by_cases ha : a = 0
    · subst ha
      have : k = 0 := by simpa using hk'
      simp [this]
    have ha' : (0 : ℚ) < ((|a| : Int) : ℚ) := by exact_mod_cast abs_pos.2 ha
    have hnear := halfUp_near (((|b| : Int) : ℚ) * k / ((|a| : Int) : ℚ))
    generalize halfUp (((|b| : Int) : ℚ) * k / ((|a| : Int) : ℚ)) = m at hnear ⊢
    have e1 : b.sign * m * a - a.sign * k * b = (b.sign * a.sign) * (m * |a| - |b| * k) := by
      have h1 := Int.sign_mul_abs a
      have h2 := Int.sign_mul_abs b
      calc b.sign * m * a - a.sign * k * b = b.sign * m * (a.sign * |a|) - a.sign * k * (b.sign * |b|) := by rw [h1, h2]
        _ = _ := by ring
    have e2 : |(m : ℚ) * ((|a| : Int) : ℚ) - ((|b| : Int) : ℚ) * k| ≤ 1 / 2 * ((|a| : Int) : ℚ) := by
      have : (m : ℚ) * ((|a| : Int) : ℚ) - ((|b| : Int) : ℚ) * k = (m - ((|b| : Int) : ℚ) * k / ((|a| : Int) : ℚ)) * ((|a| : Int) : ℚ) := by
        rw [sub_mul, div_mul_cancel₀ _ ha'.ne']
      rw [this, abs_mul, abs_of_pos ha']
      exact mul_le_mul_of_nonneg_right hnear ha'.le
    have e3 : 2 * |m * |a| - |b| * k| ≤ |a| := by
      have : ((2 * |m * |a| - |b| * k| : Int) : ℚ) ≤ ((|a| : Int) : ℚ) := by push_cast at e2 ⊢; linarith
      exact_mod_cast this
    rw [e1, abs_mul, abs_mul]
    have hs : ∀ d : Int, |d.sign| ≤ 1 := by
      intro d
      rcases lt_trichotomy d 0 with h | h | h
      · rw [Int.sign_eq_neg_one_of_neg h]; decide
      · rw [h]; decide
      · rw [Int.sign_eq_one_of_pos h]; decide
    have : |b.sign| * |a.sign| ≤ 1 := mul_le_one₀ (hs b) (abs_nonneg _) (hs a)
    have := mul_le_mul_of_nonneg_right this (abs_nonneg (m * |a| - |b| * k))
    linarith
  · intro p hp
    obtain ⟨k, hk, rfl⟩ := List.mem_map.1 hp
    have hk' : k ≤ a.natAbs := by simpa [Nat.lt_succ_iff] using hk
    have hk2 : (k : Int) ≤ |a| := by rw [← hn]; exact_mod_cast hk'
    have := sign_mul_between x0 a k (by omega) hk2
    refine ⟨this.1, this.2, ?_⟩
    apply sign_mul_between
    · rw [← halfUp_zero]
      apply halfUp_mono
      exact div_nonneg (mul_nonneg (by exact_mod_cast abs_nonneg b) (by positivity)) (by exact_mod_cast abs_nonneg a)
    · rw [← halfUp_int |b|]
      apply halfUp_mono
      by_cases ha : a = 0
      · simp [ha]
      · have ha' : (0 : ℚ) < ((|a| : Int) : ℚ) := by exact_mod_cast abs_pos.2 ha
        rw [halfUp_int, div_le_iff₀ ha']
        exact mul_le_mul_of_nonneg_left (by exact_mod_cast hk2) (by exact_mod_cast abs_nonneg b)

/-- The pixels of a line are what they should be. -/
theorem pixelsOf_isLine (x0 y0 x1 y1 : Int) : IsLine x0 y0 x1 y1 (pixelsOf x0 y0 x1 y1) := by
  have ex : x0 + (x1 - x0) = x1 := by ring
  have ey : y0 + (y1 - y0) = y1 := by ring
  have nx : ((x1 - x0).natAbs : Int) = |x1 - x0| := Int.natCast_natAbs _
  have ny : ((y1 - y0).natAbs : Int) = |y1 - y0| := Int.natCast_natAbs _
  unfold pixelsOf
  by_cases h : |x1 - x0| > |y1 - y0|
  · simp only [if_pos h]
    obtain ⟨a1, a2, a3, a4, a5, a6⟩ := major x0 y0 (x1 - x0) (y1 - y0) h.le
    rw [ex, ey] at a2 a6
    exact ⟨a1, a2, a3, by rw [a4, max_eq_left (by omega)], by rw [max_eq_left h.le]; exact a5, a6⟩
  · simp only [if_neg h]
    obtain ⟨a1, a2, a3, a4, a5, a6⟩ := major y0 x0 (y1 - y0) (x1 - x0) (by omega)
    rw [ex, ey] at a2 a6
    set pts := (List.range ((y1 - y0).natAbs + 1)).map (fun (k : Nat) =>
      (y0 + (y1 - y0).sign * k, x0 + (x1 - x0).sign * halfUp (|x1 - x0| * k / |y1 - y0|))) with hp
    have e : (List.range ((y1 - y0).natAbs + 1)).map (fun (k : Nat) =>
      (x0 + (x1 - x0).sign * halfUp (|x1 - x0| * k / |y1 - y0|), y0 + (y1 - y0).sign * k)) = pts.map Prod.swap := by
      rw [hp, List.map_map]; rfl
    rw [e]
    refine ⟨?_, ?_, ?_, ?_, ?_, ?_⟩
    · rw [List.head?_map, a1]; rfl
    · rw [List.getLast?_map, a2]; rfl
    · rw [List.isChain_map]
      exact a3.imp (fun p q h => ⟨h.2.1, h.1, fun c => h.2.2 (Prod.swap_injective c)⟩)
    · rw [List.length_map, a4, max_eq_right (by omega)]
    · intro p hp
      obtain ⟨q, hq, rfl⟩ := List.mem_map.1 hp
      have := a5 q hq
      rw [max_eq_right (by omega), abs_sub_comm]
      exact this
    · intro p hp
      obtain ⟨q, hq, rfl⟩ := List.mem_map.1 hp
      have := a6 q hq
      exact ⟨this.2.2.1, this.2.2.2, this.1, this.2.1⟩

/-- **C62.** For every two points the loop of `draw_line` ends within as many rounds as the larger distance; the pixels it asks
for are a line between the points, and the shade of each is looked up at a place from 0 to the larger distance. -/
theorem C62_line (x0 y0 x1 y1 : Int) : ∃ steep pts,
    (∀ fuel, max (x1 - x0).natAbs (y1 - y0).natAbs < fuel → line fuel x0 y0 x1 y1 = some (steep, max |x1 - x0| |y1 - y0|, pts)) ∧
    IsLine x0 y0 x1 y1 (pts.map (fun p => (p.1, p.2.1))) ∧
    ∀ p ∈ pts, (p.2.2 : Int) ≤ max |x1 - x0| |y1 - y0| := by
  have hl := pixelsOf_isLine x0 y0 x1 y1
  refine ⟨_, _, fun fuel h => C62_points x0 y0 x1 y1 fuel h, ?_, ?_⟩
  · rw [List.map_map]
    have : (pixelsOf x0 y0 x1 y1).zipIdx.map ((fun p : Int × Int × Nat => (p.1, p.2.1)) ∘
        (fun p => (p.1.1, p.1.2, shadeIndex (decide (|x1 - x0| ≤ |y1 - y0|)) p.2))) = pixelsOf x0 y0 x1 y1 := by
      conv => rhs; rw [← List.zipIdx_map_fst 0 (pixelsOf x0 y0 x1 y1)]
      rfl
    rw [this]; exact hl
  · intro p hp
    obtain ⟨q, hq, rfl⟩ := List.mem_map.1 hp
    have := List.snd_lt_of_mem_zipIdx hq
    rw [hl.size] at this
    have nx : ((x1 - x0).natAbs : Int) = |x1 - x0| := Int.natCast_natAbs _
    have ny : ((y1 - y0).natAbs : Int) = |y1 - y0| := Int.natCast_natAbs _
    have : shadeIndex (decide (|x1 - x0| ≤ |y1 - y0|)) q.2 ≤ q.2 := by unfold shadeIndex; split <;> omega
    simp only
    omega

example : line 8 1 2 8 5 = some (false, 7, [(1, 2, 0), (2, 2, 1), (3, 3, 2), (4, 3, 3), (5, 4, 4), (6, 4, 5), (7, 5, 6), (8, 5, 7)]) := by
  decide +kernel

/-! ## C73: the picture -/

/-- The shade along a line, from 0 to 1: darker towards both ends. -/
def grad (p : ℚ) : ℚ :=
  if p ≤ 2 / 5 then min 1 (13 / 20 + 9 / 8 * p) else if p ≤ 7 / 10 then 1 else min 1 (11 / 10 - 3 / 2 * (p - 7 / 10))

/-- Colours that are drawn as dark grey. -/
def NearBlack (c : Int × Int × Int) : Prop :=
  (512 + c.1 / 2) * c.1 * c.1 / 256 + 4 * c.2.1 * c.2.1 + (767 - c.1 / 2) * c.2.2 * c.2.2 / 256 < 225

instance (c : Int × Int × Int) : Decidable (NearBlack c) := by unfold NearBlack; infer_instance

/-- What a thread of colour `c` leaves on a pixel, for shade `v`. -/
def ink (c : Int × Int × Int) (v : ℚ) : Pixel :=
  if NearBlack c then ⟨⌊35 * v⌋, ⌊35 * v⌋, ⌊35 * v⌋, 251⟩ else ⟨⌊c.1 * v⌋, ⌊c.2.1 * v⌋, ⌊c.2.2 * v⌋, 251⟩

/-- The pixels touched by a line from `p` to `q`, in order, with what is left on each: `width` pixels beside each other for every
pixel of the line. -/
def stroke (width : Int) (fancy : Bool) (c : Int × Int × Int) (p q : Int × Int) : List ((Int × Int) × Pixel) :=
  let size := max |q.1 - p.1| |q.2 - p.2|
  let steep := decide (|q.1 - p.1| ≤ |q.2 - p.2|)
  (pixelsOf p.1 p.2 q.1 q.2).zipIdx.flatMap (fun pt =>
    (range (-(width / 2)) (width - width / 2)).map (fun o =>
      (if steep then (pt.1.1 + o, pt.1.2) else (pt.1.1, pt.1.2 + o),
        ink c (if fancy ∧ 0 < size then grad ((shadeIndex steep pt.2 : ℚ) / size) else 1))))

/-- The pairs of STITCH (0) commands that follow each other, with the thread in use: number `k` at first, the next one after
every COLOR_CHANGE (5). -/
def sewn {τ : Type} (threads : List τ) (filler : Nat → τ) : Nat → List Stitch → List ((Stitch × Stitch) × τ)
  | k, a :: b :: l =>
    (if a.low = 0 ∧ b.low = 0 then [((a, b), (threads[k]?).getD (filler k))] else []) ++
      sewn threads filler (if a.low = 5 then k + 1 else k) (b :: l)
  | _, _ => []

/-- The pixel a stitch falls on, as seen from the upper left corner of the design. -/
def spot (box : Box) (a : Stitch) : Int × Int := (⌊a.x - box.minX⌋, ⌊a.y - box.minY⌋)

/-- Everything that is drawn, in order. -/
def strokes (box : Box) (width : Int) (fancy : Bool) (threads : List (Int × Int × Int)) (filler : Nat → Int × Int × Int) (l : List Stitch) :
    List ((Int × Int) × Pixel) :=
  (sewn threads filler 0 l).flatMap (fun s => stroke width fancy s.2 (spot box s.1.1) (spot box s.1.2))

/-- What is seen at a place: the last thing drawn there. -/
def top (S : List ((Int × Int) × Pixel)) (p : Int × Int) : Option Pixel := ((S.filter (fun s => s.1 = p)).getLast?).map (·.2)

/-- A colour of three bytes. -/
def IsColor (c : Int × Int × Int) : Prop := (0 ≤ c.1 ∧ c.1 ≤ 255) ∧ (0 ≤ c.2.1 ∧ c.2.1 ≤ 255) ∧ (0 ≤ c.2.2 ∧ c.2.2 ≤ 255)

theorem gradient_eq (p : ℚ) (h0 : 0 ≤ p) (h1 : p ≤ 1) : gradient {} p = .ok (grad p) := by
  unfold gradient grad shade
  by_cases c1 : p ≤ 2 / 5
  · rw [if_pos (by linarith), if_neg (by norm_num), if_pos c1]
    congr 1
    have : (p - 0) * (1 / (40 / 100 - 0)) * (11 / 10 - 65 / 100) + 65 / 100 = 13 / 20 + 9 / 8 * p := by ring
    rw [this, min_comm, max_eq_left]
    exact le_min (by norm_num) (by linarith)
  · rw [if_neg (by linarith), if_neg c1]
    by_cases c2 : p ≤ 1 / 2
    · rw [if_pos (by linarith), if_neg (by norm_num), if_pos (by linarith)]
      congr 1
      have : (1 : ℚ) ≤ (p - 40 / 100) * (1 / (50 / 100 - 40 / 100)) * (155 / 100 - 11 / 10) + 11 / 10 := by linarith
      rw [min_eq_right this]; norm_num
    · rw [if_neg (by linarith)]
      by_cases c3 : p ≤ 7 / 10
      · rw [if_pos (by linarith), if_neg (by norm_num), if_pos c3]
        congr 1
        have : (1 : ℚ) ≤ (p - 50 / 100) * (1 / (70 / 100 - 50 / 100)) * (11 / 10 - 155 / 100) + 155 / 100 := by linarith
        rw [min_eq_right this]; norm_num
      · rw [if_neg (by linarith), if_pos h1, if_neg (by norm_num), if_neg c3]
        congr 1
        have : (p - 70 / 100) * (1 / (1 - 70 / 100)) * (65 / 100 - 11 / 10) + 11 / 10 = 11 / 10 - 3 / 2 * (p - 7 / 10) := by ring
        rw [this, min_comm, max_eq_left]
        exact le_min (by norm_num) (by linarith)

theorem grad_range (p : ℚ) (h0 : 0 ≤ p) (h1 : p ≤ 1) : 0 ≤ grad p ∧ grad p ≤ 1 := by
  unfold grad
  by_cases c1 : p ≤ 2 / 5
  · rw [if_pos c1]; exact ⟨le_min (by norm_num) (by linarith), min_le_left _ _⟩
  · rw [if_neg c1]
    by_cases c2 : p ≤ 7 / 10
    · rw [if_pos c2]; norm_num
    · rw [if_neg c2]; exact ⟨le_min (by norm_num) (by linarith), min_le_left _ _⟩

theorem pyInt_floor (q : ℚ) (h : 0 ≤ q) : pyInt q = ⌊q⌋ := by
  unfold pyInt
  rw [if_pos h]; rfl

theorem clip_id (q : ℚ) (h0 : 0 ≤ q) (h1 : q ≤ 255) : clip q = q := by
  unfold clip
  simp only [if_neg (not_lt.2 h0)]
  rw [if_neg (not_lt.2 h1)]

theorem scaled (c : Int) (v : ℚ) (h : 0 ≤ c ∧ c ≤ 255) (h0 : 0 ≤ v) (h1 : v ≤ 1) : 0 ≤ (c : ℚ) * v ∧ (c : ℚ) * v ≤ 255 := by
  have a0 : (0 : ℚ) ≤ c := by exact_mod_cast h.1
  have a1 : (c : ℚ) ≤ 255 := by exact_mod_cast h.2
  refine ⟨mul_nonneg a0 h0, ?_⟩
  calc (c : ℚ) * v ≤ c * 1 := mul_le_mul_of_nonneg_left h1 a0
    _ ≤ 255 := by linarith

theorem dark_eq (P : Pen) (h : 0 ≤ P.red) : P.dark = decide (NearBlack (P.red, P.green, P.blue)) := by
  have e : pyInt ((P.red : ℚ) / 2) = P.red / 2 := by
    rw [pyInt_floor _ (div_nonneg (by exact_mod_cast h) (by norm_num))]
    have := Rat.floor_intCast_div_natCast P.red 2
    exact_mod_cast this
  unfold Pen.dark NearBlack shr
  simp only [e]
  norm_num

/-- With full opacity a plot does not depend on what was there. -/
theorem paint_eq (P : Pen) (v : ℚ) (old : Pixel) (ha : P.alpha = 255) (hc : IsColor (P.red, P.green, P.blue)) (h0 : 0 ≤ v) (h1 : v ≤ 1) :
    P.paint v old = .ok (ink (P.red, P.green, P.blue) v) := by
  obtain ⟨hr, hg, hb⟩ := hc
  have byte : ∀ q : ℚ, 0 ≤ q → q ≤ 255 → 0 ≤ pyInt q ∧ pyInt q ≤ 255 := by
    intro q q0 q1
    rw [pyInt_floor q q0]
    exact ⟨Int.floor_nonneg.2 q0, by have := Int.floor_mono q1; simpa using this⟩
  have h35 := scaled 35 v (by decide) h0 h1
  have sr := scaled _ v hr h0 h1
  have sg := scaled _ v hg h0 h1
  have sb := scaled _ v hb h0 h1
  have h255 : pyInt ((255 : Int) : ℚ) = 255 := by decide +kernel
  unfold Pen.paint
  simp only [ha]
  rw [if_neg (show ¬ (old.a ≠ 0 ∧ (255 : Int) ≠ 255) from fun c => c.2 rfl), dark_eq P hr.1]
  by_cases hd : NearBlack (P.red, P.green, P.blue)
  · simp only [decide_eq_true hd, if_true]
    have h35' : (0 : ℚ) ≤ 35 * v ∧ (35 : ℚ) * v ≤ 255 := by exact_mod_cast h35
    rw [clip_id _ h35'.1 h35'.2, h255]
    have b := byte _ h35'.1 h35'.2
    rw [if_pos ⟨b, b, b, by decide⟩, ink, if_pos hd, pyInt_floor _ h35'.1]
    rfl
  · simp only [decide_eq_false hd, if_false, Bool.false_eq_true]
    rw [clip_id _ sr.1 sr.2, clip_id _ sg.1 sg.2, clip_id _ sb.1 sb.2, h255]
    rw [if_pos ⟨byte _ sr.1 sr.2, byte _ sg.1 sg.2, byte _ sb.1 sb.2, by decide⟩, ink, if_neg hd, pyInt_floor _ sr.1,
      pyInt_floor _ sg.1, pyInt_floor _ sb.1]
    rfl

/-- The pixels `buf` of a picture of size `w × h` show what is drawn by `S` on the background `bg`; the picture begins one pixel
to the left of and above the design. -/
def Shows (w h : Int) (bg : Pixel) (S : List ((Int × Int) × Pixel)) (buf : List Pixel) : Prop :=
  buf.length = (w * h).toNat ∧
  ∀ x y, 0 ≤ x → x < w → 0 ≤ y → y < h → buf[(w * y + x).toNat]? = some ((top S (x - 1, y - 1)).getD bg)

theorem top_snoc (S : List ((Int × Int) × Pixel)) (s : (Int × Int) × Pixel) (p : Int × Int) :
    top (S ++ [s]) p = if s.1 = p then some s.2 else top S p := by
  unfold top
  rw [List.filter_append]
  by_cases h : s.1 = p
  · rw [if_pos h, List.filter_cons_of_pos (by simpa using h)]
    simp
  · rw [if_neg h, List.filter_cons_of_neg (by simpa using h)]
    simp

theorem index_inj {w x y x' y' : Int} (hx : 0 ≤ x) (hw : x < w) (hx' : 0 ≤ x') (hw' : x' < w) (h : w * y + x = w * y' + x') :
    x = x' ∧ y = y' := by
  have h1 : (w * y + x) % w = x := by rw [add_comm, Int.add_mul_emod_self_left, Int.emod_eq_of_lt hx hw]
  have h2 : (w * y' + x') % w = x' := by rw [add_comm, Int.add_mul_emod_self_left, Int.emod_eq_of_lt hx' hw']
  have hxx : x = x' := by rw [← h1, ← h2, h]
  refine ⟨hxx, ?_⟩
  have : w * y = w * y' := by omega
  exact (Int.mul_eq_mul_left_iff (by omega)).1 this

/-- A plot within the picture. -/
theorem plot_shows {P : Pen} {w h : Int} {bg : Pixel} {S : List ((Int × Int) × Pixel)} {buf : List Pixel} (hS : Shows w h bg S buf)
    {x y : Int} {v : ℚ} {px : Pixel} (hx : -1 ≤ x) (hx' : x + 1 < w) (hy : -1 ≤ y) (hy' : y + 1 < h)
    (hp : ∀ old, P.paint v old = .ok px) :
    ∃ buf', plot P w x y v buf = .ok buf' ∧ Shows w h bg (S ++ [((x, y), px)]) buf' := by
  have hw : 0 < w := by omega
  have p0 : 0 ≤ w * (y + 1) := mul_nonneg hw.le (by omega)
  have old := hS.2 (x + 1) (y + 1) (by omega) hx' (by omega) hy'
  have e : plot P w x y v buf = .ok (buf.set (w * (y + 1) + (x + 1)).toNat px) := by
    unfold plot
    simp only
    rw [if_neg (show ¬ w * (y + 1) + (x + 1) < 0 by omega)]
    rw [if_neg (show ¬ w * (y + 1) + (x + 1) < 0 by omega), old]
    simp only [hp]
    rfl
  refine ⟨_, e, by rw [List.length_set]; exact hS.1, ?_⟩
  intro x2 y2 a1 a2 a3 a4
  have q0 : 0 ≤ w * y2 := mul_nonneg hw.le a3
  have hlen := (List.getElem?_eq_some_iff.1 old).1
  rw [List.getElem?_set, top_snoc]
  by_cases hi : (w * (y + 1) + (x + 1)).toNat = (w * y2 + x2).toNat
  · have : w * (y + 1) + (x + 1) = w * y2 + x2 := by omega
    obtain ⟨i1, i2⟩ := index_inj (by omega) hx' a1 a2 this
    rw [if_pos hi, if_pos hlen, if_pos (by rw [← i1, ← i2]; simp)]
    rfl
  · rw [if_neg hi, if_neg, hS.2 x2 y2 a1 a2 a3 a4]
    intro c
    apply hi
    have c1 := congrArg Prod.fst c
    have c2 := congrArg Prod.snd c
    simp only at c1 c2
    rw [show x = x2 - 1 from c1, show y = y2 - 1 from c2]
    simp

/-- A list of plots within the picture. -/
theorem plots_shows {α : Type} {w h : Int} {bg : Pixel} (f : List Pixel → α → Except PyErr (List Pixel)) (g : α → List ((Int × Int) × Pixel))
    (L : List α) (hf : ∀ a ∈ L, ∀ S buf, Shows w h bg S buf → ∃ buf', f buf a = .ok buf' ∧ Shows w h bg (S ++ g a) buf') :
    ∀ S buf, Shows w h bg S buf → ∃ buf', L.foldlM f buf = .ok buf' ∧ Shows w h bg (S ++ L.flatMap g) buf' := by
  induction L with
  | nil => intro S buf h; exact ⟨buf, rfl, by simpa using h⟩
  | cons a L ih =>
    intro S buf hS
    obtain ⟨b1, e1, s1⟩ := hf a (by simp) S buf hS
    obtain ⟨b2, e2, s2⟩ := ih (fun a ha => hf a (by simp [ha])) _ _ s1
    refine ⟨b2, ?_, by simpa [List.append_assoc] using s2⟩
    rw [List.foldlM_cons, e1]
    exact e2

theorem flatMap_single {α β : Type} (f : α → β) (L : List α) : L.flatMap (fun o => [f o]) = L.map f := by
  induction L <;> simp_all

theorem mem_range {a b o : Int} (h : o ∈ range a b) : a ≤ o ∧ o < b := by
  obtain ⟨k, hk, rfl⟩ := List.mem_map.1 h
  have := List.mem_range.1 hk
  omega

/-- A point of a line. -/
theorem point_shows {P : Pen} {w h : Int} {bg : Pixel} (ha : P.alpha = 255) (hc : IsColor (P.red, P.green, P.blue)) (hw : P.width ≤ 3)
    (hG : P.grad = {}) {x y : Int} (hx : 0 ≤ x ∧ x ≤ w - 3) (hy : 0 ≤ y ∧ y ≤ h - 3) {steep : Bool} {size : Int} {k : Nat} (hk : (k : Int) ≤ size)
    (S : List ((Int × Int) × Pixel)) (buf : List Pixel) (hS : Shows w h bg S buf) :
    ∃ buf', lineForPoint P w x y steep size k buf = .ok buf' ∧
      Shows w h bg (S ++ (range (-(P.width / 2)) (P.width - P.width / 2)).map (fun o =>
        (if steep then (x + o, y) else (x, y + o),
          ink (P.red, P.green, P.blue) (if P.fancy ∧ 0 < size then grad ((k : ℚ) / size) else 1)))) buf' := by
  set v : ℚ := if P.fancy ∧ 0 < size then grad ((k : ℚ) / size) else 1 with hv
  have hval : (if P.fancy ∧ size > 0 then gradient P.grad ((k : ℚ) / size) else .ok 1) = .ok v ∧ 0 ≤ v ∧ v ≤ 1 := by
    by_cases c : P.fancy ∧ size > 0
    · have s0 : (0 : ℚ) < size := by exact_mod_cast c.2
      have r0 : (0 : ℚ) ≤ k / size := div_nonneg (by positivity) s0.le
      have r1 : (k : ℚ) / size ≤ 1 := by rw [div_le_one s0]; exact_mod_cast hk
      rw [hv, if_pos c, if_pos c, hG, gradient_eq _ r0 r1]
      exact ⟨rfl, grad_range _ r0 r1⟩
    · rw [hv, if_neg c, if_neg c]; exact ⟨rfl, by norm_num⟩
  obtain ⟨e, v0, v1⟩ := hval
  unfold lineForPoint
  simp only
  rw [e]
  have : shr P.width 1 = P.width / 2 := by unfold shr; rw [pow_one]
  rw [this]
  have := plots_shows (w := w) (h := h) (bg := bg)
    (fun buf pos => if steep then plot P w (x + pos) y v buf else plot P w x (y + pos) v buf)
    (fun o => [(if steep then (x + o, y) else (x, y + o), ink (P.red, P.green, P.blue) v)])
    (range (-(P.width / 2)) (P.width - P.width / 2)) (by
      intro o ho S buf hS
      have ho := mem_range ho
      cases steep
      · exact plot_shows hS (by omega) (by omega) (by omega) (by omega) (fun old => paint_eq P v old ha hc v0 v1)
      · exact plot_shows hS (by omega) (by omega) (by omega) (by omega) (fun old => paint_eq P v old ha hc v0 v1)) S buf hS
  rw [flatMap_single] at this
  exact this

/-- A point within the design. -/
def Inside (w h : Int) (p : Int × Int) : Prop := (0 ≤ p.1 ∧ p.1 ≤ w - 3) ∧ (0 ≤ p.2 ∧ p.2 ≤ h - 3)

/-- A line. -/
theorem line_shows {P : Pen} {w h : Int} {bg : Pixel} (ha : P.alpha = 255) (hc : IsColor (P.red, P.green, P.blue)) (hw : P.width ≤ 3)
    (hG : P.grad = {}) {p q : Int × Int} (hp : Inside w h p) (hq : Inside w h q) {fuel : Nat} (hf : max w h ≤ fuel)
    (S : List ((Int × Int) × Pixel)) (buf : List Pixel) (hS : Shows w h bg S buf) :
    ∃ buf', drawLine fuel P w p.1 p.2 q.1 q.2 buf = some (.ok buf') ∧
      Shows w h bg (S ++ stroke P.width P.fancy (P.red, P.green, P.blue) p q) buf' := by
  obtain ⟨⟨p1, p2⟩, ⟨p3, p4⟩⟩ := hp
  obtain ⟨⟨q1, q2⟩, ⟨q3, q4⟩⟩ := hq
  have hl := pixelsOf_isLine p.1 p.2 q.1 q.2
  unfold drawLine
  rw [C62_points p.1 p.2 q.1 q.2 fuel (by omega), Option.map_some]
  simp only
  rw [List.foldlM_map]
  obtain ⟨buf', e, s⟩ := plots_shows (w := w) (h := h) (bg := bg)
    (fun buf (pt : (Int × Int) × Nat) => lineForPoint P w pt.1.1 pt.1.2 (decide (|q.1 - p.1| ≤ |q.2 - p.2|)) (max |q.1 - p.1| |q.2 - p.2|)
      (shadeIndex (decide (|q.1 - p.1| ≤ |q.2 - p.2|)) pt.2) buf)
    (fun pt => (range (-(P.width / 2)) (P.width - P.width / 2)).map (fun o =>
        (if decide (|q.1 - p.1| ≤ |q.2 - p.2|) then (pt.1.1 + o, pt.1.2) else (pt.1.1, pt.1.2 + o),
          ink (P.red, P.green, P.blue) (if P.fancy ∧ 0 < max |q.1 - p.1| |q.2 - p.2| then
            grad ((shadeIndex (decide (|q.1 - p.1| ≤ |q.2 - p.2|)) pt.2 : ℚ) / (max |q.1 - p.1| |q.2 - p.2| : Int)) else 1))))
    (pixelsOf p.1 p.2 q.1 q.2).zipIdx (by
      intro pt hpt S buf hS
      have hin := hl.within pt.1 (List.fst_mem_of_mem_zipIdx hpt)
      have hlt := List.snd_lt_of_mem_zipIdx hpt
      have nx : ((q.1 - p.1).natAbs : Int) = |q.1 - p.1| := Int.natCast_natAbs _
      have ny : ((q.2 - p.2).natAbs : Int) = |q.2 - p.2| := Int.natCast_natAbs _
      rw [hl.size] at hlt
      have : shadeIndex (decide (|q.1 - p.1| ≤ |q.2 - p.2|)) pt.2 ≤ pt.2 := by unfold shadeIndex; split <;> omega
      exact point_shows ha hc hw hG (by omega) (by omega) (by omega) S buf hS) S buf hS
  exact ⟨buf', congrArg some e, s⟩

/-- A block, from the point `last` on. -/
theorem block_shows {P : Pen} {w h : Int} {bg : Pixel} (ha : P.alpha = 255) (hc : IsColor (P.red, P.green, P.blue)) (hw : P.width ≤ 3)
    (hG : P.grad = {}) {fuel : Nat} (hf : max w h ≤ fuel) (l : List Stitch) (hl : ∀ a ∈ l, Inside w h (pyInt a.x, pyInt a.y)) :
    ∀ (c : Stitch), Inside w h (pyInt c.x, pyInt c.y) → ∀ (S : List ((Int × Int) × Pixel)) (buf : List Pixel), Shows w h bg S buf →
    ∃ buf', drawBlock fuel P w (some (pyInt c.x, pyInt c.y)) l buf = some (.ok buf') ∧
      Shows w h bg (S ++ ((c :: l).zip l).flatMap (fun s =>
        stroke P.width P.fancy (P.red, P.green, P.blue) (pyInt s.1.x, pyInt s.1.y) (pyInt s.2.x, pyInt s.2.y))) buf' := by
  induction l with
  | nil => intro c _ S buf hS; exact ⟨buf, rfl, by simpa using hS⟩
  | cons a l ih =>
    intro c hcin S buf hS
    obtain ⟨b1, e1, s1⟩ := line_shows ha hc hw hG hcin (hl a (by simp)) hf S buf hS
    obtain ⟨b2, e2, s2⟩ := ih (fun a ha => hl a (by simp [ha])) a (hl a (by simp)) _ _ s1
    refine ⟨b2, ?_, by simpa [List.append_assoc] using s2⟩
    unfold drawBlock
    rw [e1]
    exact e2

/-- The pairs of a block. -/
def pairs {τ : Type} (b : List Stitch × τ) : List ((Stitch × Stitch) × τ) := (b.1.zip b.1.tail).map (fun s => (s, b.2))

theorem blocks_shows {P : Pen} {w h : Int} {bg : Pixel} (hw : P.width ≤ 3)
    (hG : P.grad = {}) {fuel : Nat} (hf : max w h ≤ fuel) (bs : List (List Stitch × (Int × Int × Int)))
    (hb : ∀ b ∈ bs, IsColor b.2 ∧ ∀ a ∈ b.1, Inside w h (pyInt a.x, pyInt a.y)) :
    ∀ (S : List ((Int × Int) × Pixel)) (buf : List Pixel), Shows w h bg S buf →
    ∃ buf', drawBlocks fuel P w bs buf = some (.ok buf') ∧
      Shows w h bg (S ++ (bs.flatMap pairs).flatMap (fun s =>
        stroke P.width P.fancy s.2 (pyInt s.1.1.x, pyInt s.1.1.y) (pyInt s.1.2.x, pyInt s.1.2.y))) buf' := by
  induction bs with
  | nil => intro S buf hS; exact ⟨buf, rfl, by simpa using hS⟩
  | cons b bs ih =>
    intro S buf hS
    obtain ⟨hcol, hin⟩ := hb b (by simp)
    have key : ∃ b1, drawBlock fuel { P with red := b.2.1, green := b.2.2.1, blue := b.2.2.2, alpha := 255 } w none b.1 buf = some (.ok b1) ∧
        Shows w h bg (S ++ (pairs b).flatMap (fun s =>
          stroke P.width P.fancy s.2 (pyInt s.1.1.x, pyInt s.1.1.y) (pyInt s.1.2.x, pyInt s.1.2.y))) b1 := by
      obtain ⟨blk, c⟩ := b
      cases blk with
      | nil => exact ⟨buf, rfl, by simpa [pairs] using hS⟩
      | cons a l =>
        obtain ⟨b1, e1, s1⟩ := block_shows (P := { P with red := c.1, green := c.2.1, blue := c.2.2, alpha := 255 }) rfl hcol hw hG hf l
          (fun a ha => hin a (by simp [ha])) a (hin a (by simp)) S buf hS
        refine ⟨b1, e1, ?_⟩
        simp only [pairs, List.flatMap_map, List.tail_cons]
        exact s1
    obtain ⟨b1, e1, s1⟩ := key
    obtain ⟨b2, e2, s2⟩ := ih (fun b hb' => hb b (by simp [hb'])) _ _ s1
    refine ⟨b2, ?_, by simpa [List.append_assoc] using s2⟩
    unfold drawBlocks
    rw [e1]
    exact e2

theorem sewn_cons {τ : Type} (threads : List τ) (filler : Nat → τ) (k : Nat) (a b : Stitch) (l : List Stitch) :
    sewn threads filler k (a :: b :: l) = (if a.low = 0 ∧ b.low = 0 then [((a, b), (threads[k]?).getD (filler k))] else []) ++
      sewn threads filler (if a.low = 5 then k + 1 else k) (b :: l) := rfl

/-- A command other than STITCH in front adds nothing. -/
theorem sewn_other {τ : Type} (threads : List τ) (filler : Nat → τ) (k : Nat) (a : Stitch) (l : List Stitch) (h : a.low ≠ 0) :
    sewn threads filler k (a :: l) = sewn threads filler (if a.low = 5 then k + 1 else k) l := by
  cases l with
  | nil => rfl
  | cons b l => rw [sewn_cons, if_neg (fun c => h c.1), List.nil_append]

theorem zip_snoc (cur : List Stitch) (c st : Stitch) : (cur ++ [c] ++ [st]).zip (cur ++ [c] ++ [st]).tail =
    (cur ++ [c]).zip (cur ++ [c]).tail ++ [(c, st)] := by
  induction cur with
  | nil => rfl
  | cons a cur ih =>
    cases cur with
    | nil => rfl
    | cons b cur =>
      simp only [List.cons_append, List.tail_cons, List.zip_cons_cons] at ih ⊢
      rw [ih]

/-- The pairs within stitch blocks are the pairs of STITCH commands that follow each other. -/
theorem blocks_sewn {τ : Type} (threads : List τ) (filler : Nat → τ) (rest : List Stitch) : ∀ (k : Nat),
    (Blocks.stitchLoop threads filler [] (Blocks.threadAt threads filler k) (k + 1) rest).flatMap pairs = sewn threads filler k rest ∧
    ∀ cur c, c.low = 0 → (Blocks.stitchLoop threads filler (cur ++ [c]) (Blocks.threadAt threads filler k) (k + 1) rest).flatMap pairs =
      pairs (cur ++ [c], Blocks.threadAt threads filler k) ++ sewn threads filler k (c :: rest) := by
  induction rest with
  | nil =>
    intro k
    constructor
    · rfl
    · intro cur c hc
      unfold Blocks.stitchLoop
      rw [if_pos (by simp)]
      simp [sewn]
  | cons st rest ih =>
    intro k
    have other : st.low ≠ 0 → (if cmdOf st.cmd = COLOR_CHANGE then Blocks.stitchLoop threads filler [] (Blocks.threadAt threads filler (k + 1)) (k + 1 + 1) rest
         else Blocks.stitchLoop threads filler [] (Blocks.threadAt threads filler k) (k + 1) rest).flatMap pairs =
         sewn threads filler (if st.low = 5 then k + 1 else k) rest := by
      intro h
      by_cases h5 : st.low = 5
      · rw [if_pos h5, if_pos (show cmdOf st.cmd = COLOR_CHANGE from h5)]
        exact (ih (k + 1)).1
      · rw [if_neg h5, if_neg (show ¬ cmdOf st.cmd = COLOR_CHANGE from h5)]
        exact (ih k).1
    constructor
    · unfold Blocks.stitchLoop
      by_cases h : st.low = 0
      · rw [if_pos (show cmdOf st.cmd = STITCH from h)]
        have := (ih k).2 [] st h
        rw [this]
        simp [pairs]
      · rw [if_neg (show ¬ cmdOf st.cmd = STITCH from h), sewn_other _ _ _ _ _ h, ← other h]
        simp
    · intro cur c hc
      unfold Blocks.stitchLoop
      by_cases h : st.low = 0
      · rw [if_pos (show cmdOf st.cmd = STITCH from h), (ih k).2 (cur ++ [c]) st h, sewn_cons, if_pos ⟨hc, h⟩, if_neg (by omega),
          ← List.append_assoc]
        unfold pairs
        rw [zip_snoc, List.map_append]
        rfl
      · have e : sewn threads filler k (c :: st :: rest) = sewn threads filler (if st.low = 5 then k + 1 else k) rest := by
          rw [sewn_cons, if_neg (fun c => h c.2), if_neg (show ¬ c.low = 5 by omega), List.nil_append, sewn_other _ _ _ _ _ h]
        rw [if_neg (show ¬ cmdOf st.cmd = STITCH from h), e, ← other h, if_pos (by simp), List.flatMap_append]
        simp

theorem sewn_map {τ : Type} (threads : List τ) (filler : Nat → τ) (f : Stitch → Stitch) (hf : ∀ a, (f a).low = a.low) (l : List Stitch) :
    ∀ k, sewn threads filler k (l.map f) = (sewn threads filler k l).map (fun s => ((f s.1.1, f s.1.2), s.2)) := by
  induction l with
  | nil => intro k; rfl
  | cons a l ih =>
    intro k
    cases l with
    | nil => rfl
    | cons b l =>
      have := ih (if a.low = 5 then k + 1 else k)
      rw [List.map_cons] at this
      rw [List.map_cons, List.map_cons, sewn_cons, sewn_cons, hf, hf, this, List.map_append]
      by_cases h : a.low = 0 ∧ b.low = 0
      · rw [if_pos h, if_pos h]; rfl
      · rw [if_neg h, if_neg h]; rfl

theorem sewn_mem {τ : Type} (threads : List τ) (filler : Nat → τ) (l : List Stitch) :
    ∀ k, ∀ s ∈ sewn threads filler k l, s.1.1 ∈ l ∧ s.1.2 ∈ l := by
  induction l with
  | nil => intro k s hs; cases hs
  | cons a l ih =>
    intro k s hs
    cases l with
    | nil => cases hs
    | cons b l =>
      rw [sewn_cons, List.mem_append] at hs
      rcases hs with hs | hs
      · by_cases h : a.low = 0 ∧ b.low = 0
        · rw [if_pos h, List.mem_singleton] at hs
          subst hs; simp
        · rw [if_neg h] at hs; cases hs
      · have := ih _ s hs
        exact ⟨List.mem_cons_of_mem _ this.1, List.mem_cons_of_mem _ this.2⟩

theorem stitchLoop_mem {τ : Type} (threads : List τ) (filler : Nat → τ) (rest : List Stitch) : ∀ (cur : List Stitch) (t : τ) (k : Nat),
    (t ∈ threads ∨ ∃ i, t = filler i) →
    ∀ b ∈ Blocks.stitchLoop threads filler cur t k rest, (b.2 ∈ threads ∨ ∃ i, b.2 = filler i) ∧ ∀ a ∈ b.1, a ∈ cur ∨ a ∈ rest := by
  have hat : ∀ k, Blocks.threadAt threads filler k ∈ threads ∨ ∃ i, Blocks.threadAt threads filler k = filler i := by
    intro k
    unfold Blocks.threadAt
    cases h : threads[k]? with
    | none => right; exact ⟨k, rfl⟩
    | some t => left; exact List.mem_of_getElem? h
  have hcl : ∀ (cur : List Stitch) (t : τ) (b : List Stitch × τ), b ∈ (if cur.length > 0 then [(cur, t)] else []) → b = (cur, t) := by
    intro cur t b hb
    by_cases h : cur.length > 0
    · rw [if_pos h] at hb; simpa using hb
    · rw [if_neg h] at hb; cases hb
  induction rest with
  | nil =>
    intro cur t k ht b hb
    rw [Blocks.stitchLoop] at hb
    obtain rfl := hcl _ _ _ hb
    exact ⟨ht, fun a ha => Or.inl ha⟩
  | cons st rest ih =>
    intro cur t k ht b hb
    unfold Blocks.stitchLoop at hb
    by_cases h : cmdOf st.cmd = STITCH
    · rw [if_pos h] at hb
      obtain ⟨h1, h2⟩ := ih _ _ _ ht b hb
      refine ⟨h1, fun a ha => ?_⟩
      rcases h2 a ha with h | h
      · rw [List.mem_append, List.mem_singleton] at h
        rcases h with h | h
        · exact Or.inl h
        · right; rw [h]; simp
      · right; simp [h]
    · rw [if_neg h, List.mem_append] at hb
      rcases hb with hb | hb
      · obtain rfl := hcl _ _ _ hb
        exact ⟨ht, fun a ha => Or.inl ha⟩
      · have : (b.2 ∈ threads ∨ ∃ i, b.2 = filler i) ∧ ∀ a ∈ b.1, a ∈ ([] : List Stitch) ∨ a ∈ rest := by
          by_cases h5 : cmdOf st.cmd = COLOR_CHANGE
          · rw [if_pos h5] at hb; exact ih _ _ _ (hat k) b hb
          · rw [if_neg h5] at hb; exact ih _ _ _ ht b hb
        exact ⟨this.1, fun a ha => Or.inr (by simp [(this.2 a ha).resolve_left (by simp)])⟩

theorem spot_inside {l : List Stitch} {box : Box} (hb : Tight l box) {a : Stitch} (ha : a ∈ l) :
    Inside (⌊box.maxX - box.minX⌋ + 3) (⌊box.maxY - box.minY⌋ + 3) (spot box a) := by
  obtain ⟨h1, h2, h3, h4⟩ := hb.1 a ha
  refine ⟨⟨Int.floor_nonneg.2 (by linarith), ?_⟩, ⟨Int.floor_nonneg.2 (by linarith), ?_⟩⟩
  · have : ⌊a.x - box.minX⌋ ≤ ⌊box.maxX - box.minX⌋ := Int.floor_mono (by linarith)
    simp only [spot]; omega
  · have : ⌊a.y - box.minY⌋ ≤ ⌊box.maxY - box.minY⌋ := Int.floor_mono (by linarith)
    simp only [spot]; omega

/-- The background. -/
def backdrop : Option (Int × Int × Int) → Pixel
  | none => ⟨0, 0, 0, 0⟩
  | some c => ⟨c.1, c.2.1, c.2.2, 255⟩

/-- **C73.** The picture of a design with bounds `box`, for line widths up to 3 (the standard width), is as large as the design
and three pixels; pixel `(x, y)` shows the last thing drawn at `(x - 1, y - 1)`, or the background. The fuel is large enough
when it is at least the size of the picture. -/
theorem C73_picture {l : List Stitch} {box : Box} (hbox : bounds l = some box) (fancy : Bool) (background : Option (Int × Int × Int))
    (linewidth : Option Int) (hw : linewidth.getD 3 ≤ 3) (threads : List (Int × Int × Int)) (filler : Nat → Int × Int × Int)
    (ht : ∀ c ∈ threads, IsColor c) (hf : ∀ i, IsColor (filler i)) :
    ∃ im : Image,
      (∀ fuel : Nat, max im.width im.height ≤ fuel → draw fuel box fancy background linewidth threads filler l = some (.ok im)) ∧
      im.width = ⌊box.maxX - box.minX⌋ + 3 ∧ im.height = ⌊box.maxY - box.minY⌋ + 3 ∧
      im.pixels.length = (im.width * im.height).toNat ∧
      ∀ x y, 0 ≤ x → x < im.width → 0 ≤ y → y < im.height → im.pixels[(im.width * y + x).toNat]? =
        some ((top (strokes box (linewidth.getD 3) fancy threads filler l) (x - 1, y - 1)).getD (backdrop background)) := by
  have hne : l ≠ [] := by rintro rfl; simp [bounds] at hbox
  obtain ⟨b', hb', hT⟩ := C43_tight l hne
  obtain rfl : box = b' := by rw [hbox] at hb'; exact Option.some.inj hb'
  obtain ⟨a0, ha0⟩ := List.exists_mem_of_ne_nil l hne
  have hin0 := hT.1 a0 ha0
  have ew : pyInt (box.maxX - box.minX) = ⌊box.maxX - box.minX⌋ := pyInt_floor _ (by linarith)
  have eh : pyInt (box.maxY - box.minY) = ⌊box.maxY - box.minY⌋ := pyInt_floor _ (by linarith)
  have w0 : 0 ≤ ⌊box.maxX - box.minX⌋ := Int.floor_nonneg.2 (by linarith)
  have h0 : 0 ≤ ⌊box.maxY - box.minY⌋ := Int.floor_nonneg.2 (by linarith)
  set w := ⌊box.maxX - box.minX⌋ + 3 with hwdef
  set h := ⌊box.maxY - box.minY⌋ + 3 with hhdef
  have hspot : ∀ a ∈ l, (pyInt (a.x + -box.minX), pyInt (a.y + -box.minY)) = spot box a := by
    intro a ha
    obtain ⟨h1, h2, h3, h4⟩ := hT.1 a ha
    rw [pyInt_floor _ (by linarith), pyInt_floor _ (by linarith), ← sub_eq_add_neg, ← sub_eq_add_neg]
    rfl
  have start : Shows w h (backdrop background) [] (List.replicate (w * h).toNat (backdrop background)) := by
    refine ⟨List.length_replicate, ?_⟩
    intro x y a1 a2 a3 a4
    have : (w * y + x).toNat < (w * h).toNat := by
      have h1 : w * y ≤ w * (h - 1) := mul_le_mul_of_nonneg_left (by omega) (by omega)
      have h2 : w * (h - 1) = w * h - w := by ring
      have h3 : 0 ≤ w * y := mul_nonneg (by omega) a3
      omega
    rw [List.getElem?_replicate, if_pos this]
    rfl
  have blocks := fun (fuel : Nat) (hfuel : max w h ≤ fuel) =>
    blocks_shows (P := ⟨0, 0, 0, 0, linewidth.getD 3, fancy, {}⟩) (w := w) (h := h) (bg := backdrop background) hw rfl hfuel
      (Blocks.stitchBlocks threads filler (translate (-box.minX) (-box.minY) l)) (by
        intro b hb
        have hat : Blocks.threadAt threads filler 0 ∈ threads ∨ ∃ i, Blocks.threadAt threads filler 0 = filler i := by
          unfold Blocks.threadAt
          cases h : threads[0]? with
          | none => right; exact ⟨0, rfl⟩
          | some t => left; exact List.mem_of_getElem? h
        obtain ⟨m1, m2⟩ := stitchLoop_mem threads filler _ [] _ 1 hat b hb
        refine ⟨?_, ?_⟩
        · rcases m1 with m | ⟨i, m⟩
          · exact ht _ m
          · rw [m]; exact hf i
        · intro a ha
          have := (m2 a ha).resolve_left (by simp)
          unfold translate at this
          obtain ⟨c, hc, rfl⟩ := List.mem_map.1 this
          simp only
          rw [hspot c hc]
          exact spot_inside hT hc)
      [] _ start
  have hS : ∀ S, (((Blocks.stitchBlocks threads filler (translate (-box.minX) (-box.minY) l)).flatMap pairs).flatMap (fun s =>
        stroke (linewidth.getD 3) fancy s.2 (pyInt s.1.1.x, pyInt s.1.1.y) (pyInt s.1.2.x, pyInt s.1.2.y))) = S →
      strokes box (linewidth.getD 3) fancy threads filler l = S := by
    rintro S rfl
    have e := (blocks_sewn threads filler (translate (-box.minX) (-box.minY) l) 0).1
    unfold Blocks.stitchBlocks
    rw [e]
    unfold translate
    rw [sewn_map threads filler _ (by intro a; rfl) l 0, List.flatMap_map]
    unfold strokes
    rw [List.flatMap_def, List.flatMap_def]
    congr 1
    apply List.map_congr_left
    intro s hs
    have hm := sewn_mem threads filler l 0 s hs
    simp only
    rw [hspot _ hm.1, hspot _ hm.2]
  have hS := hS _ rfl
  -- the picture does not depend on the fuel
  obtain ⟨buf, e, s⟩ := blocks (max w h).toNat (by omega)
  refine ⟨⟨w, h, buf⟩, ?_, rfl, rfl, s.1, ?_⟩
  · intro fuel hfuel
    obtain ⟨buf', e', s'⟩ := blocks fuel hfuel
    have : buf' = buf := by
      apply List.ext_getElem?
      intro i
      by_cases hi : i < (w * h).toNat
      · have hw' : 0 < w := by omega
        have hdiv : (i : Int) / w < h := by
          rw [Int.ediv_lt_iff_lt_mul hw']
          have : w * h = h * w := mul_comm _ _
          omega
        have hi' : (w * ((i : Int) / w) + (i : Int) % w).toNat = i := by rw [Int.mul_ediv_add_emod]; rfl
        have q1 := s.2 ((i : Int) % w) ((i : Int) / w) (Int.emod_nonneg _ hw'.ne') (Int.emod_lt_of_pos _ hw')
          (Int.ediv_nonneg (by omega) hw'.le) hdiv
        have q2 := s'.2 ((i : Int) % w) ((i : Int) / w) (Int.emod_nonneg _ hw'.ne') (Int.emod_lt_of_pos _ hw')
          (Int.ediv_nonneg (by omega) hw'.le) hdiv
        rw [hi'] at q1 q2
        rw [q1, q2]
      · rw [List.getElem?_eq_none (by rw [s'.1]; omega), List.getElem?_eq_none (by rw [s.1]; omega)]
    subst this
    unfold draw
    simp only [ew, eh]
    cases background <;>
      exact congrArg (Option.map (fun e => Except.map (fun buf => (⟨w, h, buf⟩ : Image)) e)) e'
  · intro x y a1 a2 a3 a4
    rw [s.2 x y a1 a2 a3 a4, hS]
    rfl

/-- A place is covered by the lines of a design. -/
def Covered (box : Box) (width : Int) (threads : List (Int × Int × Int)) (filler : Nat → Int × Int × Int) (l : List Stitch) (p : Int × Int) : Prop :=
  ∃ s ∈ sewn threads filler 0 l, ∃ pt ∈ pixelsOf (spot box s.1.1).1 (spot box s.1.1).2 (spot box s.1.2).1 (spot box s.1.2).2, ∃ o,
    -(width / 2) ≤ o ∧ o < width - width / 2 ∧
    p = if |(spot box s.1.2).1 - (spot box s.1.1).1| ≤ |(spot box s.1.2).2 - (spot box s.1.1).2| then (pt.1 + o, pt.2) else (pt.1, pt.2 + o)

theorem mem_range_iff {a b o : Int} : o ∈ range a b ↔ a ≤ o ∧ o < b := by
  refine ⟨mem_range, fun h => List.mem_map.2 ⟨(o - a).toNat, List.mem_range.2 (by omega), by omega⟩⟩

theorem covered_iff (box : Box) (width : Int) (fancy : Bool) (threads : List (Int × Int × Int)) (filler : Nat → Int × Int × Int)
    (l : List Stitch) (p : Int × Int) :
    (∃ px, top (strokes box width fancy threads filler l) p = some px) ↔ Covered box width threads filler l p := by
  have : (∃ px, top (strokes box width fancy threads filler l) p = some px) ↔ ∃ s ∈ strokes box width fancy threads filler l, s.1 = p := by
    unfold top
    constructor
    · rintro ⟨px, h⟩
      obtain ⟨s, hs, rfl⟩ := Option.map_eq_some_iff.1 h
      have := List.mem_filter.1 (List.mem_of_getLast? hs)
      exact ⟨s, this.1, by simpa using this.2⟩
    · rintro ⟨s, hs, hp⟩
      have hm : s ∈ (strokes box width fancy threads filler l).filter (fun s => s.1 = p) := List.mem_filter.2 ⟨hs, by simpa using hp⟩
      exact ⟨_, by rw [List.getLast?_eq_some_getLast (List.ne_nil_of_mem hm)]; rfl⟩
  rw [this]
  unfold strokes stroke Covered
  constructor
  · rintro ⟨s, hs, rfl⟩
    obtain ⟨g, hg, hs⟩ := List.mem_flatMap.1 hs
    obtain ⟨pt, hpt, hs⟩ := List.mem_flatMap.1 hs
    obtain ⟨o, ho, rfl⟩ := List.mem_map.1 hs
    have ho := mem_range ho
    refine ⟨g, hg, pt.1, List.fst_mem_of_mem_zipIdx hpt, o, ho.1, ho.2, ?_⟩
    simp only [decide_eq_true_eq]
  · rintro ⟨g, hg, pt, hpt, o, ho1, ho2, rfl⟩
    obtain ⟨k, hk⟩ := List.getElem?_of_mem hpt
    refine ⟨_, List.mem_flatMap.2 ⟨g, hg, List.mem_flatMap.2 ⟨(pt, k), List.mem_zipIdx_iff_getElem?.2 hk,
      List.mem_map.2 ⟨o, mem_range_iff.2 ⟨ho1, ho2⟩, rfl⟩⟩⟩, ?_⟩
    simp only [decide_eq_true_eq]

theorem ink_opacity (c : Int × Int × Int) (v : ℚ) : (ink c v).a = 251 := by
  unfold ink; split <;> rfl

theorem top_opacity (box : Box) (width : Int) (fancy : Bool) (threads : List (Int × Int × Int)) (filler : Nat → Int × Int × Int)
    (l : List Stitch) (p : Int × Int) (px : Pixel) (h : top (strokes box width fancy threads filler l) p = some px) : px.a = 251 := by
  unfold top at h
  obtain ⟨s, hs, rfl⟩ := Option.map_eq_some_iff.1 h
  have hs := (List.mem_filter.1 (List.mem_of_getLast? hs)).1
  obtain ⟨g, hg, hs⟩ := List.mem_flatMap.1 hs
  obtain ⟨pt, hpt, hs⟩ := List.mem_flatMap.1 hs
  obtain ⟨o, ho, rfl⟩ := List.mem_map.1 hs
  exact ink_opacity _ _

/-- **C73.** A pixel differs from the background exactly where a line covers it; it is then nearly opaque. -/
theorem C73_covered {l : List Stitch} {box : Box} (hbox : bounds l = some box) (fancy : Bool) (background : Option (Int × Int × Int))
    (linewidth : Option Int) (hw : linewidth.getD 3 ≤ 3) (threads : List (Int × Int × Int)) (filler : Nat → Int × Int × Int)
    (ht : ∀ c ∈ threads, IsColor c) (hf : ∀ i, IsColor (filler i)) {fuel : Nat} {im : Image}
    (hfuel : max (⌊box.maxX - box.minX⌋ + 3) (⌊box.maxY - box.minY⌋ + 3) ≤ fuel)
    (h : draw fuel box fancy background linewidth threads filler l = some (.ok im)) {x y : Int} (hx : 0 ≤ x) (hx' : x < im.width)
    (hy : 0 ≤ y) (hy' : y < im.height) :
    ∃ px, im.pixels[(im.width * y + x).toNat]? = some px ∧
      (px ≠ backdrop background ↔ Covered box (linewidth.getD 3) threads filler l (x - 1, y - 1)) ∧
      (px.a = 251 ↔ Covered box (linewidth.getD 3) threads filler l (x - 1, y - 1)) := by
  obtain ⟨im', h1, h2, h3, h4, h5⟩ := C73_picture hbox fancy background linewidth hw threads filler ht hf
  have := h1 fuel (by rw [h2, h3]; exact hfuel)
  rw [h] at this
  obtain rfl : im = im' := by simpa using this
  refine ⟨_, h5 x y hx hx' hy hy', ?_⟩
  have hc := covered_iff box (linewidth.getD 3) fancy threads filler l (x - 1, y - 1)
  have hbg : (backdrop background).a ≠ 251 := by cases background <;> simp [backdrop]
  rw [← hc]
  cases e : top (strokes box (linewidth.getD 3) fancy threads filler l) (x - 1, y - 1) with
  | none => simp [hbg]
  | some px =>
    have ha := top_opacity box (linewidth.getD 3) fancy threads filler l _ px e
    refine ⟨⟨fun _ => ⟨px, rfl⟩, fun _ c => ?_⟩, ⟨fun _ => ⟨px, rfl⟩, fun _ => ha⟩⟩
    apply hbg
    rw [← c]; exact ha

/-- **C73.** Every STITCH that is sewn from or to is seen, for line widths of at least 1. -/
theorem C73_stitches {l : List Stitch} (box : Box) (width : Int) (hw : 1 ≤ width) (threads : List (Int × Int × Int))
    (filler : Nat → Int × Int × Int) {s : (Stitch × Stitch) × (Int × Int × Int)} (hs : s ∈ sewn threads filler 0 l) :
    Covered box width threads filler l (spot box s.1.1) ∧ Covered box width threads filler l (spot box s.1.2) := by
  have hl := pixelsOf_isLine (spot box s.1.1).1 (spot box s.1.1).2 (spot box s.1.2).1 (spot box s.1.2).2
  refine ⟨⟨s, hs, _, List.mem_of_head? hl.start, 0, by omega, by omega, ?_⟩, ⟨s, hs, _, List.mem_of_getLast? hl.finish, 0, by omega, by omega, ?_⟩⟩
  · simp
  · simp

/-- A picture with the standard settings: a red line, then a black one; black is drawn as grey. -/
example :
    let l : List Stitch := [⟨10, 10, STITCH⟩, ⟨12, 10, STITCH⟩, ⟨12, 10, COLOR_CHANGE⟩, ⟨12, 10, STITCH⟩, ⟨12, 11, STITCH⟩, ⟨0, 0, END⟩]
    (draw 16 ⟨0, 0, 12, 11⟩ false none (some 1) [(255, 0, 0), (0, 0, 0)] (fun _ => (0, 0, 0)) l).map
      (fun e => e.map (fun im => (im.width, im.height, im.pixels.drop (15 * 11 + 10) |>.take 5, im.pixels.drop (15 * 12 + 10) |>.take 5))) =
    some (.ok (15, 14, [⟨0, 0, 0, 0⟩, ⟨255, 0, 0, 251⟩, ⟨255, 0, 0, 251⟩, ⟨35, 35, 35, 251⟩, ⟨0, 0, 0, 0⟩],
      [⟨0, 0, 0, 0⟩, ⟨0, 0, 0, 0⟩, ⟨0, 0, 0, 0⟩, ⟨35, 35, 35, 251⟩, ⟨0, 0, 0, 0⟩])) := by
  decide +kernel

/-- Its hypotheses. -/
example : bounds [⟨10, 10, STITCH⟩, ⟨12, 10, STITCH⟩, ⟨12, 10, COLOR_CHANGE⟩, ⟨12, 10, STITCH⟩, ⟨12, 11, STITCH⟩, ⟨0, 0, END⟩] =
    some ⟨0, 0, 12, 11⟩ ∧ (some (1 : Int)).getD 3 ≤ 3 ∧ ∀ c ∈ [((255 : Int), (0 : Int), (0 : Int)), (0, 0, 0)], IsColor c := by
  refine ⟨by decide +kernel, by decide, ?_⟩
  intro c hc
  simp only [List.mem_cons, List.not_mem_nil, or_false] at hc
  rcases hc with rfl | rfl <;> exact ⟨by decide, by decide, by decide⟩

/-- With lines wider than the margin the picture is wrong: a vertical line of width 6 at the left edge also colours pixels at the
right edge, of the row above. -/
theorem C73_wide_line :
    let l : List Stitch := [⟨0, 0, STITCH⟩, ⟨0, 2, STITCH⟩, ⟨9, 2, END⟩]
    (draw 16 ⟨0, 0, 9, 2⟩ false none (some 6) [(255, 0, 0)] (fun _ => (0, 0, 0)) l).map
      (fun e => e.map (fun im => (im.width, im.pixels.drop 12 |>.take 12))) =
    some (.ok (12, [⟨255, 0, 0, 251⟩, ⟨255, 0, 0, 251⟩, ⟨255, 0, 0, 251⟩, ⟨255, 0, 0, 251⟩, ⟨0, 0, 0, 0⟩, ⟨0, 0, 0, 0⟩, ⟨0, 0, 0, 0⟩,
      ⟨0, 0, 0, 0⟩, ⟨0, 0, 0, 0⟩, ⟨0, 0, 0, 0⟩, ⟨255, 0, 0, 251⟩, ⟨255, 0, 0, 251⟩])) := by
  decide +kernel

/-! ### The file -/

theorem flat_length (px : List Pixel) : (px.flatMap Pixel.bytes).length = 4 * px.length := by
  induction px with
  | nil => rfl
  | cons a px ih => rw [List.flatMap_cons, List.length_append, ih, List.length_cons]; simp [Pixel.bytes]; omega

theorem flat_get (px : List Pixel) : ∀ x, ((px.flatMap Pixel.bytes).drop (4 * x)).take 4 = ((px.drop x).take 1).flatMap Pixel.bytes := by
  induction px with
  | nil => intro x; simp
  | cons a px ih =>
    intro x
    cases x with
    | zero => rfl
    | succ x =>
      have := ih x
      rw [List.flatMap_cons, List.drop_succ_cons, ← this, List.drop_append, List.drop_eq_nil_of_le (by simp [Pixel.bytes]),
        List.nil_append]
      rw [show 4 * (x + 1) - a.bytes.length = 4 * x by simp [Pixel.bytes]; omega]

theorem raw_row (w : Nat) (h : Nat) : ∀ (px : List Pixel), px.length = w * h → ∀ y, y < h → ∃ rest,
    (raw w h px).drop ((4 * w + 1) * y) = 0 :: ((px.drop (w * y)).take w).flatMap Pixel.bytes ++ rest := by
  induction h with
  | zero => intro px _ y hy; omega
  | succ h ih =>
    intro px hl y hy
    have hlw : (px.take w).length = w := by rw [List.length_take, hl, Nat.mul_succ]; omega
    cases y with
    | zero => exact ⟨_, by rw [raw]; rfl⟩
    | succ y =>
      obtain ⟨rest, e⟩ := ih (px.drop w) (by rw [List.length_drop, hl, Nat.mul_succ]; omega) y (by omega)
      refine ⟨rest, ?_⟩
      rw [List.drop_drop, show w + w * y = w * (y + 1) by ring] at e
      rw [← e, raw, show (4 * w + 1) * (y + 1) = (4 * w + 1) + (4 * w + 1) * y by ring, ← List.drop_drop,
        List.drop_left' (by rw [List.length_cons, flat_length, hlw])]

/-- **C73.** The data stored in the file has, for every row, a zero (no filter) and the four bytes of every pixel, red, green, blue
and opacity, from left to right. -/
theorem C73_rows (w h : Nat) (px : List Pixel) (hl : px.length = w * h) {x y : Nat} (hx : x < w) (hy : y < h) :
    (raw w h px)[(4 * w + 1) * y]? = some 0 ∧
    ∃ p, px[w * y + x]? = some p ∧ ((raw w h px).drop ((4 * w + 1) * y + 1 + 4 * x)).take 4 = [p.r, p.g, p.b, p.a] := by
  obtain ⟨rest, e⟩ := raw_row w h px hl y hy
  have hi : w * y + x < px.length := by
    rw [hl]
    have : w * (y + 1) ≤ w * h := Nat.mul_le_mul_left _ hy
    rw [Nat.mul_succ] at this
    omega
  have hrow : ((px.drop (w * y)).take w).length = w := by
    rw [List.length_take, List.length_drop, hl]
    have : w * (y + 1) ≤ w * h := Nat.mul_le_mul_left _ hy
    rw [Nat.mul_succ] at this
    omega
  constructor
  · have := List.getElem?_drop (xs := raw w h px) (i := (4 * w + 1) * y) (j := 0)
    rw [e] at this
    exact this.symm
  · refine ⟨px[w * y + x], List.getElem?_eq_getElem hi, ?_⟩
    rw [Nat.add_assoc, Nat.add_comm 1, ← List.drop_drop, e, List.cons_append, List.drop_succ_cons, List.drop_append_of_le_length
      (by rw [flat_length, hrow]; omega), List.take_append_of_le_length (by rw [List.length_drop, flat_length, hrow]; omega), flat_get]
    have : (((px.drop (w * y)).take w).drop x).take 1 = [px[w * y + x]] := by
      rw [List.drop_take, List.drop_drop, List.take_take, min_eq_left (by omega), List.drop_eq_getElem_cons hi]
      rfl
    rw [this]; rfl

/-- The number stored in four bytes, most significant first. -/
def value32 (b : Bytes) : Int := b.foldl (fun acc v => acc * 256 + v) 0

/-- **C73.** The file begins with the PNG signature and the header chunk, of 13 bytes, with the width and height, 8 bits for each
of red, green, blue and opacity. -/
theorem C73_header (crc : Bytes → Int) (deflate : Bytes → Bytes) (im : Image) (hw : 0 ≤ im.width ∧ im.width < 2 ^ 32)
    (hh : 0 ≤ im.height ∧ im.height < 2 ^ 32) :
    (file crc deflate im).take 16 = [137, 80, 78, 71, 13, 10, 26, 10, 0, 0, 0, 13, 73, 72, 68, 82] ∧
    value32 (((file crc deflate im).drop 16).take 4) = im.width ∧ value32 (((file crc deflate im).drop 20).take 4) = im.height ∧
    ((file crc deflate im).drop 24).take 5 = [8, 6, 0, 0, 0] := by
  refine ⟨?_, ?_, ?_, rfl⟩
  · have : pack32 ((pack32 im.width ++ pack32 im.height ++ [8, 6, 0, 0, 0]).length : Int) = [0, 0, 0, 13] := by
      have h13 : (pack32 im.width ++ pack32 im.height ++ [8, 6, 0, 0, 0]).length = 13 := rfl
      rw [h13]
      decide +kernel
    unfold file chunk
    rw [this]
    rfl
  · show value32 (pack32 im.width) = im.width
    simp only [value32, pack32, List.foldl_cons, List.foldl_nil, lo8, shr]
    omega
  · show value32 (pack32 im.height) = im.height
    simp only [value32, pack32, List.foldl_cons, List.foldl_nil, lo8, shr]
    omega

end Png
end Emb
