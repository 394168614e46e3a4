import Verif.Float

/-!
# C97: floating point does not make steps too long or let positions drift
-/

namespace Emb

namespace Fl

/-- Python's running sum `q += step`, `k` times. -/
def run (s : ℚ) : Nat → ℚ → ℚ
  | 0, q => q
  | k + 1, q => run s k (double (q + s))

theorem run_succ (s q : ℚ) (k : Nat) : run s (k + 1) q = double (run s k q + s) := by
  induction k generalizing q with
  | zero => rfl
  | succ k ih => rw [run, ih, run]

/-- One displacement of a writer: the new position is the whole number nearest to the point, but for a hair. -/
theorem write_near (xx : Int) (q : ℚ) (h : |q - xx| ≤ 2 ^ 18) :
    |((xx + pyRound (double (q - xx)) : Int) : ℚ) - q| ≤ 1 / 2 + 1 / 2 ^ 35 := by
  have h1 := pyRound_abs (double (q - xx))
  have h2 := double_err (q - xx)
  have h3 : |double (q - xx) - (q - xx)| ≤ 1 / 2 ^ 35 := by
    refine h2.trans ?_
    calc |q - xx| * (1 / 2 ^ 53) ≤ 2 ^ 18 * (1 / 2 ^ 53) := by
          apply mul_le_mul_of_nonneg_right h (by norm_num)
      _ = 1 / 2 ^ 35 := by norm_num
  push_cast
  rw [abs_le] at *
  constructor <;> linarith

theorem write_int (xx x : Int) (h : |x - xx| ≤ 2 ^ 53) : pyRound (double ((x : ℚ) - xx)) = x - xx := by
  have : ((x : ℚ) - xx) = ((x - xx : Int) : ℚ) := by push_cast; ring
  rw [this, double_int _ h, pyRound_intCast]

section Axis

variable {x0 x1 : Int} {n : Nat} {L : Int}

/-- The running sum stays near the exact points of division. -/
theorem run_near (h0 : |x0| ≤ 2 ^ 16) (h1 : |x1| ≤ 2 ^ 16) (hn : 1 ≤ n) (hn' : n ≤ 2 ^ 17) (k : Nat) (hk : k ≤ n) :
    |run (double (((x1 - x0 : Int) : ℚ) / n)) k x0 - (x0 + k * (((x1 - x0 : Int) : ℚ) / n))| ≤ k * (1 / 2 ^ 35) := by
  set t : ℚ := ((x1 - x0 : Int) : ℚ) / n with ht
  have hnq : (1 : ℚ) ≤ n := by exact_mod_cast hn
  have h0q : |(x0 : ℚ)| ≤ 2 ^ 16 := by exact_mod_cast h0
  have h1q : |(x1 : ℚ)| ≤ 2 ^ 16 := by exact_mod_cast h1
  have hd : |((x1 - x0 : Int) : ℚ)| ≤ 2 ^ 17 := by
    push_cast; rw [abs_le] at *; constructor <;> linarith
  have htn : (n : ℚ) * t = ((x1 - x0 : Int) : ℚ) := by rw [ht]; field_simp
  have htabs : |t| ≤ 2 ^ 17 := by
    rw [ht, abs_div, abs_of_pos (by linarith : (0 : ℚ) < n)]
    calc |((x1 - x0 : Int) : ℚ)| / n ≤ |((x1 - x0 : Int) : ℚ)| / 1 := by
          apply div_le_div_of_nonneg_left (abs_nonneg _) (by norm_num) hnq
      _ ≤ 2 ^ 17 := by simpa using hd
  have hs : |double t - t| ≤ 1 / 2 ^ 36 := by
    refine (double_err t).trans ?_
    calc |t| * (1 / 2 ^ 53) ≤ 2 ^ 17 * (1 / 2 ^ 53) := by
          apply mul_le_mul_of_nonneg_right htabs (by norm_num)
      _ = 1 / 2 ^ 36 := by norm_num
  -- every exact point lies between the ends
  have hbet : ∀ j : Nat, j ≤ n → |(x0 : ℚ) + j * t| ≤ 2 ^ 16 := by
    intro j hj
    have hjq : (j : ℚ) ≤ n := by exact_mod_cast hj
    have e : (x0 : ℚ) + j * t = (1 - j / n) * x0 + (j / n) * x1 := by
      rw [ht]; push_cast; field_simp; ring
    have l0 : (0 : ℚ) ≤ j / n := by positivity
    have l1 : (j : ℚ) / n ≤ 1 := by rw [div_le_one (by linarith)]; exact hjq
    rw [e]
    calc _ ≤ |(1 - (j : ℚ) / n) * x0| + |(j / n : ℚ) * x1| := abs_add_le _ _
      _ = (1 - (j : ℚ) / n) * |(x0 : ℚ)| + (j / n : ℚ) * |(x1 : ℚ)| := by
          rw [abs_mul, abs_mul, abs_of_nonneg l0, abs_of_nonneg (by linarith : (0 : ℚ) ≤ 1 - j / n)]
      _ ≤ (1 - (j : ℚ) / n) * 2 ^ 16 + (j / n : ℚ) * 2 ^ 16 := by
          apply add_le_add
          · exact mul_le_mul_of_nonneg_left h0q (by linarith)
          · exact mul_le_mul_of_nonneg_left h1q l0
      _ = 2 ^ 16 := by ring
  induction k with
  | zero => simp [run]
  | succ k ih =>
    have ih := ih (by omega)
    rw [run_succ]
    set q := run (double t) k (x0 : ℚ) with hq
    have hb := hbet (k + 1) hk
    have hkq : (k : ℚ) + 1 ≤ 2 ^ 17 := by exact_mod_cast hk.trans hn'
    have hpre : |q + double t - (x0 + ((k + 1 : Nat) : ℚ) * t)| ≤ k * (1 / 2 ^ 35) + 1 / 2 ^ 36 := by
      push_cast
      rw [abs_le] at *
      constructor <;> linarith
    have hsize : |q + double t| ≤ 2 ^ 17 := by
      have : (k : ℚ) * (1 / 2 ^ 35) ≤ 1 := by
        have : (k : ℚ) * (1 / 2 ^ 35) ≤ 2 ^ 17 * (1 / 2 ^ 35) :=
          mul_le_mul_of_nonneg_right (by linarith) (by norm_num)
        refine this.trans (by norm_num)
      rw [abs_le] at *
      constructor <;> push_cast at * <;> linarith
    have herr : |double (q + double t) - (q + double t)| ≤ 1 / 2 ^ 36 := by
      refine (double_err _).trans ?_
      calc _ ≤ 2 ^ 17 * (1 / 2 ^ 53 : ℚ) := mul_le_mul_of_nonneg_right hsize (by norm_num)
        _ = 1 / 2 ^ 36 := by norm_num
    push_cast at *
    rw [abs_le] at *
    constructor <;> linarith

/-- Where the gap is a whole multiple of the limit the running sum is exact. -/
theorem run_exact (h0 : |x0| ≤ 2 ^ 16) (h1 : |x1| ≤ 2 ^ 16) (hn : 1 ≤ n) (M : Int) (hM : x1 - x0 = n * M)
    (k : Nat) (hk : k ≤ n) :
    run (double (((x1 - x0 : Int) : ℚ) / n)) k x0 = ((x0 + k * M : Int) : ℚ) := by
  have hnq : (n : ℚ) ≠ 0 := by positivity
  have hdiv : ((x1 - x0 : Int) : ℚ) / n = (M : ℚ) := by
    rw [hM]; push_cast; field_simp
  have hbet : ∀ j : Nat, j ≤ n → |x0 + j * M| ≤ 2 ^ 16 := by
    intro j hj
    have hj' : (j : Int) ≤ n := by exact_mod_cast hj
    have hj0 : (0 : Int) ≤ j := by omega
    rw [abs_le] at *
    rcases le_total 0 M with hm | hm
    · have a1 : 0 ≤ (j : Int) * M := mul_nonneg hj0 hm
      have a2 : (j : Int) * M ≤ n * M := mul_le_mul_of_nonneg_right hj' hm
      constructor <;> linarith
    · have a1 : (j : Int) * M ≤ 0 := mul_nonpos_of_nonneg_of_nonpos hj0 hm
      have a2 : (n : Int) * M ≤ j * M := mul_le_mul_of_nonpos_right hj' hm
      constructor <;> linarith
  have hMb : |M| ≤ 2 ^ 53 := by
    have h1' := hbet 1 hn
    have h0' := h0
    rw [abs_le] at *
    push_cast at *
    constructor <;> linarith
  rw [hdiv, double_int _ hMb]
  induction k with
  | zero => simp [run]
  | succ k ih =>
    rw [run_succ, ih (by omega)]
    have e : (((x0 + k * M : Int) : ℚ) + M) = ((x0 + (k + 1 : Nat) * M : Int) : ℚ) := by push_cast; ring
    rw [e, double_int _ ((hbet (k + 1) hk).trans (by norm_num))]

/-- The points of one axis that are written: the running sum, and at last the target. -/
def pt (x0 x1 : Int) (n k : Nat) : ℚ :=
  if k = n then x1 else run (double (((x1 - x0 : Int) : ℚ) / n)) k x0

theorem pt_near (h0 : |x0| ≤ 2 ^ 16) (h1 : |x1| ≤ 2 ^ 16) (hn : 1 ≤ n) (hn' : n ≤ 2 ^ 16) (k : Nat) (hk : k ≤ n) :
    |pt x0 x1 n k - (x0 + k * (((x1 - x0 : Int) : ℚ) / n))| ≤ 1 / 2 ^ 19 := by
  unfold pt
  split_ifs with h
  · subst h
    have hnq : (k : ℚ) ≠ 0 := by positivity
    rw [mul_div_cancel₀ _ hnq]
    push_cast
    norm_num
  · refine (run_near h0 h1 hn (hn'.trans (by norm_num)) k hk).trans ?_
    have hkq : (k : ℚ) ≤ 2 ^ 16 := by exact_mod_cast hk.trans hn'
    calc (k : ℚ) * (1 / 2 ^ 35) ≤ 2 ^ 16 * (1 / 2 ^ 35) := mul_le_mul_of_nonneg_right hkq (by norm_num)
      _ = 1 / 2 ^ 19 := by norm_num

theorem pt_exact (h0 : |x0| ≤ 2 ^ 16) (h1 : |x1| ≤ 2 ^ 16) (hn : 1 ≤ n) (M : Int) (hM : x1 - x0 = n * M)
    (k : Nat) (hk : k ≤ n) : pt x0 x1 n k = ((x0 + k * M : Int) : ℚ) := by
  unfold pt
  split_ifs with h
  · subst h
    have : x1 = x0 + k * M := by linarith
    rw [this]
  · exact run_exact h0 h1 hn M hM k hk

/-- What is known of the position `w` in the file after `k` points. -/
def At (x0 x1 : Int) (n k : Nat) (w : Int) : Prop :=
  |(w : ℚ) - pt x0 x1 n k| ≤ 1 / 2 + 1 / 2 ^ 35 ∧ (∀ M : Int, x1 - x0 = n * M → w = x0 + k * M) ∧ (k = n → w = x1)

theorem at_zero (hn : 1 ≤ n) : At x0 x1 n 0 x0 := by
  refine ⟨?_, fun M _ => by simp, fun h => by omega⟩
  unfold pt
  rw [if_neg (by omega)]
  simp [run]
  norm_num

theorem at_step (h0 : |x0| ≤ 2 ^ 16) (h1 : |x1| ≤ 2 ^ 16) (hn : 1 ≤ n) (hn' : n ≤ 2 ^ 16)
    (hd : |x1 - x0| ≤ n * L) (k : Nat) (hk : k + 1 ≤ n) (w : Int) (hw : At x0 x1 n k w) :
    At x0 x1 n (k + 1) (w + pyRound (double (pt x0 x1 n (k + 1) - w))) ∧
      |pyRound (double (pt x0 x1 n (k + 1) - w))| ≤ L := by
  obtain ⟨w1, w2, _⟩ := hw
  have p0 := pt_near h0 h1 hn hn' k (by omega)
  have p1 := pt_near h0 h1 hn hn' (k + 1) hk
  set t : ℚ := ((x1 - x0 : Int) : ℚ) / n with ht
  have hnq : (1 : ℚ) ≤ n := by exact_mod_cast hn
  have hnq' : (n : ℚ) ≤ 2 ^ 16 := by exact_mod_cast hn'
  have h0q : |(x0 : ℚ)| ≤ 2 ^ 16 := by exact_mod_cast h0
  have h1q : |(x1 : ℚ)| ≤ 2 ^ 16 := by exact_mod_cast h1
  have htabs : |t| ≤ 2 ^ 17 := by
    rw [ht, abs_div, abs_of_pos (by linarith : (0 : ℚ) < n)]
    calc |((x1 - x0 : Int) : ℚ)| / n ≤ |((x1 - x0 : Int) : ℚ)| / 1 := by
          apply div_le_div_of_nonneg_left (abs_nonneg _) (by norm_num) hnq
      _ ≤ 2 ^ 17 := by
          push_cast; rw [div_one]; rw [abs_le] at *; constructor <;> linarith
  have hsize : |pt x0 x1 n (k + 1) - w| ≤ 2 ^ 18 := by
    push_cast at *
    rw [abs_le] at *
    constructor <;> linarith
  have hnear := write_near w (pt x0 x1 n (k + 1)) hsize
  have hex : ∀ M : Int, x1 - x0 = n * M → pyRound (double (pt x0 x1 n (k + 1) - w)) = M := by
    intro M hM
    have e1 := pt_exact h0 h1 hn M hM (k + 1) hk
    have e0 := w2 M hM
    rw [e1]
    have := e1 ▸ hsize
    have hs : |(x0 + ((k + 1 : Nat) : Int) * M) - w| ≤ 2 ^ 53 := by
      have h : |(((x0 + ((k + 1 : Nat) : Int) * M) - w : Int) : ℚ)| ≤ 2 ^ 18 := by
        rw [Int.cast_sub]; exact this
      have : |(x0 + ((k + 1 : Nat) : Int) * M) - w| ≤ 2 ^ 18 := by exact_mod_cast h
      exact this.trans (by norm_num)
    rw [write_int _ _ hs, e0]
    push_cast; ring
  refine ⟨⟨hnear, ?_, ?_⟩, ?_⟩
  · intro M hM
    rw [hex M hM, w2 M hM]; push_cast; ring
  · intro hkn
    have e : pt x0 x1 n (k + 1) = x1 := by unfold pt; rw [if_pos hkn]
    rw [e] at hsize ⊢
    have hs : |x1 - w| ≤ 2 ^ 53 := by
      have h : |((x1 - w : Int) : ℚ)| ≤ 2 ^ 18 := by rw [Int.cast_sub]; exact hsize
      have : |x1 - w| ≤ 2 ^ 18 := by exact_mod_cast h
      exact this.trans (by norm_num)
    rw [write_int _ _ hs]; ring
  · by_cases hcase : |x1 - x0| = n * L
    · have hL : 0 ≤ (n : Int) * L := hcase ▸ abs_nonneg _
      have hL0 : 0 ≤ L := by
        by_contra hneg
        have : (n : Int) * L < 0 := mul_neg_of_pos_of_neg (by omega) (by omega)
        omega
      rcases abs_choice (x1 - x0) with hc | hc
      · rw [hex L (by rw [← hc]; exact hcase), abs_of_nonneg hL0]
      · rw [hex (-L) (by rw [mul_neg, ← hcase, hc, neg_neg]), abs_neg, abs_of_nonneg hL0]
    · have hlt : |x1 - x0| ≤ n * L - 1 := by omega
      have htl : |t| ≤ L - 1 / n := by
        rw [ht, abs_div, abs_of_pos (by linarith : (0 : ℚ) < n), div_le_iff₀ (by linarith)]
        have : (((|x1 - x0| : Int)) : ℚ) ≤ n * L - 1 := by exact_mod_cast hlt
        rw [Int.cast_abs] at this
        refine this.trans (le_of_eq ?_)
        field_simp
      have hinv : (1 : ℚ) / 2 ^ 16 ≤ 1 / n := one_div_le_one_div_of_le (by linarith) hnq'
      have hb : |((pyRound (double (pt x0 x1 n (k + 1) - w)) : Int) : ℚ)| < L + 1 := by
        push_cast at *
        rw [abs_le] at *
        rw [abs_lt]
        constructor <;> linarith
      have hb' : |pyRound (double (pt x0 x1 n (k + 1) - w))| < L + 1 := by exact_mod_cast hb
      omega

end Axis

theorem ceilQ_eq (q : ℚ) : ceilQ q = ⌈q⌉ := by
  have : ceilQ q = -⌊-q⌋ := rfl
  rw [this, Int.floor_neg, neg_neg]

/-- The number of steps is computed right although the quotient is rounded. -/
theorem steps_exact (d L : Int) (hd : |d| ≤ 2 ^ 17) (hL : 1 ≤ L) :
    ceilQ |double ((d : ℚ) / L)| = ceilQ |(d : ℚ) / L| := by
  have hLq : (1 : ℚ) ≤ L := by exact_mod_cast hL
  have hLpos : (0 : ℚ) < L := by linarith
  by_cases hdiv : L ∣ d
  · obtain ⟨M, rfl⟩ := hdiv
    have e : ((L * M : Int) : ℚ) / L = M := by push_cast; field_simp
    have hM : |M| ≤ 2 ^ 53 := by
      rw [abs_mul] at hd
      have : |M| ≤ |L| * |M| := le_mul_of_one_le_left (abs_nonneg _) (by rw [abs_of_pos] <;> omega)
      exact (this.trans hd).trans (by norm_num)
    rw [e, double_int _ hM]
  · have key : ∀ r : ℚ, abs (r - abs ((d : ℚ) / L)) < 1 / L → ceilQ r = ceilQ |(d : ℚ) / L| := by
      intro r hr
      set q : ℚ := |(d : ℚ) / L| with hq
      have hqe : q = ((|d| : Int) : ℚ) / L := by rw [hq, abs_div, abs_of_pos hLpos, Int.cast_abs]
      set c := ceilQ q with hc
      have hcc : c = ⌈q⌉ := by rw [hc]; exact ceilQ_eq q
      have c1 : (c : ℚ) - 1 < q := by rw [hcc]; linarith [Int.ceil_lt_add_one q]
      have c2 : q ≤ c := by rw [hcc]; exact Int.le_ceil q
      rw [hqe] at c1 c2
      have c1' : (c - 1) * L < |d| := by
        rw [lt_div_iff₀ hLpos] at c1; exact_mod_cast c1
      have c2' : |d| ≤ c * L := by
        rw [div_le_iff₀ hLpos] at c2; exact_mod_cast c2
      have c2'' : |d| ≠ c * L := by
        intro he
        exact hdiv ((dvd_abs L d).1 ⟨c, by rw [he, mul_comm]⟩)
      have c3 : |d| + 1 ≤ c * L := by omega
      have c4 : (c - 1) * L + 1 ≤ |d| := by omega
      have c3q : q + 1 / L ≤ c := by
        have : (((|d| : Int) : ℚ)) + 1 ≤ c * L := by exact_mod_cast c3
        rw [hqe, ← add_div, div_le_iff₀ hLpos]; exact this
      have c4q : (c : ℚ) - 1 + 1 / L ≤ q := by
        have : ((c : ℚ) - 1) * L + 1 ≤ ((|d| : Int) : ℚ) := by exact_mod_cast c4
        rw [hqe, le_div_iff₀ hLpos, add_mul, div_mul_cancel₀ _ hLpos.ne']; exact this
      rw [abs_lt] at hr
      have hrc : ⌈r⌉ = c := by
        rw [Int.ceil_eq_iff]; constructor <;> linarith
      rw [← hrc]; exact ceilQ_eq r
    apply key
    have h1 := double_err ((d : ℚ) / L)
    have h2 : |d| ≤ (2 : Int) ^ 17 := hd
    have h2q : |(d : ℚ)| ≤ 2 ^ 17 := by exact_mod_cast h2
    refine (abs_abs_sub_abs_le _ _).trans_lt (h1.trans_lt ?_)
    rw [abs_div, abs_of_pos hLpos, div_mul_eq_mul_div]
    apply div_lt_div_of_pos_right _ hLpos
    calc |(d : ℚ)| * (1 / 2 ^ 53) ≤ 2 ^ 17 * (1 / 2 ^ 53) := mul_le_mul_of_nonneg_right h2q (by norm_num)
      _ < 1 := by norm_num

theorem loop_out (data : Int) (sx sy : ℚ) (j : Nat) (s : St) :
    (gapLoopF data sx sy j s).out = s.out ++
      (List.range j).map (fun i => (⟨run sx (i + 1) s.nx, run sy (i + 1) s.ny, data + s.high⟩ : Stitch)) := by
  induction j generalizing s with
  | zero => simp [gapLoopF]
  | succ j ih =>
    rw [gapLoopF, ih, List.range_succ_eq_map]
    simp [St.moveTo, run, Function.comp_def]

theorem loop_out_exact (data : Int) (sx sy : ℚ) (j : Nat) (s : St) :
    (gapLoop data sx sy j s).out = s.out ++
      (List.range j).map (fun (i : Nat) =>
        (⟨s.nx + (i + 1 : Nat) * sx, s.ny + (i + 1 : Nat) * sy, data + s.high⟩ : Stitch)) := by
  induction j generalizing s with
  | zero => simp [gapLoop]
  | succ j ih =>
    rw [gapLoop, ih, List.range_succ_eq_map]
    simp only [St.moveTo, List.map_cons, List.map_map, List.append_assoc, List.cons_append, List.nil_append]
    congr 1
    congr 1
    · push_cast; simp
    · apply List.map_congr_left
      intro i _
      simp only [Function.comp_def]
      congr 1 <;> push_cast <;> ring

/-- Displacements of points of division all fit, and lead to the target. -/
theorem list_fits {x0 x1 y0 y1 L : Int} {n : Nat} (hx0 : |x0| ≤ 2 ^ 16) (hx1 : |x1| ≤ 2 ^ 16) (hy0 : |y0| ≤ 2 ^ 16)
    (hy1 : |y1| ≤ 2 ^ 16) (hn : 1 ≤ n) (hn' : n ≤ 2 ^ 16) (hdx : |x1 - x0| ≤ n * L) (hdy : |y1 - y0| ≤ n * L)
    (l : List Stitch) : ∀ (k : Nat) (w v : Int), k + l.length = n → At x0 x1 n k w → At y0 y1 n k v →
      (∀ i (h : i < l.length), l[i].x = pt x0 x1 n (k + i + 1) ∧ l[i].y = pt y0 y1 n (k + i + 1)) →
      (∀ r ∈ deltasF w v l, |r.dx| ≤ L ∧ |r.dy| ≤ L) ∧
        w + ((deltasF w v l).map Rec.dx).sum = x1 ∧ v + ((deltasF w v l).map Rec.dy).sum = y1 := by
  induction l with
  | nil =>
    intro k w v hk hw hv _
    simp only [List.length_nil, Nat.add_zero] at hk
    simp [deltasF, hw.2.2 hk, hv.2.2 hk]
  | cons a l ih =>
    intro k w v hk hw hv hl
    have ha := hl 0 (by simp)
    simp only [List.getElem_cons_zero, Nat.add_zero] at ha
    have sx := at_step hx0 hx1 hn hn' hdx k (by simp at hk; omega) w hw
    have sy := at_step hy0 hy1 hn hn' hdy k (by simp at hk; omega) v hv
    rw [← ha.1] at sx
    rw [← ha.2] at sy
    have := ih (k + 1) _ _ (by simp at hk ⊢; omega) sx.1 sy.1 (by
      intro i hi
      have := hl (i + 1) (by simp; omega)
      simp only [List.getElem_cons_succ] at this
      rw [show k + 1 + i + 1 = k + (i + 1) + 1 by omega]
      exact this)
    simp only [deltasF, List.map_cons, List.sum_cons, List.mem_cons, forall_eq_or_imp]
    refine ⟨⟨⟨sx.2, sy.2⟩, this.1⟩, ?_, ?_⟩
    · have := this.2.1; linarith
    · have := this.2.2; linarith

end Fl

open Fl

/-- What one division of a gap produces, in floating point and exactly. -/
private theorem gap_both (s : St) (x0 y0 x1 y1 L : Int) (hx : s.nx = x0) (hy : s.ny = y0)
    (hx0 : |x0| ≤ 2 ^ 16) (hy0 : |y0| ≤ 2 ^ 16) (hx1 : |x1| ≤ 2 ^ 16) (hy1 : |y1| ≤ 2 ^ 16) (hL : 2 ≤ L) (data : Int) :
    (|x1 - x0| ≤ L ∧ |y1 - y0| ≤ L ∧ gap s x1 y1 (some L) data = .ok s ∧ gapF s x1 y1 (some L) data = .ok s) ∨
    ∃ n : Nat, 1 ≤ n ∧ n ≤ 2 ^ 16 ∧ |x1 - x0| ≤ n * L ∧ |y1 - y0| ≤ n * L ∧
      gap s x1 y1 (some L) data = .ok (gapLoop data (((x1 - x0 : Int) : ℚ) / n) (((y1 - y0 : Int) : ℚ) / n) (n - 1)
        (if data = JUMP ∧ s.sequinMode then toggleSequins s else s)) ∧
      gapF s x1 y1 (some L) data = .ok (gapLoopF data (double (((x1 - x0 : Int) : ℚ) / n))
        (double (((y1 - y0 : Int) : ℚ) / n)) (n - 1) (if data = JUMP ∧ s.sequinMode then toggleSequins s else s)) := by
  have ex : (x1 : ℚ) - s.nx = ((x1 - x0 : Int) : ℚ) := by rw [hx]; push_cast; ring
  have ey : (y1 : ℚ) - s.ny = ((y1 - y0 : Int) : ℚ) := by rw [hy]; push_cast; ring
  have hdx : |x1 - x0| ≤ 2 ^ 17 := by rw [abs_le] at *; constructor <;> linarith
  have hdy : |y1 - y0| ≤ 2 ^ 17 := by rw [abs_le] at *; constructor <;> linarith
  have dx' : double ((x1 - x0 : Int) : ℚ) = ((x1 - x0 : Int) : ℚ) := double_int _ (hdx.trans (by norm_num))
  have dy' : double ((y1 - y0 : Int) : ℚ) = ((y1 - y0 : Int) : ℚ) := double_int _ (hdy.trans (by norm_num))
  have hLq : (0 : ℚ) < L := by exact_mod_cast (by omega : 0 < L)
  set dx := x1 - x0 with hdxe
  set dy := y1 - y0 with hdye
  unfold gap gapF
  simp only [dx', dy', ex, ey]
  by_cases hfar : tooFar (some (L : ℚ)) dx dy = true
  · right
    simp only [hfar, if_true, if_neg hLq.ne', steps_exact dx L hdx (by omega), steps_exact dy L hdy (by omega)]
    set cx := ceilQ |(dx : ℚ) / L| with hcx
    set cy := ceilQ |(dy : ℚ) / L| with hcy
    have up : ∀ d : Int, |d| ≤ 2 ^ 17 → |d| ≤ ceilQ |(d : ℚ) / L| * L ∧ 0 ≤ ceilQ |(d : ℚ) / L| ∧
        ceilQ |(d : ℚ) / L| ≤ 2 ^ 16 := by
      intro d hd
      rw [ceilQ_eq]
      refine ⟨?_, Int.ceil_nonneg (abs_nonneg _), ?_⟩
      · have := Int.le_ceil |(d : ℚ) / L|
        rw [abs_div, abs_of_pos hLq, div_le_iff₀ hLq] at this
        rw [abs_div, abs_of_pos hLq]
        exact_mod_cast this
      · rw [Int.ceil_le, abs_div, abs_of_pos hLq, div_le_iff₀ hLq]
        have h1 : |(d : ℚ)| ≤ 2 ^ 17 := by exact_mod_cast hd
        have h2 : (2 : ℚ) ≤ L := by exact_mod_cast hL
        push_cast
        nlinarith
    have ux := up dx hdx
    have uy := up dy hdy
    rw [← hcx] at ux
    rw [← hcy] at uy
    set c := (if cx > cy then cx else cy) with hc
    have c1 : cx ≤ c := by rw [hc]; split_ifs <;> omega
    have c2 : cy ≤ c := by rw [hc]; split_ifs <;> omega
    have c3 : c ≤ 2 ^ 16 := by rw [hc]; split_ifs <;> omega
    have fx : |dx| ≤ c * L := ux.1.trans (mul_le_mul_of_nonneg_right c1 (by omega))
    have fy : |dy| ≤ c * L := uy.1.trans (mul_le_mul_of_nonneg_right c2 (by omega))
    have cpos : 0 < c := by
      rcases lt_or_eq_of_le (ux.2.1.trans c1) with h | h
      · exact h
      · rw [← h] at fx fy
        simp only [zero_mul, abs_nonpos_iff] at fx fy
        rw [fx, fy] at hfar
        simp [tooFar] at hfar
        exfalso
        linarith
    rw [if_neg cpos.ne', if_neg cpos.ne']
    refine ⟨c.toNat, by omega, by omega, ?_, ?_, ?_⟩
    · rw [Int.toNat_of_nonneg cpos.le]; exact fx
    · rw [Int.toNat_of_nonneg cpos.le]; exact fy
    · have e1 : ((c.toNat : Nat) : ℚ) = (c : ℚ) := by
        rw [← Int.cast_natCast, Int.toNat_of_nonneg cpos.le]
      rw [e1, show (c - 1).toNat = c.toNat - 1 by omega]
      exact ⟨rfl, rfl⟩
  · left
    rw [if_neg hfar, if_neg hfar]
    simp only [tooFar, Bool.or_eq_true, decide_eq_true_eq, not_or, not_lt] at hfar
    refine ⟨?_, ?_, rfl, rfl⟩
    · exact_mod_cast hfar.1
    · exact_mod_cast hfar.2

private theorem toggle_shape (s : St) (data : Int) :
    ∃ l : List Stitch, (if data = JUMP ∧ s.sequinMode then toggleSequins s else s).out = s.out ++ l ∧
      (∀ a ∈ l, a.x = s.nx ∧ a.y = s.ny) ∧
      (if data = JUMP ∧ s.sequinMode then toggleSequins s else s).nx = s.nx ∧
      (if data = JUMP ∧ s.sequinMode then toggleSequins s else s).ny = s.ny ∧
      (if data = JUMP ∧ s.sequinMode then toggleSequins s else s).high = s.high := by
  unfold toggleSequins
  split_ifs
  · exact ⟨_, rfl, by simp, rfl, rfl, rfl⟩
  · exact ⟨[], by simp, by simp, rfl, rfl, rfl⟩
  · exact ⟨[], by simp, by simp, rfl, rfl, rfl⟩

private theorem deltasF_still (x y : Int) (l rest : List Stitch) (h : ∀ a ∈ l, a.x = x ∧ a.y = y) :
    deltasF x y (l ++ rest) = l.map (fun a => ⟨0, 0, cmdOf a.cmd⟩) ++ deltasF x y rest := by
  induction l with
  | nil => rfl
  | cons a l ih =>
    have ha := h a (by simp)
    simp only [List.cons_append, deltasF, ha.1, ha.2, sub_self, double_zero, List.map_cons]
    have : pyRound 0 = 0 := by have := pyRound_intCast 0; simpa using this
    rw [this]
    simp only [add_zero]
    rw [ih (fun b hb => h b (by simp [hb]))]

/-- **C97**: however a long gap between two whole positions is divided in floating point, no displacement the writers
take from the result is longer than the limit, and together they lead exactly to the target. -/
theorem C97_gap_fits (s s' : St) (x0 y0 x1 y1 L : Int) (hx : s.nx = x0) (hy : s.ny = y0)
    (hx0 : |x0| ≤ 2 ^ 16) (hy0 : |y0| ≤ 2 ^ 16) (hx1 : |x1| ≤ 2 ^ 16) (hy1 : |y1| ≤ 2 ^ 16) (hL : 2 ≤ L)
    (data c : Int) (h : gapF s x1 y1 (some L) data = .ok s') :
    ∃ added : List Stitch, s'.out = s.out ++ added ∧
      (∀ r ∈ deltasF x0 y0 (added ++ [⟨x1, y1, c⟩]), |r.dx| ≤ L ∧ |r.dy| ≤ L) ∧
      x0 + ((deltasF x0 y0 (added ++ [⟨x1, y1, c⟩])).map Rec.dx).sum = x1 ∧
      y0 + ((deltasF x0 y0 (added ++ [⟨x1, y1, c⟩])).map Rec.dy).sum = y1 := by
  have big : ∀ a b : Int, |a| ≤ 2 ^ 16 → |b| ≤ 2 ^ 16 → |a - b| ≤ 2 ^ 53 := by
    intro a b ha hb; rw [abs_le] at *; constructor <;> linarith
  rcases gap_both s x0 y0 x1 y1 L hx hy hx0 hy0 hx1 hy1 hL data with ⟨fx, fy, _, e⟩ | ⟨n, n1, n2, fx, fy, _, e⟩
  · rw [e] at h
    cases h
    refine ⟨[], by simp, ?_⟩
    simp only [List.nil_append, deltasF, write_int x0 x1 (big _ _ hx1 hx0), write_int y0 y1 (big _ _ hy1 hy0)]
    simp [fx, fy]
  · rw [e] at h
    cases h
    obtain ⟨l, l1, l2, l3, l4, l5⟩ := toggle_shape s data
    refine ⟨l ++ _, by rw [loop_out, l1, List.append_assoc], ?_⟩
    rw [l3, l4, hx, hy, List.append_assoc, deltasF_still x0 y0 l _ (by intro a ha; rw [← hx, ← hy]; exact l2 a ha)]
    have := list_fits hx0 hx1 hy0 hy1 n1 n2 fx fy
      (((List.range (n - 1)).map (fun i => (⟨run (double (((x1 - x0 : Int) : ℚ) / n)) (i + 1) x0,
        run (double (((y1 - y0 : Int) : ℚ) / n)) (i + 1) y0,
        data + (if data = JUMP ∧ s.sequinMode then toggleSequins s else s).high⟩ : Stitch))) ++ [⟨x1, y1, c⟩])
      0 x0 y0 (by simp; omega) (at_zero n1) (at_zero n1) (by
        intro i hi
        simp only [List.length_append, List.length_map, List.length_range, List.length_cons, List.length_nil] at hi
        by_cases hlast : i = n - 1
        · subst hlast
          rw [List.getElem_append_right (by simp)]
          simp only [List.length_map, List.length_range, Nat.sub_self, List.getElem_cons_zero, pt]
          rw [if_pos (by omega), if_pos (by omega)]
          exact ⟨rfl, rfl⟩
        · rw [List.getElem_append_left (by simp; omega)]
          simp only [List.getElem_map, List.getElem_range, pt]
          rw [if_neg (by omega), if_neg (by omega)]
          simp)
    obtain ⟨t1, t2, t3⟩ := this
    refine ⟨?_, ?_, ?_⟩
    · intro r hr
      rw [List.mem_append] at hr
      rcases hr with hr | hr
      · obtain ⟨a, _, rfl⟩ := List.mem_map.1 hr
        simp; omega
      · exact t1 r hr
    · rw [List.map_append, List.sum_append, List.map_map]
      have : (l.map (Rec.dx ∘ fun a => (⟨0, 0, cmdOf a.cmd⟩ : Rec))).sum = 0 := by
        simp [Function.comp_def]
      rw [this, zero_add]
      exact t2
    · rw [List.map_append, List.sum_append, List.map_map]
      have : (l.map (Rec.dy ∘ fun a => (⟨0, 0, cmdOf a.cmd⟩ : Rec))).sum = 0 := by
        simp [Function.comp_def]
      rw [this, zero_add]
      exact t3

/-- Two commands, the same but for a hair. -/
def Hair (e : ℚ) (a b : Stitch) : Prop := a.cmd = b.cmd ∧ |a.x - b.x| ≤ e ∧ |a.y - b.y| ≤ e

/-- **C97**: dividing a gap in floating point and dividing it exactly both succeed and give the same commands, at
positions that differ by no more than a millionth of a stitch unit or two. -/
theorem C97_gap_near (s : St) (x0 y0 x1 y1 L : Int) (hx : s.nx = x0) (hy : s.ny = y0)
    (hx0 : |x0| ≤ 2 ^ 16) (hy0 : |y0| ≤ 2 ^ 16) (hx1 : |x1| ≤ 2 ^ 16) (hy1 : |y1| ≤ 2 ^ 16) (hL : 2 ≤ L) (data : Int) :
    ∃ e f : St, gap s x1 y1 (some L) data = .ok e ∧ gapF s x1 y1 (some L) data = .ok f ∧
      List.Forall₂ (Hair (1 / 2 ^ 19)) e.out f.out := by
  have self : ∀ l : List Stitch, List.Forall₂ (Hair (1 / 2 ^ 19)) l l := by
    intro l
    rw [List.forall₂_same]
    intro a _
    exact ⟨rfl, by simp, by simp⟩
  rcases gap_both s x0 y0 x1 y1 L hx hy hx0 hy0 hx1 hy1 hL data with ⟨fx, fy, e, f⟩ | ⟨n, n1, n2, fx, fy, e, f⟩
  · exact ⟨_, _, e, f, self _⟩
  · refine ⟨_, _, e, f, ?_⟩
    obtain ⟨l, l1, l2, l3, l4, l5⟩ := toggle_shape s data
    rw [loop_out, loop_out_exact, l3, l4, hx, hy]
    apply List.rel_append
    · exact self _
    · rw [List.forall₂_map_left_iff, List.forall₂_map_right_iff, List.forall₂_same]
      intro i hi
      rw [List.mem_range] at hi
      have near : ∀ a b : Int, |a| ≤ 2 ^ 16 → |b| ≤ 2 ^ 16 →
          |(a : ℚ) + ((i + 1 : Nat) : ℚ) * (((b - a : Int) : ℚ) / n) -
            run (double (((b - a : Int) : ℚ) / n)) (i + 1) a| ≤ 1 / 2 ^ 19 := by
        intro a b ha hb
        have := pt_near ha hb n1 n2 (i + 1) (by omega)
        unfold pt at this
        rw [if_neg (by omega), abs_sub_comm] at this
        exact this
      exact ⟨rfl, near x0 x1 hx0 hx1, near y0 y1 hy0 hy1⟩

/-- **C97**: in floating point too the position in the file never drifts from the design: however many stitches are
written, wherever they are, after each the file is within half a unit (and a hair) of it. -/
theorem C97_no_drift (xx yy : Int) (l : List Stitch) (hxx : |xx| ≤ 2 ^ 17) (hyy : |yy| ≤ 2 ^ 17)
    (hl : ∀ a ∈ l, |a.x| ≤ 2 ^ 16 ∧ |a.y| ≤ 2 ^ 16) :
    List.Forall₂ (fun a b : Stitch => b.cmd = cmdOf a.cmd ∧ |b.x - a.x| ≤ 1 / 2 + 1 / 2 ^ 35 ∧
      |b.y - a.y| ≤ 1 / 2 + 1 / 2 ^ 35) l (place xx yy (deltasF xx yy l)) := by
  induction l generalizing xx yy with
  | nil => exact .nil
  | cons a l ih =>
    have ha := hl a (by simp)
    have size : ∀ (q : ℚ) (w : Int), |q| ≤ 2 ^ 16 → |w| ≤ 2 ^ 17 → |q - w| ≤ 2 ^ 18 := by
      intro q w h1 h2
      have h2 : |(w : ℚ)| ≤ 2 ^ 17 := by exact_mod_cast h2
      rw [abs_le] at *; constructor <;> linarith
    have bound : ∀ (q : ℚ) (w : Int), |q| ≤ 2 ^ 16 → |(w : ℚ) - q| ≤ 1 / 2 + 1 / 2 ^ 35 → |w| ≤ 2 ^ 17 := by
      intro q w h1 h2
      have : |(w : ℚ)| ≤ 2 ^ 17 := by rw [abs_le] at *; constructor <;> linarith
      exact_mod_cast this
    have nx := write_near xx a.x (size _ _ ha.1 hxx)
    have ny := write_near yy a.y (size _ _ ha.2 hyy)
    have := ih (xx + pyRound (double (a.x - xx))) (yy + pyRound (double (a.y - yy))) (bound _ _ ha.1 nx)
      (bound _ _ ha.2 ny) (fun b hb => hl b (by simp [hb]))
    refine .cons ⟨rfl, ?_, ?_⟩ ?_
    · push_cast at nx; exact nx
    · push_cast at ny; exact ny
    · push_cast at this ⊢; exact this

/-- **C97**: of a design on whole positions (of at most 52 bits) floating point takes exactly the displacements that
exact arithmetic takes. -/
theorem C97_whole (xx yy : Int) (l : List Stitch) (hxx : |xx| ≤ 2 ^ 52) (hyy : |yy| ≤ 2 ^ 52)
    (hl : ∀ a ∈ l, ∃ x y : Int, a.x = x ∧ a.y = y ∧ |x| ≤ 2 ^ 52 ∧ |y| ≤ 2 ^ 52) :
    deltasF xx yy l = deltas xx yy l := by
  induction l generalizing xx yy with
  | nil => rfl
  | cons a l ih =>
    obtain ⟨x, y, ex, ey, bx, by'⟩ := hl a (by simp)
    have big : ∀ a b : Int, |a| ≤ 2 ^ 52 → |b| ≤ 2 ^ 52 → |a - b| ≤ 2 ^ 53 := by
      intro a b ha hb; rw [abs_le] at *; constructor <;> linarith
    simp only [deltasF, deltas, ex, ey, write_int xx x (big _ _ bx hxx), write_int yy y (big _ _ by' hyy),
      pyRound_intCast_sub]
    rw [ih _ _ (by simpa using bx) (by simpa using by') (fun b hb => hl b (by simp [hb]))]

/-! ## Tying -/

namespace Fl

theorem towardsF_zero (x : Int) (b : ℚ) (h : |x| ≤ 2 ^ 53) : towardsF x b 0 = x := by
  unfold towardsF
  rw [zero_mul, double_zero, zero_add, double_int _ h]

theorem towardsF_near (x : Int) (b amount : ℚ) (D : ℚ) (hx : |x| ≤ 2 ^ 16) (hb : |b - x| ≤ D) (hD : D ≤ 2 ^ 17)
    (h0 : 0 ≤ amount) (h1 : amount ≤ 1) : |towardsF x b amount - (x + amount * (b - x))| ≤ 1 / 2 ^ 33 := by
  have hxq : |(x : ℚ)| ≤ 2 ^ 16 := by exact_mod_cast hx
  unfold towardsF
  have e1 := double_err (b - x)
  have a1 := double_abs (b - x)
  set t := double (b - x) with ht
  have e2 := double_err (amount * t)
  set u := double (amount * t) with hu
  have e3 := double_err (u + x)
  have hb' : |b - x| ≤ 2 ^ 17 := hb.trans hD
  have m1 : |b - x| * (1 / 2 ^ 53) ≤ 2 ^ 17 * (1 / 2 ^ 53) := mul_le_mul_of_nonneg_right hb' (by norm_num)
  have t18 : |t| ≤ 2 ^ 18 := by
    refine a1.trans ?_
    calc |b - x| * (1 + 1 / 2 ^ 53) ≤ 2 ^ 17 * (1 + 1 / 2 ^ 53) := mul_le_mul_of_nonneg_right hb' (by norm_num)
      _ ≤ 2 ^ 18 := by norm_num
  have at18 : |amount * t| ≤ 2 ^ 18 := by
    rw [abs_mul, abs_of_nonneg h0]
    calc amount * |t| ≤ 1 * |t| := mul_le_mul_of_nonneg_right h1 (abs_nonneg _)
      _ ≤ 2 ^ 18 := by simpa using t18
  have m2 : |amount * t| * (1 / 2 ^ 53) ≤ 2 ^ 18 * (1 / 2 ^ 53) := mul_le_mul_of_nonneg_right at18 (by norm_num)
  have m4 : |amount * t - amount * (b - x)| ≤ 2 ^ 17 * (1 / 2 ^ 53) := by
    rw [← mul_sub, abs_mul, abs_of_nonneg h0]
    calc amount * |t - (b - x)| ≤ 1 * |t - (b - x)| := mul_le_mul_of_nonneg_right h1 (abs_nonneg _)
      _ ≤ 2 ^ 17 * (1 / 2 ^ 53) := by linarith
  have u19 : |u + x| ≤ 2 ^ 19 := by
    have := e2.trans m2
    rw [abs_le] at *
    constructor <;> linarith
  have m3 : |u + x| * (1 / 2 ^ 53) ≤ 2 ^ 19 * (1 / 2 ^ 53) := mul_le_mul_of_nonneg_right u19 (by norm_num)
  have f2 := e2.trans m2
  have f3 := e3.trans m3
  rw [abs_le] at *
  constructor <;> linarith

theorem amount_near : |double (33 / 100) - 33 / 100| ≤ 1 / 2 ^ 53 ∧ |double (66 / 100) - 66 / 100| ≤ 1 / 2 ^ 53 := by
  constructor
  · refine (double_err _).trans ?_
    rw [abs_of_pos (by norm_num)]; norm_num
  · refine (double_err _).trans ?_
    rw [abs_of_pos (by norm_num)]; norm_num

/-- The four written positions of a lock on one axis. -/
theorem lock_axis (x L : Int) (b : ℚ) (hx : |x| ≤ 2 ^ 16) (hL : 2 ≤ L) (hL' : L ≤ 2 ^ 16) (hb : |b - x| ≤ 2 * L) :
    let p1 := towardsF x b (double (33 / 100))
    let p2 := towardsF x b (double (66 / 100))
    let w1 := x + pyRound (double (p1 - x))
    let w2 := w1 + pyRound (double (p2 - w1))
    let w3 := w2 + pyRound (double (p1 - w2))
    let w4 := w3 + pyRound (double (towardsF x b 0 - w3))
    |w1 - x| ≤ L ∧ |w2 - w1| ≤ L ∧ |w3 - w2| ≤ L ∧ |w4 - w3| ≤ L ∧ w4 = x := by
  intro p1 p2 w1 w2 w3 w4
  have hLq : (2 : ℚ) ≤ L := by exact_mod_cast hL
  have hLq' : (L : ℚ) ≤ 2 ^ 16 := by exact_mod_cast hL'
  have hxq : |(x : ℚ)| ≤ 2 ^ 16 := by exact_mod_cast hx
  obtain ⟨a1, a2⟩ := amount_near
  rw [abs_le] at a1 a2
  have n1 := towardsF_near x b (double (33 / 100)) (2 * L) hx hb (by linarith) (by linarith) (by linarith)
  have n2 := towardsF_near x b (double (66 / 100)) (2 * L) hx hb (by linarith) (by linarith) (by linarith)
  have prod : ∀ c d : ℚ, |c - d| ≤ 1 / 2 ^ 53 → |c * (b - x) - d * (b - x)| ≤ 1 / 2 ^ 36 := by
    intro c d h
    rw [← sub_mul, abs_mul]
    calc |c - d| * |b - x| ≤ 1 / 2 ^ 53 * 2 ^ 17 :=
          mul_le_mul h (by linarith) (abs_nonneg _) (by norm_num)
      _ = 1 / 2 ^ 36 := by norm_num
  have d1 := prod (double (33 / 100)) (33 / 100) amount_near.1
  have d2 := prod (double (66 / 100)) (66 / 100) amount_near.2
  change |p1 - _| ≤ _ at n1
  change |p2 - _| ≤ _ at n2
  have q1 : |p1 - (x + 33 / 100 * (b - x))| ≤ 1 / 2 ^ 32 := by rw [abs_le] at *; constructor <;> linarith
  have q2 : |p2 - (x + 66 / 100 * (b - x))| ≤ 1 / 2 ^ 32 := by rw [abs_le] at *; constructor <;> linarith
  have g1 := write_near x p1 (by rw [abs_le] at *; constructor <;> linarith)
  change |((w1 : Int) : ℚ) - p1| ≤ _ at g1
  have g2 := write_near w1 p2 (by rw [abs_le] at *; constructor <;> linarith)
  change |((w2 : Int) : ℚ) - p2| ≤ _ at g2
  have g3 := write_near w2 p1 (by rw [abs_le] at *; constructor <;> linarith)
  change |((w3 : Int) : ℚ) - p1| ≤ _ at g3
  have small : ∀ a b : Int, |(a : ℚ) - b| < L + 1 → |a - b| ≤ L := by
    intro a b h
    have : |a - b| < L + 1 := by exact_mod_cast h
    omega
  have s4 : |w3 - x| ≤ L := small w3 x (by rw [abs_le] at *; rw [abs_lt]; constructor <;> linarith)
  have h4 : w4 = x := by
    have hz : towardsF (x : ℚ) b 0 = x := towardsF_zero x b (hx.trans (by norm_num))
    show w3 + pyRound (double (towardsF x b 0 - w3)) = x
    rw [hz, write_int w3 x (by rw [abs_sub_comm]; exact s4.trans (hL'.trans (by norm_num)))]
    ring
  refine ⟨small w1 x ?_, small w2 w1 ?_, small w3 w2 ?_, ?_, h4⟩
  · rw [abs_le] at *; rw [abs_lt]; constructor <;> linarith
  · rw [abs_le] at *; rw [abs_lt]; constructor <;> linarith
  · rw [abs_le] at *; rw [abs_lt]; constructor <;> linarith
  · rw [h4, abs_sub_comm]; exact s4

end Fl

/-- **C97**: tie-on and tie-off stitches computed in floating point, towards an anchor no further than twice the limit
(`lock_stitch` takes one no further than the limit, whatever little `cos` and `sin` add to it), are written as four
displacements that fit and lead back to exactly the whole position tied at. -/
theorem C97_lock_fits (lm : Libm) (x y L : Int) (ax ay : ℚ) (limit : Option ℚ) (hx : |x| ≤ 2 ^ 16) (hy : |y| ≤ 2 ^ 16)
    (hL : 2 ≤ L) (hL' : L ≤ 2 ^ 16) (hax : |(lockAnchor lm x y ax ay limit).1 - x| ≤ 2 * L)
    (hay : |(lockAnchor lm x y ax ay limit).2 - y| ≤ 2 * L) :
    (∀ r ∈ deltasF x y (lockStitchesF lm x y ax ay limit), |r.dx| ≤ L ∧ |r.dy| ≤ L) ∧
      (deltasF x y (lockStitchesF lm x y ax ay limit)).length = 4 ∧
      ((deltasF x y (lockStitchesF lm x y ax ay limit)).map Rec.dx).sum = 0 ∧
      ((deltasF x y (lockStitchesF lm x y ax ay limit)).map Rec.dy).sum = 0 := by
  have hX := lock_axis x L _ hx hL hL' hax
  have hY := lock_axis y L _ hy hL hL' hay
  simp only [lockStitchesF, List.map_cons, List.map_nil, deltasF, List.mem_cons, List.not_mem_nil, or_false,
    forall_eq_or_imp, forall_eq, List.sum_cons, List.sum_nil, List.length_cons, List.length_nil] at hX hY ⊢
  simp only [add_sub_cancel_left] at hX hY
  refine ⟨⟨⟨hX.1, hY.1⟩, ⟨hX.2.1, hY.2.1⟩, ⟨hX.2.2.1, hY.2.2.1⟩, ⟨hX.2.2.2.1, hY.2.2.2.1⟩⟩, trivial, ?_, ?_⟩
  · have := hX.2.2.2.2; linarith
  · have := hY.2.2.2.2; linarith

/-- A float is not always the number it stands for: the theorems above speak of something. -/
example : double (1 / 3) = 6004799503160661 / 2 ^ 54 ∧ double (1 / 3) ≠ 1 / 3 ∧
    double (double (1 / 3) + double (1 / 3)) = 2 * double (1 / 3) ∧ double (2 ^ 53 + 1) = 2 ^ 53 := by
  decide +kernel

/-- A gap of 1000 by 333 units under a limit of 121: nine steps, all of them within the limit. -/
example : (gapF ⟨some 121, some 121, false, 0, 0, 0, 0, Mat.identity, 0, false, false, false, 0, 0, 0, [], []⟩ 1000 333 (some 121) JUMP).toOption.map
    (fun t => (t.out.length, (deltasF 0 0 (t.out ++ [⟨1000, 333, STITCH⟩])).map (fun r => (r.dx, r.dy)))) =
    some (8, [(111, 37), (111, 37), (111, 37), (111, 37), (112, 37), (111, 37), (111, 37), (111, 37), (111, 37)]) := by
  decide +kernel

/-- A tie at (10, 20) towards (16, 13). -/
example : (deltasF 10 20 (lockStitchesF ⟨fun _ _ _ _ => 0, fun _ _ _ _ _ => (0, 0), id, id⟩ 10 20 16 13 (some 121))).map
    (fun r => (r.dx, r.dy)) = [(2, -2), (2, -3), (-2, 3), (-2, 2)] := by
  decide +kernel

end Emb
