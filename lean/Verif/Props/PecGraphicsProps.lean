import Verif.PecGraphics

/-!
# Property C63: PEC thumbnails
-/

namespace Emb
namespace PecGraphics

/-- The pixel in column `x` of row `y`: rows are `stride` bytes long, eight pixels to a byte, lowest bit first. -/
def pixel (g : List Nat) (stride x y : Nat) : Bool := (g[y * stride + x / 8]?.getD 0).testBit (x % 8)

theorem update_ok {g : List Nat} {i : Nat} (f : Nat → Nat) (h : i < g.length) :
    update g i f = .ok (g.set i (f g[i])) := by
  unfold update
  have e : (if (i : Int) < 0 then (i : Int) + g.length else i) = i := if_neg (by omega)
  simp only [e]
  rw [if_neg (by omega)]
  simp [List.getElem?_eq_getElem h]

theorem index_lt {stride h x y : Nat} (hx : x < 8 * stride) (hy : y < h) : y * stride + x / 8 < stride * h := by
  have : x / 8 < stride := by omega
  calc y * stride + x / 8 < y * stride + stride := by omega
    _ = (y + 1) * stride := by ring
    _ ≤ h * stride := Nat.mul_le_mul_right _ hy
    _ = stride * h := by ring

theorem index_inj {stride x y x' y' : Nat} (hx : x < 8 * stride) (hx' : x' < 8 * stride)
    (h : y * stride + x / 8 = y' * stride + x' / 8) : y = y' ∧ x / 8 = x' / 8 := by
  have h1 : x / 8 < stride := by omega
  have h2 : x' / 8 < stride := by omega
  have hpos : 0 < stride := by omega
  have e1 : (y * stride + x / 8) / stride = y := by
    rw [Nat.mul_comm, Nat.mul_add_div hpos, Nat.div_eq_of_lt h1]; rfl
  have e2 : (y' * stride + x' / 8) / stride = y' := by
    rw [Nat.mul_comm, Nat.mul_add_div hpos, Nat.div_eq_of_lt h2]; rfl
  have : y = y' := by rw [← e1, ← e2, h]
  subst this
  exact ⟨rfl, by omega⟩

theorem pixel_set {g : List Nat} {stride h x y x' y' : Nat} {f : Nat → Nat} (hlen : g.length = stride * h)
    (hx : x < 8 * stride) (hy : y < h) (hx' : x' < 8 * stride)
    (hf : ∀ b k, k ≠ x % 8 → (f b).testBit k = b.testBit k) (hne : (x', y') ≠ (x, y)) :
    pixel (g.set (y * stride + x / 8) (f (g[y * stride + x / 8]?.getD 0))) stride x' y' = pixel g stride x' y' := by
  have hi := index_lt hx hy
  unfold pixel
  by_cases e : y * stride + x / 8 = y' * stride + x' / 8
  · obtain ⟨e1, e2⟩ := index_inj hx hx' e
    subst e1
    rw [← e2, List.getElem?_set_self (by omega)]
    simp only [Option.getD_some]
    refine hf _ _ ?_
    intro h8
    apply hne
    have : x' = x := by omega
    rw [this]
  · rw [List.getElem?_set_ne e]

/-- C63: marking a pixel of the bitmap succeeds, keeps its size, sets that pixel and changes no other. -/
theorem C63_mark (g : List Nat) (stride h x y : Nat) (hlen : g.length = stride * h) (hx : x < 8 * stride) (hy : y < h) :
    ∃ g', markBit g x y stride = .ok g' ∧ g'.length = g.length ∧ pixel g' stride x y = true ∧
      ∀ x' y', x' < 8 * stride → (x', y') ≠ (x, y) → pixel g' stride x' y' = pixel g stride x' y' := by
  have hi := index_lt hx hy
  have e : ((y : Int) * stride + (x : Int).tdiv 8) = ((y * stride + x / 8 : Nat) : Int) := by
    rw [Int.tdiv_eq_ediv_of_nonneg (by omega)]; push_cast; rfl
  have e8 : ((x : Int) % 8).toNat = x % 8 := by omega
  unfold markBit
  rw [e, e8, update_ok _ (by omega)]
  have eg : g[y * stride + x / 8]'(by omega) = g[y * stride + x / 8]?.getD 0 := by
    rw [List.getElem?_eq_getElem (by omega)]; rfl
  refine ⟨_, rfl, by simp, ?_, ?_⟩
  · unfold pixel
    rw [List.getElem?_set_self (by omega)]
    simp [Nat.testBit_or, Nat.testBit_shiftLeft]
  · intro x' y' hx' hne
    rw [eg]
    refine pixel_set hlen hx hy hx' (fun b k hk => ?_) hne (f := fun b => b ||| 1 <<< (x % 8))
    rw [Nat.testBit_or, Nat.one_shiftLeft, Nat.testBit_two_pow_of_ne (Ne.symm hk), Bool.or_false]

/-- C63: unmarking a pixel of the bitmap succeeds, keeps its size, clears that pixel and changes no other. -/
theorem C63_unmark (g : List Nat) (stride h x y : Nat) (hlen : g.length = stride * h) (hx : x < 8 * stride) (hy : y < h) :
    ∃ g', unmarkBit g x y stride = .ok g' ∧ g'.length = g.length ∧ pixel g' stride x y = false ∧
      ∀ x' y', x' < 8 * stride → (x', y') ≠ (x, y) → pixel g' stride x' y' = pixel g stride x' y' := by
  have hi := index_lt hx hy
  have e : ((y : Int) * stride + (x : Int).tdiv 8) = ((y * stride + x / 8 : Nat) : Int) := by
    rw [Int.tdiv_eq_ediv_of_nonneg (by omega)]; push_cast; rfl
  have e8 : ((x : Int) % 8).toNat = x % 8 := by omega
  unfold unmarkBit
  rw [e, e8, update_ok _ (by omega)]
  have eg : g[y * stride + x / 8]'(by omega) = g[y * stride + x / 8]?.getD 0 := by
    rw [List.getElem?_eq_getElem (by omega)]; rfl
  refine ⟨_, rfl, by simp, ?_, ?_⟩
  · unfold pixel
    rw [List.getElem?_set_self (by omega)]
    simp [Nat.testBit_ldiff, Nat.testBit_shiftLeft]
  · intro x' y' hx' hne
    rw [eg]
    refine pixel_set hlen hx hy hx' (fun b k hk => ?_) hne (f := fun b => Nat.ldiff b (1 <<< (x % 8)))
    rw [Nat.testBit_ldiff, Nat.one_shiftLeft, Nat.testBit_two_pow_of_ne (Ne.symm hk), Bool.not_false, Bool.and_true]

/-- Outside the bitmap this fails: a column of −1 is taken for column 7. -/
theorem C63_outside : ∃ g : List Nat, g.length = 6 * 38 ∧
    (match markBit g (-1) 0 6 with | .ok g' => pixel g' 6 7 0 | .error _ => false) = true ∧ pixel g 6 7 0 = false :=
  ⟨List.replicate (6 * 38) 0, by decide +kernel, by decide +kernel, by decide +kernel⟩

/-! ## The text -/

theorem bits_length (one zero : Char) (g : List Nat) : (bits one zero g).length = 8 * g.length := by
  induction g with
  | nil => rfl
  | cons b g ih =>
    have : bits one zero (b :: g) = (List.range 8).map (fun i => if b.testBit i then one else zero) ++ bits one zero g := rfl
    rw [this, List.length_append, ih]; simp; omega

theorem bits_get (one zero : Char) (g : List Nat) (n : Nat) (h : n < 8 * g.length) :
    (bits one zero g)[n]? = some (if (g[n / 8]?.getD 0).testBit (n % 8) then one else zero) := by
  induction g generalizing n with
  | nil => simp at h
  | cons b g ih =>
    have e : bits one zero (b :: g) = (List.range 8).map (fun i => if b.testBit i then one else zero) ++ bits one zero g := rfl
    rw [e]
    by_cases h8 : n < 8
    · rw [List.getElem?_append_left (by simpa using h8)]
      have e1 : n / 8 = 0 := by omega
      have e2 : n % 8 = n := by omega
      rw [e1, e2]
      simp [h8]
    · rw [List.getElem?_append_right (by simp; omega)]
      simp only [List.length_map, List.length_range]
      rw [ih (n - 8) (by simp at h; omega)]
      have e1 : (n - 8) / 8 = n / 8 - 1 := by omega
      have e2 : (n - 8) % 8 = n % 8 := by omega
      have e3 : n / 8 = (n / 8 - 1) + 1 := by omega
      rw [e1, e2]
      conv_rhs => rw [e3]
      rw [List.getElem?_cons_succ]

/-- The character at column `x` of line `y` of lines of equal length. -/
theorem intercalate_get (w : Nat) (ls : List (List Char)) (hw : ∀ l ∈ ls, l.length = w) (x y : Nat) (hx : x < w)
    (hy : y < ls.length) : (List.intercalate ['\n'] ls)[y * (w + 1) + x]? = (ls[y]?.getD [])[x]? := by
  induction ls generalizing y with
  | nil => simp at hy
  | cons l ls ih =>
    have hl := hw l (by simp)
    have ih := ih (fun a ha => hw a (by simp [ha]))
    cases ls with
    | nil =>
      have : y = 0 := by simpa using hy
      subst this
      simp [List.intercalate]
    | cons m ls =>
      have e : List.intercalate ['\n'] (l :: m :: ls) = l ++ '\n' :: List.intercalate ['\n'] (m :: ls) := by
        simp [List.intercalate]
      rw [e]
      cases y with
      | zero => rw [List.getElem?_append_left (by omega)]; simp
      | succ y =>
        have e2 : (y + 1) * (w + 1) + x = y * (w + 1) + x + (w + 1) := by ring
        rw [List.getElem?_append_right (by omega), e2]
        have e3 : y * (w + 1) + x + (w + 1) - l.length = (y * (w + 1) + x) + 1 := by omega
        rw [e3, List.getElem?_cons_succ, ih y (by simpa using hy)]
        simp

/-- C63: the text has one line per row, and the character at column `x` of line `y` shows whether that pixel is marked. -/
theorem C63_text (one zero : Char) (g : List Nat) (stride h x y : Nat) (hlen : g.length = stride * h)
    (hx : x < 8 * stride) (hy : y < h) :
    (asString one zero g stride)[y * (8 * stride + 1) + x]? = some (if pixel g stride x y then one else zero) := by
  have hs : 0 < stride := by omega
  have hbl := bits_length one zero g
  have hcount : ((bits one zero g).length + 8 * stride - 1) / (8 * stride) = h := by
    rw [hbl, hlen]
    have : 8 * (stride * h) + 8 * stride - 1 = 8 * stride * h + (8 * stride - 1) := by
      rw [Nat.mul_assoc]; omega
    rw [this, Nat.mul_add_div (by omega), Nat.div_eq_of_lt (by omega)]; rfl
  unfold asString
  have hrow : ∀ k, k < h → (bits one zero g).length ≥ k * (8 * stride) + 8 * stride := by
    intro k hk
    rw [hbl, hlen]
    calc k * (8 * stride) + 8 * stride = (k + 1) * (8 * stride) := by ring
      _ ≤ h * (8 * stride) := Nat.mul_le_mul_right _ hk
      _ = 8 * (stride * h) := by ring
  rw [intercalate_get (8 * stride) _ _ x y hx (by simp [rows, hcount, hy])]
  · unfold rows
    rw [hcount]
    simp only [List.getElem?_map, List.getElem?_range hy, Option.map_some, Option.getD_some]
    rw [List.getElem?_take_of_lt hx, List.getElem?_drop]
    have hr := hrow y hy
    rw [bits_get _ _ _ _ (by omega)]
    have e1 : (y * (8 * stride) + x) / 8 = y * stride + x / 8 := by
      have : y * (8 * stride) + x = 8 * (y * stride) + x := by ring
      rw [this, Nat.mul_add_div (by decide)]
    have e2 : (y * (8 * stride) + x) % 8 = x % 8 := by
      have : y * (8 * stride) + x = 8 * (y * stride) + x := by ring
      rw [this, Nat.mul_add_mod]
    rw [e1, e2]
    rfl
  · intro l hl
    unfold rows at hl
    obtain ⟨k, hk, rfl⟩ := List.mem_map.1 hl
    rw [hcount, List.mem_range] at hk
    have := hrow k hk
    rw [List.length_take, List.length_drop]; omega

example : asString '#' '.' [1, 2, 128, 255] 2 = "#........#......\n.......#########".toList := by decide +kernel

/-! ## Drawing -/

/-- One axis of the scaling: a point inside the extents lands inside the bitmap, with a margin of half the buffer. -/
theorem axis {lo hi p w G b s : ℚ} (h1 : lo ≤ p) (h2 : p ≤ hi) (hw : w = if hi - lo = 0 then 1 else hi - lo)
    (hs0 : 0 ≤ s) (hs : s ≤ (G - b) / w) :
    b / 2 ≤ p * s + (-((hi + lo) / 2) * s + G / 2) ∧ p * s + (-((hi + lo) / 2) * s + G / 2) ≤ G - b / 2 := by
  have hwpos : 0 < w := by
    rw [hw]; split
    · norm_num
    · rename_i hne
      rcases lt_or_eq_of_le (show 0 ≤ hi - lo by linarith) with h | h
      · exact h
      · exact absurd h.symm hne
  have hwle : hi - lo ≤ w := by
    rw [hw]; split
    · rename_i h; rw [h]; norm_num
    · exact le_refl _
  have hsw : s * w ≤ G - b := by
    rw [le_div_iff₀ hwpos] at hs; exact hs
  have e : p * s + (-((hi + lo) / 2) * s + G / 2) = (p - (hi + lo) / 2) * s + G / 2 := by ring
  rw [e]
  have k1 : (p - (hi + lo) / 2) * s ≤ (w / 2) * s := mul_le_mul_of_nonneg_right (by linarith) hs0
  have k2 : -(w / 2) * s ≤ (p - (hi + lo) / 2) * s := mul_le_mul_of_nonneg_right (by linarith) hs0
  constructor <;> nlinarith

/-- C63: a point inside the extents is drawn inside the bitmap, half the buffer away from its edges. -/
theorem C63_scaled_margin (left top right bottom b x y : ℚ) (stride h : Nat) (hx1 : left ≤ x) (hx2 : x ≤ right) (hy1 : top ≤ y)
    (hy2 : y ≤ bottom) (hb : 0 < b) (hb1 : b ≤ stride * 8) (hb2 : b ≤ h) (hs : 0 < stride) :
    ∃ px py : Nat, scaledPixel left top right bottom (stride * h) stride b x y = ((px : Int), (py : Int)) ∧
      (b / 2 ≤ px + 1 ∧ px ≤ (stride : ℚ) * 8 - b / 2) ∧ (b / 2 ≤ py + 1 ∧ py ≤ (h : ℚ) - b / 2) := by
  have hgh : (((stride * h : Nat) : ℚ) / stride) = h := by
    push_cast
    field_simp
  unfold scaledPixel
  simp only [hgh]
  generalize hw : (if right - left = 0 then 1 else right - left : ℚ) = w
  generalize hh : (if bottom - top = 0 then 1 else bottom - top : ℚ) = v
  have pos : ∀ (lo hi w : ℚ), lo ≤ hi → (if hi - lo = 0 then 1 else hi - lo : ℚ) = w → 0 < w := by
    intro lo hi w hle hw
    rw [← hw]; split
    · norm_num
    · rename_i hne
      rcases lt_or_eq_of_le (show 0 ≤ hi - lo by linarith) with h | h
      · exact h
      · exact absurd h.symm hne
  have hwp := pos left right w (by linarith) hw
  have hvp := pos top bottom v (by linarith) hh
  have hs0 : 0 ≤ min ((stride * 8 - b) / w) (((h : ℚ) - b) / v) :=
    le_min (div_nonneg (by linarith) hwp.le) (div_nonneg (by linarith) hvp.le)
  have ax := axis hx1 hx2 hw.symm hs0 (min_le_left _ _)
  have ay := axis hy1 hy2 hh.symm hs0 (min_le_right _ _)
  have fl : ∀ (q G : ℚ), b / 2 ≤ q → q ≤ G - b / 2 → ∃ k : Nat, q.floor = (k : Int) ∧ b / 2 ≤ k + 1 ∧ (k : ℚ) ≤ G - b / 2 := by
    intro q G h0 h1
    have q0 : 0 ≤ q := by linarith
    have a : 0 ≤ q.floor := Int.floor_nonneg.2 q0
    have e : ((q.floor.toNat : Nat) : ℚ) = (q.floor : ℚ) := by exact_mod_cast Int.toNat_of_nonneg a
    refine ⟨q.floor.toNat, by omega, ?_, ?_⟩
    · rw [e]; linarith [lt_floor' q]
    · rw [e]; linarith [floor_le' q]
  obtain ⟨px, e1, l1⟩ := fl _ _ ax.1 ax.2
  obtain ⟨py, e2, l2⟩ := fl _ _ ay.1 ay.2
  exact ⟨px, py, by rw [e1, e2], l1, l2⟩

/-- C63: a point inside the extents is drawn inside the bitmap. -/
theorem C63_scaled_inside (left top right bottom b x y : ℚ) (stride h : Nat) (hx1 : left ≤ x) (hx2 : x ≤ right) (hy1 : top ≤ y)
    (hy2 : y ≤ bottom) (hb : 0 < b) (hb1 : b ≤ stride * 8) (hb2 : b ≤ h) (hs : 0 < stride) :
    ∃ px py : Nat, scaledPixel left top right bottom (stride * h) stride b x y = ((px : Int), (py : Int)) ∧
      px < 8 * stride ∧ py < h := by
  obtain ⟨px, py, e, h1, h2⟩ := C63_scaled_margin left top right bottom b x y stride h hx1 hx2 hy1 hy2 hb hb1 hb2 hs
  refine ⟨px, py, e, ?_, ?_⟩
  · have : (px : ℚ) < ((8 * stride : Nat) : ℚ) := by push_cast; linarith [h1.2]
    exact_mod_cast this
  · have : (py : ℚ) < (h : ℚ) := by linarith [h2.2]
    exact_mod_cast this

/-- C63: drawing points inside the extents marks exactly their pixels. -/
theorem C63_drawn (left top right bottom b : ℚ) (stride h : Nat) (hb : 0 < b) (hb1 : b ≤ stride * 8) (hb2 : b ≤ h) (hs : 0 < stride)
    (points : List (ℚ × ℚ)) (hp : ∀ p ∈ points, left ≤ p.1 ∧ p.1 ≤ right ∧ top ≤ p.2 ∧ p.2 ≤ bottom)
    (g : List Nat) (hg : g.length = stride * h) :
    (drawScaled left top right bottom stride b points g).length = stride * h ∧
    ∀ x y : Nat, x < 8 * stride → (pixel (drawScaled left top right bottom stride b points g) stride x y = true ↔
      pixel g stride x y = true ∨
      ∃ p ∈ points, scaledPixel left top right bottom (stride * h) stride b p.1 p.2 = ((x : Int), (y : Int))) := by
  induction points generalizing g with
  | nil => simp [drawScaled, hg]
  | cons p ps ih =>
    have ih := ih (fun q hq => hp q (by simp [hq]))
    obtain ⟨i1, i2, i3, i4⟩ := hp p (by simp)
    obtain ⟨px, py, e, l1, l2⟩ := C63_scaled_inside left top right bottom b p.1 p.2 stride h i1 i2 i3 i4 hb hb1 hb2 hs
    obtain ⟨g', e1, e2, e3, e4⟩ := C63_mark g stride h px py hg l1 l2
    have ed : drawScaled left top right bottom stride b (p :: ps) g = drawScaled left top right bottom stride b ps g' := by
      conv_lhs => unfold drawScaled
      rw [hg]
      simp only [e, e1]
    rw [ed]
    obtain ⟨j1, j2⟩ := ih g' (by rw [e2, hg])
    refine ⟨j1, fun x y hx => ?_⟩
    rw [j2 x y hx]
    by_cases hxy : (x, y) = (px, py)
    · injection hxy with ex ey
      subst ex; subst ey
      constructor
      · intro _; exact .inr ⟨p, by simp, e⟩
      · intro _; exact .inl e3
    · rw [e4 x y hx hxy]
      constructor
      · rintro (h | ⟨q, hq, h⟩)
        · exact .inl h
        · exact .inr ⟨q, by simp [hq], h⟩
      · rintro (h | ⟨q, hq, h⟩)
        · exact .inl h
        · rcases List.mem_cons.1 hq with rfl | hq
          · rw [e] at h
            exfalso; apply hxy
            simp only [Prod.mk.injEq] at h ⊢
            omega
          · exact .inr ⟨q, hq, h⟩

/-- The thumbnails `PecWriter.py` 99-111 draws: 6 bytes by 38 rows with a margin of 4 or 5. -/
example : (0 : ℚ) < 4 ∧ (4 : ℚ) ≤ ((6 : Nat) : ℚ) * 8 ∧ (4 : ℚ) ≤ ((38 : Nat) : ℚ) ∧
    scaledPixel 0 0 100 50 (6 * 38) 6 4 100 50 = (46, 30) := by
  refine ⟨by norm_num, by norm_num, by norm_num, by decide +kernel⟩

end PecGraphics
end Emb
