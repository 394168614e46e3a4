import Verif.Pmv
import Verif.Props.HeaderProps
import Verif.Props.StrikeProps

/-!
# C84: PMV files
-/

namespace Emb
namespace Pmv
open Readers

/-! ## Specification -/

/-- `top` and `bottom` are the least and the greatest `y` of the points. -/
structure Vertical (pts : List Stitch) (top bottom : ℚ) : Prop where
  within : ∀ a ∈ pts, top ≤ a.y ∧ a.y ≤ bottom
  top_mem : ∃ a ∈ pts, a.y = top
  bottom_mem : ∃ a ∈ pts, a.y = bottom

/-- The vertical factor: designs of more than 7 mm are made to fit. -/
def squeeze (top bottom : ℚ) : ℚ := if bottom - top ≤ 70 then 1 else 70 / (bottom - top)

/-- Consecutive points, starting at `x`, are at most `d` apart horizontally. -/
def Near (d : ℚ) : ℚ → List Stitch → Prop
  | _, [] => True
  | x, a :: l => |a.x - x| ≤ d ∧ Near d a.x l

/-! ## Proofs -/

theorem header_length : header.length = 100 := by decide +kernel

theorem scan_rest (rest : List Stitch) (h : ∀ a ∈ rest, a.cmd ≠ 0 ∧ a.cmd ≠ 1) (n : Nat) (lo hi : ℚ) : scan n lo hi rest = (n, lo, hi) := by
  induction rest with
  | nil => rfl
  | cons a rest ih =>
    obtain ⟨h0, h1⟩ := h a (by simp)
    rw [scan]
    have : ¬ (a.cmd = STITCH ∨ a.cmd = JUMP) := by rintro (h | h); exacts [h0 h, h1 h]
    simp only [if_neg this]
    rw [ih (fun x hx => h x (by simp [hx])), ite_self]

theorem scan_points (pts : List Stitch) (hc : ∀ a ∈ pts, a.cmd = 0 ∨ a.cmd = 1) (rest : List Stitch) (n : Nat) (lo hi : ℚ) (hn : n + pts.length ≤ 100)
    (hr : n + pts.length = 100 ∧ pts ≠ [] ∨ ∀ a ∈ rest, a.cmd ≠ 0 ∧ a.cmd ≠ 1) :
    scan n lo hi (pts ++ rest) = (n + pts.length, pts.foldl (fun m a => if -a.y < m then -a.y else m) lo,
      pts.foldl (fun m a => if -a.y > m then -a.y else m) hi) := by
  induction pts generalizing n lo hi with
  | nil =>
    have hr : ∀ a ∈ rest, a.cmd ≠ 0 ∧ a.cmd ≠ 1 := by
      rcases hr with h | h
      · exact absurd rfl h.2
      · exact h
    exact scan_rest rest hr n lo hi
  | cons a pts ih =>
    rw [List.length_cons] at hn hr
    have hp : a.cmd = STITCH ∨ a.cmd = JUMP := hc a (by simp)
    rw [List.cons_append, scan]
    simp only [if_pos hp]
    by_cases h : n + 1 ≥ 100
    · rw [if_pos h]
      have : pts = [] := List.eq_nil_of_length_eq_zero (by omega)
      subst this
      rfl
    · rw [if_neg h, ih (fun x hx => hc x (by simp [hx])) (n + 1) _ _ (by omega)]
      · simp only [List.length_cons, List.foldl_cons]
        rw [add_assoc, add_comm 1]
      · rcases hr with hr | hr
        · left
          refine ⟨by omega, ?_⟩
          rintro rfl
          simp only [List.length_nil] at hr
          omega
        · exact .inr hr

theorem fold_min_le (pts : List Stitch) (lo : ℚ) : pts.foldl (fun m a => if -a.y < m then -a.y else m) lo ≤ lo ∧
    (∀ a ∈ pts, pts.foldl (fun m a => if -a.y < m then -a.y else m) lo ≤ -a.y) ∧
    (pts.foldl (fun m a => if -a.y < m then -a.y else m) lo = lo ∨ ∃ a ∈ pts, pts.foldl (fun m a => if -a.y < m then -a.y else m) lo = -a.y) := by
  induction pts generalizing lo with
  | nil => simp
  | cons b pts ih =>
    obtain ⟨h1, h2, h3⟩ := ih (if -b.y < lo then -b.y else lo)
    have hl : (if -b.y < lo then -b.y else lo) ≤ lo ∧ (if -b.y < lo then -b.y else lo) ≤ -b.y := by split_ifs <;> constructor <;> linarith
    rw [List.foldl_cons]
    refine ⟨h1.trans hl.1, ?_, ?_⟩
    · intro a ha
      rcases List.mem_cons.1 ha with rfl | ha
      · exact h1.trans hl.2
      · exact h2 a ha
    · rcases h3 with h3 | ⟨a, ha, h3⟩
      · by_cases h : -b.y < lo
        · right
          rw [h3]
          exact ⟨b, by simp, if_pos h⟩
        · left
          rw [h3]
          exact if_neg h
      · exact .inr ⟨a, by simp [ha], h3⟩

theorem fold_min (pts : List Stitch) (top bottom : ℚ) (h : Vertical pts top bottom) (lo : ℚ) (hlo : -bottom ≤ lo) :
    pts.foldl (fun m a => if -a.y < m then -a.y else m) lo = -bottom := by
  obtain ⟨h1, h2, h3⟩ := fold_min_le pts lo
  obtain ⟨b, hb, eb⟩ := h.bottom_mem
  have := h2 b hb
  rw [eb] at this
  refine le_antisymm this ?_
  rcases h3 with h3 | ⟨a, ha, h3⟩
  · rw [h3]; exact hlo
  · rw [h3]; have := (h.within a ha).2; linarith

theorem fold_max (pts : List Stitch) (top bottom : ℚ) (h : Vertical pts top bottom) (hi : ℚ) (hhi : hi ≤ -top) :
    pts.foldl (fun m a => if -a.y > m then -a.y else m) hi = -top := by
  have key : ∀ (pts : List Stitch) (hi : ℚ), pts.foldl (fun m a => if -a.y > m then -a.y else m) hi =
      -((pts.map (fun a => (⟨a.x, -a.y, a.cmd⟩ : Stitch))).foldl (fun m a => if -a.y < m then -a.y else m) (-hi)) := by
    intro pts
    induction pts with
    | nil => intro hi; simp
    | cons a pts ih =>
      intro hi
      rw [List.foldl_cons, ih, List.map_cons, List.foldl_cons]
      congr 2
      show -(if -a.y > hi then -a.y else hi) = if - -a.y < -hi then - -a.y else -hi
      by_cases c : -a.y > hi
      · rw [if_pos c, if_pos (by linarith)]
      · rw [if_neg c, if_neg (by linarith)]
  rw [key, fold_min _ (-bottom) (-top) ⟨?_, ?_, ?_⟩ (-hi) (by linarith)]
  · ring
  · intro a ha
    obtain ⟨b, hb, rfl⟩ := List.mem_map.1 ha
    have := h.within b hb
    exact ⟨neg_le_neg this.2, neg_le_neg this.1⟩
  · obtain ⟨b, hb, e⟩ := h.bottom_mem
    exact ⟨_, List.mem_map.2 ⟨b, hb, rfl⟩, by rw [← e]⟩
  · obtain ⟨b, hb, e⟩ := h.top_mem
    exact ⟨_, List.mem_map.2 ⟨b, hb, rfl⟩, by rw [← e]⟩

/-- How a point read corresponds to a point written. -/
def Close (center scale : ℚ) (a b : Stitch) : Prop :=
  b.cmd = 0 ∧ |b.x - a.x| ≤ 5 / 4 ∧ |b.y - 5 / 2 * scale * (a.y + center)| ≤ 5 / 4

theorem block_points (center scale : ℚ) (pts : List Stitch) (hc : ∀ a ∈ pts, a.cmd = 0 ∨ a.cmd = 1) (rest : Bytes)
    (hy : ∀ a ∈ pts, |(-a.y - center) * scale| ≤ 14) : ∀ (xx lo hi : Int) (x0 py : ℚ), |(xx : ℚ) - 2 / 5 * x0| ≤ 1 / 2 → Near 75 x0 pts →
    ∃ out px' py', block pts.length (xx * (5 / 2)) py ((points center scale xx lo hi pts).1 ++ rest) = .ok (out, px', py', rest) ∧
      List.Forall₂ (Close center scale) pts out := by
  induction pts with
  | nil => intro xx lo hi x0 py _ _; exact ⟨[], _, _, rfl, .nil⟩
  | cons a pts ih =>
    intro xx lo hi x0 py hxx hnear
    obtain ⟨hd, hnear⟩ := hnear
    have hp : cmdOf a.cmd = STITCH ∨ cmdOf a.cmd = JUMP := by
      rcases hc a (by simp) with h | h <;> rw [h]
      · exact .inl rfl
      · exact .inr rfl
    have hy' := hy a (by simp)
    have ih := ih (fun x hx => hc x (by simp [hx])) (fun x hx => hy x (by simp [hx]))
    rw [points]
    simp only [if_pos hp]
    generalize hyv : pyRound ((-a.y - center) * scale) = y
    generalize hxv : pyRound (a.x * (2 / 5) - xx) = x
    have rx := pyRound_abs (a.x * (2 / 5) - xx)
    have ry := pyRound_abs ((-a.y - center) * scale)
    rw [hxv] at rx
    rw [hyv] at ry
    rw [abs_le] at rx ry hy' hd hxx
    have bx : -31 ≤ x ∧ x ≤ 31 := by
      have h1 : (x : ℚ) < 32 := by linarith
      have h2 : (-32 : ℚ) < x := by linarith
      constructor
      · have : (-32 : Int) < x := by exact_mod_cast h2
        omega
      · have : x < (32 : Int) := by exact_mod_cast h1
        omega
    have by_ : -14 ≤ y ∧ y ≤ 14 := by
      have h1 : (y : ℚ) < 15 := by linarith
      have h2 : (-15 : ℚ) < y := by linarith
      constructor
      · have : (-15 : Int) < y := by exact_mod_cast h2
        omega
      · have : y < (15 : Int) := by exact_mod_cast h1
        omega
    obtain ⟨out, px', py', e1, e2⟩ := ih (xx + x) (if y < lo then y else lo) (if y > hi then y else hi) a.x (y * (-5 / 2))
      (by rw [abs_le]; push_cast; constructor <;> linarith) hnear
    refine ⟨⟨((xx + x : Int) : ℚ) * (5 / 2), y * (-5 / 2), STITCH⟩ :: out, px', py', ?_, .cons ?_ e2⟩
    · rw [List.length_cons]
      have ex : (if (if x < 0 then x + 64 else x) % 256 > 32 then -(64 - (if x < 0 then x + 64 else x) % 256) else (if x < 0 then x + 64 else x) % 256) = x := by
        split_ifs <;> omega
      have ey : (if (if y < 0 then y + 32 else y) % 256 > 16 then -(32 - (if y < 0 then y + 32 else y) % 256) else (if y < 0 then y + 32 else y) % 256) = y := by
        split_ifs <;> omega
      show block (pts.length + 1) _ py ((if x < 0 then x + 64 else x) % 256 :: (if y < 0 then y + 32 else y) % 256 :: _ ++ rest) = _
      rw [List.cons_append, List.cons_append, block]
      simp only [ex, ey]
      have eq : (xx : ℚ) * (5 / 2) + x * (5 / 2) = ((xx + x : Int) : ℚ) * (5 / 2) := by push_cast; ring
      rw [eq]
      exact congrArg (Except.map (fun r => ((⟨((xx + x : Int) : ℚ) * (5 / 2), y * (-5 / 2), STITCH⟩ : Stitch) :: r.1, r.2))) e1
    · refine ⟨rfl, ?_, ?_⟩
      · rw [abs_le]
        push_cast
        constructor <;> linarith
      · rw [abs_le]
        constructor <;> linarith

theorem read_end (px py : ℚ) (n : Nat) (t : Bytes) : loop pmvStep (n + 1) (px, py) (writeInt16le 0 ++ writeInt16le 256 ++ t) =
    some (.ok [⟨px, py, END⟩]) := by
  rfl

theorem read_points (px py : ℚ) (n : Nat) (k : Nat) (hk : k ≤ 100) (b t : Bytes) (out : List Stitch) (px' py' : ℚ)
    (h : block k px py (b ++ (writeInt16le 0 ++ writeInt16le 256 ++ t)) = .ok (out, px', py', writeInt16le 0 ++ writeInt16le 256 ++ t)) :
    loop pmvStep (n + 2) (px, py) (writeInt16le k ++ writeInt16le (k * 2) ++ b ++ (writeInt16le 0 ++ writeInt16le 256 ++ t)) =
    some (.ok (out ++ [⟨px', py', END⟩])) := by
  have e : pmvStep (px, py) (writeInt16le k ++ writeInt16le (k * 2) ++ b ++ (writeInt16le 0 ++ writeInt16le 256 ++ t)) =
      .again out (px', py') (writeInt16le 0 ++ writeInt16le 256 ++ t) := by
    have r1 : ∀ (v : Int) (r : Bytes), readInt16le (writeInt16le v ++ r) = (some (v % 2 ^ 16), r) := fun v r => (C02_read_write v r).2.1
    rw [pmvStep, List.append_assoc, List.append_assoc, r1]
    simp only [r1]
    have hc : ((k : Int) % 2 ^ 16) = k := by omega
    rw [if_neg (by omega), hc, Int.toNat_natCast, h]
  rw [loop, e]
  show Option.map _ (loop pmvStep (n + 1) (px', py') _) = _
  rw [read_end]
  rfl

/-! ## C84 -/

/-- **C84** (partial). A pattern whose stitches and jumps come first — at most 100 of them, or 100 and then anything — no two neighbours
of which, nor the first and the origin, are more than 7.5 mm apart horizontally, is written to a PMV file that reads back as that many
stitches and an END. Each is within an eighth of a millimetre of the point written horizontally; the error does not add up. Vertically
each is within an eighth of a millimetre of the distance from the middle of the design, which is drawn 7 mm high if it was higher.

Missing: a design with other commands between the points (false, `C84_trim_fails`), with jumps of 8 mm and more (false,
`C84_long_fails`). -/
theorem C84_roundtrip_partial (pts rest : List Stitch) (top bottom : ℚ) (hc : ∀ a ∈ pts, a.cmd = 0 ∨ a.cmd = 1)
    (hn : pts.length = 100 ∨ pts.length < 100 ∧ ∀ a ∈ rest, a.cmd ≠ 0 ∧ a.cmd ≠ 1) (hv : Vertical pts top bottom)
    (hb : -200000000 ≤ top ∧ bottom ≤ 200000000) (hx : Near 75 0 pts) (fuel : Nat) :
    ∃ out e, read (fuel + 2) (write (pts ++ rest)) = some (.ok (out ++ [e])) ∧ e.cmd = 4 ∧ out.length = pts.length ∧
      ∀ (i : Nat) (a b : Stitch), pts[i]? = some a → out[i]? = some b →
        b.cmd = 0 ∧ |b.x - a.x| ≤ 5 / 4 ∧ |b.y - squeeze top bottom * (a.y - (top + bottom) / 2)| ≤ 5 / 4 := by
  have hne : pts ≠ [] := by
    obtain ⟨a, ha, _⟩ := hv.top_mem
    exact List.ne_nil_of_mem ha
  have htb : top ≤ bottom := by
    obtain ⟨a, ha, rfl⟩ := hv.top_mem
    exact (hv.within a ha).2
  have hs : scan 0 200000000 (-200000000) (pts ++ rest) = (pts.length, -bottom, -top) := by
    rw [scan_points pts hc rest 0 _ _ (by omega), fold_min pts top bottom hv _ (by linarith), fold_max pts top bottom hv _ (by linarith), zero_add]
    rcases hn with h | h
    · exact .inl ⟨by omega, hne⟩
    · exact .inr h.2
  unfold read write
  simp only [hs]
  rw [List.take_left' rfl]
  generalize hcen : (-bottom + -top) / 2 = center
  generalize hsc : scaleY (-top - center) = scale
  have hscale : 5 / 2 * scale = squeeze top bottom ∧ ∀ y : ℚ, top ≤ y → y ≤ bottom → |(-y - center) * scale| ≤ 14 := by
    have hm : -top - center = (bottom - top) / 2 := by rw [← hcen]; ring
    rw [hm] at hsc
    unfold scaleY at hsc
    unfold squeeze
    by_cases h : bottom - top ≤ 70
    · rw [if_neg (by linarith)] at hsc
      rw [if_pos h, ← hsc]
      refine ⟨by norm_num, fun y h1 h2 => ?_⟩
      rw [abs_le, ← hcen]
      constructor <;> linarith
    · rw [if_pos (by linarith)] at hsc
      rw [if_neg h, ← hsc]
      have hp : 0 < bottom - top := by linarith
      refine ⟨by field_simp; norm_num, fun y h1 h2 => ?_⟩
      rw [abs_mul, abs_of_pos (show (0 : ℚ) < 14 / ((bottom - top) / 2) by positivity), ← mul_div_assoc, div_le_iff₀ (by linarith)]
      have : |-y - center| ≤ (bottom - top) / 2 := by
        rw [abs_le, ← hcen]
        constructor <;> linarith
      linarith
  obtain ⟨out, px', py', e1, e2⟩ := block_points center scale pts hc
    (writeInt16le 0 ++ writeInt16le 256 ++ ([0, 0, 0, 0, 5, 0, 0, 0, 0, 0, 0, 0, 0, 0, 2, 0] ++ writeInt16le 256 ++ writeInt8 0 ++ writeInt8 0 ++
    lengthTable ++ widthTable ((points center scale 0 200000000 (-200000000) pts).2.2 - (points center scale 0 200000000 (-200000000) pts).2.1) ++
    writeInt16le 0x12 ++ List.replicate 16 0))
    (fun a ha => hscale.2 a.y (hv.within a ha).1 (hv.within a ha).2) 0 200000000 (-200000000) 0 0 (by norm_num) hx
  refine ⟨out, ⟨px', py', END⟩, ?_, rfl, e2.length_eq.symm, ?_⟩
  · have r := read_points 0 0 fuel pts.length (by omega) _ _ out px' py' (by simpa only [Int.cast_zero, zero_mul] using e1)
    have hd : ∀ t : Bytes, (header ++ t).drop 0x64 = t := fun t => List.drop_left' header_length
    simp only [List.append_assoc] at r ⊢
    rw [hd]
    exact r
  · intro i a b ha hb'
    obtain ⟨h1, h2, h3⟩ := List.forall₂_iff_get.1 e2 |>.2 i (List.getElem?_eq_some_iff.1 ha).1 (List.getElem?_eq_some_iff.1 hb').1 |> fun h => by
      simpa only [List.get_eq_getElem, (List.getElem?_eq_some_iff.1 ha).2, (List.getElem?_eq_some_iff.1 hb').2] using h
    refine ⟨h1, h2, ?_⟩
    have : squeeze top bottom * (a.y - (top + bottom) / 2) = 5 / 2 * scale * (a.y + center) := by
      rw [hscale.1, ← hcen]; ring
    rw [this]
    exact h3

/-- A trim between the points, and the file cannot be read: three points are announced and two written. -/
theorem C84_trim_fails : read 20 (write [⟨0, 0, 0⟩, ⟨0, 0, 2⟩, ⟨10, 0, 0⟩, ⟨20, 0, 0⟩, ⟨20, 0, 4⟩]) = some (.error .typeError) := by
  decide +kernel

/-- A jump of 10 mm to the right comes back as one of 6 mm to the left. -/
theorem C84_long_fails : read 20 (write [⟨0, 0, 0⟩, ⟨100, 0, 1⟩, ⟨110, 0, 0⟩, ⟨110, 0, 4⟩]) =
    some (.ok [⟨0, 0, 0⟩, ⟨-60, 0, 0⟩, ⟨-50, 0, 0⟩, ⟨-50, 0, 4⟩]) := by
  decide +kernel

/-- A file that ends early is read without an END. -/
theorem C84_cut_short : read 20 ((write [⟨0, 0, 0⟩, ⟨50, 100, 0⟩, ⟨-10, -40, 0⟩]).take 110) =
    some (.ok [⟨0, -15, 0⟩, ⟨50, 35, 0⟩, ⟨-10, -35, 0⟩]) := by
  decide +kernel

/-- A case of the theorem: a design 14 mm high comes back 7 mm high. -/
example : let pts : List Stitch := [⟨0, 0, 0⟩, ⟨50, 100, 0⟩, ⟨-10, -40, 0⟩, ⟨5, 20, 1⟩]
    (∀ a ∈ pts, a.cmd = 0 ∨ a.cmd = 1) ∧ Vertical pts (-40) 100 ∧ Near 75 0 pts ∧
    read 2 (write (pts ++ [⟨110, 0, 2⟩, ⟨110, 0, 4⟩])) =
      some (.ok [⟨0, -15, 0⟩, ⟨50, 35, 0⟩, ⟨-10, -35, 0⟩, ⟨5, -5, 0⟩, ⟨5, -5, 4⟩]) :=
  ⟨by decide +kernel, ⟨by decide +kernel, by decide +kernel, by decide +kernel⟩, by simp only [Near]; decide +kernel, by decide +kernel⟩

/-! ## The tables at the end of a file -/

/-- The value of two bytes, low byte first. -/
def le16 (lo hi : Int) : Int := lo + 256 * hi

/-- The rows of a table: two 16 bit values each. -/
def rows : Bytes → List (Int × Int)
  | a :: b :: c :: d :: rest => (le16 a b, le16 c d) :: rows rest
  | _ => []

theorem rows_write (v : Int × Int) (h1 : 0 ≤ v.1) (h2 : v.1 < 65536) (h3 : 0 ≤ v.2) (h4 : v.2 < 65536) (t : Bytes) : rows (writeInt16le v.1 ++ writeInt16le v.2 ++ t) = v :: rows t := by
  simp only [writeInt16le, List.cons_append, List.nil_append, rows, le16, lo8, shr]
  rw [List.cons.injEq]
  refine ⟨?_, rfl⟩
  ext <;> simp <;> omega

theorem rows_table (vs : List (Int × Int)) (h : ∀ v ∈ vs, 0 ≤ v.1 ∧ v.1 < 65536 ∧ 0 ≤ v.2 ∧ v.2 < 65536) :
    rows (vs.flatMap fun v => writeInt16le v.1 ++ writeInt16le v.2) = vs := by
  induction vs with
  | nil => rfl
  | cons v vs ih =>
    have := h v (by simp)
    rw [List.flatMap_cons, rows_write v this.1 this.2.1 this.2.2.1 this.2.2.2, ih (fun v hv => h v (by simp [hv]))]

/-- **C84**, the width table at the end of a file: it begins with the index of its last row and the number of its rows. For a design without height it is one row; otherwise there are 15, the second value
of row `i` being `i` times 2000 over the height, rounded. -/
theorem C84_width (r : Int) (hr : 0 ≤ r) : ∃ (n : Nat) (body : Bytes), widthTable r = [(n : Int) - 1, (n : Int)] ++ body ∧ (rows body).length = n ∧
    (r = 0 → rows body = [(8192, 1000)]) ∧
    (r ≠ 0 → n = 15 ∧ ∀ (i : Nat) v, (rows body)[i]? = some v → v.1 = 50 * i ∧ |(v.2 : ℚ) - 2000 * i / r| ≤ 1 / 2) := by
  unfold widthTable
  by_cases h : r = 0
  · rw [if_pos h]
    exact ⟨1, [0, 32, 232, 3], by decide +kernel, by decide +kernel, fun _ => by decide +kernel, fun h' => absurd h h'⟩
  · rw [if_neg h]
    have hr1 : (1 : ℚ) ≤ r := by exact_mod_cast (by omega : (1 : Int) ≤ r)
    have e : (List.range 15).flatMap (fun i : Nat => writeInt16le (50 * i) ++ writeInt16le (pyRound (28000 / (r : ℚ) / 14 * i))) =
        ((List.range 15).map fun i : Nat => ((50 * i : Int), pyRound (28000 / (r : ℚ) / 14 * i))).flatMap fun v => writeInt16le v.1 ++ writeInt16le v.2 := by
      rw [List.flatMap_map]
    have key := rows_table ((List.range 15).map fun i : Nat => ((50 * i : Int), pyRound (28000 / (r : ℚ) / 14 * i))) (by
      intro v hv
      obtain ⟨i, hi, rfl⟩ := List.mem_map.1 hv
      have hi := List.mem_range.1 hi
      have h1 := pyRound_abs (28000 / (r : ℚ) / 14 * i)
      have hi' : (i : ℚ) ≤ 14 := by exact_mod_cast (by omega : i ≤ 14)
      have h2 : 28000 / (r : ℚ) ≤ 28000 := div_le_self (by norm_num) hr1
      have h3 : 0 ≤ 28000 / (r : ℚ) := by positivity
      have h4 : 0 ≤ 28000 / (r : ℚ) / 14 * i := by positivity
      have h5 : 28000 / (r : ℚ) / 14 * i ≤ 28000 := by nlinarith [show (0 : ℚ) ≤ i by positivity]
      rw [abs_le] at h1
      have h6 : (-1 : ℚ) < (pyRound (28000 / (r : ℚ) / 14 * i) : ℚ) := by linarith [h1.1]
      have h7 : (pyRound (28000 / (r : ℚ) / 14 * i) : ℚ) < 65536 := by linarith [h1.2]
      have h8 : (-1 : Int) < pyRound (28000 / (r : ℚ) / 14 * i) := by exact_mod_cast h6
      have h9 : pyRound (28000 / (r : ℚ) / 14 * i) < 65536 := by exact_mod_cast h7
      dsimp only
      omega)
    rw [e]
    refine ⟨15, _, rfl, by rw [key]; simp, fun h' => absurd h' h, fun _ => ⟨rfl, fun i v hv => ?_⟩⟩
    rw [key, List.getElem?_map] at hv
    obtain ⟨j, hj, rfl⟩ := Option.map_eq_some_iff.1 hv
    have hi : i < 15 := by
      have := (List.getElem?_eq_some_iff.1 hj).1
      simpa using this
    rw [List.getElem?_range hi, Option.some.injEq] at hj
    subst hj
    refine ⟨rfl, ?_⟩
    have := pyRound_abs (28000 / (r : ℚ) / 14 * i)
    have e2 : (2000 : ℚ) * i / r = 28000 / (r : ℚ) / 14 * i := by field_simp; ring
    rw [e2]
    exact this

/-- **C84**, the length table: 18 rows, growing in both columns. -/
theorem C84_length : ∃ body, lengthTable = [17, 18] ++ body ∧ (rows body).length = 18 ∧ (rows body).Pairwise (fun a b => a.1 < b.1 ∧ a.2 < b.2) := by
  refine ⟨lengthTable.drop 2, by decide +kernel, by decide +kernel, by decide +kernel⟩

-- the width table of a design of the full height
example : ∃ body, widthTable 28 = [14, 15] ++ body ∧ rows body = [(0, 0), (50, 71), (100, 143), (150, 214), (200, 286), (250, 357), (300, 429), (350, 500), (400, 571), (450, 643), (500, 714),
    (550, 786), (600, 857), (650, 929), (700, 1000)] := ⟨(widthTable 28).drop 2, by decide +kernel, by decide +kernel⟩

end Pmv
end Emb
