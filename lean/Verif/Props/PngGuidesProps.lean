import Verif.PngGuides
import Verif.Decimal
import Verif.Props.PngProps
import Mathlib.Tactic.IntervalCases

/-!
# C102: the ruler along the edges of a PNG picture
-/

namespace Emb
namespace Png

/-- The pixel at column `x` of row `y`. -/
def pixelAt (w : Int) (buf : List Pixel) (p : Int × Int) : Option Pixel := buf[(w * p.2 + p.1).toNat]?

/-- A place of a picture of size `w × h`. -/
def InPicture (w h : Int) (p : Int × Int) : Prop := 0 ≤ p.1 ∧ p.1 < w ∧ 0 ≤ p.2 ∧ p.2 < h

/-- The picture whose pixels are given by `F`. -/
def Is (w h : Int) (F : Int × Int → Pixel) (buf : List Pixel) : Prop :=
  buf.length = (w * h).toNat ∧ ∀ p, InPicture w h p → pixelAt w buf p = some (F p)

/-- A change of the picture that looks only at the pixel itself. -/
abbrev Op := Int × Int → Pixel → Pixel

/-- The pixel at `p` after some changes. -/
def after (ops : List Op) (F : Int × Int → Pixel) (p : Int × Int) : Pixel := ops.foldl (fun px o => o p px) (F p)

theorem after_nil (F : Int × Int → Pixel) : after [] F = F := rfl

theorem after_append (A B : List Op) (F : Int × Int → Pixel) : after (A ++ B) F = after B (after A F) := by
  funext p; simp [after, List.foldl_append]

theorem index_lt {w h : Int} {p : Int × Int} (hp : InPicture w h p) : 0 ≤ w * p.2 + p.1 ∧ w * p.2 + p.1 < w * h := by
  obtain ⟨a, b, c, d⟩ := hp
  have h1 : 0 ≤ w * p.2 := mul_nonneg (by omega) c
  have h2 : w * (p.2 + 1) ≤ w * h := mul_le_mul_of_nonneg_left (by omega) (by omega)
  have h3 : w * (p.2 + 1) = w * p.2 + w := by ring
  omega

theorem is_any {w h : Int} {buf : List Pixel} (hl : buf.length = (w * h).toNat) :
    Is w h (fun p => (pixelAt w buf p).getD ⟨0, 0, 0, 0⟩) buf := by
  refine ⟨hl, fun p hp => ?_⟩
  have := index_lt hp
  have h2 : (w * p.2 + p.1).toNat < buf.length := by omega
  simp [pixelAt, List.getElem?_eq_getElem h2]

/-- A pixel of a character. -/
def cellOp (gx gy v : Int) : Op := fun p px => if p = (gx, gy) then blend v px else px

theorem cell_is {w h : Int} {F : Int × Int → Pixel} {buf : List Pixel} (hF : Is w h F buf) {gx gy v : Int} (hp : InPicture w h (gx, gy))
    (hv : v ≠ 9) : ∃ buf', drawCell w gx gy v buf = .ok buf' ∧ Is w h (after [cellOp gx gy v] F) buf' := by
  have hi := index_lt hp
  have hold := hF.2 _ hp
  unfold pixelAt at hold
  have hlt := (List.getElem?_eq_some_iff.1 hold).1
  simp only at hi hold hlt
  have e : drawCell w gx gy v buf = .ok (buf.set (w * gy + gx).toNat (blend v (F (gx, gy)))) := by
    unfold drawCell pyGet
    simp only [if_neg hv, if_neg (show ¬ w * gy + gx < 0 by omega), hold]
    rfl
  refine ⟨_, e, by rw [List.length_set]; exact hF.1, fun p q => ?_⟩
  unfold pixelAt
  rw [List.getElem?_set]
  have hj := index_lt q
  simp only [after, List.foldl_cons, List.foldl_nil, cellOp]
  by_cases c : p = (gx, gy)
  · rw [c, if_pos rfl, if_pos hlt, if_pos rfl]
  · rw [if_neg, if_neg c]
    · exact hF.2 p q
    · intro d
      have d : w * gy + gx = w * p.2 + p.1 := by omega
      obtain ⟨i1, i2⟩ := index_inj hp.1 hp.2.1 q.1 q.2.1 d
      exact c (Prod.ext i1.symm i2.symm)

/-- The table: 13 rows of 9 numbers from 0 (black) to 9 (nothing). -/
theorem glyph_table : ∀ p ∈ glyphs, p.2.length = 13 ∧ ∀ r ∈ cells p.2, r.1 ≤ 8 ∧ r.2.1 ≤ 12 ∧ 0 ≤ r.2.2 ∧ r.2.2 ≤ 9 := by
  decide +kernel

theorem lookup_mem {α β : Type} [BEq α] [LawfulBEq α] (l : List (α × β)) (a : α) (b : β) (h : l.lookup a = some b) : (a, b) ∈ l := by
  induction l with
  | nil => simp at h
  | cons p l ih =>
    obtain ⟨k, v⟩ := p
    rw [List.lookup_cons] at h
    split at h
    · next hk =>
      have : a = k := by simpa using hk
      cases h; rw [this]; simp
    · exact List.mem_cons_of_mem _ (ih h)

/-- Where the pixel `(cx, cy)` of the `k`-th character of a text at `(x, y)` is: each character takes 11 columns; turned, 11 rows,
the characters lying on their side with the head to the right. -/
def place (rotate : Bool) (x y : Int) (k cx cy : Nat) : Int × Int :=
  if rotate then (x + 14 - cy, y + 11 * k + cx + 2) else (x + 11 * k + cx + 2, y + cy + 2)

/-- The changes made by a text. -/
def textOps (rotate : Bool) (x y : Int) (s : Str) : List Op :=
  s.zipIdx.flatMap (fun p => ((cells ((glyphs.lookup p.1).getD [])).filter (fun c => c.2.2 ≠ 9)).map (fun c =>
    cellOp (place rotate x y p.2 c.1 c.2.1).1 (place rotate x y p.2 c.1 c.2.1).2 c.2.2))

theorem cells_is {w h : Int} (rotate : Bool) (x y : Int) (L : List (Nat × Nat × Int))
    (hin : ∀ c ∈ L, InPicture w h (place rotate x y 0 c.1 c.2.1)) :
    ∀ (F : Int × Int → Pixel) (buf : List Pixel), Is w h F buf →
    ∃ buf', L.foldlM (fun buf p => if rotate then drawCell w (x + (13 - p.2.1) + 1) (y + p.1 + 2) p.2.2 buf
        else drawCell w (x + p.1 + 2) (y + p.2.1 + 2) p.2.2 buf) buf = .ok buf' ∧
      Is w h (after ((L.filter (fun c => c.2.2 ≠ 9)).map (fun c =>
        cellOp (place rotate x y 0 c.1 c.2.1).1 (place rotate x y 0 c.1 c.2.1).2 c.2.2)) F) buf' := by
  induction L with
  | nil => intro F buf hF; exact ⟨buf, rfl, hF⟩
  | cons c L ih =>
    intro F buf hF
    have ih := ih (fun c hc => hin c (by simp [hc]))
    rw [List.foldlM_cons]
    have hd : (if rotate then drawCell w (x + (13 - c.2.1) + 1) (y + c.1 + 2) c.2.2 buf
        else drawCell w (x + c.1 + 2) (y + c.2.1 + 2) c.2.2 buf) =
        drawCell w (place rotate x y 0 c.1 c.2.1).1 (place rotate x y 0 c.1 c.2.1).2 c.2.2 buf := by
      unfold place
      cases rotate
      · simp
      · simp only [if_true]
        congr 1
        · ring
        · push_cast; ring
    rw [hd]
    by_cases h9 : c.2.2 = 9
    · have : drawCell w (place rotate x y 0 c.1 c.2.1).1 (place rotate x y 0 c.1 c.2.1).2 c.2.2 buf = .ok buf := by
        unfold drawCell; rw [if_pos h9]
      rw [this, List.filter_cons_of_neg (by simp [h9])]
      exact ih F buf hF
    · obtain ⟨b1, e1, s1⟩ := cell_is (gx := (place rotate x y 0 c.1 c.2.1).1) (gy := (place rotate x y 0 c.1 c.2.1).2) hF (hin c (by simp)) h9
      obtain ⟨b2, e2, s2⟩ := ih _ _ s1
      rw [e1, List.filter_cons_of_pos (by simp [h9]), List.map_cons]
      refine ⟨b2, e2, ?_⟩
      rw [← List.singleton_append, after_append]
      exact s2

theorem place_shift (rotate : Bool) (x y : Int) (k cx cy : Nat) :
    place rotate x y (k + 1) cx cy = place rotate (if rotate then x else x + 11) (if rotate then y + 11 else y) k cx cy := by
  unfold place
  cases rotate <;> simp <;> ring

theorem textOps_cons (rotate : Bool) (x y : Int) (c : Char) (s : Str) : textOps rotate x y (c :: s) =
    ((cells ((glyphs.lookup c).getD [])).filter (fun c => c.2.2 ≠ 9)).map (fun c =>
      cellOp (place rotate x y 0 c.1 c.2.1).1 (place rotate x y 0 c.1 c.2.1).2 c.2.2) ++
    textOps rotate (if rotate then x else x + 11) (if rotate then y + 11 else y) s := by
  unfold textOps
  rw [List.zipIdx_cons', List.flatMap_cons, List.flatMap_map]
  simp only [Prod.map, id, Function.comp, place_shift]

/-- A text whose characters are known and that has room in the picture. -/
theorem text_is {w h : Int} (rotate : Bool) (s : Str) (hs : ∀ c ∈ s, (glyphs.lookup c).isSome) :
    ∀ (x y : Int), 0 ≤ x → 0 ≤ y → (if rotate then x + 14 < w ∧ y + 11 * s.length ≤ h else x + 11 * s.length ≤ w ∧ y + 14 < h) →
    ∀ (F : Int × Int → Pixel) (buf : List Pixel), Is w h F buf →
    ∃ buf', drawText w rotate x y s buf = .ok buf' ∧ Is w h (after (textOps rotate x y s) F) buf' := by
  induction s with
  | nil => intro x y _ _ _ F buf hF; exact ⟨buf, rfl, hF⟩
  | cons c s ih =>
    intro x y hx hy hr F buf hF
    obtain ⟨m, hm⟩ := Option.isSome_iff_exists.1 (hs c (by simp))
    obtain ⟨hlen, hcells⟩ := glyph_table _ (lookup_mem _ _ _ hm)
    simp only at hlen hcells
    obtain ⟨b1, e1, s1⟩ := cells_is (w := w) (h := h) rotate x y (cells m) (by
      intro r hr'
      obtain ⟨q1, q2, _, _⟩ := hcells r hr'
      unfold place InPicture
      rw [List.length_cons] at hr
      cases rotate
      · simp only [Bool.false_eq_true, if_false] at hr ⊢
        refine ⟨?_, ?_, ?_, ?_⟩ <;> push_cast at hr ⊢ <;> omega
      · simp only [if_true] at hr ⊢
        refine ⟨?_, ?_, ?_, ?_⟩ <;> push_cast at hr ⊢ <;> omega) F buf hF
    rw [textOps_cons, after_append, hm]
    simp only [Option.getD_some]
    unfold drawText
    simp only [hm, hlen]
    push_cast
    rw [e1]
    obtain ⟨b2, e2, s2⟩ := ih (fun c hc => hs c (by simp [hc])) (if rotate then x else x + 11) (if rotate then y + 11 else y)
      (by split <;> omega) (by split <;> omega) (by
        rw [List.length_cons] at hr
        cases rotate
        · simp only [Bool.false_eq_true, if_false] at hr ⊢
          push_cast at hr; omega
        · simp only [if_true] at hr ⊢
          push_cast at hr; omega) _ _ s1
    refine ⟨b2, ?_, s2⟩
    cases rotate
    · exact e2
    · exact e2

/-- The change made by a line. -/
def lineOp (fancy : Bool) (p q : Int × Int) : Op := fun r px => (top (stroke 1 fancy (0, 0, 0) p q) (r.1 - 1, r.2 - 1)).getD px

theorem top_append (S T : List ((Int × Int) × Pixel)) (p : Int × Int) : top (S ++ T) p = (top T p).or (top S p) := by
  unfold top
  rw [List.filter_append, List.getLast?_append]
  cases ((T.filter _).getLast?) <;> simp

/-- Every picture is the result of some plots. -/
theorem shows_of_is {w h : Int} {F : Int × Int → Pixel} {buf : List Pixel} (hF : Is w h F buf) :
    ∃ S, Shows w h ⟨0, 0, 0, 0⟩ S buf ∧ ∀ x y, 0 ≤ x → x < w → 0 ≤ y → y < h → top S (x - 1, y - 1) = some (F (x, y)) := by
  let S : List ((Int × Int) × Pixel) :=
    (range (-1) (w - 1)).flatMap (fun x => (range (-1) (h - 1)).map (fun y => ((x, y), F (x + 1, y + 1))))
  have key : ∀ x y, 0 ≤ x → x < w → 0 ≤ y → y < h → top S (x - 1, y - 1) = some (F (x, y)) := by
    intro x y h1 h2 h3 h4
    have mr : ∀ a n : Int, 0 ≤ a → a < n → a - 1 ∈ range (-1) (n - 1) := by
      intro a n u v
      exact List.mem_map.2 ⟨a.toNat, List.mem_range.2 (by omega), by omega⟩
    have hm : ((x - 1, y - 1), F (x, y)) ∈ S := by
      refine List.mem_flatMap.2 ⟨x - 1, mr x w h1 h2, List.mem_map.2 ⟨y - 1, mr y h h3 h4, ?_⟩⟩
      simp
    unfold top
    cases e : (S.filter (fun s => decide (s.1 = (x - 1, y - 1)))).getLast? with
    | none =>
      rw [List.getLast?_eq_none_iff] at e
      have := List.filter_eq_nil_iff.1 e _ hm
      simp at this
    | some s =>
      obtain ⟨m1, m2⟩ := List.mem_filter.1 (List.mem_of_getLast? e)
      obtain ⟨a, _, m1⟩ := List.mem_flatMap.1 m1
      obtain ⟨b, _, m1⟩ := List.mem_map.1 m1
      subst m1
      simp only [decide_eq_true_eq, Prod.mk.injEq] at m2
      rw [m2.1, m2.2]
      simp
  refine ⟨S, ⟨hF.1, ?_⟩, key⟩
  intro x y h1 h2 h3 h4
  rw [key x y h1 h2 h3 h4]
  exact hF.2 (x, y) ⟨h1, h2, h3, h4⟩

theorem line_is {w h : Int} {P : Pen} (hP : P.red = 0 ∧ P.green = 0 ∧ P.blue = 0 ∧ P.alpha = 255 ∧ P.width = 1 ∧ P.grad = {})
    {p q : Int × Int} (hp : Inside w h p) (hq : Inside w h q) {fuel : Nat} (hf : max w h ≤ fuel)
    {F : Int × Int → Pixel} {buf : List Pixel} (hF : Is w h F buf) :
    ∃ buf', drawLine fuel P w p.1 p.2 q.1 q.2 buf = some (.ok buf') ∧ Is w h (after [lineOp P.fancy p q] F) buf' := by
  obtain ⟨S, hS, hT⟩ := shows_of_is hF
  obtain ⟨buf', e, s⟩ := line_shows (P := P) hP.2.2.2.1 (by rw [hP.1, hP.2.1, hP.2.2.1]; exact ⟨by decide, by decide, by decide⟩)
    (by rw [hP.2.2.2.2.1]; decide) hP.2.2.2.2.2 hp hq hf S buf hS
  refine ⟨buf', e, s.1, fun r hr => ?_⟩
  obtain ⟨a, b, c, d⟩ := hr
  unfold pixelAt
  rw [s.2 r.1 r.2 a b c d, top_append, hT r.1 r.2 a b c d]
  simp only [after, List.foldl_cons, List.foldl_nil, lineOp, hP.1, hP.2.1, hP.2.2.1, hP.2.2.2.2.1]
  cases top (stroke 1 P.fancy (0, 0, 0) p q) (r.1 - 1, r.2 - 1) <;> rfl

/-- Digits and the minus sign are in the table. -/
theorem dec_known (n : Int) : ∀ c ∈ dec n, (glyphs.lookup c).isSome := by
  have dig : ∀ m : Nat, ∀ c ∈ Nat.toDigits 10 m, (glyphs.lookup c).isSome := by
    intro m c hc
    have : c.isDigit = true := Nat.isDigit_of_mem_toDigits (by decide) (by decide) hc
    rw [Char.isDigit, Bool.and_eq_true, decide_eq_true_eq, decide_eq_true_eq] at this
    have h : 48 ≤ c.toNat ∧ c.toNat ≤ 57 := by
      exact ⟨this.1, this.2⟩
    have hcc : c = Char.ofNat c.toNat := (Char.ofNat_toNat c).symm
    have : ∀ k : Nat, 48 ≤ k → k ≤ 57 → (glyphs.lookup (Char.ofNat k)).isSome = true := by
      intro k h1 h2
      have : k < 58 := by omega
      interval_cases k <;> decide +kernel
    rw [hcc]
    exact this _ h.1 h.2
  intro c hc
  unfold dec at hc
  split at hc
  · rcases List.mem_cons.1 hc with rfl | hc
    · decide +kernel
    · exact dig _ c hc
  · exact dig _ c hc

/-- Where a mark should be: a multiple of five millimetres, not in the first 30 columns (rows) and not in the last ones. -/
def Mark (least size x : Int) : Prop := 30 ≤ x ∧ x < size - 30 ∧ (x + least) % 50 = 0

theorem mem_marks (least size x : Int) : x ∈ marks least size ↔ Mark least size x := by
  unfold marks range50 Mark
  simp only [List.mem_filter, List.mem_map, List.mem_range, decide_eq_true_eq]
  constructor
  · rintro ⟨⟨k, hk, rfl⟩, h⟩
    omega
  · rintro ⟨h1, h2, h3⟩
    exact ⟨⟨((x - (50 - least % 50)) / 50).toNat, by omega, by omega⟩, by omega⟩

theorem label_eq (least x : Int) (h : (x + least) % 50 = 0) : label least x = dec ((x + least) / 10) := by
  unfold label
  obtain ⟨k, hk⟩ := Int.dvd_of_emod_eq_zero h
  have e : (((x + least : Int) : ℚ) / 10) = ((5 * k : Int) : ℚ) := by rw [hk]; push_cast; ring
  rw [e, hk]
  congr 1
  have : 50 * k / 10 = 5 * k := by omega
  rw [this]
  unfold pyInt
  split
  · exact Rat.floor_intCast _
  · rw [← Int.cast_neg, Rat.floor_intCast]; omega

/-- The changes made for the marks `L`. -/
def marksOps (fancy : Bool) (least : Int) (across : Bool) (L : List Int) : List Op :=
  L.flatMap (fun x => textOps across (if across then x else 0) (if across then 0 else x) (dec ((x + least) / 10)) ++
    [lineOp fancy (if across then (x, 0) else (0, x)) (if across then (x, 30) else (30, x))])

theorem marks_is {w h : Int} {P : Pen} (hP : P.red = 0 ∧ P.green = 0 ∧ P.blue = 0 ∧ P.alpha = 255 ∧ P.width = 1 ∧ P.grad = {})
    (least : Int) (across : Bool) {fuel : Nat} (hf : max w h ≤ fuel) (h33 : 33 ≤ w ∧ 33 ≤ h) (L : List Int)
    (hL : ∀ x ∈ L, (30 ≤ x ∧ x < (if across then w else h) - 33 ∧ (x + least) % 50 = 0) ∧
      11 * ((dec ((x + least) / 10)).length : Int) ≤ if across then h else w) :
    ∀ (F : Int × Int → Pixel) (buf : List Pixel), Is w h F buf →
    ∃ buf', drawMarks fuel P w least across L buf = some (.ok buf') ∧ Is w h (after (marksOps P.fancy least across L) F) buf' := by
  induction L with
  | nil => intro F buf hF; exact ⟨buf, rfl, hF⟩
  | cons x L ih =>
    intro F buf hF
    obtain ⟨⟨h1, h2, h3⟩, h4⟩ := hL x (by simp)
    obtain ⟨b1, e1, s1⟩ := text_is (w := w) (h := h) across (dec ((x + least) / 10)) (dec_known _) (if across then x else 0)
      (if across then 0 else x) (by split <;> omega) (by split <;> omega) (by
        cases across
        · simp only [Bool.false_eq_true, if_false] at h2 h4 ⊢; omega
        · simp only [if_true] at h2 h4 ⊢; omega) F buf hF
    obtain ⟨b2, e2, s2⟩ := line_is (w := w) (h := h) hP (p := if across then (x, 0) else (0, x)) (q := if across then (x, 30) else (30, x))
      (by cases across
          · simp only [Bool.false_eq_true, if_false, Inside] at h2 ⊢; omega
          · simp only [if_true, Inside] at h2 ⊢; omega)
      (by cases across
          · simp only [Bool.false_eq_true, if_false, Inside] at h2 ⊢; omega
          · simp only [if_true, Inside] at h2 ⊢; omega) hf s1
    obtain ⟨b3, e3, s3⟩ := ih (fun x hx => hL x (by simp [hx])) _ _ s2
    refine ⟨b3, ?_, ?_⟩
    · unfold drawMarks
      rw [label_eq _ _ h3]
      cases across
      · simp only [Bool.false_eq_true, if_false] at e1 e2 ⊢
        rw [e1]; simp only; rw [e2]; exact e3
      · simp only [if_true] at e1 e2 ⊢
        rw [e1]; simp only; rw [e2]; exact e3
    · unfold marksOps at s3 ⊢
      rw [List.flatMap_cons, after_append, after_append]
      exact s3

/-- All changes made by the guides. -/
def guideOps (fancy : Bool) (minX minY width height : Int) : List Op :=
  textOps false 0 0 ['m', 'm'] ++ (marksOps fancy minX true (marks minX width) ++ marksOps fancy minY false (marks minY height))

/-- The text of every mark has room in the picture. -/
def Room (minX minY width height : Int) : Prop :=
  30 ≤ width ∧ 30 ≤ height ∧
  (∀ x, Mark minX width x → 11 * ((dec ((x + minX) / 10)).length : Int) ≤ height + 3) ∧
  (∀ y, Mark minY height y → 11 * ((dec ((y + minY) / 10)).length : Int) ≤ width + 3)

theorem guides_is {P : Pen} (hP : P.grad = {}) {box : Box} {minX minY width height : Int} (e1 : pyInt box.minX = minX)
    (e2 : pyInt box.minY = minY) (e3 : pyInt (box.maxX - box.minX) = width) (e4 : pyInt (box.maxY - box.minY) = height)
    (hR : Room minX minY width height) {fuel : Nat} (hf : max (width + 3) (height + 3) ≤ fuel)
    {F : Int × Int → Pixel} {buf : List Pixel} (hF : Is (width + 3) (height + 3) F buf) :
    ∃ buf', drawGuides fuel P box (width + 3) buf = some (.ok buf') ∧
      Is (width + 3) (height + 3) (after (guideOps P.fancy minX minY width height) F) buf' := by
  obtain ⟨r1, r2, r3, r4⟩ := hR
  obtain ⟨b1, q1, s1⟩ := text_is (w := width + 3) (h := height + 3) false ['m', 'm'] (by decide +kernel) 0 0 (by omega) (by omega)
    (by simp; omega) F buf hF
  obtain ⟨b2, q2, s2⟩ := marks_is (P := { P with red := 0, green := 0, blue := 0, alpha := 255, width := 1 })
    ⟨rfl, rfl, rfl, rfl, rfl, hP⟩ minX true hf (by omega) (marks minX width) (by
      intro x hx
      have hx := (mem_marks _ _ _).1 hx
      refine ⟨?_, r3 x hx⟩
      simp only [if_true]
      exact ⟨hx.1, by have := hx.2.1; omega, hx.2.2⟩) _ _ s1
  obtain ⟨b3, q3, s3⟩ := marks_is (P := { P with red := 0, green := 0, blue := 0, alpha := 255, width := 1 })
    ⟨rfl, rfl, rfl, rfl, rfl, hP⟩ minY false hf (by omega) (marks minY height) (by
      intro x hx
      have hx := (mem_marks _ _ _).1 hx
      refine ⟨?_, r4 x hx⟩
      simp only [Bool.false_eq_true, if_false]
      exact ⟨hx.1, by have := hx.2.1; omega, hx.2.2⟩) _ _ s2
  refine ⟨b3, ?_, ?_⟩
  · unfold drawGuides
    rw [e1, e2, e3, e4, q1]
    simp only
    rw [q2]
    exact q3
  · unfold guideOps
    rw [after_append, after_append]
    exact s3

/-! ## What the changes are -/

theorem after_keep {ops : List Op} {p : Int × Int} (h : ∀ o ∈ ops, ∀ px, o p px = px) (F : Int × Int → Pixel) : after ops F p = F p := by
  unfold after
  generalize F p = px
  induction ops with
  | nil => rfl
  | cons o ops ih => rw [List.foldl_cons, h o (by simp)]; exact ih (fun o ho => h o (by simp [ho]))

theorem after_has {ops : List Op} {p : Int × Int} {K : Pixel → Prop} (h : ∀ o ∈ ops, ∀ px, K px → K (o p px))
    (h' : ∃ o ∈ ops, ∀ px, K (o p px)) (F : Int × Int → Pixel) : K (after ops F p) := by
  have keep : ∀ ops : List Op, (∀ o ∈ ops, ∀ px, K px → K (o p px)) → ∀ px, K px → K (ops.foldl (fun px o => o p px) px) := by
    intro ops
    induction ops with
    | nil => intro _ px k; exact k
    | cons o ops ih => intro h px k; exact ih (fun o ho => h o (by simp [ho])) _ (h o (by simp) px k)
  unfold after
  generalize F p = px
  obtain ⟨o, ho, ht⟩ := h'
  obtain ⟨A, B, rfl⟩ := List.append_of_mem ho
  rw [List.foldl_append, List.foldl_cons]
  exact keep B (fun o ho => h o (by simp [ho])) _ (ht _)

/-- Black. -/
def Black (px : Pixel) : Prop := px = ⟨0, 0, 0, 255⟩

/-- The dark grey of a line. -/
def Dark (px : Pixel) : Prop := px.g = px.r ∧ px.b = px.r ∧ 0 ≤ px.r ∧ px.r ≤ 35 ∧ px.a = 251

theorem blend_black (v : Int) : blend v ⟨0, 0, 0, 255⟩ = ⟨0, 0, 0, 255⟩ := by
  unfold blend
  have h : pyInt ((((9 - v : Int) : ℚ) / 9 + ((255 : Int) : ℚ) / 255 * (1 - ((9 - v : Int) : ℚ) / 9)) * 255) = 255 := by
    have : ((((9 - v : Int) : ℚ) / 9 + ((255 : Int) : ℚ) / 255 * (1 - ((9 - v : Int) : ℚ) / 9)) * 255) = ((255 : Int) : ℚ) := by
      push_cast; ring
    rw [this]; decide +kernel
  simp only [Int.cast_zero, mul_zero]
  push_cast at h ⊢
  rw [h]
  rfl

theorem blend_zero (px : Pixel) : blend 0 px = ⟨0, 0, 0, 255⟩ := by
  unfold blend
  have h : ((9 - ((0 : Int) : ℚ)) / 9) = 1 := by norm_num
  simp only [h, sub_self, zero_mul, mul_zero, add_zero, one_mul]
  decide +kernel

/-- Where a text is. -/
def Area (rotate : Bool) (x y : Int) (n : Nat) (p : Int × Int) : Prop :=
  if rotate then (x + 2 ≤ p.1 ∧ p.1 ≤ x + 14) ∧ (y + 2 ≤ p.2 ∧ p.2 < y + 11 * n)
  else (x + 2 ≤ p.1 ∧ p.1 < x + 11 * n) ∧ (y + 2 ≤ p.2 ∧ p.2 ≤ y + 14)

theorem lookup_cells {c : Char} {r : Nat × Nat × Int} (h : r ∈ cells ((glyphs.lookup c).getD [])) :
    r.1 ≤ 8 ∧ r.2.1 ≤ 12 ∧ 0 ≤ r.2.2 ∧ r.2.2 ≤ 9 := by
  cases e : glyphs.lookup c with
  | none => rw [e] at h; simp [cells] at h
  | some m =>
    rw [e] at h
    exact (glyph_table _ (lookup_mem _ _ _ e)).2 r h

theorem mem_textOps {rotate : Bool} {x y : Int} {s : Str} {o : Op} (h : o ∈ textOps rotate x y s) :
    ∃ gx gy v : Int, o = cellOp gx gy v ∧ Area rotate x y s.length (gx, gy) := by
  obtain ⟨⟨c, k⟩, hc, ho⟩ := List.mem_flatMap.1 h
  obtain ⟨r, hr, rfl⟩ := List.mem_map.1 ho
  obtain ⟨h1, h2, _, _⟩ := lookup_cells (List.mem_filter.1 hr).1
  have hk := List.snd_lt_of_mem_zipIdx hc
  simp only at hk
  refine ⟨_, _, _, rfl, ?_⟩
  unfold Area place
  cases rotate
  · simp only [Bool.false_eq_true, if_false]
    omega
  · simp only [if_true]
    omega

theorem text_outside {rotate : Bool} {x y : Int} {s : Str} {o : Op} (h : o ∈ textOps rotate x y s) {p : Int × Int}
    (hp : ¬ Area rotate x y s.length p) (px : Pixel) : o p px = px := by
  obtain ⟨gx, gy, v, rfl, ha⟩ := mem_textOps h
  unfold cellOp
  rw [if_neg]
  rintro rfl
  exact hp ha

theorem text_black {rotate : Bool} {x y : Int} {s : Str} {o : Op} (h : o ∈ textOps rotate x y s) (p : Int × Int) (px : Pixel)
    (hb : Black px) : Black (o p px) := by
  obtain ⟨gx, gy, v, rfl, _⟩ := mem_textOps h
  unfold cellOp
  split
  · rw [hb]; exact blend_black v
  · exact hb

/-- The number at column `cx` and row `cy` of the drawing of a character. -/
def inked (c : Char) (cx cy : Nat) : Option Int := ((glyphs.lookup c).getD [])[cy]?.bind (fun r => r[cx]?)

theorem cells_mem {m : List (List Int)} {cx cy : Nat} {v : Int} (hm : ∀ r ∈ m, r.length = (m.headD []).length)
    (h : m[cy]?.bind (fun r => r[cx]?) = some v) : (cx, cy, v) ∈ cells m := by
  obtain ⟨r, hr, hv⟩ := Option.bind_eq_some_iff.1 h
  obtain ⟨h1, rfl⟩ := List.getElem?_eq_some_iff.1 hr
  obtain ⟨h2, rfl⟩ := List.getElem?_eq_some_iff.1 hv
  unfold cells
  refine List.mem_flatMap.2 ⟨cx, List.mem_range.2 ?_, List.mem_map.2 ⟨cy, List.mem_range.2 h1, ?_⟩⟩
  · rw [← hm _ (List.getElem_mem h1)]; exact h2
  · simp [h1, h2]

theorem glyph_rows : ∀ p ∈ glyphs, ∀ r ∈ p.2, r.length = (p.2.headD []).length := by decide +kernel

theorem text_inks {rotate : Bool} {x y : Int} {s : Str} {k : Nat} {c : Char} (hc : s[k]? = some c) {cx cy : Nat} (h0 : inked c cx cy = some 0) :
    ∃ o ∈ textOps rotate x y s, ∀ px, Black (o (place rotate x y k cx cy) px) := by
  refine ⟨cellOp (place rotate x y k cx cy).1 (place rotate x y k cx cy).2 0, ?_, fun px => ?_⟩
  · refine List.mem_flatMap.2 ⟨(c, k), List.mem_zipIdx_iff_getElem?.2 hc, List.mem_map.2 ⟨(cx, cy, 0), List.mem_filter.2 ⟨?_, by simp⟩, rfl⟩⟩
    refine cells_mem ?_ h0
    cases e : glyphs.lookup c with
    | none => unfold inked at h0; rw [e] at h0; simp at h0
    | some m => exact glyph_rows _ (lookup_mem _ _ _ e)
  · unfold cellOp
    rw [if_pos rfl]
    exact blend_zero px

theorem stroke_dark (fancy : Bool) (p q : Int × Int) : ∀ s ∈ stroke 1 fancy (0, 0, 0) p q, s.1 ∈ pixelsOf p.1 p.2 q.1 q.2 ∧ Dark s.2 := by
  intro s hs
  obtain ⟨pt, hpt, hs⟩ := List.mem_flatMap.1 hs
  obtain ⟨o, ho, rfl⟩ := List.mem_map.1 hs
  have ho := mem_range ho
  obtain rfl : o = 0 := by omega
  have hl := pixelsOf_isLine p.1 p.2 q.1 q.2
  refine ⟨?_, ?_⟩
  · have := List.fst_mem_of_mem_zipIdx hpt
    simpa using this
  · have hlt := List.snd_lt_of_mem_zipIdx hpt
    rw [hl.size] at hlt
    have nx : ((q.1 - p.1).natAbs : Int) = |q.1 - p.1| := Int.natCast_natAbs _
    have ny : ((q.2 - p.2).natAbs : Int) = |q.2 - p.2| := Int.natCast_natAbs _
    have sh : shadeIndex (decide (|q.1 - p.1| ≤ |q.2 - p.2|)) pt.2 ≤ pt.2 := by unfold shadeIndex; split <;> omega
    generalize hk : shadeIndex (decide (|q.1 - p.1| ≤ |q.2 - p.2|)) pt.2 = k at sh
    simp only [hk]
    generalize hz : max |q.1 - p.1| |q.2 - p.2| = size
    have hks : (k : Int) ≤ size := by omega
    have hv : ∀ v : ℚ, 0 ≤ v → v ≤ 1 → Dark (ink (0, 0, 0) v) := by
      intro v v0 v1
      unfold ink
      rw [if_pos (by decide)]
      have f0 : (0 : Int) ≤ ⌊35 * v⌋ := Int.floor_nonneg.2 (by linarith)
      have f1 : ⌊35 * v⌋ ≤ 35 := by
        have : ⌊35 * v⌋ ≤ ⌊(35 : ℚ)⌋ := Int.floor_mono (by linarith)
        simpa using this
      exact ⟨rfl, rfl, f0, f1, rfl⟩
    by_cases c : fancy ∧ 0 < size
    · have s0 : (0 : ℚ) < size := by exact_mod_cast c.2
      have r0 : (0 : ℚ) ≤ k / size := div_nonneg (by positivity) s0.le
      have r1 : (k : ℚ) / size ≤ 1 := by rw [div_le_one s0]; exact_mod_cast hks
      have g := grad_range _ r0 r1
      rw [if_pos c]
      exact hv _ g.1 g.2
    · rw [if_neg c]
      exact hv 1 (by norm_num) (by norm_num)

theorem stroke_all (fancy : Bool) (p q r : Int × Int) (hr : r ∈ pixelsOf p.1 p.2 q.1 q.2) : ∃ s ∈ stroke 1 fancy (0, 0, 0) p q, s.1 = r := by
  obtain ⟨i, hi⟩ := List.mem_iff_getElem?.1 hr
  refine ⟨_, List.mem_flatMap.2 ⟨(r, i), List.mem_zipIdx_iff_getElem?.2 hi, List.mem_map.2 ⟨0, ?_, rfl⟩⟩, by simp⟩
  decide

theorem line_inks (fancy : Bool) (p q r : Int × Int) (h : (r.1 - 1, r.2 - 1) ∈ pixelsOf p.1 p.2 q.1 q.2) (px : Pixel) :
    Dark (lineOp fancy p q r px) := by
  obtain ⟨s, hs, e⟩ := stroke_all fancy p q _ h
  unfold lineOp top
  cases e2 : ((stroke 1 fancy (0, 0, 0) p q).filter (fun s => decide (s.1 = (r.1 - 1, r.2 - 1)))).getLast? with
  | none =>
    rw [List.getLast?_eq_none_iff] at e2
    have := List.filter_eq_nil_iff.1 e2 _ hs
    simp [e] at this
  | some t => exact (stroke_dark fancy p q t (List.mem_filter.1 (List.mem_of_getLast? e2)).1).2

theorem line_outside (fancy : Bool) (p q r : Int × Int) (h : (r.1 - 1, r.2 - 1) ∉ pixelsOf p.1 p.2 q.1 q.2) (px : Pixel) :
    lineOp fancy p q r px = px := by
  unfold lineOp top
  cases e2 : ((stroke 1 fancy (0, 0, 0) p q).filter (fun s => decide (s.1 = (r.1 - 1, r.2 - 1)))).getLast? with
  | none => rfl
  | some t =>
    obtain ⟨m1, m2⟩ := List.mem_filter.1 (List.mem_of_getLast? e2)
    have := (stroke_dark fancy p q t m1).1
    rw [of_decide_eq_true m2] at this
    exact absurd this h

/-- The lines of the marks. -/
def Tick (across : Bool) (x : Int) (p : Int × Int) : Prop :=
  if across then p.1 = x + 1 ∧ 1 ≤ p.2 ∧ p.2 ≤ 31 else p.2 = x + 1 ∧ 1 ≤ p.1 ∧ p.1 ≤ 31

theorem tick_pixels (across : Bool) (x : Int) (p : Int × Int) :
    (p.1 - 1, p.2 - 1) ∈ pixelsOf (if across then (x, 0) else (0, x) : Int × Int).1 (if across then (x, 0) else (0, x) : Int × Int).2
      (if across then (x, 30) else (30, x) : Int × Int).1 (if across then (x, 30) else (30, x) : Int × Int).2 ↔ Tick across x p := by
  unfold Tick pixelsOf
  cases across
  · simp only [Bool.false_eq_true, if_false, sub_zero, sub_self, abs_zero, Int.sign_zero, zero_mul, add_zero, zero_add]
    rw [if_pos (by decide)]
    simp only [List.mem_map, List.mem_range, Prod.mk.injEq]
    constructor
    · rintro ⟨k, hk, h1, h2⟩
      have h30 : (30 : Int).natAbs = 30 := rfl
      have s30 : (30 : Int).sign = 1 := rfl
      rw [s30] at h1
      omega
    · rintro ⟨h1, h2, h3⟩
      refine ⟨(p.1 - 1).toNat, ?_, ?_, by omega⟩
      · have h30 : (30 : Int).natAbs = 30 := rfl
        omega
      · have s30 : (30 : Int).sign = 1 := rfl
        rw [s30]; omega
  · simp only [if_true, sub_zero, sub_self, abs_zero, Int.sign_zero, zero_mul, add_zero, zero_add]
    rw [if_neg (by decide)]
    simp only [List.mem_map, List.mem_range, Prod.mk.injEq]
    constructor
    · rintro ⟨k, hk, h1, h2⟩
      have h30 : (30 : Int).natAbs = 30 := rfl
      have s30 : (30 : Int).sign = 1 := rfl
      rw [s30] at h2
      omega
    · rintro ⟨h1, h2, h3⟩
      refine ⟨(p.2 - 1).toNat, ?_, by omega, ?_⟩
      · have h30 : (30 : Int).natAbs = 30 := rfl
        omega
      · have s30 : (30 : Int).sign = 1 := rfl
        rw [s30]; omega

theorem mem_marksOps {fancy : Bool} {least : Int} {across : Bool} {L : List Int} {o : Op} (h : o ∈ marksOps fancy least across L) :
    ∃ x ∈ L, o ∈ textOps across (if across then x else 0) (if across then 0 else x) (dec ((x + least) / 10)) ∨
      o = lineOp fancy (if across then (x, 0) else (0, x)) (if across then (x, 30) else (30, x)) := by
  obtain ⟨x, hx, ho⟩ := List.mem_flatMap.1 h
  rcases List.mem_append.1 ho with ho | ho
  · exact ⟨x, hx, Or.inl ho⟩
  · exact ⟨x, hx, Or.inr (by simpa using ho)⟩

/-- The text of a mark. -/
def LabelArea (across : Bool) (least x : Int) (p : Int × Int) : Prop :=
  Area across (if across then x else 0) (if across then 0 else x) (dec ((x + least) / 10)).length p

/-- All changes: the text `mm`, the texts and the lines. -/
theorem mem_guideOps {fancy : Bool} {minX minY width height : Int} {o : Op} (h : o ∈ guideOps fancy minX minY width height) :
    o ∈ textOps false 0 0 ['m', 'm'] ∨
    ∃ across x, Mark (if across then minX else minY) (if across then width else height) x ∧
      (o ∈ textOps across (if across then x else 0) (if across then 0 else x) (dec ((x + if across then minX else minY) / 10)) ∨
        o = lineOp fancy (if across then (x, 0) else (0, x)) (if across then (x, 30) else (30, x))) := by
  unfold guideOps at h
  rcases List.mem_append.1 h with h | h
  · exact Or.inl h
  · refine Or.inr ?_
    rcases List.mem_append.1 h with h | h
    · obtain ⟨x, hx, ho⟩ := mem_marksOps h
      exact ⟨true, x, (mem_marks _ _ _).1 hx, ho⟩
    · obtain ⟨x, hx, ho⟩ := mem_marksOps h
      exact ⟨false, x, (mem_marks _ _ _).1 hx, ho⟩

theorem guideOps_mem {fancy : Bool} {minX minY width height : Int} {o : Op} (across : Bool) (x : Int)
    (hx : Mark (if across then minX else minY) (if across then width else height) x)
    (h : o ∈ textOps across (if across then x else 0) (if across then 0 else x) (dec ((x + if across then minX else minY) / 10)) ∨
        o = lineOp fancy (if across then (x, 0) else (0, x)) (if across then (x, 30) else (30, x))) :
    o ∈ guideOps fancy minX minY width height := by
  have : o ∈ marksOps fancy (if across then minX else minY) across (marks (if across then minX else minY) (if across then width else height)) := by
    refine List.mem_flatMap.2 ⟨x, (mem_marks _ _ _).2 hx, ?_⟩
    rcases h with h | h
    · exact List.mem_append_left _ h
    · rw [h]; exact List.mem_append_right _ (by simp)
  unfold guideOps
  cases across
  · exact List.mem_append_right _ (List.mem_append_right _ this)
  · exact List.mem_append_right _ (List.mem_append_left _ this)

/-- No line of a mark crosses a text. -/
theorem tick_text {minX minY width height : Int} {a b : Bool} {x y : Int}
    (hx : Mark (if a then minX else minY) (if a then width else height) x)
    (hy : Mark (if b then minX else minY) (if b then width else height) y) {p : Int × Int} (hp : Tick a x p) :
    ¬ LabelArea b (if b then minX else minY) y p := by
  intro hq
  unfold LabelArea Area at hq
  unfold Tick at hp
  unfold Mark at hx hy
  cases a <;> cases b <;> simp only [Bool.false_eq_true, if_false, if_true] at hx hy hp hq <;> omega

theorem tick_unit {least size : Int} {a : Bool} {x : Int} (hx : Mark least size x) {p : Int × Int} (hp : Tick a x p) : ¬ Area false 0 0 2 p := by
  intro hq
  unfold Area at hq
  unfold Tick at hp
  unfold Mark at hx
  cases a <;> simp only [Bool.false_eq_true, if_false, if_true] at hp hq <;> omega

/-- What a ruler should be. The picture `buf'` of a design of `width × height` tenths of a millimetre, whose least coordinates are
`minX` and `minY`, is `buf` with marks along the upper (`across`) and the left edge. -/
structure Ruled (minX minY width height : Int) (buf buf' : List Pixel) : Prop where
  /-- The size stays. -/
  size : buf'.length = buf.length
  /-- There is a dark line of 31 pixels at every multiple of five millimetres. -/
  tick : ∀ (across : Bool) x, Mark (if across then minX else minY) (if across then width else height) x → ∀ p, Tick across x p →
    ∃ px, pixelAt (width + 3) buf' p = some px ∧ Dark px
  /-- Beside it is the number of millimetres: all pixels of its characters that should be black are. -/
  text : ∀ (across : Bool) (x n : Int), Mark (if across then minX else minY) (if across then width else height) x →
    x + (if across then minX else minY) = 10 * n → ∀ (k : Nat) (c : Char) (cx cy : Nat), (dec n)[k]? = some c → inked c cx cy = some 0 →
    pixelAt (width + 3) buf' (if across then (x + 14 - cy, 11 * k + cx + 2) else (11 * k + cx + 2, x + cy + 2)) = some ⟨0, 0, 0, 255⟩
  /-- All pixels but those of lines, numbers and the text `mm` in the corner are as before. -/
  rest : ∀ p, InPicture (width + 3) (height + 3) p → ¬ (2 ≤ p.1 ∧ p.1 < 22 ∧ 2 ≤ p.2 ∧ p.2 ≤ 14) →
    (∀ (across : Bool) x, Mark (if across then minX else minY) (if across then width else height) x →
      ¬ Tick across x p ∧ ¬ LabelArea across (if across then minX else minY) x p) →
    pixelAt (width + 3) buf' p = pixelAt (width + 3) buf p

/-- **C102.** Where there is room for the numbers, the guides are drawn, and they are a ruler. -/
theorem C102_guides_partial {P : Pen} (hP : P.grad = {}) {box : Box} {minX minY width height : Int} (e1 : pyInt box.minX = minX)
    (e2 : pyInt box.minY = minY) (e3 : pyInt (box.maxX - box.minX) = width) (e4 : pyInt (box.maxY - box.minY) = height)
    (hR : Room minX minY width height) {fuel : Nat} (hf : max (width + 3) (height + 3) ≤ fuel)
    {buf : List Pixel} (hl : buf.length = ((width + 3) * (height + 3)).toNat) :
    ∃ buf', drawGuides fuel P box (width + 3) buf = some (.ok buf') ∧ Ruled minX minY width height buf buf' := by
  have hF := is_any hl
  obtain ⟨buf', e, s⟩ := guides_is hP e1 e2 e3 e4 hR hf hF
  obtain ⟨r1, r2, r3, r4⟩ := hR
  refine ⟨buf', e, by rw [s.1, hl], ?_, ?_, ?_⟩
  · intro across x hx p hp
    have hin : InPicture (width + 3) (height + 3) p := by
      unfold Tick at hp
      unfold Mark at hx
      unfold InPicture
      cases across <;> simp only [Bool.false_eq_true, if_false, if_true] at hp hx <;> omega
    refine ⟨_, s.2 p hin, after_has ?_ ?_ _⟩
    · intro o ho px k
      rcases mem_guideOps ho with ho | ⟨b, y, hy, ho | rfl⟩
      · rw [text_outside ho (tick_unit hx hp)]; exact k
      · rw [text_outside ho (tick_text hx hy hp)]; exact k
      · by_cases c : Tick b y p
        · exact line_inks _ _ _ _ ((tick_pixels b y p).2 c) px
        · rw [line_outside _ _ _ _ (fun h => c ((tick_pixels b y p).1 h))]; exact k
    · exact ⟨_, guideOps_mem across x hx (Or.inr rfl), fun px => line_inks _ _ _ _ ((tick_pixels across x p).2 hp) px⟩
  · intro across x n hx hn k c cx cy hc h0
    have en : (x + if across then minX else minY) / 10 = n := by omega
    have eplace : (if across then (x + 14 - cy, 11 * k + cx + 2) else (11 * k + cx + 2, x + cy + 2) : Int × Int) =
        place across (if across then x else 0) (if across then 0 else x) k cx cy := by
      unfold place
      cases across
      · simp
      · simp
    rw [eplace]
    set p := place across (if across then x else 0) (if across then 0 else x) k cx cy with hpdef
    have hk : k < (dec n).length := (List.getElem?_eq_some_iff.1 hc).1
    have hcell : cx ≤ 8 ∧ cy ≤ 12 := by
      cases el : glyphs.lookup c with
      | none => unfold inked at h0; rw [el] at h0; simp at h0
      | some m =>
        have h0' : m[cy]?.bind (fun r => r[cx]?) = some 0 := by unfold inked at h0; rw [el] at h0; exact h0
        have := (glyph_table _ (lookup_mem _ _ _ el)).2 _ (cells_mem (glyph_rows _ (lookup_mem _ _ _ el)) h0')
        exact ⟨this.1, this.2.1⟩
    have harea : LabelArea across (if across then minX else minY) x p := by
      unfold LabelArea Area
      rw [en, hpdef]
      unfold place
      cases across <;> simp only [Bool.false_eq_true, if_false, if_true] <;> omega
    have hlen : (11 * ((dec n).length : Int)) ≤ if across then height + 3 else width + 3 := by
      rw [← en]
      cases across
      · exact r4 x hx
      · exact r3 x hx
    have hin : InPicture (width + 3) (height + 3) p := by
      unfold LabelArea Area at harea
      rw [en] at harea
      unfold Mark at hx
      unfold InPicture
      cases across <;> simp only [Bool.false_eq_true, if_false, if_true] at harea hx hlen <;> omega
    rw [s.2 p hin]
    congr 1
    refine after_has (K := Black) ?_ ?_ _
    · intro o ho px kb
      rcases mem_guideOps ho with ho | ⟨b, y, hy, ho | rfl⟩
      · exact text_black ho p px kb
      · exact text_black ho p px kb
      · rw [line_outside _ _ _ _ (fun h => tick_text hy hx ((tick_pixels b y p).1 h) harea)]; exact kb
    · obtain ⟨o, ho, hb⟩ := text_inks (rotate := across) (x := if across then x else 0) (y := if across then 0 else x) hc h0
      rw [← en] at ho
      exact ⟨o, guideOps_mem across x hx (Or.inl ho), hb⟩
  · intro p hp hunit hrest
    rw [s.2 p hp, after_keep, ← hF.2 p hp]
    intro o ho px
    rcases mem_guideOps ho with ho | ⟨b, y, hy, ho | rfl⟩
    · refine text_outside ho ?_ px
      intro hA
      unfold Area at hA
      simp at hA
      omega
    · exact text_outside ho (hrest b y hy).2 px
    · exact line_outside _ _ _ _ (fun h => (hrest b y hy).1 ((tick_pixels b y p).1 h)) px

/-- **C102.** There is room for the numbers of every design of at least 4.1 millimetres in both directions that is within one metre
of the origin. -/
theorem C102_room {minX minY width height : Int} (hw : 41 ≤ width) (hh : 41 ≤ height) (hx : -10000 < minX) (hx' : minX + width < 100000)
    (hy : -10000 < minY) (hy' : minY + height < 100000) : Room minX minY width height := by
  have key : ∀ n : Int, -1000 < n → n < 10000 → (dec n).length ≤ 4 := by
    intro n h1 h2
    by_cases h0 : 0 ≤ n
    · exact dec_length n 4 (by decide) h0 (by norm_num; exact h2)
    · have := dec_length (-n) 3 (by decide) (by omega) (by norm_num; omega)
      unfold dec at this ⊢
      rw [if_neg (by omega)] at this
      rw [if_pos (by omega), List.length_cons]
      rw [Int.natAbs_neg] at this
      omega
  refine ⟨by omega, by omega, fun x hm => ?_, fun y hm => ?_⟩
  · unfold Mark at hm
    have := key ((x + minX) / 10) (by omega) (by omega)
    omega
  · unfold Mark at hm
    have := key ((y + minY) / 10) (by omega) (by omega)
    omega

/-- **C102.** The mark of `n` millimetres is in the column of a stitch with this coordinate, if the least coordinate of the design
is an integer; otherwise it can be one pixel farther. -/
theorem C102_position (least : ℚ) (n : Int) (hn : least ≤ 10 * n) :
    (0 ≤ (10 * n - pyInt least) - pyInt (10 * n - least) ∧ (10 * n - pyInt least) - pyInt (10 * n - least) ≤ 1) ∧
    (∀ m : Int, least = m → 10 * n - pyInt least = pyInt (10 * n - least)) := by
  have e : pyInt (10 * n - least) = 10 * n - ⌈least⌉ := by
    rw [pyInt_floor _ (by linarith)]
    have : (10 * n - least : ℚ) = -least + ((10 * n : Int) : ℚ) := by push_cast; ring
    rw [this, Int.floor_add_intCast, Int.floor_neg]; ring
  have hc : ⌈least⌉ ≤ ⌊least⌋ + 1 := Int.ceil_le_floor_add_one least
  have hc' : ⌊least⌋ ≤ ⌈least⌉ := Int.floor_le_ceil least
  have hp : pyInt least = ⌊least⌋ ∨ pyInt least = ⌈least⌉ := by
    by_cases h : 0 ≤ least
    · exact Or.inl (pyInt_floor _ h)
    · right
      unfold pyInt
      rw [if_neg h]
      have : (-least).floor = ⌊-least⌋ := rfl
      rw [this, Int.floor_neg, neg_neg]
  refine ⟨by rw [e]; rcases hp with h | h <;> rw [h] <;> omega, ?_⟩
  rintro m rfl
  rw [e]
  simp only [Int.floor_intCast, Int.ceil_intCast, or_self] at hp ⊢
  omega

/-- **C102.** The picture of a design with guides: that of its stitches, with a ruler. -/
theorem C102_whole {l : List Stitch} {box : Box} (hbox : bounds l = some box) (fancy : Bool) (background : Option (Int × Int × Int))
    (linewidth : Option Int) (hw : linewidth.getD 3 ≤ 3) (threads : List (Int × Int × Int)) (filler : Nat → Int × Int × Int)
    (ht : ∀ c ∈ threads, IsColor c) (hf : ∀ i, IsColor (filler i))
    (hR : Room (pyInt box.minX) (pyInt box.minY) ⌊box.maxX - box.minX⌋ ⌊box.maxY - box.minY⌋) {fuel : Nat}
    (hfuel : max (⌊box.maxX - box.minX⌋ + 3) (⌊box.maxY - box.minY⌋ + 3) ≤ fuel) :
    ∃ im im' : Image, draw fuel box fancy background linewidth threads filler l = some (.ok im) ∧
      drawWithGuides fuel box fancy background linewidth threads filler l = some (.ok im') ∧
      im'.width = im.width ∧ im'.height = im.height ∧
      Ruled (pyInt box.minX) (pyInt box.minY) (im.width - 3) (im.height - 3) im.pixels im'.pixels := by
  obtain ⟨im, h1, h2, h3, h4, h5⟩ := C73_picture hbox fancy background linewidth hw threads filler ht hf
  have hne : l ≠ [] := by rintro rfl; simp [bounds] at hbox
  obtain ⟨b', hb', hT⟩ := C43_tight l hne
  obtain rfl : box = b' := by rw [hbox] at hb'; exact Option.some.inj hb'
  obtain ⟨a0, ha0⟩ := List.exists_mem_of_ne_nil l hne
  have hin0 := hT.1 a0 ha0
  have ew : pyInt (box.maxX - box.minX) = ⌊box.maxX - box.minX⌋ := pyInt_floor _ (by linarith)
  have eh : pyInt (box.maxY - box.minY) = ⌊box.maxY - box.minY⌋ := pyInt_floor _ (by linarith)
  rw [h2, h3] at h4
  obtain ⟨buf', e, r⟩ := C102_guides_partial (P := ⟨0, 0, 0, 0, linewidth.getD 3, fancy, {}⟩) rfl rfl rfl ew eh hR hfuel h4
  have hd := h1 fuel (by rw [h2, h3]; exact hfuel)
  refine ⟨im, { im with pixels := buf' }, hd, ?_, rfl, rfl, ?_⟩
  · unfold drawWithGuides
    rw [hd]
    simp only
    rw [h2, e]
    simp only [Option.map_some, h2]
    rfl
  · rw [h2, h3, add_sub_cancel_right, add_sub_cancel_right]
    exact r

/-- A text can only fail with an `IndexError`, and if it does not, every pixel of it is in the buffer. -/
theorem cells_ok (w x y : Int) (hw : 0 ≤ w) (hx : 0 ≤ x) (hy : 0 ≤ y) (L : List (Nat × Nat × Int)) : ∀ buf : List Pixel,
    (∃ buf', L.foldlM (fun buf p => drawCell w (x + p.1 + 2) (y + p.2.1 + 2) p.2.2 buf) buf = .ok buf' ∧ buf'.length = buf.length ∧
      ∀ c ∈ L, c.2.2 ≠ 9 → w * (y + c.2.1 + 2) + (x + c.1 + 2) < buf.length) ∨
    L.foldlM (fun buf p => drawCell w (x + p.1 + 2) (y + p.2.1 + 2) p.2.2 buf) buf = .error .indexError := by
  induction L with
  | nil => intro buf; exact Or.inl ⟨buf, rfl, rfl, by simp⟩
  | cons c L ih =>
    intro buf
    rw [List.foldlM_cons]
    have hpos : 0 ≤ w * (y + c.2.1 + 2) + (x + c.1 + 2) := by
      have : 0 ≤ w * (y + c.2.1 + 2) := mul_nonneg hw (by omega)
      omega
    have cell : (∃ b1, drawCell w (x + c.1 + 2) (y + c.2.1 + 2) c.2.2 buf = .ok b1 ∧ b1.length = buf.length ∧
        (c.2.2 ≠ 9 → w * (y + c.2.1 + 2) + (x + c.1 + 2) < buf.length)) ∨
        drawCell w (x + c.1 + 2) (y + c.2.1 + 2) c.2.2 buf = .error .indexError := by
      unfold drawCell
      by_cases h9 : c.2.2 = 9
      · rw [if_pos h9]; exact Or.inl ⟨buf, rfl, rfl, fun h => absurd h9 h⟩
      · rw [if_neg h9]
        unfold pyGet
        simp only [if_neg (show ¬ w * (y + c.2.1 + 2) + (x + c.1 + 2) < 0 by omega)]
        cases e : buf[(w * (y + c.2.1 + 2) + (x + c.1 + 2)).toNat]? with
        | none => right; rfl
        | some old =>
          have := (List.getElem?_eq_some_iff.1 e).1
          exact Or.inl ⟨_, rfl, by rw [List.length_set], fun _ => by omega⟩
    rcases cell with ⟨b1, e1, l1, k1⟩ | e1
    · rw [e1]
      rcases ih b1 with ⟨b2, e2, l2, k2⟩ | e2
      · left
        refine ⟨b2, e2, by rw [l2, l1], ?_⟩
        intro d hd h9
        rcases List.mem_cons.1 hd with rfl | hd
        · exact k1 h9
        · rw [← l1]; exact k2 d hd h9
      · exact Or.inr e2
    · rw [e1]; exact Or.inr rfl

/-- **C102.** The guides of a design of less than 1.2 millimetres in height cannot be drawn: the text in the corner does not fit, and
the writer fails. -/
theorem C102_thin_fails {box : Box} {w h : Int} (hw : 0 ≤ w) (hh : h ≤ 14) (fuel : Nat) (P : Pen) {buf : List Pixel}
    (hl : buf.length = (w * h).toNat) : drawGuides fuel P box w buf = some (.error .indexError) := by
  have key : drawText w false 0 0 ['m', 'm'] buf = .error .indexError := by
    obtain ⟨m, hm, hmem⟩ : ∃ m, glyphs.lookup 'm' = some m ∧ ((0, 12, 0) : Nat × Nat × Int) ∈ cells m := by
      refine ⟨(glyphs.lookup 'm').getD [], by decide +kernel, by decide +kernel⟩
    unfold drawText
    simp only [hm]
    simp only [Bool.false_eq_true, if_false]
    rcases cells_ok w 0 0 hw (by omega) (by omega) (cells m) buf with ⟨b1, _, _, k⟩ | e
    · exfalso
      have := k _ hmem (by decide)
      simp only at this
      have hmul : w * h ≤ w * 14 := mul_le_mul_of_nonneg_left hh hw
      push_cast at this
      rw [hl] at this
      omega
    · rw [e]; rfl
  unfold drawGuides
  rw [key]

/-- A design of 10 × 10 millimetres from (-2.3, 1.7) on: there is room; across there is no mark (column 23 is too near to the
corner, column 73 too near to the end), down there is one at 5 millimetres. -/
example : Room (-23) 17 100 100 ∧ marks (-23) 100 = [] ∧ marks 17 100 = [33] ∧ label 17 33 = ['5'] ∧ Mark 17 100 33 :=
  ⟨C102_room (by decide) (by decide) (by decide) (by decide) (by decide) (by decide), by decide +kernel, by decide +kernel, by decide +kernel,
    by decide, by decide, by decide⟩

/-- Numbers below zero: a design from -30 millimetres to 30 millimetres. -/
example : (marks (-300) 600).map (label (-300)) = [['-', '2', '5'], ['-', '2', '0'], ['-', '1', '5'], ['-', '1', '0'], ['-', '5'], ['0'],
    ['5'], ['1', '0'], ['1', '5'], ['2', '0'], ['2', '5']] := by
  decide +kernel

/-- The first two rows of a digit on a blue picture. -/
example : (drawText 12 false 0 0 ['1'] (List.replicate (12 * 15) ⟨0, 0, 90, 255⟩)).map
    (fun b => ((b.drop (12 * 2)).take 12).map Pixel.b) = .ok [90, 90, 90, 80, 50, 20, 0, 10, 90, 90, 90, 90] := by
  decide +kernel

end Png
end Emb
