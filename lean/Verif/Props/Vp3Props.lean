import Verif.Vp3
import Verif.Props.Commands
import Verif.Props.BoundsProps
import Verif.Props.TbfProps

/-!
# Property C16: VP3 colour blocks and files
-/

namespace Emb
namespace Vp3

open Blocks
open U01 (bind_of)

/-! ## `int` -/

theorem pyInt_intCast (n : Int) : pyInt (n : ℚ) = n := by
  unfold pyInt
  split_ifs
  · exact Rat.floor_intCast n
  · rw [← Rat.intCast_neg, Rat.floor_intCast, neg_neg]

theorem pyInt_sub (q : ℚ) : |q - pyInt q| < 1 := by
  unfold pyInt
  split_ifs with h
  · have h1 : (q.floor : ℚ) ≤ q := Rat.floor_le q
    have h2 : q < q.floor + 1 := by exact_mod_cast Rat.lt_floor_add_one q
    rw [abs_lt]; constructor <;> linarith
  · have h1 : ((-q).floor : ℚ) ≤ -q := Rat.floor_le (-q)
    have h2 : -q < (-q).floor + 1 := by exact_mod_cast Rat.lt_floor_add_one (-q)
    push_cast
    rw [abs_lt]; constructor <;> linarith

theorem pyInt_neg (q : ℚ) : pyInt (-q) = -pyInt q := by
  unfold pyInt
  by_cases h : 0 ≤ q
  · by_cases h0 : q = 0
    · subst h0; decide +kernel
    · rw [if_neg (by have := lt_of_le_of_ne h (Ne.symm h0); linarith), if_pos h, neg_neg]
  · rw [if_pos (by linarith), if_neg h, neg_neg]

/-! ## The stitches of one block -/

/-- The writer's walk: where a reader that starts at `q` puts the stitches of a block that the writer starts at `l`. -/
def walk : ℚ × ℚ → ℚ × ℚ → List Stitch → List Stitch
  | _, _, [] => []
  | l, q, st :: rest =>
    if st.low = 4 then [⟨q.1, q.2, 2⟩]
    else if st.low = 2 then ⟨q.1, q.2, 2⟩ :: walk l q rest
    else if st.low = 0 then
      ⟨q.1 + pyInt (st.x - l.1), q.2 + pyInt (st.y - l.2), 0⟩ ::
        walk (l.1 + pyInt (st.x - l.1), l.2 + pyInt (st.y - l.2)) (q.1 + pyInt (st.x - l.1), q.2 + pyInt (st.y - l.2)) rest
    else walk l q rest

/-- Every displacement the writer meets fits 16 bits. -/
def WFits : ℚ × ℚ → List Stitch → Prop
  | _, [] => True
  | l, st :: rest =>
    if st.low = 4 then True
    else if st.low = 0 then
      ((-32768 ≤ pyInt (st.x - l.1) ∧ pyInt (st.x - l.1) ≤ 32767) ∧ (-32768 ≤ pyInt (st.y - l.2) ∧ pyInt (st.y - l.2) ≤ 32767)) ∧
        WFits (l.1 + pyInt (st.x - l.1), l.2 + pyInt (st.y - l.2)) rest
    else WFits l rest

/-- The position after a list read from position `q`. -/
def endOf (q : ℚ × ℚ) (l : List Stitch) : ℚ × ℚ := (l.getLast?.map (fun s => (s.x, s.y))).getD q

theorem endOf_cons (q : ℚ × ℚ) (s : Stitch) (l : List Stitch) : endOf q (s :: l) = endOf (s.x, s.y) l := by
  unfold endOf
  cases l with
  | nil => rfl
  | cons a l => rw [List.getLast?_cons_cons]; simp [List.getLast?_cons]

/-- A build continued by a list. -/
def cont (b : Build RThread) (l : List Stitch) : Build RThread :=
  { b with stitches := b.stitches ++ l, px := (endOf (b.px, b.py) l).1, py := (endOf (b.px, b.py) l).2 }

theorem cont_nil (b : Build RThread) : cont b [] = b := by simp [cont, endOf]

theorem cont_cons (b : Build RThread) (s : Stitch) (l : List Stitch) : cont b (s :: l) = cont (b.abs s.cmd s.x s.y) l := by
  simp [cont, endOf_cons, Build.abs]

theorem pair16_bytes (v : Int) (h : -32768 ≤ v ∧ v ≤ 32767) :
    pair16 (signed8 (lo8 (shr v 8))) (signed8 (lo8 (shr v 0))) = v := by
  simp only [pair16, signed8, lo8, shr]
  split_ifs <;> omega

theorem readStitches_short (b : Build RThread) (x y : Int) (rest : List Int) (h : lo8 x ≠ 0x80) :
    readStitches b (x :: y :: rest) = readStitches (b.rel STITCH x y) rest := by
  rw [readStitches.eq_def]; dsimp only; rw [if_pos h]

theorem readStitches_trim (b : Build RThread) (rest : List Int) :
    readStitches b (-128 :: 3 :: rest) = readStitches (b.rel TRIM 0 0) rest := by
  rw [readStitches.eq_def]; dsimp only; rw [if_neg (by decide), if_neg (by decide), if_pos rfl]

theorem readStitches_long (b : Build RThread) (a0 a1 b0 b1 c0 c1 : Int) (rest : List Int) :
    readStitches b (-128 :: 1 :: a0 :: a1 :: b0 :: b1 :: c0 :: c1 :: rest) =
      readStitches (b.rel STITCH (pair16 a0 a1) (pair16 b0 b1)) rest := by
  rw [readStitches.eq_def]; dsimp only; rw [if_neg (by decide), if_pos rfl]

theorem read_walk (l : List Stitch) (p : ℚ × ℚ) (b : Build RThread) (z : Int) (hc : ∀ st ∈ l, st.low ≤ 7) (hf : WFits p l) :
    readStitches b ((stitchBytes p.1 p.2 l).map signed8 ++ [z]) = .ok (cont b (walk p (b.px, b.py) l)) := by
  induction l generalizing p b with
  | nil => simp only [stitchBytes, walk, cont_nil, List.map_nil, List.nil_append]; rw [readStitches.eq_def]
  | cons st rest ih =>
    have hst := hc st (by simp)
    replace ih := fun p b => ih p b (fun s hs => hc s (by simp [hs]))
    have e0 : cmdOf st.cmd = st.low := rfl
    unfold stitchBytes walk
    unfold WFits at hf
    simp only [e0, END, COLOR_CHANGE, TRIM, SEQUIN_MODE, SEQUIN_EJECT, STOP, JUMP, STITCH]
    have hr : 0 ≤ st.low ∧ st.low ≤ 7 := ⟨by unfold Stitch.low; omega, hst⟩
    have etr : (b.rel TRIM 0 0) = b.abs 2 b.px b.py := by simp [Build.rel, TRIM]
    by_cases h4 : st.low = 4
    · rw [if_pos h4, if_pos h4]
      simp only [List.map_cons, List.map_nil, List.cons_append, List.nil_append]
      rw [show signed8 128 = -128 from rfl, show signed8 3 = 3 from rfl, readStitches_trim, etr, cont_cons, cont_nil]
      rw [readStitches.eq_def]
    · rw [if_neg h4] at hf
      rw [if_neg h4, if_neg h4]
      by_cases h2 : st.low = 2
      · rw [if_neg (by omega)] at hf
        rw [if_neg (by omega), if_pos h2, if_pos h2, cont_cons]
        simp only [List.map_cons, List.cons_append, List.nil_append]
        rw [show signed8 128 = -128 from rfl, show signed8 3 = 3 from rfl, readStitches_trim, etr, ih p _ hf]
        rfl
      · rw [if_neg (c := st.low = 2) h2, if_neg (c := st.low = 2) h2]
        by_cases h0 : st.low = 0
        · rw [if_pos h0] at hf
          obtain ⟨hx, hf⟩ := hf
          rw [if_neg (by omega), if_neg (by omega), if_pos h0, if_pos h0, cont_cons]
          set dx := pyInt (st.x - p.1)
          set dy := pyInt (st.y - p.2)
          have es : (b.rel STITCH dx dy) = b.abs 0 (b.px + dx) (b.py + dy) := rfl
          by_cases hs : (-127 ≤ dx ∧ dx ≤ 127) ∧ (-127 ≤ dy ∧ dy ≤ 127) ∧ flagsOf st.cmd = 0
          · rw [if_pos hs]
            simp only [List.map_cons, List.map_append, List.map_nil, List.cons_append, List.nil_append]
            rw [show signed8 (lo8 dx) = dx from signed8_mod dx (by omega) (by omega), show signed8 (lo8 dy) = dy from signed8_mod dy (by omega) (by omega),
              readStitches_short _ _ _ _ (by unfold lo8; omega), es, ih (p.1 + dx, p.2 + dy) _ hf]
            rfl
          · rw [if_neg hs]
            simp only [writeInt16be, List.map_cons, List.map_append, List.map_nil, List.cons_append, List.nil_append]
            rw [show signed8 128 = -128 from rfl, show signed8 1 = 1 from rfl, readStitches_long, pair16_bytes _ hx.1, pair16_bytes _ hx.2, es,
              ih (p.1 + dx, p.2 + dy) _ hf]
            rfl
        · rw [if_neg h0] at hf
          by_cases h5 : st.low = 5
          · rw [if_pos h5, if_neg h0]; exact ih p _ hf
          · rw [if_neg h5, if_pos (by omega), if_neg h0]; exact ih p _ hf

/-! ## What a block shows -/

/-- What a list of commands shows to a reader that is at `q` and whose positions are off by `d`: the stitches at their positions, a TRIM
(for a TRIM and for the END) at the last stitch. -/
def sewn (d : ℚ × ℚ) : ℚ × ℚ → List Stitch → List Stitch
  | _, [] => []
  | q, st :: rest =>
    if st.low = 0 then ⟨st.x + d.1, st.y + d.2, 0⟩ :: sewn d (st.x + d.1, st.y + d.2) rest
    else if st.low = 2 ∨ st.low = 4 then ⟨q.1, q.2, 2⟩ :: sewn d q rest
    else sewn d q rest

/-- Nothing follows an END. -/
def EndLast : List Stitch → Prop
  | [] => True
  | st :: rest => (st.low = 4 → rest = []) ∧ EndLast rest

/-- From `p`, every stitch is at most `m` from the stitch before it along each axis. -/
def Reach (m : ℚ) : ℚ × ℚ → List Stitch → Prop
  | _, [] => True
  | p, st :: rest => if st.low = 0 then |st.x - p.1| ≤ m ∧ |st.y - p.2| ≤ m ∧ Reach m (st.x, st.y) rest else Reach m p rest

/-- Two commands alike, less than one unit apart. -/
def Near (a b : Stitch) : Prop := a.cmd = b.cmd ∧ |a.x - b.x| < 1 ∧ |a.y - b.y| < 1

theorem wfits_of (l : List Stitch) (p r : ℚ × ℚ) (hp : |p.1 - r.1| < 1 ∧ |p.2 - r.2| < 1) (h : Reach 32766 p l) : WFits r l := by
  induction l generalizing p r with
  | nil => exact trivial
  | cons st rest ih =>
    unfold WFits
    unfold Reach at h
    split_ifs with h4 h0
    · rw [if_pos h0] at h
      obtain ⟨hx, hy, h⟩ := h
      obtain ⟨p1, p2⟩ := hp
      have a1 := pyInt_sub (st.x - r.1)
      have a2 := pyInt_sub (st.y - r.2)
      refine ⟨?_, ih (st.x, st.y) _ ?_ h⟩
      · rw [abs_lt] at p1 p2 a1 a2
        rw [abs_le] at hx hy
        have k1 : (pyInt (st.x - r.1) : ℚ) < 32768 := by linarith
        have k2 : (-32768 : ℚ) < (pyInt (st.x - r.1) : ℚ) := by linarith
        have k3 : (pyInt (st.y - r.2) : ℚ) < 32768 := by linarith
        have k4 : (-32768 : ℚ) < (pyInt (st.y - r.2) : ℚ) := by linarith
        have k1 : pyInt (st.x - r.1) < 32768 := by exact_mod_cast k1
        have k2 : -32768 < pyInt (st.x - r.1) := by exact_mod_cast k2
        have k3 : pyInt (st.y - r.2) < 32768 := by exact_mod_cast k3
        have k4 : -32768 < pyInt (st.y - r.2) := by exact_mod_cast k4
        omega
      · simp only
        rw [show st.x - (r.1 + (pyInt (st.x - r.1) : ℚ)) = st.x - r.1 - pyInt (st.x - r.1) by ring,
          show st.y - (r.2 + (pyInt (st.y - r.2) : ℚ)) = st.y - r.2 - pyInt (st.y - r.2) by ring]
        exact ⟨a1, a2⟩
    · rw [if_neg h0] at h
      exact ih p r hp h

theorem walk_near (l : List Stitch) (d p r q s : ℚ × ℚ) (hp : |p.1 - r.1| < 1 ∧ |p.2 - r.2| < 1) (he : EndLast l)
    (hq : q = (r.1 + d.1, r.2 + d.2)) (hs : s = (p.1 + d.1, p.2 + d.2)) :
    List.Forall₂ Near (sewn d s l) (walk r q l) := by
  subst hq; subst hs
  induction l generalizing p r with
  | nil => exact .nil
  | cons st rest ih =>
    have ih := fun p r hp => ih p r hp he.2
    have hn : Near ⟨p.1 + d.1, p.2 + d.2, 2⟩ ⟨r.1 + d.1, r.2 + d.2, 2⟩ := by
      refine ⟨rfl, ?_, ?_⟩ <;> simp only [add_sub_add_right_eq_sub]
      exacts [hp.1, hp.2]
    unfold sewn walk
    by_cases h4 : st.low = 4
    · rw [if_neg (by omega), if_pos (.inr h4), if_pos h4, he.1 h4]
      exact .cons hn .nil
    · rw [if_neg (c := st.low = 4) h4]
      by_cases h0 : st.low = 0
      · rw [if_pos h0, if_neg (by omega), if_pos h0]
        have a1 := pyInt_sub (st.x - r.1)
        have a2 := pyInt_sub (st.y - r.2)
        rw [show st.x - r.1 - (pyInt (st.x - r.1) : ℚ) = st.x - (r.1 + pyInt (st.x - r.1)) by ring] at a1
        rw [show st.y - r.2 - (pyInt (st.y - r.2) : ℚ) = st.y - (r.2 + pyInt (st.y - r.2)) by ring] at a2
        have e1 : r.1 + d.1 + (pyInt (st.x - r.1) : ℚ) = r.1 + pyInt (st.x - r.1) + d.1 := by ring
        have e2 : r.2 + d.2 + (pyInt (st.y - r.2) : ℚ) = r.2 + pyInt (st.y - r.2) + d.2 := by ring
        simp only [e1, e2]
        refine .cons ⟨rfl, ?_, ?_⟩ (ih (st.x, st.y) (r.1 + pyInt (st.x - r.1), r.2 + pyInt (st.y - r.2)) ⟨a1, a2⟩) <;>
          simp only [add_sub_add_right_eq_sub]
        exacts [a1, a2]
      · rw [if_neg h0]
        by_cases h2 : st.low = 2
        · rw [if_pos (.inl h2), if_pos h2]
          exact .cons hn (ih p r hp)
        · rw [if_neg (by omega), if_neg h2, if_neg h0]
          exact ih p r hp

/-- A position with whole coordinates. -/
def Whole (p : ℚ × ℚ) : Prop := ∃ a b : Int, p = ((a : ℚ), (b : ℚ))

theorem walk_whole (l : List Stitch) (d p : ℚ × ℚ) (hp : Whole p) (hl : ∀ st ∈ l, Whole (st.x, st.y)) (he : EndLast l) :
    walk p (p.1 + d.1, p.2 + d.2) l = sewn d (p.1 + d.1, p.2 + d.2) l := by
  induction l generalizing p with
  | nil => rfl
  | cons st rest ih =>
    have ih := fun p hp => ih p hp (fun s hs => hl s (by simp [hs])) he.2
    unfold sewn walk
    by_cases h4 : st.low = 4
    · rw [if_pos h4, if_neg (c := st.low = 0) (by omega), if_pos (c := st.low = 2 ∨ st.low = 4) (.inr h4), he.1 h4]; rfl
    · rw [if_neg (c := st.low = 4) h4]
      by_cases h0 : st.low = 0
      · rw [if_neg (by omega), if_pos h0, if_pos h0]
        obtain ⟨a, b, hab⟩ := hp
        obtain ⟨u, v, huv⟩ := hl st (by simp)
        rw [Prod.mk.injEq] at huv
        subst hab
        have e1 : pyInt (st.x - (a : ℚ)) = u - a := by rw [huv.1, ← Rat.intCast_sub, pyInt_intCast]
        have e2 : pyInt (st.y - (b : ℚ)) = v - b := by rw [huv.2, ← Rat.intCast_sub, pyInt_intCast]
        simp only [e1, e2]
        push_cast
        have f1 : (a : ℚ) + d.1 + (u - a) = st.x + d.1 := by rw [huv.1]; ring
        have f2 : (b : ℚ) + d.2 + (v - b) = st.y + d.2 := by rw [huv.2]; ring
        have f3 : (a : ℚ) + (u - a) = st.x := by rw [huv.1]; ring
        have f4 : (b : ℚ) + (v - b) = st.y := by rw [huv.2]; ring
        rw [f1, f2, f3, f4, ih (st.x, st.y) ⟨u, v, by rw [huv.1, huv.2]⟩]
      · rw [if_neg (c := st.low = 0) h0, if_neg (c := st.low = 0) h0]
        by_cases h2 : st.low = 2
        · rw [if_pos h2, if_pos (c := st.low = 2 ∨ st.low = 4) (.inl h2), ih p hp]
        · rw [if_neg h2, if_neg (c := st.low = 2 ∨ st.low = 4) (by omega)]
          exact ih p hp

theorem wfits_whole (l : List Stitch) (p : ℚ × ℚ) (hp : Whole p) (hl : ∀ st ∈ l, Whole (st.x, st.y)) (h : Reach 32767 p l) :
    WFits p l := by
  induction l generalizing p with
  | nil => exact trivial
  | cons st rest ih =>
    have ih := fun p hp => ih p hp (fun s hs => hl s (by simp [hs]))
    unfold WFits
    unfold Reach at h
    split_ifs with h4 h0
    · rw [if_pos h0] at h
      obtain ⟨hx, hy, h⟩ := h
      obtain ⟨a, b, hab⟩ := hp
      obtain ⟨u, v, huv⟩ := hl st (by simp)
      rw [Prod.mk.injEq] at huv
      subst hab
      have e1 : pyInt (st.x - (a : ℚ)) = u - a := by rw [huv.1, ← Rat.intCast_sub, pyInt_intCast]
      have e2 : pyInt (st.y - (b : ℚ)) = v - b := by rw [huv.2, ← Rat.intCast_sub, pyInt_intCast]
      simp only [e1, e2]
      push_cast
      have f3 : (a : ℚ) + (u - a) = st.x := by rw [huv.1]; ring
      have f4 : (b : ℚ) + (v - b) = st.y := by rw [huv.2]; ring
      rw [f3, f4]
      refine ⟨?_, ih (st.x, st.y) ⟨u, v, by rw [huv.1, huv.2]⟩ h⟩
      rw [huv.1, abs_le] at hx
      rw [huv.2, abs_le] at hy
      simp only at hx hy
      have k1 : (-32767 : Int) ≤ u - a := by exact_mod_cast hx.1
      have k2 : u - a ≤ (32767 : Int) := by exact_mod_cast hx.2
      have k3 : (-32767 : Int) ≤ v - b := by exact_mod_cast hy.1
      have k4 : v - b ≤ (32767 : Int) := by exact_mod_cast hy.2
      omega
    · rw [if_neg h0] at h
      exact ih p hp h

/-- C16: the bytes of a block of any length, started at `p`, read back (by a reader that is at `p`) as the stitches at their positions and a TRIM for every
TRIM and for the END, at the last stitch. Positions are whole numbers; the distance between two stitches fits 16 bits; the
commands are those up to 7 (no needle changes, no speeds). `z` is the byte that ends the block. -/
theorem C16_block (l : List Stitch) (p : ℚ × ℚ) (z : Int) (b : Build RThread) (hb : (b.px, b.py) = p) (hp : Whole p)
    (hl : ∀ st ∈ l, Whole (st.x, st.y)) (hc : ∀ st ∈ l, st.low ≤ 7) (he : EndLast l) (hr : Reach 32767 p l) :
    ∃ b', readStitches b ((stitchBytes p.1 p.2 l).map signed8 ++ [z]) = .ok b' ∧
      b'.stitches = b.stitches ++ sewn (0, 0) p l ∧ b'.threads = b.threads := by
  refine ⟨_, read_walk l p b z hc (wfits_whole l p hp hl hr), ?_, rfl⟩
  rw [hb]
  have := walk_whole l (0, 0) p hp hl he
  simp only [add_zero] at this
  rw [← this]; rfl

/-- C16 for any positions: every stitch is less than one unit from where it was. -/
theorem C16_fraction (l : List Stitch) (p : ℚ × ℚ) (z : Int) (b : Build RThread) (hb : (b.px, b.py) = p)
    (hc : ∀ st ∈ l, st.low ≤ 7) (he : EndLast l) (hr : Reach 32766 p l) :
    ∃ b' out, readStitches b ((stitchBytes p.1 p.2 l).map signed8 ++ [z]) = .ok b' ∧
      b'.stitches = b.stitches ++ out ∧ List.Forall₂ Near (sewn (0, 0) p l) out := by
  have h0 : |p.1 - p.1| < 1 ∧ |p.2 - p.2| < 1 := by simp
  refine ⟨_, walk p p l, read_walk l p b z hc (wfits_of l p p h0 hr), ?_, ?_⟩
  · rw [← hb]; rfl
  · exact walk_near l (0, 0) p p p p h0 he (by simp) (by simp)

/-! ## Positions in a file -/

/-- At position `p` of the file `f` come the bytes `s`, up to the end. -/
def At (f : Bytes) (p : Nat) (s : Bytes) : Prop := f.drop p = s ∧ p ≤ f.length

theorem At.len {f : Bytes} {p : Nat} {s : Bytes} (h : At f p s) : p + s.length = f.length := by
  obtain ⟨rfl, h⟩ := h
  rw [List.length_drop]; omega

theorem At.step {f : Bytes} {p : Nat} {a s : Bytes} (h : At f p (a ++ s)) (n : Nat) (hn : a.length = n) : At f (p + n) s := by
  have hl := h.len
  obtain ⟨h, _⟩ := h
  subst hn
  refine ⟨?_, ?_⟩
  · rw [← List.drop_drop, h, List.drop_left]
  · rw [List.length_append] at hl; omega

theorem At.adv {f : Bytes} {p : Nat} {a s : Bytes} (h : At f p (a ++ s)) (n : Nat) (hn : a.length = n) : adv f p n = p + n := by
  have hl := h.len
  rw [List.length_append] at hl
  unfold Vp3.adv
  omega

theorem at_r8 {f : Bytes} {p : Nat} {s : Bytes} {v : Int} (h : At f p (writeInt8 v ++ s)) : r8 f p = (some (v % 2 ^ 8), p + 1) := by
  unfold r8
  rw [h.adv 1 rfl, h.1, (C02_read_write v s).1]

theorem at_r16 {f : Bytes} {p : Nat} {s : Bytes} {v : Int} (h : At f p (writeInt16be v ++ s)) :
    r16 f p = (some (v % 2 ^ 16), p + 2) := by
  unfold r16
  rw [h.adv 2 rfl, h.1, (C02_read_write v s).2.2.1]

theorem at_r24 {f : Bytes} {p : Nat} {s : Bytes} {v : Int} (h : At f p (writeInt24be v ++ s)) :
    r24 f p = (some (v % 2 ^ 24), p + 3) := by
  unfold r24
  rw [h.adv 3 rfl, h.1, (C02_read_write v s).2.2.2.2.1]

theorem at_r32 {f : Bytes} {p : Nat} {s : Bytes} {v : Int} (h : At f p (int32 v ++ s)) : r32 f p = (some (v % 2 ^ 32), p + 4) := by
  unfold r32
  rw [h.adv 4 rfl, h.1]
  unfold int32
  rw [(C02_read_write v s).2.2.2.2.2.2]

theorem at_hundredths {f : Bytes} {p : Nat} {s : Bytes} {v : Int} (h : At f p (int32 (v * 100) ++ s))
    (hv : -20000000 ≤ v ∧ v ≤ 20000000) : hundredths f p = .ok ((v : ℚ), p + 4) := by
  unfold hundredths
  rw [at_r32 h]
  simp only
  have e : signed32 (v * 100 % 2 ^ 32) = v * 100 := by unfold signed32; split_ifs <;> omega
  rw [e]; push_cast
  rw [mul_div_assoc]; norm_num

/-- Text of ASCII characters that fits a VP3 string. -/
def Plain (s : Str) : Prop := (∀ c ∈ s, c.utf8Size = 1) ∧ s.length < 65536

theorem string8_length (s : Str) (h : Plain s) : (string8 s).length = 2 + s.length := by
  unfold string8
  rw [List.length_append, utf8_length_ascii s h.1]; rfl

theorem at_string {f : Bytes} {p : Nat} {r : Bytes} {s : Str} (h : At f p (string8 s ++ r)) (hs : Plain s) :
    readString f p = (some s, p + (2 + s.length)) := by
  unfold string8 at h
  rw [List.append_assoc] at h
  unfold readString
  rw [at_r16 h]
  have e : ((s.length : Int) % 2 ^ 16).toNat = s.length := by have := hs.2; omega
  simp only [e]
  have h2 := h.step 2 rfl
  rw [h2.adv s.length (utf8_length_ascii s hs.1), h2.1]
  rw [show List.take s.length (utf8 s ++ r) = utf8 s from List.take_left' (utf8_length_ascii s hs.1), decodeUtf8_utf8, Nat.add_assoc]

theorem at_skip {f : Bytes} {p : Nat} {r : Bytes} {s : Str} (h : At f p (string16 s ++ r)) (hs : s.length < 32768) :
    skipString f p = .ok (p + (2 + 2 * s.length)) := by
  unfold string16 at h
  rw [List.append_assoc] at h
  unfold skipString
  rw [at_r16 h]
  have e : ((s.length : Int) * 2 % 2 ^ 16).toNat = 2 * s.length := by omega
  simp only [e, Nat.add_assoc]

/-- The texts of a thread in a VP3 file. -/
def catalogText (t : Thread) : Str := (t.catalog.map String.toList).getD []
def descriptionText (t : Thread) : Str := (t.description.map String.toList).getD (hexColor t)
def brandText (t : Thread) : Str := (t.brand.map String.toList).getD []

/-- A thread whose texts are plain. -/
def PlainThread (t : Thread) : Prop := Plain (catalogText t) ∧ Plain (descriptionText t) ∧ Plain (brandText t)

/-- The thread a VP3 file shows. -/
def shown (t : Thread) : RThread :=
  ⟨some (t.color % 2 ^ 24), some (catalogText t), some (descriptionText t), some (brandText t)⟩

def threadLen (t : Thread) : Nat := 16 + (catalogText t).length + (descriptionText t).length + (brandText t).length

theorem threadBytes_length (t : Thread) (h : PlainThread t) : (threadBytes t).length = threadLen t := by
  have e1 := string8_length _ h.1
  have e2 := string8_length _ h.2.1
  have e3 := string8_length _ h.2.2
  unfold catalogText at e1
  unfold descriptionText at e2
  unfold brandText at e3
  unfold threadBytes threadLen catalogText descriptionText brandText
  simp only [List.length_append, e1, e2, e3, writeInt24be, List.length_cons, List.length_nil]
  omega

theorem at_thread {f : Bytes} {p : Nat} {r : Bytes} {t : Thread} (h : At f p (threadBytes t ++ r)) (ht : PlainThread t) :
    readThread f p = .ok (shown t, p + threadLen t) := by
  have e : threadBytes t ++ r = writeInt8 1 ++ (writeInt8 0 ++ (writeInt24be t.color ++ (writeInt8 0 ++ (writeInt16be 0 ++
    (writeInt8 5 ++ (writeInt8 40 ++ (string8 (catalogText t) ++ (string8 (descriptionText t) ++ (string8 (brandText t) ++ r))))))))) := by
    unfold threadBytes catalogText descriptionText brandText
    simp only [List.append_assoc]
    rfl
  rw [e] at h
  unfold readThread
  rw [at_r8 h]
  have h1 := h.step 1 rfl
  have h2 := h1.step 1 rfl
  have h3 := h2.step 3 rfl
  have h4 := h3.step 1 rfl
  have h5 := h4.step 2 rfl
  have h6 := h5.step 1 rfl
  have h7 := h6.step 1 rfl
  have h8 := h7.step _ (string8_length _ ht.1)
  have h9 := h8.step _ (string8_length _ ht.2.1)
  have ec : readColors f ((1 : Int) % 2 ^ 8).toNat (some 0) (p + 1 + 1) = (some (t.color % 2 ^ 24), p + 1 + 1 + 3 + 1 + 2) := by
    have e1 : ((1 : Int) % 2 ^ 8).toNat = 0 + 1 := by decide
    rw [e1, readColors]
    simp only [at_r24 h2, at_r8 h3, at_r16 h4]
    rfl
  simp only [at_r8 h1, ec, at_r8 h5, at_r8 h6, at_string h7 ht.1, at_string h8 ht.2.1, at_string h9 ht.2.2]
  unfold shown threadLen
  congr 2
  omega

/-- Where the reader puts the start of a block that is written with start `p`, in a pattern with centre `c`. -/
def start (c p : ℚ × ℚ) : ℚ × ℚ := ((pyInt (p.1 - c.1) : ℚ) + pyInt c.1, (pyInt (p.2 - c.2) : ℚ) + pyInt c.2)

/-- The reader moves there unless a coordinate is 0. -/
def startMoves (c p : ℚ × ℚ) : List Stitch :=
  if (start c p).1 ≠ 0 ∧ (start c p).2 ≠ 0 then [⟨(start c p).1, (start c p).2, 1⟩] else []

/-- Less than ten million units (a kilometre) from the origin. -/
def Within (p : ℚ × ℚ) : Prop := |p.1| ≤ 10000000 ∧ |p.2| ≤ 10000000

theorem pyInt_bound (q : ℚ) (m : Nat) (h : |q| ≤ m) : -(m : Int) ≤ pyInt q ∧ pyInt q ≤ m := by
  rw [abs_le] at h
  have h1 := pyInt_sub q
  rw [abs_lt] at h1
  have a : (pyInt q : ℚ) < m + 1 := by linarith
  have b : (-(m : ℚ) - 1) < pyInt q := by linarith
  have a : pyInt q < (m : Int) + 1 := by exact_mod_cast a
  have b : -(m : Int) - 1 < pyInt q := by exact_mod_cast b
  omega

theorem pyInt_within (a b : ℚ) (ha : |a| ≤ 10000000) (hb : |b| ≤ 10000000) :
    -20000000 ≤ pyInt (a - b) ∧ pyInt (a - b) ≤ 20000000 := by
  refine pyInt_bound (a - b) 20000000 ?_
  rw [abs_le] at *
  push_cast
  constructor <;> linarith

/-- The bytes of a colour block are those of a block that starts at `p` and names `t`. -/
theorem at_block {f : Bytes} {pos : Nat} {r : Bytes} {first : Bool} {c : ℚ × ℚ} {l : List Stitch} {t : Thread}
    (b : Build RThread) (h : At f pos (colorBlock first c.1 c.2 (l, t) ++ r)) (hf : f.length < 2 ^ 32) (ht : PlainThread t)
    (hp : Within (firstPos first l)) (hcc : Within c) (hc : ∀ st ∈ l, st.low ≤ 7) (hw : WFits (firstPos first l) l) :
    ∃ pos', At f pos' r ∧ readBlock f (pyInt c.1) (pyInt c.2) b pos =
      .ok (cont { cont b (startMoves c (firstPos first l)) with threads := b.threads ++ [shown t] }
        (walk (firstPos first l) (endOf (b.px, b.py) (startMoves c (firstPos first l))) l), pos') := by
  set p := firstPos first l
  set body := int32 (pyInt (p.1 - c.1) * 100) ++ int32 (pyInt (-(p.2 - c.2)) * 100) ++ threadBytes t ++
     int32 (pyInt ((endPos l).1 - p.1) * 100) ++ int32 (pyInt (-((endPos l).2 - p.2)) * 100) ++ stitchesBlock l p ++ writeInt8 0 with hbody
  have e : colorBlock first c.1 c.2 (l, t) ++ r = [0x00, 0x05, 0x00] ++ (int32 body.length ++ (body ++ r)) := by
    unfold colorBlock patched
    simp only [List.append_assoc, hbody]
    rfl
  rw [e] at h
  have h1 := h.step 3 rfl
  have h2 := h1.step 4 rfl
  have hlen := h2.len
  rw [List.length_append] at hlen
  have e2 : body ++ r = int32 (pyInt (p.1 - c.1) * 100) ++ (int32 (pyInt (-(p.2 - c.2)) * 100) ++ (threadBytes t ++
     ((int32 (pyInt ((endPos l).1 - p.1) * 100) ++ int32 (pyInt (-((endPos l).2 - p.2)) * 100) ++ [0x00, 0x01, 0x00] ++
        int32 (([0x0A, 0xF6, 0x00] : Bytes) ++ stitchBytes p.1 p.2 l).length) ++ ([0x0A, 0xF6, 0x00] ++
         (stitchBytes p.1 p.2 l ++ writeInt8 0 ++ r))))) := by
    rw [hbody]
    unfold stitchesBlock patched
    simp only [List.append_assoc]
  have hbl : body.length = 4 + (4 + (threadLen t + (15 + (3 + ((stitchBytes p.1 p.2 l).length + 1))))) := by
    have := congrArg List.length e2
    simp only [List.length_append, threadBytes_length t ht, int32, writeInt32be, writeInt8, List.length_cons, List.length_nil] at this
    omega
  have h2' := h2
  rw [e2] at h2
  have h3 := h2.step 4 rfl
  have h4 := h3.step 4 rfl
  have h5 := h4.step _ (threadBytes_length t ht)
  have h6 := h5.step 15 rfl
  have h7 := h6.step 3 rfl
  have h8 := h2'.step _ hbl
  refine ⟨_, h8, ?_⟩
  unfold readBlock
  simp only
  rw [h.adv 3 rfl, at_r32 h1]
  have hm : (body.length : Int) % 2 ^ 32 = body.length := by omega
  simp only [hm]
  rw [bind_of (at_hundredths h2 (pyInt_within _ _ hp.1 hcc.1)), bind_of (at_hundredths h3 (by
    rw [pyInt_neg]; have := pyInt_within _ _ hp.2 hcc.2; omega)), bind_of (at_thread h4 ht)]
  simp only
  rw [h6.adv 3 rfl]
  have hn : (body.length : Int) + ((pos + 3 + 4 : Nat) : Int) - ((pos + 3 + 4 + 4 + 4 + threadLen t + 15 + 3 : Nat) : Int) =
      ((stitchBytes p.1 p.2 l).length + 1 : Nat) := by
    rw [hbl]; push_cast; omega
  have hn0 : ¬ (((stitchBytes p.1 p.2 l).length + 1 : Nat) : Int) < 0 := by omega
  rw [hn, h7.1, Int.toNat_natCast]
  simp only [if_neg hn0]
  have htk : (stitchBytes p.1 p.2 l ++ writeInt8 0 ++ r).take ((stitchBytes p.1 p.2 l).length + 1) =
      stitchBytes p.1 p.2 l ++ writeInt8 0 :=
    List.take_left' (by rw [List.length_append]; rfl)
  rw [htk, List.map_append]
  have hs : ((pyInt (p.1 - c.1) : ℚ) + pyInt c.1, -((pyInt (-(p.2 - c.2)) : Int) : ℚ) + pyInt c.2) = start c p := by
    rw [pyInt_neg]; unfold start; push_cast; rw [neg_neg]
  have hs1 := congrArg Prod.fst hs
  have hs2 := congrArg Prod.snd hs
  simp only at hs1 hs2
  rw [hs1, hs2]
  have hb : ({ (if (start c p).1 ≠ 0 ∧ (start c p).2 ≠ 0 then b.abs JUMP (start c p).1 (start c p).2 else b) with
      threads := (if (start c p).1 ≠ 0 ∧ (start c p).2 ≠ 0 then b.abs JUMP (start c p).1 (start c p).2 else b).threads ++ [shown t] } : Build RThread) =
      { cont b (startMoves c p) with threads := b.threads ++ [shown t] } := by
    unfold startMoves
    split_ifs
    · rw [cont_cons, cont_nil]; rfl
    · rw [cont_nil]
  rw [hb, show List.map signed8 (writeInt8 0) = [signed8 (lo8 0)] from rfl, bind_of (read_walk l p _ _ hc hw)]
  simp only [List.length_append, writeInt8, List.length_cons, List.length_nil]
  have hpos : pos + 3 + 4 + 4 + 4 + threadLen t + 15 + 3 + ((stitchBytes p.1 p.2 l).length + (0 + 1)) =
      pos + 3 + 4 + (4 + (4 + (threadLen t + (15 + (3 + ((stitchBytes p.1 p.2 l).length + 1)))))) := by omega
  rw [hpos]
  rfl

/-! ## The whole file -/

/-- The same over the whole pattern: `d` is how far the reader is off in this block. -/
def view (c : ℚ × ℚ) : ℚ × ℚ → ℚ × ℚ → List Stitch → List Stitch
  | _, _, [] => []
  | d, q, st :: rest =>
    if st.low = 0 then ⟨st.x + d.1, st.y + d.2, 0⟩ :: view c d (st.x + d.1, st.y + d.2) rest
    else if st.low = 2 ∨ st.low = 4 then ⟨q.1, q.2, 2⟩ :: view c d q rest
    else if st.low = 5 then
      ⟨q.1, q.2, 5⟩ :: (startMoves c (st.x, st.y) ++
        view c ((endOf q (startMoves c (st.x, st.y))).1 - st.x, (endOf q (startMoves c (st.x, st.y))).2 - st.y)
          (endOf q (startMoves c (st.x, st.y))) rest)
    else view c d q rest

/-- `Reach` over the whole pattern: a block starts at its colour change. -/
def ReachAll (m : ℚ) : ℚ × ℚ → List Stitch → Prop
  | _, [] => True
  | p, st :: rest =>
    if st.low = 0 then |st.x - p.1| ≤ m ∧ |st.y - p.2| ≤ m ∧ ReachAll m (st.x, st.y) rest
    else if st.low = 5 then ReachAll m (st.x, st.y) rest
    else ReachAll m p rest

/-- Not a colour change. -/
def stays (st : Stitch) : Bool := decide (st.low ≠ 5)

theorem blockLoop_eq {τ : Type} (threads : List τ) (filler : Nat → τ) (l cur : List Stitch) (k : Nat) :
    blockLoop threads filler cur k l = (cur ++ l.takeWhile stays, threadAt threads filler k) ::
      (match l.dropWhile stays with
       | [] => []
       | st :: rest => blockLoop threads filler [st] (k + 1) rest) := by
  induction l generalizing cur with
  | nil => simp [blockLoop]
  | cons st rest ih =>
    have hl : blockLoop threads filler cur k (st :: rest) =
      if st.low ≠ 5 then blockLoop threads filler (cur ++ [st]) k rest
      else (cur, threadAt threads filler k) :: blockLoop threads filler [st] (k + 1) rest := rfl
    rw [hl]
    by_cases h : st.low = 5
    · have h' : stays st = false := by simp [stays, h]
      rw [if_neg (not_not.2 h), List.takeWhile_cons, List.dropWhile_cons, if_neg (by simp [h']), if_neg (by simp [h']), List.append_nil]
    · have h' : stays st = true := by simp [stays, h]
      rw [if_pos h, ih, List.takeWhile_cons, List.dropWhile_cons, if_pos h', if_pos h', List.append_assoc]; rfl

theorem endLast_append (a b : List Stitch) (h : EndLast (a ++ b)) : EndLast a ∧ EndLast b := by
  induction a with
  | nil => exact ⟨trivial, h⟩
  | cons st a ih =>
    obtain ⟨h1, h2⟩ := h
    exact ⟨⟨fun c => (List.append_eq_nil_iff.1 (h1 c)).1, (ih h2).1⟩, (ih h2).2⟩

theorem reachAll_append (m : ℚ) (a b : List Stitch) (p : ℚ × ℚ) (ha : ∀ st ∈ a, st.low ≠ 5) (h : ReachAll m p (a ++ b)) :
    Reach m p a ∧ ∀ st rest, b = st :: rest → st.low = 5 → ReachAll m (st.x, st.y) rest := by
  induction a generalizing p with
  | nil =>
    refine ⟨trivial, fun st rest e h5 => ?_⟩
    subst e
    rw [List.nil_append, ReachAll, if_neg (by omega), if_pos h5] at h
    exact h
  | cons st a ih =>
    rw [List.cons_append, ReachAll] at h
    unfold Reach
    by_cases h0 : st.low = 0
    · rw [if_pos h0] at h ⊢
      have := ih _ (fun s hs => ha s (by simp [hs])) h.2.2
      exact ⟨⟨h.1, h.2.1, this.1⟩, this.2⟩
    · rw [if_neg h0, if_neg (ha st (by simp))] at h
      rw [if_neg h0]
      exact ih _ (fun s hs => ha s (by simp [hs])) h

theorem view_append (c : ℚ × ℚ) (a b : List Stitch) (d q : ℚ × ℚ) (ha : ∀ st ∈ a, st.low ≠ 5) :
    view c d q (a ++ b) = sewn d q a ++ view c d (endOf q (sewn d q a)) b := by
  induction a generalizing q with
  | nil => rfl
  | cons st a ih =>
    have ih := fun q => ih q (fun s hs => ha s (by simp [hs]))
    rw [List.cons_append, view, sewn]
    by_cases h0 : st.low = 0
    · rw [if_pos h0, if_pos h0, ih, endOf_cons]; rfl
    · rw [if_neg h0, if_neg h0]
      by_cases h2 : st.low = 2 ∨ st.low = 4
      · rw [if_pos h2, if_pos h2, ih, endOf_cons]; rfl
      · rw [if_neg h2, if_neg h2, if_neg (ha st (by simp)), ih]

theorem endOf_append (q : ℚ × ℚ) (a b : List Stitch) : endOf q (a ++ b) = endOf (endOf q a) b := by
  induction a generalizing q with
  | nil => rfl
  | cons s a ih => rw [List.cons_append, endOf_cons, endOf_cons, ih]

theorem cont_append (b : Build RThread) (l1 l2 : List Stitch) : cont b (l1 ++ l2) = cont (cont b l1) l2 := by
  simp [cont, endOf_append]

theorem takeWhile_stays (l : List Stitch) : ∀ st ∈ l.takeWhile stays, st.low ≠ 5 := by
  intro st h
  have := (List.all_eq_true.1 (List.all_takeWhile (p := stays) (l := l))) st h
  simpa [stays] using this

theorem dropWhile_head (l : List Stitch) (st : Stitch) (rest : List Stitch) (h : l.dropWhile stays = st :: rest) : st.low = 5 := by
  have := List.head?_dropWhile_not stays l
  rw [h] at this
  simpa [stays] using this

theorem blockLoop_ne {τ : Type} (threads : List τ) (filler : Nat → τ) (l cur : List Stitch) (k : Nat) :
    blockLoop threads filler cur k l ≠ [] := by
  rw [blockLoop_eq]; simp

/-- What the theorem about files asks of every command. -/
structure Good (l : List Stitch) : Prop where
  low : ∀ st ∈ l, st.low ≤ 7
  whole : ∀ st ∈ l, Whole (st.x, st.y)
  within : ∀ st ∈ l, Within (st.x, st.y)
  last : EndLast l

theorem colors_skip (cur l : List Stitch) (h : ∀ st ∈ cur, st.low = 5) (d p q : ℚ × ℚ) :
    sewn d q (cur ++ l) = sewn d q l ∧ (Reach 32767 p l → Reach 32767 p (cur ++ l)) ∧ (EndLast l → EndLast (cur ++ l)) := by
  induction cur with
  | nil => exact ⟨rfl, id, id⟩
  | cons st cur ih =>
    have h5 := h st (by simp)
    obtain ⟨i1, i2, i3⟩ := ih (fun s hs => h s (by simp [hs]))
    refine ⟨?_, ?_, ?_⟩
    · rw [List.cons_append, sewn, if_neg (by omega), if_neg (by omega), i1]
    · intro k
      rw [List.cons_append, Reach, if_neg (by omega)]
      exact i2 k
    · intro k
      exact ⟨fun c => absurd c (by omega), i3 k⟩

theorem cont_change (b : Build RThread) (l : List Stitch) :
    (cont b l).rel COLOR_CHANGE 0 0 = cont b (l ++ [⟨(endOf (b.px, b.py) l).1, (endOf (b.px, b.py) l).2, 5⟩]) := by
  simp [cont, endOf_append, endOf_cons, endOf, Build.rel, Build.abs, COLOR_CHANGE]

theorem cont_threads (b : Build RThread) (l m : List Stitch) (t u : List RThread) :
    cont { cont { b with threads := t } l with threads := u } m = cont { b with threads := u } (l ++ m) := by
  simp [cont, endOf_append]

theorem cont_end (b : Build RThread) (l : List Stitch) :
    ((cont b (l ++ [⟨(endOf (b.px, b.py) l).1, (endOf (b.px, b.py) l).2, 5⟩])).px,
      (cont b (l ++ [⟨(endOf (b.px, b.py) l).1, (endOf (b.px, b.py) l).2, 5⟩])).py) = endOf (b.px, b.py) l := by
  simp [cont, endOf_append, endOf]

/-- Reading one block. -/
theorem read_one (f : Bytes) (c : ℚ × ℚ) (hf : f.length < 2 ^ 32) (hcc : Within c) (t : Thread) (ht : PlainThread t)
    (a cur : List Stitch) (first : Bool) (p : ℚ × ℚ) (b : Build RThread) (pos : Nat) (r : Bytes)
    (hp : ∀ a : List Stitch, firstPos first (cur ++ a) = p) (hcur : ∀ st ∈ cur, st.low = 5) (hpw : Whole p) (hpi : Within p)
    (hlow : ∀ st ∈ a, st.low ≤ 7) (hwh : ∀ st ∈ a, Whole (st.x, st.y)) (hend : EndLast a) (hcw : ∀ st ∈ cur, Whole (st.x, st.y))
    (hr : Reach 32767 p a) (ha : At f pos (colorBlock first c.1 c.2 (cur ++ a, t) ++ r)) :
    ∃ pos', At f pos' r ∧ readBlock f (pyInt c.1) (pyInt c.2) b pos =
      .ok (cont { b with threads := b.threads ++ [shown t] }
        (startMoves c p ++ sewn ((endOf (b.px, b.py) (startMoves c p)).1 - p.1, (endOf (b.px, b.py) (startMoves c p)).2 - p.2)
          (endOf (b.px, b.py) (startMoves c p)) a), pos') := by
  have hw : ∀ st ∈ cur ++ a, Whole (st.x, st.y) := by
    intro st hs
    rcases List.mem_append.1 hs with hs | hs
    exacts [hcw st hs, hwh st hs]
  have hl : ∀ st ∈ cur ++ a, st.low ≤ 7 := by
    intro st hs
    rcases List.mem_append.1 hs with hs | hs
    exacts [by rw [hcur st hs]; decide, hlow st hs]
  set q := endOf (b.px, b.py) (startMoves c p) with hq
  obtain ⟨k1, k2, k3⟩ := colors_skip cur a hcur (q.1 - p.1, q.2 - p.2) p q
  obtain ⟨pos', h1, h2⟩ := at_block b ha hf ht (by rw [hp]; exact hpi) hcc hl
    (by rw [hp]; exact wfits_whole _ _ hpw hw (k2 hr))
  refine ⟨pos', h1, ?_⟩
  rw [h2, hp, ← hq]
  have hww := walk_whole (cur ++ a) (q.1 - p.1, q.2 - p.2) p hpw hw (k3 hend)
  simp only [add_sub_cancel] at hww
  rw [hww, k1, cont_append]
  rfl

theorem read_last (f : Bytes) (c : ℚ × ℚ) (hf : f.length < 2 ^ 32) (hcc : Within c) (threads : List Thread) (filler : Nat → Thread)
    (ht : ∀ k, PlainThread (threadAt threads filler k)) 
    (l cur : List Stitch) (k : Nat) (first : Bool) (p : ℚ × ℚ) (b : Build RThread) (pos : Nat) (r : Bytes) (hd : l.dropWhile stays = [])
    (hp : ∀ a : List Stitch, firstPos first (cur ++ a) = p) (hcur : ∀ st ∈ cur, st.low = 5) (hpw : Whole p) (hpi : Within p)
    (hg : Good l) (hcw : ∀ st ∈ cur, Whole (st.x, st.y)) (hr : ReachAll 32767 p l)
    (ha : At f pos (colorBlocks c.1 c.2 first (blockLoop threads filler cur k l) ++ r)) :
      readBlocks f (pyInt c.1) (pyInt c.2) (blockLoop threads filler cur k l).length b pos =
        .ok (cont { b with threads := b.threads ++ (blockLoop threads filler cur k l).map (fun x => shown x.2) }
          (startMoves c p ++ view c ((endOf (b.px, b.py) (startMoves c p)).1 - p.1, (endOf (b.px, b.py) (startMoves c p)).2 - p.2)
            (endOf (b.px, b.py) (startMoves c p)) l)) := by
  have e := blockLoop_eq threads filler l cur k
  rw [hd] at e
  simp only at e
  rw [e] at ha ⊢
  have hl : l = l.takeWhile stays ++ [] := by rw [← hd, List.takeWhile_append_dropWhile]
  rw [List.append_nil] at hl
  have hlm : ∀ st ∈ l, st.low ≠ 5 := by
    intro st hs
    rw [hl] at hs
    exact takeWhile_stays l st hs
  rw [← hl] at ha ⊢
  have hrr := reachAll_append 32767 l [] p hlm (by simpa using hr)
  obtain ⟨pos', hat, hrb⟩ := read_one f c hf hcc (threadAt threads filler k) (ht k) l cur first p b pos r hp hcur hpw hpi
    hg.low hg.whole hg.last hcw hrr.1 (by simpa [colorBlocks] using ha)
  rw [List.length_singleton, readBlocks, bind_of hrb, readBlocks, if_pos rfl]
  have := view_append c l [] ((endOf (b.px, b.py) (startMoves c p)).1 - p.1, (endOf (b.px, b.py) (startMoves c p)).2 - p.2)
    (endOf (b.px, b.py) (startMoves c p)) hlm
  rw [List.append_nil] at this
  rw [this, view, List.append_nil]
  rfl

theorem read_blocks (f : Bytes) (c : ℚ × ℚ) (hf : f.length < 2 ^ 32) (hcc : Within c) (threads : List Thread) (filler : Nat → Thread)
    (ht : ∀ k, PlainThread (threadAt threads filler k)) (n : Nat) :
    ∀ (l cur : List Stitch) (k : Nat) (first : Bool) (p : ℚ × ℚ) (b : Build RThread) (pos : Nat) (r : Bytes), l.length ≤ n →
      (∀ a : List Stitch, firstPos first (cur ++ a) = p) → (∀ st ∈ cur, st.low = 5) → Whole p → Within p → Good l →
      (∀ st ∈ cur, Whole (st.x, st.y)) → ReachAll 32767 p l →
      At f pos (colorBlocks c.1 c.2 first (blockLoop threads filler cur k l) ++ r) →
      readBlocks f (pyInt c.1) (pyInt c.2) (blockLoop threads filler cur k l).length b pos =
        .ok (cont { b with threads := b.threads ++ (blockLoop threads filler cur k l).map (fun x => shown x.2) }
          (startMoves c p ++ view c ((endOf (b.px, b.py) (startMoves c p)).1 - p.1, (endOf (b.px, b.py) (startMoves c p)).2 - p.2)
            (endOf (b.px, b.py) (startMoves c p)) l)) := by
  induction n with
  | zero =>
    intro l cur k first p b pos r hn hp hcur hpw hpi hg hcw hr ha
    obtain rfl : l = [] := List.length_eq_zero_iff.1 (by omega)
    exact read_last f c hf hcc threads filler ht [] cur k first p b pos r rfl hp hcur hpw hpi hg hcw hr ha
  | succ n ih =>
    intro l cur k first p b pos r hn hp hcur hpw hpi hg hcw hr ha
    cases hd : l.dropWhile stays with
    | nil => exact read_last f c hf hcc threads filler ht l cur k first p b pos r hd hp hcur hpw hpi hg hcw hr ha
    | cons st rest =>
      have e := blockLoop_eq threads filler l cur k
      rw [hd] at e
      simp only at e
      rw [e] at ha ⊢
      have hl : l = l.takeWhile stays ++ st :: rest := by rw [← hd, List.takeWhile_append_dropWhile]
      have h5 := dropWhile_head l st rest hd
      have hrr := reachAll_append 32767 _ _ p (takeWhile_stays l) (hl ▸ hr)
      set a := l.takeWhile stays
      have hma : ∀ s ∈ a, s ∈ l := fun s hs => by rw [hl]; simp [hs]
      have hmr : ∀ s ∈ rest, s ∈ l := fun s hs => by rw [hl]; simp [hs]
      have hst : st ∈ l := by rw [hl]; simp
      have hend := endLast_append a (st :: rest) (hl ▸ hg.last)
      obtain ⟨pos', hat, hrb⟩ := read_one f c hf hcc (threadAt threads filler k) (ht k) a cur first p b pos
        (colorBlocks c.1 c.2 false (blockLoop threads filler [st] (k + 1) rest) ++ r) hp hcur hpw hpi
        (fun s hs => hg.low s (hma s hs)) (fun s hs => hg.whole s (hma s hs)) hend.1 hcw hrr.1
        (by rw [← List.append_assoc]; exact ha)
      rw [List.length_cons, readBlocks, bind_of hrb]
      rw [if_neg (by rw [List.length_eq_zero_iff]; exact blockLoop_ne _ _ _ _ _)]
      have hgr : Good rest := ⟨fun s hs => hg.low s (hmr s hs), fun s hs => hg.whole s (hmr s hs), fun s hs => hg.within s (hmr s hs), hend.2.2⟩
      have hlen : rest.length ≤ n := by
        have := congrArg List.length hl
        rw [List.length_append, List.length_cons] at this
        omega
      rw [ih rest [st] (k + 1) false (st.x, st.y) _ pos' r hlen (fun _ => rfl) (by simpa using h5) (hg.whole st hst) (hg.within st hst) hgr
        (by simpa using hg.whole st hst) (hrr.2 st rest rfl h5) hat]
      congr 1
      set d := ((endOf (b.px, b.py) (startMoves c p)).1 - p.1, (endOf (b.px, b.py) (startMoves c p)).2 - p.2)
      set q := endOf (b.px, b.py) (startMoves c p) with hq
      have hv : view c d q l = sewn d q a ++ (⟨(endOf q (sewn d q a)).1, (endOf q (sewn d q a)).2, 5⟩ ::
          (startMoves c (st.x, st.y) ++
        view c ((endOf (endOf q (sewn d q a)) (startMoves c (st.x, st.y))).1 - st.x,
          (endOf (endOf q (sewn d q a)) (startMoves c (st.x, st.y))).2 - st.y)
          (endOf (endOf q (sewn d q a)) (startMoves c (st.x, st.y))) rest)) := by
        rw [hl, view_append c a (st :: rest) d q (takeWhile_stays l), view, if_neg (by omega), if_neg (by omega), if_pos h5]
      rw [hv, hq, ← endOf_append, ← hq, ← List.append_assoc]
      have hb := cont_change { b with threads := b.threads ++ [shown (threadAt threads filler k)] } (startMoves c p ++ sewn d q a)
      rw [hb, cont_threads, cont_end]
      simp only [List.append_assoc, List.map_cons, List.cons_append, List.nil_append, cont]

theorem threadAt_fixed {τ : Type} (threads : List τ) (filler : Nat → τ) (l : List Stitch) (k : Nat) :
    threadAt (fixColorCount threads filler l) filler k = threadAt threads filler k := by
  unfold threadAt fixColorCount
  by_cases h : k < threads.length
  · rw [List.getElem?_append_left h]
  · rw [List.getElem?_append_right (by omega), List.getElem?_eq_none (l := threads) (by omega)]
    by_cases h2 : k - threads.length < colorCount true l - threads.length
    · simp only [List.getElem?_map, List.getElem?_range h2, Option.map_some, Option.getD_some, Option.getD_none]
      congr 1; omega
    · rw [List.getElem?_eq_none (by simp; omega)]

/-- The number of colour changes. -/
def changes (l : List Stitch) : Nat := l.countP (fun st => decide (st.low = 5))

theorem blockLoop_threads {τ : Type} (threads : List τ) (filler : Nat → τ) (l cur : List Stitch) (k : Nat) :
    (blockLoop threads filler cur k l).map (fun x => x.2) = (List.range' k (changes l + 1)).map (threadAt threads filler) := by
  induction l generalizing cur k with
  | nil => rfl
  | cons st rest ih =>
    have hl : blockLoop threads filler cur k (st :: rest) =
      if st.low ≠ 5 then blockLoop threads filler (cur ++ [st]) k rest
      else (cur, threadAt threads filler k) :: blockLoop threads filler [st] (k + 1) rest := rfl
    rw [hl]
    unfold changes
    by_cases h : st.low = 5
    · rw [if_neg (not_not.2 h), List.map_cons, ih, List.countP_cons_of_pos (by simpa using h)]
      rfl
    · rw [if_pos h, ih, List.countP_cons_of_neg (by simpa using h)]
      rfl

/-- The centre of a box. -/
def centre (x : Box) : ℚ × ℚ := ((x.minX + x.maxX) / 2, (x.minY + x.maxY) / 2)

theorem start_zero (c : ℚ × ℚ) : startMoves c (0, 0) = [] := by
  unfold startMoves start
  rw [if_neg]
  simp only [zero_sub, pyInt_neg]
  push_cast
  simp

/-- The file around the colour blocks: if the blocks are read as `v`, so is the file. -/
theorem read_frame (f g : Bytes) (threads : List Thread) (filler : Nat → Thread) (l : List Stitch) (x : Box) (v : List Stitch)
    (hn : changes l < 65535) (hx : bounds l = some x) (hcc : Within (centre x)) (hw : write threads filler l = .ok f)
    (hv : ∀ pos, At (f ++ g) pos (colorBlocks (centre x).1 (centre x).2 true (blockLoop (fixColorCount threads filler l) filler [] 0 l) ++ g) →
      readBlocks (f ++ g) (pyInt (centre x).1) (pyInt (centre x).2) (blockLoop (fixColorCount threads filler l) filler [] 0 l).length {} pos =
        .ok (cont { threads := (blockLoop (fixColorCount threads filler l) filler [] 0 l).map (fun x => shown x.2) } v)) :
    read (f ++ g) = .ok ((cont { threads := (List.range (changes l + 1)).map (fun k => shown (threadAt threads filler k)) } v).rel END 0 0) := by
  unfold write at hw
  rw [hx] at hw
  injection hw with hw
  set bs := blocks (fixColorCount threads filler l) filler l with hbs
  have hlen : bs.length = changes l + 1 := by
    have := congrArg List.length (blockLoop_threads (fixColorCount threads filler l) filler l [] 0)
    simpa [hbs, blocks] using this
  have hmap : bs.map (fun x => shown x.2) = (List.range (changes l + 1)).map (fun k => shown (threadAt threads filler k)) := by
    have := congrArg (List.map shown) (blockLoop_threads (fixColorCount threads filler l) filler l [] 0)
    rw [List.map_map, List.map_map] at this
    rw [List.range_eq_range']
    refine this.trans ?_
    apply List.map_congr_left
    intro k _
    simp [threadAt_fixed]
  have hc1 : x.maxX - (x.maxX - x.minX) / 2 = (centre x).1 := by unfold centre; ring
  have hc2 : x.maxY - (x.maxY - x.minY) / 2 = (centre x).2 := by unfold centre; ring
  set c := centre x
  unfold fileBlock designBlock at hw
  simp only [hc1, hc2] at hw
  set w := x.maxX - x.minX
  set h := x.maxY - x.minY
  set D := int32 (pyInt c.1 * 100) ++ int32 (pyInt c.2 * -100) ++ [0, 0, 0] ++
     int32 (pyInt (w / 2) * -100) ++ int32 (pyInt (w / 2) * 100) ++ int32 (pyInt (h / 2) * -100) ++ int32 (pyInt (h / 2) * 100) ++
     int32 (pyInt w * 100) ++ int32 (pyInt h * 100) ++ string16 [] ++
     [0x64, 0x64] ++ int32 4096 ++ int32 0 ++ int32 0 ++ int32 4096 ++
     ("xxPP".toList.map (fun c => (c.toNat : Int))) ++ [0x01, 0x00] ++ string16 producer ++
     writeInt16be bs.length ++ colorBlocks c.1 c.2 true bs with hD
  obtain ⟨n1, e1⟩ : ∃ n1, f ++ g = (utf8 "%vsm%".toList ++ writeInt8 0) ++ (string16 producer ++ (([0x00, 0x02, 0x00] ++ int32 n1) ++
      (string16 [] ++ ((int32 (pyInt (x.maxX * 100)) ++ int32 (pyInt (x.minY * -100)) ++ int32 (pyInt (x.minX * 100)) ++
     int32 (pyInt (x.maxY * -100)) ++ int32 ((l.length : Int) - countCommands l END) ++ writeInt8 0 ++ writeInt8 bs.length ++
     writeInt8 12 ++ writeInt8 0 ++ writeInt8 1 ++ [0x00, 0x03, 0x00] ++ int32 D.length) ++ (D ++ g))))) := by
    refine ⟨((string16 [] ++ int32 (pyInt (x.maxX * 100)) ++ int32 (pyInt (x.minY * -100)) ++ int32 (pyInt (x.minX * 100)) ++
     int32 (pyInt (x.maxY * -100)) ++ int32 ((l.length : Int) - countCommands l END) ++ writeInt8 0 ++ writeInt8 bs.length ++
     writeInt8 12 ++ writeInt8 0 ++ writeInt8 1 ++ patched [0x00, 0x03, 0x00] D).length : Int), ?_⟩
    rw [← hw]
    unfold patched
    simp only [List.append_assoc]
  have e2 : D ++ g = int32 (pyInt c.1 * 100) ++ (int32 (-pyInt c.2 * 100) ++ (([0, 0, 0] ++
     int32 (pyInt (w / 2) * -100) ++ int32 (pyInt (w / 2) * 100) ++ int32 (pyInt (h / 2) * -100) ++ int32 (pyInt (h / 2) * 100) ++
     int32 (pyInt w * 100) ++ int32 (pyInt h * 100)) ++ (string16 [] ++
     (([0x64, 0x64] ++ int32 4096 ++ int32 0 ++ int32 0 ++ int32 4096 ++
     ("xxPP".toList.map (fun c => (c.toNat : Int))) ++ [0x01, 0x00]) ++ (string16 producer ++
     (writeInt16be bs.length ++ (colorBlocks c.1 c.2 true bs ++ g))))))) := by
    rw [hD, show pyInt c.2 * -100 = -pyInt c.2 * 100 by ring]
    simp only [List.append_assoc, List.append_nil]
  have hs0 : ([] : Str).length < 32768 := by decide
  have hs1 : producer.length < 32768 := by decide
  have h0 : At (f ++ g) 0 _ := ⟨e1, by omega⟩
  have hsl : ∀ t : Str, (string16 t).length = 2 + 2 * t.length := by
    intro t
    unfold string16
    simp [writeInt16be, List.length_flatMap]
    omega
  have h1 := h0.step 6 (by decide)
  have h2 := h1.step _ (hsl _)
  have h3 := h2.step 7 rfl
  have h4 := h3.step _ (hsl _)
  have h5 := h4.step 32 rfl
  rw [e2] at h5
  have h6 := h5.step 4 rfl
  have h7 := h6.step 4 rfl
  have h8 := h7.step 27 rfl
  have h9 := h8.step _ (hsl _)
  have h10 := h9.step 24 rfl
  have h11 := h10.step _ (hsl _)
  have h12 := h11.step 2 rfl
  have b1 := pyInt_bound c.1 10000000 (by exact_mod_cast hcc.1)
  have b2 := pyInt_bound c.2 10000000 (by exact_mod_cast hcc.2)
  unfold read
  simp only
  rw [h0.adv 6 (by decide), bind_of (at_skip h1 hs1), bind_of (at_skip h3 hs0), bind_of (at_hundredths h5 (by omega)),
    bind_of (at_hundredths h6 (by omega)), bind_of (at_skip h8 hs0), bind_of (at_skip h10 hs1), at_r16 h11]
  simp only
  have hbl : ((bs.length : Int) % 2 ^ 16).toNat = bs.length := by omega
  have hneg : -((-pyInt c.2 : Int) : ℚ) = (pyInt c.2 : ℚ) := by push_cast; ring
  have hm := hv _ h12
  rw [show (blockLoop (fixColorCount threads filler l) filler [] 0 l) = bs from rfl, hmap] at hm
  rw [hbl, hneg, bind_of hm]

theorem read_file_more (f g : Bytes) (threads : List Thread) (filler : Nat → Thread) (l : List Stitch) (x : Box)
    (hf : (f ++ g).length < 2 ^ 32) (ht : ∀ k, PlainThread (threadAt threads filler k)) (hn : changes l < 65535)
    (hx : bounds l = some x) (hcc : Within (centre x)) (hg : Good l) (hr : ReachAll 32767 (0, 0) l)
    (hw : write threads filler l = .ok f) :
    read (f ++ g) = .ok ((cont { threads := (List.range (changes l + 1)).map (fun k => shown (threadAt threads filler k)) }
      (view (centre x) (0, 0) (0, 0) l)).rel END 0 0) := by
  refine read_frame f g threads filler l x _ hn hx hcc hw fun pos h12 => ?_
  have hm := read_blocks (f ++ g) (centre x) hf hcc (fixColorCount threads filler l) filler (fun k => by rw [threadAt_fixed]; exact ht k) l.length l [] 0 true
    (0, 0) {} _ g le_rfl (fun a => by unfold firstPos; cases ([] ++ a).head? <;> rfl) (by simp) ⟨0, 0, by simp⟩ (by simp [Within]) hg
    (by simp) hr h12
  rw [hm, start_zero]
  simp [endOf]

/-- What the reader makes of a written file. -/
theorem read_file (f : Bytes) (threads : List Thread) (filler : Nat → Thread) (l : List Stitch) (x : Box)
    (hf : f.length < 2 ^ 32) (ht : ∀ k, PlainThread (threadAt threads filler k)) (hn : changes l < 65535)
    (hx : bounds l = some x) (hcc : Within (centre x)) (hg : Good l) (hr : ReachAll 32767 (0, 0) l)
    (hw : write threads filler l = .ok f) :
    read f = .ok ((cont { threads := (List.range (changes l + 1)).map (fun k => shown (threadAt threads filler k)) }
      (view (centre x) (0, 0) (0, 0) l)).rel END 0 0) := by
  have := read_file_more f [] threads filler l x (by simpa using hf) ht hn hx hcc hg hr hw
  rwa [List.append_nil] at this

/-! ## Files without shifts -/

/-- What a VP3 file shows of a pattern, from position `q`: a STITCH (0) at its position; a TRIM (2) for a TRIM and for the END (4), at the last
position; a COLOR_CHANGE (5) at the last position followed by a JUMP (1) to its own; nothing else. -/
def sewnFile : ℚ × ℚ → List Stitch → List Stitch
  | _, [] => []
  | q, st :: rest =>
    if st.low = 0 then ⟨st.x, st.y, 0⟩ :: sewnFile (st.x, st.y) rest
    else if st.low = 2 ∨ st.low = 4 then ⟨q.1, q.2, 2⟩ :: sewnFile q rest
    else if st.low = 5 then ⟨q.1, q.2, 5⟩ :: ⟨st.x, st.y, 1⟩ :: sewnFile (st.x, st.y) rest
    else sewnFile q rest

/-- Two commands alike, at most one unit apart along each axis. -/
def Close (a b : Stitch) : Prop := a.cmd = b.cmd ∧ |a.x - b.x| ≤ 1 ∧ |a.y - b.y| ≤ 1

theorem start_whole (c p : ℚ × ℚ) (hc : Whole c) (hp : Whole p) : start c p = p := by
  obtain ⟨a, b, rfl⟩ := hc
  obtain ⟨u, v, rfl⟩ := hp
  unfold start
  simp only [← Rat.intCast_sub, pyInt_intCast]
  push_cast
  simp

theorem start_axis (c p : ℚ) (n : Int) (hp : p = n) : |(pyInt (p - c) : ℚ) + pyInt c - p| ≤ 1 := by
  have h1 := pyInt_sub (p - c)
  have h2 := pyInt_sub c
  rw [abs_lt] at h1 h2
  subst hp
  have h3 : (pyInt (n - c) : ℚ) + pyInt c - n < 2 := by linarith
  have h4 : -2 < (pyInt (n - c) : ℚ) + pyInt c - n := by linarith
  have h3 : pyInt (n - c) + pyInt c - n < 2 := by exact_mod_cast h3
  have h4 : -2 < pyInt (n - c) + pyInt c - n := by exact_mod_cast h4
  have h5 : |pyInt (n - c) + pyInt c - n| ≤ 1 := by rw [abs_le]; omega
  exact_mod_cast h5

theorem view_whole (c : ℚ × ℚ) (hc : Whole c) (l : List Stitch) (q : ℚ × ℚ) (hl : ∀ st ∈ l, Whole (st.x, st.y))
    (h5 : ∀ st ∈ l, st.low = 5 → st.x ≠ 0 ∧ st.y ≠ 0) : view c (0, 0) q l = sewnFile q l := by
  induction l generalizing q with
  | nil => rfl
  | cons st rest ih =>
    replace ih := fun q => ih q (fun s hs => hl s (by simp [hs])) (fun s hs => h5 s (by simp [hs]))
    unfold view sewnFile
    split_ifs with a1 a2 a3
    · simp [ih]
    · rw [ih]
    · have hm : startMoves c (st.x, st.y) = [⟨st.x, st.y, 1⟩] := by
        unfold startMoves
        rw [start_whole c _ hc (hl st (by simp)), if_pos (h5 st (by simp) a3)]
      have he : endOf q [(⟨st.x, st.y, 1⟩ : Stitch)] = (st.x, st.y) := rfl
      rw [hm, he]
      simp only [sub_self, ih]
      rfl
    · exact ih q

theorem view_close (c : ℚ × ℚ) (l : List Stitch) (d q r : ℚ × ℚ) (hd : |d.1| ≤ 1 ∧ |d.2| ≤ 1) (hq : |q.1 - r.1| ≤ 1 ∧ |q.2 - r.2| ≤ 1)
    (hl : ∀ st ∈ l, Whole (st.x, st.y))
    (h5 : ∀ st ∈ l, st.low = 5 → 1 < |st.x| ∧ 1 < |st.y|) : List.Forall₂ Close (sewnFile r l) (view c d q l) := by
  induction l generalizing d q r with
  | nil => exact .nil
  | cons st rest ih =>
    replace ih := fun d q r hd hq => ih d q r hd hq (fun s hs => hl s (by simp [hs])) (fun s hs => h5 s (by simp [hs]))
    have hqr : |r.1 - q.1| ≤ 1 ∧ |r.2 - q.2| ≤ 1 := by rw [abs_sub_comm r.1, abs_sub_comm r.2]; exact hq
    have hdd : |st.x - (st.x + d.1)| ≤ 1 ∧ |st.y - (st.y + d.2)| ≤ 1 := by
      rw [sub_add_cancel_left, sub_add_cancel_left, abs_neg, abs_neg]; exact hd
    unfold view sewnFile
    split_ifs with a1 a2 a3
    · refine .cons ⟨rfl, hdd⟩ (ih _ _ _ hd ?_)
      simp only [add_sub_cancel_left]; exact hd
    · exact .cons ⟨rfl, hqr⟩ (ih _ _ _ hd hq)
    · obtain ⟨u, v, huv⟩ := hl st (by simp)
      rw [Prod.mk.injEq] at huv
      have k1 := start_axis c.1 st.x u huv.1
      have k2 := start_axis c.2 st.y v huv.2
      obtain ⟨n1, n2⟩ := h5 st (by simp) a3
      have hne : (start c (st.x, st.y)).1 ≠ 0 ∧ (start c (st.x, st.y)).2 ≠ 0 := by
        constructor
        · intro e
          unfold start at e
          simp only at e
          rw [e, zero_sub, abs_neg] at k1
          linarith
        · intro e
          unfold start at e
          simp only at e
          rw [e, zero_sub, abs_neg] at k2
          linarith
      have hm : startMoves c (st.x, st.y) = [⟨(start c (st.x, st.y)).1, (start c (st.x, st.y)).2, 1⟩] := by
        unfold startMoves
        rw [if_pos hne]
      rw [hm]
      have k1' : |(start c (st.x, st.y)).1 - st.x| ≤ 1 := k1
      have k2' : |(start c (st.x, st.y)).2 - st.y| ≤ 1 := k2
      refine .cons ⟨rfl, hqr⟩ (.cons ⟨rfl, ?_, ?_⟩ (ih _ _ _ ⟨k1', k2'⟩ ⟨k1', k2'⟩))
      · rw [abs_sub_comm]; exact k1'
      · rw [abs_sub_comm]; exact k2'
    · exact ih _ _ _ hd hq

theorem within_centre (l : List Stitch) (x : Box) (hx : bounds l = some x) (h : ∀ st ∈ l, Within (st.x, st.y)) : Within (centre x) := by
  have hl : l ≠ [] := by intro c; subst c; cases hx
  obtain ⟨x', hx', ht⟩ := C43_tight l hl
  rw [hx'] at hx; injection hx with hx; subst hx
  obtain ⟨_, ⟨a1, m1, e1⟩, ⟨a2, m2, e2⟩, ⟨a3, m3, e3⟩, ⟨a4, m4, e4⟩⟩ := ht
  have h1 := (h a1 m1).1
  have h2 := (h a2 m2).1
  have h3 := (h a3 m3).2
  have h4 := (h a4 m4).2
  simp only [e1, e2, e3, e4, abs_le] at h1 h2 h3 h4
  unfold Within centre
  simp only [abs_le]
  refine ⟨⟨?_, ?_⟩, ?_, ?_⟩ <;> linarith

/-- The reader adds an END at the last position. -/
def withEnd (l : List Stitch) : List Stitch := l ++ [⟨(lastPos l).1, (lastPos l).2, 4⟩]

theorem cont_final (t : List RThread) (l : List Stitch) : ((cont { threads := t } l).rel END 0 0).stitches = withEnd l := by
  have : endOf (0, 0) l = lastPos l := by unfold endOf lastPos; cases l.getLast? <;> rfl
  simp [cont, Build.rel, Build.abs, withEnd, this, END]

/-- The threads a file shows: one for each colour block, fillers where the pattern has no thread. -/
def shownThreads (threads : List Thread) (filler : Nat → Thread) (l : List Stitch) : List RThread :=
  (List.range (changes l + 1)).map (fun k => shown (threadAt threads filler k))

/-- C16 for files, exactly: a pattern of any length and number of blocks (fewer than 65536) with whole positions, commands up to 7, steps between stitches that fit 16 bits,
plain thread texts, a whole centre and no block (after the first) that starts on an axis is read back as `sewnFile` says, with the threads in the order of
the blocks. -/
theorem C16_file_partial (f : Bytes) (threads : List Thread) (filler : Nat → Thread) (l : List Stitch) (x : Box)
    (hf : f.length < 2 ^ 32) (ht : ∀ k, PlainThread (threadAt threads filler k)) (hn : changes l < 65535)
    (hx : bounds l = some x) (hg : Good l) (hr : ReachAll 32767 (0, 0) l)
    (hc : Whole (centre x)) (h5 : ∀ st ∈ l, st.low = 5 → st.x ≠ 0 ∧ st.y ≠ 0)
    (hw : write threads filler l = .ok f) :
    ∃ b, read f = .ok b ∧ b.stitches = withEnd (sewnFile (0, 0) l) ∧ b.threads = shownThreads threads filler l := by
  refine ⟨_, read_file f threads filler l x hf ht hn hx (within_centre l x hx hg.within) hg hr hw, ?_, rfl⟩
  rw [view_whole _ hc l (0, 0) hg.whole h5]
  exact cont_final _ _

/-- C16 for files with any centre: if every block after the first starts more than a unit from both axes, no command is read back more than a unit from where
it was, however long the pattern. -/
theorem C16_file_close (f : Bytes) (threads : List Thread) (filler : Nat → Thread) (l : List Stitch) (x : Box)
    (hf : f.length < 2 ^ 32) (ht : ∀ k, PlainThread (threadAt threads filler k)) (hn : changes l < 65535)
    (hx : bounds l = some x) (hg : Good l) (hr : ReachAll 32767 (0, 0) l)
    (h5 : ∀ st ∈ l, st.low = 5 → 1 < |st.x| ∧ 1 < |st.y|)
    (hw : write threads filler l = .ok f) :
    ∃ b out, read f = .ok b ∧ b.stitches = withEnd out ∧ List.Forall₂ Close (sewnFile (0, 0) l) out ∧
      b.threads = shownThreads threads filler l := by
  exact ⟨_, view (centre x) (0, 0) (0, 0) l, read_file f threads filler l x hf ht hn hx (within_centre l x hx hg.within) hg hr hw,
    cont_final _ _, view_close _ l _ _ _ (by simp) (by simp) hg.whole h5, rfl⟩

/-- **C100** for VP3: whatever follows a written file (below 4 GB), it is read as without it. -/
theorem C100_vp3 (f g : Bytes) (threads : List Thread) (filler : Nat → Thread) (l : List Stitch) (x : Box)
    (hf : (f ++ g).length < 2 ^ 32) (ht : ∀ k, PlainThread (threadAt threads filler k)) (hn : changes l < 65535)
    (hx : bounds l = some x) (hg : Good l) (hr : ReachAll 32767 (0, 0) l) (hw : write threads filler l = .ok f) :
    read (f ++ g) = read f := by
  rw [read_file_more f g threads filler l x hf ht hn hx (within_centre l x hx hg.within) hg hr hw,
    read_file f threads filler l x (by rw [List.length_append] at hf; omega) ht hn hx (within_centre l x hx hg.within) hg hr hw]

/-! ## Concrete cases and disagreements -/

/-- A thread without random parts in place of the fillers. -/
def demoFiller (k : Nat) : Thread := { color := k }

/-- Two blocks with long and short stitches, TRIM, STOP and JUMP; the centre is (50, 150). -/
def demo : List Stitch :=
  [⟨0, 0, JUMP⟩, ⟨10, 5, STITCH⟩, ⟨137, -122, STITCH⟩, ⟨265, -250, STITCH⟩, ⟨265, -250, TRIM⟩, ⟨265, -250, STOP⟩, ⟨100, 300, JUMP⟩,
   ⟨100, 300, COLOR_CHANGE⟩, ⟨101, 301, STITCH⟩, ⟨-165, 550, STITCH⟩, ⟨-165, 550, END⟩]

example : Good demo ∧ ReachAll 32767 (0, 0) demo ∧ bounds demo = some ⟨-165, -250, 265, 550⟩ ∧ Whole (centre ⟨-165, -250, 265, 550⟩) ∧
    changes demo = 1 ∧ (∀ st ∈ demo, st.low = 5 → st.x ≠ 0 ∧ st.y ≠ 0) := by
  refine ⟨⟨by decide, ?_, ?_, ?_⟩, ?_, by decide +kernel, ⟨50, 150, by decide +kernel⟩, by decide, by decide +kernel⟩
  · intro st h
    simp only [demo, List.mem_cons, List.not_mem_nil, or_false] at h
    rcases h with rfl | rfl | rfl | rfl | rfl | rfl | rfl | rfl | rfl | rfl | rfl
    exacts [⟨0, 0, by norm_num⟩, ⟨10, 5, by norm_num⟩, ⟨137, -122, by norm_num⟩, ⟨265, -250, by norm_num⟩, ⟨265, -250, by norm_num⟩,
      ⟨265, -250, by norm_num⟩, ⟨100, 300, by norm_num⟩, ⟨100, 300, by norm_num⟩, ⟨101, 301, by norm_num⟩, ⟨-165, 550, by norm_num⟩,
      ⟨-165, 550, by norm_num⟩]
  · unfold Within; decide +kernel
  · simp [demo, EndLast, Stitch.low, JUMP, STITCH, TRIM, STOP, COLOR_CHANGE, END]
  · simp only [demo, ReachAll, Stitch.low, JUMP, STITCH, TRIM, STOP, COLOR_CHANGE, END]
    norm_num [abs_le]

/-- What is read back from the file of a pattern. -/
def again (l : List Stitch) : Except PyErr (List Stitch) :=
  write [] demoFiller l >>= fun f => read f >>= fun b => .ok b.stitches

example : again demo = .ok (withEnd (sewnFile (0, 0) demo)) ∧ (sewnFile (0, 0) demo).length = 9 := by decide +kernel

/-- C16 fails for files: a block that starts on an axis is read from where the block before it ended, and all its stitches are displaced. -/
theorem C16_axis_fails :
    again [⟨10, 10, STITCH⟩, ⟨0, 20, COLOR_CHANGE⟩, ⟨0, 20, STITCH⟩, ⟨-10, -10, STITCH⟩] =
      .ok [⟨10, 10, STITCH⟩, ⟨10, 10, COLOR_CHANGE⟩, ⟨10, 10, STITCH⟩, ⟨0, -20, STITCH⟩, ⟨0, -20, END⟩] := by decide +kernel

/-- C16 fails for files: with a centre that is not whole, the blocks after the first are displaced by one. -/
theorem C16_centre_fails :
    again [⟨0, 0, STITCH⟩, ⟨11, 11, STITCH⟩, ⟨8, 8, COLOR_CHANGE⟩, ⟨8, 8, STITCH⟩] =
      .ok [⟨0, 0, STITCH⟩, ⟨11, 11, STITCH⟩, ⟨11, 11, COLOR_CHANGE⟩, ⟨7, 7, JUMP⟩, ⟨7, 7, STITCH⟩, ⟨7, 7, END⟩] := by decide +kernel

/-- C16 fails for blocks: a speed change after a jump displaces the stitches after it. -/
theorem C16_speed_fails :
    again [⟨0, 0, STITCH⟩, ⟨100, 0, JUMP⟩, ⟨100, 0, SLOW⟩, ⟨102, 0, STITCH⟩] =
      .ok [⟨0, 0, STITCH⟩, ⟨2, 0, STITCH⟩, ⟨2, 0, END⟩] := by decide +kernel

/-- C16 fails for blocks: a distance between stitches beyond 16 bits (jumps are not written) comes back modulo 65536. -/
theorem C16_far_fails :
    again [⟨-20000, 0, STITCH⟩, ⟨20000, 0, STITCH⟩] = .ok [⟨-20000, 0, STITCH⟩, ⟨-45536, 0, STITCH⟩, ⟨-45536, 0, END⟩] := by decide +kernel

/-- C16 fails for files: the length of a text counts characters, so a description that is not ASCII makes the file unreadable. -/
theorem C16_text_fails :
    (write [{ color := 1, description := some "é" }] demoFiller [⟨0, 0, STITCH⟩, ⟨10, 10, STITCH⟩] >>= fun f => read f >>= fun b => .ok b.stitches) ≠
      .ok [⟨0, 0, STITCH⟩, ⟨10, 10, STITCH⟩, ⟨10, 10, END⟩] := by decide +kernel

end Vp3
end Emb
