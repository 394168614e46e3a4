import Verif.Props.Vp3Props
import Verif.Props.SavedProps

/-!
# C16 for positions that are not whole

The settings of VP3 do not round: a design with long stitches has fractions once it is normalized.
-/

namespace Emb
namespace Vp3

open Blocks
open U01 (bind_of)

/-- What the reader makes of the commands: the writer is at `r`, the reader at `q`. -/
def look (c : ℚ × ℚ) : ℚ × ℚ → ℚ × ℚ → List Stitch → List Stitch
  | _, _, [] => []
  | r, q, st :: rest =>
    if st.low = 4 ∨ st.low = 2 then ⟨q.1, q.2, 2⟩ :: look c r q rest
    else if st.low = 0 then
      ⟨q.1 + pyInt (st.x - r.1), q.2 + pyInt (st.y - r.2), 0⟩ ::
        look c (r.1 + pyInt (st.x - r.1), r.2 + pyInt (st.y - r.2)) (q.1 + pyInt (st.x - r.1), q.2 + pyInt (st.y - r.2)) rest
    else if st.low = 5 then
      ⟨q.1, q.2, 5⟩ :: (startMoves c (st.x, st.y) ++ look c (st.x, st.y) (endOf q (startMoves c (st.x, st.y))) rest)
    else look c r q rest

theorem look_last (c : ℚ × ℚ) : ∀ (a : List Stitch) (r q : ℚ × ℚ), (∀ st ∈ a, st.low ≠ 5) → EndLast a → look c r q a = walk r q a
  | [], _, _, _, _ => rfl
  | st :: a, r, q, ha, he => by
    have ih := fun r q => look_last c a r q (fun s hs => ha s (by simp [hs])) he.2
    rw [look, walk]
    by_cases h4 : st.low = 4
    · rw [if_pos (.inl h4), if_pos h4, he.1 h4]; rfl
    · rw [if_neg (c := st.low = 4) h4]
      by_cases h2 : st.low = 2
      · rw [if_pos (.inr h2), if_pos h2, ih]
      · rw [if_neg (by tauto), if_neg (c := st.low = 2) h2]
        by_cases h0 : st.low = 0
        · rw [if_pos h0, if_pos h0, ih]
        · rw [if_neg h0, if_neg (c := st.low = 0) h0, if_neg (ha st (by simp)), ih]

theorem look_change (c : ℚ × ℚ) (st : Stitch) (h5 : st.low = 5) (rest : List Stitch) : ∀ (a : List Stitch) (r q : ℚ × ℚ),
    (∀ s ∈ a, s.low ≠ 5) → EndLast (a ++ st :: rest) →
    look c r q (a ++ st :: rest) = walk r q a ++ ⟨(endOf q (walk r q a)).1, (endOf q (walk r q a)).2, 5⟩ ::
      (startMoves c (st.x, st.y) ++ look c (st.x, st.y) (endOf (endOf q (walk r q a)) (startMoves c (st.x, st.y))) rest)
  | [], r, q, _, _ => by
    rw [List.nil_append, look, if_neg (by omega), if_neg (by omega), if_pos h5]; rfl
  | s :: a, r, q, ha, he => by
    have ih := fun r q => look_change c st h5 rest a r q (fun s hs => ha s (by simp [hs])) he.2
    have h4 : s.low ≠ 4 := fun h => by simpa using he.1 h
    rw [List.cons_append, look, walk, if_neg (c := s.low = 4) h4]
    by_cases h2 : s.low = 2
    · rw [if_pos (.inr h2), if_pos h2, ih, endOf_cons]; rfl
    · rw [if_neg (by tauto), if_neg (c := s.low = 2) h2]
      by_cases h0 : s.low = 0
      · rw [if_pos h0, if_pos h0, ih, endOf_cons]; rfl
      · rw [if_neg h0, if_neg (c := s.low = 0) h0, if_neg (ha s (by simp)), ih]

theorem skip_changes (a : List Stitch) (p q : ℚ × ℚ) : ∀ cur : List Stitch, (∀ st ∈ cur, st.low = 5) →
    walk p q (cur ++ a) = walk p q a ∧ (Reach 32766 p a → Reach 32766 p (cur ++ a))
  | [], _ => ⟨rfl, id⟩
  | st :: cur, h => by
    have h5 := h st (by simp)
    obtain ⟨i1, i2⟩ := skip_changes a p q cur fun s hs => h s (by simp [hs])
    refine ⟨?_, fun k => ?_⟩
    · rw [List.cons_append, walk, if_neg (by omega), if_neg (by omega), if_neg (by omega), i1]
    · rw [List.cons_append, Reach, if_neg (by omega)]
      exact i2 k

/-- What is asked of every command: kinds up to 7, positions within a kilometre, nothing behind an END. -/
structure Fine (l : List Stitch) : Prop where
  low : ∀ st ∈ l, st.low ≤ 7
  within : ∀ st ∈ l, Within (st.x, st.y)
  last : EndLast l

theorem look_one (f : Bytes) (c : ℚ × ℚ) (hf : f.length < 2 ^ 32) (hcc : Within c) (t : Thread) (ht : PlainThread t)
    (a cur : List Stitch) (first : Bool) (p : ℚ × ℚ) (b : Build RThread) (pos : Nat) (r : Bytes)
    (hp : ∀ a : List Stitch, firstPos first (cur ++ a) = p) (hcur : ∀ st ∈ cur, st.low = 5) (hpi : Within p)
    (hlow : ∀ st ∈ a, st.low ≤ 7) (hr : Reach 32766 p a) (ha : At f pos (colorBlock first c.1 c.2 (cur ++ a, t) ++ r)) :
    ∃ pos', At f pos' r ∧ readBlock f (pyInt c.1) (pyInt c.2) b pos =
      .ok (cont { b with threads := b.threads ++ [shown t] }
        (startMoves c p ++ walk p (endOf (b.px, b.py) (startMoves c p)) a), pos') := by
  have hl : ∀ st ∈ cur ++ a, st.low ≤ 7 := by
    intro st hs
    rcases List.mem_append.1 hs with hs | hs
    exacts [by rw [hcur st hs]; decide, hlow st hs]
  set q := endOf (b.px, b.py) (startMoves c p) with hq
  obtain ⟨k1, k2⟩ := skip_changes a p q cur hcur
  obtain ⟨pos', h1, h2⟩ := at_block b ha hf ht (by rw [hp]; exact hpi) hcc hl
    (by rw [hp]; exact wfits_of _ p p (by simp) (k2 hr))
  refine ⟨pos', h1, ?_⟩
  rw [h2, hp, ← hq, k1, cont_append]
  rfl

theorem look_end (f : Bytes) (c : ℚ × ℚ) (hf : f.length < 2 ^ 32) (hcc : Within c) (threads : List Thread) (filler : Nat → Thread)
    (ht : ∀ k, PlainThread (threadAt threads filler k))
    (l cur : List Stitch) (k : Nat) (first : Bool) (p : ℚ × ℚ) (b : Build RThread) (pos : Nat) (r : Bytes) (hd : l.dropWhile stays = [])
    (hp : ∀ a : List Stitch, firstPos first (cur ++ a) = p) (hcur : ∀ st ∈ cur, st.low = 5) (hpi : Within p)
    (hg : Fine l) (hr : ReachAll 32766 p l)
    (ha : At f pos (colorBlocks c.1 c.2 first (blockLoop threads filler cur k l) ++ r)) :
      readBlocks f (pyInt c.1) (pyInt c.2) (blockLoop threads filler cur k l).length b pos =
        .ok (cont { b with threads := b.threads ++ (blockLoop threads filler cur k l).map (fun x => shown x.2) }
          (startMoves c p ++ look c p (endOf (b.px, b.py) (startMoves c p)) l)) := by
  have e := blockLoop_eq threads filler l cur k
  rw [hd] at e
  simp only at e
  rw [e] at ha ⊢
  have hl : l = l.takeWhile stays ++ [] := by rw [← hd, List.takeWhile_append_dropWhile]
  rw [List.append_nil] at hl
  have hlm : ∀ st ∈ l, st.low ≠ 5 := by
    intro st hs
    rw [hl] at hs
    exact takeWhile_stays l st hs
  rw [← hl] at ha ⊢
  have hrr := reachAll_append 32766 l [] p hlm (by simpa using hr)
  obtain ⟨pos', hat, hrb⟩ := look_one f c hf hcc (threadAt threads filler k) (ht k) l cur first p b pos r hp hcur hpi
    hg.low hrr.1 (by simpa [colorBlocks] using ha)
  rw [List.length_singleton, readBlocks, bind_of hrb, readBlocks, if_pos rfl, look_last c l _ _ hlm hg.last]
  rfl

theorem look_blocks (f : Bytes) (c : ℚ × ℚ) (hf : f.length < 2 ^ 32) (hcc : Within c) (threads : List Thread) (filler : Nat → Thread)
    (ht : ∀ k, PlainThread (threadAt threads filler k)) (n : Nat) :
    ∀ (l cur : List Stitch) (k : Nat) (first : Bool) (p : ℚ × ℚ) (b : Build RThread) (pos : Nat) (r : Bytes), l.length ≤ n →
      (∀ a : List Stitch, firstPos first (cur ++ a) = p) → (∀ st ∈ cur, st.low = 5) → Within p → Fine l → ReachAll 32766 p l →
      At f pos (colorBlocks c.1 c.2 first (blockLoop threads filler cur k l) ++ r) →
      readBlocks f (pyInt c.1) (pyInt c.2) (blockLoop threads filler cur k l).length b pos =
        .ok (cont { b with threads := b.threads ++ (blockLoop threads filler cur k l).map (fun x => shown x.2) }
          (startMoves c p ++ look c p (endOf (b.px, b.py) (startMoves c p)) l)) := by
  induction n with
  | zero =>
    intro l cur k first p b pos r hn hp hcur hpi hg hr ha
    obtain rfl : l = [] := List.length_eq_zero_iff.1 (by omega)
    exact look_end f c hf hcc threads filler ht [] cur k first p b pos r rfl hp hcur hpi hg hr ha
  | succ n ih =>
    intro l cur k first p b pos r hn hp hcur hpi hg hr ha
    cases hd : l.dropWhile stays with
    | nil => exact look_end f c hf hcc threads filler ht l cur k first p b pos r hd hp hcur hpi hg hr ha
    | cons st rest =>
      have e := blockLoop_eq threads filler l cur k
      rw [hd] at e
      simp only at e
      rw [e] at ha ⊢
      have hl : l = l.takeWhile stays ++ st :: rest := by rw [← hd, List.takeWhile_append_dropWhile]
      have h5 := dropWhile_head l st rest hd
      have hrr := reachAll_append 32766 _ _ p (takeWhile_stays l) (hl ▸ hr)
      have hlast : EndLast (l.takeWhile stays ++ st :: rest) := hl ▸ hg.last
      set a := l.takeWhile stays with hadef
      have hma : ∀ s ∈ a, s ∈ l := fun s hs => by rw [hl]; simp [hs]
      have hmr : ∀ s ∈ rest, s ∈ l := fun s hs => by rw [hl]; simp [hs]
      have hst : st ∈ l := by rw [hl]; simp
      have hend := endLast_append a (st :: rest) hlast
      obtain ⟨pos', hat, hrb⟩ := look_one f c hf hcc (threadAt threads filler k) (ht k) a cur first p b pos
        (colorBlocks c.1 c.2 false (blockLoop threads filler [st] (k + 1) rest) ++ r) hp hcur hpi
        (fun s hs => hg.low s (hma s hs)) hrr.1
        (by rw [← List.append_assoc]; exact ha)
      rw [List.length_cons, readBlocks, bind_of hrb]
      rw [if_neg (by rw [List.length_eq_zero_iff]; exact blockLoop_ne _ _ _ _ _)]
      have hgr : Fine rest := ⟨fun s hs => hg.low s (hmr s hs), fun s hs => hg.within s (hmr s hs), hend.2.2⟩
      have hlen : rest.length ≤ n := by
        have := congrArg List.length hl
        rw [List.length_append, List.length_cons] at this
        omega
      rw [ih rest [st] (k + 1) false (st.x, st.y) _ pos' r hlen (fun _ => rfl) (by simpa using h5) (hg.within st hst) hgr
        (hrr.2 st rest rfl h5) hat]
      congr 1
      set q := endOf (b.px, b.py) (startMoves c p) with hq
      have hv : look c p q l = walk p q a ++ (⟨(endOf q (walk p q a)).1, (endOf q (walk p q a)).2, 5⟩ ::
          (startMoves c (st.x, st.y) ++ look c (st.x, st.y) (endOf (endOf q (walk p q a)) (startMoves c (st.x, st.y))) rest)) := by
        rw [hl]
        exact look_change c st h5 rest a p q (takeWhile_stays l) hlast
      rw [hv, hq, ← endOf_append, ← hq, ← List.append_assoc]
      have hb := cont_change { b with threads := b.threads ++ [shown (threadAt threads filler k)] } (startMoves c p ++ walk p q a)
      rw [hb, cont_threads, cont_end]
      simp only [List.append_assoc, List.map_cons, List.cons_append, List.nil_append, cont]

/-- Two commands alike, less than three units (0.3 mm) apart along each axis. -/
def Apart (a b : Stitch) : Prop := a.cmd = b.cmd ∧ |a.x - b.x| < 3 ∧ |a.y - b.y| < 3

theorem start_near (c p : ℚ) : |(pyInt (p - c) : ℚ) + pyInt c - p| < 2 := by
  have h1 := pyInt_sub (p - c)
  have h2 := pyInt_sub c
  rw [abs_lt] at *
  constructor <;> linarith

theorem look_close (c : ℚ × ℚ) (l : List Stitch) (r q s : ℚ × ℚ) (hs : |s.1 - r.1| < 1 ∧ |s.2 - r.2| < 1) (hq : |q.1 - r.1| < 2 ∧ |q.2 - r.2| < 2)
    (h5 : ∀ st ∈ l, st.low = 5 → 2 ≤ |st.x| ∧ 2 ≤ |st.y|) : List.Forall₂ Apart (sewnFile s l) (look c r q l) := by
  have tri : ∀ {a b m : ℚ}, |a - m| < 1 → |b - m| < 2 → |a - b| < 3 := by
    intro a b m h1 h2
    rw [abs_lt] at *
    constructor <;> linarith
  induction l generalizing r q s with
  | nil => exact .nil
  | cons st rest ih =>
    replace ih := fun r q s hs hq => ih r q s hs hq (fun s hs => h5 s (by simp [hs]))
    have hsq : |s.1 - q.1| < 3 ∧ |s.2 - q.2| < 3 := ⟨tri hs.1 hq.1, tri hs.2 hq.2⟩
    unfold look sewnFile
    by_cases a1 : st.low = 0
    · rw [if_pos a1, if_neg (by omega), if_pos a1]
      have p1 := pyInt_sub (st.x - r.1)
      have p2 := pyInt_sub (st.y - r.2)
      rw [show st.x - r.1 - (pyInt (st.x - r.1) : ℚ) = st.x - (r.1 + pyInt (st.x - r.1)) by ring] at p1
      rw [show st.y - r.2 - (pyInt (st.y - r.2) : ℚ) = st.y - (r.2 + pyInt (st.y - r.2)) by ring] at p2
      have q1 : |q.1 + (pyInt (st.x - r.1) : ℚ) - (r.1 + pyInt (st.x - r.1))| < 2 := by rw [add_sub_add_right_eq_sub]; exact hq.1
      have q2 : |q.2 + (pyInt (st.y - r.2) : ℚ) - (r.2 + pyInt (st.y - r.2))| < 2 := by rw [add_sub_add_right_eq_sub]; exact hq.2
      exact .cons ⟨rfl, tri p1 q1, tri p2 q2⟩ (ih _ _ _ ⟨p1, p2⟩ ⟨q1, q2⟩)
    · rw [if_neg a1]
      by_cases a2 : st.low = 2 ∨ st.low = 4
      · rw [if_pos a2, if_pos (by tauto)]
        exact .cons ⟨rfl, hsq⟩ (ih _ _ _ hs hq)
      · rw [if_neg a2, if_neg (c := st.low = 4 ∨ st.low = 2) (by tauto), if_neg a1]
        by_cases a3 : st.low = 5
        · rw [if_pos a3, if_pos a3]
          have k1 : |(start c (st.x, st.y)).1 - st.x| < 2 := start_near c.1 st.x
          have k2 : |(start c (st.x, st.y)).2 - st.y| < 2 := start_near c.2 st.y
          obtain ⟨n1, n2⟩ := h5 st (by simp) a3
          have hne : (start c (st.x, st.y)).1 ≠ 0 ∧ (start c (st.x, st.y)).2 ≠ 0 := by
            constructor
            · intro e
              rw [e, zero_sub, abs_neg] at k1
              linarith
            · intro e
              rw [e, zero_sub, abs_neg] at k2
              linarith
          have hm : startMoves c (st.x, st.y) = [⟨(start c (st.x, st.y)).1, (start c (st.x, st.y)).2, 1⟩] := by
            unfold startMoves
            rw [if_pos hne]
          rw [hm]
          have z : |st.x - st.x| < 1 ∧ |st.y - st.y| < 1 := by simp
          exact .cons ⟨rfl, hsq⟩ (.cons ⟨rfl, tri z.1 k1, tri z.2 k2⟩ (ih _ _ _ z ⟨k1, k2⟩))
        · rw [if_neg a3, if_neg a3]
          exact ih _ _ _ hs hq

/-- **C16** for files with any positions, also fractions, and any centre: if every block after the first starts at least two units from both axes, no command is read back
three units (0.3 mm) or more from where it was, however long the pattern: the errors do not add up. -/
theorem C16_file_fraction (f : Bytes) (threads : List Thread) (filler : Nat → Thread) (l : List Stitch) (x : Box)
    (hf : f.length < 2 ^ 32) (ht : ∀ k, PlainThread (threadAt threads filler k)) (hn : changes l < 65535)
    (hx : bounds l = some x) (hg : Fine l) (hr : ReachAll 32766 (0, 0) l)
    (h5 : ∀ st ∈ l, st.low = 5 → 2 ≤ |st.x| ∧ 2 ≤ |st.y|) (hw : write threads filler l = .ok f) :
    ∃ b out, read f = .ok b ∧ b.stitches = withEnd out ∧ List.Forall₂ Apart (sewnFile (0, 0) l) out ∧
      b.threads = shownThreads threads filler l := by
  have hcc := within_centre l x hx hg.within
  have hread := read_frame f [] threads filler l x (look (centre x) (0, 0) (0, 0) l) hn hx hcc hw fun pos h12 => by
    have hm := look_blocks (f ++ []) (centre x) (by simpa using hf) hcc (fixColorCount threads filler l) filler (fun k => by rw [threadAt_fixed]; exact ht k) l.length l [] 0 true
      (0, 0) {} _ [] le_rfl (fun a => by unfold firstPos; cases ([] ++ a).head? <;> rfl) (by simp) (by simp [Within]) hg hr h12
    rw [hm, start_zero]
    simp [endOf]
  rw [List.append_nil] at hread
  exact ⟨_, look (centre x) (0, 0) (0, 0) l, hread, cont_final _ _, look_close _ l _ _ _ (by simp) (by simp) h5, rfl⟩

theorem endLast_snoc (e : Stitch) : ∀ l : List Stitch, (∀ a ∈ l, a.low ≠ 4) → EndLast (l ++ [e])
  | [], _ => ⟨fun _ => rfl, trivial⟩
  | a :: l, h => ⟨fun h4 => absurd h4 (h a (by simp)), endLast_snoc e l fun b hb => h b (by simp [hb])⟩

theorem reachAll_of (m : ℚ) : ∀ (l : List Stitch) (p : ℚ × ℚ), |p.1| ≤ m ∧ |p.2| ≤ m → (∀ a ∈ l, |a.x| ≤ m ∧ |a.y| ≤ m) → ReachAll (2 * m) p l
  | [], _, _, _ => trivial
  | a :: l, p, hp, h => by
    have ha := h a (by simp)
    have ih := fun p hp => reachAll_of m l p hp fun b hb => h b (by simp [hb])
    unfold ReachAll
    split_ifs
    · refine ⟨?_, ?_, ih _ ha⟩
      · obtain ⟨h1, -⟩ := hp
        obtain ⟨h2, -⟩ := ha
        rw [abs_le] at *
        constructor <;> linarith
      · obtain ⟨-, h1⟩ := hp
        obtain ⟨-, h2⟩ := ha
        rw [abs_le] at *
        constructor <;> linarith
    · exact ih _ ha
    · exact ih _ hp

/-- **C16** from the design to the file: a design of any length that is normalized with the kinds of settings VP3 has (colour changes; without changes of the speed) and stays within 1.6 m of the origin can be saved,
and the file (below 4 GB, fewer than 65536 blocks) shows every stitch, trim and change at less than 0.3 mm from where the normalized design has it, with the threads in the order of the blocks. -/
theorem C16_encoded {o : Settings} {lm : Libm} {source out : List Stitch} {ths : List (Option Thread)} {threads : List Thread}
    (hv : o.ValidSequins) (hs : o.writesSpeeds = false ∨ ∀ st ∈ source, st.low ≠ 11 ∧ st.low ≠ 12) (hc : o.changeCommand = 5) (h : encode o lm threads source = .ok (out, ths))
    (T : List Thread) (filler : Nat → Thread) (ht : ∀ k, PlainThread (threadAt T filler k)) (hn : changes out < 65535)
    (hin : ∀ a ∈ out, |a.x| ≤ 16383 ∧ |a.y| ≤ 16383) (h5 : ∀ a ∈ out, a.low = 5 → 2 ≤ |a.x| ∧ 2 ≤ |a.y|) :
    ∃ f, write T filler out = .ok f ∧ (f.length < 2 ^ 32 → ∃ b shows, read f = .ok b ∧ b.stitches = withEnd shows ∧
      List.Forall₂ Apart (sewnFile (0, 0) out) shows ∧ b.threads = shownThreads T filler out) := by
  obtain ⟨l, e, hle, he, hl⟩ := C20_single_end hv h
  have hne : out ≠ [] := by rw [hle]; simp
  obtain ⟨f, hw, -⟩ := C103_vp3 T filler out hne
  obtain ⟨x, hx, -⟩ := C43_tight out hne
  refine ⟨f, hw, fun hf => ?_⟩
  refine C16_file_fraction f T filler out x hf ht hn hx ⟨?_, ?_, ?_⟩ ?_ h5 hw
  · intro a ha
    have h1 := C21_low_level hv h a ha
    have h2 : a.low ≠ 11 ∧ a.low ≠ 12 := by
      rcases hs with hs | hs
      · exact C21_no_speeds hv hs h a ha
      · have := (C21_kinds hv h a ha).2.2
        constructor <;> intro e
        · obtain ⟨st, h1, h2⟩ := this (.inl e)
          have := hs st h1
          omega
        · obtain ⟨st, h1, h2⟩ := this (.inr e)
          have := hs st h1
          omega
    have h3 := (C21_kinds hv h a ha).2.1
    rw [hc] at h3
    simp only [List.mem_cons, List.not_mem_nil, or_false] at h1
    have : a.low ≠ 9 := fun h => absurd (h3 h) (by decide)
    omega
  · intro a ha
    obtain ⟨h1, h2⟩ := hin a ha
    exact ⟨by simp only; linarith, by simp only; linarith⟩
  · rw [hle]; exact endLast_snoc e l hl
  · have := reachAll_of 16383 out (0, 0) (by norm_num) hin
    norm_num at this
    exact this

/-- Settings like those of VP3, `Vp3Writer.py` 11-17 and `EmbEncoder.py` 20-97. -/
def demoSettings : Settings := { maxStitch := some 255, maxJump := some 3200, fullJump := false, sequinContingency := some CONTINGENCY_SEQUIN_JUMP }

/-- A design with fractions and a stitch that is too long, in two colours. -/
def demoFractions : List Stitch := [⟨1/2, 7/3, 0⟩, ⟨500, 7/3, 0⟩, ⟨-500/3, 40, 5⟩, ⟨-500/3, 40, 0⟩, ⟨-100, 41/3, 0⟩, ⟨0, 0, 4⟩]

/-- The design meets the conditions of the theorem. Its stitches come back at whole positions near their own: the stitch at (-100, 41/3) at (-101, 15). -/
example : (∀ st ∈ demoFractions, st.low ≠ 11 ∧ st.low ≠ 12) ∧ demoSettings.changeCommand = 5 ∧
    (∀ a ∈ demoEncode demoSettings demoFractions, (|a.x| ≤ 16383 ∧ |a.y| ≤ 16383) ∧ (a.low = 5 → 2 ≤ |a.x| ∧ 2 ≤ |a.y|)) ∧
    sewnFile (0, 0) (demoEncode demoSettings demoFractions) =
      [⟨1/2, 7/3, 0⟩, ⟨500, 7/3, 0⟩, ⟨500, 7/3, 5⟩, ⟨500, 7/3, 1⟩, ⟨-500/3, 40, 0⟩, ⟨-100, 41/3, 0⟩, ⟨-100, 41/3, 2⟩] ∧
    again (demoEncode demoSettings demoFractions) =
      .ok [⟨0, 2, 0⟩, ⟨500, 2, 0⟩, ⟨500, 2, 5⟩, ⟨499, 3, 1⟩, ⟨-167, 40, 0⟩, ⟨-101, 15, 0⟩, ⟨-101, 15, 2⟩, ⟨-101, 15, 4⟩] := by
  decide +kernel

end Vp3
end Emb
