import Verif.Props.PesProps
import Verif.Props.BlockProps
import Verif.Props.Vp3Props

/-!
# C80: the segments of a PES file

Untruncated PES files describe the design a second time, as sections in the blocks `CEmbOne` and `CSewSeg`. The library itself never
reads them, so the parser below is part of the specification.
-/

namespace Emb
namespace Pes

open Emb.Blocks Emb.Ops Emb.Pec

/-! ## A parser for the blocks -/

/-- Two bytes, low one first. -/
def u16 : Bytes → Option (Int × Bytes)
  | a :: b :: r => some (a + 256 * b, r)
  | _ => none

/-- The given bytes must come next. -/
def expect (pre s : Bytes) : Option Bytes := if s.take pre.length = pre then some (s.drop pre.length) else none

/-- Points, signed, relative to the lower left corner of the design. -/
def parsePoints : Nat → Bytes → Option (List (Int × Int) × Bytes)
  | 0, s => some ([], s)
  | n + 1, s =>
    (u16 s).bind fun x => (u16 x.2).bind fun y => (parsePoints n y.2).map fun r => ((signed16 x.1, signed16 y.1) :: r.1, r.2)

/-- A section: `flag` is 1 for a jump and 0 for stitches. -/
structure Section where
  flag : Int
  color : Int
  points : List (Int × Int)
deriving DecidableEq

/-- One section. -/
def parseSection (s : Bytes) : Option (Section × Bytes) :=
  (u16 s).bind fun f => (u16 f.2).bind fun c => (u16 c.2).bind fun n =>
    (parsePoints n.1.toNat n.2).map fun p => (⟨f.1, c.1, p.1⟩, p.2)

/-- The given number of sections, with 0x8003 between any two. -/
def parseSections : Bool → Nat → Bytes → Option (List Section × Bytes)
  | _, 0, s => some ([], s)
  | first, n + 1, s =>
    (if first then some s else expect [0x03, 0x80] s).bind fun s =>
      (parseSection s).bind fun a => (parseSections false n a.2).map fun r => (a.1 :: r.1, r.2)

/-- Entries of the colour log: number of the section and colour. -/
def parseLog : Nat → Bytes → Option (List (Int × Int) × Bytes)
  | 0, s => some ([], s)
  | n + 1, s => (u16 s).bind fun i => (u16 i.2).bind fun c => (parseLog n c.2).map fun r => ((i.1, c.1) :: r.1, r.2)

/-- What the blocks say. -/
structure Shown where
  width : Int
  height : Int
  sections : List Section
  log : List (Int × Int)
deriving DecidableEq

/-- The blocks `CEmbOne` (with a matrix of six floats that is skipped) and `CSewSeg`. -/
def parseBlocks (s : Bytes) : Option (Shown × Bytes) :=
  (expect (7 :: 0 :: utf8 "CEmbOne".toList) s).bind fun s =>
  (u16 (s.drop (16 + 24 + 6))).bind fun w => (u16 w.2).bind fun h => (u16 (h.2.drop 8)).bind fun n =>
  (expect [0xFF, 0xFF, 0, 0] n.2).bind fun s => (expect (7 :: 0 :: utf8 "CSewSeg".toList) s).bind fun s =>
  (parseSections true n.1.toNat s).bind fun a => (u16 a.2).bind fun m =>
  (parseLog m.1.toNat m.2).bind fun l => (expect [0, 0, 0, 0] l.2).map fun s =>
    (⟨w.1, h.1, a.1, l.1⟩, s)

/-! ## What they should say -/

/-- A drawing: a stitch, or a line moved without sewing, with the index of the colour. -/
inductive Event where
  | sew (x y : ℚ) (color : Option Nat)
  | move (x0 y0 x1 y1 : ℚ) (color : Option Nat)
deriving DecidableEq

/-- The drawing of a pattern: each stitch at its place in the colour of its thread, number `i`; each run of jumps as one line from
the last stitch, which was at `px`, `py`. -/
def drawing (code : Nat → Option Nat) : ℚ → ℚ → Nat → List Stitch → List Event
  | _, _, _, [] => []
  | px, py, i, st :: rest =>
    if st.low = 0 then .sew st.x st.y (code i) :: drawing code st.x st.y i rest
    else if st.low = 1 then
      (if (rest.head?.map Stitch.low) = some 1 then [] else [.move px py st.x st.y (code i)]) ++ drawing code px py i rest
    else if st.low = 5 then drawing code px py (i + 1) rest
    else drawing code px py i rest

/-- The drawing of a section, `ax`, `ay` being the lower left corner. -/
def Section.events (ax ay : ℚ) (s : Section) : List Event :=
  if s.flag = 0 then s.points.map (fun p => .sew (p.1 + ax) (p.2 + ay) (some s.color.toNat))
  else match s.points with
    | [a, b] => [.move (a.1 + ax) (a.2 + ay) (b.1 + ax) (b.2 + ay) (some s.color.toNat)]
    | _ => []

/-- Never two colour changes in a row. -/
def Apart (l : List Stitch) : Prop := l.IsChain (fun a b => ¬ (a.low = 5 ∧ b.low = 5))

/-! ## The segments -/

/-- The drawing of a segment. -/
def Seg.events (ax ay : ℚ) (s : Seg) : List Event :=
  if s.flag = 0 then s.points.map (fun p => .sew (p.1 + ax) (p.2 + ay) s.color)
  else match s.points with
    | [a, b] => [.move (a.1 + ax) (a.2 + ay) (b.1 + ax) (b.2 + ay) s.color]
    | _ => []

/-- What a block of commands draws, and the state after it. -/
theorem segLoop_events (threads : List Thread) (filler : Nat → Thread) (chart : List (Option Thread)) (ax ay : ℚ) (l : List Stitch) :
    ∀ (cur : List Stitch) (e : Stitch) (i : Nat) (px py : ℚ), (∀ a ∈ cur ++ [e], a.low = e.low) → (e :: l).IsChain (fun a b => ¬ (a.low = 5 ∧ b.low = 5)) →
      (e.low = 5 → cur = []) →
      (segLoop threads filler chart ax ay (i + 1) (findNearest (threadAt threads filler i).color chart) px py
          (commandLoop (cur ++ [e]) e.low l)).flatMap (Seg.events ax ay) =
        (if e.low = 0 then cur.map (fun s => Event.sew s.x s.y (findNearest (threadAt threads filler i).color chart)) else []) ++
          drawing (fun i => findNearest (threadAt threads filler i).color chart) px py i (e :: l) := by
  -- one finished block followed by others
  have block : ∀ (cur : List Stitch) (e : Stitch) (i : Nat) (px py : ℚ) (bs : List (List Stitch)), (∀ a ∈ cur ++ [e], a.low = e.low) →
      (segLoop threads filler chart ax ay (i + 1) (findNearest (threadAt threads filler i).color chart) px py
          ((cur ++ [e]) :: bs)).flatMap (Seg.events ax ay) =
        (if e.low = 0 then (cur ++ [e]).map (fun s => Event.sew s.x s.y (findNearest (threadAt threads filler i).color chart)) ++
            (segLoop threads filler chart ax ay (i + 1) (findNearest (threadAt threads filler i).color chart) e.x e.y bs).flatMap (Seg.events ax ay)
         else if e.low = 1 then Event.move px py e.x e.y (findNearest (threadAt threads filler i).color chart) ::
            (segLoop threads filler chart ax ay (i + 1) (findNearest (threadAt threads filler i).color chart) px py bs).flatMap (Seg.events ax ay)
         else if e.low = 5 then
            (segLoop threads filler chart ax ay (i + 1 + 1) (findNearest (threadAt threads filler (i + 1)).color chart) px py bs).flatMap (Seg.events ax ay)
         else (segLoop threads filler chart ax ay (i + 1) (findNearest (threadAt threads filler i).color chart) px py bs).flatMap (Seg.events ax ay)) := by
    intro cur e i px py bs hc
    obtain ⟨f, tl, hf⟩ : ∃ f tl, cur ++ [e] = f :: tl := by
      cases h : cur ++ [e] with
      | nil => simp at h
      | cons f tl => exact ⟨f, tl, rfl⟩
    have hlast : (f :: tl).getLast (by simp) = e := by
      simp only [← hf, List.getLast_append_singleton]
    have hfl : cmdOf f.cmd = e.low := hc f (by rw [hf]; simp)
    rw [hf]
    have cJ : JUMP = 1 := rfl
    have cC : COLOR_CHANGE = 5 := rfl
    have cS : STITCH = 0 := rfl
    simp only [segLoop, hlast, hfl, cJ, cC, cS]
    by_cases h0 : e.low = 0
    · have n1 : ¬ e.low = 1 := by rw [h0]; decide
      have n5 : ¬ e.low = 5 := by rw [h0]; decide
      simp only [if_neg n1, if_neg n5, if_pos h0, List.flatMap_cons]
      congr 1
      simp only [Seg.events, if_true, List.map_map]
      refine List.map_congr_left (fun a _ => ?_)
      simp
    · by_cases h1 : e.low = 1
      · simp only [if_neg h0, if_pos h1, List.flatMap_cons, Seg.events]
        simp
      · by_cases h5 : e.low = 5
        · simp only [if_neg h0, if_neg h1, if_pos h5]
        · simp only [if_neg h0, if_neg h1, if_neg h5]
  induction l with
  | nil =>
    intro cur e i px py hc _ _
    rw [commandLoop, block cur e i px py [] hc]
    simp only [segLoop, List.flatMap_nil, drawing, List.append_nil]
    by_cases h0 : e.low = 0
    · rw [if_pos h0, if_pos h0, if_pos h0]; simp
    · rw [if_neg h0, if_neg h0, if_neg h0]
      by_cases h1 : e.low = 1
      · rw [if_pos h1, if_pos h1]; rfl
      · rw [if_neg h1, if_neg h1]; simp
  | cons st l ih =>
    intro cur e i px py hc hch h5c
    rw [List.isChain_cons_cons] at hch
    have hno : e.low ≠ NO_COMMAND := by
      have : 0 ≤ e.low := Int.emod_nonneg _ (by decide)
      unfold NO_COMMAND; omega
    rw [commandLoop]
    by_cases hs : st.low = e.low
    · rw [if_pos (.inl hs)]
      have hne : e.low ≠ 5 := fun h => hch.1 ⟨h, by rw [hs]; exact h⟩
      have e1 : cmdOf st.cmd = st.low := rfl
      rw [e1, ih (cur ++ [e]) st i px py (by
        intro a ha
        rcases List.mem_append.1 ha with ha | ha
        · rw [hs]; exact hc a ha
        · rw [List.mem_singleton.1 ha]) hch.2 (by intro h; exact absurd (hs ▸ h) hne)]
      rw [hs]
      by_cases h0 : e.low = 0
      · rw [if_pos h0, if_pos h0]
        rw [show drawing (fun i => findNearest (threadAt threads filler i).color chart) px py i (e :: st :: l) =
          .sew e.x e.y (findNearest (threadAt threads filler i).color chart) ::
            drawing (fun i => findNearest (threadAt threads filler i).color chart) e.x e.y i (st :: l) by rw [drawing, if_pos h0]]
        have e2 : drawing (fun i => findNearest (threadAt threads filler i).color chart) px py i (st :: l) =
            drawing (fun i => findNearest (threadAt threads filler i).color chart) e.x e.y i (st :: l) := by
          rw [drawing, drawing, if_pos (hs.trans h0), if_pos (hs.trans h0)]
        rw [e2]
        simp
      · rw [if_neg h0, if_neg h0]
        conv_rhs => rw [drawing, if_neg h0]
        by_cases h1 : e.low = 1
        · rw [if_pos h1, if_pos (by simp [hs, h1])]
          rfl
        · rw [if_neg h1, if_neg hne]
    · have hs' : ¬ (cmdOf st.cmd = e.low ∨ e.low = NO_COMMAND) := by
        intro h
        rcases h with h | h
        · exact hs h
        · exact hno h
      rw [if_neg hs', block cur e i px py _ hc]
      have e1 : cmdOf st.cmd = st.low := rfl
      have ih' := fun i px py => ih [] st i px py (by simp) hch.2 (fun _ => rfl)
      simp only [List.nil_append, List.map_nil, ite_self] at ih'
      rw [e1, ih', ih', ih']
      conv_rhs => rw [drawing]
      by_cases h0 : e.low = 0
      · rw [if_pos h0, if_pos h0, if_pos h0]; simp
      · rw [if_neg h0, if_neg h0, if_neg h0]
        by_cases h1 : e.low = 1
        · rw [if_pos h1, if_pos h1, if_neg (by
            simp only [List.head?_cons, Option.map_some, Option.some.injEq]
            intro h; exact hs (h.trans h1.symm))]
          rfl
        · rw [if_neg h1, if_neg h1]
          simp

/-- The segments draw the pattern. -/
theorem segments_events (threads : List Thread) (filler : Nat → Thread) (chart : List (Option Thread)) (ax ay : ℚ) (l : List Stitch)
    (h : Apart l) : (segments threads filler chart ax ay l).flatMap (Seg.events ax ay) =
      drawing (fun i => findNearest (threadAt threads filler i).color chart) 0 0 0 l := by
  unfold segments commandBlocks
  cases l with
  | nil => rfl
  | cons st l =>
    rw [commandLoop, if_pos (.inr rfl)]
    have := segLoop_events threads filler chart ax ay l [] st 0 0 0 (by simp) h (fun _ => rfl)
    simp only [List.map_nil, ite_self, List.nil_append] at this
    exact this

/-! ## The bytes -/

theorem u16_write (v : Int) (rest : Bytes) : u16 (writeInt16le v ++ rest) = some (v % 2 ^ 16, rest) := by
  simp only [u16, writeInt16le, lo8, shr, List.cons_append, List.nil_append, Option.some.injEq, Prod.mk.injEq, and_true]
  omega

theorem expect_append (a b : Bytes) : expect a (a ++ b) = some b := by
  unfold expect
  rw [List.take_left, if_pos rfl, List.drop_left]

theorem signed16_mod (v : Int) (h : -32768 ≤ v ∧ v ≤ 32767) : signed16 (v % 2 ^ 16) = v := (C02_signed_roundtrip v).2.1 h

/-- Both numbers fit into 16 bits with sign. -/
def Fits (p : ℚ × ℚ) : Prop := -32768 ≤ pyInt p.1 ∧ pyInt p.1 ≤ 32767 ∧ -32768 ≤ pyInt p.2 ∧ pyInt p.2 ≤ 32767

theorem parsePoints_write (pts : List (ℚ × ℚ)) (rest : Bytes) (h : ∀ p ∈ pts, Fits p) :
    parsePoints pts.length (pts.flatMap (fun p => writeInt16le (pyInt p.1) ++ writeInt16le (pyInt p.2)) ++ rest) =
      some (pts.map (fun p => (pyInt p.1, pyInt p.2)), rest) := by
  induction pts with
  | nil => rfl
  | cons p pts ih =>
    obtain ⟨h1, h2, h3, h4⟩ := h p (by simp)
    simp only [List.length_cons, parsePoints, List.flatMap_cons, List.append_assoc]
    rw [u16_write, Option.bind_some, u16_write, Option.bind_some, ih (fun q hq => h q (by simp [hq]))]
    simp only [signed16_mod _ ⟨h1, h2⟩, signed16_mod _ ⟨h3, h4⟩]
    rfl

/-- The section written for a segment. -/
def sectionOf (s : Nat × Int × List (ℚ × ℚ)) : Section := ⟨s.2.1, s.1, s.2.2.map (fun p => (pyInt p.1, pyInt p.2))⟩

/-- All numbers of a segment fit. -/
def FitsSeg (s : Nat × Int × List (ℚ × ℚ)) : Prop :=
  s.1 < 2 ^ 16 ∧ (s.2.1 = 0 ∨ s.2.1 = 1) ∧ s.2.2.length < 2 ^ 16 ∧ ∀ p ∈ s.2.2, Fits p

theorem parseSections_write (segs : List (Nat × Int × List (ℚ × ℚ))) (rest : Bytes) (h : ∀ s ∈ segs, FitsSeg s) (first : Bool) :
    parseSections first segs.length (sectionLoop first segs ++ rest) = some (segs.map sectionOf, rest) := by
  induction segs generalizing first with
  | nil => rfl
  | cons s segs ih =>
    obtain ⟨code, flag, pts⟩ := s
    obtain ⟨h1, h2, h3, h4⟩ := h (code, flag, pts) (by simp)
    simp only at h1 h2 h3 h4
    have hgo : (if first then some (sectionLoop first ((code, flag, pts) :: segs) ++ rest)
        else expect [0x03, 0x80] (sectionLoop first ((code, flag, pts) :: segs) ++ rest)) =
        some (writeInt16le flag ++ (writeInt16le code ++ (writeInt16le pts.length ++
          (pts.flatMap (fun p => writeInt16le (pyInt p.1) ++ writeInt16le (pyInt p.2)) ++ (sectionLoop false segs ++ rest))))) := by
      cases first with
      | true =>
        simp only [sectionLoop, if_true, List.nil_append, List.append_assoc]
      | false =>
        simp only [sectionLoop, if_false, List.append_assoc, Bool.false_eq_true]
        exact expect_append _ _
    rw [List.length_cons, parseSections, hgo, Option.bind_some, parseSection, u16_write, Option.bind_some, u16_write, Option.bind_some,
      u16_write, Option.bind_some]
    have e1 : ((pts.length : Int) % 2 ^ 16).toNat = pts.length := by omega
    have e2 : ((code : Int) % 2 ^ 16) = code := by omega
    have e3 : flag % 2 ^ 16 = flag := by omega
    simp only [e1, e2, e3]
    rw [parsePoints_write pts _ h4, Option.map_some, Option.bind_some, ih (fun s hs => h s (by simp [hs]))]
    rfl

theorem parseLog_write (log : List (Nat × Nat)) (rest : Bytes) (h : ∀ e ∈ log, e.1 < 2 ^ 16 ∧ e.2 < 2 ^ 16) :
    parseLog log.length (log.flatMap (fun e => writeInt16le e.1 ++ writeInt16le e.2) ++ rest) =
      some (log.map (fun e => ((e.1 : Int), (e.2 : Int))), rest) := by
  induction log with
  | nil => rfl
  | cons e log ih =>
    obtain ⟨h1, h2⟩ := h e (by simp)
    simp only [List.length_cons, parseLog, List.flatMap_cons, List.append_assoc]
    rw [u16_write, Option.bind_some, u16_write, Option.bind_some, ih (fun q hq => h q (by simp [hq]))]
    have e1 : (e.1 : Int) % 2 ^ 16 = e.1 := by omega
    have e2 : (e.2 : Int) % 2 ^ 16 = e.2 := by omega
    simp only [e1, e2]
    rfl

theorem logLoop_spec (segs : List (Nat × Int × List (ℚ × ℚ))) : ∀ (i : Nat) (prev : Option Nat), ∀ e ∈ logLoop i prev segs,
    i ≤ e.1 ∧ e.1 < i + segs.length ∧ ∃ s ∈ segs, s.1 = e.2 := by
  induction segs with
  | nil => intro i prev e he; cases he
  | cons s segs ih =>
    intro i prev e he
    rcases List.mem_append.1 he with he | he
    · by_cases h : prev ≠ some s.1
      · rw [if_pos h] at he
        rw [List.mem_singleton.1 he]
        exact ⟨le_refl _, by simp, s, by simp, rfl⟩
      · rw [if_neg h] at he; cases he
    · obtain ⟨h1, h2, t, h3, h4⟩ := ih (i + 1) _ e he
      exact ⟨by omega, by rw [List.length_cons]; omega, t, by simp [h3], h4⟩

theorem logLoop_length (segs : List (Nat × Int × List (ℚ × ℚ))) : ∀ (i : Nat) (prev : Option Nat),
    (logLoop i prev segs).length ≤ segs.length := by
  induction segs with
  | nil => intro i prev; exact le_refl _
  | cons s segs ih =>
    intro i prev
    have := ih (i + 1) (some s.1)
    rw [logLoop, List.length_append, List.length_cons]
    by_cases h : prev ≠ some s.1
    · rw [if_pos h]; simp; omega
    · rw [if_neg h]; simp; omega

/-- The colour log lists the sections whose colour is not that of the section before. -/
theorem logLoop_mem (segs : List (Nat × Int × List (ℚ × ℚ))) : ∀ (i : Nat) (prev : Option Nat) (e : Nat × Nat), e ∈ logLoop i prev segs ↔
    ∃ k s, segs[k]? = some s ∧ e = (i + k, s.1) ∧ (if k = 0 then prev else (segs[k - 1]?).map (·.1)) ≠ some s.1 := by
  induction segs with
  | nil => intro i prev e; simp [logLoop]
  | cons s segs ih =>
    intro i prev e
    rw [logLoop, List.mem_append, ih]
    constructor
    · rintro (h | ⟨k, t, h1, h2, h3⟩)
      · by_cases hp : prev ≠ some s.1
        · rw [if_pos hp] at h
          exact ⟨0, s, rfl, by rw [List.mem_singleton.1 h]; rfl, by rw [if_pos rfl]; exact hp⟩
        · rw [if_neg hp] at h; cases h
      · refine ⟨k + 1, t, h1, by rw [h2]; congr 1; omega, ?_⟩
        rw [if_neg (by omega)]
        cases k with
        | zero => simpa using h3
        | succ k => simpa using h3
    · rintro ⟨k, t, h1, h2, h3⟩
      cases k with
      | zero =>
        left
        injection h1 with h1
        subst h1
        rw [if_pos rfl] at h3
        rw [if_pos h3, h2]
        simp
      | succ k =>
        right
        refine ⟨k, t, h1, by rw [h2]; congr 1; omega, ?_⟩
        rw [if_neg (by omega)] at h3
        cases k with
        | zero => simpa using h3
        | succ k => simpa using h3

theorem sewHeader_parse (f32 : ℚ → Bytes) (hf : ∀ q, (f32 q).length = 4) (w h : ℚ) (n : Int) (rest : Bytes) :
    (sewHeader f32 w h n ++ rest).drop (16 + 24 + 6) =
      writeInt16le (pyInt w) ++ (writeInt16le (pyInt h) ++ (List.replicate 8 0 ++ (writeInt16le n ++ rest))) := by
  unfold sewHeader
  have e : ∀ a b c r : Bytes, a.length = 16 → b.length = 24 → c.length = 6 → (a ++ (b ++ (c ++ r))).drop (16 + 24 + 6) = r := by
    intro a b c r ha hb hc
    have := drop_past (a ++ (b ++ c)) r (n := 16 + 24 + 6) 0 (by simp [ha, hb, hc])
    rw [Nat.add_zero, List.drop_zero] at this
    simp only [List.append_assoc] at this
    exact this
  have := e (List.replicate 16 0) (f32 1 ++ f32 0 ++ f32 0 ++ f32 1 ++ f32 (350 + 1300 / 2 + -w / 2) ++
    f32 (100 + h + 1800 / 2 + -h / 2)) (writeInt16le 1 ++ writeInt16le 0 ++ writeInt16le 0)
    (writeInt16le (pyInt w) ++ (writeInt16le (pyInt h) ++ (List.replicate 8 0 ++ (writeInt16le n ++ rest)))) (by simp) (by simp [hf])
    (by decide)
  simp only [List.append_assoc] at this ⊢
  exact this

/-- The blocks are parsed as what they were made of. -/
theorem parseBlocks_write (f32 : ℚ → Bytes) (hf : ∀ q, (f32 q).length = 4) (w h : ℚ) (segs : List (Nat × Int × List (ℚ × ℚ))) (rest : Bytes)
    (hs : ∀ s ∈ segs, FitsSeg s) (hn : segs.length < 2 ^ 16) (hw : 0 ≤ pyInt w ∧ pyInt w < 2 ^ 16) (hh : 0 ≤ pyInt h ∧ pyInt h < 2 ^ 16) :
    parseBlocks (string16 "CEmbOne".toList ++ sewHeader f32 w h segs.length ++ [0xFF, 0xFF, 0, 0] ++
      string16 "CSewSeg".toList ++ segmentData segs ++ [0, 0, 0, 0] ++ rest) =
      some (⟨pyInt w, pyInt h, segs.map sectionOf, (logLoop 0 none segs).map (fun e => ((e.1 : Int), (e.2 : Int)))⟩, rest) := by
  unfold parseBlocks segmentData
  simp only [List.append_assoc]
  have s1 : string16 "CEmbOne".toList = 7 :: 0 :: utf8 "CEmbOne".toList := by decide +kernel
  have s2 : string16 "CSewSeg".toList = 7 :: 0 :: utf8 "CSewSeg".toList := by decide +kernel
  rw [s1, expect_append, Option.bind_some, sewHeader_parse f32 hf, u16_write, Option.bind_some, u16_write, Option.bind_some]
  have e8 : ∀ r : Bytes, (List.replicate 8 0 ++ r).drop 8 = r := fun r => rfl
  have e1 : ((segs.length : Int) % 2 ^ 16).toNat = segs.length := by omega
  simp only [e8]
  rw [u16_write, Option.bind_some, expect_append, Option.bind_some, s2, expect_append, Option.bind_some]
  simp only [e1]
  rw [parseSections_write segs _ hs, Option.bind_some, u16_write, Option.bind_some]
  have hl := logLoop_length segs 0 none
  have e2 : (((logLoop 0 none segs).length : Int) % 2 ^ 16).toNat = (logLoop 0 none segs).length := by omega
  simp only [e2]
  rw [parseLog_write _ _ (by
    intro e he
    obtain ⟨-, h2, s, h3, h4⟩ := logLoop_spec segs 0 none e he
    exact ⟨by omega, by rw [← h4]; exact (hs s h3).1⟩), Option.bind_some, expect_append]
  have e3 : pyInt w % 2 ^ 16 = pyInt w := by omega
  have e4 : pyInt h % 2 ^ 16 = pyInt h := by omega
  simp only [e3, e4]
  rfl

/-! ## Together -/

/-- Whole coordinates. -/
def Whole (x y : ℚ) : Prop := ∃ m n : Int, x = m ∧ y = n

theorem segLoop_points (threads : List Thread) (filler : Nat → Thread) (chart : List (Option Thread)) (ax ay : ℚ) (P : ℚ → ℚ → Prop)
    (bs : List (List Stitch)) : ∀ (k : Nat) (code : Option Nat) (sx sy : ℚ), P sx sy → (∀ b ∈ bs, ∀ a ∈ b, P a.x a.y) →
    (∀ c, code = some c → c < chart.length) →
    (segLoop threads filler chart ax ay k code sx sy bs).length ≤ bs.length ∧
    ∀ s ∈ segLoop threads filler chart ax ay k code sx sy bs, (s.flag = 0 ∨ s.flag = 1) ∧ s.points.length ≤ bs.flatten.length + 1 ∧
      (∀ c, s.color = some c → c < chart.length) ∧ ∀ p ∈ s.points, ∃ x y, P x y ∧ p = (x - ax, y - ay) := by
  induction bs with
  | nil => intro k code sx sy _ _ _; exact ⟨le_refl _, fun s hs => by cases hs⟩
  | cons b bs ih =>
    intro k code sx sy h0 hb hc
    have hb' : ∀ b ∈ bs, ∀ a ∈ b, P a.x a.y := fun c hc => hb c (by simp [hc])
    have weaken : ∀ {k code sx sy}, P sx sy → (∀ c, code = some c → c < chart.length) →
        (segLoop threads filler chart ax ay k code sx sy bs).length ≤ bs.length ∧
        ∀ s ∈ segLoop threads filler chart ax ay k code sx sy bs, (s.flag = 0 ∨ s.flag = 1) ∧ s.points.length ≤ (b :: bs).flatten.length + 1 ∧
          (∀ c, s.color = some c → c < chart.length) ∧ ∀ p ∈ s.points, ∃ x y, P x y ∧ p = (x - ax, y - ay) := by
      intro k code sx sy h hc
      obtain ⟨h1, h2⟩ := ih k code sx sy h hb' hc
      refine ⟨h1, fun s hs => ?_⟩
      obtain ⟨g1, g2, g3⟩ := h2 s hs
      refine ⟨g1, ?_, g3⟩
      rw [List.flatten_cons, List.length_append]
      omega
    cases b with
    | nil =>
      obtain ⟨h1, h2⟩ := weaken (k := k) h0 hc
      exact ⟨by simp only [segLoop, List.length_cons]; omega, h2⟩
    | cons st b =>
      have hst := hb (st :: b) (by simp)
      have hlast : P ((st :: b).getLast (by simp)).x ((st :: b).getLast (by simp)).y := hst _ (List.getLast_mem _)
      simp only [segLoop]
      by_cases h1 : cmdOf st.cmd = JUMP
      · rw [if_pos h1]
        obtain ⟨g1, g2⟩ := weaken (k := k) h0 hc
        refine ⟨by simp only [List.length_cons]; omega, fun s hs => ?_⟩
        rcases List.mem_cons.1 hs with rfl | hs
        · refine ⟨.inr rfl, ?_, hc, ?_⟩
          · rw [List.flatten_cons, List.length_append, List.length_cons]
            simp only [List.length_cons, List.length_nil]
            omega
          · intro p hp
            rcases List.mem_cons.1 hp with rfl | hp
            · exact ⟨sx, sy, h0, rfl⟩
            · rw [List.mem_singleton.1 hp]
              exact ⟨_, _, hlast, rfl⟩
        · exact g2 s hs
      · rw [if_neg h1]
        by_cases h2 : cmdOf st.cmd = COLOR_CHANGE
        · rw [if_pos h2]
          obtain ⟨g1, g2⟩ := weaken (k := k + 1) (code := findNearest (threadAt threads filler k).color chart) h0 (by
            intro c hc
            obtain ⟨t, ht, -⟩ := ((C38_nearest _ chart).2 c).1 hc
            exact (List.getElem?_eq_some_iff.1 ht).1)
          exact ⟨by simp only [List.length_cons]; omega, g2⟩
        · rw [if_neg h2]
          by_cases h3 : cmdOf st.cmd = STITCH
          · rw [if_pos h3]
            obtain ⟨g1, g2⟩ := weaken (k := k) hlast hc
            refine ⟨by simp only [List.length_cons]; omega, fun s hs => ?_⟩
            rcases List.mem_cons.1 hs with rfl | hs
            · refine ⟨.inl rfl, ?_, hc, ?_⟩
              · rw [List.flatten_cons, List.length_append, List.length_map]
                omega
              · intro p hp
                obtain ⟨a, ha, rfl⟩ := List.mem_map.1 hp
                exact ⟨_, _, hst a ha, rfl⟩
            · exact g2 s hs
          · rw [if_neg h3]
            obtain ⟨g1, g2⟩ := weaken (k := k) h0 hc
            exact ⟨by simp only [List.length_cons]; omega, g2⟩

theorem coded_events (ax ay : ℚ) (hax : Whole ax ay) (segs : List Seg) (segs' : List (Nat × Int × List (ℚ × ℚ)))
    (h : segs.map (fun s => s.color.map (fun c => (c, s.flag, s.points))) = segs'.map some)
    (hp : ∀ s ∈ segs, ∀ p ∈ s.points, ∃ x y, Whole x y ∧ p = (x - ax, y - ay)) :
    (segs'.map sectionOf).flatMap (Section.events ax ay) = segs.flatMap (Seg.events ax ay) := by
  induction segs generalizing segs' with
  | nil =>
    cases segs' with
    | nil => rfl
    | cons a l => cases h
  | cons s segs ih =>
    cases segs' with
    | nil => cases h
    | cons s' segs' =>
      simp only [List.map_cons, List.cons.injEq] at h
      obtain ⟨h1, h2⟩ := h
      rw [List.map_cons, List.flatMap_cons, List.flatMap_cons, ih segs' h2 (fun t ht => hp t (by simp [ht]))]
      congr 1
      obtain ⟨c, hc, h1⟩ := Option.map_eq_some_iff.1 h1
      subst h1
      have hcast : ∀ p ∈ s.points, ((pyInt p.1 : Int) : ℚ) = p.1 ∧ ((pyInt p.2 : Int) : ℚ) = p.2 := by
        intro p hp'
        obtain ⟨x, y, ⟨m, n, rfl, rfl⟩, rfl⟩ := hp s (by simp) p hp'
        obtain ⟨m', n', rfl, rfl⟩ := hax
        simp only
        rw [← Int.cast_sub, ← Int.cast_sub, Vp3.pyInt_intCast, Vp3.pyInt_intCast]
        exact ⟨rfl, rfl⟩
      unfold Section.events Seg.events sectionOf
      simp only
      by_cases hf : s.flag = 0
      · rw [if_pos hf, if_pos hf, List.map_map, hc]
        refine List.map_congr_left (fun p hp' => ?_)
        obtain ⟨e1, e2⟩ := hcast p hp'
        simp only [Function.comp_apply, e1, e2]
        simp
      · rw [if_neg hf, if_neg hf, hc]
        match hpts : s.points with
        | [] => rfl
        | [_] => rfl
        | [a, b] =>
          obtain ⟨e1, e2⟩ := hcast a (by simp [hpts])
          obtain ⟨e3, e4⟩ := hcast b (by simp [hpts])
          simp only [List.map_cons, List.map_nil, e1, e2, e3, e4]
          simp
        | _ :: _ :: _ :: _ => rfl

/-- C80: the blocks `CEmbOne` and `CSewSeg` give width and height of the design and draw every stitch at its place in the nearest
colour of the chart, in order, and every run of jumps as a line; the log gives the sections at which the colour changes. For designs
with whole coordinates whose numbers fit into 16 bits and that never have two colour changes in a row. -/
theorem C80_blocks_partial (f32 : ℚ → Bytes) (hf : ∀ q, (f32 q).length = 4) (threads : List Thread) (filler : Nat → Thread)
    (chart : List (Option Thread)) (b : Box) (l : List Stitch) (hne : l ≠ []) (hb : bounds l = some b)
    (hint : ∀ a ∈ l, Whole a.x a.y) (hlen : l.length + 1 < 2 ^ 16) (hw : b.maxX - b.minX ≤ 32767) (hh : b.maxY - b.minY ≤ 32767)
    (hx : |b.minX| ≤ 32767) (hy : |b.maxY| ≤ 32767) (hc : ∃ t, some t ∈ chart) (hcl : chart.length < 2 ^ 16) (hap : Apart l) :
    ∃ bytes n shown, blocks f32 threads filler chart b l = .ok (bytes, n) ∧
      (∀ rest, parseBlocks (bytes ++ rest) = some (shown, rest)) ∧ (shown.width : ℚ) = b.maxX - b.minX ∧ (shown.height : ℚ) = b.maxY - b.minY ∧
      shown.sections.flatMap (Section.events b.minX b.maxY) =
        drawing (fun i => findNearest (threadAt threads filler i).color chart) 0 0 0 l ∧
      n = shown.log.length ∧
      ∀ e, e ∈ shown.log ↔ ∃ (k : Nat) (s : Section), shown.sections[k]? = some s ∧ e = ((k : Int), s.color) ∧
        (k = 0 ∨ (shown.sections[k - 1]?).map Section.color ≠ some s.color) := by
  obtain ⟨b', hb', htight⟩ := C43_tight l hne
  rw [hb] at hb'
  injection hb' with hb'
  subst hb'
  obtain ⟨hin, ⟨a1, ha1, e1⟩, ⟨a2, ha2, e2⟩, ⟨a3, ha3, e3⟩, ⟨a4, ha4, e4⟩⟩ := htight
  obtain ⟨mx, _, hmx, -⟩ := hint a1 ha1
  obtain ⟨Mx, _, hMx, -⟩ := hint a2 ha2
  obtain ⟨_, my, -, hmy⟩ := hint a3 ha3
  obtain ⟨_, My, -, hMy⟩ := hint a4 ha4
  rw [e1] at hmx
  rw [e2] at hMx
  rw [e3] at hmy
  rw [e4] at hMy
  rw [hMx, hmx] at hw
  rw [hMy, hmy] at hh
  rw [hmx] at hx
  rw [hMy] at hy
  obtain ⟨hx1, hx2⟩ := abs_le.1 hx
  obtain ⟨hy1, hy2⟩ := abs_le.1 hy
  have hw' : Mx - mx ≤ 32767 := by exact_mod_cast hw
  have hh' : My - my ≤ 32767 := by exact_mod_cast hh
  have hx1' : -32767 ≤ mx := by exact_mod_cast hx1
  have hx2' : mx ≤ 32767 := by exact_mod_cast hx2
  have hy1' : -32767 ≤ My := by exact_mod_cast hy1
  have hy2' : My ≤ 32767 := by exact_mod_cast hy2
  have ord1 : mx ≤ Mx := by
    have := (hin a1 ha1).2.1
    rw [e1, hmx, hMx] at this
    exact_mod_cast this
  have ord2 : my ≤ My := by
    have := (hin a3 ha3).2.2.2
    rw [e3, hmy, hMy] at this
    exact_mod_cast this
  have hent : 0 < entries chart := by
    obtain ⟨t, ht⟩ := hc
    unfold entries
    exact List.countP_pos_iff.2 ⟨some t, ht, rfl⟩
  have eax : b.minX - (b.maxX + b.minX) / 2 + (b.maxX + b.minX) / 2 = b.minX := by ring
  have eay : b.maxY - (b.maxY + b.minY) / 2 + (b.maxY + b.minY) / 2 = b.maxY := by ring
  have ew : b.maxX - (b.maxX + b.minX) / 2 - (b.minX - (b.maxX + b.minX) / 2) = b.maxX - b.minX := by ring
  have eh : b.maxY - (b.maxY + b.minY) / 2 - (b.minY - (b.maxY + b.minY) / 2) = b.maxY - b.minY := by ring
  have pw : pyInt (b.maxX - b.minX) = Mx - mx := by rw [hMx, hmx, ← Int.cast_sub, Vp3.pyInt_intCast]
  have ph : pyInt (b.maxY - b.minY) = My - my := by rw [hMy, hmy, ← Int.cast_sub, Vp3.pyInt_intCast]
  have hcode : ∀ k c, findNearest (threadAt threads filler k).color chart = some c → c < chart.length := by
    intro k c hk
    obtain ⟨t, ht, -⟩ := ((C38_nearest _ chart).2 c).1 hk
    exact (List.getElem?_eq_some_iff.1 ht).1
  obtain ⟨hflat, hblk, -⟩ := commandBlocks_spec l hne
  -- positions: in the box, or the origin
  obtain ⟨hn, hseg⟩ := segLoop_points threads filler chart b.minX b.maxY
    (fun x y => Whole x y ∧ ((b.minX ≤ x ∧ x ≤ b.maxX ∧ b.minY ≤ y ∧ y ≤ b.maxY) ∨ (x = 0 ∧ y = 0)))
    (commandBlocks l) 1 (findNearest (threadAt threads filler 0).color chart) 0 0 ⟨⟨0, 0, by simp, by simp⟩, .inr ⟨rfl, rfl⟩⟩
    (by
      intro c hc' a ha
      have : a ∈ l := by rw [← hflat]; exact List.mem_flatten.2 ⟨c, hc', ha⟩
      exact ⟨hint a this, .inl (hin a this)⟩) (hcode 0)
  change (segments threads filler chart b.minX b.maxY l).length ≤ _ at hn
  change ∀ s ∈ segments threads filler chart b.minX b.maxY l, _ at hseg
  rw [hflat] at hseg
  have hn' : (commandBlocks l).length ≤ l.length := by
    have : ∀ bs : List (List Stitch), (∀ c ∈ bs, c ≠ []) → bs.length ≤ bs.flatten.length := by
      intro bs
      induction bs with
      | nil => intro _; exact le_refl _
      | cons c bs ih =>
        intro h
        have h1 := ih (fun d hd => h d (by simp [hd]))
        have h2 := List.length_pos_iff.2 (h c (by simp))
        rw [List.flatten_cons, List.length_append, List.length_cons]
        omega
    have := this (commandBlocks l) (fun c hc' => (hblk c hc').1)
    rwa [hflat] at this
  obtain ⟨segs', hs1, hs2⟩ := allSome_of ((segments threads filler chart b.minX b.maxY l).map
      (fun s => s.color.map (fun c => (c, s.flag, s.points)))) (by
    intro a ha
    obtain ⟨s, hs, rfl⟩ := List.mem_map.1 ha
    rw [Option.isSome_map]
    obtain ⟨i, t, hi, -⟩ := findNearest_some_of_entries (c := (threadAt threads filler 0).color) hent
    exact segLoop_color threads filler chart _ _ hent _ 1 _ 0 0 (by rw [hi]; rfl) s hs)
  have hlen' : segs'.length = (segments threads filler chart b.minX b.maxY l).length := by
    have := congrArg List.length hs2
    simpa using this.symm
  have hfits : ∀ s ∈ segs', FitsSeg s := by
    intro s hs
    have : some s ∈ segs'.map some := List.mem_map.2 ⟨s, hs, rfl⟩
    rw [← hs2] at this
    obtain ⟨sg, hsg, hsg'⟩ := List.mem_map.1 this
    obtain ⟨c, hcc, rfl⟩ := Option.map_eq_some_iff.1 hsg'
    obtain ⟨g1, g2, g3, g4⟩ := hseg sg hsg
    refine ⟨lt_trans (g3 c hcc) hcl, g1, by simp only; omega, ?_⟩
    intro p hp
    obtain ⟨x, y, ⟨⟨m, n, rfl, rfl⟩, hxy⟩, rfl⟩ := g4 p hp
    unfold Fits
    simp only
    rw [hmx, hMy, ← Int.cast_sub, ← Int.cast_sub, Vp3.pyInt_intCast, Vp3.pyInt_intCast]
    rcases hxy with ⟨q1, q2, q3, q4⟩ | ⟨q1, q2⟩
    · rw [hmx] at q1
      rw [hMx] at q2
      rw [hmy] at q3
      rw [hMy] at q4
      have q1' : mx ≤ m := by exact_mod_cast q1
      have q2' : m ≤ Mx := by exact_mod_cast q2
      have q3' : my ≤ n := by exact_mod_cast q3
      have q4' : n ≤ My := by exact_mod_cast q4
      refine ⟨?_, ?_, ?_, ?_⟩ <;> omega
    · have q1' : m = 0 := by exact_mod_cast q1
      have q2' : n = 0 := by exact_mod_cast q2
      refine ⟨?_, ?_, ?_, ?_⟩ <;> omega
  refine ⟨string16 "CEmbOne".toList ++ sewHeader f32 (b.maxX - b.minX) (b.maxY - b.minY) segs'.length ++ [0xFF, 0xFF, 0, 0] ++
      string16 "CSewSeg".toList ++ segmentData segs' ++ [0, 0, 0, 0], (logLoop 0 none segs').length,
    ⟨pyInt (b.maxX - b.minX), pyInt (b.maxY - b.minY), segs'.map sectionOf,
      (logLoop 0 none segs').map (fun e => ((e.1 : Int), (e.2 : Int)))⟩, ?_, ?_, ?_, ?_, ?_, ?_, ?_⟩
  · unfold blocks
    simp only
    rw [eax, eay, ew, eh]
    unfold coded
    rw [hs1]
  · intro rest
    exact parseBlocks_write f32 hf _ _ segs' rest hfits (by omega) (by rw [pw]; constructor <;> omega) (by rw [ph]; constructor <;> omega)
  · simp only [pw]
    rw [hMx, hmx, Int.cast_sub]
  · simp only [ph]
    rw [hMy, hmy, Int.cast_sub]
  · simp only
    rw [coded_events b.minX b.maxY ⟨mx, My, hmx, hMy⟩ _ segs' hs2, segments_events _ _ _ _ _ _ hap]
    intro s hs p hp
    obtain ⟨x, y, ⟨h1, -⟩, h2⟩ := (hseg s hs).2.2.2 p hp
    exact ⟨x, y, h1, h2⟩
  · simp
  · intro e
    simp only
    rw [List.mem_map]
    constructor
    · rintro ⟨e', he', rfl⟩
      obtain ⟨k, s, h1, rfl, h3⟩ := (logLoop_mem segs' 0 none e').1 he'
      refine ⟨k, sectionOf s, by rw [List.getElem?_map, h1]; rfl, by simp [sectionOf], ?_⟩
      by_cases hk : k = 0
      · exact .inl hk
      · right
        rw [if_neg hk] at h3
        rw [List.getElem?_map]
        intro h4
        apply h3
        cases h5 : segs'[k - 1]? with
        | none => rw [h5] at h4; simp at h4
        | some u =>
          rw [h5] at h4
          simp only [Option.map_some, sectionOf, Option.some.injEq] at h4 ⊢
          exact_mod_cast h4
    · rintro ⟨k, s, h1, rfl, h3⟩
      rw [List.getElem?_map] at h1
      obtain ⟨s', h1', rfl⟩ := Option.map_eq_some_iff.1 h1
      refine ⟨(k, s'.1), (logLoop_mem segs' 0 none _).2 ⟨k, s', h1', by simp, ?_⟩, by simp [sectionOf]⟩
      by_cases hk : k = 0
      · rw [if_pos hk]; simp
      · rw [if_neg hk]
        intro h4
        rcases h3 with h3 | h3
        · exact hk h3
        · apply h3
          rw [List.getElem?_map]
          cases h5 : segs'[k - 1]? with
          | none => rw [h5] at h4; simp at h4
          | some u =>
            rw [h5] at h4
            simp only [Option.map_some, sectionOf, Option.some.injEq] at h4 ⊢
            exact_mod_cast h4

/-- C80: in a version 1 file the blocks start at byte 22 and end where the PEC part starts; colours are numbers of the palette. -/
theorem C80_version_1_partial (f32 : ℚ → Bytes) (hf : ∀ q, (f32 q).length = 4) (order : List Thread → List Thread)
    (filler filler' fillerSeg : Nat → Thread) (texts : Texts) (T : List Thread) (l l' : List Stitch) (T' : List Thread) (pec : Bytes) (b : Box)
    (hp : prepare filler T l = (l', T')) (hpec : writePattern order texts.name (fixColorCount T' filler' l') l' = .ok pec)
    (hne : l' ≠ []) (hb : bounds l' = some b)
    (hint : ∀ a ∈ l', Whole a.x a.y) (hlen : l'.length + 1 < 2 ^ 16) (hw : b.maxX - b.minX ≤ 32767) (hh : b.maxY - b.minY ≤ 32767)
    (hx : |b.minX| ≤ 32767) (hy : |b.maxY| ≤ 32767) (hap : Apart l') :
    ∃ f shown, writeFile f32 order filler filler' fillerSeg texts 1 false T l = .ok f ∧ parseBlocks (f.drop 22) = some (shown, pec) ∧
      (shown.width : ℚ) = b.maxX - b.minX ∧ (shown.height : ℚ) = b.maxY - b.minY ∧
      shown.sections.flatMap (Section.events b.minX b.maxY) =
        drawing (fun i => findNearest (threadAt T' fillerSeg i).color palette) 0 0 0 l' ∧
      ∀ e, e ∈ shown.log ↔ ∃ (k : Nat) (s : Section), shown.sections[k]? = some s ∧ e = ((k : Int), s.color) ∧
        (k = 0 ∨ (shown.sections[k - 1]?).map Section.color ≠ some s.color) := by
  obtain ⟨bytes, n, shown, h1, h2, h3, h4, h5, -, h7⟩ := C80_blocks_partial f32 hf T' fillerSeg palette b l' hne hb hint hlen hw hh hx hy
    ⟨_, List.mem_cons_of_mem _ (List.mem_map.2 ⟨_, List.head_mem (show brother ≠ [] by decide +kernel), rfl⟩)⟩ (by decide +kernel) hap
  refine ⟨assemble "#PES0001" (headerV1 1 ++ [0xFF, 0xFF, 0, 0] ++ bytes) pec [], shown, ?_, ?_, h3, h4, h5, h7⟩
  · unfold writeFile writeV1
    simp only [hp]
    rw [if_neg (by decide), if_pos trivial, hpec, hb]
    simp only
    rw [h1]
    rfl
  · rw [← h2 pec]
    congr 1
    have h8 : (utf8 "#PES0001".toList).length = 8 := by decide +kernel
    unfold assemble
    have e : ∀ v : Int, utf8 "#PES0001".toList ++ writeInt32le v ++ (headerV1 1 ++ [0xFF, 0xFF, 0, 0] ++ bytes) ++ pec ++ [] =
        (utf8 "#PES0001".toList ++ writeInt32le v ++ headerV1 1 ++ [0xFF, 0xFF, 0, 0]) ++ (bytes ++ pec) := by
      intro v
      simp only [List.append_assoc, List.append_nil]
    rw [e]
    exact List.drop_left' (by
      simp only [List.length_append, h8]
      rfl)

/-- C80: in a version 6 file the blocks follow the header and the four bytes after it; colours are numbers of threads of the header. -/
theorem C80_version_6_partial (f32 : ℚ → Bytes) (hf : ∀ q, (f32 q).length = 4) (order : List Thread → List Thread)
    (filler filler' fillerSeg : Nat → Thread) (texts : Texts) (T : List Thread) (l l' : List Stitch) (T' T'' : List Thread) (pec : Bytes) (b : Box)
    (hp : prepare filler T l = (l', T')) (hT : fixColorCount T' filler' l' = T'') (hT0 : T'' ≠ []) (hTl : T''.length < 2 ^ 16)
    (hpec : writePattern order texts.name T'' l' = .ok pec) (hne : l' ≠ []) (hb : bounds l' = some b)
    (hint : ∀ a ∈ l', Whole a.x a.y) (hlen : l'.length + 1 < 2 ^ 16) (hw : b.maxX - b.minX ≤ 32767) (hh : b.maxY - b.minY ≤ 32767)
    (hx : |b.minX| ≤ 32767) (hy : |b.maxY| ≤ 32767) (hap : Apart l') :
    ∃ f shown rest, writeFile f32 order filler filler' fillerSeg texts 6 false T l = .ok f ∧
      parseBlocks (f.drop (16 + (headerV6 f32 texts T'' 1).length)) = some (shown, rest) ∧
      (shown.width : ℚ) = b.maxX - b.minX ∧ (shown.height : ℚ) = b.maxY - b.minY ∧
      shown.sections.flatMap (Section.events b.minX b.maxY) =
        drawing (fun i => findNearest (threadAt T'' fillerSeg i).color (T''.map some)) 0 0 0 l' ∧
      ∀ e, e ∈ shown.log ↔ ∃ (k : Nat) (s : Section), shown.sections[k]? = some s ∧ e = ((k : Int), s.color) ∧
        (k = 0 ∨ (shown.sections[k - 1]?).map Section.color ≠ some s.color) := by
  obtain ⟨bytes, n, shown, h1, h2, h3, h4, h5, -, h7⟩ := C80_blocks_partial f32 hf T'' fillerSeg (T''.map some) b l' hne hb hint hlen hw hh hx hy
    ⟨_, List.mem_map.2 ⟨_, List.head_mem hT0, rfl⟩⟩ (by rwa [List.length_map]) hap
  refine ⟨assemble "#PES0060" (headerV6 f32 texts T'' 1 ++ [0xFF, 0xFF, 0, 0] ++ bytes ++ (writeInt32le 0 ++ writeInt32le 0) ++
          (List.range n).flatMap (fun i : Nat => writeInt32le i ++ writeInt32le 0)) pec
          (addendum (colorIndices order T'') (T''.map (·.color)) ++ writeInt16le 0), shown,
    (writeInt32le 0 ++ writeInt32le 0) ++ (List.range n).flatMap (fun i : Nat => writeInt32le i ++ writeInt32le 0) ++ pec ++
          (addendum (colorIndices order T'') (T''.map (·.color)) ++ writeInt16le 0), ?_, ?_, h3, h4, h5, h7⟩
  · unfold writeFile writeV6
    simp only [hp, hT]
    rw [if_neg (by decide), if_neg (by decide +kernel), if_pos trivial, hpec, hb]
    simp only
    rw [h1]
    simp only [bind, Except.bind, Except.map]
  · have h8 : (utf8 "#PES0060".toList).length = 8 := by decide +kernel
    have key : ∀ (hd x y z w : Bytes), (assemble "#PES0060" (hd ++ [0xFF, 0xFF, 0, 0] ++ bytes ++ x ++ y) z w).drop (16 + hd.length) =
        bytes ++ (x ++ y ++ z ++ w) := by
      intro hd x y z w
      unfold assemble
      have e : ∀ v : Int, utf8 "#PES0060".toList ++ writeInt32le v ++ (hd ++ [0xFF, 0xFF, 0, 0] ++ bytes ++ x ++ y) ++ z ++ w =
          (utf8 "#PES0060".toList ++ writeInt32le v ++ hd ++ [0xFF, 0xFF, 0, 0]) ++ (bytes ++ (x ++ y ++ z ++ w)) := by
        intro v
        simp only [List.append_assoc]
      rw [e]
      exact List.drop_left' (by
        simp only [List.length_append, h8]
        have : ∀ v : Int, (writeInt32le v).length = 4 := fun _ => rfl
        rw [this]
        simp only [List.length_cons, List.length_nil]
        omega)
    rw [key]
    exact h2 _

/-- C80: the number of a thread in a version 6 file is that of a thread of the header with exactly its colour. -/
theorem C80_version_6_colour (T : List Thread) (t : Thread) (ht : t ∈ T) :
    ∃ k u, findNearest t.color (T.map some) = some k ∧ T[k]? = some u ∧ u.rgb = t.rgb := by
  obtain ⟨k, u, h1, h2, h3⟩ := C38_exact t.color (T.map some) t (List.mem_map.2 ⟨t, ht, rfl⟩) rfl
  rw [List.getElem?_map] at h2
  obtain ⟨u', h4, h5⟩ := Option.map_eq_some_iff.1 h2
  injection h5 with h5
  exact ⟨k, u', h1, h4, by rw [h5, h3]; rfl⟩

/-! ## Examples -/

/-- The sections a PES file of a pattern shows. -/
def sectionsOf (threads : List Thread) (l : List Stitch) : Option (List Section) :=
  match bounds l with
  | none => none
  | some b => match blocks (fun _ => [0, 0, 0, 0]) threads (fun _ => { color := 0 }) (threads.map some) b l with
    | .ok r => (parseBlocks r.1).map (fun s => s.1.sections)
    | .error _ => none

example : (∀ a ∈ stopsAsChanges fileDemo, Whole a.x a.y) ∧ Apart (stopsAsChanges fileDemo) := by
  have e : stopsAsChanges fileDemo = [⟨0, 0, 0⟩, ⟨5, 3, 0⟩, ⟨5, 3, 5⟩, ⟨30, 4, 1⟩, ⟨30, 4, 0⟩, ⟨30, 4, 197125⟩, ⟨31, 40, 1⟩, ⟨31, 40, 0⟩,
      ⟨31, 40, 4⟩] := by decide +kernel
  rw [e]
  refine ⟨?_, by simp [Apart, Stitch.low]⟩
  intro a ha
  simp only [List.mem_cons, List.not_mem_nil, or_false] at ha
  rcases ha with rfl | rfl | rfl | rfl | rfl | rfl | rfl | rfl | rfl
  · exact ⟨0, 0, by norm_num, by norm_num⟩
  · exact ⟨5, 3, by norm_num, by norm_num⟩
  · exact ⟨5, 3, by norm_num, by norm_num⟩
  · exact ⟨30, 4, by norm_num, by norm_num⟩
  · exact ⟨30, 4, by norm_num, by norm_num⟩
  · exact ⟨30, 4, by norm_num, by norm_num⟩
  · exact ⟨31, 40, by norm_num, by norm_num⟩
  · exact ⟨31, 40, by norm_num, by norm_num⟩
  · exact ⟨31, 40, by norm_num, by norm_num⟩

example : sectionsOf [{ color := 0xFF0000 }, { color := 0x00FF00 }, { color := 0x0000FF }] (stopsAsChanges fileDemo) =
    some [⟨0, 0, [(0, -40), (5, -37)]⟩, ⟨1, 1, [(5, -37), (30, -36)]⟩, ⟨0, 1, [(30, -36)]⟩, ⟨1, 2, [(30, -36), (31, 0)]⟩,
      ⟨0, 2, [(31, 0)]⟩] := by
  decide +kernel

/-- C80 fails when two colour changes follow each other without a stitch between them: only one thread is passed over, and what
follows is shown in the wrong colour. A pattern sewn with threads 0 and 2 is shown with threads 0 and 1. -/
theorem C80_adjacent_changes_fails : sectionsOf [{ color := 0xFF0000 }, { color := 0x00FF00 }, { color := 0x0000FF }]
      [⟨0, 0, 0⟩, ⟨5, 3, 0⟩, ⟨5, 3, 5⟩, ⟨5, 3, 5⟩, ⟨9, 9, 0⟩] = some [⟨0, 0, [(0, -9), (5, -6)]⟩, ⟨0, 1, [(9, 0)]⟩] := by
  decide +kernel

end Pes
end Emb

