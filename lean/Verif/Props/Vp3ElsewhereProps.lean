import Verif.Props.Vp3Props
import Verif.Props.RecordProps

/-!
# C126: VP3 files that another program wrote
-/

namespace Emb
namespace Vp3
namespace Elsewhere

open Blocks
open U01 (bind_of)

/-- A text: its length in bytes and the text in UTF-8. -/
def textBytes (s : Str) : Bytes := writeInt16be (utf8 s).length ++ utf8 s

/-- A text that is passed over, in whatever encoding. -/
def skippedBytes (u : Bytes) : Bytes := writeInt16be u.length ++ u

/-- A thread of any number of colours, each with its share and length. -/
structure Yarn where
  transition : Int
  colours : List (Int × Int × Int)
  kind : Int
  weight : Int
  catalog : Str
  description : Str
  brand : Str

def Yarn.bytes (t : Yarn) : Bytes :=
  writeInt8 t.colours.length ++ (writeInt8 t.transition ++
    ((t.colours.flatMap (fun c => writeInt24be c.1 ++ (writeInt8 c.2.1 ++ writeInt16be c.2.2))) ++
      (writeInt8 t.kind ++ (writeInt8 t.weight ++ (textBytes t.catalog ++ (textBytes t.description ++ textBytes t.brand))))))

def Yarn.Fits (t : Yarn) : Prop :=
  t.colours.length < 256 ∧ (∀ c ∈ t.colours, 0 ≤ c.1 ∧ c.1 < 0x1000000) ∧ (utf8 t.catalog).length < 65536 ∧
    (utf8 t.description).length < 65536 ∧ (utf8 t.brand).length < 65536

/-- The thread in the pattern has the last of the colours, or is black if there is none. -/
def Yarn.thread (t : Yarn) : RThread :=
  ⟨some ((t.colours.getLast?.map (fun c => c.1)).getD 0), some t.catalog, some t.description, some t.brand⟩

/-- A record among the stitches. -/
inductive Item where
  | stitch (dx dy : Int)
  /-- a stitch in 16 bits for each direction, closed by two bytes of any content -/
  | long (dx dy a b : Int)
  | trim
  /-- `80` with another code, such as `02`, does nothing -/
  | other (c : Int)

/-- Two's complement, `y` downwards. -/
def Item.bytes : Item → Bytes
  | .stitch dx dy => [Records.twos dx, Records.twos dy]
  | .long dx dy a b => [0x80, 0x01] ++ (writeInt16be dx ++ (writeInt16be dy ++ [a, b]))
  | .trim => [0x80, 0x03]
  | .other c => [0x80, c]

def Item.Fits : Item → Prop
  | .stitch dx dy => -127 ≤ dx ∧ dx ≤ 127 ∧ -128 ≤ dy ∧ dy ≤ 127
  | .long dx dy _ _ => (-32768 ≤ dx ∧ dx ≤ 32767) ∧ (-32768 ≤ dy ∧ dy ≤ 32767)
  | .trim => True
  | .other c => 0 ≤ c ∧ c < 256 ∧ c ≠ 1 ∧ c ≠ 3

/-- What the records draw, and where they end. -/
def draw : ℚ × ℚ → List Item → List Stitch
  | _, [] => []
  | q, .stitch dx dy :: l | q, .long dx dy _ _ :: l => ⟨q.1 + dx, q.2 + dy, 0⟩ :: draw (q.1 + dx, q.2 + dy) l
  | q, .trim :: l => ⟨q.1, q.2, 2⟩ :: draw q l
  | q, .other _ :: l => draw q l

def drawEnd : ℚ × ℚ → List Item → ℚ × ℚ
  | q, [] => q
  | q, .stitch dx dy :: l | q, .long dx dy _ _ :: l => drawEnd (q.1 + dx, q.2 + dy) l
  | q, .trim :: l | q, .other _ :: l => drawEnd q l

/-- A colour: `mark` and `mark2` are three bytes, `gap` is fifteen, `odd` is a single byte or nothing. -/
structure Colour where
  mark : Bytes
  sx : Int
  sy : Int
  yarn : Yarn
  gap : Bytes
  mark2 : Bytes
  items : List Item
  odd : Bytes

def Colour.body (c : Colour) : Bytes :=
  int32 c.sx ++ (int32 c.sy ++ (c.yarn.bytes ++ (c.gap ++ (c.mark2 ++ (c.items.flatMap Item.bytes ++ c.odd)))))

/-- The block says how long it is. -/
def Colour.bytes (c : Colour) : Bytes := c.mark ++ (int32 c.body.length ++ c.body)

def Colour.Fits (c : Colour) : Prop :=
  c.mark.length = 3 ∧ c.mark2.length = 3 ∧ c.gap.length = 15 ∧ c.odd.length < 2 ∧ c.yarn.Fits ∧ (∀ i ∈ c.items, i.Fits) ∧
    (-0x80000000 ≤ c.sx ∧ c.sx < 0x80000000) ∧ (-0x80000000 ≤ c.sy ∧ c.sy < 0x80000000) ∧ c.body.length < 0x100000000

/-- Where a colour begins: hundredths of a unit, `y` upwards, from the centre. -/
def Colour.start (m : ℚ × ℚ) (c : Colour) : ℚ × ℚ := ((c.sx : ℚ) / 100 + m.1, -((c.sy : ℚ) / 100) + m.2)

/-- The reader does not go to a start on one of the axes. -/
def Colour.OnAxis (m : ℚ × ℚ) (c : Colour) : Prop := (c.start m).1 = 0 ∨ (c.start m).2 = 0

instance (m : ℚ × ℚ) (c : Colour) : Decidable (c.OnAxis m) := by unfold Colour.OnAxis; infer_instance

/-- The design: every colour from its start, colour changes between the colours, END. -/
def design (m : ℚ × ℚ) : ℚ × ℚ → List Colour → List Stitch
  | q, [] => [⟨q.1, q.2, 4⟩]
  | q, c :: l =>
    let q1 := if c.OnAxis m then q else c.start m
    let q2 := drawEnd q1 c.items
    (if c.OnAxis m then [] else [⟨q1.1, q1.2, 1⟩]) ++ draw q1 c.items ++ (if l = [] then [] else [⟨q2.1, q2.2, 5⟩]) ++ design m q2 l

/-- A file; the lengths of what is passed over are fixed, except for four texts. -/
structure File where
  magic : Bytes
  producer : Bytes
  gap1 : Bytes
  comment : Bytes
  gap2 : Bytes
  cx : Int
  cy : Int
  gap3 : Bytes
  text3 : Bytes
  gap4 : Bytes
  text4 : Bytes
  colours : List Colour
  rest : Bytes

def File.bytes (f : File) : Bytes :=
  f.magic ++ (skippedBytes f.producer ++ (f.gap1 ++ (skippedBytes f.comment ++ (f.gap2 ++ (int32 f.cx ++ (int32 f.cy ++ (f.gap3 ++
    (skippedBytes f.text3 ++ (f.gap4 ++ (skippedBytes f.text4 ++ (writeInt16be f.colours.length ++
      (f.colours.flatMap Colour.bytes ++ f.rest))))))))))))

def File.Fits (f : File) : Prop :=
  f.magic.length = 6 ∧ f.gap1.length = 7 ∧ f.gap2.length = 32 ∧ f.gap3.length = 27 ∧ f.gap4.length = 24 ∧ f.producer.length < 65536 ∧
    f.comment.length < 65536 ∧ f.text3.length < 65536 ∧ f.text4.length < 65536 ∧ f.colours.length < 65536 ∧
    (-0x80000000 ≤ f.cx ∧ f.cx < 0x80000000) ∧ (-0x80000000 ≤ f.cy ∧ f.cy < 0x80000000) ∧ ∀ c ∈ f.colours, c.Fits

/-! ## Proofs -/

theorem at_int32 {f : Bytes} {p : Nat} {s : Bytes} {v : Int} (h : At f p (int32 v ++ s)) (hv : -0x80000000 ≤ v ∧ v < 0x80000000) :
    hundredths f p = .ok ((v : ℚ) / 100, p + 4) := by
  unfold hundredths
  rw [at_r32 h]
  simp only
  have e : signed32 (v % 2 ^ 32) = v := by unfold signed32; split_ifs <;> omega
  rw [e]

theorem at_text {f : Bytes} {p : Nat} {r : Bytes} {s : Str} (h : At f p (textBytes s ++ r)) (hs : (utf8 s).length < 65536) :
    readString f p = (some s, p + (2 + (utf8 s).length)) := by
  unfold textBytes at h
  rw [List.append_assoc] at h
  unfold readString
  rw [at_r16 h]
  have e : (((utf8 s).length : Int) % 2 ^ 16).toNat = (utf8 s).length := by omega
  simp only [e]
  have h2 := h.step 2 rfl
  rw [h2.adv _ rfl, h2.1]
  rw [show List.take (utf8 s).length (utf8 s ++ r) = utf8 s from List.take_left' rfl, decodeUtf8_utf8, Nat.add_assoc]

theorem at_skipped {f : Bytes} {p : Nat} {r : Bytes} {u : Bytes} (h : At f p (skippedBytes u ++ r)) (hs : u.length < 65536) :
    skipString f p = .ok (p + (2 + u.length)) := by
  unfold skippedBytes at h
  rw [List.append_assoc] at h
  unfold skipString
  rw [at_r16 h]
  have e : ((u.length : Int) % 2 ^ 16).toNat = u.length := by omega
  simp only [e, Nat.add_assoc]

theorem text_length (s : Str) : (textBytes s).length = 2 + (utf8 s).length := by
  unfold textBytes; rw [List.length_append]; rfl
theorem skipped_length (u : Bytes) : (skippedBytes u).length = 2 + u.length := by
  unfold skippedBytes; rw [List.length_append]; rfl

theorem at_colours {f : Bytes} (l : List (Int × Int × Int)) (hl : ∀ c ∈ l, 0 ≤ c.1 ∧ c.1 < 0x1000000) (r : Bytes) : ∀ (p : Nat) (c0 : Int),
    At f p (l.flatMap (fun c => writeInt24be c.1 ++ (writeInt8 c.2.1 ++ writeInt16be c.2.2)) ++ r) →
    readColors f l.length (some c0) p = (some ((l.getLast?.map (fun c => c.1)).getD c0), p + 6 * l.length) ∧ At f (p + 6 * l.length) r := by
  induction l with
  | nil => intro p c0 h; exact ⟨rfl, h⟩
  | cons c l ih =>
    intro p c0 h
    rw [List.flatMap_cons, List.append_assoc, List.append_assoc, List.append_assoc] at h
    have h1 := h.step 3 rfl
    have h2 := h1.step 1 rfl
    have h3 := h2.step 2 rfl
    obtain ⟨c1, c2⟩ := hl c (by simp)
    obtain ⟨i1, i2⟩ := ih (fun a ha => hl a (by simp [ha])) (p + 3 + 1 + 2) c.1 h3
    have hc : c.1 % 2 ^ 24 = c.1 := by omega
    have ep : p + 3 + 1 + 2 + 6 * l.length = p + 6 * (c :: l).length := by rw [List.length_cons]; omega
    rw [ep] at i1 i2
    refine ⟨?_, i2⟩
    rw [List.length_cons, readColors]
    simp only [at_r24 h, at_r8 h1, at_r16 h2]
    rw [hc, i1, List.length_cons]
    cases l with
    | nil => rfl
    | cons d l => rw [List.getLast?_cons_cons]; simp [List.getLast?_cons]

theorem at_yarn {f : Bytes} {p : Nat} {r : Bytes} {t : Yarn} (h : At f p (t.bytes ++ r)) (ht : t.Fits) :
    readThread f p = .ok (t.thread, p + t.bytes.length) := by
  obtain ⟨t1, t2, t3, t4, t5⟩ := ht
  have hl : t.bytes.length = 1 + (1 + (6 * t.colours.length + (1 + (1 + ((2 + (utf8 t.catalog).length) + ((2 + (utf8 t.description).length) +
      (2 + (utf8 t.brand).length))))))) := by
    unfold Yarn.bytes
    have e : (t.colours.flatMap (fun c => writeInt24be c.1 ++ (writeInt8 c.2.1 ++ writeInt16be c.2.2))).length = 6 * t.colours.length := by
      generalize t.colours = l
      induction l with
      | nil => rfl
      | cons c l ih =>
        rw [List.flatMap_cons, List.length_append, ih, List.length_cons]
        have : (writeInt24be c.1 ++ (writeInt8 c.2.1 ++ writeInt16be c.2.2)).length = 6 := rfl
        omega
    simp only [List.length_append, text_length, e]
    rfl
  unfold Yarn.bytes at h
  simp only [List.append_assoc] at h
  have h1 := h.step 1 rfl
  have h2 := h1.step 1 rfl
  obtain ⟨c1, h3⟩ := at_colours t.colours t2 _ _ 0 h2
  have h4 := h3.step 1 rfl
  have h5 := h4.step 1 rfl
  have h6 := h5.step _ (text_length _)
  have h7 := h6.step _ (text_length _)
  unfold readThread
  rw [at_r8 h]
  have en : ((t.colours.length : Int) % 2 ^ 8).toNat = t.colours.length := by omega
  simp only [en, at_r8 h1, c1, at_r8 h3, at_r8 h4, at_text h5 t3, at_text h6 t4, at_text h7 t5]
  unfold Yarn.thread
  congr 2
  rw [hl]
  omega

theorem s8byte (v : Int) : lo8 (signed8 (Records.twos v)) = v % 256 := by
  unfold lo8 signed8 Records.twos
  split_ifs <;> omega

theorem draw_endOf (l : List Item) : ∀ q : ℚ × ℚ, endOf q (draw q l) = drawEnd q l := by
  induction l with
  | nil => intro q; rfl
  | cons i l ih =>
    intro q
    cases i with
    | other c => exact ih q
    | _ => simp only [draw, drawEnd]; rw [endOf_cons]; exact ih _

theorem read_items (odd : List Int) (ho : odd.length < 2) (l : List Item) (hl : ∀ i ∈ l, i.Fits) : ∀ b : Build RThread,
    readStitches b ((l.flatMap Item.bytes).map signed8 ++ odd) = .ok (cont b (draw (b.px, b.py) l)) := by
  induction l with
  | nil =>
    intro b
    rw [draw, cont_nil]
    match odd, ho with
    | [], _ => rw [readStitches.eq_def]; rfl
    | [_], _ => rw [readStitches.eq_def]; rfl
  | cons i l ih =>
    intro b
    have ih := ih (fun a ha => hl a (by simp [ha]))
    have hi := hl i (by simp)
    rw [List.flatMap_cons, List.map_append, List.append_assoc]
    cases i with
    | stitch dx dy =>
      obtain ⟨h1, h2, h3, h4⟩ := hi
      rw [show (Item.bytes (.stitch dx dy)).map signed8 ++ ((l.flatMap Item.bytes).map signed8 ++ odd) =
        signed8 (Records.twos dx) :: signed8 (Records.twos dy) :: ((l.flatMap Item.bytes).map signed8 ++ odd) from rfl,
        readStitches_short _ _ _ _ (by rw [s8byte]; omega), ih, Records.s8 dx (by omega) (by omega), Records.s8 dy (by omega) (by omega), draw, cont_cons]
      rfl
    | long dx dy a b' =>
      obtain ⟨h1, h2⟩ := hi
      rw [show (Item.bytes (.long dx dy a b')).map signed8 ++ ((l.flatMap Item.bytes).map signed8 ++ odd) =
        -128 :: 1 :: signed8 (lo8 (shr dx 8)) :: signed8 (lo8 (shr dx 0)) :: signed8 (lo8 (shr dy 8)) :: signed8 (lo8 (shr dy 0)) ::
          signed8 a :: signed8 b' :: ((l.flatMap Item.bytes).map signed8 ++ odd) from rfl, readStitches_long, pair16_bytes dx h1, pair16_bytes dy h2,
        ih, draw, cont_cons]
      rfl
    | trim =>
      rw [show (Item.bytes .trim).map signed8 ++ ((l.flatMap Item.bytes).map signed8 ++ odd) =
        -128 :: 3 :: ((l.flatMap Item.bytes).map signed8 ++ odd) from rfl, readStitches_trim, ih, draw, cont_cons]
      simp only [Build.rel, Build.abs, add_zero, TRIM]
    | other c =>
      obtain ⟨h0, h1, h2, h3⟩ := hi
      rw [show (Item.bytes (.other c)).map signed8 ++ ((l.flatMap Item.bytes).map signed8 ++ odd) =
        -128 :: signed8 c :: ((l.flatMap Item.bytes).map signed8 ++ odd) from rfl]
      have n1 : signed8 c ≠ 1 := by unfold signed8; split_ifs <;> omega
      have n3 : signed8 c ≠ 3 := by unfold signed8; split_ifs <;> omega
      rw [readStitches.eq_def]
      dsimp only
      rw [if_neg (by decide), if_neg n1, if_neg n3, ih, draw]

/-- What a colour adds. -/
def added (m : ℚ × ℚ) (q : ℚ × ℚ) (c : Colour) : List Stitch :=
  let q1 := if c.OnAxis m then q else c.start m
  (if c.OnAxis m then [] else [⟨q1.1, q1.2, 1⟩]) ++ draw q1 c.items

theorem endOf_more (q : ℚ × ℚ) (a b : List Stitch) : endOf q (a ++ b) = endOf (endOf q a) b := endOf_append q a b

theorem added_end (m q : ℚ × ℚ) (c : Colour) : endOf q (added m q c) = drawEnd (if c.OnAxis m then q else c.start m) c.items := by
  unfold added
  simp only
  rw [endOf_more]
  split_ifs
  · rw [show endOf q [] = q from rfl]; exact draw_endOf _ _
  · rw [endOf_cons, show ∀ p : ℚ × ℚ, endOf p [] = p from fun _ => rfl]; exact draw_endOf _ _

theorem at_colour {f : Bytes} {p : Nat} {r : Bytes} {c : Colour} (m : ℚ × ℚ) (b : Build RThread) (h : At f p (c.bytes ++ r)) (hc : c.Fits) :
    ∃ p', At f p' r ∧ readBlock f m.1 m.2 b p =
      .ok ({ cont b (added m (b.px, b.py) c) with threads := b.threads ++ [c.yarn.thread] }, p') := by
  obtain ⟨c1, c2, c3, c4, c5, c6, c7, c8, c9⟩ := hc
  unfold Colour.bytes at h
  simp only [List.append_assoc] at h
  have h1 := h.step 3 c1
  have h2 := h1.step 4 rfl
  have hend := h2.step _ rfl
  have h2' := h2
  unfold Colour.body at h2'
  simp only [List.append_assoc] at h2'
  have h3 := h2'.step 4 rfl
  have h4 := h3.step 4 rfl
  have h5 := h4.step _ rfl
  have h6 := h5.step 15 c3
  have h7 := h6.step 3 c2
  refine ⟨_, hend, ?_⟩
  have hbl : c.body.length = 4 + (4 + (c.yarn.bytes.length + (15 + (3 + ((c.items.flatMap Item.bytes).length + c.odd.length))))) := by
    unfold Colour.body
    simp only [List.length_append, c2, c3]
    rfl
  unfold readBlock
  simp only
  rw [h.adv 3 c1, at_r32 h1]
  have hm : (c.body.length : Int) % 2 ^ 32 = c.body.length := by omega
  simp only [hm]
  rw [bind_of (at_int32 h2' c7), bind_of (at_int32 h3 c8), bind_of (at_yarn h4 c5)]
  simp only
  rw [h6.adv 3 c2]
  have hn : (c.body.length : Int) + ((p + 3 + 4 : Nat) : Int) - ((p + 3 + 4 + 4 + 4 + c.yarn.bytes.length + 15 + 3 : Nat) : Int) =
      ((c.items.flatMap Item.bytes ++ c.odd).length : Nat) := by
    rw [hbl, List.length_append]; push_cast; omega
  have hn0 : ¬ (((c.items.flatMap Item.bytes ++ c.odd).length : Nat) : Int) < 0 := by omega
  rw [hn, h7.1, Int.toNat_natCast]
  simp only [if_neg hn0]
  have htk : (c.items.flatMap Item.bytes ++ (c.odd ++ r)).take (c.items.flatMap Item.bytes ++ c.odd).length = c.items.flatMap Item.bytes ++ c.odd := by
    rw [← List.append_assoc]; exact List.take_left' rfl
  rw [htk, List.map_append, bind_of (read_items (c.odd.map signed8) (by simpa using c4) c.items c6 _)]
  have hpos : p + 3 + 4 + 4 + 4 + c.yarn.bytes.length + 15 + 3 + (c.items.flatMap Item.bytes ++ c.odd).length = p + 3 + 4 + c.body.length := by
    rw [hbl, List.length_append]; omega
  rw [hpos]
  congr 2
  unfold added
  by_cases ha : c.OnAxis m
  · have ha' : ¬ ((c.sx : ℚ) / 100 + m.1 ≠ 0 ∧ -((c.sy : ℚ) / 100) + m.2 ≠ 0) := by
      unfold Colour.OnAxis Colour.start at ha; tauto
    simp only [if_pos ha, if_neg ha']
    rfl
  · have ha' : (c.sx : ℚ) / 100 + m.1 ≠ 0 ∧ -((c.sy : ℚ) / 100) + m.2 ≠ 0 := by
      unfold Colour.OnAxis Colour.start at ha; tauto
    simp only [if_neg ha, if_pos ha']
    unfold cont
    simp only [Build.abs, JUMP, endOf_more, endOf_cons, List.append_assoc]
    rfl

theorem design_cons (m q : ℚ × ℚ) (c : Colour) (l : List Colour) : design m q (c :: l) = added m q c ++
    ((if l = [] then [] else [⟨(endOf q (added m q c)).1, (endOf q (added m q c)).2, 5⟩]) ++ design m (endOf q (added m q c)) l) := by
  rw [added_end, design, added]
  simp only [List.append_assoc]

theorem read_colours {f : Bytes} (m : ℚ × ℚ) (r : Bytes) (l : List Colour) (hl : ∀ c ∈ l, c.Fits) : ∀ (p : Nat) (b : Build RThread),
    At f p (l.flatMap Colour.bytes ++ r) → ∃ b' : Build RThread, readBlocks f m.1 m.2 l.length b p = .ok b' ∧
      (b'.rel END 0 0).stitches = b.stitches ++ design m (b.px, b.py) l ∧ b'.threads = b.threads ++ l.map (fun c => c.yarn.thread) := by
  induction l with
  | nil => intro p b _; exact ⟨b, rfl, by simp [Build.rel, Build.abs, design, END], by simp⟩
  | cons c l ih =>
    intro p b h
    rw [List.flatMap_cons, List.append_assoc] at h
    obtain ⟨p', h', e⟩ := at_colour m b h (hl c (by simp))
    rw [List.length_cons, readBlocks, bind_of e]
    simp only
    by_cases hz : l.length = 0
    · have hl0 : l = [] := List.length_eq_zero_iff.1 hz
      subst hl0
      simp only [List.length_nil, if_true]
      obtain ⟨b', i1, i2, i3⟩ := ih (by simp) p' _ h'
      refine ⟨b', i1, ?_, ?_⟩
      · rw [i2]
        unfold cont
        rw [design_cons, if_pos rfl, List.nil_append]
        simp only [List.append_assoc]
      · rw [i3]; simp [cont]
    · have hl0 : l ≠ [] := fun q => hz (by rw [q]; rfl)
      rw [if_neg hz]
      obtain ⟨b', i1, i2, i3⟩ := ih (fun a ha => hl a (by simp [ha])) p' _ h'
      refine ⟨b', i1, ?_, ?_⟩
      · rw [i2]
        rw [design_cons, if_neg hl0]
        simp only [Build.rel, Build.abs, cont, add_zero, List.append_assoc, COLOR_CHANGE]
      · rw [i3]; simp [cont, Build.rel, Build.abs]

/-- What the file says: every colour from its start, wherever that is. -/
def sewn (m : ℚ × ℚ) : ℚ × ℚ → List Colour → List Stitch
  | q, [] => [⟨q.1, q.2, 4⟩]
  | _, c :: l =>
    let q := drawEnd (c.start m) c.items
    ⟨(c.start m).1, (c.start m).2, 1⟩ :: draw (c.start m) c.items ++ (if l = [] then [] else [⟨q.1, q.2, 5⟩]) ++ sewn m q l

theorem design_sewn (m : ℚ × ℚ) (l : List Colour) (h : ∀ c ∈ l, ¬ c.OnAxis m) : ∀ q, design m q l = sewn m q l := by
  induction l with
  | nil => intro q; rfl
  | cons c l ih =>
    intro q
    simp only [design, sewn, if_neg (h c (by simp)), List.singleton_append]
    rw [ih (fun a ha => h a (by simp [ha]))]

/-- **C126**, exactly: what the reader makes of every file. -/
theorem C126_read (f : File) (hf : f.Fits) :
    ∃ b : Build RThread, read f.bytes = .ok b ∧ b.stitches = design ((f.cx : ℚ) / 100, -((f.cy : ℚ) / 100)) (0, 0) f.colours ∧
      b.threads = f.colours.map (fun c => c.yarn.thread) := by
  obtain ⟨a1, a2, a3, a4, a5, a6, a7, a8, a9, a10, a11, a12, a13⟩ := hf
  have h0 : At f.bytes 0 _ := ⟨rfl, by omega⟩
  rw [List.drop_zero, File.bytes] at h0
  rw [← File.bytes] at h0
  unfold File.bytes at h0 ⊢
  have h1 := h0.step 6 a1
  have h2 := h1.step _ (skipped_length _)
  have h3 := h2.step 7 a2
  have h4 := h3.step _ (skipped_length _)
  have h5 := h4.step 32 a3
  have h6 := h5.step 4 rfl
  have h7 := h6.step 4 rfl
  have h8 := h7.step 27 a4
  have h9 := h8.step _ (skipped_length _)
  have h10 := h9.step 24 a5
  have h11 := h10.step _ (skipped_length _)
  have h12 := h11.step 2 rfl
  obtain ⟨b, e1, e2, e3⟩ := read_colours ((f.cx : ℚ) / 100, -((f.cy : ℚ) / 100)) f.rest f.colours a13 _ {} h12
  refine ⟨b.rel END 0 0, ?_, by rw [e2]; rfl, by simpa [Build.rel, Build.abs] using e3⟩
  unfold read
  simp only
  rw [h0.adv 6 a1, bind_of (at_skipped h1 a6), bind_of (at_skipped h3 a7), bind_of (at_int32 h5 a11),
    bind_of (at_int32 h6 a12), bind_of (at_skipped h8 a8), bind_of (at_skipped h10 a9), at_r16 h11]
  simp only
  have hbl : ((f.colours.length : Int) % 2 ^ 16).toNat = f.colours.length := by omega
  rw [hbl, bind_of e1]

/-- **C126** for files in which no colour starts on an axis of the design. -/
theorem C126_partial (f : File) (hf : f.Fits) (ha : ∀ c ∈ f.colours, ¬ c.OnAxis ((f.cx : ℚ) / 100, -((f.cy : ℚ) / 100))) :
    ∃ b : Build RThread, read f.bytes = .ok b ∧ b.stitches = sewn ((f.cx : ℚ) / 100, -((f.cy : ℚ) / 100)) (0, 0) f.colours ∧
      b.threads = f.colours.map (fun c => c.yarn.thread) := by
  obtain ⟨b, h1, h2, h3⟩ := C126_read f hf
  exact ⟨b, h1, by rw [h2, design_sewn _ _ ha], h3⟩

/-- Two colours; the second one starts on an axis. -/
def demo : File where
  magic := [37, 118, 115, 109, 37, 0]
  producer := [0, 86, 0, 255]
  gap1 := List.replicate 7 9
  comment := []
  gap2 := List.replicate 32 7
  cx := 1250
  cy := -730
  gap3 := List.replicate 27 5
  text3 := [200]
  gap4 := List.replicate 24 3
  text4 := [1, 2]
  colours := [
    { mark := [0, 5, 0], sx := -37, sy := 215, yarn := ⟨1, [(0x123456, 50, 3), (0xABCDEF, 50, 3)], 5, 40, "12é".toList, "Rouge".toList, []⟩
      gap := List.replicate 15 1, mark2 := [10, 246, 0]
      items := [.stitch (-5) 7, .long 300 (-2000) 0x80 2, .other 2, .trim, .stitch 127 (-128)], odd := [17] },
    { mark := [0, 5, 0], sx := -1250, sy := 50, yarn := ⟨0, [], 5, 40, [], [], "B".toList⟩
      gap := List.replicate 15 1, mark2 := [10, 246, 0], items := [.stitch 3 0], odd := [] }]
  rest := [1, 2, 3]

set_option maxRecDepth 8000 in
theorem demo_fits : demo.Fits := by
  refine ⟨rfl, rfl, rfl, rfl, rfl, by decide, by decide, by decide, by decide, by decide, by decide, by decide, ?_⟩
  intro c hc
  simp only [demo, List.mem_cons, List.not_mem_nil, or_false] at hc
  rcases hc with rfl | rfl
  · refine ⟨rfl, rfl, rfl, by decide, ⟨by decide, by decide, by decide, by decide, by decide⟩, ?_, by decide, by decide, by decide⟩
    intro i hi
    simp only [List.mem_cons, List.not_mem_nil, or_false] at hi
    rcases hi with rfl | rfl | rfl | rfl | rfl <;> simp [Item.Fits]
  · refine ⟨rfl, rfl, rfl, by decide, ⟨by decide, by decide, by decide, by decide, by decide⟩, ?_, by decide, by decide, by decide⟩
    intro i hi
    simp only [List.mem_cons, List.not_mem_nil, or_false] at hi
    rcases hi with rfl; simp [Item.Fits]

/-- The threads: the last of two colours, and black for the yarn without a colour. -/
example : ∃ b, read demo.bytes = .ok b ∧
    b.threads = [⟨some 0xABCDEF, some "12é".toList, some "Rouge".toList, some []⟩, ⟨some 0, some [], some [], some "B".toList⟩] := by
  obtain ⟨b, h1, _, h3⟩ := C126_read demo demo_fits
  exact ⟨b, h1, h3⟩

/-- The stitches; the start of the second colour has no jump. -/
example : ∃ b, read demo.bytes = .ok b ∧ b.stitches = [⟨1213 / 100, 103 / 20, 1⟩, ⟨713 / 100, 243 / 20, 0⟩, ⟨30713 / 100, -39757 / 20, 0⟩,
    ⟨30713 / 100, -39757 / 20, 2⟩, ⟨43413 / 100, -42317 / 20, 0⟩, ⟨43413 / 100, -42317 / 20, 5⟩, ⟨43713 / 100, -42317 / 20, 0⟩,
    ⟨43713 / 100, -42317 / 20, 4⟩] := by
  obtain ⟨b, h1, h2, _⟩ := C126_read demo demo_fits
  refine ⟨b, h1, ?_⟩
  rw [h2]
  norm_num [design, draw, drawEnd, demo, Colour.OnAxis, Colour.start]

/-- **C126** fails for a colour that starts on an axis: it is sewn from where the colour before ended. -/
theorem C126_axis_fails : ∃ f : File, f.Fits ∧ ∃ b, read f.bytes = .ok b ∧
    b.stitches ≠ sewn ((f.cx : ℚ) / 100, -((f.cy : ℚ) / 100)) (0, 0) f.colours := by
  obtain ⟨b, h1, h2, _⟩ := C126_read demo demo_fits
  refine ⟨demo, demo_fits, b, h1, ?_⟩
  rw [h2]
  intro h
  have := congrArg List.length h
  norm_num [design, sewn, draw, drawEnd, demo, Colour.OnAxis, Colour.start] at this

/-- Without its second colour the example is read as it says. -/
example : ∃ b, read ({ demo with colours := demo.colours.take 1 } : File).bytes = .ok b ∧ b.stitches.length = 6 := by
  obtain ⟨a1, a2, a3, a4, a5, a6, a7, a8, a9, a10, a11, a12, a13⟩ := demo_fits
  obtain ⟨b, h1, h2, _⟩ := C126_partial { demo with colours := demo.colours.take 1 }
    ⟨a1, a2, a3, a4, a5, a6, a7, a8, a9, by decide, a11, a12, fun c hc => a13 c (List.mem_of_mem_take hc)⟩
    (by intro c hc; simp only [demo, List.take_succ_cons, List.take_zero, List.mem_singleton] at hc; rw [hc]
        norm_num [demo, Colour.OnAxis, Colour.start])
  refine ⟨b, h1, ?_⟩
  rw [h2]
  norm_num [sewn, draw, drawEnd, demo, Colour.start]

end Elsewhere
end Vp3
end Emb
