import Verif.Props.Vp3Props

/-!
# C117: a VP3 file is a tree of blocks whose lengths fit

The description of the format below follows the distances written in the file, as the machines do; the reader of the library
skips them.
-/

namespace Emb
open Blocks
namespace Vp3
namespace Tree

/-- The number written in bytes, the most significant first. -/
def be (b : Bytes) : Int := b.foldl (fun a v => a * 256 + v) 0

/-- Two's complement in 32 bits. -/
def signed (v : Int) : Int := if v < 2 ^ 31 then v else v - 2 ^ 32

/-- The first `n` bytes and the rest. -/
def cutAt (n : Nat) (b : Bytes) : Option (Bytes × Bytes) := if n ≤ b.length then some (b.take n, b.drop n) else none

/-- The bytes `a` and nothing else, then the rest. -/
def exact (a b : Bytes) : Option Bytes := (cutAt a.length b).bind fun p => if p.1 = a then some p.2 else none

/-- A number of `n` bytes. -/
def num (n : Nat) (b : Bytes) : Option (Int × Bytes) := (cutAt n b).map fun p => (be p.1, p.2)

/-- A signed number of 4 bytes. -/
def snum (b : Bytes) : Option (Int × Bytes) := (num 4 b).map fun p => (signed p.1, p.2)

/-- A text with its length in two bytes in front. -/
def text (b : Bytes) : Option (Bytes × Bytes) := (num 2 b).bind fun p => cutAt p.1.toNat p.2

/-- A block: the tag `0 k 0`, the distance to its end, its content; then the rest. -/
def block (k : Int) (b : Bytes) : Option (Bytes × Bytes) :=
  (exact [0, k, 0] b).bind fun b => (num 4 b).bind fun p => cutAt p.1.toNat p.2

/-- What a colour block says; positions in hundredths of a unit. -/
structure Colour where
  start : Int × Int
  rgb : Int
  catalog : Bytes
  description : Bytes
  brand : Bytes
  shift : Int × Int
  stitches : Bytes
deriving DecidableEq

/-- The content of a colour block: one zero follows its stitches block. -/
def colour (b : Bytes) : Option Colour :=
  (snum b).bind fun x => (snum x.2).bind fun y => (exact [1, 0] y.2).bind fun b => (num 3 b).bind fun c =>
  (exact [0, 0, 0, 5, 40] c.2).bind fun b => (text b).bind fun t1 => (text t1.2).bind fun t2 => (text t2.2).bind fun t3 =>
  (snum t3.2).bind fun u => (snum u.2).bind fun v => (block 1 v.2).bind fun s => (exact [0x0A, 0xF6, 0] s.1).bind fun st =>
  if s.2 = [0] then some ⟨(x.1, y.1), c.1, t1.1, t2.1, t3.1, (u.1, v.1), st⟩ else none

/-- So many colour blocks and nothing after them. -/
def colours : Nat → Bytes → Option (List Colour)
  | 0, b => if b = [] then some [] else none
  | n + 1, b => (block 5 b).bind fun p => (colour p.1).bind fun c => (colours n p.2).map fun cs => c :: cs

/-- What the design block says. -/
structure Design where
  centre : Int × Int
  halves : Int × Int × Int × Int
  size : Int × Int
  colours : List Colour
deriving DecidableEq

/-- The content of the design block. -/
def design (b : Bytes) : Option Design :=
  (snum b).bind fun x => (snum x.2).bind fun y => (exact [0, 0, 0] y.2).bind fun b =>
  (snum b).bind fun p => (snum p.2).bind fun q => (snum q.2).bind fun r => (snum r.2).bind fun s =>
  (snum s.2).bind fun w => (snum w.2).bind fun h => (text h.2).bind fun t =>
  (exact [0x64, 0x64, 0, 0, 0x10, 0, 0, 0, 0, 0, 0, 0, 0, 0, 0, 0, 0x10, 0, 0x78, 0x78, 0x50, 0x50, 1, 0] t.2).bind fun b =>
  (text b).bind fun t => (num 2 t.2).bind fun n => (colours n.1.toNat n.2).map fun cs =>
  ⟨(x.1, y.1), (p.1, q.1, r.1, s.1), (w.1, h.1), cs⟩

/-- What the file says. -/
structure File where
  right : Int
  top : Int
  left : Int
  bottom : Int
  stitches : Int
  colourCount : Int
  design : Design
deriving DecidableEq

/-- The whole file: nothing follows the file block, and nothing follows the design block in it. -/
def parse (f : Bytes) : Option File :=
  (exact [0x25, 0x76, 0x73, 0x6D, 0x25, 0] f).bind fun b => (text b).bind fun t => (block 2 t.2).bind fun c =>
  if c.2 = [] then
    (text c.1).bind fun t => (snum t.2).bind fun r => (snum r.2).bind fun u => (snum u.2).bind fun l => (snum l.2).bind fun d =>
    (num 4 d.2).bind fun n => (exact [0] n.2).bind fun b => (num 1 b).bind fun k => (exact [12, 0, 1] k.2).bind fun b =>
    (block 3 b).bind fun g => if g.2 = [] then (design g.1).map fun g => ⟨r.1, u.1, l.1, d.1, n.1, k.1, g⟩ else none
  else none

/-! ## Writing and parsing -/

theorem cutAt_append {n : Nat} (a s : Bytes) (h : a.length = n) : cutAt n (a ++ s) = some (a, s) := by
  subst h
  unfold cutAt
  rw [if_pos (by simp), List.take_left, List.drop_left]

theorem exact_append (a s : Bytes) : exact a (a ++ s) = some s := by
  unfold exact
  rw [cutAt_append a s rfl]
  simp

theorem be_8 (v : Int) : be (writeInt8 v) = v % 2 ^ 8 := by
  simp only [be, writeInt8, lo8, List.foldl]
  omega

theorem be_16 (v : Int) : be (writeInt16be v) = v % 2 ^ 16 := by
  simp only [be, writeInt16be, lo8, shr, List.foldl]
  omega

theorem be_24 (v : Int) : be (writeInt24be v) = v % 2 ^ 24 := by
  simp only [be, writeInt24be, lo8, shr, List.foldl]
  omega

theorem be_32 (v : Int) : be (int32 v) = v % 2 ^ 32 := by
  simp only [be, int32, writeInt32be, lo8, shr, List.foldl]
  omega

theorem num_8 (v : Int) (s : Bytes) : num 1 (writeInt8 v ++ s) = some (v % 2 ^ 8, s) := by
  unfold num; rw [cutAt_append (n := 1) (writeInt8 v) s rfl, Option.map_some, be_8]
theorem num_16 (v : Int) (s : Bytes) : num 2 (writeInt16be v ++ s) = some (v % 2 ^ 16, s) := by
  unfold num; rw [cutAt_append (n := 2) (writeInt16be v) s rfl, Option.map_some, be_16]
theorem num_24 (v : Int) (s : Bytes) : num 3 (writeInt24be v ++ s) = some (v % 2 ^ 24, s) := by
  unfold num; rw [cutAt_append (n := 3) (writeInt24be v) s rfl, Option.map_some, be_24]
theorem num_32 (v : Int) (s : Bytes) : num 4 (int32 v ++ s) = some (v % 2 ^ 32, s) := by
  unfold num; rw [cutAt_append (n := 4) (int32 v) s rfl, Option.map_some, be_32]

theorem snum_32 {v : Int} (s : Bytes) (h : -2 ^ 31 ≤ v ∧ v < 2 ^ 31) : snum (int32 v ++ s) = some (v, s) := by
  unfold snum
  rw [num_32, Option.map_some]
  congr 2
  unfold signed
  simp only
  split <;> omega

theorem text_8 {t : Str} (s : Bytes) (h : Plain t) : text (string8 t ++ s) = some (utf8 t, s) := by
  unfold text string8
  rw [List.append_assoc, num_16]
  simp only [Option.bind_some]
  refine cutAt_append _ _ ?_
  rw [utf8_length_ascii t h.1]
  have := h.2
  omega

theorem text_16 {t : Str} (s : Bytes) (h : t.length < 32768) : text (string16 t ++ s) = some (t.flatMap (fun c => [0, (c.toNat : Int)]), s) := by
  unfold text string16
  rw [List.append_assoc, num_16]
  simp only [Option.bind_some]
  refine cutAt_append _ _ ?_
  have : (t.flatMap (fun c => [0, (c.toNat : Int)])).length = t.length * 2 := by
    clear h
    induction t with
    | nil => rfl
    | cons c t ih => rw [List.flatMap_cons, List.length_append, ih]; simp; omega
  rw [this]
  omega

theorem block_patched {k : Int} (body s : Bytes) (h : body.length < 2 ^ 32) : block k (patched [0, k, 0] body ++ s) = some (body, s) := by
  unfold block patched
  rw [List.append_assoc, List.append_assoc, exact_append, Option.bind_some, num_32, Option.bind_some]
  exact cutAt_append _ _ (by simp only; omega)

/-! ## What the file says of a design -/

/-- Where a block starts: the first one at the origin, the others at their first command. -/
def begins (first : Bool) (l : List Stitch) : ℚ × ℚ :=
  match first, l with
  | true, _ => (0, 0)
  | false, [] => (0, 0)
  | false, st :: _ => (st.x, st.y)

/-- What is said of a block with the thread `t` in a design with the centre `c`: its start seen from the centre and its end seen from
its start, cut to whole units and with y upwards; the thread; the bytes of its stitches. -/
def say (first : Bool) (c : ℚ × ℚ) (b : List Stitch × Thread) : Colour where
  start := (pyInt ((begins first b.1).1 - c.1) * 100, pyInt (-((begins first b.1).2 - c.2)) * 100)
  rgb := b.2.color % 2 ^ 24
  catalog := utf8 (catalogText b.2)
  description := utf8 (descriptionText b.2)
  brand := utf8 (brandText b.2)
  shift := (pyInt ((lastPos b.1).1 - (begins first b.1).1) * 100, pyInt (-((lastPos b.1).2 - (begins first b.1).2)) * 100)
  stitches := stitchBytes (begins first b.1).1 (begins first b.1).2 b.1

/-- The blocks one after the other. -/
def sayAll (c : ℚ × ℚ) : Bool → List (List Stitch × Thread) → List Colour
  | _, [] => []
  | first, b :: rest => say first c b :: sayAll c false rest

theorem begins_eq (first : Bool) (l : List Stitch) : firstPos first l = begins first l := by
  unfold firstPos begins
  cases l <;> cases first <;> rfl

theorem hundred {v : Int} (h : -20000000 ≤ v ∧ v ≤ 20000000) : -2 ^ 31 ≤ v * 100 ∧ v * 100 < 2 ^ 31 := by omega

theorem within_neg (a b : ℚ) (ha : |a| ≤ 10000000) (hb : |b| ≤ 10000000) : -20000000 ≤ pyInt (-(a - b)) ∧ pyInt (-(a - b)) ≤ 20000000 := by
  have := pyInt_within a b ha hb
  rw [pyInt_neg]
  omega

theorem colour_say {first : Bool} {c : ℚ × ℚ} {b : List Stitch × Thread} (ht : PlainThread b.2) (hc : Within c) (hp : Within (begins first b.1))
    (he : Within (lastPos b.1)) (hlen : (stitchBytes (begins first b.1).1 (begins first b.1).2 b.1).length + 3 < 2 ^ 32) :
    colour (int32 (pyInt ((firstPos first b.1).1 - c.1) * 100) ++ int32 (pyInt (-((firstPos first b.1).2 - c.2)) * 100) ++ threadBytes b.2 ++
     int32 (pyInt ((endPos b.1).1 - (firstPos first b.1).1) * 100) ++ int32 (pyInt (-((endPos b.1).2 - (firstPos first b.1).2)) * 100) ++
     stitchesBlock b.1 (firstPos first b.1) ++ writeInt8 0) = some (say first c b) := by
  rw [begins_eq]
  unfold colour endPos
  have e : ∀ r : Bytes, threadBytes b.2 ++ r = [1, 0] ++ (writeInt24be b.2.color ++ ([0, 0, 0, 5, 40] ++ (string8 (catalogText b.2) ++
      (string8 (descriptionText b.2) ++ (string8 (brandText b.2) ++ r))))) := fun r => by
    unfold threadBytes catalogText descriptionText brandText
    simp only [List.append_assoc]
  simp only [List.append_assoc]
  rw [snum_32 _ (hundred (pyInt_within _ _ hp.1 hc.1)), Option.bind_some, snum_32 _ (hundred (within_neg _ _ hp.2 hc.2)), Option.bind_some, e,
    exact_append, Option.bind_some, num_24, Option.bind_some, exact_append, Option.bind_some, text_8 _ ht.1, Option.bind_some, text_8 _ ht.2.1,
    Option.bind_some, text_8 _ ht.2.2, Option.bind_some, snum_32 _ (hundred (pyInt_within _ _ he.1 hp.1)), Option.bind_some,
    snum_32 _ (hundred (within_neg _ _ he.2 hp.2)), Option.bind_some]
  unfold stitchesBlock
  rw [block_patched _ _ (by rw [List.length_append, List.length_cons, List.length_cons, List.length_cons, List.length_nil]; omega), Option.bind_some,
    exact_append, Option.bind_some]
  exact (if_pos rfl).trans rfl

theorem colours_say {c : ℚ × ℚ} (hc : Within c) : ∀ (bs : List (List Stitch × Thread)) (first : Bool),
    (∀ b ∈ bs, PlainThread b.2 ∧ ∀ st ∈ b.1, Within (st.x, st.y)) → (colorBlocks c.1 c.2 first bs).length < 2 ^ 32 →
    colours bs.length (colorBlocks c.1 c.2 first bs) = some (sayAll c first bs) := by
  intro bs
  induction bs with
  | nil => intro first _ _; rfl
  | cons b rest ih =>
    intro first hb hlen
    rw [colorBlocks, List.length_append] at hlen
    rw [colorBlocks, List.length_cons, colours, sayAll]
    have hz : Within (0, 0) := by unfold Within; norm_num
    have hp : Within (begins first b.1) := by
      have := (hb b (by simp)).2
      unfold begins
      split
      · exact hz
      · exact hz
      · rename_i st l heq
        exact this st (by rw [heq]; simp)
    have he : Within (lastPos b.1) := by
      unfold lastPos
      split
      · exact hz
      · rename_i a ha
        exact (hb b (by simp)).2 a (List.mem_of_getLast? ha)
    unfold colorBlock at hlen ⊢
    simp only at hlen ⊢
    have hin : ∀ tag body : Bytes, (patched tag body).length = tag.length + 4 + body.length := fun tag body => by
      unfold patched int32 writeInt32be
      simp only [List.length_append, List.length_cons, List.length_nil]
    rw [hin] at hlen
    rw [block_patched _ _ (by omega), Option.bind_some]
    simp only
    rw [colour_say (hb b (by simp)).1 hc hp he ?_, Option.bind_some, ih false (fun d hd => hb d (by simp [hd])) (by omega), Option.map_some]
    have h2 : (stitchesBlock b.1 (firstPos first b.1)).length = 3 + 4 + (3 + (stitchBytes (firstPos first b.1).1 (firstPos first b.1).2 b.1).length) := by
      unfold stitchesBlock
      rw [hin, List.length_append]
      rfl
    simp only [List.length_append, h2] at hlen
    rw [begins_eq] at hlen
    omega

/-- The box lies within. -/
theorem box_within (l : List Stitch) (x : Box) (hx : bounds l = some x) (h : ∀ st ∈ l, Within (st.x, st.y)) :
    Within (x.minX, x.minY) ∧ Within (x.maxX, x.maxY) := by
  have hl : l ≠ [] := by intro c; subst c; cases hx
  obtain ⟨x', hx', ht⟩ := C43_tight l hl
  rw [hx'] at hx; injection hx with hx; subst hx
  obtain ⟨hin, ⟨a1, m1, e1⟩, ⟨a2, m2, e2⟩, ⟨a3, m3, e3⟩, ⟨a4, m4, e4⟩⟩ := ht
  have h1 := (h a1 m1).1
  have h2 := (h a2 m2).1
  have h3 := (h a3 m3).2
  have h4 := (h a4 m4).2
  simp only [e1, e2, e3, e4] at h1 h2 h3 h4
  exact ⟨⟨h1, h3⟩, h2, h4⟩

/-- What is said of a design with the bounds `x`, in hundredths. -/
def sayDesign (x : Box) (bs : List (List Stitch × Thread)) : Design where
  centre := (pyInt (centre x).1 * 100, -(pyInt (centre x).2 * 100))
  halves := (-(pyInt ((x.maxX - x.minX) / 2) * 100), pyInt ((x.maxX - x.minX) / 2) * 100, -(pyInt ((x.maxY - x.minY) / 2) * 100),
    pyInt ((x.maxY - x.minY) / 2) * 100)
  size := (pyInt (x.maxX - x.minX) * 100, pyInt (x.maxY - x.minY) * 100)
  colours := sayAll (centre x) true bs

theorem design_say {x : Box} {bs : List (List Stitch × Thread)} (hmin : Within (x.minX, x.minY)) (hmax : Within (x.maxX, x.maxY))
    (hbs : ∀ b ∈ bs, PlainThread b.2 ∧ ∀ st ∈ b.1, Within (st.x, st.y)) (hn : bs.length < 65536)
    (hlen : (colorBlocks (centre x).1 (centre x).2 true bs).length < 2 ^ 32) {body : Bytes}
    (hbody : designBlock x bs = patched [0, 3, 0] body) : design body = some (sayDesign x bs) := by
  have hc : Within (centre x) := by
    obtain ⟨h1, h2⟩ := hmin
    obtain ⟨h3, h4⟩ := hmax
    simp only [abs_le] at h1 h2 h3 h4
    unfold Within centre
    simp only [abs_le]
    refine ⟨⟨?_, ?_⟩, ?_, ?_⟩ <;> linarith
  have ecx : x.maxX - (x.maxX - x.minX) / 2 = (centre x).1 := by unfold centre; ring
  have ecy : x.maxY - (x.maxY - x.minY) / 2 = (centre x).2 := by unfold centre; ring
  unfold designBlock at hbody
  simp only [ecx, ecy] at hbody
  have hb2 := List.append_cancel_left (as := [(0 : Int), 3, 0]) (by unfold patched at hbody; simpa only [List.append_assoc] using hbody)
  have hb3 := (List.append_inj hb2 rfl).2
  rw [← hb3]
  have hz : ∀ q : ℚ, |q| ≤ 10000000 → -20000000 ≤ pyInt q ∧ pyInt q ≤ 20000000 := fun q hq => by
    have := pyInt_bound q 10000000 (by exact_mod_cast hq)
    push_cast at this
    omega
  have neg100 : ∀ v : Int, v * -100 = -(v * 100) := fun v => by ring
  have hneg : ∀ {v : Int}, -20000000 ≤ v ∧ v ≤ 20000000 → -2 ^ 31 ≤ -(v * 100) ∧ -(v * 100) < 2 ^ 31 := fun h => by omega
  have hhalf : ∀ {a b : ℚ}, |a| ≤ 10000000 → |b| ≤ 10000000 → |(a - b) / 2| ≤ 10000000 := fun h1 h2 => by
    rw [abs_le] at *
    constructor <;> linarith
  unfold design
  simp only [neg100, List.append_assoc]
  rw [snum_32 _ (hundred (hz _ hc.1)), Option.bind_some, snum_32 _ (hneg (hz _ hc.2)), Option.bind_some, exact_append, Option.bind_some,
    snum_32 _ (hneg (hz _ (hhalf hmax.1 hmin.1))), Option.bind_some, snum_32 _ (hundred (hz _ (hhalf hmax.1 hmin.1))), Option.bind_some,
    snum_32 _ (hneg (hz _ (hhalf hmax.2 hmin.2))), Option.bind_some, snum_32 _ (hundred (hz _ (hhalf hmax.2 hmin.2))), Option.bind_some,
    snum_32 _ (hundred (pyInt_within _ _ hmax.1 hmin.1)), Option.bind_some, snum_32 _ (hundred (pyInt_within _ _ hmax.2 hmin.2)), Option.bind_some,
    text_16 _ (by simp), Option.bind_some]
  have e : ∀ r : Bytes, [0x64, 0x64] ++ (int32 4096 ++ (int32 0 ++ (int32 0 ++ (int32 4096 ++
      (("xxPP".toList.map (fun c => (c.toNat : Int))) ++ ([0x01, 0x00] ++ r)))))) =
      [0x64, 0x64, 0, 0, 0x10, 0, 0, 0, 0, 0, 0, 0, 0, 0, 0, 0, 0x10, 0, 0x78, 0x78, 0x50, 0x50, 1, 0] ++ r := fun r => by rfl
  rw [e, exact_append, Option.bind_some, text_16 _ (by decide), Option.bind_some, num_16, Option.bind_some]
  have e2 : ((bs.length : Int) % 2 ^ 16).toNat = bs.length := by omega
  simp only [e2]
  rw [colours_say hc bs true hbs hlen, Option.map_some]
  rfl

/-- The blocks cut the design: each but the first begins with a COLOR_CHANGE, and there are no others. -/
structure Cut (l : List Stitch) (bs : List (List Stitch)) : Prop where
  whole : bs.flatten = l
  first : ∀ b ∈ bs.head?, ∀ st ∈ b, st.low ≠ 5
  later : ∀ b ∈ bs.tail, ∃ st rest, b = st :: rest ∧ st.low = 5 ∧ ∀ r ∈ rest, r.low ≠ 5

theorem blockLoop_cut {τ : Type} (threads : List τ) (filler : Nat → τ) : ∀ (n : Nat) (l cur : List Stitch) (k : Nat), l.length ≤ n →
    ((blockLoop threads filler cur k l).map Prod.fst).flatten = cur ++ l ∧
    (((blockLoop threads filler cur k l).map Prod.fst).head? = some (cur ++ l.takeWhile stays)) ∧
    ∀ b ∈ ((blockLoop threads filler cur k l).map Prod.fst).tail, ∃ st rest, b = st :: rest ∧ st.low = 5 ∧ ∀ r ∈ rest, r.low ≠ 5 := by
  intro n
  induction n with
  | zero =>
    intro l cur k hl
    have : l = [] := List.length_eq_zero_iff.1 (by omega)
    subst this
    simp [blockLoop]
  | succ n ih =>
    intro l cur k hl
    rw [blockLoop_eq]
    cases hd : l.dropWhile stays with
    | nil =>
      have : l.takeWhile stays = l := by
        have := List.takeWhile_append_dropWhile (p := stays) (l := l)
        rw [hd, List.append_nil] at this
        exact this
      simp [this]
    | cons st rest =>
      have hlen : rest.length ≤ n := by
        have h1 := congrArg List.length (List.takeWhile_append_dropWhile (p := stays) (l := l))
        rw [hd] at h1
        simp only [List.length_append, List.length_cons] at h1
        omega
      obtain ⟨h1, h2, h3⟩ := ih rest [st] (k + 1) hlen
      have h5 := dropWhile_head l st rest hd
      refine ⟨?_, rfl, ?_⟩
      · simp only [List.map_cons, List.flatten_cons, h1]
        rw [List.append_assoc]
        congr 1
        have := List.takeWhile_append_dropWhile (p := stays) (l := l)
        rw [hd] at this
        exact this
      · simp only [List.map_cons, List.tail_cons]
        intro b hb
        cases hm : (blockLoop threads filler [st] (k + 1) rest).map Prod.fst with
        | nil => rw [hm] at hb; cases hb
        | cons c cs =>
          rw [hm] at hb h2 h3
          rcases List.mem_cons.1 hb with rfl | hb
          · simp only [List.head?_cons, Option.some.injEq] at h2
            exact ⟨st, rest.takeWhile stays, h2, h5, takeWhile_stays rest⟩
          · exact h3 b hb

theorem blocks_cut {τ : Type} (threads : List τ) (filler : Nat → τ) (l : List Stitch) : Cut l ((blocks threads filler l).map Prod.fst) := by
  obtain ⟨h1, h2, h3⟩ := blockLoop_cut threads filler l.length l [] 0 le_rfl
  refine ⟨h1, fun b hb => ?_, h3⟩
  change ((blockLoop threads filler [] 0 l).map Prod.fst).head? = some b at hb
  rw [h2] at hb
  injection hb with hb
  rw [← hb]
  exact takeWhile_stays l

/-- C117: following the distances in a VP3 file one finds the file block, which ends with the file, in it the design block, which ends with it, in
it as many colour blocks as the file says, and in each the stitches block, one byte before its end. The extents are those of the design in
hundredths, cut towards zero; the stitch count counts all commands but END; the count of colours is the number of blocks, as far as it fits in a
byte; the colour blocks are the parts of the design between the colour changes, each with its thread. -/
theorem C117_tree (f : Bytes) (threads : List Thread) (filler : Nat → Thread) (l : List Stitch) (x : Box)
    (hf : f.length < 2 ^ 32) (hl : l.length < 2 ^ 32) (ht : ∀ k, PlainThread (threadAt threads filler k)) (hn : changes l < 65535)
    (hx : bounds l = some x) (hin : ∀ st ∈ l, Within (st.x, st.y)) (hw : write threads filler l = .ok f) :
    ∃ bs : List (List Stitch × Thread), Cut l (bs.map Prod.fst) ∧ bs.map Prod.snd = (List.range (changes l + 1)).map (threadAt threads filler) ∧
      parse f = some
        { right := pyInt (x.maxX * 100)
          top := pyInt (-(x.minY * 100))
          left := pyInt (x.minX * 100)
          bottom := pyInt (-(x.maxY * 100))
          stitches := (l.countP (fun st => st.low ≠ 4) : Nat)
          colourCount := ((changes l + 1 : Nat) : Int) % 256
          design := sayDesign x bs } := by
  have hthreads : (blocks (fixColorCount threads filler l) filler l).map Prod.snd = (List.range (changes l + 1)).map (threadAt threads filler) := by
    have := blockLoop_threads (fixColorCount threads filler l) filler l [] 0
    rw [List.range_eq_range']
    refine this.trans (List.map_congr_left fun k _ => threadAt_fixed threads filler l k)
  have hlen : (blocks (fixColorCount threads filler l) filler l).length = changes l + 1 := by
    have := congrArg List.length hthreads
    simpa using this
  have hcut := blocks_cut (fixColorCount threads filler l) filler l
  refine ⟨_, hcut, hthreads, ?_⟩
  have hbs : ∀ b ∈ blocks (fixColorCount threads filler l) filler l, PlainThread b.2 ∧ ∀ st ∈ b.1, Within (st.x, st.y) := fun b hb => by
    refine ⟨?_, fun st hst => hin st ?_⟩
    · have : b.2 ∈ (blocks (fixColorCount threads filler l) filler l).map Prod.snd := List.mem_map.2 ⟨b, hb, rfl⟩
      rw [hthreads] at this
      obtain ⟨k, _, hk⟩ := List.mem_map.1 this
      rw [← hk]
      exact ht k
    · rw [← hcut.whole]
      exact List.mem_flatten.2 ⟨b.1, List.mem_map.2 ⟨b, hb, rfl⟩, hst⟩
  unfold write at hw
  rw [hx] at hw
  simp only [Except.ok.injEq] at hw
  clear hcut hthreads
  generalize blocks (fixColorCount threads filler l) filler l = bs at hw hbs hlen ⊢
  obtain ⟨hmin, hmax⟩ := box_within l x hx hin
  have hpl : ∀ tag body : Bytes, (patched tag body).length = tag.length + 4 + body.length := fun tag body => by
    unfold patched int32 writeInt32be
    simp only [List.length_append, List.length_cons, List.length_nil]
  have hmore : ∀ q : ℚ, |q| ≤ 10000000 → -2 ^ 31 ≤ pyInt (q * 100) ∧ pyInt (q * 100) < 2 ^ 31 ∧ -2 ^ 31 ≤ pyInt (-(q * 100)) ∧ pyInt (-(q * 100)) < 2 ^ 31 :=
    fun q hq => by
    rw [pyInt_neg]
    have : |q * 100| ≤ (1000000000 : Nat) := by
      rw [abs_mul]; push_cast
      have : |(100 : ℚ)| = 100 := by norm_num
      rw [this]; linarith
    have := pyInt_bound _ _ this
    push_cast at this
    omega
  obtain ⟨body, hbody⟩ : ∃ body, designBlock x bs = patched [0, 3, 0] body := ⟨_, rfl⟩
  have hin1 : (colorBlocks (centre x).1 (centre x).2 true bs).length ≤ (designBlock x bs).length := by
    have ecx : x.maxX - (x.maxX - x.minX) / 2 = (centre x).1 := by unfold centre; ring
    have ecy : x.maxY - (x.maxY - x.minY) / 2 = (centre x).2 := by unfold centre; ring
    unfold designBlock
    simp only [ecx, ecy, hpl, List.length_append]
    omega
  have hin2 : (designBlock x bs).length ≤ (fileBlock l x bs).length := by
    unfold fileBlock
    simp only [hpl, List.length_append]
    omega
  have hin3 : (fileBlock l x bs).length ≤ f.length := by
    rw [← hw]
    simp only [List.length_append]
    omega
  have hdesign := design_say hmin hmax hbs (by omega) (by omega) hbody
  rw [hbody, hpl] at hin2
  have hcount : ((l.length : Int) - countCommands l END) = (l.countP (fun st => st.low ≠ 4) : Nat) := by
    have := List.length_eq_countP_add_countP (fun st : Stitch => cmdOf st.cmd == END) (l := l)
    unfold countCommands
    have e : l.countP (fun st => decide (st.low ≠ 4)) = l.countP (fun st => decide ¬ (cmdOf st.cmd == END) = true) := by
      refine List.countP_congr fun st _ => ?_
      simp only [Stitch.low, cmdOf, END, beq_iff_eq, ne_eq, decide_eq_true_eq]
      exact decide_eq_true_iff
    rw [e]
    omega
  have hcl : l.countP (fun st => decide (st.low ≠ 4)) < 2 ^ 32 := lt_of_le_of_lt List.countP_le_length hl
  have e1 : ∀ r : Bytes, utf8 "%vsm%".toList ++ (writeInt8 0 ++ r) = [0x25, 0x76, 0x73, 0x6D, 0x25, 0] ++ r := fun r => by
    have : utf8 "%vsm%".toList = [0x25, 0x76, 0x73, 0x6D, 0x25] := by decide +kernel
    rw [this]; rfl
  have e2 : ∀ r : Bytes, writeInt8 12 ++ (writeInt8 0 ++ (writeInt8 1 ++ r)) = [12, 0, 1] ++ r := fun r => rfl
  have e3 : ∀ q : ℚ, q * -100 = -(q * 100) := fun q => by ring
  have hfb := hin3
  unfold fileBlock at hfb
  rw [hpl] at hfb
  rw [← hw]
  unfold parse
  simp only [List.append_assoc]
  rw [e1, exact_append, Option.bind_some, text_16 _ (by decide), Option.bind_some]
  unfold fileBlock
  have hnil : ∀ b : Bytes, b = b ++ [] := fun b => (List.append_nil b).symm
  simp only
  rw [hnil (patched _ _), block_patched _ _ (by omega), Option.bind_some, if_pos rfl]
  simp only [List.append_assoc, e3]
  rw [text_16 _ (by simp), Option.bind_some, snum_32 _ ⟨(hmore _ hmax.1).1, (hmore _ hmax.1).2.1⟩, Option.bind_some,
    snum_32 _ ⟨(hmore _ hmin.2).2.2.1, (hmore _ hmin.2).2.2.2⟩, Option.bind_some, snum_32 _ ⟨(hmore _ hmin.1).1, (hmore _ hmin.1).2.1⟩, Option.bind_some,
    snum_32 _ ⟨(hmore _ hmax.2).2.2.1, (hmore _ hmax.2).2.2.2⟩, Option.bind_some, num_32, Option.bind_some]
  change (exact [0] ([0] ++ _)).bind _ = _
  rw [exact_append, Option.bind_some, num_8, Option.bind_some, e2, exact_append, Option.bind_some, hbody]
  simp only
  rw [hnil (patched _ _), block_patched _ _ (by omega), Option.bind_some, if_pos rfl, hdesign, Option.map_some, hcount, hlen]
  congr 2
  omega

/-- C117 fails for texts that are not ASCII, whose length counts characters: the blocks do not fit. -/
theorem C117_text_fails : ∃ f, write [{ color := 1, description := some "é" }] demoFiller [⟨0, 0, STITCH⟩, ⟨10, 10, STITCH⟩] = .ok f ∧ parse f = none := by
  have h : (write [{ color := 1, description := some "é" }] demoFiller [⟨0, 0, STITCH⟩, ⟨10, 10, STITCH⟩]).toOption.map
      (fun f => (parse f).isNone) = some true := by decide +kernel
  obtain ⟨f, h1, h2⟩ := Option.map_eq_some_iff.1 h
  refine ⟨f, ?_, Option.isNone_iff_eq_none.1 h2⟩
  revert h1
  cases write [{ color := 1, description := some "é" }] demoFiller [⟨0, 0, STITCH⟩, ⟨10, 10, STITCH⟩] with
  | error e => intro h1; cases h1
  | ok g => intro h1; cases h1; rfl

/-! ## Cases -/

/-- The file of the two blocks of `demo`: parsed it shows both, with their stitches. -/
example : ((write [{ color := 0xFF0000, description := some "Red" }] demoFiller demo).toOption.bind parse).map
    (fun p => (p.right, p.top, p.left, p.bottom, p.stitches, p.colourCount)) = some (26500, 25000, -16500, -55000, 10, 2) := by decide +kernel
example : ((write [{ color := 0xFF0000, description := some "Red" }] demoFiller demo).toOption.bind parse).map
    (fun p => p.design.colours.map (fun c => [c.start.1, c.start.2, c.rgb, c.shift.1, c.shift.2, c.stitches.length])) =
    some [[-5000, 15000, 0xFF0000, 10000, -30000, 14], [5000, -15000, 1, -26500, -25000, 12]] := by decide +kernel
example : (∀ st ∈ demo, Within (st.x, st.y)) ∧ ∀ k < 2, PlainThread (threadAt [{ color := 0xFF0000, description := some "Red" }] demoFiller k) := by
  unfold Within PlainThread Plain
  decide +kernel

end Tree
end Vp3
end Emb
