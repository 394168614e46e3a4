import Verif.Props.CompressProps
import Mathlib.Data.List.Induction

/-!
# C76: expanding data written by another program

The compression of HUS and VIP files, described from the writer's side and independently of the decoder: bits, canonical prefix
codes, the three tables of a block, and what the tokens mean. `expand` gives back what such a writer wrote.
-/

namespace Emb
namespace Compress

/-! ## The format -/

/-- `v` with `n` bits, highest first. -/
def natBits : Nat → Nat → List Bool
  | 0, _ => []
  | n + 1, v => natBits n (v / 2) ++ [decide (v % 2 = 1)]

/-- The bits of a file, each byte highest bit first. -/
def bitsOf (data : Bytes) : List Bool := data.flatMap (fun b => natBits 8 (b % 256).toNat)

/-- The canonical code word of a symbol as a number: shorter words come first, and words of the same length in the order of
the symbols. `ls` are the lengths of all words; length 0 means that the symbol has none. -/
def codeValue (ls : List Nat) (s : Nat) : Nat :=
  ((List.range (ls.getD s 0)).map (fun b => if b = 0 then 0 else ls.count b * 2 ^ (ls.getD s 0 - b))).sum +
    (ls.take s).count (ls.getD s 0)

/-- A code: one symbol without any bits, or a canonical code. -/
inductive Code where
  | one (v : Nat)
  | canon (ls : List Nat)

/-- The code word of a symbol. -/
def Code.word : Code → Nat → List Bool
  | .one _, _ => []
  | .canon ls, s => natBits (ls.getD s 0) (codeValue ls s)

/-- The symbol has a code word, which has room for its number. -/
def Code.Has : Code → Nat → Prop
  | .one v, s => s = v
  | .canon ls, s => 0 < ls.getD s 0 ∧ codeValue ls s < 2 ^ ls.getD s 0

/-- No code word has more than 16 bits. -/
def Code.Short : Code → Prop
  | .one _ => True
  | .canon ls => ∀ l ∈ ls, l ≤ 16

/-- A length: three bits, or seven followed by ones. -/
def lengthBits (l : Nat) : List Bool := if l < 7 then natBits 3 l else [true, true, true] ++ List.replicate (l - 7) true ++ [false]

/-- A table of lengths of at most 31 symbols, or one symbol. -/
inductive Table where
  | one (v : Nat)
  | lengths (ls : List Nat)

def Table.code : Table → Code
  | .one v => .one v
  | .lengths ls => .canon ls

def Table.Ok : Table → Prop
  | .one v => v < 32
  | .lengths ls => 1 ≤ ls.length ∧ ls.length ≤ 31 ∧ ∀ l ∈ ls, l ≤ 16

/-- The table of the distances. -/
def Table.bits : Table → List Bool
  | .one v => natBits 5 0 ++ natBits 5 v
  | .lengths ls => natBits 5 ls.length ++ ls.flatMap lengthBits

/-- The table of the code for lengths: after three lengths, two bits tell how many of the next three lengths are left out as 0. -/
def Table.bitsSkip (skip : Nat) : Table → List Bool
  | .one v => natBits 5 0 ++ natBits 5 v
  | .lengths ls =>
    natBits 5 ls.length ++ (ls.take 3).flatMap lengthBits ++
      (if 3 < ls.length then natBits 2 skip ++ (ls.drop (3 + skip)).flatMap lengthBits else [])

def Table.SkipOk (skip : Nat) : Table → Prop
  | .one _ => True
  | .lengths ls => 3 < ls.length → skip ≤ 3 ∧ 3 + skip < ls.length ∧ (ls.drop 3).take skip = List.replicate skip 0

/-- An entry of the table of the characters: one length, or a run of zeros. -/
inductive Item where
  | zero
  | run (n : Nat)
  | longRun (n : Nat)
  | length (l : Nat)

def Item.symbol : Item → Nat
  | .zero => 0
  | .run _ => 1
  | .longRun _ => 2
  | .length l => l + 2

def Item.extra : Item → List Bool
  | .zero => []
  | .run n => natBits 4 (n - 3)
  | .longRun n => natBits 9 (n - 20)
  | .length _ => []

def Item.lens : Item → List Nat
  | .zero => [0]
  | .run n => List.replicate n 0
  | .longRun n => List.replicate n 0
  | .length l => [l]

def Item.Ok : Item → Prop
  | .zero => True
  | .run n => 3 ≤ n ∧ n ≤ 18
  | .longRun n => 20 ≤ n ∧ n ≤ 531
  | .length l => 1 ≤ l ∧ l ≤ 16

/-- The table of the characters. -/
inductive CharTable where
  | one (v : Nat)
  | items (is : List Item)

def CharTable.code : CharTable → Code
  | .one v => .one v
  | .items is => .canon (is.flatMap Item.lens)

def CharTable.bits (c : Code) : CharTable → List Bool
  | .one v => natBits 9 0 ++ natBits 9 v
  | .items is => natBits 9 (is.flatMap Item.lens).length ++ is.flatMap (fun i => c.word i.symbol ++ i.extra)

def CharTable.Ok (c : Code) : CharTable → Prop
  | .one v => v < 512
  | .items is => 1 ≤ (is.flatMap Item.lens).length ∧ (is.flatMap Item.lens).length < 512 ∧ ∀ i ∈ is, i.Ok ∧ c.Has i.symbol

/-- What the data consists of: a byte, a copy of `n` earlier bytes starting `d` bytes back, or the end mark. -/
inductive Token where
  | byte (b : Nat)
  | copy (n d : Nat)
  | stop
deriving DecidableEq

def Token.Ok : Token → Prop
  | .byte b => b ≤ 255
  | .copy n d => 3 ≤ n ∧ n ≤ 258 ∧ n ≠ 257 ∧ 1 ≤ d
  | .stop => True

/-- The character of a token. -/
def Token.char : Token → Nat
  | .byte b => b
  | .copy n _ => n + 253
  | .stop => 510

/-- The symbol of a distance: the number of binary digits of `d - 1`. -/
def distSymbol (d : Nat) : Nat := if d = 1 then 0 else Nat.log2 (d - 1) + 1

/-- The digits after the first. -/
def distExtra (d : Nat) : List Bool := if d = 1 then [] else natBits (Nat.log2 (d - 1)) (d - 1 - 2 ^ Nat.log2 (d - 1))

def Token.bits (cc dc : Code) : Token → List Bool
  | .copy n d => cc.word (Token.copy n d).char ++ dc.word (distSymbol d) ++ distExtra d
  | t => cc.word t.char

def Token.Coded (cc dc : Code) : Token → Prop
  | .copy n d => cc.Has (Token.copy n d).char ∧ dc.Has (distSymbol d)
  | t => cc.Has t.char

/-- A block: its tables and up to 65535 tokens. -/
structure Block where
  lens : Table
  skip : Nat
  chars : CharTable
  dists : Table
  tokens : List Token

def Block.head (b : Block) : List Bool :=
  natBits 16 b.tokens.length ++ b.lens.bitsSkip b.skip ++ b.chars.bits b.lens.code ++ b.dists.bits

def Block.bits (b : Block) : List Bool := b.head ++ b.tokens.flatMap (Token.bits b.chars.code b.dists.code)

structure Block.Ok (b : Block) : Prop where
  some : 1 ≤ b.tokens.length
  few : b.tokens.length < 65536
  lens : b.lens.Ok
  skip : b.lens.SkipOk b.skip
  chars : b.chars.Ok b.lens.code
  dists : b.dists.Ok
  tokens : ∀ t ∈ b.tokens, t.Ok ∧ t.Coded b.chars.code b.dists.code

/-- Copies `n` values, each from `d` places before the end of what there is by then. -/
def copied (d : Nat) : Nat → List Nat → List Nat
  | 0, out => out
  | n + 1, out => copied d n (out ++ [out.getD (out.length - d) 0])

/-- What tokens stand for. -/
def play : List Nat → List Token → List Nat
  | out, [] => out
  | out, .byte b :: ts => play (out ++ [b]) ts
  | out, .copy n d :: ts => play (copied d n out) ts
  | out, .stop :: _ => out

/-- No copy reaches back before the beginning. -/
def Within : List Nat → List Token → Prop
  | _, [] => True
  | out, .byte b :: ts => Within (out ++ [b]) ts
  | out, .copy n d :: ts => d ≤ out.length ∧ Within (copied d n out) ts
  | _, .stop :: _ => True

/-! ## Bits -/

/-- The number written with some bits. -/
def valOf : List Bool → Nat
  | [] => 0
  | b :: bs => b.toNat * 2 ^ bs.length + valOf bs

theorem valOf_append (a b : List Bool) : valOf (a ++ b) = valOf a * 2 ^ b.length + valOf b := by
  induction a with
  | nil => simp [valOf]
  | cons x a ih => simp only [List.cons_append, valOf, ih, List.length_append, pow_add]; ring

theorem valOf_lt (a : List Bool) : valOf a < 2 ^ a.length := by
  induction a with
  | nil => simp [valOf]
  | cons x a ih =>
    simp only [valOf, List.length_cons, pow_succ]
    cases x <;> simp <;> omega

theorem natBits_length (n v : Nat) : (natBits n v).length = n := by
  induction n generalizing v with
  | zero => rfl
  | succ n ih => simp [natBits, ih]

theorem valOf_natBits (n v : Nat) (h : v < 2 ^ n) : valOf (natBits n v) = v := by
  induction n generalizing v with
  | zero => simp at h; subst h; rfl
  | succ n ih =>
    rw [pow_succ] at h
    simp only [natBits, valOf_append, ih (v / 2) (by omega), valOf, List.length_singleton, List.length_nil]
    by_cases c : v % 2 = 1
    · simp [c]; omega
    · simp [c]; omega

theorem bitsOf_length (data : Bytes) : (bitsOf data).length = 8 * data.length := by
  induction data with
  | nil => rfl
  | cons b data ih => simp only [bitsOf, List.flatMap_cons, List.length_append, natBits_length, List.length_cons] at ih ⊢; omega

theorem window_split (data : Bytes) (s m : Nat) : window data 0 (s + m) = window data 0 s * 256 ^ m + window data s m := by
  induction m with
  | zero => simp [window]
  | succ m ih =>
    rw [← Nat.add_assoc]
    simp only [window, ih, Nat.zero_add, pow_succ]
    ring

theorem window_lt (data : Bytes) (s m : Nat) : window data s m < 256 ^ m := by
  induction m with
  | zero => simp [window]
  | succ m ih =>
    simp only [window, pow_succ]
    have : ((data[s + m]?).getD 0 % 256).toNat < 256 := by omega
    omega

theorem window_bits (data rest : Bytes) : window (data ++ rest) 0 data.length = valOf (bitsOf data) := by
  induction data using List.reverseRecOn generalizing rest with
  | nil => rfl
  | append_singleton data b ih =>
    rw [List.length_append, List.length_singleton]
    simp only [window, Nat.zero_add]
    have e := ih ([b] ++ rest)
    rw [← List.append_assoc] at e
    rw [e]
    have e2 : (data ++ [b] ++ rest)[data.length]? = some b := by simp
    rw [e2]
    simp only [bitsOf, List.flatMap_append, List.flatMap_cons, List.flatMap_nil, List.append_nil, Option.getD_some]
    rw [valOf_append, natBits_length, valOf_natBits _ _ (by omega)]
    norm_num

theorem getBits_eq (data : Bytes) (pos n K : Nat) (hK : pos + n ≤ 8 * K) :
    getBits data pos n = window data 0 K / 2 ^ (8 * K - pos - n) % 2 ^ n := by
  unfold getBits
  by_cases h0 : n = 0
  · rw [if_pos h0, h0]; simp [Nat.mod_one]
  rw [if_neg h0]
  simp only
  -- the bytes used
  obtain ⟨s, hs⟩ : ∃ s, s = pos / 8 := ⟨_, rfl⟩
  obtain ⟨k, hk⟩ : ∃ k, k = (pos + n - 1) / 8 + 1 := ⟨_, rfl⟩
  have hsk : s ≤ k := by omega
  have hkK : k ≤ K := by omega
  have hu : (8 - (pos + n - 1 + 1) % 8) % 8 = 8 * k - pos - n := by omega
  rw [← hs, ← hk, hu]
  obtain ⟨m, rfl⟩ := Nat.exists_eq_add_of_le hsk
  obtain ⟨j, rfl⟩ := Nat.exists_eq_add_of_le hkK
  rw [Nat.add_sub_cancel_left]
  have e1 := window_split data s m
  have e2 := window_split data (s + m) j
  have l2 := window_lt data (s + m) j
  -- dropping the bytes after
  have e3 : window data 0 (s + m + j) / 2 ^ (8 * (s + m + j) - pos - n) =
      window data 0 (s + m) / 2 ^ (8 * (s + m) - pos - n) := by
    have : 8 * (s + m + j) - pos - n = 8 * j + (8 * (s + m) - pos - n) := by omega
    rw [this, pow_add, ← Nat.div_div_eq_div_mul, e2, pow_mul]
    congr 1
    have : (2 ^ 8 : Nat) = 256 := by norm_num
    rw [this, Nat.mul_comm, Nat.mul_add_div (by positivity), Nat.div_eq_of_lt l2, Nat.add_zero]
  rw [e3, e1]
  -- dropping the bytes before
  obtain ⟨u, hu⟩ : ∃ u, u = 8 * (s + m) - pos - n := ⟨_, rfl⟩
  rw [← hu]
  have : (256 : Nat) ^ m = 2 ^ u * (2 ^ n * 2 ^ (8 * m - u - n)) := by
    rw [← pow_add, ← pow_add]
    have : (256 : Nat) = 2 ^ 8 := by norm_num
    rw [this, ← pow_mul]
    congr 1
    omega
  rw [this]
  have : window data 0 s * (2 ^ u * (2 ^ n * 2 ^ (8 * m - u - n))) + window data s m =
      2 ^ u * (2 ^ n * (window data 0 s * 2 ^ (8 * m - u - n))) + window data s m := by ring
  rw [this, Nat.mul_add_div (by positivity), Nat.mul_add_mod]

/-- `bits` are the bits at a position. -/
def At (data : Bytes) (pos : Nat) (bits : List Bool) : Prop := ∃ pre post, bitsOf data = pre ++ bits ++ post ∧ pre.length = pos

theorem At.left {data : Bytes} {pos : Nat} {a b : List Bool} (h : At data pos (a ++ b)) : At data pos a := by
  obtain ⟨pre, post, e, l⟩ := h
  exact ⟨pre, b ++ post, by rw [e]; simp, l⟩

theorem At.right {data : Bytes} {pos : Nat} {a b : List Bool} (h : At data pos (a ++ b)) : At data (pos + a.length) b := by
  obtain ⟨pre, post, e, l⟩ := h
  exact ⟨pre ++ a, post, by rw [e]; simp, by simp [l]⟩

theorem At.bound {data : Bytes} {pos : Nat} {a : List Bool} (h : At data pos a) : pos + a.length ≤ data.length * 8 := by
  obtain ⟨pre, post, e, l⟩ := h
  have := congrArg List.length e
  rw [bitsOf_length] at this
  simp at this
  omega

/-- Zeros follow the data. -/
theorem getBits_zeros (data : Bytes) (k pos n : Nat) : getBits (data ++ List.replicate k 0) pos n = getBits data pos n := by
  have : ∀ s m, window (data ++ List.replicate k 0) s m = window data s m := by
    intro s m
    induction m with
    | zero => rfl
    | succ m ih =>
      simp only [window, ih]
      congr 3
      by_cases c : s + m < data.length
      · rw [List.getElem?_append_left c]
      · rw [List.getElem?_append_right (by omega), List.getElem?_replicate, List.getElem?_eq_none (by omega)]
        split <;> rfl
  unfold getBits
  simp only [this]

theorem At.zeros {data : Bytes} {pos : Nat} {a : List Bool} (h : At data pos a) (k : Nat) : At (data ++ List.replicate k 0) pos a := by
  obtain ⟨pre, post, e, l⟩ := h
  exact ⟨pre, post ++ bitsOf (List.replicate k 0), by simp only [bitsOf, List.flatMap_append] at e ⊢; rw [e]; simp, l⟩

theorem At.getBits {data : Bytes} {pos : Nat} {a : List Bool} (h : At data pos a) : getBits data pos a.length = valOf a := by
  have hb := h.bound
  obtain ⟨pre, post, e, rfl⟩ := h
  rw [getBits_eq data _ _ data.length (by omega)]
  have hw := window_bits data []
  rw [List.append_nil] at hw
  have hl := congrArg List.length e
  rw [bitsOf_length, List.length_append, List.length_append] at hl
  have : 8 * data.length - pre.length - a.length = post.length := by omega
  rw [hw, this, e, valOf_append, valOf_append]
  have l1 := valOf_lt post
  have l2 := valOf_lt a
  rw [Nat.mul_comm _ (2 ^ post.length), Nat.mul_add_div (by positivity), Nat.div_eq_of_lt l1, Nat.add_zero, Nat.mul_comm (valOf pre),
    Nat.mul_add_mod, Nat.mod_eq_of_lt l2]

theorem At.nat {data : Bytes} {pos n v : Nat} (h : At data pos (natBits n v)) (hv : v < 2 ^ n) : Compress.getBits data pos n = v := by
  have := h.getBits
  rwa [natBits_length, valOf_natBits _ _ hv] at this

/-- The first bits of a look at 16. -/
theorem At.peek {data : Bytes} {pos : Nat} {a : List Bool} (h : At data pos a) (hl : a.length ≤ 16) :
    Compress.getBits data pos 16 / 2 ^ (16 - a.length) = valOf a := by
  rw [← getBits_zeros data 2]
  have hb := h.bound
  have h := h.zeros 2
  obtain ⟨pre, post, e, rfl⟩ := h
  have hlen := congrArg List.length e
  rw [bitsOf_length] at hlen
  simp only [List.length_append, List.length_replicate] at hlen
  have : At (data ++ List.replicate 2 0) pre.length (a ++ post.take (16 - a.length)) := by
    refine ⟨pre, post.drop (16 - a.length), ?_, rfl⟩
    rw [e]; simp
  have hg := this.getBits
  have l3 : (a ++ post.take (16 - a.length)).length = 16 := by simp; omega
  rw [l3] at hg
  rw [hg, valOf_append]
  have l1 := valOf_lt (post.take (16 - a.length))
  have l2 : (post.take (16 - a.length)).length = 16 - a.length := by simp; omega
  rw [l2] at l1 ⊢
  rw [Nat.mul_comm, Nat.mul_add_div (by positivity), Nat.div_eq_of_lt l1, Nat.add_zero]

/-! ## Canonical codes -/

theorem tableRow_length (bits size i : Nat) (ls : List Nat) : (tableRow bits size i ls).length = ls.count bits * size := by
  induction ls generalizing i with
  | nil => simp [tableRow]
  | cons l ls ih =>
    simp only [tableRow, List.length_append, ih, List.count_cons]
    by_cases c : l = bits
    · simp [c]; ring
    · simp [c]

theorem tableRow_append (bits size i : Nat) (a b : List Nat) :
    tableRow bits size i (a ++ b) = tableRow bits size i a ++ tableRow bits size (i + a.length) b := by
  induction a generalizing i with
  | nil => simp [tableRow]
  | cons l a ih => simp only [List.cons_append, tableRow, ih, List.append_assoc, List.length_cons]; congr 3; omega

theorem foldl_max_le (ls : List Nat) (a : Nat) : a ≤ ls.foldl max a ∧ (∀ l ∈ ls, l ≤ ls.foldl max a) ∧
    ∀ M, a ≤ M → (∀ l ∈ ls, l ≤ M) → ls.foldl max a ≤ M := by
  induction ls generalizing a with
  | nil => exact ⟨Nat.le_refl _, by simp, fun M h _ => h⟩
  | cons l ls ih =>
    obtain ⟨h1, h2, h3⟩ := ih (max a l)
    refine ⟨by simp only [List.foldl_cons]; omega, ?_, ?_⟩
    · intro x hx
      rcases List.mem_cons.1 hx with rfl | hx
      · simp only [List.foldl_cons]; omega
      · exact h2 x hx
    · intro M hM hl
      exact h3 M (by have := hl l (by simp); omega) (fun x hx => hl x (by simp [hx]))

/-- The table of a canonical code at all numbers that begin with a code word. -/
theorem table_get (ls : List Nat) (d s W w : Nat) (hW : W = ls.foldl max 0) (h0 : 0 < ls.getD s 0)
    (hw : w / 2 ^ (W - ls.getD s 0) = codeValue ls s) :
    ∀ t, (Huffman.build ls d).table = some t → t[w]? = some s := by
  intro t ht
  have hs : s < ls.length := by
    by_contra c
    rw [List.getD_eq_getElem?_getD, List.getElem?_eq_none (by omega)] at h0
    exact absurd h0 (by simp)
  have hls : ls[s] = ls.getD s 0 := by rw [List.getD_eq_getElem?_getD, List.getElem?_eq_getElem hs]; rfl
  obtain ⟨l, hl⟩ : ∃ l, l = ls.getD s 0 := ⟨_, rfl⟩
  have hlW : l ≤ W := by
    rw [hl, ← hls, hW]; exact (foldl_max_le ls 0).2.1 _ (List.getElem_mem hs)
  simp only [Huffman.build, ← hW, Option.some.injEq] at ht
  subst ht
  rw [← hl] at hw h0
  -- the rows before, the row
  have hr : List.range W = List.range (l - 1) ++ (l - 1) :: (List.range (W - l)).map (fun i => l + i) := by
    have e : W = (l - 1) + 1 + (W - l) := by omega
    conv_lhs => rw [e]
    rw [List.range_add, List.range_succ, List.append_assoc]
    rw [List.singleton_append]
    congr 2
    apply List.map_congr_left
    intro a _
    omega
  obtain ⟨f, hf⟩ : ∃ f : Nat → List Nat, f = fun k => tableRow (k + 1) (2 ^ (W - (k + 1))) 0 ls := ⟨_, rfl⟩
  rw [← hf, hr, List.flatMap_append, List.flatMap_cons]
  have e1 : f (l - 1) = tableRow l (2 ^ (W - l)) 0 (ls.take s) ++ (List.replicate (2 ^ (W - l)) s ++
      tableRow l (2 ^ (W - l)) (s + 1) (ls.drop (s + 1))) := by
    rw [hf]
    simp only
    rw [show l - 1 + 1 = l by omega]
    conv_lhs => rw [← List.take_append_drop s ls, List.drop_eq_getElem_cons hs]
    rw [tableRow_append, List.length_take, Nat.min_eq_left (Nat.le_of_lt hs), Nat.zero_add]
    simp only [tableRow, hls, ← hl, if_true]
  have len1 : ((List.range (l - 1)).flatMap f).length =
      ((List.range l).map (fun b => if b = 0 then 0 else ls.count b * 2 ^ (l - b))).sum * 2 ^ (W - l) := by
    rw [List.length_flatMap]
    have : l = (l - 1) + 1 := by omega
    conv_rhs => rw [show List.range l = List.range ((l - 1) + 1) by rw [← this], List.range_succ_eq_map]
    simp only [List.map_cons, if_true, List.sum_cons, Nat.zero_add, List.map_map]
    have sm : ∀ (g : Nat → Nat) (c : Nat) (l : List Nat), (l.map g).sum * c = (l.map (fun x => g x * c)).sum := by
      intro g c l
      induction l with
      | nil => simp
      | cons x l ih => simp only [List.map_cons, List.sum_cons, Nat.add_mul, ih]
    rw [sm]
    congr 1
    apply List.map_congr_left
    intro a ha
    rw [List.mem_range] at ha
    simp only [Function.comp, hf, tableRow_length, Nat.succ_ne_zero, if_false, Nat.succ_eq_add_one]
    rw [Nat.mul_assoc, ← pow_add]
    congr 2
    omega
  have len2 : (tableRow l (2 ^ (W - l)) 0 (ls.take s)).length = (ls.take s).count l * 2 ^ (W - l) := tableRow_length _ _ _ _
  have hcv : codeValue ls s = ((List.range l).map (fun b => if b = 0 then 0 else ls.count b * 2 ^ (l - b))).sum +
      (ls.take s).count l := by unfold codeValue; rw [← hl]
  have hpos : 0 < 2 ^ (W - l) := by positivity
  rw [hcv] at hw
  have hb1 : (((List.range l).map (fun b => if b = 0 then 0 else ls.count b * 2 ^ (l - b))).sum + (ls.take s).count l) * 2 ^ (W - l) ≤ w := by
    rw [← hw]; exact Nat.div_mul_le_self _ _
  have hb2 : w < (((List.range l).map (fun b => if b = 0 then 0 else ls.count b * 2 ^ (l - b))).sum + (ls.take s).count l + 1) * 2 ^ (W - l) := by
    have := Nat.lt_mul_div_succ w hpos
    rwa [hw, Nat.mul_comm] at this
  rw [Nat.add_mul, ← len1, ← len2] at hb1
  rw [Nat.add_mul, Nat.add_mul, ← len1, ← len2, Nat.one_mul] at hb2
  rw [e1, List.append_assoc, List.append_assoc, List.getElem?_append_right (by omega), List.getElem?_append_right (by omega),
    List.getElem?_append_left (by rw [List.length_replicate]; omega), List.getElem?_replicate, if_pos (by omega)]

theorem lookup_some {h : Huffman} {t : List Nat} {W w s : Nat} (ht : h.table = some t) (hW : h.width = W) (hW16 : W ≤ 16)
    (hg : t[w / 2 ^ (16 - W)]? = some s) : h.lookup w = .ok (s, h.lengths.getD s 0) := by
  obtain ⟨a, b, c, d⟩ := h
  simp only at ht hW
  subst ht hW
  simp only [Huffman.lookup]
  rw [if_neg (by omega), hg]

/-- The model's tables for a code. -/
def Code.huff (d : Nat) : Code → Huffman
  | .one v => .const v
  | .canon ls => .build ls d

/-- A code word is recognised. -/
theorem lookup_word (c : Code) (d : Nat) (hc : c.Short) (s : Nat) (hs : c.Has s) (data : Bytes) (pos : Nat)
    (h : At data pos (c.word s)) : (c.huff d).lookup (getBits data pos 16) = .ok (s, (c.word s).length) := by
  cases c with
  | one v =>
    have : s = v := hs
    subst this; rfl
  | canon ls =>
    obtain ⟨h0, hv⟩ := hs
    simp only [Code.word] at h ⊢
    have hmem : ls.getD s 0 ∈ ls := by
      by_cases c : s < ls.length
      · rw [List.getD_eq_getElem?_getD, List.getElem?_eq_getElem c]; exact List.getElem_mem c
      · rw [List.getD_eq_getElem?_getD, List.getElem?_eq_none (by omega)] at h0; exact absurd h0 (by simp)
    have h16 : ls.getD s 0 ≤ 16 := hc _ hmem
    have hW16 : ls.foldl max 0 ≤ 16 := (foldl_max_le ls 0).2.2 16 (by omega) hc
    have hlW : ls.getD s 0 ≤ ls.foldl max 0 := (foldl_max_le ls 0).2.1 _ hmem
    have hp := h.peek (by rw [natBits_length]; exact h16)
    rw [natBits_length, valOf_natBits _ _ hv] at hp
    have := table_get ls d s (ls.foldl max 0) (getBits data pos 16 / 2 ^ (16 - ls.foldl max 0)) rfl h0 (by
      rw [Nat.div_div_eq_div_mul, ← pow_add, ← hp]
      congr 2
      omega)
    have ht : (Huffman.build ls d).table = some ((Huffman.build ls d).table.getD []) := rfl
    have hwid : (Huffman.build ls d).width = ls.foldl max 0 := rfl
    rw [natBits_length]
    exact lookup_some ht hwid hW16 (this _ ht)

/-! ## Tables -/

theorem ones_at (data : Bytes) (k : Nat) : ∀ (n pos : Nat), k < n → At data pos (List.replicate k true ++ [false]) →
    ones data n pos = (k, pos + k + 1) := by
  induction k with
  | zero =>
    intro n pos hn h
    obtain ⟨n, rfl⟩ : ∃ j, n = j + 1 := ⟨n - 1, by omega⟩
    have := (show At data pos [false] from h).getBits
    simp only [List.length_singleton, valOf] at this
    simp [ones, this]
  | succ k ih =>
    intro n pos hn h
    obtain ⟨n, rfl⟩ : ∃ j, n = j + 1 := ⟨n - 1, by omega⟩
    rw [List.replicate_succ, List.cons_append] at h
    have h : At data pos ([true] ++ (List.replicate k true ++ [false])) := h
    have h1 := h.left.getBits
    simp only [List.length_singleton, valOf] at h1
    have h2 := ih n (pos + 1) (by omega) h.right
    unfold ones
    rw [if_pos (by simpa using h1), h2]
    simp only [Prod.mk.injEq, true_and]
    omega

theorem varLength_at (data : Bytes) (l pos : Nat) (hl : l ≤ 16) (h : At data pos (lengthBits l)) :
    varLength data pos = (l, pos + (lengthBits l).length) := by
  unfold lengthBits at h ⊢
  unfold varLength
  by_cases c : l < 7
  · rw [if_pos c] at h ⊢
    have e := h.nat (by omega)
    rw [e, if_pos (by omega), natBits_length]
  · rw [if_neg c] at h ⊢
    rw [List.append_assoc] at h
    have e := h.left.getBits
    have e2 := ones_at data (l - 7) 13 (pos + 3) (by omega) h.right
    simp only [List.length_cons, List.length_nil, valOf] at e
    norm_num at e
    rw [if_neg (by simp [e]), e2]
    simp only [List.length_append, List.length_cons, List.length_nil, List.length_replicate, Prod.mk.injEq]
    omega

/-- The first `i` lengths, then zeros. -/
def filled (ls : List Nat) (i : Nat) : List Nat := ls.take i ++ List.replicate (ls.length - i) 0

theorem filled_length (ls : List Nat) (i : Nat) (h : i ≤ ls.length) : (filled ls i).length = ls.length := by
  simp [filled]; omega

theorem filled_set (ls : List Nat) (i : Nat) (h : i < ls.length) : (filled ls i).set i ls[i] = filled ls (i + 1) := by
  unfold filled
  rw [List.set_append_right _ _ (by simp)]
  have : ls.length - i = (ls.length - (i + 1)) + 1 := by omega
  rw [this, List.replicate_succ]
  simp only [List.length_take, Nat.min_eq_left (Nat.le_of_lt h), Nat.sub_self, List.set_cons_zero]
  rw [List.take_add_one, List.getElem?_eq_getElem h, List.append_assoc]
  rfl

theorem filled_all (ls : List Nat) (i : Nat) (h : ls.length ≤ i) : filled ls i = ls := by
  unfold filled
  rw [List.take_of_length_le h, Nat.sub_eq_zero_of_le h]
  simp

theorem filled_skip (ls : List Nat) (i k : Nat) (h : i + k ≤ ls.length) (hz : (ls.drop i).take k = List.replicate k 0) :
    filled ls i = filled ls (i + k) := by
  unfold filled
  rw [List.take_add, hz, List.append_assoc, List.replicate_append_replicate]
  congr 2
  omega

theorem lengthLoop_step (data : Bytes) (ls : List Nat) (n i pos : Nat) (hi : i < ls.length) (h3 : i ≠ 3) (hl : ls[i] ≤ 16)
    (h : At data pos (lengthBits ls[i])) :
    lengthLoop data (n + 1) i (filled ls i) pos = lengthLoop data n (i + 1) (filled ls (i + 1)) (pos + (lengthBits ls[i]).length) := by
  conv_lhs => unfold lengthLoop
  rw [filled_length _ _ (Nat.le_of_lt hi), if_pos hi]
  simp only [h3, if_false]
  rw [if_pos hi, varLength_at data _ pos hl h, filled_set _ _ hi]

theorem lengthLoop_end (data : Bytes) (ls : List Nat) (n i pos : Nat) (hi : ls.length ≤ i) :
    lengthLoop data n i (filled ls i) pos = .ok (ls, pos) := by
  rw [filled_all _ _ hi]
  cases n with
  | zero => rfl
  | succ n => unfold lengthLoop; rw [if_neg (by omega)]

/-- After index 3. -/
theorem lengthLoop_tail (data : Bytes) (ls : List Nat) (hls : ∀ l ∈ ls, l ≤ 16) (n i pos : Nat) (hi : 3 < i) (hn : ls.length ≤ i + n)
    (h : At data pos ((ls.drop i).flatMap lengthBits)) :
    lengthLoop data n i (filled ls i) pos = .ok (ls, pos + ((ls.drop i).flatMap lengthBits).length) := by
  induction n generalizing i pos with
  | zero =>
    rw [lengthLoop_end _ _ _ _ _ (by omega), List.drop_of_length_le (by omega)]
    simp
  | succ n ih =>
    by_cases c : i < ls.length
    · rw [List.drop_eq_getElem_cons c, List.flatMap_cons] at h ⊢
      rw [lengthLoop_step data ls n i pos c (by omega) (hls _ (List.getElem_mem c)) h.left, ih (i + 1) _ (by omega) (by omega) h.right,
        List.length_append, Nat.add_assoc]
    · rw [lengthLoop_end _ _ _ _ _ (by omega), List.drop_of_length_le (by omega)]
      simp

/-- From index 3. -/
theorem lengthLoop_three (data : Bytes) (ls : List Nat) (hls : ∀ l ∈ ls, l ≤ 16) (skip n pos : Nat) (hn : ls.length ≤ 3 + n)
    (h3 : 3 < ls.length) (hs : skip ≤ 3 ∧ 3 + skip < ls.length ∧ (ls.drop 3).take skip = List.replicate skip 0)
    (h : At data pos (natBits 2 skip ++ (ls.drop (3 + skip)).flatMap lengthBits)) :
    lengthLoop data n 3 (filled ls 3) pos = .ok (ls, pos + (natBits 2 skip ++ (ls.drop (3 + skip)).flatMap lengthBits).length) := by
  obtain ⟨s1, s2, s3⟩ := hs
  obtain ⟨n, rfl⟩ : ∃ j, n = j + 1 := ⟨n - 1, by omega⟩
  have hsk : getBits data pos 2 = skip := h.left.nat (by omega)
  have hr := h.right
  rw [natBits_length, List.drop_eq_getElem_cons s2, List.flatMap_cons] at hr
  rw [filled_skip ls 3 skip (by omega) s3]
  unfold lengthLoop
  rw [filled_length _ _ (by omega), if_pos h3]
  simp only [if_true, hsk]
  rw [if_pos s2, varLength_at data _ (pos + 2) (hls _ (List.getElem_mem s2)) hr.left, filled_set _ _ s2]
  simp only
  rw [lengthLoop_tail data ls hls n (3 + skip + 1) _ (by omega) (by omega) hr.right, List.drop_eq_getElem_cons s2]
  simp only [List.length_append, natBits_length, List.flatMap_cons]
  congr 2
  omega

/-- The part of `Table.bitsSkip` after the count. -/
def skipBits (skip : Nat) (ls : List Nat) : List Bool :=
  if 3 < ls.length then natBits 2 skip ++ (ls.drop (3 + skip)).flatMap lengthBits else []

theorem lengthLoop_at (data : Bytes) (ls : List Nat) (hls : ∀ l ∈ ls, l ≤ 16) (skip : Nat)
    (hs : 3 < ls.length → skip ≤ 3 ∧ 3 + skip < ls.length ∧ (ls.drop 3).take skip = List.replicate skip 0) :
    ∀ (j i n pos : Nat), i + j = 3 → ls.length ≤ i + n → At data pos (((ls.take 3).drop i).flatMap lengthBits ++ skipBits skip ls) →
      lengthLoop data n i (filled ls i) pos =
        .ok (ls, pos + (((ls.take 3).drop i).flatMap lengthBits ++ skipBits skip ls).length) := by
  intro j
  induction j with
  | zero =>
    intro i n pos hi hn h
    obtain rfl : i = 3 := by omega
    have e : (ls.take 3).drop 3 = [] := List.drop_of_length_le (by simp)
    rw [e, List.flatMap_nil, List.nil_append] at h ⊢
    unfold skipBits at h ⊢
    by_cases c : 3 < ls.length
    · rw [if_pos c] at h ⊢
      exact lengthLoop_three data ls hls skip n pos hn c (hs c) h
    · rw [if_neg c, lengthLoop_end _ _ _ _ _ (by omega)]
      simp
  | succ j ih =>
    intro i n pos hi hn h
    by_cases c : i < ls.length
    · have c2 : i < (ls.take 3).length := by simp; omega
      have hg : (ls.take 3)[i] = ls[i] := by simp
      rw [List.drop_eq_getElem_cons c2, List.flatMap_cons, hg, List.append_assoc] at h ⊢
      obtain ⟨n, rfl⟩ : ∃ j, n = j + 1 := ⟨n - 1, by omega⟩
      rw [lengthLoop_step data ls n i pos c (by omega) (hls _ (List.getElem_mem c)) h.left, ih (i + 1) n _ (by omega) (by omega) h.right]
      simp only [List.length_append]
      congr 2
      omega
    · have e : (ls.take 3).drop i = [] := List.drop_of_length_le (by simp; omega)
      have e2 : skipBits skip ls = [] := by unfold skipBits; rw [if_neg (by omega)]
      rw [lengthLoop_end _ _ _ _ _ (by omega), e, e2]
      simp

theorem loadLength_at (data : Bytes) (t : Table) (skip pos : Nat) (ht : t.Ok) (hs : t.SkipOk skip)
    (h : At data pos (t.bitsSkip skip)) :
    loadLengthHuffman data pos = .ok (t.code.huff 8, pos + (t.bitsSkip skip).length) := by
  unfold loadLengthHuffman
  cases t with
  | one v =>
    have e1 : getBits data pos 5 = 0 := h.left.nat (by norm_num)
    have e2 : getBits data (pos + 5) 5 = v := by
      have := h.right
      rw [natBits_length] at this
      exact this.nat ht
    simp only [e1, e2, if_true, Table.bitsSkip, List.length_append, natBits_length]
    rfl
  | lengths ls =>
    obtain ⟨h1, h2, h3⟩ := ht
    have hb : (Table.lengths ls).bitsSkip skip = natBits 5 ls.length ++ (((ls.take 3).drop 0).flatMap lengthBits ++ skipBits skip ls) := by
      simp [Table.bitsSkip, skipBits]
    rw [hb] at h ⊢
    have e1 : getBits data pos 5 = ls.length := h.left.nat (by omega)
    have hr := h.right
    rw [natBits_length] at hr
    have e2 := lengthLoop_at data ls h3 skip hs 3 0 ls.length (pos + 5) rfl (by omega) hr
    have e3 : filled ls 0 = List.replicate ls.length 0 := by simp [filled]
    simp only [e1]
    rw [if_neg (by omega), ← e3, bind_ok e2]
    simp only [List.length_append, natBits_length, Table.code, Code.huff, Except.ok.injEq, Prod.mk.injEq, true_and]
    omega

theorem distLoop_at (data : Bytes) (ls : List Nat) (hls : ∀ l ∈ ls, l ≤ 16) (pos : Nat) (h : At data pos (ls.flatMap lengthBits)) :
    distLoop data ls.length pos = (ls, pos + (ls.flatMap lengthBits).length) := by
  induction ls generalizing pos with
  | nil => rfl
  | cons l ls ih =>
    rw [List.flatMap_cons] at h
    have e := varLength_at data l pos (hls l (by simp)) h.left
    have e2 := ih (fun x hx => hls x (by simp [hx])) _ h.right
    simp only [List.length_cons, distLoop, e, e2, List.flatMap_cons, List.length_append]
    rw [Nat.add_assoc]

theorem loadDist_at (data : Bytes) (t : Table) (pos : Nat) (ht : t.Ok) (h : At data pos t.bits) :
    loadDistHuffman data pos = (t.code.huff 0, pos + t.bits.length) := by
  unfold loadDistHuffman
  cases t with
  | one v =>
    have e1 : getBits data pos 5 = 0 := h.left.nat (by norm_num)
    have e2 : getBits data (pos + 5) 5 = v := by
      have := h.right
      rw [natBits_length] at this
      exact this.nat ht
    simp only [e1, e2, if_true, Table.bits, List.length_append, natBits_length]
    rfl
  | lengths ls =>
    obtain ⟨h1, h2, h3⟩ := ht
    simp only [Table.bits] at h ⊢
    have e1 : getBits data pos 5 = ls.length := h.left.nat (by omega)
    have hr := h.right
    rw [natBits_length] at hr
    have e2 := distLoop_at data ls h3 (pos + 5) hr
    simp only [e1]
    rw [if_neg (by omega), e2]
    simp only [List.length_append, natBits_length, Table.code, Code.huff, Prod.mk.injEq, true_and]
    omega

theorem charLoop_at (data : Bytes) (c : Code) (hc : c.Short) (is : List Item) (hi : ∀ i ∈ is, i.Ok ∧ c.Has i.symbol) :
    ∀ (n pos : Nat) (done : List Nat), (is.flatMap Item.lens).length ≤ n →
      At data pos (is.flatMap (fun i => c.word i.symbol ++ i.extra)) →
      charLoop data (c.huff 8) n done.length (done ++ List.replicate (is.flatMap Item.lens).length 0) pos =
        .ok (done ++ is.flatMap Item.lens, pos + (is.flatMap (fun i => c.word i.symbol ++ i.extra)).length) := by
  induction is with
  | nil =>
    intro n pos done hn h
    cases n with
    | zero => simp [charLoop]
    | succ n => simp [charLoop]
  | cons i is ih =>
    intro n pos done hn h
    obtain ⟨hok, hhas⟩ := hi i (by simp)
    rw [List.flatMap_cons, List.append_assoc] at h
    rw [List.flatMap_cons, List.length_append] at hn
    have hlen : 1 ≤ i.lens.length := by
      cases i with
      | zero => simp [Item.lens]
      | run k => simp only [Item.lens, List.length_replicate]; have := hok.1; omega
      | longRun k => simp only [Item.lens, List.length_replicate]; have := hok.1; omega
      | length l => simp [Item.lens]
    obtain ⟨n, rfl⟩ : ∃ j, n = j + 1 := ⟨n - 1, by omega⟩
    have hlook := lookup_word c 8 hc i.symbol hhas data pos h.left
    have hx := h.right
    have ih' := ih (fun i hi' => hi i (by simp [hi'])) n (pos + (c.word i.symbol).length + i.extra.length) (done ++ i.lens) (by omega)
      hx.right
    have hrep : ∀ k, i.lens = List.replicate k 0 →
        done ++ List.replicate ((i :: is).flatMap Item.lens).length 0 =
          done ++ i.lens ++ List.replicate (is.flatMap Item.lens).length 0 := by
      intro k hk
      rw [List.flatMap_cons, List.length_append, List.append_assoc, hk, List.length_replicate, List.replicate_append_replicate]
    have hlt : done.length < (done ++ List.replicate ((i :: is).flatMap Item.lens).length 0).length := by
      rw [List.length_append, List.length_replicate, List.flatMap_cons, List.length_append]; omega
    have hfin : (done ++ i.lens ++ is.flatMap Item.lens,
          pos + (c.word i.symbol).length + i.extra.length + (is.flatMap (fun i => c.word i.symbol ++ i.extra)).length) =
        (done ++ (i :: is).flatMap Item.lens, pos + ((i :: is).flatMap (fun i => c.word i.symbol ++ i.extra)).length) := by
      simp only [List.flatMap_cons, List.length_append, List.append_assoc, Prod.mk.injEq, true_and]
      omega
    rw [hfin] at ih'
    conv_lhs => unfold charLoop
    rw [if_pos hlt, bind_ok hlook]
    simp only
    cases i with
    | zero =>
      simp only [Item.symbol, if_true] at ih' ⊢
      rw [hrep 1 rfl]
      simpa [Item.lens, Item.extra, Item.symbol] using ih'
    | run k =>
      obtain ⟨k1, k2⟩ := hok
      have hb : getBits data (pos + (c.word 1).length) 4 = k - 3 := by
        exact hx.left.nat (by omega)
      simp only [Item.symbol, one_ne_zero, if_false, if_true, hb] at ih' ⊢
      rw [hrep k rfl]
      simp only [Item.lens, Item.extra, List.length_append, List.length_replicate, natBits_length] at ih' ⊢
      rw [show done.length + (3 + (k - 3)) = done.length + k by omega]
      exact ih'
    | longRun k =>
      obtain ⟨k1, k2⟩ := hok
      have hb : getBits data (pos + (c.word 2).length) 9 = k - 20 := by
        exact hx.left.nat (by omega)
      simp only [Item.symbol, show ¬ ((2 : Nat) = 0) by decide, show ¬ ((2 : Nat) = 1) by decide, if_false, if_true, hb] at ih' ⊢
      rw [hrep k rfl]
      simp only [Item.lens, Item.extra, List.length_append, List.length_replicate, natBits_length] at ih' ⊢
      rw [show done.length + (20 + (k - 20)) = done.length + k by omega]
      exact ih'
    | length l =>
      obtain ⟨l1, l2⟩ := hok
      rw [if_neg (show ¬ (Item.length l).symbol = 0 by simp [Item.symbol]),
        if_neg (show ¬ (Item.length l).symbol = 1 by simp [Item.symbol]),
        if_neg (show ¬ (Item.length l).symbol = 2 by simp [Item.symbol]; omega)]
      have hset : (done ++ List.replicate ((Item.length l :: is).flatMap Item.lens).length 0).set done.length ((Item.length l).symbol - 2) =
          done ++ Item.lens (.length l) ++ List.replicate (is.flatMap Item.lens).length 0 := by
        rw [List.set_append_right _ _ (Nat.le_refl _), Nat.sub_self, List.flatMap_cons, List.length_append]
        simp only [Item.lens, Item.symbol, List.length_singleton, Nat.add_sub_cancel]
        rw [Nat.add_comm 1, List.replicate_succ, List.set_cons_zero]
        simp
      rw [hset]
      simpa [Item.lens, Item.extra, Item.symbol] using ih'

theorem Table.short {t : Table} (ht : t.Ok) : t.code.Short := by
  cases t with
  | one v => trivial
  | lengths ls => exact ht.2.2

theorem CharTable.short {c : Code} {t : CharTable} (ht : t.Ok c) : t.code.Short := by
  cases t with
  | one v => trivial
  | items is =>
    intro l hl
    rw [List.mem_flatMap] at hl
    obtain ⟨i, hi, hl⟩ := hl
    have := (ht.2.2 i hi).1
    cases i with
    | zero => simp [Item.lens] at hl; omega
    | run k => simp [Item.lens] at hl; omega
    | longRun k => simp [Item.lens] at hl; omega
    | length m => simp [Item.lens] at hl; have := this.2; omega

theorem loadChar_at (data : Bytes) (c : Code) (hc : c.Short) (t : CharTable) (pos : Nat) (ht : t.Ok c) (h : At data pos (t.bits c)) :
    loadCharHuffman data (c.huff 8) pos = .ok (t.code.huff 0, pos + (t.bits c).length) := by
  unfold loadCharHuffman
  cases t with
  | one v =>
    have e1 : getBits data pos 9 = 0 := h.left.nat (by norm_num)
    have e2 : getBits data (pos + 9) 9 = v := by
      have := h.right
      rw [natBits_length] at this
      exact this.nat ht
    simp only [e1, e2, if_true, CharTable.bits, List.length_append, natBits_length]
    rfl
  | items is =>
    obtain ⟨h1, h2, h3⟩ := ht
    simp only [CharTable.bits] at h ⊢
    have e1 : getBits data pos 9 = (is.flatMap Item.lens).length := h.left.nat (by omega)
    have hr := h.right
    rw [natBits_length] at hr
    have e2 := charLoop_at data c hc is h3 _ (pos + 9) [] (Nat.le_refl _) hr
    simp only [List.nil_append, List.length_nil] at e2
    simp only [e1]
    rw [if_neg (by omega), bind_ok e2]
    simp only [List.length_append, natBits_length, CharTable.code, Code.huff, Except.ok.injEq, Prod.mk.injEq, true_and]
    omega

theorem loadBlock_at (data : Bytes) (s : State) (b : Block) (hb : b.Ok) (h : At data s.pos b.head) :
    loadBlock data s = .ok ⟨s.pos + b.head.length, b.tokens.length, b.chars.code.huff 0, b.dists.code.huff 0⟩ := by
  unfold Block.head at h ⊢
  have hd := h.right
  have hc := h.left.right
  have hl := h.left.left.right
  have hn := h.left.left.left
  have e0 : getBits data s.pos 16 = b.tokens.length := hn.nat hb.few
  rw [natBits_length] at hl
  have e1 := loadLength_at data b.lens b.skip _ hb.lens hb.skip hl
  have p1 : s.pos + (natBits 16 b.tokens.length ++ b.lens.bitsSkip b.skip).length = s.pos + 16 + (b.lens.bitsSkip b.skip).length := by
    simp only [List.length_append, natBits_length]; omega
  rw [p1] at hc
  have e2 := loadChar_at data b.lens.code (Table.short hb.lens) b.chars _ hb.chars hc
  have p2 : s.pos + (natBits 16 b.tokens.length ++ b.lens.bitsSkip b.skip ++ b.chars.bits b.lens.code).length =
      s.pos + 16 + (b.lens.bitsSkip b.skip).length + (b.chars.bits b.lens.code).length := by
    simp only [List.length_append, natBits_length]; omega
  rw [p2] at hd
  have e3 := loadDist_at data b.dists _ hb.dists hd
  unfold loadBlock
  rw [bind_ok e1]
  simp only
  rw [bind_ok e2]
  simp only [e3, e0]
  simp only [List.length_append, natBits_length, Except.ok.injEq, State.mk.injEq, and_true]
  omega

/-! ## Copies -/

theorem copied_length (d n : Nat) (out : List Nat) : (copied d n out).length = out.length + n := by
  induction n generalizing out with
  | zero => rfl
  | succ n ih => rw [copied, ih]; simp; omega

theorem copyLoop_copied (d n : Nat) (out : List Nat) (h1 : 1 ≤ d) (h2 : d ≤ out.length) :
    copyLoop n ((out.length : Int) - d) out = .ok (copied d n out) := by
  induction n generalizing out with
  | zero => rfl
  | succ n ih =>
    have hg : pyGet out ((out.length : Int) - d) = .ok (out.getD (out.length - d) 0) := by
      unfold pyGet
      have e : ((out.length : Int) - d).toNat = out.length - d := by omega
      have hlt : out.length - d < out.length := by omega
      simp only
      rw [if_neg (show ¬ (out.length : Int) - d < 0 by omega), e, List.getElem?_eq_getElem hlt]
      simp [hlt, h2]
    unfold copyLoop copied
    rw [hg]
    simp only
    have := ih (out ++ [out.getD (out.length - d) 0]) (by simp; omega)
    rw [← this]
    congr 1
    simp
    omega

theorem copied_slice (d : Nat) : ∀ (n : Nat) (out : List Nat), n ≤ d → d ≤ out.length →
    copied d n out = out ++ (out.drop (out.length - d)).take n := by
  intro n out hn hd
  have key : ∀ (n : Nat) (pre : List Nat), pre.length + n ≤ d → pre = (out.drop (out.length - d)).take pre.length →
      copied d n (out ++ pre) = out ++ (out.drop (out.length - d)).take (pre.length + n) := by
    intro n
    induction n with
    | zero => intro pre h hp; rw [copied, Nat.add_zero, ← hp]
    | succ n ih =>
      intro pre h hp
      have hlt : out.length - d + pre.length < out.length := by omega
      have hx : (out ++ pre).getD ((out ++ pre).length - d) 0 = out[out.length - d + pre.length] := by
        rw [List.getD_eq_getElem?_getD, List.length_append, show out.length + pre.length - d = out.length - d + pre.length by omega,
          List.getElem?_append_left hlt, List.getElem?_eq_getElem hlt]
        rfl
      have hstep : pre ++ [out[out.length - d + pre.length]] = (out.drop (out.length - d)).take (pre.length + 1) := by
        rw [List.take_add_one, ← hp, List.getElem?_drop, List.getElem?_eq_getElem hlt]
        rfl
      rw [copied, hx, List.append_assoc, ih (pre ++ [out[out.length - d + pre.length]]) (by simp; omega) (by simpa using hstep)]
      simp only [List.length_append, List.length_singleton]
      congr 2
      omega
  have := key n [] (by simpa using hn) (by simp)
  simpa using this

theorem copyBack_copied (n d : Nat) (out : List Nat) (h1 : 1 ≤ d) (h2 : d ≤ out.length) :
    copyBack n d out = .ok (copied d n out) := by
  unfold copyBack
  simp only
  by_cases c : d > n
  · rw [if_pos c, copied_slice d n out (by omega) h2]
    congr 2
    unfold pySlice sliceBound
    rw [if_neg (by omega), if_neg (by omega)]
    have e1 : min ((out.length : Int) - d).toNat out.length = out.length - d := by omega
    have e2 : min ((out.length : Int) - d + n).toNat out.length = out.length - d + n := by omega
    rw [e1, e2, Nat.add_sub_cancel_left]
  · rw [if_neg c, copyLoop_copied d n out h1 h2]

theorem play_append (out : List Nat) (a b : List Token) (h : Token.stop ∉ a) : play out (a ++ b) = play (play out a) b := by
  induction a generalizing out with
  | nil => rfl
  | cons t a ih =>
    have ha : Token.stop ∉ a := fun hm => h (by simp [hm])
    cases t with
    | byte v => simp only [List.cons_append, play]; exact ih _ ha
    | copy n d => simp only [List.cons_append, play]; exact ih _ ha
    | stop => exact absurd (by simp) h

theorem play_length (out : List Nat) (ts : List Token) : out.length ≤ (play out ts).length := by
  induction ts generalizing out with
  | nil => exact Nat.le_refl _
  | cons t ts ih =>
    cases t with
    | byte v => refine Nat.le_trans ?_ (ih _); simp
    | copy n d => refine Nat.le_trans ?_ (ih _); rw [copied_length]; omega
    | stop => exact Nat.le_refl _

theorem within_append (out : List Nat) (a b : List Token) (h : Token.stop ∉ a) :
    Within out (a ++ b) ↔ Within out a ∧ Within (play out a) b := by
  induction a generalizing out with
  | nil => simp [Within, play]
  | cons t a ih =>
    have ha : Token.stop ∉ a := fun hm => h (by simp [hm])
    cases t with
    | byte v => simp only [List.cons_append, play, Within]; exact ih _ ha
    | copy n d => simp only [List.cons_append, play, Within, ih _ ha, and_assoc]
    | stop => exact absurd (by simp) h

/-! ## Tokens -/

/-- The decoder is inside block `b`. -/
def Inside (b : Block) (s : State) : Prop := s.chars = b.chars.code.huff 0 ∧ s.dists = b.dists.code.huff 0

theorem Token.coded_char {cc dc : Code} {t : Token} (h : t.Coded cc dc) : cc.Has t.char := by
  cases t with
  | byte v => exact h
  | copy n d => exact h.1
  | stop => exact h

theorem token_at (data : Bytes) (b : Block) (hb : b.Ok) (s : State) (hs : Inside b s) (h0 : 0 < s.block) (t : Token)
    (ht : t ∈ b.tokens) (h : At data s.pos (b.chars.code.word t.char)) :
    token data s = .ok (t.char, { s with block := s.block - 1, pos := s.pos + (b.chars.code.word t.char).length }) := by
  unfold token
  rw [if_neg (by omega), bind_ok rfl, hs.1,
    bind_ok (lookup_word _ 0 (CharTable.short hb.chars) _ (Token.coded_char (hb.tokens t ht).2) data s.pos h)]

theorem position_at (data : Bytes) (b : Block) (hb : b.Ok) (s : State) (hs : Inside b s) (d : Nat) (hd : 1 ≤ d)
    (hc : b.dists.code.Has (distSymbol d)) (h : At data s.pos (b.dists.code.word (distSymbol d) ++ distExtra d)) :
    position data s = .ok (d - 1, { s with pos := s.pos + (b.dists.code.word (distSymbol d) ++ distExtra d).length }) := by
  unfold position
  rw [hs.2, bind_ok (lookup_word _ 0 (Table.short hb.dists) _ hc data s.pos h.left)]
  have hx := h.right
  unfold distExtra at hx ⊢
  by_cases c : d = 1
  · subst c
    simp [distSymbol]
  · have e : distSymbol d = Nat.log2 (d - 1) + 1 := by unfold distSymbol; rw [if_neg c]
    rw [if_neg c] at hx ⊢
    have l1 : 2 ^ Nat.log2 (d - 1) ≤ d - 1 := Nat.log2_self_le (by omega)
    have l2 : d - 1 < 2 ^ (Nat.log2 (d - 1) + 1) := Nat.lt_log2_self
    rw [pow_succ] at l2
    have hg := hx.nat (by omega)
    rw [e] at hx hg ⊢
    simp only
    rw [if_neg (by omega)]
    simp only [Nat.add_sub_cancel, hg]
    simp only [List.length_append, natBits_length, Except.ok.injEq, Prod.mk.injEq, State.mk.injEq, and_true]
    omega

/-- All tokens of a list are decoded. -/
theorem loop_tokens (data : Bytes) (size : Option Nat) (b : Block) (hb : b.Ok) (ts : List Token) :
    ∀ (n : Nat) (s : State) (out : List Nat), (∀ t ∈ ts, t ∈ b.tokens) → Token.stop ∉ ts → Inside b s →
      (ts.length : Int) ≤ s.block →
      At data s.pos (ts.flatMap (Token.bits b.chars.code b.dists.code)) →
      (s.pos + (ts.flatMap (Token.bits b.chars.code b.dists.code)).length < data.length * 8 ∨
        ∀ t ∈ ts, t.bits b.chars.code b.dists.code ≠ []) →
      Within out ts → (∀ m ∈ size, (play out ts).length ≤ m) →
      loop data size (n + ts.length) s out =
        loop data size n { s with block := s.block - ts.length, pos := s.pos + (ts.flatMap (Token.bits b.chars.code b.dists.code)).length }
          (play out ts) := by
  induction ts with
  | nil =>
    intro n s out _ _ _ _ _ _ _ _
    simp [play]
  | cons t ts ih =>
    intro n s out hts hstop hin hblock hat hroom hw hsize
    rw [List.flatMap_cons] at hat hroom
    have hbound := hat.bound
    have hpos : data.length * 8 > s.pos := by
      rcases hroom with hr | hr
      · omega
      · have : 0 < (t.bits b.chars.code b.dists.code).length := List.length_pos_of_ne_nil (hr t (by simp))
        simp only [List.length_append] at hbound
        omega
    have hlen : ∀ m ∈ size, out.length ≤ m := fun m hm => Nat.le_trans (play_length out (t :: ts)) (hsize m hm)
    obtain ⟨tok, tcod⟩ := hb.tokens t (hts t (by simp))
    have hblock0 : 0 < s.block := by simp only [List.length_cons] at hblock; omega
    have hstop' : Token.stop ∉ ts := fun hm => hstop (by simp [hm])
    have hin' : ∀ (k : Int) (q : Nat), Inside b { s with block := k, pos := q } := fun k q => hin
    have hroom' : s.pos + (t.bits b.chars.code b.dists.code).length + (ts.flatMap (Token.bits b.chars.code b.dists.code)).length <
          data.length * 8 ∨ ∀ t ∈ ts, t.bits b.chars.code b.dists.code ≠ [] := by
      rcases hroom with hr | hr
      · left; rw [List.length_append] at hr; omega
      · right; exact fun x hx => hr x (by simp [hx])
    rw [List.length_cons, ← Nat.add_assoc]
    rw [loop, if_pos ⟨hpos, hlen⟩]
    have step := fun out' hw' hs' => ih n { s with block := s.block - 1, pos := s.pos + (t.bits b.chars.code b.dists.code).length } out'
      (fun x hx => hts x (by simp [hx])) hstop' (hin' _ _) (by simp only [List.length_cons] at hblock ⊢; push_cast at hblock; omega)
      hat.right hroom' hw' hs'
    have hfinal : ∀ out', loop data size n ⟨s.pos + (t.bits b.chars.code b.dists.code).length +
            (ts.flatMap (Token.bits b.chars.code b.dists.code)).length, s.block - 1 - ts.length, s.chars, s.dists⟩ out' =
          loop data size n ⟨s.pos + ((t :: ts).flatMap (Token.bits b.chars.code b.dists.code)).length, s.block - (ts.length + 1 : Nat),
            s.chars, s.dists⟩ out' := by
      intro out'
      congr 2
      · rw [List.flatMap_cons, List.length_append]; omega
      · push_cast; omega
    cases t with
    | byte v =>
      rw [bind_ok (token_at data b hb s hin hblock0 (.byte v) (hts _ (by simp)) hat.left)]
      simp only
      rw [if_pos (show (Token.byte v).char ≤ 255 from tok)]
      refine (step (out ++ [v]) hw hsize).trans ?_
      simp only
      exact hfinal _
    | copy k d =>
      obtain ⟨t1, t2, t3, t4⟩ := tok
      obtain ⟨w1, w2⟩ := hw
      have hat1 : At data s.pos (b.chars.code.word (Token.copy k d).char ++ (b.dists.code.word (distSymbol d) ++ distExtra d)) := by
        have := hat.left
        simp only [Token.bits, List.append_assoc] at this
        exact this
      rw [bind_ok (token_at data b hb s hin hblock0 (.copy k d) (hts _ (by simp)) hat1.left)]
      simp only
      have hch : (Token.copy k d).char = k + 253 := rfl
      rw [if_neg (by rw [hch]; omega), if_neg (by rw [hch]; omega)]
      rw [bind_ok (position_at data b hb _ (hin' _ _) d t4 tcod.2 hat1.right)]
      simp only
      rw [show d - 1 + 1 = d by omega, show (Token.copy k d).char - 253 = k by rw [hch]; omega,
        bind_ok (copyBack_copied k d out t4 w1)]
      refine Eq.trans ?_ ((step (copied d k out) w2 hsize).trans (hfinal _))
      congr 2
      simp only [Token.bits, List.length_append]
      omega
    | stop => exact absurd (by simp) hstop

theorem loop_enter (data : Bytes) (size : Option Nat) (b : Block) (hb : b.Ok) (n : Nat) (s : State) (out : List Nat) (h0 : s.block ≤ 0)
    (hat : At data s.pos b.head) (hroom : s.pos + b.head.length < data.length * 8) :
    loop data size (n + 1) s out =
      loop data size (n + 1) ⟨s.pos + b.head.length, b.tokens.length, b.chars.code.huff 0, b.dists.code.huff 0⟩ out := by
  have e := loadBlock_at data s b hb hat
  have ht : token data s = token data ⟨s.pos + b.head.length, b.tokens.length, b.chars.code.huff 0, b.dists.code.huff 0⟩ := by
    have := hb.some
    unfold token
    rw [if_pos h0, e, if_neg (by simp only; omega)]
  rw [loop, loop, ht]
  simp only
  have i1 : (data.length * 8 > s.pos ∧ ∀ m ∈ size, out.length ≤ m) ↔ (data.length * 8 > s.pos + b.head.length ∧ ∀ m ∈ size, out.length ≤ m) := by
    constructor
    · exact fun h => ⟨hroom, h.2⟩
    · exact fun h => ⟨by omega, h.2⟩
  simp only [i1]

/-- The tokens of a file. -/
def allTokens (bs : List Block) : List Token := bs.flatMap Block.tokens

/-- There is a bit after every token, or every token has one. -/
def Room (bs : List Block) : Prop := ∀ b ∈ bs, ∀ t ∈ b.tokens, t.bits b.chars.code b.dists.code ≠ []

theorem loop_blocks (data : Bytes) (size : Option Nat) (bs : List Block) :
    ∀ (n : Nat) (s : State) (out : List Nat), (∀ b ∈ bs, b.Ok) → Token.stop ∉ allTokens bs → s.block ≤ 0 →
      At data s.pos (bs.flatMap Block.bits) →
      (s.pos + (bs.flatMap Block.bits).length < data.length * 8 ∨ Room bs) →
      Within out (allTokens bs) → (∀ m ∈ size, (play out (allTokens bs)).length ≤ m) →
      ∃ s', s'.block ≤ 0 ∧ s'.pos = s.pos + (bs.flatMap Block.bits).length ∧
        loop data size (n + (allTokens bs).length) s out = loop data size n s' (play out (allTokens bs)) := by
  induction bs with
  | nil => intro n s out _ _ h0 _ _ _ _; exact ⟨s, h0, by simp, by simp [allTokens, play]⟩
  | cons b bs ih =>
    intro n s out hok hstop h0 hat hroom hw hsize
    have hb := hok b (by simp)
    have ea : allTokens (b :: bs) = b.tokens ++ allTokens bs := rfl
    rw [ea] at hstop hw hsize ⊢
    have hs1 : Token.stop ∉ b.tokens := fun hm => hstop (by simp [hm])
    have hs2 : Token.stop ∉ allTokens bs := fun hm => hstop (by simp [hm])
    rw [within_append _ _ _ hs1] at hw
    rw [play_append _ _ _ hs1] at hsize ⊢
    rw [List.flatMap_cons] at hat hroom ⊢
    have hat1 := hat.left
    unfold Block.bits at hat1
    have hbound := hat.bound
    have hpos := hb.some
    have hroom1 : s.pos + b.bits.length < data.length * 8 ∨ ∀ t ∈ b.tokens, t.bits b.chars.code b.dists.code ≠ [] := by
      rcases hroom with hr | hr
      · left; rw [List.length_append] at hr; omega
      · right; exact hr b (by simp)
    have hhead : s.pos + b.head.length < data.length * 8 := by
      rw [List.length_append] at hbound
      have hl : b.bits.length = b.head.length + (b.tokens.flatMap (Token.bits b.chars.code b.dists.code)).length := by
        rw [Block.bits, List.length_append]
      rcases hroom1 with hr | hr
      · omega
      · obtain ⟨t, ts, e⟩ := List.exists_cons_of_ne_nil (List.ne_nil_of_length_pos (by omega : 0 < b.tokens.length))
        have h1 : 0 < (t.bits b.chars.code b.dists.code).length := List.length_pos_of_ne_nil (hr t (by rw [e]; simp))
        rw [e, List.flatMap_cons, List.length_append] at hl
        omega
    have eb : s.pos + b.head.length + (b.tokens.flatMap (Token.bits b.chars.code b.dists.code)).length = s.pos + b.bits.length := by
      rw [Block.bits, List.length_append]; omega
    have t1 := loop_tokens data size b hb b.tokens (n + (allTokens bs).length)
      ⟨s.pos + b.head.length, b.tokens.length, b.chars.code.huff 0, b.dists.code.huff 0⟩ out (fun _ h => h) hs1 ⟨rfl, rfl⟩
      (Int.le_refl _) hat1.right (by simp only; rw [eb]; exact hroom1) hw.1
      (fun m hm => Nat.le_trans (play_length _ _) (hsize m hm))
    simp only [eb, Int.sub_self] at t1
    obtain ⟨s', g1, g2, g3⟩ := ih n ⟨s.pos + b.bits.length, 0, b.chars.code.huff 0, b.dists.code.huff 0⟩ (play out b.tokens)
      (fun b hb => hok b (by simp [hb])) hs2 (Int.le_refl _) hat.right (by
        rcases hroom with hr | hr
        · left; rw [List.length_append] at hr; simp only; omega
        · right; exact fun b hb => hr b (by simp [hb])) hw.2 hsize
    refine ⟨s', g1, by rw [g2, List.length_append]; simp only; omega, ?_⟩
    rw [← g3, ← t1]
    have en : n + (b.tokens ++ allTokens bs).length = n + (allTokens bs).length + b.tokens.length := by rw [List.length_append]; omega
    rw [en]
    obtain ⟨j, hj⟩ : ∃ j, n + (allTokens bs).length + b.tokens.length = j + 1 := ⟨n + (allTokens bs).length + b.tokens.length - 1, by omega⟩
    rw [hj]
    exact loop_enter data size b hb j s out h0 hat1.left hhead

theorem tokens_le (bs : List Block) (h : ∀ b ∈ bs, b.Ok) : (allTokens bs).length ≤ (bs.flatMap Block.bits).length * 65536 := by
  induction bs with
  | nil => simp [allTokens]
  | cons b bs ih =>
    have := ih (fun b hb => h b (by simp [hb]))
    have hb := (h b (by simp)).few
    have e : allTokens (b :: bs) = b.tokens ++ allTokens bs := rfl
    rw [e, List.flatMap_cons, List.length_append, List.length_append]
    have : 16 ≤ b.bits.length := by simp only [Block.bits, Block.head, List.length_append, natBits_length]; omega
    nlinarith

/-- The blocks before the end mark, and what happens then. -/
theorem expand_blocks (data : Bytes) (size : Option Nat) (bs : List Block) (pad : List Bool) (hbits : bitsOf data = bs.flatMap Block.bits ++ pad)
    (hok : ∀ b ∈ bs, b.Ok) (hstop : Token.stop ∉ allTokens bs) (hroom : pad ≠ [] ∨ Room bs) (hw : Within [] (allTokens bs))
    (hsize : ∀ m ∈ size, (play [] (allTokens bs)).length ≤ m) :
    ∃ n s', s'.block ≤ 0 ∧ s'.pos = (bs.flatMap Block.bits).length ∧ expand data size = loop data size (n + 1) s' (play [] (allTokens bs)) := by
  have hl := congrArg List.length hbits
  rw [bitsOf_length, List.length_append] at hl
  have ht := tokens_le bs hok
  obtain ⟨n, hn⟩ : ∃ n, data.length * 8 * 65536 + 1 = n + 1 + (allTokens bs).length :=
    ⟨data.length * 8 * 65536 - (allTokens bs).length, by omega⟩
  obtain ⟨s', a, b, c⟩ := loop_blocks data size bs (n + 1) .init [] hok hstop (by decide) ⟨[], pad, by simpa using hbits, rfl⟩ (by
    rcases hroom with hr | hr
    · left
      have : 0 < pad.length := List.length_pos_of_ne_nil hr
      simp only [State.init]; omega
    · right; exact hr) hw hsize
  refine ⟨n, s', a, by rw [b]; simp [State.init], ?_⟩
  unfold expand
  rw [hn, c]

theorem loop_prefix (data : Bytes) (size : Option Nat) (n : Nat) (s : State) (out r : List Nat) (h : loop data size n s out = .ok r) :
    out <+: r := by
  induction n generalizing s out with
  | zero => cases h
  | succ n ih =>
    unfold loop at h
    split_ifs at h with c
    · obtain ⟨t, -, h⟩ := bind_ok_iff h
      split_ifs at h with c1 c2
      · exact (List.prefix_append _ _).trans (ih _ _ h)
      · injection h with h; subst h; exact List.prefix_rfl
      · obtain ⟨q, -, h⟩ := bind_ok_iff h
        obtain ⟨o2, ho, h⟩ := bind_ok_iff h
        refine List.IsPrefix.trans ?_ (ih _ _ h)
        unfold copyBack at ho
        simp only at ho
        split_ifs at ho
        · injection ho with ho; subst ho; exact List.prefix_append _ _
        · have cl : ∀ (k : Nat) (i : Int) (o o2 : List Nat), copyLoop k i o = .ok o2 → o <+: o2 := by
            intro k
            induction k with
            | zero => intro i o o2 h; injection h with h; subst h; exact List.prefix_rfl
            | succ k ih =>
              intro i o o2 h
              unfold copyLoop at h
              split at h
              · cases h
              · exact (List.prefix_append _ _).trans (ih _ _ _ h)
          exact cl _ _ _ _ ho
    · injection h with h; subst h; exact List.prefix_rfl

/-- **C76**: data written in the format of HUS and VIP files, ended by the end mark, is expanded to what it stands for, whatever follows
and whatever size is expected (unless it is too small). `bs` are the blocks, the last of which ends with the end mark; `pad` is what
follows. Every token has at least one bit, or something follows. -/
theorem C76_expand (data : Bytes) (size : Option Nat) (bs : List Block) (b : Block) (ts : List Token) (pad : List Bool)
    (hbits : bitsOf data = (bs ++ [b]).flatMap Block.bits ++ pad) (hok : ∀ x ∈ bs ++ [b], x.Ok) (hb : b.tokens = ts ++ [.stop])
    (hstop : Token.stop ∉ allTokens bs ++ ts) (hroom : pad ≠ [] ∨ Room (bs ++ [b])) (hw : Within [] (allTokens bs ++ ts))
    (hsize : ∀ m ∈ size, (play [] (allTokens bs ++ ts)).length ≤ m) :
    expand data size = .ok (play [] (allTokens bs ++ ts)) := by
  have hs1 : Token.stop ∉ allTokens bs := fun h => hstop (by simp [h])
  have hs2 : Token.stop ∉ ts := fun h => hstop (by simp [h])
  rw [within_append _ _ _ hs1] at hw
  rw [play_append _ _ _ hs1] at hsize ⊢
  have hbok := hok b (by simp)
  have hfew := hbok.few
  rw [List.flatMap_append, List.append_assoc] at hbits
  simp only [List.flatMap_cons, List.flatMap_nil, List.append_nil] at hbits
  have hl := congrArg List.length hbits
  rw [bitsOf_length, List.length_append, List.length_append] at hl
  have ht := tokens_le bs (fun x hx => hok x (by simp [hx]))
  have hlb : b.bits.length = b.head.length + (b.tokens.flatMap (Token.bits b.chars.code b.dists.code)).length := by
    rw [Block.bits, List.length_append]
  have hhl : 16 ≤ b.head.length := by simp only [Block.head, List.length_append, natBits_length]; omega
  have htl : ts.length < 65536 := by rw [hb] at hfew; simp at hfew; omega
  obtain ⟨n, hn⟩ : ∃ n, data.length * 8 * 65536 + 1 = (n + 1 + ts.length) + (allTokens bs).length :=
    ⟨data.length * 8 * 65536 - ts.length - (allTokens bs).length, by omega⟩
  have hat : At data ([] : List Bool).length (bs.flatMap Block.bits ++ b.bits) := ⟨[], pad, by rw [hbits]; simp, rfl⟩
  have htok : (b.tokens.flatMap (Token.bits b.chars.code b.dists.code)) =
      ts.flatMap (Token.bits b.chars.code b.dists.code) ++ Token.bits b.chars.code b.dists.code .stop := by
    rw [hb, List.flatMap_append]; simp
  rw [htok, List.length_append] at hlb
  -- the blocks before
  obtain ⟨s', a1, a2, a3⟩ := loop_blocks data size bs (n + 1 + ts.length) .init [] (fun x hx => hok x (by simp [hx])) hs1 (by decide) hat.left
    (.inl (by simp only [State.init]; omega)) hw.1 (fun m hm => Nat.le_trans (play_length _ _) (hsize m hm))
  simp only [State.init, Nat.zero_add] at a2
  unfold expand
  rw [hn, a3]
  generalize play [] (allTokens bs) = out at hw hsize ⊢
  -- the last block
  have hatb : At data s'.pos b.bits := by
    have := hat.right
    rw [a2]; simpa using this
  unfold Block.bits at hatb
  rw [htok] at hatb
  have hroom1 : 0 < pad.length ∨ ∀ t ∈ b.tokens, t.bits b.chars.code b.dists.code ≠ [] := by
    rcases hroom with hr | hr
    · left; exact List.length_pos_of_ne_nil hr
    · right; exact hr b (by simp)
  have hhead : s'.pos + b.head.length < data.length * 8 := by
    rcases hroom1 with hr | hr
    · omega
    · have h1 : 0 < (Token.bits b.chars.code b.dists.code .stop).length := List.length_pos_of_ne_nil (hr _ (by rw [hb]; simp))
      omega
  rw [show n + 1 + ts.length = n + ts.length + 1 by omega, loop_enter data size b hbok (n + ts.length) s' out a1 hatb.left hhead,
    show n + ts.length + 1 = n + 1 + ts.length by omega]
  have hr2 := hatb.right
  rw [loop_tokens data size b hbok ts (n + 1) ⟨s'.pos + b.head.length, b.tokens.length, b.chars.code.huff 0, b.dists.code.huff 0⟩ out
    (fun t ht => by rw [hb]; simp [ht]) hs2 ⟨rfl, rfl⟩ (by simp only [hb, List.length_append]; push_cast; omega) hr2.left (by
      simp only
      rcases hroom1 with hr | hr
      · left; omega
      · right; exact fun t ht => hr t (by rw [hb]; simp [ht])) hw.2 hsize]
  have hr3 := hr2.right
  simp only [Token.bits] at hr3 hlb
  have hlast : data.length * 8 > s'.pos + b.head.length + (ts.flatMap (Token.bits b.chars.code b.dists.code)).length := by
    rcases hroom1 with hr | hr
    · omega
    · have h1 : 0 < (Token.bits b.chars.code b.dists.code .stop).length := List.length_pos_of_ne_nil (hr _ (by rw [hb]; simp))
      simp only [Token.bits] at h1
      omega
  rw [loop, if_pos ⟨hlast, hsize⟩,
    bind_ok (token_at data b hbok _ ⟨rfl, rfl⟩ (by simp only [hb, List.length_append]; simp) .stop (by rw [hb]; simp) hr3)]
  simp only [Token.char]
  rw [if_neg (by decide)]
  simp

/-- **C76** without an end mark: if the data ends with the last block, the result is what the blocks stand for. -/
theorem C76_expand_exact (data : Bytes) (size : Option Nat) (bs : List Block) (hbits : bitsOf data = bs.flatMap Block.bits)
    (hok : ∀ b ∈ bs, b.Ok) (hstop : Token.stop ∉ allTokens bs) (hroom : Room bs) (hw : Within [] (allTokens bs))
    (hsize : ∀ m ∈ size, (play [] (allTokens bs)).length ≤ m) : expand data size = .ok (play [] (allTokens bs)) := by
  obtain ⟨n, s', -, b, c⟩ := expand_blocks data size bs [] (by simpa using hbits) hok hstop (.inr hroom) hw hsize
  rw [c, loop, if_neg]
  have hl := congrArg List.length hbits
  rw [bitsOf_length] at hl
  intro h
  have := h.1
  omega

/-- **C76** with filling bits after the last block and no end mark: what the blocks stand for comes first. (The caller takes as many
values as there are stitches.) -/
theorem C76_expand_prefix (data : Bytes) (size : Option Nat) (bs : List Block) (pad : List Bool) (r : List Nat)
    (hbits : bitsOf data = bs.flatMap Block.bits ++ pad) (hok : ∀ b ∈ bs, b.Ok) (hstop : Token.stop ∉ allTokens bs)
    (hroom : pad ≠ [] ∨ Room bs) (hw : Within [] (allTokens bs)) (hsize : ∀ m ∈ size, (play [] (allTokens bs)).length ≤ m)
    (h : expand data size = .ok r) : play [] (allTokens bs) <+: r := by
  obtain ⟨n, s', -, -, c⟩ := expand_blocks data size bs pad hbits hok hstop hroom hw hsize
  rw [c] at h
  exact loop_prefix _ _ _ _ _ _ h

instance (c : Code) (v : Nat) : Decidable (c.Has v) := by cases c <;> unfold Code.Has <;> infer_instance

instance (i : Item) : Decidable i.Ok := by cases i <;> unfold Item.Ok <;> infer_instance

instance (t : Token) : Decidable t.Ok := by cases t <;> unfold Token.Ok <;> infer_instance

instance (a b : Code) (t : Token) : Decidable (t.Coded a b) := by cases t <;> unfold Token.Coded <;> infer_instance

instance (t : Table) : Decidable t.Ok := by cases t <;> unfold Table.Ok <;> infer_instance

instance (c : Code) (t : CharTable) : Decidable (t.Ok c) := by cases t <;> unfold CharTable.Ok <;> infer_instance

/-- A block with all three tables: two bytes and a copy of four. -/
def demoBlock : Block where
  lens := .lengths [1, 0, 2, 0, 2]
  skip := 1
  chars := .items [.zero, .length 2, .length 2, .longRun 254, .length 2, .longRun 252, .length 2]
  dists := .one 1
  tokens := [.byte 1, .byte 2, .copy 4 2] ++ [.stop]

example : expand [0, 4, 41, 9, 95, 247, 206, 174, 116, 96, 8, 221] none = .ok [1, 2, 1, 2, 1, 2] := by
  have hok : demoBlock.Ok :=
    { some := by decide
      few := by decide
      lens := by simp [demoBlock, Table.Ok]
      skip := by simp [demoBlock, Table.SkipOk]
      chars := by decide +kernel
      dists := by decide +kernel
      tokens := by decide +kernel }
  refine C76_expand _ none [] demoBlock [.byte 1, .byte 2, .copy 4 2] [true, false, true] (by decide +kernel) ?_ rfl
    (by decide) (.inl (by decide)) ?_ (fun _ h => nomatch h)
  · intro x hx
    simp only [List.nil_append, List.mem_singleton] at hx
    subst hx
    exact hok
  · simp [allTokens, Within]

end Compress
end Emb
