import Verif.Compress
import Verif.Format

/-!
# C17: expanding what was compressed
-/

namespace Emb
namespace Compress

theorem bind_ok {ε α β : Type} {x : Except ε α} {a : α} (h : x = .ok a) (f : α → Except ε β) : (x >>= f) = f a := by
  subst h; rfl

theorem bind_ok_iff {ε α β : Type} {x : Except ε α} {f : α → Except ε β} {r : β} (h : (x >>= f) = .ok r) :
    ∃ a, x = .ok a ∧ f a = .ok r := by
  cases x with
  | error e => cases h
  | ok a => exact ⟨a, rfl, h⟩

theorem bind_ne {α β : Type} {x : Except Err α} {f : α → Except Err β} (h1 : x ≠ .error .steps)
    (h2 : ∀ a, x = .ok a → f a ≠ .error .steps) : (x >>= f) ≠ .error .steps := by
  cases x with
  | error e => exact fun h => h1 (by injection h with h; rw [h])
  | ok a => exact h2 a rfl

/-! ## Bits -/

theorem getBits_lt (data : Bytes) (pos n : Nat) : getBits data pos n < 2 ^ n := by
  unfold getBits
  by_cases h : n = 0
  · rw [if_pos h]; positivity
  · rw [if_neg h]; exact Nat.mod_lt _ (by positivity)

/-- Sixteen bits at a byte boundary begin with that byte. -/
theorem getBits_byte (pre rest : Bytes) (b : Int) (hb : IsByte b) :
    getBits (pre ++ b :: rest) (8 * pre.length) 16 / 256 = b.toNat := by
  unfold getBits
  rw [if_neg (by decide)]
  have e1 : (8 * pre.length + 16 - 1) / 8 + 1 - 8 * pre.length / 8 = 2 := by omega
  have e2 : 8 * pre.length / 8 = pre.length := by omega
  have e3 : (8 - (8 * pre.length + 16 - 1 + 1) % 8) % 8 = 0 := by omega
  simp only [e1, e3]
  simp only [e2, window, Nat.add_zero, pow_zero, Nat.div_one]
  have e4 : (pre ++ b :: rest)[pre.length]? = some b := by simp
  rw [e4]
  obtain ⟨h1, h2⟩ := hb
  have e5 : ((some b).getD 0 % 256).toNat = b.toNat := by simp only [Option.getD_some]; omega
  rw [e5]
  have : (((pre ++ b :: rest)[pre.length + 1]?).getD 0 % 256).toNat < 256 := by omega
  omega

/-! ## The block written by `compress` -/

theorem charLoop_const (data : Bytes) (v : Nat) (hv : 3 ≤ v) (pos : Nat) (n index : Nat) (ls : List Nat)
    (h : ls.length ≤ index + n) (hi : index ≤ ls.length) :
    charLoop data (.const v) n index ls pos = .ok (ls.take index ++ List.replicate (ls.length - index) (v - 2), pos) := by
  induction n generalizing index ls with
  | zero =>
    have : index = ls.length := by omega
    subst this
    simp [charLoop]
  | succ n ih =>
    unfold charLoop
    by_cases c : index < ls.length
    · rw [if_pos c]
      simp only [Huffman.lookup, Huffman.const]
      rw [bind_ok rfl]
      simp only
      rw [if_neg (by omega), if_neg (by omega), if_neg (by omega)]
      have e := ih (index + 1) (ls.set index (v - 2)) (by simp; omega) (by simp; omega)
      simp only [Huffman.const] at e
      refine e.trans ?_
      congr 2
      rw [List.length_set, List.take_set, List.take_add_one, List.getElem?_eq_getElem c,
        List.set_append_right _ _ (by simp)]
      have e2 : ls.length - index = (ls.length - (index + 1)) + 1 := by omega
      rw [e2, List.replicate_succ]
      simp [Nat.min_eq_left hi]
    · rw [if_neg c]
      have : index = ls.length := by omega
      subst this
      simp

/-- The code of `compress`: every byte value with eight bits. -/
def byteHuffman : Huffman := ⟨0, List.replicate 256 8, some (List.range 256), 8⟩

theorem build_bytes : Huffman.build (List.replicate 256 8) 0 = byteHuffman := by decide +kernel

theorem lookup_byte (w : Nat) (h : w < 2 ^ 16) : byteHuffman.lookup w = .ok (w / 256, 8) := by
  have h2 : w / 256 < 256 := by omega
  have e : (List.range 256)[w / 2 ^ (16 - 8)]? = some (w / 256) := by
    have : w / 2 ^ (16 - 8) = w / 256 := by norm_num
    rw [this, List.getElem?_eq_getElem (by simpa using h2), List.getElem_range]
  have e2 : (List.replicate 256 8).getD (w / 256) 0 = 8 := by
    rw [List.getD_eq_getElem?_getD, List.getElem?_replicate, if_pos h2]; rfl
  unfold Huffman.lookup byteHuffman
  simp only [e, e2]
  rfl

/-- The code for distances, not used by `compress`d data. -/
def distHuffman : Huffman := ⟨0, [11], some [0], 11⟩

theorem loadBlock_compress (a b : Int) (d : Bytes) :
    loadBlock (a :: b :: 0x02 :: 0xA0 :: 0x01 :: 0xFE :: d) .init =
      .ok ⟨48, ((a % 256).toNat * 256 + (b % 256).toNat : Nat), byteHuffman, distHuffman⟩ := by
  have e1 : loadLengthHuffman (a :: b :: 0x02 :: 0xA0 :: 0x01 :: 0xFE :: d) 16 = .ok (.const 10, 26) := by
    have f1 : getBits (a :: b :: 0x02 :: 0xA0 :: 0x01 :: 0xFE :: d) 16 5 = 0 := by norm_num [getBits, window]; rfl
    have f2 : getBits (a :: b :: 0x02 :: 0xA0 :: 0x01 :: 0xFE :: d) 21 5 = 10 := by norm_num [getBits, window]; rfl
    unfold loadLengthHuffman
    simp only [f1, f2, if_pos]
  have e2 : loadCharHuffman (a :: b :: 0x02 :: 0xA0 :: 0x01 :: 0xFE :: d) (.const 10) 26 = .ok (byteHuffman, 35) := by
    have f1 : getBits (a :: b :: 0x02 :: 0xA0 :: 0x01 :: 0xFE :: d) 26 9 = 256 := by norm_num [getBits, window]; rfl
    unfold loadCharHuffman
    simp only [f1]
    rw [if_neg (by decide), charLoop_const _ 10 (by decide) _ _ _ _ (by rw [List.length_replicate])
      (Nat.zero_le _), bind_ok rfl]
    simp only [List.take_zero, List.nil_append, List.length_replicate, Nat.sub_zero]
    rw [build_bytes]
  have e3 : loadDistHuffman (a :: b :: 0x02 :: 0xA0 :: 0x01 :: 0xFE :: d) 35 = (distHuffman, 48) := by
    have f1 : getBits (a :: b :: 0x02 :: 0xA0 :: 0x01 :: 0xFE :: d) 35 5 = 1 := by norm_num [getBits, window]
    have f2 : getBits (a :: b :: 0x02 :: 0xA0 :: 0x01 :: 0xFE :: d) 40 3 = 7 := by norm_num [getBits, window]; rfl
    have f3 : getBits (a :: b :: 0x02 :: 0xA0 :: 0x01 :: 0xFE :: d) 43 1 = 1 := by norm_num [getBits, window]; rfl
    have f4 : getBits (a :: b :: 0x02 :: 0xA0 :: 0x01 :: 0xFE :: d) 44 1 = 1 := by norm_num [getBits, window]; rfl
    have f5 : getBits (a :: b :: 0x02 :: 0xA0 :: 0x01 :: 0xFE :: d) 45 1 = 1 := by norm_num [getBits, window]; rfl
    have f6 : getBits (a :: b :: 0x02 :: 0xA0 :: 0x01 :: 0xFE :: d) 46 1 = 1 := by norm_num [getBits, window]; rfl
    have f7 : getBits (a :: b :: 0x02 :: 0xA0 :: 0x01 :: 0xFE :: d) 47 1 = 0 := by norm_num [getBits, window]; rfl
    simp only [loadDistHuffman, f1, distLoop, varLength, f2, ones, f3, f4, f5, f6, f7, one_ne_zero, zero_ne_one,
      if_false, if_true, ne_eq, not_true_eq_false]
    decide +kernel
  have e4 : getBits (a :: b :: 0x02 :: 0xA0 :: 0x01 :: 0xFE :: d) 0 16 = (a % 256).toNat * 256 + (b % 256).toNat := by
    unfold getBits
    rw [if_neg (by decide)]
    have : window (a :: b :: 0x02 :: 0xA0 :: 0x01 :: 0xFE :: d) (0 / 8) ((0 + 16 - 1) / 8 + 1 - 0 / 8) =
        (a % 256).toNat * 256 + (b % 256).toNat := by
      norm_num [window]
    refine (congrArg (fun v => v / 2 ^ ((8 - (0 + 16 - 1 + 1) % 8) % 8) % 2 ^ 16) this).trans ?_
    have h1 : (a % 256).toNat < 256 := by omega
    have h2 : (b % 256).toNat < 256 := by omega
    norm_num
    omega
  unfold loadBlock
  simp only [State.init]
  rw [Nat.zero_add, bind_ok e1, bind_ok e2]
  simp only [e3, e4]

theorem loop_bytes (size : Option Nat) (D : Huffman) (rest pre : Bytes) (hb : ∀ b ∈ rest, IsByte b) (k : Nat) (block : Int)
    (hbl : (rest.length : Int) ≤ block) (hk : rest.length < k) (out : List Nat)
    (hs : ∀ m ∈ size, out.length + rest.length ≤ m + 1) :
    loop (pre ++ rest) size k ⟨8 * pre.length, block, byteHuffman, D⟩ out = .ok (out ++ rest.map Int.toNat) := by
  induction rest generalizing pre k block out with
  | nil =>
    obtain ⟨k, rfl⟩ : ∃ j, k = j + 1 := ⟨k - 1, by simp at hk; omega⟩
    unfold loop
    rw [if_neg (by simp; omega)]
    simp
  | cons b rest ih =>
    obtain ⟨k, rfl⟩ : ∃ j, k = j + 1 := ⟨k - 1, by simp at hk; omega⟩
    have hb1 : IsByte b := hb b (by simp)
    simp only [List.length_cons] at hbl hk hs
    unfold loop
    rw [if_pos ⟨by simp; omega, fun m hm => by have := hs m hm; omega⟩]
    have e : token (pre ++ b :: rest) ⟨8 * pre.length, block, byteHuffman, D⟩ =
        .ok (b.toNat, ⟨8 * (pre ++ [b]).length, block - 1, byteHuffman, D⟩) := by
      unfold token
      rw [if_neg (by simp only; omega), bind_ok rfl]
      simp only
      rw [lookup_byte _ (getBits_lt _ _ 16), bind_ok rfl, getBits_byte _ _ _ hb1]
      simp [Nat.mul_add]
    rw [bind_ok e]
    simp only
    obtain ⟨h1, h2⟩ := hb1
    rw [if_pos (by omega)]
    have e2 := ih (pre ++ [b]) (fun x hx => hb x (by simp [hx])) k (block - 1) (by omega) (by omega) (out ++ [b.toNat])
      (fun m hm => by have := hs m hm; simp; omega)
    rw [List.append_assoc] at e2
    simp only [List.singleton_append] at e2
    rw [e2]
    simp

/-- **C17** (part). `expand(compress(data))` gives back every byte string of 1 to 65535 bytes whose length has a low byte that is
not smaller than its high byte, with or without the size argument. Missing: the empty string and lengths whose bytes are
the other way round or that need more than two bytes, for which it is false (`C17_fails_empty`, `C17_fails_256`): the
length is written low byte first but read high byte first as the number of elements of the block. -/
theorem C17_roundtrip_partial (d : Bytes) (hb : ∀ b ∈ d, IsByte b) (h0 : d ≠ []) (h1 : d.length < 65536)
    (h2 : d.length / 256 ≤ d.length % 256) (size : Option Nat) (hs : ∀ m ∈ size, d.length ≤ m + 1) :
    expand (compress d) size = .ok (d.map Int.toNat) := by
  have hpos : 0 < d.length := List.length_pos_of_ne_nil h0
  unfold expand
  have e := loadBlock_compress ((d.length : Int) % 256) ((d.length : Int) / 256 % 256) d
  have hd : compress d =
      [(d.length : Int) % 256, (d.length : Int) / 256 % 256, 0x02, 0xA0, 0x01, 0xFE] ++ d := rfl
  set s : State := ⟨48, _, byteHuffman, distHuffman⟩ with hsdef
  have hblock : (d.length : Int) ≤ s.block := by rw [hsdef]; simp only; omega
  have key := loop_bytes size distHuffman d
    [(d.length : Int) % 256, (d.length : Int) / 256 % 256, 0x02, 0xA0, 0x01, 0xFE] hb
    ((compress d).length * 8 * 65536 + 1) s.block hblock (by rw [hd]; simp; omega) [] (by simpa using hs)
  simp only [List.nil_append] at key
  rw [← key, ← hd]
  have t : token (compress d) .init = token (compress d) s := by
    unfold token
    rw [if_pos (by decide), if_neg (by omega), hd]
    simp only [List.cons_append, List.nil_append]
    rw [bind_ok e, bind_ok rfl]
  unfold loop
  rw [if_pos ⟨by rw [hd]; simp [State.init], by simp⟩, if_pos ⟨by rw [hd]; simp; omega, by simp⟩, t]
  rfl

example : expand (compress ((List.range 200).map (fun i : Nat => (i : Int)))) none = .ok (List.range 200) := by
  have h := C17_roundtrip_partial ((List.range 200).map (fun i : Nat => (i : Int)))
    (by intro b hb; simp only [List.mem_map, List.mem_range] at hb; obtain ⟨i, h, rfl⟩ := hb; constructor <;> omega)
    (by decide) (by simp) (by simp) none (by simp)
  rw [h]; decide +kernel

/-- C17 is false of the code for the empty string: a byte appears. -/
theorem C17_fails_empty : expand (compress []) none = .ok [0] := by decide +kernel

/-- C17 is false of the code for 256 zero bytes: only 39 come back. -/
theorem C17_fails_256 : expand (compress (List.replicate 256 0)) none = .ok (List.replicate 39 0) := by decide +kernel

/-! ## Termination -/

theorem ones_le (data : Bytes) (n pos : Nat) : pos ≤ (ones data n pos).2 := by
  induction n generalizing pos with
  | zero => exact le_refl _
  | succ n ih =>
    unfold ones
    have := ih (pos + 1)
    split_ifs <;> simp only <;> omega

theorem varLength_le (data : Bytes) (pos : Nat) : pos ≤ (varLength data pos).2 := by
  have := ones_le data 13 (pos + 3)
  unfold varLength
  split_ifs <;> simp only <;> omega

theorem lengthLoop_ne (data : Bytes) (n i : Nat) (ls : List Nat) (pos : Nat) :
    lengthLoop data n i ls pos ≠ .error .steps ∧
    ∀ r, lengthLoop data n i ls pos = .ok r → pos ≤ r.2 ∧ r.1.length = ls.length := by
  induction n generalizing i ls pos with
  | zero => exact ⟨nofun, fun r h => by cases h; exact ⟨le_refl _, rfl⟩⟩
  | succ n ih =>
    unfold lengthLoop
    by_cases c : i < ls.length
    · rw [if_pos c]
      simp only
      generalize hi : (if i = 3 then i + getBits data pos 2 else i) = j
      generalize hp : (if i = 3 then pos + 2 else pos) = p
      have hle : pos ≤ p := by rw [← hp]; split_ifs <;> omega
      by_cases c2 : j < ls.length
      · rw [if_pos c2]
        have h := ih (j + 1) (ls.set j (varLength data p).1) (varLength data p).2
        have := varLength_le data p
        refine ⟨h.1, fun r hr => ?_⟩
        obtain ⟨h3, h4⟩ := h.2 r hr
        exact ⟨by omega, by rw [h4, List.length_set]⟩
      · rw [if_neg c2]
        exact ⟨nofun, nofun⟩
    · rw [if_neg c]
      exact ⟨nofun, fun r h => by cases h; exact ⟨le_refl _, rfl⟩⟩

/-- The step counter of `lengthLoop` does not matter once it covers the entries still to be visited. -/
theorem lengthLoop_steps (data : Bytes) (n i : Nat) (ls : List Nat) (pos : Nat) (h : ls.length ≤ i + n) :
    lengthLoop data (n + 1) i ls pos = lengthLoop data n i ls pos := by
  induction n generalizing i ls pos with
  | zero => unfold lengthLoop; rw [if_neg (by omega)]
  | succ n ih =>
    rw [lengthLoop, lengthLoop]
    by_cases c : i < ls.length
    · rw [if_pos c, if_pos c]
      simp only
      rw [ih]
      rw [List.length_set]
      split_ifs <;> omega
    · rw [if_neg c, if_neg c]

theorem lookup_ne (h : Huffman) (w : Nat) : h.lookup w ≠ .error .steps := by
  unfold Huffman.lookup
  split
  · exact fun h => by cases h
  · split_ifs
    · exact fun h => by cases h
    · split <;> exact fun h => by cases h

theorem charLoop_ne (data : Bytes) (lh : Huffman) (n i : Nat) (ls : List Nat) (pos : Nat) :
    charLoop data lh n i ls pos ≠ .error .steps ∧
    ∀ r, charLoop data lh n i ls pos = .ok r → pos ≤ r.2 ∧ r.1.length = ls.length := by
  induction n generalizing i ls pos with
  | zero => exact ⟨nofun, fun r h => by cases h; exact ⟨le_refl _, rfl⟩⟩
  | succ n ih =>
    unfold charLoop
    by_cases c : i < ls.length
    · rw [if_pos c]
      have key : ∀ h : Nat × Nat,
          (if h.1 = 0 then charLoop data lh n (i + 1) ls (pos + h.2)
            else if h.1 = 1 then charLoop data lh n (i + (3 + getBits data (pos + h.2) 4)) ls (pos + h.2 + 4)
            else if h.1 = 2 then charLoop data lh n (i + (20 + getBits data (pos + h.2) 9)) ls (pos + h.2 + 9)
            else charLoop data lh n (i + 1) (ls.set i (h.1 - 2)) (pos + h.2)) ≠ .error .steps ∧
          ∀ r, (if h.1 = 0 then charLoop data lh n (i + 1) ls (pos + h.2)
            else if h.1 = 1 then charLoop data lh n (i + (3 + getBits data (pos + h.2) 4)) ls (pos + h.2 + 4)
            else if h.1 = 2 then charLoop data lh n (i + (20 + getBits data (pos + h.2) 9)) ls (pos + h.2 + 9)
            else charLoop data lh n (i + 1) (ls.set i (h.1 - 2)) (pos + h.2)) = .ok r →
            pos ≤ r.2 ∧ r.1.length = ls.length := by
        intro h
        have wk : ∀ j l q, pos ≤ q → l.length = ls.length → charLoop data lh n j l q ≠ .error .steps ∧
            ∀ r, charLoop data lh n j l q = .ok r → pos ≤ r.2 ∧ r.1.length = ls.length := by
          intro j l q hq hl
          have := ih j l q
          refine ⟨this.1, fun r hr => ?_⟩
          obtain ⟨a, b⟩ := this.2 r hr
          exact ⟨by omega, by omega⟩
        split_ifs
        · exact wk _ _ _ (by omega) rfl
        · exact wk _ _ _ (by omega) rfl
        · exact wk _ _ _ (by omega) rfl
        · exact wk _ _ _ (by omega) (by simp)
      refine ⟨bind_ne (lookup_ne _ _) (fun a _ => (key a).1), fun r hr => ?_⟩
      obtain ⟨a, _, h⟩ := bind_ok_iff hr
      exact (key a).2 r h
    · rw [if_neg c]
      exact ⟨nofun, fun r h => by cases h; exact ⟨le_refl _, rfl⟩⟩

/-- The step counter of `charLoop` does not matter once it covers the entries still to be visited. -/
theorem charLoop_steps (data : Bytes) (lh : Huffman) (n i : Nat) (ls : List Nat) (pos : Nat) (h : ls.length ≤ i + n) :
    charLoop data lh (n + 1) i ls pos = charLoop data lh n i ls pos := by
  induction n generalizing i ls pos with
  | zero => unfold charLoop; rw [if_neg (by omega)]
  | succ n ih =>
    rw [charLoop, charLoop]
    by_cases c : i < ls.length
    · rw [if_pos c, if_pos c]
      congr 1
      funext a
      simp only
      rw [ih (i + 1) ls _ (by omega), ih (i + (3 + _)) ls _ (by omega), ih (i + (20 + _)) ls _ (by omega),
        ih (i + 1) (ls.set i _) _ (by rw [List.length_set]; omega)]
    · rw [if_neg c, if_neg c]

theorem loadLength_ne (data : Bytes) (pos : Nat) : loadLengthHuffman data pos ≠ .error .steps ∧
    ∀ r, loadLengthHuffman data pos = .ok r → pos ≤ r.2 := by
  unfold loadLengthHuffman
  simp only
  split_ifs
  · exact ⟨nofun, fun r h => by cases h; simp⟩
  · refine ⟨bind_ne (lengthLoop_ne _ _ _ _ _).1 (fun a _ h => by cases h), fun r hr => ?_⟩
    obtain ⟨a, h1, h2⟩ := bind_ok_iff hr
    cases h2
    have := ((lengthLoop_ne _ _ _ _ _).2 a h1).1
    simp only; omega

theorem tableRow_lt (b s : Nat) (i : Nat) (ls : List Nat) : ∀ v ∈ tableRow b s i ls, v < i + ls.length := by
  induction ls generalizing i with
  | nil => simp [tableRow]
  | cons l ls ih =>
    intro v hv
    unfold tableRow at hv
    rw [List.mem_append] at hv
    rcases hv with hv | hv
    · by_cases c : l = b
      · rw [if_pos c] at hv
        obtain rfl := (List.mem_replicate.1 hv).2
        simp
      · rw [if_neg c] at hv; cases hv
    · have := ih (i + 1) v hv
      simp only [List.length_cons]; omega

theorem build_lookup_lt (ls : List Nat) (d : Nat) (w : Nat) (v : Nat × Nat) (h : (Huffman.build ls d).lookup w = .ok v) :
    v.1 < ls.length := by
  unfold Huffman.lookup Huffman.build at h
  simp only at h
  split_ifs at h
  split at h
  · cases h
  · rename_i x hx
    cases h
    have hm := List.mem_of_getElem? hx
    rw [List.mem_flatMap] at hm
    obtain ⟨k, _, hm⟩ := hm
    simpa using tableRow_lt _ _ _ _ _ hm

theorem const_lookup (v w : Nat) : (Huffman.const v).lookup w = .ok (v, 0) := rfl

theorem loadChar_ne (data : Bytes) (lh : Huffman) (pos : Nat) : loadCharHuffman data lh pos ≠ .error .steps ∧
    ∀ r, loadCharHuffman data lh pos = .ok r → pos ≤ r.2 ∧ ∀ w v, r.1.lookup w = .ok v → v.1 ≤ 511 := by
  unfold loadCharHuffman
  simp only
  have b1 := getBits_lt data pos 9
  have b2 := getBits_lt data (pos + 9) 9
  split_ifs
  · refine ⟨nofun, fun r h => ?_⟩
    cases h
    refine ⟨by simp, fun w v hv => ?_⟩
    rw [const_lookup] at hv
    cases hv
    simp only
    omega
  · refine ⟨bind_ne (charLoop_ne _ _ _ _ _ _).1 (fun a _ h => by cases h), fun r hr => ?_⟩
    obtain ⟨a, h1, h2⟩ := bind_ok_iff hr
    cases h2
    have := (charLoop_ne _ _ _ _ _ _).2 a h1
    refine ⟨by simp only; omega, fun w v hv => ?_⟩
    have h3 := build_lookup_lt _ _ _ _ hv
    rw [this.2, List.length_replicate] at h3
    omega

theorem distLoop_le (data : Bytes) (n pos : Nat) : pos ≤ (distLoop data n pos).2 := by
  induction n generalizing pos with
  | zero => exact le_refl _
  | succ n ih =>
    unfold distLoop
    have := ih (varLength data pos).2
    have := varLength_le data pos
    simp only; omega

theorem loadDist_le (data : Bytes) (pos : Nat) : pos ≤ (loadDistHuffman data pos).2 := by
  unfold loadDistHuffman
  simp only
  have := distLoop_le data (getBits data pos 5) (pos + 5)
  split_ifs <;> simp only <;> omega

/-- Codes of at most nine bits: what is decoded as a token is at most 511. -/
def Small (h : Huffman) : Prop := ∀ w v, h.lookup w = .ok v → v.1 ≤ 511

theorem loadBlock_ne (data : Bytes) (s : State) : loadBlock data s ≠ .error .steps ∧
    ∀ r, loadBlock data s = .ok r → s.pos + 16 ≤ r.pos ∧ 0 ≤ r.block ∧ r.block < 65536 ∧ Small r.chars := by
  unfold loadBlock
  refine ⟨bind_ne (loadLength_ne _ _).1 (fun a _ => bind_ne (loadChar_ne _ _ _).1 (fun b _ h => by cases h)),
    fun r hr => ?_⟩
  obtain ⟨a, h1, hr⟩ := bind_ok_iff hr
  obtain ⟨b, h2, hr⟩ := bind_ok_iff hr
  cases hr
  have k1 := (loadLength_ne _ _).2 a h1
  have k2 := (loadChar_ne _ _ _).2 b h2
  have k3 := loadDist_le data b.2
  have k4 := getBits_lt data s.pos 16
  refine ⟨by simp only; omega, by simp, by simp only; omega, k2.2⟩

/-- What `token` does to the state: nothing moves backwards, and either the block shrinks or at least 16 bits are used up. -/
theorem token_ne (data : Bytes) (s : State) (hs : s.block ≤ 0 ∨ Small s.chars) : token data s ≠ .error .steps ∧
    ∀ r, token data s = .ok r → r.1 ≤ 511 ∧ Small r.2.chars ∧
      ((0 < s.block ∧ r.2.block = s.block - 1 ∧ s.pos ≤ r.2.pos) ∨
       (s.block ≤ 0 ∧ r.2.block < 65535 ∧ s.pos + 16 ≤ r.2.pos)) := by
  unfold token
  by_cases c : s.block ≤ 0
  · rw [if_pos c]
    refine ⟨bind_ne (loadBlock_ne _ _).1 (fun a _ => bind_ne (lookup_ne _ _) (fun b _ h => by cases h)), fun r hr => ?_⟩
    obtain ⟨a, h1, hr⟩ := bind_ok_iff hr
    obtain ⟨b, h2, hr⟩ := bind_ok_iff hr
    cases hr
    obtain ⟨k1, k2, k3, k4⟩ := (loadBlock_ne _ _).2 a h1
    exact ⟨k4 _ _ h2, k4, .inr ⟨c, by simp only; omega, by simp only; omega⟩⟩
  · rw [if_neg c]
    refine ⟨bind_ne nofun (fun a _ => bind_ne (lookup_ne _ _) (fun b _ h => by cases h)), fun r hr => ?_⟩
    obtain ⟨a, h1, hr⟩ := bind_ok_iff hr
    cases h1
    obtain ⟨b, h2, hr⟩ := bind_ok_iff hr
    cases hr
    have hs := hs.resolve_left c
    exact ⟨hs _ _ h2, hs, .inl ⟨by omega, rfl, by simp⟩⟩

theorem position_ne (data : Bytes) (s : State) : position data s ≠ .error .steps ∧
    ∀ r, position data s = .ok r → s.pos ≤ r.2.pos ∧ r.2.block = s.block ∧ r.2.chars = s.chars := by
  unfold position
  refine ⟨bind_ne (lookup_ne _ _) (fun a _ h => by split_ifs at h), fun r hr => ?_⟩
  obtain ⟨a, _, hr⟩ := bind_ok_iff hr
  split_ifs at hr <;> cases hr
  · exact ⟨Nat.le_add_right _ _, rfl, rfl⟩
  · exact ⟨by simp only; omega, rfl, rfl⟩

theorem copyLoop_ne (n : Nat) (i : Int) (out : List Nat) : copyLoop n i out ≠ .error .steps ∧
    ∀ r, copyLoop n i out = .ok r → r.length = out.length + n ∧ ∀ v ∈ r, v ∈ out := by
  induction n generalizing i out with
  | zero => exact ⟨nofun, fun r h => by cases h; exact ⟨rfl, fun v h => h⟩⟩
  | succ n ih =>
    unfold copyLoop
    split
    · exact ⟨nofun, nofun⟩
    · rename_i v hv
      have h := ih (i + 1) (out ++ [v])
      refine ⟨h.1, fun r hr => ?_⟩
      obtain ⟨h1, h2⟩ := h.2 r hr
      refine ⟨by rw [h1]; simp; omega, fun x hx => ?_⟩
      have hx := h2 x hx
      rw [List.mem_append, List.mem_singleton] at hx
      rcases hx with hx | rfl
      · exact hx
      · unfold pyGet at hv
        simp only at hv
        split_ifs at hv <;> split at hv <;> cases hv <;> rename_i hm <;> exact List.mem_of_getElem? hm

theorem copyBack_ne (length back : Nat) (out : List Nat) : copyBack length back out ≠ .error .steps ∧
    ∀ r, copyBack length back out = .ok r → out.length ≤ r.length ∧ r.length ≤ out.length + length ∧ ∀ v ∈ r, v ∈ out := by
  unfold copyBack
  simp only
  by_cases c : back > length
  · rw [if_pos c]
    refine ⟨nofun, fun r h => ?_⟩
    cases h
    refine ⟨by simp, ?_, fun v hv => ?_⟩
    · unfold pySlice
      rw [List.length_append, List.length_take, List.length_drop]
      have : sliceBound out.length ((out.length : Int) - back + length) -
          sliceBound out.length ((out.length : Int) - back) ≤ length := by
        unfold sliceBound
        split_ifs <;> omega
      omega
    · rw [List.mem_append] at hv
      rcases hv with hv | hv
      · exact hv
      · exact List.mem_of_mem_drop (List.mem_of_mem_take hv)
  · rw [if_neg c]
    have h := copyLoop_ne length ((out.length : Int) - back) out
    refine ⟨h.1, fun r hr => ?_⟩
    obtain ⟨h1, h2⟩ := h.2 r hr
    exact ⟨by omega, by omega, h2⟩

theorem measure_aux {X Y Z b c n : Nat} (h1 : X ≤ Y) (h2 : Y ≤ Z) (h3 : Z + b < n + 1) (h4 : c + 1 ≤ b) : X + c < n := by
  omega

theorem measure_aux2 {X Y Z b c n k : Nat} (h1 : X ≤ Y) (h2 : Y + k ≤ Z) (h3 : Z + b < n + 1) (h4 : c < k) : X + c < n := by
  omega

theorem loop_ne (data : Bytes) (size : Option Nat) (n : Nat) (s : State) (out : List Nat)
    (hs : s.block ≤ 0 ∨ Small s.chars) (hbl : s.block < 65536)
    (hn : (data.length * 8 - s.pos) * 65536 + s.block.toNat < n) : loop data size n s out ≠ .error .steps := by
  induction n generalizing s out with
  | zero => omega
  | succ n ih =>
    unfold loop
    by_cases c : data.length * 8 > s.pos ∧ (∀ m ∈ size, out.length ≤ m)
    · rw [if_pos c]
      have c1 := c.1
      refine bind_ne (token_ne data s hs).1 (fun t ht => ?_)
      obtain ⟨-, k1, k2⟩ := (token_ne data s hs).2 t ht
      have meas : t.2.block < 65536 ∧ ∀ p, t.2.pos ≤ p → (data.length * 8 - p) * 65536 + t.2.block.toNat < n := by
        generalize data.length * 8 = T at *
        generalize t.2.block = B at *
        generalize t.2.pos = P at *
        have e : ∀ p, P ≤ p → (T - p) * 65536 ≤ (T - P) * 65536 := fun p hp => Nat.mul_le_mul_right _ (by omega)
        rcases k2 with ⟨a1, a2, a3⟩ | ⟨a1, a2, a3⟩
        · have e2 : (T - P) * 65536 ≤ (T - s.pos) * 65536 := Nat.mul_le_mul_right _ (by omega)
          exact ⟨by omega, fun p hp => measure_aux (e p hp) e2 hn (by omega)⟩
        · have e2 : (T - P + 1) * 65536 ≤ (T - s.pos) * 65536 := Nat.mul_le_mul_right _ (by omega)
          rw [Nat.add_mul, Nat.one_mul] at e2
          exact ⟨by omega, fun p hp => measure_aux2 (e p hp) e2 hn (by omega)⟩
      split_ifs
      · exact ih t.2 _ (.inr k1) meas.1 (meas.2 _ (le_refl _))
      · exact fun h => by cases h
      · refine bind_ne (position_ne _ _).1 (fun b hb => bind_ne (copyBack_ne _ _ _).1 (fun o _ => ?_))
        obtain ⟨j1, j2, j3⟩ := (position_ne _ _).2 b hb
        exact ih b.2 o (.inr (by rw [j3]; exact k1)) (by rw [j2]; exact meas.1) (by rw [j2]; exact meas.2 _ j1)
    · rw [if_neg c]
      exact fun h => by cases h

/-- `expand` ends on every input, in a result or in a Python exception: the number of iterations of its main loop is at most
65536 per bit of the input, because every iteration uses up a block element or loads a block of at least 16 bits. -/
theorem C17_terminates (data : Bytes) (size : Option Nat) : expand data size ≠ .error .steps := by
  unfold expand
  refine loop_ne data size _ .init [] (.inl (Int.le_of_lt (by decide))) (by decide) ?_
  have : State.init.pos = 0 ∧ State.init.block.toNat = 0 := ⟨rfl, rfl⟩
  rw [this.1, this.2]
  omega

theorem loop_bounds (data : Bytes) (size : Option Nat) (n : Nat) (s : State) (out r : List Nat)
    (hs : s.block ≤ 0 ∨ Small s.chars) (ho : (∀ v ∈ out, v ≤ 255) ∧ ∀ m ∈ size, out.length ≤ m + 258)
    (h : loop data size n s out = .ok r) : (∀ v ∈ r, v ≤ 255) ∧ ∀ m ∈ size, r.length ≤ m + 258 := by
  induction n generalizing s out with
  | zero => cases h
  | succ n ih =>
    unfold loop at h
    by_cases c : data.length * 8 > s.pos ∧ (∀ m ∈ size, out.length ≤ m)
    · rw [if_pos c] at h
      obtain ⟨t, ht, h⟩ := bind_ok_iff h
      obtain ⟨k0, k1, -⟩ := (token_ne data s hs).2 t ht
      split_ifs at h with c1 c2
      · refine ih t.2 _ (.inr k1) ⟨fun v hv => ?_, fun m hm => ?_⟩ h
        · rw [List.mem_append, List.mem_singleton] at hv
          rcases hv with hv | rfl
          · exact ho.1 v hv
          · exact c1
        · have := c.2 m hm
          simp; omega
      · cases h; exact ho
      · obtain ⟨b, hb, h⟩ := bind_ok_iff h
        obtain ⟨o, ho2, h⟩ := bind_ok_iff h
        obtain ⟨j1, j2, j3⟩ := (position_ne _ _).2 b hb
        obtain ⟨i1, i2, i3⟩ := (copyBack_ne _ _ _).2 o ho2
        refine ih b.2 o (.inr (by rw [j3]; exact k1)) ⟨fun v hv => ho.1 v (i3 v hv), fun m hm => ?_⟩ h
        have := c.2 m hm
        omega
    · rw [if_neg c] at h
      cases h; exact ho

/-- Whatever `expand` returns consists of bytes, and with a size argument it exceeds that size by at most one reference (258). -/
theorem C17_bounds (data : Bytes) (size : Option Nat) (r : List Nat) (h : expand data size = .ok r) :
    (∀ v ∈ r, v ≤ 255) ∧ ∀ m ∈ size, r.length ≤ m + 258 :=
  loop_bounds data size _ .init [] r (.inl (Int.le_of_lt (by decide))) ⟨by simp, by simp⟩ h

end Compress
end Emb
