import Verif.Hus
import Verif.Props.ExpandProps
import Verif.Props.Commands

/-!
# C85: HUS files
-/

namespace Emb
namespace Hus
open Compress

/-! ## Specification -/

/-- What a HUS file records: displacements, `y` downwards. -/
inductive Event where
  | stitch (dx dy : Int)
  | jump (dx dy : Int)
  | change (dx dy : Int)
  | trim (dx dy : Int)

def Event.dx : Event → Int
  | .stitch a _ | .jump a _ | .change a _ | .trim a _ => a

def Event.dy : Event → Int
  | .stitch _ b | .jump _ b | .change _ b | .trim _ b => b

/-- The byte of the command stream. -/
def Event.code : Event → Nat
  | .stitch .. => 0x80
  | .jump .. => 0x81
  | .change .. => 0x84
  | .trim .. => 0x88

/-- The displacement as one byte, in two's complement. -/
def twos (v : Int) : Nat := if v < 0 then (256 + v).toNat else v.toNat

/-- The displacements fit in a byte. -/
def Event.Fits (e : Event) : Prop := -128 ≤ e.dx ∧ e.dx ≤ 127 ∧ -128 ≤ -e.dy ∧ -e.dy ≤ 127

/-- The commands the events stand for, from a position, and END; a trim after a movement is a jump and a trim. -/
def drawn (x y : ℚ) : List Event → List Stitch
  | [] => [⟨x, y, 4⟩]
  | .stitch a b :: es => ⟨x + a, y + b, 0⟩ :: drawn (x + a) (y + b) es
  | .jump a b :: es => ⟨x + a, y + b, 1⟩ :: drawn (x + a) (y + b) es
  | .change a b :: es => ⟨x + a, y + b, 5⟩ :: drawn (x + a) (y + b) es
  | .trim a b :: es => (if a = 0 ∧ b = 0 then [] else [⟨x + a, y + b, 1⟩]) ++ ⟨x + a, y + b, 2⟩ :: drawn (x + a) (y + b) es

/-- `data` is a compressed form of `vals`, at most `n` values (C76): blocks of which the last ends with the end mark, and anything after
them; or blocks that fill the data. -/
inductive Packed (data : Bytes) (n : Nat) (vals : List Nat) : Prop
  | ended (bs : List Block) (b : Block) (ts : List Token) (pad : List Bool) (hbits : bitsOf data = (bs ++ [b]).flatMap Block.bits ++ pad)
      (hok : ∀ x ∈ bs ++ [b], x.Ok) (hb : b.tokens = ts ++ [.stop]) (hstop : Token.stop ∉ allTokens bs ++ ts)
      (hroom : pad ≠ [] ∨ Room (bs ++ [b])) (hw : Within [] (allTokens bs ++ ts)) (hv : play [] (allTokens bs ++ ts) = vals)
      (hn : vals.length ≤ n)
  | exact (bs : List Block) (hbits : bitsOf data = bs.flatMap Block.bits) (hok : ∀ b ∈ bs, b.Ok) (hstop : Token.stop ∉ allTokens bs)
      (hroom : Room bs) (hw : Within [] (allTokens bs)) (hv : play [] (allTokens bs) = vals) (hn : vals.length ≤ n)

/-- Nothing, or first a code that is not a command. -/
def Over : List Nat → Prop
  | [] => True
  | c :: _ => c ≠ 0x80 ∧ c ≠ 0x81 ∧ c ≠ 0x84 ∧ c ≠ 0x88

/-! ## Proofs -/

theorem Packed.expand {data : Bytes} {n : Nat} {vals : List Nat} (h : Packed data n vals) : Compress.expand data (some n) = .ok vals := by
  cases h with
  | ended bs b ts pad hbits hok hb hstop hroom hw hv hn =>
    subst hv
    exact C76_expand data (some n) bs b ts pad hbits hok hb hstop hroom hw (by intro m hm; cases hm; exact hn)
  | exact bs hbits hok hstop hroom hw hv hn =>
    subst hv
    exact C76_expand_exact data (some n) bs hbits hok hstop hroom hw (by intro m hm; cases hm; exact hn)

theorem signed8_twos (v : Int) (h1 : -128 ≤ v) (h2 : v ≤ 127) : signed8 (twos v) = v := by
  unfold twos signed8
  split_ifs <;> omega

theorem place_events (es : List Event) (h : ∀ e ∈ es, e.Fits) (tail tx ty : List Nat) (ht : Over tail) (x y : ℚ) :
    place x y (events (es.map Event.code ++ tail) (es.map (fun e => twos e.dx) ++ tx) (es.map (fun e => twos (-e.dy)) ++ ty) ++ [⟨0, 0, END⟩]) =
      drawn x y es := by
  induction es generalizing x y with
  | nil =>
    have : events tail tx ty = [] := by
      unfold events
      split
      · rename_i c cs _ _ _ _
        obtain ⟨h1, h2, h3, h4⟩ := ht
        simp only [if_neg h1, if_neg h2, if_neg h3, if_neg h4]
      · rfl
    simp only [List.map_nil, List.nil_append, this, place, drawn, Int.cast_zero, add_zero]
    rfl
  | cons e es ih =>
    obtain ⟨f1, f2, f3, f4⟩ := h e (by simp)
    have ih := ih (fun e he => h e (by simp [he]))
    have hx := signed8_twos e.dx f1 f2
    have hy : -signed8 (twos (-e.dy)) = e.dy := by rw [signed8_twos _ f3 f4, neg_neg]
    simp only [List.map_cons, List.cons_append, events, hx, hy]
    generalize es.map Event.code ++ tail = C, es.map (fun e => twos e.dx) ++ tx = X, es.map (fun e => twos (-e.dy)) ++ ty = Y at ih ⊢
    cases e with
    | stitch a b => simp [Event.code, place, Event.dx, Event.dy, ih, drawn, STITCH]
    | jump a b => simp [Event.code, place, Event.dx, Event.dy, ih, drawn, JUMP]
    | change a b => simp [Event.code, place, Event.dx, Event.dy, ih, drawn, COLOR_CHANGE]
    | trim a b =>
      by_cases hz : a = 0 ∧ b = 0
      · obtain ⟨rfl, rfl⟩ := hz
        simp [Event.code, place, Event.dx, Event.dy, ih, drawn, TRIM]
      · have hz' : a ≠ 0 ∨ b ≠ 0 := by by_contra hc; push Not at hc; exact hz hc
        have hz2 : ¬ a = 0 ∨ ¬ b = 0 := hz'
        simp only [Event.code, Event.dx, Event.dy, drawn, if_neg hz]
        simp [place, ih, TRIM, JUMP, hz2]

theorem read_colours (idx : List Nat) (ts : List Thread) (h : idx.map (fun i => husThreads[i]?) = ts.map some) (rest : Bytes) :
    colours idx.length (idx.flatMap (fun (i : Nat) => writeInt16le i) ++ rest) = .ok ts := by
  induction idx generalizing ts with
  | nil => cases ts with
    | nil => rfl
    | cons t ts => simp at h
  | cons i idx ih => cases ts with
    | nil => simp at h
    | cons t ts =>
      simp only [List.map_cons, List.cons.injEq] at h
      have hi : i < 29 := by
        have := (List.getElem?_eq_some_iff.1 h.1).1
        exact lt_of_lt_of_eq this (by decide +kernel)
      rw [List.length_cons, List.flatMap_cons, List.append_assoc, colours, (C02_read_write i _).2.1]
      have hm : ((i : Int) % 2 ^ 16).toNat = i := by omega
      show (match husThreads[((i : Int) % 2 ^ 16).toNat]? with | none => _ | some t => _) = _
      rw [hm, h.1, ih ts h.2]
      rfl

theorem slice_mid (a b c : Bytes) (i n : Int) (hi : i = a.length) (hn : n = b.length) : slice (a ++ (b ++ c)) i n = b := by
  subst hi hn
  unfold slice
  rw [if_neg (by omega), Int.toNat_natCast, Int.toNat_natCast, List.drop_left, List.take_left]

theorem slice_end (a b : Bytes) (i : Int) (hi : i = a.length) : slice (a ++ b) i (-1) = b := by
  subst hi
  unfold slice
  rw [if_pos (by decide), Int.toNat_natCast, List.drop_left]

/-! ## C85 -/

/-- **C85**: a HUS file with `n` announced stitches, the colours `idx` and three streams that are compressed forms (C76) of the codes and
the displacements of `es` — and, after them, of nothing or of a code that is no command — is read as the commands `es` stand for and the
threads of the table. Magic number, bounds, text, gaps and what follows the streams do not matter. -/
theorem C85_read (magic box text gap cd xd yd : Bytes) (n : Nat) (idx : List Nat) (ts : List Thread) (es : List Event)
    (tail tx ty : List Nat)
    (hmagic : magic.length = 4) (hbox : box.length = 8) (htext : text.length = 10) (hn : n < 2 ^ 32)
    (hts : idx.map (fun i => husThreads[i]?) = ts.map some) (hes : ∀ e ∈ es, e.Fits) (ht : Over tail)
    (hc : Packed cd n (es.map Event.code ++ tail)) (hx : Packed xd n (es.map (fun e => twos e.dx) ++ tx))
    (hy : Packed yd n (es.map (fun e => twos (-e.dy)) ++ ty))
    (co xo yo : Nat) (hco : co = 42 + 2 * idx.length + gap.length) (hxo : xo = co + cd.length) (hyo : yo = xo + xd.length)
    (hsize : yo < 2 ^ 32) :
    read (magic ++ writeInt32le n ++ writeInt32le idx.length ++ box ++ writeInt32le co ++ writeInt32le xo ++ writeInt32le yo ++ text ++
      idx.flatMap (fun (i : Nat) => writeInt16le i) ++ gap ++ cd ++ xd ++ yd) = .ok { stitches := drawn 0 0 es, threads := ts } := by
  have r4 : ∀ (v : Int) (r : Bytes), readInt32le (writeInt32le v ++ r) = (some (v % 2 ^ 32), r) := fun v r => (C02_read_write v r).2.2.2.2.2.1
  have hidx : (idx.flatMap (fun (i : Nat) => writeInt16le i)).length = 2 * idx.length := by
    clear hts hco
    induction idx with
    | nil => rfl
    | cons i idx ih => rw [List.flatMap_cons, List.length_append, ih, List.length_cons]; show 2 + _ = _; ring
  have s1 : ∀ f, f = magic ++ writeInt32le n ++ writeInt32le idx.length ++ box ++ writeInt32le co ++ writeInt32le xo ++ writeInt32le yo ++ text ++
      idx.flatMap (fun (i : Nat) => writeInt16le i) ++ gap ++ cd ++ xd ++ yd → slice f co (xo - co) = cd ∧ slice f xo (yo - xo) = xd ∧ slice f yo (-1) = yd := by
    rintro f rfl
    have l4 : ∀ v : Int, (writeInt32le v).length = 4 := fun _ => rfl
    refine ⟨?_, ?_, ?_⟩
    · rw [List.append_assoc _ xd yd, List.append_assoc _ cd]
      exact slice_mid _ _ _ _ _ (by simp only [List.length_append, l4, hidx]; omega) (by omega)
    · rw [List.append_assoc _ xd yd]
      exact slice_mid _ _ _ _ _ (by simp only [List.length_append, l4, hidx]; omega) (by omega)
    · exact slice_end _ _ _ (by simp only [List.length_append, l4, hidx]; omega)
  obtain ⟨e1, e2, e3⟩ := s1 _ rfl
  clear s1
  unfold read
  simp only
  generalize hf : magic ++ writeInt32le n ++ writeInt32le idx.length ++ box ++ writeInt32le co ++ writeInt32le xo ++ writeInt32le yo ++ text ++
      idx.flatMap (fun (i : Nat) => writeInt16le i) ++ gap ++ cd ++ xd ++ yd = f at e1 e2 e3 ⊢
  have q0 : (readInt32le f).2 = writeInt32le n ++ (writeInt32le idx.length ++ (box ++ (writeInt32le co ++ (writeInt32le xo ++ (writeInt32le yo ++ (text ++
      (idx.flatMap (fun (i : Nat) => writeInt16le i) ++ (gap ++ (cd ++ (xd ++ yd)))))))))) := by
    rw [← hf]
    simp only [List.append_assoc]
    unfold readInt32le
    match magic, hmagic with
    | [a, b, c, d], _ => rfl
  rw [q0, r4]
  simp only [r4]
  match box, hbox with
  | [b0, b1, b2, b3, b4, b5, b6, b7], _ =>
  match text, htext with
  | [t0, t1, t2, t3, t4, t5, t6, t7, t8, t9], _ =>
  have r2 : ∀ (a b : Int) (r : Bytes), readInt16le (a :: b :: r) = (some (lo8 a + lo8 b * 2 ^ 8), r) := fun _ _ _ => rfl
  simp only [List.cons_append, List.nil_append, r2, r4, readN, List.take_succ_cons, List.drop_succ_cons, List.drop_zero, need]
  have m1 : ((idx.length : Int) % 2 ^ 32).toNat = idx.length := by omega
  have m2 : (co : Int) % 2 ^ 32 = co := by omega
  have m3 : (xo : Int) % 2 ^ 32 = xo := by omega
  have m4 : (yo : Int) % 2 ^ 32 = yo := by omega
  have m5 : ((n : Int) % 2 ^ 32).toNat = n := by omega
  have bo : ∀ {α β : Type} (a : α) (g : α → Except Compress.Err β), (Except.ok a >>= g) = g a := fun _ _ => rfl
  simp only [bo, m1, m2, m3, m4, m5, read_colours idx ts hts, e1, e2, e3, hc.expand, hx.expand, hy.expand, place_events es hes tail tx ty ht]

/-- The codes of two stitches and a colour change, and displacements of 5, 5 and 0. -/
def codesBlock : Block where
  lens := .lengths [0, 2, 2, 0, 1]
  skip := 1
  chars := .items [.longRun 128, .length 2, .run 3, .length 2, .longRun 377, .length 2]
  dists := .one 0
  tokens := [.byte 128, .byte 128, .byte 132] ++ [.stop]

def movesBlock : Block where
  lens := .lengths [0, 2, 2, 0, 1]
  skip := 1
  chars := .items [.length 2, .run 4, .length 2, .longRun 504, .length 2]
  dists := .one 0
  tokens := [.byte 5, .byte 5, .byte 0] ++ [.stop]

theorem codes_packed : Packed [0, 4, 40, 73, 63, 252, 216, 129, 217, 64, 0, 48] 3 [128, 128, 132] := by
  refine .ended [] codesBlock [.byte 128, .byte 128, .byte 132] [false, false, false] (by decide +kernel) ?_ rfl (by decide) (.inl (by decide))
    (by simp [allTokens, Within]) (by decide +kernel) (by decide)
  intro x hx
  simp only [List.nil_append, List.mem_singleton] at hx
  subst hx
  exact { some := by decide, few := by decide, lens := by simp [codesBlock, Table.Ok], skip := by simp [codesBlock, Table.SkipOk],
          chars := by decide +kernel, dists := by decide +kernel, tokens := by decide +kernel }

theorem moves_packed : Packed [0, 4, 40, 73, 63, 244, 47, 200, 0, 20, 128] 3 [5, 5, 0] := by
  refine .ended [] movesBlock [.byte 5, .byte 5, .byte 0] (List.replicate 6 false) (by decide +kernel) ?_ rfl (by decide) (.inl (by decide))
    (by simp [allTokens, Within]) (by decide +kernel) (by decide)
  intro x hx
  simp only [List.nil_append, List.mem_singleton] at hx
  subst hx
  exact { some := by decide, few := by decide, lens := by simp [movesBlock, Table.Ok], skip := by simp [movesBlock, Table.SkipOk],
          chars := by decide +kernel, dists := by decide +kernel, tokens := by decide +kernel }

/-- A case of the theorem: two stitches and a colour change, with two threads. -/
example : read ([1, 2, 3, 4] ++ writeInt32le 3 ++ writeInt32le 2 ++ List.replicate 8 0 ++ writeInt32le 46 ++ writeInt32le 58 ++ writeInt32le 69 ++
    List.replicate 10 32 ++ [3, 0, 12, 0] ++ [] ++ [0, 4, 40, 73, 63, 252, 216, 129, 217, 64, 0, 48] ++
    [0, 4, 40, 73, 63, 244, 47, 200, 0, 20, 128] ++ [0, 4, 40, 73, 63, 244, 47, 200, 0, 20, 128]) =
    .ok { stitches := [⟨5, -5, 0⟩, ⟨10, -10, 0⟩, ⟨10, -10, 5⟩, ⟨10, -10, 4⟩]
          threads := [paletteThread "Hus" (0xff0000, "Red", "014"), paletteThread "Hus" (0xffffff, "White", "022")] } := by
  have h := C85_read [1, 2, 3, 4] (List.replicate 8 0) (List.replicate 10 32) [] [0, 4, 40, 73, 63, 252, 216, 129, 217, 64, 0, 48]
    [0, 4, 40, 73, 63, 244, 47, 200, 0, 20, 128] [0, 4, 40, 73, 63, 244, 47, 200, 0, 20, 128] 3 [3, 12]
    [paletteThread "Hus" (0xff0000, "Red", "014"), paletteThread "Hus" (0xffffff, "White", "022")]
    [.stitch 5 (-5), .stitch 5 (-5), .change 0 0] [] [] [] rfl rfl rfl (by decide) (by decide +kernel)
    (by simp [Event.Fits, Event.dx, Event.dy]) trivial codes_packed moves_packed
    (by
      rw [show List.map (fun e => twos (-e.dy)) [Event.stitch 5 (-5), Event.stitch 5 (-5), Event.change 0 0] ++ [] = [5, 5, 0] by decide +kernel]
      exact moves_packed) 46 58 69 rfl rfl rfl (by decide)
  have hd : drawn 0 0 [.stitch 5 (-5), .stitch 5 (-5), .change 0 0] = [⟨5, -5, 0⟩, ⟨10, -10, 0⟩, ⟨10, -10, 5⟩, ⟨10, -10, 4⟩] := by decide +kernel
  rw [hd] at h
  exact h

/-- **C100** for HUS: if the last stream ends with its end mark, whatever follows it the file is read as the same design. -/
theorem C100_hus (magic box text gap cd xd yd g : Bytes) (n : Nat) (idx : List Nat) (ts : List Thread) (es : List Event)
    (tail tx ty : List Nat)
    (hmagic : magic.length = 4) (hbox : box.length = 8) (htext : text.length = 10) (hn : n < 2 ^ 32)
    (hts : idx.map (fun i => husThreads[i]?) = ts.map some) (hes : ∀ e ∈ es, e.Fits) (ht : Over tail)
    (hc : Packed cd n (es.map Event.code ++ tail)) (hx : Packed xd n (es.map (fun e => twos e.dx) ++ tx))
    (bs : List Block) (b : Block) (tk : List Token) (pad : List Bool) (hbits : bitsOf yd = (bs ++ [b]).flatMap Block.bits ++ pad)
    (hok : ∀ x ∈ bs ++ [b], x.Ok) (hb : b.tokens = tk ++ [.stop]) (hstop : Token.stop ∉ allTokens bs ++ tk)
    (hroom : pad ≠ [] ∨ Room (bs ++ [b])) (hw : Within [] (allTokens bs ++ tk))
    (hv : play [] (allTokens bs ++ tk) = es.map (fun e => twos (-e.dy)) ++ ty) (hlen : (es.map (fun e => twos (-e.dy)) ++ ty).length ≤ n)
    (co xo yo : Nat) (hco : co = 42 + 2 * idx.length + gap.length) (hxo : xo = co + cd.length) (hyo : yo = xo + xd.length)
    (hsize : yo < 2 ^ 32) :
    read (magic ++ writeInt32le n ++ writeInt32le idx.length ++ box ++ writeInt32le co ++ writeInt32le xo ++ writeInt32le yo ++ text ++
      idx.flatMap (fun (i : Nat) => writeInt16le i) ++ gap ++ cd ++ xd ++ yd ++ g) = .ok { stitches := drawn 0 0 es, threads := ts } := by
  have := C85_read magic box text gap cd xd (yd ++ g) n idx ts es tail tx ty hmagic hbox htext hn hts hes ht hc hx
    (.ended bs b tk (pad ++ bitsOf g) (by rw [← List.append_assoc, ← hbits]; simp [bitsOf]) hok hb hstop
      (hroom.imp_left (fun h h' => h (List.append_eq_nil_iff.1 h').1)) hw hv hlen) co xo yo hco hxo hyo hsize
  rw [← this]
  simp only [List.append_assoc]

/-- A colour index beyond the table of 29 threads is an IndexError, not a wrapped index as in the other formats. -/
theorem C85_index_fails : read ([1, 2, 3, 4] ++ writeInt32le 0 ++ writeInt32le 1 ++ List.replicate 8 0 ++ writeInt32le 44 ++ writeInt32le 44 ++
    writeInt32le 44 ++ List.replicate 10 32 ++ [29, 0]) = .error (.py .indexError) := by decide +kernel

end Hus
end Emb
