import Verif.Props.EndProps
import Verif.Props.U01Props
import Verif.Props.PecProps

/-!
# C100 for the formats that are written
-/

namespace Emb
namespace Readers

/-! ## DST -/

theorem encodeRecord_three {x y c : Int} {a : Bytes} (h : Dst.encodeRecord x y c = .ok a) :
    (∃ b0 b1 b2, a = [b0, b1, b2]) ∧ (c = 4 → a = [0, 0, 0xF3]) := by
  unfold Dst.encodeRecord at h
  dsimp only at h
  by_cases c0 : c = STITCH ∨ c = JUMP ∨ c = SEQUIN_EJECT
  · rw [if_pos c0] at h
    by_cases c1 : (Dst.axis x).rest ≠ 0
    · rw [if_pos c1] at h; cases h
    rw [if_neg c1] at h
    by_cases c2 : (Dst.axis (-y)).rest ≠ 0
    · rw [if_pos c2] at h; cases h
    rw [if_neg c2] at h
    injection h with h
    exact ⟨⟨_, _, _, h.symm⟩, fun hc => by subst hc; exact absurd c0 (by decide)⟩
  rw [if_neg c0] at h
  by_cases c1 : c = COLOR_CHANGE
  · rw [if_pos c1] at h; injection h with h; exact ⟨⟨_, _, _, h.symm⟩, fun hc => by subst hc; exact absurd c1 (by decide)⟩
  rw [if_neg c1] at h
  by_cases c2 : c = STOP
  · rw [if_pos c2] at h; injection h with h; exact ⟨⟨_, _, _, h.symm⟩, fun hc => by subst hc; exact absurd c2 (by decide)⟩
  rw [if_neg c2] at h
  by_cases c3 : c = END
  · rw [if_pos c3] at h; injection h with h; exact ⟨⟨_, _, _, h.symm⟩, fun _ => h.symm⟩
  rw [if_neg c3] at h
  refine ⟨?_, fun hc => absurd hc c3⟩
  by_cases c4 : c = SEQUIN_MODE
  · rw [if_pos c4] at h; injection h with h; exact ⟨_, _, _, h.symm⟩
  · rw [if_neg c4] at h; injection h with h; exact ⟨_, _, _, h.symm⟩

theorem dst_end (g : Bytes) : ∀ (rs : List Rec) (s : Bool) (b : Bytes), Dst.encodeAll rs = .ok b → (∃ r ∈ rs, r.cmd = 4) →
    Dst.readRecs s (b ++ g) = Dst.readRecs s b
  | [], _, _, _, ⟨_, h, _⟩ => by cases h
  | r :: rs, s, b, hb, he => by
    unfold Dst.encodeAll at hb
    cases hr : Dst.encodeRecord r.dx r.dy r.cmd with
    | error e => rw [hr] at hb; cases hb
    | ok a =>
      rw [hr] at hb
      cases ht : Dst.encodeAll rs with
      | error e => simp only [bind, Except.bind, ht] at hb; cases hb
      | ok t =>
        simp only [bind, Except.bind, ht] at hb
        injection hb with hb
        obtain ⟨⟨b0, b1, b2, rfl⟩, hend⟩ := encodeRecord_three hr
        subst hb
        simp only [List.cons_append, List.nil_append, Dst.readRecs]
        by_cases hc : r.cmd = 4
        · have := hend hc
          injection this with _ this
          injection this with _ this
          injection this with this
          subst this
          have : Dst.classify s 0xF3 = none := by cases s <;> decide
          rw [this]
        · cases Dst.classify s b2 with
          | none => rfl
          | some c =>
            dsimp only
            rw [dst_end g rs _ t ht (by
              obtain ⟨u, hu, h4⟩ := he
              rcases List.mem_cons.1 hu with rfl | hu
              · exact absurd h4 hc
              · exact ⟨u, hu, h4⟩)]

/-- **C100** for DST: whatever follows a written pattern with an END (4), it is read as if nothing did. -/
theorem C100_dst (t : Int) (l : List Stitch) (b : Bytes) (hb : Dst.writeBody t l = .ok b) (he : ∃ a ∈ l, a.low = 4) (header : Bytes)
    (hh : header.length = 512) (g : Bytes) (ta : Int) (dist : Option ℚ) (clip : Bool) :
    Dst.read ta dist clip (header ++ b ++ g) = Dst.read ta dist clip (header ++ b) := by
  unfold Dst.read Dst.readBody
  rw [List.append_assoc, List.drop_left' hh, List.drop_left' hh]
  unfold Dst.writeBody at hb
  rw [dst_end g _ _ _ hb]
  obtain ⟨a, ha, h4⟩ := he
  have : (4 : Int) ∈ (deltas 0 0 l).map (·.cmd) := by
    rw [deltas_cmds]
    exact List.mem_map.2 ⟨a, ha, h4⟩
  obtain ⟨r, hr, e⟩ := List.mem_map.1 this
  refine ⟨r, List.mem_flatMap.2 ⟨r, hr, ?_⟩, e⟩
  unfold Dst.expand
  rw [if_neg (by rw [e]; decide)]
  simp

/-- Two stitches and an END, and the file followed by something that could be a stitch. -/
example : Dst.writeBody 3 [⟨0, 0, 0⟩, ⟨5, 0, 0⟩, ⟨5, 0, 4⟩] = .ok [0, 0, 3, 6, 2, 3, 0, 0, 0xF3] ∧
    Dst.read 3 none true (List.replicate 512 32 ++ [0, 0, 3, 6, 2, 3, 0, 0, 0xF3] ++ [1, 0, 3]) = [⟨0, 0, 0⟩, ⟨5, 0, 0⟩, ⟨5, 0, 4⟩] := by
  decide +kernel

/-! ## U01 -/

theorem u01_end (g : Bytes) : ∀ (k : Nat) (f : Bytes), f.length = 3 * k → U01.readRecs (f ++ [0xF8, 0, 0] ++ g) = U01.readRecs (f ++ [0xF8, 0, 0])
  | 0, f, h => by
    obtain rfl : f = [] := List.eq_nil_of_length_eq_zero h
    simp [U01.readRecs, U01.interpret]
  | k + 1, f, h => by
    match f, h with
    | c :: b1 :: b2 :: f, h =>
      simp only [List.cons_append, U01.readRecs]
      split
      · rw [u01_end g k f (by simp only [List.length_cons] at h; omega)]
      · rfl

theorem u01_triple {c dx dy : Int} {b : Bytes} (h : U01.triple c dx dy = .ok b) : b.length = 3 := by
  unfold U01.triple at h
  split_ifs at h
  injection h with h
  subst h
  rfl

theorem u01_written : ∀ (rs : List Rec) (fast slow : Bool) (b : Bytes), U01.writeRecs fast slow rs = .ok b →
    ∃ f k, b = f ++ [0xF8, 0, 0] ∧ f.length = 3 * k
  | [], _, _, b, h => by injection h with h; exact ⟨[], 0, h.symm, rfl⟩
  | r :: rs, fast, slow, b, h => by
    have go : ∀ (c : Int) (fast slow : Bool), (U01.triple c r.dx r.dy >>= fun b => U01.writeRecs fast slow rs >>= fun t => Except.ok (b ++ t)) = .ok b →
        ∃ f k, b = f ++ [0xF8, 0, 0] ∧ f.length = 3 * k := by
      intro c fast slow h
      cases ht : U01.triple c r.dx r.dy with
      | error e => rw [ht] at h; cases h
      | ok a =>
        rw [ht] at h
        cases hw : U01.writeRecs fast slow rs with
        | error e => simp only [bind, Except.bind, hw] at h; cases h
        | ok t =>
          simp only [bind, Except.bind, hw] at h
          injection h with h
          obtain ⟨f, k, rfl, h2⟩ := u01_written rs _ _ _ hw
          exact ⟨a ++ f, k + 1, by rw [← h, List.append_assoc], by rw [List.length_append, u01_triple ht, h2]; omega⟩
    rw [U01.writeRecs.eq_def] at h
    dsimp only at h
    split_ifs at h
    · exact u01_written rs _ _ _ h
    · exact u01_written rs _ _ _ h
    · exact go _ _ _ h
    · exact go _ _ _ h
    · exact go _ _ _ h
    · exact go _ _ _ h
    · split at h
      · cases h
      · exact go _ _ _ h
    · injection h with h; exact ⟨[], 0, h.symm, rfl⟩
    · exact u01_written rs _ _ _ h

/-- **C100** for U01: whatever follows a written file. -/
theorem C100_u01_partial (l : List Stitch) (hl : l ≠ []) (f g : Bytes) (hw : U01.write l = .ok f) : U01.read (f ++ g) = U01.read f := by
  obtain ⟨b, hb, -⟩ := C43_tight l hl
  unfold U01.write at hw
  rw [hb, List.getLast?_eq_some_getLast hl] at hw
  dsimp only at hw
  cases ht : U01.writeRecs false false (wdeltas 0 0 l) with
  | error e => rw [ht] at hw; cases hw
  | ok t =>
    rw [ht] at hw
    injection hw with hw
    subst hw
    obtain ⟨p, k, rfl, hk⟩ := u01_written _ _ _ _ ht
    unfold U01.read
    rw [List.append_assoc, List.drop_left' (U01.C66_u01 _ _ _), List.drop_left' (U01.C66_u01 _ _ _), u01_end g k p hk]

/-- A written file followed by something that could be a stitch. -/
example : (U01.write [⟨0, 0, 0⟩, ⟨5, 0, 0⟩, ⟨5, 0, 4⟩]).map (fun f => U01.read (f ++ [0x80, 0, 5])) = .ok [⟨0, 0, 0⟩, ⟨5, 0, 0⟩, ⟨5, 0, 4⟩] := by
  decide +kernel

/-- A pattern without stitches has no end mark: what follows would be read. -/
theorem C100_u01_empty : ∃ f, U01.write [] = .ok f ∧ U01.read f = [⟨0, 0, 4⟩] ∧
    U01.read (f ++ (List.replicate 0x80 0 ++ [0x80, 0, 5])) = [⟨5, 0, 0⟩, ⟨5, 0, 4⟩] := by
  exact ⟨_, rfl, by decide +kernel, by decide +kernel⟩

/-! ## TBF -/

theorem tbf_end (order g : Bytes) : ∀ (rs : List Rec) (n : Nat), (∃ r ∈ rs, r.cmd % 256 = 4) →
    Tbf.readRecs order n (Tbf.writeRecs rs ++ g) = Tbf.readRecs order n (Tbf.writeRecs rs)
  | [], _, ⟨_, h, _⟩ => by cases h
  | r :: rs, n, he => by
    have go : ¬ r.cmd % 256 = 4 → ∀ n, Tbf.readRecs order n (Tbf.writeRecs rs ++ g) = Tbf.readRecs order n (Tbf.writeRecs rs) := by
      intro hc n
      refine tbf_end order g rs n ?_
      obtain ⟨u, hu, h4⟩ := he
      rcases List.mem_cons.1 hu with rfl | hu
      · exact absurd h4 hc
      · exact ⟨u, hu, h4⟩
    have one : ∀ c, Tbf.writeRecs (r :: rs) = Tbf.triple r.dx r.dy c ++ Tbf.writeRecs rs → ¬ r.cmd % 256 = 4 →
        Tbf.readRecs order n (Tbf.writeRecs (r :: rs) ++ g) = Tbf.readRecs order n (Tbf.writeRecs (r :: rs)) := by
      intro c e hc
      rw [e]
      simp only [Tbf.triple, List.cons_append, List.nil_append, Tbf.readRecs]
      simp only [go hc]
    by_cases c4 : r.cmd % 256 = 4
    · have e : Tbf.writeRecs (r :: rs) = Tbf.triple r.dx r.dy 0x8F ++ [0x1a] := by
        simp [Tbf.writeRecs, cmdOf, c4, STITCH, JUMP, STOP, TRIM, NEEDLE_SET, END]
      rw [e]
      simp only [Tbf.triple, List.cons_append, List.nil_append, Tbf.readRecs]
      norm_num
    by_cases c0 : r.cmd % 256 = 0
    · exact one 0x80 (by simp [Tbf.writeRecs, cmdOf, c0, STITCH]) c4
    by_cases c1 : r.cmd % 256 = 1
    · exact one 0x90 (by simp [Tbf.writeRecs, cmdOf, c1, STITCH, JUMP]) c4
    by_cases c3 : r.cmd % 256 = 3
    · exact one 0x40 (by simp [Tbf.writeRecs, cmdOf, c3, STITCH, JUMP, STOP]) c4
    by_cases c2 : r.cmd % 256 = 2
    · exact one 0x86 (by simp [Tbf.writeRecs, cmdOf, c2, STITCH, JUMP, STOP, TRIM]) c4
    by_cases c9 : r.cmd % 256 = 9
    · exact one 0x81 (by simp [Tbf.writeRecs, cmdOf, c9, STITCH, JUMP, STOP, TRIM, NEEDLE_SET]) c4
    have e : Tbf.writeRecs (r :: rs) = Tbf.writeRecs rs := by
      simp [Tbf.writeRecs, cmdOf, c0, c1, c2, c3, c4, c9, STITCH, JUMP, STOP, TRIM, NEEDLE_SET, END]
    rw [e]
    exact go c4 n

/-- **C100** for TBF: whatever follows a written pattern that fits the header and has an END (4). -/
theorem C100_tbf (name tp : Str) (threads : List Thread) (l : List Stitch) (hf : Tbf.Fits name tp threads l) (he : ∃ a ∈ l, a.low = 4)
    (f g : Bytes) (hw : Tbf.write name tp threads l = .ok f) : Tbf.read (f ++ g) = Tbf.read f := by
  have hl : l ≠ [] := by rintro rfl; obtain ⟨a, ha, _⟩ := he; cases ha
  obtain ⟨b, hb, ht⟩ := C43_tight l hl
  unfold Tbf.write at hw
  rw [hb, List.getLast?_eq_some_getLast hl] at hw
  dsimp only at hw
  cases ho : Tbf.orderBytes l with
  | error e => rw [ho] at hw; cases hw
  | ok order =>
    rw [ho] at hw
    injection hw with hw
    have hol : order.length = 0x100 := by
      unfold Tbf.orderBytes at ho
      split_ifs at ho with hn
      have hlen : ∀ (ns : List (Option Int)) (b : Bytes), Tbf.needleBytes ns = .ok b → b.length = ns.length := by
        intro ns
        induction ns with
        | nil => intro b h; injection h with h; subst h; rfl
        | cons n ns ih =>
          intro b h
          cases n with
          | none => cases h
          | some v =>
            unfold Tbf.needleBytes at h
            cases hh : Tbf.needleBytes ns with
            | error e => rw [hh] at h; cases h
            | ok t => rw [hh] at h; injection h with h; subst h; rw [List.length_cons, List.length_cons, ih t hh]
      cases hh : Tbf.needleBytes (Tbf.needles l) with
      | error e => rw [hh] at ho; cases ho
      | ok t =>
        rw [hh] at ho
        injection ho with ho
        subst ho
        rw [List.length_append, List.length_replicate, hlen _ _ hh]
        omega
    obtain ⟨c1, c2, c3, c, rest, hc, c4⟩ := Tbf.C66_tbf_partial hf b ht (l.getLast hl) (List.getLast_mem hl) order hol
    generalize Tbf.header name tp threads l b (l.getLast hl) order = H at *
    subst hw
    have d1 : ∀ n k, n + k ≤ 0x600 → ∀ B : Bytes, ((H ++ B).drop n).take k = (H.drop n).take k := by
      intro n k hnk B
      rw [List.drop_append_of_le_length (by omega), List.take_append_of_le_length (by rw [List.length_drop]; omega)]
    have d2 : ∀ B : Bytes, Tbf.readThreads ((H ++ B).drop 0x20E) = threads.map (fun t => some (t.color % 16777216)) := by
      intro B
      rw [List.drop_append_of_le_length (by omega), c4, List.append_assoc, List.cons_append]
      exact Tbf.readThreads_write threads c _ hc
    unfold Tbf.read
    rw [List.append_assoc, d1 0x83 0x10 (by decide), d1 0x83 0x10 (by decide), d1 0x10A 0x100 (by decide), d1 0x10A 0x100 (by decide), d2, d2,
      List.drop_left' c1, List.drop_left' c1, tbf_end]
    obtain ⟨a, ha, h4⟩ := he
    have : a.cmd ∈ (wdeltas 0 0 l).map (·.cmd) := by rw [wdeltas_cmds]; exact List.mem_map.2 ⟨a, ha, rfl⟩
    obtain ⟨r, hr, e⟩ := List.mem_map.1 this
    exact ⟨r, hr, by rw [e]; exact h4⟩

/-- A written file followed by something that could be a stitch. -/
example : (Tbf.write "ab".toList [] [] [⟨0, 0, 0⟩, ⟨5, 0, 0⟩, ⟨5, 0, 4⟩] >>= fun f => (Tbf.read (f ++ [5, 5, 0x80])).map (·.stitches)) =
    .ok [⟨0, 0, 0⟩, ⟨5, 0, 0⟩, ⟨5, 0, 4⟩] := by decide +kernel

/-! ## JEF -/

theorem jef_mark (T : List (Option Nat)) (k : Nat) (g : Bytes) : Jef.readRecs T k (0x80 :: 0x10 :: g) = .ok ([], T) := by
  rw [Jef.readRecs.eq_def]
  match g with
  | [] => rfl
  | [_] => rfl
  | _ :: _ :: g => simp

theorem jef_end (trimAt : Option Nat) (g : Bytes) : ∀ (rs : List Rec) (T : List (Option Nat)) (k : Nat), (∀ r ∈ rs, r.cmd = 0 → r.dx % 256 ≠ 128) →
    Jef.readRecs T k (Jef.writeBody trimAt rs ++ g) = Jef.readRecs T k (Jef.writeBody trimAt rs)
  | [], T, k, _ => (jef_mark T k g).trans (jef_mark T k []).symm
  | r :: rs, T, k, h => by
    have go := fun T k => jef_end trimAt g rs T k (fun a ha => h a (by simp [ha]))
    have hr := h r (by simp)
    rw [Jef.writeBody]
    split_ifs with c4
    · exact (jef_mark T k g).trans (jef_mark T k []).symm
    rw [List.append_assoc]
    by_cases c0 : r.cmd = 0
    · have e : Jef.writeRec trimAt r = [lo8 r.dx, lo8 (-r.dy)] := by simp [Jef.writeRec, c0, STITCH, writeInt8]
      have := hr c0
      rw [e]
      simp only [List.cons_append, List.nil_append]
      rw [Jef.readRecs_stitch _ _ _ _ _ (by unfold lo8; omega), Jef.readRecs_stitch _ _ _ _ _ (by unfold lo8; omega), go]
    by_cases c5 : r.cmd = 5 ∨ r.cmd = 3
    · have e : Jef.writeRec trimAt r = [0x80, 0x01, lo8 r.dx, lo8 (-r.dy)] := by
        simp [Jef.writeRec, c0, c5, STITCH, COLOR_CHANGE, STOP, writeInt8]
      rw [e]
      simp only [List.cons_append, List.nil_append]
      cases hT : T[k]? with
      | none =>
        have : ∀ rest, Jef.readRecs T k (0x80 :: 0x01 :: lo8 r.dx :: lo8 (-r.dy) :: rest) = .error .indexError := by
          intro rest
          rw [Jef.readRecs.eq_def]
          simp [hT]
        rw [this, this]
      | some o =>
        cases o with
        | none => rw [Jef.readRecs_stop _ _ _ _ _ hT, Jef.readRecs_stop _ _ _ _ _ hT, go]
        | some v => rw [Jef.readRecs_change _ _ _ _ _ _ hT, Jef.readRecs_change _ _ _ _ _ _ hT, go]
    by_cases c2 : r.cmd = 2
    · have e : Jef.writeRec trimAt r = (List.replicate (trimAt.getD 0) [0x80, 0x02, 0x00, 0x00]).flatten := by
        simp [Jef.writeRec, c2, STITCH, COLOR_CHANGE, STOP, TRIM]
      rw [e, Jef.readRecs_jumps, Jef.readRecs_jumps, go]
    by_cases c1 : r.cmd = 1
    · have e : Jef.writeRec trimAt r = [0x80, 0x02, lo8 r.dx, lo8 (-r.dy)] := by
        simp [Jef.writeRec, c1, STITCH, COLOR_CHANGE, STOP, TRIM, JUMP, writeInt8]
      rw [e]
      simp only [List.cons_append, List.nil_append]
      rw [Jef.readRecs_jump, Jef.readRecs_jump, go]
    have e : Jef.writeRec trimAt r = [] := by
      rw [not_or] at c5
      simp [Jef.writeRec, c0, c1, c2, c5, STITCH, COLOR_CHANGE, STOP, TRIM, JUMP]
    rw [e]
    exact go T k

/-- **C100** for JEF: whatever follows a written file, unless a stitch goes 128 to the left (which the format cannot say). -/
theorem C100_jef (trimAt : Option Nat) (date : Bytes) (hd : date.length = 14) (w h : Int) (threads : List Thread) (l : List Stitch) (f g : Bytes)
    (hw : Jef.write trimAt date w h threads l = .ok f) (hs : ∀ r ∈ deltas 0 0 l, r.cmd = 0 → r.dx % 256 ≠ 128) (hlen : f.length < 2 ^ 32)
    (ta : Option Int) (dist : Option ℚ) (clip : Bool) : Jef.read ta dist clip (f ++ g) = Jef.read ta dist clip f := by
  obtain ⟨p, body, -, h1, h2, h3, h4, h5, -, -⟩ := Jef.C10_offset hd hw
  have hn : ((p.length : Int) % 2 ^ 32).toNat = p.length := by omega
  have ho : ((116 + 8 * (p.length : Int)) % 2 ^ 32).toNat = 116 + 8 * p.length := by omega
  have hb : 0 < body.length := by
    rw [h3]
    have : ∀ rs : List Rec, 0 < (Jef.writeBody trimAt rs).length := by
      intro rs
      induction rs with
      | nil => exact Nat.succ_pos 1
      | cons r rs ih =>
        rw [Jef.writeBody]
        split_ifs
        · exact Nat.succ_pos 1
        · rw [List.length_append]; omega
    exact this _
  unfold Jef.read Jef.readPlain
  rw [drop_cut_pos g (drop_ne (by omega)), readInt32le_append _ g _ h5, readInt32le_append _ g _ h4, h4, h5]
  dsimp only
  rw [hn, ho, List.drop_append_of_le_length (by omega : 116 ≤ f.length), jef_colors _ _ g (by rw [List.length_drop]; omega),
    List.drop_append_of_le_length (by omega : 116 + 8 * p.length ≤ f.length), h1, h3]
  congr 1
  congr 1
  funext T
  rw [jef_end trimAt g _ T 1 hs]

/-- A written file followed by something that could be a jump. -/
example : (Jef.write none (List.replicate 14 48) 5 0 [{ color := 1 }] [⟨0, 0, 0⟩, ⟨5, 0, 0⟩, ⟨5, 0, 4⟩] >>= fun f =>
    (Jef.read none none true (f ++ [0x80, 0x02, 5, 5])).map (·.1)) = .ok [⟨0, 0, 0⟩, ⟨5, 0, 0⟩, ⟨5, 0, 4⟩] := by decide +kernel

/-! ## XXX -/

theorem xxx_rest : ∀ (f g : Bytes) (t : List Rec × Bytes), Xxx.readRecs f = .ok t → t.2 ≠ [] → Xxx.readRecs (f ++ g) = .ok (t.1, t.2 ++ g)
  | [], _, _, h, _ => by cases h
  | b1 :: rest, g, t, h, ht => by
    have on : ∀ (b : Bytes) (u : List Rec × Bytes), b.length ≤ rest.length → Xxx.readRecs b = .ok u → u.2 ≠ [] → Xxx.readRecs (b ++ g) = .ok (u.1, u.2 ++ g) :=
      fun b u _ h hu => xxx_rest b g u h hu
    have go : ∀ (r : List Rec) (b : Bytes), b.length ≤ rest.length → (Xxx.readRecs b >>= fun t => Except.ok (r ++ t.1, t.2)) = .ok t →
        (Xxx.readRecs (b ++ g) >>= fun t => Except.ok (r ++ t.1, t.2)) = .ok (t.1, t.2 ++ g) := by
      intro r b hb h
      cases hr : Xxx.readRecs b with
      | error e => rw [hr] at h; cases h
      | ok u =>
        rw [hr] at h
        injection h with h
        subst h
        rw [on b u hb hr ht]
        rfl
    have e1 : b1 :: rest ++ g = b1 :: (rest ++ g) := rfl
    rw [Xxx.readRecs.eq_def] at h
    dsimp only at h
    by_cases h1 : b1 = 0x7D ∨ b1 = 0x7E
    · rw [if_pos h1] at h
      rw [e1, Xxx.readRecs.eq_def]
      dsimp only
      rw [if_pos h1]
      match rest, go, h with
      | [], _, h => cases h
      | [_], _, h => cases h
      | [_, _], _, h => cases h
      | [_, _, _], _, h => cases h
      | x0 :: x1 :: y0 :: y1 :: rest, go, h => exact go [_] rest (by simp only [List.length_cons]; omega) h
    rw [if_neg h1] at h
    match rest, on, go, h with
    | [], _, _, h => cases h
    | b2 :: rest, on, go, h =>
      dsimp only at h
      by_cases h2 : b1 ≠ 0x7F
      · rw [if_pos h2] at h
        rw [List.cons_append, List.cons_append, Xxx.readRecs.eq_def]
        dsimp only
        rw [if_neg h1, if_pos h2]
        exact go [_] rest (by simp only [List.length_cons]; omega) h
      rw [if_neg h2] at h
      match rest, on, go, h with
      | [], _, _, h =>
        dsimp only at h
        split_ifs at h
        injection h with h; subst h; exact absurd rfl ht
      | [_], _, _, h =>
        dsimp only at h
        split_ifs at h
        injection h with h; subst h; exact absurd rfl ht
      | b3 :: b4 :: rest, on, go, h =>
        rw [List.cons_append, List.cons_append, List.cons_append, List.cons_append, Xxx.readRecs.eq_def]
        dsimp only at h ⊢
        rw [if_neg h1, if_neg h2]
        have hl : rest.length ≤ (b2 :: b3 :: b4 :: rest).length := by simp only [List.length_cons]; omega
        by_cases h3 : b2 = 0x01
        · rw [if_pos h3] at h ⊢; exact go [_] rest hl h
        rw [if_neg h3] at h ⊢
        by_cases h4 : b2 = 0x03
        · rw [if_pos h4] at h ⊢; exact go (_ :: _) rest hl h
        rw [if_neg h4] at h ⊢
        by_cases h5 : b2 = 0x08 ∨ (0x0A ≤ b2 ∧ b2 ≤ 0x17)
        · rw [if_pos h5] at h ⊢; exact go [_] rest hl h
        rw [if_neg h5] at h ⊢
        by_cases h6 : b2 = 0x7F ∨ b2 = 0x18
        · rw [if_pos h6] at h ⊢
          injection h with h
          subst h
          rfl
        rw [if_neg h6] at h ⊢
        exact on rest t hl h ht
termination_by f => f.length
decreasing_by all_goals simp only [List.length_cons] at *; omega

theorem xxx_threads (g : Bytes) : ∀ (n : Nat) (b : Bytes), (Xxx.readThreads n b).length = n → Xxx.readThreads n (b ++ g) = Xxx.readThreads n b ∧ 4 * n ≤ b.length
  | 0, _, _ => ⟨rfl, by omega⟩
  | n + 1, b, h => by
    match b, h with
    | [], h => exact absurd h (by simp [Xxx.readThreads, readInt32be, readN])
    | [_], h => exact absurd h (by simp [Xxx.readThreads, readInt32be, readN])
    | [_, _], h => exact absurd h (by simp [Xxx.readThreads, readInt32be, readN])
    | [_, _, _], h => exact absurd h (by simp [Xxx.readThreads, readInt32be, readN])
    | a :: b :: c :: d :: t, h =>
      simp only [Xxx.readThreads, readInt32be, readN, List.cons_append, List.take, List.drop, List.length_cons] at h ⊢
      obtain ⟨h1, h2⟩ := xxx_threads g n t (by omega)
      exact ⟨by rw [h1], by omega⟩

/-- **C100** for XXX: any file that is read with as many threads as its header says (at 0x27). -/
theorem C100_xxx (f g : Bytes) (n : Int) (hn : (readInt16le (f.drop 0x27)).1 = some n) (t : List Int) (l : List Stitch) (h : Xxx.read f = .ok (t, l))
    (ht : t.length = n.toNat) : Xxx.read (f ++ g) = .ok (t, l) := by
  have hne : f.drop 0x27 ≠ [] := by intro hh; rw [hh] at hn; cases hn
  have hn' : (readInt16le (f.drop 0x27 ++ g)).1 = some n := by
    match hd : f.drop 0x27 with
    | [] => exact absurd hd hne
    | [_] => rw [hd] at hn; cases hn
    | _ :: _ :: _ => rw [hd] at hn; exact hn
  obtain ⟨g', hg⟩ : ∃ g', (f ++ g).drop 0x100 = f.drop 0x100 ++ g' := drop_cut 0x100 f g
  unfold Xxx.read at h ⊢
  rw [drop_cut_pos g hne, hn', hg]
  rw [hn] at h
  cases hr : Xxx.readRecs (f.drop 0x100) with
  | error e => rw [hr] at h; cases h
  | ok u =>
    rw [hr] at h
    simp only [bind, Except.bind] at h ⊢
    injection h with h
    injection h with e1 e2
    by_cases h0 : n.toNat = 0
    · obtain ⟨k, hk⟩ := xxx_cut _ g' u hr
      rw [hk]
      dsimp only
      rw [h0] at e1 ⊢
      rw [← e1, ← e2]
      rfl
    · rw [← e1] at ht
      obtain ⟨h1, h2⟩ := xxx_threads g' n.toNat (u.2.drop 2) ht
      rw [List.length_drop] at h2
      have hu : u.2 ≠ [] := by intro hh; rw [hh] at h2; simp at h2; omega
      rw [xxx_rest _ g' u hr hu]
      dsimp only
      rw [List.drop_append_of_le_length (by omega), h1, e1, e2]

/-- A written file followed by something else. -/
example : (Xxx.write [{ color := 1 }] [⟨0, 0, 0⟩, ⟨5, 0, 0⟩, ⟨5, 0, 4⟩] >>= fun f => Xxx.read (f ++ [0x7F, 0x01, 5, 5])) =
    .ok ([1], [⟨0, 0, 0⟩, ⟨5, 0, 0⟩, ⟨5, 0, 4⟩]) := by decide +kernel

/-! ## PEC and EXP -/

/-- **C100** for the stitches of a PEC file: whatever follows the first byte after them. The conditions are those of C12. -/
theorem C100_pec {o : Settings} {lm : Libm} {threads : List Thread} {source out : List Stitch} {ths : List (Option Thread)} (hlm : lm.Sound)
    (hv : o.ValidSequins) (hr : o.round = true) (h1 : o.maxStitch = some 2047) (h2 : o.maxJump = some 2047)
    (h3 : o.longStitch = 0xF1 ∨ o.longStitch = 0xF2) (hs : o.sequin ≠ 0xF5)
    (hq : ∀ st ∈ source, st.low ≠ 0xD5 ∧ st.low ≠ 0xD6 ∧ st.low ≠ 0xF0 ∧ st.low ≠ 0xF5) (h : encode o lm threads source = .ok (out, ths))
    (g : Bytes) : Pec.readSection (Pec.encodeSection (Pec.stopsAsChanges out) ++ 0x00 :: g) =
      Pec.readSection (Pec.encodeSection (Pec.stopsAsChanges out) ++ [0x00]) := by
  rw [Pec.C12_exact hlm hv hr h1 h2 h3 hs hq h g, Pec.C12_exact hlm hv hr h1 h2 h3 hs hq h []]

/-- **C100** fails for EXP, which has no end mark: what follows is read as stitches. -/
theorem C100_exp_fails : Exp.read (Exp.write [⟨3, 0, 0⟩, ⟨3, 0, 4⟩] ++ [5, 0]) = [⟨3, 0, 0⟩, ⟨8, 0, 0⟩, ⟨8, 0, 4⟩] := by decide +kernel

end Readers
end Emb
