import Verif.Props.HeaderProps
import Verif.Props.DstProps

/-!
# Property C133: positions and counts in headers fit the bytes that follow
-/

namespace Emb

namespace FileSize

theorem jef_rec (t : Option Nat) (r : Rec) : ((Jef.writeRec t r).length : Int) =
    if r.cmd = STITCH then 2 else if r.cmd = JUMP then 4 else if r.cmd = TRIM then 4 * (t.getD 0 : Nat) else if r.cmd = COLOR_CHANGE ∨ r.cmd = STOP then 4 else 0 := by
  unfold Jef.writeRec
  by_cases h0 : r.cmd = STITCH
  · rw [if_pos h0, if_pos h0]; rfl
  by_cases h5 : r.cmd = COLOR_CHANGE ∨ r.cmd = STOP
  · rw [if_neg h0, if_neg h0, if_pos h5, if_neg (by rcases h5 with h | h <;> rw [h] <;> decide), if_neg (by rcases h5 with h | h <;> rw [h] <;> decide), if_pos h5]; rfl
  by_cases h2 : r.cmd = TRIM
  · rw [if_neg h0, if_neg h0, if_neg h5, if_pos h2, if_neg (by rw [h2]; decide), if_pos h2]
    simp only [List.length_flatten, List.map_replicate, List.sum_replicate, List.length_cons, List.length_nil]
    push_cast
    simp; ring
  by_cases h1 : r.cmd = JUMP
  · rw [if_neg h0, if_neg h0, if_neg h5, if_neg h2, if_pos h1, if_pos h1]; rfl
  · simp [h0, h5, h2, h1]

theorem jef_body (t : Option Nat) (rs : List Rec) : ((Jef.writeBody t rs).length : Int) = 2 * Jef.pointCount t (rs.map (·.cmd)) := by
  induction rs with
  | nil => rfl
  | cons r rs ih =>
    rw [Jef.writeBody, List.map_cons, Jef.pointCount]
    by_cases h4 : r.cmd = END
    · rw [if_pos h4, if_neg (by rw [h4]; decide), if_neg (by rw [h4]; decide), if_neg (by rw [h4]; decide), if_neg (by rw [h4]; decide), if_pos h4]; rfl
    · rw [if_neg h4, List.length_append]
      push_cast
      rw [ih, jef_rec]
      split_ifs <;> push_cast <;> ring

theorem dst_rec {x y c : Int} {b : Bytes} (h : Dst.encodeRecord x y c = .ok b) : b.length = 3 := by
  unfold Dst.encodeRecord at h
  dsimp only at h
  split_ifs at h <;> first | (cases h; done) | (have := Except.ok.inj h; rw [← this]; rfl)

theorem dst_all : ∀ (rs : List Rec) (b : Bytes), Dst.encodeAll rs = .ok b → b.length = 3 * rs.length := by
  intro rs
  induction rs with
  | nil => intro b h; have := Except.ok.inj h; rw [← this]; rfl
  | cons r rs ih =>
    intro b h
    rw [Dst.encodeAll] at h
    obtain ⟨a, h1, h⟩ := Compress.bind_ok_iff h
    obtain ⟨c, h2, h⟩ := Compress.bind_ok_iff h
    have := Except.ok.inj h
    rw [← this, List.length_append, dst_rec h1, ih c h2, List.length_cons]
    ring

theorem dst_expand (t : Int) (rs : List Rec) : ((rs.flatMap (Dst.expand t)).length : Int) = rs.length + rs.countP (fun r => r.cmd == 2) * (max t 2 - 1) := by
  induction rs with
  | nil => simp
  | cons r rs ih =>
    rw [List.flatMap_cons, List.length_append, List.length_cons, List.countP_cons]
    push_cast
    rw [ih]
    unfold Dst.expand
    by_cases h : r.cmd = TRIM
    · have h' : (r.cmd == 2) = true := by rw [h]; decide
      rw [if_pos h, (Dst.C05_jumps t).1, if_pos h']
      ring
    · have h' : ¬ (r.cmd == 2) = true := by rw [beq_iff_eq]; exact h
      rw [if_neg h, if_neg h']
      simp; ring

theorem u01_recs : ∀ (l : List Stitch) (x y : Int) (fast slow : Bool) (b : Bytes), (∀ a ∈ l.dropLast, a.low ≠ 4) → (∀ e, l.getLast? = some e → e.low = 4) → l ≠ [] →
    U01.writeRecs fast slow (wdeltas x y l) = .ok b → b.length = 3 * l.countP (fun a => decide (a.low ∈ [(0 : Int), 1, 2, 3, 4, 9])) := by
  intro l
  induction l with
  | nil => intro x y f s b _ _ h _; exact absurd rfl h
  | cons a l ih =>
    intro x y fast slow b hl he _ h
    have htr : ∀ {u v w : Int} {c : Bytes}, U01.triple u v w = .ok c → c.length = 3 := by
      intro u v w c h
      unfold U01.triple at h
      split_ifs at h <;> first | (cases h; done) | (have := Except.ok.inj h; rw [← this]; rfl)
    rw [wdeltas] at h
    rw [U01.writeRecs] at h
    rcases l with _ | ⟨a2, l⟩
    · have h4 : cmdOf a.cmd = END := he a rfl
      rw [if_neg (by rw [h4]; decide), if_neg (by rw [h4]; decide), if_neg (by rw [h4]; decide), if_neg (by rw [h4]; decide), if_neg (by rw [h4]; decide), if_neg (by rw [h4]; decide),
        if_neg (by rw [h4]; decide), if_pos h4] at h
      have := Except.ok.inj h
      have h4' : a.low = 4 := h4
      rw [← this]
      simp [h4']
    · have ih := fun x y f s b h => ih x y f s b (fun a h' => hl a (by rw [List.dropLast_cons_of_ne_nil (by simp)]; exact List.mem_cons_of_mem _ h')) (fun e h' => he e (by simpa using h')) (by simp) h
      have hne : cmdOf a.cmd ≠ END := hl a (by simp)
      rw [List.countP_cons]
      have more : ∀ {u v w : Int} {f s : Bool} {x y : Int} {b : Bytes}, (U01.triple u v w >>= fun c => U01.writeRecs f s (wdeltas x y (a2 :: l)) >>= fun t => .ok (c ++ t)) = .ok b →
          b.length = 3 * (List.countP (fun a => decide (a.low ∈ [(0 : Int), 1, 2, 3, 4, 9])) (a2 :: l) + 1) := by
        intro u v w f s x y b h
        obtain ⟨c, h1, h⟩ := Compress.bind_ok_iff h
        obtain ⟨t, h2, h⟩ := Compress.bind_ok_iff h
        have := Except.ok.inj h
        rw [← this, List.length_append, htr h1, ih _ _ _ _ _ h2]
        ring
      have low : a.low = cmdOf a.cmd := rfl
      split_ifs at h with c1 c2 c3 c4 c5 c6 c7
      · rw [ih _ _ _ _ _ h, low, c1]; rfl
      · rw [ih _ _ _ _ _ h, low, c2]; rfl
      · rw [more h, low, c3]; rfl
      · rw [more h, low, c4]; rfl
      · rw [more h, low, c5]; rfl
      · rw [more h, low, c6]; rfl
      · rw [low, c7]
        split at h
        · cases h
        · rw [more h]; rfl
      · rw [ih _ _ _ _ _ h, low, if_neg]; · rfl
        intro h
        simp only [decide_eq_true_eq, List.mem_cons, List.not_mem_nil, or_false] at h
        rcases h with h | h | h | h | h | h
        · exact c3 h
        · exact c4 h
        · exact c6 h
        · exact c5 h
        · exact hne h
        · exact c7 h

end FileSize

/-- **C133**, JEF: the first field is the position of the stitches, and from there on the file has two bytes for each of the points counted in the header, whatever the design. -/
theorem C133_jef {t : Option Nat} {date : Bytes} {w h : Int} {threads : List Thread} {l : List Stitch} {f : Bytes} (hd : date.length = 14) (hf : Jef.write t date w h threads l = .ok f)
    (hsz : f.length < 2 ^ 32) : ∃ start points : Nat, int32At f 0 = some (start : Int) ∧ int32At f 28 = some (points : Int) ∧ f.length = start + 2 * points ∧
      f.drop start = Jef.writeBody t (deltas 0 0 l) := by
  unfold Jef.write at hf
  obtain ⟨p, hp, hf⟩ := Compress.bind_ok_iff hf
  have hf := (Except.ok.inj hf).symm
  have hb := FileSize.jef_body t (deltas 0 0 l)
  rw [deltas_cmds] at hb
  generalize hn : Jef.pointCount t (l.map (fun a => cmdOf a.cmd)) = n at hf hb
  have hlen : f.length = 116 + 8 * p.length + (Jef.writeBody t (deltas 0 0 l)).length := by
    rw [hf, List.length_append, List.length_append, Jef.header_length, hd, Jef.colorTable_length]
  have n0 : 0 ≤ n := by omega
  refine ⟨116 + 8 * p.length, n.toNat, ?_, ?_, by omega, ?_⟩
  · have e : f = [] ++ (writeInt32le (0x74 + (p.length : Int) * 8) ++ f.drop 4) := by
      rw [hf]; unfold Jef.header; rfl
    rw [int32At_eq f [] (f.drop 4) 0 _ e rfl (by omega)]
    congr 1; push_cast; ring
  · have e : ∃ post, f = (writeInt32le (0x74 + (p.length : Int) * 8) ++ writeInt32le 0x14 ++ date ++ writeInt8 0 ++ writeInt8 0 ++ writeInt32le p.length) ++ (writeInt32le n ++ post) := by
      rw [hf]; unfold Jef.header
      simp only [List.append_assoc]
      exact ⟨_, rfl⟩
    obtain ⟨post, e⟩ := e
    rw [int32At_eq f _ post 28 n e (by simp only [List.length_append, hd, w32_length]; rfl) (by omega), Int.toNat_of_nonneg n0]
  · rw [hf, List.drop_left']
    rw [List.length_append, Jef.header_length, hd, Jef.colorTable_length]

/-- **C133**, XXX: behind the 252 bytes of the header stands the position at which the stitches end: the end mark and then the colours are found there. -/
theorem C133_xxx {ts : List Thread} {l : List Stitch} {f : Bytes} (hf : Xxx.write ts l = .ok f) (hsz : f.length < 2 ^ 32) :
    ∃ stop : Nat, int32At f 0xFC = some (stop : Int) ∧ 0x100 ≤ stop ∧ (f.drop 0x100).take (stop - 0x100) = Xxx.writeRecs (wdeltas 0 0 l) ∧
      f.drop stop = [0x7F, 0x7F, 0x02, 0x14] ++ Xxx.colorBytes ts := by
  unfold Xxx.write at hf
  split at hf
  · rename_i b last hb hl
    have hf := (Except.ok.inj hf).symm
    have hh := (Xxx.C66_xxx ts.length l b last []).1
    generalize Xxx.header ts.length l b last = h at hf hh
    generalize Xxx.writeRecs (wdeltas 0 0 l) = body at hf ⊢
    have hlen : f.length = 0x100 + body.length + 4 + (Xxx.colorBytes ts).length := by
      rw [hf]
      simp only [List.length_append, w32_length, hh, List.length_cons, List.length_nil]
    refine ⟨0x100 + body.length, ?_, by omega, ?_, ?_⟩
    · have e : f = h ++ (writeInt32le ((h.length : Int) + 4 + body.length) ++ (body ++ [0x7F, 0x7F, 0x02, 0x14] ++ Xxx.colorBytes ts)) := by
        rw [hf]; simp only [List.append_assoc]
      rw [int32At_eq f h _ 0xFC _ e hh (by omega)]
      congr 1; rw [hh]; push_cast; ring
    · have e : f = (h ++ writeInt32le ((h.length : Int) + 4 + body.length)) ++ (body ++ ([0x7F, 0x7F, 0x02, 0x14] ++ Xxx.colorBytes ts)) := by
        rw [hf]; simp only [List.append_assoc]
      rw [e, List.drop_left' (by rw [List.length_append, hh, w32_length]), Nat.add_sub_cancel_left, List.take_left]
    · have e : f = (h ++ writeInt32le ((h.length : Int) + 4 + body.length) ++ body) ++ ([0x7F, 0x7F, 0x02, 0x14] ++ Xxx.colorBytes ts) := by
        rw [hf]; simp only [List.append_assoc]
      rw [e, List.drop_left' (by rw [List.length_append, List.length_append, hh, w32_length])]
  · cases hf

/-- **C133**, DST: there are three bytes for each command, and three for each further jump of a trim. -/
theorem C133_dst {t : Int} {l : List Stitch} {b : Bytes} (h : Dst.writeBody t l = .ok b) :
    (b.length : Int) = 3 * (l.length + l.countP (fun a => a.low == 2) * (max t 2 - 1)) := by
  unfold Dst.writeBody at h
  rw [FileSize.dst_all _ _ h]
  push_cast
  rw [FileSize.dst_expand]
  have h1 : (deltas 0 0 l).length = l.length := by
    have := congrArg List.length (deltas_cmds l 0 0)
    simpa using this
  have h2 : (deltas 0 0 l).countP (fun r => r.cmd == 2) = l.countP (fun a => a.low == 2) := by
    have := congrArg (List.countP (· == 2)) (deltas_cmds l 0 0)
    rw [List.countP_map, List.countP_map] at this
    exact this
  rw [h1, h2]

/-- **C133**, the count of DST, partial: without trims the file has as many records of three bytes as the design has commands, which is what `ST` says (`C69_dst`).
Missing are designs with trims, for which this is false: `C133_dst_not_count`. -/
theorem C133_dst_count_partial {t : Int} {l : List Stitch} {b : Bytes} (h : Dst.writeBody t l = .ok b) (ht : ∀ a ∈ l, a.low ≠ 2) : b.length = 3 * l.length := by
  have e := C133_dst h
  have z : l.countP (fun a => a.low == 2) = 0 := by
    rw [List.countP_eq_zero]
    intro a ha
    simpa using ht a ha
  rw [z] at e
  push_cast at e
  omega

/-- **C133**, U01: for a design that ends with its only END there are three bytes for each stitch, jump, trim, stop, needle change and the END, behind the 256 of the header. -/
theorem C133_u01 {l : List Stitch} {f : Bytes} (hl : ∀ a ∈ l.dropLast, a.low ≠ 4) (he : ∀ e, l.getLast? = some e → e.low = 4) (h0 : l ≠ []) (hf : U01.write l = .ok f) :
    f.length = 256 + 3 * l.countP (fun a => decide (a.low ∈ [(0 : Int), 1, 2, 3, 4, 9])) := by
  unfold U01.write at hf
  split at hf
  · rename_i b last hb hlast
    obtain ⟨t, h1, hf⟩ := Compress.bind_ok_iff hf
    have hf := (Except.ok.inj hf).symm
    rw [hf, List.length_append, U01.C66_u01, FileSize.u01_recs l 0 0 false false t hl he h0 h1]
  · rename_i hx
    obtain ⟨b, hb, -⟩ := C43_tight l h0
    exact absurd (List.getLast?_eq_getLast_of_ne_nil h0) (fun e => hx b _ hb e)

/-- A design with a trim, a colour change and a jump, and what its files say and measure. -/
def sizeDemo : List Stitch := [⟨0, 0, 0⟩, ⟨0, 0, 2⟩, ⟨20, 10, 1⟩, ⟨20, 10, 5⟩, ⟨30, 10, 0⟩, ⟨30, 10, 4⟩]

example : (match Jef.write (some 3) (List.replicate 14 0x30) 30 10 [{ color := 0xFF0000 }, { color := 0xFF }] sizeDemo with
    | .ok f => (int32At f 0, int32At f 28, f.length)
    | .error _ => (none, none, 0)) = (some 132, some 13, 158) := by
  decide +kernel

example : (match Xxx.write [{ color := 0xFF0000 }, { color := 0xFF }] sizeDemo with
    | .ok f => (int32At f 0xFC, (f.drop 0x100).length)
    | .error _ => (none, 0)) = (some 272, 112) := by
  decide +kernel

/-- The count `ST` of this design is 6 (`C69_dst`), but the file has 8 records: the jumps of a trim are not counted. -/
theorem C133_dst_not_count : (Dst.writeBody 3 sizeDemo).map List.length = .ok (3 * 8) ∧ sizeDemo.length = 6 := by
  decide +kernel

example : (U01.write [⟨0, 0, 0⟩, ⟨0, 0, 2⟩, ⟨20, 10, 1⟩, ⟨20, 10, 11⟩, ⟨30, 10, 0⟩, ⟨30, 10, 4⟩]).map List.length = .ok (256 + 3 * 5) := by
  decide +kernel

end Emb
