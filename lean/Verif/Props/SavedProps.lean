import Verif.Props.SaveLoadProps
import Verif.Props.TbfProps
import Verif.Props.NeedleProps
import Verif.Pmv
import Verif.ColorFiles
import Verif.DstRead
import Verif.Props.EncoderProps

/-!
# C103: any design can be saved, and the file consists of bytes

Python refuses to write a number that is not a byte (`bytearray` raises `ValueError`). So every number the writers hand over must lie
between 0 and 255, whatever is saved.
-/

namespace Emb

/-- A sequence of bytes. -/
def AllBytes (f : Bytes) : Prop := ∀ b ∈ f, 0 ≤ b ∧ b < 256

/-- Limits that allow to go anywhere, and some needle. -/
def Settings.Moves (o : Settings) : Prop :=
  o.needleCount ≠ 0 ∧ (∀ m, o.maxStitch = some m → 0 < m) ∧ (∀ m, o.maxJump = some m → 0 < m)

/-- No command changes the limits (0xD5, 0xD6), or scales or turns the rest of the design (0xC4, 0xC5). -/
def Steady (source : List Stitch) : Prop := ∀ st ∈ source, st.low ≠ 0xD5 ∧ st.low ≠ 0xD6 ∧ st.low ≠ 0xC4 ∧ st.low ≠ 0xC5

/-! ## Lemmas -/

namespace Saved

theorem nil : AllBytes [] := by simp [AllBytes]

theorem append (a b : Bytes) : AllBytes (a ++ b) ↔ AllBytes a ∧ AllBytes b := by
  unfold AllBytes; simp only [List.mem_append]
  exact ⟨fun h => ⟨fun x hx => h x (.inl hx), fun x hx => h x (.inr hx)⟩, fun h x hx => hx.elim (h.1 x) (h.2 x)⟩

theorem cons (a : Int) (b : Bytes) : AllBytes (a :: b) ↔ (0 ≤ a ∧ a < 256) ∧ AllBytes b := by
  unfold AllBytes; simp

theorem flatMap {α : Type} (g : α → Bytes) (l : List α) (h : ∀ a ∈ l, AllBytes (g a)) : AllBytes (l.flatMap g) := by
  intro b hb
  obtain ⟨a, ha, hb⟩ := List.mem_flatMap.1 hb
  exact h a ha b hb

theorem flatten (l : List Bytes) (h : ∀ a ∈ l, AllBytes a) : AllBytes l.flatten := by
  intro b hb
  obtain ⟨a, ha, hb⟩ := List.mem_flatten.1 hb
  exact h a ha b hb

theorem replicate (n : Nat) (v : Int) (h : 0 ≤ v ∧ v < 256) : AllBytes (List.replicate n v) := by
  intro b hb
  rw [(List.mem_replicate.1 hb).2]; exact h

theorem lo8_byte (v : Int) : 0 ≤ lo8 v ∧ lo8 v < 256 := by unfold lo8; omega

theorem text (s : Str) : AllBytes (utf8 s) := by
  unfold utf8
  refine flatMap _ _ (fun c _ b hb => ?_)
  obtain ⟨u, -, rfl⟩ := List.mem_map.1 hb
  have := u.toNat_lt
  constructor
  · positivity
  · exact_mod_cast this

theorem int8 (v : Int) : AllBytes (writeInt8 v) := by simp [writeInt8, cons, nil, lo8_byte]
theorem int16le (v : Int) : AllBytes (writeInt16le v) := by simp [writeInt16le, cons, nil, lo8_byte]
theorem int16be (v : Int) : AllBytes (writeInt16be v) := by simp [writeInt16be, cons, nil, lo8_byte]
theorem int24le (v : Int) : AllBytes (writeInt24le v) := by simp [writeInt24le, cons, nil, lo8_byte]
theorem int24be (v : Int) : AllBytes (writeInt24be v) := by simp [writeInt24be, cons, nil, lo8_byte]
theorem int32le (v : Int) : AllBytes (writeInt32le v) := by simp [writeInt32le, cons, nil, lo8_byte]
theorem int32be (v : Int) : AllBytes (writeInt32be v) := by simp [writeInt32be, cons, nil, lo8_byte]

theorem pad (n : Nat) : AllBytes (List.replicate n 0) := replicate n 0 (by decide)
theorem pad20 (n : Nat) : AllBytes (List.replicate n 0x20) := replicate n _ (by decide)
theorem pad30 (n : Nat) : AllBytes (List.replicate n 0x30) := replicate n _ (by decide)

/-! ### EXP, JEF, XXX -/

theorem exp (l : List Stitch) : AllBytes (Exp.write l) := by
  unfold Exp.write
  refine flatMap _ _ (fun r _ => ?_)
  unfold Exp.writeRec
  split_ifs <;> simp [cons, nil, lo8_byte]

theorem jef_body (trimAt : Option Nat) (rs : List Rec) : AllBytes (Jef.writeBody trimAt rs) := by
  induction rs with
  | nil => simp [Jef.writeBody, cons, nil]
  | cons r rs ih =>
    rw [Jef.writeBody]
    split_ifs
    · simp [cons, nil]
    · rw [append]
      refine ⟨?_, ih⟩
      unfold Jef.writeRec
      split_ifs
      · simp [append, int8]
      · simp [append, int8, cons]
      · refine flatten _ (fun a ha => ?_)
        rw [(List.mem_replicate.1 ha).2]; simp [cons, nil]
      · simp [append, int8, cons]
      · exact nil

theorem jef_hoop (x y : Int) : AllBytes (Jef.hoopEdge x y) := by
  unfold Jef.hoopEdge; split_ifs <;> simp [append, int32le]

theorem xxx_recs (rs : List Rec) : AllBytes (Xxx.writeRecs rs) := by
  induction rs with
  | nil => simp [Xxx.writeRecs, nil]
  | cons r rs ih =>
    simp only [Xxx.writeRecs]
    split_ifs <;> simp [cons, nil, append, lo8_byte, ih, int16le]

/-! ### DST -/

theorem dst_record {x y c : Int} {b : Bytes} (h : Dst.encodeRecord x y c = .ok b) : AllBytes b := by
  have key : ∀ L x, (Dst.tern L (2 * L + 1) x).1 ∈ Set.Icc (0 : Int) 1 := by
    intro L x; unfold Dst.tern; simp only; split_ifs <;> simp
  have key2 : ∀ L x, (Dst.tern L (2 * L + 1) x).2.1 ∈ Set.Icc (0 : Int) 1 := by
    intro L x; unfold Dst.tern; simp only; split_ifs <;> simp
  have ha : ∀ v, (∀ w ∈ [(Dst.axis v).p81, (Dst.axis v).m81, (Dst.axis v).p27, (Dst.axis v).m27, (Dst.axis v).p9, (Dst.axis v).m9,
      (Dst.axis v).p3, (Dst.axis v).m3, (Dst.axis v).p1, (Dst.axis v).m1], w ∈ Set.Icc (0 : Int) 1) := by
    intro v w hw
    simp only [List.mem_cons, List.not_mem_nil, or_false, Dst.axis] at hw
    rcases hw with rfl | rfl | rfl | rfl | rfl | rfl | rfl | rfl | rfl | rfl
    · exact key 40 _
    · exact key2 40 _
    · exact key 13 _
    · exact key2 13 _
    · exact key 4 _
    · exact key2 4 _
    · exact key 1 _
    · exact key2 1 _
    · exact key 0 _
    · exact key2 0 _
  unfold Dst.encodeRecord at h
  simp only at h
  have hx := ha x
  have hy := ha (-y)
  simp only [List.mem_cons, List.not_mem_nil, or_false, forall_eq_or_imp, forall_eq, Set.mem_Icc] at hx hy
  generalize Dst.axis x = a at h hx
  generalize Dst.axis (-y) = a' at h hy
  have hj : (if c = JUMP ∨ c = SEQUIN_EJECT then (128 : Int) else 0) = 0 ∨ (if c = JUMP ∨ c = SEQUIN_EJECT then (128 : Int) else 0) = 128 := by
    split_ifs <;> simp
  generalize (if c = JUMP ∨ c = SEQUIN_EJECT then (128 : Int) else 0) = j at h hj
  split_ifs at h
  · cases h
    simp only [cons, nil, and_true]
    refine ⟨?_, ?_, ?_⟩ <;> omega
  all_goals
    cases h
    simp [cons, nil]

theorem dst_all {rs : List Rec} {b : Bytes} (h : Dst.encodeAll rs = .ok b) : AllBytes b := by
  induction rs generalizing b with
  | nil => cases h; exact nil
  | cons r rs ih =>
    rw [Dst.encodeAll] at h
    cases h1 : Dst.encodeRecord r.dx r.dy r.cmd with
    | error e => rw [h1] at h; cases h
    | ok a =>
      rw [h1] at h
      cases h2 : Dst.encodeAll rs with
      | error e => rw [h2] at h; cases h
      | ok t =>
        rw [h2] at h
        cases h
        exact (append _ _).2 ⟨dst_record h1, ih h2⟩

/-! ### U01, TBF -/

theorem u01_triple {c dx dy : Int} {b : Bytes} (h : U01.triple c dx dy = .ok b) : AllBytes b := by
  unfold U01.triple IsByte at h
  split_ifs at h with h1
  cases h
  simp only [cons, nil, and_true]
  exact h1

theorem u01_ok (c dx dy : Int) (hc : 0 ≤ c) (hc2 : c < 256) (hx : -128 ≤ dx ∧ dx ≤ 128) (hy : -128 ≤ dy ∧ dy ≤ 128) :
    ∃ b, U01.triple c dx dy = .ok b ∧ AllBytes b := by
  have : U01.triple c dx dy = .ok [c, |dy|, |dx|] := by
    unfold U01.triple IsByte
    rw [if_pos]
    refine ⟨⟨hc, hc2⟩, ⟨abs_nonneg _, ?_⟩, ⟨abs_nonneg _, ?_⟩⟩ <;> rw [abs_lt] <;> omega
  exact ⟨_, this, u01_triple this⟩

theorem u01_base (dx dy : Int) : 0x80 ≤ U01.base dx dy ∧ U01.base dx dy ≤ 0xE0 := by
  unfold U01.base; split_ifs <;> omega

theorem u01_speed (f s : Bool) : 0 ≤ U01.speedBits f s ∧ U01.speedBits f s ≤ 6 := by
  cases f <;> cases s <;> decide

theorem u01_recs (rs : List Rec) (fast slow : Bool) (h : ∀ r ∈ rs, -128 ≤ r.dx ∧ r.dx ≤ 128 ∧ -128 ≤ r.dy ∧ r.dy ≤ 128)
    (hn : ∀ r ∈ rs, r.cmd % 256 = 9 → r.cmd / 65536 % 256 ≠ 0) : ∃ b, U01.writeRecs fast slow rs = .ok b ∧ AllBytes b := by
  induction rs generalizing fast slow with
  | nil => exact ⟨_, rfl, by simp [cons, nil]⟩
  | cons r rs ih =>
    have ih := fun f s => ih f s (fun a ha => h a (by simp [ha])) (fun a ha => hn a (by simp [ha]))
    obtain ⟨a1, a2, a3, a4⟩ := h r (by simp)
    have hb := u01_base r.dx r.dy
    have hs := u01_speed fast slow
    have go : ∀ (k : Int) (f s : Bool), 0 ≤ k → k < 32 →
        ∃ b, (U01.triple (U01.base r.dx r.dy + k) r.dx r.dy >>= fun b => U01.writeRecs f s rs >>= fun t => .ok (b ++ t)) = .ok b ∧
          AllBytes b := by
      intro k f s k0 k1
      obtain ⟨b, hb1, hb2⟩ := u01_ok (U01.base r.dx r.dy + k) r.dx r.dy (by omega) (by omega) ⟨a1, a2⟩ ⟨a3, a4⟩
      obtain ⟨t, ht1, ht2⟩ := ih f s
      refine ⟨b ++ t, ?_, (append _ _).2 ⟨hb2, ht2⟩⟩
      rw [U01.bind_of hb1, U01.bind_of ht1]
    rw [U01.writeRecs]
    split_ifs with c1 c2 c3 c4 c5 c6 c7 c8
    · exact ih _ _
    · exact ih _ _
    · exact go _ _ _ (by omega) (by omega)
    · rw [add_assoc]; exact go _ _ _ (by omega) (by omega)
    · exact go _ _ _ (by omega) (by omega)
    · exact go _ _ _ (by omega) (by omega)
    · have h9 : r.cmd % 256 = 9 := c7
      rw [U01.needle_of _ (hn r (by simp) h9)]
      simp only
      rw [add_assoc]
      have : 0 ≤ U01.needleCode (r.cmd / 65536 % 256 - 1) ∧ U01.needleCode (r.cmd / 65536 % 256 - 1) ≤ 15 := by
        have := hn r (by simp) h9
        unfold U01.needleCode
        split_ifs <;> omega
      exact go _ _ _ (by omega) (by omega)
    · exact ⟨_, rfl, by simp [cons, nil]⟩
    · exact ih _ _

theorem tbf_recs (rs : List Rec) : AllBytes (Tbf.writeRecs rs) := by
  induction rs with
  | nil => simp [Tbf.writeRecs, cons, nil]
  | cons r rs ih =>
    simp only [Tbf.writeRecs]
    split_ifs <;> simp [cons, nil, lo8_byte, ih, Tbf.triple]

theorem tbf_needles {ns : List (Option Int)} (h : none ∉ ns) : ∃ b, Tbf.needleBytes ns = .ok b ∧ AllBytes b := by
  induction ns with
  | nil => exact ⟨[], rfl, nil⟩
  | cons n ns ih =>
    obtain ⟨b, h1, h2⟩ := ih (fun hm => h (by simp [hm]))
    cases n with
    | none => exact absurd List.mem_cons_self h
    | some v => exact ⟨lo8 v :: b, by rw [Tbf.needleBytes, U01.bind_of h1], (cons _ _).2 ⟨lo8_byte _, h2⟩⟩

/-! ### VP3 -/

theorem vp3_stitches (l : List Stitch) (x y : ℚ) : AllBytes (Vp3.stitchBytes x y l) := by
  induction l generalizing x y with
  | nil => simp [Vp3.stitchBytes, nil]
  | cons st l ih =>
    rw [Vp3.stitchBytes]
    simp only
    split_ifs <;> simp [cons, nil, append, lo8_byte, ih, int16be]

theorem vp3_patched {tag body : Bytes} (h1 : AllBytes tag) (h2 : AllBytes body) : AllBytes (Vp3.patched tag body) := by
  simp [Vp3.patched, append, h1, h2, Vp3.int32, int32be]

theorem vp3_block (first : Bool) (cx cy : ℚ) (b : List Stitch × Thread) : AllBytes (Vp3.colorBlock first cx cy b) := by
  unfold Vp3.colorBlock
  refine vp3_patched (by simp [cons, nil]) ?_
  simp only [append, Vp3.int32, int32be, int8, true_and, and_true, Vp3.threadBytes, Vp3.string8, text, int16be, int24be, cons, nil,
    Vp3.stitchesBlock]
  refine ⟨by simp, vp3_patched (by simp [cons, nil]) ?_⟩
  simp [cons, vp3_stitches]

theorem vp3_blocks (cx cy : ℚ) (first : Bool) (bs : List (List Stitch × Thread)) : AllBytes (Vp3.colorBlocks cx cy first bs) := by
  induction bs generalizing first with
  | nil => simp [Vp3.colorBlocks, nil]
  | cons b bs ih => rw [Vp3.colorBlocks, append]; exact ⟨vp3_block _ _ _ _, ih _⟩

theorem vp3_producer : AllBytes (Vp3.string16 Vp3.producer) := by unfold AllBytes; decide +kernel

theorem vp3_file (l : List Stitch) (x : Box) (bs : List (List Stitch × Thread)) : AllBytes (Vp3.fileBlock l x bs) := by
  unfold Vp3.fileBlock
  refine vp3_patched (by simp [cons, nil]) ?_
  have h0 : AllBytes (Vp3.string16 []) := by unfold AllBytes; decide
  have hx : AllBytes ("xxPP".toList.map (fun c => (c.toNat : Int))) := by unfold AllBytes; decide
  simp only [append, Vp3.int32, int32be, int8, true_and, h0]
  unfold Vp3.designBlock
  refine vp3_patched (by simp [cons, nil]) ?_
  simp only [append, Vp3.int32, int32be, h0, hx, vp3_producer, int16be, vp3_blocks, and_true, true_and, cons, nil]
  simp

/-! ### PMV and colour files -/

theorem pmv_points (c s : ℚ) (l : List Stitch) (xx lo hi : Int) : AllBytes (Pmv.points c s xx lo hi l).1 := by
  induction l generalizing xx lo hi with
  | nil => exact nil
  | cons st l ih =>
    rw [Pmv.points]
    simp only
    by_cases h : cmdOf st.cmd = STITCH ∨ cmdOf st.cmd = JUMP
    · rw [if_pos h]
      show AllBytes (_ ++ _ ++ _)
      simp only [append, int8, true_and]
      exact ih _ _ _
    · rw [if_neg h]; exact ih _ _ _

theorem pmv_width (r : Int) : AllBytes (Pmv.widthTable r) := by
  unfold Pmv.widthTable
  split_ifs
  · simp [append, int8, int16le]
  · simp only [append, int8, true_and]
    exact flatMap _ _ (fun i _ => by simp [append, int16le])

theorem inf_records (i : Nat) (ts : List Thread) : AllBytes (Inf.records i ts) := by
  induction ts generalizing i with
  | nil => simp [Inf.records, nil]
  | cons t ts ih => simp [Inf.records, Inf.record, append, int8, int16be, text, ih]

/-! ### PEC and PES -/

theorem pec_value (v : Int) (long : Bool) (flag : Int) (h : 0 ≤ flag ∧ flag ≤ 0x70) : AllBytes (Pec.writeValue v long flag) := by
  unfold Pec.writeValue
  split_ifs <;> simp only [cons, nil, and_true] <;> omega

theorem pec_recs (rs : List Rec) (two jumping init : Bool) : AllBytes (Pec.encodeRecs two jumping init rs) := by
  have h0 := fun v long => pec_value v long 0 (by decide)
  have h1 := fun v long => pec_value v long 0x10 (by decide)
  have h2 := fun v long => pec_value v long 0x20 (by decide)
  have hs : ∀ a b, AllBytes (Pec.writeStitch a b) := fun a b => by simp [Pec.writeStitch, append, h0]
  have hj : ∀ a b, AllBytes (Pec.writeJump a b) := fun a b => by simp [Pec.writeJump, append, h1]
  have ht : ∀ a b, AllBytes (Pec.writeTrimjump a b) := fun a b => by simp [Pec.writeTrimjump, append, h2]
  induction rs generalizing two jumping init with
  | nil => simp [Pec.encodeRecs, nil]
  | cons r rs ih =>
    rw [Pec.encodeRecs]
    split_ifs <;> simp [append, hs, hj, ht, ih, cons, nil]

theorem update_byte {g g' : List Nat} {i : Int} {f : Nat → Nat} (hf : ∀ b < 256, f b < 256) (hg : ∀ b ∈ g, b < 256)
    (h : PecGraphics.update g i f = .ok g') : ∀ b ∈ g', b < 256 := by
  unfold PecGraphics.update at h
  simp only at h
  generalize (if i < 0 then i + (g.length : Int) else i) = j at h
  by_cases hj : j < 0
  · rw [if_pos hj] at h; cases h
  · rw [if_neg hj] at h
    cases hb : g[j.toNat]? with
    | none => rw [hb] at h; cases h
    | some b =>
      rw [hb] at h
      cases h
      intro c hc
      rcases List.mem_or_eq_of_mem_set hc with hc | rfl
      · exact hg c hc
      · exact hf b (hg b (List.mem_of_getElem? hb))

theorem draw_byte (l t r b : ℚ) (stride : Nat) (buffer : ℚ) (ps : List (ℚ × ℚ)) (g : List Nat) (hg : ∀ b ∈ g, b < 256) :
    ∀ c ∈ PecGraphics.drawScaled l t r b stride buffer ps g, c < 256 := by
  induction ps generalizing g with
  | nil => exact hg
  | cons p ps ih =>
    rw [PecGraphics.drawScaled]
    generalize PecGraphics.scaledPixel l t r b g.length stride buffer p.1 p.2 = q
    cases h : PecGraphics.markBit g q.1 q.2 stride with
    | error e => exact ih g hg
    | ok g' =>
      refine ih g' (update_byte (fun v hv => ?_) hg h)
      have : (q.1 % 8).toNat < 8 := by omega
      have h1 : 1 <<< (q.1 % 8).toNat < 2 ^ 8 := by
        rw [Nat.one_shiftLeft]; exact Nat.pow_lt_pow_right (by decide) this
      exact Nat.or_lt_two_pow hv h1

theorem blank_byte : ∀ b ∈ Pec.blank, b < 256 := by decide +kernel

theorem toBytes_all (g : List Nat) (hg : ∀ b ∈ g, b < 256) : AllBytes (Pec.toBytes g) := by
  intro b hb
  obtain ⟨n, hn, rfl⟩ := List.mem_map.1 hb
  have := hg n hn
  omega

theorem thumbnails_all (b : Box) (l : List Stitch) : ∀ g ∈ Pec.thumbnails b l, AllBytes g := by
  intro g hg
  unfold Pec.thumbnails at hg
  rcases List.mem_cons.1 hg with rfl | hg
  · refine toBytes_all _ ?_
    generalize Blocks.stitchBlocks ([] : List Unit) (fun _ => ()) l = bs
    have : ∀ (bs : List (List Stitch × Unit)) (g : List Nat), (∀ c ∈ g, c < 256) → ∀ c ∈ bs.foldl (fun g blk =>
        PecGraphics.drawScaled b.minX b.minY b.maxX b.maxY 6 4 (Pec.points blk.1) g) g, c < 256 := by
      intro bs
      induction bs with
      | nil => intro g h; exact h
      | cons a bs ih => intro g h; exact ih _ (draw_byte _ _ _ _ _ _ _ _ h)
    exact this _ _ blank_byte
  · obtain ⟨blk, -, rfl⟩ := List.mem_map.1 hg
    exact toBytes_all _ (draw_byte _ _ _ _ _ _ _ _ blank_byte)

theorem unique_length (order : List Thread) (p chart : List (Option Thread)) : (uniqueLoop order p chart).length = chart.length := by
  induction order generalizing p chart with
  | nil => rfl
  | cons t ts ih =>
    rw [uniqueLoop]
    cases findNearest t.color p with
    | none => rfl
    | some i => simp only; rw [ih]; simp

theorem unique_keeps (order : List Thread) (p chart : List (Option Thread)) (h : ∃ t, some t ∈ chart) :
    ∃ t, some t ∈ uniqueLoop order p chart := by
  induction order generalizing p chart with
  | nil => exact h
  | cons t ts ih =>
    rw [uniqueLoop]
    cases findNearest t.color p with
    | none => exact h
    | some i =>
      refine ih _ _ ?_
      obtain ⟨u, hu⟩ := h
      obtain ⟨k, hk, e⟩ := List.mem_iff_getElem.1 hu
      by_cases hki : k = i
      · exact ⟨t, List.mem_iff_getElem.2 ⟨i, by simpa [← hki] using hk, by simp⟩⟩
      · exact ⟨u, List.mem_iff_getElem.2 ⟨k, by simpa using hk, by rw [List.getElem_set_ne (fun h => hki h.symm)]; exact e⟩⟩

theorem palette_size : Pec.palette.length = 65 ∧ 0 < entries Pec.palette := by decide +kernel

theorem nearest_lt {c : Int} {p : List (Option Thread)} {i : Nat} (h : findNearest c p = some i) : i < p.length := by
  obtain ⟨t, ht, -⟩ := ((C38_nearest c p).2 i).1 h
  by_contra hn
  rw [List.getElem?_eq_none (by omega)] at ht
  cases ht

/-- Every thread gets an entry of the palette, however many there are. -/
theorem unique_all (order threads : List Thread) (ho : IsSetOrder order threads) :
    ∃ cs, Pec.allSome (buildUnique Pec.palette order threads) = some cs ∧ cs.length = threads.length ∧ (∀ c ∈ cs, c < 65) ∧
      buildUnique Pec.palette order threads = cs.map some := by
  unfold buildUnique
  simp only
  have hlen : (uniqueLoop order Pec.palette (List.replicate Pec.palette.length none)).length = 65 := by
    rw [unique_length, List.length_replicate]; exact palette_size.1
  have hsome : ∀ t ∈ threads, (findNearest t.color (uniqueLoop order Pec.palette (List.replicate Pec.palette.length none))).isSome = true := by
    intro t ht
    obtain ⟨u, hu, -⟩ := ho.2 t ht
    have : ∃ v, some v ∈ uniqueLoop order Pec.palette (List.replicate Pec.palette.length none) := by
      cases order with
      | nil => cases hu
      | cons a as =>
        rw [uniqueLoop]
        obtain ⟨i, q, hi, hq⟩ := findNearest_some_of_entries (c := a.color) palette_size.2
        rw [hi]
        refine unique_keeps _ _ _ ⟨a, ?_⟩
        have hil := nearest_lt hi
        exact List.mem_iff_getElem.2 ⟨i, by simpa using hil, by simp⟩
    rw [Option.isSome_iff_ne_none]
    intro hn
    obtain ⟨v, hv⟩ := this
    exact absurd ((C38_nearest _ _).1.1 hn _ hv) (by simp)
  obtain ⟨cs, h1, h2⟩ := Pes.allSome_of (threads.map (fun t => findNearest t.color
      (uniqueLoop order Pec.palette (List.replicate Pec.palette.length none)))) (by
    intro a ha
    obtain ⟨t, ht, rfl⟩ := List.mem_map.1 ha
    exact hsome t ht)
  refine ⟨cs, h1, by simpa using (congrArg List.length h2).symm, ?_, h2⟩
  intro c hc
  have : some c ∈ threads.map (fun t => findNearest t.color (uniqueLoop order Pec.palette (List.replicate Pec.palette.length none))) := by
    rw [h2]; exact List.mem_map.2 ⟨c, hc, rfl⟩
  obtain ⟨t, -, e⟩ := List.mem_map.1 this
  rw [← hlen]
  exact nearest_lt e

/-- A pattern with stitches and at most 255 threads becomes a PEC part. -/
theorem pec_part (order : List Thread → List Thread) (name : Option Str) (T : List Thread) (l : List Stitch) (hl : l ≠ [])
    (ho : IsSetOrder (order T) T) (hT : T.length ≤ 255) : ∃ f, Pec.writePattern order name T l = .ok f ∧ AllBytes f := by
  obtain ⟨cs, h1, h2, h3, -⟩ := unique_all (order T) T ho
  obtain ⟨b, hb, -⟩ := C43_tight l hl
  unfold Pec.writePattern
  rw [h1]
  simp only
  rw [hb]
  simp only
  unfold Pec.write Pec.header
  rw [if_neg (by omega)]
  refine ⟨_, rfl, ?_⟩
  have hc : AllBytes (cs.map (fun c : Nat => (c : Int))) := by
    intro v hv
    obtain ⟨c, hc, rfl⟩ := List.mem_map.1 hv
    have := h3 c hc
    omega
  simp only [append, text, int8, int16le, int24le, pad20, cons, nil, and_true, true_and, Pec.block, Pec.encodeSection, pec_recs]
  refine ⟨⟨⟨⟨by decide, ?_⟩, ?_⟩, by decide⟩, flatten _ (thumbnails_all b l)⟩
  · decide
  · split_ifs with h
    · simp only [append, pad20, cons, hc, and_true, true_and]; omega
    · simp [cons, nil]

/-- The length of what the stops become. -/
theorem stops_ne {T : List Thread} {l : List Stitch} (hl : l ≠ []) (k : Int) : (Ops.stopAsDup k l T).1 ≠ [] := by
  have : ∀ (l : List Stitch) (T : List Thread) (i : Nat), (Ops.stopLoop k T i l).1.length = l.length := by
    intro l
    induction l with
    | nil => intro T i; rfl
    | cons st l ih =>
      intro T i
      rw [Ops.stopLoop]
      split_ifs
      · simp [ih]
      · simp [ih]
      · cases T[i]? <;> simp [ih]
      · simp [ih]
  intro h
  have h1 := this l T 0
  unfold Ops.stopAsDup at h
  rw [h] at h1
  exact hl (List.length_eq_zero_iff.1 h1.symm)

/-- As many needle changes as change commands, and one for the first colour. -/
theorem needle_count {o : Settings} {lm : Libm} {threads : List Thread} {source out : List Stitch} {ths : List (Option Thread)}
    (hv : o.ValidSequins) (hc : o.changeCommand = 9) (h : encode o lm threads source = .ok (out, ths))
    (hn : source.countP (fun st => st.low ∈ [5, 9, 226, 16]) ≤ 254) : out.countP (fun a => a.low == 9) ≤ 256 := by
  obtain ⟨plan, hp, ht⟩ := encode_needles hv hc h
  have hlen : (rawPlan threads source).length ≤ 1 + (events source 0).length :=
    fold_length (threads := threads) (events source 0) ([(0, {})], 0)
  rw [events_length] at hlen
  have hk := congrArg List.length (fillPlan_keys _ _ _ _ hp)
  simp only [List.length_map] at hk
  have hsub : ((List.range (needleWords out).length).map (fun k : Nat => (k : Int))) ⊆ plan.map (·.1) := by
    intro x hx
    obtain ⟨k, hk, rfl⟩ := List.mem_map.1 hx
    obtain ⟨ch, hd, -⟩ := ht k _ (List.getElem?_eq_getElem (List.mem_range.1 hk))
    by_contra hcon
    rw [dget_none.2 hcon] at hd
    cases hd
  have hnd : ((List.range (needleWords out).length).map (fun k : Nat => (k : Int))).Nodup :=
    List.nodup_range.map (fun a b => by simp)
  have := (List.subperm_of_subset hnd hsub).length_le
  simp only [List.length_map, List.length_range] at this
  rw [List.countP_eq_length_filter]
  unfold needleWords at this
  omega

theorem string8 (s : Option Str) : AllBytes (Pes.string8 s) := by
  cases s <;> simp [Pes.string8, append, int8, text]

theorem pes_thread (t : Thread) : AllBytes (Pes.thread t) := by
  simp [Pes.thread, append, int8, int32le, string8]

theorem pes_header (f32 : ℚ → Bytes) (hf : ∀ q, AllBytes (f32 q)) (texts : Pes.Texts) (chart : List Thread) (n : Int) :
    AllBytes (Pes.headerV6 f32 texts chart n) := by
  simp only [Pes.headerV6, Pes.unit, append, string8, int8, int16le, hf, cons, nil, and_true, true_and]
  exact ⟨⟨by decide, flatMap _ _ (fun _ _ => int16le _)⟩, flatMap _ _ (fun t _ => pes_thread t)⟩

theorem pes_sections (first : Bool) (segs : List (Nat × Int × List (ℚ × ℚ))) : AllBytes (Pes.sectionLoop first segs) := by
  induction segs generalizing first with
  | nil => rw [Pes.sectionLoop]; exact nil
  | cons s segs ih =>
    obtain ⟨code, flag, pts⟩ := s
    rw [Pes.sectionLoop]
    simp only [append, int16le, ih, and_true]
    refine ⟨by cases first <;> simp [nil, int16le], flatMap _ _ (fun q _ => by simp [append, int16le])⟩

theorem pes_blocks {f32 : ℚ → Bytes} (hf : ∀ q, AllBytes (f32 q)) {T : List Thread} {filler : Nat → Thread}
    {chart : List (Option Thread)} {b : Box} {l : List Stitch} {r : Bytes × Nat} (h : Pes.blocks f32 T filler chart b l = .ok r) :
    AllBytes r.1 := by
  unfold Pes.blocks at h
  simp only at h
  split at h
  · cases h
  · injection h with h
    subst h
    simp only [Pes.string16, Pes.sewHeader, Pes.segmentData, append, int16le, text, hf, pes_sections, cons, nil, and_true, true_and]
    have h0 : AllBytes (List.replicate 16 0) := by unfold AllBytes; decide
    have h1 : AllBytes (List.replicate 8 0) := by unfold AllBytes; decide
    exact ⟨⟨⟨⟨h0, h1⟩, by decide⟩, flatMap _ _ (fun q _ => by simp [append, int16le])⟩, by decide⟩

theorem pes_assemble {signature : String} {before pec after : Bytes} (h1 : AllBytes before) (h2 : AllBytes pec) (h3 : AllBytes after) :
    AllBytes (Pes.assemble signature before pec after) := by
  simp only [Pes.assemble, append, text, int32le, h1, h2, h3, and_self]

theorem pes_addendum {ix rgb : List Int} (h : AllBytes ix) : AllBytes (Pes.addendum ix rgb) := by
  simp only [Pes.addendum, append, h, true_and]
  refine ⟨⟨?_, ?_⟩, flatMap _ _ (fun _ _ => int24le _)⟩
  · intro b hb; rw [(List.mem_replicate.1 hb).2]; decide
  · intro b hb; rw [(List.mem_replicate.1 hb).2]; decide

theorem pes_indices (order : List Thread → List Thread) (T : List Thread) (ho : IsSetOrder (order T) T) (hT : T.length ≤ 255) :
    AllBytes (Pes.colorIndices order T) := by
  obtain ⟨cs, -, h2, h3, h4⟩ := unique_all (order T) T ho
  unfold Pes.colorIndices
  simp only
  rw [h4]
  split_ifs with h0
  · exact nil
  · rw [cons]
    refine ⟨?_, ?_⟩
    · simp only [List.length_map] at h0 ⊢
      have : cs.length ≠ 0 := fun e => h0 (by rw [List.length_eq_zero_iff.1 e]; rfl)
      omega
    · intro b hb
      simp only [List.map_map, List.mem_map, Function.comp] at hb
      obtain ⟨c, hc, rfl⟩ := hb
      have := h3 c hc
      simp only [Option.getD_some]
      omega

end Saved

/-! ## The theorems -/

variable {o : Settings} {lm : Libm} {threads : List Thread} {source : List Stitch}

/-- **C103**: with a limit that allows to move, every design without in-pattern limits is normalized, to a pattern that is not empty. -/
theorem C103_normalized (ho : o.Moves) (hv : o.ValidSequins) (hs : Steady source) :
    ∃ out ths, encode o lm threads source = .ok (out, ths) ∧ out ≠ [] := by
  obtain ⟨out, ths, h⟩ := C27_total (lm := lm) (threads := threads) ho.1 ho.2.1 ho.2.2 hs
  obtain ⟨l, e, rfl, -⟩ := C20_single_end hv h
  exact ⟨_, ths, h, by simp⟩

/-- **C103**: EXP. Every list of stitches becomes a sequence of bytes; with `C103_normalized` every design can be saved. -/
theorem C103_exp (l : List Stitch) : AllBytes (Exp.write l) := Saved.exp l

/-- **C103**: PMV. -/
theorem C103_pmv (l : List Stitch) : AllBytes (Pmv.write l) := by
  have h1 : AllBytes Pmv.lengthTable := by unfold AllBytes; decide +kernel
  have h2 : AllBytes Pmv.header := by unfold AllBytes; decide +kernel
  unfold Pmv.write
  simp only [Saved.append, Saved.int16le, Saved.int8, h1, h2, Saved.pmv_points, Saved.pmv_width, Saved.pad, Saved.cons, Saved.nil, and_true,
    true_and]
  decide

/-- **C103**: colour files. -/
theorem C103_colours (ts : List Thread) : AllBytes (Edr.write ts) ∧ AllBytes (Inf.write ts) := by
  constructor
  · exact Saved.flatMap _ _ (fun t _ => by simp [Saved.append, Saved.int8])
  · unfold Inf.write
    simp [Saved.append, Saved.int32be, Saved.inf_records]

/-- **C103**: XXX. -/
theorem C103_xxx (ts : List Thread) (l : List Stitch) (hl : l ≠ []) : ∃ f, Xxx.write ts l = .ok f ∧ AllBytes f := by
  obtain ⟨b, hb, -⟩ := C43_tight l hl
  unfold Xxx.write
  rw [hb, List.getLast?_eq_some_getLast hl]
  refine ⟨_, rfl, ?_⟩
  simp only [Saved.append, Xxx.header, Saved.int16le, Saved.int32le, Saved.pad, Saved.xxx_recs, Xxx.colorBytes, Saved.cons, Saved.nil,
    and_true, true_and]
  refine ⟨by decide, ⟨⟨by decide, ?_⟩, ?_⟩, by decide⟩
  · exact Saved.flatMap _ _ (fun t _ => by simp [Xxx.threadBytes, Saved.cons, Saved.nil, Saved.lo8_byte])
  · refine Saved.flatten _ (fun a ha => ?_)
    rw [(List.mem_replicate.1 ha).2]; exact Saved.int32le 0

/-- **C103**: VP3, with any threads. -/
theorem C103_vp3 (T : List Thread) (filler : Nat → Thread) (l : List Stitch) (hl : l ≠ []) :
    ∃ f, Vp3.write T filler l = .ok f ∧ AllBytes f := by
  obtain ⟨b, hb, -⟩ := C43_tight l hl
  unfold Vp3.write
  rw [hb]
  refine ⟨_, rfl, ?_⟩
  simp only [Saved.append, Saved.text, Saved.int8, Saved.vp3_producer, Saved.vp3_file, and_self]

/-- **C103**: DST: any design, with any texts and threads in the header. -/
theorem C103_dst (hlm : lm.Sound) (hv : o.ValidSequins) (hr : o.round = true) (hn : o.needleCount ≠ 0)
    (h1 : o.maxStitch = some 121) (h2 : o.maxJump = some 121) (h3 : o.longStitch = 0xF1 ∨ o.longStitch = 0xF2)
    (hs : Steady source) (hq : ∀ st ∈ source, st.low ≠ 0xF0) :
    ∃ out ths, encode o lm threads source = .ok (out, ths) ∧
      ∀ extended trimAt (d : Doc), d.stitches = out → ∃ f, Dst.writeDoc extended trimAt d = .ok f ∧ AllBytes f := by
  have ho : o.Moves := ⟨hn, fun m hm => by rw [h1] at hm; cases hm; norm_num, fun m hm => by rw [h2] at hm; cases hm; norm_num⟩
  obtain ⟨out, ths, h, hne⟩ := C103_normalized (lm := lm) (threads := threads) ho hv hs
  refine ⟨out, ths, h, fun extended trimAt d hd => ?_⟩
  subst hd
  obtain ⟨body, hw⟩ := Dst.C19_dst_never_raises hlm hv hr h1 h2 h3
    (fun st hst => ⟨(hs st hst).1, (hs st hst).2.1, hq st hst⟩) h trimAt
  obtain ⟨b, hb, -⟩ := C43_tight d.stitches hne
  unfold Dst.writeDoc
  rw [hb, List.getLast?_eq_some_getLast hne]
  refine ⟨_, by simp only; rw [U01.bind_of hw], ?_⟩
  simp only [Saved.append, Dst.header, Saved.text, Saved.pad20, Saved.cons, Saved.nil, and_true, true_and]
  exact ⟨by decide, Saved.dst_all hw⟩

/-- **C103**: JEF: any design that sews or changes the colour, with the threads of the normalized pattern (`T`; the random ones among
them may be any). -/
theorem C103_jef_partial (ho : o.Moves) (hv : o.ValidSequins) (hc : o.changeCommand = 5) (hs : Steady source) (hu : Uses source) :
    ∃ out ths, encode o lm threads source = .ok (out, ths) ∧
      ∀ (T : List Thread) (filler : Nat → Thread) trimAt date w h, T.length = ths.length → AllBytes date →
        ∃ f, Jef.write trimAt date w h (Blocks.fixColorCount T filler out) out = .ok f ∧ AllBytes f := by
  obtain ⟨out, ths, h, hne⟩ := C103_normalized (lm := lm) (threads := threads) ho hv hs
  refine ⟨out, ths, h, fun T filler trimAt date w hh hT hd => ?_⟩
  have hlen := (C27_thread_count hv hc h).1 hu
  have hcount : (out.map (fun a => cmdOf a.cmd)).countP (fun c => c = 5) = out.countP (fun a => a.low == 5) := by
    rw [List.countP_map]
    refine List.countP_congr (fun a _ => ?_)
    simp [Stitch.low, cmdOf]
  obtain ⟨p, hp⟩ := Jef.palette_total (Blocks.fixColorCount T filler out) (out.map (fun a => cmdOf a.cmd)) {} (by
    rw [hcount]
    have : T.length ≤ (Blocks.fixColorCount T filler out).length := by unfold Blocks.fixColorCount; simp
    split_ifs <;> simp only <;> omega)
  unfold Jef.write
  refine ⟨_, by simp only; rw [U01.bind_of hp], ?_⟩
  simp only [Saved.append, Jef.header, Saved.int32le, Saved.int8, hd, Saved.jef_hoop, Saved.jef_body, Jef.colorTable, and_true, true_and]
  exact ⟨Saved.flatMap _ _ (fun _ _ => Saved.int32le _), Saved.flatMap _ _ (fun _ _ => Saved.int32le _)⟩

/-- **C103**: U01: any design with at most 254 changes. -/
theorem C103_u01_partial (hlm : lm.Sound) (hv : o.ValidSequins) (hl : 1 ≤ o.needleCount) (hl2 : o.needleCount < 255)
    (h1 : o.maxStitch = some 127) (h2 : o.maxJump = some 127) (h3 : o.longStitch = 0xF1 ∨ o.longStitch = 0xF2)
    (hc : o.changeCommand = 9) (hs : Steady source) (hq : ∀ st ∈ source, st.low ≠ 0xF0)
    (hn : source.countP (fun st => st.low ∈ [5, 9, 226, 16]) ≤ 254) :
    ∃ out ths f, encode o lm threads source = .ok (out, ths) ∧ U01.write out = .ok f ∧ AllBytes f := by
  have ho : o.Moves := ⟨by omega, fun m hm => by rw [h1] at hm; cases hm; norm_num, fun m hm => by rw [h2] at hm; cases hm; norm_num⟩
  obtain ⟨out, ths, h, hne⟩ := C103_normalized (lm := lm) (threads := threads) ho hv hs
  have hlen := C22_step_length (M := ((127 : Int) : ℚ)) (by norm_num) hlm hv (by rw [h1]; norm_num) (by rw [h2]; norm_num) h3
    (fun st hst => ⟨(hs st hst).1, (hs st hst).2.1, hq st hst⟩) h
  have hfit := deltas_loose (M := 127) out [] 0 0 (by simp) (by simp) (fun m a post e => by simpa using hlen m a post e)
  obtain ⟨b, hb, -⟩ := C43_tight out hne
  obtain ⟨body, hw, hby⟩ := Saved.u01_recs (wdeltas 0 0 out) false false
    (by
      intro r hr
      have := hfit ⟨r.dx, r.dy, cmdOf r.cmd⟩ (by rw [deltas_eq]; exact List.mem_map.2 ⟨r, hr, rfl⟩)
      simpa using this)
    (by
      intro r hr h9 h0
      obtain ⟨a, ha, e⟩ := U01.wdeltas_cmd_mem hr
      obtain ⟨t, n, t1, t2, n1, n2, ea⟩ := needles_stated hv hc hl hl2 hn h a ha (by rw [Stitch.low, e]; exact h9)
      have en := congrArg (fun d => d.2.2.1) (decode_needle t1 t2 n1 n2)
      rw [← ea, e] at en
      unfold decodeCommand decField at en
      simp [h0] at en)
  refine ⟨out, ths, U01.header out b (out.getLast hne) ++ body, h, ?_, ?_⟩
  · unfold U01.write
    rw [hb, List.getLast?_eq_some_getLast hne]
    simp only
    rw [U01.bind_of hw]
  · simp only [Saved.append, U01.header, Saved.pad, Saved.pad30, Saved.int16le, Saved.int32le, hby, and_true]

/-- **C103**: TBF: any design with at most 254 changes, with any texts and threads. -/
theorem C103_tbf_partial (ho : o.Moves) (hv : o.ValidSequins) (hl : 1 ≤ o.needleCount) (hl2 : o.needleCount < 255)
    (hc : o.changeCommand = 9) (hs : Steady source) (hn : source.countP (fun st => st.low ∈ [5, 9, 226, 16]) ≤ 254) :
    ∃ out ths, encode o lm threads source = .ok (out, ths) ∧
      ∀ (name tp : Str) (T : List Thread), ∃ f, Tbf.write name tp T out = .ok f ∧ AllBytes f := by
  obtain ⟨out, ths, h, hne⟩ := C103_normalized (lm := lm) (threads := threads) ho hv hs
  refine ⟨out, ths, h, fun name tp T => ?_⟩
  have hcount := Saved.needle_count hv hc h hn
  obtain ⟨b, hb, -⟩ := C43_tight out hne
  obtain ⟨nb, hnb, hny⟩ := Saved.tbf_needles (ns := Tbf.needles out) (by
    intro hm
    obtain ⟨a, ha, e⟩ := List.mem_map.1 hm
    obtain ⟨ha, h9⟩ := List.mem_filter.1 ha
    obtain ⟨t, n, t1, t2, n1, n2, ea⟩ := needles_stated hv hc hl hl2 hn h a ha (by simpa [Stitch.low, cmdOf, NEEDLE_SET] using h9)
    have en := congrArg (fun d => d.2.2.1) (decode_needle t1 t2 n1 n2)
    rw [← ea, e] at en
    cases en)
  have hle : (Tbf.needles out).length ≤ 0x100 := by
    unfold Tbf.needles
    rw [List.length_map, ← List.countP_eq_length_filter]
    exact hcount
  unfold Tbf.write
  rw [hb, List.getLast?_eq_some_getLast hne]
  simp only
  have hord : Tbf.orderBytes out = .ok (nb ++ List.replicate (0x100 - (Tbf.needles out).length) 0) := by
    unfold Tbf.orderBytes
    rw [if_neg (by omega), U01.bind_of hnb]
  rw [U01.bind_of hord]
  refine ⟨_, rfl, ?_⟩
  simp only [Saved.append, Tbf.header, Tbf.partA, Tbf.partB, Tbf.partC, Saved.text, Saved.pad20, Saved.pad, Saved.tbf_recs, hny,
    Saved.cons, Saved.nil, and_true, true_and]
  exact ⟨Saved.flatMap _ _ (fun t _ => by simp [Tbf.threadBytes, Saved.cons, Saved.nil, Saved.lo8_byte]), by decide⟩

/-- The threads whose colours go into a PEC part: as many as there are colours, and one more for every stop. -/
def pecThreads (filler filler' : Nat → Thread) (T : List Thread) (l : List Stitch) : List Thread :=
  Blocks.fixColorCount (Pec.prepare filler T l).2 filler' (Pec.prepare filler T l).1

/-- **C103**: PEC: any pattern with at most 255 threads. -/
theorem C103_pec_partial (order : List Thread → List Thread) (filler filler' : Nat → Thread) (name : Option Str) (T : List Thread)
    (l : List Stitch) (hl : l ≠ []) (ho : IsSetOrder (order (pecThreads filler filler' T l)) (pecThreads filler filler' T l))
    (hT : (pecThreads filler filler' T l).length ≤ 255) :
    ∃ f, Pec.writeFile order filler filler' name T l = .ok f ∧ AllBytes f := by
  obtain ⟨f, h1, h2⟩ := Saved.pec_part order name (pecThreads filler filler' T l) (Pec.prepare filler T l).1
    (Saved.stops_ne hl _) ho hT
  refine ⟨utf8 "#PEC0001".toList ++ f, ?_, (Saved.append _ _).2 ⟨Saved.text _, h2⟩⟩
  unfold Pec.writeFile
  simp only
  unfold pecThreads at h1
  rw [h1]
  rfl

/-- C103: PEC: with more threads the pattern is not saved. -/
theorem C103_pec_fails (order : List Thread → List Thread) (filler filler' : Nat → Thread) (name : Option Str) (T : List Thread)
    (l : List Stitch) (hl : l ≠ []) (ho : IsSetOrder (order (pecThreads filler filler' T l)) (pecThreads filler filler' T l))
    (hT : 255 < (pecThreads filler filler' T l).length) : Pec.writeFile order filler filler' name T l = .error .assertionError := by
  obtain ⟨cs, h1, h2, -, -⟩ := Saved.unique_all (order (pecThreads filler filler' T l)) (pecThreads filler filler' T l) ho
  obtain ⟨b, hb, -⟩ := C43_tight (Pec.prepare filler T l).1 (Saved.stops_ne hl _)
  unfold Pec.writeFile
  simp only
  unfold Pec.writePattern
  unfold pecThreads at h1
  rw [h1, hb]
  simp only
  unfold Pec.write Pec.header
  unfold pecThreads at h2 hT
  rw [if_pos (by omega)]
  rfl

/-- **C103**: PES, versions 1 and 6, truncated or not, where `f32` makes the bytes of a number: any pattern with at most 255 threads, and
at least one thread for version 6. -/
theorem C103_pes_partial (f32 : ℚ → Bytes) (hf : ∀ q, AllBytes (f32 q)) (order : List Thread → List Thread)
    (filler filler' fillerSeg : Nat → Thread) (texts : Pes.Texts) (version : ℚ) (truncated : Bool) (T : List Thread) (l : List Stitch)
    (hl : l ≠ []) (ho : IsSetOrder (order (pecThreads filler filler' T l)) (pecThreads filler filler' T l))
    (hT : (pecThreads filler filler' T l).length ≤ 255) (hv : version = 1 ∨ version = 6)
    (h6 : version = 6 → truncated = false → pecThreads filler filler' T l ≠ []) :
    ∃ f, Pes.writeFile f32 order filler filler' fillerSeg texts version truncated T l = .ok f ∧ AllBytes f := by
  have hl' : (Pec.prepare filler T l).1 ≠ [] := Saved.stops_ne hl _
  obtain ⟨pec, hpec, hby⟩ := Saved.pec_part order texts.name (pecThreads filler filler' T l) (Pec.prepare filler T l).1 hl' ho hT
  have hix := Saved.pes_indices order _ ho hT
  obtain ⟨b, hb, -⟩ := C43_tight (Pec.prepare filler T l).1 hl'
  unfold pecThreads at hpec hix h6
  unfold Pes.writeFile
  simp only
  have h61 : ¬ ((6 : ℚ) = 1) := by norm_num
  rcases hv with rfl | rfl
  · rw [if_pos rfl, if_pos rfl]
    cases truncated with
    | true =>
      rw [if_pos rfl]
      unfold Pes.writeTruncatedV1
      rw [hpec]
      refine ⟨_, rfl, ?_⟩
      simp only [Saved.append, Saved.text, hby, Saved.cons, Saved.nil, and_true, true_and]
      decide
    | false =>
      rw [if_neg (by decide)]
      unfold Pes.writeV1
      rw [hb, hpec]
      obtain ⟨r, hr⟩ := Pes.blocks_ok f32 (Pec.prepare filler T l).2 fillerSeg Pec.palette b (Pec.prepare filler T l).1 (by decide +kernel)
      simp only
      refine ⟨_, by rw [U01.bind_of hr]; rfl, ?_⟩
      refine Saved.pes_assemble ?_ hby Saved.nil
      simp only [Saved.append, Pes.headerV1, Saved.int16le, Saved.pes_blocks hf hr, Saved.cons, Saved.nil, and_true, true_and]
      decide
  · rw [if_neg h61, if_pos rfl, if_neg h61, if_pos rfl]
    cases truncated with
    | true =>
      rw [if_pos rfl]
      unfold Pes.writeTruncatedV6
      rw [hpec]
      refine ⟨_, rfl, Saved.pes_assemble ?_ hby ?_⟩
      · simp only [Saved.append, Saved.pes_header f32 hf, Saved.cons, Saved.nil, and_true, true_and]
        decide
      · rw [Saved.append]
        exact ⟨Saved.pes_addendum (by simp only [Saved.cons, Saved.nil, and_true]; decide), Saved.int16le 0⟩
    | false =>
      rw [if_neg (by decide)]
      unfold Pes.writeV6
      simp only
      rw [hb, hpec]
      obtain ⟨r, hr⟩ := Pes.blocks_ok f32 (Blocks.fixColorCount (Pec.prepare filler T l).2 filler' (Pec.prepare filler T l).1) fillerSeg
        ((Blocks.fixColorCount (Pec.prepare filler T l).2 filler' (Pec.prepare filler T l).1).map some) b (Pec.prepare filler T l).1 (by
          have := h6 rfl rfl
          cases hh : Blocks.fixColorCount (Pec.prepare filler T l).2 filler' (Pec.prepare filler T l).1 with
          | nil => exact absurd hh this
          | cons t ts => simp [entries])
      simp only
      refine ⟨_, by rw [U01.bind_of hr]; rfl, Saved.pes_assemble ?_ hby ?_⟩
      · simp only [Saved.append, Saved.pes_header f32 hf, Saved.int32le, Saved.pes_blocks hf hr, Saved.cons, Saved.nil, and_true, true_and]
        exact ⟨by decide, Saved.flatMap _ _ (fun i _ => by simp [Saved.append, Saved.int32le])⟩
      · rw [Saved.append]
        exact ⟨Saved.pes_addendum hix, Saved.int16le 0⟩

/-- C103: TBF: a pattern with more than 256 needle changes is not saved. -/
theorem C103_tbf_fails (name tp : Str) (T : List Thread) (l : List Stitch) (h : 256 < l.countP (fun a => a.low == 9)) :
    Tbf.write name tp T l = .error .indexError := by
  have hl : l ≠ [] := by rintro rfl; simp at h
  obtain ⟨b, hb, -⟩ := C43_tight l hl
  have hle : (Tbf.needles l).length > 0x100 := by
    unfold Tbf.needles
    rw [List.length_map, ← List.countP_eq_length_filter]
    exact h
  unfold Tbf.write
  rw [hb, List.getLast?_eq_some_getLast hl]
  simp only
  unfold Tbf.orderBytes
  rw [if_pos hle]
  rfl

/-! ## Designs that cannot be saved -/

/-- C103: with a limit of 0 set within the design, it is not normalized and so not saved in any format that is normalized. -/
theorem C103_limit_fails : encode Exp.settings demoLm [] [⟨0, 0, 0xD5⟩, ⟨10, 0, 0⟩, ⟨20, 0, 0⟩] = .error .zeroDivision := by
  decide +kernel

/-- C103: JEF: a design in which nothing is sewn has no threads, but the first one is looked up. -/
theorem C103_jef_fails (filler : Nat → Thread) (date : Bytes) (w h : Int) :
    encode Jef.settings demoLm [] [⟨10, 0, 1⟩] = .ok ([⟨10, 0, 1⟩, ⟨10, 0, 4⟩], []) ∧
    Jef.write (some 3) date w h (Blocks.fixColorCount [] filler [⟨10, 0, 1⟩, ⟨10, 0, 4⟩]) [⟨10, 0, 1⟩, ⟨10, 0, 4⟩] = .error .indexError := by
  constructor
  · decide +kernel
  · rfl

/-- C103: PES: neither is the same design saved in version 6, as the move has no colour. -/
theorem C103_pes_fails (f32 : ℚ → Bytes) (order : List Thread → List Thread) (filler filler' fillerSeg : Nat → Thread)
    (texts : Pes.Texts) :
    encode Pec.settings demoLm [] [⟨10, 0, 1⟩] = .ok ([⟨10, 0, 1⟩, ⟨10, 0, 4⟩], []) ∧
    Pes.writeFile f32 order filler filler' fillerSeg texts 6 false [] [⟨10, 0, 1⟩, ⟨10, 0, 4⟩] = .error .typeError := by
  constructor
  · decide +kernel
  · rfl

/-! ## Examples -/

/-- Stitches, a colour change, a trim, a long stitch and a long jump. -/
def savedDemo : List Stitch := [⟨0, 0, 0⟩, ⟨27/5, 3, 0⟩, ⟨0, 0, 2⟩, ⟨300, 7/2, 0⟩, ⟨0, 0, 5⟩, ⟨301, -400, 1⟩, ⟨301, -4, 0⟩, ⟨0, 0, 4⟩]

/-- The hypotheses of the theorems for the design and the settings of the formats. -/
example : Steady savedDemo ∧ Uses savedDemo ∧ (∀ st ∈ savedDemo, st.low ≠ 0xF0) := by
  refine ⟨by unfold Steady savedDemo; decide, ⟨[], ⟨0, 0, 0⟩, savedDemo.tail, rfl, by simp, by decide⟩, by unfold savedDemo; decide⟩

example : Exp.settings.Moves ∧ Jef.settings.Moves ∧ Tbf.settings.Moves ∧ U01.settings.Moves ∧ Xxx.settings.Moves ∧ Pec.settings.Moves := by
  refine ⟨⟨by decide, ?_, ?_⟩, ⟨by decide, ?_, ?_⟩, ⟨by decide, ?_, ?_⟩, ⟨by decide, ?_, ?_⟩, ⟨by decide, ?_, ?_⟩, ⟨by decide, ?_, ?_⟩⟩ <;>
  · intro m hm
    injection hm with hm
    subst hm
    norm_num

/-- Lengths of files of the design. -/
example : (Exp.write (demoEncode Exp.settings savedDemo)).length = 60 ∧
    (Xxx.write [] (demoEncode Xxx.settings savedDemo)).toOption.map List.length = some 404 ∧
    (U01.write (demoEncode U01.settings savedDemo)).toOption.map List.length = some 307 ∧
    (Tbf.write [] [] [] (demoEncode Tbf.settings savedDemo)).toOption.map List.length = some 1591 := by
  decide +kernel

/-- One colour in a PEC and a PES file. -/
example (f32 : ℚ → Bytes) (hf : ∀ q, AllBytes (f32 q)) (t u v : Thread) :
    (∃ f, Pec.writeFile id (fun _ => t) (fun _ => u) none [] [⟨0, 0, 0⟩, ⟨10, 0, 0⟩, ⟨10, 0, 4⟩] = .ok f ∧ AllBytes f) ∧
    (∃ f, Pes.writeFile f32 id (fun _ => t) (fun _ => u) (fun _ => v) {} 6 false [] [⟨0, 0, 0⟩, ⟨10, 0, 0⟩, ⟨10, 0, 4⟩] = .ok f ∧
      AllBytes f) := by
  have h : pecThreads (fun _ => t) (fun _ => u) [] [⟨0, 0, 0⟩, ⟨10, 0, 0⟩, ⟨10, 0, 4⟩] = [t] := rfl
  refine ⟨C103_pec_partial id _ _ none [] _ (by simp) ?_ (by rw [h]; simp),
    C103_pes_partial f32 hf id _ _ _ {} 6 false [] _ (by simp) ?_ (by rw [h]; simp) (.inr rfl) (fun _ _ => by rw [h]; simp)⟩ <;>
  · rw [h]
    exact ⟨fun a ha => ha, fun a ha => ⟨a, ha, by simp [Thread.same]⟩⟩

end Emb
