import Verif.Decimal
import Verif.DstHeader
import Verif.Props.Commands
import Verif.Props.BoundsProps
import Verif.Props.U01Props
import Verif.Props.XxxProps
import Verif.Props.JefProps
import Verif.Props.Vp3Props
import Verif.Props.CompressProps

/-!
# Property C69: what the headers say about the design
-/

namespace Emb

/-- The signed 16 bit number (low byte first) at position `k` of a file. -/
def int16At (f : Bytes) (k : Nat) : Option Int := (readInt16le (f.drop k)).1.map signed16

/-- The 32 bit number (low byte first) at position `k` of a file. -/
def int32At (f : Bytes) (k : Nat) : Option Int := (readInt32le (f.drop k)).1

theorem int16At_eq (f pre post : Bytes) (k : Nat) (v : Int) (e : f = pre ++ (writeInt16le v ++ post)) (hk : pre.length = k)
    (h : -32768 ≤ v ∧ v ≤ 32767) : int16At f k = some v := by
  subst hk e
  unfold int16At
  rw [List.drop_left, (C02_read_write v post).2.1]
  exact congrArg some ((C02_signed_roundtrip v).2.1 h)

theorem int32At_eq (f pre post : Bytes) (k : Nat) (v : Int) (e : f = pre ++ (writeInt32le v ++ post)) (hk : pre.length = k)
    (h : 0 ≤ v ∧ v < 2 ^ 32) : int32At f k = some v := by
  subst hk e
  unfold int32At
  rw [List.drop_left, (C02_read_write v post).2.2.2.2.2.1]
  exact congrArg some (by show v % 2 ^ 32 = v; omega)

theorem int32At_mod (f pre post : Bytes) (k : Nat) (v : Int) (e : f = pre ++ (writeInt32le v ++ post)) (hk : pre.length = k) :
    int32At f k = some (v % 2 ^ 32) := by
  subst hk e
  unfold int32At
  rw [List.drop_left, (C02_read_write v post).2.2.2.2.2.1]

theorem w16_length (v : Int) : (writeInt16le v).length = 2 := rfl
theorem w32_length (v : Int) : (writeInt32le v).length = 4 := rfl

/-- Whole numbers as positions: every position is `a / 1` with `a` within 15 bits. -/
def Small (q : ℚ) : Prop := ∃ n : Int, q = n ∧ -16384 ≤ n ∧ n < 16384

theorem small_pyInt {q : ℚ} (h : Small q) : (pyInt q : ℚ) = q ∧ -16384 ≤ pyInt q ∧ pyInt q < 16384 := by
  obtain ⟨n, rfl, h1, h2⟩ := h
  rw [Vp3.pyInt_intCast]
  exact ⟨rfl, h1, h2⟩

theorem small_sub {p q : ℚ} (hp : Small p) (hq : Small q) :
    (pyInt (p - q) : ℚ) = p - q ∧ -32768 ≤ pyInt (p - q) ∧ pyInt (p - q) ≤ 32767 := by
  obtain ⟨n, rfl, h1, h2⟩ := hp
  obtain ⟨m, rfl, h3, h4⟩ := hq
  rw [← Int.cast_sub, Vp3.pyInt_intCast]
  exact ⟨rfl, by omega, by omega⟩

/-- The corners of the smallest box around a design with small whole positions are small. -/
theorem tight_small {l : List Stitch} {b : Box} (h : Tight l b) (hs : ∀ a ∈ l, Small a.x ∧ Small a.y) :
    Small b.minX ∧ Small b.maxX ∧ Small b.minY ∧ Small b.maxY := by
  obtain ⟨_, ⟨a1, m1, e1⟩, ⟨a2, m2, e2⟩, ⟨a3, m3, e3⟩, ⟨a4, m4, e4⟩⟩ := h
  exact ⟨e1 ▸ (hs a1 m1).1, e2 ▸ (hs a2 m2).1, e3 ▸ (hs a3 m3).2, e4 ▸ (hs a4 m4).2⟩

/-- **C69**, XXX: the file gives at 0x17 the number of commands before the last, at 0x27 the number of colours, at 0x2D and
0x2F the width and height, at 0x31 and 0x33 the end position (y upwards), at 0x35 and 0x37 the distances from the origin to the
left and lower edges of the smallest box around the design. -/
theorem C69_xxx (ts : List Thread) (l : List Stitch) (last : Stitch) (hl : l.getLast? = some last)
    (hs : ∀ a ∈ l, Small a.x ∧ Small a.y) (hn : l.length < 2 ^ 32) (ht : ts.length < 2 ^ 32) :
    ∃ (f : Bytes) (b : Box), Xxx.write ts l = .ok f ∧ Tight l b ∧
      int32At f 0x17 = some ((l.length : Int) - 1) ∧ int32At f 0x27 = some (ts.length : Int) ∧
      (int16At f 0x2D).map (Int.cast : Int → ℚ) = some (b.maxX - b.minX) ∧
      (int16At f 0x2F).map (Int.cast : Int → ℚ) = some (b.maxY - b.minY) ∧
      (int16At f 0x31).map (Int.cast : Int → ℚ) = some last.x ∧
      (int16At f 0x33).map (Int.cast : Int → ℚ) = some (-last.y) ∧
      (int16At f 0x35).map (Int.cast : Int → ℚ) = some (-b.minX) ∧
      (int16At f 0x37).map (Int.cast : Int → ℚ) = some b.maxY := by
  have hne : l ≠ [] := by rintro rfl; simp at hl
  obtain ⟨b, hb, htight⟩ := C43_tight l hne
  obtain ⟨s1, s2, s3, s4⟩ := tight_small htight hs
  obtain ⟨sx, sy⟩ := hs last (List.mem_of_getLast? hl)
  have hpos : 0 < l.length := List.length_pos_iff.2 hne
  obtain ⟨w1, w2, w3⟩ := small_sub s2 s1
  obtain ⟨v1, v2, v3⟩ := small_sub s4 s3
  obtain ⟨x1, x2, x3⟩ := small_pyInt sx
  obtain ⟨y1, y2, y3⟩ := small_pyInt sy
  obtain ⟨m1, m2, m3⟩ := small_pyInt s1
  obtain ⟨n1, n2, n3⟩ := small_pyInt s4
  let body := Xxx.writeRecs (wdeltas 0 0 l)
  let h := Xxx.header ts.length l b last
  refine ⟨h ++ writeInt32le (h.length + 4 + body.length) ++ body ++ [0x7F, 0x7F, 0x02, 0x14] ++ Xxx.colorBytes ts, b, ?_, htight, ?_⟩
  · unfold Xxx.write
    rw [hb, hl]
  · generalize writeInt32le (h.length + 4 + body.length) = off
    generalize Xxx.colorBytes ts = cols
    have e0 : h = Xxx.header ts.length l b last := rfl
    unfold Xxx.header at e0
    rw [e0]
    let p0 : Bytes := List.replicate 0x17 0
    let p1 := p0 ++ writeInt32le ((l.length : Int) - 1) ++ List.replicate 0x0C 0
    let p2 := p1 ++ writeInt32le ts.length ++ writeInt16le 0
    let p3 := p2 ++ writeInt16le (pyInt (b.maxX - b.minX))
    let p4 := p3 ++ writeInt16le (pyInt (b.maxY - b.minY))
    let p5 := p4 ++ writeInt16le (pyInt last.x)
    let p6 := p5 ++ writeInt16le (pyInt (-last.y))
    let p7 := p6 ++ writeInt16le (pyInt (-b.minX))
    have q0 : p0.length = 0x17 := by decide
    have q1 : p1.length = 0x27 := by simp only [p1, List.length_append, q0, w32_length, List.length_replicate]
    have q2 : p2.length = 0x2D := by simp only [p2, List.length_append, q1, w32_length, w16_length]
    have q3 : p3.length = 0x2F := by simp only [p3, List.length_append, q2, w16_length]
    have q4 : p4.length = 0x31 := by simp only [p4, List.length_append, q3, w16_length]
    have q5 : p5.length = 0x33 := by simp only [p5, List.length_append, q4, w16_length]
    have q6 : p6.length = 0x35 := by simp only [p6, List.length_append, q5, w16_length]
    have q7 : p7.length = 0x37 := by simp only [p7, List.length_append, q6, w16_length]
    have ny : pyInt (-last.y) = -pyInt last.y := Vp3.pyInt_neg _
    have nx : pyInt (-b.minX) = -pyInt b.minX := Vp3.pyInt_neg _
    refine ⟨int32At_eq _ p0 _ _ _ (by simp only [p0, List.append_assoc]; rfl) q0 (by omega),
      int32At_eq _ p1 _ _ _ (by simp only [p1, p0, List.append_assoc]; rfl) q1 (by omega), ?_, ?_, ?_, ?_, ?_, ?_⟩
    · rw [int16At_eq _ p2 _ _ (pyInt (b.maxX - b.minX)) (by simp only [p2, p1, p0, List.append_assoc]; rfl) q2 (by omega)]
      exact congrArg some w1
    · rw [int16At_eq _ p3 _ _ (pyInt (b.maxY - b.minY)) (by simp only [p3, p2, p1, p0, List.append_assoc]; rfl) q3 (by omega)]
      exact congrArg some v1
    · rw [int16At_eq _ p4 _ _ (pyInt last.x) (by simp only [p4, p3, p2, p1, p0, List.append_assoc]; rfl) q4 (by omega)]
      exact congrArg some x1
    · rw [int16At_eq _ p5 _ _ (pyInt (-last.y)) (by simp only [p5, p4, p3, p2, p1, p0, List.append_assoc]; rfl) q5 (by omega), ny]
      exact congrArg some (by rw [Int.cast_neg, y1])
    · rw [int16At_eq _ p6 _ _ (pyInt (-b.minX)) (by simp only [p6, p5, p4, p3, p2, p1, p0, List.append_assoc]; rfl) q6 (by omega), nx]
      exact congrArg some (by rw [Int.cast_neg, m1])
    · rw [int16At_eq _ p7 _ _ (pyInt b.maxY) (by simp only [p7, p6, p5, p4, p3, p2, p1, p0, List.append_assoc]; rfl) q7 (by omega)]
      exact congrArg some n1

/-- **C69**, U01: at 0x80 the smallest box around the design (left, top, right, bottom, y upwards), at 0x8C one more than the
number of commands, at 0x90 the end position. -/
theorem C69_u01 (l : List Stitch) (last : Stitch) (hl : l.getLast? = some last)
    (hs : ∀ a ∈ l, Small a.x ∧ Small a.y) (hn : l.length + 1 < 2 ^ 32) (f : Bytes) (hf : U01.write l = .ok f) :
    ∃ b : Box, Tight l b ∧
      (int16At f 0x80).map (Int.cast : Int → ℚ) = some b.minX ∧
      (int16At f 0x82).map (Int.cast : Int → ℚ) = some (-b.maxY) ∧
      (int16At f 0x84).map (Int.cast : Int → ℚ) = some b.maxX ∧
      (int16At f 0x86).map (Int.cast : Int → ℚ) = some (-b.minY) ∧
      int32At f 0x8C = some ((l.length : Int) + 1) ∧
      (int16At f 0x90).map (Int.cast : Int → ℚ) = some last.x ∧
      (int16At f 0x92).map (Int.cast : Int → ℚ) = some (-last.y) := by
  have hne : l ≠ [] := by rintro rfl; simp at hl
  obtain ⟨b, hb, htight⟩ := C43_tight l hne
  obtain ⟨s1, s2, s3, s4⟩ := tight_small htight hs
  obtain ⟨sx, sy⟩ := hs last (List.mem_of_getLast? hl)
  obtain ⟨x1, x2, x3⟩ := small_pyInt sx
  obtain ⟨y1, y2, y3⟩ := small_pyInt sy
  obtain ⟨a1, a2, a3⟩ := small_pyInt s1
  obtain ⟨b1, b2, b3⟩ := small_pyInt s2
  obtain ⟨c1, c2, c3⟩ := small_pyInt s3
  obtain ⟨d1, d2, d3⟩ := small_pyInt s4
  refine ⟨b, htight, ?_⟩
  unfold U01.write at hf
  rw [hb, hl] at hf
  obtain ⟨t, _, hf⟩ := Compress.bind_ok_iff hf
  injection hf with hf
  subst hf
  unfold U01.header
  generalize hpad : List.replicate _ (0 : Int) = pad
  let p0 : Bytes := List.replicate 0x80 0x30
  let p1 := p0 ++ writeInt16le (pyInt b.minX)
  let p2 := p1 ++ writeInt16le (-pyInt b.maxY)
  let p3 := p2 ++ writeInt16le (pyInt b.maxX)
  let p4 := p3 ++ writeInt16le (-pyInt b.minY) ++ writeInt32le 0
  let p5 := p4 ++ writeInt32le (l.length + 1)
  let p6 := p5 ++ writeInt16le (pyInt last.x)
  have q0 : p0.length = 0x80 := List.length_replicate
  have q1 : p1.length = 0x82 := by simp only [p1, List.length_append, q0, w16_length]
  have q2 : p2.length = 0x84 := by simp only [p2, List.length_append, q1, w16_length]
  have q3 : p3.length = 0x86 := by simp only [p3, List.length_append, q2, w16_length]
  have q4 : p4.length = 0x8C := by simp only [p4, List.length_append, q3, w16_length, w32_length]
  have q5 : p5.length = 0x90 := by simp only [p5, List.length_append, q4, w32_length]
  have q6 : p6.length = 0x92 := by simp only [p6, List.length_append, q5, w16_length]
  refine ⟨?_, ?_, ?_, ?_, int32At_eq _ p4 _ _ _ (by simp only [p4, p3, p2, p1, p0, List.append_assoc]; rfl) q4 (by omega), ?_, ?_⟩
  · rw [int16At_eq _ p0 _ _ (pyInt b.minX) (by simp only [p0, List.append_assoc]; rfl) q0 (by omega)]
    exact congrArg some a1
  · rw [int16At_eq _ p1 _ _ (-pyInt b.maxY) (by simp only [p1, p0, List.append_assoc]; rfl) q1 (by omega)]
    exact congrArg some (by rw [Int.cast_neg, d1])
  · rw [int16At_eq _ p2 _ _ (pyInt b.maxX) (by simp only [p2, p1, p0, List.append_assoc]; rfl) q2 (by omega)]
    exact congrArg some b1
  · rw [int16At_eq _ p3 _ _ (-pyInt b.minY) (by simp only [p3, p2, p1, p0, List.append_assoc]; rfl) q3 (by omega)]
    exact congrArg some (by rw [Int.cast_neg, c1])
  · rw [int16At_eq _ p5 _ _ (pyInt last.x) (by simp only [p5, p4, p3, p2, p1, p0, List.append_assoc]; rfl) q5 (by omega)]
    exact congrArg some x1
  · rw [int16At_eq _ p6 _ _ (-pyInt last.y) (by simp only [p6, p5, p4, p3, p2, p1, p0, List.append_assoc]; rfl) q6 (by omega)]
    exact congrArg some (by rw [Int.cast_neg, y1])

/-- The signed 32 bit number (low byte first) at position `k` of a file. -/
def sint32At (f : Bytes) (k : Nat) : Option Int := (int32At f k).map (fun v => if v < 2 ^ 31 then v else v - 2 ^ 32)

theorem sint32At_eq (f pre post : Bytes) (k : Nat) (v : Int) (e : f = pre ++ (writeInt32le v ++ post)) (hk : pre.length = k)
    (h : -2 ^ 31 ≤ v ∧ v < 2 ^ 31) : sint32At f k = some v := by
  unfold sint32At
  rw [int32At_mod f pre post k v e hk]
  refine congrArg some ?_
  show (if v % 2 ^ 32 < 2 ^ 31 then v % 2 ^ 32 else v % 2 ^ 32 - 2 ^ 32) = v
  split_ifs <;> omega

/-- The four distances at position `k`: left, top, right, bottom. -/
def edgesAt (f : Bytes) (k : Nat) : Option Int × Option Int × Option Int × Option Int :=
  (sint32At f k, sint32At f (k + 4), sint32At f (k + 8), sint32At f (k + 12))

theorem edgesAt_eq (f pre post : Bytes) (k : Nat) (a b c d : Int)
    (e : f = pre ++ ((writeInt32le a ++ writeInt32le b ++ writeInt32le c ++ writeInt32le d) ++ post)) (hk : pre.length = k)
    (h : (-2 ^ 31 ≤ a ∧ a < 2 ^ 31) ∧ (-2 ^ 31 ≤ b ∧ b < 2 ^ 31) ∧ (-2 ^ 31 ≤ c ∧ c < 2 ^ 31) ∧ (-2 ^ 31 ≤ d ∧ d < 2 ^ 31)) :
    edgesAt f k = (some a, some b, some c, some d) := by
  unfold edgesAt
  rw [sint32At_eq f pre _ k a (by rw [e]; simp only [List.append_assoc]; rfl) hk h.1,
    sint32At_eq f (pre ++ writeInt32le a) _ (k + 4) b (by rw [e]; simp only [List.append_assoc]; rfl)
      (by rw [List.length_append, hk, w32_length]) h.2.1,
    sint32At_eq f (pre ++ writeInt32le a ++ writeInt32le b) _ (k + 8) c (by rw [e]; simp only [List.append_assoc]; rfl)
      (by simp only [List.length_append, hk, w32_length]) h.2.2.1,
    sint32At_eq f (pre ++ writeInt32le a ++ writeInt32le b ++ writeInt32le c) _ (k + 12) d
      (by rw [e]; simp only [List.append_assoc]; rfl)
      (by simp only [List.length_append, hk, w32_length]) h.2.2.2]

/-- What a JEF file has to say about a hoop of half width `W` and half height `H` for a design of half size `a` by `b`: the
distances from the design to the edges if it fits, otherwise -1. -/
def hoopSays (W H a b : Int) : Option Int × Option Int × Option Int × Option Int :=
  if a ≤ W ∧ b ≤ H then (some (W - a), some (H - b), some (W - a), some (H - b)) else (some (-1), some (-1), some (-1), some (-1))

theorem edgesAt_hoop (f pre post : Bytes) (k : Nat) (W H a b : Int) (e : f = pre ++ (Jef.hoopEdge (W - a) (H - b) ++ post))
    (hk : pre.length = k) (ha : 0 ≤ a ∧ a < 2 ^ 30) (hb : 0 ≤ b ∧ b < 2 ^ 30) (hW : 0 ≤ W ∧ W < 2 ^ 30) (hH : 0 ≤ H ∧ H < 2 ^ 30) :
    edgesAt f k = hoopSays W H a b := by
  unfold Jef.hoopEdge at e
  unfold hoopSays
  by_cases h : a ≤ W ∧ b ≤ H
  · rw [if_pos h]
    rw [if_pos (by omega)] at e
    exact edgesAt_eq f pre post k _ _ _ _ e hk (by omega)
  · rw [if_neg h]
    rw [if_neg (by omega)] at e
    exact edgesAt_eq f pre post k _ _ _ _ e hk (by omega)

/-- **C69**, JEF: for a design `w` units wide and `h` high the file gives at 36 half its size, and at 52, 68, 84 and 100 the
distances to the edges of the hoops of 110 mm by 110 mm, 50 mm by 50 mm and (twice) 140 mm by 200 mm. -/
theorem C69_jef (trimAt : Option Nat) (date : Bytes) (w h : Int) (threads : List Thread) (l : List Stitch) (f : Bytes)
    (hd : date.length = 14) (hw : 0 ≤ w ∧ w < 2 ^ 30) (hh : 0 ≤ h ∧ h < 2 ^ 30)
    (hf : Jef.write trimAt date w h threads l = .ok f) :
    ∃ a b : Int, |2 * a - w| ≤ 1 ∧ |2 * b - h| ≤ 1 ∧ edgesAt f 36 = (some a, some b, some a, some b) ∧
      edgesAt f 52 = hoopSays 550 550 a b ∧ edgesAt f 68 = hoopSays 250 250 a b ∧
      edgesAt f 84 = hoopSays 700 1000 a b ∧ edgesAt f 100 = hoopSays 700 1000 a b := by
  have half : ∀ n : Int, 0 ≤ n ∧ n < 2 ^ 30 →
      |2 * pyRound ((n : ℚ) / 2) - n| ≤ 1 ∧ 0 ≤ pyRound ((n : ℚ) / 2) ∧ pyRound ((n : ℚ) / 2) < 2 ^ 30 := by
    intro n hn
    have := abs_le.1 (pyRound_abs ((n : ℚ) / 2))
    have h1 : (2 * pyRound ((n : ℚ) / 2) - n : ℚ) ≤ 1 := by linarith
    have h2 : (-1 : ℚ) ≤ 2 * pyRound ((n : ℚ) / 2) - n := by linarith
    have h1 : 2 * pyRound ((n : ℚ) / 2) - n ≤ 1 := by exact_mod_cast h1
    have h2 : -1 ≤ 2 * pyRound ((n : ℚ) / 2) - n := by exact_mod_cast h2
    exact ⟨abs_le.2 ⟨h2, h1⟩, by omega, by omega⟩
  obtain ⟨ha, ha1, ha2⟩ := half w hw
  obtain ⟨hb, hb1, hb2⟩ := half h hh
  refine ⟨pyRound ((w : ℚ) / 2), pyRound ((h : ℚ) / 2), ha, hb, ?_⟩
  unfold Jef.write at hf
  obtain ⟨p, _, hf⟩ := Compress.bind_ok_iff hf
  injection hf with hf
  subst hf
  unfold Jef.header
  generalize pyRound ((w : ℚ) / 2) = a at *
  generalize pyRound ((h : ℚ) / 2) = b at *
  have he : ∀ x y, (Jef.hoopEdge x y).length = 16 := fun x y => by
    unfold Jef.hoopEdge; split_ifs <;> rfl
  let p0 := writeInt32le (0x74 + (p.length : Int) * 8) ++ writeInt32le 0x14 ++ date ++ writeInt8 0 ++ writeInt8 0 ++
    writeInt32le p.length ++ writeInt32le (Jef.pointCount trimAt (l.map (fun a => cmdOf a.cmd))) ++ writeInt32le (Jef.hoopSize w h)
  let p1 := p0 ++ (writeInt32le a ++ writeInt32le b ++ writeInt32le a ++ writeInt32le b)
  let p2 := p1 ++ Jef.hoopEdge (550 - a) (550 - b)
  let p3 := p2 ++ Jef.hoopEdge (250 - a) (250 - b)
  let p4 := p3 ++ Jef.hoopEdge (700 - a) (1000 - b)
  have q0 : p0.length = 36 := by simp only [p0, List.length_append, hd, w32_length]; rfl
  have q1 : p1.length = 52 := by simp only [p1, List.length_append, q0, w32_length]
  have q2 : p2.length = 68 := by simp only [p2, List.length_append, q1, he]
  have q3 : p3.length = 84 := by simp only [p3, List.length_append, q2, he]
  have q4 : p4.length = 100 := by simp only [p4, List.length_append, q3, he]
  refine ⟨edgesAt_eq _ p0 _ _ _ _ _ _ (by simp only [p0, List.append_assoc]; rfl) q0 (by omega),
    edgesAt_hoop _ p1 _ _ _ _ _ _ (by simp only [p1, p0, List.append_assoc]; rfl) q1 ⟨ha1, ha2⟩ ⟨hb1, hb2⟩ (by decide) (by decide),
    edgesAt_hoop _ p2 _ _ _ _ _ _ (by simp only [p2, p1, p0, List.append_assoc]; rfl) q2 ⟨ha1, ha2⟩ ⟨hb1, hb2⟩ (by decide) (by decide),
    edgesAt_hoop _ p3 _ _ _ _ _ _ (by simp only [p3, p2, p1, p0, List.append_assoc]; rfl) q3 ⟨ha1, ha2⟩ ⟨hb1, hb2⟩ (by decide) (by decide),
    edgesAt_hoop _ p4 _ _ _ _ _ _ (by simp only [p4, p3, p2, p1, p0, List.append_assoc]; rfl) q4 ⟨ha1, ha2⟩ ⟨hb1, hb2⟩ (by decide) (by decide)⟩

/-- Hoops of the JEF format by number: width and height in tenths of a millimetre. -/
def jefHoops : List (Int × Int × Int) := [(1, 500, 500), (3, 1260, 1100), (2, 1400, 2000), (4, 2000, 2000)]

/-- C69, JEF: the hoop named at 32 is the first of the list that is larger than the design; number 0 (110 mm by 110 mm) is
named if the design fits none of them, although it does not fit that one either. -/
theorem C69_jef_hoop (w h : Int) :
    Jef.hoopSize w h = ((jefHoops.find? (fun e => w < e.2.1 ∧ h < e.2.2)).map (·.1)).getD 0 := by
  unfold Jef.hoopSize jefHoops
  by_cases h1 : w < 500 ∧ h < 500
  · rw [if_pos h1, List.find?_cons_of_pos (by simpa using h1)]; rfl
  rw [if_neg h1, List.find?_cons_of_neg (by simpa using h1)]
  by_cases h2 : w < 1260 ∧ h < 1100
  · rw [if_pos h2, List.find?_cons_of_pos (by simpa using h2)]; rfl
  rw [if_neg h2, List.find?_cons_of_neg (by simpa using h2)]
  by_cases h3 : w < 1400 ∧ h < 2000
  · rw [if_pos h3, List.find?_cons_of_pos (by simpa using h3)]; rfl
  rw [if_neg h3, List.find?_cons_of_neg (by simpa using h3)]
  by_cases h4 : w < 2000 ∧ h < 2000
  · rw [if_pos h4, List.find?_cons_of_pos (by simpa using h4)]; rfl
  rw [if_neg h4, List.find?_cons_of_neg (by simpa using h4)]
  rfl

/-! ## DST -/

namespace Dst

/-- The text after a label: the first line (lines end with a carriage return) that begins with it. -/
def field (label : Str) (text : Str) : Option Str :=
  ((splitOn '\r' text).find? (fun s => label.isPrefixOf s)).map (fun s => s.drop label.length)

/-- A number with leading spaces. -/
def number (label : Str) (text : Str) : Option Int :=
  (field label text).bind (fun s => match parseInt s with | .ok n => some n | .error _ => none)

/-- A number written as a sign, spaces and digits. -/
def signedNumber (label : Str) (text : Str) : Option Int :=
  (field label text).bind (fun s => match s with
    | '+' :: s => (match parseInt s with | .ok n => some n | .error _ => none)
    | '-' :: s => (match parseInt s with | .ok n => some (-n) | .error _ => none)
    | _ => none)

/-- What the header is made from for a design with stitches, `DstWriter.py` 117-138 and 149-162 without the extended
header. -/
def info (name : Str) (l : List Stitch) (b : Box) (last : Stitch) : HeaderInfo where
  name := name
  stitches := l.length
  changes := countCommands l COLOR_CHANGE
  minX := b.minX
  minY := b.minY
  maxX := b.maxX
  maxY := b.maxY
  lastX := last.x
  lastY := last.y
  extended := false
  author := none
  copyright := none
  threads := []

theorem not_mem_padLeft (c : Char) (w : Nat) (s : Str) (hc : c ≠ ' ') (h : c ∉ s) : c ∉ padLeft w s := by
  unfold padLeft
  intro hm
  rcases List.mem_append.1 hm with hm | hm
  · exact hc (List.eq_of_mem_replicate hm)
  · exact h hm

theorem not_mem_padRight (c : Char) (w : Nat) (s : Str) (hc : c ≠ ' ') (h : c ∉ s) : c ∉ padRight w s := by
  unfold padRight
  intro hm
  rcases List.mem_append.1 hm with hm | hm
  · exact h hm
  · exact hc (List.eq_of_mem_replicate hm)

/-- One line of three characters, text and a carriage return. -/
def lineOf (a b c : Char) (s : Str) : Str := a :: b :: c :: s

theorem splitOn_line (a b c : Char) (s t : Str) (ha : a ≠ '\r') (hb : b ≠ '\r') (hc : c ≠ '\r') (h : '\r' ∉ s) :
    splitOn '\r' (lineOf a b c s ++ '\r' :: t) = lineOf a b c s :: splitOn '\r' t :=
  splitOn_append _ _ _ (by simp [lineOf, ha.symm, hb.symm, hc.symm, h])

/-- The sign and digits written for a number. -/
def signText (v : Int) : Str := (if 0 ≤ v then '+' else '-') :: padLeft 5 (dec |v|)

theorem signedLine_eq (a b c : Char) (v : Int) : signedLine [a, b, c] v = lineOf a b c (signText v) ++ "\r".toList := by
  unfold signedLine signText lineOf
  split_ifs with h
  · rw [abs_of_nonneg h]; rfl
  · rw [abs_of_neg (by omega)]; rfl

theorem cr_dec (n : Int) : '\r' ∉ dec n := dec_ne (by decide) (by decide)

theorem cr_signText (v : Int) : '\r' ∉ signText v := by
  unfold signText
  intro h
  rcases List.mem_cons.1 h with h | h
  · split_ifs at h <;> revert h <;> decide
  · exact not_mem_padLeft _ _ _ (by decide) (cr_dec _) h

/-- The lines of the header. -/
theorem headerText_lines (name : Str) (l : List Stitch) (b : Box) (last : Stitch) (hn : '\r' ∉ name) :
    splitOn '\r' (headerText (info name l b last)) =
      [lineOf 'L' 'A' ':' (padRight 16 name),
       lineOf 'S' 'T' ':' (padLeft 7 (dec l.length)),
       lineOf 'C' 'O' ':' (padLeft 3 (dec (countCommands l COLOR_CHANGE))),
       lineOf '+' 'X' ':' (padLeft 5 (dec (pyInt |b.maxX|))),
       lineOf '-' 'X' ':' (padLeft 5 (dec (pyInt |b.minX|))),
       lineOf '+' 'Y' ':' (padLeft 5 (dec (pyInt |b.maxY|))),
       lineOf '-' 'Y' ':' (padLeft 5 (dec (pyInt |b.minY|))),
       lineOf 'A' 'X' ':' (signText (pyInt last.x)),
       lineOf 'A' 'Y' ':' (signText (-pyInt last.y)),
       lineOf 'M' 'X' ':' "+    0".toList,
       lineOf 'M' 'Y' ':' "+    0".toList,
       lineOf 'P' 'D' ':' "******".toList, []] := by
  have e : headerText (info name l b last) =
      lineOf 'L' 'A' ':' (padRight 16 name) ++ '\r' :: (lineOf 'S' 'T' ':' (padLeft 7 (dec l.length)) ++ '\r' ::
      (lineOf 'C' 'O' ':' (padLeft 3 (dec (countCommands l COLOR_CHANGE))) ++ '\r' ::
      (lineOf '+' 'X' ':' (padLeft 5 (dec (pyInt |b.maxX|))) ++ '\r' ::
      (lineOf '-' 'X' ':' (padLeft 5 (dec (pyInt |b.minX|))) ++ '\r' ::
      (lineOf '+' 'Y' ':' (padLeft 5 (dec (pyInt |b.maxY|))) ++ '\r' ::
      (lineOf '-' 'Y' ':' (padLeft 5 (dec (pyInt |b.minY|))) ++ '\r' ::
      (lineOf 'A' 'X' ':' (signText (pyInt last.x)) ++ '\r' ::
      (lineOf 'A' 'Y' ':' (signText (-pyInt last.y)) ++ '\r' ::
      (lineOf 'M' 'X' ':' "+    0".toList ++ '\r' :: (lineOf 'M' 'Y' ':' "+    0".toList ++ '\r' ::
      (lineOf 'P' 'D' ':' "******".toList ++ '\r' :: []))))))))))) := by
    have a1 : signedLine "AX:".toList (pyInt last.x) = lineOf 'A' 'X' ':' (signText (pyInt last.x)) ++ ['\r'] :=
      signedLine_eq 'A' 'X' ':' _
    have a2 : signedLine "AY:".toList (-pyInt last.y) = lineOf 'A' 'Y' ':' (signText (-pyInt last.y)) ++ ['\r'] :=
      signedLine_eq 'A' 'Y' ':' _
    have m1 : "MX:+".toList ++ padLeft 5 (dec 0) ++ "\r".toList = lineOf 'M' 'X' ':' "+    0".toList ++ ['\r'] := by decide +kernel
    have m2 : "MY:+".toList ++ padLeft 5 (dec 0) ++ "\r".toList = lineOf 'M' 'Y' ':' "+    0".toList ++ ['\r'] := by decide +kernel
    have m3 : "PD:".toList ++ padLeft 6 "******".toList ++ "\r".toList = lineOf 'P' 'D' ':' "******".toList ++ ['\r'] := by
      decide +kernel
    have l1 : "LA:".toList = ['L', 'A', ':'] := by decide +kernel
    have l2 : "ST:".toList = ['S', 'T', ':'] := by decide +kernel
    have l3 : "CO:".toList = ['C', 'O', ':'] := by decide +kernel
    have l4 : "+X:".toList = ['+', 'X', ':'] := by decide +kernel
    have l5 : "-X:".toList = ['-', 'X', ':'] := by decide +kernel
    have l6 : "+Y:".toList = ['+', 'Y', ':'] := by decide +kernel
    have l7 : "-Y:".toList = ['-', 'Y', ':'] := by decide +kernel
    have l8 : "\r".toList = ['\r'] := by decide +kernel
    unfold headerText extendedLines info
    rw [m1, m2, m3]
    simp only [a1, a2, l1, l2, l3, l4, l5, l6, l7, l8, Bool.false_eq_true, if_false]
    simp only [lineOf, List.append_assoc, List.cons_append, List.nil_append, List.append_nil]
  have d := fun w n => not_mem_padLeft '\r' w (dec n) (by decide) (cr_dec n)
  rw [e]
  rw [splitOn_line _ _ _ _ _ (by decide) (by decide) (by decide) (not_mem_padRight _ _ _ (by decide) hn),
    splitOn_line _ _ _ _ _ (by decide) (by decide) (by decide) (d _ _),
    splitOn_line _ _ _ _ _ (by decide) (by decide) (by decide) (d _ _),
    splitOn_line _ _ _ _ _ (by decide) (by decide) (by decide) (d _ _),
    splitOn_line _ _ _ _ _ (by decide) (by decide) (by decide) (d _ _),
    splitOn_line _ _ _ _ _ (by decide) (by decide) (by decide) (d _ _),
    splitOn_line _ _ _ _ _ (by decide) (by decide) (by decide) (d _ _),
    splitOn_line _ _ _ _ _ (by decide) (by decide) (by decide) (cr_signText _),
    splitOn_line _ _ _ _ _ (by decide) (by decide) (by decide) (cr_signText _),
    splitOn_line _ _ _ _ _ (by decide) (by decide) (by decide) (by decide +kernel),
    splitOn_line _ _ _ _ _ (by decide) (by decide) (by decide) (by decide +kernel),
    splitOn_line _ _ _ _ _ (by decide) (by decide) (by decide) (by decide +kernel)]
  rfl

theorem signText_value (v : Int) :
    (match signText v with
      | '+' :: s => (match parseInt s with | .ok n => some n | .error _ => none)
      | '-' :: s => (match parseInt s with | .ok n => some (-n) | .error _ => none)
      | _ => none) = some v := by
  unfold signText
  split_ifs with h
  · simp only [parseInt_padLeft]; rw [abs_of_nonneg h]
  · simp only [parseInt_padLeft]; rw [abs_of_neg (by omega), neg_neg]

/-- **C69**, DST: the header shows the number of commands, the number of colour changes, the extents from the origin and the
end position (y upwards) of a design with whole positions, whatever its name (without carriage returns). -/
theorem C69_dst (name : Str) (hn : '\r' ∉ name) (l : List Stitch) (last : Stitch) (hl : l.getLast? = some last)
    (hs : ∀ a ∈ l, (∃ n : Int, a.x = n) ∧ (∃ n : Int, a.y = n)) :
    ∃ (b : Box) (t : Str), bounds l = some b ∧ Tight l b ∧ utf8 t <+: header (info name l b last) ∧
      (field "LA:".toList t).map (fun s => s.take name.length) = some name ∧
      number "ST:".toList t = some (l.length : Int) ∧
      number "CO:".toList t = some ((l.countP (fun a => a.low = 5) : Nat) : Int) ∧
      (number "+X:".toList t).map (Int.cast : Int → ℚ) = some |b.maxX| ∧
      (number "-X:".toList t).map (Int.cast : Int → ℚ) = some |b.minX| ∧
      (number "+Y:".toList t).map (Int.cast : Int → ℚ) = some |b.maxY| ∧
      (number "-Y:".toList t).map (Int.cast : Int → ℚ) = some |b.minY| ∧
      (signedNumber "AX:".toList t).map (Int.cast : Int → ℚ) = some last.x ∧
      (signedNumber "AY:".toList t).map (Int.cast : Int → ℚ) = some (-last.y) := by
  have hne : l ≠ [] := by rintro rfl; simp at hl
  obtain ⟨b, hb, htight⟩ := C43_tight l hne
  refine ⟨b, headerText (info name l b last), hb, htight, ⟨_, by unfold header; rw [List.append_assoc]⟩, ?_⟩
  have whole : ∀ {q : ℚ}, (∃ n : Int, q = n) → (pyInt q : ℚ) = q ∧ (pyInt |q| : ℚ) = |q| := by
    rintro q ⟨n, rfl⟩
    rw [← Int.cast_abs, Vp3.pyInt_intCast, Vp3.pyInt_intCast]
    exact ⟨rfl, rfl⟩
  obtain ⟨_, ⟨a1, m1, e1⟩, ⟨a2, m2, e2⟩, ⟨a3, m3, e3⟩, ⟨a4, m4, e4⟩⟩ := htight
  have w1 := whole (e1 ▸ (hs a1 m1).1)
  have w2 := whole (e2 ▸ (hs a2 m2).1)
  have w3 := whole (e3 ▸ (hs a3 m3).2)
  have w4 := whole (e4 ▸ (hs a4 m4).2)
  have wl := hs last (List.mem_of_getLast? hl)
  have wx := whole wl.1
  have wy := whole wl.2
  have l1 : "LA:".toList = ['L', 'A', ':'] := by decide +kernel
  have l2 : "ST:".toList = ['S', 'T', ':'] := by decide +kernel
  have l3 : "CO:".toList = ['C', 'O', ':'] := by decide +kernel
  have l4 : "+X:".toList = ['+', 'X', ':'] := by decide +kernel
  have l5 : "-X:".toList = ['-', 'X', ':'] := by decide +kernel
  have l6 : "+Y:".toList = ['+', 'Y', ':'] := by decide +kernel
  have l7 : "-Y:".toList = ['-', 'Y', ':'] := by decide +kernel
  have l8 : "AX:".toList = ['A', 'X', ':'] := by decide +kernel
  have l9 : "AY:".toList = ['A', 'Y', ':'] := by decide +kernel
  generalize et : headerText (info name l b last) = t
  have ht := headerText_lines name l b last hn
  rw [et] at ht
  have key : ∀ (label : Str) (n : Int) (w : Nat), field label t = some (padLeft w (dec n)) → number label t = some n := by
    intro label n w h
    unfold number
    rw [h]
    simp only [Option.bind_some, parseInt_padLeft]
  have key' : ∀ (label : Str) (n : Int), field label t = some (signText n) → signedNumber label t = some n := by
    intro label n h
    unfold signedNumber
    rw [h]
    exact signText_value n
  refine ⟨?_, key _ _ 7 ?_, key _ _ 3 ?_, ?_, ?_, ?_, ?_, ?_, ?_⟩
  · have : field "LA:".toList t = some (padRight 16 name) := by rw [field, ht, l1]; rfl
    rw [this]
    simp [padRight]
  · rw [field, ht, l2]; rfl
  · rw [field, ht, l3]
    have : countCommands l COLOR_CHANGE = l.countP (fun a => a.low = 5) := by
      unfold countCommands
      exact List.countP_congr (fun a _ => by simp [Stitch.low, cmdOf, COLOR_CHANGE]; exact decide_eq_true_iff.symm)
    rw [this]; rfl
  · rw [key _ (pyInt |b.maxX|) 5 (by rw [field, ht, l4]; rfl)]
    exact congrArg some w2.2
  · rw [key _ (pyInt |b.minX|) 5 (by rw [field, ht, l5]; rfl)]
    exact congrArg some w1.2
  · rw [key _ (pyInt |b.maxY|) 5 (by rw [field, ht, l6]; rfl)]
    exact congrArg some w4.2
  · rw [key _ (pyInt |b.minY|) 5 (by rw [field, ht, l7]; rfl)]
    exact congrArg some w3.2
  · rw [key' _ (pyInt last.x) (by rw [field, ht, l8]; rfl)]
    exact congrArg some wx.1
  · rw [key' _ (-pyInt last.y) (by rw [field, ht, l9]; rfl)]
    exact congrArg some (by rw [Int.cast_neg, wy.1])

/-- The header of a small design: 100 units to the right and 50 down, one colour change. -/
example : headerText (info "rose".toList [⟨0, 0, 0⟩, ⟨100, 50, 0⟩, ⟨100, 50, 5⟩, ⟨-20, 50, 4⟩] ⟨-20, 0, 100, 50⟩ ⟨-20, 50, 4⟩) =
    ("LA:rose            \rST:      4\rCO:  1\r+X:  100\r-X:   20\r+Y:   50\r-Y:    0\r" ++
     "AX:-   20\rAY:-   50\rMX:+    0\rMY:+    0\rPD:******\r").toList := by decide +kernel

end Dst

/-- A design that meets the hypotheses of `C69_xxx` and `C69_u01`, and what its files say. -/
def headerDemo : List Stitch := [⟨0, 0, 0⟩, ⟨100, 50, 0⟩, ⟨-20, 60, 0⟩, ⟨-20, 60, 4⟩]

example : (∀ a ∈ headerDemo, Small a.x ∧ Small a.y) ∧ headerDemo.getLast? = some ⟨-20, 60, 4⟩ := by
  refine ⟨?_, rfl⟩
  intro a ha
  simp only [headerDemo, List.mem_cons, List.not_mem_nil, or_false] at ha
  rcases ha with rfl | rfl | rfl | rfl
  · exact ⟨⟨0, by norm_num⟩, ⟨0, by norm_num⟩⟩
  · exact ⟨⟨100, by norm_num⟩, ⟨50, by norm_num⟩⟩
  · exact ⟨⟨-20, by norm_num⟩, ⟨60, by norm_num⟩⟩
  · exact ⟨⟨-20, by norm_num⟩, ⟨60, by norm_num⟩⟩

example : (match Xxx.write [] headerDemo with
    | .ok f => (int32At f 0x17, int16At f 0x2D, int16At f 0x2F, int16At f 0x31, int16At f 0x33, int16At f 0x35)
    | .error _ => (none, none, none, none, none, none)) = (some 3, some 120, some 60, some (-20), some (-60), some 20) := by
  decide +kernel

example : (match U01.write headerDemo with
    | .ok f => (int16At f 0x80, int16At f 0x82, int16At f 0x84, int16At f 0x86, int32At f 0x8C, int16At f 0x90)
    | .error _ => (none, none, none, none, none, none)) = (some (-20), some (-60), some 100, some 0, some 5, some (-20)) := by
  decide +kernel

example : (match Jef.write none (List.replicate 14 0x30) 601 300 [{ color := 0xFF0000 }] headerDemo with
    | .ok f => edgesAt f 52
    | .error _ => (none, none, none, none)) = (some 250, some 400, some 250, some 400) := by
  decide +kernel

end Emb
