import Verif.Props.RecordProps2
import Mathlib.Tactic.Ring

/-!
# C88: ZHS, and the formats with absolute coordinates
-/

namespace Emb
namespace Records

/-! ## ZHS -/

/-- The byte for a displacement in ZHS: sizes from 64 on are recorded one less, so that 63 does not occur. -/
def zhsCode (v : Int) : Int := twos (if 64 ≤ v then v - 1 else if v ≤ -64 then v + 1 else v)

def ZhsFits (v : Int) : Prop := -129 ≤ v ∧ v ≤ 128 ∧ v ≠ 63 ∧ v ≠ -63

/-- The bits of even and of odd order of a byte. -/
def evenBits (v : Int) : Int := v % 2 + v / 4 % 2 * 4 + v / 16 % 2 * 16 + v / 64 % 2 * 64
def oddBits (v : Int) : Int := v / 2 % 2 * 2 + v / 8 % 2 * 8 + v / 32 % 2 * 32 + v / 128 % 2 * 128

inductive Zhs where
  /-- a part of a displacement -/
  | part (dx dy : Int)
  | stitch (dx dy : Int)
  | jump (dx dy : Int)
  | colour
  | checksum (a b : Int)

/-- A record of ZHS; the bits of `x` and of `y` upwards are spread over two bytes. -/
def zhsRec (c dx dy : Int) : Bytes :=
  [c, evenBits (zhsCode dx) + oddBits (zhsCode (-dy)), evenBits (zhsCode (-dy)) + oddBits (zhsCode dx)]

def Zhs.bytes : Zhs → Bytes
  | .part dx dy => zhsRec 0x41 dx dy
  | .stitch dx dy => zhsRec 0x02 dx dy
  | .jump dx dy => zhsRec 0x01 dx dy
  | .colour => [0x04, 0, 0]
  | .checksum a b => [0x10, a, b]

def Zhs.Fits : Zhs → Prop
  | .part dx dy | .stitch dx dy | .jump dx dy => ZhsFits dx ∧ ZhsFits (-dy)
  | _ => True

/-- The commands of some records; parts are added to the next displacement. -/
def Zhs.evs (px py : Int) : List Zhs → List Ev
  | [] => []
  | .part dx dy :: l => Zhs.evs (px + dx) (py + dy) l
  | .stitch dx dy :: l => .stitch (px + dx) (py + dy) :: Zhs.evs 0 0 l
  | .jump dx dy :: l => .jump (px + dx) (py + dy) :: Zhs.evs 0 0 l
  | .colour :: l => .colour :: Zhs.evs 0 0 l
  | .checksum .. :: l => Zhs.evs px py l

def zhsEnd (tail : Bytes) : Prop := tail.length < 3 ∨ ∃ a b r, tail = 0x80 :: a :: b :: r

theorem zhs_axis (p q : Int) (hp : 0 ≤ p) (hp2 : p < 256) (hq : 0 ≤ q) (hq2 : q < 256) :
    (evenBits p + oddBits q) % 2 + (evenBits q + oddBits p) / 2 % 2 * 2 + (evenBits p + oddBits q) / 4 % 2 * 4 +
      (evenBits q + oddBits p) / 8 % 2 * 8 + (evenBits p + oddBits q) / 16 % 2 * 16 + (evenBits q + oddBits p) / 32 % 2 * 32 +
      (evenBits p + oddBits q) / 64 % 2 * 64 + (evenBits q + oddBits p) / 128 % 2 * 128 = p := by
  have key : ∀ p : Int, 0 ≤ p → p < 256 → ∃ a0 a1 a2 a3 a4 a5 a6 a7 : Int, (0 ≤ a0 ∧ a0 ≤ 1) ∧ (0 ≤ a1 ∧ a1 ≤ 1) ∧ (0 ≤ a2 ∧ a2 ≤ 1) ∧
      (0 ≤ a3 ∧ a3 ≤ 1) ∧ (0 ≤ a4 ∧ a4 ≤ 1) ∧ (0 ≤ a5 ∧ a5 ≤ 1) ∧ (0 ≤ a6 ∧ a6 ≤ 1) ∧ (0 ≤ a7 ∧ a7 ≤ 1) ∧
      p = a0 + a1 * 2 + a2 * 4 + a3 * 8 + a4 * 16 + a5 * 32 + a6 * 64 + a7 * 128 ∧
      evenBits p = a0 + a2 * 4 + a4 * 16 + a6 * 64 ∧ oddBits p = a1 * 2 + a3 * 8 + a5 * 32 + a7 * 128 := by
    intro p h1 h2
    refine ⟨p % 2, p / 2 % 2, p / 4 % 2, p / 8 % 2, p / 16 % 2, p / 32 % 2, p / 64 % 2, p / 128 % 2, by omega, by omega, by omega, by omega, by omega,
      by omega, by omega, by omega, by omega, rfl, rfl⟩
  obtain ⟨a0, a1, a2, a3, a4, a5, a6, a7, ⟨x0, y0⟩, ⟨x1, y1⟩, ⟨x2, y2⟩, ⟨x3, y3⟩, ⟨x4, y4⟩, ⟨x5, y5⟩, ⟨x6, y6⟩, ⟨x7, y7⟩, e, ev, od⟩ := key p hp hp2
  obtain ⟨b0, b1, b2, b3, b4, b5, b6, b7, ⟨u0, v0⟩, ⟨u1, v1⟩, ⟨u2, v2⟩, ⟨u3, v3⟩, ⟨u4, v4⟩, ⟨u5, v5⟩, ⟨u6, v6⟩, ⟨u7, v7⟩, -, ev', od'⟩ := key q hq hq2
  rw [ev, od, ev', od']
  clear ev od ev' od' key hp hp2 hq hq2
  have c0 : (a0 + a2 * 4 + a4 * 16 + a6 * 64 + (b1 * 2 + b3 * 8 + b5 * 32 + b7 * 128)) % 2 = a0 := by omega
  have c2 : (a0 + a2 * 4 + a4 * 16 + a6 * 64 + (b1 * 2 + b3 * 8 + b5 * 32 + b7 * 128)) / 4 % 2 = a2 := by omega
  have c4 : (a0 + a2 * 4 + a4 * 16 + a6 * 64 + (b1 * 2 + b3 * 8 + b5 * 32 + b7 * 128)) / 16 % 2 = a4 := by omega
  have c6 : (a0 + a2 * 4 + a4 * 16 + a6 * 64 + (b1 * 2 + b3 * 8 + b5 * 32 + b7 * 128)) / 64 % 2 = a6 := by omega
  have c1 : (b0 + b2 * 4 + b4 * 16 + b6 * 64 + (a1 * 2 + a3 * 8 + a5 * 32 + a7 * 128)) / 2 % 2 = a1 := by omega
  have c3 : (b0 + b2 * 4 + b4 * 16 + b6 * 64 + (a1 * 2 + a3 * 8 + a5 * 32 + a7 * 128)) / 8 % 2 = a3 := by omega
  have c5 : (b0 + b2 * 4 + b4 * 16 + b6 * 64 + (a1 * 2 + a3 * 8 + a5 * 32 + a7 * 128)) / 32 % 2 = a5 := by omega
  have c7 : (b0 + b2 * 4 + b4 * 16 + b6 * 64 + (a1 * 2 + a3 * 8 + a5 * 32 + a7 * 128)) / 128 % 2 = a7 := by omega
  rw [c0, c1, c2, c3, c4, c5, c6, c7, e]

theorem zhs_axis_spec (x y : Int) (hx : ZhsFits x) (hy : ZhsFits y) :
    Readers.zhsAxis (evenBits (zhsCode x) + oddBits (zhsCode y)) (evenBits (zhsCode y) + oddBits (zhsCode x)) = x := by
  have hc : ∀ v, ZhsFits v → 0 ≤ zhsCode v ∧ zhsCode v < 256 := by
    intro v h
    unfold ZhsFits at h
    unfold zhsCode twos
    split_ifs <;> omega
  have := zhs_axis (zhsCode x) (zhsCode y) (hc x hx).1 (hc x hx).2 (hc y hy).1 (hc y hy).2
  unfold Readers.zhsAxis
  simp only [this]
  unfold ZhsFits at hx
  unfold zhsCode twos signed8
  split_ifs <;> omega

theorem zhs_rec (s : Int × Int) (c dx dy : Int) (h : ZhsFits dx ∧ ZhsFits (-dy)) (rest : Bytes) :
    Readers.three Readers.zhsRecord s (zhsRec c dx dy ++ rest) =
      (match (if c = 0x10 then ([], some s)
        else if c = 0x41 then ([], some (s.1 + dx, s.2 + -dy))
        else if c = 0x02 then ([Readers.stitch (s.1 + dx) (-(s.2 + -dy))], some (0, 0))
        else if c = 0x01 then ([Readers.move (s.1 + dx) (-(s.2 + -dy))], some (0, 0))
        else if c = 0x04 then ([Readers.colorChange], some (0, 0))
        else if c = 0x80 then ([], none)
        else ([], some (s.1 + dx, s.2 + -dy)) : List Rec × Option (Int × Int)) with
      | (out, some s) => .again out s rest
      | (out, none) => .done out) := by
  simp only [zhsRec, List.cons_append, List.nil_append, Readers.three, Readers.zhsRecord, zhs_axis_spec dx (-dy) h.1 h.2, zhs_axis_spec (-dy) dx h.2 h.1]
  split_ifs <;> rfl

/-- **C88**: the stitches of ZHS. -/
theorem C88_zhs (l : List Zhs) (hl : ∀ i ∈ l, i.Fits) (tail : Bytes) (ht : zhsEnd tail) (fuel : Nat) (hf : l.length < fuel) :
    Readers.readZhsBody fuel (l.flatMap Zhs.bytes ++ tail) = some (.ok (drawn 0 0 (Zhs.evs 0 0 l))) := by
  let evs : Int × Int → Zhs → List Ev := fun s i => match i with
    | .stitch dx dy => [.stitch (s.1 + dx) (-(s.2 + -dy))]
    | .jump dx dy => [.jump (s.1 + dx) (-(s.2 + -dy))]
    | .colour => [.colour]
    | _ => []
  let next : Int × Int → Zhs → Int × Int := fun s i => match i with
    | .part dx dy => (s.1 + dx, s.2 + -dy)
    | .checksum .. => s
    | _ => (0, 0)
  have hm : ∀ (l : List Zhs) (s : Int × Int), Means evs next s l = Zhs.evs s.1 (-s.2) l := by
    intro l
    induction l with
    | nil => intro s; rfl
    | cons i l ih =>
      intro s
      rw [Means, ih]
      cases i <;> simp [evs, next, Zhs.evs, add_comm]
  have r := finish_items (Readers.three Readers.zhsRecord) Zhs.bytes Zhs.Fits evs next (by
    intro s e he rest
    cases e with
    | part dx dy => rw [Zhs.bytes, zhs_rec s _ dx dy he]; rfl
    | stitch dx dy => rw [Zhs.bytes, zhs_rec s _ dx dy he]; rfl
    | jump dx dy => rw [Zhs.bytes, zhs_rec s _ dx dy he]; rfl
    | colour => rfl
    | checksum a b => rfl) tail (by
    intro s
    rcases ht with h | ⟨a, b, r, rfl⟩
    · exact three_short _ _ _ h
    · rfl) l hl (0, 0) fuel hf
  rw [hm] at r
  exact r

/-! ## PCD, PCQ, PCS and PCM -/

/-- A record of these formats: positions in sixths of a millimetre, upwards. -/
inductive Pc where
  | stitch (x y : Int)
  | jump (x y : Int)
  | colour

/-- A number in three bytes, and one in two's complement. -/
def twos24 (v : Int) : Int := if v < 0 then v + 16777216 else v
def le24 (v : Int) : Bytes := [v % 256, v / 256 % 256, v / 65536]
def be24 (v : Int) : Bytes := [v / 65536, v / 256 % 256, v % 256]

def Pc.pos : Pc → Int × Int
  | .stitch x y | .jump x y => (x, y)
  | .colour => (0, 0)

def Pc.ctrl : Pc → Int
  | .stitch .. => 0
  | .jump .. => 4
  | .colour => 1

def Pc.pcd (i : Pc) : Bytes := [0] ++ (le24 (twos24 i.pos.1) ++ ([0] ++ (le24 (twos24 i.pos.2) ++ [i.ctrl])))
def Pc.pcm (i : Pc) : Bytes := be24 (twos24 i.pos.1) ++ ([0] ++ (be24 (twos24 i.pos.2) ++ ([0] ++ [i.ctrl])))

def Pc.Fits (i : Pc) : Prop := -8388608 ≤ i.pos.1 ∧ i.pos.1 ≤ 8388607 ∧ -8388608 ≤ i.pos.2 ∧ i.pos.2 ≤ 8388607

/-- The pattern of some records, after a position. -/
def pcDrawn (x y : ℚ) : List Pc → List Stitch
  | [] => [⟨x, y, 4⟩]
  | .stitch a b :: l => ⟨a * 5 / 3, -b * 5 / 3, 0⟩ :: pcDrawn (a * 5 / 3) (-b * 5 / 3) l
  | .jump a b :: l => ⟨a * 5 / 3, -b * 5 / 3, 1⟩ :: pcDrawn (a * 5 / 3) (-b * 5 / 3) l
  | .colour :: l => ⟨x, y, 5⟩ :: pcDrawn x y l

def Pc.call : Pc → Readers.Call
  | .stitch a b => .abs 0 (a * (5 / 3)) (-b * (5 / 3))
  | .jump a b => .abs 1 (a * (5 / 3)) (-b * (5 / 3))
  | .colour => .here 5

theorem perform_pc (l : List Pc) (x y : ℚ) : Readers.perform x y (l.map Pc.call ++ [.here END]) = pcDrawn x y l := by
  have e : ∀ q : ℚ, q * (5 / 3) = q * 5 / 3 := by intro q; ring
  induction l generalizing x y with
  | nil => simp [Readers.perform, pcDrawn, END]
  | cons i l ih => cases i <;> simp [Readers.perform, pcDrawn, Pc.call, ih, e]

theorem loop_calls {σ ι : Type} (step : σ → Bytes → Readers.Next σ Readers.Call) (enc : ι → Bytes) (ok : ι → Prop) (call : ι → Readers.Call)
    (s : σ) (h : ∀ i, ok i → ∀ rest, step s (enc i ++ rest) = .again [call i] s rest) (tail : Bytes) (ht : step s tail = .done []) (l : List ι)
    (hl : ∀ i ∈ l, ok i) (fuel : Nat) (hf : l.length < fuel) :
    Readers.loop step fuel s (l.flatMap enc ++ tail) = some (.ok (l.map call)) := by
  induction l generalizing fuel with
  | nil =>
    cases fuel with
    | zero => simp at hf
    | succ fuel => simp [Readers.loop, ht]
  | cons i l ih =>
    cases fuel with
    | zero => simp at hf
    | succ fuel =>
      have e : (i :: l).flatMap enc ++ tail = enc i ++ (l.flatMap enc ++ tail) := by simp [List.flatMap_cons, List.append_assoc]
      rw [e, Readers.loop, h i (hl i (by simp))]
      simp only
      rw [ih (fun a ha => hl a (by simp [ha])) _ (by simpa using hf)]
      simp [Except.map]

theorem read24le (v : Int) (rest : Bytes) (h1 : -8388608 ≤ v) (h2 : v ≤ 8388607) :
    ∃ w, readInt24le (le24 (twos24 v) ++ rest) = (some w, rest) ∧ signed24 w = v := by
  refine ⟨_, rfl, ?_⟩
  unfold signed24 lo8 twos24
  simp only
  split_ifs <;> omega

theorem read24be (v : Int) (rest : Bytes) (h1 : -8388608 ≤ v) (h2 : v ≤ 8388607) :
    ∃ w, readInt24be (be24 (twos24 v) ++ rest) = (some w, rest) ∧ signed24 w = v := by
  refine ⟨_, rfl, ?_⟩
  unfold signed24 lo8 twos24
  simp only
  split_ifs <;> omega

theorem read8 (v : Int) (rest : Bytes) : readInt8 ([v] ++ rest) = (some v, rest) := rfl

theorem pc_end_short (tail : Bytes) (h : tail.length < 9) : Readers.pcdStep () tail = .done [] ∧ Readers.pcmStep () tail = .done [] := by
  match tail, h with
  | [], _ => exact ⟨rfl, rfl⟩
  | [_], _ => exact ⟨rfl, rfl⟩
  | [_, _], _ => exact ⟨rfl, rfl⟩
  | [_, _, _], _ => exact ⟨rfl, rfl⟩
  | [_, _, _, _], _ => exact ⟨rfl, rfl⟩
  | [_, _, _, _, _], _ => exact ⟨rfl, rfl⟩
  | [_, _, _, _, _, _], _ => exact ⟨rfl, rfl⟩
  | [_, _, _, _, _, _, _], _ => exact ⟨rfl, rfl⟩
  | [_, _, _, _, _, _, _, _], _ => exact ⟨rfl, rfl⟩
  | _ :: _ :: _ :: _ :: _ :: _ :: _ :: _ :: _ :: _, h => exact absurd h (by simp only [List.length_cons]; omega)

/-- **C88**: the stitches of PCD, PCQ and PCS. -/
theorem C88_pcd (l : List Pc) (hl : ∀ i ∈ l, i.Fits) (tail : Bytes) (ht : tail.length < 9) (fuel : Nat) (hf : l.length < fuel) :
    Readers.readPcdBody fuel (l.flatMap Pc.pcd ++ tail) = some (.ok (pcDrawn 0 0 l)) := by
  have r := loop_calls Readers.pcdStep Pc.pcd Pc.Fits Pc.call () (by
    intro i hi rest
    obtain ⟨h1, h2, h3, h4⟩ := hi
    obtain ⟨x, e1, e2⟩ := read24le i.pos.1 ([0] ++ (le24 (twos24 i.pos.2) ++ ([i.ctrl] ++ rest))) h1 h2
    obtain ⟨y, e3, e4⟩ := read24le i.pos.2 ([i.ctrl] ++ rest) h3 h4
    simp only [Pc.pcd, List.append_assoc, Readers.pcdStep, read8, e1, e3, e2, e4]
    cases i <;> rfl) tail (pc_end_short tail ht).1 l hl fuel hf
  unfold Readers.readPcdBody
  rw [r]
  simp only [Option.map_some, Except.map, perform_pc]

/-- **C88**: the stitches of PCM. -/
theorem C88_pcm (l : List Pc) (hl : ∀ i ∈ l, i.Fits) (tail : Bytes) (ht : tail.length < 9) (fuel : Nat) (hf : l.length < fuel) :
    Readers.readPcmBody fuel (l.flatMap Pc.pcm ++ tail) = some (.ok (pcDrawn 0 0 l)) := by
  have r := loop_calls Readers.pcmStep Pc.pcm Pc.Fits Pc.call () (by
    intro i hi rest
    obtain ⟨h1, h2, h3, h4⟩ := hi
    obtain ⟨x, e1, e2⟩ := read24be i.pos.1 ([0] ++ (be24 (twos24 i.pos.2) ++ ([0] ++ ([i.ctrl] ++ rest)))) h1 h2
    obtain ⟨y, e3, e4⟩ := read24be i.pos.2 ([0] ++ ([i.ctrl] ++ rest)) h3 h4
    simp only [Pc.pcm, List.append_assoc, Readers.pcmStep, read8, e1, e3, e2, e4]
    cases i <;> rfl) tail (pc_end_short tail ht).2 l hl fuel hf
  unfold Readers.readPcmBody
  rw [r]
  simp only [Option.map_some, Except.map, perform_pc]

/-! ## MAX -/

/-- A point of MAX, in units of 0.1235 mm. -/
def maxPoint (p : Int × Int) : Bytes := le24 (twos24 p.1) ++ ([0] ++ (le24 (twos24 p.2) ++ [0]))

def MaxFits (p : Int × Int) : Prop := -8388608 ≤ p.1 ∧ p.1 ≤ 8388607 ∧ -8388608 ≤ p.2 ∧ p.2 ≤ 8388607

def maxDrawn (x y : ℚ) : List (Int × Int) → List Stitch
  | [] => [⟨x, y, 4⟩]
  | p :: l => ⟨p.1 * 1.235, p.2 * 1.235, 0⟩ :: maxDrawn (p.1 * 1.235) (p.2 * 1.235) l

/-- **C88**: MAX: 213 bytes, the number of points, the points; what follows is not read. -/
theorem C88_max (head : Bytes) (hh : head.length = 0xD5) (l : List (Int × Int)) (hn : l.length < 2 ^ 32) (hl : ∀ p ∈ l, MaxFits p) (tail : Bytes)
    (fuel : Nat) (hf : l.length < fuel) :
    Readers.readMax fuel (head ++ (writeInt32le l.length ++ (l.flatMap maxPoint ++ tail))) = some (.ok (maxDrawn 0 0 l)) := by
  have hloop : ∀ (l : List (Int × Int)) (_ : ∀ p ∈ l, MaxFits p) (fuel : Nat), l.length < fuel →
      Readers.loop Readers.maxStep fuel l.length (l.flatMap maxPoint ++ tail) =
        some (.ok (l.map (fun p => Readers.Call.abs 0 (p.1 * (1235 / 1000)) (p.2 * (1235 / 1000))))) := by
    intro l
    induction l with
    | nil =>
      intro _ fuel hf
      cases fuel with
      | zero => simp at hf
      | succ fuel => rfl
    | cons p l ih =>
      intro hl fuel hf
      cases fuel with
      | zero => simp at hf
      | succ fuel =>
        obtain ⟨h1, h2, h3, h4⟩ := hl p (by simp)
        obtain ⟨x, e1, e2⟩ := read24le p.1 ([0] ++ (le24 (twos24 p.2) ++ ([0] ++ (l.flatMap maxPoint ++ tail)))) h1 h2
        obtain ⟨y, e3, e4⟩ := read24le p.2 ([0] ++ (l.flatMap maxPoint ++ tail)) h3 h4
        have e : (p :: l).flatMap maxPoint ++ tail =
            le24 (twos24 p.1) ++ ([0] ++ (le24 (twos24 p.2) ++ ([0] ++ (l.flatMap maxPoint ++ tail)))) := by
          simp [List.flatMap_cons, List.append_assoc, maxPoint]
        have ih := ih (fun a ha => hl a (by simp [ha])) fuel (by simpa using hf)
        rw [e, Readers.loop, List.length_cons]
        simp only [Readers.maxStep, e1, e3, read8, e2, e4]
        rw [ih]
        rfl
  have hp : ∀ (l : List (Int × Int)) (x y : ℚ),
      Readers.perform x y (l.map (fun p => Readers.Call.abs 0 (p.1 * (1235 / 1000)) (p.2 * (1235 / 1000))) ++ [.here END]) = maxDrawn x y l := by
    intro l
    induction l with
    | nil => intro x y; rfl
    | cons p l ih =>
      intro x y
      have e : (1235 / 1000 : ℚ) = 1.235 := by norm_num
      rw [List.map_cons, List.cons_append, Readers.perform, ih, maxDrawn, e]
  have h32 := (C02_read_write l.length (l.flatMap maxPoint ++ tail)).2.2.2.2.2.1
  unfold Readers.readMax
  rw [List.drop_left' hh, h32]
  simp only
  have e : Int.toNat ((l.length : Int) % 2 ^ 32) = l.length := by omega
  rw [e, hloop l hl fuel hf]
  simp only [Option.map_some, Except.map, hp]

/-! ## Examples: what the records look like -/

example : [Ev.stitch 3 (-4), .jump (-200) 9, .trim, .needle 2].flatMap dsb = [0x80, 4, 3, 0xE1, 9, 200, 0xE7, 0, 0, 0xEA, 0, 0] := by decide
example : ∀ e ∈ [Ev.stitch 3 (-4), .jump (-200) 9, .trim, .needle 2], dsbHas e := by
  simp [dsbHas, Within]
example : Readers.readDsbBody 9 [0x80, 4, 3, 0xE1, 9, 200, 0xE7, 0, 0, 0xEA, 0, 0, 0xF8, 0, 0] =
    some (.ok [⟨3, -4, 0⟩, ⟨-197, 5, 1⟩, ⟨-197, 5, 2⟩, ⟨-197, 5, 0x30009⟩, ⟨-197, 5, 4⟩]) := by decide +kernel
example : Readers.readDszBody 9 [4, 3, 0x80, 9, 200, 0xE1, 0, 0, 0x9B, 0, 0, 0x87, 0, 0, 0x82] =
    some (.ok [⟨3, -4, 0⟩, ⟨-197, 5, 1⟩, ⟨-197, 5, 2⟩, ⟨-197, 5, 0x30009⟩, ⟨-197, 5, 3⟩, ⟨-197, 5, 4⟩]) := by decide +kernel
example : Readers.readNew 9 [7, 7, 3, 4, 0x80, 200, 9, 0xE1, 0, 0, 0x82] =
    some (.ok [⟨3, -4, 0⟩, ⟨-197, 5, 1⟩, ⟨-197, 5, 5⟩, ⟨-197, 5, 4⟩]) := by decide +kernel
example : Readers.readInb 9 (List.replicate 0x2000 0 ++ [3, 4, 0x80, 200, 9, 0xE2, 1, 1, 0x81]) =
    some (.ok [⟨3, -4, 0⟩, ⟨-197, 5, 1⟩, ⟨-196, 4, 5⟩, ⟨-196, 4, 4⟩]) := by decide +kernel
example : Readers.read10o 9 [0x8A, 0, 0, 0x80, 4, 3, 0xF0, 9, 200, 0x85, 0, 0] =
    some (.ok [⟨3, -4, 0⟩, ⟨-197, 5, 1⟩, ⟨-197, 5, 5⟩, ⟨-197, 5, 4⟩]) := by decide +kernel
example : Readers.readStc 9 (List.replicate 0x28 0 ++ [3, 4, 1, 156, 251, 0, 0, 0, 4]) =
    some (.ok [⟨3, -4, 0⟩, ⟨-97, 1, 1⟩, ⟨-97, 1, 0x30009⟩, ⟨-97, 1, 4⟩]) := by decide +kernel
example : Readers.readZxy 9 [9, 0, 2, 8, 8, 0, 3, 4, 0x0E, 200, 9, 0x20, 0, 2] =
    some (.ok [⟨3, -4, 0⟩, ⟨-197, 5, 1⟩, ⟨-197, 5, 0x30009⟩, ⟨-197, 5, 4⟩]) := by decide +kernel
example : Readers.readDat 9 (List.replicate 0x100 0 ++ [3, 4, 7, 0xE4, 0x89, 4, 1, 1, 0x80, 0, 0, 0x87]) =
    some (.ok [⟨3, -4, 0⟩, ⟨-97, 5, 1⟩, ⟨-97, 5, 2⟩, ⟨-96, 4, 1⟩, ⟨-96, 4, 5⟩, ⟨-96, 4, 4⟩]) := by decide +kernel
example : Readers.readDat 9 [0x80, 4, 3, 0xE1, 9, 200, 0x82, 1, 1, 0x88, 0, 0, 0xF8, 0, 0] =
    some (.ok [⟨3, -4, 0⟩, ⟨-197, 5, 1⟩, ⟨-197, 5, 12⟩, ⟨-196, 4, 0⟩, ⟨-196, 4, 3⟩, ⟨-196, 4, 4⟩]) := by decide +kernel
example : Readers.readEmd 9 (List.replicate 0x30 0 ++ [3, 4, 0x80, 0x80, 156, 251, 0x80, 0x2A, 0x80, 0xAD]) =
    some (.ok [⟨3, -4, 0⟩, ⟨-97, 1, 1⟩, ⟨-97, 1, 5⟩, ⟨-97, 1, 2⟩, ⟨-97, 1, 4⟩]) := by decide +kernel
example : Readers.read100 9 [0x61, 0, 3, 4, 1, 0, 0xE4, 0x85, 0, 0, 0, 0] =
    some (.ok [⟨3, -4, 0⟩, ⟨-97, 1, 1⟩, ⟨-97, 1, 5⟩, ⟨-97, 1, 4⟩]) := by decide +kernel
example : Readers.readJpxBody 9 [3, 4, 0x80, 2, 156, 251, 0x80, 1, 1, 1] =
    some (.ok [⟨3, -4, 0⟩, ⟨-97, 1, 1⟩, ⟨-97, 1, 5⟩, ⟨-96, 0, 1⟩, ⟨-96, 0, 4⟩]) := by decide +kernel
example : Readers.readSewBody 9 [3, 4, 0x80, 2, 156, 251, 0x80, 1, 0, 0, 0x80, 0x10, 0x80, 0] =
    some (.ok [⟨3, -4, 0⟩, ⟨-97, 1, 1⟩, ⟨-97, 1, 5⟩, ⟨-225, 1, 0⟩, ⟨-225, 1, 4⟩]) := by decide +kernel
example : Readers.readBro 9 (List.replicate 0x100 0 ++ [3, 4, 0x80, 0, 3, 0x9C, 0xFF, 0xFB, 0xFF, 0x80, 0, 0xE2, 0, 1, 0, 0, 0x80, 0, 2]) =
    some (.ok [⟨3, -4, 0⟩, ⟨-97, 1, 1⟩, ⟨-97, 1, 0x30009⟩, ⟨159, 1, 1⟩, ⟨159, 1, 4⟩]) := by decide +kernel
example : Readers.readSpx 9 (List.replicate 0x11E 0 ++ [0, 0, 0, 4, 1, 0, 0xFF, 0, 0]) = some (.ok [⟨256, -3, 0⟩]) := by decide +kernel
example : Readers.readMit 9 [0x23, 0x64, 0x40, 0, 0xE5, 0x82] = some (.ok [⟨6, -8, 0⟩, ⟨6, -8, 5⟩, ⟨-4, -4, 1⟩, ⟨-4, -4, 4⟩]) := by decide +kernel
example : Readers.readKsm 9 (List.replicate 0x200 0 ++ [4, 3, 0x80, 0, 0, 0x87, 9, 200, 0xE0, 0, 0, 0x97, 1, 1, 0x80, 0, 0, 0x88]) =
    some (.ok [⟨3, -4, 0⟩, ⟨3, -4, 2⟩, ⟨-197, 5, 1⟩, ⟨-196, 4, 0⟩, ⟨-196, 4, 4⟩]) := by decide +kernel
example : Readers.readZhsBody 9 ([Zhs.part 100 0, .stitch 30 (-62), .checksum 1 2, .colour, .jump (-7) 9].flatMap Zhs.bytes) =
    some (.ok [⟨130, -62, 0⟩, ⟨130, -62, 5⟩, ⟨123, -53, 1⟩, ⟨123, -53, 4⟩]) := by decide +kernel
example : Readers.readPcdBody 9 ([Pc.stitch 3 (-6), .colour, .jump 300 (-9)].flatMap Pc.pcd) =
    some (.ok [⟨5, 10, 0⟩, ⟨5, 10, 5⟩, ⟨500, 15, 1⟩, ⟨500, 15, 4⟩]) := by decide +kernel
example : [Pc.stitch 3 (-6)].flatMap Pc.pcd = [0, 3, 0, 0, 0, 0xFA, 0xFF, 0xFF, 0] := by decide
example : Readers.readMax 9 (List.replicate 0xD5 0 ++ (writeInt32le 2 ++ [(1000, -2000), (0, 1)].flatMap maxPoint)) =
    some (.ok [⟨1235, -2470, 0⟩, ⟨0, 247 / 200, 0⟩, ⟨0, 247 / 200, 4⟩]) := by decide +kernel

end Records
end Emb
