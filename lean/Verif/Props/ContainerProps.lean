import Verif.Containers
import Verif.Props.DstFileProps
import Verif.Props.ExpProps
import Verif.Props.PecProps
import Verif.Props.Commands

/-!
# C86: TAP, EXY, STX, PHB and PHC files
-/

namespace Emb
namespace Containers
open Pec

/-! ## Specification -/

/-- At place `p` the file has the bytes `b`. -/
def Has (f : Bytes) (p : Nat) (b : Bytes) : Prop := ∃ rest, f.drop p = b ++ rest

/-- The threads number `idx` (1 to 64) of the Brother table. -/
def Threads (idx : Bytes) (ts : List Thread) : Prop :=
  List.Forall₂ (fun c t => 1 ≤ c ∧ brother[(c - 1).toNat]? = some t) idx ts

/-! ## Proofs -/

theorem Threads.added {c : Int} {t : Thread} (h : 1 ≤ c ∧ brother[(c - 1).toNat]? = some t) : added (pecThread c) = t := by
  obtain ⟨h1, h2⟩ := h
  have hl : (c - 1).toNat < 64 := lt_of_lt_of_eq (List.getElem?_eq_some_iff.1 h2).1 (by decide +kernel)
  have hm : (c % 65).toNat = (c - 1).toNat + 1 := by omega
  unfold pecThread palette
  rw [hm, List.getElem?_cons_succ, List.getElem?_map, h2]
  rfl

theorem has_int8 {f : Bytes} {p : Nat} {n : Int} (h : Has f p [n]) : (readInt8 (f.drop p)).1 = some n := by
  obtain ⟨r, e⟩ := h
  rw [e]
  rfl

theorem has_int16 {f : Bytes} {p : Nat} {n : Nat} {r : Bytes} (h : Has f p (writeInt16le n ++ r)) (hn : n < 2 ^ 16) :
    (readInt16le (f.drop p)).1 = some (n : Int) := by
  obtain ⟨q, e⟩ := h
  rw [e, List.append_assoc, (C02_read_write n _).2.1]
  simp only [Option.some.injEq]
  omega

theorem has_int32 {f : Bytes} {p : Nat} {n : Nat} (h : Has f p (writeInt32le n)) (hn : n < 2 ^ 32) :
    (readInt32le (f.drop p)).1 = some (n : Int) := by
  obtain ⟨q, e⟩ := h
  rw [e, (C02_read_write n _).2.2.2.2.2.1]
  simp only [Option.some.injEq]
  omega

theorem has_after {f : Bytes} {p : Nat} {a b : Bytes} (h : Has f p (a ++ b)) : Has f (p + a.length) b := by
  obtain ⟨q, e⟩ := h
  refine ⟨q, ?_⟩
  rw [← List.drop_drop, e, List.append_assoc, List.drop_left]

theorem phb_colours (idx : Bytes) (ts : List Thread) (h : Threads idx ts) (rest : Bytes) :
    phbColours idx.length (idx ++ rest) = .ok ts := by
  induction h with
  | nil => rfl
  | @cons c t idx ts hc _ ih =>
    show (phbColours idx.length (idx ++ rest)).map (fun l => added (pecThread c) :: l) = _
    rw [ih, Threads.added hc]
    rfl

theorem phc_colours (idx : Bytes) (ts : List Thread) (h : Threads idx ts) (rest : Bytes) :
    phcColours idx.length (idx ++ rest) = (ts, rest, true) := by
  induction h with
  | nil => rfl
  | @cons c t idx ts hc _ ih =>
    show (added (pecThread c) :: (phcColours idx.length (idx ++ rest)).1, (phcColours idx.length (idx ++ rest)).2) = _
    rw [ih, Threads.added hc]

/-! ## C86 -/

section
variable {o : Settings} {lm : Libm} {threads : List Thread} {source out : List Stitch} {ths : List (Option Thread)}

/-- **C86**, TAP and EXY: the records of a DST file, without the header or after any 256 bytes, show what was sewn (C06). -/
theorem C86_dst_partial (hlm : lm.Sound) (hv : o.ValidSequins) (hr : o.round = true)
    (h1 : o.maxStitch = some 121) (h2 : o.maxJump = some 121) (h3 : o.longStitch = 0xF1 ∨ o.longStitch = 0xF2)
    (hc : o.changeCommand ≠ 9)
    (hq : ∀ st ∈ source, st.low ≠ 0xD5 ∧ st.low ≠ 0xD6 ∧ st.low ≠ 0xF0 ∧ st.low ≠ 11 ∧ st.low ≠ 12)
    (h : encode o lm threads source = .ok (out, ths)) (t : Int) :
    ∃ b, Dst.writeBody t out = .ok b ∧ ∀ ta dist clipping,
      Dst.sewn (readTap ta dist clipping b) = Dst.sewn (place 0 0 (deltas 0 0 out)) ∧
      ∀ header : Bytes, header.length = 256 → Dst.sewn (readExy ta dist clipping (header ++ b)) = Dst.sewn (place 0 0 (deltas 0 0 out)) := by
  obtain ⟨b, hb, hh⟩ := Dst.C06_roundtrip_partial hlm hv hr h1 h2 h3 hc hq h t
  have e : ∀ ta dist clipping, Dst.sewn (Dst.readBody ta dist clipping b) = Dst.sewn (place 0 0 (deltas 0 0 out)) := by
    intro ta dist clipping
    have := hh (List.replicate 512 0) (List.length_replicate ..) ta dist clipping
    unfold Dst.read at this
    rwa [List.drop_left' (List.length_replicate ..)] at this
  refine ⟨b, hb, fun ta dist clipping => ⟨e ta dist clipping, fun header hl => ?_⟩⟩
  unfold readExy
  rw [List.drop_left' hl]
  exact e ta dist clipping

/-- **C86**, STX: the records of an EXP file at the place given in the header show the design (C08). -/
theorem C86_stx (hlm : lm.Sound) (hv : o.ValidSequins) (hr : o.round = true)
    (h1 : o.maxStitch = some 127) (h2 : o.maxJump = some 127) (h3 : o.longStitch = 0xF1 ∨ o.longStitch = 0xF2)
    (hc : o.changeCommand ≠ 9) (hs : o.sequin ≠ 0xF5)
    (hq : ∀ st ∈ source, st.low ≠ 0xD5 ∧ st.low ≠ 0xD6 ∧ st.low ≠ 0xF0 ∧ st.low ≠ 0xF5)
    (h : encode o lm threads source = .ok (out, ths)) (f : Bytes) (start : Nat) (hf : Has f 20 (writeInt32le start))
    (hst : start < 2 ^ 32) (hbody : f.drop start = Exp.write out) :
    readStx f = .ok (view Exp.shows (place 0 0 (deltas 0 0 out))) := by
  unfold readStx
  rw [has_int32 hf hst]
  show Except.ok (Exp.read (f.drop start)) = _
  rw [hbody, Exp.C08_roundtrip hlm hv hr h1 h2 h3 hc hs hq h]

end

/-- **C86**, PHB: the colours at 0x71 and the PEC records at the place reached by the four offsets are the threads and the stitches, as
in a PEC file. -/
theorem C86_phb (f idx body : Bytes) (ts : List Thread) (a b c : Nat) (n : Int)
    (hidx : Has f 0x71 (writeInt16le idx.length ++ idx)) (hk : idx.length < 2 ^ 16) (hts : Threads idx ts)
    (ha : Has f 0x54 (writeInt32le a)) (ha' : a < 2 ^ 32) (hb : Has f (0x52 + a) (writeInt32le b)) (hb' : b < 2 ^ 32)
    (hc : Has f (0x52 + a + b + 2) (writeInt32le c)) (hc' : c < 2 ^ 32) (hn : Has f (0x52 + a + b + 2 + c + 14) [n])
    (hbody : f.drop (0x52 + a + b + 2 + c + 15 + n.toNat + 21) = body) :
    readPhb f = .ok ({ label := none, threads := ts, stitches := readSection body, graphics := [] } : Design).stops := by
  unfold readPhb
  rw [has_int16 hidx hk]
  obtain ⟨q, e⟩ := has_after hidx
  have e' : f.drop 0x73 = idx ++ q := e
  simp only [Int.toNat_natCast, e', phb_colours idx ts hts q]
  show (match (readInt32le (f.drop 0x54)).1 with | none => _ | some a => _) = _
  rw [has_int32 ha ha']
  simp only [Int.toNat_natCast, has_int32 hb hb', has_int32 hc hc', has_int8 hn]
  rw [← hbody]

/-- **C86**, PHC: the colours at 0x4D are the threads, the graphics follow them, and the PEC records are at the place reached by the
offsets. -/
theorem C86_phc (f idx body : Bytes) (gs : List Bytes) (ts : List Thread) (add b1 b2 : Nat) (offset : Nat) (height stride n : Int)
    (hidx : Has f 0x4D (writeInt16le idx.length ++ (idx ++ gs.flatten))) (hk : idx.length < 2 ^ 16) (hts : Threads idx ts)
    (hheight : Has f 0x4A [height]) (hstride : Has f 0x4C [stride]) (hgl : gs.length = idx.length)
    (hgs : ∀ g ∈ gs, (g.length : Int) = stride * height)
    (hadd : Has f 0x2B [(add : Int)]) (hoff : Has f 0x30 (writeInt16le offset)) (hoff' : offset < 2 ^ 16)
    (h1 : Has f (offset + add) (writeInt16le b1)) (h1' : b1 < 2 ^ 16)
    (h2 : Has f (offset + add + 2 + b1) (writeInt32le b2)) (h2' : b2 < 2 ^ 32) (hn : Has f (offset + add + 2 + b1 + 4 + b2 + 10) [n])
    (hbody : f.drop (offset + add + 2 + b1 + 4 + b2 + 10 + 1 + n.toNat + 29) = body) :
    ∃ d : Design, readPhc f = .ok d.stops ∧ d.label = none ∧ d.threads = ts ∧ d.stitches = readSection body ∧
      d.graphics.length = gs.length ∧
      ∀ i g, gs[i]? = some g → d.graphics[i]? = some (g, stride, if i = 0 then none else ts[i - 1]?) := by
  unfold readPhc
  rw [has_int8 hheight, has_int8 hstride, has_int16 hidx hk]
  obtain ⟨q, e⟩ := has_after hidx
  have e' : f.drop 0x4F = idx ++ (gs.flatten ++ q) := by rw [← List.append_assoc]; exact e
  have h1 := has_int16 (r := []) (by rwa [List.append_nil]) h1'
  have ho := has_int16 (r := []) (by rwa [List.append_nil]) hoff'
  simp only [Int.toNat_natCast, e', phc_colours idx ts hts, Bool.true_eq_false, if_false, has_int8 hadd, ho, h1, has_int32 h2 h2', has_int8 hn]
  refine ⟨_, rfl, rfl, rfl, by rw [← hbody], by simp [hgl], fun i g hg => ?_⟩
  obtain ⟨hi, eg⟩ := List.getElem?_eq_some_iff.1 hg
  have hsize : ∀ l ∈ gs, l.length = (stride * height).toNat := fun l hl => by have := hgs l hl; omega
  have sl := flatten_slice_append gs _ hsize q i hi
  rw [List.getElem?_map, List.getElem?_range (by omega)]
  simp only [Option.map_some]
  rw [sl, eg]

/-- **C86**, PHB with the records written for an encoded pattern (C12), whatever follows them. -/
theorem C86_phb_saved {o : Settings} {lm : Libm} {threads : List Thread} {source out : List Stitch} {ths : List (Option Thread)}
    (hlm : lm.Sound) (hv : o.ValidSequins) (hr : o.round = true)
    (h1 : o.maxStitch = some 2047) (h2 : o.maxJump = some 2047) (h3 : o.longStitch = 0xF1 ∨ o.longStitch = 0xF2)
    (hs : o.sequin ≠ 0xF5)
    (hq : ∀ st ∈ source, st.low ≠ 0xD5 ∧ st.low ≠ 0xD6 ∧ st.low ≠ 0xF0 ∧ st.low ≠ 0xF5)
    (h : encode o lm threads source = .ok (out, ths)) (f idx rest : Bytes) (ts : List Thread) (a b c : Nat) (n : Int)
    (hidx : Has f 0x71 (writeInt16le idx.length ++ idx)) (hk : idx.length < 2 ^ 16) (hts : Threads idx ts)
    (ha : Has f 0x54 (writeInt32le a)) (ha' : a < 2 ^ 32) (hb : Has f (0x52 + a) (writeInt32le b)) (hb' : b < 2 ^ 32)
    (hc : Has f (0x52 + a + b + 2) (writeInt32le c)) (hc' : c < 2 ^ 32) (hn : Has f (0x52 + a + b + 2 + c + 14) [n])
    (hbody : f.drop (0x52 + a + b + 2 + c + 15 + n.toNat + 21) = encodeSection (stopsAsChanges out) ++ 0x00 :: rest) :
    readPhb f = .ok (Design.mk none ts (seen 0 0 true true (place 0 0 (deltas 0 0 (stopsAsChanges out)))) []).stops := by
  rw [C86_phb f idx _ ts a b c n hidx hk hts ha ha' hb hb' hc hc' hn hbody, C12_exact hlm hv hr h1 h2 h3 hs hq h]

/-- A PHB file with two threads and two stitches. -/
def phbDemo : Bytes :=
  List.replicate 0x54 0 ++ writeInt32le 0x23 ++ List.replicate 25 0 ++ (writeInt16le 2 ++ [5, 20]) ++ writeInt32le 2 ++ writeInt32le 4 ++
    List.replicate 14 0 ++ [1] ++ List.replicate 22 0 ++ [10, 20, 5, 0, 0xFF, 0]

/-- A case of the theorem. -/
example : readPhb phbDemo = .ok (Design.mk none [thr 237 23 31 "Red" "5", thr 0 0 0 "Black" "20"] (readSection [10, 20, 5, 0, 0xFF, 0]) []).stops ∧
    readSection [10, 20, 5, 0, 0xFF, 0] = [⟨10, 20, 0⟩, ⟨15, 20, 0⟩, ⟨15, 20, 4⟩] :=
  ⟨C86_phb phbDemo [5, 20] _ [thr 237 23 31 "Red" "5", thr 0 0 0 "Black" "20"] 0x23 2 4 1 ⟨phbDemo.drop (0x71 + 4), by decide +kernel⟩ (by decide)
    (.cons (by decide +kernel) (.cons (by decide +kernel) .nil)) ⟨phbDemo.drop (0x54 + 4), by decide +kernel⟩ (by decide)
    ⟨phbDemo.drop (0x52 + 0x23 + 4), by decide +kernel⟩ (by decide) ⟨phbDemo.drop (0x52 + 0x23 + 2 + 2 + 4), by decide +kernel⟩ (by decide)
    ⟨phbDemo.drop (0x52 + 0x23 + 2 + 2 + 4 + 14 + 1), by decide +kernel⟩ (by decide +kernel), by decide +kernel⟩

/-- A PHC file with one thread, a graphic of two bytes and two stitches. -/
def phcDemo : Bytes :=
  List.replicate 0x2B 0 ++ [3] ++ List.replicate 4 0 ++ writeInt16le 0x4F ++ List.replicate 24 0 ++ [2, 0, 1] ++ (writeInt16le 1 ++ ([5] ++ [7, 8])) ++
    writeInt16le 1 ++ [0] ++ writeInt32le 2 ++ List.replicate 12 0 ++ [1] ++ List.replicate 30 0 ++ [10, 20, 5, 0, 0xFF, 0]

example : ∃ d : Design, readPhc phcDemo = .ok d.stops ∧ d.label = none ∧ d.threads = [thr 237 23 31 "Red" "5"] ∧
      d.stitches = readSection [10, 20, 5, 0, 0xFF, 0] ∧ d.graphics.length = 1 ∧
      ∀ i g, [[(7 : Int), 8]][i]? = some g → d.graphics[i]? = some (g, (1 : Int), if i = 0 then none else [thr 237 23 31 "Red" "5"][i - 1]?) :=
  C86_phc phcDemo [5] [10, 20, 5, 0, 0xFF, 0] [[7, 8]] [thr 237 23 31 "Red" "5"] 3 1 2 0x4F 2 1 1 ⟨phcDemo.drop (0x4D + 5), by decide +kernel⟩ (by decide)
    (.cons (by decide +kernel) .nil) ⟨phcDemo.drop 0x4B, by decide +kernel⟩ ⟨phcDemo.drop 0x4D, by decide +kernel⟩ rfl (by decide)
    ⟨phcDemo.drop 0x2C, by decide +kernel⟩ ⟨phcDemo.drop 0x32, by decide +kernel⟩ (by decide) ⟨phcDemo.drop (0x52 + 2), by decide +kernel⟩ (by decide)
    ⟨phcDemo.drop (0x52 + 2 + 1 + 4), by decide +kernel⟩ (by decide) ⟨phcDemo.drop (0x52 + 2 + 1 + 4 + 2 + 10 + 1), by decide +kernel⟩
    (by decide +kernel)

/-- A PHC file that ends among its colours is read without an exception, but also without stitches and END. -/
theorem C86_phc_cut : readPhc (phcDemo.take 0x4F) = .ok (Design.mk none [] [] []) := by decide +kernel

/-- Other missing numbers are a TypeError: here a PHB file that ends after its colours, and an STX file without its third number. -/
theorem C86_cut : readPhb (phbDemo.take 0x75) = .error .typeError ∧ readStx (List.replicate 20 0) = .error .typeError := by
  decide +kernel

end Containers
end Emb
