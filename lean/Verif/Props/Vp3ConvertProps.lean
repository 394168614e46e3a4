import Verif.Props.Vp3SewnProps
import Verif.Props.ConvertMoreProps

/-!
# C108: conversion to VP3 without conditions on whole positions
-/

namespace Emb

open Hoop Emb.Convert

/-- Less than three units (0.3 mm) apart along each axis. -/
def Nearby (p q : Pt) : Prop := |p.1 - q.1| < 3 ∧ |p.2 - q.2| < 3

theorem nearby_of {l m : List (Nat × Pt)} (h : List.Forall₂ Beside l m) : List.Forall₂ Nearby (l.map Prod.snd) (m.map Prod.snd) := by
  induction h with
  | nil => exact .nil
  | cons h _ ih => exact .cons h.2 ih

/-- The sewing commands of what a reader makes, without rounding. -/
theorem images_shaped {f : Pt → Pt} (hf : ∀ p, f p = p) (m : List Stitch) (hm : ∀ a ∈ m, a.low ∈ kinds) : images false f m = strikes m := by
  unfold images strikes
  have e : m.filter (fun st => decide (st.low ∈ [(0 : Int), 0xB0, 0xB1])) = m.filter (fun a => a.low == 0) := by
    refine List.filter_congr fun a ha => ?_
    have := hm a ha
    simp only [List.mem_cons, List.not_mem_nil, or_false] at this
    rw [beq_eq_decide]
    refine decide_eq_decide.2 ?_
    simp only [List.mem_cons, List.not_mem_nil, or_false]
    omega
  rw [e]
  exact List.map_congr_left fun a ha => by simp [hf]

/-- **C108**: every design a reader makes (whole positions or not) within 1.6 m of the origin and without changes of the speed can be converted to
VP3 with settings that do not round, tie, cut or move it (as the settings of VP3 itself do not). If the normalized design changes no colour within
0.2 mm of an axis and has fewer than 65535 changes, it can be written, and from the file (below 4 GB) as many stitches are sewn, in the same order,
each less than 0.3 mm from its place. -/
theorem C108_vp3 {o : Settings} {lm : Libm} {l : List Stitch} (hl : Shaped l) (hv : o.ValidSequins) (hc : o.changeCommand = 5) (ho : Unlocked o)
    (hno : o.NoTies) (hp : ∀ p, o.place lm p = p) (hround : o.round = false) (hn : o.needleCount ≠ 0)
    (hst : ∀ m, o.maxStitch = some m → 0 < m) (hj : ∀ m, o.maxJump = some m → 0 < m)
    (hin : ∀ a ∈ l, (a.low ≠ 11 ∧ a.low ≠ 12) ∧ |a.x| ≤ 16383 ∧ |a.y| ≤ 16383) (threads : List Thread) :
    ∃ out ths, encode o lm threads l = .ok (out, ths) ∧ ((∀ a ∈ out, a.low = 5 → 2 ≤ |a.x| ∧ 2 ≤ |a.y|) → changes out < 65535 →
      ∀ (T : List Thread) (filler : Nat → Thread), (∀ k, Vp3.PlainThread (Blocks.threadAt T filler k)) →
      ∃ f, Vp3.write T filler out = .ok f ∧ (f.length < 2 ^ 32 → ∃ b, Vp3.read f = .ok b ∧ b.threads = Vp3.shownThreads T filler out ∧
        List.Forall₂ Nearby (strikes l) (strikes b.stitches))) := by
  have hlow := low_of hl
  have hq : ∀ st ∈ l, st.low ≠ 0xD5 ∧ st.low ≠ 0xD6 ∧ st.low ≠ 0xC4 ∧ st.low ≠ 0xC5 := by
    intro st h
    have := hlow st h
    simp only [List.mem_cons, List.not_mem_nil, or_false] at this
    omega
  obtain ⟨out, ths, he⟩ := C27_total (lm := lm) (threads := threads) hn hst hj hq
  refine ⟨out, ths, he, fun h5 hch T filler ht => ?_⟩
  have hs : ∀ st ∈ l, Unturned st ∧ st.low ∉ [11, 12, 0xD1, (0xD2 : Int)] ∧ (Names st → Frame (-16383) 16383 (-16383) 16383 (o.place lm (st.x, st.y))) := by
    intro st h
    have h1 := hlow st h
    obtain ⟨h2, hx, hy⟩ := hin st h
    simp only [List.mem_cons, List.not_mem_nil, or_false] at h1
    refine ⟨?_, ?_, fun _ => ?_⟩
    · unfold Unturned
      simp only [List.mem_cons, List.not_mem_nil, or_false]
      omega
    · simp only [List.mem_cons, List.not_mem_nil, or_false]
      omega
    · rw [hp]
      unfold Frame
      push_cast
      exact ⟨abs_le.1 hx, abs_le.1 hy⟩
  obtain ⟨f, hw, hr⟩ := C94_vp3_near hv hc ho hs he h5 T filler ht hch
  refine ⟨f, hw, fun hf => ?_⟩
  obtain ⟨b, h1, h2, h3⟩ := hr hf
  refine ⟨b, h1, h2, ?_⟩
  have h4 := nearby_of h3
  rw [strikes_shaded, ← (C91_shades hv hc he).1, strikes_shaded] at h4
  obtain ⟨m, e, rfl, h4e, hm⟩ := hl
  have hA : ∀ st ∈ m, Plain o.maxStitch st := by
    intro st h
    have := hm st h
    unfold Plain
    simp only [List.mem_cons, List.not_mem_nil, or_false] at this ⊢
    omega
  have hex := C24_exact hno (E := [e]) hA (by simpa using h4e) he
  rw [hround, images_shaped hp m hm] at hex
  have e0 : strikes [e] = [] := by unfold strikes; simp [h4e]
  rw [Strike.strikes_append, e0, List.append_nil, ← hex]
  exact h4

/-- The settings of VP3 meet the conditions. -/
example : Vp3.demoSettings.changeCommand = 5 ∧ Unlocked Vp3.demoSettings ∧ Vp3.demoSettings.NoTies ∧ Vp3.demoSettings.round = false ∧
    Vp3.demoSettings.needleCount ≠ 0 ∧ ∀ p, Vp3.demoSettings.place demoLm p = p :=
  ⟨by decide, ⟨⟨by decide, by decide⟩, by decide, by decide⟩, by unfold Settings.NoTies; decide, by decide, by decide, fun _ => rfl⟩

/-- What a PCD reader may make: halves, a trim and two colours. It is `Shaped`, and sewn from VP3 beside its places. -/
example : Shaped [⟨5/2, 7/2, 0⟩, ⟨401/2, 7/2, 0⟩, ⟨401/2, 7/2, 2⟩, ⟨401/2, 7/2, 5⟩, ⟨-33/2, 9, 0⟩, ⟨-33/2, 9, 4⟩] ∧
    (Vp3.again (demoEncode Vp3.demoSettings [⟨5/2, 7/2, 0⟩, ⟨401/2, 7/2, 0⟩, ⟨401/2, 7/2, 2⟩, ⟨401/2, 7/2, 5⟩, ⟨-33/2, 9, 0⟩, ⟨-33/2, 9, 4⟩])).toOption.map strikes =
      some [(2, 3), (200, 3), (-17, 9)] := by
  refine ⟨⟨[⟨5/2, 7/2, 0⟩, ⟨401/2, 7/2, 0⟩, ⟨401/2, 7/2, 2⟩, ⟨401/2, 7/2, 5⟩, ⟨-33/2, 9, 0⟩], ⟨-33/2, 9, 4⟩, rfl, rfl, by decide⟩, by decide +kernel⟩

end Emb
