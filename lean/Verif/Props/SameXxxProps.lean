import Verif.Props.SameFileProps
import Verif.Props.XxxProps
import Verif.Props.BoundsProps
import Verif.Props.SaveLoadProps

/-!
# C135, and C123 for XXX
-/

namespace Emb

namespace SameFile

open SaveLoad (Alike)

theorem alike_left {l m : List Stitch} (h : List.Forall₂ Alike l m) : ∀ a ∈ l, ∃ b ∈ m, Alike a b := by
  induction h with
  | nil => simp
  | @cons a b l m h1 _ ih =>
    intro c hc
    rcases List.mem_cons.1 hc with rfl | hc
    · exact ⟨b, by simp, h1⟩
    · obtain ⟨d, hd, e⟩ := ih c hc
      exact ⟨d, by simp [hd], e⟩

theorem alike_right {l m : List Stitch} (h : List.Forall₂ Alike l m) : ∀ b ∈ m, ∃ a ∈ l, Alike a b := by
  induction h with
  | nil => simp
  | @cons a b l m h1 _ ih =>
    intro c hc
    rcases List.mem_cons.1 hc with rfl | hc
    · exact ⟨a, by simp, h1⟩
    · obtain ⟨d, hd, e⟩ := ih c hc
      exact ⟨d, by simp [hd], e⟩

/-- What is rounded does not cross a whole number. -/
theorem round_inside {a : ℚ} {j lo hi : Int} (h : |(j : ℚ) - a| ≤ 1 / 2) : ((lo : ℚ) ≤ a → (lo : ℚ) ≤ j) ∧ (a ≤ hi → (j : ℚ) ≤ hi) := by
  rw [abs_le] at h
  constructor
  · intro h1
    have : (lo : ℚ) < (j + 1 : Int) := by push_cast; linarith
    exact_mod_cast Int.lt_add_one_iff.1 (by exact_mod_cast this)
  · intro h1
    have : (j : ℚ) < (hi + 1 : Int) := by push_cast; linarith
    exact_mod_cast Int.lt_add_one_iff.1 (by exact_mod_cast this)

/-- A box with whole edges. -/
def WholeBox (b : Box) : Prop := ∃ x0 y0 x1 y1 : Int, b = ⟨x0, y0, x1, y1⟩

/-- Rounding keeps a bounding box with whole edges. -/
theorem bounds_alike {l m : List Stitch} (h : List.Forall₂ Alike l m) {b : Box} (hb : bounds l = some b) (hw : WholeBox b) : bounds m = some b := by
  obtain ⟨x0, y0, x1, y1, rfl⟩ := hw
  have hne : l ≠ [] := fun e => by rw [e] at hb; simp [bounds] at hb
  have hm : m ≠ [] := fun e => by rw [e] at h; cases h; exact hne rfl
  obtain ⟨b1, e1, t1⟩ := C43_tight l hne
  obtain rfl := Option.some.inj (hb.symm.trans e1)
  obtain ⟨c, e2, t2⟩ := C43_tight m hm
  rw [e2]
  obtain ⟨i1, ⟨a1, m1, k1⟩, ⟨a2, m2, k2⟩, ⟨a3, m3, k3⟩, ⟨a4, m4, k4⟩⟩ := t1
  obtain ⟨i2, ⟨c1, n1, q1⟩, ⟨c2, n2, q2⟩, ⟨c3, n3, q3⟩, ⟨c4, n4, q4⟩⟩ := t2
  simp only at i1 k1 k2 k3 k4
  have inside : ∀ d ∈ m, (x0 : ℚ) ≤ d.x ∧ d.x ≤ x1 ∧ (y0 : ℚ) ≤ d.y ∧ d.y ≤ y1 := by
    intro d hd
    obtain ⟨a, ha, -, hx, hy, i, j, hi, hj⟩ := alike_right h d hd
    obtain ⟨p1, p2, p3, p4⟩ := i1 a ha
    rw [hi] at hx ⊢
    rw [hj] at hy ⊢
    exact ⟨(round_inside (hi := 0) hx).1 p1, (round_inside (lo := 0) hx).2 p2, (round_inside (hi := 0) hy).1 p3, (round_inside (lo := 0) hy).2 p4⟩
  have keepx : ∀ a ∈ l, ∀ k : Int, a.x = k → ∃ d ∈ m, d.x = k := by
    intro a ha k hk
    obtain ⟨d, hd, -, hx, -, i, -, hi, -⟩ := alike_left h a ha
    rw [hi] at hx
    exact ⟨d, hd, by rw [hi, SaveLoad.whole_near hk hx, hk]⟩
  have keepy : ∀ a ∈ l, ∀ k : Int, a.y = k → ∃ d ∈ m, d.y = k := by
    intro a ha k hk
    obtain ⟨d, hd, -, -, hy, -, j, -, hj⟩ := alike_left h a ha
    rw [hj] at hy
    exact ⟨d, hd, by rw [hj, SaveLoad.whole_near hk hy, hk]⟩
  obtain ⟨d1, hd1, r1⟩ := keepx a1 m1 x0 k1
  obtain ⟨d2, hd2, r2⟩ := keepx a2 m2 x1 k2
  obtain ⟨d3, hd3, r3⟩ := keepy a3 m3 y0 k3
  obtain ⟨d4, hd4, r4⟩ := keepy a4 m4 y1 k4
  have g1 := (i2 d1 hd1).1
  have g2 := (i2 d2 hd2).2.1
  have g3 := (i2 d3 hd3).2.2.1
  have g4 := (i2 d4 hd4).2.2.2
  have f1 := (inside c1 n1).1
  have f2 := (inside c2 n2).2.1
  have f3 := (inside c3 n3).2.2.1
  have f4 := (inside c4 n4).2.2.2
  obtain ⟨u1, u2, u3, u4⟩ := c
  simp only at *
  simp only [Option.some.injEq, Box.mk.injEq]
  refine ⟨?_, ?_, ?_, ?_⟩ <;> linarith

theorem bounds_same {l l' : List Stitch} (h : List.Forall₂ SameCommand l l') : bounds l' = bounds l := by
  unfold bounds
  have : ∀ b, l'.foldl boundsStep b = l.foldl boundsStep b := by
    induction h with
    | nil => exact fun _ => rfl
    | @cons a a' l l' h _ ih =>
      intro b
      have e : boundsStep b a' = boundsStep b a := by unfold boundsStep; rw [← h.1, ← h.2.1]
      rw [List.foldl_cons, List.foldl_cons, e, ih]
  exact this none

theorem last_same {R : Stitch → Stitch → Prop} {l l' : List Stitch} (h : List.Forall₂ R l l') {e : Stitch} (he : l.getLast? = some e) :
    ∃ e', l'.getLast? = some e' ∧ R e e' := by
  induction h with
  | nil => simp at he
  | @cons a b l l' h1 h2 ih =>
    cases h2 with
    | nil =>
      simp only [List.getLast?_singleton, Option.some.injEq] at he
      exact ⟨b, rfl, he ▸ h1⟩
    | cons h3 h4 =>
      rw [List.getLast?_cons_cons] at he ⊢
      exact ih he

end SameFile

namespace Xxx

open SameFile

theorem recs_same : ∀ rs rs' : List Rec, rs.map (fun r => (⟨r.dx, r.dy, cmdOf r.cmd⟩ : Rec)) = rs'.map (fun r => (⟨r.dx, r.dy, cmdOf r.cmd⟩ : Rec)) →
    writeRecs rs = writeRecs rs'
  | [], [], _ => rfl
  | [], _ :: _, h => by simp at h
  | _ :: _, [], h => by simp at h
  | r :: rs, r' :: rs', h => by
    simp only [List.map_cons, List.cons.injEq, Rec.mk.injEq] at h
    obtain ⟨⟨h1, h2, h3⟩, h4⟩ := h
    rw [writeRecs, writeRecs, h1, h2, h3, recs_same rs rs' h4]

theorem body_same {l l' : List Stitch} (h : deltas 0 0 l' = deltas 0 0 l) : writeRecs (wdeltas 0 0 l') = writeRecs (wdeltas 0 0 l) := by
  rw [deltas_eq, deltas_eq] at h
  exact recs_same _ _ h

theorem thread_same {t t' : Thread} (h : t.color % 16777216 = t'.color % 16777216) : threadBytes t = threadBytes t' := by
  unfold threadBytes Thread.red Thread.green Thread.blue
  have h1 : t.color / 65536 % 256 = t'.color / 65536 % 256 := by omega
  have h2 : t.color / 256 % 256 = t'.color / 256 % 256 := by omega
  have h3 : t.color % 256 = t'.color % 256 := by omega
  rw [h1, h2, h3]

theorem threads_same : ∀ ts ts' : List Thread, ts.map (fun t => t.color % 16777216) = ts'.map (fun t => t.color % 16777216) →
    ts.flatMap threadBytes = ts'.flatMap threadBytes ∧ ts.length = ts'.length
  | [], [], _ => ⟨rfl, rfl⟩
  | [], _ :: _, h => by simp at h
  | _ :: _, [], h => by simp at h
  | t :: ts, t' :: ts', h => by
    simp only [List.map_cons, List.cons.injEq] at h
    obtain ⟨e1, e2⟩ := threads_same ts ts' h.2
    rw [List.flatMap_cons, List.flatMap_cons, e1, thread_same h.1, List.length_cons, List.length_cons, e2]
    exact ⟨rfl, rfl⟩

/-- What an XXX file depends on: the displacements, the box, the number of commands, the end and the colours. -/
theorem write_depends {l l' : List Stitch} {ts ts' : List Thread} (hd : deltas 0 0 l' = deltas 0 0 l) (hb : bounds l' = bounds l)
    (hn : l'.length = l.length) (he : ∀ e, l.getLast? = some e → ∃ e', l'.getLast? = some e' ∧ e'.x = e.x ∧ e'.y = e.y)
    (ht : ts'.map (fun t => t.color % 16777216) = ts.map (fun t => t.color % 16777216)) : write ts' l' = write ts l := by
  obtain ⟨t1, t2⟩ := threads_same _ _ ht
  unfold write
  rw [hb, body_same hd]
  cases hl : l.getLast? with
  | none =>
    have : l = [] := by simpa using hl
    subst this
    have : l' = [] := List.length_eq_zero_iff.1 (by simpa using hn)
    subst this
    rfl
  | some e =>
    obtain ⟨e', h1, h2, h3⟩ := he e hl
    rw [h1]
    cases bounds l with
    | none => rfl
    | some b =>
      have : header ts'.length l' b e' = header ts.length l b e := by unfold header; rw [hn, h2, h3, t2]
      have hc : colorBytes ts' = colorBytes ts := by unfold colorBytes; rw [t1, t2]
      simp only [this, hc]

theorem view_words (rs : List Rec) (h : ∀ r ∈ rs, r.cmd % 256 ∈ [(0 : Int), 1, 2, 4, 5]) : ∀ x y : ℚ,
    view shows (place x y rs) = place x y (rs.map fun r => ⟨r.dx, r.dy, cmdOf r.cmd⟩) := by
  induction rs with
  | nil => intro x y; rfl
  | cons r rs ih =>
    intro x y
    have h1 := h r (by simp)
    simp only [List.mem_cons, List.not_mem_nil, or_false] at h1
    have ih := ih (fun q hq => h q (by simp [hq])) (x + r.dx) (y + r.dy)
    unfold view at ih ⊢
    rw [place, List.filterMap_cons, List.map_cons, place, ih]
    unfold shows
    rw [if_neg (by simp only; omega), if_pos (by simp only; omega)]
    rfl

variable {o : Settings} {lm : Libm} {threads : List Thread} {source out : List Stitch} {ths : List (Option Thread)}

/-- **C123, XXX.** Designs that differ in the threads and needles asked for make the same XXX file, if their threads have the same colours. -/
theorem C123_xxx (hn : o.needleCount ≠ 0) (lm : Libm) (threads threads' : List Thread) {l l' : List Stitch} (h : List.Forall₂ SameButAsked l l')
    {ts ts' : List Thread} (ht : ts'.map (fun t => t.color % 16777216) = ts.map (fun t => t.color % 16777216)) :
    Setting.Both (fun p q => write ts p.1 = write ts' q.1) (encode o lm threads l) (encode o lm threads' l') :=
  (C123_asked hn lm threads threads' h).mono fun p q k => (write_depends (deltas_same k.1 0 0) (bounds_same k.1) k.1.length_eq.symm (fun e he => by
    obtain ⟨e', h1, h2⟩ := last_same k.1 he
    exact ⟨e', h1, h2.1.symm, h2.2.1.symm⟩) ht).symm

/-- **C135.** Saving a design as XXX, loading the file and saving what is loaded gives the same file, byte for byte. Asked besides what EXP
needs: no stitch of exactly 124 units along an axis (`C15_limit_stitch`), no changes of the speed (they are counted in the header and not in the
file), and that the outline and the end of the normalized design are on the grid. -/
theorem C135_xxx_partial (hs : PlainSettings o) (hlm : lm.Sound) (hr : o.round = true)
    (h1 : o.maxStitch = some 124) (h2 : o.maxJump = some 124) (h3 : o.longStitch = 0xF1 ∨ o.longStitch = 0xF2) (hq : o.sequin ≠ 0xF5)
    (hl : Lasting source) (hsp : ∀ st ∈ source, st.low ≠ 11 ∧ st.low ≠ 12) (h : encode o lm threads source = .ok (out, ths))
    (hlim : ∀ r ∈ deltas 0 0 out, r.cmd = 0 → |r.dx| < 124 ∧ |r.dy| < 124) (hbox : ∀ b ∈ bounds out, WholeBox b)
    (hend : ∀ e ∈ out.getLast?, ∃ i j : Int, e.x = i ∧ e.y = j) {ts : List Thread} (ht : ts.length < 65536) (threads2 : List Thread) :
    ∃ f colours l, write ts out = .ok f ∧ read f = .ok (colours, l) ∧ ∃ out2 ths2, encode o lm threads2 l = .ok (out2, ths2) ∧
      ∀ ts2 : List Thread, ts2.map (fun t => t.color % 16777216) = colours → write ts2 out2 = .ok f := by
  have hlow : ∀ st ∈ source, st.low ≠ 0xD5 ∧ st.low ≠ 0xD6 ∧ st.low ≠ 0xF0 ∧ st.low ≠ 0xF5 := fun st hst => by
    have := hl.low st hst
    simp only [List.mem_cons, List.not_mem_nil, or_false, not_or] at this
    tauto
  obtain ⟨f, hw, hrd⟩ := C15_roundtrip_partial hlm hs.sequins hr h1 h2 h3 (by rw [hs.change]; decide) hq hlow h ht (by
    intro r hr h0
    refine hlim ⟨r.dx, r.dy, cmdOf r.cmd⟩ ?_ h0
    rw [deltas_eq]
    exact List.mem_map.2 ⟨r, hr, rfl⟩)
  have hspeed : ∀ a ∈ out, a.speed = false := by
    intro a ha
    have hk := (C21_kinds hs.sequins h a ha).2.2
    cases hb : a.speed with
    | false => rfl
    | true =>
      obtain ⟨st, hst, e⟩ := hk (by unfold Stitch.speed at hb; simpa using hb)
      have := hsp st hst
      omega
  obtain ⟨⟨out2, ths2, he, hsame⟩, hkind⟩ := SameFile.again (M := 124) hs hlm hr (by decide) (h1.trans (by norm_num)) (h2.trans (by norm_num)) h3 hq hl h
    hspeed threads2
  have hread : view shows (place 0 0 (wdeltas 0 0 out)) = rounded out := by
    unfold rounded
    rw [deltas_eq]
    refine view_words _ (fun r hr => ?_) 0 0
    have hm : r.cmd ∈ (wdeltas 0 0 out).map (·.cmd) := List.mem_map.2 ⟨r, hr, rfl⟩
    rw [wdeltas_cmds] at hm
    obtain ⟨a, ha, e⟩ := List.mem_map.1 hm
    obtain ⟨b, hb, k⟩ := alike_left (SaveLoad.alike_deltas out) a ha
    have hk := hkind b hb
    rw [← e]
    have kl : b.cmd % 256 = a.cmd % 256 := k.1
    simp only [List.mem_cons, List.not_mem_nil, or_false] at hk ⊢
    omega
  refine ⟨f, _, _, hw, hrd, out2, ths2, by rw [hread]; exact he, fun ts2 hts => ?_⟩
  rw [← hw]
  have hal : List.Forall₂ SaveLoad.Alike out (rounded out) := SaveLoad.alike_deltas out
  refine write_depends ((deltas_same hsame 0 0).trans (deltas_rounded out)) ?_ (hsame.length_eq.symm.trans hal.length_eq.symm) (fun e hee => ?_) hts
  · rw [bounds_same hsame]
    cases hb : bounds out with
    | none =>
      have : out = [] := by
        by_contra hne
        obtain ⟨b, hb', -⟩ := C43_tight out hne
        rw [hb] at hb'; cases hb'
      rw [this]; rfl
    | some b => exact bounds_alike hal hb (hbox b hb)
  · obtain ⟨i, j, hi, hj⟩ := hend e hee
    obtain ⟨e1, h4, -, h5, h6, u, v, hu, hv⟩ := last_same hal hee
    obtain ⟨e2, h7, h8, h9, -⟩ := last_same hsame h4
    rw [hu] at h5
    rw [hv] at h6
    exact ⟨e2, h7, by rw [← h8, hu, SaveLoad.whole_near hi h5], by rw [← h9, hv, SaveLoad.whole_near hj h6]⟩

/-! ## Cases -/

example : PlainSettings settings :=
  { sequins := fun v h => by simp [settings] at h
    translate := rfl, scale := rfl, rotate := rfl
    tieOn := by decide, tieOff := by decide
    limits := .inr ⟨124, by norm_num, rfl, rfl, by decide⟩
    change := by decide, needles := by decide }

/-- A design with fractions, a trim, a move that must be split, and two colours. -/
def lastingDemo : List Stitch :=
  [⟨0, 0, 0⟩, ⟨27/5, 3, 0⟩, ⟨0, 0, 2⟩, ⟨-300, 7/2, 0⟩, ⟨0, 0, 5⟩, ⟨-301, 4, 0⟩, ⟨-301, -4, 0⟩, ⟨0, 0, 4⟩]

/-- Its normalized form meets the conditions. -/
example : (∀ r ∈ deltas 0 0 (demoEncode settings lastingDemo), r.cmd = 0 → |r.dx| < 124 ∧ |r.dy| < 124) ∧
    bounds (demoEncode settings lastingDemo) = some ⟨(-301 : Int), (-4 : Int), (5 : Int), (4 : Int)⟩ ∧
    (demoEncode settings lastingDemo).getLast? = some ⟨-301, -4, 4⟩ ∧ (demoEncode settings lastingDemo).any (fun a => a.x.den ≠ 1) = true := by
  decide +kernel

/-- Saved, and saved again after loading. -/
def twice (ts : List Thread) (l : List Stitch) : Option (Except PyErr Bytes × Except PyErr Bytes) :=
  (write ts (demoEncode settings l) >>= read).toOption.map fun r =>
    (write ts (demoEncode settings l), write (r.1.map fun c => { color := c }) (demoEncode settings r.2))

/-- Is the second file the first? -/
def lasts (ts : List Thread) (l : List Stitch) : Option Bool := (twice ts l).map fun r => r.1.toOption == r.2.toOption

example : lasts [{ color := 0x102030 }] lastingDemo = some true := by decide +kernel

/-- Not with changes of the speed: the header counts them, the file does not hold them. -/
theorem C135_not_speed : lasts [] [⟨0, 0, 0⟩, ⟨0, 0, 11⟩, ⟨10, 0, 0⟩, ⟨0, 0, 4⟩] = some false := by decide +kernel

/-- Not with a stitch of 124 units: it is loaded as a jump. -/
theorem C135_not_limit : lasts [] [⟨0, 0, 0⟩, ⟨124, 0, 0⟩, ⟨0, 0, 4⟩] = some false := by decide +kernel

/-- Not with an outline off the grid: the way to the first stitch is split, and the header then says 20.6 mm and later 20.7 mm. -/
theorem C135_not_outline : lasts [] [⟨-310, 0, 0⟩, ⟨-310, 5, 0⟩, ⟨0, 0, 4⟩] = some false := by decide +kernel

end Xxx
end Emb
