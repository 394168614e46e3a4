import Verif.Props.LoadTrimProps
import Verif.Props.ConvertProps

/-!
# Property C131: trims survive JEF when they are asked for

JEF has no record for trims: the writer, if asked for trims, puts a number of jumps that do not move in their place, and the reader has to count as many.
-/

namespace Emb

namespace LoadTrim

theorem asks_count {n : Int} {d : Option ℚ} (R : List Stitch) : ∀ (J : List Stitch) (k : Int) (q p : ℚ × ℚ), (∀ j ∈ J, j.low = 1) → k < n → n ≤ k + J.length →
    asksTrim (some n) d k q p (J ++ R) = true := by
  intro J
  induction J with
  | nil => intro k q p _ h1 h2; simp at h2; omega
  | cons j J ih =>
    intro k q p hJ h1 h2
    have hj := hJ j (by simp)
    have he : ¬ endsRun j = true := by rw [endsRun_iff]; omega
    rw [List.cons_append, asksTrim, if_neg he, if_pos hj, decide_eq_true_eq]
    by_cases hn : n = k + 1
    · exact .inl (by rw [hn])
    · exact .inr (.inr (ih _ _ _ (fun j h => hJ j (by simp [h])) (by omega) (by simp at h2; omega)))

theorem seen_append (n : Nat) : ∀ (A : List Stitch) (t : Bool), ∃ t', ∀ B, Jef.seen n t (A ++ B) = Jef.seen n t A ++ Jef.seen n t' B := by
  intro A
  induction A with
  | nil => intro t; exact ⟨t, fun B => rfl⟩
  | cons a A ih =>
    intro t
    rcases em (a.cmd = 0 ∨ a.cmd = 1 ∨ a.cmd = 4) with h | h
    · obtain ⟨t', ht⟩ := ih t
      exact ⟨t', fun B => by simp only [List.cons_append, Jef.seen, if_pos h, ht]⟩
    · by_cases h2 : a.cmd = 2
      · obtain ⟨t', ht⟩ := ih t
        exact ⟨t', fun B => by simp only [List.cons_append, Jef.seen, if_neg h, if_pos h2, ht, List.append_assoc]⟩
      · by_cases h5 : a.cmd = 5
        · obtain ⟨t', ht⟩ := ih false
          exact ⟨t', fun B => by simp only [List.cons_append, Jef.seen, if_neg h, if_neg h2, if_pos h5, ht]⟩
        · by_cases h3 : a.cmd = 3
          · obtain ⟨t', ht⟩ := ih (!t)
            exact ⟨t', fun B => by simp only [List.cons_append, Jef.seen, if_neg h, if_neg h2, if_neg h5, if_pos h3, ht]⟩
          · obtain ⟨t', ht⟩ := ih t
            exact ⟨t', fun B => by simp only [List.cons_append, Jef.seen, if_neg h, if_neg h2, if_neg h5, if_neg h3, ht]⟩

theorem forall2_split {α β : Type} {R : α → β → Prop} : ∀ (a b : List α) (c : List β), List.Forall₂ R (a ++ b) c →
    ∃ c1 c2, c = c1 ++ c2 ∧ List.Forall₂ R a c1 ∧ List.Forall₂ R b c2 := by
  intro a
  induction a with
  | nil => intro b c h; exact ⟨[], c, rfl, .nil, h⟩
  | cons x a ih =>
    intro b c h
    rw [List.cons_append] at h
    cases h with
    | cons h1 h2 =>
      obtain ⟨c1, c2, rfl, e1, e2⟩ := ih _ _ h2
      exact ⟨_ :: c1, c2, rfl, .cons h1 e1, e2⟩

theorem forall2_mem {α β : Type} {R : α → β → Prop} {l : List α} {m : List β} (h : List.Forall₂ R l m) : ∀ b ∈ m, ∃ a ∈ l, R a b := by
  induction h with
  | nil => intro b hb; simp at hb
  | cons h1 _ ih =>
    intro b hb
    rcases List.mem_cons.1 hb with rfl | hb
    · exact ⟨_, by simp, h1⟩
    · obtain ⟨a, ha, e⟩ := ih b hb
      exact ⟨a, by simp [ha], e⟩

/-- Between the stitch and the trim: what is left of it are jumps, and the same is true of the trim itself. -/
theorem seen_jumps (n : Nat) : ∀ (M : List Stitch) (t : Bool), (∀ a ∈ M, a.cmd = 1 ∨ a.cmd = 11 ∨ a.cmd = 12) → ∀ j ∈ Jef.seen n t M, j.low = 1 := by
  intro M
  induction M with
  | nil => intro t _ j hj; simp [Jef.seen] at hj
  | cons a M ih =>
    intro t h j hj
    have ih := ih t (fun a ha => h a (by simp [ha]))
    rcases h a (by simp) with e | e | e
    · rw [Jef.seen, if_pos (by omega)] at hj
      rcases List.mem_cons.1 hj with rfl | hj
      · show j.cmd % 256 = 1; rw [e]; rfl
      · exact ih j hj
    · rw [Jef.seen, if_neg (by omega), if_neg (by omega), if_neg (by omega), if_neg (by omega)] at hj
      exact ih j hj
    · rw [Jef.seen, if_neg (by omega), if_neg (by omega), if_neg (by omega), if_neg (by omega)] at hj
      exact ih j hj

theorem strikes_count {l m : List Stitch} (h : List.Forall₂ SaveLoad.Alike l m) : (strikes m).length = (strikes l).length := by
  induction h with
  | nil => rfl
  | @cons a b l m h1 _ ih =>
    rw [Convert.strikes_cons, Convert.strikes_cons, h1.1]
    split_ifs <;> simp [ih]

theorem then_rest {α : Type} (X : List α) (z : α) (b c : List α) : ∃ Y, X ++ (([z] ++ b) ++ c) = X ++ z :: Y := ⟨b ++ c, by simp⟩

/-- A design in which a stitch is followed by enough jumps. -/
theorem cut_there {t : Nat} (ht : 1 ≤ t) {d : Option ℚ} {clip : Bool} {P J R : List Stitch} {s : Stitch} (hs : s.low = 0) (hJ : ∀ j ∈ J, j.low = 1) (hn : t ≤ J.length) :
    ∃ Y, interpolateTrims (some (t : Int)) d clip (P ++ s :: (J ++ R)) = interpolateTrims (some (t : Int)) d clip (P ++ [s]) ++ ⟨s.x, s.y, 2⟩ :: Y := by
  have hs' : endsRun s = true := by rw [endsRun_iff]; omega
  simp only [C50_exact]
  rw [design_split hs' (J ++ R) P]
  cases J with
  | nil => simp at hn; omega
  | cons j J =>
    have hj := hJ j (by simp)
    have he : ¬ endsRun j = true := by rw [endsRun_iff]; omega
    have ha := asks_count (n := (t : Int)) (d := d) R (j :: J) 0 (0, 0) (s.x, s.y) hJ (by omega) (by omega)
    rw [List.cons_append] at ha ⊢
    rw [trimmedDesign_cons _ _ _ (s.x, s.y), if_neg he, if_pos hj]
    dsimp only
    rw [ha]
    simp only [hs, true_or, decide_true, and_self, if_true]
    exact then_rest _ _ _ _

end LoadTrim

/-! ## Between the last stitch and a trim -/

/-- After the last stitch come only jumps, sequins and speed commands. -/
def Threaded (l : List Stitch) : Prop := ∃ pre a post, l = pre ++ a :: post ∧ a.low = 0 ∧ ∀ b ∈ post, b.low ∈ [(1 : Int), 6, 7, 11, 12]

namespace LoadTrim

def ThreadAt (pre : List Stitch) (a : Stitch) : Prop := a.low = 2 → Threaded pre

theorem _root_.Emb.Threaded.snoc {l : List Stitch} (h : Threaded l) {b : Stitch} (hb : b.low ∈ [(1 : Int), 6, 7, 11, 12]) : Threaded (l ++ [b]) := by
  obtain ⟨pre, a, post, rfl, ha, hp⟩ := h
  refine ⟨pre, a, post ++ [b], by simp, ha, ?_⟩
  intro x hx
  rcases List.mem_append.1 hx with hx | hx
  · exact hp x hx
  · rw [List.mem_singleton.1 hx]; exact hb

theorem threaded_stitch (l : List Stitch) {a : Stitch} (ha : a.low = 0) : Threaded (l ++ [a]) := ⟨l, a, [], rfl, ha, by simp⟩

def ThreadInv (s : St) : Prop := HighInv s ∧ EachAt ThreadAt s.out ∧ (s.trimmed = false → Threaded s.out)

theorem micro_thread {cfg : Cfg} {c : Int} {G : Prop} {s s' : St} (h : Micro cfg c G s s') (hs : ThreadInv s) : ThreadInv s' := by
  obtain ⟨hh, he, ht⟩ := hs
  refine ⟨micro_high h hh, ?_⟩
  have only : ∀ (a : Stitch), a.low ≠ 2 → EachAt ThreadAt (s.out ++ [a]) := fun a ha => eachAt_snoc.2 ⟨he, fun h2 => absurd h2 ha⟩
  have app : ∀ (a : Stitch), a.low ∈ [(0 : Int), 1, 6, 7, 11, 12] → EachAt ThreadAt (s.out ++ [a]) ∧ (s.trimmed = false → Threaded (s.out ++ [a])) := by
    intro a ha
    refine ⟨only a (fun h => by rw [h] at ha; revert ha; decide), fun hf => ?_⟩
    by_cases h0 : a.low = 0
    · exact threaded_stitch _ h0
    · refine (ht hf).snoc ?_
      simp only [List.mem_cons, List.not_mem_nil, or_false] at ha ⊢
      omega
  have lowk : ∀ (x y : ℚ) (k : Int), 0 ≤ k → k < 256 → k ∈ [(0 : Int), 1, 6, 7, 11, 12] → (⟨x, y, k + s.high⟩ : Stitch).low ∈ [(0 : Int), 1, 6, 7, 11, 12] := by
    intro x y k h0 h1 h2; rw [low_add hh h0 h1]; exact h2
  cases h with
  | quiet => exact ⟨he, ht⟩
  | high => exact ⟨he, ht⟩
  | maxStitch => exact ⟨he, ht⟩
  | maxJump => exact ⟨he, ht⟩
  | long => exact ⟨he, ht⟩
  | sequin => exact ⟨he, ht⟩
  | toggle h => exact app _ (lowk _ _ 6 (by decide) (by decide) (by decide))
  | stitch x y h => exact app _ (lowk _ _ 0 (by decide) (by decide) (by decide))
  | jump x y h hm => exact app _ (lowk _ _ 1 (by decide) (by decide) (by decide))
  | eject x y h hm => exact app _ (lowk _ _ 7 (by decide) (by decide) (by decide))
  | untrim l x y h ho =>
    refine ⟨he, fun _ => ?_⟩
    show Threaded s.out
    rw [h]
    exact threaded_stitch l (low_add hh (by decide) (by decide))
  | trim h hm =>
    refine ⟨eachAt_snoc.2 ⟨he, fun _ => ht h⟩, fun hf => nomatch hf⟩
  | stop => exact ⟨only _ (by rw [low_add hh (by decide) (by decide)]; decide), fun hf => nomatch hf⟩
  | speed v h hw hcv =>
    rcases h with rfl | rfl
    · exact app _ (lowk _ _ 11 (by decide) (by decide) (by decide))
    · exact app _ (lowk _ _ 12 (by decide) (by decide) (by decide))
  | lock ax ay =>
    obtain ⟨a1, a2, a3, e, e1, e2, e3⟩ := lockStitches_eq cfg.lm s.nx s.ny ax ay s.maxStitch
    have l1 : a1.low = 0 := by unfold Stitch.low; rw [e1]; rfl
    have l2 : a2.low = 0 := by unfold Stitch.low; rw [e2]; rfl
    have l3 : a3.low = 0 := by unfold Stitch.low; rw [e3]; rfl
    have l4 : (⟨s.nx, s.ny, 0⟩ : Stitch).low = 0 := rfl
    simp only [e]
    have split : s.out ++ [a1, a2, a3, ⟨s.nx, s.ny, 0⟩] = (((s.out ++ [a1]) ++ [a2]) ++ [a3]) ++ [⟨s.nx, s.ny, 0⟩] := by simp
    rw [split]
    refine ⟨?_, fun _ => threaded_stitch _ l4⟩
    simp only [eachAt_snoc]
    have nt : ∀ (l : List Stitch) (a : Stitch), a.low = 0 → ThreadAt l a := by
      intro l a ha h2; omega
    exact ⟨⟨⟨⟨he, nt _ _ l1⟩, nt _ _ l2⟩, nt _ _ l3⟩, nt _ _ l4⟩
  | change s' h =>
    have f := nextChange_fields h
    refine ⟨?_, fun hf => by rw [f.2.2.2.2.2.2.2.2.2.1] at hf; cases hf⟩
    obtain ⟨ch, _, hcase⟩ := nextChange_out h
    rcases hcase with ⟨_, _, ⟨_, e⟩ | ⟨_, e⟩⟩ | ⟨_, _, e⟩ | ⟨_, _, e⟩ | ⟨_, _, _, _, e⟩ <;> rw [e]
    · exact he
    · exact only _ (by
        show encodeThreadChange 5 _ _ _ % 256 ≠ 2
        rw [encodeThreadChange_low 5 (by decide) (by decide)]; decide)
    · exact only _ (by
        show encodeThreadChange 9 _ _ _ % 256 ≠ 2
        rw [encodeThreadChange_low 9 (by decide) (by decide)]; decide)
    · exact only _ (by
        show encodeThreadChange 3 _ _ _ % 256 ≠ 2
        rw [encodeThreadChange_low 3 (by decide) (by decide)]; decide)
    · exact he

end LoadTrim

/-- **C131** (and C29): in a normalized pattern a trim comes after a stitch with only jumps, sequins and speed commands between. -/
theorem C131_thread {o : Settings} {lm : Libm} {threads : List Thread} {ths : List (Option Thread)} {source out : List Stitch} (hv : o.ValidSequins)
    (h : encode o lm threads source = .ok (out, ths)) : ∀ pre a post, out = pre ++ a :: post → a.low = 2 → Threaded pre := by
  obtain ⟨s, _, hs, rfl, _⟩ := encode_lift (P := LoadTrim.ThreadInv) (Q := fun _ => True) hv h ⟨rfl, eachAt_nil _, fun h => nomatch h⟩
    (fun _ _ => trivial) (fun plan c G a b _ _ hm => LoadTrim.micro_thread hm) (fun s v hs => ⟨flagsOf_low v, hs.2⟩)
  have key : EachAt LoadTrim.ThreadAt (s.out ++ [⟨s.nx, s.ny, END + s.high⟩]) := by
    rw [eachAt_snoc]
    refine ⟨hs.2.1, ?_⟩
    intro h2; rw [low_add hs.1 (by decide) (by decide)] at h2; simp [END] at h2
  exact key

/-! ## The claim -/

/-- One trim. -/
theorem LoadTrim.jef_trim {o : Settings} {lm : Libm} {threads ts : List Thread} {ths : List (Option Thread)} {source out : List Stitch} {l' : List Stitch} {T : List (Option ℕ)} {f : Bytes}
    {t : Nat} {date : Bytes} {hoop : Int × Int} {st : LoadSettings} {mm : Option ℚ} {clip : Bool} (hs : Saving o lm 127) (hm : o.sequin ≠ 0xF5)
    (hq : ∀ a ∈ source, a.low ≠ 0xD5 ∧ a.low ≠ 0xD6 ∧ a.low ≠ 0xF0 ∧ a.low ≠ 0xF5) (h : encode o lm threads source = .ok (out, ths))
    (hf : ∀ a, out.head? = some a → a.low ≠ 5) (hd : date.length = 14) (hw : Jef.write (some t) date hoop.1 hoop.2 ts out = .ok f) (hsz : out.length < 2 ^ 28)
    (ht : 1 ≤ t) (hr : JefRule st (some (t : Int)) mm clip) (hrd : Jef.load st f = .ok (l', T))
    {A M R : List Stitch} {s c : Stitch} (hout : out = A ++ s :: (M ++ c :: R)) (h0 : s.low = 0) (hM : ∀ a ∈ M, a.low = 1 ∨ a.low = 11 ∨ a.low = 12) (hc : c.low = 2) :
    ∃ X Y z, l' = X ++ z :: Y ∧ z.low = 2 ∧ |z.x - s.x| ≤ 1 / 2 ∧ |z.y - s.y| ≤ 1 / 2 ∧
      (strikes X).length = (strikes A).length + 1 ∧ (strikes Y).length = (strikes R).length := by
  obtain ⟨T3, h3, -, -⟩ := Jef.C09_roundtrip_partial hs.libm hs.sequins hs.round hs.stitch hs.jump (.inl hs.long) (by rw [hs.change]; decide) hm hq h hd hw hf hsz
  have hrule := Jef.trimRule_eq hr
  unfold Jef.load Jef.read at hrd
  rw [hrule, h3] at hrd
  injection hrd with hrd; injection hrd with hrd hrd'
  have hlow : ∀ a ∈ place 0 0 (deltas 0 0 out), a.cmd = a.low := fun a ha => (SaveLoad.written_low (P := fun _ => True) (l := out) (fun _ _ => trivial) a ha).2
  have hal := SaveLoad.alike_deltas out
  generalize place 0 0 (deltas 0 0 out) = L at hrd hlow hal
  rw [hout] at hal
  obtain ⟨A', L1, rfl, hA, hal⟩ := LoadTrim.forall2_split _ _ _ hal
  cases hal with
  | @cons _ s' _ L2 hs' hal2 =>
  obtain ⟨M', L3, rfl, hM', hal3⟩ := LoadTrim.forall2_split _ _ _ hal2
  cases hal3 with
  | @cons _ c' _ R' hc' hR =>
  have cs : s'.cmd = 0 := by rw [hlow s' (by simp), hs'.1, h0]
  have cc : c'.cmd = 2 := by rw [hlow c' (by simp), hc'.1, hc]
  have cM : ∀ a ∈ M', a.cmd = 1 ∨ a.cmd = 11 ∨ a.cmd = 12 := by
    intro a ha
    rw [hlow a (by simp [ha])]
    obtain ⟨b, hb, hba⟩ := LoadTrim.forall2_mem hM' a ha
    rw [hba.1]
    exact hM b hb
  have hl2 : ∀ a ∈ R', a.cmd = a.low := fun a ha => hlow a (by simp [ha])
  have hl1 : ∀ a ∈ A', a.cmd = a.low := fun a ha => hlow a (by simp [ha])
  obtain ⟨t1, e1⟩ := LoadTrim.seen_append t A' false
  obtain ⟨t2, e2⟩ := LoadTrim.seen_append t M' t1
  have hseen : Jef.seen ((some t).getD 0) false (A' ++ s' :: (M' ++ c' :: R')) =
      Jef.seen t false A' ++ s' :: ((Jef.seen t t1 M' ++ List.replicate t ⟨c'.x, c'.y, 1⟩) ++ Jef.seen t t2 R') := by
    rw [Option.getD_some, e1, Jef.seen, if_pos (.inl cs), e2, Jef.seen, if_neg (by omega), if_pos cc, List.append_assoc]
  rw [hseen] at hrd
  have hall : (∀ j ∈ Jef.seen t t1 M' ++ List.replicate t (⟨c'.x, c'.y, 1⟩ : Stitch), j.low = 1) := by
    intro j hj
    rcases List.mem_append.1 hj with hj | hj
    · exact LoadTrim.seen_jumps t M' t1 cM j hj
    · rw [(List.mem_replicate.1 hj).2]; rfl
  obtain ⟨Y, hY⟩ := LoadTrim.cut_there ht (d := mm.map (· * 10)) (clip := clip) (P := Jef.seen t false A') (R := Jef.seen t t2 R')
    (J := Jef.seen t t1 M' ++ List.replicate t ⟨c'.x, c'.y, 1⟩) (s := s') (by show s'.cmd % 256 = 0; rw [cs]; rfl) hall (by simp)
  have htot := Convert.strikes_edited (interpolateTrims_edited (some (t : Int)) (mm.map (· * 10)) clip
    (Jef.seen t false A' ++ s' :: ((Jef.seen t t1 M' ++ List.replicate t ⟨c'.x, c'.y, 1⟩) ++ Jef.seen t t2 R')))
  have hpre := Convert.strikes_edited (interpolateTrims_edited (some (t : Int)) (mm.map (· * 10)) clip (Jef.seen t false A' ++ [s']))
  have s0 : s'.low = 0 := by rw [hs'.1, h0]
  have hone : strikes [s'] = [(s'.x, s'.y)] := by rw [Convert.strikes_cons, if_pos s0]; rfl
  have hx : (strikes (interpolateTrims (some (t : Int)) (mm.map (· * 10)) clip (Jef.seen t false A' ++ [s']))).length = (strikes A).length + 1 := by
    rw [hpre, Strike.strikes_append, Convert.strikes_seen t A' hl1, hone, List.length_append, LoadTrim.strikes_count hA]; rfl
  refine ⟨_, Y, ⟨s'.x, s'.y, 2⟩, by rw [← hrd, hY], rfl, hs'.2.1, hs'.2.2.1, hx, ?_⟩
  have hq : strikes (Jef.seen t t1 M' ++ List.replicate t (⟨c'.x, c'.y, 1⟩ : Stitch)) = [] := by
    unfold strikes
    rw [List.filter_eq_nil_iff.2]; · rfl
    intro a ha
    rw [hall a ha]; decide
  have := congrArg List.length htot
  rw [hY, Strike.strikes_append, List.length_append, hx, Convert.strikes_cons, if_neg (by show ¬ (2 : Int) % 256 = 0; decide), List.nil_append,
    Strike.strikes_append, Convert.strikes_cons s', if_pos s0, Strike.strikes_append, hq, List.nil_append, Convert.strikes_seen t A' hl1, Convert.strikes_seen t R' hl2,
    List.length_append, List.length_append, LoadTrim.strikes_count hA, LoadTrim.strikes_count hR, List.length_singleton] at this
  omega

/-- **C131**: a design saved as JEF with `trims` and a number of jumps for a trim, loaded with the same number (and any distance and clipping): every trim of the normalized design is a
trim of the loaded design, at the last stitch before it, with the same number of stitches before and after it. -/
theorem C131_jef_partial {o : Settings} {lm : Libm} {threads ts : List Thread} {ths : List (Option Thread)} {source out : List Stitch} {l' : List Stitch} {T : List (Option ℕ)} {f : Bytes}
    {t : Nat} {date : Bytes} {hoop : Int × Int} {st : LoadSettings} {mm : Option ℚ} {clip : Bool} (hs : Saving o lm 127) (hm : o.sequin ≠ 0xF5)
    (hq : ∀ a ∈ source, a.low ≠ 0xD5 ∧ a.low ≠ 0xD6 ∧ a.low ≠ 0xF0 ∧ a.low ≠ 0xF5) (h : encode o lm threads source = .ok (out, ths))
    (hf : ∀ a, out.head? = some a → a.low ≠ 5) (hd : date.length = 14) (hw : Jef.write (some t) date hoop.1 hoop.2 ts out = .ok f) (hsz : out.length < 2 ^ 28)
    (ht : 1 ≤ t) (hr : JefRule st (some (t : Int)) mm clip) (hrd : Jef.load st f = .ok (l', T)) {A R : List Stitch} {c : Stitch} (hout : out = A ++ c :: R) (hc : c.low = 2) :
    ∃ X Y z p, l' = X ++ z :: Y ∧ z.low = 2 ∧ (strikes A).getLast? = some p ∧ |z.x - p.1| ≤ 1 / 2 ∧ |z.y - p.2| ≤ 1 / 2 ∧
      (strikes X).length = (strikes A).length ∧ (strikes Y).length = (strikes R).length := by
  obtain ⟨A0, s, M, rfl, h0, hM⟩ := C131_thread hs.sequins h A c R hout hc
  have hk : ∀ a ∈ out, a.low ≠ 6 ∧ a.low ≠ 7 := by
    obtain ⟨l, e, hl, hdl, hok⟩ := encoded_recs (M := 127) (by decide) hs.libm hs.sequins hs.round (by rw [hs.stitch]; norm_num) (by rw [hs.jump]; norm_num) (.inl hs.long) hm hq h
    have hmap := deltas_cmds out 0 0
    rw [hdl] at hmap
    intro a ha
    have hin : a.low ∈ out.map (fun a => cmdOf a.cmd) := List.mem_map.2 ⟨a, ha, rfl⟩
    rw [← hmap, List.mem_map] at hin
    obtain ⟨r, hr, e1⟩ := hin
    rw [← e1]
    rcases List.mem_append.1 hr with hr | hr
    · rcases (hok r hr).1 with ⟨h1, _⟩ | ⟨h1, _⟩ <;> omega
    · rw [List.mem_singleton.1 hr]; exact ⟨by decide, by decide⟩
  have hM' : ∀ a ∈ M, a.low = 1 ∨ a.low = 11 ∨ a.low = 12 := by
    intro a ha
    have h1 := hM a ha
    have h2 := hk a (by rw [hout]; simp [ha])
    simp only [List.mem_cons, List.not_mem_nil, or_false] at h1
    omega
  obtain ⟨X, Y, z, e1, e2, e3, e4, e5, e6⟩ := LoadTrim.jef_trim hs hm hq h hf hd hw hsz ht hr hrd (A := A0) (M := M) (R := R) (s := s) (c := c)
    (by rw [hout]; simp) h0 hM' hc
  have hq : strikes M = [] := by
    unfold strikes
    rw [List.filter_eq_nil_iff.2]; · rfl
    intro a ha
    rcases hM' a ha with h | h | h <;> rw [h] <;> decide
  have hst : strikes (A0 ++ s :: M) = strikes A0 ++ [(s.x, s.y)] := by
    rw [Strike.strikes_append, Convert.strikes_cons s, if_pos h0, hq]; rfl
  exact ⟨X, Y, z, (s.x, s.y), e1, e2, by rw [hst]; simp, e3, e4, by rw [hst, e5]; simp, e6⟩

/-! ## Examples -/

/-- Two stitches, a trim and a jump, two stitches. -/
def trimDemo : List Stitch := [⟨0, 0, 0⟩, ⟨10, 0, 0⟩, ⟨10, 0, 2⟩, ⟨20, 10, 1⟩, ⟨20, 20, 0⟩, ⟨30, 20, 0⟩, ⟨30, 20, 4⟩]

/-- Saved as JEF with three jumps for a trim and loaded with the given settings. -/
def viaJef (trimAt : Option Nat) (s : LoadSettings) : Except PyErr (List Stitch × List (Option ℕ)) :=
  Jef.write trimAt (List.replicate 14 48) 30 20 [{ color := 0 }] (demoEncode Jef.settings trimDemo) >>= fun f => Jef.load s f

-- the trim is there
example : viaJef (some 3) { trims := some true } = .ok ([⟨0, 0, 0⟩, ⟨10, 0, 0⟩, ⟨10, 0, 2⟩, ⟨20, 10, 1⟩, ⟨20, 20, 1⟩, ⟨20, 20, 0⟩, ⟨30, 20, 0⟩, ⟨30, 20, 4⟩], [some 1]) := by decide +kernel

/-- **C131** needs both: by default the writer leaves trims out, and the reader does not count jumps. -/
theorem C131_lost : viaJef none { trims := some true } = .ok ([⟨0, 0, 0⟩, ⟨10, 0, 0⟩, ⟨20, 10, 1⟩, ⟨20, 20, 1⟩, ⟨20, 20, 0⟩, ⟨30, 20, 0⟩, ⟨30, 20, 4⟩], [some 1]) ∧
    viaJef (some 3) {} = viaJef none {} := by
  constructor <;> decide +kernel

end Emb
