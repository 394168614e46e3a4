import Verif.Props.ConvertProps
import Verif.Props.NeedleShadeProps

/-!
# Converting a file into further formats (C108)

Any file that one of the readers of whole units accepts, normalized for U01, TBF or VP3, written and read back, is sewn as before.
-/

namespace Emb

/-! ## Specification -/

/-- The settings of the formats with needles, with any user settings that do not move the design, tie it or cut it. -/
structure SavingNeedles (o : Settings) (lm : Libm) : Prop where
  libm : lm.Sound
  sequins : o.ValidSequins
  stitch : o.maxStitch = some 127
  jump : o.maxJump = some 127
  long : o.longStitch = 0xF1
  change : o.changeCommand = 9
  nosequins : o.sequin ≠ 0xF5
  ties : o.NoTies
  place : ∀ p, o.place lm p = p

/-- `l'` is `l` saved as U01 (no FAST or SLOW, see C13; needles 1 to 14), TBF (needles from 0 on, what fits the header) or VP3 (any settings; ASCII
texts, whole positions, a whole centre, no colour change on an axis, steps of 16 bits, see C16) and loaded again. -/
inductive ConvertedMore : List Stitch → List Stitch → Prop
  | u01 {o lm threads ths l out f} : SavingNeedles o lm → encode o lm threads l = .ok (out, ths) → (∀ a ∈ l, a.low ≠ 11 ∧ a.low ≠ 12) →
      (∀ a ∈ out, U01.NeedleFits a.cmd) → U01.write out = .ok f → ConvertedMore l (U01.read f)
  | tbf {o lm threads ths l out f d} {name tp : Str} : SavingNeedles o lm → o.round = true → encode o lm threads l = .ok (out, ths) →
      (∀ a ∈ out, a.low = 9 → a.cmd / 65536 % 256 ≠ 0) → Tbf.Fits name tp threads out → Tbf.write name tp threads out = .ok f →
      Tbf.read f = .ok d → ConvertedMore l d.stitches
  | vp3 {o lm threads ths l out f b x} {T : List Thread} {filler : Nat → Thread} : o.NoTies → (∀ p, o.place lm p = p) →
      encode o lm threads l = .ok (out, ths) → f.length < 2 ^ 32 → (∀ k, Vp3.PlainThread (Blocks.threadAt T filler k)) → changes out < 65535 →
      bounds out = some x → Vp3.Good out → Vp3.ReachAll 32767 (0, 0) out → Vp3.Whole (Vp3.centre x) → (∀ a ∈ out, a.low = 5 → a.x ≠ 0 ∧ a.y ≠ 0) →
      Vp3.write T filler out = .ok f → Vp3.read f = .ok b → ConvertedMore l b.stitches

/-! ## Proofs -/

namespace Convert

theorem images_strikes {round : Bool} {f : Pt → Pt} (hf : ∀ p, f p = p) (m : List Stitch) (hm : ∀ a ∈ m, a.low ∈ kinds)
    (hw : ∀ a ∈ m, ∃ i j : Int, a.x = i ∧ a.y = j) : images round f m = strikes m := by
  unfold images strikes
  have e : m.filter (fun st => decide (st.low ∈ [(0 : Int), 0xB0, 0xB1])) = m.filter (fun a => a.low == 0) := by
    refine List.filter_congr fun a ha => ?_
    have := hm a ha
    simp only [List.mem_cons, List.not_mem_nil, or_false] at this
    rw [beq_eq_decide]
    refine decide_eq_decide.2 ?_
    simp only [List.mem_cons, List.not_mem_nil, or_false]
    omega
  rw [e]
  refine List.map_congr_left fun a ha => ?_
  obtain ⟨i, j, hi, hj⟩ := hw a (List.mem_of_mem_filter ha)
  simp only [hf]
  cases round
  · rfl
  · simp [hi, hj]

theorem strikes_out {o : Settings} {lm : Libm} {l out : List Stitch} {threads : List Thread} {ths : List (Option Thread)} (ht : o.NoTies)
    (hp : ∀ p, o.place lm p = p) (hl : Tidy l) (h : encode o lm threads l = .ok (out, ths)) : strikes out = strikes l := by
  obtain ⟨⟨m, e, rfl, he, hm⟩, hw⟩ := hl
  have hA : ∀ st ∈ m, Plain o.maxStitch st := by
    intro st hst
    have := hm st hst
    simp only [List.mem_cons, List.not_mem_nil, or_false] at this
    refine ⟨?_, ?_⟩
    · simp only [List.mem_cons, List.not_mem_nil, or_false]; omega
    · intro h; omega
  have h1 := C24_exact (E := [e]) ht hA (by simpa using he) h
  rw [images_strikes hp m hm fun a ha => hw a (by simp [ha])] at h1
  rw [h1, Strike.strikes_append]
  have : strikes [e] = [] := by unfold strikes; simp [he]
  rw [this, List.append_nil]

theorem written_any {o : Settings} {lm : Libm} {l out : List Stitch} {threads : List Thread} {ths : List (Option Thread)} (ht : o.NoTies)
    (hp : ∀ p, o.place lm p = p) (hl : Tidy l) (h : encode o lm threads l = .ok (out, ths)) :
    strikes (place 0 0 (wdeltas 0 0 out)) = strikes l := by
  have h1 := strikes_out ht hp hl h
  have hg := SaveLoad.shaded_alike ((Needle.alike_wdeltas out).imp fun a b h => h.1) 0
  have hs : ∀ p ∈ shadedFrom 0 out, ∃ i j : Int, p.2 = ((i : ℚ), (j : ℚ)) := by
    intro p hpm
    have : p.2 ∈ strikes out := by rw [← strikes_shaded out 0]; exact List.mem_map.2 ⟨p, hpm, rfl⟩
    rw [h1] at this
    unfold strikes at this
    obtain ⟨a, ha, e⟩ := List.mem_map.1 this
    obtain ⟨i, j, hi, hj⟩ := hl.whole a (List.mem_of_mem_filter ha)
    exact ⟨i, j, by rw [← e, hi, hj]⟩
  rw [← h1, ← strikes_shaded _ 0, SaveLoad.exact_of_whole hg hs, strikes_shaded]

theorem vp3_kinds (l : List Stitch) (hw : ∀ a ∈ l, Vp3.Whole (a.x, a.y)) : ∀ q, Vp3.Whole q →
    ∀ a ∈ Vp3.sewnFile q l, a.low ∈ kinds ∧ Vp3.Whole (a.x, a.y) := by
  induction l with
  | nil => intro q _ a ha; simp [Vp3.sewnFile] at ha
  | cons b l ih =>
    intro q hq a ha
    have ih := ih (fun a ha => hw a (by simp [ha]))
    have hb := hw b (by simp)
    rw [Vp3.sewnFile] at ha
    split_ifs at ha
    · rcases List.mem_cons.1 ha with rfl | ha
      · exact ⟨by show (0 : Int) % 256 ∈ kinds; decide, hb⟩
      · exact ih _ hb a ha
    · rcases List.mem_cons.1 ha with rfl | ha
      · exact ⟨by show (2 : Int) % 256 ∈ kinds; decide, hq⟩
      · exact ih _ hq a ha
    · rcases List.mem_cons.1 ha with rfl | ha
      · exact ⟨by show (5 : Int) % 256 ∈ kinds; decide, hq⟩
      rcases List.mem_cons.1 ha with rfl | ha
      · exact ⟨by show (1 : Int) % 256 ∈ kinds; decide, hb⟩
      · exact ih _ hb a ha
    · exact ih _ hq a ha

theorem tidy_withEnd {l : List Stitch} (h : ∀ a ∈ l, a.low ∈ kinds ∧ Vp3.Whole (a.x, a.y)) : Tidy (Vp3.withEnd l) := by
  refine ⟨⟨l, _, rfl, rfl, fun a ha => (h a ha).1⟩, ?_⟩
  have hl : Vp3.Whole (lastPos l) := by
    unfold lastPos
    cases hg : l.getLast? with
    | none => exact ⟨0, 0, by simp⟩
    | some a => exact (h a (List.mem_of_getLast? hg)).2
  intro a ha
  rcases List.mem_append.1 ha with ha | ha
  · obtain ⟨i, j, e⟩ := (h a ha).2
    exact ⟨i, j, congrArg Prod.fst e, congrArg Prod.snd e⟩
  · simp only [List.mem_singleton] at ha
    subst ha
    obtain ⟨i, j, e⟩ := hl
    exact ⟨i, j, congrArg Prod.fst e, congrArg Prod.snd e⟩

theorem strikes_tbf (rs : List Rec) (h : ∀ r ∈ rs, U01.shows r.cmd = none → r.dx = 0 ∧ r.dy = 0) :
    ∀ x y, strikes (place x y (rs.filterMap Tbf.seen)) = strikes (place x y rs) := by
  induction rs with
  | nil => intro x y; rfl
  | cons r rs ih =>
    intro x y
    have ih := ih (fun b hb => h b (by simp [hb]))
    have h0 := h r (by simp)
    rw [place, strikes_cons, List.filterMap_cons]
    have keep : ∀ c : Int, (c % 256 = 0 ↔ r.cmd % 256 = 0) → strikes (place x y (⟨r.dx, r.dy, c⟩ :: rs.filterMap Tbf.seen))
        = (if (⟨x + r.dx, y + r.dy, r.cmd⟩ : Stitch).low = 0 then [(x + r.dx, y + r.dy)] else []) ++ strikes (place (x + r.dx) (y + r.dy) rs) := by
      intro c hc
      rw [place, strikes_cons, ih]
      congr 1
      exact if_congr hc rfl rfl
    rw [Tbf.seen.eq_1 r]
    by_cases c1 : r.cmd % 256 = 1
    · rw [if_pos c1]
      by_cases hz : r.dx = 0 ∧ r.dy = 0
      · rw [if_pos hz]
        have := keep 2 (by omega)
        rw [hz.1, hz.2] at this ⊢
        exact this
      · rw [if_neg hz]
        exact keep 1 (by omega)
    rw [if_neg c1]
    by_cases c2 : r.cmd % 256 ≤ 4
    · rw [if_pos c2]
      exact keep _ (by omega)
    rw [if_neg c2]
    by_cases c3 : r.cmd % 256 = 9
    · rw [if_pos c3]
      refine keep _ ?_
      split <;> omega
    rw [if_neg c3]
    obtain ⟨e1, e2⟩ := h0 (by unfold U01.shows; rw [if_neg c2, if_neg c3])
    rw [if_neg (show ¬ (⟨x + r.dx, y + r.dy, r.cmd⟩ : Stitch).low = 0 from fun h => c2 (by
      have h : r.cmd % 256 = 0 := h
      omega))]
    rw [e1, e2]
    simpa using ih x y

theorem u01_kinds (f : Bytes) : ∀ r ∈ U01.readRecs f, r.cmd % 256 ∈ kinds := by
  have two : ∀ (c k dx dy : Int), c % 256 ∈ kinds → k % 256 ∈ kinds → ∀ r ∈ (⟨0, 0, c⟩ :: U01.also k dx dy : List Rec), r.cmd % 256 ∈ kinds := by
    intro c k dx dy hc hk r hr
    rcases List.mem_cons.1 hr with rfl | hr
    · exact hc
    · unfold U01.also at hr
      split_ifs at hr
      · simp at hr; subst hr; exact hk
      · simp at hr
  have one : ∀ (k dx dy : Int) (l : List Rec), U01.interpret k dx dy = some l → ∀ r ∈ l, r.cmd % 256 ∈ kinds := by
    intro k dx dy l h
    unfold U01.interpret at h
    split_ifs at h <;> simp only [Option.some.injEq] at h <;> subst h
    · intro r hr; simp at hr; subst hr; show (0 : Int) % 256 ∈ kinds; decide
    · intro r hr; simp at hr; subst hr; show (1 : Int) % 256 ∈ kinds; decide
    · exact two FAST STITCH _ _ (by decide) (by decide)
    · exact two FAST JUMP _ _ (by decide) (by decide)
    · exact two SLOW STITCH _ _ (by decide) (by decide)
    · exact two SLOW JUMP _ _ (by decide) (by decide)
    · exact two TRIM JUMP _ _ (by decide) (by decide)
    · exact two TRIM JUMP _ _ (by decide) (by decide)
    · exact two STOP JUMP _ _ (by decide) (by decide)
    · exact two _ JUMP _ _ (by rw [encodeThreadChange_low _ (by decide) (by decide)]; decide) (by decide)
  fun_induction U01.readRecs f with
  | case1 ctrl b1 b2 rest dx dy rs hi ih =>
    intro r hr
    rcases List.mem_append.1 hr with hr | hr
    · exact one _ _ _ _ hi r hr
    · exact ih r hr
  | case2 => simp
  | case3 => simp

theorem more_step {l l' : List Stitch} (hl : Tidy l) (h : ConvertedMore l l') : strikes l' = strikes l ∧ Tidy l' := by
  have hlow := low_of hl.shape
  have hq : ∀ st ∈ l, st.low ≠ 0xD5 ∧ st.low ≠ 0xD6 ∧ st.low ≠ 0xF0 ∧ st.low ≠ 0xF5 := by
    intro st h
    have := hlow st h
    simp only [List.mem_cons, List.not_mem_nil, or_false] at this
    omega
  have vw : ∀ m : List Stitch, strikes (view U01.shows m) = strikes m := by
    intro m
    refine strikes_view m fun a _ => ?_
    unfold U01.shows Stitch.low
    split_ifs <;> dsimp only <;> omega
  cases h with
  | @u01 o lm threads ths _ out f hs he hsp hn hw =>
    obtain ⟨f2, hw2, hr⟩ := U01.C13_roundtrip_partial hs.libm hs.sequins hs.stitch hs.jump (.inl hs.long) hs.change hs.nosequins hq hsp he hn
    rw [hw] at hw2
    injection hw2 with hw2; subst hw2
    exact ⟨by rw [hr, vw, written_any hs.ties hs.place hl he], tidy_place _ (u01_kinds _)⟩
  | @tbf o lm threads ths _ out f d name tp hs hround he hn hf hw hrd =>
    obtain ⟨f2, hw2, hr⟩ := Tbf.C14_exact hs.libm hs.sequins hround hs.stitch hs.jump (.inl hs.long) hs.change hs.nosequins hq he hn hf
    rw [hw] at hw2
    injection hw2 with hw2; subst hw2
    refine ⟨?_, ?_⟩
    · rw [hrd] at hr
      injection hr with hr
      rw [hr]
      dsimp only
      rw [strikes_tbf _ (U01.hidden_still hs.sequins hs.nosequins (fun st hst => (hq st hst).2.2.2) he), written_any hs.ties hs.place hl he]
    · rw [Tbf.read] at hrd
      split at hrd
      · cases hrd
      · obtain ⟨rs, h1, h2⟩ := Convert.bind_ok hrd
        injection h2 with h2
        rw [← h2]
        exact Convert.tidy_place _ (Convert.tbf_kinds _ _ _ _ h1)
  | @vp3 o lm threads ths _ out f b x T filler ht hp he hf hT hc hx hg hr hcx h5 hw hrd =>
    obtain ⟨b2, h1, h2, -⟩ := Vp3.C16_file_partial f T filler out x hf hT hc hx hg hr hcx h5 hw
    rw [hrd] at h1
    injection h1 with h1; subst h1
    rw [h2]
    refine ⟨?_, tidy_withEnd (vp3_kinds out hg.whole _ ⟨0, 0, by simp⟩)⟩
    rw [Vp3.withEnd, Strike.strikes_append, ← strikes_shaded _ 0, SaveLoad.shaded_sewnFile, strikes_shaded, strikes_out ht hp hl he]
    exact List.append_nil _

end Convert

/-- **C108**: the same through U01, TBF and VP3: through however many formats a design is converted, exactly the same points are sewn
in the same order, and the result can be converted again. -/
theorem C108_more_partial {l l' : List Stitch} (hl : Tidy l) (h : Relation.ReflTransGen (fun a b => Converted a b ∨ ConvertedMore a b) l l') :
    strikes l' = strikes l ∧ Tidy l' := by
  induction h with
  | refl => exact ⟨rfl, hl⟩
  | tail _ h1 ih =>
    rcases h1 with h1 | h1
    · obtain ⟨e, hc⟩ := C108_converted_partial ih.2 (.single h1)
      exact ⟨e.trans ih.1, hc⟩
    · obtain ⟨e, hc⟩ := Convert.more_step ih.2 h1
      exact ⟨e.trans ih.1, hc⟩

/-- **C108**: conversion to U01 goes on for every such design without FAST and SLOW and without needles of its own, with any such settings that have
between 1 and 14 needles; at most 254 changes, as in C31. -/
theorem C108_goes_on_u01 {o : Settings} {lm : Libm} {l : List Stitch} (hl : Tidy l) (hs : SavingNeedles o lm) (h1 : 1 ≤ o.needleCount)
    (h14 : o.needleCount ≤ 14) (hsp : ∀ a ∈ l, a.low ≠ 11 ∧ a.low ≠ 12) (hn : l.countP (fun st => st.low ∈ [5, 9, 226, 16]) ≤ 254)
    (hex : ∀ st ∈ l, ChangeLike st → (decodeCommand st.cmd).2.2.1 = none) (threads : List Thread) :
    ∃ out ths f, encode o lm threads l = .ok (out, ths) ∧ U01.write out = .ok f ∧ ConvertedMore l (U01.read f) := by
  have hlow := Convert.low_of hl.shape
  have hq : ∀ st ∈ l, (st.low ≠ 0xD5 ∧ st.low ≠ 0xD6 ∧ st.low ≠ 0xC4 ∧ st.low ≠ 0xC5) ∧ st.low ≠ 0xF0 ∧ st.low ≠ 0xF5 := by
    intro st h
    have := hlow st h
    simp only [List.mem_cons, List.not_mem_nil, or_false] at this
    omega
  obtain ⟨out, ths, he⟩ := C27_total (o := o) (lm := lm) (threads := threads) (source := l) (by omega)
    (fun m h => by rw [hs.stitch] at h; injection h with h; rw [← h]; norm_num)
    (fun m h => by rw [hs.jump] at h; injection h with h; rw [← h]; norm_num) (fun st h => (hq st h).1)
  have hfit := U01.C13_needles hs.sequins hs.change h1 h14 he hn hex
  obtain ⟨f, hw, -⟩ := U01.C13_exact hs.libm hs.sequins hs.stitch hs.jump (.inl hs.long) hs.change hs.nosequins
    (fun st h => ⟨(hq st h).1.1, (hq st h).1.2.1, (hq st h).2⟩) he hfit
  exact ⟨out, ths, f, he, hw, .u01 hs he hsp hfit hw⟩

/-! ## Examples -/

theorem Convert.saving_u01 : SavingNeedles U01.settings demoLm :=
  ⟨Resave.saving_exp.libm, fun v h => by injection h with h; subst h; unfold ValidSequin; decide, rfl, rfl, rfl, rfl, by decide, by unfold Settings.NoTies; decide,
    fun p => rfl⟩

theorem Convert.saving_tbf : SavingNeedles Tbf.settings demoLm :=
  ⟨Resave.saving_exp.libm, fun v h => by simp [Tbf.settings] at h, rfl, rfl, rfl, rfl, by decide, by unfold Settings.NoTies; decide, fun p => rfl⟩

-- EXP to U01 and back to EXP: nothing moves
example : ∃ l1 l2, ConvertedMore resaveDemo l1 ∧ Converted l1 l2 ∧ strikes l2 = [(3, 4), (5, 3), (-300, 4), (-301, 4), (-301, -4)] := by
  have c0 : Tidy resaveDemo := ⟨⟨resaveDemo.dropLast, ⟨-301, -4, 4⟩, by decide +kernel, by decide, by decide +kernel⟩, by
    intro a ha
    simp only [resaveDemo, List.mem_cons, List.not_mem_nil, or_false] at ha
    rcases ha with rfl | rfl | rfl | rfl | rfl | rfl | rfl | rfl | rfl
    exacts [⟨3, 4, by norm_num⟩, ⟨3, 4, by norm_num⟩, ⟨5, 3, by norm_num⟩, ⟨0, 0, by norm_num⟩, ⟨-300, 4, by norm_num⟩, ⟨-300, 4, by norm_num⟩,
      ⟨-301, 4, by norm_num⟩, ⟨-301, -4, by norm_num⟩, ⟨-301, -4, by norm_num⟩]⟩
  obtain ⟨o1, _, f1, _, _, h1⟩ := C108_goes_on_u01 c0 Convert.saving_u01 (by decide) (by decide) (by decide) (by decide)
    (by unfold ChangeLike; decide) []
  have c1 := (C108_more_partial c0 (.single (.inr h1))).2
  obtain ⟨o2, _, _, h2⟩ := (C108_goes_on c1.shape Resave.saving_exp (by norm_num) (by decide) []).1 rfl (by decide)
  refine ⟨_, _, h1, h2, ?_⟩
  rw [(C108_more_partial c0 ((Relation.ReflTransGen.single (.inr h1)).tail (.inl h2))).1]
  decide +kernel

end Emb
