import Verif.IdempotentRun

/-!
# C33: normalizing twice
-/

namespace Emb

variable {o : Settings} {lm : Libm} {threads : List Thread} {source out : List Stitch} {ths : List (Option Thread)}

theorem step_grows {cfg : Cfg} {position : Nat} {s s' : St} {st : Stitch} (hI : BaseInv s) (hh : HighInv s)
    (hs : step cfg position s st = .ok s') : ∃ l, s'.out = s.out ++ l := by
  have := chain_lift (P := fun t => HighInv t ∧ ∃ l, t.out = s.out ++ l)
    (fun a b _ hm ha => by
      obtain ⟨h1, l, h2⟩ := ha
      refine ⟨micro_high hm h1, ?_⟩
      cases micro_emit hm h1 with
      | none ho => exact ⟨l, by rw [ho, h2]⟩
      | move k x y _ hs' _ => exact ⟨l ++ [⟨x, y, k + a.high⟩], by rw [hs']; show a.out ++ _ = _; rw [h2]; simp⟩
      | here c ho => exact ⟨l ++ [c], by rw [ho, h2]; simp⟩
      | mode c ho => exact ⟨l ++ [c], by rw [ho, h2]; simp⟩
      | lock ax ay hs' => exact ⟨l ++ lockStitches cfg.lm a.nx a.ny ax ay a.maxStitch, by rw [hs']; show a.out ++ _ = _; rw [h2]; simp⟩)
    (step_chain st hI hs).1 hI ⟨hh, [], by simp⟩
  exact this.2

/-- Sewing commands of a source: STITCH, SEW_TO, NEEDLE_AT, SEQUIN_EJECT. -/
def Sews (st : Stitch) : Prop := st.low ∈ [0, 176, 177, 7]

/-- Colour changes of a source: COLOR_CHANGE, NEEDLE_SET, COLOR_BREAK. -/
def Changes (st : Stitch) : Prop := st.low ∈ [5, 9, 226]

instance (st : Stitch) : Decidable (Sews st) := by unfold Sews; infer_instance
instance (st : Stitch) : Decidable (Changes st) := by unfold Changes; infer_instance

theorem sews_iff (st : Stitch) : isSewing (cmdOf st.cmd) = true ↔ Sews st := by
  have e : cmdOf st.cmd = st.low := rfl
  unfold isSewing Sews
  simp only [Bool.or_eq_true, beq_iff_eq, e, STITCH, SEW_TO, NEEDLE_AT, SEQUIN_EJECT, List.mem_cons, List.not_mem_nil, or_false,
    or_assoc]

theorem changes_iff (st : Stitch) : isChange (cmdOf st.cmd) = true ↔ Changes st := by
  have e : cmdOf st.cmd = st.low := rfl
  unfold isChange Changes
  simp only [Bool.or_eq_true, beq_iff_eq, e, COLOR_CHANGE, NEEDLE_SET, COLOR_BREAK, List.mem_cons, List.not_mem_nil, or_false,
    or_assoc]

/-- What a run of `pre` has done about colour changes. -/
structure Lead (o : Settings) (pre : List Stitch) (s : St) : Prop where
  level : Level o s
  count : CountInv s
  bound : s.order ≤ (pre.countP (fun st => decide (Changes st)) : Nat)
  each : EachAt (fun p a => a.low = 5 → ∃ b ∈ p, b.low = 0) s.out
  lead : (∃ b ∈ s.out, b.low = 0) ∨
    ((∀ b ∈ pre, ¬ Sews b) ∧ (s.order = -1 ∨ (s.order = 0 ∧ ∃ b ∈ pre, b.low = 5 ∨ b.low = 9)))

theorem changes_zero {l : List Stitch} (h : changes l = 0) : ∀ a ∈ l, a.low ≠ 5 := by
  intro a ha e
  unfold changes at h
  have := (List.countP_eq_zero.1 h) a ha
  simp [e] at this

theorem Lead.step {cfg : Cfg} {position : Nat} {pre : List Stitch} {s s' : St} {st : Stitch} (hI : BaseInv s)
    (hc : cfg.change = COLOR_CHANGE) (hm : cfg.change = o.changeCommand) (hj : cfg.fullJump = o.fullJump) (hp : PlainCmd st) (h : Lead o pre s)
    (hq : Changes st → (∃ b ∈ pre, b.low = 5 ∨ b.low = 9) → ∃ b ∈ pre, Sews b)
    (hs : step cfg position s st = .ok s') : Lead o (pre ++ [st]) s' := by
  have hr := step_res (cfg := cfg) (s := s) (position := position) st
  have hlev : Level o s' := by
    have hs' := hs
    unfold Emb.step at hs'
    exact (h.level.flags st.cmd).dispatch ⟨hm, .inl hc⟩ hj hp hs'
  have hcount : CountInv s' := chain_lift (fun a b hb hm => micro_count hc hb hm) (step_chain st hI hs).1 hI h.count
  obtain ⟨l, hl⟩ := step_grows hI h.count.1 hs
  have ho := hr.order s' hs
  simp only at ho
  have hb : s'.order ≤ ((pre ++ [st]).countP (fun st => decide (Changes st)) : Nat) := by
    have h1 := h.bound
    rw [List.countP_append]
    rcases ho with e | ⟨hch, e⟩ | ⟨_, _, e⟩
    · push_cast; omega
    · have : List.countP (fun st => decide (Changes st)) [st] = 1 := by
        simp [(changes_iff st).1 hch]
      rw [this]; push_cast; omega
    · push_cast; omega
  refine ⟨hlev, hcount, hb, ?_, ?_⟩
  · rcases h.lead with ⟨b, hbm, hb0⟩ | ⟨hns, hlead⟩
    · intro p a q e h5
      rw [hl] at e
      rcases List.append_eq_append_iff.1 e with ⟨w, e1, e2⟩ | ⟨w, e1, e2⟩
      · exact ⟨b, by rw [e1]; exact List.mem_append_left _ hbm, hb0⟩
      · cases w with
        | nil => exact ⟨b, by rw [List.append_nil] at e1; rw [← e1]; exact hbm, hb0⟩
        | cons x w =>
          rw [List.cons_append] at e2
          injection e2 with e3 e4
          subst e3
          exact h.each p a w e1 h5
    · have hz : changes s'.out = 0 := by
        have hc2 := hcount.2.2
        have hle : s'.order ≤ 0 := by
          rcases hlead with e0 | ⟨e0, hb1⟩
          · rcases ho with e | ⟨_, e⟩ | ⟨_, _, e⟩ <;> omega
          · rcases ho with e | ⟨hch, e⟩ | ⟨_, e1, e⟩
            · omega
            · obtain ⟨b, hbm, hbs⟩ := hq ((changes_iff st).1 hch) hb1
              exact absurd hbs (hns b hbm)
            · omega
        split_ifs at hc2 <;> omega
      intro p a q e h5
      exact absurd h5 (changes_zero hz a (by rw [e]; simp))
  · rcases h.lead with ⟨b, hbm, hb0⟩ | ⟨hns, hlead⟩
    · exact .inl ⟨b, by rw [hl]; exact List.mem_append_left _ hbm, hb0⟩
    · by_cases hsew : Sews st
      · left
        have ht := (hr.sewing s' hs ((sews_iff st).2 hsew)).1
        exact isCut_sewn ((Pass.cut hlev).trans ht)
      · right
        refine ⟨?_, ?_⟩
        · intro b hb
          rcases List.mem_append.1 hb with hb | hb
          · exact hns b hb
          · simp at hb; subst hb; exact hsew
        · rcases hlead with e0 | ⟨e0, b, hbm, hb1⟩
          · rcases ho with e | ⟨hch, e⟩ | ⟨hsw, _⟩
            · left; omega
            · by_cases h59 : st.low = 5 ∨ st.low = 9
              · exact .inr ⟨by omega, st, by simp, h59⟩
              · left
                have hch := (changes_iff st).1 hch
                have h226 : cmdOf st.cmd = COLOR_BREAK := by
                  unfold Changes at hch
                  simp only [List.mem_cons, List.not_mem_nil, or_false] at hch
                  have : st.low = 226 := by omega
                  exact this
                have := hr.breaks s' hs h226 (by show s.order < 0; omega)
                rw [this]; exact e0
            · exact absurd ((sews_iff st).1 hsw) hsew
          · rcases ho with e | ⟨hch, e⟩ | ⟨hsw, _⟩
            · exact .inr ⟨by omega, b, List.mem_append_left _ hbm, hb1⟩
            · obtain ⟨c, hcm, hcs⟩ := hq ((changes_iff st).1 hch) ⟨b, hbm, hb1⟩
              exact absurd hcs (hns c hcm)
            · exact absurd ((sews_iff st).1 hsw) hsew

theorem run_lead {cfg : Cfg} (hc : cfg.change = COLOR_CHANGE) (hm : cfg.change = o.changeCommand) (hj : cfg.fullJump = o.fullJump) :
    ∀ (rest pre : List Stitch) (position : Nat) (s sf : St), source = pre ++ rest → BaseInv s → Lead o pre s →
      (∀ st ∈ source, PlainCmd st) →
      (∀ p a q, source = p ++ a :: q → Changes a → (∃ b ∈ p, b.low = 5 ∨ b.low = 9) → ∃ b ∈ p, Sews b) →
      runFrom cfg position s rest = .ok sf →
      EachAt (fun p a => a.low = 5 → ∃ b ∈ p, b.low = 0) sf.out ∧
        (changes sf.out : Int) ≤ (source.countP (fun st => decide (Changes st)) : Nat) ∧
        ((∃ b ∈ sf.out, b.low = 0) → sf.threads.length = changes sf.out + 1) := by
  have fin : ∀ (s : St) (pre : List Stitch) (v : Int), (∃ rest, source = pre ++ rest) → Lead o pre s →
      v % 256 = 0 → EachAt (fun p a => a.low = 5 → ∃ b ∈ p, b.low = 0) (s.out ++ [⟨s.nx, s.ny, END + v⟩]) ∧
        (changes (s.out ++ [⟨s.nx, s.ny, END + v⟩]) : Int) ≤ (source.countP (fun st => decide (Changes st)) : Nat) ∧
        ((∃ b ∈ s.out ++ [⟨s.nx, s.ny, END + v⟩], b.low = 0) →
          s.threads.length = changes (s.out ++ [⟨s.nx, s.ny, END + v⟩]) + 1) := by
    intro s pre v ⟨rest, e⟩ h hv
    have hl : (⟨s.nx, s.ny, END + v⟩ : Stitch).low = 4 := by
      show (4 + v) % 256 = 4; omega
    rw [eachAt_snoc, changes_snoc, if_neg (by rw [hl]; decide)]
    have h1 := h.bound
    have h2 := h.count.2.2
    refine ⟨⟨h.each, fun e => absurd (hl.symm.trans e) (by decide)⟩, ?_, ?_⟩
    · rw [e, List.countP_append]
      push_cast
      split_ifs at h2 <;> omega
    · rintro ⟨b, hb, hb0⟩
      have hb : b ∈ s.out := by
        rcases List.mem_append.1 hb with hb | hb
        · exact hb
        · simp at hb; subst hb; exact absurd (hl.symm.trans hb0) (by decide)
      have h3 := Pass.sewn h.level ⟨b, hb, hb0⟩
      have h4 := h.count.2.1
      rw [if_neg (by omega)] at h2
      omega
  intro rest
  induction rest with
  | nil =>
    intro pre position s sf e _ h _ _ hr
    simp only [runFrom] at hr
    injection hr with hr
    subst hr
    exact fin s pre s.high ⟨[], e⟩ h h.count.1
  | cons st rest ih =>
    intro pre position s sf e hI h hp hq hr
    unfold runFrom at hr
    by_cases hend : cmdOf st.cmd = END
    · rw [if_pos hend] at hr
      injection hr with hr
      subst hr
      exact fin s pre (flagsOf st.cmd) ⟨_, e⟩ h (flagsOf_low _)
    · rw [if_neg hend] at hr
      cases hs : step cfg position s st with
      | error e' => rw [hs] at hr; cases hr
      | ok s' =>
        rw [hs] at hr
        have h' := h.step hI hc hm hj (hp st (by rw [e]; simp)) (hq pre st rest e) hs
        exact ih (pre ++ [st]) (position + 1) s' sf (by simpa using e) (chain_base (step_chain st hI hs).1 hI) h' hp hq hr

/-- A source for which normalizing is idempotent: nothing in it selects a thread or needle by number
(fields of the change commands), reorders changes (0x10), switches lock stitches on (0xD1, 0xD2), changes a length limit
(0xD5, 0xD6), switches explicit trims off (0xD8), stops the splitting of long stitches (0xF0) or switches sequins on (0xF5);
at most one change command comes before anything is sewn; and there are fewer than 254 changes. -/
structure PlainSource (source : List Stitch) : Prop where
  low : ∀ st ∈ source, st.low ∉ [0x10, 0xD1, 0xD2, 0xD5, 0xD6, 0xD8, 0xF0, 0xF5]
  thread : ∀ st ∈ source, Changes st → (decodeCommand st.cmd).2.1 = none ∧ (decodeCommand st.cmd).2.2.1 = none
  lead : ∀ p a q, source = p ++ a :: q → Changes a → (∃ b ∈ p, b.low = 5 ∨ b.low = 9) → ∃ b ∈ p, Sews b
  few : source.countP (fun st => decide (Changes st)) < 254

/-- No transform and no lock stitches are asked for, and either there are no length limits or both are the same and long
stitches are split. -/
structure CoreSettings (o : Settings) : Prop where
  sequins : o.ValidSequins
  translate : o.translate = none
  scale : o.scale = none
  rotate : o.rotate = none
  tieOn : o.tieOnCode ≠ 0xD1
  tieOff : o.tieOffCode ≠ 0xD2
  limits : (o.maxStitch = none ∧ o.maxJump = none) ∨
    ∃ M : ℚ, 0 < M ∧ o.maxStitch = some M ∧ o.maxJump = some M ∧ (o.longStitch = 0xF1 ∨ o.longStitch = 0xF2)

/-- Settings for which normalizing is idempotent: such ones, and colour changes are COLOR_CHANGE. -/
structure PlainSettings (o : Settings) : Prop extends CoreSettings o where
  change : o.changeCommand = 5
  needles : 1 ≤ o.needleCount

theorem lead_init (hs : PlainSettings o) (lm : Libm) (threads : List Thread) : Lead o [] (initSt o lm threads) :=
  ⟨Level.init lm threads hs.sequins hs.tieOn hs.tieOff, init_count o lm threads hs.change, by simp [initSt], eachAt_nil _,
    .inr ⟨by simp, .inl rfl⟩⟩

/-- The result of normalizing is ready for being copied. -/
theorem encode_ready (hs : CoreSettings o) (hlm : lm.Sound) (hm : o.changeCommand = 5 ∨ o.changeCommand = 9)
    (hlow : ∀ st ∈ source, st.low ∉ [0xD1, 0xD2, 0xD5, 0xD6, 0xD8, 0xF0, 0xF5]) (h : encode o lm threads source = .ok (out, ths))
    (hround : o.round = true → ∀ a ∈ out, (∃ i : Int, a.x = i) ∧ ∃ j : Int, a.y = j) :
    ∃ l e, out = l ++ [e] ∧ EachAt (Ready o) l ∧ (e.x, e.y) = lastPos l ∧ e.cmd = 4 + flagsOf e.cmd ∧ e.low = 4 ∧ ∀ a ∈ l, a.low ≠ 4 := by
  have hlow : ∀ st ∈ source, st.low ≠ 0xD1 ∧ st.low ≠ 0xD2 ∧ st.low ≠ 0xD5 ∧ st.low ≠ 0xD6 ∧ st.low ≠ 0xD8 ∧
      st.low ≠ 0xF0 ∧ st.low ≠ 0xF5 := by
    intro st hst
    have := hlow st hst
    simpa using this
  have hplain : ∀ st ∈ source, PlainCmd st := fun st hst => by
    obtain ⟨a, b, _, _, c, _⟩ := hlow st hst
    exact ⟨c, a, b⟩
  obtain ⟨l, e, rfl, hfix, hepos, hecmd⟩ := encode_fixed hs.sequins hm hs.tieOn hs.tieOff hplain h
  have hlowe : e.low = 4 := by
    have : cmdOf (4 + flagsOf e.cmd) = 4 := by unfold cmdOf flagsOf; omega
    rw [← hecmd] at this; exact this
  have hmem : ∀ a ∈ l, a.low ≠ 4 := by
    obtain ⟨l', e', h1, _, h3⟩ := C20_single_end hs.sequins h
    obtain ⟨rfl, _⟩ := List.append_inj' h1 rfl
    exact h3
  refine ⟨l, e, rfl, ?_, hepos, hecmd, hlowe, hmem⟩
  intro pre a post e1
  have e2 : l ++ [e] = pre ++ a :: (post ++ [e]) := by rw [e1]; simp
  have hmema : a ∈ l ++ [e] := by rw [e2]; simp
  have hkind := C21_low_level hs.sequins h a hmema
  have h4 := hmem a (by rw [e1]; simp)
  refine ⟨hfix pre a post e1, ?_, C26_at_needle hs.sequins h pre a _ e2, ?_, ?_, ?_, ?_, ?_, ?_⟩
  · simp only [List.mem_cons, List.not_mem_nil, or_false] at hkind ⊢
    omega
  · intro m hm
    rcases hs.limits with ⟨l1, l2⟩ | ⟨M, hM, l1, l2, l3⟩
    · rw [l1, l2] at hm; rcases hm with hm | hm <;> cases hm
    · have hmM : m = M := by
        rw [l1, l2] at hm
        rcases hm with hm | hm <;> (injection hm with hm; exact hm.symm)
      rw [hmM]
      exact C22_step_length hM hlm hs.sequins l1 l2 l3
        (fun st hst => ⟨(hlow st hst).2.2.1, (hlow st hst).2.2.2.1, (hlow st hst).2.2.2.2.2.1⟩) h pre a _ e2
  · intro h12
    have := (C25_sequin_mode hs.sequins h pre a _ e2).1 h12
    unfold sequinOn; rw [this]; rfl
  · intro h7
    have := (C25_sequin_mode hs.sequins h pre a _ e2).2 h7
    unfold sequinOn; rw [this]; rfl
  · intro h67
    by_contra hne
    have := C21_no_sequins hs.sequins hne (fun st hst => (hlow st hst).2.2.2.2.2.2) h a hmema
    omega
  · intro h11
    by_contra hne
    have := C21_no_speeds hs.sequins (by simpa using hne) h a hmema
    omega
  · exact fun hr => hround hr a hmema

theorem copied_init (hs : CoreSettings o) {R : List Stitch → Int → Prop} (hR : R [] (-1)) (lm : Libm) (threads : List Thread) :
    Copied o R [] (initSt o lm threads) := by
  refine ⟨rfl, rfl, rfl, rfl, rfl, ?_, rfl, rfl, rfl, rfl, hs.tieOn, hs.tieOff, hR⟩
  show o.matrix lm = _
  unfold Settings.matrix
  simp only [hs.translate, hs.scale, hs.rotate]

/-- **C33**: normalizing a normalized pattern with the same settings gives the same commands again, whatever its threads; and
if anything is sewn, a pattern with as many threads as the first pass left keeps them all. (Where the first pass had to
invent a thread, `threads2` holds the invented one.) With `round` the result of the first pass must lie on the grid: pieces
of a split stitch need not. Partial: the conditions `PlainSettings` and `PlainSource`; the theorems below show that each of
the main ones is needed. -/
theorem C33_twice_partial (hs : PlainSettings o) (hlm : lm.Sound) (hq : PlainSource source)
    (h : encode o lm threads source = .ok (out, ths))
    (hround : o.round = true → ∀ a ∈ out, (∃ i : Int, a.x = i) ∧ ∃ j : Int, a.y = j)
    (threads2 : List Thread) : ∃ ths2, encode o lm threads2 out = .ok (out, ths2) ∧
      ((∃ a ∈ out, a.low = 0) → threads2.length = ths.length → ths2 = threads2.map some) := by
  have hlow : ∀ st ∈ source, st.low ≠ 0x10 ∧ st.low ≠ 0xD1 ∧ st.low ≠ 0xD2 ∧ st.low ≠ 0xD5 ∧ st.low ≠ 0xD6 ∧ st.low ≠ 0xD8 ∧
      st.low ≠ 0xF0 ∧ st.low ≠ 0xF5 := by
    intro st hst
    have := hq.low st hst
    simpa using this
  have hplain : ∀ st ∈ source, PlainCmd st := fun st hst => by
    obtain ⟨_, a, b, _, _, c, _⟩ := hlow st hst
    exact ⟨c, a, b⟩
  obtain ⟨hlead, hfew, hlen⟩ : EachAt (fun p a => a.low = 5 → ∃ b ∈ p, b.low = 0) out ∧
      (changes out : Int) ≤ (source.countP (fun st => decide (Changes st)) : Nat) ∧
      ((∃ b ∈ out, b.low = 0) → ths.length = changes out + 1) := by
    obtain ⟨plan, sf, _, hr, rfl, rfl⟩ := encode_state h
    exact run_lead (o := o) (cfg := mkCfg o lm source plan) hs.change rfl rfl source [] 0 _ sf rfl
      (init_base o lm threads hs.sequins) (lead_init hs lm threads) hplain hq.lead hr
  have hfew' := hq.few
  have h16 : ∀ st ∈ source, st.low ≠ 16 := fun st hst => (hlow st hst).1
  have hcl : ∀ st ∈ source, ChangeLike st → Changes st := by
    intro st hst hc
    have := h16 st hst
    unfold ChangeLike at hc
    unfold Changes
    simp only [List.mem_cons, List.not_mem_nil, or_false] at hc ⊢
    omega
  have hwords : ∀ (k : Nat) w, (changeWords out)[k]? = some w → w.cmd = plainWord o.needleCount (k + 1) := by
    intro k w hw
    obtain ⟨plan, hp, _, hwd⟩ := encode_changes hs.sequins hs.change h
    obtain ⟨ch, hd, e⟩ := hwd k w hw
    have hd : dget ((k + 1 : Nat) : Int) plan = some ch := by push_cast; exact hd
    have h1 := (plan_thread hp h16 (fun st hst hc => (hq.thread st hst (hcl st hst hc)).1) hd).1
    have h2 := plan_needle hp hs.needles h16 (fun st hst hc => (hq.thread st hst (hcl st hst hc)).2) hd
    rw [e, h1, h2]
    unfold plainWord
    push_cast
    rfl
  obtain ⟨l, e, rfl, hready, hepos, hecmd, hlowe, hmem⟩ := encode_ready hs.toCoreSettings hlm (.inl hs.change)
    (fun st hst => by have := hlow st hst; simp; omega) h hround
  have hchl : changes (l ++ [e]) = changes l := by rw [changes_snoc, if_neg (by omega)]; simp
  have hcw : changeWords (l ++ [e]) = changeWords l := changeWords_append_no (by simp [hlowe])
  rw [hcw] at hwords
  have hword : EachAt (fun pre a => a.low = 5 → a.cmd = plainWord o.needleCount (changes pre + 1) ∧ ∃ b ∈ pre, b.low = 0) l := by
    intro pre a post e1 h5
    refine ⟨?_, hlead pre a (post ++ [e]) (by rw [e1]; simp) h5⟩
    have hidx : (changeWords l)[changes pre]? = some a := by
      rw [e1]
      have : changeWords (pre ++ a :: post) = changeWords pre ++ changeWords (a :: post) := by
        unfold changeWords; rw [List.filter_append]
      rw [this, changeWords_cons, if_pos h5, ← changes_length, List.getElem?_append_right (le_refl _)]
      simp
    exact hwords _ a hidx
  have hquiet : ∀ a ∈ l ++ [e], Quiet a := by
    intro a ha
    have hkind := C21_low_level hs.sequins h a ha
    have hkinds := C21_kinds hs.sequins h a ha
    simp only [List.mem_cons, List.not_mem_nil, or_false] at hkind
    refine ⟨?_, by omega, by omega⟩
    intro h9
    have := hkinds.2.1 h9
    rw [hs.change] at this
    exact absurd this (by decide)
  have hplan : buildPlan o threads2 (l ++ [e]) = .ok (plainPlan threads2 o.needleCount (changes l + 1)) := by
    rw [← hchl]
    exact buildPlan_plain hs.change hs.needles hquiet hlead (by rw [hcw]; exact hwords) (by omega)
  obtain ⟨sf, hrun, hout⟩ := run_copy (o := o) (cfg := mkCfg o lm (l ++ [e]) (plainPlan threads2 o.needleCount (changes l + 1)))
    rfl rfl rfl (follows_colors (o := o) (threads := threads2) hs.change rfl (fun a ha => (hquiet a (List.mem_append_left _ ha)).1) hword)
    hready hepos hecmd l [] 0 _ rfl (copied_init hs.toCoreSettings ⟨rfl, .inl rfl⟩ lm threads2)
  have hres : encode o lm threads2 (l ++ [e]) = .ok (l ++ [e], sf.threads) := by
    unfold encode
    rw [hplan]
    simp only
    rw [hrun]
    simp only
    rw [hout]
  refine ⟨_, hres, ?_⟩
  intro hsewn ht
  have hlen1 := hlen hsewn
  have hlen2 : sf.threads.length = changes (l ++ [e]) + 1 := by
    refine (C27_thread_count hs.sequins hs.change hres).1 ?_
    obtain ⟨b, hb, hb0⟩ := hsewn
    have hb : b ∈ l := by
      rcases List.mem_append.1 hb with hb | hb
      · exact hb
      · simp at hb; subst hb; omega
    obtain ⟨p, q, rfl⟩ := List.append_of_mem hb
    exact ⟨p, b, q ++ [e], by simp, fun c hc => hmem c (List.mem_append_left _ hc), by simp [hb0]⟩
  obtain ⟨plan, hp, hth, _⟩ := encode_changes hs.sequins hs.change hres
  rw [hplan] at hp
  injection hp with hp
  subst hp
  apply List.ext_getElem?
  intro k
  by_cases hk : k < sf.threads.length
  · have hg : sf.threads[k]? = some sf.threads[k] := List.getElem?_eq_getElem hk
    obtain ⟨ch, hd, e1⟩ := hth k _ hg
    rw [dget_plain _ (by omega)] at hd
    injection hd with hd
    have hk2 : k < threads2.length := by omega
    rw [hg, e1, ← hd, List.getElem?_map, List.getElem?_eq_getElem hk2]
    show some (threadOrFiller threads2 (k : Int)) = _
    rw [threadOrFiller_nat, List.getElem?_eq_getElem hk2]; rfl
  · rw [List.getElem?_eq_none (by omega), List.getElem?_eq_none (by rw [List.length_map]; omega)]

/-! ## What goes wrong otherwise -/

/-- Normalizing `source` twice gives other commands than normalizing it once. -/
def Differs (o : Settings) (source : List Stitch) : Prop :=
  ∃ out ths out2 ths2, encode o demoLm [] source = .ok (out, ths) ∧ encode o demoLm [] out = .ok (out2, ths2) ∧ out2 ≠ out

/-- Changes written as STOP: the second pass keeps the stops and adds one more. -/
theorem C33_not_stops : Differs { threadChange := STOP } [⟨0, 0, 0⟩, ⟨5, 0, 0⟩] :=
  ⟨[⟨0, 0, 131331⟩, ⟨0, 0, 0⟩, ⟨5, 0, 0⟩, ⟨5, 0, 4⟩], [none], [⟨0, 0, 259⟩, ⟨0, 0, 131331⟩, ⟨0, 0, 0⟩, ⟨5, 0, 0⟩, ⟨5, 0, 4⟩],
    [none], by decide +kernel, by decide +kernel, by decide +kernel⟩

/-- Lock stitches are added again. -/
theorem C33_not_ties : Differs { tieOn := .bool true } [⟨0, 0, 0⟩, ⟨5, 0, 0⟩] :=
  ⟨[⟨0, 0, 0⟩, ⟨33/20, 0, 0⟩, ⟨33/10, 0, 0⟩, ⟨33/20, 0, 0⟩, ⟨0, 0, 0⟩, ⟨5, 0, 0⟩, ⟨5, 0, 4⟩], [none],
    [⟨0, 0, 0⟩, ⟨1089/2000, 0, 0⟩, ⟨1089/1000, 0, 0⟩, ⟨1089/2000, 0, 0⟩, ⟨0, 0, 0⟩, ⟨33/20, 0, 0⟩, ⟨33/10, 0, 0⟩,
      ⟨33/20, 0, 0⟩, ⟨0, 0, 0⟩, ⟨5, 0, 0⟩, ⟨5, 0, 4⟩], [none], by decide +kernel, by decide +kernel, by decide +kernel⟩

/-- Of two changes before the first stitch, the first pass writes one and the second none. -/
theorem C33_not_leading : Differs {} [⟨0, 0, 5⟩, ⟨0, 0, 5⟩, ⟨5, 0, 0⟩] :=
  ⟨[⟨0, 0, 197125⟩, ⟨5, 0, 0⟩, ⟨5, 0, 4⟩], [none, none], [⟨5, 0, 0⟩, ⟨5, 0, 4⟩], [none],
    by decide +kernel, by decide +kernel, by decide +kernel⟩

/-- The pieces of a split stitch are rounded only by the second pass. -/
theorem C33_not_rounding : Differs { round := true, maxStitch := some 10, maxJump := some 10 } [⟨0, 0, 0⟩, ⟨15, 0, 0⟩] :=
  ⟨[⟨0, 0, 0⟩, ⟨15/2, 0, 1⟩, ⟨15, 0, 0⟩, ⟨15, 0, 4⟩], [none], [⟨0, 0, 0⟩, ⟨8, 0, 1⟩, ⟨15, 0, 0⟩, ⟨15, 0, 4⟩], [none],
    by decide +kernel, by decide +kernel, by decide +kernel⟩

/-- A change the source exempted from trimming is trimmed by the second pass. -/
theorem C33_not_exempted : Differs { explicitTrim := true } [⟨0, 0, 0⟩, ⟨0, 0, 0xD8⟩, ⟨0, 0, 5⟩, ⟨0, 0, 0⟩] :=
  ⟨[⟨0, 0, 0⟩, ⟨0, 0, 197125⟩, ⟨0, 0, 0⟩, ⟨0, 0, 4⟩], [none, none],
    [⟨0, 0, 0⟩, ⟨0, 0, 514⟩, ⟨0, 0, 197125⟩, ⟨0, 0, 0⟩, ⟨0, 0, 4⟩], [none, none],
    by decide +kernel, by decide +kernel, by decide +kernel⟩

/-- Jumps made to split a long stitch (limit 20) are split again (limit 10 for jumps). -/
theorem C33_not_unequal_limits : Differs { maxStitch := some 20, maxJump := some 10 } [⟨0, 0, 0⟩, ⟨35, 0, 0⟩] :=
  ⟨[⟨0, 0, 0⟩, ⟨35/2, 0, 1⟩, ⟨35, 0, 0⟩, ⟨35, 0, 4⟩], [none],
    [⟨0, 0, 0⟩, ⟨35/4, 0, 1⟩, ⟨35/2, 0, 1⟩, ⟨35, 0, 0⟩, ⟨35, 0, 4⟩], [none],
    by decide +kernel, by decide +kernel, by decide +kernel⟩

/-! The hypotheses of `C33_twice_partial` are met by the demonstration pattern. -/

example : PlainSettings demoSettings :=
  { sequins := fun c h => by simp [demoSettings] at h
    change := by decide
    needles := by decide
    translate := rfl
    scale := rfl
    rotate := rfl
    tieOn := by decide
    tieOff := by decide
    limits := .inr ⟨10, by norm_num, rfl, rfl, by decide⟩ }

theorem demoSource_plain : PlainSource demoSource := by
  refine ⟨by decide +kernel, by decide +kernel, ?_, by decide +kernel⟩
  intro p a q e hc hb
  have key : ∀ i : Fin 12, Changes (demoSource[i.val]'i.isLt) →
      (∃ b ∈ demoSource.take i.val, b.low = 5 ∨ b.low = 9) → ∃ b ∈ demoSource.take i.val, Sews b := by decide +kernel
  have hi : p.length < 12 := by
    have := congrArg List.length e
    simp [demoSource] at this
    omega
  have hp : demoSource.take p.length = p := by rw [e]; simp
  have ha : demoSource[p.length]'hi = a := by simp only [e]; simp
  have := key ⟨p.length, hi⟩
  simp only [hp, ha] at this
  exact this hc hb

example : ∃ ths2, encode demoSettings demoLm [] demoOut = .ok (demoOut, ths2) := ⟨[none, none], by decide +kernel⟩

end Emb
