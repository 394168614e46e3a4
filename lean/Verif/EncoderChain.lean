import Verif.EncoderLemmas

/-!
# Every encoder step is a chain of elementary actions
-/

namespace Emb

variable {cfg : Cfg} {c : Int} {G : Prop} {s s' : St} {x y : ℚ} {position : Nat}

/-- Sequin discipline plus a sane order index: what the chain construction itself relies on. -/
def BaseInv (s : St) : Prop := SeqInv s ∧ -1 ≤ s.order

theorem micro_base (h : Micro cfg c G s s') (hI : BaseInv s) : BaseInv s' := by
  obtain ⟨⟨h1, h2⟩, h3⟩ := hI
  cases h with
  | quiet => exact ⟨⟨h1, h2⟩, h3⟩
  | high => exact ⟨⟨h1, h2⟩, h3⟩
  | maxStitch => exact ⟨⟨h1, h2⟩, h3⟩
  | maxJump => exact ⟨⟨h1, h2⟩, h3⟩
  | long => exact ⟨⟨h1, h2⟩, h3⟩
  | sequin v hv h =>
    refine ⟨⟨?_, hv⟩, h3⟩
    intro hm
    rcases h with h | h
    · exact h.1
    · simp only at hm; rw [h.2] at hm; cases hm
  | toggle h => exact ⟨⟨fun _ => h, h2⟩, h3⟩
  | stitch => exact ⟨⟨h1, h2⟩, h3⟩
  | jump => exact ⟨⟨h1, h2⟩, h3⟩
  | eject => exact ⟨⟨h1, h2⟩, h3⟩
  | untrim => exact ⟨⟨h1, h2⟩, h3⟩
  | trim => exact ⟨⟨h1, h2⟩, h3⟩
  | stop => exact ⟨⟨h1, h2⟩, h3⟩
  | speed => exact ⟨⟨h1, h2⟩, h3⟩
  | lock => exact ⟨⟨h1, h2⟩, h3⟩
  | change s' h =>
    obtain ⟨_, _, _, a, _, _, _, _, b, _, d, _⟩ := nextChange_fields h
    refine ⟨⟨by rw [a, d]; exact h1, by rw [a]; exact h2⟩, by rw [b]; omega⟩

theorem chain_base (h : Chain cfg c G s s') (hI : BaseInv s) : BaseInv s' := by
  induction h with
  | refl => exact hI
  | tail _ h ih => exact micro_base h ih

/-- Lift an invariant from actions to chains, with `BaseInv` available. -/
theorem chain_lift {P : St → Prop} (hP : ∀ a b, BaseInv a → Micro cfg c G a b → P a → P b)
    (h : Chain cfg c G s s') (hI : BaseInv s) (hs : P s) : P s' := by
  have : BaseInv s' ∧ P s' := by
    induction h with
    | refl => exact ⟨hI, hs⟩
    | tail _ h ih => exact ⟨micro_base h ih.1, hP _ _ ih.1 h ih.2⟩
  exact this.2

theorem NearL.of_needle {limit : Option ℚ} (h : NearL G limit s x y) (h1 : s'.nx = s.nx) (h2 : s'.ny = s.ny) :
    NearL G limit s' x y := by
  intro m hm h0; rw [h1, h2]; exact h m hm h0

/-! ## Moves -/

theorem jumpAt_chain (hI : SeqInv s) (hn : NearL G s.maxJump s x y) :
    Chain cfg c G s (jumpAt s x y) ∧ Same s (jumpAt s x y) ∧ (jumpAt s x y).sequinMode = false ∧
      (jumpAt s x y).nx = x ∧ (jumpAt s x y).ny = y := by
  unfold jumpAt
  obtain ⟨a, b, d, e, f⟩ := ensure_off (cfg := cfg) (c := c) (G := G) hI
  simp only
  generalize (if s.sequinMode = true then toggleSequins s else s) = s1 at *
  refine ⟨a.tail (.jump s1 x y (Or.inr (Or.inl ?_)) b), d.trans (moveTo_same _ _ _ _), b, rfl, rfl⟩
  rw [d.maxJump]; exact hn.of_needle e f

theorem jumpTo_chain (hI : SeqInv s) (hG : G → IsInt s.nx ∧ IsInt s.ny) (h : jumpTo s x y = .ok s') :
    Chain cfg c G s s' ∧ Same s s' ∧ s'.nx = x ∧ s'.ny = y := by
  unfold jumpTo at h
  obtain ⟨s1, h1, h2⟩ := bind_ok.1 h
  rw [pure_ok] at h2; subst h2
  obtain ⟨a, b, d, e, _⟩ := gap_chain (cfg := cfg) (c := c) hI (.inl rfl) (.inr rfl) hG h1
  have hI1 := hI.of_same b e
  obtain ⟨a', b', _, d', e'⟩ := jumpAt_chain (cfg := cfg) (c := c) (x := x) (y := y) hI1 (by rw [b.maxJump]; exact d)
  exact ⟨a.trans a', b.trans b', d', e'⟩

theorem jumpToWithin_chain (hI : SeqInv s) (hG : G → IsInt s.nx ∧ IsInt s.ny) (hT : G → IsInt x ∧ IsInt y)
    (h : jumpToWithin cfg s x y = .ok s') :
    Chain cfg c G s s' ∧ Same s s' ∧ NearL G s'.maxJump s' x y := by
  unfold jumpToWithin at h
  obtain ⟨s1, h1, h2⟩ := bind_ok.1 h
  rw [pure_ok] at h2
  obtain ⟨a, b, d, e, _⟩ := gap_chain (cfg := cfg) (c := c) hI (.inl rfl) (.inr rfl) hG h1
  have hI1 := hI.of_same b e
  by_cases hc : cfg.fullJump = true ∧ (s1.nx ≠ x ∨ s1.ny ≠ y)
  · rw [if_pos hc] at h2; subst h2
    obtain ⟨a', b', _, d', e'⟩ := jumpAt_chain (cfg := cfg) (c := c) (x := x) (y := y) hI1 (by rw [b.maxJump]; exact d)
    refine ⟨a.trans a', b.trans b', ?_⟩
    intro m hm h0
    rw [d', e']
    exact ⟨⟨by simpa using h0, fun _ _ g => (hT g).1⟩, ⟨by simpa using h0, fun _ _ g => (hT g).2⟩⟩
  · rw [if_neg hc] at h2; subst h2
    exact ⟨a, b, by rw [b.maxJump]; exact d⟩

theorem sewTo_chain (hI : SeqInv s) (hG : G → IsInt s.nx ∧ IsInt s.ny) (h : sewTo s x y = .ok s') :
    Chain cfg c G s s' ∧ Same s s' ∧ s'.nx = x ∧ s'.ny = y := by
  unfold sewTo at h
  obtain ⟨s1, h1, h2⟩ := bind_ok.1 h
  rw [pure_ok] at h2; subst h2
  obtain ⟨a, b, d, e, _⟩ := gap_chain (cfg := cfg) (c := c) hI (.inr rfl) (.inl rfl) hG h1
  exact ⟨a.tail (.stitch s1 x y (.inl (by rw [b.maxStitch]; exact d))), b.trans (moveTo_same _ _ _ _), rfl, rfl⟩

theorem needleTo_chain (hI : SeqInv s) (hG : G → IsInt s.nx ∧ IsInt s.ny) (h : needleTo s x y = .ok s') :
    Chain cfg c G s s' ∧ Same s s' ∧ s'.nx = x ∧ s'.ny = y := by
  unfold needleTo at h
  obtain ⟨s1, h1, h2⟩ := bind_ok.1 h
  rw [pure_ok] at h2; subst h2
  obtain ⟨a, b, d, e, _⟩ := gap_chain (cfg := cfg) (c := c) hI (.inl rfl) (.inl rfl) hG h1
  exact ⟨a.tail (.stitch s1 x y (.inl (by rw [b.maxStitch]; exact d))), b.trans (moveTo_same _ _ _ _), rfl, rfl⟩

theorem stitchWithContingency_chain (hI : SeqInv s) (hG : G → IsInt s.nx ∧ IsInt s.ny)
    (h : stitchWithContingency s x y = .ok s') :
    Chain cfg c G s s' ∧ Same s s' ∧ s'.nx = x ∧ s'.ny = y := by
  unfold stitchWithContingency at h
  split_ifs at h with h1 h2
  · exact sewTo_chain hI hG h
  · exact needleTo_chain hI hG h
  · injection h with h; subst h
    exact ⟨.single (.stitch s x y (.inr (.inr ⟨h1, h2⟩))), moveTo_same _ _ _ _, rfl, rfl⟩

theorem sequinAt_chain (hce : c = SEQUIN_EJECT) (hI : SeqInv s) (hG : G → IsInt s.nx ∧ IsInt s.ny)
    (hu : s.sequinC = CONTINGENCY_SEQUIN_UTILIZE → s.sequinMode = true) (h : sequinAt s x y = .ok s') :
    Chain cfg c G s s' ∧ ((s'.nx = s.nx ∧ s'.ny = s.ny) ∨ (s'.nx = x ∧ s'.ny = y)) := by
  unfold sequinAt at h
  simp only at h
  by_cases hr : s.sequinC = CONTINGENCY_SEQUIN_REMOVE
  · rw [if_pos hr] at h; injection h with h; subst h; exact ⟨.refl, .inl ⟨rfl, rfl⟩⟩
  · rw [if_neg hr] at h
    obtain ⟨s1, h1, h2⟩ := bind_ok.1 h
    rw [pure_ok] at h2
    obtain ⟨a, b, d, _, e⟩ := gap_chain (cfg := cfg) (c := c) hI (.inr rfl) (.inl rfl) hG h1
    have hm := e rfl
    have near : Near G s1 x y := .inl (by rw [b.maxStitch]; exact d)
    have hmode : s.sequinC ≠ CONTINGENCY_SEQUIN_UTILIZE → s1.sequinMode = false := by
      intro hne
      rw [hm]
      cases hmm : s.sequinMode with
      | false => rfl
      | true => exact absurd (hI.1 hmm) hne
    rcases hI.2 with hv | hv | hv | hv
    · rw [if_pos hv] at h2
      subst h2
      exact ⟨a.tail (.eject s1 x y near (by rw [hm]; exact hu hv) hce), .inr ⟨rfl, rfl⟩⟩
    · have hne : s.sequinC ≠ CONTINGENCY_SEQUIN_UTILIZE := by
        rw [hv]; decide
      rw [if_neg hne, if_pos hv] at h2
      subst h2
      exact ⟨a.tail (.jump s1 x y near (hmode hne)), .inr ⟨rfl, rfl⟩⟩
    · have hne : s.sequinC ≠ CONTINGENCY_SEQUIN_UTILIZE := by
        rw [hv]; decide
      have hne2 : s.sequinC ≠ CONTINGENCY_SEQUIN_JUMP := by
        rw [hv]; decide
      rw [if_neg hne, if_neg hne2, if_pos hv] at h2
      subst h2
      exact ⟨a.tail (.stitch s1 x y near), .inr ⟨rfl, rfl⟩⟩
    · exact absurd hv hr

/-! ## Locks, trims and changes -/

/-- A lock changes nothing but the output. -/
theorem lockTowards_chain (b : Stitch) :
    Chain cfg c G s (lockTowards cfg s b) ∧ ∃ o, lockTowards cfg s b = { s with out := o } := by
  unfold lockTowards
  simp only
  split_ifs
  · exact ⟨.single (.lock s _ _), _, rfl⟩
  · exact ⟨.refl, s.out, rfl⟩

theorem tieOff_chain : Chain cfg c G s (tieOff cfg position s) ∧ ∃ o, tieOff cfg position s = { s with out := o } := by
  unfold tieOff
  split_ifs
  · split
    · exact lockTowards_chain _
    · exact ⟨.refl, s.out, rfl⟩
  · exact ⟨.refl, s.out, rfl⟩

theorem tieOn_chain : Chain cfg c G s (tieOn cfg position s) ∧ ∃ o, tieOn cfg position s = { s with out := o } := by
  unfold tieOn
  split_ifs
  · split
    · exact lockTowards_chain _
    · exact ⟨.refl, s.out, rfl⟩
  · exact ⟨.refl, s.out, rfl⟩

theorem trimHere_chain (hI : SeqInv s) (ht : s.trimmed = false) :
    Chain cfg c G s (trimHere s) ∧ (trimHere s).nx = s.nx ∧ (trimHere s).ny = s.ny := by
  unfold trimHere
  obtain ⟨a, b, d, e, f⟩ := ensure_off (cfg := cfg) (c := c) (G := G) hI
  simp only
  generalize (if s.sequinMode = true then toggleSequins s else s) = s1 at *
  exact ⟨a.tail (.trim s1 (by rw [d.trimmed]; exact ht) b), e, f⟩

theorem tieOffTrimIfExplicit_chain (hI : SeqInv s) :
    Chain cfg c G s (tieOffTrimIfExplicit cfg position s) ∧ (tieOffTrimIfExplicit cfg position s).nx = s.nx ∧
      (tieOffTrimIfExplicit cfg position s).ny = s.ny := by
  unfold tieOffTrimIfExplicit
  split_ifs with ht
  · exact ⟨.refl, rfl, rfl⟩
  · obtain ⟨a, o, ho⟩ := tieOff_chain (cfg := cfg) (c := c) (G := G) (s := s) (position := position)
    simp only
    rw [ho] at a ⊢
    have ht' : s.trimmed = false := by simpa using ht
    by_cases he : s.explicitTrim = true
    · rw [if_pos he]
      obtain ⟨b, d, e⟩ := trimHere_chain (cfg := cfg) (c := c) (G := G) (s := { s with out := o }) hI ht'
      exact ⟨a.trans b, d, e⟩
    · rw [if_neg he]; exact ⟨a, rfl, rfl⟩

theorem tieOffAndTrimIfNeeded_chain (hI : SeqInv s) :
    Chain cfg c G s (tieOffAndTrimIfNeeded cfg position s) ∧ (tieOffAndTrimIfNeeded cfg position s).nx = s.nx ∧
      (tieOffAndTrimIfNeeded cfg position s).ny = s.ny := by
  unfold tieOffAndTrimIfNeeded
  split_ifs with ht
  · exact ⟨.refl, rfl, rfl⟩
  · obtain ⟨a, o, ho⟩ := tieOff_chain (cfg := cfg) (c := c) (G := G) (s := s) (position := position)
    rw [ho] at a ⊢
    have ht' : s.trimmed = false := by simpa using ht
    obtain ⟨b, d, e⟩ := trimHere_chain (cfg := cfg) (c := c) (G := G) (s := { s with out := o }) hI ht'
    exact ⟨a.trans b, d, e⟩

/-- A change followed by `state_trimmed = True` is just the change. -/
theorem nextChange_trimmed (h : nextChange cfg s = .ok s') : { s' with trimmed := true } = s' := by
  have := (nextChange_fields h).2.2.2.2.2.2.2.2.2.1
  cases s'; simp_all

theorem colorChange_chain (hI : SeqInv s) (h : colorChange cfg position s = .ok s') :
    Chain cfg c G s s' ∧ s'.nx = s.nx ∧ s'.ny = s.ny := by
  unfold colorChange at h
  obtain ⟨s1, h1, h2⟩ := bind_ok.1 h
  rw [pure_ok, nextChange_trimmed h1] at h2; subst h2
  obtain ⟨a, b, d⟩ := tieOffTrimIfExplicit_chain (cfg := cfg) (c := c) (G := G) (position := position) hI
  have f := nextChange_fields h1
  exact ⟨a.tail (.change _ _ h1), by rw [f.2.2.2.2.2.2.2.2.2.2.2.2.1, b], by rw [f.2.2.2.2.2.2.2.2.2.2.2.2.2.1, d]⟩

theorem colorBreak_chain (hI : SeqInv s) (h : colorBreak cfg position s = .ok s') :
    Chain cfg c G s s' ∧ s'.nx = s.nx ∧ s'.ny = s.ny := by
  unfold colorBreak at h
  split_ifs at h with h0 hl
  · injection h with h; subst h; exact ⟨.refl, rfl, rfl⟩
  · exact colorChange_chain (position := position) hI h
  · injection h with h; subst h
    exact tieOffTrimIfExplicit_chain hI

/-! ## The first strike after a trim -/

/-- Set `state_trimmed`. -/
def St.setTrim (b : Bool) (s : St) : St := { s with trimmed := b }

theorem toggleSequins_setTrim (b : Bool) (s : St) : toggleSequins (s.setTrim b) = (toggleSequins s).setTrim b := by
  unfold toggleSequins St.setTrim St.add; simp only; split_ifs <;> rfl

theorem gapLoop_setTrim (b : Bool) (d : Int) (sx sy : ℚ) (n : Nat) :
    ∀ s : St, gapLoop d sx sy n (s.setTrim b) = (gapLoop d sx sy n s).setTrim b := by
  induction n with
  | zero => intro s; rfl
  | succ n ih => intro s; simp only [gapLoop]; rw [← ih]; rfl

theorem gap_setTrim (b : Bool) (s : St) (x y : ℚ) (l : Option ℚ) (d : Int) :
    gap (s.setTrim b) x y l d = (gap s x y l d).map (St.setTrim b) := by
  unfold gap
  simp only
  cases l with
  | none => rfl
  | some m =>
    simp only
    have e1 : (s.setTrim b).nx = s.nx := rfl
    have e2 : (s.setTrim b).ny = s.ny := rfl
    have e3 : (s.setTrim b).sequinMode = s.sequinMode := rfl
    rw [e1, e2, e3]
    split_ifs <;> simp [Except.map, toggleSequins_setTrim, gapLoop_setTrim]

theorem jumpAt_setTrim (b : Bool) (s : St) (x y : ℚ) : jumpAt (s.setTrim b) x y = (jumpAt s x y).setTrim b := by
  unfold jumpAt
  have e3 : (s.setTrim b).sequinMode = s.sequinMode := rfl
  rw [e3]
  simp only
  split_ifs
  · rw [toggleSequins_setTrim]; rfl
  · rfl

theorem jumpToWithin_setTrim (b : Bool) (h : jumpToWithin cfg (s.setTrim b) x y = .ok s') :
    ∃ s1, jumpToWithin cfg s x y = .ok s1 ∧ s' = s1.setTrim b := by
  unfold jumpToWithin at h ⊢
  obtain ⟨s1, h1, h2⟩ := bind_ok.1 h
  rw [pure_ok] at h2; subst h2
  have : (s.setTrim b).maxJump = s.maxJump := rfl
  rw [this, gap_setTrim] at h1
  cases hg : gap s x y s.maxJump JUMP with
  | error e => rw [hg] at h1; cases h1
  | ok s0 =>
    rw [hg] at h1
    simp only [Except.map] at h1
    injection h1 with h1; subst h1
    refine ⟨_, rfl, ?_⟩
    have e1 : (s0.setTrim b).nx = s0.nx := rfl
    have e2 : (s0.setTrim b).ny = s0.ny := rfl
    rw [e1, e2]
    split_ifs
    · rw [jumpAt_setTrim]
    · rfl

theorem firstStrike_chain (hI : BaseInv s) (hG : G → IsInt s.nx ∧ IsInt s.ny) (hT : G → IsInt x ∧ IsInt y)
    (h : firstStrike cfg position s x y = .ok s') :
    Chain cfg c G s s' ∧ s'.nx = x ∧ s'.ny = y ∧ s'.trimmed = false := by
  unfold firstStrike declareNotTrimmed at h
  obtain ⟨s1, h1, h2⟩ := bind_ok.1 h
  obtain ⟨s0, h0, h1⟩ := bind_ok.1 h1
  rw [pure_ok] at h1; subst h1
  obtain ⟨s2, hj, h3⟩ := bind_ok.1 h2
  rw [pure_ok] at h3; subst h3
  -- the optional first change
  obtain ⟨a, ho, n1, n2⟩ : Chain cfg c G s s0 ∧ 0 ≤ s0.order ∧ s0.nx = s.nx ∧ s0.ny = s.ny := by
    by_cases hord : s.order = -1
    · rw [if_pos hord] at h0
      have f := nextChange_fields h0
      exact ⟨.single (.change _ _ h0), by rw [f.2.2.2.2.2.2.2.2.1, hord]; decide,
        f.2.2.2.2.2.2.2.2.2.2.2.2.1, f.2.2.2.2.2.2.2.2.2.2.2.2.2.1⟩
    · rw [if_neg hord] at h0; injection h0 with h0; subst h0
      exact ⟨.refl, by have := hI.2; omega, rfl, rfl⟩
  have hI0 := chain_base a hI
  obtain ⟨s3, h3, rfl⟩ := jumpToWithin_setTrim (b := false) (s := s0) hj
  obtain ⟨b, d, e⟩ := jumpToWithin_chain (c := c) hI0.1 (by rw [n1, n2]; exact hG) hT h3
  have m1 : Micro cfg c G s3 (stitchAt s3 x y) := .stitch s3 x y (.inr (.inl e))
  have m2 : Micro cfg c G (stitchAt s3 x y) { stitchAt s3 x y with trimmed := false } :=
    .untrim (stitchAt s3 x y) s3.out x y rfl (by show 0 ≤ s3.order; rw [d.order]; exact ho)
  have eq : stitchAt (s3.setTrim false) x y = { stitchAt s3 x y with trimmed := false } := rfl
  obtain ⟨t, o, ht⟩ := tieOn_chain (cfg := cfg) (c := c) (G := G) (s := stitchAt (s3.setTrim false) x y)
    (position := position)
  rw [eq] at t ⊢
  refine ⟨((a.trans b).tail m1).tail m2 |>.trans t, ?_, ?_, ?_⟩ <;> rw [← eq, ht] <;> rfl

/-! ## The whole step -/

/-- A chain whose needle ends where it started or at the target. -/
def Op (cfg : Cfg) (c : Int) (G : Prop) (s : St) (x y : ℚ) (s' : St) : Prop :=
  Chain cfg c G s s' ∧ ((s'.nx = s.nx ∧ s'.ny = s.ny) ∨ (s'.nx = x ∧ s'.ny = y))

theorem sewStep_op {direct : St → ℚ → ℚ → Except PyErr St} (hI : BaseInv s) (hG : G → IsInt s.nx ∧ IsInt s.ny)
    (hT : G → IsInt x ∧ IsInt y)
    (hd : ∀ s', direct s x y = .ok s' → Chain cfg c G s s' ∧ Same s s' ∧ s'.nx = x ∧ s'.ny = y)
    (h : sewStep cfg position s x y direct = .ok s') : Op cfg c G s x y s' := by
  unfold sewStep at h
  split_ifs at h with h1 h2
  · obtain ⟨a, b, d, _⟩ := firstStrike_chain hI hG hT h
    exact ⟨a, .inr ⟨b, d⟩⟩
  · obtain ⟨s1, h3, h4⟩ := bind_ok.1 h
    rw [pure_ok] at h4; subst h4
    obtain ⟨a, b, d, e⟩ := needleTo_chain (cfg := cfg) (c := c) hI.1 hG h3
    refine ⟨a.tail ?_, .inr ⟨d, e⟩⟩
    exact .quiet s1 s1.explicitTrim false s1.tieOnC s1.tieOffC s1.matrix
  · obtain ⟨a, _, d, e⟩ := hd s' h
    exact ⟨a, .inr ⟨d, e⟩⟩

theorem ejectStep_op (hce : c = SEQUIN_EJECT) (hI : BaseInv s) (hG : G → IsInt s.nx ∧ IsInt s.ny) (hT : G → IsInt x ∧ IsInt y)
    (h : ejectStep cfg position s x y = .ok s') : Op cfg c G s x y s' := by
  unfold ejectStep at h
  obtain ⟨s1, h1, h2⟩ := bind_ok.1 h
  obtain ⟨a, hn⟩ : Chain cfg c G s s1 ∧ ((s1.nx = s.nx ∧ s1.ny = s.ny) ∨ (s1.nx = x ∧ s1.ny = y)) := by
    by_cases ht : s.trimmed = true
    · rw [if_pos ht] at h1
      obtain ⟨a, b, d, _⟩ := firstStrike_chain (c := c) hI hG hT h1
      exact ⟨a, .inr ⟨b, d⟩⟩
    · rw [if_neg ht] at h1; injection h1 with h1; subst h1
      exact ⟨.refl, .inl ⟨rfl, rfl⟩⟩
  have hI1 := chain_base a hI
  have hG1 : G → IsInt s1.nx ∧ IsInt s1.ny := by
    intro g
    rcases hn with ⟨p, q⟩ | ⟨p, q⟩ <;> rw [p, q]
    · exact hG g
    · exact hT g
  -- switching sequin mode on
  obtain ⟨b, hu, n1, n2⟩ : Chain cfg c G s1 (if s1.sequinMode then s1 else toggleSequins s1) ∧
      ((if s1.sequinMode then s1 else toggleSequins s1).sequinC = CONTINGENCY_SEQUIN_UTILIZE →
        (if s1.sequinMode then s1 else toggleSequins s1).sequinMode = true) ∧
      (if s1.sequinMode then s1 else toggleSequins s1).nx = s1.nx ∧
      (if s1.sequinMode then s1 else toggleSequins s1).ny = s1.ny := by
    by_cases hm : s1.sequinMode = true
    · rw [if_pos hm]; exact ⟨.refl, fun _ => hm, rfl, rfl⟩
    · rw [if_neg hm]
      unfold toggleSequins
      by_cases hc : s1.sequinC = CONTINGENCY_SEQUIN_UTILIZE
      · rw [if_pos hc]
        exact ⟨.single (.toggle s1 hc), fun _ => by simp [hm], rfl, rfl⟩
      · rw [if_neg hc]
        exact ⟨.refl, fun h => absurd h hc, rfl, rfl⟩
  have hI2 := chain_base b hI1
  obtain ⟨d, e⟩ := sequinAt_chain (cfg := cfg) (c := c) hce hI2.1 (by rw [n1, n2]; exact hG1) hu h2
  refine ⟨(a.trans b).trans d, ?_⟩
  rcases e with ⟨p, q⟩ | ⟨p, q⟩
  · rw [p, q, n1, n2]; exact hn
  · exact .inr ⟨p, q⟩

theorem frameEject_op (hc : c = FRAME_EJECT) (hI : BaseInv s) (hG : G → IsInt s.nx ∧ IsInt s.ny)
    (h : frameEject cfg position s x y = .ok s') : Op cfg c G s x y s' := by
  unfold frameEject at h
  obtain ⟨s1, h1, h2⟩ := bind_ok.1 h
  rw [pure_ok] at h2; subst h2
  obtain ⟨a, n1, n2⟩ := tieOffAndTrimIfNeeded_chain (cfg := cfg) (c := c) (G := G) (position := position) hI.1
  have hI1 := chain_base a hI
  obtain ⟨b, _, d, e⟩ := jumpTo_chain (cfg := cfg) (c := c) hI1.1 (by rw [n1, n2]; exact hG) h1
  exact ⟨(a.trans b).tail (.stop s1 (.inr hc)), .inr ⟨d, e⟩⟩

theorem leaveSequins_chain (hI : BaseInv s) {v : Int} (hv : ValidSequin v)
    (hu : v ≠ CONTINGENCY_SEQUIN_UTILIZE) :
    Chain cfg c G s (leaveSequins s v) ∧ (leaveSequins s v).nx = s.nx ∧ (leaveSequins s v).ny = s.ny := by
  unfold leaveSequins
  obtain ⟨a, b, _, e, f⟩ := ensure_off (cfg := cfg) (c := c) (G := G) hI.1
  simp only
  generalize (if s.sequinMode = true then toggleSequins s else s) = s1 at *
  exact ⟨a.tail (.sequin s1 v hv (.inr ⟨hu, b⟩)), e, f⟩

theorem matrixStep_op (st : Stitch) (h : matrixStep cfg s st c = .ok s') : Op cfg c G s x y s' := by
  have quiet : ∀ m : Mat, Op cfg c G s x y { s with matrix := m } := fun m =>
    ⟨.single (.quiet s s.explicitTrim s.jumping s.tieOnC s.tieOffC m), .inl ⟨rfl, rfl⟩⟩
  unfold matrixStep at h
  split_ifs at h
  all_goals first
    | (injection h with h; subst h; exact quiet _)
    | (obtain ⟨p, _, h2⟩ := bind_ok.1 h
       obtain ⟨m, qx, qy⟩ := p
       simp only [pure_ok] at h2; subst h2; exact quiet _)

theorem settingStep_op (hI : BaseInv s) (st : Stitch) (h : settingStep cfg s st c = .ok s') : Op cfg c G s x y s' := by
  unfold settingStep at h
  by_cases h1 : c = CONTINGENCY_TIE_ON_THREE_SMALL
  · rw [if_pos h1] at h; injection h with h; subst h
    exact ⟨.single (.quiet s s.explicitTrim s.jumping _ s.tieOffC s.matrix), .inl ⟨rfl, rfl⟩⟩
  rw [if_neg h1] at h
  by_cases h2 : c = CONTINGENCY_TIE_OFF_THREE_SMALL
  · rw [if_pos h2] at h; injection h with h; subst h
    exact ⟨.single (.quiet s s.explicitTrim s.jumping s.tieOnC _ s.matrix), .inl ⟨rfl, rfl⟩⟩
  rw [if_neg h2] at h
  by_cases h3 : c = CONTINGENCY_TIE_ON_NONE
  · rw [if_pos h3] at h; injection h with h; subst h
    exact ⟨.single (.quiet s s.explicitTrim s.jumping _ s.tieOffC s.matrix), .inl ⟨rfl, rfl⟩⟩
  rw [if_neg h3] at h
  by_cases h4 : c = CONTINGENCY_TIE_OFF_NONE
  · rw [if_pos h4] at h; injection h with h; subst h
    exact ⟨.single (.quiet s s.explicitTrim s.jumping s.tieOnC _ s.matrix), .inl ⟨rfl, rfl⟩⟩
  rw [if_neg h4] at h
  by_cases h5 : c = OPTION_MAX_JUMP_LENGTH
  · rw [if_pos h5] at h; injection h with h; subst h
    exact ⟨.single (.maxJump s _ h5), .inl ⟨rfl, rfl⟩⟩
  rw [if_neg h5] at h
  by_cases h6 : c = OPTION_MAX_STITCH_LENGTH
  · rw [if_pos h6] at h; injection h with h; subst h
    exact ⟨.single (.maxStitch s _ h6), .inl ⟨rfl, rfl⟩⟩
  rw [if_neg h6] at h
  by_cases h7 : c = OPTION_EXPLICIT_TRIM
  · rw [if_pos h7] at h; injection h with h; subst h
    exact ⟨.single (.quiet s _ s.jumping s.tieOnC s.tieOffC s.matrix), .inl ⟨rfl, rfl⟩⟩
  rw [if_neg h7] at h
  by_cases h8 : c = OPTION_IMPLICIT_TRIM
  · rw [if_pos h8] at h; injection h with h; subst h
    exact ⟨.single (.quiet s _ s.jumping s.tieOnC s.tieOffC s.matrix), .inl ⟨rfl, rfl⟩⟩
  rw [if_neg h8] at h
  by_cases h9 : c = CONTINGENCY_LONG_STITCH_NONE
  · rw [if_pos h9] at h; injection h with h; subst h
    exact ⟨.single (.long s _ (.inr (.inr h9))), .inl ⟨rfl, rfl⟩⟩
  rw [if_neg h9] at h
  by_cases h10 : c = CONTINGENCY_LONG_STITCH_JUMP_NEEDLE
  · rw [if_pos h10] at h; injection h with h; subst h
    exact ⟨.single (.long s _ (.inr (.inl rfl))), .inl ⟨rfl, rfl⟩⟩
  rw [if_neg h10] at h
  by_cases h11 : c = CONTINGENCY_LONG_STITCH_SEW_TO
  · rw [if_pos h11] at h; injection h with h; subst h
    exact ⟨.single (.long s _ (.inl rfl)), .inl ⟨rfl, rfl⟩⟩
  rw [if_neg h11] at h
  by_cases h12 : c = CONTINGENCY_SEQUIN_REMOVE
  · rw [if_pos h12] at h; injection h with h; subst h
    obtain ⟨a, b, d⟩ := leaveSequins_chain (cfg := cfg) (c := c) (G := G) hI (v := CONTINGENCY_SEQUIN_REMOVE)
      (by simp [ValidSequin]) (by decide)
    exact ⟨a, .inl ⟨b, d⟩⟩
  rw [if_neg h12] at h
  by_cases h13 : c = CONTINGENCY_SEQUIN_STITCH
  · rw [if_pos h13] at h; injection h with h; subst h
    obtain ⟨a, b, d⟩ := leaveSequins_chain (cfg := cfg) (c := c) (G := G) hI (v := CONTINGENCY_SEQUIN_STITCH)
      (by simp [ValidSequin]) (by decide)
    exact ⟨a, .inl ⟨b, d⟩⟩
  rw [if_neg h13] at h
  by_cases h14 : c = CONTINGENCY_SEQUIN_JUMP
  · rw [if_pos h14] at h; injection h with h; subst h
    obtain ⟨a, b, d⟩ := leaveSequins_chain (cfg := cfg) (c := c) (G := G) hI (v := CONTINGENCY_SEQUIN_JUMP)
      (by simp [ValidSequin]) (by decide)
    exact ⟨a, .inl ⟨b, d⟩⟩
  rw [if_neg h14] at h
  by_cases h15 : c = CONTINGENCY_SEQUIN_UTILIZE
  · rw [if_pos h15] at h; injection h with h; subst h
    exact ⟨.single (.sequin s _ (.inl rfl) (.inl ⟨rfl, h15⟩)), .inl ⟨rfl, rfl⟩⟩
  rw [if_neg h15] at h
  exact matrixStep_op st h

theorem toggleSequins_chain : Chain cfg c G s (toggleSequins s) ∧ (toggleSequins s).nx = s.nx ∧
    (toggleSequins s).ny = s.ny := by
  unfold toggleSequins
  split_ifs with h
  · exact ⟨.single (.toggle s h), rfl, rfl⟩
  · exact ⟨.refl, rfl, rfl⟩

theorem speed_op (v : Int) (hv : v = SLOW ∨ v = FAST) (hc : c = v) :
    Op cfg c G s x y (if cfg.writesSpeeds then s.add v else s) := by
  split_ifs with h
  · exact ⟨.single (.speed s v hv h hc), .inl ⟨rfl, rfl⟩⟩
  · exact ⟨.refl, .inl ⟨rfl, rfl⟩⟩

theorem dispatch_op (hI : BaseInv s) (hG : G → IsInt s.nx ∧ IsInt s.ny) (hT : G → IsInt x ∧ IsInt y) (st : Stitch)
    (h : dispatch cfg position s st x y c = .ok s') : Op cfg c G s x y s' := by
  have quietj : ∀ j, Op cfg c G s x y { s with jumping := j } := fun j =>
    ⟨.single (.quiet s s.explicitTrim j s.tieOnC s.tieOffC s.matrix), .inl ⟨rfl, rfl⟩⟩
  have trimOp : Op cfg c G s x y (tieOffAndTrimIfNeeded cfg position s) := by
    obtain ⟨a, b, d⟩ := tieOffAndTrimIfNeeded_chain (cfg := cfg) (c := c) (G := G) (position := position) hI.1
    exact ⟨a, .inl ⟨b, d⟩⟩
  have changeOp : ∀ s', colorChange cfg position s = .ok s' → Op cfg c G s x y s' := by
    intro s' h
    obtain ⟨a, b, d⟩ := colorChange_chain (c := c) (G := G) hI.1 h
    exact ⟨a, .inl ⟨b, d⟩⟩
  unfold dispatch at h
  by_cases h1 : c = STITCH
  · rw [if_pos h1] at h
    exact sewStep_op hI hG hT (fun s' h => stitchWithContingency_chain hI.1 hG h) h
  rw [if_neg h1] at h
  by_cases h2 : c = NEEDLE_AT
  · rw [if_pos h2] at h
    exact sewStep_op hI hG hT (fun s' h => needleTo_chain hI.1 hG h) h
  rw [if_neg h2] at h
  by_cases h3 : c = SEW_TO
  · rw [if_pos h3] at h
    exact sewStep_op hI hG hT (fun s' h => sewTo_chain hI.1 hG h) h
  rw [if_neg h3] at h
  by_cases h4 : c = STITCH_BREAK
  · rw [if_pos h4] at h; injection h with h; subst h; exact quietj true
  rw [if_neg h4] at h
  by_cases h5 : c = FRAME_EJECT
  · rw [if_pos h5] at h; exact frameEject_op h5 hI hG h
  rw [if_neg h5] at h
  by_cases h6 : c = SEQUENCE_BREAK
  · rw [if_pos h6] at h; injection h with h; subst h; exact trimOp
  rw [if_neg h6] at h
  by_cases h7 : c = COLOR_BREAK
  · rw [if_pos h7] at h
    obtain ⟨a, b, d⟩ := colorBreak_chain (c := c) (G := G) hI.1 h
    exact ⟨a, .inl ⟨b, d⟩⟩
  rw [if_neg h7] at h
  by_cases h8 : c = TIE_OFF
  · rw [if_pos h8] at h; injection h with h; subst h
    obtain ⟨a, o, ho⟩ := tieOff_chain (cfg := cfg) (c := c) (G := G) (s := s) (position := position)
    exact ⟨a, .inl ⟨by rw [ho], by rw [ho]⟩⟩
  rw [if_neg h8] at h
  by_cases h9 : c = TIE_ON
  · rw [if_pos h9] at h; injection h with h; subst h
    obtain ⟨a, o, ho⟩ := tieOn_chain (cfg := cfg) (c := c) (G := G) (s := s) (position := position)
    exact ⟨a, .inl ⟨by rw [ho], by rw [ho]⟩⟩
  rw [if_neg h9] at h
  by_cases h10 : c = TRIM
  · rw [if_pos h10] at h; injection h with h; subst h; exact trimOp
  rw [if_neg h10] at h
  by_cases h11 : c = JUMP
  · rw [if_pos h11] at h
    by_cases hj : s.jumping = true
    · rw [if_pos hj] at h; injection h with h; subst h; exact ⟨.refl, .inl ⟨rfl, rfl⟩⟩
    · rw [if_neg hj] at h
      obtain ⟨a, _, b, d⟩ := jumpTo_chain (cfg := cfg) (c := c) hI.1 hG h
      exact ⟨a, .inr ⟨b, d⟩⟩
  rw [if_neg h11] at h
  by_cases h12 : c = SEQUIN_MODE
  · rw [if_pos h12] at h; injection h with h; subst h
    obtain ⟨a, b, d⟩ := toggleSequins_chain (cfg := cfg) (c := c) (G := G) (s := s)
    exact ⟨a, .inl ⟨b, d⟩⟩
  rw [if_neg h12] at h
  by_cases h13 : c = SEQUIN_EJECT
  · rw [if_pos h13] at h; exact ejectStep_op h13 hI hG hT h
  rw [if_neg h13] at h
  by_cases h14 : c = COLOR_CHANGE
  · rw [if_pos h14] at h; exact changeOp _ h
  rw [if_neg h14] at h
  by_cases h15 : c = NEEDLE_SET
  · rw [if_pos h15] at h; exact changeOp _ h
  rw [if_neg h15] at h
  by_cases h16 : c = STOP
  · rw [if_pos h16] at h; injection h with h; subst h; exact ⟨.single (.stop s (.inl h16)), .inl ⟨rfl, rfl⟩⟩
  rw [if_neg h16] at h
  by_cases h17 : c = SLOW
  · rw [if_pos h17] at h; injection h with h; subst h; exact speed_op _ (.inl rfl) h17
  rw [if_neg h17] at h
  by_cases h18 : c = FAST
  · rw [if_pos h18] at h; injection h with h; subst h; exact speed_op _ (.inr rfl) h18
  rw [if_neg h18] at h
  exact settingStep_op hI st h

/-- The grid assumption of one step: needle and target are grid points. -/
def StepGrid (cfg : Cfg) (s : St) (st : Stitch) : Prop :=
  IsInt s.nx ∧ IsInt s.ny ∧ IsInt (target cfg s st).1 ∧ IsInt (target cfg s st).2

/-- **Every encoder step is a chain of elementary actions**, and the needle ends where it was or at the target. -/
theorem step_chain (st : Stitch) (hI : BaseInv s) (h : step cfg position s st = .ok s') :
    Op cfg (cmdOf st.cmd) (StepGrid cfg s st) s (target cfg s st).1 (target cfg s st).2 s' := by
  unfold step at h
  have hm : Micro cfg (cmdOf st.cmd) (StepGrid cfg s st) s { s with high := flagsOf st.cmd } :=
    .high s st.cmd
  obtain ⟨a, b⟩ := dispatch_op (s := { s with high := flagsOf st.cmd }) (G := StepGrid cfg s st)
    (by exact hI) (fun g => ⟨g.1, g.2.1⟩) (fun g => ⟨g.2.2.1, g.2.2.2⟩) st h
  exact ⟨.head hm a, b⟩

/-- Invariant principle for whole runs: an invariant preserved by every step of the source holds before the final
`END` is appended, in the state the run ended with. `Q` restricts the source commands. -/
theorem run_inv {P : St → Prop} {Q : Stitch → Prop}
    (hstep : ∀ position s st s', BaseInv s → P s → Q st → step cfg position s st = .ok s' → P s')
    (hhigh : ∀ s v, P s → P { s with high := flagsOf v }) :
    ∀ (rest : List Stitch) (position : Nat) (s : St) (sf : St), BaseInv s → P s → (∀ st ∈ rest, Q st) →
      runFrom cfg position s rest = .ok sf → ∃ s0, BaseInv s0 ∧ P s0 ∧ sf = endHere s0 := by
  intro rest
  induction rest with
  | nil =>
    intro position s sf hI hP _ h
    simp only [runFrom] at h; injection h with h
    exact ⟨s, hI, hP, h.symm⟩
  | cons st rest ih =>
    intro position s sf hI hP hQ h
    simp only [runFrom] at h
    split_ifs at h with hend
    · injection h with h
      exact ⟨{ s with high := flagsOf st.cmd }, hI, hhigh s _ hP, h.symm⟩
    · cases hs : step cfg position s st with
      | error e => rw [hs] at h; cases h
      | ok s' =>
        rw [hs] at h
        have hI' := chain_base (step_chain st hI hs).1 hI
        exact ih (position + 1) s' sf hI' (hstep position s st s' hI hP (hQ st (List.mem_cons_self)) hs)
          (fun t ht => hQ t (List.mem_cons_of_mem _ ht)) h

/-- The documented values of the sequin settings. -/
def Settings.ValidSequins (o : Settings) : Prop := ∀ c, o.sequinContingency = some c → ValidSequin c

theorem init_base (o : Settings) (lm : Libm) (threads : List Thread) (ho : o.ValidSequins) :
    BaseInv (initSt o lm threads) := by
  refine ⟨⟨(fun h => nomatch h), ?_⟩, by simp [initSt]⟩
  show ValidSequin o.sequin
  unfold Settings.sequin
  cases h : o.sequinContingency with
  | some c => exact ho c h
  | none =>
    simp only [Option.getD_none]
    split_ifs <;> simp [ValidSequin]

end Emb
