import Verif.Props.SaveLoadProps
import Verif.Props.NeedleProps
import Verif.Props.TbfProps

/-!
# C95: what is sewn with which needle
-/

namespace Emb

/-! ## Specification -/

/-- The strikes of a finished pattern, each with the number of NEEDLE_SET (9) commands before it. -/
def needledFrom : Nat → List Stitch → List (Nat × Pt)
  | _, [] => []
  | n, a :: l =>
    if a.low = 9 then needledFrom (n + 1) l
    else if a.low = 0 then (n, (a.x, a.y)) :: needledFrom n l
    else needledFrom n l

/-- The walk of C24 with the number of needles set: a sewing command (STITCH, NEEDLE_AT, SEW_TO, SEQUIN_EJECT) sets the first one, if there
is none yet, before it sews; ties are sewn before the needle is changed. -/
noncomputable def walkNeedled (lm : Libm) (round : Bool) : Nat → Head → Option Stitch → List Stitch → List (Nat × Pt)
  | _, _, _, [] => []
  | k, h, prev, st :: rest =>
    if st.low = 4 then []
    else (h.step lm round prev st rest).1.map (fun p => (if st.low ∈ [0, 0xB0, 0xB1, 7] then max k 1 else k, p)) ++
      walkNeedled lm round (begun k st rest) (h.step lm round prev st rest).2 (some st) rest

/-- The strikes of a pattern, each with the needle last asked for by a NEEDLE_SET, if any; `c` is the one at the start. -/
def needleAt : Option Int → List Stitch → List (Option Int × Pt)
  | _, [] => []
  | c, a :: l =>
    if a.low = 9 then needleAt (decodeCommand a.cmd).2.2.1 l
    else if a.low = 0 then (c, (a.x, a.y)) :: needleAt c l
    else needleAt c l

/-- The needle after so many needle commands, taking the needles in turn from 1. -/
def inTurn (needles : Int) : Nat → Option Int
  | 0 => none
  | k + 1 => some ((k : Int) % needles + 1)

/-! ## Proofs -/

namespace Needle

/-- NEEDLE_SET commands. -/
def sets (l : List Stitch) : Nat := l.countP (fun a => a.low = 9)

theorem sets_append (a b : List Stitch) : sets (a ++ b) = sets a + sets b := by unfold sets; rw [List.countP_append]

theorem sets_cons (a : Stitch) (l : List Stitch) : sets (a :: l) = sets l + if a.low = 9 then 1 else 0 := by
  unfold sets; simp [List.countP_cons]

theorem sets_zero {l : List Stitch} (h : ∀ a ∈ l, a.low ≠ 9) : sets l = 0 := by
  unfold sets
  rw [List.countP_eq_zero]
  intro a ha
  simpa using h a ha

theorem needledFrom_append (a b : List Stitch) : ∀ n, needledFrom n (a ++ b) = needledFrom n a ++ needledFrom (n + sets a) b := by
  induction a with
  | nil => intro n; simp [needledFrom, sets]
  | cons c a ih =>
    intro n
    rw [List.cons_append, needledFrom, needledFrom, sets_cons]
    by_cases h9 : c.low = 9
    · rw [if_pos h9, if_pos h9, if_pos h9, ih]
      congr 2; omega
    · rw [if_neg h9, if_neg h9, if_neg h9]
      by_cases h0 : c.low = 0
      · rw [if_pos h0, if_pos h0, ih]; rfl
      · rw [if_neg h0, if_neg h0, ih]; rfl

theorem needledFrom_none (e : List Stitch) (h : sets e = 0) : ∀ n, needledFrom n e = (strikes e).map (fun p => (n, p)) := by
  induction e with
  | nil => intro n; rfl
  | cons c e ih =>
    intro n
    rw [sets_cons] at h
    have h9 : c.low ≠ 9 := fun h9 => by rw [if_pos h9] at h; omega
    rw [needledFrom, if_neg h9, ih (by omega)]
    unfold strikes
    by_cases h0 : c.low = 0
    · rw [if_pos h0, List.filter_cons_of_pos (by simpa using h0)]; rfl
    · rw [if_neg h0, List.filter_cons_of_neg (by simpa using h0)]

theorem needledFrom_mute (e : List Stitch) (h : ∀ a ∈ e, a.low ≠ 0) : ∀ n, needledFrom n e = [] := by
  induction e with
  | nil => intro n; rfl
  | cons c e ih =>
    intro n
    rw [needledFrom, if_neg (h c (by simp)), ih (fun a ha => h a (by simp [ha])), ih (fun a ha => h a (by simp [ha]))]
    split_ifs <;> rfl

theorem strikes_mute {w : List Stitch} (h : ∀ b ∈ w, b.low ≠ 0) : strikes w = [] := by
  unfold strikes
  rw [List.filter_eq_nil_iff.2 (fun b hb => by simpa using h b hb)]; rfl

/-- In NEEDLE_SET mode there is a needle command for every colour begun. -/
def SetInv (s : St) : Prop := HighInv s ∧ ((sets s.out : Nat) : Int) = s.order + 1

theorem micro_sets {cfg : Cfg} {c : Int} {G : Prop} {s s' : St} (hc : cfg.change = NEEDLE_SET) (h : Micro cfg c G s s') (hs : SetInv s) :
    SetInv s' := by
  obtain ⟨hh, h2⟩ := hs
  refine ⟨micro_high h hh, ?_⟩
  have app : ∀ (x y : ℚ) (k : Int), 0 ≤ k → k < 256 → k ≠ 9 → ((sets (s.out ++ [⟨x, y, k + s.high⟩]) : Nat) : Int) = s.order + 1 := by
    intro x y k a b d
    rw [sets_append, sets_cons, low_add hh a b, if_neg d, ← h2]; simp [sets]
  cases h with
  | quiet => exact h2
  | high => exact h2
  | maxStitch => exact h2
  | maxJump => exact h2
  | long => exact h2
  | sequin => exact h2
  | toggle h => exact app _ _ 6 (by decide) (by decide) (by decide)
  | stitch x y h => exact app _ _ 0 (by decide) (by decide) (by decide)
  | jump x y h hm => exact app _ _ 1 (by decide) (by decide) (by decide)
  | eject x y h hm => exact app _ _ 7 (by decide) (by decide) (by decide)
  | untrim => exact h2
  | trim h hm => exact app _ _ 2 (by decide) (by decide) (by decide)
  | stop => exact app _ _ 3 (by decide) (by decide) (by decide)
  | speed v h hw hcv =>
    rcases h with rfl | rfl
    · exact app _ _ 11 (by decide) (by decide) (by decide)
    · exact app _ _ 12 (by decide) (by decide) (by decide)
  | lock ax ay =>
    obtain ⟨a1, a2, a3, e, e1, e2, e3⟩ := lockStitches_eq cfg.lm s.nx s.ny ax ay s.maxStitch
    show ((sets (s.out ++ _) : Nat) : Int) = s.order + 1
    rw [e, sets_append, sets_zero (l := [a1, a2, a3, _]), ← h2]
    · simp
    · intro a ha
      simp only [List.mem_cons, List.not_mem_nil, or_false] at ha
      rcases ha with rfl | rfl | rfl | rfl <;> unfold Stitch.low
      · rw [e1]; decide
      · rw [e2]; decide
      · rw [e3]; decide
      · show (0 : Int) % 256 ≠ 9
        decide
  | change s' h =>
    have fo := (nextChange_fields h).2.2.2.2.2.2.2.2.1
    obtain ⟨ch, _, hcase⟩ := nextChange_out h
    rcases hcase with ⟨hx, _⟩ | ⟨_, _, e⟩ | ⟨hx, _⟩ | ⟨_, hx, _⟩
    · rw [hc] at hx; exact absurd hx (by decide)
    · have h9 : (⟨s.nx, s.ny, encodeThreadChange NEEDLE_SET (some ch.thread) (some ch.needle) none⟩ : Stitch).low = 9 :=
        encodeThreadChange_low 9 (by decide) (by decide) _ _ _
      rw [e, fo, sets_append, sets_cons, if_pos h9]
      have : sets ([] : List Stitch) = 0 := rfl
      rw [this]
      push_cast
      omega
    · rw [hc] at hx; exact absurd hx (by decide)
    · exact absurd hc hx

/-- The first sewing command changes to the first colour and then goes on as any other after a change. -/
theorem step_first {cfg : Cfg} {position : Nat} {s s' : St} {st : Stitch} (ho : s.order = -1) (ht : s.trimmed = true)
    (hc : st.low ∈ [0, 176, 177, 7]) (hs : step cfg position s st = .ok s') :
    ∃ t, nextChange cfg { s with high := flagsOf st.cmd } = .ok t ∧ step cfg position t st = .ok s' := by
  have first : ∀ (r : St) (x y : ℚ) (s' : St), r.order = -1 → firstStrike cfg position r x y = .ok s' →
      ∃ t, nextChange cfg r = .ok t ∧ firstStrike cfg position t x y = .ok s' := by
    intro r x y s' hr h
    unfold firstStrike declareNotTrimmed at h
    rw [if_pos hr] at h
    obtain ⟨s1, h1, h2⟩ := bind_ok.1 h
    obtain ⟨t, h3, h4⟩ := bind_ok.1 h1
    refine ⟨t, h3, ?_⟩
    have fo := (nextChange_fields h3).2.2.2.2.2.2.2.2.1
    unfold firstStrike declareNotTrimmed
    rw [if_neg (by rw [fo, hr]; decide)]
    refine bind_ok.2 ⟨s1, ?_, h2⟩
    exact bind_ok.2 ⟨t, rfl, h4⟩
  have trim : ∀ {r t : St}, nextChange cfg r = .ok t → t.trimmed = true := fun h => (nextChange_fields h).2.2.2.2.2.2.2.2.2.1
  have hsew : ∀ (direct : St → ℚ → ℚ → Except PyErr St) (x y : ℚ),
      sewStep cfg position { s with high := flagsOf st.cmd } x y direct = .ok s' →
      ∃ t, nextChange cfg { s with high := flagsOf st.cmd } = .ok t ∧ sewStep cfg position t x y direct = .ok s' := by
    intro direct x y h
    unfold sewStep at h
    rw [if_pos (show ({ s with high := flagsOf st.cmd } : St).trimmed = true from ht)] at h
    obtain ⟨t, h1, h2⟩ := first { s with high := flagsOf st.cmd } x y s' ho h
    refine ⟨t, h1, ?_⟩
    unfold sewStep
    rw [if_pos (trim h1), h2]
  have fin : ∀ t : St, nextChange cfg { s with high := flagsOf st.cmd } = .ok t →
      dispatch cfg position t st (target cfg { s with high := flagsOf st.cmd } st).1 (target cfg { s with high := flagsOf st.cmd } st).2 (cmdOf st.cmd) = .ok s' →
      step cfg position t st = .ok s' := by
    intro t h1 h2
    have f := nextChange_fields h1
    have hm : t.matrix = s.matrix := f.2.2.2.2.2.2.2.1
    have hh : t.high = flagsOf st.cmd := f.2.2.2.2.2.2.2.2.2.2.2.2.2.2
    have e1 : ({ t with high := flagsOf st.cmd } : St) = t := by rw [← hh]
    have e2 : target cfg t st = target cfg { s with high := flagsOf st.cmd } st := by
      unfold target; rw [hm]
    unfold step
    simp only
    rw [e1, e2]
    exact h2
  unfold step at hs
  simp only at hs
  change dispatch cfg position { s with high := flagsOf st.cmd } st (target cfg { s with high := flagsOf st.cmd } st).1
    (target cfg { s with high := flagsOf st.cmd } st).2 (cmdOf st.cmd) = .ok s' at hs
  generalize hp : target cfg { s with high := flagsOf st.cmd } st = p at hs fin
  simp only [List.mem_cons, List.not_mem_nil, or_false] at hc
  have hc : cmdOf st.cmd = 0 ∨ cmdOf st.cmd = 176 ∨ cmdOf st.cmd = 177 ∨ cmdOf st.cmd = 7 := hc
  rcases hc with h | h | h | h <;> rw [h] at hs fin
  · obtain ⟨t, h1, h2⟩ := hsew _ _ _ hs
    exact ⟨t, h1, fin t h1 h2⟩
  · obtain ⟨t, h1, h2⟩ := hsew _ _ _ hs
    exact ⟨t, h1, fin t h1 h2⟩
  · obtain ⟨t, h1, h2⟩ := hsew _ _ _ hs
    exact ⟨t, h1, fin t h1 h2⟩
  · have hs : ejectStep cfg position { s with high := flagsOf st.cmd } p.1 p.2 = .ok s' := hs
    unfold ejectStep at hs
    rw [if_pos (show ({ s with high := flagsOf st.cmd } : St).trimmed = true from ht)] at hs
    obtain ⟨u, h1, h2⟩ := bind_ok.1 hs
    obtain ⟨t, h3, h4⟩ := first { s with high := flagsOf st.cmd } _ _ u ho h1
    refine ⟨t, h3, fin t h3 ?_⟩
    show ejectStep cfg position t p.1 p.2 = .ok s'
    unfold ejectStep
    rw [if_pos (trim h3)]
    exact bind_ok.2 ⟨u, h4, h2⟩

/-- What a change writes in NEEDLE_SET mode: one word. -/
theorem nextChange_set {cfg : Cfg} {s s' : St} (hc : cfg.change = NEEDLE_SET) (h : nextChange cfg s = .ok s') :
    ∃ w : Stitch, s'.out = s.out ++ [w] ∧ w.low = 9 := by
  obtain ⟨ch, _, hcase⟩ := nextChange_out h
  rcases hcase with ⟨hx, _⟩ | ⟨_, _, e⟩ | ⟨hx, _⟩ | ⟨_, hx, _⟩
  · rw [hc] at hx; exact absurd hx (by decide)
  · exact ⟨_, e, encodeThreadChange_low 9 (by decide) (by decide) _ _ _⟩
  · rw [hc] at hx; exact absurd hx (by decide)
  · exact absurd hc hx

/-- What a step sews, it sews with the needle of the walk. -/
theorem step_needled {cfg : Cfg} {position : Nat} {s s' : St} {st : Stitch} {k : Nat} (hc : cfg.change = NEEDLE_SET) (hI : BaseInv s)
    (hT : TrimInv s) (hC : SetInv s) (hk : s.order + 1 = k) (hs : step cfg position s st = .ok s') :
    ∃ e, s'.out = s.out ++ e ∧
      needledFrom k e = (strikes e).map (fun p => (if st.low ∈ [0, 0xB0, 0xB1, 7] then max k 1 else k, p)) := by
  have hC' : SetInv s' := chain_lift (fun a b _ hmic hb => micro_sets (cfg := cfg) hc hmic hb) (step_chain st hI hs).1 hI hC
  have hr := step_res (cfg := cfg) (s := s) (position := position) st
  have ho := hr.order s' hs
  have hge := hI.2
  -- a step that begins no colour sets no needle
  have same : s'.order = s.order → ∃ e, s'.out = s.out ++ e ∧ needledFrom k e = (strikes e).map (fun p => (k, p)) := by
    intro h
    obtain ⟨e, he⟩ := step_grows hI hC.1 hs
    refine ⟨e, he, needledFrom_none e ?_ k⟩
    have h1 := hC.2
    have h2 := hC'.2
    rw [he, sets_append, h] at h2
    push_cast at h2
    omega
  by_cases hsew : st.low ∈ [0, 0xB0, 0xB1, 7]
  · simp only [if_pos hsew]
    by_cases h1 : s.order = -1
    · have htr : s.trimmed = true := by
        by_contra hf
        have := (hT.2.2 (by simpa using hf)).2
        omega
      obtain ⟨t, h2, h3⟩ := step_first h1 htr hsew hs
      obtain ⟨w, hw, hw9⟩ := nextChange_set hc h2
      have m1 : Micro cfg (cmdOf st.cmd) True s { s with high := flagsOf st.cmd } := .high _ _
      have m2 : Micro cfg (cmdOf st.cmd) True { s with high := flagsOf st.cmd } t := .change _ t h2
      have hIt : BaseInv t := micro_base m2 (micro_base m1 hI)
      have hCt : SetInv t := micro_sets hc m2 (micro_sets hc m1 hC)
      obtain ⟨e, he⟩ := step_grows hIt hCt.1 h3
      have hst : sets e = 0 := by
        have q1 := hCt.2
        have q2 := hC'.2
        have q3 : t.order = s.order + 1 := (nextChange_fields h2).2.2.2.2.2.2.2.2.1
        rw [he, sets_append] at q2
        push_cast at q2
        rcases ho with ho | ⟨hch, -⟩ | ⟨-, -, ho⟩
        · have hu := step_uses hI hT hs (by simp only [List.mem_cons, List.not_mem_nil, or_false] at hsew ⊢; omega)
          simp only at ho
          omega
        · rw [changes_iff] at hch
          unfold Changes at hch
          simp only [List.mem_cons, List.not_mem_nil, or_false] at hch hsew
          omega
        · omega
      refine ⟨w :: e, by rw [he, hw]; simp, ?_⟩
      have hk0 : k = 0 := by omega
      have hw0 : strikes (w :: e) = strikes e := by
        unfold strikes
        rw [List.filter_cons_of_neg (by simp [hw9])]
      rw [needledFrom, if_pos hw9, needledFrom_none e hst, hw0, hk0]
      rfl
    · have hk1 : max k 1 = k := by omega
      rw [hk1]
      apply same
      rcases ho with ho | ⟨hch, -⟩ | ⟨-, ho, -⟩
      · exact ho
      · rw [changes_iff] at hch
        unfold Changes at hch
        simp only [List.mem_cons, List.not_mem_nil, or_false] at hch hsew
        omega
      · exact absurd ho h1
  · simp only [if_neg hsew]
    have two : ∀ (t s' : St), HighInv t → nextChange cfg (tieOffTrimIfExplicit cfg position t) = .ok s' →
        ∃ e, s'.out = t.out ++ e ∧ needledFrom k e = (strikes e).map (fun p => (k, p)) := by
      intro t s' hh h
      obtain ⟨l, hl, hl2⟩ := tieOffTrim_out (cfg := cfg) (position := position) hh
      obtain ⟨w, hw, hw9⟩ := nextChange_set hc h
      refine ⟨l ++ [w], by rw [hw, hl, List.append_assoc], ?_⟩
      have hm : ∀ b ∈ [w], b.low ≠ 0 := by
        intro b hb
        simp only [List.mem_cons, List.not_mem_nil, or_false] at hb
        subst hb; rw [hw9]; decide
      rw [needledFrom_append, needledFrom_mute [w] hm, Strike.strikes_append, strikes_mute hm, List.append_nil, List.append_nil]
      exact needledFrom_none l (sets_zero (fun a ha => by rcases hl2 a ha with h | h | h <;> rw [h] <;> decide)) k
    rcases ho with ho | ⟨hch, -⟩ | ⟨hsw, -, -⟩
    · exact same ho
    · rw [changes_iff] at hch
      unfold Changes at hch
      simp only [List.mem_cons, List.not_mem_nil, or_false] at hch
      by_cases h59 : st.low = 5 ∨ st.low = 9
      · have e : step cfg position s st = colorChange cfg position { s with high := flagsOf st.cmd } := by
          unfold step
          rcases h59 with h | h
          · have h : cmdOf st.cmd = COLOR_CHANGE := h
            simp only [h]; rfl
          · have h : cmdOf st.cmd = NEEDLE_SET := h
            simp only [h]; rfl
        rw [e] at hs
        unfold colorChange at hs
        obtain ⟨s1, h1, h2⟩ := bind_ok.1 hs
        rw [pure_ok] at h2; subst h2
        exact two { s with high := flagsOf st.cmd } s1 (flagsOf_low _) h1
      · have hb : st.low = 226 := by omega
        have hs' := hs
        rw [step_break hb] at hs
        unfold colorBreak at hs
        split_ifs at hs
        · injection hs with hs; subst hs
          exact ⟨[], by simp, rfl⟩
        · obtain ⟨s1, h1, h2⟩ := bind_ok.1 hs
          rw [pure_ok] at h2; subst h2
          exact two { s with high := flagsOf st.cmd } s1 (flagsOf_low _) h1
        · simp only at hs
          injection hs with hs; subst hs
          exact same (tieOffTrimIfExplicit_keep (cfg := cfg) (position := position) (s := { s with high := flagsOf st.cmd })).order
    · rw [sews_iff] at hsw
      exact absurd hsw hsew

theorem run_needled (cfg : Cfg) (hc : cfg.change = NEEDLE_SET) : ∀ (rest : List Stitch) (position : Nat) (s sf : St) (prev : Option Stitch) (k : Nat),
    Strike.Good s → BaseInv s → TrimInv s → SetInv s → s.order + 1 = k →
    (∃ pre, cfg.source = pre ++ rest ∧ pre.length = position) →
    prev = (if position = 0 then cfg.source.getLast? else cfg.source[position - 1]?) →
    runFrom cfg position s rest = .ok sf →
    needledFrom 0 sf.out = needledFrom 0 s.out ++ walkNeedled cfg.lm cfg.round k (Strike.headOf s) prev rest ∧
      sets sf.out = begunBy k rest := by
  intro rest
  have hend : ∀ s : St, s.high % 256 = 0 → needledFrom 0 (endHere s).out = needledFrom 0 s.out ∧ sets (endHere s).out = sets s.out := by
    intro s g
    show needledFrom 0 (s.out ++ [⟨s.nx, s.ny, END + s.high⟩]) = _ ∧ sets (s.out ++ [⟨s.nx, s.ny, END + s.high⟩]) = _
    have hl : (⟨s.nx, s.ny, END + s.high⟩ : Stitch).low = 4 := low_add g (by decide) (by decide)
    rw [needledFrom_append, needledFrom_mute [_], sets_append, sets_zero (l := [_])]
    · simp
    all_goals
      intro a ha
      simp only [List.mem_cons, List.not_mem_nil, or_false] at ha
      subst ha
      rw [hl]; decide
  induction rest with
  | nil =>
    intro position s sf prev k g hI hT hC hk _ _ h
    rw [runFrom] at h
    injection h with h; subst h
    rw [(hend s g.high).1, (hend s g.high).2, walkNeedled, begunBy]
    have := hC.2
    exact ⟨by simp, by omega⟩
  | cons st rest ih =>
    intro position s sf prev k g hI hT hC hk hs hp h
    rw [runFrom] at h
    rw [walkNeedled, begunBy]
    have hn : sets s.out = k := by have := hC.2; omega
    by_cases h4 : st.low = 4
    · rw [if_pos (show cmdOf st.cmd = END from h4)] at h
      injection h with h; subst h
      obtain ⟨q1, q2⟩ := hend { s with high := flagsOf st.cmd } (flagsOf_low _)
      rw [if_pos h4, if_pos h4, q1, q2]
      exact ⟨by simp, hn⟩
    · rw [if_neg (show ¬ cmdOf st.cmd = END from h4)] at h
      rw [if_neg h4, if_neg h4]
      cases hst : Emb.step cfg position s st with
      | error e => rw [hst] at h; cases h
      | ok s' =>
        rw [hst] at h
        simp only at h
        obtain ⟨pre, e1, e2⟩ := hs
        have ar : Strike.Around cfg.source position prev st rest := ⟨⟨pre, e1, e2⟩, hp⟩
        have e := Strike.step_eff g ar hst
        obtain ⟨x, hx, ht⟩ := step_needled hc hI hT hC hk hst
        have hC' : SetInv s' := chain_lift (fun a b _ hmic hb => micro_sets (cfg := cfg) hc hmic hb) (step_chain st hI hst).1 hI hC
        have hk' := Shade.step_begun hI hT ar hk hst
        have := ih (position + 1) s' sf (some st) (begun k st rest) e.good (chain_base (step_chain st hI hst).1 hI) (step_trimInv hI hT hst) hC' hk'
          ⟨pre ++ [st], by simp [e1], by simp [e2]⟩ ?_ h
        · refine ⟨?_, this.2⟩
          have hsx : strikes x = ((Strike.headOf s).step cfg.lm cfg.round prev st rest).1 := by
            have := e.out
            rw [hx, Strike.strikes_append] at this
            exact List.append_cancel_left this
          rw [this.1, hx, needledFrom_append, Nat.zero_add, hn, ht, hsx, e.head, List.append_assoc]
        · rw [if_neg (by omega), e1]
          simp [← e2]

theorem init_sets (o : Settings) (lm : Libm) (threads : List Thread) : SetInv (initSt o lm threads) := ⟨rfl, rfl⟩

theorem walk_sewnIn {lm : Libm} {round : Bool} : ∀ (A : List Stitch) (k : Nat) (h : Head) (prev : Option Stitch) (E : List Stitch),
    h.Simple → (∀ st ∈ A, Plain h.limit st) → (∀ e ∈ E.head?, e.low = 4) →
    walkNeedled lm round k h prev (A ++ E) = (sewnIn round h.f k (A ++ E)).map (fun q => (q.1 + 1, q.2)) := by
  intro A
  induction A with
  | nil =>
    intro k h prev E _ _ hE
    cases E with
    | nil => simp [walkNeedled, sewnIn]
    | cons e E =>
      have := hE e (by simp)
      simp [walkNeedled, sewnIn, this]
  | cons st A ih =>
    intro k h prev E hs hp hE
    obtain ⟨e1, e2, e3, e4⟩ := Strike.step_plain (lm := lm) (round := round) hs prev (A ++ E) (hp st (by simp))
    have h4 : ¬ st.low = 4 := fun h4 => (hp st (by simp)).1 (by simp [h4])
    rw [List.cons_append, walkNeedled, sewnIn, if_neg h4, if_neg h4, e1, Shade.images_one,
      ih _ _ _ E e4 (fun b hb => by rw [e3]; exact hp b (by simp [hb])) hE, e2, List.map_append]
    congr 1
    by_cases hl : st.low ∈ [(0 : Int), 0xB0, 0xB1]
    · rw [if_pos hl, if_pos hl, List.map_singleton, if_pos (by simp only [List.mem_cons, List.not_mem_nil, or_false] at hl ⊢; omega)]
      have : max k 1 = k - 1 + 1 := by omega
      rw [this]
    · rw [if_neg hl, if_neg hl]; rfl

end Needle

variable {o : Settings} {lm : Libm} {threads : List Thread} {source out : List Stitch} {ths : List (Option Thread)}

/-- **C95**: in NEEDLE_SET mode every strike is sewn with its needle: for every source, the strikes of the normalized pattern with the number
of needle commands before them are those of the walk, and there is a needle command for each colour begun. -/
theorem C95_needles (hv : o.ValidSequins) (hc : o.changeCommand = 9) (h : encode o lm threads source = .ok (out, ths)) :
    needledFrom 0 out = walkNeedled lm o.round 0 (o.head lm) source.getLast? source ∧
      (needleWords out).length = begunBy 0 source := by
  obtain ⟨plan, sf, -, hr, rfl, rfl⟩ := encode_state h
  have := Needle.run_needled (mkCfg o lm source plan) hc source 0 _ sf source.getLast? 0
    (⟨rfl, (Strike.place_affine o lm).1, le_refl _, fun h => nomatch h⟩ : Strike.Good (initSt o lm threads))
    (init_base o lm threads hv) (init_trim o lm threads) (Needle.init_sets o lm threads) rfl ⟨[], rfl, rfl⟩ rfl hr
  rw [Strike.init_head] at this
  refine ⟨?_, ?_⟩
  · rw [this.1]
    rfl
  · rw [← this.2]
    unfold needleWords Needle.sets
    rw [List.countP_eq_length_filter]
    congr 1

/-- **C95**: without ties and cuts, every sewing command of the source is sewn after the needle command of its colour. -/
theorem C95_plain {A E : List Stitch} (hv : o.ValidSequins) (hc : o.changeCommand = 9) (ho : o.NoTies)
    (hA : ∀ st ∈ A, Plain o.maxStitch st) (hE : ∀ e ∈ E.head?, e.low = 4) (h : encode o lm threads (A ++ E) = .ok (out, ths)) :
    needledFrom 0 out = (sewnIn o.round (o.place lm) 0 (A ++ E)).map (fun q => (q.1 + 1, q.2)) := by
  rw [(C95_needles hv hc h).1]
  exact Needle.walk_sewnIn A 0 (o.head lm) _ E (ho.simple lm) hA hE

namespace Needle

theorem needleAt_of (g : Nat → Option Int) (l : List Stitch) : ∀ n,
    (∀ (k : Nat) w, (needleWords l)[k]? = some w → (decodeCommand w.cmd).2.2.1 = g (n + k + 1)) →
    needleAt (g n) l = (needledFrom n l).map (fun q => (g q.1, q.2)) := by
  induction l with
  | nil => intro n _; rfl
  | cons a l ih =>
    intro n h
    rw [needleAt, needledFrom]
    by_cases h9 : a.low = 9
    · have hw : needleWords (a :: l) = a :: needleWords l := by
        unfold needleWords; rw [List.filter_cons_of_pos (by simpa using h9)]
      rw [hw] at h
      rw [if_pos h9, if_pos h9, h 0 a rfl]
      refine ih (n + 1) (fun k w hk => ?_)
      rw [h (k + 1) w (by simpa using hk)]
      congr 1; omega
    · have hw : needleWords (a :: l) = needleWords l := by
        unfold needleWords; rw [List.filter_cons_of_neg (by simpa using h9)]
      rw [hw] at h
      rw [if_neg h9, if_neg h9]
      by_cases h0 : a.low = 0
      · rw [if_pos h0, if_pos h0, List.map_cons, ih n h]
      · rw [if_neg h0, if_neg h0, ih n h]

theorem forall2_both {α β : Type} {R S : α → β → Prop} {l : List α} {m : List β} (h : List.Forall₂ R l m) :
    List.Forall₂ S l m → List.Forall₂ (fun a b => R a b ∧ S a b) l m := by
  induction h with
  | nil => intro _; exact .nil
  | cons h1 _ ih => intro h2; cases h2 with | cons h3 h4 => exact .cons ⟨h1, h3⟩ (ih h4)

theorem place_map (rs : List Rec) (g : Int → Int) : ∀ x y : ℚ, place x y (rs.map (fun r => ⟨r.dx, r.dy, g r.cmd⟩)) =
    (place x y rs).map (fun b => ⟨b.x, b.y, g b.cmd⟩) := by
  induction rs with
  | nil => intro x y; rfl
  | cons r rs ih => intro x y; rw [List.map_cons, place, place, List.map_cons, ih]

theorem place_cmds (rs : List Rec) : ∀ x y : ℚ, (place x y rs).map (·.cmd) = rs.map (·.cmd) := by
  induction rs with
  | nil => intro x y; rfl
  | cons r rs ih => intro x y; rw [place, List.map_cons, List.map_cons, ih]

theorem alike_wdeltas (l : List Stitch) :
    List.Forall₂ (fun a b : Stitch => SaveLoad.Alike a b ∧ a.cmd = b.cmd) l (place 0 0 (wdeltas 0 0 l)) := by
  apply forall2_both
  · have h := SaveLoad.alike_deltas l
    rw [deltas_eq, place_map, List.forall₂_map_right_iff] at h
    refine h.imp (fun a b h => ⟨?_, h.2⟩)
    rw [← h.1]
    show b.cmd % 256 = cmdOf b.cmd % 256
    unfold cmdOf
    omega
  · have h : l.map (·.cmd) = (place 0 0 (wdeltas 0 0 l)).map (·.cmd) := by rw [place_cmds, wdeltas_cmds]
    rw [← List.forall₂_eq_eq_eq, List.forall₂_map_left_iff, List.forall₂_map_right_iff] at h
    exact h

theorem needleAt_alike {l m : List Stitch} (h : List.Forall₂ (fun a b : Stitch => SaveLoad.Alike a b ∧ a.cmd = b.cmd) l m) :
    ∀ c, List.Forall₂ OnGrid (needleAt c l) (needleAt c m) := by
  induction h with
  | nil => intro n; exact .nil
  | @cons a b l m h1 _ ih =>
    intro n
    obtain ⟨⟨e, hx, hy, i, j, hi, hj⟩, ec⟩ := h1
    rw [needleAt, needleAt, e, ec]
    split_ifs
    · exact ih _
    · refine .cons ⟨rfl, hx, hy, ?_⟩ (ih _)
      rintro ⟨u, v, hp⟩
      have hu : a.x = u := congrArg Prod.fst hp
      have hv : a.y = v := congrArg Prod.snd hp
      show (b.x, b.y) = (a.x, a.y)
      rw [hi] at hx ⊢
      rw [hj] at hy ⊢
      rw [SaveLoad.whole_near hu hx, SaveLoad.whole_near hv hy]
    · exact ih _

/-- A file that shows needle commands with their needle and STITCH as itself keeps the needles. -/
theorem needleAt_view (l : List Stitch) : ∀ c, needleAt c (view U01.shows l) = needleAt c l := by
  induction l with
  | nil => intro c; rfl
  | cons a l ih =>
    intro c
    unfold view at ih ⊢
    have hb : 0 ≤ a.cmd % 256 ∧ a.cmd % 256 < 256 := by omega
    rw [List.filterMap_cons, needleAt]
    unfold U01.shows
    unfold Stitch.low
    by_cases h4 : a.cmd % 256 ≤ 4
    · rw [if_pos h4, Option.map_some, if_neg (by omega)]
      have hl : a.cmd % 256 % 256 = a.cmd % 256 := by omega
      simp only [needleAt, Stitch.low, hl]
      rw [if_neg (by omega)]
      split_ifs
      · exact congrArg _ (ih c)
      · exact ih c
    · rw [if_neg h4]
      by_cases h9 : a.cmd % 256 = 9
      · rw [if_pos h9, Option.map_some, if_pos h9]
        have hl : (9 + a.cmd / 65536 % 256 * 65536) % 256 = 9 := by omega
        have hd : (decodeCommand (9 + a.cmd / 65536 % 256 * 65536)).2.2.1 = (decodeCommand a.cmd).2.2.1 := by
          unfold decodeCommand
          simp only
          congr 1; omega
        simp only [needleAt, Stitch.low, hl, hd, if_true]
        exact ih _
      · rw [if_neg h9, Option.map_none, if_neg h9, if_neg (by omega)]
        exact ih c

end Needle

/-- **C95**: the needles are taken in turn: without explicit needles and SET_CHANGE_SEQUENCE, what is sewn after the k-th colour has begun is
sewn with needle `(k - 1) mod needle_count + 1`. Partial: at most 254 change commands, as in C31. -/
theorem C95_in_turn_partial (hv : o.ValidSequins) (hc : o.changeCommand = 9) (hl : 1 ≤ o.needleCount)
    (hl2 : o.needleCount < 255) (h : encode o lm threads source = .ok (out, ths))
    (hn : source.countP (fun st => st.low ∈ [5, 9, 226, 16]) ≤ 254)
    (hset : ∀ st ∈ source, st.low ≠ 16) (hex : ∀ st ∈ source, ChangeLike st → (decodeCommand st.cmd).2.2.1 = none) :
    needleAt none out = (walkNeedled lm o.round 0 (o.head lm) source.getLast? source).map (fun q => (inTurn o.needleCount q.1, q.2)) := by
  rw [← (C95_needles hv hc h).1]
  refine Needle.needleAt_of (inTurn o.needleCount) out 0 (fun k w hw => ?_)
  rw [C31_needle_cycle_partial hv hc hl hl2 h hn hset hex k w hw, Nat.zero_add]
  rfl

/-- **C95**: U01. A design saved with U01 settings and loaded again is sewn with the same needles at the same points, put on the grid.
Partial: the conditions of C13. -/
theorem C95_u01_partial (hlm : lm.Sound) (hv : o.ValidSequins)
    (h1 : o.maxStitch = some 127) (h2 : o.maxJump = some 127) (h3 : o.longStitch = 0xF1 ∨ o.longStitch = 0xF2)
    (hc : o.changeCommand = 9) (hs : o.sequin ≠ 0xF5)
    (hq : ∀ st ∈ source, st.low ≠ 0xD5 ∧ st.low ≠ 0xD6 ∧ st.low ≠ 0xF0 ∧ st.low ≠ 0xF5)
    (hsp : ∀ st ∈ source, st.low ≠ 11 ∧ st.low ≠ 12)
    (h : encode o lm threads source = .ok (out, ths)) (hn : ∀ a ∈ out, U01.NeedleFits a.cmd) :
    ∃ f, U01.write out = .ok f ∧ List.Forall₂ OnGrid (needleAt none out) (needleAt none (U01.read f)) := by
  obtain ⟨f, hw, hr⟩ := U01.C13_roundtrip_partial hlm hv h1 h2 h3 hc hs hq hsp h hn
  refine ⟨f, hw, ?_⟩
  rw [hr, Needle.needleAt_view]
  exact Needle.needleAt_alike (Needle.alike_wdeltas out) none

/-- **C95**: TBF, under the conditions of C14. -/
theorem C95_tbf_partial {name tp : Str} (hlm : lm.Sound) (hv : o.ValidSequins) (hr : o.round = true)
    (h1 : o.maxStitch = some 127) (h2 : o.maxJump = some 127) (h3 : o.longStitch = 0xF1 ∨ o.longStitch = 0xF2)
    (hc : o.changeCommand = 9) (hs : o.sequin ≠ 0xF5)
    (hq : ∀ st ∈ source, st.low ≠ 0xD5 ∧ st.low ≠ 0xD6 ∧ st.low ≠ 0xF0 ∧ st.low ≠ 0xF5)
    (h : encode o lm threads source = .ok (out, ths)) (hn : ∀ a ∈ out, a.low = 9 → 2 ≤ a.cmd / 65536 % 256)
    (hj : ∀ r ∈ wdeltas 0 0 out, r.cmd % 256 = 1 → r.dx ≠ 0 ∨ r.dy ≠ 0)
    (hname : (∀ c, name.head? = some c → isSpace c = false) ∧ (∀ c, name.getLast? = some c → isSpace c = false))
    (hf : Tbf.Fits name tp threads out) :
    ∃ f d, Tbf.write name tp threads out = .ok f ∧ Tbf.read f = .ok d ∧ d.threads = threads.map (fun t => some (t.color % 16777216)) ∧
      List.Forall₂ OnGrid (needleAt none out) (needleAt none d.stitches) := by
  obtain ⟨f, hw, hrd⟩ := Tbf.C14_roundtrip_partial hlm hv hr h1 h2 h3 hc hs hq h hn hj hname hf
  refine ⟨f, _, hw, hrd, rfl, ?_⟩
  have : view Tbf.shows (place 0 0 (wdeltas 0 0 out)) = view U01.shows (place 0 0 (wdeltas 0 0 out)) := rfl
  simp only [this]
  rw [Needle.needleAt_view]
  exact Needle.needleAt_alike (Needle.alike_wdeltas out) none

/-! ## Examples -/

-- three needles, four colours, the last with the first needle again
example : needleAt none (demoEncode { threadChange := 9, needleCount := 3, tieOn := .bool false, tieOff := .bool false }
    [⟨0, 0, 0⟩, ⟨0, 0, 5⟩, ⟨1, 1, 0⟩, ⟨0, 0, 9⟩, ⟨2, 2, 0⟩, ⟨0, 0, 0xE2⟩, ⟨3, 3, 0⟩, ⟨4, 4, 0⟩]) =
    [(some 1, (0, 0)), (some 2, (1, 1)), (some 3, (2, 2)), (some 1, (3, 3)), (some 1, (4, 4))] := by decide +kernel

-- a tie asked for before anything is sewn comes before the first needle is set; the tie before a change is sewn with the old needle
example : (needleAt none (demoEncode { threadChange := 9, needleCount := 3, tieOn := .bool true, tieOff := .bool true }
    [⟨0, 0, 0xE4⟩, ⟨5, 5, 0⟩, ⟨0, 0, 5⟩, ⟨9, 9, 0⟩])).map (·.1) =
    [none, none, none, none, some 1, some 1, some 1, some 1, some 1, some 2] := by decide +kernel

example : ∀ st ∈ saveDemo, st.low ≠ 16 ∧ (decodeCommand st.cmd).2.2.1 = none := by decide +kernel
example : ∀ a ∈ demoEncode U01.settings saveDemo, U01.NeedleFits a.cmd := by unfold U01.NeedleFits; decide +kernel
example : (U01.write (demoEncode U01.settings saveDemo)).toOption.map (fun f => needleAt none (U01.read f)) =
    some [(some 1, (0, 0)), (some 1, (5, 3)), (some 1, (-300, 3)), (some 2, (-301, 4)), (some 2, (-301, -4))] := by decide +kernel
example : (Tbf.again "ab".toList [{ color := 0x102030 }] saveDemo).toOption.map (fun d => needleAt none d.stitches) =
    some [(some 1, (0, 0)), (some 1, (5, 3)), (some 1, (-300, 4)), (some 2, (-301, 4)), (some 2, (-301, -4))] := by decide +kernel

end Emb
