import Verif.PlanLemmas
import Verif.Props.Commands

/-!
# Colour changes (C27, C28, C30, C31)
-/

namespace Emb

variable {o : Settings} {lm : Libm} {threads : List Thread} {source out : List Stitch} {ths : List (Option Thread)}

theorem buildPlan_has {plan : List (Int × Full)} (h : buildPlan o threads source = .ok plan) :
    Has 0 plan ∧ ∀ e ∈ events source 0, ∀ k, e.flags ≠ SET_CHANGE_SEQUENCE → e.index = some k → Has k plan := by
  obtain ⟨h1, h2⟩ := rawPlan_has threads source
  exact ⟨fillPlan_has h h1, fun e he k hf hi => fillPlan_has h (h2 e he k hf hi)⟩

/-- C27: normalizing never fails with a missing planned change (`KeyError`), or in any other way than by a division by
zero (a limit or needle count of zero, or a matrix without inverse). -/
theorem C27_only_zero_division {e : PyErr} (h : encode o lm threads source = .error e) : e = .zeroDivision := by
  unfold encode at h
  cases hp : buildPlan o threads source with
  | error e' =>
    rw [hp] at h; injection h with h; subst h
    exact (fillPlan_err _ _ _ _ hp).1
  | ok plan =>
    rw [hp] at h
    simp only at h
    obtain ⟨h0, hk⟩ := buildPlan_has hp
    cases hr : runFrom (mkCfg o lm source plan) 0 (initSt o lm threads) source with
    | error e' =>
      rw [hr] at h; injection h with h; subst h
      exact run_err source 0 _ 0 e' (by simp [initSt]) (by simp [initSt]) (fun k a b => absurd a (by omega)) h0 hk hr
    | ok sf => rw [hr] at h; cases h

/-- Good limits stay good and steps succeed or miss a key. -/
theorem run_total {cfg : Cfg} : ∀ (rest : List Stitch) (position : Nat) (s : St), ¬ BadLimit s →
    (∀ st ∈ rest, st.low ≠ 0xD5 ∧ st.low ≠ 0xD6 ∧ st.low ≠ 0xC4 ∧ st.low ≠ 0xC5) →
    ∀ e, runFrom cfg position s rest = .error e → e = .keyError := by
  intro rest
  induction rest with
  | nil => intro position s _ _ e h; simp [runFrom] at h
  | cons st rest ih =>
    intro position s hb hq e h
    have hr := step_res (cfg := cfg) (s := s) (position := position) st
    obtain ⟨q1, q2, q3, q4⟩ := hq st List.mem_cons_self
    simp only [runFrom] at h
    by_cases hend : cmdOf st.cmd = END
    · rw [if_pos hend] at h; cases h
    rw [if_neg hend] at h
    cases hs : step cfg position s st with
    | error e' =>
      rw [hs] at h; injection h with h; subst h
      rcases hr.err e' hs with ⟨_, hb' | hc | hc⟩ | ⟨⟨he, _⟩, _⟩
      · exact absurd hb' hb
      · exact absurd hc q3
      · exact absurd hc q4
      · exact he
    | ok s' =>
      rw [hs] at h
      have hl := hr.limits s' hs
      refine ih (position + 1) s' ?_ (fun t ht => hq t (List.mem_cons_of_mem _ ht)) e h
      intro hb'
      exact hb (hb'.of_keep (hl.1 q1) (hl.2 q2))

/-- C27: with positive limits, a non-zero needle count and no in-pattern limit or MATRIX_SCALE/MATRIX_ROTATE command,
normalizing always succeeds. -/
theorem C27_total (hn : o.needleCount ≠ 0) (h1 : ∀ m, o.maxStitch = some m → 0 < m) (h2 : ∀ m, o.maxJump = some m → 0 < m)
    (hq : ∀ st ∈ source, st.low ≠ 0xD5 ∧ st.low ≠ 0xD6 ∧ st.low ≠ 0xC4 ∧ st.low ≠ 0xC5) :
    ∃ out ths, encode o lm threads source = .ok (out, ths) := by
  cases h : encode o lm threads source with
  | ok r => exact ⟨r.1, r.2, rfl⟩
  | error e =>
    exfalso
    have hz := C27_only_zero_division h
    subst hz
    unfold encode at h
    cases hp : buildPlan o threads source with
    | error e' => exact hn (fillPlan_err _ _ _ _ hp).2
    | ok plan =>
      rw [hp] at h
      simp only at h
      cases hr : runFrom (mkCfg o lm source plan) 0 (initSt o lm threads) source with
      | error e' =>
        rw [hr] at h; injection h with h; subst h
        have hb : ¬ BadLimit (initSt o lm threads) := by
          rintro ⟨m, hm | hm, h0⟩
          · exact absurd (h1 m hm) (not_lt.2 h0)
          · exact absurd (h2 m hm) (not_lt.2 h0)
        have := run_total source 0 _ hb hq _ hr
        cases this
      | ok sf => rw [hr] at h; cases h

/-- The source sews or changes colour before its END: some STITCH, SEW_TO, NEEDLE_AT, SEQUIN_EJECT, COLOR_CHANGE or
NEEDLE_SET. -/
def Uses (source : List Stitch) : Prop :=
  ∃ pre st post, source = pre ++ st :: post ∧ (∀ b ∈ pre, b.low ≠ 4) ∧ st.low ∈ [0, 176, 177, 7, 5, 9]

theorem trim_ord {s : St} (h : TrimInv s) (ht : s.trimmed = false) : 0 ≤ s.order := (h.2.2 ht).2

theorem step_trimInv {cfg : Cfg} {position : Nat} {s s' : St} {st : Stitch} (hI : BaseInv s) (h : TrimInv s)
    (hs : step cfg position s st = .ok s') : TrimInv s' :=
  chain_lift (fun _ _ _ hm => micro_trim hm) (step_chain st hI hs).1 hI h

theorem step_order_ge {cfg : Cfg} {position : Nat} {s s' : St} {st : Stitch} (hs : step cfg position s st = .ok s') :
    s.order ≤ s'.order := by
  have ho := (step_res (cfg := cfg) (s := s) (position := position) st).order s' hs
  simp only at ho
  omega

theorem step_uses {cfg : Cfg} {position : Nat} {s s' : St} {st : Stitch} (hI : BaseInv s) (ht : TrimInv s)
    (hs : step cfg position s st = .ok s') (hc : st.low ∈ [0, 176, 177, 7, 5, 9]) : 0 ≤ s'.order := by
  have hr := step_res (cfg := cfg) (s := s) (position := position) st
  have hge := step_order_ge hs
  have hI2 := hI.2
  by_cases h5 : st.low = 5 ∨ st.low = 9
  · have := hr.change s' hs (by rcases h5 with h | h; exacts [.inl h, .inr h])
    simp only at this
    omega
  · have hsew : isSewing (cmdOf st.cmd) = true := by
      unfold isSewing
      simp only [Bool.or_eq_true, beq_iff_eq]
      simp only [List.mem_cons, List.not_mem_nil, or_false] at hc
      unfold Stitch.low at hc h5
      unfold cmdOf STITCH SEW_TO NEEDLE_AT SEQUIN_EJECT
      omega
    obtain ⟨a, b⟩ := hr.sewing s' hs hsew
    cases htr : s.trimmed with
    | false => have := trim_ord ht htr; omega
    | true =>
      by_cases ho : s.order = -1
      · have := b htr ho; omega
      · omega

theorem run_uses {cfg : Cfg} : ∀ (rest : List Stitch) (position : Nat) (s sf : St), BaseInv s → TrimInv s →
    (0 ≤ s.order ∨ Uses rest) → runFrom cfg position s rest = .ok sf → 0 ≤ sf.order := by
  intro rest
  induction rest with
  | nil =>
    intro position s sf _ _ hu h
    simp only [runFrom] at h; injection h with h; subst h
    rcases hu with hu | ⟨pre, st, post, e, _⟩
    · exact hu
    · simp at e
  | cons st rest ih =>
    intro position s sf hI ht hu h
    simp only [runFrom] at h
    by_cases hend : cmdOf st.cmd = END
    · rw [if_pos hend] at h; injection h with h; subst h
      rcases hu with hu | ⟨pre, b, post, e, hp, hb⟩
      · exact hu
      · exfalso
        cases pre with
        | nil =>
          simp at e; obtain ⟨rfl, rfl⟩ := e
          have : st.low = 4 := hend
          rw [this] at hb; simp at hb
        | cons c pre =>
          simp at e; obtain ⟨rfl, _⟩ := e
          exact hp st List.mem_cons_self hend
    · rw [if_neg hend] at h
      cases hs : step cfg position s st with
      | error e => rw [hs] at h; cases h
      | ok s' =>
        rw [hs] at h
        refine ih (position + 1) s' sf (chain_base (step_chain st hI hs).1 hI) (step_trimInv hI ht hs) ?_ h
        have hge := step_order_ge hs
        rcases hu with hu | ⟨pre, b, post, e, hp, hb⟩
        · left; omega
        · cases pre with
          | nil => simp at e; obtain ⟨rfl, rfl⟩ := e; left; exact step_uses hI ht hs hb
          | cons c pre =>
            simp at e; obtain ⟨rfl, e⟩ := e
            exact .inr ⟨pre, b, post, e, fun x hx => hp x (List.mem_cons_of_mem _ hx), hb⟩

theorem encode_count (hv : o.ValidSequins) (hc : o.changeCommand = 5) (h : encode o lm threads source = .ok (out, ths)) :
    ∃ order : Int, -1 ≤ order ∧ (ths.length : Int) = order + 1 ∧
      ((changes out : Nat) : Int) = (if order < 0 then 0 else order) ∧ (Uses source → 0 ≤ order) := by
  obtain ⟨plan, sf, hp, hr, rfl, rfl⟩ := encode_state h
  obtain ⟨s0, hI, hP, e⟩ := run_inv (cfg := mkCfg o lm source plan) (P := CountInv) (Q := fun _ => True)
    (fun position s st s' hI hP _ hs =>
      chain_lift (fun a b hb hmic => micro_count (cfg := mkCfg o lm source plan) hc hb hmic) (step_chain st hI hs).1 hI hP)
    (fun s v hs => ⟨flagsOf_low v, hs.2⟩) source 0 _ sf (init_base o lm threads hv) (init_count o lm threads hc)
    (fun _ _ => trivial) hr
  have hord : sf.order = s0.order := by rw [e]; rfl
  refine ⟨s0.order, hI.2, by rw [e]; exact hP.2.1, ?_, ?_⟩
  · rw [← hP.2.2, e]
    show ((changes (s0.out ++ [⟨s0.nx, s0.ny, END + s0.high⟩]) : Nat) : Int) = _
    rw [changes_snoc, low_add hP.1 (by decide) (by decide), if_neg (by decide)]; simp
  · intro hu
    rw [← hord]
    exact run_uses source 0 _ sf (init_base o lm threads hv) (init_trim o lm threads) (.inr hu) hr

/-- C27: in COLOR_CHANGE mode, as soon as the source sews or changes colour, the result has one more thread than colour
changes; otherwise it has neither. -/
theorem C27_thread_count (hv : o.ValidSequins) (hc : o.changeCommand = 5) (h : encode o lm threads source = .ok (out, ths)) :
    (Uses source → ths.length = out.countP (fun a => a.low == 5) + 1) ∧
    (ths.length = out.countP (fun a => a.low == 5) + 1 ∨ (ths = [] ∧ out.countP (fun a => a.low == 5) = 0)) := by
  obtain ⟨order, h0, h1, h2, h3⟩ := encode_count hv hc h
  unfold changes at h2
  constructor
  · intro hu
    have := h3 hu
    rw [if_neg (by omega)] at h2
    omega
  · by_cases hneg : order < 0
    · right
      rw [if_pos hneg] at h2
      refine ⟨List.length_eq_zero_iff.1 (by omega), by omega⟩
    · left
      rw [if_neg hneg] at h2
      omega

/-- In NEEDLE_SET mode the thread list is the source's. -/
theorem C27_needle_mode (hv : o.ValidSequins) (hc : o.changeCommand = 9) (h : encode o lm threads source = .ok (out, ths)) :
    ths = threads.map some := by
  obtain ⟨s, _, hs, _, rfl⟩ := encode_lift (P := fun s => s.threads = threads.map some) (Q := fun _ => True) hv h
    (by simp [initSt, hc, NEEDLE_SET]) (fun _ _ => trivial)
    (fun plan c G a b _ _ hm hs => by
      cases hm
      case change hm =>
        obtain ⟨ch, _, hcase⟩ := nextChange_out hm
        have hc' : (mkCfg o lm source plan).change = 9 := hc
        rw [hc'] at hcase
        rcases hcase with ⟨hx, _⟩ | ⟨_, e, _⟩ | ⟨hx, _⟩ | ⟨_, hx, _⟩
        · simp [COLOR_CHANGE] at hx
        · rw [e]; exact hs
        · simp [STOP] at hx
        · simp [NEEDLE_SET] at hx
      all_goals exact hs)
    (fun s v hs => hs)
  exact hs

/-! ## C28 -/

/-- Output written while the first `n` source commands are processed. -/
def outAfter (o : Settings) (lm : Libm) (threads : List Thread) (source : List Stitch) (n : Nat) :
    Except PyErr (List Stitch) :=
  match buildPlan o threads source with
  | .error e => .error e
  | .ok plan =>
    match stepsFrom (mkCfg o lm source plan) 0 (initSt o lm threads) (source.take n) with
    | .error e => .error e
    | .ok s => .ok s.out

theorem stepsFrom_append {cfg : Cfg} : ∀ (pre : List Stitch) (position : Nat) (s : St) (rest : List Stitch),
    stepsFrom cfg position s (pre ++ rest) = (stepsFrom cfg position s pre >>= fun s1 =>
      stepsFrom cfg (position + pre.length) s1 rest) := by
  intro pre
  induction pre with
  | nil => intro position s rest; rfl
  | cons st pre ih =>
    intro position s rest
    rw [List.cons_append]
    simp only [stepsFrom]
    cases step cfg position s st with
    | error e => rfl
    | ok s' =>
      simp only
      rw [ih, List.length_cons, show position + (pre.length + 1) = position + 1 + pre.length by omega]

theorem steps_single {cfg : Cfg} {position : Nat} {s : St} {st : Stitch} :
    stepsFrom cfg position s [st] = step cfg position s st := by
  simp only [stepsFrom]; cases step cfg position s st <;> rfl

/-- `outAfter` around one command. -/
theorem outAfter_step {pre post : List Stitch} {st : Stitch} {l : List Stitch}
    (h : outAfter o lm threads (pre ++ st :: post) (pre.length + 1) = .ok l) :
    ∃ plan s s', buildPlan o threads (pre ++ st :: post) = .ok plan ∧
      stepsFrom (mkCfg o lm (pre ++ st :: post) plan) 0 (initSt o lm threads) pre = .ok s ∧
      step (mkCfg o lm (pre ++ st :: post) plan) pre.length s st = .ok s' ∧ l = s'.out ∧
      outAfter o lm threads (pre ++ st :: post) pre.length = .ok s.out := by
  unfold outAfter at h ⊢
  cases hp : buildPlan o threads (pre ++ st :: post) with
  | error e => rw [hp] at h; cases h
  | ok plan =>
    rw [hp] at h
    simp only at h ⊢
    have t1 : (pre ++ st :: post).take (pre.length + 1) = pre ++ [st] := by
      rw [List.take_append, List.take_of_length_le (by omega)]
      simp
    have t0 : (pre ++ st :: post).take pre.length = pre := by simp
    rw [t1, stepsFrom_append] at h
    rw [t0]
    cases hs : stepsFrom (mkCfg o lm (pre ++ st :: post) plan) 0 (initSt o lm threads) pre with
    | error e => rw [hs] at h; cases h
    | ok s =>
      rw [hs] at h
      simp only [bind, Except.bind, Nat.zero_add, steps_single] at h
      cases hs' : step (mkCfg o lm (pre ++ st :: post) plan) pre.length s st with
      | error e => rw [hs'] at h; cases h
      | ok s' =>
        rw [hs'] at h
        injection h with h
        exact ⟨plan, s, s', rfl, hs, hs', h.symm, rfl⟩

/-- A successful encoding passes through `outAfter`. -/
theorem outAfter_of_encode {pre post : List Stitch} (hp : ∀ b ∈ pre, b.low ≠ 4)
    (h : encode o lm threads (pre ++ post) = .ok (out, ths)) :
    ∃ l, outAfter o lm threads (pre ++ post) pre.length = .ok l := by
  obtain ⟨plan, sf, hb, hr, _, _⟩ := encode_state h
  obtain ⟨s1, h1, _⟩ := run_split pre 0 _ sf post hp hr
  unfold outAfter
  rw [hb]
  simp only [List.take_left, h1]
  exact ⟨_, rfl⟩

theorem steps_unused {cfg : Cfg} : ∀ (pre : List Stitch) (position : Nat) (s s1 : St), s.order = -1 →
    (∀ b ∈ pre, b.low ∉ [0, 176, 177, 7, 5, 9]) → stepsFrom cfg position s pre = .ok s1 → s1.order = -1 := by
  intro pre
  induction pre with
  | nil => intro position s s1 ho _ h; simp only [stepsFrom] at h; injection h with h; subst h; exact ho
  | cons st pre ih =>
    intro position s s1 ho hq h
    simp only [stepsFrom] at h
    cases hs : step cfg position s st with
    | error e => rw [hs] at h; cases h
    | ok s' =>
      rw [hs] at h
      refine ih (position + 1) s' s1 ?_ (fun b hb => hq b (List.mem_cons_of_mem _ hb)) h
      have hr := step_res (cfg := cfg) (s := s) (position := position) st
      have hq := hq st List.mem_cons_self
      simp only [List.mem_cons, List.not_mem_nil, or_false] at hq
      unfold Stitch.low at hq
      rcases hr.order s' hs with h1 | ⟨h1, h2⟩ | ⟨h1, _⟩
      · simp only at h1; omega
      · unfold isChange at h1
        simp only [Bool.or_eq_true, beq_iff_eq] at h1
        have hb : cmdOf st.cmd = COLOR_BREAK := by
          unfold cmdOf COLOR_CHANGE NEEDLE_SET at h1
          unfold cmdOf; omega
        have := hr.breaks s' hs hb (by simp only; omega)
        rw [this]; exact ho
      · unfold isSewing at h1
        simp only [Bool.or_eq_true, beq_iff_eq] at h1
        unfold cmdOf STITCH SEW_TO NEEDLE_AT SEQUIN_EJECT at h1
        omega

theorem step_break {cfg : Cfg} {position : Nat} {s : St} {st : Stitch} (hb : st.low = 226) :
    step cfg position s st = colorBreak cfg position { s with high := flagsOf st.cmd } := by
  have hb : cmdOf st.cmd = COLOR_BREAK := hb
  unfold step
  simp only [hb]
  rfl

/-- C28: a COLOR_BREAK before anything is sewn (or a colour changed) writes nothing. -/
theorem C28_leading {pre post : List Stitch} {st : Stitch} (hb : st.low = 226)
    (hpre : ∀ b ∈ pre, b.low ∉ [0, 176, 177, 7, 5, 9]) {l : List Stitch}
    (h : outAfter o lm threads (pre ++ st :: post) (pre.length + 1) = .ok l) :
    outAfter o lm threads (pre ++ st :: post) pre.length = .ok l := by
  obtain ⟨plan, s, s', _, h1, h2, rfl, h3⟩ := outAfter_step h
  have ho := steps_unused pre 0 _ s (by simp [initSt]) hpre h1
  rw [step_break hb] at h2
  unfold colorBreak at h2
  rw [if_pos (by simp only; omega)] at h2
  injection h2 with h2; subst h2
  exact h3

theorem tieOffTrim_out {cfg : Cfg} {position : Nat} {s : St} (hh : HighInv s) :
    ∃ l, (tieOffTrimIfExplicit cfg position s).out = s.out ++ l ∧ ∀ a ∈ l, a.low = 0 ∨ a.low = 2 ∨ a.low = 6 := by
  unfold tieOffTrimIfExplicit
  by_cases ht : s.trimmed = true
  · rw [if_pos ht]; exact ⟨[], by simp, by simp⟩
  · rw [if_neg ht]
    have ho : ∃ l, (tieOff cfg position s) = { s with out := s.out ++ l } ∧ ∀ a ∈ l, a.low = 0 := by
      have key : ∀ b, ∃ l, lockTowards cfg s b = { s with out := s.out ++ l } ∧ ∀ a ∈ l, a.low = 0 := by
        intro b
        unfold lockTowards
        simp only
        split_ifs
        · refine ⟨_, rfl, ?_⟩
          obtain ⟨a1, a2, a3, e, e1, e2, e3⟩ := lockStitches_eq cfg.lm s.nx s.ny (s.matrix.point b.x b.y).1
            (s.matrix.point b.x b.y).2 s.maxStitch
          rw [e]
          intro a ha
          simp at ha
          rcases ha with rfl | rfl | rfl | rfl <;> simp [Stitch.low, e1, e2, e3]
        · exact ⟨[], by simp, by simp⟩
      unfold tieOff
      split
      · split
        · exact key _
        · exact ⟨[], by simp, by simp⟩
      · exact ⟨[], by simp, by simp⟩
    obtain ⟨l, e, hl⟩ := ho
    simp only [e]
    by_cases hx : s.explicitTrim = true
    · rw [if_pos hx]
      unfold trimHere toggleSequins
      simp only
      by_cases hm : s.sequinMode = true
      · rw [if_pos hm]
        by_cases hu : s.sequinC = CONTINGENCY_SEQUIN_UTILIZE
        · rw [if_pos hu]
          refine ⟨l ++ [⟨s.nx, s.ny, SEQUIN_MODE + s.high⟩, ⟨s.nx, s.ny, TRIM + s.high⟩], by simp [St.add], ?_⟩
          intro a ha
          rcases List.mem_append.1 ha with ha | ha
          · exact .inl (hl a ha)
          · simp at ha
            rcases ha with rfl | rfl
            · exact .inr (.inr (low_add hh (by decide) (by decide)))
            · exact .inr (.inl (low_add hh (by decide) (by decide)))
        · rw [if_neg hu]
          refine ⟨l ++ [⟨s.nx, s.ny, TRIM + s.high⟩], by simp [St.add], ?_⟩
          intro a ha
          rcases List.mem_append.1 ha with ha | ha
          · exact .inl (hl a ha)
          · simp at ha; subst ha; exact .inr (.inl (low_add hh (by decide) (by decide)))
      · rw [if_neg hm]
        refine ⟨l ++ [⟨s.nx, s.ny, TRIM + s.high⟩], by simp [St.add], ?_⟩
        intro a ha
        rcases List.mem_append.1 ha with ha | ha
        · exact .inl (hl a ha)
        · simp at ha; subst ha; exact .inr (.inl (low_add hh (by decide) (by decide)))
    · rw [if_neg hx]
      exact ⟨l, rfl, fun a ha => .inl (hl a ha)⟩

/-- The commands the code looks for when it decides whether sewing follows: STITCH, NEEDLE_AT, SEW_TO, TIE_ON,
SEQUIN_EJECT without flags. -/
def SewsLater (post : List Stitch) : Prop :=
  ∃ p b q, post = p ++ b :: q ∧ (∀ c ∈ p, c.cmd ≠ 4) ∧ b.cmd ∈ [0, 177, 176, 228, 7]

theorem lookaheadIn_iff (post : List Stitch) : lookaheadIn post = true ↔ SewsLater post := by
  induction post with
  | nil => simp [lookaheadIn, SewsLater]
  | cons st rest ih =>
    have comb : lookaheadIn (st :: rest) = true ↔ (st.cmd ∈ [0, 177, 176, 228, 7] ∨ (st.cmd ≠ 4 ∧ lookaheadIn rest = true)) := by
      rw [lookaheadIn.eq_2]
      unfold STITCH NEEDLE_AT SEW_TO TIE_ON SEQUIN_EJECT END
      simp only [List.mem_cons, List.not_mem_nil, or_false]
      split_ifs <;> simp_all
    rw [comb, ih]
    constructor
    · rintro (h | ⟨h, p, b, q, e, hp, hb⟩)
      · exact ⟨[], st, rest, rfl, by simp, h⟩
      · refine ⟨st :: p, b, q, by rw [e]; rfl, ?_, hb⟩
        intro c hc
        rcases List.mem_cons.1 hc with rfl | hc
        · exact h
        · exact hp c hc
    · rintro ⟨p, b, q, e, hp, hb⟩
      cases p with
      | nil => simp at e; obtain ⟨rfl, rfl⟩ := e; exact .inl hb
      | cons c p =>
        simp at e; obtain ⟨rfl, e⟩ := e
        exact .inr ⟨hp st List.mem_cons_self, p, b, q, e, fun c hc => hp c (List.mem_cons_of_mem _ hc), hb⟩

theorem lookahead_split {pre post : List Stitch} {st : Stitch} {plan : List (Int × Full)} (hb : st.low = 226) :
    lookahead (mkCfg o lm (pre ++ st :: post) plan) pre.length = lookaheadIn post := by
  unfold lookahead mkCfg
  simp only [List.drop_left]
  have hn : ∀ k : Int, k = 0 ∨ k = 177 ∨ k = 176 ∨ k = 228 ∨ k = 7 ∨ k = 4 → st.cmd ≠ k := by
    intro k hk e
    unfold Stitch.low at hb
    rw [e] at hb
    omega
  unfold lookaheadIn STITCH NEEDLE_AT SEW_TO TIE_ON SEQUIN_EJECT END
  rw [if_neg (hn 0 (by omega)), if_neg (hn 177 (by omega)), if_neg (hn 176 (by omega)), if_neg (hn 228 (by omega)),
    if_neg (hn 7 (by omega)), if_neg (hn 4 (by omega))]
  cases post <;> rfl

/-- C28: a COLOR_BREAK after which no stitching command follows (before END) writes no colour change: at most a tie-off,
a switch out of sequin mode and a trim. -/
theorem C28_trailing {pre post : List Stitch} {st : Stitch} (hb : st.low = 226) (hpost : ¬ SewsLater post) {l : List Stitch}
    (h : outAfter o lm threads (pre ++ st :: post) (pre.length + 1) = .ok l) :
    ∃ l0 l1, outAfter o lm threads (pre ++ st :: post) pre.length = .ok l0 ∧ l = l0 ++ l1 ∧
      ∀ a ∈ l1, a.low = 0 ∨ a.low = 2 ∨ a.low = 6 := by
  obtain ⟨plan, s, s', _, h1, h2, rfl, h3⟩ := outAfter_step h
  refine ⟨s.out, ?_⟩
  rw [step_break hb] at h2
  unfold colorBreak at h2
  by_cases ho : s.order < 0
  · rw [if_pos (by exact ho)] at h2
    injection h2 with h2; subst h2
    exact ⟨[], h3, by simp, by simp⟩
  · rw [if_neg (by exact ho)] at h2
    have hl : lookahead (mkCfg o lm (pre ++ st :: post) plan) pre.length = false := by
      rw [lookahead_split hb]
      by_contra hc
      exact hpost ((lookaheadIn_iff post).1 (by simpa using hc))
    simp only [hl, Bool.false_eq_true, if_false] at h2
    injection h2 with h2; subst h2
    obtain ⟨l, e, hl⟩ := tieOffTrim_out (cfg := mkCfg o lm (pre ++ st :: post) plan) (position := pre.length)
      (s := { s with high := flagsOf st.cmd }) (flagsOf_low _)
    exact ⟨l, h3, e, hl⟩

/-- C28: between sewing commands a COLOR_BREAK writes a colour change, exactly one, as the last thing it does
(COLOR_CHANGE mode). Partial: the following sewing command must carry no flag bits (`SewsLater`), see
`C28_flagged_ignored`. -/
theorem C28_between_partial {pre post : List Stitch} {st : Stitch} (hv : o.ValidSequins) (hc : o.changeCommand = 5)
    (hb : st.low = 226) (hpre : ∃ b ∈ pre, b.low ∈ [0, 176, 177, 7, 5, 9]) (hpost : SewsLater post) {l : List Stitch}
    (h : outAfter o lm threads (pre ++ st :: post) (pre.length + 1) = .ok l) :
    ∃ l0 l1 a, outAfter o lm threads (pre ++ st :: post) pre.length = .ok l0 ∧ l = l0 ++ l1 ++ [a] ∧ a.low = 5 ∧
      (∀ b ∈ l1, b.low = 0 ∨ b.low = 2 ∨ b.low = 6) := by
  obtain ⟨plan, s, s', _, h1, h2, rfl, h3⟩ := outAfter_step h
  have hI := steps_inv (cfg := mkCfg o lm (pre ++ st :: post) plan) (P := TrimInv) (Q := fun _ => True)
    (fun position s st s' hI hP _ hs => step_trimInv hI hP hs) pre 0 _ s (init_base o lm threads hv)
    (init_trim o lm threads) (fun _ _ => trivial) h1
  -- something was sewn
  have ho : 0 ≤ s.order := by
    obtain ⟨b, hbm, hbc⟩ := hpre
    obtain ⟨p, q, rfl⟩ := List.append_of_mem hbm
    rw [stepsFrom_append] at h1
    obtain ⟨s1, g1, g2⟩ := bind_ok.1 h1
    have hI1 := steps_inv (cfg := mkCfg o lm ((p ++ b :: q) ++ st :: post) plan) (P := TrimInv) (Q := fun _ => True)
      (fun position s st s' hI hP _ hs => step_trimInv hI hP hs) p 0 _ s1 (init_base o lm threads hv)
      (init_trim o lm threads) (fun _ _ => trivial) g1
    simp only [stepsFrom] at g2
    cases hs : step (mkCfg o lm ((p ++ b :: q) ++ st :: post) plan) (0 + p.length) s1 b with
    | error e => rw [hs] at g2; cases g2
    | ok s2 =>
      rw [hs] at g2
      have o2 := step_uses hI1.1 hI1.2 hs hbc
      have hI2 := chain_base (step_chain b hI1.1 hs).1 hI1.1
      exact (steps_inv (cfg := mkCfg o lm ((p ++ b :: q) ++ st :: post) plan) (P := fun s => 0 ≤ s.order)
        (Q := fun _ => True) (fun position s st s' _ hP _ hs => le_trans hP (step_order_ge hs)) q _ s2 s hI2 o2
        (fun _ _ => trivial) g2).2
  refine ⟨s.out, ?_⟩
  rw [step_break hb] at h2
  unfold colorBreak at h2
  rw [if_neg (by simp only; omega)] at h2
  have hl : lookahead (mkCfg o lm (pre ++ st :: post) plan) pre.length = true := by
    rw [lookahead_split hb]; exact (lookaheadIn_iff post).2 hpost
  simp only [hl, if_true] at h2
  obtain ⟨t, h4, h5⟩ := bind_ok.1 h2
  rw [pure_ok] at h5; subst h5
  obtain ⟨l, e, hl⟩ := tieOffTrim_out (cfg := mkCfg o lm (pre ++ st :: post) plan) (position := pre.length)
    (s := { s with high := flagsOf st.cmd }) (flagsOf_low _)
  have kp := tieOffTrimIfExplicit_keep (cfg := mkCfg o lm (pre ++ st :: post) plan) (position := pre.length)
    (s := { s with high := flagsOf st.cmd })
  obtain ⟨ch, _, hcase⟩ := nextChange_out h4
  have hord := kp.order
  simp only at hord
  have hc' : (mkCfg o lm (pre ++ st :: post) plan).change = 5 := hc
  rw [hc'] at hcase
  rcases hcase with ⟨_, _, ⟨h0, _⟩ | ⟨_, eo⟩⟩ | ⟨hx, _⟩ | ⟨hx, _⟩ | ⟨hx, _⟩
  · rw [hord] at h0; omega
  · rw [e] at eo
    exact ⟨l, _, h3, eo, encodeThreadChange_low 5 (by decide) (by decide) _ _ _, hl⟩
  · simp [NEEDLE_SET] at hx
  · simp [STOP] at hx
  · exact absurd rfl hx

/-- The part of C28 that fails: if the stitch after the break carries a flag (here ALTERNATIVE, 0x100) the code does not
see it, and no colour change is written although stitching follows on both sides. -/
theorem C28_flagged_ignored :
    encode {} ⟨fun _ _ _ _ => 0, fun _ _ _ _ _ => (0, 0), fun _ => 1, fun _ => 0⟩ [] [⟨0, 0, 0⟩, ⟨0, 0, 226⟩, ⟨5, 5, 256⟩] =
      .ok ([⟨0, 0, 0⟩, ⟨5, 5, 256⟩, ⟨5, 5, 260⟩], [none]) := by decide +kernel

/-- `outAfter` on a pattern with a break between stitches (hypotheses of C28). -/
example : outAfter {} ⟨fun _ _ _ _ => 0, fun _ _ _ _ _ => (0, 0), fun _ => 1, fun _ => 0⟩ []
    [⟨0, 0, 226⟩, ⟨0, 0, 0⟩, ⟨0, 0, 226⟩, ⟨5, 5, 0⟩, ⟨0, 0, 226⟩, ⟨0, 0, 4⟩] 3 = .ok [⟨0, 0, 0⟩, ⟨0, 0, 197125⟩] := by
  decide +kernel

/-! ## C30, C31: what the changes say -/

theorem run_order_ge {cfg : Cfg} : ∀ (rest : List Stitch) (position : Nat) (s sf : St),
    runFrom cfg position s rest = .ok sf → s.order ≤ sf.order := by
  intro rest
  induction rest with
  | nil => intro position s sf h; simp only [runFrom] at h; injection h with h; subst h; exact le_refl _
  | cons st rest ih =>
    intro position s sf h
    simp only [runFrom] at h
    by_cases hend : cmdOf st.cmd = END
    · rw [if_pos hend] at h; injection h with h; subst h; exact le_refl _
    · rw [if_neg hend] at h
      cases hs : step cfg position s st with
      | error e => rw [hs] at h; cases h
      | ok s1 =>
        rw [hs] at h
        exact le_trans (step_order_ge hs) (ih _ _ _ h)

theorem decode_word {t n : Int} (h0 : 0 ≤ t) (h1 : t < 255) (h2 : 0 ≤ n) (h3 : n < 255) :
    decodeCommand (encodeThreadChange 5 (some t) (some n) none) = (5, some t, some n, none) :=
  C01_decode_encode_partial 5 _ _ _ ⟨by omega, by omega⟩ ⟨h0, by omega⟩ ⟨h2, by omega⟩ trivial

/-- The colour changes of a pattern. -/
def changeWords (l : List Stitch) : List Stitch := l.filter (fun a => a.low == 5)

/-- Threads and change words follow the plan. -/
def ChangeInv (plan : List (Int × Full)) (s : St) : Prop :=
  CountInv s ∧ (∀ (k : Nat) t, s.threads[k]? = some t → ∃ ch, dget k plan = some ch ∧ t = ch.thr) ∧
  (∀ (k : Nat) w, (changeWords s.out)[k]? = some w → ∃ ch, dget (k + 1) plan = some ch ∧
    w.cmd = encodeThreadChange 5 (some ch.thread) (some ch.needle) none)

theorem changeWords_append_no {l m : List Stitch} (h : ∀ a ∈ m, a.low ≠ 5) : changeWords (l ++ m) = changeWords l := by
  unfold changeWords
  have : m.filter (fun a => a.low == 5) = [] := List.filter_eq_nil_iff.2 (fun a ha => by simpa using h a ha)
  rw [List.filter_append, this, List.append_nil]

theorem changes_length (l : List Stitch) : (changeWords l).length = changes l := by
  unfold changes changeWords; rw [List.countP_eq_length_filter]

theorem getElem?_snoc {α : Type} {l : List α} {a b : α} {k : Nat} (h : (l ++ [a])[k]? = some b) :
    l[k]? = some b ∨ (k = l.length ∧ b = a) := by
  by_cases hk : k < l.length
  · left; rwa [List.getElem?_append_left hk] at h
  · right
    rw [List.getElem?_append_right (by omega)] at h
    by_cases h0 : k - l.length = 0
    · rw [h0] at h; simp at h; exact ⟨by omega, h.symm⟩
    · rw [List.getElem?_eq_none (by simp; omega)] at h; cases h

theorem micro_change {cfg : Cfg} {c : Int} {G : Prop} {s s' : St} (hc : cfg.change = COLOR_CHANGE) (hI : BaseInv s)
    (h : Micro cfg c G s s') (hs : ChangeInv cfg.plan s) : ChangeInv cfg.plan s' := by
  obtain ⟨hn, ht, hw⟩ := hs
  refine ⟨micro_count hc hI h hn, ?_⟩
  have app : ∀ (x y : ℚ) (k : Int), 0 ≤ k → k < 256 → k ≠ 5 →
      changeWords (s.out ++ [⟨x, y, k + s.high⟩]) = changeWords s.out := by
    intro x y k a b d
    refine changeWords_append_no ?_
    intro z hz
    simp at hz; subst hz
    rw [low_add hn.1 a b]; exact d
  have fin : ∀ out', changeWords out' = changeWords s.out → (∀ (k : Nat) w, (changeWords out')[k]? = some w →
      ∃ ch, dget (k + 1) cfg.plan = some ch ∧ w.cmd = encodeThreadChange 5 (some ch.thread) (some ch.needle) none) := by
    intro out' e k w h; rw [e] at h; exact hw k w h
  cases h with
  | quiet => exact ⟨ht, hw⟩
  | high => exact ⟨ht, hw⟩
  | maxStitch => exact ⟨ht, hw⟩
  | maxJump => exact ⟨ht, hw⟩
  | long => exact ⟨ht, hw⟩
  | sequin => exact ⟨ht, hw⟩
  | untrim => exact ⟨ht, hw⟩
  | toggle h => exact ⟨ht, fin _ (app _ _ 6 (by decide) (by decide) (by decide))⟩
  | stitch x y h => exact ⟨ht, fin _ (app _ _ 0 (by decide) (by decide) (by decide))⟩
  | jump x y h hm => exact ⟨ht, fin _ (app _ _ 1 (by decide) (by decide) (by decide))⟩
  | eject x y h hm => exact ⟨ht, fin _ (app _ _ 7 (by decide) (by decide) (by decide))⟩
  | trim h hm => exact ⟨ht, fin _ (app _ _ 2 (by decide) (by decide) (by decide))⟩
  | stop => exact ⟨ht, fin _ (app _ _ 3 (by decide) (by decide) (by decide))⟩
  | speed v h hw' hcv =>
    rcases h with rfl | rfl
    · exact ⟨ht, fin _ (app _ _ 11 (by decide) (by decide) (by decide))⟩
    · exact ⟨ht, fin _ (app _ _ 12 (by decide) (by decide) (by decide))⟩
  | lock ax ay =>
    refine ⟨ht, fin _ ?_⟩
    obtain ⟨a1, a2, a3, e, e1, e2, e3⟩ := lockStitches_eq cfg.lm s.nx s.ny ax ay s.maxStitch
    simp only [e]
    refine changeWords_append_no ?_
    intro a ha
    simp at ha
    rcases ha with rfl | rfl | rfl | rfl <;> simp [Stitch.low, e1, e2, e3]
  | change s' h =>
    obtain ⟨ch, hd, hcase⟩ := nextChange_out h
    have hI2 := hI.2
    have hlen := hn.2.1
    have hthr : s'.threads = s.threads ++ [ch.thr] → ∀ (k : Nat) t, s'.threads[k]? = some t →
        ∃ ch, dget k cfg.plan = some ch ∧ t = ch.thr := by
      intro e k t h
      rw [e] at h
      rcases getElem?_snoc h with h | ⟨rfl, rfl⟩
      · exact ht k t h
      · exact ⟨ch, by rw [hlen]; exact hd, rfl⟩
    rcases hcase with ⟨_, et, ⟨h0, e⟩ | ⟨h0, e⟩⟩ | ⟨hx, _⟩ | ⟨hx, _⟩ | ⟨hx, _⟩
    · exact ⟨hthr et, fin _ (by rw [e])⟩
    · refine ⟨hthr et, ?_⟩
      have hl : (⟨s.nx, s.ny, encodeThreadChange COLOR_CHANGE (some ch.thread) (some ch.needle) none⟩ : Stitch).low = 5 :=
        encodeThreadChange_low 5 (by decide) (by decide) _ _ _
      intro k w h
      rw [e] at h
      unfold changeWords at h
      rw [List.filter_append, List.filter_cons_of_pos (by simpa using hl), List.filter_nil] at h
      rcases getElem?_snoc h with h | ⟨rfl, rfl⟩
      · exact hw k w h
      · refine ⟨ch, ?_, rfl⟩
        have e1 : (List.filter (fun a : Stitch => a.low == 5) s.out).length = changes s.out := changes_length s.out
        rw [e1, hn.2.2, if_neg (by omega)]
        exact hd
    · rw [hc] at hx; simp [COLOR_CHANGE, NEEDLE_SET] at hx
    · rw [hc] at hx; simp [COLOR_CHANGE, STOP] at hx
    · exact absurd hc hx

/-- The finished plan behind a normalized pattern, and how the pattern follows it. -/
theorem encode_changes (hv : o.ValidSequins) (hc : o.changeCommand = 5) (h : encode o lm threads source = .ok (out, ths)) :
    ∃ plan, buildPlan o threads source = .ok plan ∧
      (∀ (k : Nat) t, ths[k]? = some t → ∃ ch, dget k plan = some ch ∧ t = ch.thr) ∧
      (∀ (k : Nat) w, (changeWords out)[k]? = some w → ∃ ch, dget (k + 1) plan = some ch ∧
        w.cmd = encodeThreadChange 5 (some ch.thread) (some ch.needle) none) := by
  obtain ⟨plan, sf, hp, hr, rfl, rfl⟩ := encode_state h
  obtain ⟨s0, hI, hP, e⟩ := run_inv (cfg := mkCfg o lm source plan) (P := ChangeInv plan) (Q := fun _ => True)
    (fun position s st s' hI hP _ hs =>
      chain_lift (fun a b hb hmic => micro_change (cfg := mkCfg o lm source plan) hc hb hmic) (step_chain st hI hs).1 hI hP)
    (fun s v hs => ⟨⟨flagsOf_low v, hs.1.2⟩, hs.2⟩) source 0 _ sf (init_base o lm threads hv)
    ⟨init_count o lm threads hc, by simp [initSt, hc, NEEDLE_SET], by simp [initSt, changeWords]⟩
    (fun _ _ => trivial) hr
  refine ⟨plan, hp, by rw [e]; exact hP.2.1, ?_⟩
  intro k w hw
  refine hP.2.2 k w ?_
  rw [e] at hw
  rw [← hw]
  congr 1
  refine (changeWords_append_no ?_).symm
  intro a ha
  simp at ha; subst ha
  rw [low_add hP.1.1 (by decide) (by decide)]; decide

/-- The commands that talk about colour changes: COLOR_CHANGE, NEEDLE_SET, COLOR_BREAK and SET_CHANGE_SEQUENCE. -/
def ChangeLike (st : Stitch) : Prop := st.low ∈ [5, 9, 226, 16]

/-- A property of entries that every event keeps. -/
theorem fold_all {threads : List Thread} {P : Change → Prop} : ∀ (es : List Event) (p : List (Int × Change) × Int),
    P {} → (∀ e ∈ es, ∀ c, P c → P (Change.record threads e c)) → (∀ x ∈ p.1, P x.2) →
    ∀ x ∈ (es.foldl (planEvent threads) p).1, P x.2 := by
  have up : ∀ (k : Int) (f : Change → Change), P {} → (∀ c, P c → P (f c)) →
      ∀ (l : List (Int × Change)), (∀ x ∈ l, P x.2) → ∀ x ∈ upsert k {} f l, P x.2 := by
    intro k f h0 hf l
    induction l with
    | nil => intro _ x hx; simp [upsert] at hx; subst hx; exact hf _ h0
    | cons a l ih =>
      intro hl x hx
      obtain ⟨k', v⟩ := a
      unfold upsert at hx
      by_cases hk : k' = k
      · rw [if_pos hk] at hx
        rcases List.mem_cons.1 hx with rfl | hx
        · exact hf _ (hl (k', v) List.mem_cons_self)
        · exact hl x (List.mem_cons_of_mem _ hx)
      · rw [if_neg hk] at hx
        rcases List.mem_cons.1 hx with rfl | hx
        · exact hl (k', v) List.mem_cons_self
        · exact ih (fun y hy => hl y (List.mem_cons_of_mem _ hy)) x hx
  intro es
  induction es with
  | nil => intro p _ _ h; exact h
  | cons e es ih =>
    intro p h0 he hp
    rw [List.foldl_cons]
    refine ih _ h0 (fun x hx => he x (List.mem_cons_of_mem _ hx)) ?_
    have hf := he e List.mem_cons_self
    unfold planEvent
    simp only
    split
    · split
      · exact up _ _ h0 hf _ hp
      · exact up _ _ h0 hf _ hp
    · exact up _ _ h0 hf _ hp

/-- Entries written by events that state no thread (needle). -/
theorem fold_none {threads : List Thread} (es : List Event) (p : List (Int × Change) × Int) :
    ((∀ e ∈ es, e.thread = none) → (∀ x ∈ p.1, x.2.thread = none ∧ x.2.thr = none) →
      ∀ x ∈ (es.foldl (planEvent threads) p).1, x.2.thread = none ∧ x.2.thr = none) ∧
    ((∀ e ∈ es, e.needle = none) → (∀ x ∈ p.1, x.2.needle = none) →
      ∀ x ∈ (es.foldl (planEvent threads) p).1, x.2.needle = none) := by
  refine ⟨fun he hp => ?_, fun he hp => ?_⟩
  · refine fold_all (P := fun c => c.thread = none ∧ c.thr = none) es p ⟨rfl, rfl⟩ ?_ hp
    intro e hm c hcc
    unfold Change.record
    rw [he e hm]
    simp only
    split_ifs <;> split <;> exact hcc
  · refine fold_all (P := fun c => c.needle = none) es p rfl ?_ hp
    intro e hm c hcc
    unfold Change.record
    rw [he e hm]
    simp only
    split_ifs <;> split <;> exact hcc

theorem events_none {pr : Stitch → Prop} : ∀ (l : List Stitch) (ci : Int), (∀ st ∈ l, ChangeLike st → pr st) →
    ∀ e ∈ events l ci, ∃ st ∈ l, pr st ∧ e.flags = st.low ∧ e.thread = (decodeCommand st.cmd).2.1 ∧
      e.needle = (decodeCommand st.cmd).2.2.1 ∧ e.order = (decodeCommand st.cmd).2.2.2 := by
  intro l
  induction l with
  | nil => intro ci _ e he; simp [events] at he
  | cons st l ih =>
    intro ci hl e he
    rw [events_cons] at he
    have hr := ih (nextIndex ci st) (fun x hx => hl x (List.mem_cons_of_mem _ hx))
    have rest : e ∈ events l (nextIndex ci st) → ∃ x ∈ st :: l, pr x ∧ e.flags = x.low ∧
        e.thread = (decodeCommand x.cmd).2.1 ∧
        e.needle = (decodeCommand x.cmd).2.2.1 ∧ e.order = (decodeCommand x.cmd).2.2.2 := by
      intro h
      obtain ⟨x, hx, h⟩ := hr e h
      exact ⟨x, List.mem_cons_of_mem _ hx, h⟩
    split_ifs at he with h1 h2
    · rcases List.mem_cons.1 he with rfl | he
      · refine ⟨st, List.mem_cons_self, hl st List.mem_cons_self ?_, rfl, rfl, rfl, rfl⟩
        unfold ChangeLike; rw [show st.low = 16 from h1]; simp
      · exact rest he
    · rcases List.mem_cons.1 he with rfl | he
      · refine ⟨st, List.mem_cons_self, hl st List.mem_cons_self ?_, rfl, rfl, rfl, rfl⟩
        unfold isChange at h2
        simp only [Bool.or_eq_true, beq_iff_eq] at h2
        unfold ChangeLike
        rcases h2 with (h | h) | h
        · rw [show st.low = 5 from h]; simp
        · rw [show st.low = 9 from h]; simp
        · rw [show st.low = 226 from h]; simp
      · exact rest he
    · exact rest he

/-- Keys of an update. -/
theorem upsert_keys {α : Type} (k : Int) (new : α) (f : α → α) (l : List (Int × α)) :
    (upsert k new f l).map (·.1) = if k ∈ l.map (·.1) then l.map (·.1) else l.map (·.1) ++ [k] := by
  induction l with
  | nil => simp [upsert]
  | cons a l ih =>
    obtain ⟨k', v⟩ := a
    unfold upsert
    by_cases hk : k' = k
    · subst hk; simp
    · rw [if_neg hk]
      simp only [List.map_cons, ih, List.mem_cons]
      have : ¬ k = k' := fun e => hk e.symm
      by_cases hm : k ∈ l.map (·.1)
      · rw [if_pos hm, if_pos (.inr hm)]
      · rw [if_neg hm, if_neg (by rintro (h | h); exacts [this h, hm h])]; simp

/-- Without SET_CHANGE_SEQUENCE the plan lists changes 0, 1, 2, ... in that order. -/
theorem plan_keys {threads : List Thread} : ∀ (l : List Stitch) (ci : Int) (p : List (Int × Change) × Int) (n : Nat),
    (∀ st ∈ l, st.low ≠ 16) → p.1.map (·.1) = (List.range n).map (fun i : Nat => (i : Int)) → 1 ≤ n → (ci = n ∨ (ci = 0 ∧ n = 1)) →
    ∃ m, ((events l ci).foldl (planEvent threads) p).1.map (·.1) = (List.range m).map (fun i : Nat => (i : Int)) := by
  intro l
  induction l with
  | nil => intro ci p n _ hp _ _; exact ⟨n, hp⟩
  | cons st l ih =>
    intro ci p n hl hp hn hci
    rw [events_cons]
    have h1 : ¬ cmdOf st.cmd = SET_CHANGE_SEQUENCE := hl st List.mem_cons_self
    rw [if_neg h1]
    have hr := fun x hx => hl x (List.mem_cons_of_mem st hx)
    by_cases h2 : isChange (cmdOf st.cmd) = true
    · have hns : isSewing (cmdOf st.cmd) = false := by
        unfold isChange at h2
        simp only [Bool.or_eq_true, beq_iff_eq] at h2
        rcases h2 with (h | h) | h <;> rw [h] <;> rfl
      rw [if_pos h2, List.foldl_cons]
      have hni : nextIndex ci st = ci + 1 := by
        unfold nextIndex
        simp only [hns, Bool.false_eq_true, and_false, if_false, if_pos h2]
      rw [hni]
      have hk : (planEvent threads p
          ⟨cmdOf st.cmd, (decodeCommand st.cmd).2.1, (decodeCommand st.cmd).2.2.1, (decodeCommand st.cmd).2.2.2,
            some ci⟩).1.map (·.1) = if ci ∈ p.1.map (·.1) then p.1.map (·.1) else p.1.map (·.1) ++ [ci] := by
        unfold planEvent
        simp only [if_neg h1, Option.getD_some]
        exact upsert_keys _ _ _ _
      rw [hp] at hk
      rcases hci with rfl | ⟨rfl, rfl⟩
      · refine ih ((n : Int) + 1) _ (n + 1) hr ?_ (by omega) (.inl (by push_cast; ring))
        rw [hk, if_neg (by simp), List.range_succ, List.map_append]; simp
      · refine ih (0 + 1) _ 1 hr ?_ (by omega) (.inl (by simp))
        rw [hk, if_pos (by simp)]
    · rw [if_neg h2]
      have hni : nextIndex ci st = if ci = 0 ∧ isSewing (cmdOf st.cmd) = true then 1 else ci := by
        unfold nextIndex
        simp only [if_neg h2]
      rw [hni]
      refine ih _ p n hr hp hn ?_
      split_ifs with h
      · rcases hci with hci | ⟨_, rfl⟩
        · omega
        · left; rfl
      · exact hci

theorem keys_split {α : Type} {l : List (Int × α)} {n : Nat} (h : l.map (·.1) = (List.range n).map (fun i : Nat => (i : Int)))
    {pre post : List (Int × α)} {k : Nat} {c : α} (e : l = pre ++ ((k : Int), c) :: post) : pre.length = k := by
  have h2 : (l.map (·.1))[pre.length]? = some (k : Int) := by rw [e]; simp
  rw [h] at h2
  by_cases hlt : pre.length < n
  · simp [hlt] at h2; omega
  · rw [List.getElem?_eq_none (by simp; omega)] at h2; cases h2

/-- Every finished change comes from a raw one. -/
theorem plan_entry {plan : List (Int × Full)} (hp : buildPlan o threads source = .ok plan) {k : Int} {f : Full}
    (hd : dget k plan = some f) : ∃ pre c post, rawPlan threads source = pre ++ (k, c) :: post ∧
      dget k (rawPlan threads source) = some c ∧
      fillOne threads o.changeCommand o.needleCount c (0 + pre.countP (fun p => p.2.thread = none))
        (1 + pre.countP (fun p => p.2.needle = none)) = .ok f := by
  cases hg : dget k (rawPlan threads source) with
  | none => rw [fillPlan_none hp hg] at hd; cases hd
  | some c =>
    obtain ⟨pre, post, f', e1, e2, e3⟩ := fillPlan_get hp hg
    rw [hd] at e2; injection e2 with e2; subst e2
    exact ⟨pre, c, post, e1, rfl, e3⟩

theorem raw_keys (hset : ∀ st ∈ source, st.low ≠ 16) :
    ∃ m, (rawPlan threads source).map (·.1) = (List.range m).map (fun i : Nat => (i : Int)) :=
  plan_keys (threads := threads) source 0 ([(0, {})], 0) 1 hset (by simp) (le_refl _) (.inr ⟨rfl, rfl⟩)

theorem raw_no_thread (hex : ∀ st ∈ source, ChangeLike st → (decodeCommand st.cmd).2.1 = none) :
    ∀ x ∈ rawPlan threads source, x.2.thread = none ∧ x.2.thr = none :=
  (fold_none (threads := threads) (events source 0) ([(0, {})], 0)).1
    (fun e he => by
      obtain ⟨st, _, h1, _, h2, _⟩ := events_none source 0 hex e he
      rw [h2, h1])
    (by intro x hx; simp at hx; subst hx; exact ⟨rfl, rfl⟩)

theorem raw_no_needle (hex : ∀ st ∈ source, ChangeLike st → (decodeCommand st.cmd).2.2.1 = none) :
    ∀ x ∈ rawPlan threads source, x.2.needle = none :=
  (fold_none (threads := threads) (events source 0) ([(0, {})], 0)).2
    (fun e he => by
      obtain ⟨st, _, h1, _, _, h2, _⟩ := events_none source 0 hex e he
      rw [h2, h1])
    (by intro x hx; simp at hx; subst hx; rfl)

theorem threadOrFiller_nat (threads : List Thread) (k : Nat) : threadOrFiller threads k = threads[k]? := by
  unfold threadOrFiller
  split_ifs with h
  · rw [List.getElem?_eq_none (by omega)]
  · rfl

/-- Thread of the k-th planned change when nothing is explicit. -/
theorem plan_thread {plan : List (Int × Full)} (hp : buildPlan o threads source = .ok plan)
    (hset : ∀ st ∈ source, st.low ≠ 16) (hex : ∀ st ∈ source, ChangeLike st → (decodeCommand st.cmd).2.1 = none)
    {k : Nat} {f : Full} (hd : dget k plan = some f) : f.thread = k ∧ f.thr = threads[k]? := by
  obtain ⟨pre, c, post, e1, _, e3⟩ := plan_entry hp hd
  obtain ⟨m, hm⟩ := raw_keys (threads := threads) hset
  have hpre := keys_split hm e1
  have hnone := raw_no_thread (threads := threads) hex
  obtain ⟨n1, n2⟩ := hnone (k, c) (by rw [e1]; simp)
  have hcount : pre.countP (fun p => p.2.thread = none) = pre.length := by
    rw [List.countP_eq_length]
    intro x hx
    have := (hnone x (by rw [e1]; simp [hx])).1
    simp [this]
  rw [hcount, hpre] at e3
  unfold fillOne at e3
  obtain ⟨nd, _, e3⟩ := bind_ok.1 e3
  injection e3 with e3
  rw [← e3]
  have n1 : c.thread = none := n1
  have n2 : c.thr = none := n2
  simp only [n1, n2, Option.getD_none, zero_add, true_and]
  exact threadOrFiller_nat threads k

theorem autoNeedle_ok {limit n r : Int} (hn : 1 ≤ n) (hl : 1 ≤ limit) (h : autoNeedle limit n = .ok r) :
    r = (n - 1) % limit + 1 := by
  unfold autoNeedle at h
  by_cases h1 : n > limit
  · rw [if_pos h1, if_neg (by omega)] at h
    injection h with h
    rw [← h, Int.fmod_eq_emod_of_nonneg _ (by omega)]
  · rw [if_neg h1] at h
    injection h with h
    rw [← h, Int.emod_eq_of_lt (by omega) (by omega)]; ring

/-- Needle of the k-th planned change when nothing is explicit. -/
theorem plan_needle {plan : List (Int × Full)} (hp : buildPlan o threads source = .ok plan) (hl : 1 ≤ o.needleCount)
    (hset : ∀ st ∈ source, st.low ≠ 16) (hex : ∀ st ∈ source, ChangeLike st → (decodeCommand st.cmd).2.2.1 = none)
    {k : Nat} {f : Full} (hd : dget k plan = some f) : f.needle = (k : Int) % o.needleCount + 1 := by
  obtain ⟨pre, c, post, e1, _, e3⟩ := plan_entry hp hd
  obtain ⟨m, hm⟩ := raw_keys (threads := threads) hset
  have hpre := keys_split hm e1
  have hnone := raw_no_needle (threads := threads) hex
  have n1 : c.needle = none := hnone (k, c) (by rw [e1]; simp)
  have hcount : pre.countP (fun p => p.2.needle = none) = pre.length := by
    rw [List.countP_eq_length]
    intro x hx
    have := hnone x (by rw [e1]; simp [hx])
    simp [this]
  rw [hcount, hpre] at e3
  unfold fillOne at e3
  obtain ⟨nd, e4, e3⟩ := bind_ok.1 e3
  rw [n1] at e4
  injection e3 with e3
  rw [← e3]
  simp only at e4 ⊢
  rw [autoNeedle_ok (by omega) hl e4, show (1 : Int) + k - 1 = k by ring]

/-- Needle range when nothing is explicit, whatever SET_CHANGE_SEQUENCE commands there are. -/
theorem plan_needle_range {plan : List (Int × Full)} (hp : buildPlan o threads source = .ok plan) (hl : 1 ≤ o.needleCount)
    (hex : ∀ st ∈ source, ChangeLike st → (decodeCommand st.cmd).2.2.1 = none)
    {k : Int} {f : Full} (hd : dget k plan = some f) : 1 ≤ f.needle ∧ f.needle ≤ o.needleCount := by
  obtain ⟨pre, c, post, e1, _, e3⟩ := plan_entry hp hd
  have n1 : c.needle = none := raw_no_needle (threads := threads) hex (k, c) (by rw [e1]; simp)
  unfold fillOne at e3
  obtain ⟨nd, e4, e3⟩ := bind_ok.1 e3
  rw [n1] at e4
  injection e3 with e3
  rw [← e3]
  simp only at e4 ⊢
  rw [autoNeedle_ok (by omega) hl e4]
  have h1 := Int.emod_nonneg (1 + ((pre.countP (fun p => p.2.needle = none) : Nat) : Int) - 1) (b := o.needleCount) (by omega)
  have h2 := Int.emod_lt_of_pos (1 + ((pre.countP (fun p => p.2.needle = none) : Nat) : Int) - 1) (b := o.needleCount) (by omega)
  omega

/-- C30: without explicit thread indices and SET_CHANGE_SEQUENCE the k-th colour of the normalized pattern is the k-th
thread of the source (or a filler when there is none), COLOR_BREAKs included. -/
theorem C30_in_order (hv : o.ValidSequins) (hc : o.changeCommand = 5) (h : encode o lm threads source = .ok (out, ths))
    (hset : ∀ st ∈ source, st.low ≠ 16) (hex : ∀ st ∈ source, ChangeLike st → (decodeCommand st.cmd).2.1 = none) :
    ths = (List.range ths.length).map (fun k => threads[k]?) := by
  obtain ⟨plan, hp, ht, _⟩ := encode_changes hv hc h
  apply List.ext_getElem?
  intro k
  by_cases hk : k < ths.length
  · obtain ⟨ch, hd, e⟩ := ht k ths[k] (List.getElem?_eq_getElem hk)
    rw [List.getElem?_eq_getElem hk, e, (plan_thread hp hset hex hd).2]
    simp [hk]
  · rw [List.getElem?_eq_none (by omega), List.getElem?_eq_none (by simp; omega)]

/-- C30: the change words say the same: the k-th colour change (counting from 1) carries thread index k. -/
theorem C30_words_in_order (hv : o.ValidSequins) (hc : o.changeCommand = 5) (h : encode o lm threads source = .ok (out, ths))
    (hset : ∀ st ∈ source, st.low ≠ 16) (hex : ∀ st ∈ source, ChangeLike st → (decodeCommand st.cmd).2.1 = none)
    (hex2 : ∀ st ∈ source, ChangeLike st → (decodeCommand st.cmd).2.2.1 = none)
    (hl : 1 ≤ o.needleCount) (hl2 : o.needleCount < 255) (k : Nat) (hk : k + 1 < 255) (w : Stitch) (hw : (out.filter (fun a => a.low == 5))[k]? = some w) :
    (decodeCommand w.cmd).2.1 = some ((k : Int) + 1) := by
  obtain ⟨plan, hp, _, ht⟩ := encode_changes hv hc h
  obtain ⟨ch, hd, e⟩ := ht k w hw
  have := plan_thread (k := k + 1) hp hset hex (by push_cast; exact hd)
  obtain ⟨h1, h2⟩ := plan_needle_range hp hl hex2 hd
  rw [e, this.1, decode_word (by omega) (by push_cast; omega) (by omega) (by omega)]
  push_cast; rfl

/-- Threads stated by events fit their byte. -/
theorem raw_threads : ∀ x ∈ rawPlan threads source, ∀ t, x.2.thread = some t → 0 ≤ t ∧ t < 255 := by
  have field : ∀ v t, decField (v % 256) = some t → 0 ≤ t ∧ t < 255 := by
    intro v t h
    unfold decField at h
    split_ifs at h
    injection h with h
    omega
  refine fold_all (P := fun c => ∀ t, c.thread = some t → 0 ≤ t ∧ t < 255) (events source 0) _ ?_ ?_ ?_
  · intro t h; cases h
  · intro e he c hcc t h
    obtain ⟨st, _, _, _, h2, _⟩ := events_none (pr := fun _ => True) source 0 (fun _ _ _ => trivial) e he
    unfold Change.record at h
    cases ht : e.thread with
    | none =>
      rw [ht] at h
      simp only at h
      exact hcc t (by split_ifs at h <;> split at h <;> exact h)
    | some t' =>
      rw [ht] at h
      have : t' = t := by
        simp only at h
        split at h <;> (injection h)
      subst this
      exact field (st.cmd / 256) t' (by rw [← ht, h2]; rfl)
  · intro x hx t h; simp at hx; subst hx; cases h

theorem upsert_length {α : Type} (k : Int) (new : α) (f : α → α) (l : List (Int × α)) :
    (upsert k new f l).length ≤ l.length + 1 := by
  have := congrArg List.length (upsert_keys k new f l)
  split_ifs at this <;> simp at this <;> omega

theorem fold_length {threads : List Thread} : ∀ (es : List Event) (p : List (Int × Change) × Int),
    (es.foldl (planEvent threads) p).1.length ≤ p.1.length + es.length := by
  intro es
  induction es with
  | nil => intro p; simp
  | cons e es ih =>
    intro p
    have h1 := ih (planEvent threads p e)
    have h2 : (planEvent threads p e).1.length ≤ p.1.length + 1 := by
      unfold planEvent
      simp only
      split
      · split <;> exact upsert_length _ _ _ _
      · exact upsert_length _ _ _ _
    rw [List.foldl_cons, List.length_cons]
    omega

theorem changeLike_iff (st : Stitch) : st.low ∈ [5, 9, 226, 16] ↔
    (cmdOf st.cmd = SET_CHANGE_SEQUENCE ∨ isChange (cmdOf st.cmd) = true) := by
  unfold isChange Stitch.low cmdOf COLOR_CHANGE NEEDLE_SET COLOR_BREAK SET_CHANGE_SEQUENCE
  simp only [Bool.or_eq_true, beq_iff_eq, List.mem_cons, List.not_mem_nil, or_false]
  omega

theorem events_length : ∀ (l : List Stitch) (ci : Int),
    (events l ci).length = l.countP (fun st => st.low ∈ [5, 9, 226, 16]) := by
  intro l
  induction l with
  | nil => intro ci; simp [events]
  | cons st l ih =>
    intro ci
    rw [events_cons, List.countP_cons, ← ih (nextIndex ci st)]
    by_cases h1 : cmdOf st.cmd = SET_CHANGE_SEQUENCE
    · rw [if_pos h1, if_pos (by simpa using (changeLike_iff st).2 (.inl h1))]; rfl
    · rw [if_neg h1]
      by_cases h2 : isChange (cmdOf st.cmd) = true
      · rw [if_pos h2, if_pos (by simpa using (changeLike_iff st).2 (.inr h2))]; rfl
      · rw [if_neg h2, if_neg (by
          have := mt (changeLike_iff st).1 (by rintro (h | h); exacts [h1 h, h2 h])
          simpa using this)]
        rfl

/-- With at most 254 change commands every planned thread index fits its byte. -/
theorem plan_thread_fits {plan : List (Int × Full)} (hp : buildPlan o threads source = .ok plan)
    (hn : source.countP (fun st => st.low ∈ [5, 9, 226, 16]) ≤ 254) {k : Int} {f : Full} (hd : dget k plan = some f) :
    0 ≤ f.thread ∧ f.thread < 255 := by
  obtain ⟨pre, c, post, e1, _, e3⟩ := plan_entry hp hd
  have hlen : (rawPlan threads source).length ≤ 1 + (events source 0).length :=
    fold_length (threads := threads) (events source 0) ([(0, {})], 0)
  rw [events_length, e1] at hlen
  simp only [List.length_append, List.length_cons] at hlen
  have hcnt := List.countP_le_length (l := pre) (p := fun p => decide (p.2.thread = none))
  unfold fillOne at e3
  obtain ⟨nd, e4, e3⟩ := bind_ok.1 e3
  injection e3 with e3
  rw [← e3]
  cases hc : c.thread with
  | none => simp only [Option.getD_none]; omega
  | some t =>
    exact raw_threads (threads := threads) (source := source) (k, c) (by rw [e1]; simp) t hc

/-- C31: without explicit needles and SET_CHANGE_SEQUENCE the k-th colour change (counting from 1) asks for needle
`k mod needle_count + 1`: the needles 1..needle_count in cyclic order (the first colour, needle 1, has no change).
Partial: at most 254 change commands, because the packed word breaks for thread index 255, `C31_256_colours`. -/
theorem C31_cycle_partial (hv : o.ValidSequins) (hc : o.changeCommand = 5) (hl : 1 ≤ o.needleCount) (hl2 : o.needleCount < 255)
    (h : encode o lm threads source = .ok (out, ths)) (hn : source.countP (fun st => st.low ∈ [5, 9, 226, 16]) ≤ 254)
    (hset : ∀ st ∈ source, st.low ≠ 16) (hex : ∀ st ∈ source, ChangeLike st → (decodeCommand st.cmd).2.2.1 = none)
    (k : Nat) (w : Stitch) (hw : (out.filter (fun a => a.low == 5))[k]? = some w) :
    (decodeCommand w.cmd).2.2.1 = some (((k : Int) + 1) % o.needleCount + 1) := by
  obtain ⟨plan, hp, _, ht⟩ := encode_changes hv hc h
  obtain ⟨ch, hd, e⟩ := ht k w hw
  have := plan_needle (k := k + 1) hp hl hset hex (by push_cast; exact hd)
  have h1 := Int.emod_nonneg ((k : Int) + 1) (b := o.needleCount) (by omega)
  have h2 := Int.emod_lt_of_pos ((k : Int) + 1) (b := o.needleCount) (by omega)
  obtain ⟨h3, h4⟩ := plan_thread_fits hp hn hd
  push_cast at this
  rw [e, decode_word h3 h4 (by omega) (by omega), this]

/-- C31: and with any SET_CHANGE_SEQUENCE commands (stating no needle) every needle is between 1 and needle_count
(same restriction). -/
theorem C31_range_partial (hv : o.ValidSequins) (hc : o.changeCommand = 5) (hl : 1 ≤ o.needleCount) (hl2 : o.needleCount < 255)
    (h : encode o lm threads source = .ok (out, ths)) (hn : source.countP (fun st => st.low ∈ [5, 9, 226, 16]) ≤ 254)
    (hex : ∀ st ∈ source, ChangeLike st → (decodeCommand st.cmd).2.2.1 = none)
    (w : Stitch) (hw : w ∈ out) (h5 : w.low = 5) :
    ∃ n, (decodeCommand w.cmd).2.2.1 = some n ∧ 1 ≤ n ∧ n ≤ o.needleCount := by
  obtain ⟨plan, hp, _, ht⟩ := encode_changes hv hc h
  have hm : w ∈ changeWords out := by unfold changeWords; rw [List.mem_filter]; exact ⟨hw, by simpa using h5⟩
  obtain ⟨k, hk⟩ := List.getElem?_of_mem hm
  obtain ⟨ch, hd, e⟩ := ht k w hk
  have := plan_needle_range hp hl hex hd
  obtain ⟨h3, h4⟩ := plan_thread_fits hp hn hd
  exact ⟨ch.needle, by rw [e, decode_word h3 h4 (by omega) (by omega)], this⟩

/-- Every needle from 1 to the limit is assigned to one of any `needle_count` consecutive changes. -/
theorem C31_all_used (limit n : Nat) (h1 : 1 ≤ n) (h2 : n ≤ limit) (k : Nat) :
    ∃ j, k ≤ j ∧ j < k + limit ∧ j % limit + 1 = n := by
  obtain ⟨m, rfl⟩ : ∃ m, n = m + 1 := ⟨n - 1, by omega⟩
  by_cases hk : k % limit ≤ m
  · refine ⟨k + (m - k % limit), by omega, by omega, ?_⟩
    have hd := Nat.div_add_mod k limit
    rw [show k + (m - k % limit) = m + limit * (k / limit) by omega, Nat.add_mul_mod_self_left, Nat.mod_eq_of_lt (by omega)]
  · have hlt := Nat.mod_lt k (show 0 < limit by omega)
    refine ⟨k + (limit - k % limit) + m, by omega, by omega, ?_⟩
    have hd := Nat.div_add_mod k limit
    rw [show k + (limit - k % limit) + m = m + limit * (k / limit + 1) by rw [Nat.mul_add]; omega,
      Nat.add_mul_mod_self_left, Nat.mod_eq_of_lt (by omega)]

/-! ## Explicit indices -/

/-- What the events after an explicit one leave of it. -/
theorem fold_keeps {threads : List Thread} {k t : Int} : ∀ (es : List Event) (p : List (Int × Change) × Int),
    (∀ e ∈ es, e.thread = none ∨ (e.flags ≠ SET_CHANGE_SEQUENCE ∧ ∀ i, e.index = some i → i ≠ k)) →
    (∀ e ∈ es, e.flags ≠ SET_CHANGE_SEQUENCE → ∃ i, e.index = some i) →
    (∃ c, dget k p.1 = some c ∧ c.thread = some t ∧ c.thr = some (threadOrFiller threads t)) →
    ∃ c, dget k (es.foldl (planEvent threads) p).1 = some c ∧ c.thread = some t ∧ c.thr = some (threadOrFiller threads t) := by
  intro es
  induction es with
  | nil => intro p _ _ h; exact h
  | cons e es ih =>
    intro p he hi hp
    rw [List.foldl_cons]
    refine ih _ (fun x hx => he x (List.mem_cons_of_mem _ hx)) (fun x hx => hi x (List.mem_cons_of_mem _ hx)) ?_
    obtain ⟨c, h1, h2, h3⟩ := hp
    have rec_none : e.thread = none → ∀ c : Change, (Change.record threads e c).thread = c.thread ∧
        (Change.record threads e c).thr = c.thr := by
      intro hn c
      unfold Change.record
      rw [hn]
      simp only
      split_ifs <;> split <;> exact ⟨rfl, rfl⟩
    have go : ∀ i : Int, (e.thread = none ∨ i ≠ k) → ∃ c, dget k (upsert i {} (Change.record threads e) p.1) = some c ∧
        c.thread = some t ∧ c.thr = some (threadOrFiller threads t) := by
      intro i hi
      rw [dget_upsert]
      by_cases hk : k = i
      · subst hk
        rw [if_pos rfl, h1]
        have hn : e.thread = none := hi.resolve_right (fun h => h rfl)
        obtain ⟨r1, r2⟩ := rec_none hn c
        exact ⟨_, rfl, by simp [r1, h2], by simp [r2, h3]⟩
      · rw [if_neg hk]; exact ⟨c, h1, h2, h3⟩
    unfold planEvent
    simp only
    have hee := he e List.mem_cons_self
    split
    · rename_i hset
      have hn : e.thread = none := hee.resolve_right (fun h => h.1 hset)
      split
      · exact go _ (.inl hn)
      · exact go _ (.inl hn)
    · rename_i hset
      obtain ⟨i, hi'⟩ := hi e List.mem_cons_self hset
      rw [hi']
      exact go i (hee.imp id (fun h => h.2 i hi'))

theorem record_thread {threads : List Thread} {e : Event} {t : Int} (h : e.thread = some t) (c : Change) :
    (Change.record threads e c).thread = some t ∧ (Change.record threads e c).thr = some (threadOrFiller threads t) := by
  unfold Change.record
  rw [h]
  simp only
  split_ifs <;> split <;> exact ⟨rfl, rfl⟩

theorem events_append (pre post : List Stitch) : ∀ ci, events (pre ++ post) ci =
    events pre ci ++ events post (pre.foldl nextIndex ci) := by
  induction pre with
  | nil => intro ci; simp [events]
  | cons st pre ih =>
    intro ci
    rw [List.cons_append, events_cons, events_cons, ih, List.foldl_cons]
    split_ifs <;> simp

theorem nextIndex_ge (ci : Int) (st : Stitch) (h : 0 ≤ ci) : ci ≤ nextIndex ci st := by
  unfold nextIndex; simp only; split_ifs <;> omega

theorem events_index : ∀ (l : List Stitch) (ci : Int), 0 ≤ ci → ∀ e ∈ events l ci,
    e.flags ≠ SET_CHANGE_SEQUENCE → ∃ i, e.index = some i ∧ ci ≤ i := by
  intro l
  induction l with
  | nil => intro ci _ e he; simp [events] at he
  | cons st l ih =>
    intro ci h0 e he hf
    rw [events_cons] at he
    have hge := nextIndex_ge ci st h0
    have hr : e ∈ events l (nextIndex ci st) → ∃ i, e.index = some i ∧ ci ≤ i := by
      intro h
      obtain ⟨i, h1, h2⟩ := ih (nextIndex ci st) (by omega) e h hf
      exact ⟨i, h1, by omega⟩
    split_ifs at he with h1 h2
    · rcases List.mem_cons.1 he with rfl | he
      · exact absurd h1 hf
      · exact hr he
    · rcases List.mem_cons.1 he with rfl | he
      · exact ⟨ci, rfl, le_refl _⟩
      · exact hr he
    · exact hr he

/-- Colours begun by the commands of a list, counting from `k` already begun: every COLOR_CHANGE and NEEDLE_SET begins
one, and so does sewing when there is none yet. -/
def colours : List Stitch → Nat → Nat
  | [], k => k
  | st :: rest, k =>
    colours rest (if st.low ∈ [5, 9] then k + 1 else if st.low ∈ [0, 176, 177, 7] ∧ k = 0 then 1 else k)

theorem sewing_mem (st : Stitch) : isSewing (cmdOf st.cmd) = true ↔ st.low ∈ [0, 176, 177, 7] := by
  unfold isSewing Stitch.low cmdOf STITCH SEW_TO NEEDLE_AT SEQUIN_EJECT
  simp only [Bool.or_eq_true, beq_iff_eq, List.mem_cons, List.not_mem_nil, or_false]
  omega

theorem change_mem (st : Stitch) (h : st.low ≠ 226) : isChange (cmdOf st.cmd) = true ↔ st.low ∈ [5, 9] := by
  unfold Stitch.low at h
  unfold isChange Stitch.low cmdOf COLOR_CHANGE NEEDLE_SET COLOR_BREAK
  simp only [Bool.or_eq_true, beq_iff_eq, List.mem_cons, List.not_mem_nil, or_false]
  omega

theorem colours_index : ∀ (l : List Stitch) (k : Nat), (∀ st ∈ l, st.low ≠ 226) →
    l.foldl nextIndex (k : Int) = (colours l k : Int) := by
  intro l
  induction l with
  | nil => intro k _; rfl
  | cons st l ih =>
    intro k h
    have hb := h st List.mem_cons_self
    rw [List.foldl_cons, colours, ← ih _ (fun x hx => h x (List.mem_cons_of_mem _ hx))]
    congr 1
    unfold nextIndex
    simp only [sewing_mem, change_mem st hb]
    by_cases h1 : st.low ∈ [5, 9]
    · have h2 : st.low ∉ [0, 176, 177, 7] := by
        simp only [List.mem_cons, List.not_mem_nil, or_false] at h1 ⊢; omega
      simp [h1, h2]
    · rw [if_neg h1, if_neg h1]
      by_cases h2 : st.low ∈ [0, 176, 177, 7] ∧ k = 0
      · rw [if_pos ⟨by omega, h2.1⟩, if_pos h2]; rfl
      · rw [if_neg (fun h => h2 ⟨h.2, by omega⟩), if_neg h2]

/-- Without COLOR_BREAK the encoder's change index is the number of colours begun. -/
theorem steps_colours {cfg : Cfg} : ∀ (l : List Stitch) (position : Nat) (s s' : St) (k : Nat), BaseInv s → TrimInv s →
    s.order + 1 = k → (∀ st ∈ l, st.low ≠ 226) → stepsFrom cfg position s l = .ok s' →
    BaseInv s' ∧ TrimInv s' ∧ s'.order + 1 = (colours l k : Int) := by
  intro l
  induction l with
  | nil =>
    intro position s s' k hI hT hk _ h
    simp only [stepsFrom] at h; injection h with h; subst h
    exact ⟨hI, hT, hk⟩
  | cons st l ih =>
    intro position s s' k hI hT hk hb h
    simp only [stepsFrom] at h
    cases hs : step cfg position s st with
    | error e => rw [hs] at h; cases h
    | ok s1 =>
      rw [hs] at h
      have hbr := hb st List.mem_cons_self
      have hr := step_res (cfg := cfg) (s := s) (position := position) st
      have ho := hr.order s1 hs
      simp only [sewing_mem, change_mem st hbr] at ho
      refine ih (position + 1) s1 s' _ (chain_base (step_chain st hI hs).1 hI) (step_trimInv hI hT hs) ?_
        (fun x hx => hb x (List.mem_cons_of_mem _ hx)) h
      by_cases h1 : st.low ∈ [5, 9]
      · rw [if_pos h1]
        have := hr.change s1 hs (by
          simp only [List.mem_cons, List.not_mem_nil, or_false] at h1
          rcases h1 with h | h
          exacts [.inl h, .inr h])
        simp only at this
        push_cast; omega
      · rw [if_neg h1]
        by_cases h2 : st.low ∈ [0, 176, 177, 7]
        · have hu := step_uses hI hT hs (by
            simp only [List.mem_cons, List.not_mem_nil, or_false] at h2 ⊢; omega)
          by_cases h3 : k = 0
          · rw [if_pos ⟨h2, h3⟩]
            rcases ho with ho | ⟨hc, _⟩ | ⟨_, _, ho⟩
            · omega
            · exact absurd hc h1
            · rw [ho]; rfl
          · rw [if_neg (fun h => h3 h.2)]
            rcases ho with ho | ⟨hc, _⟩ | ⟨_, h4, _⟩
            · omega
            · exact absurd hc h1
            · omega
        · rw [if_neg (fun h => h2 h.1)]
          rcases ho with ho | ⟨hc, _⟩ | ⟨hc, _⟩
          · omega
          · exact absurd hc h1
          · exact absurd hc h2

/-- C30, explicit thread on a change: a COLOR_CHANGE or NEEDLE_SET stating thread `t` makes the colour it begins thread
`t`. Partial: no COLOR_BREAK before it (one that is ignored because nothing is sewn yet still shifts the plan,
`C30_leading_break_shifts`) and no SET_CHANGE_SEQUENCE. -/
theorem C30_explicit_partial (hv : o.ValidSequins) (hc : o.changeCommand = 5) {pre post : List Stitch} {st : Stitch} {t : Int}
    (h : encode o lm threads (pre ++ st :: post) = .ok (out, ths)) (hst : st.low = 5 ∨ st.low = 9)
    (ht : (decodeCommand st.cmd).2.1 = some t) (hend : ∀ b ∈ pre, b.low ≠ 4) (hbr : ∀ b ∈ pre, b.low ≠ 226)
    (hset : ∀ b ∈ post, b.low ≠ 16) :
    ths[colours pre 0]? = some (threadOrFiller threads t) := by
  obtain ⟨plan, hp, hths, _⟩ := encode_changes hv hc h
  -- the change is carried out
  have hlen : colours pre 0 < ths.length := by
    obtain ⟨plan', sf, _, hr, rfl, rfl⟩ := encode_state h
    obtain ⟨s0, hI, hP, e⟩ := run_inv (cfg := mkCfg o lm (pre ++ st :: post) plan') (P := CountInv) (Q := fun _ => True)
      (fun position s b s' hI hP _ hs =>
        chain_lift (fun x y hb hmic => micro_count (cfg := mkCfg o lm (pre ++ st :: post) plan') hc hb hmic)
          (step_chain b hI hs).1 hI hP)
      (fun s v hs => ⟨flagsOf_low v, hs.2⟩) _ 0 _ sf (init_base o lm threads hv) (init_count o lm threads hc)
      (fun _ _ => trivial) hr
    have hcnt : (sf.threads.length : Int) = sf.order + 1 := by rw [e]; exact hP.2.1
    obtain ⟨s1, h1, h2⟩ := run_split pre 0 _ sf (st :: post) hend hr
    obtain ⟨hI1, hT1, ho1⟩ := steps_colours pre 0 _ s1 0 (init_base o lm threads hv) (init_trim o lm threads)
      (by simp [initSt]) hbr h1
    have : st.low ≠ 4 := by omega
    simp only [runFrom, if_neg (show ¬ cmdOf st.cmd = END from this)] at h2
    cases hs : step (mkCfg o lm (pre ++ st :: post) plan') (0 + pre.length) s1 st with
    | error e => rw [hs] at h2; cases h2
    | ok s2 =>
      rw [hs] at h2
      have hch := (step_res (cfg := mkCfg o lm (pre ++ st :: post) plan') (s := s1) (position := 0 + pre.length) st).change
        s2 hs (by rcases hst with h | h; exacts [.inl h, .inr h])
      simp only at hch
      have hmono := run_order_ge post _ s2 sf h2
      omega
  obtain ⟨ch, hd, e⟩ := hths _ _ (List.getElem?_eq_getElem hlen)
  rw [List.getElem?_eq_getElem hlen, e]
  congr 1
  -- the plan says so
  obtain ⟨pr, c, ps, e1, e2, e3⟩ := plan_entry hp hd
  have hraw : ∃ c, dget (colours pre 0 : Int) (rawPlan threads (pre ++ st :: post)) = some c ∧ c.thread = some t ∧
      c.thr = some (threadOrFiller threads t) := by
    unfold rawPlan
    rw [events_append, List.foldl_append, events_cons]
    have hidx : pre.foldl nextIndex 0 = (colours pre 0 : Int) := colours_index pre 0 hbr
    have hchg : isChange (cmdOf st.cmd) = true := by
      rw [change_mem st (by omega)]; rcases hst with h | h <;> rw [h] <;> simp
    have hns : ¬ cmdOf st.cmd = SET_CHANGE_SEQUENCE := by
      show ¬ st.low = 16
      omega
    rw [if_neg hns, if_pos hchg, List.foldl_cons, hidx]
    have hni : nextIndex (colours pre 0 : Int) st = (colours pre 0 : Int) + 1 := by
      have hsw : ¬ isSewing (cmdOf st.cmd) = true := by
        rw [sewing_mem]; rcases hst with h | h <;> rw [h] <;> simp
      unfold nextIndex
      rw [if_pos hchg, if_neg (fun h => hsw h.2)]
    rw [hni]
    refine fold_keeps _ _ ?_ ?_ ?_
    · intro e he
      right
      have hf : e.flags ≠ SET_CHANGE_SEQUENCE := by
        obtain ⟨x, hx, _, h1, _⟩ := events_none (pr := fun _ => True) post _ (fun _ _ _ => trivial) e he
        rw [h1]; exact hset x hx
      refine ⟨hf, ?_⟩
      intro i hi
      obtain ⟨j, h1, h2⟩ := events_index post _ (by omega) e he hf
      rw [hi] at h1; injection h1 with h1
      omega
    · intro e he hf
      obtain ⟨j, h1, _⟩ := events_index post _ (by omega) e he hf
      exact ⟨j, h1⟩
    · unfold planEvent
      simp only [if_neg hns, Option.getD_some]
      rw [dget_upsert, if_pos rfl]
      obtain ⟨r1, r2⟩ := record_thread (threads := threads) (e := ⟨cmdOf st.cmd, (decodeCommand st.cmd).2.1,
        (decodeCommand st.cmd).2.2.1, (decodeCommand st.cmd).2.2.2, some (colours pre 0 : Int)⟩) ht
        ((dget (colours pre 0 : Int) (List.foldl (planEvent threads) ([(0, {})], 0) (events pre 0)).1).getD {})
      exact ⟨_, rfl, r1, r2⟩
  obtain ⟨c', h1, h2, h3⟩ := hraw
  rw [e2] at h1; injection h1 with h1; subst h1
  unfold fillOne at e3
  obtain ⟨nd, _, e3⟩ := bind_ok.1 e3
  injection e3 with e3
  rw [← e3]
  simp [h3]

/-- C30, SET_CHANGE_SEQUENCE with order `k` and thread `t`: the k-th colour is thread `t`, if no later change command
states a thread. -/
theorem C30_set_order (hv : o.ValidSequins) (hc : o.changeCommand = 5) {pre post : List Stitch} {st : Stitch} {t : Int} {k : Nat}
    (h : encode o lm threads (pre ++ st :: post) = .ok (out, ths)) (hst : st.low = 16)
    (ht : (decodeCommand st.cmd).2.1 = some t) (hk : (decodeCommand st.cmd).2.2.2 = some (k : Int))
    (hpost : ∀ b ∈ post, ChangeLike b → (decodeCommand b.cmd).2.1 = none) {c : Option Thread} (hth : ths[k]? = some c) :
    c = threadOrFiller threads t := by
  obtain ⟨plan, hp, hths, _⟩ := encode_changes hv hc h
  obtain ⟨ch, hd, rfl⟩ := hths k c hth
  obtain ⟨pr, c, ps, e1, e2, e3⟩ := plan_entry hp hd
  have hset : cmdOf st.cmd = SET_CHANGE_SEQUENCE := hst
  have hraw : ∃ c, dget (k : Int) (rawPlan threads (pre ++ st :: post)) = some c ∧ c.thread = some t ∧
      c.thr = some (threadOrFiller threads t) := by
    unfold rawPlan
    rw [events_append, List.foldl_append, events_cons, if_pos hset, List.foldl_cons]
    have hpos : ∀ (l : List Stitch) (ci : Int), 0 ≤ ci → 0 ≤ l.foldl nextIndex ci := by
      intro l
      induction l with
      | nil => intro ci h; exact h
      | cons b l ih => intro ci h; exact ih _ (le_trans h (nextIndex_ge ci b h))
    refine fold_keeps _ _ ?_ ?_ ?_
    · intro e he
      left
      obtain ⟨x, hx, h0, _, h1, _⟩ := events_none post _ hpost e he
      rw [h1]; exact h0
    · intro e he hf
      obtain ⟨j, h1, _⟩ := events_index post _ (le_trans (hpos pre 0 (le_refl _)) (nextIndex_ge _ _ (hpos pre 0 (le_refl _)))) e he hf
      exact ⟨j, h1⟩
    · unfold planEvent
      simp only [if_pos hset, hk]
      rw [dget_upsert, if_pos rfl]
      obtain ⟨r1, r2⟩ := record_thread (threads := threads) (e := ⟨cmdOf st.cmd, (decodeCommand st.cmd).2.1,
        (decodeCommand st.cmd).2.2.1, (decodeCommand st.cmd).2.2.2, none⟩) ht
        ((dget (k : Int) (List.foldl (planEvent threads) ([(0, {})], 0) (events pre 0)).1).getD {})
      rw [hk] at r1 r2
      exact ⟨_, rfl, r1, r2⟩
  obtain ⟨c', h1, h2, h3⟩ := hraw
  rw [e2] at h1; injection h1 with h1; subst h1
  unfold fillOne at e3
  obtain ⟨nd, _, e3⟩ := bind_ok.1 e3
  injection e3 with e3
  rw [← e3]
  simp [h3]

/-- The colour that a change request without order number (SET_CHANGE_SEQUENCE) speaks of after `pre`: the one after
the latest colour mentioned so far. `c` is the number of the colour the next change begins, `slot` the answer. Changes
mention the colour they begin; each such request moves on by one. -/
def openSlot : List Stitch → Int → Int → Int
  | [], _, slot => slot
  | st :: rest, c, slot =>
    if st.low = 16 then openSlot rest c (if (decodeCommand st.cmd).2.2.2 = none then slot + 1 else slot)
    else if st.low ∈ [5, 9, 226] then openSlot rest (c + 1) (max slot (c + 1))
    else if st.low ∈ [0, 176, 177, 7] ∧ c = 0 then openSlot rest 1 slot
    else openSlot rest c slot

theorem openSlot_fold (threads : List Thread) : ∀ (l : List Stitch) (c slot : Int) (plan : List (Int × Change)),
    ((events l c).foldl (planEvent threads) (plan, slot)).2 = openSlot l c slot := by
  intro l
  induction l with
  | nil => intro c slot plan; rfl
  | cons st l ih =>
    intro c slot plan
    rw [events_cons, openSlot]
    have hsw := sewing_mem st
    by_cases h16 : st.low = 16
    · have hn : nextIndex c st = c := by
        unfold nextIndex
        have h1 : ¬ isSewing (cmdOf st.cmd) = true := by rw [hsw, h16]; decide
        have h2 : ¬ isChange (cmdOf st.cmd) = true := by
          show ¬ isChange st.low = true
          rw [h16]; decide
        simp [h1, h2]
      rw [if_pos (show cmdOf st.cmd = SET_CHANGE_SEQUENCE from h16), if_pos h16, List.foldl_cons, hn]
      unfold planEvent
      simp only [if_pos (show cmdOf st.cmd = SET_CHANGE_SEQUENCE from h16)]
      cases ho : (decodeCommand st.cmd).2.2.2 with
      | none => rw [if_pos rfl]; exact ih _ _ _
      | some k => rw [if_neg (by simp)]; exact ih _ _ _
    · rw [if_neg (show ¬ cmdOf st.cmd = SET_CHANGE_SEQUENCE from h16), if_neg h16]
      by_cases hch : st.low ∈ [5, 9, 226]
      · have h2 : isChange (cmdOf st.cmd) = true := by
          show isChange st.low = true
          simp only [List.mem_cons, List.not_mem_nil, or_false] at hch
          rcases hch with h | h | h <;> rw [h] <;> decide
        have h1 : ¬ isSewing (cmdOf st.cmd) = true := by
          rw [hsw]; simp only [List.mem_cons, List.not_mem_nil, or_false] at hch ⊢; omega
        have hn : nextIndex c st = c + 1 := by
          unfold nextIndex; simp [h1, h2]
        rw [if_pos h2, if_pos hch, List.foldl_cons, hn]
        unfold planEvent
        simp only [if_neg (show ¬ cmdOf st.cmd = SET_CHANGE_SEQUENCE from h16), Option.getD_some]
        have : (if c ≥ slot then c + 1 else slot) = max slot (c + 1) := by
          split_ifs <;> omega
        rw [this]; exact ih _ _ _
      · have h2 : ¬ isChange (cmdOf st.cmd) = true := by
          unfold isChange cmdOf COLOR_CHANGE NEEDLE_SET COLOR_BREAK
          simp only [Bool.or_eq_true, beq_iff_eq, List.mem_cons, List.not_mem_nil, or_false, Stitch.low] at hch ⊢
          omega
        rw [if_neg h2, if_neg hch]
        by_cases hs : st.low ∈ [0, 176, 177, 7] ∧ c = 0
        · have hn : nextIndex c st = 1 := by
            unfold nextIndex
            have : c = 0 ∧ isSewing (cmdOf st.cmd) = true := ⟨hs.2, hsw.2 hs.1⟩
            simp [this, h2]
          rw [if_pos hs, hn]; exact ih _ _ _
        · have hn : nextIndex c st = c := by
            unfold nextIndex
            have : ¬ (c = 0 ∧ isSewing (cmdOf st.cmd) = true) := fun h => hs ⟨hsw.1 h.2, h.1⟩
            rw [if_neg this]; simp [h2]
          rw [if_neg hs, hn]; exact ih _ _ _

/-- C30, SET_CHANGE_SEQUENCE without order number, stating thread `t`: the colour after the latest one mentioned is
thread `t`, if no later change command states a thread. -/
theorem C30_set_next (hv : o.ValidSequins) (hc : o.changeCommand = 5) {pre post : List Stitch} {st : Stitch} {t : Int} {k : Nat}
    (h : encode o lm threads (pre ++ st :: post) = .ok (out, ths)) (hst : st.low = 16)
    (ht : (decodeCommand st.cmd).2.1 = some t) (hno : (decodeCommand st.cmd).2.2.2 = none) (hk : openSlot pre 0 0 = k)
    (hpost : ∀ b ∈ post, ChangeLike b → (decodeCommand b.cmd).2.1 = none) {c : Option Thread} (hth : ths[k]? = some c) :
    c = threadOrFiller threads t := by
  obtain ⟨plan, hp, hths, _⟩ := encode_changes hv hc h
  obtain ⟨ch, hd, rfl⟩ := hths k c hth
  obtain ⟨pr, c, ps, e1, e2, e3⟩ := plan_entry hp hd
  have hset : cmdOf st.cmd = SET_CHANGE_SEQUENCE := hst
  have hraw : ∃ c, dget (k : Int) (rawPlan threads (pre ++ st :: post)) = some c ∧ c.thread = some t ∧
      c.thr = some (threadOrFiller threads t) := by
    unfold rawPlan
    rw [events_append, List.foldl_append, events_cons, if_pos hset, List.foldl_cons]
    have hpos : ∀ (l : List Stitch) (ci : Int), 0 ≤ ci → 0 ≤ l.foldl nextIndex ci := by
      intro l
      induction l with
      | nil => intro ci h; exact h
      | cons b l ih => intro ci h; exact ih _ (le_trans h (nextIndex_ge ci b h))
    have hlook := openSlot_fold threads pre 0 0 [(0, {})]
    rw [hk] at hlook
    refine fold_keeps _ _ ?_ ?_ ?_
    · intro e he
      left
      obtain ⟨x, hx, h0, _, h1, _⟩ := events_none post _ hpost e he
      rw [h1]; exact h0
    · intro e he hf
      obtain ⟨j, h1, _⟩ := events_index post _ (le_trans (hpos pre 0 (le_refl _)) (nextIndex_ge _ _ (hpos pre 0 (le_refl _)))) e he hf
      exact ⟨j, h1⟩
    · generalize (events pre 0).foldl (planEvent threads) ([(0, {})], 0) = p at hlook
      unfold planEvent
      simp only [if_pos hset, hno]
      rw [hlook, dget_upsert, if_pos rfl]
      obtain ⟨r1, r2⟩ := record_thread (threads := threads) (e := ⟨cmdOf st.cmd, (decodeCommand st.cmd).2.1,
        (decodeCommand st.cmd).2.2.1, (decodeCommand st.cmd).2.2.2, none⟩) ht ((dget (k : Int) p.1).getD {})
      rw [hno] at r1 r2
      exact ⟨_, rfl, r1, r2⟩
  obtain ⟨c', h1, h2, h3⟩ := hraw
  rw [e2] at h1; injection h1 with h1; subst h1
  unfold fillOne at e3
  obtain ⟨nd, _, e3⟩ := bind_ok.1 e3
  injection e3 with e3
  rw [← e3]
  simp [h3]

/-- Three requests in front, one after a change: colours as asked. -/
example :
    (encode {} ⟨fun _ _ _ _ => 0, fun _ _ _ _ _ => (0, 0), fun _ => 1, fun _ => 0⟩
      [{ color := 7 }, { color := 8 }, { color := 9 }]
      [⟨0, 0, encodeThreadChange 16 (some 2) none none⟩, ⟨0, 0, encodeThreadChange 16 (some 1) none none⟩, ⟨0, 0, 0⟩,
        ⟨0, 0, 5⟩, ⟨0, 0, encodeThreadChange 16 (some 0) none none⟩, ⟨1, 0, 0⟩, ⟨0, 0, 5⟩, ⟨0, 0, 0⟩]).toOption.map (·.2) =
      some [some { color := 9 }, some { color := 8 }, some { color := 7 }] := by
  decide +kernel

/-- The part of C30 that fails: a COLOR_BREAK that is ignored (nothing sewn yet) still uses up the first planned change, so
the COLOR_CHANGE asking for thread 1 gets thread 0. -/
theorem C30_leading_break_shifts :
    (encode {} ⟨fun _ _ _ _ => 0, fun _ _ _ _ _ => (0, 0), fun _ => 1, fun _ => 0⟩ [{ color := 7 }, { color := 9 }]
      [⟨0, 0, 226⟩, ⟨0, 0, encodeThreadChange 5 (some 1) none none⟩, ⟨0, 0, 0⟩]).toOption.map (·.2) =
      some [some { color := 7 }] := by
  decide +kernel

/-- The part of C31 that fails: with one needle and 256 colours the last change asks for needle 2. -/
theorem C31_256_colours : (encode { needleCount := 1 } ⟨fun _ _ _ _ => 0, fun _ _ _ _ _ => (0, 0), fun _ => 1, fun _ => 0⟩ []
    (List.replicate 256 ⟨0, 0, 5⟩)).toOption.map
      (fun r => r.1.map (fun w => (decodeCommand w.cmd).2.2.1) |>.getD 254 none) = some (some 2) := by
  decide +kernel

/-- Explicit indices: hypotheses of `C30_explicit_partial` and `C30_set_order` are met, and the colours are as asked. -/
example :
    (encode {} ⟨fun _ _ _ _ => 0, fun _ _ _ _ _ => (0, 0), fun _ => 1, fun _ => 0⟩
      [{ color := 7 }, { color := 8 }, { color := 9 }]
      [⟨0, 0, encodeThreadChange 16 (some 1) none (some 0)⟩, ⟨0, 0, 0⟩, ⟨0, 0, encodeThreadChange 5 (some 2) none none⟩,
        ⟨0, 0, 0⟩]).toOption.map (·.2) = some [some { color := 8 }, some { color := 9 }] := by
  decide +kernel

end Emb
