import Verif.EncoderTotal

/-!
# The planned change sequence
-/

namespace Emb

/-- The dictionary has key `k`. -/
def Has {α : Type} (k : Int) (l : List (Int × α)) : Prop := ∃ v, dget k l = some v

theorem dget_upsert {α : Type} (k j : Int) (new : α) (f : α → α) (l : List (Int × α)) :
    dget j (upsert k new f l) = if j = k then some (f ((dget k l).getD new)) else dget j l := by
  induction l with
  | nil =>
    by_cases h : j = k
    · subst h; simp [upsert, dget]
    · simp [upsert, dget, h, Ne.symm h]
  | cons p rest ih =>
    obtain ⟨k', v⟩ := p
    by_cases h : k' = k
    · subst h
      by_cases hj : j = k'
      · subst hj; simp [upsert, dget]
      · simp [upsert, dget, hj, Ne.symm hj]
    · simp only [upsert, if_neg h, dget]
      by_cases hj : k' = j
      · subst hj; simp [h]
      · simp only [if_neg hj, ih]

theorem Has.upsert {α : Type} {k j : Int} {new : α} {f : α → α} {l : List (Int × α)} (h : Has j l) :
    Has j (upsert k new f l) := by
  unfold Has; rw [dget_upsert]; split
  · exact ⟨_, rfl⟩
  · exact h

theorem has_upsert {α : Type} {k : Int} {new : α} {f : α → α} {l : List (Int × α)} : Has k (upsert k new f l) := by
  unfold Has; rw [dget_upsert, if_pos rfl]; exact ⟨_, rfl⟩

theorem planEvent_has {threads : List Thread} {p : List (Int × Change) × Int} {e : Event} {k : Int} (h : Has k p.1) :
    Has k (planEvent threads p e).1 := by
  unfold planEvent
  simp only
  split
  · split <;> exact h.upsert
  · exact h.upsert

theorem planEvent_new {threads : List Thread} {p : List (Int × Change) × Int} {e : Event} {k : Int}
    (hf : e.flags ≠ SET_CHANGE_SEQUENCE) (hi : e.index = some k) : Has k (planEvent threads p e).1 := by
  unfold planEvent
  simp only [if_neg hf, hi, Option.getD_some]
  exact has_upsert

theorem fold_has {threads : List Thread} : ∀ (es : List Event) (p : List (Int × Change) × Int),
    (∀ k, Has k p.1 → Has k (es.foldl (planEvent threads) p).1) ∧
    (∀ e ∈ es, ∀ k, e.flags ≠ SET_CHANGE_SEQUENCE → e.index = some k → Has k (es.foldl (planEvent threads) p).1) := by
  intro es
  induction es with
  | nil => intro p; exact ⟨fun k h => h, by simp⟩
  | cons e es ih =>
    intro p
    obtain ⟨h1, h2⟩ := ih (planEvent threads p e)
    refine ⟨fun k h => h1 k (planEvent_has h), ?_⟩
    intro e' he' k hf hi
    rcases List.mem_cons.1 he' with rfl | he'
    · exact h1 k (planEvent_new hf hi)
    · exact h2 e' he' k hf hi

theorem rawPlan_has (threads : List Thread) (source : List Stitch) :
    Has 0 (rawPlan threads source) ∧
    ∀ e ∈ events source 0, ∀ k, e.flags ≠ SET_CHANGE_SEQUENCE → e.index = some k → Has k (rawPlan threads source) := by
  obtain ⟨h1, h2⟩ := fold_has (threads := threads) (events source 0) ([(0, {})], 0)
  exact ⟨h1 0 ⟨_, rfl⟩, h2⟩

theorem fillPlan_cons (threads : List Thread) (change limit : Int) (k : Int) (c : Change) (rest : List (Int × Change))
    (ti ni : Int) : fillPlan threads change limit ((k, c) :: rest) ti ni =
      (fillOne threads change limit c ti ni >>= fun f =>
       fillPlan threads change limit rest (if c.thread = none then ti + 1 else ti) (if c.needle = none then ni + 1 else ni)
        >>= fun r => .ok ((k, f) :: r)) := rfl

theorem fillPlan_split {threads : List Thread} {change limit : Int} : ∀ (plan : List (Int × Change)) (ti ni : Int)
    (r : List (Int × Full)), fillPlan threads change limit plan ti ni = .ok r →
    ∀ pre k c post, plan = pre ++ (k, c) :: post → ∃ rp f rq, r = rp ++ (k, f) :: rq ∧ rp.map (·.1) = pre.map (·.1) ∧
      fillOne threads change limit c (ti + pre.countP (fun p => p.2.thread = none))
        (ni + pre.countP (fun p => p.2.needle = none)) = .ok f := by
  intro plan
  induction plan with
  | nil => intro ti ni r h pre k c post e; simp at e
  | cons p rest ih =>
    obtain ⟨k0, c0⟩ := p
    intro ti ni r h pre k c post e
    rw [fillPlan_cons] at h
    obtain ⟨f, h1, h⟩ := bind_ok.1 h
    obtain ⟨r', h2, h⟩ := bind_ok.1 h
    injection h with h; subst h
    cases pre with
    | nil =>
      simp at e
      obtain ⟨⟨rfl, rfl⟩, rfl⟩ := e
      exact ⟨[], f, r', rfl, rfl, by simpa using h1⟩
    | cons q pre' =>
      simp at e
      obtain ⟨rfl, e⟩ := e
      obtain ⟨rp, f', rq, e1, e2, e3⟩ := ih _ _ r' h2 pre' k c post e
      refine ⟨(k0, f) :: rp, f', rq, by rw [e1]; rfl, by simp [e2], ?_⟩
      rw [← e3]
      simp only [List.countP_cons]
      congr 1
      · by_cases h : c0.thread = none
        · simp [h]; omega
        · simp [h]
      · by_cases h : c0.needle = none
        · simp [h]; omega
        · simp [h]

theorem dget_append {α : Type} {pre post : List (Int × α)} {k : Int} {v : α} (h : k ∉ pre.map (·.1)) :
    dget k (pre ++ (k, v) :: post) = some v := by
  induction pre with
  | nil => simp [dget]
  | cons p pre ih =>
    obtain ⟨k', w⟩ := p
    simp at h
    have h1 : ¬ k' = k := fun e => h.1 e.symm
    simp only [List.cons_append, dget, if_neg h1]
    exact ih (by simpa using h.2)

theorem dget_first {α : Type} {k : Int} {v : α} : ∀ {l : List (Int × α)}, dget k l = some v →
    ∃ pre post, l = pre ++ (k, v) :: post ∧ k ∉ pre.map (·.1)
  | [], h => by simp [dget] at h
  | (k', w) :: rest, h => by
    by_cases hk : k' = k
    · simp only [dget, if_pos hk] at h; injection h with h; subst hk; subst h
      exact ⟨[], rest, rfl, by simp⟩
    · simp only [dget, if_neg hk] at h
      obtain ⟨pre, post, e, hn⟩ := dget_first h
      refine ⟨(k', w) :: pre, post, by rw [e]; rfl, ?_⟩
      simp at hn ⊢
      exact ⟨fun e => hk e.symm, hn⟩

/-- Lookup in the finished plan. -/
theorem fillPlan_get {threads : List Thread} {change limit : Int} {plan : List (Int × Change)} {ti ni : Int}
    {r : List (Int × Full)} (h : fillPlan threads change limit plan ti ni = .ok r) {k : Int} {c : Change}
    (hk : dget k plan = some c) : ∃ pre post f, plan = pre ++ (k, c) :: post ∧ dget k r = some f ∧
      fillOne threads change limit c (ti + pre.countP (fun p => p.2.thread = none))
        (ni + pre.countP (fun p => p.2.needle = none)) = .ok f := by
  obtain ⟨pre, post, e, hn⟩ := dget_first hk
  obtain ⟨rp, f, rq, e1, e2, e3⟩ := fillPlan_split plan ti ni r h pre k c post e
  refine ⟨pre, post, f, e, ?_, e3⟩
  rw [e1]; exact dget_append (by rw [e2]; exact hn)

theorem dget_none {α : Type} {k : Int} : ∀ {l : List (Int × α)}, dget k l = none ↔ k ∉ l.map (·.1)
  | [] => by simp [dget]
  | (k', w) :: rest => by
    by_cases hk : k' = k
    · simp [dget, hk]
    · have : ¬ k = k' := fun e => hk e.symm
      simp only [dget, if_neg hk, dget_none (l := rest), List.map_cons, List.mem_cons, not_or]
      exact ⟨fun h => ⟨this, h⟩, fun h => h.2⟩

theorem fillPlan_keys {threads : List Thread} {change limit : Int} : ∀ (plan : List (Int × Change)) (ti ni : Int)
    (r : List (Int × Full)), fillPlan threads change limit plan ti ni = .ok r → r.map (·.1) = plan.map (·.1) := by
  intro plan
  induction plan with
  | nil => intro ti ni r h; simp [fillPlan] at h; subst h; rfl
  | cons p rest ih =>
    obtain ⟨k, c⟩ := p
    intro ti ni r h
    rw [fillPlan_cons] at h
    obtain ⟨f, _, h⟩ := bind_ok.1 h
    obtain ⟨r', h1, h⟩ := bind_ok.1 h
    injection h with h; subst h
    simp [ih _ _ _ h1]

theorem fillPlan_none {threads : List Thread} {change limit : Int} {plan : List (Int × Change)} {ti ni : Int}
    {r : List (Int × Full)} (h : fillPlan threads change limit plan ti ni = .ok r) {k : Int} (hk : dget k plan = none) :
    dget k r = none := by
  rw [dget_none, fillPlan_keys _ _ _ _ h, ← dget_none]; exact hk

theorem fillPlan_has {threads : List Thread} {change limit : Int} {plan : List (Int × Change)} {ti ni : Int}
    {r : List (Int × Full)} (h : fillPlan threads change limit plan ti ni = .ok r) {k : Int} (hk : Has k plan) : Has k r := by
  obtain ⟨c, hc⟩ := hk
  obtain ⟨_, _, f, _, hf, _⟩ := fillPlan_get h hc
  exact ⟨f, hf⟩

theorem fillPlan_err {threads : List Thread} {change limit : Int} : ∀ (plan : List (Int × Change)) (ti ni : Int) (e : PyErr),
    fillPlan threads change limit plan ti ni = .error e → e = .zeroDivision ∧ limit = 0 := by
  intro plan
  induction plan with
  | nil => intro ti ni e h; simp [fillPlan] at h
  | cons p rest ih =>
    obtain ⟨k, c⟩ := p
    intro ti ni e h
    rw [fillPlan_cons] at h
    rcases bind_err.1 h with h | ⟨f, _, h⟩
    · unfold fillOne at h
      rcases bind_err.1 h with h | ⟨n, _, h⟩
      · cases hn : c.needle with
        | some n => rw [hn] at h; cases h
        | none =>
          rw [hn] at h
          simp only [autoNeedle] at h
          split at h
          · split at h
            · rename_i hl; injection h with h; exact ⟨h.symm, hl⟩
            · cases h
          · cases h
      · cases h
    · rcases bind_err.1 h with h | ⟨r, _, h⟩
      · exact ih _ _ e h
      · cases h

/-! ## Runs -/

variable {cfg : Cfg} {s s' : St}

/-- The steps of a source without END. -/
def stepsFrom (cfg : Cfg) : Nat → St → List Stitch → Except PyErr St
  | _, s, [] => .ok s
  | position, s, st :: rest =>
    match step cfg position s st with
    | .error e => .error e
    | .ok s' => stepsFrom cfg (position + 1) s' rest

/-- The planner's `current_index` after a command. -/
def nextIndex (ci : Int) (st : Stitch) : Int :=
  let c1 := if ci = 0 ∧ isSewing (cmdOf st.cmd) = true then 1 else ci
  if isChange (cmdOf st.cmd) = true then c1 + 1 else c1

theorem events_cons (st : Stitch) (rest : List Stitch) (ci : Int) :
    events (st :: rest) ci =
      if cmdOf st.cmd = SET_CHANGE_SEQUENCE then
        ⟨cmdOf st.cmd, (decodeCommand st.cmd).2.1, (decodeCommand st.cmd).2.2.1, (decodeCommand st.cmd).2.2.2, none⟩ ::
          events rest (nextIndex ci st)
      else if isChange (cmdOf st.cmd) = true then
        ⟨cmdOf st.cmd, (decodeCommand st.cmd).2.1, (decodeCommand st.cmd).2.2.1, (decodeCommand st.cmd).2.2.2, some ci⟩ ::
          events rest (nextIndex ci st)
      else events rest (nextIndex ci st) := by
  have hd : (decodeCommand st.cmd).1 = cmdOf st.cmd := rfl
  simp only [events, hd]
  by_cases h1 : cmdOf st.cmd = SET_CHANGE_SEQUENCE
  · have h2 : isChange (cmdOf st.cmd) = false := by rw [h1]; rfl
    have h3 : isSewing (cmdOf st.cmd) = false := by rw [h1]; rfl
    simp only [if_pos h1, nextIndex, h2, h3]
    rfl
  · simp only [if_neg h1]
    by_cases h2 : isChange (cmdOf st.cmd) = true
    · have h2' : cmdOf st.cmd = NEEDLE_SET ∨ cmdOf st.cmd = COLOR_CHANGE ∨ cmdOf st.cmd = COLOR_BREAK := by
        unfold isChange at h2; simp only [Bool.or_eq_true, beq_iff_eq] at h2; tauto
      have h3 : isSewing (cmdOf st.cmd) = false := by
        rcases h2' with h | h | h <;> rw [h] <;> rfl
      simp only [if_pos h2', if_pos h2, nextIndex, h3]
      simp
    · have h2' : ¬ (cmdOf st.cmd = NEEDLE_SET ∨ cmdOf st.cmd = COLOR_CHANGE ∨ cmdOf st.cmd = COLOR_BREAK) := by
        intro hc; apply h2; unfold isChange; simp only [Bool.or_eq_true, beq_iff_eq]; tauto
      simp only [if_neg h2', if_neg h2, nextIndex]

/-- Runs never miss a planned change. -/
theorem run_err : ∀ (rest : List Stitch) (position : Nat) (s : St) (ci : Int) (e : PyErr),
    -1 ≤ s.order → s.order + 1 ≤ ci → (∀ k, 0 ≤ k → k < ci → Has k cfg.plan) → Has 0 cfg.plan →
    (∀ ev ∈ events rest ci, ∀ k, ev.flags ≠ SET_CHANGE_SEQUENCE → ev.index = some k → Has k cfg.plan) →
    runFrom cfg position s rest = .error e → e = .zeroDivision := by
  intro rest
  induction rest with
  | nil => intro position s ci e _ _ _ _ _ h; simp [runFrom] at h
  | cons st rest ih =>
    intro position s ci e h1 h2 h3 h0 h4 h
    have hr := step_res (cfg := cfg) (s := s) (position := position) st
    rw [events_cons] at h4
    -- the key for a change made here is planned
    have hkey : isChange (cmdOf st.cmd) = true → Has ci cfg.plan := by
      intro hc
      have hns : ¬ cmdOf st.cmd = SET_CHANGE_SEQUENCE := by intro he; rw [he] at hc; cases hc
      rw [if_neg hns, if_pos hc] at h4
      exact h4 _ (List.mem_cons_self) ci hns rfl
    have hrest : ∀ ev ∈ events rest (nextIndex ci st), ∀ k, ev.flags ≠ SET_CHANGE_SEQUENCE → ev.index = some k →
        Has k cfg.plan := by
      intro ev hev
      apply h4
      split_ifs
      · exact List.mem_cons_of_mem _ hev
      · exact List.mem_cons_of_mem _ hev
      · exact hev
    simp only [runFrom] at h
    by_cases hend : cmdOf st.cmd = END
    · rw [if_pos hend] at h; cases h
    rw [if_neg hend] at h
    cases hs : step cfg position s st with
    | error e' =>
      rw [hs] at h; injection h with h; subst h
      rcases hr.err e' hs with z | ⟨⟨_, hn⟩, hc⟩
      · exact z.1
      · exfalso
        have hn : dget (s.order + 1) cfg.plan = none := hn
        have : Has (s.order + 1) cfg.plan := by
          rcases hc with hc | ⟨_, ho⟩
          · by_cases hlt : s.order + 1 < ci
            · exact h3 _ (by omega) hlt
            · have : s.order + 1 = ci := by omega
              rw [this]; exact hkey hc
          · have ho : s.order = -1 := ho
            rw [ho]; exact h0
        obtain ⟨v, hv⟩ := this
        rw [hn] at hv; cases hv
    | ok s' =>
      rw [hs] at h
      have ho := hr.order s' hs
      simp only at ho
      refine ih (position + 1) s' (nextIndex ci st) e (by omega) ?_ ?_ h0 hrest h
      · unfold nextIndex
        simp only
        rcases ho with ho | ⟨hc, ho⟩ | ⟨hc, h5, ho⟩
        · rw [ho]; split_ifs <;> omega
        · rw [ho, if_pos hc]; split_ifs <;> omega
        · have : (0 : Int) + 1 ≤ if ci = 0 ∧ isSewing (cmdOf st.cmd) = true then 1 else ci := by
            by_cases hz : ci = 0
            · rw [if_pos ⟨hz, hc⟩]; omega
            · rw [if_neg (fun h => hz h.1)]; omega
          rw [ho]; split_ifs at this ⊢ <;> omega
      · intro k hk0 hk
        by_cases hz : k = 0
        · rw [hz]; exact h0
        · unfold nextIndex at hk
          simp only at hk
          by_cases hlt : k < ci
          · exact h3 k hk0 hlt
          · have hc : isChange (cmdOf st.cmd) = true := by
              by_contra hc
              rw [if_neg hc] at hk
              split_ifs at hk <;> omega
            have hsew : isSewing (cmdOf st.cmd) = false := by
              unfold isChange at hc
              simp only [Bool.or_eq_true, beq_iff_eq] at hc
              rcases hc with (h | h) | h <;> rw [h] <;> rfl
            rw [if_pos hc] at hk
            simp only [hsew, Bool.false_eq_true, and_false, if_false] at hk
            have : k = ci := by omega
            rw [this]; exact hkey hc

/-- Splitting a run at a command not preceded by END. -/
theorem run_split : ∀ (pre : List Stitch) (position : Nat) (s sf : St) (rest : List Stitch),
    (∀ b ∈ pre, cmdOf b.cmd ≠ END) → runFrom cfg position s (pre ++ rest) = .ok sf →
    ∃ s1, stepsFrom cfg position s pre = .ok s1 ∧ runFrom cfg (position + pre.length) s1 rest = .ok sf := by
  intro pre
  induction pre with
  | nil => intro position s sf rest _ h; exact ⟨s, rfl, h⟩
  | cons st pre ih =>
    intro position s sf rest hp h
    rw [List.cons_append, runFrom, if_neg (hp st (List.mem_cons_self))] at h
    cases hs : step cfg position s st with
    | error e => rw [hs] at h; cases h
    | ok s' =>
      rw [hs] at h
      obtain ⟨s1, h1, h2⟩ := ih (position + 1) s' sf rest (fun b hb => hp b (List.mem_cons_of_mem _ hb)) h
      refine ⟨s1, by simp only [stepsFrom, hs]; exact h1, ?_⟩
      rw [List.length_cons, show position + (pre.length + 1) = position + 1 + pre.length by omega]
      exact h2

/-- Invariants of prefixes. -/
theorem steps_inv {P : St → Prop} {Q : Stitch → Prop}
    (hstep : ∀ position s st s', BaseInv s → P s → Q st → step cfg position s st = .ok s' → P s') :
    ∀ (pre : List Stitch) (position : Nat) (s s1 : St), BaseInv s → P s → (∀ st ∈ pre, Q st) →
      stepsFrom cfg position s pre = .ok s1 → BaseInv s1 ∧ P s1 := by
  intro pre
  induction pre with
  | nil => intro position s s1 hI hP _ h; simp only [stepsFrom] at h; injection h with h; subst h; exact ⟨hI, hP⟩
  | cons st pre ih =>
    intro position s s1 hI hP hQ h
    simp only [stepsFrom] at h
    cases hs : step cfg position s st with
    | error e => rw [hs] at h; cases h
    | ok s' =>
      rw [hs] at h
      exact ih (position + 1) s' s1 (chain_base (step_chain st hI hs).1 hI)
        (hstep position s st s' hI hP (hQ st List.mem_cons_self) hs) (fun t ht => hQ t (List.mem_cons_of_mem _ ht)) h

theorem encode_state {o : Settings} {lm : Libm} {threads : List Thread} {source out : List Stitch}
    {ths : List (Option Thread)} (h : encode o lm threads source = .ok (out, ths)) :
    ∃ plan sf, buildPlan o threads source = .ok plan ∧
      runFrom (mkCfg o lm source plan) 0 (initSt o lm threads) source = .ok sf ∧ out = sf.out ∧ ths = sf.threads := by
  unfold encode at h
  cases hp : buildPlan o threads source with
  | error e => rw [hp] at h; cases h
  | ok plan =>
    rw [hp] at h
    simp only at h
    cases hr : runFrom (mkCfg o lm source plan) 0 (initSt o lm threads) source with
    | error e => rw [hr] at h; cases h
    | ok sf =>
      rw [hr] at h
      simp only at h
      injection h with h
      injection h with h1 h2
      exact ⟨plan, sf, rfl, hr, h1.symm, h2.symm⟩

end Emb
