import Verif.Spec
import Verif.PlanLemmas
import Verif.Props.MirrorProps
import Verif.Props.SettingProps

/-!
# C110: what is appended does not change what was there

The normalization looks ahead in three places only: a tie-on looks at the next command, a colour break looks for a stitch, and the plan of the
changes is made in advance.
-/

namespace Emb

namespace Causal

open Mirror

/-- The two runs differ in source and plan only, and the plans agree on the changes before `K`. -/
structure Agree (cfg cfg' : Cfg) (K : Int) : Prop where
  same : cfg' = { cfg with source := cfg'.source, plan := cfg'.plan }
  plan : ∀ k, 0 ≤ k → k < K → dget k cfg'.plan = dget k cfg.plan

variable {cfg cfg' : Cfg} {K : Int} {s : St}

theorem next_eq (h : Agree cfg cfg' K) (h0 : -1 ≤ s.order) (hK : s.order + 1 < K) : nextChange cfg' s = nextChange cfg s := by
  have hc : cfg'.change = cfg.change := by rw [h.same]
  rw [Setting.nextChange_eq, Setting.nextChange_eq, h.plan _ (by omega) hK]
  cases dget (s.order + 1) cfg.plan with
  | none => rfl
  | some c => unfold Setting.changed Setting.announce Setting.learned; rw [hc]

theorem declare_eq (h : Agree cfg cfg' K) (hK : 0 < K) : declareNotTrimmed cfg' s = declareNotTrimmed cfg s := by
  unfold declareNotTrimmed
  split_ifs with ho
  · rw [next_eq h (by omega) (by omega)]
  · rfl

theorem lock_eq (h : Agree cfg cfg' K) (b : Stitch) : lockTowards cfg' s b = lockTowards cfg s b := by
  unfold lockTowards
  rw [show cfg'.lm = cfg.lm by rw [h.same]]

theorem off_eq (h : Agree cfg cfg' K) {i : Nat} (hi : pyGet cfg'.source ((i : Int) - 1) = pyGet cfg.source ((i : Int) - 1)) (s : St) :
    tieOff cfg' i s = tieOff cfg i s := by
  unfold tieOff
  rw [hi]
  split_ifs
  · cases pyGet cfg.source ((i : Int) - 1) with
    | ok b => exact lock_eq h b
    | error e => rfl
  · rfl

theorem on_eq (h : Agree cfg cfg' K) {i : Nat}
    (hi : pyGet cfg'.source ((i : Int) + 1) = pyGet cfg.source ((i : Int) + 1) ∨ s.tieOnC ≠ 0xD1) :
    tieOn cfg' i s = tieOn cfg i s := by
  unfold tieOn
  rcases hi with hi | hi
  · rw [hi]
    split_ifs
    · cases pyGet cfg.source ((i : Int) + 1) with
      | ok b => exact lock_eq h b
      | error e => rfl
    · rfl
  · rw [if_neg (show ¬ s.tieOnC = CONTINGENCY_TIE_ON_THREE_SMALL from hi), if_neg (show ¬ s.tieOnC = CONTINGENCY_TIE_ON_THREE_SMALL from hi)]

theorem bind_congr' {α β : Type} {x : Except PyErr α} {f g : α → Except PyErr β} (h : ∀ a, x = .ok a → f a = g a) :
    (x >>= f) = (x >>= g) := by
  cases x with
  | error e => rfl
  | ok a => exact h a rfl

theorem first_eq (h : Agree cfg cfg' K) (hK : 0 < K) {i : Nat}
    (hi : pyGet cfg'.source ((i : Int) + 1) = pyGet cfg.source ((i : Int) + 1) ∨ s.tieOnC ≠ 0xD1) (x y : ℚ) :
    firstStrike cfg' i s x y = firstStrike cfg i s x y := by
  unfold firstStrike
  rw [declare_eq h hK]
  refine bind_congr' fun a ha => ?_
  have hj : jumpToWithin cfg' a x y = jumpToWithin cfg a x y := by
    unfold jumpToWithin; rw [show cfg'.fullJump = cfg.fullJump by rw [h.same]]
  rw [hj]
  refine bind_congr' fun b hb => ?_
  rw [on_eq h]
  refine hi.imp_right fun hi => ?_
  rw [show (stitchAt b x y).tieOnC = b.tieOnC from rfl, ((kept_declare ha).trans (kept_jumpToWithin hb)).2.1]
  exact hi

theorem sew_eq (h : Agree cfg cfg' K) (hK : 0 < K) {i : Nat}
    (hi : pyGet cfg'.source ((i : Int) + 1) = pyGet cfg.source ((i : Int) + 1) ∨ s.tieOnC ≠ 0xD1) (x y : ℚ)
    (d : St → ℚ → ℚ → Except PyErr St) : sewStep cfg' i s x y d = sewStep cfg i s x y d := by
  unfold sewStep
  rw [first_eq h hK hi]

theorem eject_eq (h : Agree cfg cfg' K) (hK : 0 < K) {i : Nat}
    (hi : pyGet cfg'.source ((i : Int) + 1) = pyGet cfg.source ((i : Int) + 1) ∨ s.tieOnC ≠ 0xD1) (x y : ℚ) :
    ejectStep cfg' i s x y = ejectStep cfg i s x y := by
  unfold ejectStep
  rw [first_eq h hK hi]

/-- Where a tie-off looks back at the command before. -/
def Back (cfg cfg' : Cfg) (i : Nat) (s : St) : Prop :=
  s.trimmed = true ∨ pyGet cfg'.source ((i : Int) - 1) = pyGet cfg.source ((i : Int) - 1)

theorem needed_eq (h : Agree cfg cfg' K) {i : Nat} (hi : Back cfg cfg' i s) :
    tieOffAndTrimIfNeeded cfg' i s = tieOffAndTrimIfNeeded cfg i s := by
  unfold tieOffAndTrimIfNeeded
  rcases hi with hi | hi
  · rw [hi]; rfl
  · rw [off_eq h hi]

theorem explicit_eq (h : Agree cfg cfg' K) {i : Nat} (hi : Back cfg cfg' i s) :
    tieOffTrimIfExplicit cfg' i s = tieOffTrimIfExplicit cfg i s := by
  unfold tieOffTrimIfExplicit
  rcases hi with hi | hi
  · rw [hi]; rfl
  · rw [off_eq h hi]

theorem explicit_order (cfg : Cfg) (i : Nat) (s : St) : (tieOffTrimIfExplicit cfg i s).order = s.order := by
  unfold tieOffTrimIfExplicit tieOff lockTowards trimHere toggleSequins
  simp only
  split_ifs <;> (try split) <;> (try split_ifs) <;> rfl

theorem change_eq (h : Agree cfg cfg' K) {i : Nat} (hi : Back cfg cfg' i s) (h0 : -1 ≤ s.order) (hK : s.order + 1 < K) :
    colorChange cfg' i s = colorChange cfg i s := by
  unfold colorChange
  rw [explicit_eq h hi, next_eq h (by rw [explicit_order]; exact h0) (by rw [explicit_order]; exact hK)]

theorem break_eq (h : Agree cfg cfg' K) {i : Nat} (hi : Back cfg cfg' i s) (h0 : -1 ≤ s.order) (hK : s.order + 1 < K)
    (hl : lookahead cfg' i = lookahead cfg i) : colorBreak cfg' i s = colorBreak cfg i s := by
  unfold colorBreak
  rw [hl, explicit_eq h hi]
  simp only
  rw [next_eq h (by rw [explicit_order]; exact h0) (by rw [explicit_order]; exact hK)]

theorem frame_eq (h : Agree cfg cfg' K) {i : Nat} (hi : Back cfg cfg' i s) (x y : ℚ) : frameEject cfg' i s x y = frameEject cfg i s x y := by
  unfold frameEject
  rw [needed_eq h hi]

theorem setting_eq (h : Agree cfg cfg' K) (a : Stitch) (c : Int) : settingStep cfg' s a c = settingStep cfg s a c := by
  unfold settingStep matrixStep
  rw [show cfg'.lm = cfg.lm by rw [h.same]]

theorem dispatch_eq (h : Agree cfg cfg' K) {i : Nat} {a : Stitch} {x y : ℚ} {c : Int} (h0 : -1 ≤ s.order)
    (hc : isChange c = true → s.order + 1 < K) (hs : isSewing c = true → 0 < K)
    (hon : c ∈ [0, 0xB0, 0xB1, 7, 0xE4] → pyGet cfg'.source ((i : Int) + 1) = pyGet cfg.source ((i : Int) + 1) ∨ s.tieOnC ≠ 0xD1)
    (hi : Back cfg cfg' i s) (hoff : c = 0xE5 → pyGet cfg'.source ((i : Int) - 1) = pyGet cfg.source ((i : Int) - 1))
    (hl : c = 0xE2 → lookahead cfg' i = lookahead cfg i) : dispatch cfg' i s a x y c = dispatch cfg i s a x y c := by
  unfold dispatch
  have hw : cfg'.writesSpeeds = cfg.writesSpeeds := by rw [h.same]
  refine ite_congr rfl (fun e => sew_eq h (hs (by rw [e]; rfl)) (hon (by rw [e]; decide)) _ _ _) fun _ => ?_
  refine ite_congr rfl (fun e => sew_eq h (hs (by rw [e]; rfl)) (hon (by rw [e]; decide)) _ _ _) fun _ => ?_
  refine ite_congr rfl (fun e => sew_eq h (hs (by rw [e]; rfl)) (hon (by rw [e]; decide)) _ _ _) fun _ => ?_
  refine ite_congr rfl (fun _ => rfl) fun _ => ?_
  refine ite_congr rfl (fun _ => frame_eq h hi _ _) fun _ => ?_
  refine ite_congr rfl (fun _ => by rw [needed_eq h hi]) fun _ => ?_
  refine ite_congr rfl (fun e => break_eq h hi h0 (hc (by rw [e]; rfl)) (hl e)) fun _ => ?_
  refine ite_congr rfl (fun e => by rw [off_eq h (hoff e)]) fun _ => ?_
  refine ite_congr rfl (fun e => by rw [on_eq h (hon (by rw [e]; decide))]) fun _ => ?_
  refine ite_congr rfl (fun _ => by rw [needed_eq h hi]) fun _ => ?_
  refine ite_congr rfl (fun _ => rfl) fun _ => ?_
  refine ite_congr rfl (fun _ => rfl) fun _ => ?_
  refine ite_congr rfl (fun e => eject_eq h (hs (by rw [e]; rfl)) (hon (by rw [e]; decide)) _ _) fun _ => ?_
  refine ite_congr rfl (fun e => change_eq h hi h0 (hc (by rw [e]; rfl))) fun _ => ?_
  refine ite_congr rfl (fun e => change_eq h hi h0 (hc (by rw [e]; rfl))) fun _ => ?_
  refine ite_congr rfl (fun _ => rfl) fun _ => ?_
  refine ite_congr rfl (fun _ => by rw [hw]) fun _ => ?_
  refine ite_congr rfl (fun _ => by rw [hw]) fun _ => ?_
  exact setting_eq h a c

theorem step_eq (h : Agree cfg cfg' K) {i : Nat} {a : Stitch} (h0 : -1 ≤ s.order)
    (hc : isChange a.low = true → s.order + 1 < K) (hs : isSewing a.low = true → 0 < K)
    (hon : a.low ∈ [0, 0xB0, 0xB1, 7, 0xE4] → pyGet cfg'.source ((i : Int) + 1) = pyGet cfg.source ((i : Int) + 1) ∨ s.tieOnC ≠ 0xD1)
    (hi : Back cfg cfg' i s) (hoff : a.low = 0xE5 → pyGet cfg'.source ((i : Int) - 1) = pyGet cfg.source ((i : Int) - 1))
    (hl : a.low = 0xE2 → lookahead cfg' i = lookahead cfg i) : step cfg' i s a = step cfg i s a := by
  unfold step target
  rw [show cfg'.round = cfg.round by rw [h.same]]
  exact dispatch_eq h (s := { s with high := flagsOf a.cmd }) h0 hc hs hon hi hoff hl

/-- Ties stay off. -/
theorem kept_off_dispatch {s' : St} {i : Nat} {a : Stitch} {x y : ℚ} {c : Int} (hc : c ≠ 0xD1) (hs : s.tieOnC ≠ 0xD1)
    (h : dispatch cfg i s a x y c = .ok s') : s'.tieOnC ≠ 0xD1 := by
  have of : ∀ {r : St}, Kept s r → r.tieOnC ≠ 0xD1 := fun hk => by rw [hk.2.1]; exact hs
  have now : ∀ {r : St}, (.ok r : Except PyErr St) = .ok s' → r.tieOnC ≠ 0xD1 → s'.tieOnC ≠ 0xD1 := by
    intro r h hr
    injection h with h; subst h; exact hr
  unfold dispatch at h
  refine ite_ok h (fun _ h => of (kept_sew (fun _ => kept_contingency) h)) fun _ h => ?_
  refine ite_ok h (fun _ h => of (kept_sew (fun _ => kept_needleTo) h)) fun _ h => ?_
  refine ite_ok h (fun _ h => of (kept_sew (fun _ => kept_sewTo) h)) fun _ h => ?_
  refine ite_ok h (fun _ h => now h hs) fun _ h => ?_
  refine ite_ok h (fun _ h => of (kept_frame h)) fun _ h => ?_
  refine ite_ok h (fun _ h => now h (of (kept_needed _ _ _))) fun _ h => ?_
  refine ite_ok h (fun _ h => of (kept_break h)) fun _ h => ?_
  refine ite_ok h (fun _ h => now h (of (kept_tieOff _ _ _))) fun _ h => ?_
  refine ite_ok h (fun _ h => now h (of (kept_tieOn _ _ _))) fun _ h => ?_
  refine ite_ok h (fun _ h => now h (of (kept_needed _ _ _))) fun _ h => ?_
  refine ite_ok h (fun _ h => ite_ok h (fun _ h => now h hs) fun _ h => of (kept_jumpTo h)) fun _ h => ?_
  refine ite_ok h (fun _ h => now h (of (kept_toggle _))) fun _ h => ?_
  refine ite_ok h (fun _ h => of (kept_eject h)) fun _ h => ?_
  refine ite_ok h (fun _ h => of (kept_change h)) fun _ h => ?_
  refine ite_ok h (fun _ h => of (kept_change h)) fun _ h => ?_
  refine ite_ok h (fun _ h => now h hs) fun _ h => ?_
  refine ite_ok h (fun _ h => now h (by split <;> exact hs)) fun _ h => ?_
  refine ite_ok h (fun _ h => now h (by split <;> exact hs)) fun _ h => ?_
  have ho : ∀ v, Kept s (leaveSequins s v) := fun v => (kept_off s).trans ⟨rfl, rfl, rfl⟩
  unfold settingStep at h
  refine ite_ok h (fun e h => absurd e hc) fun _ h => ?_
  refine ite_ok h (fun e h => now h hs) fun _ h => ?_
  refine ite_ok h (fun e h => now h (by simp [CONTINGENCY_TIE_ON_NONE])) fun _ h => ?_
  iterate 8 refine ite_ok h (fun e h => now h hs) fun _ h => ?_
  iterate 3 refine ite_ok h (fun e h => now h (of (ho _))) fun _ h => ?_
  refine ite_ok h (fun e h => now h hs) fun _ h => ?_
  unfold matrixStep at h
  iterate 3 refine ite_ok h (fun e h => now h hs) fun _ h => ?_
  have hm : ∀ f : Mat × ℚ × ℚ → Except PyErr St, (∀ q r, f q = .ok r → r.tieOnC = s.tieOnC) → (needlePreimage s >>= f) = .ok s' →
      s'.tieOnC ≠ 0xD1 := by
    intro f hf h
    cases hp : needlePreimage s with
    | error e => rw [hp] at h; cases h
    | ok q => rw [hp] at h; rw [hf q s' h]; exact hs
  refine ite_ok h (fun e h => hm _ (fun q r hq => by injection hq with hq; subst hq; rfl) h) fun _ h => ?_
  refine ite_ok h (fun e h => hm _ (fun q r hq => by injection hq with hq; subst hq; rfl) h) fun _ h => ?_
  refine ite_ok h (fun e h => now h hs) fun _ h => now h hs

/-! ## The plan -/

/-- The index of the next change after a design. -/
def indexAfter (p : List Stitch) (ci : Int) : Int := p.foldl nextIndex ci

theorem next_le (ci : Int) (_ : 0 ≤ ci) (a : Stitch) : ci ≤ nextIndex ci a := by
  unfold nextIndex
  simp only
  split_ifs <;> omega

theorem index_le : ∀ (p : List Stitch) (ci : Int), 0 ≤ ci → ci ≤ indexAfter p ci
  | [], ci, _ => le_refl ci
  | a :: p, ci, h => (next_le ci h a).trans (index_le p (nextIndex ci a) (h.trans (next_le ci h a)))

theorem events_append (r : List Stitch) : ∀ (p : List Stitch) (ci : Int), events (p ++ r) ci = events p ci ++ events r (indexAfter p ci)
  | [], ci => rfl
  | a :: p, ci => by
    rw [List.cons_append, events_cons, events_cons, events_append r p]
    rw [show indexAfter (a :: p) ci = indexAfter p (nextIndex ci a) from rfl]
    split_ifs <;> rfl

theorem events_range : ∀ (p : List Stitch) (ci : Int), 0 ≤ ci → (∀ a ∈ p, a.low ≠ 0x10) → ∀ e ∈ events p ci,
    e.flags ≠ SET_CHANGE_SEQUENCE ∧ ci ≤ e.index.getD 0 ∧ e.index.getD 0 < indexAfter p ci
  | [], _, _, _, e, he => by simp [events] at he
  | a :: p, ci, h, hp, e, he => by
    have hn : ¬ cmdOf a.cmd = SET_CHANGE_SEQUENCE := hp a (by simp)
    have hle := next_le ci h a
    have ih := events_range p (nextIndex ci a) (h.trans hle) (fun b hb => hp b (by simp [hb])) e
    rw [events_cons, if_neg hn] at he
    rw [show indexAfter (a :: p) ci = indexAfter p (nextIndex ci a) from rfl]
    split_ifs at he with hc
    · rcases List.mem_cons.mp he with he | he
      · subst he
        refine ⟨hn, le_refl _, ?_⟩
        have : ci < nextIndex ci a := by
          unfold nextIndex
          simp only [hc, if_true]
          split_ifs <;> omega
        exact lt_of_lt_of_le this (index_le p _ (by omega))
      · obtain ⟨h1, h2, h3⟩ := ih he
        exact ⟨h1, hle.trans h2, h3⟩
    · obtain ⟨h1, h2, h3⟩ := ih he
      exact ⟨h1, hle.trans h2, h3⟩

theorem upsert_keys {α : Type} (k : Int) (v : α) (f : α → α) (j : Int) : ∀ (l : List (Int × α)), j ∈ (upsert k v f l).map (·.1) →
    j = k ∨ j ∈ l.map (·.1)
  | [], h => by simpa [upsert] using h
  | (k', w) :: l, h => by
    unfold upsert at h
    split_ifs at h with hk
    · right; simpa using h
    · simp only [List.map_cons, List.mem_cons] at h ⊢
      rcases h with h | h
      · exact .inr (.inl h)
      · rcases upsert_keys k v f j l h with h | h
        · exact .inl h
        · exact .inr (.inr h)

theorem upsert_append {α : Type} (k : Int) (v : α) (f : α → α) (B : List (Int × α)) : ∀ (A : List (Int × α)), k ∉ A.map (·.1) →
    upsert k v f (A ++ B) = A ++ upsert k v f B
  | [], _ => rfl
  | (k', w) :: A, h => by
    simp only [List.map_cons, List.mem_cons, not_or] at h
    rw [List.cons_append, upsert, if_neg (Ne.symm h.1), upsert_append k v f B A h.2]
    rfl

theorem fold_keys (threads : List Thread) : ∀ (es : List Event) (p : List (Int × Change) × Int),
    (∀ e ∈ es, e.flags ≠ SET_CHANGE_SEQUENCE) → ∀ k ∈ ((es.foldl (planEvent threads) p).1).map (·.1),
      k ∈ p.1.map (·.1) ∨ ∃ e ∈ es, k = e.index.getD 0
  | [], p, _, k, hk => .inl hk
  | e :: es, p, h, k, hk => by
    rcases fold_keys threads es (planEvent threads p e) (fun b hb => h b (by simp [hb])) k hk with h1 | ⟨b, hb, h1⟩
    · unfold planEvent at h1
      simp only [if_neg (h e (by simp))] at h1
      rcases upsert_keys _ _ _ _ _ h1 with h1 | h1
      · exact .inr ⟨e, by simp, h1⟩
      · exact .inl h1
    · exact .inr ⟨b, by simp [hb], h1⟩

theorem fold_append (threads : List Thread) (A : List (Int × Change)) : ∀ (es : List Event) (B : List (Int × Change)) (look : Int),
    (∀ e ∈ es, e.flags ≠ SET_CHANGE_SEQUENCE ∧ e.index.getD 0 ∉ A.map (·.1)) →
    (es.foldl (planEvent threads) (A ++ B, look)).1 = A ++ (es.foldl (planEvent threads) (B, look)).1
  | [], _, _, _ => rfl
  | e :: es, B, look, h => by
    obtain ⟨h1, h2⟩ := h e (by simp)
    have ha : ∀ C : List (Int × Change), planEvent threads (C, look) e =
        (upsert (e.index.getD 0) {} (Change.record threads e) C, if e.index.getD 0 ≥ look then e.index.getD 0 + 1 else look) := by
      intro C
      unfold planEvent
      simp only [if_neg h1]
    rw [List.foldl_cons, List.foldl_cons, ha, ha, upsert_append _ _ _ _ _ h2]
    exact fold_append threads A es _ _ fun b hb => h b (by simp [hb])

theorem fill_append {threads : List Thread} {change limit : Int} : ∀ (A B : List (Int × Change)) (ti ni : Int) (P P' : List (Int × Full)),
    fillPlan threads change limit (A ++ B) ti ni = .ok P' → fillPlan threads change limit A ti ni = .ok P →
    ∃ X, P' = P ++ X ∧ X.map (·.1) = B.map (·.1)
  | [], B, ti, ni, P, P', h, h1 => by
    injection h1 with h1
    subst h1
    exact ⟨P', rfl, fillPlan_keys _ _ _ _ h⟩
  | (k, c) :: A, B, ti, ni, P, P', h, h1 => by
    rw [List.cons_append, fillPlan_cons] at h
    rw [fillPlan_cons] at h1
    cases hf : fillOne threads change limit c ti ni with
    | error e => rw [hf] at h; cases h
    | ok f =>
      rw [hf] at h h1
      obtain ⟨_, e', h⟩ := bind_ok.1 h
      obtain ⟨_, e, h1⟩ := bind_ok.1 h1
      cases e'
      cases e
      obtain ⟨Q', hq', h⟩ := bind_ok.1 h
      obtain ⟨Q, hq, h1⟩ := bind_ok.1 h1
      injection h with h
      injection h1 with h1
      obtain ⟨X, hX, hk⟩ := fill_append A B _ _ Q Q' hq' hq
      exact ⟨X, by rw [← h, ← h1, hX]; rfl, hk⟩

theorem dget_left {α : Type} (k : Int) (X : List (Int × α)) (hX : k ∉ X.map (·.1)) : ∀ P : List (Int × α), dget k (P ++ X) = dget k P
  | [] => by rw [List.nil_append, dget_none.2 hX]; rfl
  | (k', w) :: P => by
    rw [List.cons_append, dget, dget, dget_left k X hX P]

/-- The plans of a design and of one that goes on agree on the changes of the first. -/
theorem plan_agree {o : Settings} {threads : List Thread} {p r : List Stitch} {P P' : List (Int × Full)}
    (hset : ∀ a ∈ p ++ r, a.low ≠ 0x10) (hP : buildPlan o threads p = .ok P) (hP' : buildPlan o threads (p ++ r) = .ok P') :
    ∀ k, 0 ≤ k → k < indexAfter p 0 → dget k P' = dget k P := by
  intro k h0 hk
  have hp := events_range p 0 (le_refl _) (fun a ha => hset a (by simp [ha]))
  have hr := events_range r (indexAfter p 0) (index_le p 0 (le_refl _)) (fun a ha => hset a (by simp [ha]))
  have hA : ∀ j ∈ (rawPlan threads p).map (·.1), j < indexAfter p 0 := by
    intro j hj
    rcases fold_keys threads _ _ (fun e he => (hp e he).1) j hj with h | ⟨e, he, h⟩
    · simp at h; omega
    · rw [h]; exact (hp e he).2.2
  have hraw : ∃ B, rawPlan threads (p ++ r) = rawPlan threads p ++ B ∧ ∀ j ∈ B.map (·.1), indexAfter p 0 ≤ j := by
    have e : rawPlan threads (p ++ r) = ((events r (indexAfter p 0)).foldl (planEvent threads)
        (rawPlan threads p ++ [], ((events p 0).foldl (planEvent threads) ([(0, {})], 0)).2)).1 := by
      unfold rawPlan
      rw [events_append, List.foldl_append, List.append_nil]
    rw [fold_append] at e
    · refine ⟨_, e, fun j hj => ?_⟩
      rcases fold_keys threads _ _ (fun e he => (hr e he).1) j hj with h | ⟨e, he, h⟩
      · simp at h
      · rw [h]; exact (hr e he).2.1
    · intro e he
      refine ⟨(hr e he).1, fun hm => ?_⟩
      have := hA _ hm
      have := (hr e he).2.1
      omega
  obtain ⟨B, hB, hBk⟩ := hraw
  unfold buildPlan at hP hP'
  rw [hB] at hP'
  obtain ⟨X, rfl, hX⟩ := fill_append _ _ _ _ _ _ hP' hP
  refine dget_left k X (fun hm => ?_) P
  rw [hX] at hm
  have := hBk k hm
  omega

/-! ## The run -/

theorem pyGet_left {α : Type} (p r : List α) (i : Nat) (h : i < p.length) : pyGet (p ++ r) (i : Int) = pyGet p (i : Int) := by
  unfold pyGet
  simp only [show ¬ ((i : Int) < 0) by omega, if_false, Int.toNat_natCast]
  rw [List.getElem?_append_left h]

/-- A stitch is found ahead. -/
theorem look_true (r : List Stitch) : ∀ l : List Stitch, (∃ b ∈ l, b.cmd ∈ [0, 0xB0, 0xB1, 7, 0xE4]) → (∀ b ∈ l, b.low ≠ 4) →
    lookaheadIn (l ++ r) = true
  | [], h, _ => by simp at h
  | a :: l, ⟨b, hb, hc⟩, hn => by
    rw [List.cons_append]
    unfold lookaheadIn
    have h4 : ¬ a.cmd = END := fun e => hn a (by simp) (by unfold Stitch.low; rw [e]; rfl)
    rw [if_neg h4]
    split_ifs with h1 h2 h3 h5 h6 <;> try rfl
    refine look_true r l ?_ fun b hb => hn b (by simp [hb])
    rcases List.mem_cons.mp hb with e | hb
    · subst e
      simp only [List.mem_cons, List.not_mem_nil, or_false] at hc
      rcases hc with hc | hc | hc | hc | hc
      · exact absurd hc h1
      · exact absurd hc h3
      · exact absurd hc h2
      · exact absurd hc h6
      · exact absurd hc h5
    · exact ⟨b, hb, hc⟩

theorem run_append (cfg : Cfg) (r : List Stitch) : ∀ (p : List Stitch) (i : Nat) (s : St), (∀ a ∈ p, a.low ≠ 4) →
    runFrom cfg i s (p ++ r) = match stepsFrom cfg i s p with
      | .error e => .error e
      | .ok s1 => runFrom cfg (i + p.length) s1 r
  | [], _, _, _ => rfl
  | a :: p, i, s, h => by
    rw [List.cons_append, runFrom, stepsFrom, if_neg (show ¬ cmdOf a.cmd = END from h a (by simp))]
    cases step cfg i s a with
    | error e => rfl
    | ok s' =>
      simp only
      rw [run_append cfg r p (i + 1) s' fun b hb => h b (by simp [hb]), List.length_cons, show i + 1 + p.length = i + (p.length + 1) by omega]

/-- The designs for which nothing is looked for beyond their end. `T`: ties at the start of a thread are off. -/
structure Closed (T : Prop) (p : List Stitch) : Prop where
  noEnd : ∀ a ∈ p, a.low ≠ 4
  breaks : ∀ pre a post, p = pre ++ a :: post → a.low = 0xE2 → ∃ b ∈ post, b.cmd ∈ [0, 0xB0, 0xB1, 7, 0xE4]
  first : ∀ a l, p = a :: l → a.low ≠ 0xE5
  ties : (T ∧ ∀ a ∈ p, a.low ≠ 0xD1) ∨ ∀ l a, p = l ++ [a] → a.low ∉ [0, 0xB0, 0xB1, 7, 0xE4]

theorem steps_eq {p r : List Stitch} {T : Prop} (hp : Closed T p) (h : Agree cfg cfg' (indexAfter p 0)) (hs : cfg.source = p)
    (hs' : cfg'.source = p ++ r) : ∀ (q pre : List Stitch) (s : St) (ci : Int), p = pre ++ q → -1 ≤ s.order → s.order + 1 ≤ ci →
      indexAfter p 0 = indexAfter q ci → (pre = [] → s.trimmed = true) → (T → (∀ a ∈ p, a.low ≠ 0xD1) → s.tieOnC ≠ 0xD1) →
      stepsFrom cfg' pre.length s q = stepsFrom cfg pre.length s q
  | [], _, _, _, _, _, _, _, _, _ => rfl
  | a :: q, pre, s, ci, e, h0, h1, hK, ht, hT => by
    have hci : 0 ≤ ci := by omega
    have hnext : nextIndex ci a ≤ indexAfter p 0 := by
      rw [hK]; exact index_le q _ (hci.trans (next_le ci hci a))
    have hback : ∀ (_ : pre ≠ []), pyGet cfg'.source ((pre.length : Int) - 1) = pyGet cfg.source ((pre.length : Int) - 1) := by
      intro hne
      have : 0 < pre.length := List.length_pos_of_ne_nil hne
      rw [hs, hs', show ((pre.length : Int) - 1) = ((pre.length - 1 : Nat) : Int) by omega]
      exact pyGet_left _ _ _ (by rw [e]; simp; omega)
    have hstep : step cfg' pre.length s a = step cfg pre.length s a := by
      refine step_eq h h0 (fun hc => ?_) (fun hc => ?_) (fun hc => ?_) ?_ (fun hc => ?_) fun hc => ?_
      · refine lt_of_lt_of_le ?_ hnext
        unfold nextIndex
        simp only
        rw [if_pos (show isChange (cmdOf a.cmd) = true from hc)]
        split_ifs <;> omega
      · refine lt_of_lt_of_le ?_ hnext
        unfold nextIndex
        simp only
        rw [show isSewing (cmdOf a.cmd) = true from hc]
        split_ifs <;> simp_all <;> omega
      · rcases q with _ | ⟨b, q⟩
        · right
          rcases hp.ties with ⟨t, hd⟩ | hl
          · exact hT t hd
          · exact absurd hc (hl pre a e)
        · left
          rw [hs, hs', show ((pre.length : Int) + 1) = ((pre.length + 1 : Nat) : Int) by omega]
          exact pyGet_left _ _ _ (by rw [e]; simp)
      · rcases pre with _ | ⟨b, pre⟩
        · exact .inl (ht rfl)
        · exact .inr (hback (by simp))
      · refine hback ?_
        rintro rfl
        exact hp.first a q e hc
      · have hd : p.drop pre.length = a :: q := by rw [e]; simp
        have hd' : (p ++ r).drop pre.length = (a :: q) ++ r := by rw [e, List.append_assoc]; simp
        unfold lookahead
        rw [hs, hs', hd, hd']
        obtain ⟨b, hb, hbc⟩ := hp.breaks pre a q e hc
        have hx : ∃ b ∈ a :: q, b.cmd ∈ [0, 0xB0, 0xB1, 7, 0xE4] := ⟨b, by simp [hb], hbc⟩
        have hn : ∀ b ∈ a :: q, b.low ≠ 4 := fun b hb => hp.noEnd b (by rw [e]; exact List.mem_append_right _ hb)
        have h2 := look_true [] (a :: q) hx hn
        rw [List.append_nil] at h2
        rw [look_true r (a :: q) hx hn, h2]
    rw [stepsFrom, stepsFrom, hstep]
    cases hr : step cfg pre.length s a with
    | error e => rfl
    | ok s' =>
      simp only
      have ho := (step_res (cfg := cfg) (s := s) (position := pre.length) a).order s' hr
      simp only at ho
      have := steps_eq hp h hs hs' q (pre ++ [a]) s' (nextIndex ci a) (by rw [e]; simp) (by omega) ?_ hK (by simp) fun t hd => ?_
      · simpa using this
      · unfold nextIndex
        simp only
        rcases ho with ho | ⟨hc, ho⟩ | ⟨hc, h5, ho⟩
        · rw [ho]; split_ifs <;> omega
        · rw [ho, if_pos hc]; split_ifs <;> omega
        · have : (0 : Int) + 1 ≤ if ci = 0 ∧ isSewing (cmdOf a.cmd) = true then 1 else ci := by
            by_cases hz : ci = 0
            · rw [if_pos ⟨hz, hc⟩]; omega
            · rw [if_neg (fun h => hz h.1)]; omega
          rw [ho]; split_ifs at this ⊢ <;> omega
      · exact kept_off_dispatch (s := { s with high := flagsOf a.cmd }) (hd a (by rw [e]; simp)) (hT t hd) hr

/-- What is written and the threads only grow. -/
theorem run_grows (cfg : Cfg) (i : Nat) (s sf : St) (r : List Stitch) (h0 : -1 ≤ s.order) (h : runFrom cfg i s r = .ok sf) :
    s.out <+: sf.out ∧ s.threads <+: sf.threads := by
  rcases r with _ | ⟨a, r⟩
  · injection h with h
    subst h
    exact ⟨List.prefix_append _ _, List.prefix_rfl⟩
  · have h : runFrom cfg i { s with high := 0 } (a :: r) = .ok sf := h
    let F : Setting.Frame := ⟨fun _ x y => y = s.out ++ x, fun x y => y = s.threads ++ x, False, False, False⟩
    have w : Setting.World F cfg cfg := by
      have hs : ∀ (O x y q : List Stitch), y = O ++ x → y ++ q = O ++ (x ++ q) := fun O x y q h => by rw [h, List.append_assoc]
      refine ⟨rfl, fun n x y e _ h => hs _ _ _ _ h, .inl rfl, .inl ⟨rfl, fun n x y e _ h => hs _ _ _ _ h⟩, False.elim, fun n _ => ?_⟩
      cases dget n cfg.plan with
      | none => exact .none
      | some c =>
        refine .some ⟨fun x y a b h => hs _ _ _ _ h, fun l l' h => ?_⟩
        show l' ++ _ = s.threads ++ (l ++ _)
        rw [show l' = s.threads ++ l from h, List.append_assoc]
    have hr := Setting.run w (a :: r) i (s := { s with high := 0, out := [], threads := [] }) (t := { s with high := 0 })
      ⟨⟨s.out, s.threads, s.tieOnC, s.tieOffC, s.explicitTrim⟩, rfl, ⟨(List.append_nil _).symm, (List.append_nil _).symm, .inl rfl, .inl rfl, .inl rfl, rfl,
        False.elim, h0⟩⟩ False.elim False.elim
    rw [h] at hr
    revert hr
    generalize runFrom cfg i { s with high := 0, out := [], threads := [] } (a :: r) = z
    intro hr
    cases hr with
    | ok hr =>
      obtain ⟨k, rfl, hr⟩ := hr
      exact ⟨⟨_, hr.out.symm⟩, ⟨_, hr.thr.symm⟩⟩

theorem steps_order (cfg : Cfg) : ∀ (p : List Stitch) (i : Nat) (s s1 : St), -1 ≤ s.order → stepsFrom cfg i s p = .ok s1 → -1 ≤ s1.order
  | [], _, _, _, h, hs => by injection hs with hs; subst hs; exact h
  | a :: p, i, s, s1, h, hs => by
    rw [stepsFrom] at hs
    cases hr : step cfg i s a with
    | error e => rw [hr] at hs; cases hs
    | ok s' =>
      rw [hr] at hs
      have ho := (step_res (cfg := cfg) (s := s) (position := i) a).order s' hr
      simp only at ho
      exact steps_order cfg p (i + 1) s' s1 (by omega) hs

end Causal

open Causal

/-- **C110.** A design that goes on is normalized as the shorter one (without its END), and goes on. -/
theorem C110_appended_partial {o : Settings} {lm : Libm} {threads : List Thread} {p r : List Stitch} (hp : Closed (o.tieOnCode ≠ 0xD1) p)
    (hset : ∀ a ∈ p ++ r, a.low ≠ 0x10) {a b : List Stitch} {t u : List (Option Thread)} (h : encode o lm threads p = .ok (a, t))
    (h' : encode o lm threads (p ++ r) = .ok (b, u)) : a.dropLast <+: b ∧ t <+: u := by
  obtain ⟨P, sf, hP, hr, rfl, rfl⟩ := encode_state h
  obtain ⟨P', sf', hP', hr', rfl, rfl⟩ := encode_state h'
  have hA : Agree (mkCfg o lm p P) (mkCfg o lm (p ++ r) P') (indexAfter p 0) := ⟨rfl, plan_agree hset hP hP'⟩
  have he := steps_eq (r := r) hp hA rfl rfl p [] (initSt o lm threads) 0 rfl (le_refl _) (by show (-1 : Int) + 1 ≤ 0; decide) rfl (fun _ => rfl)
    (fun t _ => t)
  have h1 := run_append (mkCfg o lm p P) [] p 0 (initSt o lm threads) hp.noEnd
  rw [List.append_nil, hr] at h1
  rw [run_append _ r p 0 _ hp.noEnd, show stepsFrom _ 0 _ p = _ from he] at hr'
  simp only [List.length_nil] at hr' h1
  cases hs : stepsFrom (mkCfg o lm p P) 0 (initSt o lm threads) p with
  | error e => rw [hs] at h1; cases h1
  | ok s1 =>
    rw [hs] at h1 hr'
    injection h1 with h1
    subst h1
    have hg := run_grows _ _ _ _ _ (steps_order _ _ _ _ _ (le_refl _) hs) hr'
    refine ⟨?_, hg.2⟩
    have : (endHere s1).out = s1.out ++ [⟨s1.nx, s1.ny, END + s1.high⟩] := rfl
    rw [this, List.dropLast_concat]
    exact hg.1

/-- **C110.** A design that is refused is refused with whatever is appended. -/
theorem C110_refused {o : Settings} {lm : Libm} {threads : List Thread} {p r : List Stitch} (hn : o.needleCount ≠ 0)
    (hp : Closed (o.tieOnCode ≠ 0xD1) p) (hset : ∀ a ∈ p ++ r, a.low ≠ 0x10) {e : PyErr} (h : encode o lm threads p = .error e) :
    encode o lm threads (p ++ r) = .error e := by
  have plan : ∀ l, ∃ P, buildPlan o threads l = .ok P := by
    intro l
    cases hb : buildPlan o threads l with
    | ok P => exact ⟨P, rfl⟩
    | error e => exact absurd (fillPlan_err _ _ _ _ hb).2 hn
  obtain ⟨P, hP⟩ := plan p
  obtain ⟨P', hP'⟩ := plan (p ++ r)
  have hA : Agree (mkCfg o lm p P) (mkCfg o lm (p ++ r) P') (indexAfter p 0) := ⟨rfl, plan_agree hset hP hP'⟩
  have he := steps_eq (r := r) hp hA rfl rfl p [] (initSt o lm threads) 0 rfl (le_refl _) (by show (-1 : Int) + 1 ≤ 0; decide) rfl (fun _ => rfl)
    (fun t _ => t)
  have h1 := run_append (mkCfg o lm p P) [] p 0 (initSt o lm threads) hp.noEnd
  rw [List.append_nil] at h1
  unfold encode at h ⊢
  rw [hP] at h
  rw [hP']
  simp only at h ⊢
  rw [h1] at h
  rw [run_append _ r p 0 _ hp.noEnd, show stepsFrom _ 0 _ p = _ from he]
  simp only [List.length_nil] at h ⊢
  cases hs : stepsFrom (mkCfg o lm p P) 0 (initSt o lm threads) p with
  | error e' => rw [hs] at h; exact h
  | ok s1 => rw [hs] at h; cases h

/-- A colour break at the end looks for a stitch: the change appears in what was there only when sewing goes on. -/
theorem C110_not_breaks : ∃ p r : List Stitch, ∃ a b, encode {} demoLm [] p = .ok a ∧ encode {} demoLm [] (p ++ r) = .ok b ∧ ¬ a.1.dropLast <+: b.1 :=
  ⟨[⟨1, 0, 0⟩, ⟨2, 0, 0⟩, ⟨2, 0, 0xE2⟩, ⟨2, 0, 1⟩], [⟨3, 0, 0⟩],
    ([⟨1, 0, 0⟩, ⟨2, 0, 0⟩, ⟨2, 0, 1⟩, ⟨2, 0, 4⟩], [none]),
    ([⟨1, 0, 0⟩, ⟨2, 0, 0⟩, ⟨2, 0, 0x30205⟩, ⟨2, 0, 1⟩, ⟨3, 0, 0⟩, ⟨3, 0, 4⟩], [none, none]),
    by decide +kernel, by decide +kernel, by decide +kernel⟩

/-- A tie-off before everything else looks at the last command of the design. -/
theorem C110_not_first : ∃ p r : List Stitch, ∃ a b, encode { tieOff := .bool true } demoLm [] p = .ok a ∧
    encode { tieOff := .bool true } demoLm [] (p ++ r) = .ok b ∧ ¬ a.1.dropLast <+: b.1 :=
  ⟨[⟨1, 0, 0xE5⟩, ⟨2, 0, 0⟩, ⟨5, 0, 0⟩], [⟨9, 0, 1⟩],
    ([⟨33 / 20, 0, 0⟩, ⟨33 / 10, 0, 0⟩, ⟨33 / 20, 0, 0⟩, ⟨0, 0, 0⟩, ⟨2, 0, 0⟩, ⟨5, 0, 0⟩, ⟨5, 0, 4⟩], [none]),
    ([⟨2, 0, 0⟩, ⟨5, 0, 0⟩, ⟨9, 0, 1⟩, ⟨9, 0, 4⟩], [none]), by decide +kernel, by decide +kernel, by decide +kernel⟩

/-- `set_change_sequence` at the end changes the thread of the beginning (that is what it is for). -/
theorem C110_not_sequence : ∃ (threads : List Thread) (p r : List Stitch) (a b : List Stitch × List (Option Thread)),
    encode {} demoLm threads p = .ok a ∧ encode {} demoLm threads (p ++ r) = .ok b ∧ ¬ a.2 <+: b.2 :=
  ⟨[{ color := 0xFF0000 }, { color := 0xFF }], [⟨1, 0, 0⟩], [⟨1, 0, 0x1000210⟩], ([⟨1, 0, 0⟩, ⟨1, 0, 4⟩], [some { color := 0xFF0000 }]),
    ([⟨1, 0, 0⟩, ⟨1, 0, 0x204⟩], [some { color := 0xFF }]), by decide +kernel, by decide +kernel, by decide +kernel⟩

/-! Beside them: a design with ties, a break and a trim at its end, and more sewing after it. -/

def causalDemo : List Stitch := [⟨2, 0, 0⟩, ⟨5, 0, 0⟩, ⟨5, 0, 0xE2⟩, ⟨6, 0, 0⟩, ⟨6, 0, 2⟩]

example (T : Prop) : Closed T causalDemo := by
  refine ⟨by decide, ?_, ?_, .inr ?_⟩
  · intro pre a post h ha
    have hb : ∀ n, (∀ a, causalDemo[n]? = some a → a.low = 0xE2 → ∃ b ∈ causalDemo.drop (n + 1), b.cmd ∈ [0, 0xB0, 0xB1, 7, 0xE4]) := by
      intro n
      rcases n with _ | _ | _ | _ | _ | n <;> simp [causalDemo, Stitch.low]
    have := hb pre.length a (by rw [h]; simp) ha
    rw [h] at this
    simpa using this
  · intro a l h; injection h with h; subst h; decide
  · intro l a h
    have : causalDemo.getLast? = (l ++ [a]).getLast? := by rw [h]
    simp [causalDemo] at this
    subst this; decide

example : encode { tieOn := .bool true } demoLm [] causalDemo = .ok
    ([⟨2, 0, 0⟩, ⟨299 / 100, 0, 0⟩, ⟨199 / 50, 0, 0⟩, ⟨299 / 100, 0, 0⟩, ⟨2, 0, 0⟩, ⟨5, 0, 0⟩, ⟨5, 0, 0x30205⟩, ⟨6, 0, 0⟩, ⟨6, 0, 2⟩, ⟨6, 0, 4⟩],
      [none, none]) ∧
    encode { tieOn := .bool true } demoLm [] (causalDemo ++ [⟨9, 0, 0⟩, ⟨9, 0, 5⟩]) = .ok
    ([⟨2, 0, 0⟩, ⟨299 / 100, 0, 0⟩, ⟨199 / 50, 0, 0⟩, ⟨299 / 100, 0, 0⟩, ⟨2, 0, 0⟩, ⟨5, 0, 0⟩, ⟨5, 0, 0x30205⟩, ⟨6, 0, 0⟩, ⟨6, 0, 2⟩, ⟨9, 0, 0⟩,
      ⟨9, 0, 0x40305⟩, ⟨9, 0, 4⟩], [none, none, none]) := by constructor <;> decide +kernel

end Emb
