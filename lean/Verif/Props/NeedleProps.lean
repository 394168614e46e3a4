import Verif.Props.PlanProps

/-!
# Needles of formats that select needles (C31 in NEEDLE_SET mode)
-/

namespace Emb

variable {o : Settings} {lm : Libm} {threads : List Thread} {source out : List Stitch} {ths : List (Option Thread)}

/-- The needle changes of a pattern. -/
def needleWords (l : List Stitch) : List Stitch := l.filter (fun a => a.low == 9)

/-- Needle changes follow the plan, one for each change made. -/
def NeedleInv (plan : List (Int × Full)) (s : St) : Prop :=
  HighInv s ∧ ((needleWords s.out).length : Int) = s.order + 1 ∧
  (∀ (k : Nat) w, (needleWords s.out)[k]? = some w → ∃ ch, dget k plan = some ch ∧
    w.cmd = encodeThreadChange 9 (some ch.thread) (some ch.needle) none)

theorem needleWords_append_no {l m : List Stitch} (h : ∀ a ∈ m, a.low ≠ 9) : needleWords (l ++ m) = needleWords l := by
  unfold needleWords
  have : m.filter (fun a => a.low == 9) = [] := List.filter_eq_nil_iff.2 (fun a ha => by simpa using h a ha)
  rw [List.filter_append, this, List.append_nil]

theorem micro_needle {cfg : Cfg} {c : Int} {G : Prop} {s s' : St} (hc : cfg.change = NEEDLE_SET)
    (h : Micro cfg c G s s') (hs : NeedleInv cfg.plan s) : NeedleInv cfg.plan s' := by
  obtain ⟨hn, hlen, hw⟩ := hs
  refine ⟨micro_high h hn, ?_⟩
  have app : ∀ (x y : ℚ) (k : Int), 0 ≤ k → k < 256 → k ≠ 9 →
      needleWords (s.out ++ [⟨x, y, k + s.high⟩]) = needleWords s.out := by
    intro x y k a b d
    refine needleWords_append_no ?_
    intro z hz
    simp at hz; subst hz
    rw [low_add hn a b]; exact d
  have fin : ∀ out', needleWords out' = needleWords s.out → ((needleWords out').length : Int) = s.order + 1 ∧
      (∀ (k : Nat) w, (needleWords out')[k]? = some w →
      ∃ ch, dget k cfg.plan = some ch ∧ w.cmd = encodeThreadChange 9 (some ch.thread) (some ch.needle) none) := by
    intro out' e; rw [e]; exact ⟨hlen, hw⟩
  cases h with
  | quiet => exact ⟨hlen, hw⟩
  | high => exact ⟨hlen, hw⟩
  | maxStitch => exact ⟨hlen, hw⟩
  | maxJump => exact ⟨hlen, hw⟩
  | long => exact ⟨hlen, hw⟩
  | sequin => exact ⟨hlen, hw⟩
  | untrim => exact ⟨hlen, hw⟩
  | toggle h => exact fin _ (app _ _ 6 (by decide) (by decide) (by decide))
  | stitch x y h => exact fin _ (app _ _ 0 (by decide) (by decide) (by decide))
  | jump x y h hm => exact fin _ (app _ _ 1 (by decide) (by decide) (by decide))
  | eject x y h hm => exact fin _ (app _ _ 7 (by decide) (by decide) (by decide))
  | trim h hm => exact fin _ (app _ _ 2 (by decide) (by decide) (by decide))
  | stop => exact fin _ (app _ _ 3 (by decide) (by decide) (by decide))
  | speed v h hw' hcv =>
    rcases h with rfl | rfl
    · exact fin _ (app _ _ 11 (by decide) (by decide) (by decide))
    · exact fin _ (app _ _ 12 (by decide) (by decide) (by decide))
  | lock ax ay =>
    refine fin _ ?_
    obtain ⟨a1, a2, a3, e, e1, e2, e3⟩ := lockStitches_eq cfg.lm s.nx s.ny ax ay s.maxStitch
    simp only [e]
    refine needleWords_append_no ?_
    intro a ha
    simp at ha
    rcases ha with rfl | rfl | rfl | rfl <;> simp [Stitch.low, e1, e2, e3]
  | change s' h =>
    obtain ⟨ch, hd, hcase⟩ := nextChange_out h
    obtain ⟨_, _, _, _, _, _, _, _, ho, _⟩ := nextChange_fields h
    rcases hcase with ⟨hx, _⟩ | ⟨_, _, e⟩ | ⟨hx, _⟩ | ⟨_, hx, _⟩
    · rw [hc] at hx; simp [COLOR_CHANGE, NEEDLE_SET] at hx
    · have hl : (⟨s.nx, s.ny, encodeThreadChange NEEDLE_SET (some ch.thread) (some ch.needle) none⟩ : Stitch).low = 9 :=
        encodeThreadChange_low 9 (by decide) (by decide) _ _ _
      have e2 : needleWords s'.out = needleWords s.out ++
          [⟨s.nx, s.ny, encodeThreadChange NEEDLE_SET (some ch.thread) (some ch.needle) none⟩] := by
        rw [e]; unfold needleWords
        rw [List.filter_append, List.filter_cons_of_pos (by simpa using hl), List.filter_nil]
      rw [e2, ho]
      refine ⟨by rw [List.length_append]; simp [hlen], ?_⟩
      intro k w h
      rcases getElem?_snoc h with h | ⟨rfl, rfl⟩
      · exact hw k w h
      · exact ⟨ch, by rw [hlen]; exact hd, rfl⟩
    · rw [hc] at hx; simp [NEEDLE_SET, STOP] at hx
    · exact absurd hc hx

/-- The finished plan behind a normalized pattern with needle changes, and how the pattern follows it. -/
theorem encode_needles (hv : o.ValidSequins) (hc : o.changeCommand = 9) (h : encode o lm threads source = .ok (out, ths)) :
    ∃ plan, buildPlan o threads source = .ok plan ∧
      (∀ (k : Nat) w, (needleWords out)[k]? = some w → ∃ ch, dget k plan = some ch ∧
        w.cmd = encodeThreadChange 9 (some ch.thread) (some ch.needle) none) := by
  obtain ⟨plan, sf, hp, hr, rfl, rfl⟩ := encode_state h
  obtain ⟨s0, hI, hP, e⟩ := run_inv (cfg := mkCfg o lm source plan) (P := NeedleInv plan) (Q := fun _ => True)
    (fun position s st s' hI hP _ hs =>
      chain_lift (fun a b hb hmic => micro_needle (cfg := mkCfg o lm source plan) hc hmic) (step_chain st hI hs).1 hI hP)
    (fun s v hs => ⟨flagsOf_low v, hs.2⟩) source 0 _ sf (init_base o lm threads hv)
    ⟨rfl, by simp [initSt, needleWords], by simp [initSt, needleWords]⟩
    (fun _ _ => trivial) hr
  refine ⟨plan, hp, ?_⟩
  intro k w hw
  refine hP.2.2 k w ?_
  rw [e] at hw
  rw [← hw]
  congr 1
  refine (needleWords_append_no ?_).symm
  intro a ha
  simp at ha; subst ha
  rw [low_add hP.1 (by decide) (by decide)]; decide

theorem decode_needle {t n : Int} (h0 : 0 ≤ t) (h1 : t < 255) (h2 : 0 ≤ n) (h3 : n < 255) :
    decodeCommand (encodeThreadChange 9 (some t) (some n) none) = (9, some t, some n, none) :=
  C01_decode_encode_partial 9 _ _ _ ⟨by omega, by omega⟩ ⟨h0, by omega⟩ ⟨h2, by omega⟩ trivial

/-- Needles stated by events fit their byte. -/
theorem raw_needles : ∀ x ∈ rawPlan threads source, ∀ t, x.2.needle = some t → 0 ≤ t ∧ t < 255 := by
  have field : ∀ v t, decField (v % 256) = some t → 0 ≤ t ∧ t < 255 := by
    intro v t h
    unfold decField at h
    split_ifs at h
    injection h with h
    omega
  refine fold_all (P := fun c => ∀ t, c.needle = some t → 0 ≤ t ∧ t < 255) (events source 0) _ ?_ ?_ ?_
  · intro t h; cases h
  · intro e he c hcc t h
    obtain ⟨st, _, _, _, _, h2, _⟩ := events_none (pr := fun _ => True) source 0 (fun _ _ _ => trivial) e he
    unfold Change.record at h
    cases ht : e.needle with
    | none =>
      rw [ht] at h
      simp only at h
      exact hcc t (by split_ifs at h <;> split at h <;> exact h)
    | some t' =>
      rw [ht] at h
      have : t' = t := by
        simp only at h
        injection h
      subst this
      exact field (st.cmd / 65536) t' (by rw [← ht, h2]; rfl)
  · intro x hx t h; simp at hx; subst hx; cases h

/-- Every planned needle fits its byte. -/
theorem plan_needle_fits {plan : List (Int × Full)} (hp : buildPlan o threads source = .ok plan) (hl : 1 ≤ o.needleCount)
    (hl2 : o.needleCount < 255) {k : Int} {f : Full} (hd : dget k plan = some f) : 0 ≤ f.needle ∧ f.needle < 255 := by
  obtain ⟨pre, c, post, e1, _, e3⟩ := plan_entry hp hd
  unfold fillOne at e3
  obtain ⟨nd, e4, e3⟩ := bind_ok.1 e3
  injection e3 with e3
  rw [← e3]
  cases hc : c.needle with
  | none =>
    rw [hc] at e4
    simp only at e4 ⊢
    rw [autoNeedle_ok (by omega) hl e4]
    have h1 := Int.emod_nonneg (1 + ((pre.countP (fun p => p.2.needle = none) : Nat) : Int) - 1) (b := o.needleCount) (by omega)
    have h2 := Int.emod_lt_of_pos (1 + ((pre.countP (fun p => p.2.needle = none) : Nat) : Int) - 1) (b := o.needleCount) (by omega)
    omega
  | some t =>
    rw [hc] at e4
    simp only at e4 ⊢
    injection e4 with e4
    subst e4
    exact raw_needles (threads := threads) (source := source) (k, c) (by rw [e1]; simp) t hc

/-- With at most 254 change commands every NEEDLE_SET of a normalized pattern states a thread and a needle. -/
theorem needles_stated (hv : o.ValidSequins) (hc : o.changeCommand = 9) (hl : 1 ≤ o.needleCount) (hl2 : o.needleCount < 255)
    (hn : source.countP (fun st => st.low ∈ [5, 9, 226, 16]) ≤ 254) (h : encode o lm threads source = .ok (out, ths))
    (a : Stitch) (ha : a ∈ out) (h9 : a.low = 9) :
    ∃ t n, 0 ≤ t ∧ t < 255 ∧ 0 ≤ n ∧ n < 255 ∧ a.cmd = encodeThreadChange 9 (some t) (some n) none := by
  obtain ⟨plan, hp, ht⟩ := encode_needles hv hc h
  have hm : a ∈ needleWords out := by unfold needleWords; exact List.mem_filter.2 ⟨ha, by simpa using h9⟩
  obtain ⟨k, hk⟩ := List.getElem?_of_mem hm
  obtain ⟨ch, hd, e⟩ := ht k a hk
  obtain ⟨h1, h2⟩ := plan_thread_fits hp hn hd
  obtain ⟨h3, h4⟩ := plan_needle_fits hp hl hl2 hd
  exact ⟨ch.thread, ch.needle, h1, h2, h3, h4, e⟩

/-- C31 for formats with needle changes: without explicit needles and SET_CHANGE_SEQUENCE the k-th NEEDLE_SET (counting
from 0; the first colour has one) asks for needle `k mod needle_count + 1`. Partial: at most 254 change commands, as in
`C31_cycle_partial`. -/
theorem C31_needle_cycle_partial (hv : o.ValidSequins) (hc : o.changeCommand = 9) (hl : 1 ≤ o.needleCount)
    (hl2 : o.needleCount < 255) (h : encode o lm threads source = .ok (out, ths))
    (hn : source.countP (fun st => st.low ∈ [5, 9, 226, 16]) ≤ 254)
    (hset : ∀ st ∈ source, st.low ≠ 16) (hex : ∀ st ∈ source, ChangeLike st → (decodeCommand st.cmd).2.2.1 = none)
    (k : Nat) (w : Stitch) (hw : (out.filter (fun a => a.low == 9))[k]? = some w) :
    (decodeCommand w.cmd).2.2.1 = some ((k : Int) % o.needleCount + 1) := by
  obtain ⟨plan, hp, ht⟩ := encode_needles hv hc h
  obtain ⟨ch, hd, e⟩ := ht k w hw
  have := plan_needle (k := k) hp hl hset hex hd
  have h1 := Int.emod_nonneg (k : Int) (b := o.needleCount) (by omega)
  have h2 := Int.emod_lt_of_pos (k : Int) (b := o.needleCount) (by omega)
  obtain ⟨h3, h4⟩ := plan_thread_fits hp hn hd
  rw [e, decode_needle h3 h4 (by omega) (by omega), this]

/-- C31 for formats with needle changes, with any SET_CHANGE_SEQUENCE commands (stating no needle): every needle is
between 1 and needle_count (same restriction). -/
theorem C31_needle_range_partial (hv : o.ValidSequins) (hc : o.changeCommand = 9) (hl : 1 ≤ o.needleCount)
    (hl2 : o.needleCount < 255) (h : encode o lm threads source = .ok (out, ths))
    (hn : source.countP (fun st => st.low ∈ [5, 9, 226, 16]) ≤ 254)
    (hex : ∀ st ∈ source, ChangeLike st → (decodeCommand st.cmd).2.2.1 = none)
    (w : Stitch) (hw : w ∈ out) (h9 : w.low = 9) :
    ∃ n, (decodeCommand w.cmd).2.2.1 = some n ∧ 1 ≤ n ∧ n ≤ o.needleCount := by
  obtain ⟨plan, hp, ht⟩ := encode_needles hv hc h
  have hm : w ∈ needleWords out := by unfold needleWords; rw [List.mem_filter]; exact ⟨hw, by simpa using h9⟩
  obtain ⟨k, hk⟩ := List.getElem?_of_mem hm
  obtain ⟨ch, hd, e⟩ := ht k w hk
  have := plan_needle_range hp hl hex hd
  obtain ⟨h3, h4⟩ := plan_thread_fits hp hn hd
  exact ⟨ch.needle, by rw [e, decode_needle h3 h4 (by omega) (by omega)], this⟩

/-- Three needles, four colours. -/
example : (encode { threadChange := NEEDLE_SET, needleCount := 3 }
    ⟨fun _ _ _ _ => 0, fun _ _ _ _ _ => (0, 0), fun _ => 1, fun _ => 0⟩ []
    [⟨0, 0, 0⟩, ⟨0, 0, 5⟩, ⟨1, 0, 0⟩, ⟨0, 0, 226⟩, ⟨2, 0, 0⟩, ⟨0, 0, 5⟩, ⟨3, 0, 0⟩]).toOption.map
      (fun r => (r.1.filter (fun a => a.low == 9)).map (fun w => (decodeCommand w.cmd).2.2.1)) =
    some [some 1, some 2, some 3, some 1] := by
  decide +kernel

/-! ## Which change command is written -/

theorem micro_other {cfg : Cfg} {c : Int} {G : Prop} {s s' : St} {k : Int} (hk : k = 5 ∨ k = 9) (hc : cfg.change ≠ k)
    (h : Micro cfg c G s s') (hs : HighInv s ∧ ∀ a ∈ s.out, a.low ≠ k) : HighInv s' ∧ ∀ a ∈ s'.out, a.low ≠ k := by
  obtain ⟨hn, hw⟩ := hs
  refine ⟨micro_high h hn, ?_⟩
  have app : ∀ (x y : ℚ) (j : Int), 0 ≤ j → j < 256 → j ≠ k → ∀ a ∈ s.out ++ [⟨x, y, j + s.high⟩], a.low ≠ k := by
    intro x y j a b d z hz
    rw [List.mem_append] at hz
    rcases hz with hz | hz
    · exact hw z hz
    · simp at hz; subst hz
      rw [low_add hn a b]; exact d
  have word : ∀ (x y : ℚ) (j : Int) (t n : Option Int), 0 ≤ j → j < 256 → j ≠ k →
      ∀ a ∈ s.out ++ [⟨x, y, encodeThreadChange j t n none⟩], a.low ≠ k := by
    intro x y j t n a b d z hz
    rw [List.mem_append] at hz
    rcases hz with hz | hz
    · exact hw z hz
    · simp at hz; subst hz
      show encodeThreadChange j t n none % 256 ≠ k
      rw [encodeThreadChange_low j a b]; exact d
  cases h with
  | quiet => exact hw
  | high => exact hw
  | maxStitch => exact hw
  | maxJump => exact hw
  | long => exact hw
  | sequin => exact hw
  | untrim => exact hw
  | toggle h => exact app _ _ 6 (by decide) (by decide) (by omega)
  | stitch x y h => exact app _ _ 0 (by decide) (by decide) (by omega)
  | jump x y h hm => exact app _ _ 1 (by decide) (by decide) (by omega)
  | eject x y h hm => exact app _ _ 7 (by decide) (by decide) (by omega)
  | trim h hm => exact app _ _ 2 (by decide) (by decide) (by omega)
  | stop => exact app _ _ 3 (by decide) (by decide) (by omega)
  | speed v h hw' hcv =>
    rcases h with rfl | rfl
    · exact app _ _ 11 (by decide) (by decide) (by omega)
    · exact app _ _ 12 (by decide) (by decide) (by omega)
  | lock ax ay =>
    obtain ⟨a1, a2, a3, e, e1, e2, e3⟩ := lockStitches_eq cfg.lm s.nx s.ny ax ay s.maxStitch
    simp only [e]
    intro a ha
    rw [List.mem_append] at ha
    rcases ha with ha | ha
    · exact hw a ha
    · simp at ha
      rcases ha with rfl | rfl | rfl | rfl <;> simp [Stitch.low, e1, e2, e3] <;> omega
  | change s' h =>
    obtain ⟨ch, hd, hcase⟩ := nextChange_out h
    rcases hcase with ⟨hx, _, ⟨_, e⟩ | ⟨_, e⟩⟩ | ⟨hx, _, e⟩ | ⟨hx, _, e⟩ | ⟨_, _, _, _, e⟩ <;> rw [e]
    · exact hw
    · exact word _ _ 5 _ _ (by decide) (by decide) (fun h => hc (by rw [hx]; exact h))
    · exact word _ _ 9 _ _ (by decide) (by decide) (fun h => hc (by rw [hx]; exact h))
    · exact word _ _ 3 _ _ (by decide) (by decide) (by omega)
    · exact hw

/-- C31: which change command a normalized pattern contains. COLOR_CHANGE only if that is the `thread_change_command`;
NEEDLE_SET only if that is the `thread_change_command` and there is more than one needle. -/
theorem C31_mode (hv : o.ValidSequins) (h : encode o lm threads source = .ok (out, ths)) {a : Stitch} (ha : a ∈ out) :
    (a.low = 5 → o.threadChange = 5) ∧ (a.low = 9 → o.threadChange = 9 ∧ 1 < o.needleCount) := by
  have key : ∀ k : Int, (k = 5 ∨ k = 9) → o.changeCommand ≠ k → ∀ a ∈ out, a.low ≠ k := by
    intro k hk hne
    obtain ⟨plan, sf, hp, hr, rfl, rfl⟩ := encode_state h
    obtain ⟨s0, hI, hP, e⟩ := run_inv (cfg := mkCfg o lm source plan)
      (P := fun s => HighInv s ∧ ∀ a ∈ s.out, a.low ≠ k) (Q := fun _ => True)
      (fun position s st s' hI hP _ hs =>
        chain_lift (fun a b hb hmic => micro_other (cfg := mkCfg o lm source plan) hk hne hmic) (step_chain st hI hs).1 hI hP)
      (fun s v hs => ⟨flagsOf_low v, hs.2⟩) source 0 _ sf (init_base o lm threads hv)
      ⟨rfl, by simp [initSt]⟩ (fun _ _ => trivial) hr
    intro a ha
    rw [e] at ha
    have ha' : a ∈ s0.out ++ [⟨s0.nx, s0.ny, END + s0.high⟩] := ha
    rw [List.mem_append] at ha'
    rcases ha' with ha' | ha'
    · exact hP.2 a ha'
    · simp at ha'; subst ha'
      rw [low_add hP.1 (by decide) (by decide)]
      rcases hk with rfl | rfl <;> decide
  constructor
  · intro h5
    by_contra hne
    refine key 5 (.inl rfl) ?_ a ha h5
    unfold Settings.changeCommand
    split_ifs
    · decide
    · exact hne
  · intro h9
    by_contra hne
    refine key 9 (.inr rfl) ?_ a ha h9
    unfold Settings.changeCommand
    by_cases hx : o.needleCount ≤ 1 ∧ o.threadChange = NEEDLE_SET
    · rw [if_pos hx]; decide
    · rw [if_neg hx]
      intro h2
      exact hne ⟨h2, by have : ¬ o.needleCount ≤ 1 := fun h => hx ⟨h, h2⟩; omega⟩

/-- C31: the effective change command. -/
theorem C31_effective (o : Settings) :
    (o.threadChange ≠ 9 ∨ 1 < o.needleCount → o.changeCommand = o.threadChange) ∧
    (o.threadChange = 9 → o.needleCount ≤ 1 → o.changeCommand = 3) := by
  constructor
  · intro h
    unfold Settings.changeCommand
    rw [if_neg]
    rintro ⟨h1, h2⟩
    rcases h with h | h
    · exact h h2
    · omega
  · intro h1 h2
    unfold Settings.changeCommand
    rw [if_pos ⟨h2, h1⟩]; rfl

-- with one needle a needle machine's pattern stops for the change
example : (encode { threadChange := 9, needleCount := 1 } ⟨fun _ _ _ _ => 0, fun _ _ _ _ _ => (0, 0), fun _ => 1, fun _ => 0⟩ []
    [⟨0, 0, 0⟩, ⟨0, 0, 5⟩, ⟨1, 1, 0⟩]).toOption.map
    (fun r => r.1.map (·.low)) = some [3, 0, 3, 0, 4] := by decide +kernel

end Emb
