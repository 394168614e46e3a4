import Verif.Props.CausalProps

/-!
# C121: what follows the END of a design

`transcode_main` stops at the END (`EmbEncoder.py` 290-292), but the changes are planned over the whole pattern (100-121) and a TIE_OFF that comes
first looks at the last command of the pattern (426-430, index -1).
-/

namespace Emb

namespace Ended

open Mirror Causal

/-- Looking ahead ends at the END. -/
theorem look_end {e : Stitch} (he : e.cmd = 4) (r : List Stitch) : ∀ l : List Stitch, lookaheadIn (l ++ e :: r) = lookaheadIn (l ++ [e])
  | [] => by simp [lookaheadIn, he, STITCH, NEEDLE_AT, SEW_TO, TIE_ON, SEQUIN_EJECT, END]
  | a :: l => by
    rw [List.cons_append, List.cons_append, lookaheadIn, lookaheadIn, look_end he r l]

variable {cfg cfg' : Cfg}

theorem steps_eq {p r : List Stitch} {e : Stitch} (he : e.cmd = 4 ∨ ∀ a ∈ p, a.low ≠ 0xE2) (first : ∀ a l, p = a :: l → a.low ≠ 0xE5)
    (h : Agree cfg cfg' (indexAfter p 0)) (hs : cfg.source = p ++ [e]) (hs' : cfg'.source = p ++ [e] ++ r) :
    ∀ (q pre : List Stitch) (s : St) (ci : Int), p = pre ++ q → -1 ≤ s.order → s.order + 1 ≤ ci →
      indexAfter p 0 = indexAfter q ci → (pre = [] → s.trimmed = true) → stepsFrom cfg' pre.length s q = stepsFrom cfg pre.length s q
  | [], _, _, _, _, _, _, _, _ => rfl
  | a :: q, pre, s, ci, eq, h0, h1, hK, ht => by
    have hci : 0 ≤ ci := by omega
    have hnext : nextIndex ci a ≤ indexAfter p 0 := by
      rw [hK]; exact index_le q _ (hci.trans (next_le ci hci a))
    have hlen : (p ++ [e]).length = pre.length + q.length + 2 := by rw [eq]; simp; omega
    have hback : ∀ (_ : pre ≠ []), pyGet cfg'.source ((pre.length : Int) - 1) = pyGet cfg.source ((pre.length : Int) - 1) := by
      intro hne
      have : 0 < pre.length := List.length_pos_of_ne_nil hne
      rw [hs, hs', show ((pre.length : Int) - 1) = ((pre.length - 1 : Nat) : Int) by omega]
      exact pyGet_left _ _ _ (by omega)
    have hstep : step cfg' pre.length s a = step cfg pre.length s a := by
      refine step_eq h h0 (fun hc => ?_) (fun hc => ?_) (fun _ => .inl ?_) ?_ (fun hc => ?_) fun hc => ?_
      · refine lt_of_lt_of_le ?_ hnext
        unfold nextIndex
        simp only
        rw [if_pos (show isChange (cmdOf a.cmd) = true from hc)]
        split_ifs <;> omega
      · refine lt_of_lt_of_le ?_ hnext
        unfold nextIndex
        simp only
        rw [show isSewing (cmdOf a.cmd) = true from hc]
        split_ifs <;> simp_all <;> omega
      · rw [hs, hs', show ((pre.length : Int) + 1) = ((pre.length + 1 : Nat) : Int) by omega]
        exact pyGet_left _ _ _ (by omega)
      · rcases pre with _ | ⟨b, pre⟩
        · exact .inl (ht rfl)
        · exact .inr (hback (by simp))
      · refine hback ?_
        rintro rfl
        exact first a q eq hc
      · have hd : (p ++ [e]).drop pre.length = (a :: q) ++ [e] := by rw [eq, List.append_assoc]; simp
        have hd' : (p ++ [e] ++ r).drop pre.length = (a :: q) ++ e :: r := by
          rw [eq, List.append_assoc, List.append_assoc]; simp
        unfold lookahead
        rw [hs, hs', hd, hd']
        rcases he with he | he
        · rw [look_end he]
        · exact absurd hc (he a (by rw [eq]; simp))
    rw [stepsFrom, stepsFrom, hstep]
    cases hr : step cfg pre.length s a with
    | error e => rfl
    | ok s' =>
      simp only
      have ho := (step_res (cfg := cfg) (s := s) (position := pre.length) a).order s' hr
      simp only at ho
      have := steps_eq he first h hs hs' q (pre ++ [a]) s' (nextIndex ci a) (by rw [eq]; simp) (by omega) ?_ hK (by simp)
      · simpa using this
      · unfold nextIndex
        simp only
        rcases ho with ho | ⟨hc, ho⟩ | ⟨hc, h5, ho⟩
        · rw [ho]; split_ifs <;> omega
        · rw [ho, if_pos hc]; split_ifs <;> omega
        · have : (0 : Int) + 1 ≤ if ci = 0 ∧ isSewing (cmdOf a.cmd) = true then 1 else ci := by
            by_cases hz : ci = 0
            · rw [if_pos ⟨hz, hc⟩]; omega
            · rw [if_neg (fun h => hz h.1)]; omega
          rw [ho]; split_ifs at this ⊢ <;> omega

end Ended

open Causal

/-- **C121.** Whatever follows the END `e` of a design, the design is normalized as without it: the same commands, the same threads, or the same
exception. If the END carries flags there must be no colour break before it, which looks ahead for a plain END. -/
theorem C121_after_end_partial {o : Settings} {lm : Libm} {threads : List Thread} {p r : List Stitch} {e : Stitch} (hn : o.needleCount ≠ 0)
    (el : e.low = 4) (he : e.cmd = 4 ∨ ∀ a ∈ p, a.low ≠ 0xE2) (hp : ∀ a ∈ p, a.low ≠ 4) (first : ∀ a l, p = a :: l → a.low ≠ 0xE5)
    (hset : ∀ a ∈ p ++ r, a.low ≠ 0x10) : encode o lm threads (p ++ e :: r) = encode o lm threads (p ++ [e]) := by
  have plan : ∀ l, ∃ P, buildPlan o threads l = .ok P := by
    intro l
    cases hb : buildPlan o threads l with
    | ok P => exact ⟨P, rfl⟩
    | error e => exact absurd (fillPlan_err _ _ _ _ hb).2 hn
  rw [show p ++ e :: r = p ++ [e] ++ r by simp]
  obtain ⟨P, hP⟩ := plan (p ++ [e])
  obtain ⟨P', hP'⟩ := plan (p ++ [e] ++ r)
  have hle : indexAfter p 0 ≤ indexAfter (p ++ [e]) 0 := by
    have : indexAfter (p ++ [e]) 0 = nextIndex (indexAfter p 0) e := by unfold indexAfter; rw [List.foldl_append]; rfl
    rw [this]
    exact next_le _ (index_le p 0 (le_refl _)) e
  have hset' : ∀ a ∈ p ++ [e] ++ r, a.low ≠ 0x10 := by
    intro a ha
    simp only [List.mem_append, List.mem_singleton] at ha
    rcases ha with (ha | rfl) | ha
    · exact hset a (by simp [ha])
    · rw [el]; decide
    · exact hset a (by simp [ha])
  have hA : Agree (mkCfg o lm (p ++ [e]) P) (mkCfg o lm (p ++ [e] ++ r) P') (indexAfter p 0) :=
    ⟨rfl, fun k h0 hk => plan_agree hset' hP hP' k h0 (lt_of_lt_of_le hk hle)⟩
  have hst := Ended.steps_eq (r := r) he first hA rfl rfl p [] (initSt o lm threads) 0 rfl (le_refl _)
    (by show (-1 : Int) + 1 ≤ 0; decide) rfl (fun _ => rfl)
  have run : ∀ cfg : Cfg, ∀ r, runFrom cfg 0 (initSt o lm threads) (p ++ ([e] ++ r)) = match stepsFrom cfg 0 (initSt o lm threads) p with
      | .error e => .error e
      | .ok s1 => .ok (endHere { s1 with high := flagsOf e.cmd }) := by
    intro cfg r
    rw [run_append _ _ p 0 _ hp]
    cases stepsFrom cfg 0 (initSt o lm threads) p with
    | error e => rfl
    | ok s1 =>
      simp only [List.singleton_append, runFrom]
      rw [if_pos (show cmdOf e.cmd = END from el)]
  unfold encode
  rw [hP, hP']
  simp only
  have h1 := run (mkCfg o lm (p ++ [e]) P) []
  have h2 := run (mkCfg o lm (p ++ [e] ++ r) P') r
  rw [List.append_nil] at h1
  rw [← List.append_assoc] at h2
  rw [h1, h2, show stepsFrom (mkCfg o lm (p ++ [e] ++ r) P') 0 (initSt o lm threads) p = _ from hst]
  rfl

/-- With an END as `EmbPattern.end` and the readers enter it. -/
theorem C121_plain_partial {o : Settings} {lm : Libm} {threads : List Thread} {p r : List Stitch} {x y : ℚ} (hn : o.needleCount ≠ 0)
    (hp : ∀ a ∈ p, a.low ≠ 4) (first : ∀ a l, p = a :: l → a.low ≠ 0xE5) (hset : ∀ a ∈ p ++ r, a.low ≠ 0x10) :
    encode o lm threads (p ++ ⟨x, y, 4⟩ :: r) = encode o lm threads (p ++ [⟨x, y, 4⟩]) :=
  C121_after_end_partial hn (by rfl) (.inl rfl) hp first hset

/-- A change planned with SET_CHANGE_SEQUENCE after the END still counts. -/
theorem C121_sequence_fails : ∃ (threads : List Thread) (p r : List Stitch) (a b : List Stitch × List (Option Thread)),
    encode {} demoLm threads (p ++ [⟨1, 0, 4⟩]) = .ok a ∧ encode {} demoLm threads (p ++ ⟨1, 0, 4⟩ :: r) = .ok b ∧ a.2 ≠ b.2 :=
  ⟨[{ color := 0xFF0000 }, { color := 0xFF }], [⟨1, 0, 0⟩], [⟨1, 0, 0x1000210⟩], ([⟨1, 0, 0⟩, ⟨1, 0, 4⟩], [some { color := 0xFF0000 }]),
    ([⟨1, 0, 0⟩, ⟨1, 0, 4⟩], [some { color := 0xFF }]), by decide +kernel, by decide +kernel, by decide +kernel⟩

/-- A TIE_OFF that comes first is sewn towards what stands last, behind the END. -/
theorem C121_tie_off_fails : ∃ (p r : List Stitch) (a b : List Stitch × List (Option Thread)),
    encode { tieOff := .bool true } demoLm [] (p ++ [⟨5, 0, 4⟩]) = .ok a ∧
    encode { tieOff := .bool true } demoLm [] (p ++ ⟨5, 0, 4⟩ :: r) = .ok b ∧ a.1 ≠ b.1 :=
  ⟨[⟨1, 0, 0xE5⟩, ⟨2, 0, 0⟩], [⟨5, 0, 0⟩], ([⟨2, 0, 0⟩, ⟨2, 0, 4⟩], [none]),
    ([⟨33 / 20, 0, 0⟩, ⟨33 / 10, 0, 0⟩, ⟨33 / 20, 0, 0⟩, ⟨0, 0, 0⟩, ⟨2, 0, 0⟩, ⟨2, 0, 4⟩], [none]),
    by decide +kernel, by decide +kernel, by decide +kernel⟩

/-- An END that carries flags does not stop a colour break from looking ahead. -/
theorem C121_flags_fails : ∃ (p r : List Stitch) (a b : List Stitch × List (Option Thread)),
    encode {} demoLm [] (p ++ [⟨2, 0, 0x104⟩]) = .ok a ∧ encode {} demoLm [] (p ++ ⟨2, 0, 0x104⟩ :: r) = .ok b ∧ a.1 ≠ b.1 :=
  ⟨[⟨1, 0, 0⟩, ⟨2, 0, 0xE2⟩], [⟨5, 0, 0⟩], ([⟨1, 0, 0⟩, ⟨1, 0, 0x104⟩], [none]),
    ([⟨1, 0, 0⟩, ⟨1, 0, 0x30205⟩, ⟨1, 0, 0x104⟩], [none, none]), by decide +kernel, by decide +kernel, by decide +kernel⟩

/-! Beside it: ties, a colour break before the END, and sewing, changes and a second END behind it. -/

def endedDemo : List Stitch := [⟨2, 0, 0⟩, ⟨5, 0, 0⟩, ⟨5, 0, 0xE2⟩, ⟨6, 0, 0⟩, ⟨6, 0, 0xE2⟩]

example : encode { tieOn := .bool true } demoLm [] (endedDemo ++ ⟨6, 0, 4⟩ :: [⟨9, 0, 0⟩, ⟨9, 0, 5⟩, ⟨7, 0, 0⟩, ⟨7, 0, 4⟩]) = .ok
    ([⟨2, 0, 0⟩, ⟨299 / 100, 0, 0⟩, ⟨199 / 50, 0, 0⟩, ⟨299 / 100, 0, 0⟩, ⟨2, 0, 0⟩, ⟨5, 0, 0⟩, ⟨5, 0, 0x30205⟩, ⟨6, 0, 0⟩, ⟨6, 0, 4⟩], [none, none]) := by
  rw [C121_plain_partial (by decide) (by decide) (by intro a l h; injection h with h; subst h; decide) (by decide)]
  decide +kernel

end Emb
