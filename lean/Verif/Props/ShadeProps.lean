import Verif.Props.StrikeProps
import Verif.Props.PlanProps
import Verif.Props.IdempotentProps

/-!
# C91: what is sewn in which colour
-/

namespace Emb

/-! ## Specification -/

/-- The strikes of a finished pattern, each with the number of COLOR_CHANGE (5) commands before it. -/
def shadedFrom : Nat → List Stitch → List (Nat × Pt)
  | _, [] => []
  | n, a :: l =>
    if a.low = 5 then shadedFrom (n + 1) l
    else if a.low = 0 then (n, (a.x, a.y)) :: shadedFrom n l
    else shadedFrom n l

/-- How many colours have begun after the command `st`, with `k` before: COLOR_CHANGE (5) and NEEDLE_SET (9) begin one; COLOR_BREAK
(0xE2) between two sewn parts does; and so does sewing (STITCH, SEW_TO, NEEDLE_AT, SEQUIN_EJECT) if there is none yet. -/
def begun (k : Nat) (st : Stitch) (rest : List Stitch) : Nat :=
  if st.low ∈ [5, 9] then k + 1
  else if st.low = 0xE2 then (if 1 ≤ k ∧ sewnAhead rest = true then k + 1 else k)
  else if st.low ∈ [0, 0xB0, 0xB1, 7] then max k 1
  else k

/-- How many colours a source begins. -/
def begunBy : Nat → List Stitch → Nat
  | k, [] => k
  | k, st :: rest => if st.low = 4 then k else begunBy (begun k st rest) rest

/-- The walk of C24 with the colours: what a command sews is in the last colour begun (ties are sewn before the change), and the first
colour is number 0. -/
noncomputable def walkShaded (lm : Libm) (round : Bool) : Nat → Head → Option Stitch → List Stitch → List (Nat × Pt)
  | _, _, _, [] => []
  | k, h, prev, st :: rest =>
    if st.low = 4 then []
    else (h.step lm round prev st rest).1.map (fun p => (k - 1, p)) ++
      walkShaded lm round (begun k st rest) (h.step lm round prev st rest).2 (some st) rest

/-- The sewing commands of a source (STITCH, NEEDLE_AT, SEW_TO) placed by `f`, each with the number of its colour. -/
def sewnIn (round : Bool) (f : Pt → Pt) : Nat → List Stitch → List (Nat × Pt)
  | _, [] => []
  | k, st :: rest =>
    if st.low = 4 then []
    else (if st.low ∈ [0, 0xB0, 0xB1] then
        [(k - 1, if round then ((pyRound (f (st.x, st.y)).1 : ℚ), (pyRound (f (st.x, st.y)).2 : ℚ)) else f (st.x, st.y))] else []) ++
      sewnIn round f (begun k st rest) rest

/-! ## Proofs -/

namespace Shade

theorem shadedFrom_append (a b : List Stitch) : ∀ n, shadedFrom n (a ++ b) = shadedFrom n a ++ shadedFrom (n + changes a) b := by
  induction a with
  | nil => intro n; simp [shadedFrom, changes]
  | cons c a ih =>
    intro n
    have hc : changes (c :: a) = changes a + if c.low = 5 then 1 else 0 := by unfold changes; simp [List.countP_cons]
    rw [List.cons_append, shadedFrom, shadedFrom, hc]
    by_cases h5 : c.low = 5
    · rw [if_pos h5, if_pos h5, if_pos h5, ih]
      congr 2; omega
    · rw [if_neg h5, if_neg h5, if_neg h5]
      by_cases h0 : c.low = 0
      · rw [if_pos h0, if_pos h0, ih]; rfl
      · rw [if_neg h0, if_neg h0, ih]; rfl

theorem shadedFrom_no5 (e : List Stitch) (h : changes e = 0) : ∀ n, shadedFrom n e = (strikes e).map (fun p => (n, p)) := by
  induction e with
  | nil => intro n; rfl
  | cons c e ih =>
    intro n
    have hc : changes (c :: e) = changes e + if c.low = 5 then 1 else 0 := by unfold changes; simp [List.countP_cons]
    have h5 : c.low ≠ 5 := fun h5 => by rw [if_pos h5] at hc; omega
    have h' : changes e = 0 := by rw [hc] at h; omega
    rw [shadedFrom, if_neg h5, ih h']
    unfold strikes
    by_cases h0 : c.low = 0
    · rw [if_pos h0, List.filter_cons_of_pos (by simpa using h0)]; rfl
    · rw [if_neg h0, List.filter_cons_of_neg (by simpa using h0)]

theorem shadedFrom_mute (e : List Stitch) (h : ∀ a ∈ e, a.low ≠ 0) : ∀ n, shadedFrom n e = [] := by
  induction e with
  | nil => intro n; rfl
  | cons c e ih =>
    intro n
    rw [shadedFrom, if_neg (h c (by simp)), ih (fun a ha => h a (by simp [ha])), ih (fun a ha => h a (by simp [ha]))]
    split_ifs <;> rfl

/-- Strikes come before colour changes. -/
def Tidy (e : List Stitch) : Prop := ∃ a w, e = a ++ w ∧ changes a = 0 ∧ ∀ b ∈ w, b.low ≠ 0

theorem Tidy.shaded {e : List Stitch} (h : Tidy e) (n : Nat) : shadedFrom n e = (strikes e).map (fun p => (n, p)) := by
  obtain ⟨a, w, rfl, h1, h2⟩ := h
  have : strikes w = [] := by
    unfold strikes
    rw [List.filter_eq_nil_iff.2 (fun b hb => by simpa using h2 b hb)]; rfl
  rw [shadedFrom_append, shadedFrom_no5 a h1, shadedFrom_mute w h2, Strike.strikes_append, this, List.append_nil, List.append_nil]

theorem changes_append (a b : List Stitch) : changes (a ++ b) = changes a + changes b := by unfold changes; rw [List.countP_append]

theorem changes_zero {l : List Stitch} (h : ∀ a ∈ l, a.low ≠ 5) : changes l = 0 := by
  unfold changes
  rw [List.countP_eq_zero]
  intro a ha
  simpa using h a ha

theorem nextChange_tidy {cfg : Cfg} {s s' : St} (hc : cfg.change = COLOR_CHANGE) (h : nextChange cfg s = .ok s') :
    ∃ w, s'.out = s.out ++ w ∧ ∀ b ∈ w, b.low ≠ 0 := by
  obtain ⟨ch, -, h⟩ := nextChange_out h
  rcases h with ⟨-, -, h⟩ | ⟨h, -⟩ | ⟨h, -⟩ | ⟨h, -⟩
  · rcases h with ⟨-, h⟩ | ⟨-, h⟩
    · exact ⟨[], by simpa using h, by simp⟩
    · refine ⟨_, h, ?_⟩
      intro b hb
      simp only [List.mem_cons, List.not_mem_nil, or_false] at hb
      subst hb
      have := encodeThreadChange_low 5 (by decide) (by decide) (some ch.thread) (some ch.needle) none
      show encodeThreadChange COLOR_CHANGE _ _ _ % 256 ≠ 0
      rw [COLOR_CHANGE, this]; decide
  · rw [hc] at h; exact absurd h (by decide)
  · rw [hc] at h; exact absurd h (by decide)
  · exact absurd hc h

theorem step_tidy {cfg : Cfg} {position : Nat} {s s' : St} {st : Stitch} (hc : cfg.change = COLOR_CHANGE) (hI : BaseInv s)
    (hC : CountInv s) (hs : step cfg position s st = .ok s') : ∃ e, s'.out = s.out ++ e ∧ Tidy e := by
  have hC' : CountInv s' := chain_lift (fun a b hb hmic => micro_count (cfg := cfg) hc hb hmic) (step_chain st hI hs).1 hI hC
  have hr := step_res (cfg := cfg) (s := s) (position := position) st
  have two : ∀ (t s' : St), HighInv t → nextChange cfg (tieOffTrimIfExplicit cfg position t) = .ok s' →
      ∃ e, s'.out = t.out ++ e ∧ Tidy e := by
    intro t s' hh h
    obtain ⟨l, hl, hl2⟩ := tieOffTrim_out (cfg := cfg) (position := position) hh
    obtain ⟨w, hw, hw2⟩ := nextChange_tidy hc h
    exact ⟨l ++ w, by rw [hw, hl, List.append_assoc], l, w, rfl,
      changes_zero (fun a ha => by rcases hl2 a ha with h | h | h <;> rw [h] <;> decide), hw2⟩
  by_cases hch : isChange (cmdOf st.cmd) = true
  · rw [changes_iff] at hch
    unfold Changes at hch
    simp only [List.mem_cons, List.not_mem_nil, or_false] at hch
    by_cases h59 : st.low = 5 ∨ st.low = 9
    · have e : step cfg position s st = colorChange cfg position { s with high := flagsOf st.cmd } := by
        unfold step
        rcases h59 with h | h
        · have h : cmdOf st.cmd = COLOR_CHANGE := h
          simp only [h]; rfl
        · have h : cmdOf st.cmd = NEEDLE_SET := h
          simp only [h]; rfl
      rw [e] at hs
      unfold colorChange at hs
      obtain ⟨s1, h1, h2⟩ := bind_ok.1 hs
      rw [pure_ok] at h2; subst h2
      exact two { s with high := flagsOf st.cmd } s1 (flagsOf_low _) h1
    · have hb : st.low = 226 := by omega
      rw [step_break hb] at hs
      unfold colorBreak at hs
      split_ifs at hs
      · injection hs with hs; subst hs
        exact ⟨[], by simp, [], [], rfl, rfl, by simp⟩
      · obtain ⟨s1, h1, h2⟩ := bind_ok.1 hs
        rw [pure_ok] at h2; subst h2
        exact two { s with high := flagsOf st.cmd } s1 (flagsOf_low _) h1
      · simp only at hs
        injection hs with hs; subst hs
        obtain ⟨l, hl, hl2⟩ := tieOffTrim_out (cfg := cfg) (position := position) (s := { s with high := flagsOf st.cmd }) (flagsOf_low _)
        exact ⟨l, hl, l, [], by simp, changes_zero (fun a ha => by rcases hl2 a ha with h | h | h <;> rw [h] <;> decide), by simp⟩
  · obtain ⟨e, he⟩ := step_grows hI hC.1 hs
    refine ⟨e, he, e, [], by simp, ?_, by simp⟩
    have h1 := hC.2.2
    have h2 := hC'.2.2
    rw [he, changes_append] at h2
    rcases hr.order s' hs with ho | ⟨h, -⟩ | ⟨-, h3, h4⟩
    · simp only at ho
      rw [ho] at h2
      push_cast at h2
      omega
    · exact absurd h hch
    · simp only at h3
      rw [h3] at h1
      rw [h4] at h2
      simp at h1 h2
      omega

theorem step_begun {cfg : Cfg} {position : Nat} {prev : Option Stitch} {s s' : St} {st : Stitch} {rest : List Stitch} {k : Nat} (hI : BaseInv s)
    (hT : TrimInv s) (a : Strike.Around cfg.source position prev st rest) (hk : s.order + 1 = k) (hs : step cfg position s st = .ok s') :
    s'.order + 1 = begun k st rest := by
  have hr := step_res (cfg := cfg) (s := s) (position := position) st
  have ho := hr.order s' hs
  unfold begun
  rw [sews_iff, changes_iff] at ho
  unfold Sews Changes at ho
  simp only at ho
  by_cases h1 : st.low ∈ [5, 9]
  · rw [if_pos h1]
    have := hr.change s' hs (by
      simp only [List.mem_cons, List.not_mem_nil, or_false] at h1
      rcases h1 with h | h
      exacts [.inl h, .inr h])
    simp only at this
    push_cast; omega
  · rw [if_neg h1]
    by_cases h2 : st.low = 226
    · rw [if_pos h2]
      have la := Strike.lookahead_eq a h2
      rw [step_break h2] at hs
      unfold colorBreak at hs
      simp only at hs
      have ord : (tieOffTrimIfExplicit cfg position { s with high := flagsOf st.cmd }).order = s.order := by
        exact (tieOffTrimIfExplicit_keep (cfg := cfg) (position := position) (s := { s with high := flagsOf st.cmd })).order
      by_cases h3 : s.order < 0
      · rw [if_pos h3] at hs
        injection hs with hs; subst hs
        rw [if_neg (fun c => by omega)]
        exact hk
      · rw [if_neg h3, la] at hs
        by_cases h4 : sewnAhead rest = true
        · rw [if_pos h4] at hs
          obtain ⟨s1, h5, h6⟩ := bind_ok.1 hs
          rw [pure_ok] at h6; subst h6
          have := (nextChange_fields h5).2.2.2.2.2.2.2.2.1
          rw [if_pos ⟨by omega, h4⟩]
          simp only
          rw [this, ord]
          push_cast; omega
        · rw [if_neg h4] at hs
          injection hs with hs; subst hs
          rw [if_neg (fun c => h4 c.2), ord]
          exact hk
    · rw [if_neg h2]
      by_cases h3 : st.low ∈ [0, 176, 177, 7]
      · rw [if_pos h3]
        have hu := step_uses hI hT hs (by
          simp only [List.mem_cons, List.not_mem_nil, or_false] at h3 ⊢; omega)
        have := hI.2
        rcases ho with ho | ⟨hc, _⟩ | ⟨_, h4, h5⟩
        · push_cast; omega
        · simp only [List.mem_cons, List.not_mem_nil, or_false] at hc h1
          omega
        · push_cast; omega
      · rw [if_neg h3]
        rcases ho with ho | ⟨hc, _⟩ | ⟨hc, _⟩
        · omega
        · simp only [List.mem_cons, List.not_mem_nil, or_false] at hc h1
          omega
        · exact absurd hc h3

theorem run_shaded (cfg : Cfg) (hc : cfg.change = COLOR_CHANGE) : ∀ (rest : List Stitch) (position : Nat) (s sf : St) (prev : Option Stitch) (k : Nat),
    Strike.Good s → BaseInv s → TrimInv s → CountInv s → s.order + 1 = k →
    (∃ pre, cfg.source = pre ++ rest ∧ pre.length = position) →
    prev = (if position = 0 then cfg.source.getLast? else cfg.source[position - 1]?) →
    runFrom cfg position s rest = .ok sf →
    shadedFrom 0 sf.out = shadedFrom 0 s.out ++ walkShaded cfg.lm cfg.round k (Strike.headOf s) prev rest ∧
      sf.order + 1 = begunBy k rest ∧ sf.threads.length = begunBy k rest := by
  intro rest
  have hend : ∀ s : St, s.high % 256 = 0 → shadedFrom 0 (endHere s).out = shadedFrom 0 s.out := by
    intro s g
    show shadedFrom 0 (s.out ++ [⟨s.nx, s.ny, END + s.high⟩]) = _
    rw [shadedFrom_append, shadedFrom_mute [_]]
    · simp
    · intro a ha
      simp only [List.mem_cons, List.not_mem_nil, or_false] at ha
      subst ha
      rw [low_add g (by decide) (by decide)]; decide
  induction rest with
  | nil =>
    intro position s sf prev k g hI hT hC hk _ _ h
    rw [runFrom] at h
    injection h with h; subst h
    rw [hend s g.high, walkShaded, begunBy]
    have := hC.2.1
    exact ⟨by simp, hk, by show s.threads.length = k; omega⟩
  | cons st rest ih =>
    intro position s sf prev k g hI hT hC hk hs hp h
    rw [runFrom] at h
    rw [walkShaded, begunBy]
    by_cases h4 : st.low = 4
    · rw [if_pos (show cmdOf st.cmd = END from h4)] at h
      injection h with h; subst h
      rw [if_pos h4, if_pos h4, hend { s with high := flagsOf st.cmd } (flagsOf_low _)]
      have := hC.2.1
      exact ⟨by simp, hk, by show s.threads.length = k; omega⟩
    · rw [if_neg (show ¬ cmdOf st.cmd = END from h4)] at h
      rw [if_neg h4, if_neg h4]
      cases hst : Emb.step cfg position s st with
      | error e => rw [hst] at h; cases h
      | ok s' =>
        rw [hst] at h
        simp only at h
        obtain ⟨pre, e1, e2⟩ := hs
        have ar : Strike.Around cfg.source position prev st rest := ⟨⟨pre, e1, e2⟩, hp⟩
        have e := Strike.step_eff g ar hst
        obtain ⟨x, hx, ht⟩ := step_tidy hc hI hC hst
        have hC' : CountInv s' := chain_lift (fun a b hb hmic => micro_count (cfg := cfg) hc hb hmic) (step_chain st hI hst).1 hI hC
        have hk' := step_begun hI hT ar hk hst
        have := ih (position + 1) s' sf (some st) (begun k st rest) e.good (chain_base (step_chain st hI hst).1 hI) (step_trimInv hI hT hst) hC' hk'
          ⟨pre ++ [st], by simp [e1], by simp [e2]⟩ ?_ h
        · refine ⟨?_, this.2⟩
          have hsx : strikes x = ((Strike.headOf s).step cfg.lm cfg.round prev st rest).1 := by
            have := e.out
            rw [hx, Strike.strikes_append] at this
            exact List.append_cancel_left this
          have hn : changes s.out = k - 1 := by
            have := hC.2.2
            split_ifs at this <;> omega
          rw [this.1, hx, shadedFrom_append, ht.shaded, hsx, e.head, Nat.zero_add, hn, List.append_assoc]
        · rw [if_neg (by omega), e1]
          simp [← e2]

theorem images_cons (round : Bool) (f : Pt → Pt) (st : Stitch) (l : List Stitch) :
    images round f (st :: l) = images round f [st] ++ images round f l := by
  unfold images
  rw [← List.map_append, ← List.filter_append, List.singleton_append]

theorem images_one (round : Bool) (f : Pt → Pt) (st : Stitch) (n : Nat) :
    (images round f [st]).map (fun p => (n, p)) = (if st.low ∈ [0, 0xB0, 0xB1] then
        [(n, if round then ((pyRound (f (st.x, st.y)).1 : ℚ), (pyRound (f (st.x, st.y)).2 : ℚ)) else f (st.x, st.y))] else []) := by
  unfold images
  by_cases h : st.low ∈ [(0 : Int), 0xB0, 0xB1]
  · rw [if_pos h, List.filter_cons_of_pos (by simpa using h)]; rfl
  · rw [if_neg h, List.filter_cons_of_neg (by simpa using h)]; rfl

theorem walk_sewnIn {lm : Libm} {round : Bool} : ∀ (A : List Stitch) (k : Nat) (h : Head) (prev : Option Stitch) (E : List Stitch),
    h.Simple → (∀ st ∈ A, Plain h.limit st) → (∀ e ∈ E.head?, e.low = 4) →
    walkShaded lm round k h prev (A ++ E) = sewnIn round h.f k (A ++ E) := by
  intro A
  induction A with
  | nil =>
    intro k h prev E _ _ hE
    cases E with
    | nil => simp [walkShaded, sewnIn]
    | cons e E =>
      have := hE e (by simp)
      simp [walkShaded, sewnIn, this]
  | cons st A ih =>
    intro k h prev E hs hp hE
    obtain ⟨e1, e2, e3, e4⟩ := Strike.step_plain (lm := lm) (round := round) hs prev (A ++ E) (hp st (by simp))
    have h4 : ¬ st.low = 4 := fun h4 => (hp st (by simp)).1 (by simp [h4])
    rw [List.cons_append, walkShaded, sewnIn, if_neg h4, if_neg h4, e1, images_one,
      ih _ _ _ E e4 (fun b hb => by rw [e3]; exact hp b (by simp [hb])) hE, e2]

/-- No colour, sequin or END commands: what a block holds. -/
def Body (b : List Stitch) : Prop := ∀ st ∈ b, st.low ∉ [(4 : Int), 5, 7, 9, 0xE2]

theorem sewnIn_body (round : Bool) (f : Pt → Pt) (r : List Stitch) : ∀ (b : List Stitch) (k : Nat), Body b →
    ∃ k', k ≤ k' ∧ k' ≤ max k 1 ∧ ((∃ st ∈ b, st.cmd ∈ [(0 : Int), 0xB0, 0xB1]) → 1 ≤ k') ∧
      sewnIn round f k (b ++ r) = (images round f b).map (fun p => (k - 1, p)) ++ sewnIn round f k' r ∧
      begunBy k (b ++ r) = begunBy k' r := by
  intro b
  induction b with
  | nil => intro k _; exact ⟨k, le_refl _, le_max_left _ _, by simp, by simp [images], rfl⟩
  | cons st b ih =>
    intro k hb
    have h0 := hb st (by simp)
    simp only [List.mem_cons, List.not_mem_nil, or_false, not_or] at h0
    have hg : begun k st (b ++ r) = if st.low ∈ [0, 0xB0, 0xB1, 7] then max k 1 else k := by
      unfold begun
      rw [if_neg (by simp [h0]), if_neg h0.2.2.2.2]
    obtain ⟨k', h1, h2, h3, h4, h5⟩ := ih (begun k st (b ++ r)) (fun a ha => hb a (by simp [ha]))
    rw [hg] at h1 h2 h4 h5
    refine ⟨k', ?_, ?_, ?_, ?_, ?_⟩
    · split_ifs at h1 <;> omega
    · split_ifs at h2 <;> omega
    · rintro ⟨a, ha, hc⟩
      rcases List.mem_cons.1 ha with rfl | ha
      · have : a.low ∈ [(0 : Int), 0xB0, 0xB1, 7] := by
          unfold Stitch.low
          simp only [List.mem_cons, List.not_mem_nil, or_false] at hc
          rcases hc with h | h | h <;> rw [h] <;> decide
        rw [if_pos this] at h1; omega
      · exact h3 ⟨a, ha, hc⟩
    · rw [List.cons_append, sewnIn, if_neg h0.1, hg, h4, images_cons, List.map_append, images_one, List.append_assoc]
      have : (if st.low ∈ [(0 : Int), 0xB0, 0xB1, 7] then max k 1 else k) - 1 = k - 1 := by split_ifs <;> omega
      rw [this]
    · rw [List.cons_append, begunBy, if_neg h0.1, hg, h5]

theorem sewnAhead_body {b : List Stitch} (hb : Body b) (r : List Stitch) (h : ∃ st ∈ b, st.cmd ∈ [(0 : Int), 0xB0, 0xB1]) :
    sewnAhead (b ++ r) = true := by
  have h4 : ∀ st ∈ b, (st.cmd != 4) = true := by
    intro st hst
    rw [bne_iff_ne]
    intro h
    apply hb st hst
    unfold Stitch.low
    rw [h]; decide
  unfold sewnAhead
  rw [List.takeWhile_append_of_pos h4, List.any_append, Bool.or_eq_true]
  left
  obtain ⟨a, ha, hc⟩ := h
  rw [List.any_eq_true]
  refine ⟨a, ha, ?_⟩
  simp only [List.mem_cons, List.not_mem_nil, or_false] at hc
  rcases hc with h | h | h <;> rw [h] <;> decide

end Shade

/-- The stitches of a pattern made by one `add_block` call for each block (`EmbPattern.py` 551-581): the stitches of the block, then
`add_command(COLOR_BREAK)`. -/
def blocksSource (blocks : List (List Stitch)) : List Stitch := blocks.flatMap (fun b => b ++ [⟨0, 0, 0xE2⟩])

/-- What the blocks sew, block `i` in colour `i`. -/
def blocksShaded (round : Bool) (f : Pt → Pt) : Nat → List (List Stitch) → List (Nat × Pt)
  | _, [] => []
  | i, b :: blocks => (images round f b).map (fun p => (i, p)) ++ blocksShaded round f (i + 1) blocks

namespace Shade

theorem sewnIn_blocks (round : Bool) (f : Pt → Pt) (E : List Stitch) (hE : E = [] ∨ ∃ e, E = [e] ∧ e.low = 4) :
    ∀ (blocks : List (List Stitch)) (k : Nat), (∀ b ∈ blocks, Body b ∧ ∃ st ∈ b, st.cmd ∈ [(0 : Int), 0xB0, 0xB1]) →
    ∀ i, (blocks ≠ [] → k = i + 1 ∨ (k = 0 ∧ i = 0)) → (blocks = [] → k = i) →
    sewnIn round f k (blocksSource blocks ++ E) = blocksShaded round f i blocks ∧
      begunBy k (blocksSource blocks ++ E) = i + blocks.length := by
  intro blocks
  induction blocks with
  | nil =>
    intro k _ i _ hk
    rw [hk rfl]
    rcases hE with rfl | ⟨e, rfl, he⟩
    · simp [blocksSource, blocksShaded, sewnIn, begunBy]
    · simp [blocksSource, blocksShaded, sewnIn, begunBy, he]
  | cons b blocks ih =>
    intro k hb i hk _
    have hk := hk (by simp)
    obtain ⟨hB, hS⟩ := hb b (by simp)
    have es : blocksSource (b :: blocks) ++ E = b ++ ⟨0, 0, 0xE2⟩ :: (blocksSource blocks ++ E) := by
      simp [blocksSource]
    obtain ⟨k', h1, h2, h3, h4, h5⟩ := sewnIn_body round f (⟨0, 0, 0xE2⟩ :: (blocksSource blocks ++ E)) b k hB
    have h3 := h3 hS
    have hk' : k' = i + 1 := by omega
    have hki : k - 1 = i := by omega
    have hb' : begun k' ⟨0, 0, 0xE2⟩ (blocksSource blocks ++ E) = if blocks = [] then k' else k' + 1 := by
      have hl : (⟨0, 0, 0xE2⟩ : Stitch).low = 226 := rfl
      unfold begun
      rw [hl, if_neg (by decide), if_pos rfl]
      cases blocks with
      | nil =>
        rw [if_pos rfl, if_neg]
        rintro ⟨-, h⟩
        rcases hE with rfl | ⟨e, rfl, he⟩
        · simp [blocksSource, sewnAhead] at h
        · simp only [blocksSource, List.flatMap_nil, List.nil_append, sewnAhead, List.any_eq_true] at h
          obtain ⟨x, hx, hc⟩ := h
          have hx := List.takeWhile_subset _ hx
          simp only [List.mem_cons, List.not_mem_nil, or_false] at hx
          subst hx
          unfold Stitch.low at he
          simp only [List.mem_cons, List.not_mem_nil, or_false, decide_eq_true_eq] at hc
          rcases hc with h | h | h | h | h <;> rw [h] at he <;> exact absurd he (by decide)
      | cons b2 bs =>
        rw [if_neg (show ¬ b2 :: bs = [] by simp), if_pos]
        refine ⟨h3, ?_⟩
        obtain ⟨hB2, hS2⟩ := hb b2 (by simp)
        have := sewnAhead_body hB2 ([⟨0, 0, 0xE2⟩] ++ (blocksSource bs ++ E)) hS2
        rw [show blocksSource (b2 :: bs) ++ E = b2 ++ ([⟨0, 0, 0xE2⟩] ++ (blocksSource bs ++ E)) by simp [blocksSource]]
        exact this
    have := ih (begun k' ⟨0, 0, 0xE2⟩ (blocksSource blocks ++ E)) (fun c hc => hb c (by simp [hc])) (i + 1)
      (fun hne => by rw [hb', if_neg hne]; omega) (fun he => by rw [hb', if_pos he]; omega)
    have hl4 : ¬ (⟨0, 0, 0xE2⟩ : Stitch).low = 4 := by decide
    have hl0 : ¬ (⟨0, 0, 0xE2⟩ : Stitch).low ∈ [(0 : Int), 0xB0, 0xB1] := by decide
    rw [es, h4, h5, sewnIn, begunBy, if_neg hl4, if_neg hl4, if_neg hl0, this.1, this.2, blocksShaded, hki]
    refine ⟨by simp, by simp; omega⟩

end Shade

variable {o : Settings} {lm : Libm} {threads : List Thread} {source out : List Stitch} {ths : List (Option Thread)}

/-- **C91**: in COLOR_CHANGE mode every strike is sewn in its colour: for every source, the strikes of the normalized pattern with their
colours are those of the walk, and there is a thread for each colour begun. -/
theorem C91_shades (hv : o.ValidSequins) (hc : o.changeCommand = 5) (h : encode o lm threads source = .ok (out, ths)) :
    shadedFrom 0 out = walkShaded lm o.round 0 (o.head lm) source.getLast? source ∧ ths.length = begunBy 0 source := by
  obtain ⟨plan, sf, -, hr, rfl, rfl⟩ := encode_state h
  have := Shade.run_shaded (mkCfg o lm source plan) hc source 0 _ sf source.getLast? 0
    (⟨rfl, (Strike.place_affine o lm).1, le_refl _, fun h => nomatch h⟩ : Strike.Good (initSt o lm threads))
    (init_base o lm threads hv) (init_trim o lm threads) (init_count o lm threads hc) rfl ⟨[], rfl, rfl⟩ rfl hr
  rw [Strike.init_head] at this
  refine ⟨?_, this.2.2⟩
  rw [this.1]
  rfl

/-- **C91**: without ties and cuts, every sewing command of the source is sewn in the colour its commands begin. -/
theorem C91_plain {A E : List Stitch} (hv : o.ValidSequins) (hc : o.changeCommand = 5) (ho : o.NoTies)
    (hA : ∀ st ∈ A, Plain o.maxStitch st) (hE : ∀ e ∈ E.head?, e.low = 4) (h : encode o lm threads (A ++ E) = .ok (out, ths)) :
    shadedFrom 0 out = sewnIn o.round (o.place lm) 0 (A ++ E) := by
  rw [(C91_shades hv hc h).1]
  exact Shade.walk_sewnIn A 0 (o.head lm) _ E (ho.simple lm) hA hE

/-- **C91**: a pattern built block by block sews every block in its own colour: block `i`, with the `i`-th thread. The blocks hold at
least one sewing command and no colour, matrix, sequin or tie commands; an END command may follow the last one. -/
theorem C91_blocks {blocks : List (List Stitch)} {E : List Stitch} (hv : o.ValidSequins) (hc : o.changeCommand = 5) (ho : o.NoTies)
    (hb : ∀ b ∈ blocks, (∀ st ∈ b, Plain o.maxStitch st ∧ st.low ∉ [(5 : Int), 9, 16, 0xE2]) ∧ ∃ st ∈ b, st.cmd ∈ [(0 : Int), 0xB0, 0xB1])
    (hE : E = [] ∨ ∃ e, E = [e] ∧ e.low = 4) (h : encode o lm threads (blocksSource blocks ++ E) = .ok (out, ths)) :
    shadedFrom 0 out = blocksShaded o.round (o.place lm) 0 blocks ∧
      ths = (List.range blocks.length).map (fun i => threads[i]?) := by
  have hmem : ∀ st ∈ blocksSource blocks, (Plain o.maxStitch st ∧ st.low ∉ [(5 : Int), 9, 16, 0xE2]) ∨ st = ⟨0, 0, 0xE2⟩ := by
    intro st hst
    unfold blocksSource at hst
    rw [List.mem_flatMap] at hst
    obtain ⟨b, h1, h2⟩ := hst
    rcases List.mem_append.1 h2 with h2 | h2
    · exact .inl ((hb b h1).1 st h2)
    · right; simpa using h2
  have hA : ∀ st ∈ blocksSource blocks, Plain o.maxStitch st := by
    intro st hst
    rcases hmem st hst with h | rfl
    · exact h.1
    · exact ⟨by decide, fun h => absurd h (by decide)⟩
  have hb' : ∀ b ∈ blocks, Shade.Body b ∧ ∃ st ∈ b, st.cmd ∈ [(0 : Int), 0xB0, 0xB1] := by
    intro b hbm
    refine ⟨?_, (hb b hbm).2⟩
    intro st hst
    obtain ⟨⟨h1, -⟩, h2⟩ := (hb b hbm).1 st hst
    simp only [List.mem_cons, List.not_mem_nil, or_false, not_or] at h1 h2 ⊢
    exact ⟨h1.1, h2.1, h1.2.1, h2.2.1, h2.2.2.2⟩
  obtain ⟨e1, e2⟩ := Shade.sewnIn_blocks o.round (o.place lm) E hE blocks 0 hb' 0 (fun _ => .inr ⟨rfl, rfl⟩) (fun _ => rfl)
  have hn := (C91_shades hv hc h).2
  refine ⟨?_, ?_⟩
  · rw [C91_plain hv hc ho hA (by rcases hE with rfl | ⟨e, rfl, he⟩ <;> simp [*]) h, e1]
  · have hin := C30_in_order hv hc h ?_ ?_
    · rw [hin, hn, e2, Nat.zero_add]
    · intro st hst
      rcases List.mem_append.1 hst with hst | hst
      · rcases hmem st hst with h | rfl
        · exact fun h16 => h.2 (by simp [h16])
        · decide
      · rcases hE with rfl | ⟨e, rfl, he⟩
        · simp at hst
        · simp only [List.mem_cons, List.not_mem_nil, or_false] at hst
          subst hst; rw [he]; decide
    · intro st hst hcl
      have hcl : st.low ∈ [(5 : Int), 9, 226, 16] := hcl
      simp only [List.mem_cons, List.not_mem_nil, or_false] at hcl
      rcases List.mem_append.1 hst with hst | hst
      · rcases hmem st hst with h | rfl
        · have := h.2
          simp only [List.mem_cons, List.not_mem_nil, or_false, not_or] at this
          omega
        · decide
      · rcases hE with rfl | ⟨e, rfl, he⟩
        · simp at hst
        · simp only [List.mem_cons, List.not_mem_nil, or_false] at hst
          subst hst; omega

/-! ## Examples -/

/-- Settings without ties. -/
def shadeDemo : Settings := { tieOn := .bool false, tieOff := .bool false }

example : shadeDemo.NoTies := by unfold Settings.NoTies; decide
example : shadeDemo.ValidSequins ∧ shadeDemo.changeCommand = 5 := ⟨fun _ h => (nomatch h), rfl⟩

/-- Two blocks. -/
def shadeBlocks : List (List Stitch) := [[⟨0, 0, 0⟩, ⟨30, 0, 0⟩], [⟨30, 40, 0⟩]]

example : blocksSource shadeBlocks = [⟨0, 0, 0⟩, ⟨30, 0, 0⟩, ⟨0, 0, 226⟩, ⟨30, 40, 0⟩, ⟨0, 0, 226⟩] := by decide +kernel
example : blocksShaded false id 0 shadeBlocks = [(0, (0, 0)), (0, (30, 0)), (1, (30, 40))] := by decide +kernel
example : begunBy 0 (blocksSource shadeBlocks) = 2 := by decide +kernel
example : ∀ b ∈ shadeBlocks, (∀ st ∈ b, Plain none st ∧ st.low ∉ [(5 : Int), 9, 16, 0xE2]) ∧ ∃ st ∈ b, st.cmd ∈ [(0 : Int), 0xB0, 0xB1] := by
  unfold shadeBlocks Plain; decide +kernel

example : shadedFrom 0 (demoEncode shadeDemo (blocksSource shadeBlocks)) = [(0, (0, 0)), (0, (30, 0)), (1, (30, 40))] := by decide +kernel

-- a colour change before anything is sewn begins the first colour; NEEDLE_SET begins another one
example : shadedFrom 0 (demoEncode shadeDemo [⟨0, 0, 5⟩, ⟨1, 1, 0⟩, ⟨0, 0, 9⟩, ⟨2, 2, 0⟩, ⟨0, 0, 4⟩]) = [(0, (1, 1)), (1, (2, 2))] := by
  decide +kernel

end Emb
