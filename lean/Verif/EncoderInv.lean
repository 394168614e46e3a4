import Verif.EncoderChain
import Verif.Spec

/-!
# Invariants of the encoder's output, proved per elementary action
-/

namespace Emb

variable {cfg : Cfg} {c : Int} {G : Prop} {s s' : St}

/-- `encode`'s result comes from a final state in which any invariant of the actions holds. `Q` restricts source
commands. -/
theorem encode_lift {o : Settings} {lm : Libm} {threads : List Thread} {source out : List Stitch}
    {ths : List (Option Thread)} {P : St → Prop} {Q : Stitch → Prop}
    (hv : o.ValidSequins) (h : encode o lm threads source = .ok (out, ths)) (hinit : P (initSt o lm threads))
    (hQ : ∀ st ∈ source, Q st)
    (hm : ∀ plan c G a b, (∃ st, Q st ∧ st.cmd % 256 = c) → BaseInv a →
      Micro (mkCfg o lm source plan) c G a b → P a → P b)
    (hhigh : ∀ s v, P s → P { s with high := flagsOf v }) :
    ∃ s, BaseInv s ∧ P s ∧ out = s.out ++ [⟨s.nx, s.ny, END + s.high⟩] ∧ ths = s.threads := by
  unfold encode at h
  cases hp : buildPlan o threads source with
  | error e => rw [hp] at h; cases h
  | ok plan =>
    rw [hp] at h
    simp only at h
    cases hr : runFrom (mkCfg o lm source plan) 0 (initSt o lm threads) source with
    | error e => rw [hr] at h; cases h
    | ok sf =>
      rw [hr] at h
      simp only at h
      injection h with h
      injection h with h1 h2
      obtain ⟨s0, a, b, d⟩ := run_inv (cfg := mkCfg o lm source plan) (P := P) (Q := Q)
        (fun position s st s' hI hP hq hs =>
          chain_lift (fun a b hb hmic hpa => hm plan _ _ a b ⟨st, hq, rfl⟩ hb hmic hpa) (step_chain st hI hs).1 hI hP)
        hhigh source 0 _ sf (init_base o lm threads hv) hinit hQ hr
      exact ⟨s0, a, b, by rw [← h1, d]; rfl, by rw [← h2, d]; rfl⟩

/-! ## High flags -/

/-- The high flags never touch the command byte. -/
def HighInv (s : St) : Prop := s.high % 256 = 0

theorem flagsOf_low (v : Int) : flagsOf v % 256 = 0 := by unfold flagsOf; omega

theorem micro_high (h : Micro cfg c G s s') (hs : HighInv s) : HighInv s' := by
  cases h
  case high v => exact flagsOf_low v
  case change h => unfold HighInv; rw [(nextChange_fields h).2.2.2.2.2.2.2.2.2.2.2.2.2.2]; exact hs
  all_goals exact hs

theorem low_add {x y : ℚ} {k high : Int} (hh : high % 256 = 0) (h0 : 0 ≤ k) (h1 : k < 256) :
    (⟨x, y, k + high⟩ : Stitch).low = k := by
  show (k + high) % 256 = k
  omega

theorem encodeThreadChange_low (k : Int) (h0 : 0 ≤ k) (h1 : k < 256) (t n o : Option Int) :
    encodeThreadChange k t n o % 256 = k := by
  unfold encodeThreadChange
  have e : ((k % 256).toNat ||| (encField o <<< 24) ||| (encField n <<< 16) ||| (encField t <<< 8)) % 2 ^ 8 = k.toNat := by
    have key : ∀ (v j : Nat), 8 ≤ j → (v <<< j) % 2 ^ 8 = 0 := by
      intro v j hj
      obtain ⟨i, rfl⟩ := Nat.exists_eq_add_of_le hj
      rw [Nat.shiftLeft_eq, Nat.pow_add]
      rw [show v * (2 ^ 8 * 2 ^ i) = 2 ^ 8 * (v * 2 ^ i) by ring]
      exact Nat.mul_mod_right _ _
    rw [Nat.or_mod_two_pow, Nat.or_mod_two_pow, Nat.or_mod_two_pow, key _ 24 (by omega), key _ 16 (by omega),
      key _ 8 (by omega)]
    simp only [Nat.or_zero]
    omega
  have e' : ((((k % 256).toNat ||| (encField o <<< 24) ||| (encField n <<< 16) ||| (encField t <<< 8) : Nat) % 2 ^ 8 : Nat) : Int)
      = k := by rw [e]; omega
  push_cast at e' ⊢
  exact e'

/-! ## Output growth: what one action appends -/

/-- What an action appends to the output, with the facts needed about it. -/
inductive Emit (cfg : Cfg) (G : Prop) (s s' : St) : Prop
  /-- nothing -/
  | none (ho : s'.out = s.out) (hx : s'.nx = s.nx) (hy : s'.ny = s.ny) (hm : s'.sequinMode = s.sequinMode)
  /-- a move -/
  | move (k : Int) (x y : ℚ) (hk : k = 0 ∨ (k = 1 ∧ s.sequinMode = false) ∨ (k = 7 ∧ s.sequinMode = true))
      (hs' : s' = s.moveTo k x y) (hn : Near G s x y)
  /-- a command at the needle that is not a mode switch -/
  | here (a : Stitch) (ho : s'.out = s.out ++ [a]) (hx : a.x = s.nx) (hy : a.y = s.ny) (hx' : s'.nx = s.nx)
      (hy' : s'.ny = s.ny) (hm : s'.sequinMode = s.sequinMode)
      (hk : (a.low = 2 ∧ s.trimmed = false ∧ s.sequinMode = false) ∨ a.low = 3 ∨ a.low = 5 ∨ a.low = 9 ∨
        ((a.low = 11 ∨ a.low = 12) ∧ cfg.writesSpeeds = true))
  /-- the sequin mode switch -/
  | mode (a : Stitch) (ho : s'.out = s.out ++ [a]) (hx : a.x = s.nx) (hy : a.y = s.ny) (hx' : s'.nx = s.nx)
      (hy' : s'.ny = s.ny) (hm : s'.sequinMode = !s.sequinMode) (hk : a.low = 6)
      (hu : s.sequinC = CONTINGENCY_SEQUIN_UTILIZE)
  /-- lock stitches -/
  | lock (ax ay : ℚ) (hs' : s' = { s with out := s.out ++ lockStitches cfg.lm s.nx s.ny ax ay s.maxStitch })

theorem micro_emit (h : Micro cfg c G s s') (hh : HighInv s) : Emit cfg G s s' := by
  cases h with
  | quiet => exact .none rfl rfl rfl rfl
  | high => exact .none rfl rfl rfl rfl
  | maxStitch => exact .none rfl rfl rfl rfl
  | maxJump => exact .none rfl rfl rfl rfl
  | long => exact .none rfl rfl rfl rfl
  | sequin => exact .none rfl rfl rfl rfl
  | untrim => exact .none rfl rfl rfl rfl
  | toggle h =>
    exact .mode ⟨s.nx, s.ny, SEQUIN_MODE + s.high⟩ rfl rfl rfl rfl rfl rfl
      (low_add hh (by decide) (by decide)) h
  | stitch x y h => exact .move 0 x y (.inl rfl) rfl h
  | jump x y h hm => exact .move 1 x y (.inr (.inl ⟨rfl, hm⟩)) rfl h
  | eject x y h hm => exact .move 7 x y (.inr (.inr ⟨rfl, hm⟩)) rfl h
  | trim h hm =>
    exact .here ⟨s.nx, s.ny, TRIM + s.high⟩ rfl rfl rfl rfl rfl rfl
      (.inl ⟨low_add hh (by decide) (by decide), h, hm⟩)
  | stop =>
    exact .here ⟨s.nx, s.ny, STOP + s.high⟩ rfl rfl rfl rfl rfl rfl (.inr (.inl (low_add hh (by decide) (by decide))))
  | speed v h hw hcv =>
    refine .here ⟨s.nx, s.ny, v + s.high⟩ rfl rfl rfl rfl rfl rfl (.inr (.inr (.inr (.inr ⟨?_, hw⟩))))
    rcases h with rfl | rfl
    · left; exact low_add hh (by decide) (by decide)
    · right; exact low_add hh (by decide) (by decide)
  | lock ax ay => exact .lock ax ay rfl
  | change s' h =>
    obtain ⟨_, _, _, _, _, _, _, _, _, _, f1, _, f2, f3, _⟩ := nextChange_fields h
    obtain ⟨ch, _, hcase⟩ := nextChange_out h
    rcases hcase with ⟨_, _, ⟨_, e⟩ | ⟨_, e⟩⟩ | ⟨_, _, e⟩ | ⟨_, _, e⟩ | ⟨_, _, _, _, e⟩
    · exact .none e f2 f3 f1
    · exact .here _ e rfl rfl f2 f3 f1 (.inr (.inr (.inl (encodeThreadChange_low 5 (by decide) (by decide) _ _ _))))
    · exact .here _ e rfl rfl f2 f3 f1
        (.inr (.inr (.inr (.inl (encodeThreadChange_low 9 (by decide) (by decide) _ _ _)))))
    · exact .here _ e rfl rfl f2 f3 f1 (.inr (.inl (encodeThreadChange_low 3 (by decide) (by decide) _ _ _)))
    · exact .none e f2 f3 f1

theorem lockStitches_eq (lm : Libm) (x y ax ay : ℚ) (l : Option ℚ) :
    ∃ a1 a2 a3 : Stitch, lockStitches lm x y ax ay l = [a1, a2, a3, ⟨x, y, 0⟩] ∧ a1.cmd = 0 ∧ a2.cmd = 0 ∧ a3.cmd = 0 := by
  let a := lockAnchor lm x y ax ay l
  refine ⟨⟨towards x a.1 (33 / 100), towards y a.2 (33 / 100), 0⟩, ⟨towards x a.1 (66 / 100), towards y a.2 (66 / 100), 0⟩,
    ⟨towards x a.1 (33 / 100), towards y a.2 (33 / 100), 0⟩, ?_, rfl, rfl, rfl⟩
  simp only [lockStitches, List.map_cons, List.map_nil]
  simp [towards, STITCH, a]

/-! ## Position continuity, vocabulary, sequin discipline -/

/-- Commands a normalized pattern may contain besides END. -/
def CoreCmd (k : Int) : Prop :=
  k = 0 ∨ k = 1 ∨ k = 2 ∨ k = 3 ∨ k = 5 ∨ k = 6 ∨ k = 7 ∨ k = 9 ∨ k = 11 ∨ k = 12

/-- What is required of each output stitch given those before it. -/
def GoodAt (pre : List Stitch) (a : Stitch) : Prop :=
  CoreCmd a.low ∧
  (a.low ≠ 0 → a.low ≠ 1 → a.low ≠ 7 → (a.x, a.y) = lastPos pre) ∧
  (a.low = 1 ∨ a.low = 2 → sequinOn pre = false) ∧ (a.low = 7 → sequinOn pre = true)

/-- Main output invariant. -/
def OutInv (s : St) : Prop :=
  HighInv s ∧ EachAt GoodAt s.out ∧ lastPos s.out = (s.nx, s.ny) ∧ s.sequinMode = sequinOn s.out

theorem sequinOn_snoc (l : List Stitch) (a : Stitch) :
    sequinOn (l ++ [a]) = if a.low = 6 then !sequinOn l else sequinOn l := by
  unfold sequinOn
  simp only [List.countP_append, List.countP_cons, List.countP_nil]
  by_cases h : a.low = 6
  · simp only [h, BEq.rfl, if_true]
    rcases Nat.mod_two_eq_zero_or_one (List.countP (fun a => a.low == 6) l) with h | h <;> simp [Nat.add_mod, h]
  · simp [h]

theorem good_stitch (pre : List Stitch) (a : Stitch) (h : a.low = 0) : GoodAt pre a := by
  unfold GoodAt CoreCmd; rw [h]; simp

theorem micro_out (h : Micro cfg c G s s') (hs : OutInv s) : OutInv s' := by
  obtain ⟨hh, he, hp, hm⟩ := hs
  refine ⟨micro_high h hh, ?_⟩
  cases micro_emit h hh with
  | none ho hx hy hmm => rw [ho, hx, hy, hmm]; exact ⟨he, hp, hm⟩
  | move k x y hk hs' hn =>
    subst hs'
    have hlow : (⟨x, y, k + s.high⟩ : Stitch).low = k := by
      apply low_add hh <;> rcases hk with hk | hk | hk <;> omega
    show EachAt GoodAt (s.out ++ [⟨x, y, k + s.high⟩]) ∧ lastPos (s.out ++ [⟨x, y, k + s.high⟩]) = (x, y) ∧
      s.sequinMode = sequinOn (s.out ++ [⟨x, y, k + s.high⟩])
    rw [eachAt_snoc, lastPos_snoc, sequinOn_snoc, hlow]
    refine ⟨⟨he, ?_⟩, rfl, ?_⟩
    · unfold GoodAt CoreCmd
      rw [hlow, ← hm]
      rcases hk with rfl | ⟨rfl, hk⟩ | ⟨rfl, hk⟩ <;> simp_all
    · rw [if_neg (by rcases hk with hk | hk | hk <;> omega)]; exact hm
  | here a ho hx hy hx' hy' hmm hk =>
    rw [ho, hx', hy', hmm, eachAt_snoc, lastPos_snoc, sequinOn_snoc, hx, hy]
    refine ⟨⟨he, ?_⟩, rfl, ?_⟩
    · unfold GoodAt CoreCmd
      rw [hx, hy, hp, ← hm]
      rcases hk with ⟨hk, _, hk'⟩ | hk | hk | hk | ⟨hk | hk, _⟩ <;> (simp [hk]; try exact hk')
    · rw [if_neg (by rcases hk with ⟨hk, _⟩ | hk | hk | hk | ⟨hk | hk, _⟩ <;> omega)]; exact hm
  | mode a ho hx hy hx' hy' hmm hk hu =>
    rw [ho, hx', hy', hmm, eachAt_snoc, lastPos_snoc, sequinOn_snoc, hx, hy, if_pos hk, hm]
    refine ⟨⟨he, ?_⟩, rfl, rfl⟩
    unfold GoodAt CoreCmd
    rw [hx, hy, hp]; simp [hk]
  | lock ax ay hs' =>
    subst hs'
    obtain ⟨a1, a2, a3, e, e1, e2, e3⟩ := lockStitches_eq cfg.lm s.nx s.ny ax ay s.maxStitch
    have l1 : a1.low = 0 := by unfold Stitch.low; rw [e1]; rfl
    have l2 : a2.low = 0 := by unfold Stitch.low; rw [e2]; rfl
    have l3 : a3.low = 0 := by unfold Stitch.low; rw [e3]; rfl
    have l4 : (⟨s.nx, s.ny, 0⟩ : Stitch).low = 0 := rfl
    simp only [e]
    have split : s.out ++ [a1, a2, a3, ⟨s.nx, s.ny, 0⟩] = (((s.out ++ [a1]) ++ [a2]) ++ [a3]) ++ [⟨s.nx, s.ny, 0⟩] := by simp
    rw [split]
    refine ⟨?_, by rw [lastPos_snoc], ?_⟩
    · simp only [eachAt_snoc]
      exact ⟨⟨⟨⟨he, good_stitch _ _ l1⟩, good_stitch _ _ l2⟩, good_stitch _ _ l3⟩, good_stitch _ _ l4⟩
    · simp only [sequinOn_snoc, l1, l2, l3, l4]; simpa using hm

theorem init_out (o : Settings) (lm : Libm) (threads : List Thread) : OutInv (initSt o lm threads) :=
  ⟨rfl, eachAt_nil _, rfl, rfl⟩

/-! ## Trims -/

/-- There is a STITCH in the list after its last TRIM. -/
def SewnSinceTrim (l : List Stitch) : Prop :=
  ∃ pre a post, l = pre ++ a :: post ∧ a.low = 0 ∧ ∀ b ∈ post, b.low ≠ 2

/-- Every TRIM has a STITCH between it and the previous TRIM (or the start). -/
def TrimAt (pre : List Stitch) (a : Stitch) : Prop := a.low = 2 → SewnSinceTrim pre

theorem SewnSinceTrim.snoc {l : List Stitch} (h : SewnSinceTrim l) {b : Stitch} (hb : b.low ≠ 2) :
    SewnSinceTrim (l ++ [b]) := by
  obtain ⟨pre, a, post, rfl, ha, hp⟩ := h
  refine ⟨pre, a, post ++ [b], by simp, ha, ?_⟩
  intro x hx
  rcases List.mem_append.1 hx with hx | hx
  · exact hp x hx
  · simp at hx; subst hx; exact hb

theorem sewn_snoc_stitch (l : List Stitch) {a : Stitch} (ha : a.low = 0) : SewnSinceTrim (l ++ [a]) :=
  ⟨l, a, [], rfl, ha, by simp⟩

def TrimInv (s : St) : Prop :=
  HighInv s ∧ EachAt TrimAt s.out ∧ (s.trimmed = false → SewnSinceTrim s.out ∧ 0 ≤ s.order)

theorem micro_order (h : Micro cfg c G s s') : s'.order = s.order ∨ s'.order = s.order + 1 := by
  cases h
  case change h => right; exact (nextChange_fields h).2.2.2.2.2.2.2.2.1
  all_goals exact .inl rfl

theorem micro_trim (h : Micro cfg c G s s') (hs : TrimInv s) : TrimInv s' := by
  obtain ⟨hh, he, ht⟩ := hs
  refine ⟨micro_high h hh, ?_⟩
  have app : ∀ (a : Stitch), a.low ≠ 2 → EachAt TrimAt (s.out ++ [a]) ∧
      (s.trimmed = false → SewnSinceTrim (s.out ++ [a]) ∧ 0 ≤ s.order) := by
    intro a ha
    exact ⟨eachAt_snoc.2 ⟨he, fun h2 => absurd h2 ha⟩, fun hf => ⟨(ht hf).1.snoc ha, (ht hf).2⟩⟩
  have lowk : ∀ (x y : ℚ) (k : Int), 0 ≤ k → k < 256 → k ≠ 2 → (⟨x, y, k + s.high⟩ : Stitch).low ≠ 2 := by
    intro x y k h0 h1 h2; rw [low_add hh h0 h1]; exact h2
  cases h with
  | quiet => exact ⟨he, ht⟩
  | high => exact ⟨he, ht⟩
  | maxStitch => exact ⟨he, ht⟩
  | maxJump => exact ⟨he, ht⟩
  | long => exact ⟨he, ht⟩
  | sequin => exact ⟨he, ht⟩
  | toggle h => exact app _ (lowk _ _ 6 (by decide) (by decide) (by decide))
  | stitch x y h => exact app _ (lowk _ _ 0 (by decide) (by decide) (by decide))
  | jump x y h hm => exact app _ (lowk _ _ 1 (by decide) (by decide) (by decide))
  | eject x y h hm => exact app _ (lowk _ _ 7 (by decide) (by decide) (by decide))
  | untrim l x y h ho =>
    refine ⟨he, fun _ => ⟨?_, ho⟩⟩
    show SewnSinceTrim s.out
    rw [h]
    exact sewn_snoc_stitch l (low_add hh (by decide) (by decide))
  | trim h hm =>
    refine ⟨eachAt_snoc.2 ⟨he, fun _ => (ht h).1⟩, fun hf => nomatch hf⟩
  | stop => exact ⟨(app _ (lowk _ _ 3 (by decide) (by decide) (by decide))).1, fun hf => nomatch hf⟩
  | speed v h hw hcv =>
    rcases h with rfl | rfl
    · exact app _ (lowk _ _ 11 (by decide) (by decide) (by decide))
    · exact app _ (lowk _ _ 12 (by decide) (by decide) (by decide))
  | lock ax ay =>
    obtain ⟨a1, a2, a3, e, e1, e2, e3⟩ := lockStitches_eq cfg.lm s.nx s.ny ax ay s.maxStitch
    have l1 : a1.low = 0 := by unfold Stitch.low; rw [e1]; rfl
    have l2 : a2.low = 0 := by unfold Stitch.low; rw [e2]; rfl
    have l3 : a3.low = 0 := by unfold Stitch.low; rw [e3]; rfl
    have l4 : (⟨s.nx, s.ny, 0⟩ : Stitch).low = 0 := rfl
    simp only [e]
    have split : s.out ++ [a1, a2, a3, ⟨s.nx, s.ny, 0⟩] = (((s.out ++ [a1]) ++ [a2]) ++ [a3]) ++ [⟨s.nx, s.ny, 0⟩] := by simp
    rw [split]
    refine ⟨?_, fun hf => ⟨sewn_snoc_stitch _ l4, (ht hf).2⟩⟩
    simp only [eachAt_snoc]
    have nt : ∀ (l : List Stitch) (a : Stitch), a.low = 0 → TrimAt l a := by
      intro l a ha h2; omega
    exact ⟨⟨⟨⟨he, nt _ _ l1⟩, nt _ _ l2⟩, nt _ _ l3⟩, nt _ _ l4⟩
  | change s' h =>
    have f := nextChange_fields h
    refine ⟨?_, fun hf => by rw [f.2.2.2.2.2.2.2.2.2.1] at hf; cases hf⟩
    obtain ⟨ch, _, hcase⟩ := nextChange_out h
    rcases hcase with ⟨_, _, ⟨_, e⟩ | ⟨_, e⟩⟩ | ⟨_, _, e⟩ | ⟨_, _, e⟩ | ⟨_, _, _, _, e⟩ <;> rw [e]
    · exact he
    · exact (app _ (by
        show encodeThreadChange 5 _ _ _ % 256 ≠ 2
        rw [encodeThreadChange_low 5 (by decide) (by decide)]; decide)).1
    · exact (app _ (by
        show encodeThreadChange 9 _ _ _ % 256 ≠ 2
        rw [encodeThreadChange_low 9 (by decide) (by decide)]; decide)).1
    · exact (app _ (by
        show encodeThreadChange 3 _ _ _ % 256 ≠ 2
        rw [encodeThreadChange_low 3 (by decide) (by decide)]; decide)).1
    · exact he

theorem init_trim (o : Settings) (lm : Libm) (threads : List Thread) : TrimInv (initSt o lm threads) :=
  ⟨rfl, eachAt_nil _, fun h => nomatch h⟩

/-! ## Threads and changes -/

/-- Number of colour changes (COLOR_CHANGE) in a list. -/
def changes (l : List Stitch) : Nat := l.countP (fun a => a.low == 5)

/-- In COLOR_CHANGE mode the thread list grows with the order index and colour changes lag one behind. -/
def CountInv (s : St) : Prop :=
  HighInv s ∧ (s.threads.length : Int) = s.order + 1 ∧ ((changes s.out : Nat) : Int) = if s.order < 0 then 0 else s.order

theorem changes_snoc (l : List Stitch) (a : Stitch) : changes (l ++ [a]) = changes l + if a.low = 5 then 1 else 0 := by
  unfold changes; simp [List.countP_append, List.countP_cons]

theorem micro_count (hc : cfg.change = COLOR_CHANGE) (hI : BaseInv s) (h : Micro cfg c G s s') (hs : CountInv s) :
    CountInv s' := by
  obtain ⟨hh, h1, h2⟩ := hs
  refine ⟨micro_high h hh, ?_⟩
  have app : ∀ (x y : ℚ) (k : Int), 0 ≤ k → k < 256 → k ≠ 5 →
      changes (s.out ++ [⟨x, y, k + s.high⟩]) = changes s.out := by
    intro x y k a b d
    rw [changes_snoc, low_add hh a b, if_neg d]; simp
  cases h with
  | quiet => exact ⟨h1, h2⟩
  | high => exact ⟨h1, h2⟩
  | maxStitch => exact ⟨h1, h2⟩
  | maxJump => exact ⟨h1, h2⟩
  | long => exact ⟨h1, h2⟩
  | sequin => exact ⟨h1, h2⟩
  | toggle h => exact ⟨h1, (congrArg Nat.cast (app _ _ 6 (by decide) (by decide) (by decide))).trans h2⟩
  | stitch x y h => exact ⟨h1, (congrArg Nat.cast (app _ _ 0 (by decide) (by decide) (by decide))).trans h2⟩
  | jump x y h hm => exact ⟨h1, (congrArg Nat.cast (app _ _ 1 (by decide) (by decide) (by decide))).trans h2⟩
  | eject x y h hm => exact ⟨h1, (congrArg Nat.cast (app _ _ 7 (by decide) (by decide) (by decide))).trans h2⟩
  | untrim => exact ⟨h1, h2⟩
  | trim h hm => exact ⟨h1, (congrArg Nat.cast (app _ _ 2 (by decide) (by decide) (by decide))).trans h2⟩
  | stop => exact ⟨h1, (congrArg Nat.cast (app _ _ 3 (by decide) (by decide) (by decide))).trans h2⟩
  | speed v h hw hcv =>
    rcases h with rfl | rfl
    · exact ⟨h1, (congrArg Nat.cast (app _ _ 11 (by decide) (by decide) (by decide))).trans h2⟩
    · exact ⟨h1, (congrArg Nat.cast (app _ _ 12 (by decide) (by decide) (by decide))).trans h2⟩
  | lock ax ay =>
    refine ⟨h1, ?_⟩
    refine Eq.trans ?_ h2
    obtain ⟨a1, a2, a3, e, e1, e2, e3⟩ := lockStitches_eq cfg.lm s.nx s.ny ax ay s.maxStitch
    simp only [e]
    unfold changes Stitch.low
    rw [List.countP_append]
    simp [e1, e2, e3]
  | change s' h =>
    have f := nextChange_fields h
    have fo := f.2.2.2.2.2.2.2.2.1
    obtain ⟨ch, _, hcase⟩ := nextChange_out h
    have hI2 := hI.2
    rcases hcase with ⟨_, et, ⟨h0, e⟩ | ⟨h0, e⟩⟩ | ⟨hx, _⟩ | ⟨hx, _⟩ | ⟨hx, _⟩
    · rw [et, e, fo]
      refine ⟨by simp; omega, ?_⟩
      rw [h2, if_pos (by omega), if_neg (by omega)]; omega
    · rw [et, e, fo]
      refine ⟨by simp; omega, ?_⟩
      have hl : (⟨s.nx, s.ny, encodeThreadChange COLOR_CHANGE (some ch.thread) (some ch.needle) none⟩ : Stitch).low = 5 :=
        encodeThreadChange_low 5 (by decide) (by decide) _ _ _
      rw [changes_snoc, if_pos hl]
      push_cast
      rw [h2, if_neg (by omega), if_neg (by omega)]
    · rw [hc] at hx; simp [COLOR_CHANGE, NEEDLE_SET] at hx
    · rw [hc] at hx; simp [COLOR_CHANGE, STOP] at hx
    · exact absurd hc hx

theorem init_count (o : Settings) (lm : Libm) (threads : List Thread) (hc : o.changeCommand = COLOR_CHANGE) :
    CountInv (initSt o lm threads) := by
  refine ⟨rfl, ?_, rfl⟩
  simp [initSt, hc, COLOR_CHANGE, NEEDLE_SET]

/-! ## Step lengths -/

/-- What is assumed of `sqrt`/`atan2`/`cos`/`sin`: the distance bounds both axes, and a point oriented at distance `r`
is within `r` on both axes. -/
structure Libm.Sound (lm : Libm) : Prop where
  dist_x : ∀ x0 y0 x1 y1, |x1 - x0| ≤ lm.dist x0 y0 x1 y1
  dist_y : ∀ x0 y0 x1 y1, |y1 - y0| ≤ lm.dist x0 y0 x1 y1
  orient_x : ∀ x0 y0 x1 y1 r, 0 ≤ r → |(lm.oriented x0 y0 x1 y1 r).1 - x0| ≤ r
  orient_y : ∀ x0 y0 x1 y1 r, 0 ≤ r → |(lm.oriented x0 y0 x1 y1 r).2 - y0| ≤ r

theorem lockAnchor_bound {lm : Libm} (hl : lm.Sound) {x y ax ay m : ℚ} (hm : 0 ≤ m) :
    |(lockAnchor lm x y ax ay (some m)).1 - x| ≤ m ∧ |(lockAnchor lm x y ax ay (some m)).2 - y| ≤ m := by
  unfold lockAnchor exceeds
  simp only
  by_cases h : lm.dist x y ax ay > m
  · simp only [h, decide_true, if_true, Option.getD_some]
    exact ⟨hl.orient_x _ _ _ _ _ hm, hl.orient_y _ _ _ _ _ hm⟩
  · simp only [h, decide_false, Bool.false_eq_true, if_false]
    have := hl.dist_x x y ax ay
    have := hl.dist_y x y ax ay
    constructor <;> linarith

/-- The step into each output stitch is within `M`, and exactly `M` only from a grid point if `Z` holds. -/
def StepAt (Z : Prop) (M : ℚ) (pre : List Stitch) (a : Stitch) : Prop :=
  StepOK Z M (lastPos pre).1 a.x ∧ StepOK Z M (lastPos pre).2 a.y

/-- Limits are `M` and the long-stitch contingency is on. -/
def LimInv (M : ℚ) (s : St) : Prop :=
  s.maxStitch = some M ∧ s.maxJump = some M ∧
    (s.longC = CONTINGENCY_LONG_STITCH_SEW_TO ∨ s.longC = CONTINGENCY_LONG_STITCH_JUMP_NEEDLE)

def LenInv (Z : Prop) (M : ℚ) (s : St) : Prop :=
  HighInv s ∧ LimInv M s ∧ EachAt (StepAt Z M) s.out ∧ lastPos s.out = (s.nx, s.ny)

/-- Source commands that keep the limits. -/
def KeepsLimits (c : Int) : Prop :=
  c ≠ OPTION_MAX_STITCH_LENGTH ∧ c ≠ OPTION_MAX_JUMP_LENGTH ∧ c ≠ CONTINGENCY_LONG_STITCH_NONE

theorem micro_lim {M : ℚ} (hc : KeepsLimits c) (h : Micro cfg c G s s') (hs : LimInv M s) : LimInv M s' := by
  cases h
  case maxStitch m h => exact absurd h hc.1
  case maxJump m h => exact absurd h hc.2.1
  case long v h =>
    refine ⟨hs.1, hs.2.1, ?_⟩
    rcases h with h | h | h
    · exact .inl h
    · exact .inr h
    · exact absurd h hc.2.2
  case change h =>
    have f := nextChange_fields h
    unfold LimInv
    rw [f.1, f.2.1, f.2.2.2.2.2.2.1]
    exact hs
  all_goals exact hs

theorem stepOK_self {Z : Prop} {M p : ℚ} (hM : 0 < M) : StepOK Z M p p :=
  ⟨by simp; exact le_of_lt hM, fun h => by simp at h; rw [← h] at hM; exact absurd hM (lt_irrefl _)⟩

theorem stepOK_lt {Z : Prop} {M p q : ℚ} (h : |q - p| < M) : StepOK Z M p q :=
  ⟨le_of_lt h, fun e => by rw [e] at h; exact absurd h (lt_irrefl _)⟩

theorem near_step {Z : Prop} {M x y : ℚ} (hM : 0 < M) (hl : LimInv M s) (hZ : Z → G) (hn : Near G s x y) :
    StepOK Z M s.nx x ∧ StepOK Z M s.ny y := by
  have key : ∀ p q, StepOK G M p q → StepOK Z M p q := fun p q h => ⟨h.1, fun e i z => h.2 e i (hZ z)⟩
  rcases hn with h | h | h
  · have := h M hl.1 (le_of_lt hM); exact ⟨key _ _ this.1, key _ _ this.2⟩
  · have := h M hl.2.1 (le_of_lt hM); exact ⟨key _ _ this.1, key _ _ this.2⟩
  · rcases hl.2.2 with e | e
    · exact absurd e h.1
    · exact absurd e h.2

theorem micro_len {Z : Prop} {M : ℚ} (hM : 0 < M) (hlm : cfg.lm.Sound) (hc : KeepsLimits c) (hZ : Z → G)
    (h : Micro cfg c G s s') (hs : LenInv Z M s) : LenInv Z M s' := by
  obtain ⟨hh, hl, he, hp⟩ := hs
  refine ⟨micro_high h hh, micro_lim hc h hl, ?_⟩
  have selfStep : ∀ a : Stitch, a.x = s.nx → a.y = s.ny → StepAt Z M s.out a := by
    intro a hx hy
    unfold StepAt; rw [hp, hx, hy]; exact ⟨stepOK_self hM, stepOK_self hM⟩
  cases micro_emit h hh with
  | none ho hx hy hmm => rw [ho, hx, hy]; exact ⟨he, hp⟩
  | move k x y hk hs' hn =>
    subst hs'
    show EachAt (StepAt Z M) (s.out ++ [⟨x, y, k + s.high⟩]) ∧ lastPos (s.out ++ [⟨x, y, k + s.high⟩]) = (x, y)
    rw [eachAt_snoc, lastPos_snoc]
    refine ⟨⟨he, ?_⟩, rfl⟩
    unfold StepAt; rw [hp]; exact near_step hM hl hZ hn
  | here a ho hx hy hx' hy' hmm hk =>
    rw [ho, hx', hy', eachAt_snoc, lastPos_snoc, hx, hy]
    exact ⟨⟨he, selfStep a hx hy⟩, rfl⟩
  | mode a ho hx hy hx' hy' hmm hk hu =>
    rw [ho, hx', hy', eachAt_snoc, lastPos_snoc, hx, hy]
    exact ⟨⟨he, selfStep a hx hy⟩, rfl⟩
  | lock ax ay hs' =>
    subst hs'
    simp only [hl.1]
    obtain ⟨bx, by'⟩ := lockAnchor_bound (ax := ax) (ay := ay) (x := s.nx) (y := s.ny) hlm (le_of_lt hM)
    unfold lockStitches
    simp only [List.map_cons, List.map_nil]
    generalize lockAnchor cfg.lm s.nx s.ny ax ay (some M) = an at bx by' ⊢
    have split : ∀ a1 a2 a3 a4 : Stitch, s.out ++ [a1, a2, a3, a4] = (((s.out ++ [a1]) ++ [a2]) ++ [a3]) ++ [a4] := by
      simp
    rw [split]
    have third : ∀ p a b : ℚ, |p| ≤ M → |b - a| = 33 / 100 * |p| → StepOK Z M a b := by
      intro p a b h1 h2
      apply stepOK_lt
      rw [h2]; linarith
    have t1 : ∀ a b : ℚ, |towards a b (33 / 100) - a| = 33 / 100 * |b - a| := by
      intro a b
      have : towards a b (33 / 100) - a = 33 / 100 * (b - a) := by unfold towards; ring
      rw [this, abs_mul, abs_of_pos (by norm_num : (0 : ℚ) < 33 / 100)]
    have t2 : ∀ a b : ℚ, |towards a b (66 / 100) - towards a b (33 / 100)| = 33 / 100 * |b - a| := by
      intro a b
      have : towards a b (66 / 100) - towards a b (33 / 100) = 33 / 100 * (b - a) := by unfold towards; ring
      rw [this, abs_mul, abs_of_pos (by norm_num : (0 : ℚ) < 33 / 100)]
    have t3 : ∀ a b : ℚ, |towards a b (33 / 100) - towards a b (66 / 100)| = 33 / 100 * |b - a| := by
      intro a b; rw [abs_sub_comm]; exact t2 a b
    have t4 : ∀ a b : ℚ, |towards a b 0 - towards a b (33 / 100)| = 33 / 100 * |b - a| := by
      intro a b
      have : towards a b 0 - towards a b (33 / 100) = -(33 / 100 * (b - a)) := by unfold towards; ring
      rw [this, abs_neg, abs_mul, abs_of_pos (by norm_num : (0 : ℚ) < 33 / 100)]
    refine ⟨?_, by rw [lastPos_snoc]; simp [towards]⟩
    simp only [eachAt_snoc, StepAt, lastPos_snoc, hp]
    refine ⟨⟨⟨⟨he, ?_, ?_⟩, ?_, ?_⟩, ?_, ?_⟩, ?_, ?_⟩
    · exact third _ _ _ bx (t1 _ _)
    · exact third _ _ _ by' (t1 _ _)
    · exact third _ _ _ bx (t2 _ _)
    · exact third _ _ _ by' (t2 _ _)
    · exact third _ _ _ bx (t3 _ _)
    · exact third _ _ _ by' (t3 _ _)
    · exact third _ _ _ bx (t4 _ _)
    · exact third _ _ _ by' (t4 _ _)

theorem init_len {Z : Prop} {M : ℚ} {o : Settings} (lm : Libm) (threads : List Thread)
    (h1 : o.maxStitch = some M) (h2 : o.maxJump = some M)
    (h3 : o.longStitch = CONTINGENCY_LONG_STITCH_SEW_TO ∨ o.longStitch = CONTINGENCY_LONG_STITCH_JUMP_NEEDLE) :
    LenInv Z M (initSt o lm threads) :=
  ⟨rfl, ⟨h1, h2, h3⟩, eachAt_nil _, rfl⟩

/-! ## Which commands can occur, by settings -/

/-- Without the `UTILIZE` contingency sequin mode stays off and no sequin command is written. -/
def NoSeqInv (s : St) : Prop :=
  HighInv s ∧ s.sequinC ≠ CONTINGENCY_SEQUIN_UTILIZE ∧ s.sequinMode = false ∧ ∀ a ∈ s.out, a.low ≠ 6 ∧ a.low ≠ 7

/-- Elementary actions only switch to the `UTILIZE` contingency on its command. -/
theorem micro_noseq (hc : c ≠ CONTINGENCY_SEQUIN_UTILIZE) (h : Micro cfg c G s s') (hs : NoSeqInv s) :
    NoSeqInv s' := by
  obtain ⟨hh, h1, h2, h3⟩ := hs
  have hu : s'.sequinC ≠ CONTINGENCY_SEQUIN_UTILIZE := by
    cases h
    case sequin v hv h => exact h.elim (fun h => absurd h.2 hc) (fun h => h.1)
    case change h => rw [(nextChange_fields h).2.2.2.1]; exact h1
    all_goals exact h1
  refine ⟨micro_high h hh, hu, ?_⟩
  have app : ∀ a : Stitch, a.low ≠ 6 → a.low ≠ 7 → ∀ b ∈ s.out ++ [a], b.low ≠ 6 ∧ b.low ≠ 7 := by
    intro a h6 h7 b hb
    rcases List.mem_append.1 hb with hb | hb
    · exact h3 b hb
    · simp at hb; subst hb; exact ⟨h6, h7⟩
  cases micro_emit h hh with
  | none ho hx hy hmm => rw [ho, hmm]; exact ⟨h2, h3⟩
  | move k x y hk hs' hn =>
    subst hs'
    refine ⟨h2, ?_⟩
    have hk' : k = 0 ∨ k = 1 := by
      rcases hk with hk | hk | hk
      · exact .inl hk
      · exact .inr hk.1
      · rw [h2] at hk; exact absurd hk.2 (by simp)
    have hlow : (⟨x, y, k + s.high⟩ : Stitch).low = k := low_add hh (by omega) (by omega)
    exact app _ (by rw [hlow]; omega) (by rw [hlow]; omega)
  | here a ho hx hy hx' hy' hmm hk =>
    rw [ho, hmm]
    refine ⟨h2, app a ?_ ?_⟩ <;> rcases hk with ⟨hk, _⟩ | hk | hk | hk | ⟨hk | hk, _⟩ <;> omega
  | mode a ho hx hy hx' hy' hmm hk hu => exact absurd hu h1
  | lock ax ay hs' =>
    subst hs'
    obtain ⟨a1, a2, a3, e, e1, e2, e3⟩ := lockStitches_eq cfg.lm s.nx s.ny ax ay s.maxStitch
    refine ⟨h2, ?_⟩
    intro b hb
    rcases List.mem_append.1 hb with hb | hb
    · exact h3 b hb
    · rw [e] at hb
      have : b.low = 0 := by
        simp at hb
        rcases hb with rfl | rfl | rfl | rfl <;> simp [Stitch.low, e1, e2, e3]
      omega

/-- Speed commands are only written if the format has them. -/
def NoSpeedInv (s : St) : Prop := HighInv s ∧ ∀ a ∈ s.out, a.low ≠ 11 ∧ a.low ≠ 12

theorem micro_nospeed (hw : cfg.writesSpeeds = false) (h : Micro cfg c G s s') (hs : NoSpeedInv s) : NoSpeedInv s' := by
  obtain ⟨hh, h3⟩ := hs
  refine ⟨micro_high h hh, ?_⟩
  have app : ∀ a : Stitch, a.low ≠ 11 → a.low ≠ 12 → ∀ b ∈ s.out ++ [a], b.low ≠ 11 ∧ b.low ≠ 12 := by
    intro a h6 h7 b hb
    rcases List.mem_append.1 hb with hb | hb
    · exact h3 b hb
    · simp at hb; subst hb; exact ⟨h6, h7⟩
  cases micro_emit h hh with
  | none ho hx hy hmm => rw [ho]; exact h3
  | move k x y hk hs' hn =>
    subst hs'
    have hlow : (⟨x, y, k + s.high⟩ : Stitch).low = k := low_add hh (by omega) (by omega)
    exact app _ (by rw [hlow]; omega) (by rw [hlow]; omega)
  | here a ho hx hy hx' hy' hmm hk =>
    rw [ho]
    rw [hw] at hk
    refine app a ?_ ?_ <;> rcases hk with ⟨hk, _⟩ | hk | hk | hk | ⟨_, hk⟩ <;> first | omega | cases hk
  | mode a ho hx hy hx' hy' hmm hk hu => rw [ho]; exact app a (by omega) (by omega)
  | lock ax ay hs' =>
    subst hs'
    obtain ⟨a1, a2, a3, e, e1, e2, e3⟩ := lockStitches_eq cfg.lm s.nx s.ny ax ay s.maxStitch
    intro b hb
    rcases List.mem_append.1 hb with hb | hb
    · exact h3 b hb
    · rw [e] at hb
      have : b.low = 0 := by
        simp at hb
        rcases hb with rfl | rfl | rfl | rfl <;> simp [Stitch.low, e1, e2, e3]
      omega

/-- Which commands appear: change commands only of the kind asked for, speeds only if the source has them. -/
def KindInv (change : Int) (speeds : Prop) (s : St) : Prop :=
  HighInv s ∧ ∀ a ∈ s.out, (a.low = 5 → change = 5) ∧ (a.low = 9 → change = 9) ∧ (a.low = 11 ∨ a.low = 12 → speeds)

theorem micro_kind {speeds : Prop} (hsp : c = 11 ∨ c = 12 → speeds) (h : Micro cfg c G s s')
    (hs : KindInv cfg.change speeds s) : KindInv cfg.change speeds s' := by
  obtain ⟨hh, h3⟩ := hs
  refine ⟨micro_high h hh, ?_⟩
  have app : ∀ a : Stitch, ((a.low = 5 → cfg.change = 5) ∧ (a.low = 9 → cfg.change = 9) ∧
      (a.low = 11 ∨ a.low = 12 → speeds)) → ∀ b ∈ s.out ++ [a], (b.low = 5 → cfg.change = 5) ∧
      (b.low = 9 → cfg.change = 9) ∧ (b.low = 11 ∨ b.low = 12 → speeds) := by
    intro a h6 b hb
    rcases List.mem_append.1 hb with hb | hb
    · exact h3 b hb
    · simp at hb; subst hb; exact h6
  have plain : ∀ (x y : ℚ) (k : Int), 0 ≤ k → k < 8 → k ≠ 5 → ∀ b ∈ s.out ++ [⟨x, y, k + s.high⟩],
      (b.low = 5 → cfg.change = 5) ∧ (b.low = 9 → cfg.change = 9) ∧ (b.low = 11 ∨ b.low = 12 → speeds) := by
    intro x y k h0 h1 h2
    refine app _ ?_
    have hlow : (⟨x, y, k + s.high⟩ : Stitch).low = k := low_add hh (by omega) (by omega)
    rw [hlow]
    refine ⟨?_, ?_, ?_⟩ <;> intro <;> omega
  cases h with
  | quiet => exact h3
  | high => exact h3
  | maxStitch => exact h3
  | maxJump => exact h3
  | long => exact h3
  | sequin => exact h3
  | untrim => exact h3
  | toggle h => exact plain _ _ 6 (by decide) (by decide) (by decide)
  | stitch x y h => exact plain _ _ 0 (by decide) (by decide) (by decide)
  | jump x y h hm => exact plain _ _ 1 (by decide) (by decide) (by decide)
  | eject x y h hm => exact plain _ _ 7 (by decide) (by decide) (by decide)
  | trim h hm => exact plain _ _ 2 (by decide) (by decide) (by decide)
  | stop => exact plain _ _ 3 (by decide) (by decide) (by decide)
  | speed v h hw hcv =>
    subst hcv
    refine app _ ?_
    have hlow : (⟨s.nx, s.ny, c + s.high⟩ : Stitch).low = c :=
      low_add hh (by rcases h with rfl | rfl <;> decide) (by rcases h with rfl | rfl <;> decide)
    rw [hlow]
    refine ⟨?_, ?_, hsp⟩ <;> intro e <;> rcases h with h | h <;> rw [h] at e <;> simp [SLOW, FAST] at e
  | lock ax ay =>
    obtain ⟨a1, a2, a3, e, e1, e2, e3⟩ := lockStitches_eq cfg.lm s.nx s.ny ax ay s.maxStitch
    intro b hb
    rcases List.mem_append.1 hb with hb | hb
    · exact h3 b hb
    · rw [e] at hb
      have : b.low = 0 := by
        simp at hb
        rcases hb with rfl | rfl | rfl | rfl <;> simp [Stitch.low, e1, e2, e3]
      refine ⟨?_, ?_, ?_⟩ <;> intro <;> omega
  | change s' h =>
    obtain ⟨ch, _, hcase⟩ := nextChange_out h
    rcases hcase with ⟨hc, _, ⟨_, e⟩ | ⟨_, e⟩⟩ | ⟨hc, _, e⟩ | ⟨hc, _, e⟩ | ⟨_, _, _, _, e⟩
    · rw [e]; exact h3
    · rw [e]
      refine app _ ?_
      have : (⟨s.nx, s.ny, encodeThreadChange COLOR_CHANGE (some ch.thread) (some ch.needle) none⟩ : Stitch).low = 5 :=
        encodeThreadChange_low 5 (by decide) (by decide) _ _ _
      rw [this]; exact ⟨fun _ => hc, fun h => by omega, fun h => by omega⟩
    · rw [e]
      refine app _ ?_
      have : (⟨s.nx, s.ny, encodeThreadChange NEEDLE_SET (some ch.thread) (some ch.needle) none⟩ : Stitch).low = 9 :=
        encodeThreadChange_low 9 (by decide) (by decide) _ _ _
      rw [this]; exact ⟨fun h => by omega, fun _ => hc, fun h => by omega⟩
    · rw [e]
      refine app _ ?_
      have : (⟨s.nx, s.ny, encodeThreadChange STOP (some ch.thread) (some ch.needle) none⟩ : Stitch).low = 3 :=
        encodeThreadChange_low 3 (by decide) (by decide) _ _ _
      rw [this]; exact ⟨fun h => by omega, fun h => by omega, fun h => by omega⟩
    · rw [e]; exact h3

/-- STOP appears only if the source has a STOP or a FRAME_EJECT, or as the requested thread change command. -/
def StopInv (change : Int) (stops : Prop) (s : St) : Prop := HighInv s ∧ ∀ a ∈ s.out, a.low = 3 → change = 3 ∨ stops

theorem micro_stop {stops : Prop} (hsp : c = STOP ∨ c = FRAME_EJECT → stops) (h : Micro cfg c G s s')
    (hs : StopInv cfg.change stops s) : StopInv cfg.change stops s' := by
  obtain ⟨hh, h3⟩ := hs
  refine ⟨micro_high h hh, ?_⟩
  have app : ∀ a : Stitch, (a.low = 3 → cfg.change = 3 ∨ stops) → ∀ b ∈ s.out ++ [a], b.low = 3 → cfg.change = 3 ∨ stops := by
    intro a h6 b hb
    rcases List.mem_append.1 hb with hb | hb
    · exact h3 b hb
    · simp at hb; subst hb; exact h6
  have plain : ∀ (x y : ℚ) (k : Int), 0 ≤ k → k < 256 → k ≠ 3 → ∀ b ∈ s.out ++ [⟨x, y, k + s.high⟩], b.low = 3 → cfg.change = 3 ∨ stops := by
    intro x y k h0 h1 h2
    refine app _ (fun e => ?_)
    have hlow : (⟨x, y, k + s.high⟩ : Stitch).low = k := low_add hh (by omega) (by omega)
    omega
  cases h with
  | quiet => exact h3
  | high => exact h3
  | maxStitch => exact h3
  | maxJump => exact h3
  | long => exact h3
  | sequin => exact h3
  | untrim => exact h3
  | toggle h => exact plain _ _ 6 (by decide) (by decide) (by decide)
  | stitch x y h => exact plain _ _ 0 (by decide) (by decide) (by decide)
  | jump x y h hm => exact plain _ _ 1 (by decide) (by decide) (by decide)
  | eject x y h hm => exact plain _ _ 7 (by decide) (by decide) (by decide)
  | trim h hm => exact plain _ _ 2 (by decide) (by decide) (by decide)
  | stop h => exact app _ (fun _ => .inr (hsp h))
  | speed v h hw hcv =>
    rcases h with rfl | rfl
    · exact plain _ _ 11 (by decide) (by decide) (by decide)
    · exact plain _ _ 12 (by decide) (by decide) (by decide)
  | lock ax ay =>
    obtain ⟨a1, a2, a3, e, e1, e2, e3⟩ := lockStitches_eq cfg.lm s.nx s.ny ax ay s.maxStitch
    intro b hb
    rcases List.mem_append.1 hb with hb | hb
    · exact h3 b hb
    · rw [e] at hb
      have : b.low = 0 := by
        simp at hb
        rcases hb with rfl | rfl | rfl | rfl <;> simp [Stitch.low, e1, e2, e3]
      omega
  | change s' h =>
    obtain ⟨ch, _, hcase⟩ := nextChange_out h
    rcases hcase with ⟨hc, _, ⟨_, e⟩ | ⟨_, e⟩⟩ | ⟨hc, _, e⟩ | ⟨hx, _, e⟩ | ⟨_, _, _, _, e⟩
    · rw [e]; exact h3
    · rw [e]
      refine app _ (fun h => ?_)
      have : encodeThreadChange COLOR_CHANGE (some ch.thread) (some ch.needle) none % 256 = 5 :=
        encodeThreadChange_low 5 (by decide) (by decide) _ _ _
      rw [show (⟨s.nx, s.ny, encodeThreadChange COLOR_CHANGE (some ch.thread) (some ch.needle) none⟩ : Stitch).low = 5 from this] at h
      omega
    · rw [e]
      refine app _ (fun h => ?_)
      have : encodeThreadChange NEEDLE_SET (some ch.thread) (some ch.needle) none % 256 = 9 :=
        encodeThreadChange_low 9 (by decide) (by decide) _ _ _
      rw [show (⟨s.nx, s.ny, encodeThreadChange NEEDLE_SET (some ch.thread) (some ch.needle) none⟩ : Stitch).low = 9 from this] at h
      omega
    · exact fun _ _ _ => .inl hx
    · rw [e]; exact h3

/-- SEQUIN_EJECT appears only if the source has one. -/
def EjectInv (ejects : Prop) (s : St) : Prop := HighInv s ∧ ∀ a ∈ s.out, a.low = 7 → ejects

theorem micro_eject {ejects : Prop} (hsp : c = SEQUIN_EJECT → ejects) (h : Micro cfg c G s s')
    (hs : EjectInv ejects s) : EjectInv ejects s' := by
  obtain ⟨hh, h3⟩ := hs
  refine ⟨micro_high h hh, ?_⟩
  have app : ∀ a : Stitch, (a.low = 7 → ejects) → ∀ b ∈ s.out ++ [a], b.low = 7 → ejects := by
    intro a h6 b hb
    rcases List.mem_append.1 hb with hb | hb
    · exact h3 b hb
    · simp at hb; subst hb; exact h6
  have plain : ∀ (x y : ℚ) (k : Int), 0 ≤ k → k < 256 → k ≠ 7 → ∀ b ∈ s.out ++ [⟨x, y, k + s.high⟩], b.low = 7 → ejects := by
    intro x y k h0 h1 h2
    refine app _ (fun e => ?_)
    have hlow : (⟨x, y, k + s.high⟩ : Stitch).low = k := low_add hh (by omega) (by omega)
    omega
  cases h with
  | quiet => exact h3
  | high => exact h3
  | maxStitch => exact h3
  | maxJump => exact h3
  | long => exact h3
  | sequin => exact h3
  | untrim => exact h3
  | toggle h => exact plain _ _ 6 (by decide) (by decide) (by decide)
  | stitch x y h => exact plain _ _ 0 (by decide) (by decide) (by decide)
  | jump x y h hm => exact plain _ _ 1 (by decide) (by decide) (by decide)
  | eject x y h hm hc => exact app _ (fun _ => hsp hc)
  | trim h hm => exact plain _ _ 2 (by decide) (by decide) (by decide)
  | stop h => exact plain _ _ 3 (by decide) (by decide) (by decide)
  | speed v h hw hcv =>
    rcases h with rfl | rfl
    · exact plain _ _ 11 (by decide) (by decide) (by decide)
    · exact plain _ _ 12 (by decide) (by decide) (by decide)
  | lock ax ay =>
    obtain ⟨a1, a2, a3, e, e1, e2, e3⟩ := lockStitches_eq cfg.lm s.nx s.ny ax ay s.maxStitch
    intro b hb
    rcases List.mem_append.1 hb with hb | hb
    · exact h3 b hb
    · rw [e] at hb
      have : b.low = 0 := by
        simp at hb
        rcases hb with rfl | rfl | rfl | rfl <;> simp [Stitch.low, e1, e2, e3]
      omega
  | change s' h =>
    obtain ⟨ch, _, hcase⟩ := nextChange_out h
    rcases hcase with ⟨hc, _, ⟨_, e⟩ | ⟨_, e⟩⟩ | ⟨hc, _, e⟩ | ⟨hx, _, e⟩ | ⟨_, _, _, _, e⟩
    · rw [e]; exact h3
    · rw [e]
      refine app _ (fun h => ?_)
      have : encodeThreadChange COLOR_CHANGE (some ch.thread) (some ch.needle) none % 256 = 5 :=
        encodeThreadChange_low 5 (by decide) (by decide) _ _ _
      rw [show (⟨s.nx, s.ny, encodeThreadChange COLOR_CHANGE (some ch.thread) (some ch.needle) none⟩ : Stitch).low = 5 from this] at h
      omega
    · rw [e]
      refine app _ (fun h => ?_)
      have : encodeThreadChange NEEDLE_SET (some ch.thread) (some ch.needle) none % 256 = 9 :=
        encodeThreadChange_low 9 (by decide) (by decide) _ _ _
      rw [show (⟨s.nx, s.ny, encodeThreadChange NEEDLE_SET (some ch.thread) (some ch.needle) none⟩ : Stitch).low = 9 from this] at h
      omega
    · rw [e]
      refine app _ (fun h => ?_)
      have : encodeThreadChange STOP (some ch.thread) (some ch.needle) none % 256 = 3 :=
        encodeThreadChange_low 3 (by decide) (by decide) _ _ _
      rw [show (⟨s.nx, s.ny, encodeThreadChange STOP (some ch.thread) (some ch.needle) none⟩ : Stitch).low = 3 from this] at h
      omega
    · rw [e]; exact h3

/-- Lift from steps rather than actions. -/
theorem encode_lift_step {o : Settings} {lm : Libm} {threads : List Thread} {source out : List Stitch}
    {ths : List (Option Thread)} {P : St → Prop} {Q : Stitch → Prop}
    (hv : o.ValidSequins) (h : encode o lm threads source = .ok (out, ths)) (hinit : P (initSt o lm threads))
    (hQ : ∀ st ∈ source, Q st)
    (hm : ∀ plan position st a b, Q st → BaseInv a → step (mkCfg o lm source plan) position a st = .ok b → P a → P b)
    (hhigh : ∀ s v, P s → P { s with high := flagsOf v }) :
    ∃ s, BaseInv s ∧ P s ∧ out = s.out ++ [⟨s.nx, s.ny, END + s.high⟩] ∧ ths = s.threads := by
  unfold encode at h
  cases hp : buildPlan o threads source with
  | error e => rw [hp] at h; cases h
  | ok plan =>
    rw [hp] at h
    simp only at h
    cases hr : runFrom (mkCfg o lm source plan) 0 (initSt o lm threads) source with
    | error e => rw [hr] at h; cases h
    | ok sf =>
      rw [hr] at h
      simp only at h
      injection h with h
      injection h with h1 h2
      obtain ⟨s0, a, b, d⟩ := run_inv (cfg := mkCfg o lm source plan) (P := P) (Q := Q)
        (fun position s st s' hI hP hq hs => hm plan position st s s' hq hI hs hP)
        hhigh source 0 _ sf (init_base o lm threads hv) hinit hQ hr
      exact ⟨s0, a, b, by rw [← h1, d]; rfl, by rw [← h2, d]; rfl⟩

end Emb
