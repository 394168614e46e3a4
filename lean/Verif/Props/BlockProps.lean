import Verif.Blocks
import Mathlib.Data.List.Chain

/-!
# C45-C48, C51, C52, C57: blocks of a pattern
-/

namespace Emb
namespace Blocks

theorem cmdOf_low (a : Stitch) : cmdOf a.cmd = a.low := rfl

theorem low_nonneg (a : Stitch) : 0 ≤ a.low := Int.emod_nonneg _ (by decide)

/-! ## C45 -/

/-- All commands of the block have the same command byte. -/
def Uniform (b : List Stitch) : Prop := ∀ a ∈ b, ∀ c ∈ b, a.low = c.low

/-- No command of the first block has the command byte of one of the second. -/
def Differ (b c : List Stitch) : Prop := ∀ a ∈ b, ∀ d ∈ c, a.low ≠ d.low

theorem commandLoop_spec (rest cur : List Stitch) (last : Int) (h : cur ≠ []) (hu : ∀ a ∈ cur, a.low = last) :
    ∃ x ys, commandLoop cur last rest = (cur ++ x) :: ys ∧ (∀ a ∈ x, a.low = last) ∧
      ((cur ++ x) :: ys).flatten = cur ++ rest ∧ (∀ b ∈ ys, b ≠ [] ∧ Uniform b) ∧ List.IsChain Differ ((cur ++ x) :: ys) := by
  induction rest generalizing cur last with
  | nil => exact ⟨[], [], by simp [commandLoop], by simp, by simp, by simp, by simp⟩
  | cons st rest ih =>
    have hl : last ≠ NO_COMMAND := by
      obtain ⟨a, ha⟩ := List.exists_mem_of_ne_nil _ h
      have := low_nonneg a
      rw [hu a ha] at this
      unfold NO_COMMAND; omega
    unfold commandLoop
    by_cases c : st.low = last
    · rw [if_pos (.inl c)]
      obtain ⟨x, ys, e, h1, h2, h3, h4⟩ := ih (cur ++ [st]) st.low (by simp)
        (by intro a ha; rw [List.mem_append, List.mem_singleton] at ha; rcases ha with ha | rfl
            · rw [hu a ha, c]
            · rfl)
      refine ⟨st :: x, ys, by rw [cmdOf_low, e]; simp, ?_, by rw [← List.append_cons] at h2; simpa using h2, h3, by simpa using h4⟩
      intro a ha
      rcases List.mem_cons.1 ha with rfl | ha
      · exact c
      · rw [h1 a ha, c]
    · rw [if_neg (by rw [cmdOf_low]; tauto)]
      obtain ⟨x, ys, e, h1, h2, h3, h4⟩ := ih [st] st.low (by simp) (by simp)
      refine ⟨[], ([st] ++ x) :: ys, by rw [cmdOf_low, e]; simp, by simp, ?_, ?_, ?_⟩
      · rw [List.flatten_cons, h2]; simp
      · intro b hb
        rcases List.mem_cons.1 hb with rfl | hb
        · refine ⟨by simp, ?_⟩
          have : ∀ a ∈ [st] ++ x, a.low = st.low := by
            intro a ha
            rcases List.mem_cons.1 ha with rfl | ha
            · rfl
            · exact h1 a ha
          intro a ha d hd
          rw [this a ha, this d hd]
        · exact h3 b hb
      · rw [List.append_nil]
        refine List.IsChain.cons_cons ?_ h4
        intro a ha d hd
        have : d.low = st.low := by
          rcases List.mem_cons.1 hd with rfl | hd
          · rfl
          · exact h1 d hd
        rw [hu a ha, this]
        exact fun h => c h.symm

theorem commandBlocks_spec (l : List Stitch) (hl : l ≠ []) :
    (commandBlocks l).flatten = l ∧ (∀ b ∈ commandBlocks l, b ≠ [] ∧ Uniform b) ∧ List.IsChain Differ (commandBlocks l) := by
  cases l with
  | nil => exact absurd rfl hl
  | cons st rest =>
    unfold commandBlocks commandLoop
    rw [if_pos (.inr rfl)]
    obtain ⟨x, ys, e, h1, h2, h3, h4⟩ := commandLoop_spec rest [st] st.low (by simp) (by simp)
    simp only [List.nil_append, cmdOf_low]
    rw [e]
    refine ⟨by simpa using h2, ?_, h4⟩
    intro b hb
    rcases List.mem_cons.1 hb with rfl | hb
    · refine ⟨by simp, ?_⟩
      have : ∀ a ∈ [st] ++ x, a.low = st.low := by
        intro a ha
        rcases List.mem_cons.1 ha with rfl | ha
        · rfl
        · exact h1 a ha
      intro a ha d hd
      rw [this a ha, this d hd]
    · exact h3 b hb

/-- **C45.** The command blocks of a pattern, one after the other, are its stitches; the commands of a block agree in their
command byte, and two neighbouring blocks have none in common; only an empty pattern has an empty block. -/
theorem C45_command_blocks (l : List Stitch) :
    (commandBlocks l).flatten = l ∧
    (∀ b ∈ commandBlocks l, (b = [] → l = []) ∧ ∀ a ∈ b, ∀ c ∈ b, a.low = c.low) ∧
    ∀ A b c B, commandBlocks l = A ++ b :: c :: B → ∀ a ∈ b, ∀ d ∈ c, a.low ≠ d.low := by
  by_cases hl : l = []
  · subst hl
    refine ⟨rfl, by simp [commandBlocks, commandLoop], ?_⟩
    intro A b c B h
    have := congrArg List.length h
    simp [commandBlocks, commandLoop] at this
    omega
  · obtain ⟨h1, h2, h3⟩ := commandBlocks_spec l hl
    refine ⟨h1, fun b hb => ⟨fun e => absurd e (h2 b hb).1, (h2 b hb).2⟩, ?_⟩
    intro A b c B h
    rw [h] at h3
    exact (List.isChain_cons_cons.1 (List.isChain_append.1 h3).2.1).1

example : commandBlocks [⟨0, 0, 1⟩, ⟨5, 0, 0⟩, ⟨6, 0, 0x100⟩, ⟨6, 0, 4⟩] =
    [[⟨0, 0, 1⟩], [⟨5, 0, 0⟩, ⟨6, 0, 0x100⟩], [⟨6, 0, 4⟩]] := by decide +kernel

/-! ## C46 -/

section
variable {τ : Type} (threads : List τ) (filler : Nat → τ)

/-- The stitches without COLOR_BREAK (0xE2) commands. -/
def noBreaks (l : List Stitch) : List Stitch := l.filter (fun a => a.low != 0xE2)

/-- A colour block: not empty, no COLOR_BREAK (0xE2), COLOR_CHANGE (5) only as its last command, NEEDLE_SET (9) only as
its first. -/
structure ColorBlock (b : List Stitch) : Prop where
  nonempty : b ≠ []
  noBreak : ∀ a ∈ b, a.low ≠ 0xE2
  change : ∀ pre a post, b = pre ++ a :: post → a.low = 5 → post = []
  needle : ∀ pre a post, b = pre ++ a :: post → a.low = 9 → pre = []

/-- Where the source is divided: after a COLOR_CHANGE (5) or COLOR_BREAK (0xE2) or before a NEEDLE_SET (9). -/
def Boundary (pre post : List Stitch) : Prop :=
  (∃ a, pre.getLast? = some a ∧ (a.low = 5 ∨ a.low = 0xE2)) ∨ ∃ a, post.head? = some a ∧ a.low = 9

/-- An unfinished block. -/
structure Open (b : List Stitch) : Prop where
  noBreak : ∀ a ∈ b, a.low ≠ 0xE2 ∧ a.low ≠ 5
  needle : ∀ pre a post, b = pre ++ a :: post → a.low = 9 → pre = []

theorem Open.close {b : List Stitch} (h : Open b) (hb : b ≠ []) : ColorBlock b where
  nonempty := hb
  noBreak := fun a ha => (h.noBreak a ha).1
  change := fun pre a post e hc => absurd hc (h.noBreak a (by rw [e]; simp)).2
  needle := h.needle

theorem Open.nil : Open [] := ⟨by simp, by intro pre a post h; simp at h⟩

theorem Open.snoc {b : List Stitch} (h : Open b) (st : Stitch) (h1 : st.low ≠ 0xE2) (h2 : st.low ≠ 5)
    (h3 : st.low = 9 → b = []) : Open (b ++ [st]) := by
  refine ⟨?_, ?_⟩
  · intro a ha
    rw [List.mem_append, List.mem_singleton] at ha
    rcases ha with ha | rfl
    · exact h.noBreak a ha
    · exact ⟨h1, h2⟩
  · intro pre a post e ha
    rcases List.eq_nil_or_concat post with rfl | ⟨post', c, rfl⟩
    · obtain ⟨rfl, hb⟩ := List.append_inj' e rfl
      injection hb with hb; subst hb
      exact h3 ha
    · have e' : b ++ [st] = (pre ++ a :: post') ++ [c] := by simp [e]
      obtain ⟨h4, _⟩ := List.append_inj' e' rfl
      exact h.needle pre a post' h4 ha

theorem Open.change {b : List Stitch} (h : Open b) (st : Stitch) (h1 : st.low = 5) : ColorBlock (b ++ [st]) := by
  refine ⟨by simp, ?_, ?_, ?_⟩
  · intro a ha
    rw [List.mem_append, List.mem_singleton] at ha
    rcases ha with ha | rfl
    · exact (h.noBreak a ha).1
    · omega
  · intro pre a post e ha
    rcases List.eq_nil_or_concat post with rfl | ⟨post', c, rfl⟩
    · rfl
    · have e' : b ++ [st] = (pre ++ a :: post') ++ [c] := by simp [e]
      obtain ⟨h4, _⟩ := List.append_inj' e' rfl
      exact absurd ha (h.noBreak a (by rw [h4]; simp)).2
  · intro pre a post e ha
    rcases List.eq_nil_or_concat post with rfl | ⟨post', c, rfl⟩
    · obtain ⟨rfl, hb⟩ := List.append_inj' e rfl
      injection hb with hb; subst hb
      omega
    · have e' : b ++ [st] = (pre ++ a :: post') ++ [c] := by simp [e]
      obtain ⟨h4, _⟩ := List.append_inj' e' rfl
      exact h.needle pre a post' h4 ha

theorem Open.filter {b : List Stitch} (h : Open b) : noBreaks b = b := by
  unfold noBreaks
  rw [List.filter_eq_self]
  intro a ha
  simpa using (h.noBreak a ha).1

theorem noBreaks_append (a b : List Stitch) : noBreaks (a ++ b) = noBreaks a ++ noBreaks b := by simp [noBreaks]

/-- What the loop yields for the rest of the source when `done ++ cur` has been read. -/
structure ColorSpec (k : Nat) (cur rest : List Stitch) (r : List (List Stitch × τ)) : Prop where
  all : (r.map (·.1)).flatten = cur ++ noBreaks rest
  block : ∀ b ∈ r, ColorBlock b.1
  thread : ∀ i (h : i < r.length), (r[i]).2 = threadAt threads filler (k + i)
  cut : ∀ A B, r = A ++ B → A ≠ [] → B ≠ [] → ∃ pre post, cur ++ rest = pre ++ post ∧
    (A.map (·.1)).flatten = noBreaks pre ∧ (B.map (·.1)).flatten = noBreaks post ∧ Boundary pre post

theorem ColorSpec.step {k : Nat} {cur rest : List Stitch} {b : List Stitch} {cur' pre : List Stitch}
    {r : List (List Stitch × τ)} (h : ColorSpec threads filler (k + 1) cur' rest r) (hb : ColorBlock b)
    (hc : noBreaks cur' = cur') (hbp : b = noBreaks pre) (hbd : Boundary pre (cur' ++ rest)) {src : List Stitch}
    (hsrc : pre ++ (cur' ++ rest) = cur ++ src) (hcur : noBreaks cur = cur) :
    ColorSpec threads filler k cur src ((b, threadAt threads filler k) :: r) where
  all := by
    rw [List.map_cons, List.flatten_cons, h.all]
    have := congrArg noBreaks hsrc
    rw [noBreaks_append, noBreaks_append, noBreaks_append, hcur, hc, ← hbp] at this
    exact this
  block := by
    intro x hx
    rcases List.mem_cons.1 hx with rfl | hx
    · exact hb
    · exact h.block x hx
  thread := by
    intro i hi
    cases i with
    | zero => rfl
    | succ i =>
      have := h.thread i (by simpa using hi)
      simp only [List.getElem_cons_succ]
      rw [this]
      congr 1
      omega
  cut := by
    intro A B e hA hB
    cases A with
    | nil => exact absurd rfl hA
    | cons a A =>
      obtain ⟨rfl, e2⟩ := List.cons.inj (show (b, threadAt threads filler k) :: r = a :: (A ++ B) from e)
      by_cases hA2 : A = []
      · subst hA2
        rw [List.nil_append] at e2
        subst e2
        refine ⟨pre, cur' ++ rest, hsrc.symm, by simp [hbp], ?_, hbd⟩
        rw [h.all, noBreaks_append, hc]
      · obtain ⟨p, q, h1, h2, h3, h4⟩ := h.cut A B e2 hA2 hB
        refine ⟨pre ++ p, q, by rw [← hsrc, h1]; simp, ?_, h3, ?_⟩
        · rw [List.map_cons, List.flatten_cons, h2, noBreaks_append, hbp]
        · rcases h4 with ⟨a, ha, hc2⟩ | h4
          · left
            refine ⟨a, ?_, hc2⟩
            rw [List.getLast?_append, ha]; rfl
          · exact .inr h4

theorem colorLoop_spec (rest cur : List Stitch) (k : Nat) (h : Open cur) :
    ColorSpec threads filler k cur rest (colorLoop threads filler cur k rest) := by
  induction rest generalizing cur k with
  | nil =>
    unfold colorLoop
    by_cases c : cur = []
    · rw [if_neg (by simpa using c)]
      subst c
      exact ⟨rfl, by simp, by simp, by intro A B e hA; simp at e; exact absurd e.1 hA⟩
    · rw [if_pos c]
      refine ⟨by simp [noBreaks], ?_, ?_, ?_⟩
      · intro b hb; rw [List.mem_singleton] at hb; subst hb; exact h.close c
      · intro i hi
        have : i = 0 := by simpa using hi
        subst this; rfl
      · intro A B e hA hB
        have := congrArg List.length e
        have a1 := List.length_pos_of_ne_nil hA
        have a2 := List.length_pos_of_ne_nil hB
        simp at this; omega
  | cons st rest ih =>
    unfold colorLoop
    rw [cmdOf_low]
    by_cases c1 : st.low = COLOR_BREAK
    · rw [if_pos c1]
      have c1' : st.low = 0xE2 := c1
      have hf : noBreaks [st] = [] := by simp [noBreaks, c1']
      by_cases c : cur = []
      · rw [if_neg (by simpa using c)]
        subst c
        have := ih [] k Open.nil
        refine ⟨?_, this.block, this.thread, ?_⟩
        · rw [this.all, List.nil_append, List.nil_append, ← List.singleton_append (l := rest), noBreaks_append, hf]; rfl
        · intro A B e hA hB
          obtain ⟨p, q, h1, h2, h3, h4⟩ := this.cut A B e hA hB
          refine ⟨st :: p, q, by simpa using h1, ?_, h3, ?_⟩
          · rw [h2, ← List.singleton_append (l := p), noBreaks_append, hf]; rfl
          · rcases h4 with ⟨a, ha, hc2⟩ | h4
            · left
              refine ⟨a, ?_, hc2⟩
              rw [← List.singleton_append, List.getLast?_append, ha]; rfl
            · exact .inr h4
      · rw [if_pos c]
        refine ColorSpec.step threads filler (pre := cur ++ [st]) (ih [] (k + 1) Open.nil) (h.close c) rfl ?_ ?_ ?_ h.filter
        · rw [noBreaks_append, hf, h.filter, List.append_nil]
        · exact .inl ⟨st, by simp, .inr c1'⟩
        · simp
    · rw [if_neg c1]
      by_cases c2 : st.low = COLOR_CHANGE
      · rw [if_pos c2]
        have c2' : st.low = 5 := c2
        refine ColorSpec.step threads filler (pre := cur ++ [st]) (ih [] (k + 1) Open.nil) (h.change st c2') rfl ?_ ?_ ?_ h.filter
        · have hf : noBreaks [st] = [st] := by simp [noBreaks, c2']
          rw [noBreaks_append, hf, h.filter]
        · exact .inl ⟨st, by simp, .inl c2'⟩
        · simp
      · rw [if_neg c2]
        by_cases c3 : st.low = NEEDLE_SET ∧ cur ≠ []
        · rw [if_pos c3]
          have ho : Open [st] := Open.nil.snoc st c1 c2 (fun _ => rfl)
          refine ColorSpec.step threads filler (pre := cur) (ih [st] (k + 1) ho) (h.close c3.2) ho.filter h.filter.symm ?_ ?_
            h.filter
          · exact .inr ⟨st, by simp, c3.1⟩
          · simp
        · rw [if_neg c3]
          have ho : Open (cur ++ [st]) := h.snoc st c1 c2 (fun h9 => by
            by_contra hne; exact c3 ⟨h9, hne⟩)
          have := ih (cur ++ [st]) k ho
          have hf : noBreaks [st] = [st] := by
            simp only [noBreaks, List.filter_cons, List.filter_nil]
            rw [if_pos (by have : st.low ≠ 0xE2 := c1; simpa using this)]
          refine ⟨?_, this.block, this.thread, ?_⟩
          · rw [this.all, ← List.singleton_append (l := rest), noBreaks_append, hf, List.append_assoc]
          · intro A B e hA hB
            obtain ⟨p, q, h1, h2, h3, h4⟩ := this.cut A B e hA hB
            exact ⟨p, q, by rw [← h1]; simp, h2, h3, h4⟩

/-- **C46.** The colour blocks of a pattern, one after the other, are its stitches without the COLOR_BREAKs; in a block
COLOR_CHANGE comes last and NEEDLE_SET first; two blocks are divided only after a COLOR_CHANGE or COLOR_BREAK or before a
NEEDLE_SET; the k-th block comes with thread k, or with a filler if there is none. -/
theorem C46_color_blocks (l : List Stitch) :
    ((colorBlocks threads filler l).map (·.1)).flatten = noBreaks l ∧
    (∀ b ∈ colorBlocks threads filler l, ColorBlock b.1) ∧
    (∀ A B, colorBlocks threads filler l = A ++ B → A ≠ [] → B ≠ [] → ∃ pre post, l = pre ++ post ∧
      (A.map (·.1)).flatten = noBreaks pre ∧ (B.map (·.1)).flatten = noBreaks post ∧ Boundary pre post) ∧
    ∀ i (h : i < (colorBlocks threads filler l).length),
      ((colorBlocks threads filler l)[i]).2 = (threads[i]?).getD (filler i) := by
  have h := colorLoop_spec threads filler l [] 0 Open.nil
  refine ⟨h.all, h.block, h.cut, ?_⟩
  intro i hi
  have := h.thread i hi
  rwa [Nat.zero_add] at this

end

example : colorBlocks ['r', 'g'] (fun _ => '?')
      [⟨0, 0, 0⟩, ⟨1, 0, 5⟩, ⟨2, 0, 0⟩, ⟨2, 0, 0xE2⟩, ⟨2, 0, 0xE2⟩, ⟨3, 0, 0⟩, ⟨3, 0, 9⟩, ⟨4, 0, 0⟩] =
    [([⟨0, 0, 0⟩, ⟨1, 0, 5⟩], 'r'), ([⟨2, 0, 0⟩], 'g'), ([⟨3, 0, 0⟩], '?'), ([⟨3, 0, 9⟩, ⟨4, 0, 0⟩], '?')] := by
  decide +kernel

/-! ## C47 -/

section
variable {τ : Type} (threads : List τ) (filler : Nat → τ)

/-- The STITCH (0) commands with the thread they are sewn in: thread number `k` at first, the next one after every
COLOR_CHANGE (5). -/
def colored : Nat → List Stitch → List (Stitch × τ)
  | _, [] => []
  | k, a :: l =>
    if a.low = 0 then (a, (threads[k]?).getD (filler k)) :: colored k l
    else if a.low = 5 then colored (k + 1) l
    else colored k l

/-- All stitches of the block with its thread. -/
def paint (b : List Stitch × τ) : List (Stitch × τ) := b.1.map (fun a => (a, b.2))

theorem stitchLoop_colored (rest cur : List Stitch) (k : Nat) :
    (stitchLoop threads filler cur (threadAt threads filler k) (k + 1) rest).flatMap paint =
      cur.map (fun a => (a, threadAt threads filler k)) ++ colored threads filler k rest := by
  induction rest generalizing cur k with
  | nil =>
    unfold stitchLoop colored
    split_ifs with c
    · simp [paint]
    · have : cur = [] := by simpa using c
      simp [this]
  | cons st rest ih =>
    have e : ((if cur.length > 0 then [(cur, threadAt threads filler k)] else []).flatMap paint) =
        cur.map (fun a => (a, threadAt threads filler k)) := by
      split_ifs with c
      · simp [paint]
      · have : cur = [] := by simpa using c
        simp [this]
    unfold stitchLoop colored
    rw [cmdOf_low]
    by_cases c1 : st.low = STITCH
    · rw [if_pos c1, if_pos (show st.low = 0 from c1), ih]
      simp [threadAt]
    · rw [if_neg c1, if_neg (show ¬ st.low = 0 from c1), List.flatMap_append, e]
      by_cases c2 : st.low = COLOR_CHANGE
      · rw [if_pos c2, if_pos (show st.low = 5 from c2), ih]; rfl
      · rw [if_neg c2, if_neg (show ¬ st.low = 5 from c2), ih]; rfl

theorem stitchLoop_blocks (rest cur : List Stitch) (t : τ) (k : Nat) (hc : ∀ a ∈ cur, a.low = 0) :
    ∀ b ∈ stitchLoop threads filler cur t k rest, b.1 ≠ [] ∧ ∀ a ∈ b.1, a.low = 0 := by
  induction rest generalizing cur t k with
  | nil =>
    unfold stitchLoop
    intro b hb
    split_ifs at hb with c
    · rw [List.mem_singleton] at hb; subst hb
      exact ⟨List.ne_nil_of_length_pos c, hc⟩
    · cases hb
  | cons st rest ih =>
    unfold stitchLoop
    rw [cmdOf_low]
    by_cases c1 : st.low = STITCH
    · rw [if_pos c1]
      refine ih _ _ _ ?_
      intro a ha
      rw [List.mem_append, List.mem_singleton] at ha
      rcases ha with ha | rfl
      · exact hc a ha
      · exact c1
    · rw [if_neg c1]
      intro b hb
      rw [List.mem_append] at hb
      rcases hb with hb | hb
      · split_ifs at hb with c
        · rw [List.mem_singleton] at hb; subst hb
          exact ⟨List.ne_nil_of_length_pos c, hc⟩
        · cases hb
      · split_ifs at hb
        · exact ih [] _ _ (by simp) b hb
        · exact ih [] _ _ (by simp) b hb

/-- The blocks are the maximal runs of STITCH commands: the source is `g₀ ++ b₁ ++ g₁ ++ ... ++ bₙ ++ gₙ` with gaps `gᵢ`
free of STITCH (0) and not empty between two blocks. -/
inductive Runs : List (List Stitch) → List Stitch → Prop
  | nil (g : List Stitch) : (∀ a ∈ g, a.low ≠ 0) → Runs [] g
  | last (g b : List Stitch) : (∀ a ∈ g, a.low ≠ 0) → Runs [b] (g ++ b)
  | more (g b : List Stitch) (s : Stitch) (bs : List (List Stitch)) (rest : List Stitch) : (∀ a ∈ g, a.low ≠ 0) →
      s.low ≠ 0 → Runs bs rest → Runs (b :: bs) (g ++ b ++ s :: rest)

theorem Runs.gap {bs : List (List Stitch)} {l : List Stitch} (h : Runs bs l) (s : Stitch) (hs : s.low ≠ 0) :
    Runs bs (s :: l) := by
  have key : ∀ g : List Stitch, (∀ a ∈ g, a.low ≠ 0) → ∀ a ∈ s :: g, a.low ≠ 0 := by
    intro g hg a ha
    rcases List.mem_cons.1 ha with rfl | ha
    · exact hs
    · exact hg a ha
  cases h with
  | nil _ hg => exact .nil _ (key _ hg)
  | last g b hg => exact .last (s :: g) b (key _ hg)
  | more g b t bs rest hg ht hr => exact .more (s :: g) b t bs rest (key _ hg) ht hr

theorem stitchLoop_runs (rest cur : List Stitch) (t : τ) (k : Nat) :
    Runs ((stitchLoop threads filler cur t k rest).map (·.1)) (cur ++ rest) := by
  induction rest generalizing cur t k with
  | nil =>
    unfold stitchLoop
    split_ifs with c
    · simpa using Runs.last [] cur (by simp)
    · have : cur = [] := by simpa using c
      subst this
      exact .nil _ (by simp)
  | cons st rest ih =>
    unfold stitchLoop
    rw [cmdOf_low]
    by_cases c1 : st.low = STITCH
    · rw [if_pos c1]
      have := ih (cur ++ [st]) t k
      simpa using this
    · rw [if_neg c1]
      have key : ∀ t' k', Runs (((if cur.length > 0 then [(cur, t)] else []) ++
          stitchLoop threads filler [] t' k' rest).map (·.1)) (cur ++ st :: rest) := by
        intro t' k'
        by_cases c : cur.length > 0
        · rw [if_pos c]
          exact Runs.more [] cur st _ rest (by simp) c1 (ih [] t' k')
        · rw [if_neg c]
          have : cur = [] := by simpa using c
          subst this
          exact (ih [] t' k').gap st c1
      by_cases c2 : st.low = COLOR_CHANGE
      · rw [if_pos c2]; exact key _ _
      · rw [if_neg c2]; exact key _ _

/-- **C47.** The stitch blocks of a pattern are its maximal runs of STITCH commands; together they hold every STITCH once, in
order, each with the thread in use: the first thread at first, the next after every COLOR_CHANGE, a filler when the list
has run out. -/
theorem C47_stitch_blocks (l : List Stitch) :
    (stitchBlocks threads filler l).flatMap paint = colored threads filler 0 l ∧
    Runs ((stitchBlocks threads filler l).map (·.1)) l ∧
    ∀ b ∈ stitchBlocks threads filler l, b.1 ≠ [] ∧ ∀ a ∈ b.1, a.low = 0 := by
  refine ⟨?_, stitchLoop_runs threads filler l [] _ _, stitchLoop_blocks threads filler l [] _ _ (by simp)⟩
  have := stitchLoop_colored threads filler l [] 0
  rw [List.map_nil, List.nil_append] at this
  exact this

end

example : stitchBlocks ['r', 'g'] (fun _ => '?')
      [⟨0, 0, 0⟩, ⟨1, 0, 0⟩, ⟨1, 0, 2⟩, ⟨2, 0, 0⟩, ⟨2, 0, 5⟩, ⟨3, 0, 1⟩, ⟨3, 0, 0⟩, ⟨3, 0, 5⟩, ⟨4, 0, 0⟩] =
    [([⟨0, 0, 0⟩, ⟨1, 0, 0⟩], 'r'), ([⟨2, 0, 0⟩], 'r'), ([⟨3, 0, 0⟩], 'g'), ([⟨4, 0, 0⟩], '?')] := by
  decide +kernel

/-! ## C48 -/

/-- STITCH (0), SEW_TO (0xB0) and NEEDLE_AT (0xB1). -/
def isSew (a : Stitch) : Bool := a.low == 0 || a.low == 0xB0 || a.low == 0xB1

/-- COLOR_CHANGE (5), COLOR_BREAK (0xE2) and NEEDLE_SET (9). -/
def isChange (a : Stitch) : Bool := a.low == 5 || a.low == 0xE2 || a.low == 9

theorem sew_iff (a : Stitch) : isSew a = true ↔ (a.low = STITCH ∨ a.low = SEW_TO ∨ a.low = NEEDLE_AT) := by
  simp [isSew, STITCH, SEW_TO, NEEDLE_AT, or_assoc]

theorem change_iff (a : Stitch) : isChange a = true ↔ (a.low = COLOR_CHANGE ∨ a.low = COLOR_BREAK ∨ a.low = NEEDLE_SET) := by
  simp [isChange, COLOR_CHANGE, COLOR_BREAK, NEEDLE_SET, or_assoc]

theorem sew_not_change {a : Stitch} (h : isSew a = true) : isChange a = false := by
  by_contra hc
  rw [Bool.not_eq_false, change_iff] at hc
  rw [sew_iff] at h
  simp only [STITCH, SEW_TO, NEEDLE_AT, COLOR_CHANGE, COLOR_BREAK, NEEDLE_SET] at *
  omega

theorem colorCount_cons (init : Bool) (a : Stitch) (l : List Stitch) :
    colorCount init (a :: l) = if isSew a then (if init then 1 else 0) + colorCount false l
      else if isChange a then colorCount true l else colorCount init l := by
  conv_lhs => unfold colorCount
  rw [cmdOf_low]
  by_cases c1 : isSew a = true
  · rw [if_pos c1, if_pos ((sew_iff a).1 c1)]
  · rw [if_neg c1, if_neg (fun h => c1 ((sew_iff a).2 h))]
    by_cases c2 : isChange a = true
    · rw [if_pos c2, if_pos ((change_iff a).1 c2)]
    · rw [if_neg c2, if_neg (fun h => c2 ((change_iff a).2 h))]

/-- The number of colours used: divide the pattern at its colour and needle changes and count the parts that sew. -/
def coloursUsed (l : List Stitch) : Nat := (l.splitOnP isChange).countP (·.any isSew)

theorem colorCount_spec (l : List Stitch) :
    colorCount true l = (l.splitOnP isChange).countP (·.any isSew) ∧
    colorCount false l = (l.splitOnP isChange).tail.countP (·.any isSew) := by
  induction l with
  | nil => simp [colorCount]
  | cons a l ih =>
    rw [colorCount_cons, colorCount_cons, List.splitOnP_cons_eq_if_modifyHead]
    by_cases c1 : isSew a = true
    · rw [if_pos c1, if_pos c1, sew_not_change c1]
      obtain ⟨g, gs, e⟩ := List.exists_cons_of_ne_nil (List.splitOnP_ne_nil isChange l)
      rw [e] at ih ⊢
      simp only [ih.2, List.modifyHead, List.tail_cons, Bool.false_eq_true, if_false, if_true, Nat.zero_add, and_true]
      rw [List.countP_cons_of_pos (by simp [c1]), Nat.add_comm]
    · rw [if_neg c1, if_neg c1]
      by_cases c2 : isChange a = true
      · rw [if_pos c2, if_pos c2, if_pos c2, ih.1]
        simp
      · rw [if_neg c2, if_neg c2, if_neg c2]
        obtain ⟨g, gs, e⟩ := List.exists_cons_of_ne_nil (List.splitOnP_ne_nil isChange l)
        rw [e] at ih ⊢
        refine ⟨?_, by simpa using ih.2⟩
        rw [ih.1]
        simp [List.modifyHead, List.countP_cons, c1]

section
variable {τ : Type} (threads : List τ) (filler : Nat → τ)

/-- **C48.** `fix_color_count` keeps the threads in place and adds fillers until there are as many threads as colours used, and
no more; a second call adds nothing. -/
theorem C48_fix (l : List Stitch) :
    ∃ new : List τ, fixColorCount threads filler l = threads ++ new ∧ new.length = coloursUsed l - threads.length ∧
      (∀ t ∈ new, ∃ k, threads.length ≤ k ∧ t = filler k) ∧
      ∀ filler', fixColorCount (fixColorCount threads filler l) filler' l = fixColorCount threads filler l := by
  refine ⟨_, rfl, by simp [coloursUsed, (colorCount_spec l).1], ?_, ?_⟩
  · intro t ht
    rw [List.mem_map] at ht
    obtain ⟨i, _, rfl⟩ := ht
    exact ⟨_, Nat.le_add_right _ _, rfl⟩
  · intro filler'
    conv_lhs => unfold fixColorCount
    have : colorCount true l - (threads ++ (List.range (colorCount true l - threads.length)).map
        (fun i => filler (threads.length + i))).length = 0 := by simp; omega
    rw [this]
    simp [fixColorCount]

/-- Every colour change comes after something sewn in the colour that ends; `fresh` says that nothing has been sewn yet since
the last change. -/
def EachColourSewn : Bool → List Stitch → Prop
  | _, [] => True
  | fresh, a :: l =>
    if isSew a then EachColourSewn false l else if isChange a then fresh = false ∧ EachColourSewn true l
    else EachColourSewn fresh l

theorem index_lt (l : List Stitch) (fresh : Bool) (h : EachColourSewn fresh l) (A B : List Stitch) (a : Stitch)
    (e : l = A ++ a :: B) (ha : isSew a = true) :
    A.countP (fun s => s.low == 5) + (if fresh then 1 else 0) ≤ colorCount fresh l := by
  induction l generalizing fresh A with
  | nil => simp at e
  | cons s l ih =>
    rw [colorCount_cons]
    unfold EachColourSewn at h
    cases A with
    | nil =>
      obtain ⟨rfl, -⟩ := List.cons.inj (by simpa using e)
      rw [if_pos ha]
      simp
    | cons s' A =>
      obtain ⟨rfl, e2⟩ := List.cons.inj (show s :: l = s' :: (A ++ a :: B) from e)
      by_cases c1 : isSew s = true
      · rw [if_pos c1] at h ⊢
        have := ih false h A e2
        have h5 : ¬ (s.low == 5) = true := by
          rw [sew_iff] at c1
          simp only [STITCH, SEW_TO, NEEDLE_AT] at c1
          simp only [beq_iff_eq]; omega
        rw [List.countP_cons_of_neg (p := fun s : Stitch => s.low == 5) h5]
        rw [if_neg (by simp)] at this
        omega
      · rw [if_neg c1] at h ⊢
        by_cases c2 : isChange s = true
        · rw [if_pos c2] at h ⊢
          have := ih true h.2 A e2
          rw [h.1]
          rw [if_pos rfl] at this
          have := List.countP_cons (p := fun s : Stitch => s.low == 5) (a := s) (l := A)
          simp only [Bool.false_eq_true, if_false]
          split_ifs at this <;> omega
        · rw [if_neg c2] at h ⊢
          have := ih fresh h A e2
          have h5 : ¬ (s.low == 5) = true := by
            intro h5
            exact c2 (by simp [isChange, h5])
          rw [List.countP_cons_of_neg (p := fun s : Stitch => s.low == 5) h5]
          exact this

theorem colored_known (T : List τ) (l : List Stitch) (k : Nat)
    (h : ∀ A a B, l = A ++ a :: B → a.low = 0 → k + A.countP (fun s => s.low == 5) < T.length) (f : Nat → τ) :
    ∀ p ∈ colored T f k l, p.2 ∈ T := by
  induction l generalizing k with
  | nil => intro p hp; cases hp
  | cons s l ih =>
    unfold colored
    by_cases c1 : s.low = 0
    · rw [if_pos c1]
      have h0 := h [] s l rfl c1
      simp only [List.countP_nil, Nat.add_zero] at h0
      rw [List.getElem?_eq_getElem h0]
      intro p hp
      rcases List.mem_cons.1 hp with rfl | hp
      · exact List.getElem_mem h0
      · refine ih k ?_ p hp
        intro A a B e ha
        have := h (s :: A) a B (by rw [e]; rfl) ha
        rwa [List.countP_cons_of_neg (by simp [c1])] at this
    · rw [if_neg c1]
      by_cases c2 : s.low = 5
      · rw [if_pos c2]
        refine ih (k + 1) ?_
        intro A a B e ha
        have := h (s :: A) a B (by rw [e]; rfl) ha
        rw [List.countP_cons_of_pos (by simp [c2])] at this
        omega
      · rw [if_neg c2]
        refine ih k ?_
        intro A a B e ha
        have := h (s :: A) a B (by rw [e]; rfl) ha
        rwa [List.countP_cons_of_neg (by simp [c2])] at this

/-- **C48 (partial).** If every colour change comes after something sewn in the colour that ends, then after
`fix_color_count` every stitch block is sewn with a thread of the list. In general this is false:
`C48_double_change`. -/
theorem C48_every_colour_partial (l : List Stitch) (h : EachColourSewn true l) (f : Nat → τ) :
    ∀ b ∈ stitchBlocks (fixColorCount threads filler l) f l, b.2 ∈ fixColorCount threads filler l := by
  obtain ⟨h1, -, h3⟩ := C47_stitch_blocks (fixColorCount threads filler l) f l
  intro b hb
  obtain ⟨a, ha⟩ := List.exists_mem_of_ne_nil _ (h3 b hb).1
  have hp : (a, b.2) ∈ colored (fixColorCount threads filler l) f 0 l := by
    rw [← h1, List.mem_flatMap]
    exact ⟨b, hb, List.mem_map.2 ⟨a, ha, rfl⟩⟩
  refine colored_known _ l 0 ?_ f _ hp
  intro A s B e hs
  have := index_lt l true h A B s e (by simp [isSew, hs])
  have hl : (fixColorCount threads filler l).length = threads.length + (colorCount true l - threads.length) := by
    simp [fixColorCount]
  rw [if_pos rfl] at this
  omega

end

example : fixColorCount ['r'] (fun _ => '?') [⟨0, 0, 0⟩, ⟨1, 0, 5⟩, ⟨2, 0, 0xB0⟩, ⟨3, 0, 5⟩, ⟨3, 0, 1⟩] = ['r', '?'] ∧
    coloursUsed [⟨0, 0, 0⟩, ⟨1, 0, 5⟩, ⟨2, 0, 0xB0⟩, ⟨3, 0, 5⟩, ⟨3, 0, 1⟩] = 2 := by decide +kernel

example : EachColourSewn true [⟨0, 0, 0⟩, ⟨1, 0, 5⟩, ⟨2, 0, 0⟩, ⟨3, 0, 5⟩, ⟨3, 0, 1⟩] := by
  norm_num [EachColourSewn, isSew, isChange, Stitch.low]

/-- Two colour changes in a row use up a thread index that `fix_color_count` does not count: the last stitch is sewn with a
filler that is not in the list. -/
theorem C48_double_change :
    fixColorCount ['r', 'g'] (fun _ => '?') [⟨0, 0, 0⟩, ⟨1, 0, 5⟩, ⟨1, 0, 5⟩, ⟨2, 0, 0⟩] = ['r', 'g'] ∧
    stitchBlocks ['r', 'g'] (fun _ => '?') [⟨0, 0, 0⟩, ⟨1, 0, 5⟩, ⟨1, 0, 5⟩, ⟨2, 0, 0⟩] =
      [([⟨0, 0, 0⟩], 'r'), ([⟨2, 0, 0⟩], '?')] := by decide +kernel

/-! ## C51 -/

/-- JUMP is 1. -/
def isJump (a : Stitch) : Bool := a.low == 1

theorem jump_iff (a : Stitch) : isJump a = true ↔ a.low = JUMP := by simp [isJump, JUMP]

theorem mergeLoop_clean (A : List Stitch) (hA : ∀ a ∈ A, isJump a = false) (broken : Bool) (B : List Stitch) :
    mergeLoop broken (A ++ B) = A ++ mergeLoop broken B := by
  induction A with
  | nil => rfl
  | cons a A ih =>
    have ha := hA a (by simp)
    rw [List.cons_append]
    conv_lhs => unfold mergeLoop
    rw [cmdOf_low, if_neg (fun h => by rw [(jump_iff a).2 h] at ha; cases ha), ih (fun a h => hA a (by simp [h]))]
    rfl

theorem mergeLoop_broken (B : List Stitch) : mergeLoop true B = B.filter (fun a => !isJump a) := by
  induction B with
  | nil => rfl
  | cons a B ih =>
    unfold mergeLoop
    rw [cmdOf_low]
    by_cases c : a.low = JUMP
    · rw [if_pos c, if_pos rfl, ih, List.filter_cons_of_neg (by simp [(jump_iff a).2 c])]
    · rw [if_neg c, ih, List.filter_cons_of_pos]
      by_contra hc
      exact c ((jump_iff a).1 (by simpa using hc))

/-- What `get_pattern_merge_jumps` does: the first JUMP becomes a STITCH_BREAK at the origin, every other one is dropped. -/
theorem C51_actual (A B : List Stitch) (j : Stitch) (hA : ∀ a ∈ A, isJump a = false) (hj : isJump j = true) :
    mergeJumps (A ++ j :: B) = A ++ ⟨0, 0, STITCH_BREAK⟩ :: B.filter (fun a => !isJump a) ∧ mergeJumps A = A := by
  unfold mergeJumps
  refine ⟨?_, by have := mergeLoop_clean A hA false []; simpa [mergeLoop] using this⟩
  rw [mergeLoop_clean A hA]
  congr 1
  conv_lhs => unfold mergeLoop
  rw [cmdOf_low, if_pos ((jump_iff j).1 hj), if_neg (by simp), mergeLoop_broken]

/-- **C51 (partial).** If the jumps of the pattern form a single run, it is replaced by one STITCH_BREAK and everything else is
kept. With a second run this fails: `C51_second_run`. -/
theorem C51_single_run_partial (A J B : List Stitch) (hA : ∀ a ∈ A, isJump a = false) (hJ : ∀ a ∈ J, isJump a = true)
    (hJ0 : J ≠ []) (hB : ∀ a ∈ B, isJump a = false) :
    ∃ s : Stitch, s.cmd = STITCH_BREAK ∧ mergeJumps (A ++ J ++ B) = A ++ [s] ++ B := by
  cases J with
  | nil => exact absurd rfl hJ0
  | cons j J =>
    refine ⟨⟨0, 0, STITCH_BREAK⟩, rfl, ?_⟩
    have := (C51_actual A (J ++ B) j hA (hJ j (by simp))).1
    simp only [List.cons_append, List.append_assoc, List.nil_append] at this ⊢
    rw [this, List.filter_append, List.filter_eq_nil_iff.2, List.filter_eq_self.2]
    · rfl
    · intro a ha; simp [hB a ha]
    · intro a ha; simp [hJ a (by simp [ha])]

/-- Everything but the jumps is kept in order, in every pattern; nothing but a STITCH_BREAK is added. -/
theorem C51_others (l : List Stitch) :
    (mergeJumps l).filter (fun a => a.cmd != STITCH_BREAK) = l.filter (fun a => !isJump a && a.cmd != STITCH_BREAK) ∧
    ∀ a ∈ mergeJumps l, isJump a = false := by
  have key : ∀ b, (mergeLoop b l).filter (fun a => a.cmd != STITCH_BREAK) =
      l.filter (fun a => !isJump a && a.cmd != STITCH_BREAK) ∧ ∀ a ∈ mergeLoop b l, isJump a = false := by
    induction l with
    | nil => intro b; exact ⟨rfl, by intro a ha; cases ha⟩
    | cons a l ih =>
      intro b
      unfold mergeLoop
      rw [cmdOf_low]
      by_cases c : a.low = JUMP
      · rw [if_pos c, List.filter_cons_of_neg (by simp [(jump_iff a).2 c])]
        cases b
        · rw [if_neg (by simp), List.filter_cons_of_neg (by simp), (ih true).1]
          refine ⟨rfl, ?_⟩
          intro x hx
          rcases List.mem_cons.1 hx with rfl | hx
          · rfl
          · exact (ih true).2 x hx
        · rw [if_pos rfl]; exact ih true
      · have hj : isJump a = false := by
          by_contra hc
          exact c ((jump_iff a).1 (by simpa using hc))
        rw [if_neg c]
        refine ⟨?_, ?_⟩
        · rw [List.filter_cons, List.filter_cons, (ih b).1, hj]
          simp
        · intro x hx
          rcases List.mem_cons.1 hx with rfl | hx
          · exact hj
          · exact (ih b).2 x hx
  exact key false

example : mergeJumps [⟨1, 0, 0⟩, ⟨2, 0, 1⟩, ⟨3, 0, 1⟩, ⟨3, 0, 0⟩] = [⟨1, 0, 0⟩, ⟨0, 0, 0xE0⟩, ⟨3, 0, 0⟩] := by decide +kernel

/-- The second run of jumps vanishes: the stitches before and after it become neighbours. -/
theorem C51_second_run :
    mergeJumps [⟨1, 0, 0⟩, ⟨2, 0, 1⟩, ⟨3, 0, 0⟩, ⟨50, 0, 1⟩, ⟨90, 0, 0⟩] = [⟨1, 0, 0⟩, ⟨0, 0, 0xE0⟩, ⟨3, 0, 0⟩, ⟨90, 0, 0⟩] := by
  decide +kernel

/-! ## C52 -/

/-- Whether the thread is cut after the command: sewing (STITCH 0, SEQUIN_EJECT 7) leaves it whole, TRIM (2), COLOR_CHANGE (5)
and NEEDLE_SET (9) cut it. -/
def cutAfter (cut : Bool) (a : Stitch) : Bool :=
  if a.low = 0 ∨ a.low = 7 then false else if a.low = 2 ∨ a.low = 5 ∨ a.low = 9 then true else cut

/-- `Interp n cut p l r`: with the thread cut or not and the last position `p`, the source `l` becomes `r`.
Everything but JUMP (1) is kept; jumps with the thread cut are kept; a run of jumps `J ++ [st]` with the thread whole becomes
its last jump, after a TRIM (2) at `p` if it has at least `n` jumps. A run at the very end of the pattern is counted one
short. -/
inductive Interp (n : Nat) : Bool → ℚ × ℚ → List Stitch → List Stitch → Prop
  | nil (cut p) : Interp n cut p [] []
  | other (cut p) (st : Stitch) (l r) : st.cmd ≠ 1 → Interp n (cutAfter cut st) (st.x, st.y) l r →
      Interp n cut p (st :: l) (st :: r)
  | free (p) (st : Stitch) (l r) : st.cmd = 1 → Interp n true (st.x, st.y) l r → Interp n true p (st :: l) (st :: r)
  | short (p) (J : List Stitch) (st : Stitch) (l r) : (∀ a ∈ J, a.cmd = 1) → st.cmd = 1 → (∀ a ∈ l.head?, a.cmd ≠ 1) →
      (if l = [] then J.length else J.length + 1) < n → Interp n false (st.x, st.y) l r →
      Interp n false p (J ++ st :: l) (st :: r)
  | long (p) (J : List Stitch) (st : Stitch) (l r) : (∀ a ∈ J, a.cmd = 1) → st.cmd = 1 → (∀ a ∈ l.head?, a.cmd ≠ 1) →
      n ≤ (if l = [] then J.length else J.length + 1) → Interp n false (st.x, st.y) l r →
      Interp n false p (J ++ st :: l) (⟨p.1, p.2, 2⟩ :: st :: r)

theorem runOf_spec (st : Stitch) (l : List Stitch) (h : st.cmd = 1) :
    ∃ J last rest, st :: l = J ++ last :: rest ∧ (∀ a ∈ J, a.cmd = 1) ∧ last.cmd = 1 ∧ (∀ a ∈ rest.head?, a.cmd ≠ 1) ∧
      runOf st l = (last, (if rest = [] then J.length else J.length + 1), rest) := by
  induction l generalizing st with
  | nil => exact ⟨[], st, [], rfl, by simp, h, by simp, by simp [runOf]⟩
  | cons b l ih =>
    by_cases c : b.cmd = 1
    · obtain ⟨J, last, rest, h1, h2, h3, h4, h5⟩ := ih b c
      refine ⟨st :: J, last, rest, by rw [h1]; rfl, ?_, h3, h4, ?_⟩
      · intro a ha
        rcases List.mem_cons.1 ha with rfl | ha
        · exact h
        · exact h2 a ha
      · unfold runOf
        rw [if_pos (show b.cmd = JUMP from c), h5]
        by_cases hr : rest = []
        · rw [if_pos hr, if_pos hr]; rfl
        · rw [if_neg hr, if_neg hr]; rfl
    · refine ⟨[], st, b :: l, rfl, by simp, h, ?_, ?_⟩
      · intro a ha
        rw [List.head?_cons, Option.mem_def, Option.some.injEq] at ha
        rw [← ha]; exact c
      · unfold runOf
        rw [if_neg (show ¬ b.cmd = JUMP from c)]
        simp

theorem trimmedAfter_cut (t : Bool) (a : Stitch) : trimmedAfter t a = cutAfter t a := by
  unfold trimmedAfter cutAfter
  rw [cmdOf_low]
  by_cases c1 : a.low = 0 ∨ a.low = 7
  · rw [if_pos (show a.low = STITCH ∨ a.low = SEQUIN_EJECT from c1), if_pos c1]
  · rw [if_neg (show ¬ (a.low = STITCH ∨ a.low = SEQUIN_EJECT) from c1), if_neg c1]
    by_cases c2 : a.low = 5 ∨ a.low = 9 ∨ a.low = 2
    · rw [if_pos (show a.low = COLOR_CHANGE ∨ a.low = NEEDLE_SET ∨ a.low = TRIM from c2), if_pos (by tauto)]
    · rw [if_neg (show ¬ (a.low = COLOR_CHANGE ∨ a.low = NEEDLE_SET ∨ a.low = TRIM) from c2), if_neg (by tauto)]

theorem low_jump {a : Stitch} (h : a.cmd = 1) : a.low = 1 := by
  unfold Stitch.low; rw [h]; rfl

theorem trimLoop_interp (n : Nat) (m : Nat) : ∀ (l : List Stitch), l.length ≤ m → ∀ t p, Interp n t p l (trimLoop n t p l) := by
  induction m with
  | zero =>
    intro l hl t p
    have : l = [] := by simpa using hl
    subst this
    rw [trimLoop.eq_def]
    exact .nil _ _
  | succ m ih =>
    intro l hl t p
    cases l with
    | nil => rw [trimLoop.eq_def]; exact .nil _ _
    | cons st rest =>
      rw [trimLoop.eq_def]
      simp only [trimmedAfter_cut]
      have hr : rest.length ≤ m := by simpa using hl
      by_cases hj : st.cmd = 1
      · have hc : cutAfter t st = t := by
          unfold cutAfter
          rw [low_jump hj]; simp
        rw [hc]
        cases t with
        | true =>
          rw [if_pos (.inl rfl)]
          exact .free _ _ _ _ hj (ih rest hr _ _)
        | false =>
          rw [if_neg (by rintro (h | h); · cases h
                         · exact h hj)]
          obtain ⟨J, last, rs, h1, h2, h3, h4, h5⟩ := runOf_spec st rest hj
          have hlen : rs.length ≤ m := by
            have := congrArg List.length h1
            simp at this; omega
          rw [h5, h1]
          simp only
          by_cases hn : n ≤ (if rs = [] then J.length else J.length + 1)
          · rw [if_pos hn]
            exact .long _ _ _ _ _ h2 h3 h4 hn (ih rs hlen _ _)
          · rw [if_neg hn]
            exact .short _ _ _ _ _ h2 h3 h4 (by omega) (ih rs hlen _ _)
      · rw [if_pos (.inr hj)]
        exact .other _ _ _ _ _ hj (ih rest hr _ _)

/-- What `get_pattern_interpolate_trim` does to a pattern: see `Interp`. The thread counts as cut at the start. -/
theorem C52_actual (n : Nat) (l : List Stitch) : Interp n true (0, 0) l (interpolateTrim n l) :=
  trimLoop_interp n l.length l (Nat.le_refl _) _ _

theorem filter_jumps {J : List Stitch} (h : ∀ a ∈ J, a.cmd = 1) (q : Stitch → Bool) : J.filter (fun a => a.cmd != 1 && q a) = [] := by
  rw [List.filter_eq_nil_iff]
  intro a ha
  simp [h a ha]

theorem Interp.keeps {n : Nat} {t : Bool} {p : ℚ × ℚ} {l r : List Stitch} (h : Interp n t p l r) :
    r.filter (fun a => a.cmd != 1 && a.low != 2) = l.filter (fun a => a.cmd != 1 && a.low != 2) ∧
    (l.filter (fun a => a.cmd != 1)).Sublist r ∧ (r.filter (fun a => a.cmd == 1)).Sublist (l.filter (fun a => a.cmd == 1)) := by
  induction h with
  | nil => simp
  | other cut p st l r hst _ ih =>
    have h1 : (st.cmd != 1) = true := by simpa using hst
    have h2 : (st.cmd == 1) = false := by simpa using hst
    refine ⟨?_, ?_, ?_⟩
    · rw [List.filter_cons, List.filter_cons, ih.1]
    · rw [List.filter_cons, if_pos h1]; exact ih.2.1.cons_cons _
    · rw [List.filter_cons, List.filter_cons, h2]; exact ih.2.2
  | free p st l r hst _ ih =>
    have h1 : (st.cmd != 1) = false := by simpa using hst
    have h2 : (st.cmd == 1) = true := by simpa using hst
    refine ⟨?_, ?_, ?_⟩
    · rw [List.filter_cons, List.filter_cons, ih.1]
    · rw [List.filter_cons, h1]; exact ih.2.1.cons _
    · rw [List.filter_cons, List.filter_cons, h2]; exact ih.2.2.cons_cons _
  | short p J st l r hJ hst _ _ _ ih =>
    have h1 : (st.cmd != 1) = false := by simpa using hst
    have h2 : (st.cmd == 1) = true := by simpa using hst
    have hJ2 : J.filter (fun a => a.cmd != 1) = [] := by simpa using filter_jumps hJ (fun _ => true)
    rw [List.filter_append, List.filter_append, List.filter_append, filter_jumps hJ, hJ2]
    refine ⟨?_, ?_, ?_⟩
    · rw [List.filter_cons, List.filter_cons, ih.1]; rfl
    · rw [List.filter_cons, h1]; exact ih.2.1.cons _
    · rw [List.filter_cons, List.filter_cons, h2]; exact (ih.2.2.cons_cons _).trans (List.sublist_append_right _ _)
  | long p J st l r hJ hst _ _ _ ih =>
    have h1 : (st.cmd != 1) = false := by simpa using hst
    have h2 : (st.cmd == 1) = true := by simpa using hst
    have hJ2 : J.filter (fun a => a.cmd != 1) = [] := by simpa using filter_jumps hJ (fun _ => true)
    rw [List.filter_append, List.filter_append, List.filter_append, filter_jumps hJ, hJ2]
    refine ⟨?_, ?_, ?_⟩
    · rw [List.filter_cons_of_neg (by simp [Stitch.low]), List.filter_cons, List.filter_cons, ih.1]; rfl
    · rw [List.filter_cons, h1]; exact (ih.2.1.cons _).cons _
    · rw [List.filter_cons_of_neg (by simp), List.filter_cons, List.filter_cons, h2]
      exact (ih.2.2.cons_cons _).trans (List.sublist_append_right _ _)

/-- **C52 (partial).** Every command but JUMP is kept, in order; only TRIMs are added; of the jumps some may be dropped. Where
the TRIMs are added is said by `C52_actual`: before the runs of at least `n` jumps made with the thread whole. Missing: a
run at the very end is counted one short, `C52_last_run`. -/
theorem C52_keeps_partial (n : Nat) (l : List Stitch) :
    (interpolateTrim n l).filter (fun a => a.cmd != 1 && a.low != 2) = l.filter (fun a => a.cmd != 1 && a.low != 2) ∧
    (l.filter (fun a => a.cmd != 1)).Sublist (interpolateTrim n l) ∧
    ((interpolateTrim n l).filter (fun a => a.cmd == 1)).Sublist (l.filter (fun a => a.cmd == 1)) :=
  (C52_actual n l).keeps

example : interpolateTrim 2 [⟨0, 0, 0⟩, ⟨1, 0, 1⟩, ⟨2, 0, 1⟩, ⟨2, 0, 0⟩, ⟨3, 0, 1⟩, ⟨3, 0, 0⟩, ⟨3, 0, 2⟩, ⟨4, 0, 1⟩, ⟨5, 0, 1⟩, ⟨5, 0, 0⟩] =
    [⟨0, 0, 0⟩, ⟨0, 0, 2⟩, ⟨2, 0, 1⟩, ⟨2, 0, 0⟩, ⟨3, 0, 1⟩, ⟨3, 0, 0⟩, ⟨3, 0, 2⟩, ⟨4, 0, 1⟩, ⟨5, 0, 1⟩, ⟨5, 0, 0⟩] := by
  decide +kernel

/-- A run of three jumps at the end of the pattern gets no trim although two would be enough elsewhere. -/
theorem C52_last_run :
    interpolateTrim 3 [⟨0, 0, 0⟩, ⟨1, 0, 1⟩, ⟨2, 0, 1⟩, ⟨3, 0, 1⟩] = [⟨0, 0, 0⟩, ⟨3, 0, 1⟩] ∧
    interpolateTrim 3 [⟨0, 0, 0⟩, ⟨1, 0, 1⟩, ⟨2, 0, 1⟩, ⟨3, 0, 1⟩, ⟨3, 0, 0⟩] =
      [⟨0, 0, 0⟩, ⟨0, 0, 2⟩, ⟨3, 0, 1⟩, ⟨3, 0, 0⟩] := by
  decide +kernel

/-! ## C57 -/

section
variable {τ : Type}

/-- The STITCH commands of a stable pattern with the thread they are sewn in, `k` being the number of COLOR_BREAKs (0xE2) so
far: the first thread after the first one, and so on. -/
def stableSewn (T : List τ) : Nat → List Stitch → List (Stitch × Option τ)
  | _, [] => []
  | k, a :: l =>
    if a.low = 0 then (a, T[k - 1]?) :: stableSewn T k l
    else if a.low = 0xE2 then stableSewn T (k + 1) l
    else stableSewn T k l

def breaks (l : List Stitch) : Nat := l.countP (fun a => a.low == 0xE2)

theorem stableSewn_append (T : List τ) (a b : List Stitch) (k : Nat) :
    stableSewn T k (a ++ b) = stableSewn T k a ++ stableSewn T (k + breaks a) b := by
  induction a generalizing k with
  | nil => simp [stableSewn, breaks]
  | cons s a ih =>
    rw [List.cons_append, stableSewn, stableSewn]
    by_cases c1 : s.low = 0
    · rw [if_pos c1, if_pos c1, ih]
      simp [breaks, c1]
    · rw [if_neg c1, if_neg c1]
      by_cases c2 : s.low = 0xE2
      · rw [if_pos c2, if_pos c2, ih]
        simp only [breaks, List.countP_cons, c2, BEq.rfl, if_true]
        congr 2; omega
      · rw [if_neg c2, if_neg c2, ih]
        simp [breaks, c2]

theorem stableSewn_stitches (T : List τ) (blk : List Stitch) (h : ∀ a ∈ blk, a.low = 0) (k : Nat) (t : τ)
    (ht : T[k - 1]? = some t) : stableSewn T k blk = blk.map (fun a => (a, some t)) := by
  induction blk with
  | nil => rfl
  | cons s blk ih =>
    rw [stableSewn, if_pos (h s (by simp)), ih (fun a ha => h a (by simp [ha])), ht]
    rfl

theorem breaks_stitches (blk : List Stitch) (h : ∀ a ∈ blk, a.low = 0) : breaks blk = 0 := by
  unfold breaks
  rw [List.countP_eq_zero]
  intro a ha
  simp [h a ha]

/-- The commands added for one block. -/
theorem foldl_abs (blk : List Stitch) (b : Build τ) :
    (blk.foldl (fun b st => b.abs st.cmd st.x st.y) b).stitches = b.stitches ++ blk ∧
    (blk.foldl (fun b st => b.abs st.cmd st.x st.y) b).threads = b.threads := by
  induction blk generalizing b with
  | nil => simp
  | cons s blk ih =>
    rw [List.foldl_cons]
    refine ⟨?_, ?_⟩
    · rw [(ih _).1]; simp [Build.abs]
    · rw [(ih _).2]; rfl

variable [DecidableEq τ] (threads : List τ) (filler : Nat → τ)

theorem addBlock_spec (b : Build τ) (blk : List Stitch × τ) :
    ∃ s : Stitch, (b.addBlock blk).stitches = b.stitches ++ s :: blk.1 ∧
      ((s.cmd = 0xE2 ∧ b.threads.getLast? ≠ some blk.2 ∧ (b.addBlock blk).threads = b.threads ++ [blk.2]) ∨
       (s.cmd = 0xE1 ∧ b.threads.getLast? = some blk.2 ∧ (b.addBlock blk).threads = b.threads)) := by
  unfold Build.addBlock
  by_cases c : b.threads.getLast? ≠ some blk.2
  · simp only [if_pos c]
    rw [(foldl_abs _ _).1, (foldl_abs _ _).2]
    exact ⟨⟨b.px + 0, b.py + 0, COLOR_BREAK⟩, by simp [Build.rel, Build.abs], .inl ⟨rfl, c, rfl⟩⟩
  · simp only [if_neg c]
    rw [(foldl_abs _ _).1, (foldl_abs _ _).2]
    exact ⟨⟨b.px + 0, b.py + 0, SEQUENCE_BREAK⟩, by simp [Build.rel, Build.abs], .inr ⟨rfl, by simpa using c, rfl⟩⟩

structure StableSpec (b : Build τ) (blocks : List (List Stitch × τ)) (r : Build τ) : Prop where
  threads : ∃ U, r.threads = b.threads ++ U
  stitches : ∃ S, r.stitches = b.stitches ++ S ∧
    (∀ F V, F = r.threads ++ V → stableSewn F b.threads.length S =
      (blocks.flatMap paint).map (fun p => (p.1, some p.2))) ∧
    (∀ a ∈ S, a.low = 0 ∨ a.cmd = 0xE2 ∨ a.cmd = 0xE1) ∧
    (blocks = [] → S = []) ∧ (blocks ≠ [] → ∃ s X, S = s :: X ∧ s.low ≠ 0 ∧ Runs (blocks.map (·.1)) X)
  chain : b.threads.IsChain (· ≠ ·) → r.threads.IsChain (· ≠ ·)

theorem foldl_addBlock (blocks : List (List Stitch × τ)) (hb : ∀ b ∈ blocks, ∀ a ∈ b.1, a.low = 0) (b : Build τ) :
    StableSpec b blocks (blocks.foldl Build.addBlock b) := by
  induction blocks generalizing b with
  | nil => exact ⟨⟨[], by simp⟩, ⟨[], by simp, by simp [stableSewn], by simp, by simp, by simp⟩, fun h => h⟩
  | cons blk blocks ih =>
    rw [List.foldl_cons]
    have hblk := hb blk (by simp)
    have := ih (fun b h => hb b (by simp [h])) (b.addBlock blk)
    generalize (blocks.foldl Build.addBlock (b.addBlock blk)) = r at this
    obtain ⟨⟨U, hU⟩, ⟨S, hS, hsew, hlow, hnil, hruns⟩, hch⟩ := this
    obtain ⟨s, hs, hcase⟩ := addBlock_spec b blk
    have hs0 : s.low ≠ 0 := by
      rcases hcase with ⟨h, -⟩ | ⟨h, -⟩ <;> simp [Stitch.low, h]
    refine ⟨?_, ⟨s :: blk.1 ++ S, by rw [hS, hs]; simp, ?_, ?_, by simp, ?_⟩, ?_⟩
    · rcases hcase with ⟨-, -, h⟩ | ⟨-, -, h⟩
      · exact ⟨[blk.2] ++ U, by rw [hU, h]; simp⟩
      · exact ⟨U, by rw [hU, h]⟩
    · intro F V hF
      rw [stableSewn_append, List.flatMap_cons, List.map_append]
      have e : stableSewn F b.threads.length (s :: blk.1) = (paint blk).map (fun p => (p.1, some p.2)) ∧
          b.threads.length + breaks (s :: blk.1) = (b.addBlock blk).threads.length := by
        rw [stableSewn, if_neg hs0]
        have hbr := breaks_stitches blk.1 hblk
        rcases hcase with ⟨h1, h2, h3⟩ | ⟨h1, h2, h3⟩
        · have hl : s.low = 0xE2 := by simp [Stitch.low, h1]
          rw [if_pos hl, stableSewn_stitches F blk.1 hblk _ blk.2]
          · refine ⟨by simp [paint], ?_⟩
            rw [h3]
            unfold breaks at hbr ⊢
            rw [List.countP_cons, hbr, hl]
            simp
          · rw [hF, hU, h3]
            simp
        · have hl : s.low ≠ 0xE2 := by simp [Stitch.low, h1]
          rw [if_neg hl, stableSewn_stitches F blk.1 hblk _ blk.2]
          · refine ⟨by simp [paint], ?_⟩
            rw [h3]
            unfold breaks at hbr ⊢
            rw [List.countP_cons, hbr]
            simp [hl]
          · have hpos : 0 < b.threads.length := by
              rw [List.length_pos_iff]
              intro h0; rw [h0] at h2; cases h2
            rw [hF, hU, h3, List.append_assoc, List.getElem?_append_left (by omega), ← h2, List.getLast?_eq_getElem?]
      rw [e.1, e.2, hsew F V hF]
    · intro a ha
      rw [List.mem_append, List.mem_cons] at ha
      rcases ha with (rfl | ha) | ha
      · rcases hcase with ⟨h, -⟩ | ⟨h, -⟩
        · exact .inr (.inl h)
        · exact .inr (.inr h)
      · exact .inl (hblk a ha)
      · exact hlow a ha
    · intro _
      refine ⟨s, blk.1 ++ S, rfl, hs0, ?_⟩
      by_cases hn : blocks = []
      · rw [hnil hn, hn]
        simpa using Runs.last [] blk.1 (by simp)
      · obtain ⟨s', X, rfl, hs', hX⟩ := hruns hn
        have := Runs.more [] blk.1 s' (blocks.map (·.1)) X (by simp) hs' hX
        simpa using this
    · intro h
      refine hch ?_
      rcases hcase with ⟨-, h2, h3⟩ | ⟨-, -, h3⟩
      · rw [h3, List.isChain_append]
        refine ⟨h, by simp, ?_⟩
        intro x hx y hy
        simp only [List.head?_cons, Option.mem_def, Option.some.injEq] at hy
        subst hy
        rintro rfl
        exact h2 hx
      · rw [h3]; exact h

/-- **C57.** A stable pattern holds only STITCH commands, COLOR_BREAKs (0xE2) and SEQUENCE_BREAKs (0xE1). Its STITCH commands are
those of the source in order, each in the same thread (thread `n` after the `n`-th COLOR_BREAK), divided into the same
runs; no two neighbours of its thread list are the same. -/
theorem C57_stable (l : List Stitch) :
    stableSewn (stable threads filler l).threads 0 (stable threads filler l).stitches =
      (colored threads filler 0 l).map (fun p => (p.1, some p.2)) ∧
    (∀ a ∈ (stable threads filler l).stitches, a.low = 0 ∨ a.cmd = 0xE2 ∨ a.cmd = 0xE1) ∧
    (∃ runs, Runs runs l ∧ Runs runs (stable threads filler l).stitches ∧ ∀ b ∈ runs, b ≠ [] ∧ ∀ a ∈ b, a.low = 0) ∧
    (stable threads filler l).threads.IsChain (· ≠ ·) := by
  obtain ⟨h1, h2, h3⟩ := C47_stitch_blocks threads filler l
  obtain ⟨-, ⟨S, hS, hsew, hlow, hnil, hruns⟩, hch⟩ := foldl_addBlock (stitchBlocks threads filler l) (fun b hb => (h3 b hb).2) {}
  have hS' : (stable threads filler l).stitches = S := by simpa [stable] using hS
  refine ⟨?_, ?_, ⟨_, h2, ?_, ?_⟩, ?_⟩
  · rw [hS', ← h1]
    exact hsew _ [] (by rw [List.append_nil]; rfl)
  · rw [hS']; exact hlow
  · rw [hS']
    by_cases hn : stitchBlocks threads filler l = []
    · rw [hnil hn, hn]; exact .nil _ (by simp)
    · obtain ⟨s, X, rfl, hs, hX⟩ := hruns hn
      exact hX.gap s hs
  · intro b hb
    rw [List.mem_map] at hb
    obtain ⟨x, hx, rfl⟩ := hb
    exact h3 x hx
  · exact hch (by simp)

end

example : (stable ['r', 'g'] (fun _ => '?')
      [⟨0, 0, 0⟩, ⟨1, 0, 2⟩, ⟨2, 0, 0⟩, ⟨2, 0, 5⟩, ⟨3, 0, 0⟩]).stitches =
    [⟨0, 0, 0xE2⟩, ⟨0, 0, 0⟩, ⟨0, 0, 0xE1⟩, ⟨2, 0, 0⟩, ⟨2, 0, 0xE2⟩, ⟨3, 0, 0⟩] := by decide +kernel

/-! ## C75 -/

/-- **C75**: `get_singleton_threadlist` keeps one thread of each run of equal threads: the list divides into runs of equal threads,
neighbouring runs differ, and the result is the first thread of each run. -/
theorem C75_singletons {τ : Type} {eqv : τ → τ → Bool} (hs : ∀ a b, eqv a b = true → eqv b a = true)
    (ht : ∀ a b c, eqv a b = true → eqv b c = true → eqv a c = true) (threads : List τ) :
    ∃ runs : List (τ × List τ), threads = runs.flatMap (fun r => r.1 :: r.2) ∧ (∀ r ∈ runs, ∀ t ∈ r.2, eqv t r.1 = true) ∧
      List.IsChain (fun a b => eqv a b = false) (runs.map Prod.fst) ∧
      singletons eqv none threads = runs.map Prod.fst := by
  -- after a thread `last`: the rest of its run, then the runs
  have key : ∀ (threads : List τ) (last : τ), ∃ (more : List τ) (runs : List (τ × List τ)),
      threads = more ++ runs.flatMap (fun r => r.1 :: r.2) ∧ (∀ t ∈ more, eqv t last = true) ∧
      (∀ r ∈ runs, ∀ t ∈ r.2, eqv t r.1 = true) ∧
      List.IsChain (fun a b => eqv a b = false) (last :: runs.map Prod.fst) ∧
      singletons eqv (some last) threads = runs.map Prod.fst := by
    intro threads
    induction threads with
    | nil => intro last; exact ⟨[], [], rfl, by simp, by simp, by simp, rfl⟩
    | cons t ts ih =>
      intro last
      obtain ⟨more, runs, e1, e2, e3, e4, e5⟩ := ih t
      by_cases c : eqv t last = true
      · refine ⟨t :: more, runs, by rw [e1]; rfl, ?_, e3, ?_, ?_⟩
        · intro x hx
          rcases List.mem_cons.1 hx with rfl | hx
          · exact c
          · exact ht _ _ _ (e2 x hx) c
        · cases runs with
          | nil => simp
          | cons r rs =>
            rw [List.map_cons, List.isChain_cons_cons] at e4 ⊢
            refine ⟨?_, e4.2⟩
            cases h : eqv last r.1 with
            | false => rfl
            | true => rw [ht _ _ _ c h] at e4; exact absurd e4.1 (by simp)
        · simp [singletons, c, e5]
      · refine ⟨[], (t, more) :: runs, by rw [e1]; simp, by simp, ?_, ?_, ?_⟩
        · intro r hr
          rcases List.mem_cons.1 hr with rfl | hr
          · exact e2
          · exact e3 r hr
        · rw [List.map_cons, List.isChain_cons_cons]
          refine ⟨?_, e4⟩
          cases h : eqv last t with
          | false => rfl
          | true => exact absurd (hs _ _ h) c
        · simp [singletons, c, e5]
  cases threads with
  | nil => exact ⟨[], rfl, by simp, by simp, rfl⟩
  | cons t ts =>
    obtain ⟨more, runs, e1, e2, e3, e4, e5⟩ := key ts t
    refine ⟨(t, more) :: runs, by rw [e1]; simp, ?_, e4, by simp [singletons, e5]⟩
    intro r hr
    rcases List.mem_cons.1 hr with rfl | hr
    · exact e2
    · exact e3 r hr

example : singletons (· == ·) none ['r', 'r', 'g', 'g', 'r'] = ['r', 'g', 'r'] := by decide

end Blocks
end Emb
