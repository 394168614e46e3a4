import Verif.Props.IdempotentProps
import Verif.Props.NeedleProps

/-!
# C33 for formats that select needles
-/

namespace Emb

variable {o : Settings} {lm : Libm} {threads : List Thread} {source out : List Stitch} {ths : List (Option Thread)}

/-- A NEEDLE_SET that states its thread and its needle. -/
def Stated (a : Stitch) : Prop :=
  ∃ t n, decodeCommand a.cmd = (9, some t, some n, none) ∧ encodeThreadChange 9 (some t) (some n) none = a.cmd

/-- What the planner notes about such a command. -/
def statedEntry (threads : List Thread) (a : Stitch) : Change :=
  ⟨some 9, (decodeCommand a.cmd).2.1, (decodeCommand a.cmd).2.2.1, some (threadOrFiller threads ((decodeCommand a.cmd).2.1.getD 0))⟩

/-- What it makes of that. -/
def statedFull (threads : List Thread) (a : Stitch) : Full :=
  ⟨9, (decodeCommand a.cmd).2.1.getD 0, (decodeCommand a.cmd).2.2.1.getD 0, threadOrFiller threads ((decodeCommand a.cmd).2.1.getD 0)⟩

/-- Commands of a pattern normalized with NEEDLE_SET as far as the planner cares. -/
def QuietN (a : Stitch) : Prop := a.low ≠ 5 ∧ a.low ≠ 226 ∧ a.low ≠ 16 ∧ (a.low = 9 → Stated a)

theorem isChangeN_iff {a : Stitch} (h : QuietN a) : isChange (cmdOf a.cmd) = true ↔ a.low = 9 := by
  obtain ⟨h1, h2, _⟩ := h
  rw [changes_iff]
  unfold Changes
  simp only [List.mem_cons, List.not_mem_nil, or_false]
  omega

theorem needleWords_cons (a : Stitch) (l : List Stitch) :
    needleWords (a :: l) = if a.low = 9 then a :: needleWords l else needleWords l := by
  unfold needleWords
  by_cases h : a.low = 9
  · rw [if_pos h, List.filter_cons_of_pos (p := fun a : Stitch => a.low == 9) (by simpa using h)]
  · rw [if_neg h, List.filter_cons_of_neg (p := fun a : Stitch => a.low == 9) (by simpa using h)]

theorem record_stated {a : Stitch} (h9 : a.low = 9) (hq : Stated a) (i : Option Int) (c : Change) :
    Change.record threads ⟨cmdOf a.cmd, (decodeCommand a.cmd).2.1, (decodeCommand a.cmd).2.2.1, (decodeCommand a.cmd).2.2.2, i⟩ c =
      statedEntry threads a := by
  obtain ⟨t, n, hd, _⟩ := hq
  have hf : cmdOf a.cmd = NEEDLE_SET := h9
  unfold Change.record statedEntry
  simp only [hd, hf, or_true, if_true]
  rfl

theorem nextIndexN {a : Stitch} (hq : QuietN a) {n : Nat} (hn : 1 ≤ n ∨ a.low = 9 ∨ isSewing (cmdOf a.cmd) = false) :
    nextIndex n a = if a.low = 9 then ((n + 1 : Nat) : Int) else (n : Int) := by
  unfold nextIndex
  by_cases h9 : a.low = 9
  · have hns : isSewing (cmdOf a.cmd) = false := by
      have e : cmdOf a.cmd = 9 := h9
      rw [e]; rfl
    simp only [hns, Bool.false_eq_true, and_false, if_false, if_pos ((isChangeN_iff hq).2 h9), if_pos h9]
    push_cast; rfl
  · simp only [if_neg (fun h => h9 ((isChangeN_iff hq).1 h)), if_neg h9]
    rw [if_neg]
    rintro ⟨h0, hw⟩
    rcases hn with h | h | h
    · omega
    · exact h9 h
    · rw [h] at hw; cases hw

theorem planEvent_stated {a : Stitch} (hq : QuietN a) (h9 : a.low = 9) (n : Nat) (plan : List (Int × Change)) (look : Int) :
    planEvent threads (plan, look) ⟨cmdOf a.cmd, (decodeCommand a.cmd).2.1, (decodeCommand a.cmd).2.2.1,
      (decodeCommand a.cmd).2.2.2, some (n : Int)⟩ =
    (upsert (n : Int) {} (fun _ => statedEntry threads a) plan, if (n : Int) ≥ look then (n : Int) + 1 else look) := by
  unfold planEvent
  simp only [if_neg (show ¬ cmdOf a.cmd = SET_CHANGE_SEQUENCE from hq.2.2.1), Option.getD_some]
  congr 2
  funext c
  exact record_stated h9 (hq.2.2.2 h9) _ c

theorem raw_needles_fold : ∀ (l : List Stitch) (n : Nat) (plan : List (Int × Change)) (look : Int), 1 ≤ n →
    (∀ k ∈ plan.map (·.1), k < (n : Int)) → (∀ a ∈ l, QuietN a) →
    ((events l n).foldl (planEvent threads) (plan, look)).1 =
      plan ++ ((needleWords l).zipIdx n).map (fun p => ((p.2 : Int), statedEntry threads p.1)) := by
  intro l
  induction l with
  | nil => intro n plan look _ _ _; simp [events, needleWords]
  | cons a l ih =>
    intro n plan look hn hp hq
    have hqa := hq a List.mem_cons_self
    have hr := fun x hx => hq x (List.mem_cons_of_mem a hx)
    rw [events_cons, if_neg (show ¬ cmdOf a.cmd = SET_CHANGE_SEQUENCE from hqa.2.2.1), nextIndexN hqa (.inl hn), needleWords_cons]
    by_cases h9 : a.low = 9
    · rw [if_pos ((isChangeN_iff hqa).2 h9), if_pos h9, if_pos h9, List.foldl_cons, planEvent_stated hqa h9,
        upsert_new _ _ _ _ (fun hm => absurd (hp _ hm) (by omega)), ih (n + 1) _ _ (by omega) ?_ hr, List.zipIdx_cons,
        List.map_cons, List.append_assoc]
      · rfl
      · intro k hk
        simp only [List.map_append, List.map_cons, List.map_nil, List.mem_append, List.mem_singleton] at hk
        rcases hk with hk | hk
        · have := hp k hk; omega
        · omega
    · rw [if_neg (fun h => h9 ((isChangeN_iff hqa).1 h)), if_neg h9, if_neg h9]
      exact ih n plan look hn hp hr

/-- Nothing is sewn before the first NEEDLE_SET: then the planner gives it the first place. -/
theorem raw_needles_lead : ∀ (l : List Stitch), (∀ a ∈ l, QuietN a) →
    (∀ pre a post, l = pre ++ a :: post → isSewing (cmdOf a.cmd) = true → ∃ b ∈ pre, b.low = 9) →
    rawPlan threads l = if needleWords l = [] then [(0, {})] else
      ((needleWords l).zipIdx 0).map (fun p => ((p.2 : Int), statedEntry threads p.1)) := by
  intro l
  unfold rawPlan
  induction l with
  | nil => intro _ _; rfl
  | cons a l ih =>
    intro hq hlead
    have hqa := hq a List.mem_cons_self
    have hr := fun x hx => hq x (List.mem_cons_of_mem a hx)
    have hns : isSewing (cmdOf a.cmd) = false := by
      rw [← Bool.not_eq_true]
      intro h
      obtain ⟨b, hb, _⟩ := hlead [] a l rfl h
      simp at hb
    have hni := nextIndexN hqa (n := 0) (.inr (.inr hns))
    rw [show (0 : Int) = ((0 : Nat) : Int) from rfl, events_cons,
      if_neg (show ¬ cmdOf a.cmd = SET_CHANGE_SEQUENCE from hqa.2.2.1), hni, needleWords_cons]
    by_cases h9 : a.low = 9
    · rw [if_pos ((isChangeN_iff hqa).2 h9), if_pos h9, if_pos h9, List.foldl_cons, planEvent_stated hqa h9,
        if_neg (List.cons_ne_nil a (needleWords l))]
      have hu : upsert ((0 : Nat) : Int) {} (fun _ => statedEntry threads a) [(((0 : Nat) : Int), ({} : Change))] =
          [(((0 : Nat) : Int), statedEntry threads a)] := rfl
      rw [hu, raw_needles_fold l (0 + 1) _ _ (by omega) (by simp) hr, List.zipIdx_cons, List.map_cons]
      rfl
    · rw [if_neg (fun h => h9 ((isChangeN_iff hqa).1 h)), if_neg h9, if_neg h9]
      refine ih hr ?_
      intro pre b post e h
      obtain ⟨c, hc, hc9⟩ := hlead (a :: pre) b post (by rw [e]; rfl) h
      rcases List.mem_cons.1 hc with rfl | hc
      · exact absurd hc9 h9
      · exact ⟨c, hc, hc9⟩

theorem fill_stated {limit : Int} (ti ni : Int) : ∀ (l : List Stitch) (n : Nat), (∀ a ∈ l, Stated a) →
    fillPlan threads 9 limit ((l.zipIdx n).map (fun p => ((p.2 : Int), statedEntry threads p.1))) ti ni =
      .ok ((l.zipIdx n).map (fun p => ((p.2 : Int), statedFull threads p.1))) := by
  intro l
  induction l with
  | nil => intro n _; rfl
  | cons a l ih =>
    intro n h
    obtain ⟨t, m, hd, _⟩ := h a List.mem_cons_self
    rw [List.zipIdx_cons, List.map_cons]
    unfold fillPlan
    have e : (if (statedEntry threads a).thread = none then ti + 1 else ti) = ti := by
      unfold statedEntry; simp [hd]
    have e' : (if (statedEntry threads a).needle = none then ni + 1 else ni) = ni := by
      unfold statedEntry; simp [hd]
    have f : fillOne threads 9 limit (statedEntry threads a) ti ni = .ok (statedFull threads a) := by
      unfold fillOne statedEntry statedFull
      simp only [hd]
      rfl
    rw [e, e', f, ih (n + 1) (fun x hx => h x (List.mem_cons_of_mem _ hx))]
    rfl

theorem dget_stated {β : Type} (f : Stitch → β) : ∀ (l : List Stitch) (n k : Nat) (w : Stitch), l[k]? = some w →
    dget ((n + k : Nat) : Int) ((l.zipIdx n).map (fun p => ((p.2 : Int), f p.1))) = some (f w) := by
  intro l
  induction l with
  | nil => intro n k w h; simp at h
  | cons a l ih =>
    intro n k w h
    rw [List.zipIdx_cons, List.map_cons]
    unfold dget
    cases k with
    | zero => simp at h; subst h; rw [if_pos (by simp)]
    | succ k =>
      rw [if_neg (by simp only; omega)]
      have := ih (n + 1) k w (by simpa using h)
      rw [show n + 1 + k = n + (k + 1) by omega] at this
      exact this

/-- The plan of a normalized pattern says what its NEEDLE_SETs say. -/
theorem buildPlan_stated {l : List Stitch} (hc : o.changeCommand = 9) (hl : 1 ≤ o.needleCount) (hq : ∀ a ∈ l, QuietN a)
    (hlead : ∀ pre a post, l = pre ++ a :: post → isSewing (cmdOf a.cmd) = true → ∃ b ∈ pre, b.low = 9) :
    ∃ plan, buildPlan o threads l = .ok plan ∧ ∀ (k : Nat) w, (needleWords l)[k]? = some w → ∃ f, dget (k : Int) plan = some f ∧
      encodeThreadChange 9 (some f.thread) (some f.needle) none = w.cmd := by
  unfold buildPlan
  rw [raw_needles_lead l hq hlead, hc]
  have hst : ∀ a ∈ needleWords l, Stated a := by
    intro a ha
    unfold needleWords at ha
    obtain ⟨h1, h2⟩ := List.mem_filter.1 ha
    exact (hq a h1).2.2.2 (by simpa using h2)
  by_cases hn : needleWords l = []
  · rw [if_pos hn]
    have ha : autoNeedle o.needleCount 1 = .ok 1 := by
      unfold autoNeedle; rw [if_neg (by omega)]
    refine ⟨[(0, ⟨9, 0, 1, threadOrFiller threads 0⟩)], ?_, by rw [hn]; simp⟩
    unfold fillPlan fillOne
    simp only [ha]
    rfl
  · rw [if_neg hn]
    refine ⟨_, fill_stated 0 1 _ 0 hst, ?_⟩
    intro k w hw
    refine ⟨statedFull threads w, ?_, ?_⟩
    · have := dget_stated (statedFull threads) (needleWords l) 0 k w hw
      rwa [Nat.zero_add] at this
    · obtain ⟨t, m, hd, he⟩ := hst w (List.mem_of_getElem? hw)
      unfold statedFull
      simp only [hd, Option.getD_some]
      exact he

/-- Which change is in force: one for every NEEDLE_SET so far. -/
def NeedleOrder (pre : List Stitch) (n : Int) : Prop := n + 1 = (needleWords pre).length

theorem follows_needles {cfg : Cfg} {l : List Stitch} (hc : cfg.change = NEEDLE_SET) (h5 : ∀ a ∈ l, a.low ≠ 5)
    (hp : ∀ (k : Nat) w, (needleWords l)[k]? = some w → ∃ f, dget (k : Int) cfg.plan = some f ∧
      encodeThreadChange 9 (some f.thread) (some f.needle) none = w.cmd)
    (hled : EachAt (fun pre a => a.low = 0 → ∃ b ∈ pre, b.low = 9) l) : Follows cfg NeedleOrder l := by
  have keep : ∀ (pre : List Stitch) (a : Stitch) (n : Int), a.low ≠ 9 → NeedleOrder pre n → NeedleOrder (pre ++ [a]) n := by
    intro pre a n h9 h
    unfold NeedleOrder at h ⊢
    rw [needleWords_append_no (by simpa using h9)]; exact h
  constructor
  · intro pre a post n _ _ _ h9 h
    exact keep pre a n h9 h
  · intro pre a post n _ h0 _ h
    exact keep pre a n (by omega) h
  · intro pre a post s e h0 h
    obtain ⟨b, hb, hb9⟩ := hled pre a post e h0
    have hne : s.order ≠ -1 := by
      intro hs
      unfold NeedleOrder at h
      have : b ∈ needleWords pre := by
        unfold needleWords; exact List.mem_filter.2 ⟨hb, by simpa using hb9⟩
      have := List.length_pos_of_mem this
      omega
    refine ⟨s.threads, s.order, ?_, keep pre a s.order (by omega) h⟩
    unfold declareNotTrimmed
    rw [if_neg hne]; rfl
  · intro pre a post s e h59 h hx hy
    have h9 : a.low = 9 := by
      have := h5 a (by rw [e]; simp)
      omega
    unfold NeedleOrder at h
    have hidx : (needleWords l)[(needleWords pre).length]? = some a := by
      have : needleWords (pre ++ a :: post) = needleWords pre ++ needleWords (a :: post) := by
        unfold needleWords; rw [List.filter_append]
      rw [e, this, needleWords_cons, if_pos h9, List.getElem?_append_right (le_refl _)]
      simp
    obtain ⟨f, hd, hw⟩ := hp _ a hidx
    refine ⟨s.threads, s.order + 1, ?_, ?_⟩
    · unfold nextChange
      rw [← h] at hd
      simp only [hd, hc]
      rw [if_neg (by decide)]
      have hw2 : (⟨s.nx, s.ny, encodeThreadChange NEEDLE_SET (some f.thread) (some f.needle) none⟩ : Stitch) = a := by
        have : encodeThreadChange NEEDLE_SET (some f.thread) (some f.needle) none = a.cmd := hw
        rw [this, ← hx, ← hy]
      simp only [if_true, hw2]
    · unfold NeedleOrder
      have : needleWords (pre ++ [a]) = needleWords pre ++ [a] := by
        unfold needleWords
        rw [List.filter_append]
        simp [h9]
      rw [this, List.length_append, List.length_singleton, h]
      push_cast; rfl

/-- Such settings with colour changes written as NEEDLE_SET, for a machine whose needle numbers fit a byte. -/
structure NeedleSettings (o : Settings) : Prop extends CoreSettings o where
  change : o.changeCommand = 9
  needles : 1 ≤ o.needleCount
  few : o.needleCount < 255

/-- **C33** for formats that select needles: normalizing a normalized pattern with the same settings gives the same commands
again, and keeps the threads. Here the source may state threads and needles, reorder its changes and begin with as many of
them as it likes: NEEDLE_SETs say all of it again. Partial: the conditions on the settings and the seven commands that change
them on the way, at most 254 change commands, and with `round` a first result on the grid. -/
theorem C33_needles_partial (hs : NeedleSettings o) (hlm : lm.Sound)
    (hlow : ∀ st ∈ source, st.low ∉ [0xD1, 0xD2, 0xD5, 0xD6, 0xD8, 0xF0, 0xF5])
    (hn : source.countP (fun st => st.low ∈ [5, 9, 226, 16]) ≤ 254)
    (h : encode o lm threads source = .ok (out, ths))
    (hround : o.round = true → ∀ a ∈ out, (∃ i : Int, a.x = i) ∧ ∃ j : Int, a.y = j)
    (threads2 : List Thread) : encode o lm threads2 out = .ok (out, threads2.map some) := by
  have hst : ∀ a ∈ out, a.low = 9 → Stated a := by
    intro a ha h9
    obtain ⟨t, n, h1, h2, h3, h4, e⟩ := needles_stated hs.sequins hs.change hs.needles hs.few hn h a ha h9
    exact ⟨t, n, by rw [e]; exact decode_needle h1 h2 h3 h4, e.symm⟩
  have hquiet : ∀ a ∈ out, QuietN a := by
    intro a ha
    have hkind := C21_low_level hs.sequins h a ha
    have hkinds := C21_kinds hs.sequins h a ha
    simp only [List.mem_cons, List.not_mem_nil, or_false] at hkind
    refine ⟨?_, by omega, by omega, hst a ha⟩
    intro h5
    have := hkinds.1 h5
    rw [hs.change] at this
    exact absurd this (by decide)
  obtain ⟨l, e, rfl, hready, hepos, hecmd, hlowe, hmem⟩ := encode_ready hs.toCoreSettings hlm (.inr hs.change) hlow h hround
  have hled : EachAt (fun pre a => a.low = 0 → ∃ b ∈ pre, b.low = 9) l :=
    fun pre a post e1 h0 => (hready pre a post e1).fixed.led hs.change h0
  have hsew : ∀ pre a post, l ++ [e] = pre ++ a :: post → isSewing (cmdOf a.cmd) = true → ∃ b ∈ pre, b.low = 9 := by
    intro pre a post e1 hw
    have hin : ∃ q, l = pre ++ a :: q := by
      rcases List.eq_nil_or_concat post with rfl | ⟨q, z, rfl⟩
      · obtain ⟨_, h2⟩ := List.append_inj' e1 rfl
        injection h2 with h2
        subst h2
        have : cmdOf e.cmd = 4 := hlowe
        rw [this] at hw; exact absurd hw (by decide)
      · refine ⟨q, ?_⟩
        have : l ++ [e] = (pre ++ a :: q) ++ [z] := by rw [e1]; simp
        exact (List.append_inj' this rfl).1
    obtain ⟨q, hq⟩ := hin
    have hr := hready pre a q hq
    have hk := hr.kind
    have hw := (sews_iff a).1 hw
    unfold Sews at hw
    simp only [List.mem_cons, List.not_mem_nil, or_false] at hk hw
    rcases (show a.low = 0 ∨ a.low = 7 by omega) with h0 | h7
    · exact hled pre a q hq h0
    · obtain ⟨b, hb, hb0⟩ := isCut_sewn (hr.fixed.eject h7)
      obtain ⟨p, r, rfl⟩ := List.append_of_mem hb
      obtain ⟨c, hc, hc9⟩ := hled p b (r ++ a :: q) (by rw [hq]; simp) hb0
      exact ⟨c, List.mem_append_left _ hc, hc9⟩
  obtain ⟨plan, hplan, hpw⟩ := buildPlan_stated (threads := threads2) hs.change hs.needles hquiet hsew
  have hnw : needleWords (l ++ [e]) = needleWords l := needleWords_append_no (by simp [hlowe])
  rw [hnw] at hpw
  obtain ⟨sf, hrun, hout⟩ := run_copy (o := o) (cfg := mkCfg o lm (l ++ [e]) plan)
    rfl rfl rfl (follows_needles hs.change (fun a ha => (hquiet a (List.mem_append_left _ ha)).1) hpw hled)
    hready hepos hecmd l [] 0 _ rfl (copied_init hs.toCoreSettings (R := NeedleOrder) rfl lm threads2)
  have hres : encode o lm threads2 (l ++ [e]) = .ok (l ++ [e], sf.threads) := by
    unfold encode
    rw [hplan]
    simp only
    rw [hrun]
    simp only
    rw [hout]
  rw [hres, C27_needle_mode hs.sequins hs.change hres]

/-! The hypotheses are met by a pattern with two changes before its first stitch, a stated needle, a reordering
(SET_CHANGE_SEQUENCE) and a stitch that is split. -/

/-- Three needles, stitches of at most 10. -/
def needleDemo : Settings := { threadChange := NEEDLE_SET, needleCount := 3, maxStitch := some 10, maxJump := some 10 }

def needleDemoSource : List Stitch :=
  [⟨0, 0, encodeThreadChange 16 (some 4) none (some 1)⟩, ⟨0, 0, 5⟩, ⟨0, 0, encodeThreadChange 9 none (some 7) none⟩, ⟨0, 0, 0⟩,
   ⟨15, 0, 0⟩, ⟨0, 0, 226⟩, ⟨20, 0, 0⟩, ⟨0, 0, 4⟩]

example : NeedleSettings needleDemo :=
  { sequins := fun c h => by simp [needleDemo] at h
    change := by decide
    needles := by decide
    few := by decide
    translate := rfl
    scale := rfl
    rotate := rfl
    tieOn := by decide
    tieOff := by decide
    limits := .inr ⟨10, by norm_num, rfl, rfl, by decide⟩ }

example : (∀ st ∈ needleDemoSource, st.low ∉ [0xD1, 0xD2, 0xD5, 0xD6, 0xD8, 0xF0, 0xF5]) ∧
    needleDemoSource.countP (fun st => st.low ∈ [5, 9, 226, 16]) ≤ 254 := by decide +kernel

def needleDemoOut : List Stitch :=
  [⟨0, 0, 131337⟩, ⟨0, 0, 525577⟩, ⟨0, 0, 0⟩, ⟨15/2, 0, 1⟩, ⟨15, 0, 0⟩, ⟨15, 0, 197129⟩, ⟨20, 0, 0⟩, ⟨20, 0, 4⟩]

example : encode needleDemo demoLm [] needleDemoSource = .ok (needleDemoOut, []) := by decide +kernel

example : encode needleDemo demoLm [] needleDemoOut = .ok (needleDemoOut, []) := by decide +kernel

end Emb
