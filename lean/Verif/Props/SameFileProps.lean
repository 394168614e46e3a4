import Verif.Props.WordProps
import Verif.Props.IdempotentProps
import Verif.Props.ExpProps
import Verif.Props.ConvertProps

/-!
# C124: a file that was saved, loaded and saved again is the same file
-/

namespace Emb

/-! ## Specification -/

/-- A design that loses nothing in a file without speeds and stops: nothing in it stops the machine (3, 0xE9), switches lock stitches on
(0xD1, 0xD2), changes a length limit (0xD5, 0xD6), switches explicit trims off (0xD8), stops the splitting of long stitches (0xF0) or switches
sequins on (0xF5); and at most one change comes before anything is sewn. Changes may ask for any thread and needle, in any order. -/
structure Lasting (source : List Stitch) : Prop where
  low : ∀ st ∈ source, st.low ∉ [3, 0xE9, 0xD1, 0xD2, 0xD5, 0xD6, 0xD8, 0xF0, 0xF5]
  lead : ∀ p a q, source = p ++ a :: q → Changes a → (∃ b ∈ p, b.low = 5 ∨ b.low = 9) → ∃ b ∈ p, Sews b

namespace SameFile

open Setting

/-! ## Rewording the changes -/

/-- The same stitch; the word may differ if it is a colour change. -/
def Reworded (a b : Stitch) : Prop := SameCommand a b ∧ (a.low ≠ 5 → a.cmd = b.cmd)

/-- The words of the changes replaced by those the encoder writes. -/
def reword (limit : Int) : Nat → List Stitch → List Stitch
  | _, [] => []
  | k, a :: l => if a.low = 5 then ⟨a.x, a.y, plainWord limit (k + 1 : Nat)⟩ :: reword limit (k + 1) l else a :: reword limit k l

theorem plainWord_low (limit k : Int) : plainWord limit k % 256 = 5 := encodeThreadChange_low 5 (by decide) (by decide) _ _ _

theorem reword_rel (limit : Int) : ∀ (l : List Stitch) (k : Nat), List.Forall₂ Reworded l (reword limit k l)
  | [], _ => .nil
  | a :: l, k => by
    unfold reword
    split_ifs with h
    · exact .cons ⟨⟨rfl, rfl, h.trans (plainWord_low _ _).symm⟩, fun n => absurd h n⟩ (reword_rel limit l _)
    · exact .cons ⟨⟨rfl, rfl, rfl⟩, fun _ => rfl⟩ (reword_rel limit l _)

theorem reword_words (limit : Int) : ∀ (l : List Stitch) (k : Nat) (pre : List Stitch) (a : Stitch) (post : List Stitch),
    reword limit k l = pre ++ a :: post → a.low = 5 → a.cmd = plainWord limit (k + changes pre + 1)
  | [], _, pre, a, post, h, _ => by simp [reword] at h
  | b :: l, k, pre, a, post, h, h5 => by
    unfold reword at h
    cases pre with
    | nil =>
      split_ifs at h with hb
      · simp only [List.nil_append, List.cons.injEq] at h
        rw [← h.1]
        simp [changes]
      · simp only [List.nil_append, List.cons.injEq] at h
        exact absurd (h.1 ▸ h5) hb
    | cons c pre =>
      split_ifs at h with hb
      · simp only [List.cons_append, List.cons.injEq] at h
        have := reword_words limit l (k + 1) pre a post h.2 h5
        rw [this]
        have hc : c.low = 5 := by rw [← h.1]; exact plainWord_low _ _
        have : changes (c :: pre) = changes pre + 1 := by unfold changes; simp [hc]
        rw [this]
        congr 1
        push_cast
        ring
      · simp only [List.cons_append, List.cons.injEq] at h
        have := reword_words limit l k pre a post h.2 h5
        rw [this]
        have hc : c.low ≠ 5 := by rw [← h.1]; exact hb
        have : changes (c :: pre) = changes pre := by unfold changes; simp [hc]
        rw [this]

theorem split_rel {S : Stitch → Stitch → Prop} : ∀ (pre' : List Stitch) {l rest' : List Stitch}, List.Forall₂ S l (pre' ++ rest') →
    ∃ pre rest, l = pre ++ rest ∧ List.Forall₂ S pre pre' ∧ List.Forall₂ S rest rest'
  | [], l, rest', h => ⟨[], l, rfl, .nil, h⟩
  | b :: pre', l, rest', h => by
    cases h with
    | cons ha hr =>
      obtain ⟨pre, rest, rfl, h1, h2⟩ := split_rel pre' hr
      exact ⟨_ :: pre, rest, rfl, .cons ha h1, h2⟩

theorem eachAt_rel {S : Stitch → Stitch → Prop} {P Q : List Stitch → Stitch → Prop} {l l' : List Stitch} (h : List.Forall₂ S l l')
    (hP : EachAt P l) (hPQ : ∀ pre pre' a a', List.Forall₂ S pre pre' → S a a' → P pre a → Q pre' a') : EachAt Q l' := by
  intro pre' a' post' e
  subst e
  obtain ⟨pre, rest, rfl, h1, h2⟩ := split_rel pre' h
  cases h2 with
  | cons ha hr => exact hPQ _ _ _ _ h1 ha (hP _ _ _ rfl)

theorem isCut_rel {l l' : List Stitch} (h : List.Forall₂ Reworded l l') : isCut l' = isCut l := by
  have : ∀ t, l'.foldl (fun t a => if a.low = 0 then false else if a.low = 2 ∨ a.low = 3 ∨ a.low = 5 ∨ a.low = 9 then true else t) t =
      l.foldl (fun t a => if a.low = 0 then false else if a.low = 2 ∨ a.low = 3 ∨ a.low = 5 ∨ a.low = 9 then true else t) t := by
    induction h with
    | nil => exact fun _ => rfl
    | cons h _ ih => intro t; simp only [List.foldl_cons, h.1.2.2, ih]
  exact this true

theorem sequinOn_rel {l l' : List Stitch} (h : List.Forall₂ Reworded l l') : sequinOn l' = sequinOn l := by
  unfold sequinOn
  congr 2
  induction h with
  | nil => rfl
  | cons h _ ih => simp only [List.countP_cons, h.1.2.2, ih]

theorem changes_rel {l l' : List Stitch} (h : List.Forall₂ Reworded l l') : changes l' = changes l := by
  unfold changes
  induction h with
  | nil => rfl
  | cons h _ ih => simp only [List.countP_cons, h.1.2.2, ih]

theorem lastPos_rel {l l' : List Stitch} (h : List.Forall₂ Reworded l l') : lastPos l' = lastPos l := by
  unfold lastPos
  have hg : Option.Rel Reworded l.getLast? l'.getLast? := by
    induction h with
    | nil => exact .none
    | cons h hr ih =>
      cases hr with
      | nil => exact .some h
      | cons h' hr' => simpa [List.getLast?_cons_cons] using ih
  revert hg
  generalize l.getLast? = a
  generalize l'.getLast? = b
  intro hg
  cases hg with
  | none => rfl
  | some h => simp [h.1.1, h.1.2.1]

theorem mem_low {l l' : List Stitch} (h : List.Forall₂ Reworded l l') {c : Int} (hc : ∃ b ∈ l, b.low = c) : ∃ b ∈ l', b.low = c := by
  induction h with
  | nil => obtain ⟨b, hb, _⟩ := hc; simp at hb
  | cons h _ ih =>
    obtain ⟨b, hb, e⟩ := hc
    rcases List.mem_cons.1 hb with rfl | hb
    · exact ⟨_, List.mem_cons_self .., h.1.2.2 ▸ e⟩
    · obtain ⟨b, hb, e⟩ := ih ⟨b, hb, e⟩
      exact ⟨b, List.mem_cons_of_mem _ hb, e⟩

theorem ready_rel {o : Settings} {pre pre' : List Stitch} {a a' : Stitch} (hp : List.Forall₂ Reworded pre pre') (ha : Reworded a a')
    (h : Ready o pre a) : Ready o pre' a' := by
  obtain ⟨⟨hx, hy, hl⟩, hw⟩ := ha
  refine ⟨⟨?_, ?_, ?_, ?_, ?_, ?_⟩, ?_, ?_, ?_, ?_, ?_, ?_, ?_, ?_⟩
  · rw [← hl, isCut_rel hp]; exact h.fixed.trim
  · rw [← hl, isCut_rel hp]; exact h.fixed.eject
  · rw [← hl, isCut_rel hp]; exact h.fixed.change
  · rw [← hl, isCut_rel hp, lastPos_rel hp, ← hx, ← hy]; exact h.fixed.full
  · rw [← hl]
    intro h5 h9
    rw [← hw h5]
    exact h.fixed.word h5 h9
  · rw [← hl]
    exact fun e e0 => mem_low hp (h.fixed.led e e0)
  · rw [← hl]; exact h.kind
  · rw [← hl, lastPos_rel hp, ← hx, ← hy]; exact h.here
  · rw [lastPos_rel hp, ← hx, ← hy]; exact h.near
  · rw [← hl, sequinOn_rel hp]; exact h.off
  · rw [← hl, sequinOn_rel hp]; exact h.on
  · rw [← hl]; exact h.util
  · rw [← hl]; exact h.speed
  · rw [← hx, ← hy]; exact h.grid

/-! ## The places in the plan -/

theorem raw_keys_fold {threads : List Thread} : ∀ (l : List Stitch) (n : Nat)
    (plan : List (Int × Change)) (look : Int), 1 ≤ n → (∀ k ∈ plan.map (·.1), k < (n : Int)) → (∀ a ∈ l, Quiet a) →
    ((events l n).foldl (planEvent threads) (plan, look)).1.map (·.1) =
      plan.map (·.1) ++ (List.range' n (changes l)).map (fun k : Nat => (k : Int)) := by
  intro l
  induction l with
  | nil => intro n plan look _ _ _; simp [events, changes]
  | cons a l ih =>
    intro n plan look hn hp hq
    have hqa := hq a List.mem_cons_self
    have hr := fun x hx => hq x (List.mem_cons_of_mem a hx)
    rw [events_cons, if_neg (show ¬ cmdOf a.cmd = SET_CHANGE_SEQUENCE from hqa.2.2)]
    by_cases h5 : a.low = 5
    · have h2 := (isChange_iff hqa).2 h5
      have hns : isSewing (cmdOf a.cmd) = false := by
        have e : cmdOf a.cmd = 5 := h5
        rw [e]; rfl
      have hni : nextIndex n a = ((n + 1 : Nat) : Int) := by
        unfold nextIndex
        simp only [hns, Bool.false_eq_true, and_false, if_false, if_pos h2]
        push_cast; rfl
      have hc : changes (a :: l) = changes l + 1 := by unfold changes; simp [h5]
      rw [if_pos h2, List.foldl_cons, hni, hc]
      obtain ⟨c, look', hpe⟩ : ∃ c look', planEvent threads (plan, look) ⟨cmdOf a.cmd, (decodeCommand a.cmd).2.1, (decodeCommand a.cmd).2.2.1,
          (decodeCommand a.cmd).2.2.2, some (n : Int)⟩ = (plan ++ [((n : Int), c)], look') := by
        unfold planEvent
        simp only [if_neg (show ¬ cmdOf a.cmd = SET_CHANGE_SEQUENCE from hqa.2.2), Option.getD_some]
        rw [upsert_new _ _ _ _ (fun hm => absurd (hp _ hm) (by omega))]
        exact ⟨_, _, rfl⟩
      rw [hpe, ih (n + 1) _ _ (by omega) ?_ hr]
      · rw [List.range'_succ, List.map_cons, List.map_append, List.append_assoc]; rfl
      · intro k hk
        simp only [List.map_append, List.map_cons, List.map_nil, List.mem_append, List.mem_singleton] at hk
        rcases hk with hk | hk
        · have := hp k hk; omega
        · omega
    · have h2 : ¬ isChange (cmdOf a.cmd) = true := fun h => h5 ((isChange_iff hqa).1 h)
      have hni : nextIndex n a = (n : Int) := by
        unfold nextIndex
        simp only [if_neg h2]
        rw [if_neg (by omega)]
      have hc : changes (a :: l) = changes l := by unfold changes; simp [h5]
      rw [if_neg h2, hni, hc]
      exact ih n plan look hn hp hr

theorem raw_keys (threads : List Thread) {l : List Stitch} (hq : ∀ a ∈ l, Quiet a)
    (hlead : EachAt (fun pre a => a.low = 5 → ∃ b ∈ pre, b.low = 0) l) :
    (rawPlan threads l).map (·.1) = (List.range (changes l + 1)).map (fun k : Nat => (k : Int)) := by
  unfold rawPlan
  rw [events_lead l hq hlead]
  have := raw_keys_fold (threads := threads) l 1 [(0, {})] 0 (le_refl _) (by simp) hq
  rw [show ((1 : Nat) : Int) = 1 from rfl] at this
  rw [this, List.range_eq_range', List.range'_succ]
  rfl

/-! ## Copying -/

theorem trans_same {a b c : List Stitch} (h : List.Forall₂ SameCommand a b) (h' : List.Forall₂ SameCommand b c) :
    List.Forall₂ SameCommand a c := by
  induction h generalizing c with
  | nil => exact h'
  | cons h _ ih =>
    cases h' with
    | cons g hr => exact .cons ⟨h.1.trans g.1, h.2.1.trans g.2.1, h.2.2.trans g.2.2⟩ (ih hr)

/-- A pattern that a second pass could copy is copied, up to the words of its changes, whatever these words are. -/
theorem copy_words {o : Settings} (hs : PlainSettings o) (lm : Libm) (threads : List Thread) {l : List Stitch} {e : Stitch}
    (hready : EachAt (Ready o) l) (hepos : (e.x, e.y) = lastPos l) (hecmd : e.cmd = 4 + flagsOf e.cmd) (hq : ∀ a ∈ l, Quiet a)
    (hlead : EachAt (fun pre a => a.low = 5 → ∃ b ∈ pre, b.low = 0) l) :
    ∃ out ths, encode o lm threads (l ++ [e]) = .ok (out, ths) ∧ List.Forall₂ SameCommand (l ++ [e]) out := by
  have hrel := reword_rel o.needleCount l 0
  set l' := reword o.needleCount 0 l with hl'
  have helow : e.low = 4 := by
    have : cmdOf (4 + flagsOf e.cmd) = 4 := by unfold cmdOf flagsOf; omega
    rw [← hecmd] at this; exact this
  have hready' : EachAt (Ready o) l' := eachAt_rel hrel hready fun _ _ _ _ hp ha h => ready_rel hp ha h
  have hlead' : EachAt (fun pre a => a.low = 5 → ∃ b ∈ pre, b.low = 0) l' :=
    eachAt_rel hrel hlead fun _ _ _ _ hp ha h h5 => mem_low hp (h (ha.1.2.2.trans h5))
  have hq' : ∀ a ∈ l', a.low ≠ 9 := by
    have : ∀ {l l' : List Stitch}, List.Forall₂ Reworded l l' → (∀ a ∈ l, Quiet a) → ∀ a ∈ l', a.low ≠ 9 := by
      intro l l' h
      induction h with
      | nil => intro _ a ha; simp at ha
      | cons h _ ih =>
        intro hq a ha
        rcases List.mem_cons.1 ha with rfl | ha
        · rw [← h.1.2.2]; exact (hq _ (List.mem_cons_self ..)).1
        · exact ih (fun b hb => hq b (List.mem_cons_of_mem _ hb)) a ha
    exact this hrel hq
  have hword : EachAt (fun pre a => a.low = 5 → a.cmd = plainWord o.needleCount (changes pre + 1) ∧ ∃ b ∈ pre, b.low = 0) l' := by
    intro pre a post e1 h5
    refine ⟨?_, hlead' pre a post e1 h5⟩
    have := reword_words o.needleCount l 0 pre a post (hl' ▸ e1) h5
    simpa using this
  have hch : changes l' = changes l := changes_rel hrel
  obtain ⟨sf, hrun, hout⟩ := run_copy (o := o) (cfg := mkCfg o lm (l' ++ [e]) (plainPlan threads o.needleCount (changes l' + 1)))
    rfl rfl rfl (follows_colors (o := o) (threads := threads) hs.change rfl hq' hword)
    hready' (by rw [lastPos_rel hrel]; exact hepos) hecmd l' [] 0 _ rfl (copied_init hs.toCoreSettings ⟨rfl, .inl rfl⟩ lm threads)
  have hquiet : ∀ a ∈ l ++ [e], Quiet a := by
    intro a ha
    rcases List.mem_append.1 ha with ha | ha
    · exact hq a ha
    · simp at ha; subst ha; unfold Quiet; omega
  have hleade : EachAt (fun pre a => a.low = 5 → ∃ b ∈ pre, b.low = 0) (l ++ [e]) := eachAt_snoc.2 ⟨hlead, fun h => by omega⟩
  have hchl : changes (l ++ [e]) = changes l := by rw [changes_snoc, if_neg (by omega)]; simp
  obtain ⟨p, hp⟩ : ∃ p, buildPlan o threads (l ++ [e]) = .ok p := by
    cases hp : buildPlan o threads (l ++ [e]) with
    | ok p => exact ⟨p, rfl⟩
    | error x =>
      have := (fillPlan_err _ _ _ _ hp).2
      have := hs.needles
      omega
  have hkeys : p.map (·.1) = (plainPlan threads o.needleCount (changes l' + 1)).map (·.1) := by
    rw [fillPlan_keys _ _ _ _ hp, raw_keys threads hquiet hleade, hchl, hch]
    unfold plainPlan
    rw [List.map_map]
    rfl
  have hsame : List.Forall₂ SameCommand (l ++ [e]) (l' ++ [e]) :=
    List.rel_append (hrel.imp fun _ _ h => h.1) (.cons ⟨rfl, rfl, rfl⟩ .nil)
  let F : Word.Frame := ⟨False, False⟩
  have w : Word.World F (mkCfg o lm (l ++ [e]) p) (mkCfg o lm (l' ++ [e]) (plainPlan threads o.needleCount (changes l' + 1))) :=
    ⟨rfl, hsame, False.elim, Word.dget_keys hkeys⟩
  have hi : Word.Sim F (initSt o lm threads) (initSt o lm threads) :=
    ⟨⟨[], (initSt o lm threads).threads, 0⟩, rfl, ⟨.nil, rfl, rfl, .inr ⟨hs.tieOn, hs.tieOff⟩, False.elim⟩⟩
  have hr := Word.run w hsame 0 hi fun a ha => .inr (by
    rcases List.mem_append.1 ha with ha | ha
    · obtain ⟨pre, post, rfl⟩ := List.append_of_mem ha
      have := (hready pre a post rfl).kind
      unfold Stitch.low at this
      simp only [List.mem_cons, List.not_mem_nil, or_false] at this
      omega
    · simp at ha; subst ha
      have : a.cmd % 256 = 4 := helow
      omega)
  rw [hrun] at hr
  unfold encode
  rw [hp]
  simp only
  revert hr
  generalize runFrom (mkCfg o lm (l ++ [e]) p) 0 (initSt o lm threads) (l ++ [e]) = x
  intro hr
  cases hr with
  | ok h =>
    rename_i s
    obtain ⟨k, hk, h⟩ := h
    refine ⟨_, _, rfl, ?_⟩
    have hko : k.out = l' ++ [e] := by
      rw [← hout, hk]; rfl
    have h1 : List.Forall₂ SameCommand s.out (l' ++ [e]) := hko ▸ h.out
    have hflip : List.Forall₂ SameCommand (l' ++ [e]) s.out := h1.flip.imp fun _ _ h => ⟨h.1.symm, h.2.1.symm, h.2.2.symm⟩
    exact trans_same hsame hflip

/-! ## Rounded positions -/

/-- A stitch and its rounded copy stand at the same place among their own: the first list moved by whole records. -/
theorem placed_snoc (l : List Stitch) (a : Stitch) : ∃ r ∈ deltas 0 0 (l ++ [a]), r.cmd = cmdOf a.cmd ∧
    deltas 0 0 (l ++ [a]) = deltas 0 0 l ++ [r] ∧ ((a.x, a.y) = lastPos l → r.dx = 0 ∧ r.dy = 0) := by
  have : ∀ (l p : List Stitch) (xx yy : Int), |(xx : ℚ) - (lastPos p).1| ≤ 1 / 2 → |(yy : ℚ) - (lastPos p).2| ≤ 1 / 2 →
      ∃ r, r.cmd = cmdOf a.cmd ∧ deltas xx yy (l ++ [a]) = deltas xx yy l ++ [r] ∧
        ((a.x, a.y) = lastPos (p ++ l) → r.dx = 0 ∧ r.dy = 0) := by
    intro l
    induction l with
    | nil =>
      intro p xx yy hx hy
      refine ⟨_, rfl, rfl, fun e => ?_⟩
      rw [List.append_nil] at e
      rw [← e] at hx hy
      exact ⟨round_zero hx, round_zero hy⟩
    | cons b l ih =>
      intro p xx yy hx hy
      obtain ⟨r, h1, h2, h3⟩ := ih (p ++ [b]) (xx + pyRound (b.x - xx)) (yy + pyRound (b.y - yy))
        (by rw [lastPos_snoc]; exact round_near _ _) (by rw [lastPos_snoc]; exact round_near _ _)
      refine ⟨r, h1, by simp only [List.cons_append, deltas, h2], fun e => h3 (by rw [e]; simp)⟩
  obtain ⟨r, h1, h2, h3⟩ := this l [] 0 0 (by simp) (by simp)
  exact ⟨r, by rw [h2]; simp, h1, h2, by simpa using h3⟩

theorem placeEnd_last (rs : List Rec) : placeEnd 0 0 rs = lastPos (place 0 0 rs) := by
  induction rs using List.reverseRecOn with
  | nil => rfl
  | append_singleton rs r _ => rw [placeEnd_append, place_append]; simp [placeEnd, place]

/-- The rounded design. -/
def rounded (l : List Stitch) : List Stitch := place 0 0 (deltas 0 0 l)

theorem rounded_snoc (l : List Stitch) (a : Stitch) : ∃ r ∈ deltas 0 0 (l ++ [a]), r.cmd = cmdOf a.cmd ∧
    rounded (l ++ [a]) = rounded l ++ [⟨(lastPos (rounded l)).1 + r.dx, (lastPos (rounded l)).2 + r.dy, cmdOf a.cmd⟩] ∧
    ((a.x, a.y) = lastPos l → r.dx = 0 ∧ r.dy = 0) := by
  obtain ⟨r, h0, h1, h2, h3⟩ := placed_snoc l a
  refine ⟨r, h0, h1, ?_, h3⟩
  unfold rounded
  rw [h2, place_append, placeEnd_last]
  simp only [place, h1]

theorem whole_rounded (l : List Stitch) : ∀ a ∈ rounded l, IsInt a.x ∧ IsInt a.y := by
  have : ∀ (rs : List Rec) (x y : Int), ∀ a ∈ place x y rs, IsInt a.x ∧ IsInt a.y := by
    intro rs
    induction rs with
    | nil => intro x y a ha; simp [place] at ha
    | cons r rs ih =>
      intro x y a ha
      have ih := ih (x + r.dx) (y + r.dy)
      push_cast at ih
      rcases List.mem_cons.1 ha with rfl | ha
      · exact ⟨⟨x + r.dx, by push_cast; rfl⟩, ⟨y + r.dy, by push_cast; rfl⟩⟩
      · exact ih a ha
  have h := this (deltas 0 0 l) 0 0
  exact_mod_cast h

theorem rounded_low (l : List Stitch) : List.Forall₂ (fun a b : Stitch => b.cmd = a.low) l (rounded l) := by
  have := place_deltas_near l 0 0
  norm_num at this
  exact this.imp fun a b h => h.2.2

theorem rounded_cut (l : List Stitch) : isCut (rounded l) = isCut l := by
  induction l using List.reverseRecOn with
  | nil => rfl
  | append_singleton l a ih =>
    obtain ⟨r, _, _, h, _⟩ := rounded_snoc l a
    have : (⟨(lastPos (rounded l)).1 + r.dx, (lastPos (rounded l)).2 + r.dy, cmdOf a.cmd⟩ : Stitch).low = a.low := by
      unfold Stitch.low cmdOf; simp
    rw [h, isCut_snoc, isCut_snoc, this, ih]

theorem rounded_mem {l : List Stitch} {c : Int} (h : ∃ b ∈ l, b.low = c) : ∃ b ∈ rounded l, b.low = c := by
  have hr := rounded_low l
  revert h hr
  generalize rounded l = m
  intro h hr
  revert h
  induction hr with
  | nil => rintro ⟨b, hb, _⟩; simp at hb
  | cons h _ ih =>
    rintro ⟨b, hb, e⟩
    rcases List.mem_cons.1 hb with rfl | hb
    · refine ⟨_, List.mem_cons_self .., ?_⟩
      unfold Stitch.low
      rw [h]
      unfold Stitch.low at e ⊢
      omega
    · obtain ⟨b, hb, e⟩ := ih ⟨b, hb, e⟩
      exact ⟨b, List.mem_cons_of_mem _ hb, e⟩

theorem place_cmds (rs : List Rec) : ∀ (x y : ℚ), ∀ b ∈ place x y rs, ∃ r ∈ rs, b.cmd = r.cmd := by
  induction rs with
  | nil => intro x y b hb; simp [place] at hb
  | cons r rs ih =>
    intro x y b hb
    rcases List.mem_cons.1 hb with rfl | hb
    · exact ⟨r, by simp, rfl⟩
    · obtain ⟨q, hq, e⟩ := ih _ _ b hb
      exact ⟨q, by simp [hq], e⟩

theorem rounded_ready {o : Settings} {M : Int} (hM : 0 ≤ M) (h1 : o.maxStitch = some (M : ℚ)) (h2 : o.maxJump = some (M : ℚ)) (h5 : o.changeCommand = 5)
    (l : List Stitch) : EachAt (Fixed o) l → (∀ r ∈ deltas 0 0 l, RecOK M r ∧ r.cmd ∈ [(0 : Int), 1, 2, 5]) →
    EachAt (Ready o) (rounded l) := by
  induction l using List.reverseRecOn with
  | nil => exact fun _ _ => eachAt_nil _
  | append_singleton l a ih =>
    intro hf hd
    obtain ⟨hf1, hf2⟩ := eachAt_snoc.1 hf
    obtain ⟨r, hm, hc, he, hz⟩ := rounded_snoc l a
    obtain ⟨r', _, _, hsplit, _⟩ := placed_snoc l a
    have hl : (⟨(lastPos (rounded l)).1 + r.dx, (lastPos (rounded l)).2 + r.dy, cmdOf a.cmd⟩ : Stitch).low = a.low := by
      unfold Stitch.low cmdOf; simp
    have hwhole := whole_rounded (l ++ [a])
    rw [he] at hwhole ⊢
    rw [eachAt_snoc]
    refine ⟨ih hf1 fun q hq => hd q (by rw [hsplit]; simp [hq]), ?_⟩
    obtain ⟨hok, hk⟩ := hd r hm
    have hk : a.low ∈ [(0 : Int), 1, 2, 5] := by rw [hc] at hk; exact hk
    simp only [List.mem_cons, List.not_mem_nil, or_false] at hk
    have hstay : a.low ≠ 0 → a.low ≠ 1 → r.dx = 0 ∧ r.dy = 0 := by
      intro n0 n1
      rcases hok with h | h
      · rw [hc] at h
        exact absurd h.1 (by rintro (e | e) <;> [exact n0 e; exact n1 e])
      · exact h.2
    have hno : ∀ c : Int, a.low = c → c ∉ [(0 : Int), 1, 2, 5] → False := fun c e n => n (by simp [← e, hk])
    refine ⟨⟨?_, ?_, ?_, ?_, ?_, ?_⟩, ?_, ?_, ?_, ?_, ?_, ?_, ?_, ?_⟩
    · rw [hl, rounded_cut]; exact hf2.trim
    · rw [hl, rounded_cut]; exact hf2.eject
    · rw [hl, rounded_cut]; exact hf2.change
    · rw [hl, rounded_cut]
      intro e0 ej ec
      obtain ⟨z1, z2⟩ := hz (hf2.full e0 ej ec)
      simp [z1, z2]
    · intro _ _
      rw [hl]
      unfold Stitch.low flagsOf cmdOf
      simp only
      omega
    · intro h9; rw [h5] at h9; exact absurd h9 (by decide)
    · rw [hl]; simp only [List.mem_cons, List.not_mem_nil, or_false]; omega
    · rw [hl]
      intro n0 n1 _
      obtain ⟨z1, z2⟩ := hstay n0 n1
      simp [z1, z2]
    · intro m hm
      have hmM : m = M := by
        rw [h1, h2] at hm
        rcases hm with hm | hm <;> (injection hm with hm; exact hm.symm)
      have hb : -M ≤ r.dx ∧ r.dx ≤ M ∧ -M ≤ r.dy ∧ r.dy ≤ M ∨ r.dx = 0 ∧ r.dy = 0 := hok.imp (·.2) (·.2)
      rw [hmM]
      simp only [add_sub_cancel_left]
      have hb : -M ≤ r.dx ∧ r.dx ≤ M ∧ -M ≤ r.dy ∧ r.dy ≤ M := by omega
      exact ⟨abs_le.2 ⟨by exact_mod_cast hb.1, by exact_mod_cast hb.2.1⟩, abs_le.2 ⟨by exact_mod_cast hb.2.2.1, by exact_mod_cast hb.2.2.2⟩⟩
    · intro _
      have : (rounded l).countP (fun a => a.low == 6) = 0 := by
        rw [List.countP_eq_zero]
        intro b hb h6
        obtain ⟨q, hq, e⟩ := place_cmds _ _ _ b hb
        have := (hd q (by rw [hsplit]; simp [hq])).2
        rw [← e] at this
        unfold Stitch.low at h6
        simp only [List.mem_cons, List.not_mem_nil, or_false, beq_iff_eq] at this h6
        omega
      unfold sequinOn
      rw [this]
      rfl
    · rw [hl]; exact fun e => (hno 7 e (by decide)).elim
    · rw [hl]; rintro (e | e) <;> exact (hno _ e (by decide)).elim
    · rw [hl]; rintro (e | e) <;> exact (hno _ e (by decide)).elim
    · exact fun _ => hwhole _ (by simp)

/-- Normalizing the rounded result of a normalization changes nothing but the threads and needles named. -/
theorem again {o : Settings} {lm : Libm} {threads : List Thread} {source out : List Stitch} {ths : List (Option Thread)} {M : Int}
    (hs : PlainSettings o) (hlm : lm.Sound) (hr : o.round = true) (hM : 0 < M) (h1 : o.maxStitch = some (M : ℚ)) (h2 : o.maxJump = some (M : ℚ))
    (h3 : o.longStitch = 0xF1 ∨ o.longStitch = 0xF2) (hq : o.sequin ≠ 0xF5) (hl : Lasting source)
    (h : encode o lm threads source = .ok (out, ths)) (hsp : ∀ a ∈ out, a.speed = false) (threads2 : List Thread) :
    (∃ out2 ths2, encode o lm threads2 (rounded out) = .ok (out2, ths2) ∧ List.Forall₂ SameCommand (rounded out) out2) ∧
      ∀ a ∈ rounded out, a.cmd ∈ [(0 : Int), 1, 2, 4, 5] := by
  have hlow : ∀ st ∈ source, st.low ≠ 3 ∧ st.low ≠ 0xE9 ∧ st.low ≠ 0xD1 ∧ st.low ≠ 0xD2 ∧ st.low ≠ 0xD5 ∧
      st.low ≠ 0xD6 ∧ st.low ≠ 0xD8 ∧ st.low ≠ 0xF0 ∧ st.low ≠ 0xF5 := by
    intro st hst
    have := hl.low st hst
    simpa using this
  have hplain : ∀ st ∈ source, PlainCmd st := fun st hst => by
    obtain ⟨_, _, a, b, _, _, c, _⟩ := hlow st hst
    exact ⟨c, a, b⟩
  obtain ⟨hlead, -, -⟩ : EachAt (fun p a => a.low = 5 → ∃ b ∈ p, b.low = 0) out ∧
      (changes out : Int) ≤ (source.countP (fun st => decide (Changes st)) : Nat) ∧
      ((∃ b ∈ out, b.low = 0) → ths.length = changes out + 1) := by
    obtain ⟨plan, sf, _, hr, rfl, rfl⟩ := encode_state h
    exact run_lead (o := o) (cfg := mkCfg o lm source plan) hs.change rfl rfl source [] 0 _ sf rfl
      (init_base o lm threads hs.sequins) (lead_init hs lm threads) hplain hl.lead hr
  obtain ⟨l, e, hle, hdel, hok⟩ := encoded_recs hM hlm hs.sequins hr h1 h2 h3 hq
    (fun st hst => by have := hlow st hst; omega) h
  obtain ⟨l', e', hle', hfix, hepos, -⟩ := encode_fixed hs.sequins (.inl hs.change) hs.tieOn hs.tieOff hplain h
  obtain ⟨rfl, rfl⟩ : l' = l ∧ e' = e := by
    have := List.append_inj' (hle'.symm.trans hle) rfl
    simpa using this
  subst hle
  have hrec : ∀ r ∈ deltas 0 0 l', RecOK M r ∧ r.cmd ∈ [(0 : Int), 1, 2, 5] := by
    intro r hr
    refine ⟨(hok r hr).1, ?_⟩
    have hcm : r.cmd ∈ (deltas 0 0 l').map (·.cmd) := List.mem_map.2 ⟨r, hr, rfl⟩
    rw [deltas_cmds] at hcm
    obtain ⟨a, ha, e1⟩ := List.mem_map.1 hcm
    have ha : a ∈ l' ++ [e'] := by simp [ha]
    have e1 : a.low = r.cmd := e1
    have k1 : a.low ≠ 3 := fun h3 => by
      rcases C21_stops hs.sequins h a ha h3 with h4 | ⟨st, hst, h4⟩
      · rw [hs.change] at h4; exact absurd h4 (by decide)
      · have := hlow st hst; omega
    have k2 : ¬ (a.low = 11 ∨ a.low = 12) := fun h11 => by
      have := hsp a ha
      unfold Stitch.speed at this
      simp only [Bool.or_eq_false_iff, beq_eq_false_iff_ne] at this
      omega
    have k3 : r.cmd ≠ 9 := fun h9 => by
      have := (hok r hr).2.2 h9
      rw [hs.change] at this; exact absurd this (by decide)
    have := (hok r hr).1
    unfold RecOK at this
    simp only [List.mem_cons, List.not_mem_nil, or_false]
    omega
  have hround : rounded (l' ++ [e']) = rounded l' ++ [⟨(lastPos (rounded l')).1, (lastPos (rounded l')).2, 4⟩] := by
    unfold rounded
    rw [hdel, place_append, placeEnd_last]
    simp [place]
  obtain ⟨hlead1, -⟩ := eachAt_snoc.1 hlead
  have hready := rounded_ready (by omega) h1 h2 hs.change l' hfix hrec
  have hkind : ∀ a ∈ rounded l', a.cmd ∈ [(0 : Int), 1, 2, 5] := fun a ha => by
    obtain ⟨q, hq, e1⟩ := place_cmds _ _ _ a ha
    exact e1 ▸ (hrec q hq).2
  rw [hround]
  refine ⟨?_, fun a ha => ?_⟩
  swap
  · rcases List.mem_append.1 ha with ha | ha
    · have := hkind a ha
      simp only [List.mem_cons, List.not_mem_nil, or_false] at this ⊢
      omega
    · simp only [List.mem_cons, List.not_mem_nil, or_false] at ha
      subst ha
      simp
  refine copy_words hs lm threads2 hready rfl (show (4 : Int) = 4 + flagsOf 4 by decide) (fun a ha => ?_) ?_
  · obtain ⟨q, hq, e1⟩ := place_cmds _ _ _ a ha
    have := (hrec q hq).2
    rw [← e1] at this
    simp only [List.mem_cons, List.not_mem_nil, or_false] at this
    unfold Quiet Stitch.low
    omega
  · clear hsp hkind hready hround hrec hok hdel hfix hepos hlead hle' h
    induction l' using List.reverseRecOn with
    | nil => exact eachAt_nil _
    | append_singleton l a ih =>
      obtain ⟨g1, g2⟩ := eachAt_snoc.1 hlead1
      obtain ⟨r, _, _, he, _⟩ := rounded_snoc l a
      rw [he, eachAt_snoc]
      refine ⟨ih g1, fun h5 => rounded_mem (g2 ?_)⟩
      have : (⟨(lastPos (rounded l)).1 + r.dx, (lastPos (rounded l)).2 + r.dy, cmdOf a.cmd⟩ : Stitch).low = a.low := by
        unfold Stitch.low cmdOf; simp
      exact this ▸ h5

theorem deltas_same {l l' : List Stitch} (h : List.Forall₂ SameCommand l l') : ∀ xx yy, deltas xx yy l' = deltas xx yy l := by
  induction h with
  | nil => exact fun _ _ => rfl
  | cons h _ ih =>
    intro xx yy
    unfold deltas
    simp only [← h.1, ← h.2.1, show cmdOf _ = cmdOf _ from h.2.2.symm, ih]

theorem deltas_rounded (l : List Stitch) : deltas 0 0 (rounded l) = deltas 0 0 l := by
  have : ∀ (rs : List Rec) (x y : Int), (∀ r ∈ rs, r.cmd % 256 = r.cmd) → deltas x y (place x y rs) = rs := by
    intro rs
    induction rs with
    | nil => exact fun _ _ _ => rfl
    | cons r rs ih =>
      intro x y hc
      have ih := ih (x + r.dx) (y + r.dy) fun q hq => hc q (by simp [hq])
      have e : ∀ a b : Int, pyRound ((a : ℚ) + b - a) = b := fun a b => by
        rw [show (a : ℚ) + b - a = ((b : Int) : ℚ) by ring]
        simp
      unfold place deltas
      simp only [e]
      push_cast at ih
      rw [ih]
      congr 1
      cases r
      simp only [cmdOf, Rec.mk.injEq, true_and]
      exact hc _ (List.mem_cons_self ..)
  have h := this (deltas 0 0 l) 0 0 (by
    intro r hr
    have hcm : r.cmd ∈ (deltas 0 0 l).map (·.cmd) := List.mem_map.2 ⟨r, hr, rfl⟩
    rw [deltas_cmds] at hcm
    obtain ⟨a, _, e⟩ := List.mem_map.1 hcm
    rw [← e]
    unfold cmdOf
    omega)
  exact_mod_cast h

end SameFile
namespace Exp

variable {o : Settings} {lm : Libm} {threads : List Thread} {source out : List Stitch} {ths : List (Option Thread)}

/-- SLOW and FAST, which do not move, leave no trace in the file. -/
theorem write_filter (l : List Stitch) (h : ∀ r ∈ deltas 0 0 l, r.cmd = 11 ∨ r.cmd = 12 → r.dx = 0 ∧ r.dy = 0) :
    write (l.filter fun a => !a.speed) = write l := by
  have : ∀ (l : List Stitch) (xx yy : Int), (∀ r ∈ deltas xx yy l, r.cmd = 11 ∨ r.cmd = 12 → r.dx = 0 ∧ r.dy = 0) →
      (deltas xx yy (l.filter fun a => !a.speed)).flatMap writeRec = (deltas xx yy l).flatMap writeRec := by
    intro l
    induction l with
    | nil => exact fun _ _ _ => rfl
    | cons a l ih =>
      intro xx yy h
      have ih' := ih (xx + pyRound (a.x - xx)) (yy + pyRound (a.y - yy)) (fun r hr => h r (by unfold deltas; exact List.mem_cons_of_mem _ hr))
      cases ha : a.speed with
      | false =>
        rw [List.filter_cons_of_pos (by simp [ha])]
        unfold deltas
        simp only [List.flatMap_cons, ih']
      | true =>
        rw [List.filter_cons_of_neg (by simp [ha])]
        have hc : cmdOf a.cmd = 11 ∨ cmdOf a.cmd = 12 := by
          unfold Stitch.speed at ha
          have : a.low = 11 ∨ a.low = 12 := by simpa using ha
          exact this
        have h0 := h ⟨pyRound (a.x - xx), pyRound (a.y - yy), cmdOf a.cmd⟩ (by unfold deltas; simp) hc
        simp only at h0
        conv_rhs => unfold deltas
        simp only [List.flatMap_cons, h0.1, h0.2, add_zero]
        rw [h0.1, h0.2, add_zero, add_zero] at ih'
        rw [ih']
        have : writeRec ⟨0, 0, cmdOf a.cmd⟩ = [] := by rcases hc with e | e <;> (rw [e]; rfl)
        rw [this, List.nil_append]
  exact this l 0 0 h

theorem set_speeds {o : Settings} {b : Bool} (h : o.writesSpeeds = b) : { o with writesSpeeds := b } = o := by
  subst h; rfl

/-- The same without speeds. -/
theorem speeds_off (h : encode o lm threads source = .ok (out, ths)) :
    encode { o with writesSpeeds := false } lm threads source = .ok (out.filter fun a => !a.speed, ths) := by
  have key := C109_speeds o lm threads source
  cases hb : o.writesSpeeds with
  | true =>
    rw [set_speeds hb, h] at key
    generalize encode { o with writesSpeeds := false } lm threads source = y at key ⊢
    cases key with
    | ok k => rename_i q; obtain ⟨q1, q2⟩ := q; simp only at k; rw [k.1, k.2]
  | false =>
    rw [set_speeds hb, h] at key ⊢
    generalize encode { o with writesSpeeds := true } lm threads source = y at key
    cases key with
    | ok k =>
      have k1 := k.1
      simp only at k1
      rw [k1, List.filter_filter]
      simp

theorem speeds_on (hv : o.ValidSequins) (h : encode { o with writesSpeeds := false } lm threads source = .ok (out, ths))
    (hq : ∀ a ∈ source, a.low ≠ 11 ∧ a.low ≠ 12) : encode o lm threads source = .ok (out, ths) := by
  cases hb : o.writesSpeeds with
  | false => rwa [set_speeds hb] at h
  | true =>
    have key := C109_speeds o lm threads source
    rw [set_speeds hb, h] at key
    cases hx : encode o lm threads source with
    | error e => rw [hx] at key; cases key
    | ok p =>
      obtain ⟨p1, p2⟩ := p
      rw [hx] at key
      cases key with
      | ok k =>
        simp only at k
        have : p1.filter (fun a => !a.speed) = p1 := List.filter_eq_self.2 fun a ha => by
          have hk := (C21_kinds hv hx a ha).2.2
          cases hs : a.speed with
          | false => rfl
          | true =>
            obtain ⟨st, hst, e⟩ := hk (by unfold Stitch.speed at hs; simpa using hs)
            have := hq st hst
            omega
        rw [k.1, k.2, this]

/-- **C124, EXP.** Saving a design as EXP, loading the file and saving that again gives the same file, byte for byte. -/
theorem C124_exp_partial (hs : PlainSettings o) (hlm : lm.Sound) (hr : o.round = true)
    (h1 : o.maxStitch = some 127) (h2 : o.maxJump = some 127) (h3 : o.longStitch = 0xF1 ∨ o.longStitch = 0xF2) (hq : o.sequin ≠ 0xF5)
    (hl : Lasting source) (h : encode o lm threads source = .ok (out, ths)) (threads2 : List Thread) :
    ∃ out2 ths2, encode o lm threads2 (read (write out)) = .ok (out2, ths2) ∧ write out2 = write out := by
  have hlow : ∀ st ∈ source, st.low ≠ 0xD5 ∧ st.low ≠ 0xD6 ∧ st.low ≠ 0xF0 ∧ st.low ≠ 0xF5 := fun st hst => by
    have := hl.low st hst
    simp only [List.mem_cons, List.not_mem_nil, or_false, not_or] at this
    tauto
  obtain ⟨l, e, hle, hdel, hok⟩ := encoded_recs (M := 127) (by decide) hlm hs.sequins hr (by rw [h1]; norm_num) (by rw [h2]; norm_num) h3 hq hlow h
  have hw : write (out.filter fun a => !a.speed) = write out := write_filter out fun r hr hc => by
    rw [hdel] at hr
    rcases List.mem_append.1 hr with hr | hr
    · have := (hok r hr).1
      unfold RecOK at this
      omega
    · simp at hr; subst hr; simp at hc
  have h' : encode { o with writesSpeeds := false } lm threads source = .ok (out.filter fun a => !a.speed, ths) := speeds_off h
  have hs' : PlainSettings { o with writesSpeeds := false } :=
    ⟨⟨hs.sequins, hs.translate, hs.scale, hs.rotate, hs.tieOn, hs.tieOff, hs.limits⟩, hs.change, hs.needles⟩
  obtain ⟨⟨out2, ths2, he, hsame⟩, hkind⟩ := SameFile.again (M := 127) hs' hlm hr (by decide) (h1.trans (by norm_num)) (h2.trans (by norm_num)) h3 hq hl h'
    (fun a ha => by simpa using (List.mem_filter.1 ha).2) threads2
  have hrt := C08_roundtrip hlm hs'.sequins hr h1 h2 h3 (by rw [hs'.change]; decide) hq hlow h'
  have hshow : view shows (SameFile.rounded (out.filter fun a => !a.speed)) = SameFile.rounded (out.filter fun a => !a.speed) := by
    have : ∀ l : List Stitch, (∀ a ∈ l, a.cmd ∈ [(0 : Int), 1, 2, 4, 5]) → view shows l = l := by
      intro l hl
      induction l with
      | nil => rfl
      | cons a l ih =>
        have ha := hl a (by simp)
        simp only [List.mem_cons, List.not_mem_nil, or_false] at ha
        have ih := ih fun b hb => hl b (by simp [hb])
        unfold view at ih ⊢
        rw [List.filterMap_cons, ih]
        unfold shows
        rw [if_pos ha]
        rfl
    exact this _ hkind
  have hread : read (write out) = SameFile.rounded (out.filter fun a => !a.speed) := by
    rw [← hw, hrt]; exact hshow
  refine ⟨out2, ths2, ?_, ?_⟩
  · rw [hread]
    refine speeds_on hs.sequins he fun a ha => ?_
    have := hkind a ha
    simp only [List.mem_cons, List.not_mem_nil, or_false] at this
    unfold Stitch.low
    omega
  · rw [← hw]
    unfold write
    rw [SameFile.deltas_same hsame, SameFile.deltas_rounded]

/-- **C124, EXP.** A file of any of the formats of C108 that holds no stops, nor two changes before anything is sewn, is loaded and saved as EXP;
from then on, loading and saving the EXP file changes nothing. -/
theorem C124_converted_partial (hs : PlainSettings o) (hlm : lm.Sound) (hr : o.round = true)
    (h1 : o.maxStitch = some 127) (h2 : o.maxJump = some 127) (h3 : o.longStitch = 0xF1 ∨ o.longStitch = 0xF2) (hq : o.sequin ≠ 0xF5)
    {f : Bytes} {l : List Stitch} (hf : ∀ v ∈ f, IsByte v) (hl : Loaded f l) (h0 : ∀ a ∈ l, a.low ≠ 3)
    (hlead : ∀ p a q, l = p ++ a :: q → Changes a → (∃ b ∈ p, b.low = 5 ∨ b.low = 9) → ∃ b ∈ p, Sews b) (threads threads2 : List Thread) :
    ∃ out ths out2 ths2, encode o lm threads l = .ok (out, ths) ∧ encode o lm threads2 (read (write out)) = .ok (out2, ths2) ∧
      write out2 = write out := by
  have hlow : ∀ a ∈ l, a.low ∈ [(0 : Int), 1, 2, 4, 5, 6, 9, 11, 12] := by
    obtain ⟨m, e, rfl, he, hm⟩ := (C108_readable hf hl).shape
    intro a ha
    have h0 := h0 a ha
    rcases List.mem_append.1 ha with ha | ha
    · have := hm a ha
      simp only [List.mem_cons, List.not_mem_nil, or_false] at this ⊢
      omega
    · simp only [List.mem_cons, List.not_mem_nil, or_false] at ha ⊢
      subst ha
      omega
  have hlast : Lasting l := ⟨fun a ha => by
    have := hlow a ha
    simp only [List.mem_cons, List.not_mem_nil, or_false] at this ⊢
    omega, hlead⟩
  obtain ⟨out, ths, h⟩ := C27_total (o := o) (lm := lm) (threads := threads) (source := l) (by have := hs.needles; omega)
    (fun m hm => by rw [h1] at hm; injection hm with hm; rw [← hm]; norm_num)
    (fun m hm => by rw [h2] at hm; injection hm with hm; rw [← hm]; norm_num) (fun a ha => by
      have := hlow a ha
      simp only [List.mem_cons, List.not_mem_nil, or_false] at this
      omega)
  obtain ⟨out2, ths2, he, hw⟩ := C124_exp_partial hs hlm hr h1 h2 h3 hq hlast h threads2
  exact ⟨out, ths, out2, ths2, h, he, hw⟩

/-- **C123, EXP.** Designs that differ in the threads and needles asked for make the same EXP file. -/
theorem C123_exp (hn : o.needleCount ≠ 0) (lm : Libm) (threads threads' : List Thread) {l l' : List Stitch} (h : List.Forall₂ SameButAsked l l') :
    Setting.Both (fun p q => write p.1 = write q.1) (encode o lm threads l) (encode o lm threads' l') :=
  (C123_asked hn lm threads threads' h).mono fun p q k => by
    unfold write
    rw [SameFile.deltas_same k.1]

/-- A design with fractions, a trim, a speed, a move that must be split, and changes asking for threads and needles. -/
def lastingDemo : List Stitch :=
  [⟨0, 0, 5⟩, ⟨0, 0, 0⟩, ⟨27/5, 3, 0⟩, ⟨0, 0, 2⟩, ⟨0, 0, 11⟩, ⟨-300, 7/2, 0⟩, ⟨0, 0, encodeThreadChange 9 (some 3) (some 2) none⟩, ⟨-301, 4, 0⟩,
    ⟨0, 0, 0xE2⟩, ⟨-301, -4, 0⟩, ⟨0, 0, 4⟩]

/-- Saved, loaded and saved again. -/
def twice (l : List Stitch) : Bytes := write (demoEncode settings (read (write (demoEncode settings l))))

example : PlainSettings settings :=
  { sequins := fun v h => by injection h with h; subst h; exact .inr (.inl rfl)
    translate := rfl, scale := rfl, rotate := rfl
    tieOn := by decide, tieOff := by decide
    limits := .inr ⟨127, by norm_num, rfl, rfl, by decide⟩
    change := by decide, needles := by decide }

example : Lasting lastingDemo := by
  refine ⟨by decide +kernel, fun p a q e hc hb => ?_⟩
  have key : ∀ i : Fin 11, Changes (lastingDemo[i.val]'i.isLt) →
      (∃ b ∈ lastingDemo.take i.val, b.low = 5 ∨ b.low = 9) → ∃ b ∈ lastingDemo.take i.val, Sews b := by decide +kernel
  have hi : p.length < 11 := by
    have := congrArg List.length e
    simp [lastingDemo] at this
    omega
  have hp : lastingDemo.take p.length = p := by rw [e]; simp
  have ha : lastingDemo[p.length]'hi = a := by simp only [e]; simp
  have := key ⟨p.length, hi⟩
  simp only [hp, ha] at this
  exact this hc hb

example : twice lastingDemo = write (demoEncode settings lastingDemo) ∧ (twice lastingDemo).length = 42 := by decide +kernel

/-- A file with bytes that are no records, a trim and two changes, of which only one comes before the first stitch. -/
def oddFile : Bytes := [0x80, 0x01, 0, 0, 0x80, 0x77, 1, 2, 10, 5, 0x80, 0x80, 7, 0, 0x80, 0x02, 3, 3, 0x80, 0x04, 120, 120, 1, 1, 0x80, 0x01, 0, 0, 9]

example : twice (read oddFile) = write (demoEncode settings (read oddFile)) ∧ write (demoEncode settings (read oddFile)) ≠ oddFile := by
  decide +kernel

/-- Not with a STOP before the first stitch: it is loaded as a colour change, and the second save leaves a leading change out. -/
theorem C124_not_stops : twice [⟨0, 0, 3⟩, ⟨10, 0, 0⟩] ≠ write (demoEncode settings [⟨0, 0, 3⟩, ⟨10, 0, 0⟩]) := by decide +kernel

/-- Not with two changes before the first stitch. -/
theorem C124_not_leading :
    twice [⟨0, 0, 5⟩, ⟨0, 0, 5⟩, ⟨10, 0, 0⟩] ≠ write (demoEncode settings [⟨0, 0, 5⟩, ⟨0, 0, 5⟩, ⟨10, 0, 0⟩]) := by decide +kernel

end Exp
end Emb
