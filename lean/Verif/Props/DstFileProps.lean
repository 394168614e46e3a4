import Verif.Props.DstProps

/-!
# Property C06: a DST file reads back as the design that was written
-/

namespace Emb
namespace Dst

/-- What the machine sews: stitches and ejections with their positions, and colour changes. A STOP (3) counts as a
colour change (5), as DST has one record for both. -/
def sewn (l : List Stitch) : List Stitch :=
  l.filterMap (fun a => if a.low = 0 ∨ a.low = 7 then some ⟨a.x, a.y, a.low⟩
    else if a.low = 5 ∨ a.low = 3 then some ⟨a.x, a.y, 5⟩ else none)

/-- Records the format can hold, by the sequin mode before them. -/
def RecsOK (sequin : Bool) : List Rec → Prop
  | [] => True
  | r :: rest =>
    ((r.cmd = 0 ∨ (r.cmd = 1 ∧ sequin = false) ∨ (r.cmd = 7 ∧ sequin = true)) ∧ |r.dx| ≤ 121 ∧ |r.dy| ≤ 121 ∨
     (r.cmd = 2 ∧ sequin = false ∨ r.cmd = 3 ∨ r.cmd = 5 ∨ r.cmd = 6) ∧ r.dx = 0 ∧ r.dy = 0) ∧
    RecsOK (if r.cmd = 6 then !sequin else sequin) rest

/-- Mode after records. -/
def modeAfter (sequin : Bool) : List Rec → Bool
  | [] => sequin
  | r :: rest => modeAfter (if r.cmd = 6 then !sequin else sequin) rest

/-- What the reader gets for a written record. -/
def readBack (t : Int) (r : Rec) : List Rec :=
  if r.cmd = 2 then burst t else if r.cmd = 3 then [⟨0, 0, 5⟩] else [r]

theorem encodeAll_append {a b : List Rec} {x y : Bytes} (ha : encodeAll a = .ok x) (hb : encodeAll b = .ok y) :
    encodeAll (a ++ b) = .ok (x ++ y) := by
  induction a generalizing x with
  | nil => injection ha with ha; subst ha; exact hb
  | cons r a ih =>
    simp only [List.cons_append, encodeAll] at ha ⊢
    cases h1 : encodeRecord r.dx r.dy r.cmd with
    | error e => rw [h1] at ha; cases ha
    | ok u =>
      cases h2 : encodeAll a with
      | error e => rw [h1, h2] at ha; cases ha
      | ok v =>
        rw [h1, h2] at ha
        rw [ih h2]
        injection ha with ha
        show Except.ok (u ++ (v ++ y)) = Except.ok (x ++ y)
        rw [← ha, List.append_assoc]

theorem readRecs_three (m : Bool) (b0 b1 b2 c : Int) (rest : Bytes) (h : classify m b2 = some c) :
    readRecs m (b0 :: b1 :: b2 :: rest) =
      ⟨decodeDx b0 b1 b2, decodeDy b0 b1 b2, c⟩ :: readRecs (if c = SEQUIN_MODE then !m else m) rest := by
  rw [readRecs, h]

/-- A moving record. -/
theorem one_move (m : Bool) (r : Rec) (hc : r.cmd = 0 ∨ (r.cmd = 1 ∧ m = false) ∨ (r.cmd = 7 ∧ m = true))
    (hx : |r.dx| ≤ 121) (hy : |r.dy| ≤ 121) :
    ∃ b, encodeRecord r.dx r.dy r.cmd = .ok b ∧ ∀ rest, readRecs m (b ++ rest) = r :: readRecs m rest := by
  obtain ⟨b0, b1, b2, e, _, _, _, dx, dy, cl⟩ := C03_record r.dx r.dy r.cmd m hx hy hc
  refine ⟨_, e, fun rest => ?_⟩
  show readRecs m (b0 :: b1 :: b2 :: rest) = _
  rw [readRecs_three m b0 b1 b2 r.cmd rest cl, dx, dy, if_neg (by unfold SEQUIN_MODE; omega)]

theorem moves (l : List Rec) (hl : ∀ r ∈ l, r.cmd = 1 ∧ |r.dx| ≤ 4 ∧ |r.dy| ≤ 4) :
    ∃ b, encodeAll l = .ok b ∧ ∀ rest, readRecs false (b ++ rest) = l ++ readRecs false rest := by
  induction l with
  | nil => exact ⟨[], rfl, fun rest => rfl⟩
  | cons r l ih =>
    obtain ⟨h1, h2, h3⟩ := hl r (by simp)
    obtain ⟨b, e, h⟩ := one_move false r (.inr (.inl ⟨h1, rfl⟩)) (by omega) (by omega)
    obtain ⟨b', e', h'⟩ := ih (fun a ha => hl a (by simp [ha]))
    refine ⟨b ++ b', ?_, fun rest => ?_⟩
    · simp only [encodeAll, e, e']; rfl
    · rw [List.append_assoc, h, h']; rfl

theorem read_write (t : Int) (rs : List Rec) (m : Bool) (h : RecsOK m rs) :
    ∃ b, encodeAll (rs.flatMap (expand t)) = .ok b ∧
      ∀ rest, readRecs m (b ++ rest) = rs.flatMap (readBack t) ++ readRecs (modeAfter m rs) rest := by
  induction rs generalizing m with
  | nil => exact ⟨[], rfl, fun rest => rfl⟩
  | cons r rs ih =>
    obtain ⟨h1, h2⟩ := h
    obtain ⟨b', e', h'⟩ := ih _ h2
    have key : ∃ b, encodeAll (expand t r) = .ok b ∧
        ∀ rest, readRecs m (b ++ rest) = readBack t r ++ readRecs (if r.cmd = 6 then !m else m) rest := by
      have single : ∀ b, encodeRecord r.dx r.dy r.cmd = .ok b → r.cmd ≠ 2 → encodeAll (expand t r) = .ok b := by
        intro b hb hn
        unfold expand
        rw [if_neg (by exact hn)]
        simp only [encodeAll, hb]
        show Except.ok (b ++ []) = Except.ok b
        rw [List.append_nil]
      obtain ⟨f5, f3, f6, _⟩ := C03_fixed r.dx r.dy m
      rcases h1 with ⟨hc, hx, hy⟩ | ⟨hc, hx, hy⟩
      · obtain ⟨b, e, h⟩ := one_move m r hc hx hy
        refine ⟨b, single b e (by omega), fun rest => ?_⟩
        rw [h, readBack, if_neg (by omega), if_neg (by omega), if_neg (by omega)]
        rfl
      · rcases hc with ⟨hc, hm⟩ | hc | hc | hc
        · obtain ⟨b, e, h⟩ := moves (burst t) (burst_jumps t)
          refine ⟨b, ?_, fun rest => ?_⟩
          · unfold expand; rw [if_pos (by rw [hc]; rfl), e]
          · rw [hm, h, readBack, if_pos hc, if_neg (by omega)]
        · obtain ⟨c, e, _, dx, dy, cl⟩ := f3
          refine ⟨_, single [0, 0, c] (by rw [hc]; exact e) (by omega), fun rest => ?_⟩
          show readRecs m (0 :: 0 :: c :: rest) = _
          rw [readRecs_three _ _ _ _ _ _ cl, dx, dy, if_neg (by decide), readBack, if_neg (by omega), if_pos hc,
            if_neg (by omega)]
          rfl
        · obtain ⟨c, e, _, dx, dy, cl⟩ := f5
          refine ⟨_, single [0, 0, c] (by rw [hc]; exact e) (by omega), fun rest => ?_⟩
          show readRecs m (0 :: 0 :: c :: rest) = _
          rw [readRecs_three _ _ _ _ _ _ cl, dx, dy, if_neg (by decide), readBack, if_neg (by omega), if_neg (by omega),
            if_neg (by omega)]
          have : r = ⟨0, 0, 5⟩ := by cases r; simp_all
          rw [this]; rfl
        · obtain ⟨c, e, _, dx, dy, cl⟩ := f6
          refine ⟨_, single [0, 0, c] (by rw [hc]; exact e) (by omega), fun rest => ?_⟩
          show readRecs m (0 :: 0 :: c :: rest) = _
          rw [readRecs_three _ _ _ _ _ _ cl, dx, dy, if_pos (by decide), readBack, if_neg (by omega), if_neg (by omega),
            if_pos hc]
          have : r = ⟨0, 0, 6⟩ := by cases r; simp_all
          rw [this]; rfl
    obtain ⟨b, e, h⟩ := key
    refine ⟨b ++ b', ?_, fun rest => ?_⟩
    · rw [List.flatMap_cons]; exact encodeAll_append e e'
    · rw [List.append_assoc, h, h', List.flatMap_cons, modeAfter, List.append_assoc]

theorem sewn_append (a b : List Stitch) : sewn (a ++ b) = sewn a ++ sewn b := by simp [sewn]

theorem sewn_jumps (l : List Rec) (hl : ∀ r ∈ l, r.cmd = 1) (x y : ℚ) : sewn (place x y l) = [] := by
  induction l generalizing x y with
  | nil => rfl
  | cons r l ih =>
    have e := hl r (by simp)
    have := ih (fun a ha => hl a (by simp [ha])) (x + r.dx) (y + r.dy)
    simp only [place, sewn, List.filterMap_cons, Stitch.low, e] at this ⊢
    exact this

theorem sewn_readBack (t : Int) (rs : List Rec) (m : Bool) (h : RecsOK m rs) (x y : ℚ) :
    sewn (place x y (rs.flatMap (readBack t))) = sewn (place x y rs) ∧
    placeEnd x y (rs.flatMap (readBack t)) = placeEnd x y rs := by
  induction rs generalizing m x y with
  | nil => exact ⟨rfl, rfl⟩
  | cons r rs ih =>
    obtain ⟨h1, h2⟩ := h
    have hr : sewn (place x y (readBack t r)) = sewn (place x y [r]) ∧
        placeEnd x y (readBack t r) = placeEnd x y [r] := by
      unfold readBack
      by_cases c2 : r.cmd = 2
      · rw [if_pos c2, sewn_jumps _ (fun r hr => (burst_jumps t r hr).1), C05_net]
        have : r.dx = 0 ∧ r.dy = 0 := by omega
        refine ⟨?_, by simp [placeEnd, this]⟩
        simp [place, sewn, Stitch.low, c2]
      · rw [if_neg c2]
        by_cases c3 : r.cmd = 3
        · rw [if_pos c3]
          have : r.dx = 0 ∧ r.dy = 0 := by omega
          refine ⟨?_, by simp [placeEnd, this]⟩
          simp [place, sewn, Stitch.low, c3, this]
        · rw [if_neg c3]; exact ⟨rfl, rfl⟩
    have := ih _ h2 (placeEnd x y [r]).1 (placeEnd x y [r]).2
    rw [List.flatMap_cons, place_append, placeEnd_append, sewn_append, hr.1, hr.2, this.1, this.2]
    refine ⟨?_, ?_⟩
    · rw [← sewn_append, ← place_append]; rfl
    · rw [← placeEnd_append]; rfl

/-- Lists without STOP: inferring trims does not change what is sewn. -/
theorem sewn_edited {p q : ℚ × ℚ} {l l' : List Stitch} (h : Edited p q l l') (hs : ∀ a ∈ l, a.low ≠ 3) :
    sewn l' = sewn l := by
  have e : ∀ l : List Stitch, (∀ a ∈ l, a.low ≠ 3) →
      sewn l = sewn (l.filter (fun a => a.low == 0 || a.low == 5 || a.low == 7)) := by
    intro l hl
    induction l with
    | nil => rfl
    | cons a l ih =>
      have ih := ih (fun b hb => hl b (by simp [hb]))
      have ha := hl a (by simp)
      rw [List.filter_cons]
      by_cases hk : (a.low == 0 || a.low == 5 || a.low == 7) = true
      · rw [if_pos hk]
        have c2 : ∀ m, sewn (a :: m) = sewn [a] ++ sewn m := fun m => by rw [← sewn_append]; rfl
        rw [c2, ih, c2 (List.filter _ l)]
      · rw [if_neg hk, ← ih]
        simp only [Bool.or_eq_true, beq_iff_eq, not_or] at hk
        simp only [sewn, List.filterMap_cons]
        rw [if_neg (by omega), if_neg (by omega)]
  have hl' : ∀ a ∈ l', a.low ≠ 3 := by
    intro a ha
    rcases h.mem a ha with h | h
    · exact hs a h
    · unfold Stitch.low; rw [h]; decide
  rw [e l' hl', e l hs, h.filter]
  intro a ha
  simp only [Bool.or_eq_true, beq_iff_eq] at ha
  omega

theorem place_cmd {P : Int → Prop} (l : List Rec) (h : ∀ r ∈ l, P r.cmd) (x y : ℚ) : ∀ a ∈ place x y l, P a.cmd := by
  induction l generalizing x y with
  | nil => intro a ha; simp [place] at ha
  | cons r l ih =>
    intro a ha
    simp only [place, List.mem_cons] at ha
    rcases ha with rfl | ha
    · exact h r (by simp)
    · exact ih (fun b hb => h b (by simp [hb])) _ _ a ha

theorem recsOK_cmd (rs : List Rec) (m : Bool) (h : RecsOK m rs) : ∀ r ∈ rs, r.cmd ∈ [0, 1, 2, 3, 5, 6, 7] := by
  induction rs generalizing m with
  | nil => intro r hr; simp at hr
  | cons a rs ih =>
    intro r hr
    rcases List.mem_cons.1 hr with rfl | hr
    · have := h.1
      simp only [List.mem_cons, List.not_mem_nil, or_false]
      omega
    · exact ih _ h.2 r hr

theorem readBack_cmd (t : Int) (rs : List Rec) (m : Bool) (h : RecsOK m rs) :
    ∀ r ∈ rs.flatMap (readBack t), r.cmd % 256 ≠ 3 := by
  intro r hr
  rw [List.mem_flatMap] at hr
  obtain ⟨a, ha, hr⟩ := hr
  have hc := recsOK_cmd rs m h a ha
  unfold readBack at hr
  by_cases c2 : a.cmd = 2
  · rw [if_pos c2] at hr; rw [(burst_jumps t r hr).1]; decide
  · rw [if_neg c2] at hr
    by_cases c3 : a.cmd = 3
    · rw [if_pos c3] at hr; simp at hr; subst hr; decide
    · rw [if_neg c3] at hr
      simp at hr; subst hr
      simp only [List.mem_cons, List.not_mem_nil, or_false] at hc
      omega

/-- Write and read records followed by the END record. -/
theorem write_read (t : Int) (rs : List Rec) (e : Rec) (h : RecsOK false rs) (he : e.cmd = 4) :
    ∃ b, encodeAll ((rs ++ [e]).flatMap (expand t)) = .ok b ∧
      ∀ ta dist clipping, sewn (readBody ta dist clipping b) = sewn (place 0 0 rs) := by
  obtain ⟨b, hb, hread⟩ := read_write t rs false h
  refine ⟨b ++ [0, 0, 0xF3], ?_, fun ta dist clipping => ?_⟩
  · rw [List.flatMap_append]
    refine encodeAll_append hb ?_
    simp only [List.flatMap_cons, List.flatMap_nil, List.append_nil]
    unfold expand
    rw [if_neg (by rw [he]; decide)]
    simp only [encodeAll, he]
    rfl
  · have e1 : readRecs false (b ++ [0, 0, 0xF3]) = rs.flatMap (readBack t) := by
      rw [hread]
      have : readRecs (modeAfter false rs) [0, 0, 0xF3] = [] := by
        rw [readRecs]
        have : ∀ m, classify m 0xF3 = none := by decide +kernel
        rw [this]
      rw [this, List.append_nil]
    unfold readBody
    simp only [e1]
    rw [sewn_edited (interpolateTrims_edited _ _ _ _), place_append, sewn_append, (sewn_readBack t rs false h 0 0).1]
    · simp [place, sewn, Stitch.low, END]
    · intro a ha
      refine place_cmd (P := fun c => c % 256 ≠ 3) _ ?_ 0 0 a ha
      intro r hr
      rcases List.mem_append.1 hr with hr | hr
      · exact readBack_cmd t rs false h r hr
      · simp at hr; subst hr; decide

/-- Records of stitches that follow the modes. -/
theorem deltas_recsOK (l pre : List Stitch) (xx yy : Int)
    (hb : ∀ r ∈ deltas xx yy l, -121 ≤ r.dx ∧ r.dx ≤ 121 ∧ -121 ≤ r.dy ∧ r.dy ≤ 121)
    (hz : ∀ r ∈ deltas xx yy l, r.cmd ≠ 0 ∧ r.cmd ≠ 1 ∧ r.cmd ≠ 7 → r.dx = 0 ∧ r.dy = 0)
    (hk : ∀ a ∈ l, a.low ∈ [0, 1, 2, 3, 5, 6, 7])
    (hm : ∀ m a post, l = m ++ a :: post → (a.low = 1 ∨ a.low = 2 → sequinOn (pre ++ m) = false) ∧
      (a.low = 7 → sequinOn (pre ++ m) = true)) :
    RecsOK (sequinOn pre) (deltas xx yy l) := by
  induction l generalizing pre xx yy with
  | nil => trivial
  | cons a l ih =>
    have hb0 := hb ⟨pyRound (a.x - xx), pyRound (a.y - yy), cmdOf a.cmd⟩ (by simp [deltas])
    have hz0 := hz ⟨pyRound (a.x - xx), pyRound (a.y - yy), cmdOf a.cmd⟩ (by simp [deltas])
    have hm0 := hm [] a l rfl
    have hk0 := hk a (by simp)
    rw [List.append_nil] at hm0
    simp only [List.mem_cons, List.not_mem_nil, or_false] at hk0
    have hc : cmdOf a.cmd = a.low := rfl
    simp only [deltas, RecsOK]
    rw [hc] at hz0 ⊢
    simp only at hb0 hz0 ⊢
    constructor
    · rw [abs_le, abs_le]
      rcases hk0 with h | h | h | h | h | h | h
      · exact .inl ⟨.inl h, ⟨hb0.1, hb0.2.1⟩, ⟨hb0.2.2.1, hb0.2.2.2⟩⟩
      · exact .inl ⟨.inr (.inl ⟨h, hm0.1 (.inl h)⟩), ⟨hb0.1, hb0.2.1⟩, ⟨hb0.2.2.1, hb0.2.2.2⟩⟩
      · exact .inr ⟨.inl ⟨h, hm0.1 (.inr h)⟩, hz0 (by omega)⟩
      · exact .inr ⟨.inr (.inl h), hz0 (by omega)⟩
      · exact .inr ⟨.inr (.inr (.inl h)), hz0 (by omega)⟩
      · exact .inr ⟨.inr (.inr (.inr h)), hz0 (by omega)⟩
      · exact .inl ⟨.inr (.inr ⟨h, hm0.2 h⟩), ⟨hb0.1, hb0.2.1⟩, ⟨hb0.2.2.1, hb0.2.2.2⟩⟩
    · rw [← sequinOn_snoc pre a]
      refine ih (pre ++ [a]) _ _ (fun r hr => hb r (by simp [deltas, hr])) (fun r hr => hz r (by simp [deltas, hr]))
        (fun b hb => hk b (by simp [hb])) ?_
      intro m b post e
      have := hm (a :: m) b post (by rw [e]; rfl)
      simpa using this

theorem deltas_append (xx yy : Int) (a b : List Stitch) :
    ∃ x' y', deltas xx yy (a ++ b) = deltas xx yy a ++ deltas x' y' b := by
  induction a generalizing xx yy with
  | nil => exact ⟨xx, yy, rfl⟩
  | cons s a ih =>
    obtain ⟨x', y', e⟩ := ih (xx + pyRound (s.x - xx)) (yy + pyRound (s.y - yy))
    exact ⟨x', y', by simp [deltas, e]⟩

variable {o : Settings} {lm : Libm} {threads : List Thread} {source out : List Stitch} {ths : List (Option Thread)}

/-- The records of an encoded pattern are ones the format can hold. -/
theorem encoded_ok (hlm : lm.Sound) (hv : o.ValidSequins) (hr : o.round = true)
    (h1 : o.maxStitch = some 121) (h2 : o.maxJump = some 121) (h3 : o.longStitch = 0xF1 ∨ o.longStitch = 0xF2)
    (hc : o.changeCommand ≠ 9)
    (hq : ∀ st ∈ source, st.low ≠ 0xD5 ∧ st.low ≠ 0xD6 ∧ st.low ≠ 0xF0 ∧ st.low ≠ 11 ∧ st.low ≠ 12)
    (h : encode o lm threads source = .ok (out, ths)) :
    ∃ l e, out = l ++ [e] ∧ e.low = 4 ∧ ∃ rs r, deltas 0 0 out = rs ++ [r] ∧ r.cmd = 4 ∧ RecsOK false rs := by
  have hfit := C19_fits (M := 121) (by decide) hlm hv hr (by rw [h1]; norm_num) (by rw [h2]; norm_num) h3
    (fun st hst => by have := hq st hst; exact ⟨this.1, this.2.1, this.2.2.1⟩) h
  have hat := C26_at_needle hv h
  have hmode := C25_sequin_mode hv h
  have hkind := C21_kinds hv h
  have hlow := C21_low_level hv h
  obtain ⟨l, e, rfl, he, hl4⟩ := C20_single_end hv h
  have hstill : ∀ r ∈ deltas 0 0 (l ++ [e]), r.cmd ≠ 0 ∧ r.cmd ≠ 1 ∧ r.cmd ≠ 7 → r.dx = 0 ∧ r.dy = 0 :=
    deltas_still (K := fun c => c ≠ 0 ∧ c ≠ 1 ∧ c ≠ 7) (l ++ [e]) [] 0 0 (by simp) (by simp)
      (fun m a post eq hk => by simpa using hat m a post eq hk.1 hk.2.1 hk.2.2)
  obtain ⟨x', y', hd⟩ := deltas_append 0 0 l [e]
  rw [hd] at hfit hstill
  have hok : RecsOK (sequinOn []) (deltas 0 0 l) := by
    refine deltas_recsOK l [] 0 0 (fun r hr => hfit r (by simp [hr])) (fun r hr => hstill r (by simp [hr])) ?_ ?_
    · intro a ha
      have a1 := hlow a (by simp [ha])
      have a2 := hkind a (by simp [ha])
      have a3 := hl4 a ha
      simp only [List.mem_cons, List.not_mem_nil, or_false] at a1 ⊢
      have a4 : ¬(a.low = 11 ∨ a.low = 12) := by
        intro hs
        obtain ⟨st, hst, hh⟩ := a2.2.2 hs
        have := hq st hst
        omega
      have a5 : a.low ≠ 9 := fun h9 => hc (a2.2.1 h9)
      omega
    · intro m a post eq
      have := hmode m a (post ++ [e]) (by rw [eq]; simp)
      simp only [List.nil_append]
      unfold sequinOn
      refine ⟨fun hh => ?_, fun hh => ?_⟩
      · rw [this.1 hh]; rfl
      · rw [this.2 hh]; rfl
  have hd1 : deltas x' y' [e] = [⟨pyRound (e.x - x'), pyRound (e.y - y'), 4⟩] := by
    have : cmdOf e.cmd = 4 := he
    simp [deltas, this]
  exact ⟨l, e, rfl, he, deltas 0 0 l, _, by rw [hd, hd1], rfl, hok⟩

/-- C06: for every source pattern (any length, any mixture of commands, except speed commands and commands that change
the step limits), encoding it with the DST settings and writing the result succeeds, and reading the file back, whatever
the reader's settings, gives the same stitches, ejections and colour changes in the same order at the same positions,
namely those of the encoded pattern rounded to the grid (`C18_no_drift`). Speed commands are excluded: see
`C06_speed_adds_stitch`. -/
theorem C06_roundtrip_partial (hlm : lm.Sound) (hv : o.ValidSequins) (hr : o.round = true)
    (h1 : o.maxStitch = some 121) (h2 : o.maxJump = some 121) (h3 : o.longStitch = 0xF1 ∨ o.longStitch = 0xF2)
    (hc : o.changeCommand ≠ 9)
    (hq : ∀ st ∈ source, st.low ≠ 0xD5 ∧ st.low ≠ 0xD6 ∧ st.low ≠ 0xF0 ∧ st.low ≠ 11 ∧ st.low ≠ 12)
    (h : encode o lm threads source = .ok (out, ths)) (t : Int) :
    ∃ b, writeBody t out = .ok b ∧
      ∀ header : Bytes, header.length = 512 → ∀ ta dist clipping,
        sewn (read ta dist clipping (header ++ b)) = sewn (place 0 0 (deltas 0 0 out)) := by
  have hfit := C19_fits (M := 121) (by decide) hlm hv hr (by rw [h1]; norm_num) (by rw [h2]; norm_num) h3
    (fun st hst => by have := hq st hst; exact ⟨this.1, this.2.1, this.2.2.1⟩) h
  have hat := C26_at_needle hv h
  have hmode := C25_sequin_mode hv h
  have hkind := C21_kinds hv h
  have hlow := C21_low_level hv h
  obtain ⟨l, e, rfl, he, hl4⟩ := C20_single_end hv h
  have hstill : ∀ r ∈ deltas 0 0 (l ++ [e]), r.cmd ≠ 0 ∧ r.cmd ≠ 1 ∧ r.cmd ≠ 7 → r.dx = 0 ∧ r.dy = 0 :=
    deltas_still (K := fun c => c ≠ 0 ∧ c ≠ 1 ∧ c ≠ 7) (l ++ [e]) [] 0 0 (by simp) (by simp)
      (fun m a post eq hk => by simpa using hat m a post eq hk.1 hk.2.1 hk.2.2)
  obtain ⟨x', y', hd⟩ := deltas_append 0 0 l [e]
  rw [hd] at hfit hstill
  have hok : RecsOK (sequinOn []) (deltas 0 0 l) := by
    refine deltas_recsOK l [] 0 0 (fun r hr => hfit r (by simp [hr])) (fun r hr => hstill r (by simp [hr])) ?_ ?_
    · intro a ha
      have a1 := hlow a (by simp [ha])
      have a2 := hkind a (by simp [ha])
      have a3 := hl4 a ha
      simp only [List.mem_cons, List.not_mem_nil, or_false] at a1 ⊢
      have a4 : ¬(a.low = 11 ∨ a.low = 12) := by
        intro hs
        obtain ⟨st, hst, hh⟩ := a2.2.2 hs
        have := hq st hst
        omega
      have a5 : a.low ≠ 9 := fun h9 => hc (a2.2.1 h9)
      omega
    · intro m a post eq
      have := hmode m a (post ++ [e]) (by rw [eq]; simp)
      simp only [List.nil_append]
      unfold sequinOn
      refine ⟨fun hh => ?_, fun hh => ?_⟩
      · rw [this.1 hh]; rfl
      · rw [this.2 hh]; rfl
  have hd1 : deltas x' y' [e] = [⟨pyRound (e.x - x'), pyRound (e.y - y'), 4⟩] := by
    have : cmdOf e.cmd = 4 := he
    simp [deltas, this]
  obtain ⟨b, hb, hread⟩ := write_read t (deltas 0 0 l) ⟨pyRound (e.x - x'), pyRound (e.y - y'), 4⟩ hok rfl
  refine ⟨b, by unfold writeBody; rw [hd, hd1]; exact hb, fun header hh ta dist clipping => ?_⟩
  unfold read
  rw [List.drop_left' hh, hread, hd, hd1, place_append, sewn_append]
  simp [place, sewn, Stitch.low]

/-- C19 for DST: with the DST settings the writer never raises. -/
theorem C19_dst_never_raises (hlm : lm.Sound) (hv : o.ValidSequins) (hr : o.round = true)
    (h1 : o.maxStitch = some 121) (h2 : o.maxJump = some 121) (h3 : o.longStitch = 0xF1 ∨ o.longStitch = 0xF2)
    (hq : ∀ st ∈ source, st.low ≠ 0xD5 ∧ st.low ≠ 0xD6 ∧ st.low ≠ 0xF0)
    (h : encode o lm threads source = .ok (out, ths)) (t : Int) : ∃ b, writeBody t out = .ok b := by
  have hfit := C19_fits (M := 121) (by decide) hlm hv hr (by rw [h1]; norm_num) (by rw [h2]; norm_num) h3 hq h
  unfold writeBody
  generalize deltas 0 0 out = rs at hfit
  induction rs with
  | nil => exact ⟨[], rfl⟩
  | cons r rs ih =>
    obtain ⟨b', e'⟩ := ih (fun a ha => hfit a (by simp [ha]))
    have : ∃ b, encodeAll (expand t r) = .ok b := by
      unfold expand
      by_cases c2 : r.cmd = TRIM
      · rw [if_pos c2]
        obtain ⟨b, e, _⟩ := moves (burst t) (burst_jumps t)
        exact ⟨b, e⟩
      · rw [if_neg c2]
        have : ∃ b, encodeRecord r.dx r.dy r.cmd = .ok b := by
          cases hb : encodeRecord r.dx r.dy r.cmd with
          | ok b => exact ⟨b, rfl⟩
          | error e =>
            exfalso
            obtain ⟨f1, f2, f3, f4⟩ := hfit r (by simp)
            by_cases hc : r.cmd = 0 ∨ r.cmd = 1 ∨ r.cmd = 7
            · obtain ⟨k1, k2⟩ := C04_refuses r.dx r.dy r.cmd hc
              rw [k2 e hb] at hb
              have := k1.1 hb
              rw [gt_iff_lt, gt_iff_lt, lt_abs, lt_abs] at this
              omega
            · unfold encodeRecord at hb
              rw [if_neg (by unfold STITCH JUMP SEQUIN_EJECT; omega)] at hb
              split_ifs at hb
        obtain ⟨b, e⟩ := this
        exact ⟨b ++ [], by simp only [encodeAll, e]; rfl⟩
    obtain ⟨b, e⟩ := this
    exact ⟨b ++ b', by rw [List.flatMap_cons]; exact encodeAll_append e e'⟩

/-- The DST settings that `EmbPattern.write` passes to the encoder (`DstWriter.py` 4-8, `EmbPattern.py` 1564-1647). -/
def settings : Settings where
  maxStitch := some 121
  maxJump := some 121
  fullJump := false
  round := true
  sequinContingency := some CONTINGENCY_SEQUIN_UTILIZE

/-- A pattern with a sequin, a colour change, a trim and a long move. -/
def demo : List Stitch :=
  [⟨0, 0, 0⟩, ⟨27/5, 3, 0⟩, ⟨0, 0, 2⟩, ⟨300, 7/2, 0⟩, ⟨301, 4, 7⟩, ⟨0, 0, 5⟩, ⟨301, -4, 0⟩, ⟨0, 0, 4⟩]

/-- Bytes of the demo file after the header. -/
def demoBytes : Bytes :=
  match encode settings demoLm [] demo with
  | .ok (out, _) => match writeBody 3 out with
    | .ok b => b
    | .error _ => []
  | .error _ => []

example : sewn (readBody 3 none true demoBytes) =
    [⟨0, 0, 0⟩, ⟨5, 3, 0⟩, ⟨300, 4, 0⟩, ⟨301, 4, 7⟩, ⟨301, 4, 5⟩, ⟨301, -4, 0⟩] := by decide +kernel
example : settings.ValidSequins ∧ settings.changeCommand ≠ 9 :=
  ⟨fun v h => by injection h with h; subst h; exact .inl rfl, by decide⟩
example : ∀ st ∈ demo, st.low ≠ 0xD5 ∧ st.low ≠ 0xD6 ∧ st.low ≠ 0xF0 ∧ st.low ≠ 11 ∧ st.low ≠ 12 := by decide +kernel

/-- A pattern of two stitches with a SLOW between them. -/
def slowDemo : List Stitch := [⟨0, 0, 0⟩, ⟨0, 0, 11⟩, ⟨10, 0, 0⟩, ⟨10, 0, 4⟩]

/-- The full C06 fails: DST has no speed commands but its writer does not ask the encoder to drop them, and writes each as
a record that the reader (and the machine) takes for another stitch. -/
theorem C06_speed_adds_stitch : ∃ out b, encode settings demoLm [] slowDemo = .ok (out, [none]) ∧ writeBody 3 out = .ok b ∧
    sewn (place 0 0 (deltas 0 0 out)) = [⟨0, 0, 0⟩, ⟨10, 0, 0⟩] ∧
    sewn (readBody 3 none true b) = [⟨0, 0, 0⟩, ⟨0, 0, 0⟩, ⟨10, 0, 0⟩] := by
  refine ⟨[⟨0, 0, 0⟩, ⟨0, 0, 11⟩, ⟨10, 0, 0⟩, ⟨10, 0, 4⟩], [0, 0, 3, 0, 0, 0, 5, 0, 3, 0, 0, 243], ?_, ?_, ?_, ?_⟩ <;>
    decide +kernel

end Dst
end Emb
