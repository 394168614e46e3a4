import Verif.Props.SaveLoadProps
import Verif.Props.PlanProps

/-!
# C98: saving and loading again and again loses nothing
-/

namespace Emb

/-! ## Specification -/

/-- A design as files hold it: stitches, jumps, trims, colour changes and sequin modes, END at the end; stitches on the grid; and
something is sewn before the first colour change, if anything is sewn at all. -/
structure Clean (l : List Stitch) : Prop where
  shape : ∃ m e, l = m ++ [e] ∧ e.low = 4 ∧ ∀ a ∈ m, a.low ∈ [(0 : Int), 1, 2, 5, 6]
  whole : ∀ a ∈ l, a.low = 0 → ∃ i j : Int, a.x = i ∧ a.y = j
  first : ∀ p ∈ (shadedFrom 0 l).head?, p.1 = 0

/-- The settings of a format that holds displacements up to `M`, with any user settings that do not move the design, tie it or
cut it. -/
structure Saving (o : Settings) (lm : Libm) (M : ℚ) : Prop where
  libm : lm.Sound
  sequins : o.ValidSequins
  round : o.round = true
  stitch : o.maxStitch = some M
  jump : o.maxJump = some M
  long : o.longStitch = 0xF1
  change : o.changeCommand = 5
  ties : o.NoTies
  place : ∀ p, o.place lm p = p

/-- `l'` is `l` saved to a file and loaded again: EXP, DST (any header and reader's settings), JEF (any date, hoop, threads and
reader's settings; something is sewn) or XXX (no stitch is exactly 124 units long along an axis, see C15). Only DST holds sequins. -/
inductive Resaved : List Stitch → List Stitch → Prop
  | exp {o lm threads ths l out} : Saving o lm 127 → o.sequin ≠ 0xF5 → encode o lm threads l = .ok (out, ths) → Resaved l (Exp.read (Exp.write out))
  | dst {o lm threads ths l out t b} {header : Bytes} {ta : Int} {dist : Option ℚ} {clipping : Bool} : Saving o lm 121 →
      encode o lm threads l = .ok (out, ths) → Dst.writeBody t out = .ok b → header.length = 512 →
      Resaved l (Dst.read ta dist clipping (header ++ b))
  | jef {o lm threads ths l l' out T f} {trimAt : Option Nat} {date : Bytes} {hoop : Int × Int} {ts : List Thread} {ta : Option Int}
      {dist : Option ℚ} {clipping : Bool} : Saving o lm 127 → o.sequin ≠ 0xF5 → encode o lm threads l = .ok (out, ths) → (∃ a ∈ l, a.low = 0) →
      date.length = 14 → Jef.write trimAt date hoop.1 hoop.2 ts out = .ok f → out.length < 2 ^ 28 →
      Jef.read ta dist clipping f = .ok (l', T) → Resaved l l'
  | xxx {o lm threads ths l l' out f colours} {ts : List Thread} : Saving o lm 124 → o.sequin ≠ 0xF5 → encode o lm threads l = .ok (out, ths) →
      ts.length < 65536 → (∀ r ∈ deltas 0 0 out, r.cmd = 0 → |r.dx| < 124 ∧ |r.dy| < 124) → Xxx.write ts out = .ok f →
      Xxx.read f = .ok (colours, l') → Resaved l l'

/-! ## Proofs -/

namespace Resave

theorem shaded_ge (l : List Stitch) : ∀ n, ∀ p ∈ shadedFrom n l, n ≤ p.1 := by
  induction l with
  | nil => intro n p hp; simp [shadedFrom] at hp
  | cons a l ih =>
    intro n p hp
    rw [shadedFrom] at hp
    split_ifs at hp
    · exact (Nat.le_succ n).trans (ih _ p hp)
    · rcases List.mem_cons.1 hp with rfl | hp
      · exact le_refl _
      · exact ih _ p hp
    · exact ih _ p hp

theorem shaded_nil (l : List Stitch) : ∀ n m, shadedFrom n l = [] → shadedFrom m l = [] := by
  induction l with
  | nil => intro n m _; rfl
  | cons a l ih =>
    intro n m h
    rw [shadedFrom] at h ⊢
    split_ifs at h ⊢
    · exact ih _ _ h
    · exact ih _ _ h

theorem shaded_mem (l : List Stitch) : ∀ n, ∀ a ∈ l, a.low = 0 → ∃ k, (k, (a.x, a.y)) ∈ shadedFrom n l := by
  induction l with
  | nil => intro n a ha; simp at ha
  | cons b l ih =>
    intro n a ha h0
    rw [shadedFrom]
    rcases List.mem_cons.1 ha with rfl | ha
    · rw [if_neg (by rw [h0]; decide), if_pos h0]
      exact ⟨n, by simp⟩
    · split_ifs
      · exact ih _ a ha h0
      · obtain ⟨k, hk⟩ := ih n a ha h0
        exact ⟨k, List.mem_cons_of_mem _ hk⟩
      · exact ih _ a ha h0

theorem mem_shaded (l : List Stitch) : ∀ n, ∀ p ∈ shadedFrom n l, ∃ a ∈ l, a.low = 0 ∧ p.2 = (a.x, a.y) := by
  induction l with
  | nil => intro n p hp; simp [shadedFrom] at hp
  | cons b l ih =>
    intro n p hp
    rw [shadedFrom] at hp
    split_ifs at hp with h5 h0
    · obtain ⟨a, ha, h⟩ := ih _ p hp; exact ⟨a, by simp [ha], h⟩
    · rcases List.mem_cons.1 hp with rfl | hp
      · exact ⟨b, by simp, h0, rfl⟩
      · obtain ⟨a, ha, h⟩ := ih _ p hp; exact ⟨a, by simp [ha], h⟩
    · obtain ⟨a, ha, h⟩ := ih _ p hp; exact ⟨a, by simp [ha], h⟩

variable {f : Pt → Pt}

theorem sewn_running (hf : ∀ p, f p = p) (e : Stitch) (he : e.low = 4) (m : List Stitch) (hm : ∀ a ∈ m, a.low ∈ [(0 : Int), 1, 2, 5, 6])
    (hw : ∀ a ∈ m, a.low = 0 → ∃ i j : Int, a.x = i ∧ a.y = j) :
    ∀ n, sewnIn true f (n + 1) (m ++ [e]) = shadedFrom n (m ++ [e]) := by
  induction m with
  | nil => intro n; simp [sewnIn, shadedFrom, he]
  | cons a m ih =>
    intro n
    have ih := ih (fun b hb => hm b (by simp [hb])) (fun b hb => hw b (by simp [hb]))
    have ha := hm a (by simp)
    rw [List.cons_append, sewnIn, shadedFrom]
    simp only [List.mem_cons, List.not_mem_nil, or_false] at ha
    rcases ha with h | h | h | h | h
    · obtain ⟨i, j, hi, hj⟩ := hw a (by simp) h
      have e1 : begun (n + 1) a (m ++ [e]) = n + 1 := by simp [begun, h]
      rw [e1, ih]
      simp [h, hf, hi, hj]
    · have e1 : begun (n + 1) a (m ++ [e]) = n + 1 := by simp [begun, h]
      rw [e1, ih]; simp [h]
    · have e1 : begun (n + 1) a (m ++ [e]) = n + 1 := by simp [begun, h]
      rw [e1, ih]; simp [h]
    · have e1 : begun (n + 1) a (m ++ [e]) = n + 1 + 1 := by simp [begun, h]
      rw [e1, ih]; simp [h]
    · have e1 : begun (n + 1) a (m ++ [e]) = n + 1 := by simp [begun, h]
      rw [e1, ih]; simp [h]

theorem sewn_first (hf : ∀ p, f p = p) (e : Stitch) (he : e.low = 4) (m : List Stitch) (hm : ∀ a ∈ m, a.low ∈ [(0 : Int), 1, 2, 5, 6])
    (hw : ∀ a ∈ m, a.low = 0 → ∃ i j : Int, a.x = i ∧ a.y = j) (h1 : ∀ p ∈ (shadedFrom 0 (m ++ [e])).head?, p.1 = 0) :
    sewnIn true f 0 (m ++ [e]) = shadedFrom 0 (m ++ [e]) := by
  induction m with
  | nil => simp [sewnIn, shadedFrom, he]
  | cons a m ih =>
    have hm' : ∀ b ∈ m, b.low ∈ [(0 : Int), 1, 2, 5, 6] := fun b hb => hm b (by simp [hb])
    have hw' : ∀ b ∈ m, b.low = 0 → ∃ i j : Int, b.x = i ∧ b.y = j := fun b hb => hw b (by simp [hb])
    have run := sewn_running hf e he m hm' hw'
    have ih := ih hm' hw'
    have ha := hm a (by simp)
    rw [List.cons_append] at h1 ⊢
    rw [sewnIn, shadedFrom]
    rw [shadedFrom] at h1
    simp only [List.mem_cons, List.not_mem_nil, or_false] at ha
    rcases ha with h | h | h | h | h
    · obtain ⟨i, j, hi, hj⟩ := hw a (by simp) h
      have e1 : begun 0 a (m ++ [e]) = 0 + 1 := by simp [begun, h]
      rw [e1, run]
      simp [h, hf, hi, hj]
    · have e1 : begun 0 a (m ++ [e]) = 0 := by simp [begun, h]
      rw [if_neg (by rw [h]; decide), if_neg (by rw [h]; decide)] at h1
      rw [e1, ih h1]; simp [h]
    · have e1 : begun 0 a (m ++ [e]) = 0 := by simp [begun, h]
      rw [if_neg (by rw [h]; decide), if_neg (by rw [h]; decide)] at h1
      rw [e1, ih h1]; simp [h]
    · have e1 : begun 0 a (m ++ [e]) = 0 + 1 := by simp [begun, h]
      rw [if_pos h] at h1
      have hn : shadedFrom (0 + 1) (m ++ [e]) = [] := by
        cases hs : shadedFrom (0 + 1) (m ++ [e]) with
        | nil => rfl
        | cons p t =>
          rw [hs] at h1
          have h2 := h1 p (by simp)
          have h3 := shaded_ge (m ++ [e]) (0 + 1) p (by rw [hs]; simp)
          omega
      rw [e1, run, if_pos h, hn, shaded_nil _ _ 0 hn]
      simp [h]
    · have e1 : begun 0 a (m ++ [e]) = 0 := by simp [begun, h]
      rw [if_neg (by rw [h]; decide), if_neg (by rw [h]; decide)] at h1
      rw [e1, ih h1]; simp [h]

/-- What a format makes of a clean design is sewn as the design is. -/
theorem core {o : Settings} {lm : Libm} {M : ℚ} {l l' : List Stitch} (hs : Saving o lm M) (hl : Clean l)
    (h : List.Forall₂ OnGrid (walkShaded lm true 0 (o.head lm) l.getLast? l) (shadedFrom 0 l')) :
    shadedFrom 0 l' = shadedFrom 0 l := by
  obtain ⟨m, e, rfl, he, hm⟩ := hl.shape
  rw [C94_exact (A := m) (E := [e]) hs.ties ?_ (by simpa using he) h]
  · exact sewn_first hs.place e he m hm (fun a ha => hl.whole a (by simp [ha])) hl.first
  · intro st hst
    have := hm st hst
    simp only [List.mem_cons, List.not_mem_nil, or_false] at this
    refine ⟨?_, ?_⟩
    · simp only [List.mem_cons, List.not_mem_nil, or_false]; omega
    · intro h; omega

/-- Being clean but for the shape follows from being sewn as a clean design. -/
theorem clean_of {l l' : List Stitch} (hl : Clean l) (h : shadedFrom 0 l' = shadedFrom 0 l)
    (hs : ∃ m e, l' = m ++ [e] ∧ e.low = 4 ∧ ∀ a ∈ m, a.low ∈ [(0 : Int), 1, 2, 5, 6]) : Clean l' := by
  refine ⟨hs, ?_, ?_⟩
  · intro a ha h0
    obtain ⟨k, hk⟩ := shaded_mem l' 0 a ha h0
    rw [h] at hk
    obtain ⟨b, hb, hb0, e⟩ := mem_shaded l 0 _ hk
    obtain ⟨i, j, hi, hj⟩ := hl.whole b hb hb0
    refine ⟨i, j, ?_, ?_⟩
    · rw [← hi]; exact congrArg Prod.fst e
    · rw [← hj]; exact congrArg Prod.snd e
  · rw [h]; exact hl.first

theorem low_of {l : List Stitch} (hl : Clean l) : ∀ st ∈ l, st.low ∈ [(0 : Int), 1, 2, 4, 5, 6] := by
  obtain ⟨m, e, rfl, he, hm⟩ := hl.shape
  intro st hst
  rcases List.mem_append.1 hst with h | h
  · have := hm st h; simp at this ⊢; omega
  · simp at h; subst h; simp; omega

/-- The shape of a clean design. -/
abbrev Shape (l : List Stitch) : Prop := ∃ m e, l = m ++ [e] ∧ e.low = 4 ∧ ∀ a ∈ m, a.low ∈ [(0 : Int), 1, 2, 5, 6]

theorem split_last {R : Stitch → Stitch → Prop} {e : Stitch} {l p : List Stitch} (h : List.Forall₂ R (l ++ [e]) p) :
    ∃ m e', p = m ++ [e'] ∧ List.Forall₂ R l m ∧ R e e' := by
  induction l generalizing p with
  | nil =>
    cases h with
    | cons h1 h2 => cases h2; exact ⟨[], _, rfl, .nil, h1⟩
  | cons a l ih =>
    cases h with
    | cons h1 h2 =>
      obtain ⟨m, e', rfl, h3, h4⟩ := ih h2
      exact ⟨_ :: m, e', rfl, .cons h1 h3, h4⟩

theorem forall2_low {l m : List Stitch} {K : List Int} (h : List.Forall₂ (fun a b : Stitch => b.low = a.low) l m) (hl : ∀ a ∈ l, a.low ∈ K) :
    ∀ b ∈ m, b.low ∈ K := by
  induction h with
  | nil => intro b hb; simp at hb
  | cons h1 _ ih =>
    intro b hb
    rcases List.mem_cons.1 hb with rfl | hb
    · rw [h1]; exact hl _ (by simp)
    · exact ih (fun a ha => hl a (by simp [ha])) b hb

theorem low_words (l : List Stitch) : ∀ (xx yy : Int) (x y : ℚ),
    List.Forall₂ (fun a b : Stitch => b.low = a.low) l (place x y (wdeltas xx yy l)) := by
  induction l with
  | nil => intro xx yy x y; exact .nil
  | cons a l ih => intro xx yy x y; exact .cons rfl (ih _ _ _ _)

section
variable {o : Settings} {lm : Libm} {M : ℚ} {threads : List Thread} {l out : List Stitch} {ths : List (Option Thread)}

/-- The normalized form of a clean design has the same shape. -/
theorem out_shape (hs : Saving o lm M) (hl : Clean l) (h : encode o lm threads l = .ok (out, ths)) : Shape out := by
  obtain ⟨m, e, rfl, he, h4⟩ := C20_single_end hs.sequins h
  refine ⟨m, e, rfl, he, fun a ha => ?_⟩
  have hin : a ∈ m ++ [e] := by simp [ha]
  have hlow := low_of hl
  have k1 := C21_low_level hs.sequins h a hin
  have k2 := C21_kinds hs.sequins h a hin
  have k3 := C21_stops hs.sequins h a hin
  have k4 := C21_ejects hs.sequins h a hin
  have k5 := h4 a ha
  have n9 : a.low ≠ 9 := fun e => by have := k2.2.1 e; rw [hs.change] at this; omega
  have n3 : a.low ≠ 3 := by
    intro e
    rcases k3 e with h | ⟨st, h1, h2⟩
    · rw [hs.change] at h; omega
    · have := hlow st h1; simp only [List.mem_cons, List.not_mem_nil, or_false] at this; omega
  have n7 : a.low ≠ 7 := by
    intro e
    obtain ⟨st, h1, h2⟩ := k4 e
    have := hlow st h1; simp only [List.mem_cons, List.not_mem_nil, or_false] at this; omega
  have n11 : ¬ (a.low = 11 ∨ a.low = 12) := by
    intro e
    obtain ⟨st, h1, h2⟩ := k2.2.2 e
    have := hlow st h1; simp only [List.mem_cons, List.not_mem_nil, or_false] at this; omega
  simp only [List.mem_cons, List.not_mem_nil, or_false] at k1 ⊢
  omega

theorem shape_alike {p : List Stitch} (h : Shape l) (ha : List.Forall₂ (fun a b : Stitch => b.low = a.low) l p) : Shape p := by
  obtain ⟨m, e, rfl, he, hm⟩ := h
  obtain ⟨m', e', rfl, h1, h2⟩ := split_last ha
  exact ⟨m', e', rfl, by rw [h2, he], forall2_low h1 hm⟩

theorem shape_written (h : Shape out) : Shape (place 0 0 (deltas 0 0 out)) :=
  shape_alike h ((SaveLoad.alike_deltas out).imp (fun _ _ h => h.1))

/-- A format that shows END as such and the others of the shape as such or not at all. -/
theorem shape_view {g : Int → Option Int} {p : List Stitch} (hp : ∀ a ∈ p, a.low = 4 → g a.cmd = some 4)
    (hg : ∀ a ∈ p, ∀ c, g a.cmd = some c → a.low ∈ [(0 : Int), 1, 2, 5, 6] → c % 256 ∈ [(0 : Int), 1, 2, 5, 6])
    (h : Shape p) : Shape (view g p) := by
  obtain ⟨m, e, rfl, he, hm⟩ := h
  refine ⟨view g m, ⟨e.x, e.y, 4⟩, ?_, rfl, ?_⟩
  · rw [view_append]
    congr 1
    unfold view
    simp [hp e (by simp) he]
  · intro a ha
    unfold view at ha
    rw [List.mem_filterMap] at ha
    obtain ⟨b, hb, e1⟩ := ha
    cases hc : g b.cmd with
    | none => rw [hc] at e1; simp at e1
    | some c =>
      rw [hc] at e1
      simp at e1
      subst e1
      exact hg b (by simp [hb]) c hc (hm b hb)

theorem seen_append (n : Nat) (e : Stitch) (he : e.cmd = 4) (m : List Stitch) : ∀ t, Jef.seen n t (m ++ [e]) = Jef.seen n t m ++ [e] := by
  induction m with
  | nil => intro t; simp [Jef.seen, he]
  | cons a m ih =>
    intro t
    rw [List.cons_append, Jef.seen, Jef.seen]
    split_ifs <;> simp [ih]

theorem seen_low (n : Nat) (m : List Stitch) (hm : ∀ a ∈ m, a.low ∈ [(0 : Int), 1, 2, 5, 6] ∧ a.cmd = a.low) :
    ∀ t, ∀ b ∈ Jef.seen n t m, b.low ∈ [(0 : Int), 1, 2, 5, 6] := by
  induction m with
  | nil => intro t b hb; simp [Jef.seen] at hb
  | cons a m ih =>
    intro t b hb
    obtain ⟨h1, h2⟩ := hm a (by simp)
    have ih := ih (fun b hb => hm b (by simp [hb]))
    rw [Jef.seen] at hb
    split_ifs at hb with c0 c2 c5 c3 ht
    · rcases List.mem_cons.1 hb with rfl | hb
      · exact h1
      · exact ih _ b hb
    · rcases List.mem_append.1 hb with hb | hb
      · rw [List.eq_of_mem_replicate hb]; show (1 : Int) % 256 ∈ _; decide
      · exact ih _ b hb
    · rcases List.mem_cons.1 hb with rfl | hb
      · show (5 : Int) % 256 ∈ _; decide
      · exact ih _ b hb
    · exfalso; rw [← h2, c3] at h1; revert h1; decide
    · exfalso; rw [← h2, c3] at h1; revert h1; decide
    · exact ih _ b hb

theorem trims_mem {p q : ℚ × ℚ} {l l' : List Stitch} (h : Edited p q l l') : ∀ a ∈ l', a ∈ l ∨ a.low = 2 := by
  induction h with
  | nil => intro a ha; simp at ha
  | keep x h ih =>
    intro a ha
    rcases List.mem_cons.1 ha with rfl | ha
    · exact .inl (by simp)
    · rcases ih a ha with h | h
      · exact .inl (by simp [h])
      · exact .inr h
  | trim h ih =>
    intro a ha
    rcases List.mem_cons.1 ha with rfl | ha
    · exact .inr rfl
    · exact ih a ha
  | clip j run h1 h2 h3 h4 ih =>
    intro a ha
    rcases ih a ha with h | h
    · exact .inl (by simp [h])
    · exact .inr h

theorem trims_snoc (j : Option Int) (d : Option ℚ) (c : Bool) (m : List Stitch) (e : Stitch) (he : e.low ≠ 1) :
    interpolateTrims j d c (m ++ [e]) = interpolateTrims j d c m ++ [e] := by
  unfold interpolateTrims
  rw [List.foldl_append, List.foldl_cons, List.foldl_nil]
  have : cmdOf e.cmd ≠ JUMP := he
  generalize List.foldl (itStep j d c) ([], ITState.init) m = st
  unfold itStep
  simp only [if_neg this]

theorem shape_trims (j : Option Int) (d : Option ℚ) (c : Bool) {l : List Stitch} (h : Shape l) : Shape (interpolateTrims j d c l) := by
  obtain ⟨m, e, rfl, he, hm⟩ := h
  refine ⟨_, e, trims_snoc j d c m e (by rw [he]; decide), he, fun a ha => ?_⟩
  rcases trims_mem (interpolateTrims_edited j d c m) a ha with h | h
  · exact hm a h
  · rw [h]; decide

theorem dst_sewn_mem {l : List Stitch} {a : Stitch} (ha : a ∈ l) (h7 : a.low = 7) : (⟨a.x, a.y, 7⟩ : Stitch) ∈ Dst.sewn l := by
  unfold Dst.sewn
  rw [List.mem_filterMap]
  exact ⟨a, ha, by simp [h7]⟩

theorem dst_mem_sewn {l : List Stitch} {a : Stitch} (ha : a ∈ Dst.sewn l) (h7 : a.low = 7) : ∃ b ∈ l, b.low = 7 := by
  unfold Dst.sewn at ha
  rw [List.mem_filterMap] at ha
  obtain ⟨b, hb, e⟩ := ha
  refine ⟨b, hb, ?_⟩
  split_ifs at e with h1 h2
  · injection e with e
    subst e
    have : b.low % 256 = 7 := h7
    omega
  · injection e with e
    subst e
    exact absurd (show (5 : Int) % 256 = 7 from h7) (by decide)

/-- The normalized form of a clean design in which something is sewn does not start with a colour change. -/
theorem no_leading (hs : Saving o lm M) (hl : Clean l) (h : encode o lm threads l = .ok (out, ths)) (h0 : ∃ a ∈ l, a.low = 0) :
    ∀ a, out.head? = some a → a.low ≠ 5 := by
  intro a ha h5
  have hw := C94_written hs.sequins hs.change h
  rw [hs.round] at hw
  have he := core hs hl hw
  cases out with
  | nil => simp at ha
  | cons b r =>
    simp at ha; subst ha
    have hal := SaveLoad.alike_deltas (b :: r)
    generalize hp : place 0 0 (deltas 0 0 (b :: r)) = p at hal he
    cases hal with
    | @cons _ b' _ r' h1 h2 =>
      rw [SaveLoad.shaded_change (by rw [h1.1]; exact h5)] at he
      obtain ⟨c, hc, hc0⟩ := h0
      obtain ⟨k, hk⟩ := shaded_mem l 0 c hc hc0
      cases hsl : shadedFrom 0 l with
      | nil => rw [hsl] at hk; simp at hk
      | cons q t =>
        have h3 := hl.first q (by rw [hsl]; simp)
        have h4 := shaded_ge r' (0 + 1) q (by rw [he, hsl]; simp)
        omega

end

theorem step {l l' : List Stitch} (hl : Clean l) (h : Resaved l l') : shadedFrom 0 l' = shadedFrom 0 l ∧ Clean l' := by
  have hlow := low_of hl
  have hq : ∀ st ∈ l, st.low ≠ 0xD5 ∧ st.low ≠ 0xD6 ∧ st.low ≠ 0xF0 ∧ st.low ≠ 0xF5 := by
    intro st h
    have := hlow st h
    simp only [List.mem_cons, List.not_mem_nil, or_false] at this
    omega
  have hq2 : ∀ st ∈ l, st.low ≠ 0xD5 ∧ st.low ≠ 0xD6 ∧ st.low ≠ 0xF0 ∧ st.low ≠ 11 ∧ st.low ≠ 12 := by
    intro st h
    have := hlow st h
    simp only [List.mem_cons, List.not_mem_nil, or_false] at this
    omega
  have hp : ∀ st ∈ l, st.low ≠ 3 ∧ st.low ≠ 0xE9 := by
    intro st h
    have := hlow st h
    simp only [List.mem_cons, List.not_mem_nil, or_false] at this
    omega
  suffices hh : Shape l' ∧ shadedFrom 0 l' = shadedFrom 0 l from ⟨hh.2, clean_of hl hh.2 hh.1⟩
  cases h with
  | @exp o lm threads ths _ out hs hm he =>
    refine ⟨?_, core hs hl (C94_exp hs.libm hs.sequins hs.round hs.stitch hs.jump (.inl hs.long) hs.change hm hq hp he)⟩
    rw [Exp.C08_roundtrip hs.libm hs.sequins hs.round hs.stitch hs.jump (.inl hs.long) (by rw [hs.change]; decide) hm hq he]
    have hw := fun a ha => (SaveLoad.written_low (P := fun _ => True) (l := out) (fun _ _ => trivial) a ha).2
    refine shape_view ?_ ?_ (shape_written (out_shape hs hl he))
    · intro a ha h4
      rw [hw a ha, h4]; rfl
    · intro a ha c hc hk
      rw [hw a ha] at hc
      unfold Exp.shows at hc
      simp only [List.mem_cons, List.not_mem_nil, or_false] at hk ⊢
      split_ifs at hc
      · injection hc with hc; omega
      · injection hc with hc; omega
  | @dst o lm threads ths _ out t b header ta dist clipping hs he hb hh =>
    obtain ⟨b1, hw1, hg⟩ := C94_dst hs.libm hs.sequins hs.round hs.stitch hs.jump (.inl hs.long) hs.change hq2 hp he t
    obtain ⟨b2, hw2, hrd⟩ := Dst.C06_roundtrip_partial hs.libm hs.sequins hs.round hs.stitch hs.jump (.inl hs.long) (by rw [hs.change]; decide) hq2 he t
    rw [hb] at hw1 hw2
    injection hw1 with hw1; injection hw2 with hw2; subst hw1; subst hw2
    refine ⟨?_, core hs hl (hg header hh ta dist clipping)⟩
    have hrd := hrd header hh ta dist clipping
    obtain ⟨⟨m, ⟨m0, e, rfl, hee, hk, -⟩, -, em⟩, -⟩ := Readers.C60_dst ta dist clipping (header ++ b)
    rw [em] at hrd ⊢
    have he4 : e.low = 4 := by show e.cmd % 256 = 4; rw [hee]; rfl
    have kinds : ∀ a ∈ m0, a.low = 0 ∨ a.low = 1 ∨ a.low = 5 ∨ a.low = 6 ∨ a.low = 7 := by
      intro a ha
      have := hk a ha
      simpa [Readers.dstKinds, STITCH, JUMP, COLOR_CHANGE, SEQUIN_MODE, SEQUIN_EJECT] using this
    rw [Dst.sewn_edited (interpolateTrims_edited _ _ _ _) (by
      intro a ha
      rcases List.mem_append.1 ha with ha | ha
      · have := kinds a ha; omega
      · simp at ha; subst ha; omega)] at hrd
    refine shape_trims _ _ _ ⟨m0, e, rfl, he4, fun a ha => ?_⟩
    have h7 : a.low ≠ 7 := by
      intro h7
      have h1 := dst_sewn_mem (l := m0 ++ [e]) (by simp [ha]) h7
      rw [hrd] at h1
      obtain ⟨c, hc, hc7⟩ := dst_mem_sewn h1 rfl
      obtain ⟨m', e', hp', he', hm'⟩ := shape_written (out_shape hs hl he)
      rw [hp'] at hc
      rcases List.mem_append.1 hc with hc | hc
      · have := hm' c hc; rw [hc7] at this; revert this; decide
      · simp at hc; subst hc; omega
    have := kinds a ha
    simp only [List.mem_cons, List.not_mem_nil, or_false]
    omega
  | @jef o lm threads ths _ _ out T f trimAt date hoop ts ta dist clipping hs hm he h0 hd hw hsz hrd =>
    have hf := no_leading hs hl he h0
    obtain ⟨l2, T2, h1, h2⟩ := C94_jef_partial hs.libm hs.sequins hs.round hs.stitch hs.jump (.inl hs.long) hs.change hm hq hp he hd hw hf hsz
      ta dist clipping
    rw [hrd] at h1
    injection h1 with h1; injection h1 with h1 h1'; subst h1
    refine ⟨?_, core hs hl h2⟩
    obtain ⟨T3, h3, -, -⟩ := Jef.C09_roundtrip_partial hs.libm hs.sequins hs.round hs.stitch hs.jump (.inl hs.long) (by rw [hs.change]; decide)
      hm hq he hd hw hf hsz
    unfold Jef.read at hrd
    rw [h3] at hrd
    injection hrd with hrd; injection hrd with hrd hrd'
    rw [← hrd]
    obtain ⟨m, e, hp', he', hm'⟩ := shape_written (out_shape hs hl he)
    have hwl := fun a ha => (SaveLoad.written_low (P := fun _ => True) (l := out) (fun _ _ => trivial) a ha).2
    rw [hp'] at hwl ⊢
    rw [seen_append _ e (by rw [hwl e (by simp), he'])]
    exact shape_trims _ _ _ ⟨_, e, rfl, he', seen_low _ m (fun a ha => ⟨hm' a ha, hwl a (by simp [ha])⟩) _⟩
  | @xxx o lm threads ths _ _ out f colours ts hs hm he ht hlim hw hrd =>
    obtain ⟨f1, c1, l1, h1, h2, -, h3⟩ := C94_xxx_partial hs.libm hs.sequins hs.round hs.stitch hs.jump (.inl hs.long) hs.change hm hq hp he ht hlim
    rw [hw] at h1
    injection h1 with h1; subst h1
    rw [hrd] at h2
    injection h2 with h2; injection h2 with h2' h2; subst h2
    refine ⟨?_, core hs hl h3⟩
    obtain ⟨f2, h4, h5⟩ := Xxx.C15_roundtrip_partial hs.libm hs.sequins hs.round hs.stitch hs.jump (.inl hs.long) (by rw [hs.change]; decide)
      hm hq he ht (by
        intro r hr h0
        refine hlim ⟨r.dx, r.dy, cmdOf r.cmd⟩ ?_ h0
        rw [deltas_eq]
        exact List.mem_map.2 ⟨r, hr, rfl⟩)
    rw [hw] at h4
    injection h4 with h4; subst h4
    rw [hrd] at h5
    injection h5 with h5; injection h5 with h5' h5
    rw [h5]
    refine shape_view ?_ ?_ (shape_alike (out_shape hs hl he) (low_words out 0 0 0 0))
    · intro a ha h4
      have h4 : a.cmd % 256 = 4 := h4
      unfold Xxx.shows
      rw [if_neg (by omega), if_pos (by omega), h4]
    · intro a ha c hc hk
      have hk : a.cmd % 256 ∈ [(0 : Int), 1, 2, 5, 6] := hk
      unfold Xxx.shows at hc
      simp only [List.mem_cons, List.not_mem_nil, or_false] at hk ⊢
      split_ifs at hc
      · injection hc with hc; omega
      · injection hc with hc; omega

end Resave

/-- **C98**: however often and through whichever of the formats a design is saved and loaded again, exactly the same points are sewn in
the same order in the same colours, and the design stays one that can be saved again. -/
theorem C98_no_loss_partial {l l' : List Stitch} (hl : Clean l) (h : Relation.ReflTransGen Resaved l l') :
    shadedFrom 0 l' = shadedFrom 0 l ∧ Clean l' := by
  induction h with
  | refl => exact ⟨rfl, hl⟩
  | tail _ h1 ih =>
    obtain ⟨e, hc⟩ := Resave.step ih.2 h1
    exact ⟨e.trans ih.1, hc⟩

/-! ## Where such designs come from, and that it goes on -/

namespace Resave

theorem shaded_shift (l : List Stitch) : ∀ n, shadedFrom (n + 1) l = (shadedFrom n l).map (fun p => (p.1 + 1, p.2)) := by
  induction l with
  | nil => intro n; rfl
  | cons a l ih =>
    intro n
    rw [shadedFrom, shadedFrom]
    split_ifs
    · exact ih _
    · rw [List.map_cons, ih]
    · exact ih _

variable {f : Pt → Pt}

theorem sewn_leading (hf : ∀ p, f p = p) (e : Stitch) (he : e.low = 4) (m : List Stitch) (hm : ∀ a ∈ m, a.low ∈ [(0 : Int), 1, 2, 5, 6])
    (hw : ∀ a ∈ m, a.low = 0 → ∃ i j : Int, a.x = i ∧ a.y = j) (h1 : ∀ p ∈ (shadedFrom 0 (m ++ [e])).head?, p.1 ≠ 0) :
    sewnIn true f 0 (m ++ [e]) = (shadedFrom 0 (m ++ [e])).map (fun p => (p.1 - 1, p.2)) := by
  induction m with
  | nil => simp [sewnIn, shadedFrom, he]
  | cons a m ih =>
    have hm' : ∀ b ∈ m, b.low ∈ [(0 : Int), 1, 2, 5, 6] := fun b hb => hm b (by simp [hb])
    have hw' : ∀ b ∈ m, b.low = 0 → ∃ i j : Int, b.x = i ∧ b.y = j := fun b hb => hw b (by simp [hb])
    have run := sewn_running hf e he m hm' hw'
    have ih := ih hm' hw'
    have ha := hm a (by simp)
    rw [List.cons_append] at h1 ⊢
    rw [sewnIn, shadedFrom]
    rw [shadedFrom] at h1
    simp only [List.mem_cons, List.not_mem_nil, or_false] at ha
    rcases ha with h | h | h | h | h
    · rw [if_neg (by rw [h]; decide), if_pos h] at h1
      exact absurd rfl (h1 (0, (a.x, a.y)) (by simp))
    · have e1 : begun 0 a (m ++ [e]) = 0 := by simp [begun, h]
      rw [if_neg (by rw [h]; decide), if_neg (by rw [h]; decide)] at h1
      rw [e1, ih h1]; simp [h]
    · have e1 : begun 0 a (m ++ [e]) = 0 := by simp [begun, h]
      rw [if_neg (by rw [h]; decide), if_neg (by rw [h]; decide)] at h1
      rw [e1, ih h1]; simp [h]
    · have e1 : begun 0 a (m ++ [e]) = 0 + 1 := by simp [begun, h]
      rw [e1, run, if_pos h, shaded_shift, List.map_map]
      have : ((fun p : Nat × Pt => (p.1 - 1, p.2)) ∘ fun p => (p.1 + 1, p.2)) = id := rfl
      rw [this]
      simp [h]
    · have e1 : begun 0 a (m ++ [e]) = 0 := by simp [begun, h]
      rw [if_neg (by rw [h]; decide), if_neg (by rw [h]; decide)] at h1
      rw [e1, ih h1]; simp [h]

theorem exp_kinds (f : Bytes) : ∀ r ∈ Exp.readRecs f, r.cmd ∈ [(0 : Int), 1, 2, 5, 6] := by
  fun_induction Exp.readRecs f <;> simp_all [STITCH, JUMP, TRIM, COLOR_CHANGE]

theorem exp_shape (f : Bytes) : Shape (Exp.read f) := by
  unfold Exp.read
  rw [place_append]
  refine ⟨_, _, rfl, rfl, fun a ha => ?_⟩
  exact Dst.place_cmd (P := fun c => c % 256 ∈ [(0 : Int), 1, 2, 5, 6]) _ (fun r hr => by
    have := exp_kinds f r hr
    simp only [List.mem_cons, List.not_mem_nil, or_false] at this ⊢
    omega) 0 0 a ha

end Resave

/-- **C98**: whatever bytes are read as an EXP file give a clean design, unless there is a colour change before the first stitch. -/
theorem C98_exp_file (f : Bytes) (h : ∀ p ∈ (shadedFrom 0 (Exp.read f)).head?, p.1 = 0) : Clean (Exp.read f) where
  shape := Resave.exp_shape f
  whole := by
    intro a ha _
    have := SaveLoad.place_whole (Exp.readRecs f ++ [⟨0, 0, END⟩]) 0 0 a
    push_cast at this
    exact this ha
  first := h

/-- **C98**: a clean design can be saved again, as EXP and as DST with any settings for them that have needles. -/
theorem C98_goes_on {o : Settings} {lm : Libm} {M : ℚ} {l : List Stitch} (hl : Clean l) (hs : Saving o lm M) (hM : 0 < M)
    (hn : o.needleCount ≠ 0) (threads : List Thread) :
    (M = 127 → o.sequin ≠ 0xF5 → ∃ out ths, encode o lm threads l = .ok (out, ths) ∧ Resaved l (Exp.read (Exp.write out))) ∧
    (M = 121 → ∀ t, ∃ out ths b, encode o lm threads l = .ok (out, ths) ∧ Dst.writeBody t out = .ok b ∧
      ∀ header : Bytes, header.length = 512 → ∀ ta dist clipping, Resaved l (Dst.read ta dist clipping (header ++ b))) := by
  have hlow := Resave.low_of hl
  have hq : ∀ st ∈ l, st.low ≠ 0xD5 ∧ st.low ≠ 0xD6 ∧ st.low ≠ 0xC4 ∧ st.low ≠ 0xC5 := by
    intro st h
    have := hlow st h
    simp only [List.mem_cons, List.not_mem_nil, or_false] at this
    omega
  obtain ⟨out, ths, he⟩ := C27_total (lm := lm) (threads := threads) hn
    (fun m h => by rw [hs.stitch] at h; injection h with h; rw [← h]; exact hM)
    (fun m h => by rw [hs.jump] at h; injection h with h; rw [← h]; exact hM) hq
  refine ⟨?_, ?_⟩
  · rintro rfl hm
    exact ⟨out, ths, he, .exp hs hm he⟩
  · rintro rfl t
    obtain ⟨b, hb, -⟩ := C94_dst hs.libm hs.sequins hs.round hs.stitch hs.jump (.inl hs.long) hs.change (by
      intro st h
      have := hlow st h
      simp only [List.mem_cons, List.not_mem_nil, or_false] at this
      omega) (by
      intro st h
      have := hlow st h
      simp only [List.mem_cons, List.not_mem_nil, or_false] at this
      omega) he t
    exact ⟨out, ths, b, he, hb, fun header hh ta dist clipping => .dst hs he hb hh⟩

/-- What becomes of the colours' numbers: the first colour change before the first stitch goes. -/
def settled (l : List (Nat × Pt)) : List (Nat × Pt) :=
  match l with
  | [] => []
  | p :: l => if p.1 = 0 then p :: l else (p :: l).map (fun p => (p.1 - 1, p.2))

/-- **C98**, without the condition on the first colour, for EXP: the same points in the same order; of the colour changes before the first
stitch one is lost each time, which moves the colours of all stitches by one. -/
theorem C98_leading_exp {o : Settings} {lm : Libm} {threads : List Thread} {ths : List (Option Thread)} {l out : List Stitch}
    (hl : ∃ m e, l = m ++ [e] ∧ e.low = 4 ∧ ∀ a ∈ m, a.low ∈ [(0 : Int), 1, 2, 5, 6])
    (hw : ∀ a ∈ l, a.low = 0 → ∃ i j : Int, a.x = i ∧ a.y = j) (hs : Saving o lm 127) (hm : o.sequin ≠ 0xF5)
    (h : encode o lm threads l = .ok (out, ths)) :
    shadedFrom 0 (Exp.read (Exp.write out)) = settled (shadedFrom 0 l) := by
  obtain ⟨m, e, rfl, he, hk⟩ := hl
  have hlow : ∀ st ∈ m ++ [e], st.low ∈ [(0 : Int), 1, 2, 4, 5, 6] := by
    intro st hst
    rcases List.mem_append.1 hst with h | h
    · have := hk st h; simp at this ⊢; omega
    · simp at h; subst h; simp; omega
  have hg := C94_exp hs.libm hs.sequins hs.round hs.stitch hs.jump (.inl hs.long) hs.change hm (by
      intro st h
      have := hlow st h
      simp only [List.mem_cons, List.not_mem_nil, or_false] at this
      omega) (by
      intro st h
      have := hlow st h
      simp only [List.mem_cons, List.not_mem_nil, or_false] at this
      omega) h
  rw [C94_exact (A := m) (E := [e]) hs.ties (by
      intro st hst
      have := hk st hst
      simp only [List.mem_cons, List.not_mem_nil, or_false] at this
      refine ⟨?_, ?_⟩
      · simp only [List.mem_cons, List.not_mem_nil, or_false]; omega
      · intro h; omega) (by simpa using he) hg]
  have hw' : ∀ a ∈ m, a.low = 0 → ∃ i j : Int, a.x = i ∧ a.y = j := fun a ha => hw a (by simp [ha])
  cases hsh : shadedFrom 0 (m ++ [e]) with
  | nil => rw [Resave.sewn_first hs.place e he m hk hw' (by rw [hsh]; simp), hsh]; rfl
  | cons p t =>
    by_cases hp : p.1 = 0
    · rw [Resave.sewn_first hs.place e he m hk hw' (by rw [hsh]; simpa using hp), hsh, settled, if_pos hp]
    · rw [Resave.sewn_leading hs.place e he m hk hw' (by rw [hsh]; simpa using hp), hsh, settled, if_neg hp]

/-! ## Examples -/

namespace Resave

theorem demoSound : demoLm.Sound where
  dist_x := fun x0 y0 x1 y1 => by simp [demoLm]
  dist_y := fun x0 y0 x1 y1 => by simp [demoLm]
  orient_x := fun x0 y0 x1 y1 r h => by simpa [demoLm] using h
  orient_y := fun x0 y0 x1 y1 r h => by simpa [demoLm] using h

/-- The default settings of the formats. -/
theorem saving_exp : Saving Exp.settings demoLm 127 :=
  ⟨demoSound, fun v h => by injection h with h; subst h; unfold ValidSequin; decide, rfl, rfl, rfl, rfl, rfl, by unfold Settings.NoTies; decide, fun p => rfl⟩
theorem saving_dst : Saving Dst.settings demoLm 121 :=
  ⟨demoSound, fun v h => by injection h with h; subst h; unfold ValidSequin; decide, rfl, rfl, rfl, rfl, rfl, by unfold Settings.NoTies; decide, fun p => rfl⟩

end Resave

/-- A clean design: two colours, a trim, a jump, a step longer than a record holds. -/
def resaveDemo : List Stitch :=
  [⟨3, 4, 1⟩, ⟨3, 4, 0⟩, ⟨5, 3, 0⟩, ⟨0, 0, 2⟩, ⟨-300, 4, 0⟩, ⟨-300, 4, 5⟩, ⟨-301, 4, 0⟩, ⟨-301, -4, 0⟩, ⟨-301, -4, 4⟩]

theorem resaveDemo_clean : Clean resaveDemo where
  shape := ⟨resaveDemo.dropLast, ⟨-301, -4, 4⟩, by decide +kernel, by decide, by decide +kernel⟩
  whole := by
    intro a ha _
    simp [resaveDemo] at ha
    rcases ha with rfl | rfl | rfl | rfl | rfl | rfl | rfl | rfl | rfl
    · exact ⟨3, 4, by norm_num, by norm_num⟩
    · exact ⟨3, 4, by norm_num, by norm_num⟩
    · exact ⟨5, 3, by norm_num, by norm_num⟩
    · exact ⟨0, 0, by norm_num, by norm_num⟩
    · exact ⟨-300, 4, by norm_num, by norm_num⟩
    · exact ⟨-300, 4, by norm_num, by norm_num⟩
    · exact ⟨-301, 4, by norm_num, by norm_num⟩
    · exact ⟨-301, -4, by norm_num, by norm_num⟩
    · exact ⟨-301, -4, by norm_num, by norm_num⟩
  first := by decide +kernel

-- EXP, then DST, then EXP again
example : ∃ l1 l2 l3, Resaved resaveDemo l1 ∧ Resaved l1 l2 ∧ Resaved l2 l3 ∧ shadedFrom 0 l3 =
    [(0, (3, 4)), (0, (5, 3)), (0, (-300, 4)), (1, (-301, 4)), (1, (-301, -4))] := by
  obtain ⟨o1, _, _, h1⟩ := (C98_goes_on resaveDemo_clean Resave.saving_exp (by norm_num) (by decide) []).1 rfl (by decide)
  have c1 := (C98_no_loss_partial resaveDemo_clean (.single h1)).2
  obtain ⟨o2, _, b2, _, _, h2⟩ := (C98_goes_on c1 Resave.saving_dst (by norm_num) (by decide) []).2 rfl 3
  have h2 := h2 (List.replicate 512 0) (by decide +kernel) 3 none true
  have c2 := (C98_no_loss_partial c1 (.single h2)).2
  obtain ⟨o3, _, _, h3⟩ := (C98_goes_on c2 Resave.saving_exp (by norm_num) (by decide) []).1 rfl (by decide)
  refine ⟨_, _, _, h1, h2, h3, ?_⟩
  rw [(C98_no_loss_partial resaveDemo_clean (((Relation.ReflTransGen.single h1).tail h2).tail h3)).1]
  decide +kernel

/-- A design that starts with two colour changes, as EXP files hold it. -/
def leadingDemo : Bytes := [0x80, 0x01, 0, 0, 0x80, 0x01, 0, 0, 3, 4, 5, 6, 0x80, 0x01, 0, 0, 1, 1]

/-- **C98** fails if the design starts with colour changes: each time one of them is lost, and everything is sewn in the colour before. -/
theorem C98_leading_change :
    let again := fun f => Exp.write (demoEncode Exp.settings (Exp.read f))
    (shadedFrom 0 (Exp.read leadingDemo)).map Prod.fst = [2, 2, 3] ∧
    (shadedFrom 0 (Exp.read (again leadingDemo))).map Prod.fst = [1, 1, 2] ∧
    (shadedFrom 0 (Exp.read (again (again leadingDemo)))).map Prod.fst = [0, 0, 1] ∧
    (shadedFrom 0 (Exp.read (again (again (again leadingDemo))))).map Prod.fst = [0, 0, 1] := by decide +kernel

example : Resaved (Exp.read leadingDemo) (Exp.read (Exp.write (demoEncode Exp.settings (Exp.read leadingDemo)))) := by
  refine .exp (threads := []) (ths := [none, none, none]) Resave.saving_exp (by decide) ?_
  decide +kernel

end Emb
