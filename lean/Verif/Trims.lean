import Verif.Spec
import Verif.Py

/-!
# `EmbPattern.interpolate_trims`
-/

namespace Emb

/-- The local variables of `interpolate_trims` (`EmbPattern.py` 748-755). The list itself is split at `i`: the loop reads
the part after `i` once, from left to right, and changes only the part up to `i`. -/
structure ITState where
  x : ℚ
  y : ℚ
  count : Int
  start : Nat
  jdx : ℚ
  jdy : ℚ
  jumping : Bool
  trimmed : Bool
deriving DecidableEq, Repr

/-- `EmbPattern.py` 748-755. -/
def ITState.init : ITState := ⟨0, 0, 0, 0, 0, 0, false, true⟩

/-- The position of the stitch before index `i`, or the origin: where `self.trim(position=i)` puts its TRIM for `i` inside
the list (`insert_stitch_relative` with zero displacement, `EmbPattern.py` 520-536). -/
def posBefore (l : List Stitch) (i : Nat) : ℚ × ℚ := lastPos (l.take i)

/-- `distance_to_require_trim is not None and (abs(jump_dy) > distance_to_require_trim or ...)`,
`EmbPattern.py` 783-787. -/
def beyond (dist : Option ℚ) (dx dy : ℚ) : Bool :=
  match dist with
  | none => false
  | some d => decide (d < |dy| ∨ d < |dx|)

/-- One iteration of the loop, `EmbPattern.py` 756-799. `acc` is `self.stitches[:i]`, `st` is `self.stitches[i]`; the
result's list is `self.stitches[:i + 1]` at the end of the iteration, for the new `i`. -/
def itStep (jumps : Option Int) (dist : Option ℚ) (clipping : Bool) (p : List Stitch × ITState) (st : Stitch) :
    List Stitch × ITState :=
  let s := p.2
  let dx := st.x - s.x
  let dy := st.y - s.y
  let c := cmdOf st.cmd
  let acc := p.1 ++ [st]
  let s : ITState := { s with x := st.x, y := st.y }
  let s : ITState :=
    if c = STITCH ∨ c = SEQUIN_EJECT then { s with trimmed := false, jumping := false }
    else if c = COLOR_CHANGE ∨ c = NEEDLE_SET ∨ c = TRIM then { s with trimmed := true, jumping := false }
    else s
  if c = JUMP then
    let s : ITState := if s.jumping then s
      else { s with jdx := 0, jdy := 0, count := 0, start := p.1.length, jumping := true }
    let s : ITState := { s with count := s.count + 1, jdx := s.jdx + dx, jdy := s.jdy + dy }
    let far := beyond dist s.jdx s.jdy
    let q : List Stitch × ITState :=
      if s.trimmed = false ∧ (jumps = some s.count ∨ far = true) then
        (pyInsert acc s.start ⟨(posBefore acc s.start).1, (posBefore acc s.start).2, TRIM⟩,
          { s with start := s.start + 1, trimmed := true })
      else (acc, s)
    if clipping = true ∧ q.2.jdx = 0 ∧ q.2.jdy = 0 then (q.1.take q.2.start, q.2) else q
  else (acc, s)

/-- `interpolate_trims(jumps_to_require_trim, distance_to_require_trim, clipping)`, `EmbPattern.py` 741-799.
Commands are the numbers of the list; `jumps = none` is Python's `None`. -/
def interpolateTrims (jumps : Option Int) (dist : Option ℚ) (clipping : Bool) (l : List Stitch) : List Stitch :=
  (l.foldl (itStep jumps dist clipping) ([], ITState.init)).1

/-! ## A relational description -/

/-- Position at the end of a list that starts from `p`. -/
def endPos (p : ℚ × ℚ) (l : List Stitch) : ℚ × ℚ :=
  match l.getLast? with
  | none => p
  | some a => (a.x, a.y)

@[simp] theorem endPos_nil (p : ℚ × ℚ) : endPos p [] = p := rfl
@[simp] theorem endPos_snoc (p : ℚ × ℚ) (l : List Stitch) (a : Stitch) : endPos p (l ++ [a]) = (a.x, a.y) := by
  simp [endPos]

theorem endPos_cons (p : ℚ × ℚ) (a : Stitch) (l : List Stitch) : endPos p (a :: l) = endPos (a.x, a.y) l := by
  cases l with
  | nil => rfl
  | cons b l =>
    obtain ⟨m, c, e⟩ := List.eq_nil_or_concat (b :: l) |>.resolve_left (by simp)
    rw [List.concat_eq_append] at e
    rw [e, ← List.cons_append, endPos_snoc, endPos_snoc]

theorem endPos_append (p : ℚ × ℚ) (a b : List Stitch) : endPos p (a ++ b) = endPos (endPos p a) b := by
  induction a generalizing p with
  | nil => rfl
  | cons x a ih => simp only [List.cons_append, endPos_cons, ih]

theorem lastPos_eq (l : List Stitch) : lastPos l = endPos (0, 0) l := rfl

/-- Total displacement of the JUMP (1) commands of a list that starts from `p`. -/
def jumpSum (p : ℚ × ℚ) : List Stitch → ℚ × ℚ
  | [] => (0, 0)
  | a :: l =>
    let r := jumpSum (a.x, a.y) l
    if a.low = 1 then (a.x - p.1 + r.1, a.y - p.2 + r.2) else r

/-- `Edited p q l l'`: starting at position `p`, `l` becomes `l'` (whose own position so far is `q`) by inserting TRIMs (2)
where the needle is and dropping runs that start with a JUMP (1), contain no STITCH (0), TRIM (2), COLOR_CHANGE (5),
SEQUIN_EJECT (7) or NEEDLE_SET (9), and whose jumps have no net displacement. -/
inductive Edited : ℚ × ℚ → ℚ × ℚ → List Stitch → List Stitch → Prop
  | nil (p q) : Edited p q [] []
  | keep {p q} (a : Stitch) {l l'} : Edited (a.x, a.y) (a.x, a.y) l l' → Edited p q (a :: l) (a :: l')
  | trim {p q l l'} : Edited p q l l' → Edited p q l (⟨q.1, q.2, 2⟩ :: l')
  | clip {p q} (j : Stitch) (run : List Stitch) {l l'} : j.low = 1 →
      (∀ b ∈ run, b.low ≠ 0 ∧ b.low ≠ 2 ∧ b.low ≠ 5 ∧ b.low ≠ 7 ∧ b.low ≠ 9) →
      jumpSum p (j :: run) = (0, 0) → Edited (endPos p (j :: run)) q l l' → Edited p q (j :: run ++ l) l'

theorem Edited.append {p q : ℚ × ℚ} {a a' b b' : List Stitch} (h : Edited p q a a')
    (h2 : Edited (endPos p a) (endPos q a') b b') : Edited p q (a ++ b) (a' ++ b') := by
  induction h with
  | nil p q => exact h2
  | keep x h ih => rw [endPos_cons, endPos_cons] at h2; exact .keep x (ih h2)
  | trim h ih => rw [endPos_cons] at h2; exact .trim (ih h2)
  | clip j run h1 h3 h4 h5 ih =>
    rw [endPos_append] at h2
    have := Edited.clip j run h1 h3 h4 (ih h2)
    simpa using this

theorem Edited.refl (p q : ℚ × ℚ) (l : List Stitch) : Edited p q l l := by
  induction l generalizing p q with
  | nil => exact .nil _ _
  | cons a l ih => exact .keep a (ih _ _)

theorem jumpSum_append (p : ℚ × ℚ) (a b : List Stitch) :
    jumpSum p (a ++ b) = ((jumpSum p a).1 + (jumpSum (endPos p a) b).1, (jumpSum p a).2 + (jumpSum (endPos p a) b).2) := by
  induction a generalizing p with
  | nil => simp [jumpSum]
  | cons x a ih =>
    simp only [List.cons_append, jumpSum, ih, endPos_cons]
    split_ifs
    · simp [add_assoc]
    · rfl

/-- Commands that do not end a jump run. -/
def Passive (b : Stitch) : Prop := b.low ≠ 0 ∧ b.low ≠ 2 ∧ b.low ≠ 5 ∧ b.low ≠ 7 ∧ b.low ≠ 9

/-- The processed source `src` against the processed list: while a jump run is pending, it is split into a part already
clipped (`r1`) and a part (`r2`) the list still holds from `start` on. -/
def ITInv (src : List Stitch) (p : List Stitch × ITState) : Prop :=
  (p.2.x, p.2.y) = endPos (0, 0) src ∧
  (p.2.jumping = true → ∃ s1 r1 r2 out, src = s1 ++ (r1 ++ r2) ∧ p.1 = out ++ r2 ∧ p.2.start = out.length ∧
      Edited (0, 0) (0, 0) s1 out ∧ (∃ j rest, r1 ++ r2 = j :: rest ∧ j.low = 1) ∧
      (∀ b ∈ r1 ++ r2, Passive b) ∧ jumpSum (endPos (0, 0) s1) r1 = (0, 0) ∧
      (p.2.jdx, p.2.jdy) = jumpSum (endPos (0, 0) s1) (r1 ++ r2)) ∧
  (p.2.jumping = false → Edited (0, 0) (0, 0) src p.1)

theorem ITInv.edited {src : List Stitch} {p : List Stitch × ITState} (h : ITInv src p) :
    Edited (0, 0) (0, 0) src p.1 := by
  cases hj : p.2.jumping with
  | false => exact h.2.2 hj
  | true =>
    obtain ⟨s1, r1, r2, out, e1, e2, _, h1, ⟨j, rest, e3, h3⟩, h4, h5, _⟩ := h.2.1 hj
    rw [e1, e2]
    refine h1.append ?_
    cases r1 with
    | nil => exact Edited.refl _ _ _
    | cons k r1 =>
      injection e3 with e3 e4
      subst e3
      refine Edited.clip k r1 h3 (fun b hb => ?_) h5 (Edited.refl _ _ _)
      exact h4 b (by simp [hb])

theorem Edited.snoc {p q : ℚ × ℚ} {l l' : List Stitch} (h : Edited p q l l') (a : Stitch) :
    Edited p q (l ++ [a]) (l' ++ [a]) := h.append (.keep a (.nil _ _))

theorem itStep_inv (jumps : Option Int) (dist : Option ℚ) (clipping : Bool) (src : List Stitch)
    (p : List Stitch × ITState) (st : Stitch) (h : ITInv src p) :
    ITInv (src ++ [st]) (itStep jumps dist clipping p st) := by
  have hed := h.edited
  obtain ⟨hpos, hj, _⟩ := h
  have hend : endPos (0, 0) (src ++ [st]) = (st.x, st.y) := endPos_snoc _ _ _
  obtain ⟨hpx, hpy⟩ := Prod.mk.inj hpos
  unfold itStep
  have hc : cmdOf st.cmd = st.low := rfl
  simp only [hc, STITCH, SEQUIN_EJECT, COLOR_CHANGE, NEEDLE_SET, TRIM, JUMP]
  by_cases c1 : st.low = 1
  · have n1 : ¬(st.low = 0 ∨ st.low = 7) := by omega
    have n2 : ¬(st.low = 5 ∨ st.low = 9 ∨ st.low = 2) := by omega
    simp only [if_pos c1, if_neg n1, if_neg n2]
    -- the pending run with the new jump
    have key : ∃ s1 r1 r2 out, ∃ s' : ITState,
        (if p.2.jumping = true then ({ p.2 with x := st.x, y := st.y } : ITState) else
          { p.2 with x := st.x, y := st.y, jdx := 0, jdy := 0, count := 0, start := p.1.length, jumping := true }) = s' ∧
        src ++ [st] = s1 ++ (r1 ++ (r2 ++ [st])) ∧ p.1 = out ++ r2 ∧ s'.start = out.length ∧
        Edited (0, 0) (0, 0) s1 out ∧ (∃ j rest, r1 ++ (r2 ++ [st]) = j :: rest ∧ j.low = 1) ∧
        (∀ b ∈ r1 ++ (r2 ++ [st]), Passive b) ∧ jumpSum (endPos (0, 0) s1) r1 = (0, 0) ∧
        (s'.jdx + (st.x - p.2.x), s'.jdy + (st.y - p.2.y)) = jumpSum (endPos (0, 0) s1) (r1 ++ (r2 ++ [st])) ∧
        s'.jumping = true ∧ s'.x = st.x ∧ s'.y = st.y := by
      have pst : Passive st := by unfold Passive; omega
      cases hjj : p.2.jumping with
      | false =>
        refine ⟨src, [], [], p.1, _, rfl, by simp, by simp, rfl, hed, ⟨st, [], rfl, c1⟩, ?_, rfl, ?_, rfl, rfl, rfl⟩
        · intro b hb; simp at hb; subst hb; exact pst
        · simp [jumpSum, c1, ← hpos]
      | true =>
        obtain ⟨s1, r1, r2, out, e1, e2, e3, h1, ⟨j, rest, e4, h3⟩, h4, h5, h6⟩ := hj hjj
        refine ⟨s1, r1, r2, out, _, rfl, by rw [e1]; simp, e2, e3, h1, ⟨j, rest ++ [st], ?_, h3⟩, ?_, h5, ?_,
          hjj, rfl, rfl⟩
        · rw [← List.append_assoc, e4]; rfl
        · intro b hb
          rw [← List.append_assoc, List.mem_append] at hb
          rcases hb with hb | hb
          · exact h4 b hb
          · simp at hb; subst hb; exact pst
        · obtain ⟨h61, h62⟩ := Prod.mk.inj h6
          rw [← List.append_assoc, jumpSum_append, ← endPos_append, ← e1, ← hpos]
          simp [jumpSum, c1, ← h61, ← h62]
    obtain ⟨s1, r1, r2, out, s', hs', e1, e2, e3, h1, hhead, h4, h5, h6, h7, h8, h9⟩ := key
    rw [hs', e2]
    generalize beyond dist (s'.jdx + (st.x - p.2.x)) (s'.jdy + (st.y - p.2.y)) = far
    -- the list and state before clipping
    have key2 : ∃ out', ∃ s'' : ITState,
        (if s'.trimmed = false ∧ (jumps = some (s'.count + 1) ∨ far = true) then
          (pyInsert (out ++ r2 ++ [st]) s'.start
              ⟨(posBefore (out ++ r2 ++ [st]) s'.start).1, (posBefore (out ++ r2 ++ [st]) s'.start).2, 2⟩,
            ({ s' with count := s'.count + 1, jdx := s'.jdx + (st.x - p.2.x), jdy := s'.jdy + (st.y - p.2.y),
                       start := s'.start + 1, trimmed := true } : ITState))
        else (out ++ r2 ++ [st],
          { s' with count := s'.count + 1, jdx := s'.jdx + (st.x - p.2.x), jdy := s'.jdy + (st.y - p.2.y) })) =
          (out' ++ (r2 ++ [st]), s'') ∧
        Edited (0, 0) (0, 0) s1 out' ∧ s''.start = out'.length ∧ s''.jumping = true ∧ s''.x = st.x ∧ s''.y = st.y ∧
        (s''.jdx, s''.jdy) = (s'.jdx + (st.x - p.2.x), s'.jdy + (st.y - p.2.y)) := by
      split
      · refine ⟨out ++ [⟨(lastPos out).1, (lastPos out).2, 2⟩], _, Prod.ext ?_ rfl, ?_, ?_, h7, h8, h9, rfl⟩
        · simp [pyInsert, posBefore, e3]
        · have := h1.append (Edited.trim (Edited.nil (endPos (0, 0) s1) (endPos (0, 0) out)))
          rw [List.append_nil] at this
          exact this
        · simp [e3]
      · exact ⟨out, _, Prod.ext (by simp) rfl, h1, e3, h7, h8, h9, rfl⟩
    obtain ⟨out', s'', heq, g1, g2, g3, g4, g5, g6⟩ := key2
    rw [heq]
    simp only
    by_cases hcl : clipping = true ∧ s''.jdx = 0 ∧ s''.jdy = 0
    · rw [if_pos hcl]
      refine ⟨by rw [hend]; exact Prod.ext g4 g5, fun _ => ?_, fun hh => by rw [g3] at hh; cases hh⟩
      refine ⟨s1, r1 ++ (r2 ++ [st]), [], out', by simpa using e1, by simp [g2], g2, g1, by simpa using hhead,
        by simpa using h4, ?_, ?_⟩
      · rw [← h6, ← g6, hcl.2.1, hcl.2.2]
      · rw [List.append_nil, ← h6, ← g6]
    · rw [if_neg hcl]
      refine ⟨by rw [hend]; exact Prod.ext g4 g5, fun _ => ?_, fun hh => by rw [g3] at hh; cases hh⟩
      exact ⟨s1, r1, r2 ++ [st], out', e1, rfl, g2, g1, hhead, h4, h5, by rw [g6, h6]⟩
  · rw [if_neg c1]
    by_cases c2 : st.low = 0 ∨ st.low = 7
    · rw [if_pos c2]
      exact ⟨hend.symm, fun hh => (Bool.false_ne_true hh).elim, fun _ => hed.snoc st⟩
    · rw [if_neg c2]
      by_cases c3 : st.low = 5 ∨ st.low = 9 ∨ st.low = 2
      · rw [if_pos c3]
        exact ⟨hend.symm, fun hh => (Bool.false_ne_true hh).elim, fun _ => hed.snoc st⟩
      · rw [if_neg c3]
        refine ⟨hend.symm, fun hh => ?_, fun _ => hed.snoc st⟩
        obtain ⟨s1, r1, r2, out, e1, e2, e3, h1, ⟨j, rest, e4, h3⟩, h4, h5, h6⟩ := hj hh
        refine ⟨s1, r1, r2 ++ [st], out, by rw [e1]; simp, by rw [e2]; simp, e3, h1, ⟨j, rest ++ [st], ?_, h3⟩,
          ?_, h5, ?_⟩
        · rw [← List.append_assoc, e4]; rfl
        · intro b hb
          rw [← List.append_assoc, List.mem_append] at hb
          rcases hb with hb | hb
          · exact h4 b hb
          · simp at hb; subst hb; unfold Passive; omega
        · rw [← List.append_assoc, jumpSum_append]
          simp [jumpSum, c1]
          exact h6

theorem itFold_inv (jumps : Option Int) (dist : Option ℚ) (clipping : Bool) (l : List Stitch) :
    ∀ (src : List Stitch) (p : List Stitch × ITState), ITInv src p →
      ITInv (src ++ l) (l.foldl (itStep jumps dist clipping) p) := by
  induction l with
  | nil => intro src p h; simpa using h
  | cons a l ih =>
    intro src p h
    have := ih (src ++ [a]) _ (itStep_inv jumps dist clipping src p a h)
    simpa using this

theorem interpolateTrims_edited (jumps : Option Int) (dist : Option ℚ) (clipping : Bool) (l : List Stitch) :
    Edited (0, 0) (0, 0) l (interpolateTrims jumps dist clipping l) := by
  have : ITInv [] ([], ITState.init) := ⟨rfl, fun h => (Bool.false_ne_true h).elim, fun _ => Edited.nil _ _⟩
  have := (itFold_inv jumps dist clipping l [] _ this).edited
  simpa [interpolateTrims] using this

/-- An edit keeps every command that ends a jump run, except for TRIMs, which may be added. -/
theorem Edited.filter {K : Stitch → Bool} (hK : ∀ a, K a = true → a.low = 0 ∨ a.low = 5 ∨ a.low = 7 ∨ a.low = 9)
    {p q : ℚ × ℚ} {l l' : List Stitch} (h : Edited p q l l') : l'.filter K = l.filter K := by
  induction h with
  | nil => rfl
  | keep a h ih => simp [List.filter_cons, ih]
  | @trim p q l l' h ih =>
    rw [List.filter_cons, ih, if_neg]
    intro hh
    have := hK _ hh
    simp [Stitch.low] at this
  | @clip p q j run l l' h1 h3 h4 h5 ih =>
    have e : (j :: run).filter K = [] := by
      rw [List.filter_eq_nil_iff]
      intro a ha hh
      have := hK _ hh
      rcases List.mem_cons.1 ha with rfl | ha
      · omega
      · have := h3 a ha; omega
    rw [ih, List.filter_append, e]
    rfl

/-- An edit only adds TRIMs. -/
theorem Edited.mem {p q : ℚ × ℚ} {l l' : List Stitch} (h : Edited p q l l') : ∀ a ∈ l', a ∈ l ∨ a.cmd = 2 := by
  induction h with
  | nil => intro a ha; simp at ha
  | keep b h ih =>
    intro a ha
    rcases List.mem_cons.1 ha with rfl | ha
    · simp
    · rcases ih a ha with h | h
      · simp [h]
      · simp [h]
  | trim h ih =>
    intro a ha
    rcases List.mem_cons.1 ha with rfl | ha
    · simp
    · exact ih a ha
  | clip j run h1 h3 h4 h5 ih =>
    intro a ha
    rcases ih a ha with h | h
    · left; simp [h]
    · simp [h]

end Emb
