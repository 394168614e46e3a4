import Verif.Trims

/-!
# Property C50: inferring trims

`Edited` (in `Verif.Trims`) is the specification: TRIMs may be inserted at the needle, and stretches that begin with a jump,
do nothing but jump and return to where they started may be dropped.
-/

namespace Emb

/-- C50: whatever the thresholds and clipping, the sequence of stitches, sequins, colour changes and needle changes is
kept, with positions and whole command words. -/
theorem C50_sewing_kept_partial (jumps : Option Int) (dist : Option ℚ) (clipping : Bool) (l : List Stitch) :
    (interpolateTrims jumps dist clipping l).filter
        (fun a => a.low = 0 ∨ a.low = 5 ∨ a.low = 7 ∨ a.low = 9) =
      l.filter (fun a => a.low = 0 ∨ a.low = 5 ∨ a.low = 7 ∨ a.low = 9) :=
  (interpolateTrims_edited jumps dist clipping l).filter (fun a h => by simpa using h)

/-- C50: the only changes are inserted TRIMs, at the position the result has reached, and dropped stretches that start with
a jump, contain no sewing, colour change, needle change or trim, and whose jumps have no net displacement. -/
theorem C50_edited (jumps : Option Int) (dist : Option ℚ) (clipping : Bool) (l : List Stitch) :
    Edited (0, 0) (0, 0) l (interpolateTrims jumps dist clipping l) := interpolateTrims_edited jumps dist clipping l

/-- Without clipping the result is the source with TRIMs inserted: nothing is lost at all. -/
theorem C50_no_clipping (jumps : Option Int) (dist : Option ℚ) (l : List Stitch) :
    (interpolateTrims jumps dist false l).filter (fun a => a.low ≠ 2) = l.filter (fun a => a.low ≠ 2) ∧
    l.Sublist (interpolateTrims jumps dist false l) := by
  have step : ∀ (p : List Stitch × ITState) (st : Stitch),
      (p.2.jumping = true → p.2.start ≤ p.1.length) →
      let q := itStep jumps dist false p st
      (q.1 = p.1 ++ [st] ∨ ∃ k ≤ p.1.length, ∃ t : Stitch, t.cmd = 2 ∧ q.1 = (p.1.take k ++ [t] ++ p.1.drop k) ++ [st]) ∧
      (q.2.jumping = true → q.2.start ≤ q.1.length) := by
    intro p st hp
    unfold itStep
    have hc : cmdOf st.cmd = st.low := rfl
    simp only [hc, Bool.false_eq_true, false_and, if_false, STITCH, SEQUIN_EJECT, COLOR_CHANGE, NEEDLE_SET, TRIM, JUMP]
    by_cases c1 : st.low = 1
    · have n1 : ¬(st.low = 0 ∨ st.low = 7) := by omega
      have n2 : ¬(st.low = 5 ∨ st.low = 9 ∨ st.low = 2) := by omega
      simp only [if_pos c1, if_neg n1, if_neg n2]
      have hst : ∀ s : ITState, (if p.2.jumping = true then ({ p.2 with x := st.x, y := st.y } : ITState) else
          { p.2 with x := st.x, y := st.y, jdx := 0, jdy := 0, count := 0, start := p.1.length, jumping := true }) = s →
          s.start ≤ p.1.length := by
        intro s hs
        by_cases hj : p.2.jumping = true
        · rw [if_pos hj] at hs; subst hs; exact hp hj
        · rw [if_neg hj] at hs; subst hs; exact Nat.le_refl _
      generalize (if p.2.jumping = true then ({ p.2 with x := st.x, y := st.y } : ITState) else
          { p.2 with x := st.x, y := st.y, jdx := 0, jdy := 0, count := 0, start := p.1.length, jumping := true }) = s at hst ⊢
      have hs := hst s rfl
      generalize beyond dist _ _ = far
      split
      · refine ⟨Or.inr ⟨s.start, hs, ⟨(posBefore (p.1 ++ [st]) s.start).1, (posBefore (p.1 ++ [st]) s.start).2, 2⟩, rfl, ?_⟩,
          fun _ => ?_⟩
        · simp only [pyInsert]
          rw [List.take_append_of_le_length hs, List.drop_append_of_le_length hs]
          simp
        · simp only [pyInsert, List.length_append, List.length_take, List.length_drop, List.length_cons, List.length_nil]
          omega
      · refine ⟨Or.inl rfl, fun _ => ?_⟩
        simp only [List.length_append, List.length_cons, List.length_nil]
        omega
    · rw [if_neg c1]
      refine ⟨Or.inl rfl, ?_⟩
      by_cases c2 : st.low = 0 ∨ st.low = 7
      · rw [if_pos c2]; exact fun h => (Bool.false_ne_true h).elim
      · rw [if_neg c2]
        by_cases c3 : st.low = 5 ∨ st.low = 9 ∨ st.low = 2
        · rw [if_pos c3]; exact fun h => (Bool.false_ne_true h).elim
        · rw [if_neg c3]
          intro h
          have := hp h
          simp only [List.length_append, List.length_cons, List.length_nil]
          omega
  have fold : ∀ (l src : List Stitch) (p : List Stitch × ITState), (p.2.jumping = true → p.2.start ≤ p.1.length) →
      p.1.filter (fun a => a.low ≠ 2) = src.filter (fun a => a.low ≠ 2) → src.Sublist p.1 →
      (l.foldl (itStep jumps dist false) p).1.filter (fun a => a.low ≠ 2) = (src ++ l).filter (fun a => a.low ≠ 2) ∧
      (src ++ l).Sublist (l.foldl (itStep jumps dist false) p).1 := by
    intro l
    induction l with
    | nil => intro src p _ h1 h2; rw [List.append_nil]; exact ⟨h1, h2⟩
    | cons a l ih =>
      intro src p h0 h1 h2
      obtain ⟨hs, hj⟩ := step p a h0
      have := ih (src ++ [a]) (itStep jumps dist false p a) hj ?_ ?_
      · simpa using this
      · rcases hs with hs | ⟨k, hk, t, ht, hs⟩
        · rw [hs, List.filter_append, List.filter_append, h1]
        · rw [hs, List.filter_append, List.filter_append, List.filter_append, List.filter_append, ← h1]
          have : [t].filter (fun a : Stitch => decide (a.low ≠ 2)) = [] := by
            simp [Stitch.low, ht]
          rw [this, List.append_nil, ← List.filter_append, List.take_append_drop]
      · rcases hs with hs | ⟨k, hk, t, ht, hs⟩
        · rw [hs]; exact h2.append (List.Sublist.refl _)
        · rw [hs]
          refine List.Sublist.append ?_ (List.Sublist.refl _)
          refine h2.trans ?_
          conv_lhs => rw [← List.take_append_drop k p.1]
          exact List.Sublist.append (List.sublist_append_left _ _) (List.Sublist.refl _)
  have := fold l [] ([], ITState.init) (fun h => (Bool.false_ne_true h).elim) rfl (List.Sublist.refl _)
  simpa [interpolateTrims] using this

/-- With neither threshold given and no clipping, nothing changes. -/
theorem C50_no_thresholds (l : List Stitch) : interpolateTrims none none false l = l := by
  have fold : ∀ (l : List Stitch) (p : List Stitch × ITState),
      (l.foldl (itStep none none false) p).1 = p.1 ++ l := by
    intro l
    induction l with
    | nil => intro p; simp
    | cons a l ih =>
      intro p
      rw [List.foldl_cons, ih]
      have : (itStep none none false p a).1 = p.1 ++ [a] := by
        unfold itStep
        simp only [beyond, Bool.false_eq_true, false_and, if_false, reduceCtorEq, or_false, and_false]
        split_ifs <;> rfl
      rw [this]; simp
  simp [interpolateTrims, fold]

/-- The claim about stops fails with clipping (the default): a STOP between two jumps that cancel is deleted. -/
theorem C50_stop_lost :
    ∃ l : List Stitch, (∃ a ∈ l, a.low = 3) ∧ ∀ a ∈ interpolateTrims (some 3) none true l, a.low ≠ 3 :=
  ⟨[⟨0, 0, 0⟩, ⟨10, 0, 1⟩, ⟨10, 0, 3⟩, ⟨0, 0, 1⟩, ⟨1, 0, 0⟩], by decide +kernel, by decide +kernel⟩

/-- A run of three jumps after a stitch gets its TRIM; one that returns is dropped with only the TRIM left. -/
example : interpolateTrims (some 3) none true
    [⟨0, 0, 0⟩, ⟨10, 0, 1⟩, ⟨20, 0, 1⟩, ⟨30, 0, 1⟩, ⟨30, 0, 0⟩, ⟨32, 2, 1⟩, ⟨28, -2, 1⟩, ⟨30, 0, 1⟩, ⟨31, 0, 0⟩] =
    [⟨0, 0, 0⟩, ⟨0, 0, 2⟩, ⟨10, 0, 1⟩, ⟨20, 0, 1⟩, ⟨30, 0, 1⟩, ⟨30, 0, 0⟩, ⟨30, 0, 2⟩, ⟨31, 0, 0⟩] := by decide +kernel

end Emb
