import Verif.Props.TrimProps

/-!
# Property C50: exactly which trims are inserted and which jumps are dropped

`trimmedDesign` says what the result has to be, looking ahead over each run of jumps instead of going back over it as the code
does. A run of jumps starts with a JUMP and goes on to the next stitch, sequin, colour change, needle change or trim.
-/

namespace Emb

/-- STITCH (0), TRIM (2), COLOR_CHANGE (5), SEQUIN_EJECT (7) and NEEDLE_SET (9) end a run of jumps. -/
def endsRun (a : Stitch) : Bool := a.low = 0 ∨ a.low = 2 ∨ a.low = 5 ∨ a.low = 7 ∨ a.low = 9

/-- Farther than the given distance in one of the directions. -/
def isFar (dist : Option ℚ) (s : ℚ × ℚ) : Bool :=
  match dist with
  | none => false
  | some d => |s.1| > d ∨ |s.2| > d

/-- The rest of the run asks for a trim: one of its jumps is the one with number `n`, or ends farther than `dist` from the start of
the run. `k` jumps with total displacement `s` have been made, the needle is at `p`. -/
def asksTrim (n : Option Int) (dist : Option ℚ) : Int → ℚ × ℚ → ℚ × ℚ → List Stitch → Bool
  | _, _, _, [] => false
  | k, s, p, a :: l =>
    if endsRun a then false
    else if a.low = 1 then
      n = some (k + 1) ∨ isFar dist (s.1 + (a.x - p.1), s.2 + (a.y - p.2)) ∨
        asksTrim n dist (k + 1) (s.1 + (a.x - p.1), s.2 + (a.y - p.2)) (a.x, a.y) l
    else asksTrim n dist k s (a.x, a.y) l

/-- One of the jumps of the rest of the run brings the displacement back to zero. -/
def comesBack : ℚ × ℚ → ℚ × ℚ → List Stitch → Bool
  | _, _, [] => false
  | s, p, a :: l =>
    if endsRun a then false
    else if a.low = 1 then
      (s.1 + (a.x - p.1), s.2 + (a.y - p.2)) = ((0, 0) : ℚ × ℚ) ∨
        comesBack (s.1 + (a.x - p.1), s.2 + (a.y - p.2)) (a.x, a.y) l
    else comesBack s (a.x, a.y) l

/-- The result for the rest of a design, with the needle at `p`. `sewn`: there is thread to cut. `run`: the displacement of the
jumps since the start of the run, `none` outside of a run. A command of a run is dropped (with `clip`) if the run comes back
at it or later. -/
def trimmedDesign (n : Option Int) (dist : Option ℚ) (clip : Bool) : ℚ × ℚ → Bool → Option (ℚ × ℚ) → List Stitch → List Stitch
  | _, _, _, [] => []
  | p, sewn, run, a :: l =>
    if endsRun a then a :: trimmedDesign n dist clip (a.x, a.y) (a.low = 0 ∨ a.low = 7) none l
    else if a.low = 1 then
      match run with
      | none =>
        let s := (a.x - p.1, a.y - p.2)
        let cut : Bool := sewn ∧ asksTrim n dist 0 (0, 0) p (a :: l)
        (if cut then [⟨p.1, p.2, 2⟩] else []) ++
        (if clip ∧ comesBack (0, 0) p (a :: l) then [] else [a]) ++
        trimmedDesign n dist clip (a.x, a.y) (sewn && !cut) (some s) l
      | some s =>
        (if clip ∧ comesBack s p (a :: l) then [] else [a]) ++
        trimmedDesign n dist clip (a.x, a.y) sewn (some (s.1 + (a.x - p.1), s.2 + (a.y - p.2))) l
    else
      (match run with
        | none => [a]
        | some s => if clip ∧ comesBack s p (a :: l) then [] else [a]) ++
      trimmedDesign n dist clip (a.x, a.y) sewn run l

theorem endsRun_iff (a : Stitch) : endsRun a = true ↔ a.low = 0 ∨ a.low = 2 ∨ a.low = 5 ∨ a.low = 7 ∨ a.low = 9 := by
  simp [endsRun]

theorem isFar_eq (dist : Option ℚ) (x y : ℚ) : isFar dist (x, y) = beyond dist x y := by
  unfold isFar beyond
  cases dist with
  | none => rfl
  | some d => simp only [gt_iff_lt]; rw [Bool.eq_iff_iff]; simp only [decide_eq_true_eq]; exact or_comm

/-- Whether there is thread to cut does not matter within a run. -/
theorem trimmedDesign_cons (n : Option Int) (dist : Option ℚ) (clip : Bool) (p : ℚ × ℚ) (sewn : Bool) (run : Option (ℚ × ℚ))
    (a : Stitch) (l : List Stitch) :
    trimmedDesign n dist clip p sewn run (a :: l) =
    if endsRun a then a :: trimmedDesign n dist clip (a.x, a.y) (a.low = 0 ∨ a.low = 7) none l
    else if a.low = 1 then
      match run with
      | none =>
        let s := (a.x - p.1, a.y - p.2)
        let cut : Bool := sewn ∧ asksTrim n dist 0 (0, 0) p (a :: l)
        (if cut then [⟨p.1, p.2, 2⟩] else []) ++
        (if clip ∧ comesBack (0, 0) p (a :: l) then [] else [a]) ++
        trimmedDesign n dist clip (a.x, a.y) (sewn && !cut) (some s) l
      | some s =>
        (if clip ∧ comesBack s p (a :: l) then [] else [a]) ++
        trimmedDesign n dist clip (a.x, a.y) sewn (some (s.1 + (a.x - p.1), s.2 + (a.y - p.2))) l
    else
      (match run with
        | none => [a]
        | some s => if clip ∧ comesBack s p (a :: l) then [] else [a]) ++
      trimmedDesign n dist clip (a.x, a.y) sewn run l := by
  cases run <;> rfl

theorem asksTrim_cons (n : Option Int) (dist : Option ℚ) (k : Int) (s p : ℚ × ℚ) (a : Stitch) (l : List Stitch) :
    asksTrim n dist k s p (a :: l) =
    if endsRun a then false
    else if a.low = 1 then
      n = some (k + 1) ∨ isFar dist (s.1 + (a.x - p.1), s.2 + (a.y - p.2)) ∨
        asksTrim n dist (k + 1) (s.1 + (a.x - p.1), s.2 + (a.y - p.2)) (a.x, a.y) l
    else asksTrim n dist k s (a.x, a.y) l := rfl

theorem comesBack_cons (s p : ℚ × ℚ) (a : Stitch) (l : List Stitch) :
    comesBack s p (a :: l) =
    if endsRun a then false
    else if a.low = 1 then
      (s.1 + (a.x - p.1), s.2 + (a.y - p.2)) = ((0, 0) : ℚ × ℚ) ∨
        comesBack (s.1 + (a.x - p.1), s.2 + (a.y - p.2)) (a.x, a.y) l
    else comesBack s (a.x, a.y) l := rfl

theorem step_ends (n : Option Int) (dist : Option ℚ) (clip : Bool) (acc : List Stitch) (s : ITState) (a : Stitch)
    (h : endsRun a = true) :
    itStep n dist clip (acc, s) a =
      (acc ++ [a], { s with x := a.x, y := a.y, trimmed := !decide (a.low = 0 ∨ a.low = 7), jumping := false }) := by
  have hc : cmdOf a.cmd = a.low := rfl
  rw [endsRun_iff] at h
  unfold itStep
  simp only [hc, STITCH, SEQUIN_EJECT, COLOR_CHANGE, NEEDLE_SET, TRIM, JUMP]
  rw [if_neg (c := a.low = 1) (by omega)]
  by_cases h0 : a.low = 0 ∨ a.low = 7
  · rw [if_pos h0, decide_eq_true h0]; rfl
  · rw [if_neg h0, if_pos (by omega), decide_eq_false h0]; rfl

theorem step_other (n : Option Int) (dist : Option ℚ) (clip : Bool) (acc : List Stitch) (s : ITState) (a : Stitch)
    (h : endsRun a = false) (h1 : a.low ≠ 1) :
    itStep n dist clip (acc, s) a = (acc ++ [a], { s with x := a.x, y := a.y }) := by
  have hc : cmdOf a.cmd = a.low := rfl
  have h : ¬(a.low = 0 ∨ a.low = 2 ∨ a.low = 5 ∨ a.low = 7 ∨ a.low = 9) := by
    rw [← endsRun_iff, h]; exact Bool.false_ne_true
  unfold itStep
  simp only [hc, STITCH, SEQUIN_EJECT, COLOR_CHANGE, NEEDLE_SET, TRIM, JUMP]
  rw [if_neg (c := a.low = 1) h1, if_neg (by omega), if_neg (by omega)]

/-- A jump within a run that started at `pre.length`. -/
theorem step_jump (n : Option Int) (dist : Option ℚ) (clip : Bool) (pre run : List Stitch) (s : ITState) (a : Stitch)
    (h1 : a.low = 1) (hj : s.jumping = true) (hst : s.start = pre.length) :
    ∃ pre' run' s', itStep n dist clip (pre ++ run, s) a = (pre' ++ run', s') ∧
      pre' = pre ++ (if s.trimmed = false ∧ (n = some (s.count + 1) ∨
          isFar dist (s.jdx + (a.x - s.x), s.jdy + (a.y - s.y)) = true)
        then [⟨(lastPos pre).1, (lastPos pre).2, 2⟩] else []) ∧
      run' = (if clip = true ∧ s.jdx + (a.x - s.x) = 0 ∧ s.jdy + (a.y - s.y) = 0 then [] else run ++ [a]) ∧
      s'.jumping = true ∧ s'.start = pre'.length ∧ s'.count = s.count + 1 ∧ s'.jdx = s.jdx + (a.x - s.x) ∧
      s'.jdy = s.jdy + (a.y - s.y) ∧ s'.x = a.x ∧ s'.y = a.y ∧
      s'.trimmed = (s.trimmed || decide (n = some (s.count + 1) ∨
          isFar dist (s.jdx + (a.x - s.x), s.jdy + (a.y - s.y)) = true)) := by
  have hc : cmdOf a.cmd = a.low := rfl
  unfold itStep
  simp only [hc, STITCH, SEQUIN_EJECT, COLOR_CHANGE, NEEDLE_SET, TRIM, JUMP]
  rw [if_pos (c := a.low = 1) h1, if_neg (c := a.low = 0 ∨ a.low = 7) (by omega),
    if_neg (c := a.low = 5 ∨ a.low = 9 ∨ a.low = 2) (by omega)]
  simp only [hj, if_true, isFar_eq]
  have hpos : posBefore (pre ++ run ++ [a]) s.start = lastPos pre := by
    unfold posBefore
    rw [hst, List.append_assoc, List.take_left]
  rw [hpos]
  generalize beyond dist (s.jdx + (a.x - s.x)) (s.jdy + (a.y - s.y)) = far
  generalize s.jdx + (a.x - s.x) = dx
  generalize s.jdy + (a.y - s.y) = dy
  generalize hT : (⟨(lastPos pre).1, (lastPos pre).2, 2⟩ : Stitch) = T
  have hins : pyInsert (pre ++ run ++ [a]) s.start T = (pre ++ [T]) ++ (run ++ [a]) := by
    unfold pyInsert
    rw [hst, List.append_assoc, List.take_left, List.drop_left]
    simp
  rw [hins]
  have t1 : ((pre ++ [T]) ++ (run ++ [a])).take (s.start + 1) = pre ++ [T] := by
    rw [hst]; exact List.take_left' (by simp)
  have t2 : (pre ++ run ++ [a]).take s.start = pre := by
    rw [hst, List.append_assoc]; exact List.take_left
  by_cases hd : s.trimmed = false ∧ (n = some (s.count + 1) ∨ far = true)
  · rw [if_pos hd, if_pos hd]
    simp only
    by_cases hz : clip = true ∧ dx = 0 ∧ dy = 0
    · rw [if_pos hz, if_pos hz]
      refine ⟨_, [], _, by rw [t1, List.append_nil], rfl, rfl, rfl, by simp [hst], rfl, rfl, rfl, rfl, rfl, ?_⟩
      simp [hd.2]
    · rw [if_neg hz, if_neg hz]
      refine ⟨_, _, _, rfl, rfl, rfl, rfl, by simp [hst], rfl, rfl, rfl, rfl, rfl, ?_⟩
      simp [hd.2]
  · rw [if_neg hd, if_neg hd]
    have hb : s.trimmed = (s.trimmed || decide (n = some (s.count + 1) ∨ far = true)) := by
      cases ht : s.trimmed with
      | true => rfl
      | false =>
        rw [decide_eq_false (fun h => hd ⟨ht, h⟩)]; rfl
    by_cases hz : clip = true ∧ dx = 0 ∧ dy = 0
    · rw [if_pos hz, if_pos hz]
      simp only
      rw [t2]
      exact ⟨pre, [], _, congrArg (fun z => (z, _)) (List.append_nil pre).symm, (List.append_nil _).symm, rfl, rfl, hst, rfl, rfl, rfl,
        rfl, rfl, hb⟩
    · rw [if_neg hz, if_neg hz]
      exact ⟨pre, run ++ [a], _, congrArg (fun z => (z, _)) (List.append_assoc pre run [a]), (List.append_nil _).symm, rfl, rfl, hst,
        rfl, rfl, rfl, rfl, rfl, hb⟩

/-- The rest of the loop from state `s`: outside a run it adds what the specification says; within a run it may still insert a
trim before the run and drop what the run has added so far. -/
theorem loop_spec (n : Option Int) (dist : Option ℚ) (clip : Bool) (l : List Stitch) :
    (∀ (acc : List Stitch) (s : ITState), s.jumping = false → lastPos acc = (s.x, s.y) →
      (l.foldl (itStep n dist clip) (acc, s)).1 = acc ++ trimmedDesign n dist clip (s.x, s.y) (!s.trimmed) none l) ∧
    (∀ (pre run : List Stitch) (s : ITState), s.jumping = true → s.start = pre.length →
      (l.foldl (itStep n dist clip) (pre ++ run, s)).1 =
        pre ++ (if s.trimmed = false ∧ asksTrim n dist s.count (s.jdx, s.jdy) (s.x, s.y) l = true
            then [⟨(lastPos pre).1, (lastPos pre).2, 2⟩] else []) ++
          (if clip = true ∧ comesBack (s.jdx, s.jdy) (s.x, s.y) l = true then [] else run) ++
          trimmedDesign n dist clip (s.x, s.y)
            (!s.trimmed && !asksTrim n dist s.count (s.jdx, s.jdy) (s.x, s.y) l) (some (s.jdx, s.jdy)) l) := by
  induction l with
  | nil =>
    constructor
    · intro acc s _ _
      simp [trimmedDesign]
    · intro pre run s _ _
      simp [trimmedDesign, asksTrim, comesBack]
  | cons a l ih =>
    obtain ⟨ihA, ihB⟩ := ih
    have hB : ∀ (pre run : List Stitch) (s : ITState), s.jumping = true → s.start = pre.length →
      ((a :: l).foldl (itStep n dist clip) (pre ++ run, s)).1 =
        pre ++ (if s.trimmed = false ∧ asksTrim n dist s.count (s.jdx, s.jdy) (s.x, s.y) (a :: l) = true
            then [⟨(lastPos pre).1, (lastPos pre).2, 2⟩] else []) ++
          (if clip = true ∧ comesBack (s.jdx, s.jdy) (s.x, s.y) (a :: l) = true then [] else run) ++
          trimmedDesign n dist clip (s.x, s.y)
            (!s.trimmed && !asksTrim n dist s.count (s.jdx, s.jdy) (s.x, s.y) (a :: l)) (some (s.jdx, s.jdy)) (a :: l) := by
      intro pre run s hj hst
      rw [List.foldl_cons, trimmedDesign_cons]
      by_cases he : endsRun a = true
      · rw [step_ends n dist clip _ s a he, ihA _ _ rfl (lastPos_snoc _ _), asksTrim_cons, comesBack_cons]
        simp [he]
      · have he' : endsRun a = false := by simpa using he
        by_cases h1 : a.low = 1
        · obtain ⟨pre', run', s', e, hpre, hrun, j1, j2, j3, j4, j5, j6, j7, j8⟩ := step_jump n dist clip pre run s a h1 hj hst
          rw [e, ihB pre' run' s' j1 j2, j3, j4, j5, j6, j7, j8]
          rw [if_neg he, if_pos h1]
          simp only [asksTrim_cons, comesBack_cons, he', Bool.false_eq_true, if_false, if_pos h1, Bool.decide_or,
            Bool.decide_eq_true, Bool.or_eq_true, decide_eq_true_eq, Prod.mk.injEq]
          generalize s.jdx + (a.x - s.x) = dx at *
          generalize s.jdy + (a.y - s.y) = dy at *
          generalize asksTrim n dist (s.count + 1) (dx, dy) (a.x, a.y) l = later
          generalize comesBack (dx, dy) (a.x, a.y) l = back
          generalize isFar dist (dx, dy) = far at *
          generalize s.trimmed = cutAlready at *
          subst hpre hrun
          by_cases hn : n = some (s.count + 1) <;> by_cases hz : dx = 0 ∧ dy = 0 <;>
            cases cutAlready <;> cases far <;> cases later <;> cases clip <;> cases back <;> simp [hn, hz]
        · rw [step_other n dist clip _ s a he' h1, if_neg he, if_neg h1]
          rw [List.append_assoc pre run [a], ihB pre (run ++ [a]) { s with x := a.x, y := a.y } hj hst]
          simp only [asksTrim_cons, comesBack_cons, he', Bool.false_eq_true, if_false, if_neg h1]
          by_cases hb : clip = true ∧ comesBack (s.jdx, s.jdy) (a.x, a.y) l = true
          · simp only [hb, and_self, if_true, List.append_nil, List.nil_append, List.append_assoc]
          · simp only [hb, if_false, List.append_assoc]
    refine ⟨?_, hB⟩
    intro acc s hj hp
    by_cases he : endsRun a = true
    · rw [List.foldl_cons, trimmedDesign_cons, step_ends n dist clip _ s a he, ihA _ _ rfl (lastPos_snoc _ _), if_pos he]
      simp
    · have he' : endsRun a = false := by simpa using he
      by_cases h1 : a.low = 1
      · -- as if the run had been started just before this jump
        let s' : ITState := { s with jdx := 0, jdy := 0, count := 0, start := acc.length, jumping := true }
        have es : itStep n dist clip (acc, s) a = itStep n dist clip (acc ++ [], s') a := by
          rw [List.append_nil]
          have hc : cmdOf a.cmd = a.low := rfl
          unfold itStep
          simp only [hc, STITCH, SEQUIN_EJECT, COLOR_CHANGE, NEEDLE_SET, TRIM, JUMP]
          rw [if_pos (c := a.low = 1) h1, if_pos (c := a.low = 1) h1, if_neg (c := a.low = 0 ∨ a.low = 7) (by omega),
            if_neg (c := a.low = 0 ∨ a.low = 7) (by omega),
            if_neg (c := a.low = 5 ∨ a.low = 9 ∨ a.low = 2) (by omega), if_neg (c := a.low = 5 ∨ a.low = 9 ∨ a.low = 2) (by omega)]
          simp only [hj, Bool.false_eq_true, if_false, if_true, s']
        have := hB acc [] s' rfl rfl
        rw [List.foldl_cons, ← es] at this
        rw [List.foldl_cons, this, hp]
        rw [trimmedDesign_cons, trimmedDesign_cons]
        simp only [he', Bool.false_eq_true, if_false, if_pos h1, s']
        simp
        cases s.trimmed <;> simp
      · rw [List.foldl_cons, trimmedDesign_cons, step_other n dist clip _ s a he' h1, ihA _ { s with x := a.x, y := a.y } hj (lastPos_snoc _ _), if_neg he, if_neg h1]
        simp

/-- **C50**: `interpolate_trims` gives exactly the design described by `trimmedDesign`, for every number of jumps, distance and
choice of clipping. -/
theorem C50_exact (n : Option Int) (dist : Option ℚ) (clip : Bool) (l : List Stitch) :
    interpolateTrims n dist clip l = trimmedDesign n dist clip (0, 0) false none l := by
  have := (loop_spec n dist clip l).1 [] ITState.init rfl rfl
  simpa [interpolateTrims, ITState.init] using this

end Emb
