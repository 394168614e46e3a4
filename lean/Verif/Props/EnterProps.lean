import Verif.Enter
import Verif.Props.ShadeProps

/-!
# C92: the ways of entering points
-/

namespace Emb
namespace Enter

open Blocks

variable {τ : Type}

/-! ## Specification -/

/-- The point of the last entry, or the position before. -/
def lastOf (px py : ℚ) (l : List Stitch) : Pt := match l.getLast? with | some st => (st.x, st.y) | none => (px, py)

/-- `b` with the commands `l` at its end; positions given by displacement then count from the last of them. -/
def entered (b : Build τ) (l : List Stitch) : Build τ :=
  { b with stitches := b.stitches ++ l, px := (lastOf b.px b.py l).1, py := (lastOf b.px b.py l).2 }

/-- The points as STITCH commands. -/
def asStitches (pts : List Pt) : List Stitch := pts.map (fun p => ⟨p.1, p.2, 0⟩)

/-- The coordinates one after the other. -/
def flat (pts : List Pt) : List ℚ := pts.flatMap (fun p => [p.1, p.2])

/-- The four ways of writing the points. -/
def forms (pts : List Pt) : List Arg :=
  [.items (pts.map (fun p => .two p.1 p.2)), .items (pts.map (fun p => .three p.1 p.2 0)), .complexes pts, .numbers (flat pts)]

/-! ## Proofs -/

theorem entered_nil (b : Build τ) : entered b [] = b := by simp [entered, lastOf]

theorem entered_cons (b : Build τ) (st : Stitch) (l : List Stitch) : entered (b.abs st.cmd st.x st.y) l = entered b (st :: l) := by
  unfold entered Build.abs lastOf
  cases l with
  | nil => simp
  | cons a l =>
    obtain ⟨z, hz⟩ : ∃ z, (a :: l).getLast? = some z := ⟨_, List.getLast?_eq_some_getLast (by simp)⟩
    simp [List.getLast?_cons_cons, hz]

theorem complexLoop_eq (pts : List Pt) : ∀ b : Build τ, complexLoop b pts = (entered b (asStitches pts), none) := by
  induction pts with
  | nil => intro b; rw [asStitches, List.map_nil, entered_nil]; rfl
  | cons p pts ih => intro b; rw [complexLoop, ih]; exact congrArg (·, none) (entered_cons b ⟨p.1, p.2, 0⟩ _)

theorem numbersLoop_eq (pts : List Pt) (tail : List ℚ) : ∀ b : Build τ,
    numbersLoop b (flat pts ++ tail) = numbersLoop (entered b (asStitches pts)) tail := by
  induction pts with
  | nil => intro b; rw [asStitches, List.map_nil, entered_nil]; rfl
  | cons p pts ih =>
    intro b
    show numbersLoop (b.abs STITCH p.1 p.2) (flat pts ++ tail) = _
    rw [ih]
    exact congrArg (numbersLoop · tail) (entered_cons b ⟨p.1, p.2, 0⟩ _)

theorem itemsLoop_three (l : List Stitch) (tail : List Item) : ∀ b : Build τ,
    itemsLoop b (l.map (fun st => .three st.x st.y st.cmd) ++ tail) = itemsLoop (entered b l) tail := by
  induction l with
  | nil => intro b; rw [entered_nil]; rfl
  | cons st l ih =>
    intro b
    rw [List.map_cons, List.cons_append, itemsLoop]
    rw [ih, entered_cons]

theorem itemsLoop_two (pts : List Pt) (tail : List Item) : ∀ b : Build τ,
    itemsLoop b (pts.map (fun p => .two p.1 p.2) ++ tail) = itemsLoop (entered b (asStitches pts)) tail := by
  induction pts with
  | nil => intro b; simp [asStitches, entered_nil]
  | cons p pts ih =>
    intro b
    rw [List.map_cons, List.cons_append, itemsLoop]
    rw [ih]
    exact congrArg (itemsLoop · tail) (entered_cons b ⟨p.1, p.2, 0⟩ _)

theorem loop_forms (b : Build τ) (pts : List Pt) (a : Arg) (ha : a ∈ forms pts) : loop b a = (entered b (asStitches pts), none) := by
  unfold forms at ha
  simp only [List.mem_cons, List.not_mem_nil, or_false] at ha
  rcases ha with rfl | rfl | rfl | rfl
  · have := itemsLoop_two pts [] b
    rw [List.append_nil] at this
    exact this
  · have := itemsLoop_three (asStitches pts) [] b
    rw [List.append_nil, asStitches, List.map_map] at this
    exact this
  · exact complexLoop_eq pts b
  · have := numbersLoop_eq pts [] b
    rw [List.append_nil] at this
    exact this

theorem forms_empty (pts : List Pt) (h : pts ≠ []) (a : Arg) (ha : a ∈ forms pts) : a.empty = false := by
  unfold forms at ha
  cases pts with
  | nil => exact absurd rfl h
  | cons p pts =>
    simp only [List.mem_cons, List.not_mem_nil, or_false] at ha
    rcases ha with rfl | rfl | rfl | rfl <;> rfl

/-- **C92**: all forms of the same points enter the same stitches. -/
theorem C92_points (b : Build τ) (pts : List Pt) (h : pts ≠ []) : ∀ a ∈ forms pts, iadd b a = (entered b (asStitches pts), .pattern) := by
  intro a ha
  unfold iadd
  rw [forms_empty pts h a ha, loop_forms b pts a ha]
  rfl

/-- **C92**: with a third component the commands are entered as given. -/
theorem C92_commands (b : Build τ) (l : List Stitch) (h : l ≠ []) :
    iadd b (.items (l.map (fun st => .three st.x st.y st.cmd))) = (entered b l, .pattern) := by
  unfold iadd
  have := itemsLoop_three l [] b
  rw [List.append_nil] at this
  cases l with
  | nil => exact absurd rfl h
  | cons st l =>
    rw [if_neg (by simp [Arg.empty])]
    show (match itemsLoop b _ with | (b, some e) => (b, Bound.raised e) | (b, none) => (b, Bound.pattern)) = _
    rw [this]
    rfl

/-- **C92**: numbers without a partner at the end, and entries without two coordinates, raise IndexError; what comes before them has been
entered. -/
theorem C92_odd (b : Build τ) (pts : List Pt) (z : ℚ) :
    iadd b (.numbers (flat pts ++ [z])) = (entered b (asStitches pts), .raised .indexError) := by
  unfold iadd
  rw [if_neg (by cases pts <;> simp [Arg.empty, flat])]
  show (match numbersLoop b _ with | (b, some e) => (b, Bound.raised e) | (b, none) => (b, Bound.pattern)) = _
  rw [numbersLoop_eq]
  rfl

theorem C92_short (b : Build τ) (l : List Stitch) (i : Item) (hi : i = .nil ∨ ∃ x, i = .one x) (rest : List Item) :
    iadd b (.items (l.map (fun st => .three st.x st.y st.cmd) ++ i :: rest)) = (entered b l, .raised .indexError) := by
  unfold iadd
  rw [if_neg (by cases l <;> simp [Arg.empty])]
  show (match itemsLoop b _ with | (b, some e) => (b, Bound.raised e) | (b, none) => (b, Bound.pattern)) = _
  rw [itemsLoop_three]
  rcases hi with rfl | ⟨x, rfl⟩ <;> rfl

/-- **C92**: adding an empty list changes no pattern but makes the name `None`. -/
theorem C92_empty (b : Build τ) : ∀ a ∈ forms [], iadd b a = (b, .nothing) := by
  intro a ha
  unfold forms at ha
  simp only [List.mem_cons, List.not_mem_nil, or_false] at ha
  rcases ha with rfl | rfl | rfl | rfl <;> rfl

/-- **C92**: a block is the same points followed by COLOR_BREAK; the break is not a position to count from. -/
theorem C92_block (b : Build τ) (pts : List Pt) (h : pts ≠ []) (t : Option τ) : ∀ a ∈ forms pts,
    addBlock b (some a) t = ({ entered b (asStitches pts) with
      stitches := b.stitches ++ asStitches pts ++ [⟨0, 0, 0xE2⟩], threads := b.threads ++ t.toList }, none) := by
  intro a ha
  unfold addBlock
  simp only [forms_empty pts h a ha]
  cases t with
  | none =>
    simp only
    rw [loop_forms b pts a ha, if_neg (by simp)]
    simp [Ops.command, entered, COLOR_BREAK]
  | some t =>
    simp only
    rw [loop_forms _ pts a ha, if_neg (by simp)]
    simp [Ops.command, entered, COLOR_BREAK]

/-- **C92**: an empty block adds no stitch and no break, only the thread. -/
theorem C92_block_empty (b : Build τ) (t : Option τ) : ∀ a ∈ none :: (forms []).map some,
    addBlock b a t = ({ b with threads := b.threads ++ t.toList }, none) := by
  intro a ha
  unfold forms at ha
  simp only [List.map_cons, List.map_nil, List.mem_cons, List.not_mem_nil, or_false] at ha
  rcases ha with rfl | rfl | rfl | rfl | rfl <;> cases t <;> simp [addBlock, Arg.empty, flat]

/-- **C92**: adding a thread changes colour, where the needle is, exactly if something has been sewn. -/
theorem C92_thread (b : Build τ) (t : τ) :
    iaddThread b t = { b with
      threads := b.threads ++ [t],
      stitches := b.stitches ++ (if ∃ st ∈ b.stitches, st.low ∈ [(0 : Int), 0xB0, 0xB1] then [⟨b.px, b.py, 5⟩] else []) } := by
  unfold iaddThread
  have e : (b.stitches.any (fun st => decide (cmdOf st.cmd = STITCH ∨ cmdOf st.cmd = SEW_TO ∨ cmdOf st.cmd = NEEDLE_AT)) = true) ↔
      ∃ st ∈ b.stitches, st.low ∈ [(0 : Int), 0xB0, 0xB1] := by
    rw [List.any_eq_true]
    simp only [decide_eq_true_eq, List.mem_cons, List.not_mem_nil, or_false]
    rfl
  by_cases h : ∃ st ∈ b.stitches, st.low ∈ [(0 : Int), 0xB0, 0xB1]
  · simp only [if_pos h, if_pos (e.2 h)]
    simp [Build.rel, Build.abs, COLOR_CHANGE]
  · simp only [if_neg h, if_neg (fun c => h (e.1 c))]
    simp

/-! ## A design entered thread by thread -/

/-- `p += thread; p += points` for each job. -/
def enterJobs (jobs : List (τ × List Pt)) : Build τ := jobs.foldl (fun b j => (iadd (iaddThread b j.1) (.complexes j.2)).1) {}

/-- The point of the last one. -/
def lastPt (pts : List Pt) : Pt := pts.getLast?.getD (0, 0)

/-- The later jobs: a colour change at the last point of the job before, then the points. -/
def laterJobs : Pt → List (List Pt) → List Stitch
  | _, [] => []
  | p, pts :: rest => ⟨p.1, p.2, 5⟩ :: (asStitches pts ++ laterJobs (lastPt pts) rest)

/-- What the jobs put into the pattern. -/
def jobStitches : List (List Pt) → List Stitch
  | [] => []
  | pts :: rest => asStitches pts ++ laterJobs (lastPt pts) rest

theorem entered_pts (b : Build τ) (pts : List Pt) (h : pts ≠ []) :
    entered b (asStitches pts) = { b with stitches := b.stitches ++ asStitches pts, px := (lastPt pts).1, py := (lastPt pts).2 } := by
  unfold entered lastOf lastPt asStitches
  rw [List.getLast?_map]
  obtain ⟨z, hz⟩ : ∃ z, pts.getLast? = some z := ⟨_, List.getLast?_eq_some_getLast h⟩
  simp [hz]

theorem laterJobs_run : ∀ (jobs : List (τ × List Pt)) (b : Build τ), (∀ j ∈ jobs, j.2 ≠ []) →
    (∃ st ∈ b.stitches, st.low ∈ [(0 : Int), 0xB0, 0xB1]) →
    (jobs.foldl (fun b j => (iadd (iaddThread b j.1) (.complexes j.2)).1) b).stitches = b.stitches ++ laterJobs (b.px, b.py) (jobs.map (·.2)) ∧
    (jobs.foldl (fun b j => (iadd (iaddThread b j.1) (.complexes j.2)).1) b).threads = b.threads ++ jobs.map (·.1) := by
  intro jobs
  induction jobs with
  | nil => intro b _ _; simp [laterJobs]
  | cons j jobs ih =>
    intro b hj hb
    have hne := hj j (by simp)
    have e : (iadd (iaddThread b j.1) (.complexes j.2)).1 = entered (iaddThread b j.1) (asStitches j.2) := by
      rw [C92_points _ j.2 hne (.complexes j.2) (by simp [forms])]
    rw [List.foldl_cons, e]
    obtain ⟨h1, h2⟩ := ih (entered (iaddThread b j.1) (asStitches j.2)) (fun k hk => hj k (by simp [hk])) (by
      obtain ⟨st, h3, h4⟩ := hb
      exact ⟨st, by rw [C92_thread]; simp [entered, h3], h4⟩)
    rw [h1, h2, entered_pts _ _ hne, C92_thread, if_pos hb]
    simp [laterJobs]

/-- **C92**: a design entered thread by thread holds the points of each job, with a colour change in between, and the threads. -/
theorem C92_jobs (jobs : List (τ × List Pt)) (h : ∀ j ∈ jobs, j.2 ≠ []) :
    (enterJobs jobs).stitches = jobStitches (jobs.map (·.2)) ∧ (enterJobs jobs).threads = jobs.map (·.1) := by
  unfold enterJobs
  cases jobs with
  | nil => simp [jobStitches]
  | cons j jobs =>
    have hne := h j (by simp)
    have e : (iadd (iaddThread ({} : Build τ) j.1) (.complexes j.2)).1 = entered { threads := [j.1] } (asStitches j.2) := by
      rw [C92_points _ j.2 hne (.complexes j.2) (by simp [forms]), C92_thread]
      simp
    rw [List.foldl_cons, e, entered_pts _ _ hne]
    obtain ⟨h1, h2⟩ := laterJobs_run jobs { stitches := asStitches j.2, threads := [j.1], px := (lastPt j.2).1, py := (lastPt j.2).2 }
      (fun k hk => h k (by simp [hk])) (by
        obtain ⟨p, l, hp⟩ := List.exists_cons_of_ne_nil hne
        exact ⟨⟨p.1, p.2, 0⟩, by simp [hp, asStitches], show (0 : Int) % 256 ∈ [(0 : Int), 0xB0, 0xB1] by decide⟩)
    simp only [List.nil_append]
    rw [h1, h2]
    simp [jobStitches]

theorem body_pts (pts : List Pt) : Shade.Body (asStitches pts) := by
  intro st hst
  unfold asStitches at hst
  obtain ⟨p, -, rfl⟩ := List.mem_map.1 hst
  exact show (0 : Int) % 256 ∉ [(4 : Int), 5, 7, 9, 0xE2] by decide

theorem sews_pts (pts : List Pt) (h : pts ≠ []) : ∃ st ∈ asStitches pts, st.cmd ∈ [(0 : Int), 0xB0, 0xB1] := by
  obtain ⟨p, l, hp⟩ := List.exists_cons_of_ne_nil h
  exact ⟨⟨p.1, p.2, 0⟩, by simp [hp, asStitches], show (0 : Int) ∈ [(0 : Int), 0xB0, 0xB1] by decide⟩

theorem later_shaded (round : Bool) (f : Pt → Pt) (E : List Stitch) (hE : E = [] ∨ ∃ e, E = [e] ∧ e.low = 4) :
    ∀ (l : List (List Pt)) (p : Pt) (k : Nat), 1 ≤ k → (∀ pts ∈ l, pts ≠ []) →
    sewnIn round f k (laterJobs p l ++ E) = blocksShaded round f k (l.map asStitches) ∧
      begunBy k (laterJobs p l ++ E) = k + l.length := by
  intro l
  induction l with
  | nil =>
    intro p k hk _
    rcases hE with rfl | ⟨e, rfl, he⟩
    · simp [laterJobs, sewnIn, blocksShaded, begunBy]
    · simp [laterJobs, sewnIn, blocksShaded, begunBy, he]
  | cons pts l ih =>
    intro p k hk hl
    have h4 : ¬ (⟨p.1, p.2, 5⟩ : Stitch).low = 4 := show ¬ (5 : Int) % 256 = 4 by decide
    have h0 : ¬ (⟨p.1, p.2, 5⟩ : Stitch).low ∈ [(0 : Int), 0xB0, 0xB1] := show ¬ (5 : Int) % 256 ∈ [(0 : Int), 0xB0, 0xB1] by decide
    have hb : begun k ⟨p.1, p.2, 5⟩ ((asStitches pts ++ laterJobs (lastPt pts) l) ++ E) = k + 1 := by
      unfold begun
      exact if_pos (show (5 : Int) % 256 ∈ [(5 : Int), 9] by decide)
    obtain ⟨k', h1, h2, h3, h5, h6⟩ := Shade.sewnIn_body round f (laterJobs (lastPt pts) l ++ E) (asStitches pts) (k + 1) (body_pts pts)
    have hk' : k' = k + 1 := by omega
    subst hk'
    obtain ⟨i1, i2⟩ := ih (lastPt pts) (k + 1) (by omega) (fun q hq => hl q (by simp [hq]))
    rw [laterJobs, List.cons_append, sewnIn, begunBy, if_neg h4, if_neg h4, if_neg h0, hb, List.append_assoc, h5, h6, i1, i2]
    refine ⟨by simp [blocksShaded], by simp; omega⟩

theorem later_mem : ∀ (l : List (List Pt)) (p : Pt), ∀ st ∈ laterJobs p l, st.cmd = 0 ∨ st.cmd = 5 := by
  intro l
  induction l with
  | nil => intro p st h; simp [laterJobs] at h
  | cons pts l ih =>
    intro p st h
    rw [laterJobs, List.mem_cons, List.mem_append] at h
    rcases h with rfl | h | h
    · exact .inr rfl
    · obtain ⟨q, -, rfl⟩ := List.mem_map.1 h
      exact .inl rfl
    · exact ih _ st h

end Enter

open Enter Blocks in
/-- **C92**: a design entered thread by thread is sewn so: the points of the `i`-th job in colour `i`, with the thread of the job. -/
theorem C92_sewn {o : Settings} {lm : Libm} {out E : List Stitch} {ths : List (Option Thread)} (jobs : List (Thread × List Pt))
    (hj : ∀ j ∈ jobs, j.2 ≠ []) (hv : o.ValidSequins) (hc : o.changeCommand = 5) (ho : o.NoTies)
    (hE : E = [] ∨ ∃ e, E = [e] ∧ e.low = 4)
    (h : encode o lm (enterJobs jobs).threads ((enterJobs jobs).stitches ++ E) = .ok (out, ths)) :
    shadedFrom 0 out = blocksShaded o.round (o.place lm) 0 (jobs.map (fun j => asStitches j.2)) ∧
      ths = jobs.map (fun j => some j.1) := by
  obtain ⟨es, et⟩ := C92_jobs jobs hj
  rw [es, et] at h
  have hmem : ∀ st ∈ jobStitches (jobs.map (·.2)), st.cmd = 0 ∨ st.cmd = 5 := by
    intro st hst
    cases jobs with
    | nil => simp [jobStitches] at hst
    | cons j jobs =>
      rw [List.map_cons, jobStitches, List.mem_append] at hst
      rcases hst with hst | hst
      · obtain ⟨q, -, rfl⟩ := List.mem_map.1 hst
        exact .inl rfl
      · exact later_mem _ _ st hst
  have hA : ∀ st ∈ jobStitches (jobs.map (·.2)), Plain o.maxStitch st := by
    intro st hst
    unfold Plain Stitch.low
    rcases hmem st hst with h | h <;> rw [h] <;> exact ⟨by decide, fun h => absurd h (by decide)⟩
  have key : sewnIn o.round (o.place lm) 0 (jobStitches (jobs.map (·.2)) ++ E) =
        blocksShaded o.round (o.place lm) 0 (jobs.map (fun j => asStitches j.2)) ∧
      begunBy 0 (jobStitches (jobs.map (·.2)) ++ E) = jobs.length := by
    cases jobs with
    | nil =>
      rcases hE with rfl | ⟨e, rfl, he⟩
      · simp [jobStitches, sewnIn, blocksShaded, begunBy]
      · simp [jobStitches, sewnIn, blocksShaded, begunBy, he]
    | cons j jobs =>
      have hne := hj j (by simp)
      obtain ⟨k', h1, h2, h3, h5, h6⟩ := Shade.sewnIn_body o.round (o.place lm) (laterJobs (lastPt j.2) (jobs.map (·.2)) ++ E)
        (asStitches j.2) 0 (body_pts j.2)
      have h3 := h3 (sews_pts j.2 hne)
      have hk' : k' = 1 := by omega
      subst hk'
      obtain ⟨i1, i2⟩ := later_shaded o.round (o.place lm) E hE (jobs.map (·.2)) (lastPt j.2) 1 (le_refl _) (by
        intro pts hp
        obtain ⟨k, hk, rfl⟩ := List.mem_map.1 hp
        exact hj k (by simp [hk]))
      rw [List.map_cons, jobStitches, List.append_assoc, h5, h6, i1, i2]
      refine ⟨by simp [blocksShaded, Function.comp_def], by simp; omega⟩
  have hn := (C91_shades hv hc h).2
  refine ⟨?_, ?_⟩
  · rw [C91_plain hv hc ho hA (by rcases hE with rfl | ⟨e, rfl, he⟩ <;> simp [*]) h, key.1]
  · have hin := C30_in_order hv hc h ?_ ?_
    · rw [hin, hn, key.2]
      apply List.ext_getElem
      · simp
      · intro i h1 h2
        simp at h1
        simp [h1]
    · intro st hst
      rcases List.mem_append.1 hst with hst | hst
      · unfold Stitch.low
        rcases hmem st hst with h | h <;> rw [h] <;> decide
      · rcases hE with rfl | ⟨e, rfl, he⟩
        · simp at hst
        · simp only [List.mem_cons, List.not_mem_nil, or_false] at hst
          subst hst; rw [he]; decide
    · intro st hst hcl
      have hcl : st.low ∈ [(5 : Int), 9, 226, 16] := hcl
      rcases List.mem_append.1 hst with hst | hst
      · rcases hmem st hst with h | h
        · unfold Stitch.low at hcl; rw [h] at hcl; exact absurd hcl (by decide)
        · rw [h]; decide
      · rcases hE with rfl | ⟨e, rfl, he⟩
        · simp at hst
        · simp only [List.mem_cons, List.not_mem_nil, or_false] at hst
          subst hst
          rw [he] at hcl; exact absurd hcl (by decide)

namespace Enter

open Blocks

/-- **C92**: `p += command` appends the command at the origin, which is not a position to count from: the next displacement gives the same command as without it. -/
theorem C92_command (b : Build τ) (cmd : Int) :
    (iaddCommand b cmd).stitches = b.stitches ++ [⟨0, 0, cmd⟩] ∧ (iaddCommand b cmd).threads = b.threads ∧
      ∀ (c : Int) (dx dy : ℚ), ((iaddCommand b cmd).rel c dx dy).stitches.getLast? = (b.rel c dx dy).stitches.getLast? :=
  ⟨rfl, rfl, fun c dx dy => by simp [iaddCommand, Ops.command, Build.rel, Build.abs]⟩

/-- **C92**: `get_match_commands` gives the commands of that kind, in order, whatever their thread, needle and order fields. -/
theorem C92_match (l : List Stitch) (command : Int) :
    (matchCommands l command).Sublist l ∧ (∀ st ∈ l, st ∈ matchCommands l command ↔ st.low = command) ∧
      (matchCommands l command).length = l.countP (fun st => st.low = command) := by
  unfold matchCommands
  refine ⟨List.filter_sublist, ?_, ?_⟩
  · intro st hst
    rw [List.mem_filter, decide_eq_true_eq]
    exact ⟨fun h => h.2, fun h => ⟨hst, h⟩⟩
  · rw [← List.countP_eq_length_filter]
    rfl

/-! ## Examples -/

example : ((iaddCommand (({} : Build Char).abs 0 10 20) 3).rel 0 1 1).stitches = [⟨10, 20, 0⟩, ⟨0, 0, 3⟩, ⟨11, 21, 0⟩] := by decide +kernel

/-- Two jobs. -/
def demoJobs : List (Char × List Pt) := [('r', [(0, 0), (10, 0)]), ('b', [(10, 20)])]

example : (enterJobs demoJobs).stitches = [⟨0, 0, 0⟩, ⟨10, 0, 0⟩, ⟨10, 0, 5⟩, ⟨10, 20, 0⟩] ∧ (enterJobs demoJobs).threads = ['r', 'b'] := by
  decide +kernel
example : ∀ j ∈ demoJobs, j.2 ≠ [] := by decide +kernel
example : (iadd ({} : Build Char) (.numbers [1, 2, 3, 4])).1.stitches = [⟨1, 2, 0⟩, ⟨3, 4, 0⟩] ∧
    (iadd ({} : Build Char) (.complexes [(1, 2), (3, 4)])).1.stitches = [⟨1, 2, 0⟩, ⟨3, 4, 0⟩] ∧
    (iadd ({} : Build Char) (.numbers [1, 2, 3])).2 = .raised .indexError := by decide +kernel
example : (addBlock (addBlock ({} : Build Char) (some (.items [.two 1 2, .three 3 4 1])) (some 'r')).1 (some (.items [])) none).1.stitches =
    [⟨1, 2, 0⟩, ⟨3, 4, 1⟩, ⟨0, 0, 226⟩] := by decide +kernel
-- positions given by displacement count from the last point of a block, not from its COLOR_BREAK
example : ((addBlock ({} : Build Char) (some (.items [.two 1 2])) none).1.rel 0 10 10).stitches.getLast? = some ⟨11, 12, 0⟩ := by decide +kernel

end Enter
end Emb
