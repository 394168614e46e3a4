import Verif.EncoderLemmas

/-!
# Writing positions as integer displacements and adding them up again

Every stitch-format writer walks over the stitches with an integer position `(xx, yy)`, writes the rounded difference
to the true position and adds it to its own position; every reader adds the displacements to its last position.
-/

namespace Emb

/-- One relative record: a displacement and the command byte it carries. -/
structure Rec where
  dx : Int
  dy : Int
  cmd : Int
deriving DecidableEq, Repr

/-- The loop shared by the writers: `dx = int(round(x - xx)); xx += dx` (and the same for `y`), with the command byte
`data = stitch[2] & COMMAND_MASK`; `DstWriter.py` 166-176, `ExpWriter.py` 15-27, `JefWriter.py` 153-166,
`PecWriter.py` 149-161, `U01Writer.py` 21-32, `TbfWriter.py`, `XxxWriter.py` 32-45. -/
def deltas (xx yy : Int) : List Stitch → List Rec
  | [] => []
  | st :: rest =>
    let dx := pyRound (st.x - xx)
    let dy := pyRound (st.y - yy)
    ⟨dx, dy, cmdOf st.cmd⟩ :: deltas (xx + dx) (yy + dy) rest

/-- Repeated `add_stitch_relative(dx, dy, cmd)` from `(x, y)`, `EmbPattern.py` 514-518. -/
def place (x y : ℚ) : List Rec → List Stitch
  | [] => []
  | r :: rest => ⟨x + r.dx, y + r.dy, r.cmd⟩ :: place (x + r.dx) (y + r.dy) rest

/-- Position after a list of records. -/
def placeEnd (x y : ℚ) : List Rec → ℚ × ℚ
  | [] => (x, y)
  | r :: rest => placeEnd (x + r.dx) (y + r.dy) rest

theorem place_append (x y : ℚ) (a b : List Rec) :
    place x y (a ++ b) = place x y a ++ place (placeEnd x y a).1 (placeEnd x y a).2 b := by
  induction a generalizing x y with
  | nil => rfl
  | cons r a ih => simp [place, placeEnd, ih]

theorem placeEnd_append (x y : ℚ) (a b : List Rec) :
    placeEnd x y (a ++ b) = placeEnd (placeEnd x y a).1 (placeEnd x y a).2 b := by
  induction a generalizing x y with
  | nil => rfl
  | cons r a ih => simp [placeEnd, ih]

/-- Adding up the rounded displacements stays within one half of every true position, wherever the walk starts. -/
theorem place_deltas_near (l : List Stitch) (xx yy : Int) :
    List.Forall₂ (fun a b : Stitch => |b.x - a.x| ≤ 1 / 2 ∧ |b.y - a.y| ≤ 1 / 2 ∧ b.cmd = cmdOf a.cmd)
      l (place xx yy (deltas xx yy l)) := by
  induction l generalizing xx yy with
  | nil => exact .nil
  | cons st l ih =>
    refine .cons ⟨?_, ?_, rfl⟩ ?_
    · have := pyRound_abs (st.x - xx)
      have e : (xx : ℚ) + (pyRound (st.x - xx) : ℚ) - st.x = pyRound (st.x - xx) - (st.x - xx) := by ring
      show |(xx : ℚ) + (pyRound (st.x - xx) : ℚ) - st.x| ≤ 1 / 2
      rw [e]; exact this
    · have := pyRound_abs (st.y - yy)
      have e : (yy : ℚ) + (pyRound (st.y - yy) : ℚ) - st.y = pyRound (st.y - yy) - (st.y - yy) := by ring
      show |(yy : ℚ) + (pyRound (st.y - yy) : ℚ) - st.y| ≤ 1 / 2
      rw [e]; exact this
    · have := ih (xx + pyRound (st.x - xx)) (yy + pyRound (st.y - yy))
      push_cast at this
      exact this

/-- Integer positions are rebuilt exactly, wherever the walk starts. -/
theorem place_deltas_exact (l : List Stitch) (xx yy : Int) (h : ∀ a ∈ l, IsInt a.x ∧ IsInt a.y) :
    place xx yy (deltas xx yy l) = l.map (fun a => ⟨a.x, a.y, cmdOf a.cmd⟩) := by
  induction l generalizing xx yy with
  | nil => rfl
  | cons st l ih =>
    obtain ⟨⟨kx, hx⟩, ⟨ky, hy⟩⟩ := h st (by simp)
    have e1 : pyRound (st.x - xx) = kx - xx := by rw [hx]; exact pyRound_intCast_sub _ _
    have e2 : pyRound (st.y - yy) = ky - yy := by rw [hy]; exact pyRound_intCast_sub _ _
    have := ih (xx + (kx - xx)) (yy + (ky - yy)) (fun a ha => h a (by simp [ha]))
    simp only [deltas, place, e1, e2, List.map_cons]
    push_cast at this ⊢
    rw [this]
    congr 1
    rw [hx, hy]; simp

/-- Whatever the starting position, the commands are kept. -/
theorem deltas_cmds (l : List Stitch) (xx yy : Int) : (deltas xx yy l).map (·.cmd) = l.map (fun a => cmdOf a.cmd) := by
  induction l generalizing xx yy with
  | nil => rfl
  | cons st l ih => simp [deltas, ih]

theorem deltas_length (l : List Stitch) (xx yy : Int) : (deltas xx yy l).length = l.length := by
  induction l generalizing xx yy with
  | nil => rfl
  | cons st l ih => simp [deltas, ih]

/-- One axis: from a position within one half of `p` (and equal to it if `p` is an integer), a step of length at most `M`
whose extreme values only start at integers is written as a displacement of at most `M`. -/
theorem step_fits {p q : ℚ} {xx M : Int} (hx : |(xx : ℚ) - p| ≤ 1 / 2) (hi : IsInt p → (xx : ℚ) = p)
    (h : StepOK True (M : ℚ) p q) : -M ≤ pyRound (q - xx) ∧ pyRound (q - xx) ≤ M := by
  obtain ⟨h1, h2⟩ := h
  have hx' := abs_le.1 hx
  rcases lt_or_eq_of_le h1 with h3 | h3
  · have h4 := abs_lt.1 h3
    exact pyRound_bound (by linarith [h4.2, hx'.1]) (by linarith [h4.1, hx'.2])
  · have e := hi (h2 h3 ⟨M, rfl⟩ trivial)
    rw [← e] at h1
    have h4 := abs_le.1 h1
    exact pyRound_bound (by linarith [h4.2]) (by linarith [h4.1])

theorem round_near (q : ℚ) (xx : Int) : |((xx + pyRound (q - xx) : Int) : ℚ) - q| ≤ 1 / 2 := by
  have := pyRound_abs (q - xx)
  have e : ((xx + pyRound (q - xx) : Int) : ℚ) - q = pyRound (q - xx) - (q - xx) := by push_cast; ring
  rw [e]; exact this

theorem round_isInt (q : ℚ) (xx : Int) (h : IsInt q) : ((xx + pyRound (q - xx) : Int) : ℚ) = q := by
  obtain ⟨k, rfl⟩ := h
  rw [pyRound_intCast_sub]; push_cast; ring

/-- A step of length zero is written as a zero displacement. -/
theorem round_zero {p : ℚ} {xx : Int} (h : |(xx : ℚ) - p| ≤ 1 / 2) : pyRound (p - xx) = 0 := by
  have h' := abs_le.1 h
  unfold pyRound
  have f1 := floor_le' (p - xx)
  have f2 := lt_floor' (p - xx)
  simp only
  generalize hf : (p - (xx : ℚ)).floor = f at *
  have a1 : (-2 : ℚ) < f := by linarith [h'.2]
  have a2 : (f : ℚ) < 1 := by linarith [h'.1]
  have a1' : (-2 : Int) < f := by exact_mod_cast a1
  have a2' : f < 1 := by exact_mod_cast a2
  have : f = -1 ∨ f = 0 := by omega
  rcases this with rfl | rfl
  · push_cast at *
    rw [if_neg (by linarith [h'.2])]
    by_cases h3 : (1 : ℚ) / 2 < p - xx - -1
    · rw [if_pos h3]
    · rw [if_neg h3]
  · push_cast at *
    by_cases h3 : p - (xx : ℚ) - 0 < 1 / 2
    · rw [if_pos h3]
    · rw [if_neg h3, if_neg (by linarith [h'.1])]

end Emb
