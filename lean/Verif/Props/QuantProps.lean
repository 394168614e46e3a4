import Verif.Quant
import Verif.EncoderInv

/-!
# Properties C18, C19: what writers make of positions
-/

namespace Emb

/-- C18: adding up the displacements a writer derives from any stitches (however many, however fractional) gives, for
each of them, the same command byte at a position at most one half away on each axis: the rounding never accumulates. -/
theorem C18_no_drift (l : List Stitch) :
    List.Forall₂ (fun a b : Stitch => |b.x - a.x| ≤ 1 / 2 ∧ |b.y - a.y| ≤ 1 / 2 ∧ b.cmd = a.cmd % 256)
      l (place 0 0 (deltas 0 0 l)) := by
  have := place_deltas_near l 0 0
  simpa [cmdOf] using this

/-- C18: integer positions come back exactly. -/
theorem C18_exact (l : List Stitch) (h : ∀ a ∈ l, ∃ i j : Int, a.x = i ∧ a.y = j) :
    place 0 0 (deltas 0 0 l) = l.map (fun a => ⟨a.x, a.y, a.cmd % 256⟩) := by
  have := place_deltas_exact l 0 0 (fun a ha => by obtain ⟨i, j, h1, h2⟩ := h a ha; exact ⟨⟨i, h1⟩, ⟨j, h2⟩⟩)
  simpa [cmdOf] using this

example : place 0 0 (deltas 0 0 [⟨27/5, 3, 0⟩, ⟨6, 7/2, 0⟩, ⟨27/5, 4, 256⟩]) = [⟨5, 3, 0⟩, ⟨6, 3, 0⟩, ⟨5, 4, 0⟩] := by
  decide +kernel

/-- Steps of a stitch list after a prefix, in recursive form. -/
theorem deltas_fit {M : Int} (l pre : List Stitch) (xx yy : Int)
    (hx : |(xx : ℚ) - (lastPos pre).1| ≤ 1 / 2) (hy : |(yy : ℚ) - (lastPos pre).2| ≤ 1 / 2)
    (ix : IsInt (lastPos pre).1 → (xx : ℚ) = (lastPos pre).1) (iy : IsInt (lastPos pre).2 → (yy : ℚ) = (lastPos pre).2)
    (h : ∀ m a post, l = m ++ a :: post → StepAt True M (pre ++ m) a) :
    ∀ r ∈ deltas xx yy l, -M ≤ r.dx ∧ r.dx ≤ M ∧ -M ≤ r.dy ∧ r.dy ≤ M := by
  induction l generalizing pre xx yy with
  | nil => intro r hr; simp [deltas] at hr
  | cons st l ih =>
    have h0 := h [] st l rfl
    rw [List.append_nil] at h0
    intro r hr
    simp only [deltas, List.mem_cons] at hr
    rcases hr with rfl | hr
    · have a := step_fits hx ix h0.1
      have b := step_fits hy iy h0.2
      exact ⟨a.1, a.2, b.1, b.2⟩
    · refine ih (pre ++ [st]) _ _ ?_ ?_ ?_ ?_ ?_ r hr
      · rw [lastPos_snoc]; exact round_near _ _
      · rw [lastPos_snoc]; exact round_near _ _
      · rw [lastPos_snoc]; exact round_isInt _ _
      · rw [lastPos_snoc]; exact round_isInt _ _
      · intro m a post e
        have := h (st :: m) a post (by rw [e]; rfl)
        simpa using this

/-- Commands that stay at the needle are written with a zero displacement. -/
theorem deltas_still {K : Int → Prop} (l pre : List Stitch) (xx yy : Int)
    (hx : |(xx : ℚ) - (lastPos pre).1| ≤ 1 / 2) (hy : |(yy : ℚ) - (lastPos pre).2| ≤ 1 / 2)
    (h : ∀ m a post, l = m ++ a :: post → K a.low → (a.x, a.y) = lastPos (pre ++ m)) :
    ∀ r ∈ deltas xx yy l, K r.cmd → r.dx = 0 ∧ r.dy = 0 := by
  induction l generalizing pre xx yy with
  | nil => intro r hr; simp [deltas] at hr
  | cons st l ih =>
    have h0 := h [] st l rfl
    rw [List.append_nil] at h0
    intro r hr
    simp only [deltas, List.mem_cons] at hr
    rcases hr with rfl | hr
    · intro hk
      have e := h0 hk
      rw [← e] at hx hy
      exact ⟨round_zero hx, round_zero hy⟩
    · refine ih (pre ++ [st]) _ _ ?_ ?_ ?_ r hr
      · rw [lastPos_snoc]; exact round_near _ _
      · rw [lastPos_snoc]; exact round_near _ _
      · intro m a post e hk
        have := h (st :: m) a post (by rw [e]; rfl) hk
        simpa using this

variable {o : Settings} {lm : Libm} {threads : List Thread} {source out : List Stitch} {ths : List (Option Thread)}

/-- The invariant behind C19: with rounding on the needle is on the grid between source commands. -/
theorem encode_grid {M : Int} (hM : 0 < M) (hlm : lm.Sound) (hv : o.ValidSequins) (hr : o.round = true)
    (h1 : o.maxStitch = some (M : ℚ)) (h2 : o.maxJump = some (M : ℚ)) (h3 : o.longStitch = 0xF1 ∨ o.longStitch = 0xF2)
    (hq : ∀ st ∈ source, st.low ≠ 0xD5 ∧ st.low ≠ 0xD6 ∧ st.low ≠ 0xF0)
    (h : encode o lm threads source = .ok (out, ths)) :
    EachAt (StepAt True M) out := by
  have hM' : (0 : ℚ) < M := by exact_mod_cast hM
  obtain ⟨s, _, hs, rfl, _⟩ := encode_lift_step (P := fun s => LenInv True M s ∧ IsInt s.nx ∧ IsInt s.ny)
    (Q := fun st => st.low ≠ 0xD5 ∧ st.low ≠ 0xD6 ∧ st.low ≠ 0xF0) hv h
    ⟨init_len lm threads h1 h2 h3.symm, ⟨0, rfl⟩, ⟨0, rfl⟩⟩ hq
    (by
      intro plan position st a b hc hI hstep ⟨hL, ix, iy⟩
      have op := step_chain st hI hstep
      have tx : IsInt (target (mkCfg o lm source plan) a st).1 ∧ IsInt (target (mkCfg o lm source plan) a st).2 := by
        unfold target
        simp only
        rw [if_pos (show (mkCfg o lm source plan).round = true from hr)]
        exact ⟨⟨_, rfl⟩, ⟨_, rfl⟩⟩
      refine ⟨chain_lift (P := LenInv True M) (fun x y _ hm => micro_len hM' (by exact hlm) (by exact hc)
        (fun _ => ⟨ix, iy, tx.1, tx.2⟩) hm) op.1 hI hL, ?_, ?_⟩
      · rcases op.2 with e | e
        · rw [e.1]; exact ix
        · rw [e.1]; exact tx.1
      · rcases op.2 with e | e
        · rw [e.2]; exact iy
        · rw [e.2]; exact tx.2)
    (fun s v hs => ⟨⟨flagsOf_low v, hs.1.2⟩, hs.2⟩)
  obtain ⟨⟨_, _, he, hp⟩, _, _⟩ := hs
  rw [eachAt_snoc]
  refine ⟨he, ?_⟩
  unfold StepAt; rw [hp]; exact ⟨stepOK_self hM', stepOK_self hM'⟩

/-- C19: for an integral limit `M` used both for stitches and jumps, rounding on, and a source that does not change the
limits, every displacement a writer derives from the encoded pattern is within `[-M, M]`. -/
theorem C19_fits {M : Int} (hM : 0 < M) (hlm : lm.Sound) (hv : o.ValidSequins) (hr : o.round = true)
    (h1 : o.maxStitch = some (M : ℚ)) (h2 : o.maxJump = some (M : ℚ)) (h3 : o.longStitch = 0xF1 ∨ o.longStitch = 0xF2)
    (hq : ∀ st ∈ source, st.low ≠ 0xD5 ∧ st.low ≠ 0xD6 ∧ st.low ≠ 0xF0)
    (h : encode o lm threads source = .ok (out, ths)) :
    ∀ r ∈ deltas 0 0 out, -M ≤ r.dx ∧ r.dx ≤ M ∧ -M ≤ r.dy ∧ r.dy ≤ M := by
  have := encode_grid hM hlm hv hr h1 h2 h3 hq h
  exact deltas_fit out [] 0 0 (by simp) (by simp) (by simp) (by simp) (fun m a post e => this m a post e)

end Emb
