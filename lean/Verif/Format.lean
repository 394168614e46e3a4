import Verif.Bytes
import Verif.Props.QuantProps
import Verif.Props.EncoderProps

/-!
# What the stitch formats have in common

Records derived from an encoded pattern, and the view a format keeps of them.
-/

namespace Emb

/-- The writers' displacement loop with whole command words (for the writers that decode needles from them); see `deltas`
for the code modelled. -/
def wdeltas (xx yy : Int) : List Stitch → List Rec
  | [] => []
  | st :: rest =>
    let dx := pyRound (st.x - xx)
    let dy := pyRound (st.y - yy)
    ⟨dx, dy, st.cmd⟩ :: wdeltas (xx + dx) (yy + dy) rest

theorem deltas_eq (xx yy : Int) (l : List Stitch) :
    deltas xx yy l = (wdeltas xx yy l).map (fun r => ⟨r.dx, r.dy, cmdOf r.cmd⟩) := by
  induction l generalizing xx yy with
  | nil => rfl
  | cons a l ih => simp [deltas, wdeltas, ih]

theorem wdeltas_cmds (xx yy : Int) (l : List Stitch) : (wdeltas xx yy l).map (·.cmd) = l.map (·.cmd) := by
  induction l generalizing xx yy with
  | nil => rfl
  | cons a l ih => simp [wdeltas, ih]

/-- The commands of `l` as a format shows them: `g` says what becomes of each command, `none` if it has no record. -/
def view (g : Int → Option Int) (l : List Stitch) : List Stitch :=
  l.filterMap (fun a => (g a.cmd).map (fun c => ⟨a.x, a.y, c⟩))

/-- The same for records. -/
def viewRec (g : Int → Option Int) (l : List Rec) : List Rec :=
  l.filterMap (fun r => (g r.cmd).map (fun c => ⟨r.dx, r.dy, c⟩))

theorem view_append (g : Int → Option Int) (a b : List Stitch) : view g (a ++ b) = view g a ++ view g b := by
  simp [view]

theorem viewRec_append (g : Int → Option Int) (a b : List Rec) : viewRec g (a ++ b) = viewRec g a ++ viewRec g b := by
  simp [viewRec]

/-- If only commands that do not move have no record, positions are unaffected. -/
theorem place_viewRec (g : Int → Option Int) (l : List Rec) (h : ∀ r ∈ l, g r.cmd = none → r.dx = 0 ∧ r.dy = 0) (x y : ℚ) :
    place x y (viewRec g l) = view g (place x y l) := by
  induction l generalizing x y with
  | nil => rfl
  | cons r l ih =>
    have ih := fun x y => ih (fun a ha => h a (by simp [ha])) x y
    have h0 := h r (by simp)
    unfold viewRec view at ih ⊢
    simp only [place, List.filterMap_cons]
    cases hg : g r.cmd with
    | none =>
      obtain ⟨e1, e2⟩ := h0 hg
      simp only [Option.map_none, e1, e2, Int.cast_zero, add_zero]
      exact ih x y
    | some c =>
      simp only [Option.map_some, place]
      rw [ih]

/-- A parser that reads back each written record reads back a list of them. -/
theorem parse_flatMap {α : Type} (write : Rec → Bytes) (out : Rec → List α) (parse : Bytes → List α) (l : List Rec)
    (h : ∀ r ∈ l, ∀ rest, parse (write r ++ rest) = out r ++ parse rest) (rest : Bytes) :
    parse (l.flatMap write ++ rest) = l.flatMap out ++ parse rest := by
  induction l with
  | nil => rfl
  | cons r l ih =>
    rw [List.flatMap_cons, List.append_assoc, h r (by simp), ih (fun a ha => h a (by simp [ha])), List.flatMap_cons,
      List.append_assoc]

/-- What a byte-sized displacement is read as. -/
theorem signed8_mod (v : Int) (h1 : -128 ≤ v) (h2 : v ≤ 127) : signed8 (v % 256) = v := by
  unfold signed8; split_ifs <;> omega

theorem deltas_snoc (xx yy : Int) (l : List Stitch) (e : Stitch) :
    ∃ x' y', deltas xx yy (l ++ [e]) = deltas xx yy l ++ [⟨pyRound (e.x - x'), pyRound (e.y - y'), cmdOf e.cmd⟩] := by
  induction l generalizing xx yy with
  | nil => exact ⟨xx, yy, rfl⟩
  | cons s a ih =>
    obtain ⟨x', y', e⟩ := ih (xx + pyRound (s.x - xx)) (yy + pyRound (s.y - yy))
    exact ⟨x', y', by simp [deltas, e]⟩

variable {o : Settings} {lm : Libm} {threads : List Thread} {source out : List Stitch} {ths : List (Option Thread)}

/-- The moving commands STITCH (0) and JUMP (1) within a limit; everything else stays in place. -/
def RecOK (M : Int) (r : Rec) : Prop :=
  (r.cmd = 0 ∨ r.cmd = 1) ∧ -M ≤ r.dx ∧ r.dx ≤ M ∧ -M ≤ r.dy ∧ r.dy ≤ M ∨
  (r.cmd = 2 ∨ r.cmd = 3 ∨ r.cmd = 5 ∨ r.cmd = 9 ∨ r.cmd = 11 ∨ r.cmd = 12) ∧ r.dx = 0 ∧ r.dy = 0

/-- The records of an encoded pattern whose displacements are known to be within `N`. -/
theorem recs_of_fit {N : Int} (hv : o.ValidSequins) (hs : o.sequin ≠ 0xF5) (hq : ∀ st ∈ source, st.low ≠ 0xF5)
    (h : encode o lm threads source = .ok (out, ths))
    (hfit : ∀ r ∈ deltas 0 0 out, -N ≤ r.dx ∧ r.dx ≤ N ∧ -N ≤ r.dy ∧ r.dy ≤ N) :
    ∃ l e, out = l ++ [e] ∧ deltas 0 0 out = deltas 0 0 l ++ [⟨0, 0, 4⟩] ∧
      ∀ r ∈ deltas 0 0 l, RecOK N r ∧ (r.cmd = 5 → o.changeCommand = 5) ∧ (r.cmd = 9 → o.changeCommand = 9) := by
  have hat := C26_at_needle hv h
  have hkind := C21_kinds hv h
  have hlow := C21_low_level hv h
  have hseq := C21_no_sequins hv hs hq h
  obtain ⟨l, e, rfl, he, hl4⟩ := C20_single_end hv h
  have hstill : ∀ r ∈ deltas 0 0 (l ++ [e]), r.cmd ≠ 0 ∧ r.cmd ≠ 1 ∧ r.cmd ≠ 7 → r.dx = 0 ∧ r.dy = 0 :=
    deltas_still (K := fun c => c ≠ 0 ∧ c ≠ 1 ∧ c ≠ 7) (l ++ [e]) [] 0 0 (by simp) (by simp)
      (fun m a post eq hk => by simpa using hat m a post eq hk.1 hk.2.1 hk.2.2)
  obtain ⟨x', y', hd⟩ := deltas_snoc 0 0 l e
  have he4 : cmdOf e.cmd = 4 := he
  rw [hd] at hfit hstill
  have hz := hstill ⟨pyRound (e.x - x'), pyRound (e.y - y'), cmdOf e.cmd⟩ (by simp) (by simp [he4])
  simp only at hz
  refine ⟨l, e, rfl, by rw [hd, hz.1, hz.2, he4], fun r hr => ?_⟩
  have hc : r.cmd ∈ (deltas 0 0 l).map (·.cmd) := List.mem_map.2 ⟨r, hr, rfl⟩
  rw [deltas_cmds] at hc
  obtain ⟨a, ha, hac⟩ := List.mem_map.1 hc
  have hac : a.low = r.cmd := hac
  have a1 := hlow a (by simp [ha])
  have a2 := hkind a (by simp [ha])
  have a3 := hl4 a ha
  have a4 := hseq a (by simp [ha])
  rw [hac] at a1 a2 a3 a4
  simp only [List.mem_cons, List.not_mem_nil, or_false] at a1
  refine ⟨?_, a2.1, a2.2.1⟩
  have f := hfit r (by simp [hr])
  have z := hstill r (by simp [hr])
  unfold RecOK
  by_cases hm : r.cmd = 0 ∨ r.cmd = 1
  · exact .inl ⟨hm, f⟩
  · exact .inr ⟨by omega, z (by omega)⟩

/-- The records of a pattern encoded with an integral limit and rounding, for a format without sequins. -/
theorem encoded_recs {M : Int} (hM : 0 < M) (hlm : lm.Sound) (hv : o.ValidSequins) (hr : o.round = true)
    (h1 : o.maxStitch = some (M : ℚ)) (h2 : o.maxJump = some (M : ℚ)) (h3 : o.longStitch = 0xF1 ∨ o.longStitch = 0xF2)
    (hs : o.sequin ≠ 0xF5) (hq : ∀ st ∈ source, st.low ≠ 0xD5 ∧ st.low ≠ 0xD6 ∧ st.low ≠ 0xF0 ∧ st.low ≠ 0xF5)
    (h : encode o lm threads source = .ok (out, ths)) :
    ∃ l e, out = l ++ [e] ∧ deltas 0 0 out = deltas 0 0 l ++ [⟨0, 0, 4⟩] ∧
      ∀ r ∈ deltas 0 0 l, RecOK M r ∧ (r.cmd = 5 → o.changeCommand = 5) ∧ (r.cmd = 9 → o.changeCommand = 9) :=
  recs_of_fit hv hs (fun st hst => (hq st hst).2.2.2) h
    (C19_fits hM hlm hv hr h1 h2 h3 (fun st hst => by have := hq st hst; exact ⟨this.1, this.2.1, this.2.2.1⟩) h)

/-- Without rounding in the encoder: steps of at most `M` are written as displacements of at most `M + 1`. -/
theorem deltas_loose {M : Int} (l pre : List Stitch) (xx yy : Int)
    (hx : |(xx : ℚ) - (lastPos pre).1| ≤ 1 / 2) (hy : |(yy : ℚ) - (lastPos pre).2| ≤ 1 / 2)
    (h : ∀ m a post, l = m ++ a :: post → |a.x - (lastPos (pre ++ m)).1| ≤ M ∧ |a.y - (lastPos (pre ++ m)).2| ≤ M) :
    ∀ r ∈ deltas xx yy l, -(M + 1) ≤ r.dx ∧ r.dx ≤ M + 1 ∧ -(M + 1) ≤ r.dy ∧ r.dy ≤ M + 1 := by
  induction l generalizing pre xx yy with
  | nil => intro r hr; simp [deltas] at hr
  | cons st l ih =>
    have h0 := h [] st l rfl
    rw [List.append_nil] at h0
    have one : ∀ (p q : ℚ) (z : Int), |(z : ℚ) - p| ≤ 1 / 2 → |q - p| ≤ M →
        -(M + 1) ≤ pyRound (q - z) ∧ pyRound (q - z) ≤ M + 1 := by
      intro p q z h1 h2
      have h1 := abs_le.1 h1
      have h2 := abs_le.1 h2
      exact pyRound_bound (by push_cast; linarith [h1.1, h2.2]) (by push_cast; linarith [h1.2, h2.1])
    intro r hr
    simp only [deltas, List.mem_cons] at hr
    rcases hr with rfl | hr
    · have a := one _ _ _ hx h0.1
      have b := one _ _ _ hy h0.2
      exact ⟨a.1, a.2, b.1, b.2⟩
    · refine ih (pre ++ [st]) _ _ ?_ ?_ ?_ r hr
      · rw [lastPos_snoc]; exact round_near _ _
      · rw [lastPos_snoc]; exact round_near _ _
      · intro m a post e
        have := h (st :: m) a post (by rw [e]; rfl)
        simpa using this

/-- The records of a pattern encoded with an integral limit and no rounding, for a format without sequins. -/
theorem encoded_recs_loose {M : Int} (hM : 0 < M) (hlm : lm.Sound) (hv : o.ValidSequins)
    (h1 : o.maxStitch = some (M : ℚ)) (h2 : o.maxJump = some (M : ℚ)) (h3 : o.longStitch = 0xF1 ∨ o.longStitch = 0xF2)
    (hs : o.sequin ≠ 0xF5) (hq : ∀ st ∈ source, st.low ≠ 0xD5 ∧ st.low ≠ 0xD6 ∧ st.low ≠ 0xF0 ∧ st.low ≠ 0xF5)
    (h : encode o lm threads source = .ok (out, ths)) :
    ∃ l e, out = l ++ [e] ∧ deltas 0 0 out = deltas 0 0 l ++ [⟨0, 0, 4⟩] ∧
      ∀ r ∈ deltas 0 0 l, RecOK (M + 1) r ∧ (r.cmd = 5 → o.changeCommand = 5) ∧ (r.cmd = 9 → o.changeCommand = 9) := by
  have hlen := C22_step_length (M := (M : ℚ)) (by exact_mod_cast hM) hlm hv h1 h2 h3
    (fun st hst => by have := hq st hst; exact ⟨this.1, this.2.1, this.2.2.1⟩) h
  exact recs_of_fit hv hs (fun st hst => (hq st hst).2.2.2) h
    (deltas_loose out [] 0 0 (by simp) (by simp) (fun m a post e => by simpa using hlen m a post e))

theorem wdeltas_snoc (xx yy : Int) (l : List Stitch) (e : Stitch) :
    ∃ x' y', wdeltas xx yy (l ++ [e]) = wdeltas xx yy l ++ [⟨pyRound (e.x - x'), pyRound (e.y - y'), e.cmd⟩] := by
  induction l generalizing xx yy with
  | nil => exact ⟨xx, yy, rfl⟩
  | cons s a ih =>
    obtain ⟨x', y', e⟩ := ih (xx + pyRound (s.x - xx)) (yy + pyRound (s.y - yy))
    exact ⟨x', y', by simp [wdeltas, e]⟩

/-- The same with whole command words. -/
theorem recs_words {l : List Stitch} {e : Stitch} {P : Rec → Prop}
    (hd : deltas 0 0 (l ++ [e]) = deltas 0 0 l ++ [⟨0, 0, 4⟩]) (hok : ∀ r ∈ deltas 0 0 l, P r) :
    e.cmd % 256 = 4 ∧ wdeltas 0 0 (l ++ [e]) = wdeltas 0 0 l ++ [⟨0, 0, e.cmd⟩] ∧
    ∀ r ∈ wdeltas 0 0 l, P ⟨r.dx, r.dy, r.cmd % 256⟩ := by
  obtain ⟨x', y', hw⟩ := wdeltas_snoc 0 0 l e
  have h1 := deltas_eq 0 0 (l ++ [e])
  rw [hd, hw, List.map_append, ← deltas_eq] at h1
  have h2 := List.append_cancel_left h1
  simp only [List.map_cons, List.map_nil, List.cons.injEq, Rec.mk.injEq, and_true] at h2
  obtain ⟨a, b, c⟩ := h2
  refine ⟨c.symm, by rw [hw, ← a, ← b], fun r hr => hok _ ?_⟩
  rw [deltas_eq]
  exact List.mem_map.2 ⟨r, hr, rfl⟩

theorem wdeltas_length (xx yy : Int) (l : List Stitch) : (wdeltas xx yy l).length = l.length := by
  have := congrArg List.length (wdeltas_cmds xx yy l)
  simpa using this

/-- The encoded stitches of a small example pattern (used in examples only). -/
def demoEncode (o : Settings) (l : List Stitch) : List Stitch :=
  match encode o demoLm [] l with
  | .ok (out, _) => out
  | .error _ => []

/-- A pattern with a fraction, a trim, a slow-down, a long move, a stop and a colour change (used in examples only). -/
def demoPattern : List Stitch :=
  [⟨0, 0, 0⟩, ⟨27/5, 3, 0⟩, ⟨0, 0, 2⟩, ⟨0, 0, 11⟩, ⟨-300, 7/2, 0⟩, ⟨0, 0, 3⟩, ⟨-301, 4, 0⟩, ⟨0, 0, 5⟩, ⟨-301, -4, 0⟩,
   ⟨0, 0, 4⟩]

end Emb
