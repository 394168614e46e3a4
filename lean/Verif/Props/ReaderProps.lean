import Verif.Readers
import Verif.Spec
import Verif.EncoderInv
import Verif.Props.TrimSpecProps
import Verif.Exp
import Verif.U01
import Verif.Pec
import Verif.Dst

/-!
# C60: the stitch readers accept every byte string
-/

namespace Emb
namespace Readers

/-! ## Loops end -/

/-- Every round of a loop that goes on uses up at least one byte and adds at most one command per byte used; `P` holds of what
is added and `E` of the exceptions raised. -/
structure Tame {σ α : Type} (step : σ → Bytes → Next σ α) (P : α → Prop) (E : PyErr → Prop) : Prop where
  again : ∀ s b out s' rest, (∀ v ∈ b, IsByte v) → step s b = .again out s' rest →
    (∀ a ∈ out, P a) ∧ ∃ used, b = used ++ rest ∧ used ≠ [] ∧ out.length ≤ used.length
  done : ∀ s b out, (∀ v ∈ b, IsByte v) → step s b = .done out → (∀ a ∈ out, P a) ∧ out.length ≤ b.length
  raise : ∀ s b e, (∀ v ∈ b, IsByte v) → step s b = .raise e → E e

theorem loop_mono {σ α : Type} (step : σ → Bytes → Next σ α) (n m : Nat) (s : σ) (b : Bytes)
    (r : Except PyErr (List α)) (h : loop step n s b = some r) (hm : n ≤ m) : loop step m s b = some r := by
  induction n generalizing m s b r with
  | zero => simp [loop] at h
  | succ n ih =>
    obtain ⟨m, rfl⟩ : ∃ k, m = k + 1 := ⟨m - 1, by omega⟩
    unfold loop at h ⊢
    cases hs : step s b with
    | again out s' rest =>
      rw [hs] at h
      simp only [Option.map_eq_some_iff] at h ⊢
      obtain ⟨r', h1, h2⟩ := h
      exact ⟨r', ih m s' rest r' h1 (by omega), h2⟩
    | done out => rw [hs] at h; exact h
    | raise e => rw [hs] at h; exact h

theorem loop_tame {σ α : Type} {step : σ → Bytes → Next σ α} {P : α → Prop} {E : PyErr → Prop}
    (h : Tame step P E) (s : σ) (b : Bytes) (hb : ∀ v ∈ b, IsByte v) :
    (∃ l, (∀ a ∈ l, P a) ∧ l.length ≤ b.length ∧ ∀ fuel, b.length < fuel → loop step fuel s b = some (.ok l)) ∨
    ∃ e, E e ∧ ∀ fuel, b.length < fuel → loop step fuel s b = some (.error e) := by
  generalize hn : b.length = n
  induction n using Nat.strong_induction_on generalizing s b with
  | _ n ih =>
    cases hst : step s b with
    | done out =>
      obtain ⟨h1, h2⟩ := h.done s b out hb hst
      refine .inl ⟨out, h1, hn ▸ h2, fun fuel hf => ?_⟩
      obtain ⟨k, rfl⟩ : ∃ k, fuel = k + 1 := ⟨fuel - 1, by omega⟩
      rw [loop, hst]
    | raise e =>
      refine .inr ⟨e, h.raise s b e hb hst, fun fuel hf => ?_⟩
      obtain ⟨k, rfl⟩ : ∃ k, fuel = k + 1 := ⟨fuel - 1, by omega⟩
      rw [loop, hst]
    | again out s' rest =>
      obtain ⟨h2, used, rfl, h4, h5⟩ := h.again s b out s' rest hb hst
      have hu : 0 < used.length := List.length_pos_iff.2 h4
      rw [List.length_append] at hn
      rcases ih rest.length (by omega) s' rest (fun v hv => hb v (by simp [hv])) rfl with ⟨l, p1, p2, p3⟩ | ⟨e, p1, p2⟩
      · refine .inl ⟨out ++ l, ?_, by rw [List.length_append]; omega, fun fuel hf => ?_⟩
        · intro a ha
          rcases List.mem_append.1 ha with ha | ha
          · exact h2 a ha
          · exact p1 a ha
        · obtain ⟨k, rfl⟩ : ∃ k, fuel = k + 1 := ⟨fuel - 1, by omega⟩
          rw [loop, hst]
          show (loop step k s' rest).map _ = _
          rw [p3 k (by omega)]
          rfl
      · refine .inr ⟨e, p1, fun fuel hf => ?_⟩
        obtain ⟨k, rfl⟩ : ∃ k, fuel = k + 1 := ⟨fuel - 1, by omega⟩
        rw [loop, hst]
        show (loop step k s' rest).map _ = _
        rw [p2 k (by omega)]
        rfl

/-! ## What a reader may add -/

/-- The commands the readers add before the END. -/
def plain : List Int := [STITCH, JUMP, TRIM, STOP, COLOR_CHANGE, NEEDLE_SET, FAST, SLOW]

/-- Every command is within `D` of the one before in both directions; the first is measured from `p`. -/
def Steps (D : ℚ) : ℚ × ℚ → List Stitch → Prop
  | _, [] => True
  | p, a :: l => |a.x - p.1| ≤ D ∧ |a.y - p.2| ≤ D ∧ Steps D (a.x, a.y) l

/-- A pattern as the readers make it: commands of `kinds`, each within `D` of the one before, then END in place. -/
def Design (kinds : List Int) (D : ℚ) (l : List Stitch) : Prop :=
  ∃ m e, l = m ++ [e] ∧ e.cmd = END ∧ (∀ a ∈ m, a.low ∈ kinds) ∧ Steps D (0, 0) l ∧ e.x = (lastPos m).1 ∧ e.y = (lastPos m).2

/-- Reading any bytes ends, in as many rounds as there are bytes (and one), with a pattern of at most one command per byte and
the END. The result does not depend on the bound for the rounds. -/
def Accepts (kinds : List Int) (D : ℚ) (read : Nat → Bytes → Option (Except PyErr (List Stitch))) : Prop :=
  ∀ f, (∀ v ∈ f, IsByte v) → ∃ l, Design kinds D l ∧ l.length ≤ f.length + 1 ∧ ∀ fuel, f.length < fuel → read fuel f = some (.ok l)

/-- The same, with exceptions. -/
def AcceptsOr (E : PyErr → Prop) (kinds : List Int) (D : ℚ) (read : Nat → Bytes → Option (Except PyErr (List Stitch))) : Prop :=
  ∀ f, (∀ v ∈ f, IsByte v) →
    (∃ l, Design kinds D l ∧ l.length ≤ f.length + 1 ∧ ∀ fuel, f.length < fuel → read fuel f = some (.ok l)) ∨
    ∃ e, E e ∧ ∀ fuel, f.length < fuel → read fuel f = some (.error e)

/-- A record of one of the commands with displacements up to `D`. -/
def Small (kinds : List Int) (D : Int) (r : Rec) : Prop := r.cmd % 256 ∈ kinds ∧ |r.dx| ≤ D ∧ |r.dy| ≤ D

theorem steps_place (D : Int) (l : List Rec) (h : ∀ r ∈ l, |r.dx| ≤ D ∧ |r.dy| ≤ D) (x y : ℚ) :
    Steps D (x, y) (place x y l) := by
  induction l generalizing x y with
  | nil => trivial
  | cons r l ih =>
    have h0 := h r (by simp)
    refine ⟨?_, ?_, ih (fun a ha => h a (by simp [ha])) _ _⟩
    · show |x + r.dx - x| ≤ D
      rw [add_sub_cancel_left]
      exact_mod_cast h0.1
    · show |y + r.dy - y| ≤ D
      rw [add_sub_cancel_left]
      exact_mod_cast h0.2

theorem place_length (l : List Rec) (x y : ℚ) : (place x y l).length = l.length := by
  induction l generalizing x y with
  | nil => rfl
  | cons r l ih => simp [place, ih]

theorem lastPos_place (l : List Rec) (x y : ℚ) (pre : List Stitch) (hp : lastPos pre = (x, y)) :
    lastPos (pre ++ place x y l) = placeEnd x y l := by
  induction l generalizing x y pre with
  | nil => simpa [place, placeEnd] using hp
  | cons r l ih =>
    have := ih (x + r.dx) (y + r.dy) (pre ++ [⟨x + r.dx, y + r.dy, r.cmd⟩]) (by rw [lastPos_snoc])
    simpa [place, placeEnd] using this

theorem design_of_recs (kinds : List Int) (D : Int) (hD : 0 ≤ D) (l : List Rec) (h : ∀ r ∈ l, Small kinds D r) :
    Design kinds D (place 0 0 (l ++ [⟨0, 0, END⟩])) := by
  have hp := place_append 0 0 l [⟨0, 0, END⟩]
  refine ⟨place 0 0 l, _, by rw [hp]; rfl, rfl, ?_, ?_, ?_, ?_⟩
  · have : ∀ (l : List Rec) (x y : ℚ), (∀ r ∈ l, Small kinds D r) → ∀ a ∈ place x y l, a.low ∈ kinds := by
      intro l
      induction l with
      | nil => intro x y _ a ha; simp [place] at ha
      | cons r l ih =>
        intro x y h a ha
        rcases List.mem_cons.1 ha with rfl | ha
        · exact (h r (by simp)).1
        · exact ih _ _ (fun r hr => h r (by simp [hr])) a ha
    exact this l 0 0 h
  · refine steps_place D _ ?_ 0 0
    intro r hr
    rcases List.mem_append.1 hr with hr | hr
    · exact (h r hr).2
    · rw [List.mem_singleton.1 hr]
      simpa using hD
  · rw [← List.nil_append (place 0 0 l), lastPos_place l 0 0 [] rfl]
    simp
  · rw [← List.nil_append (place 0 0 l), lastPos_place l 0 0 [] rfl]
    simp

theorem acceptsOr_of_tame {σ : Type} {step : σ → Bytes → Next σ Rec} {kinds : List Int} {D : Int}
    {E : PyErr → Prop} (hD : 0 ≤ D) (h : Tame step (Small kinds D) E) (s : σ) (skip : Nat) :
    AcceptsOr E kinds D (fun fuel f => finish (loop step fuel s (f.drop skip))) := by
  intro f hf
  have hlen : (f.drop skip).length ≤ f.length := by rw [List.length_drop]; omega
  rcases loop_tame h s (f.drop skip) (fun v hv => hf v (List.mem_of_mem_drop hv)) with ⟨l, p1, p2, p3⟩ | ⟨e, p1, p2⟩
  · refine .inl ⟨_, design_of_recs kinds D hD l p1, ?_, fun fuel hfu => ?_⟩
    · rw [place_length, List.length_append, List.length_singleton]
      omega
    · show finish (loop step fuel s (f.drop skip)) = _
      rw [p3 fuel (by omega)]
      rfl
  · refine .inr ⟨e, p1, fun fuel hfu => ?_⟩
    show finish (loop step fuel s (f.drop skip)) = _
    rw [p2 fuel (by omega)]
    rfl

theorem accepts_of_tame {σ : Type} {step : σ → Bytes → Next σ Rec} {kinds : List Int} {D : Int}
    (hD : 0 ≤ D) (h : Tame step (Small kinds D) (fun _ => False)) (s : σ) (skip : Nat) :
    Accepts kinds D (fun fuel f => finish (loop step fuel s (f.drop skip))) := by
  intro f hf
  rcases acceptsOr_of_tame hD h s skip f hf with h | ⟨e, h, -⟩
  · exact h
  · exact h.elim

/-- At most `n` commands with `P`. -/
def Few {α : Type} (P : α → Prop) (n : Nat) (l : List α) : Prop := (∀ a ∈ l, P a) ∧ l.length ≤ n

/-- Loops with records of three bytes. -/
theorem three_tame {σ : Type} {g : σ → Int → Int → Int → List Rec × Option σ} {P : Rec → Prop}
    (h : ∀ s b0 b1 b2, IsByte b0 → IsByte b1 → IsByte b2 → Few P 3 (g s b0 b1 b2).1) :
    Tame (three g) P (fun _ => False) where
  again := by
    intro s b out s' rest hb he
    match b, he with
    | [], he => simp [three] at he
    | [_], he => simp [three] at he
    | [_, _], he => simp [three] at he
    | b0 :: b1 :: b2 :: r, he =>
      have hg := h s b0 b1 b2 (hb b0 (by simp)) (hb b1 (by simp)) (hb b2 (by simp))
      simp only [three] at he
      cases hr : g s b0 b1 b2 with
      | mk o t =>
        rw [hr] at he hg
        cases t with
        | none => simp at he
        | some t =>
          simp only [Next.again.injEq] at he
          obtain ⟨rfl, rfl, rfl⟩ := he
          exact ⟨hg.1, [b0, b1, b2], rfl, by simp, hg.2⟩
  done := by
    intro s b out hb he
    match b, he with
    | [], he => simp [three] at he; subst he; simp
    | [_], he => simp [three] at he; subst he; simp
    | [_, _], he => simp [three] at he; subst he; simp
    | b0 :: b1 :: b2 :: r, he =>
      have hg := h s b0 b1 b2 (hb b0 (by simp)) (hb b1 (by simp)) (hb b2 (by simp))
      simp only [three] at he
      cases hr : g s b0 b1 b2 with
      | mk o t =>
        rw [hr] at he hg
        cases t with
        | some t => simp at he
        | none =>
          simp only [Next.done.injEq] at he
          subst he
          refine ⟨hg.1, ?_⟩
          have : o.length ≤ 3 := hg.2
          simp only [List.length_cons]
          omega
  raise := by
    intro s b e hb he
    match b, he with
    | [], he => simp [three] at he
    | [_], he => simp [three] at he
    | [_, _], he => simp [three] at he
    | b0 :: b1 :: b2 :: r, he =>
      simp only [three] at he
      cases hr : g s b0 b1 b2 with
      | mk o t => rw [hr] at he; cases t <;> simp at he

/-! ## The readers -/

theorem flip_abs (b : Bool) (v : Int) : |flip b v| = |v| := by
  unfold flip
  split_ifs
  · exact abs_neg v
  · rfl

theorem byte_abs {v : Int} (h : IsByte v) : |v| ≤ 255 := by
  obtain ⟨h1, h2⟩ := h
  rw [abs_of_nonneg h1]
  omega

theorem small_move (c : Int) (hc : c % 256 ∈ plain) (x y : Int) (hx : |x| ≤ 255) (hy : |y| ≤ 255) : Small plain 255 ⟨x, y, c⟩ :=
  ⟨hc, hx, hy⟩

theorem small_still (c : Int) (hc : c % 256 ∈ plain) : Small plain 255 ⟨0, 0, c⟩ := ⟨hc, by simp, by simp⟩

theorem small_needle (n : Int) : Small plain 255 (needleChange n) :=
  small_still _ (by rw [NEEDLE_SET, encodeThreadChange_low 9 (by decide) (by decide)]; decide)

theorem signed8_abs {v : Int} (h : IsByte v) : |signed8 v| ≤ 255 := by
  obtain ⟨h1, h2⟩ := h
  unfold signed8
  rw [abs_le]
  split_ifs <;> omega

theorem few_nil {α : Type} (P : α → Prop) (n : Nat) : Few P n [] := ⟨by simp, by simp⟩
theorem few_cons {α : Type} {P : α → Prop} {r : α} {n : Nat} {l : List α} (h : P r) (hl : Few P n l) : Few P (n + 1) (r :: l) :=
  ⟨List.forall_mem_cons.2 ⟨h, hl.1⟩, Nat.succ_le_succ hl.2⟩
theorem few_append {α : Type} {P : α → Prop} {m n : Nat} {k l : List α} (h : Few P m k) (hl : Few P n l) : Few P (m + n) (k ++ l) :=
  ⟨List.forall_mem_append.2 ⟨h.1, hl.1⟩, by have := h.2; have := hl.2; rw [List.length_append]; omega⟩
theorem few_more {α : Type} {P : α → Prop} {m n : Nat} {k : List α} (h : Few P m k) (hl : m ≤ n) : Few P n k :=
  ⟨h.1, Nat.le_trans h.2 hl⟩

/-- Proves that a record is small. -/
macro "small" : tactic => `(tactic|
  first
    | exact small_needle _
    | exact small_still _ (by decide)
    | exact small_move _ (by decide) _ _ (by assumption) (by assumption))

/-- Proves that a list of records are few and small. -/
macro "few" : tactic => `(tactic|
  first
    | exact few_nil _ _
    | exact few_cons (by small) (few_nil _ _)
    | exact few_cons (by small) (few_cons (by small) (few_nil _ _)))

/-- C60: KSM. -/
theorem C60_ksm : Accepts plain 255 readKsm := by
  refine accepts_of_tame (by decide) (three_tame ?_) _ _
  intro s b0 b1 b2 h0 h1 h2
  have hx : |flip (bit b2 6) b1| ≤ 255 := by rw [flip_abs]; exact byte_abs h1
  have hy : |flip (bit b2 5) (-b0)| ≤ 255 := by rw [flip_abs, abs_neg]; exact byte_abs h0
  unfold ksmRecord
  generalize flip (bit b2 6) b1 = x at *
  generalize flip (bit b2 5) (-b0) = y at *
  dsimp only
  have ho : Few (Small plain 255) 1 (if x ≠ 0 ∨ y ≠ 0 then (if s.1 then [move x y] else [stitch x y]) else []) := by
    split_ifs <;> few
  generalize (if x ≠ 0 ∨ y ≠ 0 then (if s.1 then [move x y] else [stitch x y]) else []) = o at *
  generalize (if (x ≠ 0 ∨ y ≠ 0) ∧ s.1 = false then (s.1, true) else s) = t at *
  have h1 : Few (Small plain 255) 3 o := few_more ho (by decide)
  split_ifs
  · exact h1
  · exact few_append ho (n := 2) (few_cons (by small) (few_nil _ _))
  · exact h1
  · exact h1
  · exact few_append ho (n := 2) (few_cons (by small) (few_nil _ _))
  · exact few_append ho (n := 2) (few_cons (by small) (few_nil _ _))
  · exact h1
  · exact h1

/-- C60: DSB, after the header. -/
theorem C60_dsb : Accepts plain 255 readDsbBody := by
  refine accepts_of_tame (by decide) (three_tame ?_) _ 0
  intro s b0 b1 b2 h0 h1 h2
  have hx : |flip (bit b0 5) b2| ≤ 255 := by rw [flip_abs]; exact byte_abs h2
  have hy : |flip (bit b0 6) (-b1)| ≤ 255 := by rw [flip_abs, abs_neg]; exact byte_abs h1
  unfold dsbRecord
  generalize flip (bit b0 5) b2 = x at *
  generalize flip (bit b0 6) (-b1) = y at *
  dsimp only
  split_ifs <;> few

/-- C60: DSZ, after the header. -/
theorem C60_dsz : Accepts plain 255 readDszBody := by
  refine accepts_of_tame (by decide) (three_tame ?_) _ 0
  intro s b0 b1 b2 h0 h1 h2
  have hx : |flip (bit b2 6) b1| ≤ 255 := by rw [flip_abs]; exact byte_abs h1
  have hy : |flip (bit b2 5) (-b0)| ≤ 255 := by rw [flip_abs, abs_neg]; exact byte_abs h0
  unfold dszRecord
  generalize flip (bit b2 6) b1 = x at *
  generalize flip (bit b2 5) (-b0) = y at *
  dsimp only
  split_ifs <;> few

theorem accepts_skip {kinds : List Int} {D : ℚ} {read : Nat → Bytes → Option (Except PyErr (List Stitch))}
    (h : Accepts kinds D read) (n : Nat) : Accepts kinds D (fun fuel f => read fuel (f.drop n)) := by
  intro f hf
  have hlen : (f.drop n).length ≤ f.length := by rw [List.length_drop]; omega
  obtain ⟨l, p1, p2, p3⟩ := h (f.drop n) (fun v hv => hf v (List.mem_of_mem_drop hv))
  exact ⟨l, p1, by omega, fun fuel hfu => p3 fuel (by omega)⟩

/-- C60: FXY and GT. -/
theorem C60_fxy : Accepts plain 255 readFxy := accepts_skip C60_dsz _
theorem C60_gt : Accepts plain 255 readGt := accepts_skip C60_dsz _

/-- C60: NEW. -/
theorem C60_new : Accepts plain 255 readNew := by
  refine accepts_of_tame (by decide) (three_tame ?_) _ _
  intro s b0 b1 b2 h0 h1 h2
  have hx : |flip (bit b2 6) b0| ≤ 255 := by rw [flip_abs]; exact byte_abs h0
  have hy : |flip (bit b2 5) (-b1)| ≤ 255 := by rw [flip_abs, abs_neg]; exact byte_abs h1
  unfold newRecord
  generalize flip (bit b2 6) b0 = x at *
  generalize flip (bit b2 5) (-b1) = y at *
  dsimp only
  split_ifs <;> few

theorem zxy_tame : Tame (three zxyRecord) (Small plain 255) (fun _ => False) := by
  refine three_tame ?_
  intro s b0 b1 b2 h0 h1 h2
  have hx : |flip (bit b0 3) b1| ≤ 255 := by rw [flip_abs]; exact byte_abs h1
  have hy : |flip (bit b0 2) (-b2)| ≤ 255 := by rw [flip_abs, abs_neg]; exact byte_abs h2
  unfold zxyRecord
  generalize flip (bit b0 3) b1 = x at *
  generalize flip (bit b0 2) (-b2) = y at *
  dsimp only
  split_ifs <;> few

/-- C60: INB. -/
theorem C60_inb : Accepts plain 255 readInb := by
  refine accepts_of_tame (by decide) (three_tame ?_) _ _
  intro s b0 b1 b2 h0 h1 h2
  have hx : |flip (bit b2 6) b0| ≤ 255 := by rw [flip_abs]; exact byte_abs h0
  have hy : |flip (bit b2 5) (-b1)| ≤ 255 := by rw [flip_abs, abs_neg]; exact byte_abs h1
  unfold inbRecord
  generalize flip (bit b2 6) b0 = x at *
  generalize flip (bit b2 5) (-b1) = y at *
  dsimp only
  split_ifs <;> few

/-- C60: 10o. -/
theorem C60_10o : Accepts plain 255 read10o := by
  refine accepts_of_tame (by decide) (three_tame ?_) _ 0
  intro s b0 b1 b2 h0 h1 h2
  have hx : |flip (bit b0 5) b2| ≤ 255 := by rw [flip_abs]; exact byte_abs h2
  have hy : |flip (bit b0 6) (-b1)| ≤ 255 := by rw [flip_abs, abs_neg]; exact byte_abs h1
  unfold tenRecord
  generalize flip (bit b0 5) b2 = x at *
  generalize flip (bit b0 6) (-b1) = y at *
  dsimp only
  split_ifs <;> few

/-- C60: STC. -/
theorem C60_stc : Accepts plain 255 readStc := by
  refine accepts_of_tame (by decide) (three_tame ?_) _ _
  intro s b0 b1 b2 h0 h1 h2
  have hx : |signed8 b0| ≤ 255 := signed8_abs h0
  have hy : |-signed8 b1| ≤ 255 := by rw [abs_neg]; exact signed8_abs h1
  unfold stcRecord
  generalize signed8 b0 = x at *
  generalize -signed8 b1 = y at *
  dsimp only
  split_ifs <;> few

theorem sunstar_tame : Tame (three sunstarRecord) (Small plain 255) (fun _ => False) := by
  refine three_tame ?_
  intro s b0 b1 b2 h0 h1 h2
  have hx : |flip (bit b0 7) (b0 % 128)| ≤ 255 := by rw [flip_abs, abs_le]; omega
  have hy : |-flip (bit b1 7) (b1 % 128)| ≤ 255 := by rw [abs_neg, flip_abs, abs_le]; omega
  unfold sunstarRecord
  generalize flip (bit b0 7) (b0 % 128) = x at *
  generalize -flip (bit b1 7) (b1 % 128) = y at *
  dsimp only
  split_ifs <;> few

/-- C60: the Sunstar variant of DAT. -/
theorem C60_sunstar : Accepts plain 255 readSunstar := accepts_of_tame (by decide) sunstar_tame _ _

theorem some_bound (kinds : List Int) (l : List Rec) (h : ∀ r ∈ l, r.cmd % 256 ∈ kinds) :
    ∃ D : Int, 0 ≤ D ∧ ∀ r ∈ l, Small kinds D r := by
  induction l with
  | nil => exact ⟨0, le_refl _, by simp⟩
  | cons r l ih =>
    obtain ⟨D, h0, h1⟩ := ih (fun a ha => h a (by simp [ha]))
    refine ⟨max D (max |r.dx| |r.dy|), le_max_of_le_left h0, ?_⟩
    intro a ha
    rcases List.mem_cons.1 ha with rfl | ha
    · exact ⟨h a (by simp), le_max_of_le_right (le_max_left _ _), le_max_of_le_right (le_max_right _ _)⟩
    · obtain ⟨p1, p2, p3⟩ := h1 a ha
      exact ⟨p1, le_max_of_le_left p2, le_max_of_le_left p3⟩

/-- C60: the stitches of ZHS. Displacements of unknown records add up, so a command may be any distance from the one before. -/
theorem C60_zhs (f : Bytes) (hf : ∀ v ∈ f, IsByte v) : ∃ l D, Design plain D l ∧ l.length ≤ f.length + 1 ∧
    ∀ fuel, f.length < fuel → readZhsBody fuel f = some (.ok l) := by
  have ht : Tame (three zhsRecord) (fun r => r.cmd % 256 ∈ plain) (fun _ => False) := by
    refine three_tame ?_
    intro s b0 b1 b2 _ _ _
    unfold zhsRecord
    dsimp only
    split_ifs <;> first
      | exact few_nil _ _
      | exact few_cons (show STITCH % 256 ∈ plain by decide) (few_nil _ _)
      | exact few_cons (show JUMP % 256 ∈ plain by decide) (few_nil _ _)
      | exact few_cons (show COLOR_CHANGE % 256 ∈ plain by decide) (few_nil _ _)
  rcases loop_tame ht (0, 0) f hf with ⟨l, p1, p2, p3⟩ | ⟨e, p1, -⟩
  · obtain ⟨D, hD, hs⟩ := some_bound plain l p1
    refine ⟨_, _, design_of_recs plain D hD l hs, ?_, fun fuel hfu => ?_⟩
    · rw [place_length, List.length_append, List.length_singleton]
      omega
    · rw [readZhsBody, p3 fuel hfu]
      rfl
  · exact p1.elim

/-! ## Steps given directly -/

/-- The conditions of `Tame` for one round. -/
def Fine {σ α : Type} (P : α → Prop) (E : PyErr → Prop) (b : Bytes) : Next σ α → Prop
  | .again out _ rest => ∃ used, b = used ++ rest ∧ used ≠ [] ∧ Few P used.length out
  | .done out => Few P b.length out
  | .raise e => E e

theorem tame_of_fine {σ α : Type} {step : σ → Bytes → Next σ α} {P : α → Prop} {E : PyErr → Prop}
    (h : ∀ s b, (∀ v ∈ b, IsByte v) → Fine P E b (step s b)) : Tame step P E where
  again := by
    intro s b out s' rest hb he
    have := h s b hb
    rw [he] at this
    obtain ⟨used, h1, h2, h3⟩ := this
    exact ⟨h3.1, used, h1, h2, h3.2⟩
  done := by
    intro s b out hb he
    have := h s b hb
    rw [he] at this
    exact this
  raise := by
    intro s b e hb he
    have := h s b hb
    rw [he] at this
    exact this

theorem fine_again {σ α : Type} {P : α → Prop} {E : PyErr → Prop} {used rest : Bytes} {out : List α} {s : σ} (h : used ≠ [])
    (hf : Few P used.length out) : Fine P E (used ++ rest) (.again out s rest) := ⟨used, rfl, h, hf⟩

theorem fine_done {σ α : Type} {P : α → Prop} {E : PyErr → Prop} {b : Bytes} : Fine P E b (.done [] : Next σ α) := few_nil _ _

theorem emd_tame : Tame emdStep (Small plain 255) (fun _ => False) := by
  refine tame_of_fine ?_
  intro s b hb
  match b, hb with
  | [], _ => exact fine_done
  | [_], _ => exact fine_done
  | b0 :: b1 :: rest, hb =>
    have hx : |signed8 b0| ≤ 255 := signed8_abs (hb _ (by simp))
    have hy : |-signed8 b1| ≤ 255 := by rw [abs_neg]; exact signed8_abs (hb _ (by simp))
    simp only [emdStep]
    split_ifs
    · exact fine_again (used := [b0, b1]) (by simp) (few_cons (by small) (few_nil _ _))
    · match rest, hb with
      | [], _ => exact fine_done
      | [_], _ => exact fine_done
      | c0 :: c1 :: rest, hb =>
        have hx : |signed8 c0| ≤ 255 := signed8_abs (hb _ (by simp))
        have hy : |-signed8 c1| ≤ 255 := by rw [abs_neg]; exact signed8_abs (hb _ (by simp))
        exact fine_again (used := [b0, b1, c0, c1]) (by simp) (few_cons (by small) (few_nil _ _))
    · exact fine_again (used := [b0, b1]) (by simp) (few_cons (by small) (few_nil _ _))
    · exact fine_again (used := [b0, b1]) (by simp) (few_nil _ _)
    · exact fine_again (used := [b0, b1]) (by simp) (few_cons (by small) (few_nil _ _))
    · exact fine_again (used := [b0, b1]) (by simp) (few_cons (by small) (few_nil _ _))
    · exact fine_done

/-- C60: EMD. -/
theorem C60_emd : Accepts plain 255 readEmd := accepts_of_tame (by decide) emd_tame _ _

theorem hundred_tame : Tame hundredStep (Small plain 255) (fun _ => False) := by
  refine tame_of_fine ?_
  intro s b hb
  match b, hb with
  | [], _ => exact fine_done
  | [_], _ => exact fine_done
  | [_, _], _ => exact fine_done
  | [_, _, _], _ => exact fine_done
  | b0 :: b1 :: b2 :: b3 :: rest, hb =>
    obtain ⟨p1, p2⟩ := hb b2 (by simp)
    obtain ⟨q1, q2⟩ := hb b3 (by simp)
    have hx : |if b2 > 0x80 then -(b2 - 0x80) else b2| ≤ 255 := by rw [abs_le]; split_ifs <;> omega
    have hy : |-if b3 > 0x80 then -(b3 - 0x80) else b3| ≤ 255 := by rw [abs_le]; split_ifs <;> omega
    simp only [hundredStep]
    generalize (if b2 > 0x80 then -(b2 - 0x80) else b2) = x at *
    generalize (if b3 > 0x80 then -(b3 - 0x80) else b3) = y at *
    split_ifs
    · exact fine_again (used := [b0, b1, b2, b3]) (by simp) (few_cons (by small) (few_nil _ _))
    · exact fine_again (used := [b0, b1, b2, b3]) (by simp) (few_cons (by small) (few_nil _ _))
    · exact fine_again (used := [b0, b1, b2, b3]) (by simp) (few_cons (by small) (few_nil _ _))

/-- C60: 100. -/
theorem C60_100 : Accepts plain 255 read100 := accepts_of_tame (by decide) hundred_tame _ 0

theorem small_mit {c x y : Int} (hc : c % 256 ∈ END :: plain) (hx : |x| ≤ 62) (hy : |y| ≤ 62) :
    Small (END :: plain) 62 ⟨x, y, c⟩ := ⟨hc, hx, hy⟩

theorem mit_tame : Tame mitStep (Small (END :: plain) 62) (fun _ => False) := by
  refine tame_of_fine ?_
  intro s b hb
  match b, hb with
  | [], _ => exact fine_done
  | [_], _ => exact fine_done
  | b0 :: b1 :: rest, hb =>
    have hx : |flip (bit b0 7) (b0 % 32 * 2)| ≤ 62 := by rw [flip_abs, abs_le]; omega
    have hy : |flip (bit b1 7) (-(b1 % 32) * 2)| ≤ 62 := by rw [flip_abs, abs_le]; omega
    simp only [mitStep]
    generalize flip (bit b0 7) (b0 % 32 * 2) = x at *
    generalize flip (bit b1 7) (-(b1 % 32) * 2) = y at *
    split_ifs <;> refine fine_again (used := [b0, b1]) (by simp) ?_ <;> first
      | exact few_nil _ _
      | exact few_cons (small_mit (by decide) (by assumption) (by assumption)) (few_nil _ _)
      | exact few_cons (small_mit (by decide) (by decide) (by decide)) (few_nil _ _)

/-- C60: MIT, which may have further ENDs in the pattern. -/
theorem C60_mit : Accepts (END :: plain) 62 readMit := accepts_of_tame (by decide) mit_tame _ 0

theorem jpx_tame : Tame jpxStep (Small plain 255) (fun _ => False) := by
  refine tame_of_fine ?_
  intro s b hb
  match b, hb with
  | [], _ => exact fine_done
  | [_], _ => exact fine_done
  | b0 :: b1 :: rest, hb =>
    have hx : |signed8 b0| ≤ 255 := signed8_abs (hb _ (by simp))
    have hy : |-signed8 b1| ≤ 255 := by rw [abs_neg]; exact signed8_abs (hb _ (by simp))
    simp only [jpxStep]
    by_cases h8 : b0 ≠ 0x80
    · rw [if_pos h8]
      exact fine_again (used := [b0, b1]) (by simp) (few_cons (by small) (few_nil _ _))
    · rw [if_neg h8]
      match rest, hb with
      | [], _ => exact fine_done
      | [_], _ => exact fine_done
      | c0 :: c1 :: rest, hb =>
        have hx : |signed8 c0| ≤ 255 := signed8_abs (hb _ (by simp))
        have hy : |-signed8 c1| ≤ 255 := by rw [abs_neg]; exact signed8_abs (hb _ (by simp))
        dsimp only
        split_ifs
        · exact fine_again (used := [b0, b1, c0, c1]) (by simp) (few_cons (by small) (few_nil _ _))
        · exact fine_again (used := [b0, b1, c0, c1]) (by simp) (few_cons (by small) (few_cons (by small) (few_nil _ _)))
        · exact fine_again (used := [b0, b1, c0, c1]) (by simp) (few_cons (by small) (few_nil _ _))
        · exact fine_done

/-- C60: the stitches of JPX. -/
theorem C60_jpx : Accepts plain 255 readJpxBody := accepts_of_tame (by decide) jpx_tame _ 0

theorem sew_tame : Tame sewStep (Small plain 255) (fun _ => False) := by
  refine tame_of_fine ?_
  intro s b hb
  match b, hb with
  | [], _ => exact fine_done
  | [_], _ => exact fine_done
  | b0 :: b1 :: rest, hb =>
    have hx : |signed8 b0| ≤ 255 := signed8_abs (hb _ (by simp))
    have hy : |-signed8 b1| ≤ 255 := by rw [abs_neg]; exact signed8_abs (hb _ (by simp))
    simp only [sewStep]
    by_cases h8 : b0 ≠ 0x80
    · rw [if_pos h8]
      exact fine_again (used := [b0, b1]) (by simp) (few_cons (by small) (few_nil _ _))
    · rw [if_neg h8]
      match rest, hb with
      | [], _ => exact fine_done
      | [_], _ => exact fine_done
      | c0 :: c1 :: rest, hb =>
        have hx : |signed8 c0| ≤ 255 := signed8_abs (hb _ (by simp))
        have hy : |-signed8 c1| ≤ 255 := by rw [abs_neg]; exact signed8_abs (hb _ (by simp))
        dsimp only
        split_ifs
        · exact fine_again (used := [b0, b1, c0, c1]) (by simp) (few_cons (by small) (few_nil _ _))
        · exact fine_again (used := [b0, b1, c0, c1]) (by simp) (few_cons (by small) (few_nil _ _))
        · exact fine_again (used := [b0, b1, c0, c1]) (by simp) (few_cons (by small) (few_nil _ _))
        · exact fine_done

/-- C60: the stitches of SEW. -/
theorem C60_sew : Accepts plain 255 readSewBody := accepts_of_tame (by decide) sew_tame _ 0

/-! ## Readers that raise on some files -/

theorem readInt8_nil : readInt8 [] = (none, []) := rfl
theorem readInt8_cons (b : Int) (r : Bytes) : readInt8 (b :: r) = (some b, r) := rfl

/-- Reading a number of `n` bytes: it is there, and so are its bytes, or what is left is read. -/
theorem readInt16le_cases (b : Bytes) : (∃ v u, readInt16le b = (some v, b.drop 2) ∧ b = u ++ b.drop 2 ∧ u.length = 2) ∨
    ∃ r, readInt16le b = (none, r) := by
  match b with
  | [] => exact .inr ⟨_, rfl⟩
  | [_] => exact .inr ⟨_, rfl⟩
  | b0 :: b1 :: r => exact .inl ⟨_, [b0, b1], rfl, rfl, rfl⟩

theorem readInt16be_cases (b : Bytes) : (∃ v u, readInt16be b = (some v, b.drop 2) ∧ b = u ++ b.drop 2 ∧ u.length = 2) ∨
    ∃ r, readInt16be b = (none, r) := by
  match b with
  | [] => exact .inr ⟨_, rfl⟩
  | [_] => exact .inr ⟨_, rfl⟩
  | b0 :: b1 :: r => exact .inl ⟨_, [b0, b1], rfl, rfl, rfl⟩

theorem signed16_abs (v : Int) : |signed16 v| ≤ 32768 := by
  unfold signed16
  dsimp only
  rw [abs_le]
  split_ifs <;> omega

theorem broMove_fine (pre b : Bytes) (before : List Rec) (hp : pre ≠ []) (h : Few (Small plain 32768) 3 before) :
    Fine (Small plain 32768) (fun e => e = .typeError) (pre ++ b) (broMove b before) := by
  unfold broMove
  rcases readInt16le_cases b with ⟨v, u, e1, e2, e3⟩ | ⟨r, e1⟩
  · rw [e1]
    dsimp only
    generalize b.drop 2 = c at *
    rcases readInt16le_cases c with ⟨w, u', f1, f2, f3⟩ | ⟨r, f1⟩
    · rw [f1]
      dsimp only
      generalize c.drop 2 = d at *
      subst e2 f2
      have : Few (Small plain 32768) (pre ++ u ++ u').length (before ++ [move (signed16 v) (-signed16 w)]) := by
        refine few_more (few_append h (few_cons (n := 0) ?_ (few_nil _ _))) ?_
        · exact ⟨show JUMP % 256 ∈ plain by decide, signed16_abs v, by rw [move, abs_neg]; exact signed16_abs w⟩
        · have : 0 < pre.length := List.length_pos_iff.2 hp
          simp only [List.length_append]
          omega
      have hf := fine_again (E := fun e => e = PyErr.typeError) (rest := d) (s := ()) (used := pre ++ u ++ u')
        (by simp [hp]) this
      simpa using hf
    · rw [f1]; rfl
  · rw [e1]; rfl

theorem small_wide {r : Rec} (h : Small plain 255 r) : Small plain 32768 r :=
  ⟨h.1, le_trans h.2.1 (by decide), le_trans h.2.2 (by decide)⟩

theorem bro_tame : Tame broStep (Small plain 32768) (fun e => e = .typeError) := by
  refine tame_of_fine ?_
  intro s b hb
  match b, hb with
  | [], _ => exact fine_done
  | [_], _ => exact fine_done
  | b0 :: b1 :: rest, hb =>
    have hx : |signed8 b0| ≤ 255 := signed8_abs (hb _ (by simp))
    have hy : |-signed8 b1| ≤ 255 := by rw [abs_neg]; exact signed8_abs (hb _ (by simp))
    simp only [broStep]
    by_cases h8 : b0 ≠ 0x80
    · rw [if_pos h8]
      exact fine_again (used := [b0, b1]) (by simp) (few_cons (small_wide (by small)) (few_nil _ _))
    · rw [if_neg h8]
      match rest, hb with
      | [], _ => rw [readInt8_nil]; rfl
      | c :: rest, hb =>
        rw [readInt8_cons]
        dsimp only
        have hm := fun before hb => broMove_fine [b0, b1, c] rest before (by simp) hb
        split_ifs
        · exact fine_again (used := [b0, b1, c]) (by simp) (few_nil _ _)
        · exact fine_done
        · exact fine_done
        · exact hm _ (few_nil _ _)
        · exact hm _ (few_nil _ _)
        · exact hm _ (few_cons (small_wide (small_needle _)) (few_nil _ _))
        · exact fine_done

/-- C60: BRO. A record that is cut off at the end of the file is a `TypeError`; see `C60_bro_cut_off`. -/
theorem C60_bro_partial : AcceptsOr (fun e => e = .typeError) plain 32768 readBro :=
  acceptsOr_of_tame (by decide) bro_tame _ _

/-- C60 fails for BRO: a file that ends within a record is not read. -/
theorem C60_bro_cut_off : ∀ fuel, 0x100 + 2 < fuel →
    readBro fuel (List.replicate 0x100 0 ++ [0x80, 0x00]) = some (.error .typeError) := by
  intro fuel hf
  obtain ⟨k, rfl⟩ : ∃ k, fuel = k + 1 := ⟨fuel - 1, by omega⟩
  rw [readBro, List.drop_left' (List.length_replicate)]
  rfl

theorem acceptsOr_of_accepts {kinds : List Int} {D : ℚ} {read : Nat → Bytes → Option (Except PyErr (List Stitch))}
    {E : PyErr → Prop} (h : Accepts kinds D read) : AcceptsOr E kinds D read := fun f hf => .inl (h f hf)

/-- C60: ZXY. Files shorter than three bytes are a `TypeError`, all others are read. -/
theorem C60_zxy_partial (f : Bytes) (hf : ∀ v ∈ f, IsByte v) :
    if f.length < 3 then ∀ fuel, readZxy fuel f = some (.error .typeError)
    else ∃ l, Design plain 255 l ∧ l.length ≤ f.length + 1 ∧ ∀ fuel, f.length < fuel → readZxy fuel f = some (.ok l) := by
  match f, hf with
  | [], _ => exact fun fuel => rfl
  | [_], _ => exact fun fuel => rfl
  | [_, _], _ => exact fun fuel => rfl
  | a :: b :: c :: rest, hf =>
    rw [if_neg (by simp)]
    obtain ⟨l, p1, p2, p3⟩ := accepts_of_tame (by decide) zxy_tame () (lo8 c + lo8 b * 2 ^ 8).toNat rest
      (fun v hv => hf v (by simp [hv]))
    refine ⟨l, p1, by simp only [List.length_cons]; omega, fun fuel hfu => ?_⟩
    exact p3 fuel (by simp only [List.length_cons] at hfu; omega)

theorem spx_tame : Tame spxStep (fun r => r.cmd = STITCH ∧ |r.dx| ≤ 32768 ∧ |r.dy| ≤ 33023) (fun e => e = .typeError) := by
  refine tame_of_fine ?_
  intro s b hb
  match b, hb with
  | [], _ => exact fine_done
  | [_], _ => exact fine_done
  | b0 :: b1 :: rest, hb =>
    have hr : ∀ v ∈ rest, IsByte v := fun v hv => hb v (by simp [hv])
    simp only [spxStep]
    clear hb
    rcases readInt16be_cases rest with ⟨v, u, e1, e2, e3⟩ | ⟨r, e1⟩
    · rw [e1]
      dsimp only
      generalize rest.drop 2 = c at *
      rcases readInt16be_cases c with ⟨w, u', f1, f2, f3⟩ | ⟨r, f1⟩
      · rw [f1]
        dsimp only
        generalize c.drop 2 = d at *
        subst e2 f2
        match d, hr with
        | [], _ => rw [readInt8_nil]; rfl
        | [k], _ => exact fine_done
        | [k, _], _ => exact fine_done
        | k :: x :: y :: d, hr =>
          rw [readInt8_cons]
          have hk := abs_le.1 (signed8_abs (hr k (by simp)))
          have hv := abs_le.1 (signed16_abs v)
          have := fine_again (σ := Unit) (E := fun e => e = PyErr.typeError) (rest := d) (s := ())
            (used := b0 :: b1 :: u ++ u' ++ [k, x, y]) (out := [stitch (signed16 w) (-signed16 v - signed8 k)])
            (P := fun r : Rec => r.cmd = STITCH ∧ |r.dx| ≤ 32768 ∧ |r.dy| ≤ 33023) (by simp)
            (few_more (few_cons (n := 0) ⟨rfl, signed16_abs w, abs_le.2 ⟨?_, ?_⟩⟩ (few_nil _ _)) (by simp))
          · simpa using this
          · show (-33023 : Int) ≤ -signed16 v - signed8 k
            omega
          · show -signed16 v - signed8 k ≤ (33023 : Int)
            omega
      · rw [f1]; rfl
    · rw [e1]; rfl

/-- C60: SPX. The pattern consists of stitches and has no END; a record that is cut off within its first seven bytes is a
`TypeError`. -/
theorem C60_spx_partial (f : Bytes) (hf : ∀ v ∈ f, IsByte v) :
    (∃ l, (∀ a ∈ l, a.cmd = STITCH) ∧ Steps 33023 (0, 0) l ∧ l.length ≤ f.length ∧
      ∀ fuel, f.length < fuel → readSpx fuel f = some (.ok l)) ∨
    ∀ fuel, f.length < fuel → readSpx fuel f = some (.error .typeError) := by
  have hlen : (f.drop 0x11E).length ≤ f.length := by rw [List.length_drop]; omega
  rcases loop_tame spx_tame () (f.drop 0x11E) (fun v hv => hf v (List.mem_of_mem_drop hv)) with ⟨l, p1, p2, p3⟩ | ⟨e, rfl, p2⟩
  · refine .inl ⟨place 0 0 l, ?_, ?_, by rw [place_length]; omega, fun fuel hfu => ?_⟩
    · have : ∀ (l : List Rec) (x y : ℚ), (∀ r ∈ l, r.cmd = STITCH) → ∀ a ∈ place x y l, a.cmd = STITCH := by
        intro l
        induction l with
        | nil => intro x y _ a ha; simp [place] at ha
        | cons r l ih =>
          intro x y h a ha
          rcases List.mem_cons.1 ha with rfl | ha
          · exact h r (by simp)
          · exact ih _ _ (fun r hr => h r (by simp [hr])) a ha
      exact this l 0 0 (fun r hr => (p1 r hr).1)
    · have := steps_place 33023 l (fun r hr => ⟨le_trans (p1 r hr).2.1 (by decide), (p1 r hr).2.2⟩) 0 0
      exact_mod_cast this
    · rw [readSpx, p3 fuel (by omega)]
      rfl
  · refine .inr fun fuel hfu => ?_
    rw [readSpx, p2 fuel (by omega)]
    rfl

/-! ## Absolute coordinates -/

/-- A pattern as the readers of absolute coordinates make it: coordinates up to `D`, END in place at the end. -/
def Placed (D : ℚ) (l : List Stitch) : Prop :=
  ∃ m e, l = m ++ [e] ∧ e.cmd = END ∧ e.x = (lastPos m).1 ∧ e.y = (lastPos m).2 ∧
    ∀ a ∈ m, (a.cmd = STITCH ∨ a.cmd = JUMP ∨ a.cmd = COLOR_CHANGE) ∧ |a.x| ≤ D ∧ |a.y| ≤ D

/-- A call that gives such a command. -/
def Near (D : ℚ) : Call → Prop
  | .abs c x y => (c = STITCH ∨ c = JUMP) ∧ |x| ≤ D ∧ |y| ≤ D
  | .here c => c = COLOR_CHANGE

theorem perform_snoc (l : List Call) (c : Int) (x y : ℚ) (pre : List Stitch) (hp : lastPos pre = (x, y)) :
    perform x y (l ++ [.here c]) = perform x y l ++
      [⟨(lastPos (pre ++ perform x y l)).1, (lastPos (pre ++ perform x y l)).2, c⟩] := by
  induction l generalizing x y pre with
  | nil => simp [perform, hp]
  | cons a l ih =>
    cases a with
    | abs c' x' y' =>
      have := ih x' y' (pre ++ [⟨x', y', c'⟩]) (by rw [lastPos_snoc])
      simp only [List.cons_append, perform, this, List.append_assoc, List.nil_append]
    | here c' =>
      have := ih x y (pre ++ [⟨x, y, c'⟩]) (by rw [lastPos_snoc])
      simp only [List.cons_append, perform, this, List.append_assoc, List.nil_append]

theorem perform_near (D : ℚ) (l : List Call) (h : ∀ c ∈ l, Near D c) (x y : ℚ) (hx : |x| ≤ D) (hy : |y| ≤ D) :
    ∀ a ∈ perform x y l, (a.cmd = STITCH ∨ a.cmd = JUMP ∨ a.cmd = COLOR_CHANGE) ∧ |a.x| ≤ D ∧ |a.y| ≤ D := by
  induction l generalizing x y with
  | nil => intro a ha; simp [perform] at ha
  | cons c l ih =>
    have h0 := h c (by simp)
    have ih := fun x y hx hy => ih (fun a ha => h a (by simp [ha])) x y hx hy
    intro a ha
    cases c with
    | abs c' x' y' =>
      obtain ⟨p1, p2, p3⟩ := h0
      rcases List.mem_cons.1 ha with rfl | ha
      · exact ⟨by rcases p1 with p | p <;> simp [p], p2, p3⟩
      · exact ih x' y' p2 p3 a ha
    | here c' =>
      rcases List.mem_cons.1 ha with rfl | ha
      · exact ⟨.inr (.inr h0), hx, hy⟩
      · exact ih x y hx hy a ha

theorem perform_length (l : List Call) (x y : ℚ) : (perform x y l).length = l.length := by
  induction l generalizing x y with
  | nil => rfl
  | cons c l ih => cases c <;> simp [perform, ih]

theorem placed_of_calls (D : ℚ) (hD : 0 ≤ D) (l : List Call) (h : ∀ c ∈ l, Near D c) :
    Placed D (perform 0 0 (l ++ [.here END])) := by
  have hs := perform_snoc l END 0 0 [] rfl
  rw [List.nil_append] at hs
  refine ⟨perform 0 0 l, _, hs, rfl, rfl, rfl, perform_near D l h 0 0 ?_ ?_⟩ <;> simpa using hD

theorem signed24_abs (v : Int) : |signed24 v| ≤ 8388608 := by
  unfold signed24
  dsimp only
  rw [abs_le]
  split_ifs <;> omega

theorem scaled_near (v : Int) (q : ℚ) (hq : 0 ≤ q) : |(signed24 v : ℚ) * q| ≤ 8388608 * q := by
  rw [abs_mul, abs_of_nonneg hq]
  have : |(signed24 v : ℚ)| ≤ 8388608 := by exact_mod_cast signed24_abs v
  exact mul_le_mul_of_nonneg_right this hq

theorem scaled_near_neg (v : Int) (q : ℚ) (hq : 0 ≤ q) : |-(signed24 v : ℚ) * q| ≤ 8388608 * q := by
  rw [neg_mul, abs_neg]
  exact scaled_near v q hq

/-- The interpretation of a complete record shared by the readers of the PC formats. -/
theorem pc_fine (used rest : Bytes) (hu : 1 ≤ used.length) (x y ctrl : Int) :
    Fine (σ := Unit) (Near (8388608 * (5 / 3))) (fun _ => False) (used ++ rest)
      (if ctrl = 0 then .again [.abs STITCH (signed24 x * (5 / 3)) (-signed24 y * (5 / 3))] () rest
      else if bit ctrl 0 then .again [.here COLOR_CHANGE] () rest
      else if bit ctrl 2 then .again [.abs JUMP (signed24 x * (5 / 3)) (-signed24 y * (5 / 3))] () rest
      else .done []) := by
  have hne : used ≠ [] := List.length_pos_iff.1 hu
  have hx := scaled_near x (5 / 3) (by norm_num)
  have hy := scaled_near_neg y (5 / 3) (by norm_num)
  split_ifs
  · exact fine_again hne (few_more (few_cons (n := 0) ⟨.inl rfl, hx, hy⟩ (few_nil _ _)) hu)
  · exact fine_again hne (few_more (few_cons (n := 0) rfl (few_nil _ _)) hu)
  · exact fine_again hne (few_more (few_cons (n := 0) ⟨.inr rfl, hx, hy⟩ (few_nil _ _)) hu)
  · exact fine_done

theorem pcd_tame : Tame pcdStep (Near (8388608 * (5 / 3))) (fun _ => False) := by
  refine tame_of_fine ?_
  intro s b hb
  match b with
  | [] => exact fine_done
  | [_] => exact fine_done
  | [_, _] => exact fine_done
  | [_, _, _] => exact fine_done
  | [_, _, _, _] => exact fine_done
  | [_, _, _, _, _] => exact fine_done
  | [_, _, _, _, _, _] => exact fine_done
  | [_, _, _, _, _, _, _] => exact fine_done
  | [_, _, _, _, _, _, _, _] => exact fine_done
  | c0 :: x0 :: x1 :: x2 :: c1 :: y0 :: y1 :: y2 :: k :: rest =>
    exact pc_fine [c0, x0, x1, x2, c1, y0, y1, y2, k] rest (by simp) _ _ k

theorem pcm_tame : Tame pcmStep (Near (8388608 * (5 / 3))) (fun _ => False) := by
  refine tame_of_fine ?_
  intro s b hb
  match b with
  | [] => exact fine_done
  | [_] => exact fine_done
  | [_, _] => exact fine_done
  | [_, _, _] => exact fine_done
  | [_, _, _, _] => exact fine_done
  | [_, _, _, _, _] => exact fine_done
  | [_, _, _, _, _, _] => exact fine_done
  | [_, _, _, _, _, _, _] => exact fine_done
  | [_, _, _, _, _, _, _, _] => exact fine_done
  | x0 :: x1 :: x2 :: c1 :: y0 :: y1 :: y2 :: c0 :: k :: rest =>
    exact pc_fine [x0, x1, x2, c1, y0, y1, y2, c0, k] rest (by simp) _ _ k

theorem placed_of_tame {σ : Type} {step : σ → Bytes → Next σ Call} {D : ℚ} (hD : 0 ≤ D)
    (h : Tame step (Near D) (fun _ => False)) (s : σ) (f : Bytes) (hf : ∀ v ∈ f, IsByte v) :
    ∃ l, Placed D l ∧ l.length ≤ f.length + 1 ∧ ∀ fuel, f.length < fuel →
      (loop step fuel s f).map (fun e => e.map (fun l => perform 0 0 (l ++ [.here END]))) = some (.ok l) := by
  rcases loop_tame h s f hf with ⟨l, p1, p2, p3⟩ | ⟨e, p1, -⟩
  · refine ⟨_, placed_of_calls D hD l p1, ?_, fun fuel hfu => ?_⟩
    · rw [perform_length, List.length_append, List.length_singleton]
      omega
    · rw [p3 fuel hfu]
      rfl
  · exact p1.elim

/-- C60: the stitches of PCD, PCQ and PCS. -/
theorem C60_pcd (f : Bytes) (hf : ∀ v ∈ f, IsByte v) : ∃ l, Placed (8388608 * (5 / 3)) l ∧ l.length ≤ f.length + 1 ∧
    ∀ fuel, f.length < fuel → readPcdBody fuel f = some (.ok l) := placed_of_tame (by norm_num) pcd_tame () f hf

/-- C60: the stitches of PCM. -/
theorem C60_pcm (f : Bytes) (hf : ∀ v ∈ f, IsByte v) : ∃ l, Placed (8388608 * (5 / 3)) l ∧ l.length ≤ f.length + 1 ∧
    ∀ fuel, f.length < fuel → readPcmBody fuel f = some (.ok l) := placed_of_tame (by norm_num) pcm_tame () f hf

theorem max_tame : Tame maxStep (Near (8388608 * (1235 / 1000))) (fun e => e = .typeError) := by
  refine tame_of_fine ?_
  intro s b hb
  match s, b with
  | 0, _ => exact fine_done
  | n + 1, [] => exact rfl
  | n + 1, [_] => exact rfl
  | n + 1, [_, _] => exact rfl
  | n + 1, [_, _, _] => exact rfl
  | n + 1, [_, _, _, _] => exact rfl
  | n + 1, [_, _, _, _, _] => exact rfl
  | n + 1, [_, _, _, _, _, _] => exact rfl
  | n + 1, [_, _, _, _, _, _, _] => exact fine_done
  | n + 1, x0 :: x1 :: x2 :: c0 :: y0 :: y1 :: y2 :: c1 :: rest =>
    exact fine_again (used := [x0, x1, x2, c0, y0, y1, y2, c1]) (by simp)
      (few_cons ⟨.inl rfl, scaled_near _ _ (by norm_num), scaled_near _ _ (by norm_num)⟩ (few_nil _ _))

/-- C60: MAX. A file that ends before the announced number of stitches is a `TypeError`. However many stitches are announced,
there are no more rounds than bytes. -/
theorem C60_max_partial (f : Bytes) (hf : ∀ v ∈ f, IsByte v) :
    (∃ l, Placed (8388608 * (1235 / 1000)) l ∧ l.length ≤ f.length + 1 ∧
      ∀ fuel, f.length < fuel → readMax fuel f = some (.ok l)) ∨
    ∀ fuel, f.length < fuel → readMax fuel f = some (.error .typeError) := by
  have hlen : (f.drop 0xD5).length ≤ f.length := by rw [List.length_drop]; omega
  have hby : ∀ v ∈ f.drop 0xD5, IsByte v := fun v hv => hf v (List.mem_of_mem_drop hv)
  simp only [readMax]
  match hd : f.drop 0xD5 with
  | [] => exact .inr fun _ _ => rfl
  | [_] => exact .inr fun _ _ => rfl
  | [_, _] => exact .inr fun _ _ => rfl
  | [_, _, _] => exact .inr fun _ _ => rfl
  | b0 :: b1 :: b2 :: b3 :: rest =>
    rw [hd] at hlen hby
    simp only [List.length_cons] at hlen
    show (∃ l, Placed _ l ∧ _ ∧ ∀ fuel, f.length < fuel → (loop maxStep fuel _ rest).map _ = _) ∨
      ∀ fuel, f.length < fuel → (loop maxStep fuel _ rest).map _ = _
    generalize (lo8 b0 + lo8 b1 * 2 ^ 8 + lo8 b2 * 2 ^ 16 + lo8 b3 * 2 ^ 24).toNat = n
    rcases loop_tame max_tame n rest (fun v hv => hby v (by simp [hv])) with ⟨l, p1, p2, p3⟩ | ⟨e, rfl, p2⟩
    · refine .inl ⟨_, placed_of_calls _ (by norm_num) l p1, ?_, fun fuel hfu => ?_⟩
      · rw [perform_length, List.length_append, List.length_singleton]
        omega
      · rw [p3 fuel (by omega)]
        rfl
    · refine .inr fun fuel hfu => ?_
      rw [p2 fuel (by omega)]
      rfl

/-! ## DAT -/

theorem barudan_tame : Tame barudanStep (fun r => ∀ a ∈ r, Small plain 255 a) (fun e => e = .attributeError) := by
  refine tame_of_fine ?_
  intro s b hb
  match b, hb with
  | [], _ => exact fine_done
  | [_], _ => exact fine_done
  | [_, _], _ => exact fine_done
  | ctrl :: b1 :: b2 :: rest, hb =>
    have hx : |flip (bit ctrl 5) b2| ≤ 255 := by rw [flip_abs]; exact byte_abs (hb _ (by simp))
    have hy : |flip (bit ctrl 6) (-b1)| ≤ 255 := by rw [flip_abs, abs_neg]; exact byte_abs (hb _ (by simp))
    simp only [barudanStep]
    generalize flip (bit ctrl 5) b2 = dx at *
    generalize flip (bit ctrl 6) (-b1) = dy at *
    have two : ∀ (c k : Int), c % 256 ∈ plain → k % 256 ∈ plain →
        Fine (σ := Unit) (fun r : Option Rec => ∀ a ∈ r, Small plain 255 a) (fun e => e = .attributeError)
          (ctrl :: b1 :: b2 :: rest)
          (.again (some ⟨0, 0, c⟩ :: if dx ≠ 0 ∨ dy ≠ 0 then [some ⟨dx, dy, k⟩] else []) () rest) := by
      intro c k hc hk
      refine fine_again (used := [ctrl, b1, b2]) (by simp) (few_more (m := 2) (few_cons (n := 1) ?_ ?_) (by simp))
      · rintro a ⟨rfl⟩
        exact small_still c hc
      · split_ifs
        · refine few_cons ?_ (few_nil _ _)
          rintro a ⟨rfl⟩
          exact small_move k hk _ _ hx hy
        · exact few_nil _ _
    have one : ∀ (c : Int), c % 256 ∈ plain →
        Fine (σ := Unit) (fun r : Option Rec => ∀ a ∈ r, Small plain 255 a) (fun e => e = .attributeError)
          (ctrl :: b1 :: b2 :: rest) (.again [some ⟨dx, dy, c⟩] () rest) := by
      intro c hc
      refine fine_again (used := [ctrl, b1, b2]) (by simp) (few_more (m := 1) (few_cons (n := 0) ?_ (few_nil _ _)) (by simp))
      rintro a ⟨rfl⟩
      exact small_move c hc _ _ hx hy
    by_cases h0 : bit ctrl 7 = false
    · rw [if_pos h0]
      exact ⟨by simp, by simp⟩
    · rw [if_neg h0]
      by_cases h : ctrl % 32 = 0x00
      · rw [if_pos h]; exact one STITCH (by decide)
      rw [if_neg h]
      clear h
      by_cases h : ctrl % 32 = 0x01
      · rw [if_pos h]; exact one JUMP (by decide)
      rw [if_neg h]
      clear h
      by_cases h : ctrl % 32 = 0x02
      · rw [if_pos h]; exact two FAST STITCH (by decide) (by decide)
      rw [if_neg h]
      clear h
      by_cases h : ctrl % 32 = 0x03
      · rw [if_pos h]; exact two FAST JUMP (by decide) (by decide)
      rw [if_neg h]
      clear h
      by_cases h : ctrl % 32 = 0x04
      · rw [if_pos h]; exact two SLOW STITCH (by decide) (by decide)
      rw [if_neg h]
      clear h
      by_cases h : ctrl % 32 = 0x05
      · rw [if_pos h]; exact two SLOW JUMP (by decide) (by decide)
      rw [if_neg h]
      clear h
      by_cases h : ctrl % 32 = 0x06 ∨ ctrl % 32 = 0x07
      · rw [if_pos h]; exact two TRIM JUMP (by decide) (by decide)
      rw [if_neg h]
      clear h
      by_cases h : ctrl % 32 = 0x08
      · rw [if_pos h]; exact two STOP JUMP (by decide) (by decide)
      rw [if_neg h]
      clear h
      by_cases h : 0x09 ≤ ctrl % 32 ∧ ctrl % 32 ≤ 0x17
      · rw [if_pos h]; rfl
      rw [if_neg h]
      clear h
      exact fine_done

/-- C60: DAT. The file is read as Barudan and, if a record without the top bit is met, again as Sunstar, hence up to two
commands per byte. A needle change is an `AttributeError`. -/
theorem C60_dat_partial (f : Bytes) (hf : ∀ v ∈ f, IsByte v) :
    (∃ l, Design plain 255 l ∧ l.length ≤ 2 * f.length + 1 ∧ ∀ fuel, f.length < fuel → readDat fuel f = some (.ok l)) ∨
    ∀ fuel, f.length < fuel → readDat fuel f = some (.error .attributeError) := by
  rcases loop_tame barudan_tame () f hf with ⟨l, p1, p2, p3⟩ | ⟨e, rfl, p2⟩
  · have hsm : ∀ a ∈ l.filterMap id, Small plain 255 a := by
      intro a ha
      rw [List.mem_filterMap] at ha
      obtain ⟨r, hr, rfl⟩ := ha
      exact p1 _ hr a rfl
    have hle : (l.filterMap id).length ≤ l.length := List.length_filterMap_le _ _
    have hlen : (f.drop 0x100).length ≤ f.length := by rw [List.length_drop]; omega
    left
    by_cases hn : none ∈ l
    · rcases loop_tame sunstar_tame () (f.drop 0x100) (fun v hv => hf v (List.mem_of_mem_drop hv)) with
        ⟨l', q1, q2, q3⟩ | ⟨e, q1, -⟩
      · refine ⟨_, design_of_recs plain 255 (by decide) (l.filterMap id ++ l') (List.forall_mem_append.2 ⟨hsm, q1⟩), ?_,
          fun fuel hfu => ?_⟩
        · rw [place_length, List.length_append, List.length_append, List.length_singleton]
          omega
        · rw [readDat, p3 fuel hfu]
          dsimp only
          rw [if_pos hn, q3 fuel (by omega)]
          rfl
      · exact q1.elim
    · refine ⟨_, design_of_recs plain 255 (by decide) (l.filterMap id) hsm, ?_, fun fuel hfu => ?_⟩
      · rw [place_length, List.length_append, List.length_singleton]
        omega
      · rw [readDat, p3 fuel hfu]
        dsimp only
        rw [if_neg hn]
        rfl
  · refine .inr fun fuel hfu => ?_
    rw [readDat, p2 fuel hfu]

/-- A Barudan needle change: record 0x89. -/
theorem C60_dat_needle (rest : Bytes) (fuel : Nat) :
    readDat (fuel + 1) (0x89 :: 0 :: 0 :: rest) = some (.error .attributeError) := rfl

/-! ## EXP, U01, PEC and DST

These models are plain recursive functions, so that they end is part of their being accepted as definitions. -/

theorem exp_few (f : Bytes) (hf : ∀ v ∈ f, IsByte v) : Few (Small plain 255) f.length (Exp.readRecs f) := by
  generalize hn : f.length = n
  induction n using Nat.strong_induction_on generalizing f with
  | _ n ih =>
    match f, hf with
    | [], _ => exact few_nil _ _
    | [_], _ => exact few_nil _ _
    | b0 :: b1 :: rest, hf =>
      have hx : |signed8 b0| ≤ 255 := signed8_abs (hf _ (by simp))
      have hy : |-signed8 b1| ≤ 255 := by rw [abs_neg]; exact signed8_abs (hf _ (by simp))
      simp only [List.length_cons] at hn
      unfold Exp.readRecs
      by_cases h0 : b0 ≠ 0x80
      · rw [if_pos h0]
        exact few_more (few_cons (by small) (ih rest.length (by omega) rest (fun v hv => hf v (by simp [hv])) rfl)) (by omega)
      · rw [if_neg h0]
        match rest, hf with
        | [], _ => exact few_nil _ _
        | [_], _ => exact few_nil _ _
        | c0 :: c1 :: rest, hf =>
          have hx : |signed8 c0| ≤ 255 := signed8_abs (hf _ (by simp))
          have hy : |-signed8 c1| ≤ 255 := by rw [abs_neg]; exact signed8_abs (hf _ (by simp))
          simp only [List.length_cons] at hn
          have := ih rest.length (by omega) rest (fun v hv => hf v (by simp [hv])) rfl
          dsimp only
          split_ifs
          · exact few_more (few_cons (by small) this) (by omega)
          · exact few_more (few_cons (by small) this) (by omega)
          · exact few_more (few_cons (by small) this) (by omega)
          · exact few_more (few_cons (by small) (few_cons (by small) this)) (by omega)
          · exact few_more (few_cons (by small) this) (by omega)
          · exact few_nil _ _

theorem design_of_few {kinds : List Int} {D : Int} (hD : 0 ≤ D) {n : Nat} {l : List Rec} (h : Few (Small kinds D) n l) :
    Design kinds D (place 0 0 (l ++ [⟨0, 0, END⟩])) ∧ (place 0 0 (l ++ [⟨0, 0, END⟩])).length ≤ n + 1 := by
  refine ⟨design_of_recs kinds D hD l h.1, ?_⟩
  rw [place_length, List.length_append, List.length_singleton]
  have := h.2
  omega

/-- C60: EXP. -/
theorem C60_exp (f : Bytes) (hf : ∀ v ∈ f, IsByte v) : Design plain 255 (Exp.read f) ∧ (Exp.read f).length ≤ f.length + 1 :=
  design_of_few (by decide) (exp_few f hf)

theorem u01_interpret (k dx dy : Int) (hx : |dx| ≤ 255) (hy : |dy| ≤ 255) (l : List Rec) (h : U01.interpret k dx dy = some l) :
    Few (Small plain 255) 3 l := by
  have two : ∀ (c k : Int), c % 256 ∈ plain → k % 256 ∈ plain → Few (Small plain 255) 3 (⟨0, 0, c⟩ :: U01.also k dx dy) := by
    intro c k hc hk
    refine few_cons (small_still c hc) ?_
    unfold U01.also
    split_ifs
    · exact few_cons (small_move k hk _ _ hx hy) (few_nil _ _)
    · exact few_nil _ _
  unfold U01.interpret at h
  split_ifs at h <;> simp only [Option.some.injEq] at h <;> subst h
  · few
  · few
  · exact two FAST STITCH (by decide) (by decide)
  · exact two FAST JUMP (by decide) (by decide)
  · exact two SLOW STITCH (by decide) (by decide)
  · exact two SLOW JUMP (by decide) (by decide)
  · exact two TRIM JUMP (by decide) (by decide)
  · exact two TRIM JUMP (by decide) (by decide)
  · exact two STOP JUMP (by decide) (by decide)
  · exact two _ JUMP (small_needle _).1 (by decide)

theorem u01_few (f : Bytes) (hf : ∀ v ∈ f, IsByte v) : Few (Small plain 255) f.length (U01.readRecs f) := by
  generalize hn : f.length = n
  induction n using Nat.strong_induction_on generalizing f with
  | _ n ih =>
    match f, hf with
    | [], _ => exact few_nil _ _
    | [_], _ => exact few_nil _ _
    | [_, _], _ => exact few_nil _ _
    | c :: b1 :: b2 :: rest, hf =>
      simp only [List.length_cons] at hn
      have h1 := byte_abs (hf b1 (by simp))
      have h2 := byte_abs (hf b2 (by simp))
      have := ih rest.length (by omega) rest (fun v hv => hf v (by simp [hv])) rfl
      unfold U01.readRecs
      dsimp only
      generalize hi : U01.interpret _ _ _ = o
      cases o with
      | none => exact few_nil _ _
      | some rs =>
        refine few_more (few_append (u01_interpret _ _ _ ?_ ?_ rs hi) this) (by omega)
        · split_ifs
          · rwa [abs_neg]
          · exact h2
        · split_ifs
          · exact h1
          · rwa [abs_neg]

/-- C60: U01. -/
theorem C60_u01 (f : Bytes) (hf : ∀ v ∈ f, IsByte v) : Design plain 255 (U01.read f) ∧ (U01.read f).length ≤ f.length + 1 := by
  have h := u01_few (f.drop 0x100) (fun v hv => hf v (List.mem_of_mem_drop hv))
  exact design_of_few (by decide) (few_more h (by rw [List.length_drop]; omega))

theorem signed12_abs (v : Int) : |Pec.signed12 v| ≤ 2048 := by
  unfold Pec.signed12
  rw [abs_le]
  split_ifs <;> omega

theorem signed7_abs {v : Int} (h : IsByte v) : |Pec.signed7 v| ≤ 2048 := by
  obtain ⟨h1, h2⟩ := h
  unfold Pec.signed7
  rw [abs_le]
  split_ifs <;> omega

theorem pec_emit (j t : Bool) (x y : Int) (hx : |x| ≤ 2048) (hy : |y| ≤ 2048) : Few (Small plain 2048) 2 (Pec.emit j t x y) := by
  have hm : ∀ c : Int, c % 256 ∈ plain → Small plain 2048 ⟨x, y, c⟩ := fun c hc => ⟨hc, hx, hy⟩
  have ht : Small plain 2048 ⟨0, 0, TRIM⟩ := ⟨show TRIM % 256 ∈ plain by decide, by simp, by simp⟩
  unfold Pec.emit
  split_ifs
  · exact few_cons (hm JUMP (by decide)) (few_nil _ _)
  · exact few_cons ht (few_cons (hm JUMP (by decide)) (few_nil _ _))
  · exact few_cons (hm STITCH (by decide)) (few_nil _ _)

theorem pec_few (f : Bytes) (hf : ∀ v ∈ f, IsByte v) : Few (Small plain 2048) f.length (Pec.readRecs f) := by
  have hcc : Small plain 2048 ⟨0, 0, COLOR_CHANGE⟩ := ⟨show COLOR_CHANGE % 256 ∈ plain by decide, by simp, by simp⟩
  generalize hn : f.length = n
  induction n using Nat.strong_induction_on generalizing f with
  | _ n ih =>
    match f, hf with
    | [], _ => exact few_nil _ _
    | [_], _ => exact few_nil _ _
    | v1 :: v2 :: rest, hf =>
      simp only [List.length_cons] at hn
      have h1 := signed7_abs (hf v1 (by simp))
      have h2 := signed7_abs (hf v2 (by simp))
      have hr : ∀ v ∈ rest, IsByte v := fun v hv => hf v (by simp [hv])
      clear hf
      unfold Pec.readRecs
      by_cases ha : v1 = 0xFF ∧ v2 = 0x00
      · rw [if_pos ha]; exact few_nil _ _
      rw [if_neg ha]
      by_cases hb : v1 = 0xFE ∧ v2 = 0xB0
      · rw [if_pos hb]
        match rest, hr with
        | [], _ => exact few_more (few_cons hcc (few_nil _ 0)) (by simp at hn; omega)
        | w :: rest, hr =>
          simp only [List.length_cons] at hn
          exact few_more (few_cons hcc (ih rest.length (by omega) rest (fun v hv => hr v (by simp [hv])) rfl)) (by omega)
      rw [if_neg hb]
      by_cases hc : Pec.isLong v1 = true
      · rw [if_pos hc]
        match rest, hr with
        | [], _ => exact few_nil _ _
        | w :: rest, hr =>
          simp only [List.length_cons] at hn
          dsimp only
          by_cases hd : Pec.isLong w = true
          · rw [if_pos hd]
            match rest, hr with
            | [], _ => exact few_nil _ _
            | w2 :: rest, hr =>
              simp only [List.length_cons] at hn
              exact few_more (few_append (pec_emit _ _ _ _ (signed12_abs _) (signed12_abs _))
                (ih rest.length (by omega) rest (fun v hv => hr v (by simp [hv])) rfl)) (by omega)
          · rw [if_neg hd]
            exact few_more (few_append (pec_emit _ _ _ _ (signed12_abs _) (signed7_abs (hr w (by simp))))
              (ih rest.length (by omega) rest (fun v hv => hr v (by simp [hv])) rfl)) (by omega)
      rw [if_neg hc]
      by_cases hd : Pec.isLong v2 = true
      · rw [if_pos hd]
        match rest, hr with
        | [], _ => exact few_nil _ _
        | w :: rest, hr =>
          simp only [List.length_cons] at hn
          exact few_more (few_append (pec_emit _ _ _ _ h1 (signed12_abs _))
            (ih rest.length (by omega) rest (fun v hv => hr v (by simp [hv])) rfl)) (by omega)
      · rw [if_neg hd]
        exact few_more (few_append (pec_emit _ _ _ _ h1 h2) (ih rest.length (by omega) rest hr rfl)) (by omega)

/-- C60: the stitches of PEC and PES. -/
theorem C60_pec (f : Bytes) (hf : ∀ v ∈ f, IsByte v) :
    Design plain 2048 (Pec.readSection f) ∧ (Pec.readSection f).length ≤ f.length + 1 :=
  design_of_few (by decide) (pec_few f hf)

theorem getbit_range (b : Int) (k : Nat) : 0 ≤ Dst.getbit b k ∧ Dst.getbit b k ≤ 1 := by
  unfold Dst.getbit
  omega

theorem decodeDx_abs (b0 b1 b2 : Int) : |Dst.decodeDx b0 b1 b2| ≤ 121 := by
  unfold Dst.decodeDx
  have h0 := getbit_range b0
  have h1 := getbit_range b1
  have h2 := getbit_range b2
  have := h0 0; have := h0 1; have := h0 2; have := h0 3
  have := h1 0; have := h1 1; have := h1 2; have := h1 3
  have := h2 2; have := h2 3
  rw [abs_le]
  omega

theorem decodeDy_abs (b0 b1 b2 : Int) : |Dst.decodeDy b0 b1 b2| ≤ 121 := by
  unfold Dst.decodeDy
  have h0 := getbit_range b0
  have h1 := getbit_range b1
  have h2 := getbit_range b2
  have := h0 4; have := h0 5; have := h0 6; have := h0 7
  have := h1 4; have := h1 5; have := h1 6; have := h1 7
  have := h2 4; have := h2 5
  rw [abs_le]
  omega

/-- The commands of DST. -/
def dstKinds : List Int := [STITCH, JUMP, COLOR_CHANGE, SEQUIN_MODE, SEQUIN_EJECT]

theorem classify_kinds (s : Bool) (b c : Int) (h : Dst.classify s b = some c) : c % 256 ∈ dstKinds := by
  unfold Dst.classify at h
  split_ifs at h <;> simp only [Option.some.injEq] at h <;> subst h <;> decide

theorem dst_few (f : Bytes) (s : Bool) : Few (Small dstKinds 121) f.length (Dst.readRecs s f) := by
  generalize hn : f.length = n
  induction n using Nat.strong_induction_on generalizing f s with
  | _ n ih =>
    match f with
    | [] => exact few_nil _ _
    | [_] => exact few_nil _ _
    | [_, _] => exact few_nil _ _
    | b0 :: b1 :: b2 :: rest =>
      simp only [List.length_cons] at hn
      unfold Dst.readRecs
      generalize hc : Dst.classify s b2 = o
      cases o with
      | none => exact few_nil _ _
      | some c =>
        exact few_more (few_cons ⟨classify_kinds s b2 c hc, decodeDx_abs _ _ _, decodeDy_abs _ _ _⟩
          (ih rest.length (by omega) rest _ rfl)) (by omega)

theorem itStep_length (n : Option Int) (d : Option ℚ) (c : Bool) (p : List Stitch × ITState) (a : Stitch) :
    (itStep n d c p a).1.length ≤ p.1.length + 2 := by
  unfold itStep
  dsimp only
  split_ifs <;> simp [pyInsert]
  all_goals omega

theorem trims_length (n : Option Int) (d : Option ℚ) (c : Bool) (l : List Stitch) (p : List Stitch × ITState) :
    (l.foldl (itStep n d c) p).1.length ≤ p.1.length + 2 * l.length := by
  induction l generalizing p with
  | nil => simp
  | cons a l ih =>
    have h1 := ih (itStep n d c p a)
    have h2 := itStep_length n d c p a
    simp only [List.foldl_cons, List.length_cons]
    omega

/-- C60: DST. Before the trims are put in, the commands are those of `dstKinds` and at most 121 apart; putting the trims in at
most doubles their number and leaves END at the end. -/
theorem C60_dst (trimAt : Int) (dist : Option ℚ) (clip : Bool) (f : Bytes) :
    (∃ m, Design dstKinds 121 m ∧ m.length ≤ f.length + 1 ∧ Dst.read trimAt dist clip f = interpolateTrims (some trimAt) (dist.map (· * 10)) clip m) ∧
    (Dst.read trimAt dist clip f).length ≤ 2 * f.length + 2 ∧
    ∃ l e, Dst.read trimAt dist clip f = l ++ [e] ∧ e.cmd = END := by
  have hd := design_of_few (by decide) (few_more (dst_few (f.drop 512) false)
    (show (f.drop 512).length ≤ f.length by rw [List.length_drop]; omega))
  refine ⟨⟨_, hd.1, hd.2, rfl⟩, ?_, ?_⟩
  · have := trims_length (some trimAt) (dist.map (· * 10)) clip (place 0 0 (Dst.readRecs false (f.drop 512) ++ [⟨0, 0, END⟩])) ([], ITState.init)
    have h2 := hd.2
    simp only [List.length_nil] at this
    rw [Dst.read, Dst.readBody, interpolateTrims]
    omega
  · have hp := place_append 0 0 (Dst.readRecs false (f.drop 512)) [⟨0, 0, END⟩]
    rw [Dst.read, Dst.readBody, hp, interpolateTrims, List.foldl_append]
    refine ⟨_, ⟨_, _, END⟩, rfl, rfl⟩

/-! ## Examples -/

-- two KSM records: a stitch of (3, -4), then the end
example : readKsm 5 (List.replicate 0x200 0 ++ [4, 3, 0]) = some (.ok [⟨3, -4, 0⟩, ⟨3, -4, 4⟩]) := by decide +kernel

-- noise
example : readEmd 100 (List.replicate 0x30 7 ++ [1, 2, 0x80, 0x2A, 0x80, 0x80, 5, 6, 0x80, 9]) =
    some (.ok [⟨1, -2, 0⟩, ⟨1, -2, 5⟩, ⟨6, -8, 1⟩, ⟨6, -8, 4⟩]) := by decide +kernel

example : Exp.read [1, 2, 0x80, 0x04, 0xFF] = [⟨1, -2, 0⟩, ⟨1, -2, 4⟩] := by decide +kernel

end Readers
end Emb
