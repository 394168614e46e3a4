import Verif.Props.OpsProps
import Verif.Props.StrikeProps

/-!
# C74: where an added pattern is sewn

`add_pattern` writes the transform asked for as matrix commands in front of the added stitches. Together with the encoder
this moves the added pattern, and only it.
-/

namespace Emb

open Ops Blocks

/-- What `dx, dy, sx, sy, rotate` do to a point of the added pattern when the last point of the first pattern is `q`: rotation and
scaling about the point that is moved to `q`, then the movement. Without `sx` there is no scaling; `sy` defaults to `sx`. -/
def moved (lm : Libm) (q : Pt) (dx dy sx sy rotate : Option ℚ) (p : Pt) : Pt :=
  let d : Pt := (dx.getD 0, dy.getD 0)
  let c : Pt := (q.1 - d.1, q.2 - d.2)
  let p : Pt := match rotate with | none => p | some r => rotAbout c (lm.cos r) (lm.sin r) p
  let p : Pt := match sx with | none => p | some s => scaleAbout c s (sy.getD s) p
  (p.1 + d.1, p.2 + d.2)

namespace Strike

/-- A matrix command sews nothing and changes the map. -/
theorem step_matrix {lm : Libm} {round : Bool} {h : Head} (hs : h.Simple) (prev : Option Stitch) {c : Stitch}
    (rest : List Stitch) {q : Pt} (hc : c.low ∈ [0xC0, 0xC4, 0xC5])
    (hq : c.low ≠ 0xC0 → h.f q = h.pt ∧ Function.Injective h.f) :
    (h.step lm round prev c rest).1 = [] ∧ (h.step lm round prev c rest).2.f = rebase lm h.f q c ∧
    (h.step lm round prev c rest).2.limit = h.limit ∧ (h.step lm round prev c rest).2.pt = h.pt ∧
    (h.step lm round prev c rest).2.Simple := by
  have hu : c.low ≠ 0xC0 → h.under = q := by
    intro h0
    obtain ⟨h1, h2⟩ := hq h0
    have hex : ∃ q, h.f q = h.pt := ⟨q, h1⟩
    unfold Head.under
    rw [dif_pos hex]
    exact h2 ((Classical.choose_spec hex).trans h1.symm)
  unfold Head.step rebase
  simp only [List.mem_cons, List.not_mem_nil, or_false] at hc
  rcases hc with hc | hc | hc
  · simp only [hc]
    exact ⟨by simp, by simp, by simp, by simp, by simpa using ⟨hs.on, hs.off, hs.long⟩⟩
  · have := hu (by rw [hc]; decide)
    simp only [hc]
    exact ⟨by simp, by simp [this], by simp, by simp, by simpa using ⟨hs.on, hs.off, hs.long⟩⟩
  · have := hu (by rw [hc]; decide)
    simp only [hc]
    exact ⟨by simp, by simp [this], by simp, by simp, by simpa using ⟨hs.on, hs.off, hs.long⟩⟩

theorem scaleAbout_injective {c : Pt} {sx sy : ℚ} (hx : sx ≠ 0) (hy : sy ≠ 0) : Function.Injective (scaleAbout c sx sy) := by
  intro p q e
  simp only [scaleAbout, Prod.mk.injEq, add_right_inj, mul_eq_mul_left_iff, hx, hy, or_false, sub_left_inj] at e
  exact Prod.ext e.1 e.2

/-- The walk over the transforms of `add_pattern`. -/
theorem walk_transforms {lm : Libm} {round : Bool} {h : Head} (hs : h.Simple) (prev : Option Stitch) (rest : List Stitch)
    (dx dy sx sy rotate : Option ℚ) {q : Pt}
    (hq : sx ≠ none ∨ rotate ≠ none → h.f q = h.pt ∧ Function.Injective h.f)
    (hz : ∀ s ∈ sx, s ≠ 0 ∧ sy.getD s ≠ 0) :
    ∃ h' prev', h'.Simple ∧ h'.f = (fun p => h.f (moved lm q dx dy sx sy rotate p)) ∧ h'.limit = h.limit ∧
      walk lm round h prev (transforms dx dy sx sy rotate ++ rest) = walk lm round h' prev' rest := by
  -- one command
  have one : ∀ (h : Head) (prev : Option Stitch) (c : Stitch) (rest : List Stitch) (q : Pt), h.Simple → c.low ∈ [0xC0, 0xC4, 0xC5] →
      (c.low ≠ 0xC0 → h.f q = h.pt ∧ Function.Injective h.f) →
      ∃ h' prev', h'.Simple ∧ h'.f = rebase lm h.f q c ∧ h'.limit = h.limit ∧ h'.pt = h.pt ∧
        walk lm round h prev (c :: rest) = walk lm round h' prev' rest := by
    intro h prev c rest q hs hc hq
    obtain ⟨a1, a2, a3, a4, a5⟩ := step_matrix (lm := lm) (round := round) hs prev rest hc hq
    refine ⟨(h.step lm round prev c rest).2, some c, a5, a2, a3, a4, ?_⟩
    rw [walk, if_neg (fun h4 => by rw [h4] at hc; simp at hc), a1]
    rfl
  -- the translation
  obtain ⟨h1, prev1, s1, f1, l1, p1, w1⟩ : ∃ h' prev', h'.Simple ∧
      h'.f = (fun p => h.f (p.1 + dx.getD 0, p.2 + dy.getD 0)) ∧ h'.limit = h.limit ∧ h'.pt = h.pt ∧
      walk lm round h prev (transforms dx dy sx sy rotate ++ rest) =
        walk lm round h' prev' (transforms none none sx sy rotate ++ rest) := by
    by_cases hd : dx ≠ none ∨ dy ≠ none
    · obtain ⟨h', prev', a1, a2, a3, a4, a5⟩ := one h prev ⟨dx.getD 0, dy.getD 0, MATRIX_TRANSLATE⟩
        (transforms none none sx sy rotate ++ rest) q hs (by simp [Stitch.low, MATRIX_TRANSLATE])
        (fun hn => absurd (by simp [Stitch.low, MATRIX_TRANSLATE]) hn)
      refine ⟨h', prev', a1, ?_, a3, a4, ?_⟩
      · rw [a2]; simp [rebase, Stitch.low, MATRIX_TRANSLATE]
      · rw [← a5]; simp [transforms, hd]
    · obtain ⟨rfl, rfl⟩ : dx = none ∧ dy = none := by simpa using hd
      exact ⟨h, prev, hs, by simp, rfl, rfl, rfl⟩
  -- the scaling
  have hq1 : sx ≠ none ∨ rotate ≠ none → h1.f (q.1 - dx.getD 0, q.2 - dy.getD 0) = h1.pt ∧ Function.Injective h1.f := by
    intro hn
    obtain ⟨b1, b2⟩ := hq hn
    refine ⟨by rw [f1, p1]; simpa using b1, ?_⟩
    rw [f1]
    intro p p' e
    have := b2 e
    simp only [Prod.mk.injEq, add_left_inj] at this
    exact Prod.ext this.1 this.2
  obtain ⟨h2, prev2, s2, f2, l2, p2, w2⟩ : ∃ h' prev', h'.Simple ∧
      h'.f = (fun p => h1.f (match sx with
        | none => p
        | some s => scaleAbout (q.1 - dx.getD 0, q.2 - dy.getD 0) s (sy.getD s) p)) ∧ h'.limit = h1.limit ∧ h'.pt = h1.pt ∧
      walk lm round h1 prev1 (transforms none none sx sy rotate ++ rest) =
        walk lm round h' prev' (transforms none none none none rotate ++ rest) := by
    cases sx with
    | none => exact ⟨h1, prev1, s1, rfl, rfl, rfl, rfl⟩
    | some s =>
      obtain ⟨h', prev', a1, a2, a3, a4, a5⟩ := one h1 prev1 ⟨s, sy.getD s, MATRIX_SCALE⟩
        (transforms none none none none rotate ++ rest) (q.1 - dx.getD 0, q.2 - dy.getD 0) s1 (by simp [Stitch.low, MATRIX_SCALE])
        (fun _ => hq1 (.inl (by simp)))
      refine ⟨h', prev', a1, ?_, a3, a4, ?_⟩
      · rw [a2]; simp [rebase, Stitch.low, MATRIX_SCALE]
      · rw [← a5]; simp [transforms]
  -- the rotation
  have hq2 : rotate ≠ none → h2.f (q.1 - dx.getD 0, q.2 - dy.getD 0) = h2.pt ∧ Function.Injective h2.f := by
    intro hn
    obtain ⟨b1, b2⟩ := hq1 (.inr hn)
    rw [f2, p2]
    cases sx with
    | none => exact ⟨b1, b2⟩
    | some s =>
      obtain ⟨z1, z2⟩ := hz s (by simp)
      exact ⟨by simpa [scaleAbout] using b1, b2.comp (scaleAbout_injective z1 z2)⟩
  cases rotate with
  | none => exact ⟨h2, prev2, s2, by rw [f2, f1]; cases sx <;> rfl, by rw [l2, l1], by rw [w1, w2]; rfl⟩
  | some r =>
    obtain ⟨h', prev', a1, a2, a3, a4, a5⟩ := one h2 prev2 ⟨r, 0, MATRIX_ROTATE⟩
      rest (q.1 - dx.getD 0, q.2 - dy.getD 0) s2 (by simp [Stitch.low, MATRIX_ROTATE]) (fun _ => hq2 (by simp))
    refine ⟨h', prev', a1, ?_, by rw [a3, l2, l1], by rw [w1, w2, ← a5]; rfl⟩
    rw [a2, f2, f1]
    cases sx <;> simp [rebase, Stitch.low, MATRIX_ROTATE, moved]

/-- Only STITCH_BREAK lets the next jumps be left out. -/
theorem step_jumping {lm : Libm} {round : Bool} {h : Head} (prev : Option Stitch) {st : Stitch} (rest : List Stitch)
    (hj : h.jumping = false) (he : st.low ≠ 0xE0) : (h.step lm round prev st rest).2.jumping = false := by
  have sew : ∀ next p fine, (h.sew lm next p fine).2.jumping = false := by
    intro next p fine
    unfold Head.sew
    split_ifs <;> simp [hj]
  unfold Head.step
  simp only [if_neg he, apply_ite Prod.snd, apply_ite Head.jumping, sew, hj, ite_self]

/-- The commands that move the needle: the sewing ones, JUMP and FRAME_EJECT. -/
def moves : List Int := [0, 0xB0, 0xB1, 1, 0xE9]

theorem step_stays {lm : Libm} {round : Bool} {h : Head} (prev : Option Stitch) {st : Stitch} (rest : List Stitch)
    (hm : st.low ∉ moves) (h7 : st.low ≠ 7) : (h.step lm round prev st rest).2.pt = h.pt := by
  unfold moves at hm
  simp only [List.mem_cons, List.not_mem_nil, or_false, not_or] at hm
  obtain ⟨m1, m2, m3, m4, m5⟩ := hm
  unfold Head.step
  simp only [if_neg m1, if_neg m2, if_neg m3, if_neg m4, if_neg m5, if_neg h7, apply_ite Prod.snd,
    apply_ite Head.pt, ite_self]

theorem walk_more {lm : Libm} {round : Bool} : ∀ (A : List Stitch) (h : Head) (prev : Option Stitch) (B : List Stitch),
    h.Simple → (∀ st ∈ A, Plain h.limit st) →
    ∃ h' prev', h'.Simple ∧ h'.f = h.f ∧ h'.limit = h.limit ∧
      walk lm round h prev (A ++ B) = images round h.f A ++ walk lm round h' prev' B ∧
      (h.jumping = false → (∀ st ∈ A, st.low ≠ 0xE0) → h'.jumping = false) ∧
      ((∀ st ∈ A, st.low ∉ moves) → h'.pt = h.pt) := by
  intro A
  induction A with
  | nil => intro h prev B hs _; exact ⟨h, prev, hs, rfl, rfl, rfl, fun a _ => a, fun _ => rfl⟩
  | cons st A ih =>
    intro h prev B hs hp
    have hst := hp st (by simp)
    obtain ⟨e1, e2, e3, e4⟩ := step_plain (lm := lm) (round := round) hs prev (A ++ B) hst
    obtain ⟨h', prev', a1, a2, a3, a4, a5, a6⟩ := ih (h.step lm round prev st (A ++ B)).2 (some st) B e4
      (fun b hb => by rw [e3]; exact hp b (by simp [hb]))
    refine ⟨h', prev', a1, by rw [a2, e2], by rw [a3, e3], ?_, ?_, ?_⟩
    · rw [List.cons_append, walk, if_neg, a4, e1, e2]
      · unfold images
        rw [← List.append_assoc, ← List.map_append, ← List.filter_append]; rfl
      · intro h4; exact hst.1 (by simp [h4])
    · intro hj hA
      exact a5 (step_jumping prev _ hj (hA st (by simp))) (fun x hx => hA x (by simp [hx]))
    · intro hA
      rw [a6 (fun x hx => hA x (by simp [hx])), step_stays prev _ (hA st (by simp)) (fun h7 => hst.1 (by simp [h7]))]

end Strike

/-- Neutralising changes no sewing command. -/
theorem neutralise_split (round : Bool) (L : Option ℚ) (B E : List Stitch) (hB : ∀ st ∈ B, Plain L st)
    (hE : ∀ e ∈ E.head?, e.low = 4) :
    ∃ B' E', neutralise (B ++ E) = B' ++ E' ∧ (∀ st ∈ B', Plain L st) ∧ (∀ e ∈ E'.head?, e.low = 4) ∧
      ∀ f, images round f B' = images round f B := by
  induction B with
  | nil =>
    refine ⟨[], neutralise E, rfl, by simp, ?_, fun _ => rfl⟩
    cases E with
    | nil => simp [neutralise]
    | cons e E =>
      have h4 : cmdOf e.cmd = 4 := hE e (by simp)
      unfold neutralise
      rw [h4]
      have h4' : e.low = 4 := h4
      simpa [STITCH, SEW_TO, NEEDLE_AT, COLOR_CHANGE, COLOR_BREAK, NEEDLE_SET] using h4'
  | cons b B ih =>
    obtain ⟨B', E', i1, i2, i3, i4⟩ := ih (fun st h => hB st (by simp [h]))
    have img : ∀ (f : Pt → Pt) (c : Stitch) (l l' : List Stitch), images round f l = images round f l' →
        images round f (c :: l) = images round f (c :: l') := by
      intro f c l l' e
      have : ∀ l, images round f (c :: l) = images round f [c] ++ images round f l := by
        intro l; unfold images; rw [← List.map_append, ← List.filter_append]; rfl
      rw [this, this l', e]
    have hcons := hB b (by simp)
    rw [List.cons_append]
    unfold neutralise
    by_cases c1 : cmdOf b.cmd = STITCH ∨ cmdOf b.cmd = SEW_TO ∨ cmdOf b.cmd = NEEDLE_AT
    · rw [if_pos c1]
      exact ⟨b :: B, E, rfl, hB, hE, fun _ => rfl⟩
    · rw [if_neg c1]
      by_cases c2 : cmdOf b.cmd = COLOR_CHANGE ∨ cmdOf b.cmd = COLOR_BREAK ∨ cmdOf b.cmd = NEEDLE_SET
      · rw [if_pos c2]
        refine ⟨{ b with cmd := NO_COMMAND } :: B', E', by rw [i1]; rfl, ?_, i3, ?_⟩
        · intro st hst
          rcases List.mem_cons.1 hst with rfl | hst
          · exact ⟨by simp [Stitch.low, NO_COMMAND], fun h => absurd h (by simp [Stitch.low, NO_COMMAND])⟩
          · exact i2 st hst
        · intro f
          have hb : b.low ∉ [(0 : Int), 0xB0, 0xB1] := by
            have : b.low = cmdOf b.cmd := rfl
            rw [this]
            rcases c2 with c2 | c2 | c2 <;> rw [c2] <;> decide
          unfold images at i4 ⊢
          rw [List.filter_cons_of_neg (p := fun st : Stitch => st.low ∈ [(0 : Int), 0xB0, 0xB1]) (by simp [Stitch.low, NO_COMMAND]),
            List.filter_cons_of_neg (p := fun st : Stitch => st.low ∈ [(0 : Int), 0xB0, 0xB1]) (by simpa using hb)]
          exact i4 f
      · rw [if_neg c2]
        refine ⟨b :: B', E', by rw [i1]; rfl, ?_, i3, fun f => img f b _ _ (i4 f)⟩
        intro st hst
        rcases List.mem_cons.1 hst with rfl | hst
        · exact hcons
        · exact i2 st hst

/-- **C74**: `p.add_pattern(q, dx, dy, sx, sy, rotate)` succeeds, and encoding the result sews the first pattern where it was sewn
before and the added one moved as asked, in order. The first pattern sews something; `a` is its last command that moves the
needle (after a STITCH_BREAK jumps do not), followed by others such as TRIM, STOP or COLOR_BREAK, up to an END; `E` is empty or
starts with END. Rotating and scaling are about the point the needle is at, so they need unrounded positions and settings
that do not map two points to one. -/
theorem C74_added_partial {τ : Type} (eqv : τ → τ → Bool) (filler : Nat → τ) {o : Settings} {lm : Libm} (ho : o.NoTies)
    (b q : Build τ) (dx dy sx sy rotate : Option ℚ) {A T B E e : List Stitch} {a : Stitch}
    (hb : b.stitches = A ++ a :: (T ++ e)) (he : e = [] ∨ ∃ x y, e = [⟨x, y, 4⟩]) (hq : q.stitches = B ++ E)
    (hA : ∀ st ∈ A, Plain o.maxStitch st) (ha : Plain o.maxStitch a) (hs : ∃ st ∈ A ++ [a], st.low ∈ [0, 0xB0, 0xB1])
    (hm : a.low ∈ [0, 0xB0, 0xB1, 0xE9] ∨ a.low = 1 ∧ ∀ st ∈ A, st.low ≠ 0xE0)
    (hT : ∀ st ∈ T, Plain o.maxStitch st ∧ st.low ∉ [0, 0xB0, 0xB1, 1, 0xE9])
    (hB : ∀ st ∈ B, Plain o.maxStitch st) (hE : ∀ e ∈ E.head?, e.low = 4)
    (hn : sx ≠ none ∨ rotate ≠ none → o.round = false ∧ Function.Injective (o.place lm))
    (hz : ∀ s ∈ sx, s ≠ 0 ∧ sy.getD s ≠ 0) :
    ∃ r, addPattern eqv filler b q dx dy sx sy rotate = .ok r ∧
      ∀ threads out ths, encode o lm threads r.stitches = .ok (out, ths) →
        strikes out = images o.round (o.place lm) (A ++ [a]) ++
          images o.round (fun p => o.place lm (moved lm (a.x, a.y) dx dy sx sy rotate p)) B := by
  obtain ⟨c, hcm, hcl⟩ := hs
  have hsew : isSew c = true := by
    simp only [List.mem_cons, List.not_mem_nil, or_false] at hcl
    rcases hcl with hs | hs | hs <;> simp [isSew, hs]
  have hfix : fixColorCount b.threads filler b.stitches ≠ [] := by
    intro h
    obtain ⟨new, e1, e2, -⟩ := C48_fix (threads := b.threads) (filler := filler) b.stitches
    rw [h] at e1
    obtain ⟨e3, e4⟩ := List.append_eq_nil_iff.1 e1.symm
    rw [e3, e4] at e2
    have h0 : coloursUsed b.stitches = 0 := by simpa using e2.symm
    have h1 : colorCount true b.stitches = 0 := by rw [(colorCount_spec _).1]; exact h0
    have pos : ∀ (l : List Stitch), c ∈ l → colorCount true l ≠ 0 := by
      intro l
      induction l with
      | nil => intro h; cases h
      | cons d l ih =>
        intro hm
        rw [colorCount_cons]
        by_cases c1 : isSew d = true
        · rw [if_pos c1]; simp
        · have hm : c ∈ l := by
            rcases List.mem_cons.1 hm with rfl | hm
            · exact absurd hsew c1
            · exact hm
          rw [if_neg c1]
          split_ifs <;> exact ih hm
    refine pos _ ?_ h1
    rw [hb, show A ++ a :: (T ++ e) = (A ++ [a]) ++ (T ++ e) by simp]
    exact List.mem_append_left _ hcm
  obtain ⟨r, hr, hform⟩ := addPattern_form eqv filler b q dx dy sx sy rotate (by rw [hb]; simp) (.inr hfix)
  have hwo : withoutEnd b.stitches = A ++ a :: T := by
    rw [hb]
    rcases he with rfl | ⟨x, y, rfl⟩
    · unfold withoutEnd
      rw [if_neg, List.append_nil]
      rw [List.append_nil]
      intro h
      cases hl : (A ++ a :: T).getLast? with
      | none => rw [hl] at h; cases h
      | some z =>
        rw [hl] at h
        have h4 : z.cmd = 4 := by simpa using h
        have hz : z ∈ A ++ a :: T := List.mem_of_getLast? hl
        have hp : Plain o.maxStitch z := by
          rcases List.mem_append.1 hz with hz | hz
          · exact hA z hz
          · rcases List.mem_cons.1 hz with rfl | hz
            · exact ha
            · exact (hT z hz).1
        exact hp.1 (by simp [Stitch.low, h4])
    · unfold withoutEnd
      rw [show A ++ a :: (T ++ [⟨x, y, 4⟩]) = (A ++ a :: T) ++ [⟨x, y, 4⟩] by simp]
      rw [if_pos (by rw [List.getLast?_concat]; rfl), List.dropLast_concat]
  obtain ⟨B', E', n1, n2, n3, n4⟩ := neutralise_split o.round o.maxStitch B E hB hE
  have hchange : Plain o.maxStitch ⟨b.px, b.py, 5⟩ := by
    refine ⟨?_, fun h => absurd h ?_⟩ <;> simp [Stitch.low]
  obtain ⟨C, hC, hr2, himg⟩ : ∃ C, (∀ st ∈ C, Plain o.maxStitch st) ∧
      r.stitches = A ++ a :: (T ++ (transforms dx dy sx sy rotate ++ (C ++ E'))) ∧ ∀ f, images o.round f C = images o.round f B := by
    rcases hform with ⟨-, -, e3⟩ | ⟨P, u, t, ts, -, -, -, -, e5⟩ | ⟨P, u, t, ts, -, -, -, -, e5⟩
    · exact ⟨B', n2, by rw [e3, hwo, hq, n1]; simp, n4⟩
    · exact ⟨B', n2, by rw [e5, hwo, hq, n1]; simp, n4⟩
    · refine ⟨⟨b.px, b.py, 5⟩ :: B', ?_, by rw [e5, hwo, hq, n1]; simp, ?_⟩
      · intro st hst
        rcases List.mem_cons.1 hst with rfl | hst
        · exact hchange
        · exact n2 st hst
      · intro f
        rw [← n4 f]
        unfold images
        rw [List.filter_cons_of_neg (p := fun st : Stitch => st.low ∈ [(0 : Int), 0xB0, 0xB1]) (by simp [Stitch.low])]
  refine ⟨r, hr, ?_⟩
  intro threads out ths h
  rw [hr2] at h
  rw [C24_strikes h]
  generalize (A ++ a :: (T ++ (transforms dx dy sx sy rotate ++ (C ++ E')))).getLast? = prev0
  obtain ⟨h1, prev1, s1, f1, l1, e1, j1, -⟩ := Strike.walk_more (lm := lm) (round := o.round) A (o.head lm) prev0
    (a :: (T ++ (transforms dx dy sx sy rotate ++ (C ++ E')))) (ho.simple lm) hA
  rw [e1, walk, if_neg (fun h4 => ha.1 (by simp [h4]))]
  obtain ⟨p1, p2, p3, p4⟩ := Strike.step_plain (lm := lm) (round := o.round) s1 prev1
    (T ++ (transforms dx dy sx sy rotate ++ (C ++ E'))) (st := a) (by rw [l1]; exact ha)
  have hpt : (h1.step lm o.round prev1 a (T ++ (transforms dx dy sx sy rotate ++ (C ++ E')))).2.pt = h1.image o.round a := by
    unfold Head.step Head.sew
    simp only [List.mem_cons, List.not_mem_nil, or_false] at hm
    rcases hm with (hs | hs | hs | hs) | ⟨hs, hj⟩
    · rw [hs]
      simp only [if_true]
      split
      · split <;> rfl
      · rfl
    · rw [hs]
      simp only [if_true, if_neg (show ¬ ((0xB0 : Int) = 0) by decide), if_neg (show ¬ ((0xB0 : Int) = 0xB1) by decide)]
      split
      · split <;> rfl
      · rfl
    · rw [hs]
      simp only [if_true, if_neg (show ¬ ((0xB1 : Int) = 0) by decide)]
      split
      · split <;> rfl
      · rfl
    · rw [hs]; rfl
    · rw [hs, j1 rfl hj]; rfl
  generalize h1.step lm o.round prev1 a (T ++ (transforms dx dy sx sy rotate ++ (C ++ E'))) = res at p1 p2 p3 p4 hpt ⊢
  obtain ⟨pts, h2⟩ := res
  simp only at p1 p2 p3 p4 hpt ⊢
  have f2 : h2.f = o.place lm := by rw [p2, f1]; rfl
  have l2 : h2.limit = o.maxStitch := by rw [p3, l1]; rfl
  obtain ⟨h5, prev5, s5, f5, l5, e5, -, q5⟩ := Strike.walk_more (lm := lm) (round := o.round) T h2 (some a)
    (transforms dx dy sx sy rotate ++ (C ++ E')) p4 (fun st hst => by rw [l2]; exact (hT st hst).1)
  have hpt5 := q5 (fun st hst => (hT st hst).2)
  obtain ⟨h3, prev3, s3, f3, l3, e3⟩ := Strike.walk_transforms (lm := lm) (round := o.round) s5 prev5 (C ++ E')
    dx dy sx sy rotate (q := (a.x, a.y)) (by
      intro hh
      obtain ⟨hr0, hinj⟩ := hn hh
      refine ⟨?_, by rw [f5, f2]; exact hinj⟩
      rw [hpt5, hpt]; unfold Head.image
      rw [hr0, if_neg (by simp), f5, p2]) hz
  obtain ⟨h4, prev4, -, -, -, e4⟩ := Strike.walk_plain (lm := lm) (round := o.round) C h3 prev3 E' s3
    (fun st hst => by rw [l3, l5, l2]; exact hC st hst)
  have hend : walk lm o.round h4 prev4 E' = [] := by
    cases E' with
    | nil => rw [walk]
    | cons b E => rw [walk, if_pos (n3 b (by simp))]
  have hTi : ∀ f, images o.round f T = [] := by
    intro f
    unfold images
    rw [List.filter_eq_nil_iff.2, List.map_nil]
    intro st hst
    have := (hT st hst).2
    simp only [List.mem_cons, List.not_mem_nil, or_false, not_or, decide_eq_true_eq] at this ⊢
    omega
  have f1' : h1.f = o.place lm := f1
  have f0 : (o.head lm).f = o.place lm := rfl
  rw [e5, hTi, e3, e4, hend, p1, f3, f5, f2, himg, f1', f0]
  unfold images
  simp

/-- The hypotheses are met: one stitch at (4, 0) and a trim, then a square added, halved and moved. -/
example : ((addPattern (· == ·) (fun _ => 'f') ⟨[⟨0, 0, 0⟩, ⟨4, 0, 0⟩, ⟨9, 9, 2⟩, ⟨4, 0, 4⟩], ['r'], 4, 0⟩
      ⟨[⟨0, 0, 5⟩, ⟨0, 0, 0⟩, ⟨8, 0, 0⟩, ⟨8, 8, 0⟩, ⟨0, 0, 4⟩], ['r', 'g'], 0, 0⟩ (some 4) none (some (1/2)) none none).toOption.map
      fun r => strikes (demoEncode {} r.stitches)) =
    some ([(0, 0), (4, 0)] ++ [(0, 0), (8, 0), (8, 8)].map (moved demoLm (4, 0) (some 4) none (some (1/2)) none none)) ∧
    [((0 : ℚ), (0 : ℚ)), (8, 0), (8, 8)].map (moved demoLm (4, 0) (some 4) none (some (1/2)) none none) = [(4, 0), (8, 0), (8, 4)] := by
  decide +kernel

/-- The claim needs a first pattern without matrix commands: they go on to act on the added one. Here the added stitch
belongs at (0, 0) and is sewn at (7, 0). -/
theorem C74_matrix_fails :
    ((addPattern (· == ·) (fun _ => 'f') ⟨[⟨4, 0, 0⟩, ⟨7, 0, 0xC0⟩], ['r'], 7, 0⟩ ⟨[⟨0, 0, 0⟩], ['r'], 0, 0⟩
      none none none none none).toOption.map fun r => strikes (demoEncode {} r.stitches)) = some [(4, 0), (7, 0)] ∧
    moved demoLm (4, 0) none none none none none (0, 0) = (0, 0) := by decide +kernel

/-- And with a first pattern whose last jumps follow a STITCH_BREAK scaling is not about the last point of the pattern: the
needle stays behind at (4, 0), and the added (0, 0) is not where it would be when scaled about (8, 0). -/
theorem C74_break_fails :
    ((addPattern (· == ·) (fun _ => 'f') ⟨[⟨4, 0, 0⟩, ⟨4, 0, 0xE0⟩, ⟨8, 0, 1⟩], ['r'], 8, 0⟩ ⟨[⟨0, 0, 0⟩], ['r'], 0, 0⟩
      none none (some 2) none none).toOption.map fun r => strikes (demoEncode {} r.stitches)) = some [(4, 0), (-4, 0)] ∧
    moved demoLm (8, 0) none none (some 2) none none (0, 0) = (-8, 0) := by decide +kernel

end Emb
