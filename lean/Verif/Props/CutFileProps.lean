import Verif.Props.CutProps
import Verif.Props.PecFileProps

/-!
# C99 for whole PEC files, and what reading duplicate colours as stops leaves alone (C49)
-/

namespace Emb
namespace Ops
open Blocks

/-! ## C49: only colour changes become stops -/

/-- What may become of a command: a colour change (COLOR_CHANGE 5, COLOR_BREAK 0xE2, NEEDLE_SET 9) becomes a STOP (3) in its place, and nothing else
changes. -/
def Stopped (a b : Stitch) : Prop := b = a ∨ ((a.low = 5 ∨ a.low = 0xE2 ∨ a.low = 9) ∧ b = { a with cmd := 3 })

theorem forall₂_modify {R : Stitch → Stitch → Prop} {f : Stitch → Stitch} : ∀ (l l' : List Stitch) (i : Nat),
    List.Forall₂ R l l' → (∀ a b, l[i]? = some a → R a b → R a (f b)) → List.Forall₂ R l (l'.modify i f)
  | [], _, i, h, _ => by cases h; simp
  | a :: l, _, i, h, hf => by
    cases h with
    | cons h1 h2 =>
      cases i with
      | zero => exact .cons (hf _ _ rfl h1) h2
      | succ i => exact .cons h1 (forall₂_modify _ _ i h2 (fun a b ha => hf a b ha))

theorem dupLoop_stopped {τ : Type} (eqv : τ → τ → Bool) (l : List Stitch) : ∀ (acc0 acc : List Stitch) (T : List τ) (ti : Nat) (init : Bool) (last : Option Nat),
    List.Forall₂ Stopped acc0 acc → (∀ i, last = some i → ∃ a, acc0[i]? = some a ∧ (a.low = 5 ∨ a.low = 0xE2 ∨ a.low = 9)) →
    List.Forall₂ Stopped (acc0 ++ l) (dupLoop eqv acc T ti init last l).1 := by
  induction l with
  | nil => intro acc0 acc T ti init last h _; rw [List.append_nil]; exact h
  | cons st rest ih =>
    intro acc0 acc T ti init last h hl
    have hst : List.Forall₂ Stopped (acc0 ++ [st]) (acc ++ [st]) := List.rel_append h (.cons (.inl rfl) .nil)
    have hl' : ∀ i, last = some i → ∃ a, (acc0 ++ [st])[i]? = some a ∧ (a.low = 5 ∨ a.low = 0xE2 ∨ a.low = 9) := by
      intro i hi
      obtain ⟨a, h1, h2⟩ := hl i hi
      exact ⟨a, by rw [List.getElem?_append_left (List.getElem?_eq_some_iff.1 h1).1]; exact h1, h2⟩
    have e : acc0 ++ st :: rest = (acc0 ++ [st]) ++ rest := by simp
    rw [e, dupLoop.eq_def]
    dsimp only
    by_cases c1 : cmdOf st.cmd = STITCH ∨ cmdOf st.cmd = SEW_TO ∨ cmdOf st.cmd = NEEDLE_AT
    · rw [if_pos c1]
      by_cases c2 : init = true
      · rw [if_pos c2]
        cases last with
        | none => exact ih _ _ _ _ _ _ hst hl'
        | some i =>
          dsimp only
          by_cases c3 : ti = 0
          · rw [if_pos c3]; exact ih _ _ _ _ _ _ hst hl'
          rw [if_neg c3]
          split
          · split_ifs
            · refine ih _ _ _ _ _ _ (forall₂_modify _ _ i hst ?_) hl'
              intro a b ha hab
              obtain ⟨a', h1, h2⟩ := hl' i rfl
              rw [ha] at h1
              injection h1 with h1
              subst h1
              refine .inr ⟨h2, ?_⟩
              rcases hab with rfl | ⟨-, rfl⟩ <;> rfl
            · exact ih _ _ _ _ _ _ hst hl'
          · have : acc ++ st :: rest = (acc ++ [st]) ++ rest := by simp
            rw [this]
            exact List.rel_append hst (List.forall₂_same.2 (fun _ _ => .inl rfl))
      · rw [if_neg c2]; exact ih _ _ _ _ _ _ hst hl'
    rw [if_neg c1]
    by_cases c4 : cmdOf st.cmd = COLOR_CHANGE ∨ cmdOf st.cmd = COLOR_BREAK ∨ cmdOf st.cmd = NEEDLE_SET
    · rw [if_pos c4]
      refine ih _ _ _ _ _ _ hst ?_
      intro i hi
      injection hi with hi
      subst hi
      refine ⟨st, ?_, c4⟩
      rw [← h.length_eq, List.getElem?_append_right le_rfl, Nat.sub_self]
      rfl
    · rw [if_neg c4]; exact ih _ _ _ _ _ _ hst hl'

/-- **C49**: reading duplicate colours as stops changes nothing but colour changes, each to a STOP in its place, whatever the commands and
threads. -/
theorem C49_only_changes {τ : Type} (eqv : τ → τ → Bool) (l : List Stitch) (T : List τ) : List.Forall₂ Stopped l (dupAsStop eqv l T).1 :=
  dupLoop_stopped eqv l [] [] T 0 true none .nil (fun _ h => by cases h)

/-- Two colour changes between threads of which the second repeats the first. -/
example : (dupAsStop (· == ·) [⟨0, 0, 0⟩, ⟨1, 0, 5⟩, ⟨1, 0, 0⟩, ⟨2, 0, 5⟩, ⟨2, 0, 0⟩] ['r', 'r', 'g']).1 =
    [⟨0, 0, 0⟩, ⟨1, 0, 3⟩, ⟨1, 0, 0⟩, ⟨2, 0, 5⟩, ⟨2, 0, 0⟩] := by decide +kernel

end Ops

namespace Readers
open Pec

/-- The stitches (0) of a pattern. -/
def sewnOf (l : List Stitch) : List Stitch := l.filter (fun a => a.low = 0)

theorem sewnOf_stopped {l l' : List Stitch} (h : List.Forall₂ Ops.Stopped l l') : sewnOf l' = sewnOf l := by
  induction h with
  | nil => rfl
  | cons h1 h2 ih =>
    unfold sewnOf at ih ⊢
    rcases h1 with rfl | ⟨h3, rfl⟩
    · rw [List.filter_cons, List.filter_cons, ih]
    · rw [List.filter_cons_of_neg, List.filter_cons_of_neg, ih]
      · simp only [decide_eq_true_eq]; omega
      · simp [Stitch.low]

theorem sewnOf_begins {l l' : List Stitch} (h : Begins l l') : sewnOf l <+: sewnOf l' := by
  obtain ⟨m, e, rfl, he, t, rfl⟩ := h
  unfold sewnOf
  have : [e].filter (fun a => decide (a.low = 0)) = [] := by
    rw [List.filter_cons_of_neg, List.filter_nil]
    simp only [Stitch.low, he]
    decide
  rw [List.filter_append, this, List.append_nil, List.filter_append]
  exact List.prefix_append _ _

theorem readInt8_append (b g : Bytes) (n : Int) (h : (readInt8 b).1 = some n) : (readInt8 (b ++ g)).1 = some n := by
  match b, h with
  | _ :: _, h => exact h

theorem readInt24le_append (b g : Bytes) (n : Int) (h : (readInt24le b).1 = some n) : (readInt24le (b ++ g)).1 = some n := by
  match b, h with
  | [], h => cases h
  | [_], h => cases h
  | [_, _], h => cases h
  | _ :: _ :: _ :: _, h => exact h

theorem drop_ne {n : Nat} {f : Bytes} (h : n < f.length) : f.drop n ≠ [] := by
  intro hh
  have := congrArg List.length hh
  rw [List.length_drop, List.length_nil] at this
  omega

/-- **C99**: a PEC part that is cut after the length of its stitch section (536 bytes for up to 255 colours) is read with the same colours and label,
and with the beginning of the stitches. -/
theorem C99_pec_part (f g : Bytes) (hf : 536 ≤ f.length) (hb : ∀ v ∈ f, IsByte v) (d' : Found) (h : Pec.read (f ++ g) = .ok d') :
    ∃ d, Pec.read f = .ok d ∧ d.label = d'.label ∧ d.colors = d'.colors ∧ d.graphics.length = d'.graphics.length ∧ Begins d.stitches d'.stitches := by
  have one : ∀ n, n < f.length → ∃ v, (readInt8 (f.drop n)).1 = some v ∧ (readInt8 ((f ++ g).drop n)).1 = some v ∧ IsByte v := by
    intro n hn
    cases hd : f.drop n with
    | nil => exact absurd hd (drop_ne hn)
    | cons v t =>
      refine ⟨v, rfl, ?_, hb v (List.mem_of_mem_drop (by rw [hd]; simp))⟩
      rw [drop_cut_pos g (by rw [hd]; simp), hd]
      rfl
  obtain ⟨stride, s1, s2, -⟩ := one 34 (by omega)
  obtain ⟨height, t1, t2, -⟩ := one 35 (by omega)
  obtain ⟨changes, c1, c2, c3⟩ := one 48 (by omega)
  unfold Pec.read at h ⊢
  rw [s2, t2, c2] at h
  rw [s1, t1, c1]
  dsimp only at h ⊢
  have hcn : (changes + 1).toNat ≤ 256 := by unfold IsByte at c3; omega
  have e1 : ((f ++ g).drop 49).take (changes + 1).toNat = (f.drop 49).take (changes + 1).toNat := by
    rw [List.drop_append_of_le_length (by omega), List.take_append_of_le_length (by rw [List.length_drop]; omega)]
  have e2 : ((f ++ g).drop 3).take 16 = (f.drop 3).take 16 := by
    rw [List.drop_append_of_le_length (by omega), List.take_append_of_le_length (by rw [List.length_drop]; omega)]
  have hlen : ((f.drop 49).take (changes + 1).toNat).length = (changes + 1).toNat := by
    rw [List.length_take, List.length_drop]; omega
  have hp : 49 + ((f.drop 49).take (changes + 1).toNat).length + 0x1D0 - changes.toNat = 514 := by
    rw [hlen]; unfold IsByte at c3; omega
  rw [e1, e2, hp] at h
  rw [hp]
  obtain ⟨n, n1⟩ : ∃ n, (readInt24le (f.drop 514)).1 = some n := by
    match hd : f.drop 514 with
    | [] => have := congrArg List.length hd; rw [List.length_drop, List.length_nil] at this; omega
    | [_] => have := congrArg List.length hd; rw [List.length_drop, List.length_singleton] at this; omega
    | [_, _] => have := congrArg List.length hd; rw [List.length_drop] at this; simp at this; omega
    | _ :: _ :: _ :: _ => exact ⟨_, rfl⟩
  rw [drop_cut_pos g (drop_ne (by omega)), readInt24le_append _ g n n1] at h
  rw [n1]
  dsimp only at h ⊢
  injection h with h
  subst h
  refine ⟨_, rfl, rfl, rfl, by simp, ?_⟩
  obtain ⟨g', hg⟩ := drop_cut (514 + 3 + 0x0B) f g
  dsimp only
  rw [hg]
  exact C99_pec _ g'

/-- **C99**: a PEC file that is cut after its header (544 bytes) has the beginning of the stitches. -/
theorem C99_pec_file (f g : Bytes) (hf : 544 ≤ f.length) (hb : ∀ v ∈ f, IsByte v) (d' : Pec.Design) (h : Pec.readFile (f ++ g) = .ok d') :
    ∃ d, Pec.readFile f = .ok d ∧ d.label = d'.label ∧ d.graphics.length = d'.graphics.length ∧ sewnOf d.stitches <+: sewnOf d'.stitches := by
  unfold Pec.readFile Pec.readPattern at h ⊢
  rw [List.drop_append_of_le_length (by omega)] at h
  cases hr : Pec.read (f.drop 8 ++ g) with
  | error e => rw [hr] at h; cases h
  | ok d =>
    obtain ⟨u, h1, h2, h3, h4, h5⟩ := C99_pec_part (f.drop 8) g (by rw [List.length_drop]; omega)
      (fun v hv => hb v (List.mem_of_mem_drop hv)) d hr
    rw [hr] at h
    rw [h1]
    dsimp only at h ⊢
    rw [h3, h4]
    split_ifs at h ⊢ with hi
    · cases h
    · injection h with h
      subst h
      refine ⟨_, rfl, h2, ?_, ?_⟩
      · simp [Pec.Design.stops, h4]
      · unfold Pec.Design.stops
        dsimp only
        rw [sewnOf_stopped (Ops.C49_only_changes Thread.same u.stitches _), sewnOf_stopped (Ops.C49_only_changes Thread.same d.stitches _)]
        exact sewnOf_begins h5

end Readers
end Emb
