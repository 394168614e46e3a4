import Verif.Props.ShadeProps
import Verif.Props.ExpProps
import Verif.Props.DstFileProps
import Verif.Props.JefProps
import Verif.Props.XxxProps
import Verif.Props.PecProps
import Verif.Props.Vp3Props
import Verif.Props.U01Props
import Verif.Props.TrimProps
import Verif.Props.PesProps
import Verif.Props.ReaderProps

/-!
# C94: a design saved and loaded is sewn where and in the colours the source says
-/

namespace Emb

/-! ## Specification -/

/-- The same colour (or needle), at most half a unit away on each axis, and exactly there if the place is on the grid. -/
def OnGrid {α : Type} (p q : α × Pt) : Prop :=
  q.1 = p.1 ∧ |q.2.1 - p.2.1| ≤ 1 / 2 ∧ |q.2.2 - p.2.2| ≤ 1 / 2 ∧
    ((∃ i j : Int, p.2 = ((i : ℚ), (j : ℚ))) → q.2 = p.2)

/-! ## Proofs -/

namespace SaveLoad

theorem whole_near {a : ℚ} {i j : Int} (ha : a = i) (h : |(j : ℚ) - a| ≤ 1 / 2) : (j : ℚ) = a := by
  subst ha
  rw [← Int.cast_sub, ← Int.cast_abs] at h
  have h2 : ((|j - i| : Int) : ℚ) < 1 := lt_of_le_of_lt h (by norm_num)
  have h3 : |j - i| < 1 := by exact_mod_cast h2
  have : j - i = 0 := Int.abs_lt_one_iff.1 h3
  rw [show j = i by omega]

/-- Positions put together from whole displacements are whole. -/
theorem place_whole (rs : List Rec) : ∀ (x y : Int), ∀ a ∈ place x y rs, ∃ i j : Int, a.x = i ∧ a.y = j := by
  induction rs with
  | nil => intro x y a ha; simp [place] at ha
  | cons r rs ih =>
    intro x y a ha
    rw [place, List.mem_cons] at ha
    rcases ha with rfl | ha
    · exact ⟨x + r.dx, y + r.dy, by push_cast; rfl, by push_cast; rfl⟩
    · refine ih (x + r.dx) (y + r.dy) a ?_
      push_cast
      exact ha

/-- Two commands alike and near each other. -/
def Alike (a b : Stitch) : Prop :=
  b.low = a.low ∧ |b.x - a.x| ≤ 1 / 2 ∧ |b.y - a.y| ≤ 1 / 2 ∧ ∃ i j : Int, b.x = i ∧ b.y = j

theorem forall2_and {α β : Type} {R : α → β → Prop} {P : β → Prop} {l : List α} {m : List β} (h : List.Forall₂ R l m)
    (hp : ∀ b ∈ m, P b) : List.Forall₂ (fun a b => R a b ∧ P b) l m := by
  induction h with
  | nil => exact .nil
  | cons h1 _ ih => exact .cons ⟨h1, hp _ (by simp)⟩ (ih (fun b hb => hp b (by simp [hb])))

theorem alike_deltas (l : List Stitch) : List.Forall₂ Alike l (place 0 0 (deltas 0 0 l)) := by
  have h := forall2_and (C18_no_drift l) (P := fun b : Stitch => ∃ i j : Int, b.x = i ∧ b.y = j) (by
    have := place_whole (deltas 0 0 l) 0 0
    simpa using this)
  refine h.imp (fun a b h => ⟨?_, h.1.1, h.1.2.1, h.2⟩)
  show b.cmd % 256 = a.cmd % 256
  rw [h.1.2.2]; omega

theorem shaded_alike {l m : List Stitch} (h : List.Forall₂ Alike l m) :
    ∀ n, List.Forall₂ OnGrid (shadedFrom n l) (shadedFrom n m) := by
  induction h with
  | nil => intro n; exact .nil
  | @cons a b l m h1 _ ih =>
    intro n
    obtain ⟨e, hx, hy, i, j, hi, hj⟩ := h1
    rw [shadedFrom, shadedFrom, e]
    split_ifs
    · exact ih _
    · refine .cons ⟨rfl, hx, hy, ?_⟩ (ih _)
      rintro ⟨u, v, hp⟩
      have hu : a.x = u := congrArg Prod.fst hp
      have hv : a.y = v := congrArg Prod.snd hp
      show (b.x, b.y) = (a.x, a.y)
      rw [hi] at hx ⊢
      rw [hj] at hy ⊢
      rw [whole_near hu hx, whole_near hv hy]
    · exact ih _

/-- A format that shows STITCH and COLOR_CHANGE as themselves and nothing else as one of them keeps the shades. -/
theorem shaded_view {g : Int → Option Int} (l : List Stitch)
    (h : ∀ a ∈ l, match g a.cmd with
      | none => a.low ≠ 0 ∧ a.low ≠ 5
      | some c => (c % 256 = 5 ↔ a.low = 5) ∧ (c % 256 = 0 ↔ a.low = 0)) :
    ∀ n, shadedFrom n (view g l) = shadedFrom n l := by
  induction l with
  | nil => intro n; rfl
  | cons a l ih =>
    intro n
    have h1 := h a (by simp)
    have ih := ih (fun b hb => h b (by simp [hb]))
    unfold view at ih ⊢
    rw [List.filterMap_cons]
    cases hg : g a.cmd with
    | none =>
      rw [hg] at h1
      rw [Option.map_none, shadedFrom, if_neg h1.2, if_neg h1.1]
      exact ih n
    | some c =>
      rw [hg] at h1
      rw [Option.map_some, shadedFrom, shadedFrom]
      have e5 : (⟨a.x, a.y, c⟩ : Stitch).low = 5 ↔ a.low = 5 := h1.1
      have e0 : (⟨a.x, a.y, c⟩ : Stitch).low = 0 ↔ a.low = 0 := h1.2
      simp only [e5, e0, ih]

/-- Commands of an encoded pattern, as written. -/
theorem written_low {l : List Stitch} {P : Int → Prop} (h : ∀ a ∈ l, P a.low) :
    ∀ a ∈ place 0 0 (deltas 0 0 l), P a.low ∧ a.cmd = a.low := by
  have h1 := C18_no_drift l
  intro b hb
  obtain ⟨a, ha, e⟩ : ∃ a ∈ l, b.cmd = a.cmd % 256 := by
    clear h
    generalize place 0 0 (deltas 0 0 l) = m at h1 hb
    induction h1 with
    | nil => simp at hb
    | cons h1 _ ih =>
      rcases List.mem_cons.1 hb with rfl | hb
      · exact ⟨_, by simp, h1.2.2⟩
      · obtain ⟨a, ha, e⟩ := ih hb
        exact ⟨a, by simp [ha], e⟩
  have e2 : b.low = a.low := by show b.cmd % 256 = a.cmd % 256; rw [e]; omega
  refine ⟨by rw [e2]; exact h a ha, ?_⟩
  rw [e2, e]; rfl

/-- `sewnIn` with rounding lists points on the grid only. -/
theorem sewnIn_whole (f : Pt → Pt) (l : List Stitch) : ∀ k, ∀ p ∈ sewnIn true f k l, ∃ i j : Int, p.2 = ((i : ℚ), (j : ℚ)) := by
  induction l with
  | nil => intro k p hp; simp [sewnIn] at hp
  | cons st l ih =>
    intro k p hp
    rw [sewnIn] at hp
    simp only [if_true] at hp
    split_ifs at hp
    · simp at hp
    · rcases List.mem_append.1 hp with hp | hp
      · rw [List.mem_singleton] at hp
        subst hp
        exact ⟨_, _, rfl⟩
      · exact ih _ p hp
    · rcases List.mem_append.1 hp with hp | hp
      · simp at hp
      · exact ih _ p hp

theorem exact_of_whole {l m : List (Nat × Pt)} (h : List.Forall₂ OnGrid l m) (hl : ∀ p ∈ l, ∃ i j : Int, p.2 = ((i : ℚ), (j : ℚ))) :
    m = l := by
  induction h with
  | nil => rfl
  | @cons a b l m h1 _ ih =>
    rw [ih (fun p hp => hl p (by simp [hp]))]
    have := h1.2.2.2 (hl a (by simp))
    rw [show b = a from Prod.ext h1.1 this]

end SaveLoad

variable {o : Settings} {lm : Libm} {threads : List Thread} {source out : List Stitch} {ths : List (Option Thread)}

/-- **C94** (common part): whatever is sewn by the normalized pattern with its positions written as displacements and added up again. -/
theorem C94_written (hv : o.ValidSequins) (hc : o.changeCommand = 5) (h : encode o lm threads source = .ok (out, ths)) :
    List.Forall₂ OnGrid (walkShaded lm o.round 0 (o.head lm) source.getLast? source)
      (shadedFrom 0 (place 0 0 (deltas 0 0 out))) := by
  rw [← (C91_shades hv hc h).1]
  exact SaveLoad.shaded_alike (SaveLoad.alike_deltas out) 0

/-- **C94**: without ties and cuts, what is sewn on the grid along the walk is exactly the sewing commands of the source, placed and rounded,
each in its colour. This applies to the result of every format below. -/
theorem C94_exact {A E : List Stitch} {back : List (Nat × Pt)} (ho : o.NoTies) (hA : ∀ st ∈ A, Plain o.maxStitch st)
    (hE : ∀ e ∈ E.head?, e.low = 4)
    (h : List.Forall₂ OnGrid (walkShaded lm true 0 (o.head lm) (A ++ E).getLast? (A ++ E)) back) :
    back = sewnIn true (o.place lm) 0 (A ++ E) := by
  rw [Shade.walk_sewnIn A 0 (o.head lm) _ E (ho.simple lm) hA hE] at h
  exact SaveLoad.exact_of_whole h (SaveLoad.sewnIn_whole _ _ _)

/-- No STOP in the source, none in the normalized pattern. -/
theorem SaveLoad.no_stop (hv : o.ValidSequins) (hc : o.changeCommand = 5) (hs : ∀ st ∈ source, st.low ≠ 3 ∧ st.low ≠ 0xE9)
    (h : encode o lm threads source = .ok (out, ths)) : ∀ a ∈ out, a.low ≠ 3 := by
  intro a ha e
  rcases C21_stops hv h a ha e with h | ⟨st, h1, h2⟩
  · omega
  · have := hs st h1; omega

/-- **C94**: EXP. For every source without stops that does not change the limits or switch sequins on, a design saved with EXP settings and
loaded again is sewn in the source's colours, at the points of the walk of C24 put on the grid. -/
theorem C94_exp (hlm : lm.Sound) (hv : o.ValidSequins) (hr : o.round = true)
    (h1 : o.maxStitch = some 127) (h2 : o.maxJump = some 127) (h3 : o.longStitch = 0xF1 ∨ o.longStitch = 0xF2)
    (hc : o.changeCommand = 5) (hs : o.sequin ≠ 0xF5)
    (hq : ∀ st ∈ source, st.low ≠ 0xD5 ∧ st.low ≠ 0xD6 ∧ st.low ≠ 0xF0 ∧ st.low ≠ 0xF5) (hp : ∀ st ∈ source, st.low ≠ 3 ∧ st.low ≠ 0xE9)
    (h : encode o lm threads source = .ok (out, ths)) :
    List.Forall₂ OnGrid (walkShaded lm true 0 (o.head lm) source.getLast? source) (shadedFrom 0 (Exp.read (Exp.write out))) := by
  rw [Exp.C08_roundtrip hlm hv hr h1 h2 h3 (by rw [hc]; decide) hs hq h, SaveLoad.shaded_view]
  · have := C94_written hv hc h
    rwa [hr] at this
  · intro a ha
    obtain ⟨h4, h5⟩ := SaveLoad.written_low (P := fun c => c ≠ 3) (SaveLoad.no_stop hv hc hp h) a ha
    rw [h5]
    unfold Exp.shows
    have : 0 ≤ a.low ∧ a.low < 256 := by unfold Stitch.low; omega
    split_ifs with h6
    · exact ⟨by omega, by omega⟩
    · exact ⟨by omega, by omega⟩

namespace SaveLoad

theorem shaded_change {a : Stitch} (h : a.low = 5) (l : List Stitch) (n : Nat) : shadedFrom n (a :: l) = shadedFrom (n + 1) l := by
  rw [shadedFrom, if_pos h]

theorem shaded_other {a : Stitch} (h5 : a.low ≠ 5) (h0 : a.low ≠ 0) (l : List Stitch) (n : Nat) : shadedFrom n (a :: l) = shadedFrom n l := by
  rw [shadedFrom, if_neg h5, if_neg h0]

theorem shaded_strike {a : Stitch} (h : a.low = 0) (l : List Stitch) (n : Nat) :
    shadedFrom n (a :: l) = (n, (a.x, a.y)) :: shadedFrom n l := by
  rw [shadedFrom, if_neg (by omega), if_pos h]

theorem shaded_change' (x y : ℚ) (l : List Stitch) (n : Nat) : shadedFrom n (⟨x, y, 5⟩ :: l) = shadedFrom (n + 1) l :=
  shaded_change rfl l n

theorem shaded_other' (x y : ℚ) (c : Int) (h5 : c % 256 ≠ 5) (h0 : c % 256 ≠ 0) (l : List Stitch) (n : Nat) :
    shadedFrom n (⟨x, y, c⟩ :: l) = shadedFrom n l := shaded_other (a := ⟨x, y, c⟩) h5 h0 l n

theorem shaded_strike' (x y : ℚ) (l : List Stitch) (n : Nat) : shadedFrom n (⟨x, y, 0⟩ :: l) = (n, (x, y)) :: shadedFrom n l :=
  shaded_strike rfl l n

/-- The shades can be read off what DST keeps. -/
theorem shaded_sewn (l : List Stitch) (h : ∀ a ∈ l, a.low ≠ 3) : ∀ n, shadedFrom n (Dst.sewn l) = shadedFrom n l := by
  induction l with
  | nil => intro n; rfl
  | cons a l ih =>
    intro n
    have h3 := h a (by simp)
    have ih := ih (fun b hb => h b (by simp [hb]))
    have cons : Dst.sewn (a :: l) = (if a.low = 0 ∨ a.low = 7 then [⟨a.x, a.y, a.low⟩] else if a.low = 5 ∨ a.low = 3 then [⟨a.x, a.y, 5⟩]
        else []) ++ Dst.sewn l := by
      unfold Dst.sewn
      rw [List.filterMap_cons]
      split_ifs <;> rfl
    rw [cons]
    by_cases h0 : a.low = 0
    · rw [if_pos (.inl h0), h0, List.singleton_append, shaded_strike', shaded_strike h0, ih]
    by_cases h7 : a.low = 7
    · rw [if_pos (.inr h7), h7, List.singleton_append, shaded_other' _ _ _ (by decide) (by decide), shaded_other (by omega) h0, ih]
    by_cases h5 : a.low = 5
    · rw [if_neg (by omega), if_pos (.inl h5), List.singleton_append, shaded_change', shaded_change h5, ih]
    · rw [if_neg (by omega), if_neg (by omega), List.nil_append, shaded_other h5 h0, ih]

theorem shaded_filter (l : List Stitch) : ∀ n, shadedFrom n (l.filter (fun a => a.low = 0 ∨ a.low = 5 ∨ a.low = 7 ∨ a.low = 9)) = shadedFrom n l := by
  induction l with
  | nil => intro n; rfl
  | cons a l ih =>
    intro n
    by_cases h : a.low = 0 ∨ a.low = 5 ∨ a.low = 7 ∨ a.low = 9
    · rw [List.filter_cons_of_pos (by simpa using h), shadedFrom, shadedFrom, ih, ih]
    · rw [List.filter_cons_of_neg (by simpa using h), shadedFrom, if_neg (by omega), if_neg (by omega), ih]

theorem shaded_trims (j : Option Int) (d : Option ℚ) (c : Bool) (l : List Stitch) (n : Nat) :
    shadedFrom n (interpolateTrims j d c l) = shadedFrom n l := by
  rw [← shaded_filter, C50_sewing_kept_partial, shaded_filter]

/-- Nothing else changes the shades, however many commands are left out or added, if the colour changes are the same. -/
theorem shaded_sublist {l m : List Stitch} (h : l.Sublist m) (hc : changes l = changes m) :
    ∀ n, (shadedFrom n l).Sublist (shadedFrom n m) := by
  have cons : ∀ (a : Stitch) (l : List Stitch), changes (a :: l) = changes l + if a.low = 5 then 1 else 0 := by
    intro a l; unfold changes; simp [List.countP_cons]
  induction h with
  | slnil => intro n; exact .slnil
  | @cons l m a h ih =>
    intro n
    have hle : changes l ≤ changes m := by unfold changes; exact h.countP_le
    rw [cons] at hc
    have h5 : a.low ≠ 5 := fun h5 => by rw [if_pos h5] at hc; omega
    rw [if_neg h5] at hc
    rw [shadedFrom.eq_def n (a :: m)]
    simp only [if_neg h5]
    split_ifs
    · exact .cons _ (ih hc n)
    · exact ih hc n
  | @cons_cons l m a h ih =>
    intro n
    rw [cons, cons] at hc
    have hc : changes l = changes m := by omega
    rw [shadedFrom, shadedFrom]
    split_ifs
    · exact ih hc _
    · exact .cons_cons _ (ih hc n)
    · exact ih hc n

theorem shaded_seen (k : Nat) (l : List Stitch) (h : ∀ a ∈ l, a.low ≠ 3 ∧ a.cmd = a.low) : ∀ t n, shadedFrom n (Jef.seen k t l) = shadedFrom n l := by
  have zeros : ∀ (m : Nat) (x y : ℚ) (l : List Stitch) (n : Nat), shadedFrom n (List.replicate m ⟨x, y, 1⟩ ++ l) = shadedFrom n l := by
    intro m x y l n
    induction m with
    | zero => rfl
    | succ m ih =>
      rw [List.replicate_succ, List.cons_append, shaded_other' _ _ _ (by decide) (by decide), ih]
  induction l with
  | nil => intro t n; rfl
  | cons a l ih =>
    intro t n
    obtain ⟨h3, hl⟩ := h a (by simp)
    have ih := ih (fun b hb => h b (by simp [hb]))
    rw [Jef.seen]
    by_cases c0 : a.cmd = 0 ∨ a.cmd = 1 ∨ a.cmd = 4
    · rw [if_pos c0, shadedFrom, shadedFrom, ih, ih]
    rw [if_neg c0]
    by_cases c2 : a.cmd = 2
    · rw [if_pos c2, zeros, ih, shadedFrom, if_neg (by omega), if_neg (by omega)]
    rw [if_neg c2]
    by_cases c5 : a.cmd = 5
    · rw [if_pos c5, shadedFrom, shadedFrom, ih, if_pos (show (⟨a.x, a.y, 5⟩ : Stitch).low = 5 by rfl), if_pos (by omega)]
    rw [if_neg c5, if_neg (by omega), ih, shadedFrom, if_neg (by omega), if_neg (by omega)]

theorem shaded_sewnFile (l : List Stitch) : ∀ q n, shadedFrom n (Vp3.sewnFile q l) = shadedFrom n l := by
  induction l with
  | nil => intro q n; rfl
  | cons a l ih =>
    intro q n
    rw [Vp3.sewnFile]
    by_cases h0 : a.low = 0
    · rw [if_pos h0, shaded_strike h0, shaded_strike', ih]
    rw [if_neg h0]
    by_cases h2 : a.low = 2 ∨ a.low = 4
    · rw [if_pos h2, shaded_other (a := a) (by omega) h0, shaded_other' _ _ _ (by decide) (by decide), ih]
    rw [if_neg h2]
    by_cases h5 : a.low = 5
    · rw [if_pos h5, shaded_change h5, shaded_change', shaded_other' _ _ _ (by decide) (by decide), ih]
    · rw [if_neg h5, shaded_other h5 h0, ih]

/-- A PEC file shows every strike of a design in its colour. -/
theorem shaded_kept (l : List Stitch) (h : ∀ a ∈ l, a.cmd = a.low) (h4 : ∀ a ∈ l.dropLast, a.low ≠ 4) :
    ∀ px py mv fs n, (shadedFrom n l).Sublist (shadedFrom n (Pec.kept px py mv fs l)) := by
  induction l with
  | nil => intro px py mv fs n; exact .slnil
  | cons a l ih =>
    intro px py mv fs n
    have hl := h a (by simp)
    have ih := ih (fun b hb => h b (by simp [hb])) (fun b hb => h4 b (by
      cases l with
      | nil => simp at hb
      | cons c l => rw [List.dropLast_cons_cons]; exact List.mem_cons_of_mem _ hb))
    have extra : ∀ (p : Prop) [Decidable p] (m : List Stitch), (shadedFrom n m).Sublist
        (shadedFrom n ((if p then [⟨px, py, 0⟩] else []) ++ m)) := by
      intro p _ m
      split_ifs
      · rw [List.singleton_append, shaded_strike']; exact .cons _ (.refl _)
      · exact .refl _
    rw [Pec.kept]
    by_cases c0 : a.cmd = 0
    · rw [if_pos c0]
      refine .trans ?_ (extra _ _)
      rw [shaded_strike (by omega), shaded_strike (by omega)]
      exact .cons_cons _ (ih _ _ _ _ n)
    rw [if_neg c0]
    by_cases c1 : a.cmd = 1
    · rw [if_pos c1, shaded_other (a := a) (by omega) (by omega)]
      refine .trans (ih a.x a.y true false n) ?_
      split_ifs
      · rw [List.nil_append, shaded_other (by omega) (by omega)]
      · rw [List.singleton_append, shaded_other' _ _ _ (by decide) (by decide), shaded_other (by omega) (by omega)]
    rw [if_neg c1]
    by_cases c5 : a.cmd = 5 ∨ a.cmd = 3
    · rw [if_pos c5]
      refine .trans ?_ (extra _ _)
      by_cases d5 : a.low = 5
      · rw [shaded_change d5, shaded_change d5]; exact ih _ _ _ _ _
      · rw [shaded_other d5 (by omega), shaded_other d5 (by omega)]; exact ih _ _ _ _ _
    rw [if_neg c5]
    by_cases c4 : a.cmd = 4
    · rw [if_pos c4]
      cases l with
      | nil => exact .refl _
      | cons b l => exact absurd (by omega) (h4 a (by simp))
    · rw [if_neg c4, shaded_other (by omega) (by omega)]
      exact ih _ _ _ _ _

theorem dropLast_alike {R : Stitch → Stitch → Prop} {l m : List Stitch} (h : List.Forall₂ R l m) : List.Forall₂ R l.dropLast m.dropLast := by
  induction h with
  | nil => exact .nil
  | @cons a b l m h1 h2 ih =>
    cases h2 with
    | nil => exact .nil
    | cons h3 h4 => rw [List.dropLast_cons_cons, List.dropLast_cons_cons]; exact .cons h1 ih

theorem shaded_words (l : List Stitch) : ∀ (xx yy : Int) (x y : ℚ) (n : Nat),
    shadedFrom n (place x y (wdeltas xx yy l)) = shadedFrom n (place x y (deltas xx yy l)) := by
  induction l with
  | nil => intro xx yy x y n; rfl
  | cons a l ih =>
    intro xx yy x y n
    simp only [wdeltas, deltas, place]
    have e : ∀ x y : ℚ, (⟨x, y, cmdOf a.cmd⟩ : Stitch).low = (⟨x, y, a.cmd⟩ : Stitch).low := by
      intro x y
      show a.cmd % 256 % 256 = a.cmd % 256
      omega
    rw [shadedFrom, shadedFrom, e, ih, ih]

end SaveLoad

/-- **C94**: DST, whatever the header and the reader's settings. -/
theorem C94_dst (hlm : lm.Sound) (hv : o.ValidSequins) (hr : o.round = true)
    (h1 : o.maxStitch = some 121) (h2 : o.maxJump = some 121) (h3 : o.longStitch = 0xF1 ∨ o.longStitch = 0xF2) (hc : o.changeCommand = 5)
    (hq : ∀ st ∈ source, st.low ≠ 0xD5 ∧ st.low ≠ 0xD6 ∧ st.low ≠ 0xF0 ∧ st.low ≠ 11 ∧ st.low ≠ 12)
    (hp : ∀ st ∈ source, st.low ≠ 3 ∧ st.low ≠ 0xE9) (h : encode o lm threads source = .ok (out, ths)) (t : Int) :
    ∃ b, Dst.writeBody t out = .ok b ∧ ∀ header : Bytes, header.length = 512 → ∀ ta dist clipping,
      List.Forall₂ OnGrid (walkShaded lm true 0 (o.head lm) source.getLast? source) (shadedFrom 0 (Dst.read ta dist clipping (header ++ b))) := by
  obtain ⟨b, hw, hrd⟩ := Dst.C06_roundtrip_partial hlm hv hr h1 h2 h3 (by rw [hc]; decide) hq h t
  refine ⟨b, hw, fun header hh ta dist clipping => ?_⟩
  have hrd := hrd header hh ta dist clipping
  obtain ⟨⟨m, ⟨m0, e, rfl, he, hk, -⟩, -, em⟩, -⟩ := Readers.C60_dst ta dist clipping (header ++ b)
  have hm3 : ∀ a ∈ m0 ++ [e], a.low ≠ 3 := by
    intro a ha
    rcases List.mem_append.1 ha with ha | ha
    · have := hk a ha
      intro e3
      rw [e3] at this
      exact absurd this (by decide)
    · rw [List.mem_singleton] at ha
      subst ha
      show a.cmd % 256 ≠ 3
      rw [he]; decide
  rw [em] at hrd ⊢
  rw [Dst.sewn_edited (interpolateTrims_edited _ _ _ _) hm3] at hrd
  rw [SaveLoad.shaded_trims, ← SaveLoad.shaded_sewn _ hm3, hrd, SaveLoad.shaded_sewn]
  · have := C94_written hv hc h
    rwa [hr] at this
  · exact fun a ha => (SaveLoad.written_low (P := fun c => c ≠ 3) (SaveLoad.no_stop hv hc hp h) a ha).1

/-- **C94**: JEF, whatever the reader's settings; the encoded design does not start with a colour change. -/
theorem C94_jef_partial (hlm : lm.Sound) (hv : o.ValidSequins) (hr : o.round = true)
    (h1 : o.maxStitch = some 127) (h2 : o.maxJump = some 127) (h3 : o.longStitch = 0xF1 ∨ o.longStitch = 0xF2)
    (hc : o.changeCommand = 5) (hs : o.sequin ≠ 0xF5)
    (hq : ∀ st ∈ source, st.low ≠ 0xD5 ∧ st.low ≠ 0xD6 ∧ st.low ≠ 0xF0 ∧ st.low ≠ 0xF5) (hp : ∀ st ∈ source, st.low ≠ 3 ∧ st.low ≠ 0xE9)
    (h : encode o lm threads source = .ok (out, ths)) {trimAt : Option Nat} {date : Bytes} {hoop : Int × Int} {ts : List Thread} {f : Bytes}
    (hd : date.length = 14) (hw : Jef.write trimAt date hoop.1 hoop.2 ts out = .ok f)
    (hfirst : ∀ a, out.head? = some a → a.low ≠ 5) (hsize : out.length < 2 ^ 28) (ta : Option Int) (dist : Option ℚ) (clipping : Bool) :
    ∃ l T, Jef.read ta dist clipping f = .ok (l, T) ∧
      List.Forall₂ OnGrid (walkShaded lm true 0 (o.head lm) source.getLast? source) (shadedFrom 0 l) := by
  obtain ⟨T, hrd, -, -⟩ := Jef.C09_roundtrip_partial hlm hv hr h1 h2 h3 (by rw [hc]; decide) hs hq h hd hw hfirst hsize
  refine ⟨_, T, by unfold Jef.read; rw [hrd]; rfl, ?_⟩
  rw [SaveLoad.shaded_trims, SaveLoad.shaded_seen]
  · have := C94_written hv hc h
    rwa [hr] at this
  · exact SaveLoad.written_low (P := fun c => c ≠ 3) (SaveLoad.no_stop hv hc hp h)

/-- **C94**: XXX, if no encoded stitch is 124 units long along an axis (C15). -/
theorem C94_xxx_partial (hlm : lm.Sound) (hv : o.ValidSequins) (hr : o.round = true)
    (h1 : o.maxStitch = some 124) (h2 : o.maxJump = some 124) (h3 : o.longStitch = 0xF1 ∨ o.longStitch = 0xF2)
    (hc : o.changeCommand = 5) (hs : o.sequin ≠ 0xF5)
    (hq : ∀ st ∈ source, st.low ≠ 0xD5 ∧ st.low ≠ 0xD6 ∧ st.low ≠ 0xF0 ∧ st.low ≠ 0xF5) (hp : ∀ st ∈ source, st.low ≠ 3 ∧ st.low ≠ 0xE9)
    (h : encode o lm threads source = .ok (out, ths)) {ts : List Thread} (ht : ts.length < 65536)
    (hlim : ∀ r ∈ deltas 0 0 out, r.cmd = 0 → |r.dx| < 124 ∧ |r.dy| < 124) :
    ∃ f colours l, Xxx.write ts out = .ok f ∧ Xxx.read f = .ok (colours, l) ∧ colours = ts.map (fun t => t.color % 16777216) ∧
      List.Forall₂ OnGrid (walkShaded lm true 0 (o.head lm) source.getLast? source) (shadedFrom 0 l) := by
  obtain ⟨f, hw, hrd⟩ := Xxx.C15_roundtrip_partial hlm hv hr h1 h2 h3 (by rw [hc]; decide) hs hq h ht (by
    intro r hr h0
    refine hlim ⟨r.dx, r.dy, cmdOf r.cmd⟩ ?_ h0
    rw [deltas_eq]
    exact List.mem_map.2 ⟨r, hr, rfl⟩)
  refine ⟨f, _, _, hw, hrd, rfl, ?_⟩
  rw [SaveLoad.shaded_view, SaveLoad.shaded_words]
  · have := C94_written hv hc h
    rwa [hr] at this
  · intro a ha
    have h3 : a.low ≠ 3 := by
      refine (Dst.place_cmd (P := fun c => c % 256 ≠ 3) _ ?_ 0 0 a ha)
      intro r hr
      obtain ⟨b, hb, e⟩ := U01.wdeltas_cmd_mem hr
      have := SaveLoad.no_stop hv hc hp h b hb
      show r.cmd % 256 ≠ 3
      rw [← e]; exact this
    have h3' : a.cmd % 256 ≠ 3 := h3
    unfold Xxx.shows
    rw [if_neg h3']
    split_ifs with h6
    · unfold Stitch.low; constructor <;> omega
    · unfold Stitch.low; simp only; omega

/-- **C94**: VP3, for normalized designs as in C16. -/
theorem C94_vp3_partial (hv : o.ValidSequins) (hc : o.changeCommand = 5) (h : encode o lm threads source = .ok (out, ths))
    (f : Bytes) (T : List Thread) (filler : Nat → Thread) (x : Box)
    (hf : f.length < 2 ^ 32) (ht : ∀ k, Vp3.PlainThread (Blocks.threadAt T filler k)) (hn : changes out < 65535)
    (hx : bounds out = some x) (hg : Vp3.Good out) (hr : Vp3.ReachAll 32767 (0, 0) out)
    (hcx : Vp3.Whole (Vp3.centre x)) (h5 : ∀ st ∈ out, st.low = 5 → st.x ≠ 0 ∧ st.y ≠ 0) (hw : Vp3.write T filler out = .ok f) :
    ∃ b, Vp3.read f = .ok b ∧ b.threads = Vp3.shownThreads T filler out ∧
      shadedFrom 0 b.stitches = walkShaded lm o.round 0 (o.head lm) source.getLast? source := by
  obtain ⟨b, h1, h2, h3⟩ := Vp3.C16_file_partial f T filler out x hf ht hn hx hg hr hcx h5 hw
  refine ⟨b, h1, h3, ?_⟩
  rw [h2, Vp3.withEnd, Shade.shadedFrom_append, SaveLoad.shaded_sewnFile, (C91_shades hv hc h).1]
  have : ∀ n (p : Pt), shadedFrom n [⟨p.1, p.2, 4⟩] = [] := fun n p => rfl
  rw [this, List.append_nil]

/-- A normalized pattern has its only END last, and so when written. -/
theorem SaveLoad.written_end (hv : o.ValidSequins) (h : encode o lm threads source = .ok (out, ths)) :
    ∀ a ∈ (place 0 0 (deltas 0 0 out)).dropLast, a.low ≠ 4 := by
  obtain ⟨l, e, rfl, -, h4⟩ := C20_single_end hv h
  have := SaveLoad.dropLast_alike (SaveLoad.alike_deltas (l ++ [e]))
  rw [List.dropLast_concat] at this
  intro b hb
  generalize (place 0 0 (deltas 0 0 (l ++ [e]))).dropLast = m at this hb
  clear h
  induction this with
  | nil => simp at hb
  | @cons a c l m h1 _ ih =>
    rcases List.mem_cons.1 hb with rfl | hb
    · rw [h1.1]; exact h4 a (by simp)
    · exact ih (fun b hb => h4 b (by simp [hb])) hb

/-- **C94**: PEC and PES show every strike of the design in its colour, with the stops in place; other strikes (on the spot, see
`Pec.C12_extra_strike`) may be shown as well. -/
theorem C94_kept (hv : o.ValidSequins) (hr : o.round = true) (hc : o.changeCommand = 5) (h : encode o lm threads source = .ok (out, ths)) :
    ∃ back, List.Forall₂ OnGrid (walkShaded lm true 0 (o.head lm) source.getLast? source) back ∧
      back.Sublist (shadedFrom 0 (Pec.kept 0 0 true true (place 0 0 (deltas 0 0 out)))) := by
  have := C94_written hv hc h
  rw [hr] at this
  exact ⟨_, this, SaveLoad.shaded_kept _ (fun a ha => (SaveLoad.written_low (P := fun _ => True) (fun _ _ => trivial) a ha).2)
    (SaveLoad.written_end hv h) _ _ _ _ _⟩

/-- **C94**: PEC files, under the conditions of C78. -/
theorem C94_pec_partial (hlm : lm.Sound) (hv : o.ValidSequins) (hr : o.round = true)
    (h1 : o.maxStitch = some 2047) (h2 : o.maxJump = some 2047) (h3 : o.longStitch = 0xF1 ∨ o.longStitch = 0xF2)
    (hs : o.sequin ≠ 0xF5) (hc : o.changeCommand = 5)
    (hq : ∀ st ∈ source, st.low ≠ 0xD5 ∧ st.low ≠ 0xD6 ∧ st.low ≠ 0xF0 ∧ st.low ≠ 0xF5)
    (h : encode o lm threads source = .ok (out, ths)) (order : List Thread → List Thread) (filler filler' : Nat → Thread)
    (name : Option Str) (T : List Thread)
    (hT : out.countP Blocks.isChange < (Blocks.fixColorCount T filler out).length)
    (hlen : (Blocks.fixColorCount T filler out).length + out.countP (fun a => a.low == 3) ≤ 255)
    (ho : IsSetOrder (order (Pec.prepare filler T out).2) (Pec.prepare filler T out).2) (hsz : (order (Pec.prepare filler T out).2).length ≤ 64)
    (hname : ∀ c ∈ (name.getD "Untitled".toList).take 8, c.utf8Size = 1)
    (hsec : 16 + (Pec.encodeSection (Pec.stopsAsChanges out)).length < 2 ^ 24)
    (hsew : Ops.Sewn true (place 0 0 (deltas 0 0 out)))
    (hne : (Blocks.fixColorCount T filler out).IsChain (fun a b => a.rgb ≠ b.rgb)) :
    ∃ (f : Bytes) (d : Pec.Design) (back : List (Nat × Pt)), Pec.writeFile order filler filler' name T out = .ok f ∧ Pec.readFile f = .ok d ∧
      List.Forall₂ OnGrid (walkShaded lm true 0 (o.head lm) source.getLast? source) back ∧ back.Sublist (shadedFrom 0 d.stitches) := by
  obtain ⟨f, d, g, hw, hrd, -, hst, -⟩ := Pec.C78_roundtrip_partial hlm hv hr h1 h2 h3 hs (by rw [hc]; decide) hq h order filler filler' name T
    hT hlen ho hsz hname hsec hsew hne
  obtain ⟨back, hb1, hb2⟩ := C94_kept hv hr hc h
  exact ⟨f, d, back, hw, hrd, hb1, by rw [hst]; exact hb2⟩

/-- **C94**: PES files of version 6, under the conditions of C79; the threads come back in order with their texts. -/
theorem C94_pes_partial (hlm : lm.Sound) (hv : o.ValidSequins) (hr : o.round = true)
    (h1 : o.maxStitch = some 2047) (h2 : o.maxJump = some 2047) (h3 : o.longStitch = 0xF1 ∨ o.longStitch = 0xF2)
    (hs : o.sequin ≠ 0xF5) (hc : o.changeCommand = 5)
    (hq : ∀ st ∈ source, st.low ≠ 0xD5 ∧ st.low ≠ 0xD6 ∧ st.low ≠ 0xF0 ∧ st.low ≠ 0xF5)
    (h : encode o lm threads source = .ok (out, ths)) (f32 : ℚ → Bytes) (hf : ∀ q, (f32 q).length = 4)
    (order : List Thread → List Thread) (filler filler' fillerSeg : Nat → Thread) (texts : Pes.Texts) (truncated : Bool) (T : List Thread)
    (hT : out.countP Blocks.isChange < (Blocks.fixColorCount T filler out).length)
    (hlen : (Blocks.fixColorCount T filler out).length + out.countP (fun a => a.low == 3) ≤ 255)
    (ho : IsSetOrder (order (Pec.prepare filler T out).2) (Pec.prepare filler T out).2) (hsz : (order (Pec.prepare filler T out).2).length ≤ 64)
    (htexts : Pes.PlainTexts texts) (hthr : ∀ t ∈ (Pec.prepare filler T out).2, Pes.PlainThread t)
    (hsec : 16 + (Pec.encodeSection (Pec.stopsAsChanges out)).length < 2 ^ 24)
    (hsew : Ops.Sewn true (place 0 0 (deltas 0 0 out)))
    (hne : ((Blocks.fixColorCount T filler out).map Pes.kept).IsChain (fun a b => Thread.same a b = false)) :
    ∃ (f : Bytes) (d : Pec.Design) (back : List (Nat × Pt)),
      Pes.writeFile f32 order filler filler' fillerSeg texts 6 truncated T out = .ok f ∧
      (f.length < 2 ^ 32 → Pes.readFile f = .ok ⟨some 6, Pes.keptTexts texts, d⟩) ∧ d.threads = (Blocks.fixColorCount T filler out).map Pes.kept ∧
      List.Forall₂ OnGrid (walkShaded lm true 0 (o.head lm) source.getLast? source) back ∧ back.Sublist (shadedFrom 0 d.stitches) := by
  obtain ⟨f, d, hw, hrd, -, hst, hth⟩ := Pes.C79_roundtrip_partial hlm hv hr h1 h2 h3 hs (by rw [hc]; decide) hq h f32 hf order filler filler'
    fillerSeg texts truncated T hT hlen ho hsz htexts hthr hsec hsew hne
  obtain ⟨back, hb1, hb2⟩ := C94_kept hv hr hc h
  exact ⟨f, d, back, hw, hrd, hth, hb1, by rw [hst]; exact hb2⟩

/-! ## Examples -/

/-- Two colours, a fraction, a trim and moves longer than a record holds. -/
def saveDemo : List Stitch :=
  [⟨0, 0, 0⟩, ⟨27/5, 3, 0⟩, ⟨0, 0, 2⟩, ⟨-300, 7/2, 0⟩, ⟨0, 0, 0xE2⟩, ⟨-301, 4, 0⟩, ⟨-301, -4, 0⟩, ⟨0, 0, 4⟩]

/-- What is sewn, and in which colour. -/
def saveDemoSewn : List (Nat × Pt) := [(0, (0, 0)), (0, (5, 3)), (0, (-300, 4)), (1, (-301, 4)), (1, (-301, -4))]

example : ∀ st ∈ saveDemo, st.low ≠ 0xD5 ∧ st.low ≠ 0xD6 ∧ st.low ≠ 0xF0 ∧ st.low ≠ 0xF5 ∧ st.low ≠ 11 ∧ st.low ≠ 12 ∧ st.low ≠ 3 ∧
    st.low ≠ 0xE9 := by decide +kernel
example : sewnIn true id 0 saveDemo = saveDemoSewn := by decide +kernel

-- through EXP, DST, JEF and XXX
example : shadedFrom 0 (Exp.read (Exp.write (demoEncode Exp.settings saveDemo))) = saveDemoSewn := by decide +kernel
example : (Dst.writeBody 3 (demoEncode Dst.settings saveDemo)).toOption.map (fun b => shadedFrom 0 (Dst.readBody 3 none true b)) =
    some saveDemoSewn := by decide +kernel
example : (Jef.write (some 3) (List.replicate 14 0) 1 1 [{ color := 0xFF0000 }, { color := 0xFF0001 }] (demoEncode Jef.settings saveDemo) >>=
    Jef.read (some 3) none true).toOption.map (fun d => shadedFrom 0 d.1) = some saveDemoSewn := by decide +kernel
example : (Xxx.again [{ color := 0x102030 }] saveDemo).toOption.map (fun d => shadedFrom 0 d.2) = some saveDemoSewn := by decide +kernel

-- a place off the grid may move by half a unit, not more, and keeps its colour
example : OnGrid (1, (1/2, 3)) (1, (0, 3)) ∧ ¬ OnGrid (1, (1, 3)) (1, (3/2, 3)) ∧ ¬ OnGrid (1, (1, 3)) (0, (1, 3)) := by
  refine ⟨⟨rfl, by norm_num, by norm_num, ?_⟩, ?_, ?_⟩
  · rintro ⟨i, j, h⟩
    have h : (1 / 2 : ℚ) = i := congrArg Prod.fst h
    have h : (1 : ℚ) = ((2 * i : Int) : ℚ) := by push_cast; linarith
    have h : (1 : Int) = 2 * i := by exact_mod_cast h
    omega
  · rintro ⟨-, -, -, h⟩
    have := congrArg Prod.fst (h ⟨1, 3, by norm_num⟩)
    norm_num at this
  · rintro ⟨h, -⟩
    exact absurd h (by decide)

end Emb
