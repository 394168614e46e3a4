import Verif.Props.Vp3FractionProps
import Verif.Props.HoopProps
import Verif.Props.SaveLoadProps

/-!
# C94 for VP3, from the source of a design to what is sewn from its file

Unlike `C94_vp3_partial` this asks nothing about whole positions or a whole centre: the settings of VP3 do not round.
-/

namespace Emb

open SaveLoad Hoop

/-- Sewn in the same colour, less than three units (0.3 mm) apart along each axis. -/
def Beside (p q : Nat × Pt) : Prop := p.1 = q.1 ∧ |p.2.1 - q.2.1| < 3 ∧ |p.2.2 - q.2.2| < 3

theorem shaded_apart {l m : List Stitch} (h : List.Forall₂ Vp3.Apart l m) :
    ∀ n, List.Forall₂ Beside (shadedFrom n l) (shadedFrom n m) := by
  induction h with
  | nil => intro n; exact .nil
  | @cons a b l m h1 _ ih =>
    intro n
    obtain ⟨e, hx, hy⟩ := h1
    have el : b.low = a.low := by show b.cmd % 256 = a.cmd % 256; rw [e]
    rw [shadedFrom, shadedFrom, el]
    split_ifs
    · exact ih _
    · exact .cons ⟨rfl, hx, hy⟩ (ih _)
    · exact ih _

variable {o : Settings} {lm : Libm} {threads : List Thread} {source out : List Stitch} {ths : List (Option Thread)}

/-- **C94**: VP3, for designs with fractions and stitches of any length. A design without lock stitches, matrix commands and changes of the speed
whose points (placed as the settings say) are within 1.6 m of the origin can be saved as VP3; the file (below 4 GB, fewer than 65536 blocks)
has the threads in the order of the blocks, and from it everything the source says is sewn in its colour, less than 0.3 mm from its place,
and nothing else. No colour may be changed within 0.2 mm of an axis (`C16_axis_fails`). -/
theorem C94_vp3_near (hv : o.ValidSequins) (hc : o.changeCommand = 5) (ho : Unlocked o)
    (hs : ∀ st ∈ source, Unturned st ∧ st.low ∉ [11, 12, 0xD1, (0xD2 : Int)] ∧ (Names st → Frame (-16383) 16383 (-16383) 16383 (o.place lm (st.x, st.y))))
    (h : encode o lm threads source = .ok (out, ths)) (h5 : ∀ a ∈ out, a.low = 5 → 2 ≤ |a.x| ∧ 2 ≤ |a.y|)
    (T : List Thread) (filler : Nat → Thread) (ht : ∀ k, Vp3.PlainThread (Blocks.threadAt T filler k)) (hn : changes out < 65535) :
    ∃ f, Vp3.write T filler out = .ok f ∧ (f.length < 2 ^ 32 → ∃ b, Vp3.read f = .ok b ∧ b.threads = Vp3.shownThreads T filler out ∧
      List.Forall₂ Beside (walkShaded lm o.round 0 (o.head lm) source.getLast? source) (shadedFrom 0 b.stitches)) := by
  have hk : ∀ st ∈ source, (st.low ≠ 11 ∧ st.low ≠ 12) ∧ st.low ≠ 0xD1 ∧ st.low ≠ 0xD2 := fun st hst => by
    have := (hs st hst).2.1
    simp only [List.mem_cons, List.not_mem_nil, or_false, not_or] at this
    tauto
  have hin : ∀ a ∈ out, |a.x| ≤ 16383 ∧ |a.y| ≤ 16383 := fun a ha => by
    obtain ⟨⟨h1, h2⟩, h3, h4⟩ := C119_hoop (.inl ⟨ho, fun st hst => (hk st hst).2⟩) (by unfold Frame; norm_num)
      (fun st hst => ⟨(hs st hst).1, (hs st hst).2.2⟩) h a ha
    push_cast at h1 h2 h3 h4
    exact ⟨abs_le.2 ⟨h1, h2⟩, abs_le.2 ⟨h3, h4⟩⟩
  obtain ⟨f, hw, hr⟩ := Vp3.C16_encoded hv (.inr fun st hst => (hk st hst).1) hc h T filler ht hn hin h5
  refine ⟨f, hw, fun hf => ?_⟩
  obtain ⟨b, shows, h1, h2, h3, h4⟩ := hr hf
  refine ⟨b, h1, h4, ?_⟩
  rw [h2, Vp3.withEnd, Shade.shadedFrom_append]
  have : ∀ n (p : Pt), shadedFrom n [⟨p.1, p.2, 4⟩] = [] := fun n p => rfl
  rw [this, List.append_nil, ← (C91_shades hv hc h).1, ← shaded_sewnFile out (0, 0)]
  exact shaded_apart h3 0

/-- **C94**: and for a plain design (no ties, no stitch to be cut) what is sewn lies beside the points of the source, one for one and each in
its colour. -/
theorem C94_vp3_points {A E : List Stitch} (hv : o.ValidSequins) (hc : o.changeCommand = 5) (ho : Unlocked o) (hno : o.NoTies)
    (hA : ∀ st ∈ A, Plain o.maxStitch st) (hE : ∀ e ∈ E.head?, e.low = 4)
    (hs : ∀ st ∈ A ++ E, Unturned st ∧ st.low ∉ [11, 12, 0xD1, (0xD2 : Int)] ∧ (Names st → Frame (-16383) 16383 (-16383) 16383 (o.place lm (st.x, st.y))))
    (h : encode o lm threads (A ++ E) = .ok (out, ths)) (h5 : ∀ a ∈ out, a.low = 5 → 2 ≤ |a.x| ∧ 2 ≤ |a.y|)
    (T : List Thread) (filler : Nat → Thread) (ht : ∀ k, Vp3.PlainThread (Blocks.threadAt T filler k)) (hn : changes out < 65535) :
    ∃ f, Vp3.write T filler out = .ok f ∧ (f.length < 2 ^ 32 → ∃ b, Vp3.read f = .ok b ∧ b.threads = Vp3.shownThreads T filler out ∧
      List.Forall₂ Beside (sewnIn o.round (o.place lm) 0 (A ++ E)) (shadedFrom 0 b.stitches)) := by
  have := C94_vp3_near hv hc ho hs h h5 T filler ht hn
  rwa [Shade.walk_sewnIn A 0 (o.head lm) _ E (hno.simple lm) hA hE] at this

/-- The demonstration design of `Vp3FractionProps.lean` meets the conditions of the first theorem: a stitch that is too long, fractions, two colours. -/
example : Vp3.demoSettings.changeCommand = 5 ∧ Unlocked Vp3.demoSettings ∧
    (∀ st ∈ Vp3.demoFractions, Unturned st ∧ st.low ∉ [11, 12, 0xD1, (0xD2 : Int)] ∧
      (Names st → Frame (-16383) 16383 (-16383) 16383 (Vp3.demoSettings.place demoLm (st.x, st.y)))) ∧
    (∀ a ∈ demoEncode Vp3.demoSettings Vp3.demoFractions, a.low = 5 → 2 ≤ |a.x| ∧ 2 ≤ |a.y|) := by
  refine ⟨by decide, ⟨⟨by decide, by decide⟩, by decide, by decide⟩, ?_, by decide +kernel⟩
  unfold Unturned Names Frame
  decide +kernel

/-- What is sewn from its file, beside what is sewn by the normalized design. -/
example : (Vp3.again (demoEncode Vp3.demoSettings Vp3.demoFractions)).toOption.map (shadedFrom 0) =
      some [(0, 0, 2), (0, 500, 2), (1, -167, 40), (1, -101, 15)] ∧
    shadedFrom 0 (demoEncode Vp3.demoSettings Vp3.demoFractions) =
      [(0, 1 / 2, 7 / 3), (0, 500, 7 / 3), (1, -500 / 3, 40), (1, -100, 41 / 3)] := by
  decide +kernel

end Emb
