import Verif.Props.ConvertMoreProps
import Verif.Props.SizeProps
import Verif.Shv
import Verif.Hus
import Verif.Props.ShvProps
import Verif.Props.ContainerProps

/-!
# Property C108: further formats to convert from
-/

namespace Emb

namespace Convert

open Blocks

/-! ## SHV -/

theorem shv_kinds : ∀ (s : Shv.State) (b : Bytes) (q : List Rec), Shv.recs s b = .ok q → ∀ r ∈ q, r.cmd % 256 ∈ kinds
  | s, [] => by intro q h; rw [Shv.recs.eq_def] at h; injection h with h; subst h; simp
  | s, [_] => by intro q h; rw [Shv.recs.eq_def] at h; injection h with h; subst h; simp
  | s, b0 :: b1 :: rest => by
    intro q h
    have hc : ∀ r ∈ (Shv.change s).1, r.cmd % 256 ∈ kinds := by
      rw [Shv.change]; split
      · intro r hr; simp only [List.mem_singleton] at hr; subst hr; decide
      · simp
    rw [Shv.recs.eq_def] at h
    dsimp only at h
    split at h
    · obtain ⟨l, h1, rfl⟩ := map_ok h
      intro r hr
      rcases List.mem_append.1 hr with hr | hr
      · exact hc r hr
      · exact shv_kinds _ rest l h1 r hr
    split at h
    · obtain ⟨l, h1, rfl⟩ := map_ok h
      intro r hr
      rcases List.mem_append.1 hr with hr | hr
      · exact hc r hr
      · exact shv_kinds _ rest l h1 r hr
    split at h
    · revert h
      match rest with
      | x0 :: x1 :: y0 :: y1 :: rest =>
        intro h
        obtain ⟨l, h1, rfl⟩ := map_ok h
        intro r hr
        rcases List.mem_append.1 hr with hr | hr
        · exact hc r hr
        rcases List.mem_cons.1 hr with hr | hr
        · subst hr; show JUMP % 256 ∈ kinds; decide
        · exact shv_kinds _ rest l h1 r hr
      | [] => intro h; cases h
      | [_] => intro h; cases h
      | [_, _] => intro h; cases h
      | [_, _, _] => intro h; cases h
    · obtain ⟨l, h1, rfl⟩ := map_ok h
      intro r hr
      rcases List.mem_append.1 hr with hr | hr
      · exact hc r hr
      rcases List.mem_cons.1 hr with hr | hr
      · subst hr
        show (if s.jump = true then JUMP else STITCH) % 256 ∈ kinds
        split <;> decide
      · exact shv_kinds _ rest l h1 r hr
termination_by _ b => b.length

theorem tidy_shv {f : Bytes} {d : Shv.Found} (h : Shv.read f = .ok d) : Tidy d.stitches := by
  rw [Shv.read] at h
  split at h
  · cases h
  dsimp only at h
  split at h
  · split at h
    · cases h
    · obtain ⟨cs, -, h⟩ := bind_ok h
      split at h
      · cases h
      · obtain ⟨l, h1, rfl⟩ := map_ok h
        exact tidy_place _ (shv_kinds _ _ _ h1)
  · cases h

/-! ## HUS -/

theorem hus_kinds : ∀ (cs xs ys : List Nat), ∀ r ∈ Hus.events cs xs ys, r.cmd % 256 ∈ kinds
  | [], _, _ => by simp [Hus.events]
  | _ :: _, [], _ => by simp [Hus.events]
  | _ :: _, _ :: _, [] => by simp [Hus.events]
  | c :: cs, x :: xs, y :: ys => by
    have ih := hus_kinds cs xs ys
    rw [Hus.events]
    split
    · intro r hr
      rcases List.mem_cons.1 hr with hr | hr
      · subst hr; show STITCH % 256 ∈ kinds; decide
      · exact ih r hr
    split
    · intro r hr
      rcases List.mem_cons.1 hr with hr | hr
      · subst hr; show JUMP % 256 ∈ kinds; decide
      · exact ih r hr
    split
    · intro r hr
      rcases List.mem_cons.1 hr with hr | hr
      · subst hr; show COLOR_CHANGE % 256 ∈ kinds; decide
      · exact ih r hr
    split
    · intro r hr
      rcases List.mem_append.1 hr with hr | hr
      · split at hr
        · simp only [List.mem_singleton] at hr; subst hr; show JUMP % 256 ∈ kinds; decide
        · cases hr
      rcases List.mem_cons.1 hr with hr | hr
      · subst hr; decide
      · exact ih r hr
    · simp

theorem tidy_hus {f : Bytes} {d : Doc} (h : Hus.read f = .ok d) : Tidy d.stitches := by
  rw [Hus.read] at h
  obtain ⟨_, -, h⟩ := Size.bind_ok h
  obtain ⟨_, -, h⟩ := Size.bind_ok h
  obtain ⟨_, -, h⟩ := Size.bind_ok h
  obtain ⟨_, -, h⟩ := Size.bind_ok h
  obtain ⟨_, -, h⟩ := Size.bind_ok h
  obtain ⟨_, -, h⟩ := Size.bind_ok h
  obtain ⟨_, -, h⟩ := Size.bind_ok h
  obtain ⟨_, -, h⟩ := Size.bind_ok h
  obtain ⟨_, -, h⟩ := Size.bind_ok h
  obtain ⟨_, -, h⟩ := Size.bind_ok h
  obtain ⟨_, -, h⟩ := Size.bind_ok h
  obtain ⟨_, -, h⟩ := Size.bind_ok h
  obtain ⟨_, -, h⟩ := Size.bind_ok h
  cases h
  exact tidy_place _ (hus_kinds _ _ _)

/-! ## PHC -/

theorem tidy_phc {f : Bytes} (hf : ∀ v ∈ f, IsByte v) {d : Pec.Design} (h : Containers.readPhc f = .ok d) : d.stitches = [] ∨ Tidy d.stitches := by
  rw [Containers.readPhc] at h
  split at h
  · dsimp only at h
    split at h
    · injection h with h; rw [← h]; exact Or.inl rfl
    · split at h
      · split at h
        · cases h
        split at h
        · cases h
        split at h
        · cases h
        injection h with h
        rw [← h]
        exact Or.inr (tidy_stops (tidy_pec _ (Size.bytes_drop hf _)))
      · cases h
  · cases h

/-! ## VP3 -/

/-- The commands of a VP3 file. -/
def Sews (b : Build Vp3.RThread) : Prop := ∀ a ∈ b.stitches, a.low ∈ kinds

theorem sews_rel {b : Build Vp3.RThread} (h : Sews b) {c : Int} (hc : c % 256 ∈ kinds) (x y : ℚ) : Sews (b.abs c x y) ∧ Sews (b.rel c x y) := by
  constructor <;> intro a ha
  all_goals
    rcases List.mem_append.1 ha with ha | ha
    · exact h a ha
    · simp only [List.mem_singleton] at ha; subst ha; exact hc

theorem vp3_sews : ∀ (b : Build Vp3.RThread) (l : List Int) (r : Build Vp3.RThread), Vp3.readStitches b l = .ok r → Sews b → Sews r
  | b, [] => by intro r h hb; rw [Vp3.readStitches.eq_def] at h; injection h with h; subst h; exact hb
  | b, [_] => by intro r h hb; rw [Vp3.readStitches.eq_def] at h; injection h with h; subst h; exact hb
  | b, x :: y :: rest => by
    intro r h hb
    have s0 : STITCH % 256 ∈ kinds := by decide
    rw [Vp3.readStitches.eq_def] at h
    dsimp only at h
    split at h
    · exact vp3_sews _ rest r h (sews_rel hb s0 _ _).2
    split at h
    · revert h
      match rest with
      | a0 :: a1 :: b0 :: b1 :: _ :: _ :: rest => intro h; exact vp3_sews _ rest r h (sews_rel hb s0 _ _).2
      | [a0, a1, b0, b1] => intro h; injection h with h; subst h; exact (sews_rel hb s0 _ _).2
      | [a0, a1, b0, b1, _] => intro h; injection h with h; subst h; exact (sews_rel hb s0 _ _).2
      | [] => intro h; cases h
      | [_] => intro h; cases h
      | [_, _] => intro h; cases h
      | [_, _, _] => intro h; cases h
    split at h
    · exact vp3_sews _ rest r h (sews_rel hb (by decide) _ _).2
    · exact vp3_sews _ rest r h hb
termination_by _ l => l.length

theorem vp3_block_sews {f : Bytes} {cx cy : ℚ} {b : Build Vp3.RThread} {p : Nat} {r : Build Vp3.RThread × Nat}
    (h : Vp3.readBlock f cx cy b p = .ok r) (hb : Sews b) : Sews r.1 := by
  rw [Vp3.readBlock] at h
  dsimp only at h
  split at h
  · cases h
  obtain ⟨sx, -, h⟩ := bind_ok h
  obtain ⟨sy, -, h⟩ := bind_ok h
  obtain ⟨t, -, h⟩ := bind_ok h
  obtain ⟨q, h1, h⟩ := bind_ok h
  injection h with h
  subst h
  refine vp3_sews _ _ _ h1 ?_
  show Sews _
  intro a ha
  dsimp only at ha
  split at ha
  · exact (sews_rel hb (c := JUMP) (by decide) _ _).1 a ha
  · exact hb a ha

theorem vp3_blocks_sews {f : Bytes} {cx cy : ℚ} (n : Nat) : ∀ {b : Build Vp3.RThread} {p : Nat} {r : Build Vp3.RThread},
    Vp3.readBlocks f cx cy n b p = .ok r → Sews b → Sews r := by
  induction n with
  | zero => intro b p r h hb; rw [Vp3.readBlocks] at h; injection h with h; subst h; exact hb
  | succ n ih =>
    intro b p r h hb
    rw [Vp3.readBlocks] at h
    obtain ⟨q, h1, h⟩ := bind_ok h
    have := vp3_block_sews h1 hb
    refine ih h ?_
    split
    · exact this
    · exact (sews_rel this (by decide) _ _).2

theorem shaped_vp3 {f : Bytes} {b : Build Vp3.RThread} (h : Vp3.read f = .ok b) : Shaped b.stitches := by
  rw [Vp3.read] at h
  obtain ⟨_, -, h⟩ := bind_ok h
  obtain ⟨_, -, h⟩ := bind_ok h
  obtain ⟨cx, -, h⟩ := bind_ok h
  obtain ⟨cy, -, h⟩ := bind_ok h
  obtain ⟨_, -, h⟩ := bind_ok h
  obtain ⟨_, -, h⟩ := bind_ok h
  split at h
  · cases h
  obtain ⟨q, h1, h⟩ := bind_ok h
  injection h with h
  subst h
  exact ⟨_, _, rfl, rfl, vp3_blocks_sews _ h1 (by intro a ha; cases ha)⟩

end Convert

/-- **C108**: what the readers of SHV, HUS and (unless the file ends among its colours, `C86_phc_cut`) PHC make of any bytes can be converted like
the files of the other formats, and so can VP3 files, whose positions need not be whole. -/
theorem C108_readable_more {f : Bytes} : (∀ d, Shv.read f = .ok d → Tidy d.stitches) ∧ (∀ d, Hus.read f = .ok d → Tidy d.stitches) ∧
    ((∀ v ∈ f, IsByte v) → ∀ d, Containers.readPhc f = .ok d → d.stitches = [] ∨ Tidy d.stitches) ∧
    ∀ b, Vp3.read f = .ok b → Shaped b.stitches :=
  ⟨fun _ => Convert.tidy_shv, fun _ => Convert.tidy_hus, fun hf _ => Convert.tidy_phc hf, fun _ => Convert.shaped_vp3⟩

/-- The sample files of SHV and PHC are read as such designs. -/
example : (Shv.read Shv.demo).map (fun d => d.stitches.length) = .ok 6 ∧
    (Containers.readPhc Containers.phcDemo).map (fun d => d.stitches) = .ok [⟨10, 20, 0⟩, ⟨15, 20, 0⟩, ⟨15, 20, 4⟩] := by decide +kernel

end Emb
