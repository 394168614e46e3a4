import Verif.Pattern
import Mathlib.Tactic.Linarith
import Mathlib.Data.List.Induction

/-!
# Properties C43 and C44: bounds and centring
-/

namespace Emb

/-- `b` is the smallest box that holds every stitch of `l`. -/
def Tight (l : List Stitch) (b : Box) : Prop :=
  (∀ a ∈ l, b.minX ≤ a.x ∧ a.x ≤ b.maxX ∧ b.minY ≤ a.y ∧ a.y ≤ b.maxY) ∧
  (∃ a ∈ l, a.x = b.minX) ∧ (∃ a ∈ l, a.x = b.maxX) ∧ (∃ a ∈ l, a.y = b.minY) ∧ (∃ a ∈ l, a.y = b.maxY)

theorem tight_step (l : List Stitch) (b : Box) (e : Stitch) (h : Tight l b) :
    ∃ b', boundsStep (some b) e = some b' ∧ Tight (l ++ [e]) b' := by
  obtain ⟨hin, ⟨a1, m1, e1⟩, ⟨a2, m2, e2⟩, ⟨a3, m3, e3⟩, ⟨a4, m4, e4⟩⟩ := h
  refine ⟨_, rfl, ?_, ?_, ?_, ?_, ?_⟩
  · intro a ha
    rcases List.mem_append.1 ha with ha | ha
    · obtain ⟨h1, h2, h3, h4⟩ := hin a ha
      simp only
      refine ⟨?_, ?_, ?_, ?_⟩ <;> split_ifs <;> linarith
    · rw [List.mem_singleton] at ha
      subst ha
      simp only
      refine ⟨?_, ?_, ?_, ?_⟩ <;> split_ifs <;> linarith
  · simp only
    split_ifs
    · exact ⟨e, by simp, rfl⟩
    · exact ⟨a1, by simp [m1], e1⟩
  · simp only
    split_ifs
    · exact ⟨e, by simp, rfl⟩
    · exact ⟨a2, by simp [m2], e2⟩
  · simp only
    split_ifs
    · exact ⟨e, by simp, rfl⟩
    · exact ⟨a3, by simp [m3], e3⟩
  · simp only
    split_ifs
    · exact ⟨e, by simp, rfl⟩
    · exact ⟨a4, by simp [m4], e4⟩

/-- C43: `bounds()` of a pattern with stitches is its tight bounding box. -/
theorem C43_tight (l : List Stitch) (h : l ≠ []) : ∃ b, bounds l = some b ∧ Tight l b := by
  induction l using List.reverseRecOn with
  | nil => exact absurd rfl h
  | append_singleton l e ih =>
    unfold bounds
    rw [List.foldl_append]
    rcases l with _ | ⟨a, l⟩
    · exact ⟨⟨e.x, e.y, e.x, e.y⟩, rfl, by simp [Tight]⟩
    · obtain ⟨b, hb, ht⟩ := ih (by simp)
      obtain ⟨b', hb', ht'⟩ := tight_step _ b e ht
      refine ⟨b', ?_, ht'⟩
      unfold bounds at hb
      rw [hb]
      exact hb'

/-- There is only one such box. -/
theorem tight_unique (l : List Stitch) (b c : Box) (hb : Tight l b) (hc : Tight l c) : b = c := by
  obtain ⟨hin, ⟨a1, m1, e1⟩, ⟨a2, m2, e2⟩, ⟨a3, m3, e3⟩, ⟨a4, m4, e4⟩⟩ := hb
  obtain ⟨cin, ⟨c1, n1, f1⟩, ⟨c2, n2, f2⟩, ⟨c3, n3, f3⟩, ⟨c4, n4, f4⟩⟩ := hc
  have i1 := hin c1 n1; have i2 := hin c2 n2; have i3 := hin c3 n3; have i4 := hin c4 n4
  have j1 := cin a1 m1; have j2 := cin a2 m2; have j3 := cin a3 m3; have j4 := cin a4 m4
  obtain ⟨p1, p2, p3, p4⟩ := b
  obtain ⟨q1, q2, q3, q4⟩ := c
  simp only at *
  rw [Box.mk.injEq]
  refine ⟨?_, ?_, ?_, ?_⟩ <;> apply le_antisymm <;> linarith

/-- C43: only a pattern without stitches has no bounds. -/
theorem C43_empty (l : List Stitch) : bounds l = none ↔ l = [] := by
  constructor
  · intro h
    by_contra c
    obtain ⟨b, hb, _⟩ := C43_tight l c
    rw [hb] at h; cases h
  · rintro rfl; rfl

theorem tight_translate (l : List Stitch) (b : Box) (dx dy : ℚ) (h : Tight l b) :
    Tight (translate dx dy l) ⟨b.minX + dx, b.minY + dy, b.maxX + dx, b.maxY + dy⟩ := by
  obtain ⟨hin, ⟨a1, m1, e1⟩, ⟨a2, m2, e2⟩, ⟨a3, m3, e3⟩, ⟨a4, m4, e4⟩⟩ := h
  have mem : ∀ a ∈ l, ({ a with x := a.x + dx, y := a.y + dy } : Stitch) ∈ translate dx dy l := fun a ha =>
    List.mem_map.2 ⟨a, ha, rfl⟩
  refine ⟨?_, ⟨_, mem a1 m1, by rw [e1]⟩, ⟨_, mem a2 m2, by rw [e2]⟩, ⟨_, mem a3 m3, by rw [e3]⟩, ⟨_, mem a4 m4, by rw [e4]⟩⟩
  intro a ha
  obtain ⟨c, hc, rfl⟩ := List.mem_map.1 ha
  have := hin c hc
  simp only
  refine ⟨?_, ?_, ?_, ?_⟩ <;> linarith

/-- C43: translating a pattern shifts its bounds. -/
theorem C43_translate (l : List Stitch) (dx dy : ℚ) (b : Box) (h : bounds l = some b) :
    bounds (translate dx dy l) = some ⟨b.minX + dx, b.minY + dy, b.maxX + dx, b.maxY + dy⟩ := by
  have hl : l ≠ [] := by intro c; subst c; cases h
  obtain ⟨b', hb', ht⟩ := C43_tight l hl
  rw [hb'] at h; injection h with h; subst h
  obtain ⟨c, hc, hct⟩ := C43_tight (translate dx dy l) (by intro e; unfold translate at e; exact hl (by simpa using e))
  rw [hc, tight_unique _ _ _ hct (tight_translate l b' dx dy ht)]

/-- C44: centring moves every stitch by the same whole amount, keeps the commands, and leaves the centre of the bounding box within half a unit
of the origin. -/
theorem C44_centred (l : List Stitch) (h : l ≠ []) : ∃ (cx cy : Int) (b : Box),
    moveCenterToOrigin l = .ok (l.map (fun a => { a with x := a.x - cx, y := a.y - cy })) ∧
    bounds (l.map (fun a => { a with x := a.x - cx, y := a.y - cy })) = some b ∧
    |(b.minX + b.maxX) / 2| ≤ 1 / 2 ∧ |(b.minY + b.maxY) / 2| ≤ 1 / 2 := by
  obtain ⟨b, hb, _⟩ := C43_tight l h
  have e : ∀ cx cy : Int, l.map (fun a => ({ a with x := a.x - cx, y := a.y - cy } : Stitch)) = translate (-cx : Int) (-cy : Int) l := by
    intro cx cy
    unfold translate
    refine List.map_congr_left (fun a _ => ?_)
    rw [Int.cast_neg, Int.cast_neg, sub_eq_add_neg, sub_eq_add_neg]
  refine ⟨pyRound ((b.maxX + b.minX) / 2), pyRound ((b.maxY + b.minY) / 2), _, ?_,
    by rw [e]; exact C43_translate l _ _ b hb, ?_, ?_⟩
  · unfold moveCenterToOrigin
    rw [hb, e]; simp only [Int.cast_neg]
  · have := pyRound_abs ((b.maxX + b.minX) / 2)
    rw [abs_le] at this ⊢
    simp only [Int.cast_neg]
    constructor <;> linarith
  · have := pyRound_abs ((b.maxY + b.minY) / 2)
    rw [abs_le] at this ⊢
    simp only [Int.cast_neg]
    constructor <;> linarith

/-- C44: a pattern without stitches is refused. -/
theorem C44_empty : moveCenterToOrigin [] = .error .valueError := rfl

example : bounds [⟨3, -4, 0⟩, ⟨-1, 7, 1⟩, ⟨2, 2, 4⟩] = some ⟨-1, -4, 3, 7⟩ := by decide +kernel
example : moveCenterToOrigin [⟨3, -4, 0⟩, ⟨-1, 7, 1⟩, ⟨2, 2, 4⟩] = .ok [⟨2, -6, 0⟩, ⟨-2, 5, 1⟩, ⟨1, 0, 4⟩] := by decide +kernel

end Emb
