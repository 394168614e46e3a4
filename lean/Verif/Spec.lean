import Verif.Stitch

/-!
# Specification vocabulary

Small definitions used to state properties of stitch lists, independent of the model's own helpers.
-/

namespace Emb

/-- The command byte of a stitch (numbers as in the README's table: 0 STITCH, 1 JUMP, 2 TRIM, 3 STOP, 4 END, ...). -/
def Stitch.low (a : Stitch) : Int := a.cmd % 256

/-- Position after a list of stitches (the origin if there is none). -/
def lastPos (pre : List Stitch) : ℚ × ℚ :=
  match pre.getLast? with
  | none => (0, 0)
  | some a => (a.x, a.y)

/-- `R` holds for every stitch of the list together with the stitches before it. -/
def EachAt (R : List Stitch → Stitch → Prop) (out : List Stitch) : Prop :=
  ∀ pre a post, out = pre ++ a :: post → R pre a

/-- Sequin mode after `pre`: an odd number of SEQUIN_MODE (6) commands. -/
def sequinOn (pre : List Stitch) : Bool := pre.countP (fun a => a.low == 6) % 2 == 1

@[simp] theorem lastPos_nil : lastPos [] = (0, 0) := rfl
@[simp] theorem lastPos_snoc (l : List Stitch) (a : Stitch) : lastPos (l ++ [a]) = (a.x, a.y) := by
  simp [lastPos]

theorem eachAt_nil (R : List Stitch → Stitch → Prop) : EachAt R [] := by
  intro pre a post h; simp at h

theorem eachAt_snoc {R : List Stitch → Stitch → Prop} {out : List Stitch} {b : Stitch} :
    EachAt R (out ++ [b]) ↔ EachAt R out ∧ R out b := by
  constructor
  · intro h
    refine ⟨?_, h out b [] rfl⟩
    intro pre a post e
    exact h pre a (post ++ [b]) (by rw [e]; simp)
  · rintro ⟨h1, h2⟩ pre a post e
    rcases List.eq_nil_or_concat post with rfl | ⟨post', c, rfl⟩
    · have e' : out ++ [b] = pre ++ [a] := e
      obtain ⟨rfl, hb⟩ := List.append_inj' e' rfl
      injection hb with hb; subst hb; exact h2
    · have e' : out ++ [b] = (pre ++ a :: post') ++ [c] := by simp [e]
      obtain ⟨h3, _⟩ := List.append_inj' e' rfl
      exact h1 pre a post' h3

/-- For a list containing every stitch considered by `EachAt`. -/
theorem EachAt.mono {R S : List Stitch → Stitch → Prop} {out : List Stitch} (h : EachAt R out)
    (hi : ∀ pre a, R pre a → S pre a) : EachAt S out := fun pre a post e => hi _ _ (h pre a post e)

theorem eachAt_mem {R : Stitch → Prop} {out : List Stitch} : EachAt (fun _ a => R a) out ↔ ∀ a ∈ out, R a := by
  constructor
  · intro h a ha
    obtain ⟨pre, post, e⟩ := List.append_of_mem ha
    exact h pre a post e
  · intro h pre a post e
    exact h a (by rw [e]; simp)

end Emb
