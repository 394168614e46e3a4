import Verif.Into
import Verif.Props.AfterEndProps
import Verif.Props.ConvertProps

/-!
# C122: reading a file into a pattern that holds something already
-/

namespace Emb

open Blocks

/-- A command moved by `(x, y)`. -/
def Stitch.moved (x y : ℚ) (a : Stitch) : Stitch := ⟨x + a.x, y + a.y, a.cmd⟩

namespace Into

theorem place_moved (u v : ℚ) : ∀ (l : List Rec) (x y : ℚ), place (u + x) (v + y) l = (place x y l).map (Stitch.moved u v)
  | [], _, _ => rfl
  | r :: l, x, y => by
    rw [place, place, List.map_cons, add_assoc, add_assoc, place_moved u v l]
    rfl

theorem build {τ : Type} : ∀ (l : List Rec) (b : Build τ), intoBuild b l =
    { b with stitches := b.stitches ++ place b.px b.py l, px := (placeEnd b.px b.py l).1, py := (placeEnd b.px b.py l).2 }
  | [], b => by simp [intoBuild, place, placeEnd]
  | r :: l, b => by
    show intoBuild (b.rel r.cmd r.dx r.dy) l = _
    rw [build l]
    simp [Build.rel, Build.abs, place, placeEnd]

theorem last : ∀ (l : List Rec) (x y : ℚ) (e : Stitch), (place x y l).getLast? = some e → placeEnd x y l = (e.x, e.y)
  | [], _, _, _, h => by simp [place] at h
  | [r], x, y, e, h => by
    simp only [place, List.getLast?_singleton, Option.some.injEq] at h
    subst h; rfl
  | r :: s :: l, x, y, e, h => by
    rw [placeEnd]
    refine last (s :: l) _ _ e ?_
    rw [place] at h
    rw [← h, place, List.getLast?_cons_cons]

/-- `b'` is `b` with the design `l` behind it, moved to where `b` ended. -/
structure Behind {τ : Type} (b b' : Build τ) (l : List Stitch) : Prop where
  stitches : b'.stitches = b.stitches ++ l.map (Stitch.moved b.px b.py)
  threads : b'.threads = b.threads
  position : ∀ e, l.getLast? = some e → (b'.px, b'.py) = (b.px + e.x, b.py + e.y)

theorem behind {τ : Type} (b : Build τ) (l : List Rec) : Behind b (intoBuild b l) (place 0 0 l) := by
  have h : place b.px b.py l = (place 0 0 l).map (Stitch.moved b.px b.py) := by
    rw [← place_moved, add_zero, add_zero]
  rw [build]
  refine ⟨by rw [← h], rfl, fun e he => ?_⟩
  have := last l b.px b.py (e.moved b.px b.py) (by rw [h, List.getLast?_map, he]; rfl)
  rw [this]; rfl

theorem finish {τ : Type} (b : Build τ) {r : Option (Except PyErr (List Rec))} {l : List Stitch} (h : Readers.finish r = some (.ok l)) :
    ∃ b', Readers.into b r = some (.ok b') ∧ Behind b b' l := by
  unfold Readers.finish at h
  rcases r with _ | (e | l') <;> simp only [Option.map_none, Option.map_some, Except.map, reduceCtorEq, Option.some.injEq, Except.ok.injEq] at h
  subst h
  exact ⟨_, rfl, behind b _⟩

/-- The readers of whole files, into a new pattern and into one that exists. -/
inductive Pair {τ : Type} : (Nat → Bytes → Option (Except PyErr (List Stitch))) →
    (Build τ → Nat → Bytes → Option (Except PyErr (Build τ))) → Prop
  | ksm : Pair Readers.readKsm Readers.intoKsm
  | fxy : Pair Readers.readFxy Readers.intoFxy
  | gt : Pair Readers.readGt Readers.intoGt
  | new : Pair Readers.readNew Readers.intoNew
  | inb : Pair Readers.readInb Readers.intoInb
  | ten : Pair Readers.read10o Readers.into10o
  | stc : Pair Readers.readStc Readers.intoStc
  | emd : Pair Readers.readEmd Readers.intoEmd
  | hundred : Pair Readers.read100 Readers.into100
  | bro : Pair Readers.readBro Readers.intoBro
  | mit : Pair Readers.readMit Readers.intoMit

end Into

open Into

/-- **C122**: an EXP file read into a pattern comes behind what is there, each command moved to where the pattern ended. -/
theorem C122_exp {τ : Type} (b : Build τ) (f : Bytes) : Behind b (Exp.readInto b f) (Exp.read f) := behind b _

/-- **C122**: the same for the other formats: if the file is read into a new pattern as `l`, then into `b` as `b` followed by `l`. -/
theorem C122_readers {τ : Type} {read into} (hp : Pair (τ := τ) read into) (b : Build τ) (fuel : Nat) (f : Bytes) {l : List Stitch}
    (h : read fuel f = some (.ok l)) : ∃ b', into b fuel f = some (.ok b') ∧ Behind b b' l := by
  cases hp <;> exact finish b h

/-- **C122**: if the pattern had its END already, as every pattern read from a file has (`Shaped`, see C108), then what is read into it is never
sewn: it is normalized, and so saved, as before. -/
theorem C122_not_sewn {τ : Type} {o : Settings} {lm : Libm} {threads : List Thread} {b b' : Build τ} {l : List Stitch} (hn : o.needleCount ≠ 0)
    (hb : Shaped b.stitches) (hl : ∀ a ∈ l, a.low ≠ 0x10) (h : Behind b b' l) :
    encode o lm threads b'.stitches = encode o lm threads b.stitches := by
  obtain ⟨m, e, hm, he, hk⟩ := hb
  have hk' : ∀ a ∈ m, a.low ≠ 4 ∧ a.low ≠ 0xE2 ∧ a.low ≠ 0xE5 ∧ a.low ≠ 0x10 := by
    intro a ha
    have := hk a ha
    simp only [List.mem_cons, List.not_mem_nil, or_false] at this
    omega
  rw [h.stitches, hm, List.append_assoc, List.singleton_append]
  refine C121_after_end_partial hn he (.inr fun a ha => (hk' a ha).2.1) (fun a ha => (hk' a ha).1) ?_ ?_
  · rintro a l' rfl
    exact (hk' a (by simp)).2.2.1
  · intro a ha
    rcases List.mem_append.1 ha with ha | ha
    · exact (hk' a ha).2.2.2
    · obtain ⟨c, hc, rfl⟩ := List.mem_map.1 ha
      exact hl c hc

theorem shaped_set {l : List Stitch} (h : Shaped l) : ∀ a ∈ l, a.low ≠ 0x10 := by
  obtain ⟨m, e, rfl, he, hm⟩ := h
  intro a ha
  rcases List.mem_append.1 ha with ha | ha
  · have := hm a ha
    simp only [List.mem_cons, List.not_mem_nil, or_false] at this
    omega
  · rw [List.mem_singleton.1 ha, he]; decide

/-- **C122**: of two EXP files read into one pattern only the first is saved. -/
theorem C122_second_lost {τ : Type} {o : Settings} {lm : Libm} {threads : List Thread} (hn : o.needleCount ≠ 0) (f g : Bytes) :
    encode o lm threads (Exp.readInto (Exp.readInto ({} : Build τ) f) g).stitches = encode o lm threads (Exp.read f) := by
  have hs : (Exp.readInto ({} : Build τ) f).stitches = Exp.read f := by
    rw [(C122_exp _ _).stitches]
    show [] ++ _ = _
    rw [List.nil_append]
    conv_rhs => rw [← List.map_id (Exp.read f)]
    refine List.map_congr_left fun a _ => ?_
    simp [Stitch.moved]
  rw [← hs]
  exact C122_not_sewn hn (by rw [hs]; exact (Convert.tidy_exp f).shape) (shaped_set (Convert.tidy_exp g).shape) (C122_exp _ _)

/-! Beside them: a pattern that ends at (7, 3), and a file with a stitch, a colour change and a jump. -/

example : let b := Exp.readInto (⟨[⟨7, 3, 0⟩], [()], 7, 3⟩ : Build Unit) [1, 2, 0x80, 1, 0, 0, 0x80, 4, 3, 0]
    b.stitches = [⟨7, 3, 0⟩, ⟨8, 1, 0⟩, ⟨8, 1, 5⟩, ⟨11, 1, 1⟩, ⟨11, 1, 4⟩] ∧ b.threads = [()] ∧ (b.px, b.py) = (11, 1) := by
  refine ⟨?_, ?_, ?_⟩ <;> decide +kernel

example : ∃ l, Readers.read10o 5 [0x00, 3, 4, 0x20, 1, 1] = some (.ok l) ∧ l.length = 3 ∧
    (∃ b', Readers.into10o (⟨[⟨7, 3, 0⟩], [()], 7, 3⟩ : Build Unit) 5 [0x00, 3, 4, 0x20, 1, 1] = some (.ok b') ∧ b'.stitches.length = 4) := by
  refine ⟨_, rfl, by decide +kernel, _, rfl, by decide +kernel⟩

end Emb
