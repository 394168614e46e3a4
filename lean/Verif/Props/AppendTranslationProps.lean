import Verif.Enter
import Verif.Props.TransformProps
import Verif.Props.AddProps

/-!
# Property C134: `append_translation` moves what is entered afterwards
-/

namespace Emb

open Blocks Transform

variable {τ : Type}

/-- A command put elsewhere by a map of the plane. -/
def Stitch.under (T : Plane) (a : Stitch) : Stitch := ⟨(T (a.x, a.y)).1, (T (a.x, a.y)).2, a.cmd⟩

/-- Entering commands with `add_stitch_absolute`, one after the other. -/
def enterAll (b : Build τ) (m : List Stitch) : Build τ := m.foldl (fun b st => b.abs st.cmd st.x st.y) b

theorem enterAll_stitches (m : List Stitch) : ∀ b : Build τ, (enterAll b m).stitches = b.stitches ++ m := by
  induction m with
  | nil => intro b; simp [enterAll]
  | cons a m ih =>
    intro b
    have := ih (b.abs a.cmd a.x a.y)
    unfold enterAll at this ⊢
    rw [List.foldl_cons, this]
    simp [Build.abs]

/-- A translation in the middle of a design: what follows is normalized as if it were moved. -/
theorem Transform.translated {o : Settings} {lm : Libm} {threads : List Thread} {l m : List Stitch} (u v : ℚ)
    (hl : ∀ a ∈ l ++ m, a.cmd % 256 ∉ [0xC0, 0xC1, 0xC2, 0xC3, 0xC4, 0xC5, 0xD5, 0xD6])
    (he : ∀ c, m.getLast? = some c → c.cmd ∉ [0, 0xB0, 0xB1, 7]) :
    encode o lm threads (l ++ ⟨u, v, 0xC0⟩ :: m) =
      encode (bare o) lm threads (l.map (Stitch.under (asked o lm)) ++ ⟨u, v, 0xFF⟩ :: m.map (Stitch.under fun p => asked o lm (p.1 + u, p.2 + v))) := by
  have h1 : ∀ a ∈ l ++ m, a.cmd % 256 ∉ [(0xC0 : Int), 0xC1, 0xC2, 0xC3] ∧ ¬ a.Length := by
    intro a ha
    refine ⟨fun hm => hl a ha (List.mem_of_mem_take (i := 4) hm), fun hn => hl a ha ?_⟩
    rcases hn with hn | hn <;> rw [hn] <;> decide
  rw [C107_flat_partial]
  · congr 1
    have split : ∀ (l m : List Stitch) (T : Plane), (∀ a ∈ l, a.cmd % 256 ∉ [(0xC0 : Int), 0xC1, 0xC2, 0xC3] ∧ ¬ a.Length) →
        flat lm T (l ++ m) = l.map (Stitch.under T) ++ flat lm T m := by
      intro l m T hl
      induction l with
      | nil => rfl
      | cons a l ih =>
        rw [List.cons_append, flat, after_other lm T (hl a (by simp)).1, ih fun c hc => hl c (by simp [hc]), List.map_cons, List.cons_append]
        unfold plain
        rw [if_neg (hl a (by simp)).1, if_neg (hl a (by simp)).2]
        rfl
    rw [split _ _ _ fun a ha => h1 a (by simp [ha]), flat]
    congr 1
    have ha : after lm (asked o lm) ⟨u, v, 0xC0⟩ = fun p => asked o lm (p.1 + u, p.2 + v) := by
      unfold after; rfl
    rw [ha, Transform.flat_map _ _ _ fun a ha => h1 a (by simp [ha])]
    rfl
  · intro a ha
    rcases List.mem_append.1 ha with h | h
    · exact ⟨fun e => hl a (by simp [h]) (by rw [e]; decide), fun e => hl a (by simp [h]) (by rw [e]; decide)⟩
    · rcases List.mem_cons.1 h with rfl | h
      · show (0xC0 : Int) % 256 ≠ 0xC4 ∧ (0xC0 : Int) % 256 ≠ 0xC5; decide
      · exact ⟨fun e => hl a (by simp [h]) (by rw [e]; decide), fun e => hl a (by simp [h]) (by rw [e]; decide)⟩
  · left
    intro c hc
    rw [List.getLast?_append_of_ne_nil _ (by simp), List.getLast?_cons] at hc
    rcases hm : m.getLast? with _ | d
    · rw [hm] at hc
      have := Option.some.inj hc
      rw [← this]; show (0xC0 : Int) ∉ _; decide
    · rw [hm] at hc
      have := Option.some.inj hc
      exact he c (by rw [hm, ← this]; rfl)

/-- **C134**, what the code does: after `append_translation(x, y)` commands entered at positions of their own are normalized as if they had been entered moved
by the amount **and** the position entered last before; what was entered before stays. The command itself does nothing else (0xFF). This is
for all settings, the transformation they ask for being done last, for designs without other matrix commands and lengths whose last command is not sewn (an END). -/
theorem C134_moved (b : Build τ) (x y : ℚ) {m : List Stitch} {o : Settings} {lm : Libm} {threads : List Thread}
    (hl : ∀ a ∈ b.stitches ++ m, a.cmd % 256 ∉ [0xC0, 0xC1, 0xC2, 0xC3, 0xC4, 0xC5, 0xD5, 0xD6])
    (he : ∀ c, m.getLast? = some c → c.cmd ∉ [0, 0xB0, 0xB1, 7]) :
    encode o lm threads (enterAll (Enter.appendTranslation b x y) m).stitches =
      encode (bare o) lm threads (b.stitches.map (Stitch.under (asked o lm)) ++ ⟨b.px + x, b.py + y, 0xFF⟩ ::
        m.map (Stitch.under fun p => asked o lm (p.1 + (b.px + x), p.2 + (b.py + y)))) := by
  have hs : (enterAll (Enter.appendTranslation b x y) m).stitches = b.stitches ++ ⟨b.px + x, b.py + y, 0xC0⟩ :: m := by
    rw [enterAll_stitches]
    unfold Enter.appendTranslation Build.rel Build.abs
    simp [MATRIX_TRANSLATE]
  rw [hs, Transform.translated _ _ hl he]

/-- **C134 (partial)**: `append_translation(x, y)` moves what is entered afterwards, at positions of its own, by exactly `(x, y)` if the position entered last is the origin, as
in a new pattern. Missing: any other position (false, `C134_not_amount`), and entering by displacement (false even there, `C134_not_relative`). -/
theorem C134_amount_partial (b : Build τ) (h0 : b.px = 0 ∧ b.py = 0) (x y : ℚ) {m : List Stitch} {o : Settings} {lm : Libm} {threads : List Thread}
    (hl : ∀ a ∈ b.stitches ++ m, a.cmd % 256 ∉ [0xC0, 0xC1, 0xC2, 0xC3, 0xC4, 0xC5, 0xD5, 0xD6])
    (he : ∀ c, m.getLast? = some c → c.cmd ∉ [0, 0xB0, 0xB1, 7]) :
    encode o lm threads (enterAll (Enter.appendTranslation b x y) m).stitches =
      encode (bare o) lm threads (b.stitches.map (Stitch.under (asked o lm)) ++ ⟨x, y, 0xFF⟩ ::
        m.map (Stitch.under fun p => asked o lm (p.1 + x, p.2 + y))) := by
  rw [C134_moved b x y hl he, h0.1, h0.2, zero_add, zero_add]

/-- **C134**, why not elsewhere: behind a stitch at 10 a translation by 5 moves the stitch entered at 20 to 35. -/
theorem C134_not_amount :
    (encode {} demoLm [] (enterAll (Enter.appendTranslation (enterAll ({} : Build Thread) [⟨10, 0, 0⟩]) 5 0) [⟨20, 0, 0⟩, ⟨20, 0, 4⟩]).stitches).map (fun r => strikes r.1) =
      .ok [(10, 0), (35, 0)] := by
  decide +kernel

/-- **C134**, why not by displacement: in a new pattern the translation by 5 is also the position the next displacement counts from, so that a stitch one
to the right is sewn at 11. -/
theorem C134_not_relative :
    (encode {} demoLm [] (((Enter.appendTranslation ({} : Build Thread) 5 0).rel STITCH 1 0).rel END 0 0).stitches).map (fun r => strikes r.1) = .ok [(11, 0)] := by
  decide +kernel

/-- A case of `C134_amount_partial`: a new pattern, a translation, two stitches. -/
example : (encode {} demoLm [] (enterAll (Enter.appendTranslation ({} : Build Thread) 5 7) [⟨1, 2, 0⟩, ⟨20, 0, 0⟩, ⟨20, 0, 4⟩]).stitches).map (fun r => strikes r.1) =
    .ok [(6, 9), (25, 7)] := by
  decide +kernel

/-- **C74**, an added pattern that is only moved, with everything the encoder does: `p.add_pattern(q, dx, dy)` is normalized exactly as the commands of `p` followed by a command
that does nothing (0xFF) and by what is added for `q`, moved by `(dx, dy)`. This includes sequins, lock stitches, subdivided and rounded stitches, and the errors; both patterns are without
matrix commands and commands that carry lengths, and `q` does not end with a command that is sewn. -/
theorem C74_moved (eqv : τ → τ → Bool) (filler : Nat → τ) (b q : Build τ) (dx dy : ℚ) (hb : b.stitches ≠ [])
    (hq : q.threads = [] ∨ fixColorCount b.threads filler b.stitches ≠ [])
    (hl : ∀ a ∈ b.stitches ++ q.stitches, a.cmd % 256 ∉ [0xC0, 0xC1, 0xC2, 0xC3, 0xC4, 0xC5, 0xD5, 0xD6])
    (he : ∀ c, q.stitches.getLast? = some c → c.cmd ∉ [0, 0xB0, 0xB1, 7]) :
    ∃ r change lead tail, Ops.addPattern eqv filler b q (some dx) (some dy) none none none = .ok r ∧ q.stitches = lead ++ tail ∧
      (∀ a ∈ lead, Blocks.isSew a = false) ∧ (∀ a ∈ tail.head?, Blocks.isSew a = true) ∧ (change = [] ∨ change = [⟨b.px, b.py, 5⟩]) ∧
      ∀ o lm threads, encode o lm threads r.stitches = encode (bare o) lm threads ((Ops.withoutEnd b.stitches).map (Stitch.under (asked o lm)) ++ ⟨dx, dy, 0xFF⟩ ::
        (change ++ (lead.map (fun a => if Blocks.isChange a then { a with cmd := -1 } else a) ++ tail)).map
          (Stitch.under fun p => asked o lm (p.1 + dx, p.2 + dy))) := by
  obtain ⟨r, change, lead, tail, extra, new, h1, h2, h3, h4, h5, -, h6⟩ := Ops.C56_appends_partial eqv filler b q (some dx) (some dy) none none none hb hq
  have hch : change = [] ∨ change = [⟨b.px, b.py, 5⟩] := by
    rcases h6 with ⟨-, h6⟩ | ⟨_, _, -, -, -, h6⟩
    · rw [h6]; split <;> simp
    · exact .inl h6
  refine ⟨r, change, lead, tail, h1, h3, h4, h5, hch, fun o lm threads => ?_⟩
  have ht : Ops.transforms (some dx) (some dy) none none none = [⟨dx, dy, 0xC0⟩] := by
    simp [Ops.transforms, MATRIX_TRANSLATE]
  rw [h2, ht, List.append_assoc, List.append_assoc, List.singleton_append]
  refine Transform.translated dx dy ?_ ?_
  · intro a ha
    rw [List.mem_append, List.mem_append, List.mem_append] at ha
    rcases ha with ha | ha | ha | ha
    · refine hl a (List.mem_append_left _ ?_)
      unfold Ops.withoutEnd at ha
      split at ha
      · exact List.dropLast_subset _ ha
      · exact ha
    · rcases hch with h | h <;> rw [h] at ha
      · simp at ha
      · rw [List.mem_singleton.1 ha]; show (5 : Int) % 256 ∉ _; decide
    · obtain ⟨c, hc, rfl⟩ := List.mem_map.1 ha
      split
      · show (-1 : Int) % 256 ∉ _; decide
      · exact hl c (List.mem_append_right _ (by rw [h3]; simp [hc]))
    · exact hl a (List.mem_append_right _ (by rw [h3]; simp [ha]))
  · intro c hc
    rw [List.getLast?_append, List.getLast?_append] at hc
    rcases htl : tail.getLast? with _ | d
    · rw [htl, Option.none_or, List.getLast?_map] at hc
      rcases hld : lead.getLast? with _ | d
      · rw [hld, Option.map_none, Option.none_or] at hc
        rcases hch with h | h <;> rw [h] at hc
        · simp at hc
        · have := Option.some.inj hc
          rw [← this]; show (5 : Int) ∉ _; decide
      · rw [hld, Option.map_some, Option.some_or] at hc
        have := Option.some.inj hc
        rw [← this]
        split
        · show (-1 : Int) ∉ _; decide
        · exact he d (by rw [h3, List.getLast?_append, htl, hld]; rfl)
    · rw [htl, Option.some_or] at hc
      have := Option.some.inj hc
      rw [← this]
      exact he d (by rw [h3, List.getLast?_append, htl]; rfl)

/-- A case: a stitch and a sequin, moved. -/
example : ∃ r, Ops.addPattern (· == ·) (fun _ => 'x') ⟨[⟨0, 0, 0⟩, ⟨0, 0, 4⟩], ['r'], 0, 0⟩ ⟨[⟨1, 1, 0⟩, ⟨3, 1, 7⟩, ⟨3, 1, 4⟩], ['g'], 3, 1⟩ (some 10) (some 20) none none none = .ok r ∧
    r.stitches = [⟨0, 0, 0⟩, ⟨10, 20, 0xC0⟩, ⟨0, 0, 5⟩, ⟨1, 1, 0⟩, ⟨3, 1, 7⟩, ⟨3, 1, 4⟩] := by
  exact ⟨_, rfl, by decide +kernel⟩

end Emb
