import Verif.Extras
import Verif.Props.CsvProps

/-!
# C128: metadata stay with the design
-/

namespace Emb
namespace Extras

variable {τ V : Type}

/-- A dictionary has every key once. -/
def IsDict (d : List (Str × V)) : Prop := (d.map (fun p => p.1)).Nodup

/-- What a dictionary holds, as a function. -/
def holds (d : List (Str × V)) (k : Str) : Option V := (d.find? (fun p => p.1 = k)).map (fun p => p.2)

/-! ## Proofs -/

theorem put_keys (k : Str) (v : V) (d : List (Str × V)) : (put k v d).map (fun p => p.1) =
    if k ∈ d.map (fun p => p.1) then d.map (fun p => p.1) else d.map (fun p => p.1) ++ [k] := by
  induction d with
  | nil => rfl
  | cons p d ih =>
    unfold put
    by_cases h : p.1 = k
    · rw [if_pos h]; simp [h]
    · rw [if_neg h, List.map_cons, ih]
      have : k ≠ p.1 := fun e => h e.symm
      split_ifs with h1 h2 h2 <;> simp_all

theorem put_dict {k : Str} {v : V} {d : List (Str × V)} (h : IsDict d) : IsDict (put k v d) := by
  unfold IsDict at *
  rw [put_keys]
  split_ifs with hk
  · exact h
  · rw [List.nodup_append]; exact ⟨h, by simp, fun a ha b hb e => hk (by simp at hb; rw [← hb, ← e]; exact ha)⟩

theorem holds_put (k k' : Str) (v : V) (d : List (Str × V)) : holds (put k v d) k' = if k' = k then some v else holds d k' := by
  induction d with
  | nil =>
    unfold put holds
    by_cases h : k = k'
    · simp [h]
    · rw [List.find?_cons_of_neg (by simpa using h), if_neg (fun e => h e.symm)]
  | cons p d ih =>
    unfold put
    by_cases h : p.1 = k
    · rw [if_pos h]
      unfold holds
      by_cases h' : k = k'
      · simp [h']
      · rw [List.find?_cons_of_neg (by simpa using h'), if_neg (fun e => h' e.symm), List.find?_cons_of_neg (by simpa [h] using h')]
    · rw [if_neg h]
      unfold holds at ih ⊢
      by_cases h' : p.1 = k'
      · rw [List.find?_cons_of_pos (by simpa using h'), List.find?_cons_of_pos (by simpa using h'), if_neg (fun e => h (h'.trans e))]
      · rw [List.find?_cons_of_neg (by simpa using h'), ih, List.find?_cons_of_neg (by simpa using h')]

theorem update_new (d e : List (Str × V)) (h : IsDict (d ++ e)) : update d e = d ++ e := by
  induction e generalizing d with
  | nil => simp [update]
  | cons p e ih =>
    have hd : p.1 ∉ d.map (fun p => p.1) := by
      unfold IsDict at h
      rw [List.map_append, List.map_cons, List.nodup_append] at h
      intro hm
      exact h.2.2 _ hm p.1 (by simp) rfl
    show update (put p.1 p.2 d) e = _
    rw [Csv.put_new _ _ _ hd, ih _ (by simpa using h)]
    simp

theorem update_dict {d e : List (Str × V)} (h : IsDict d) : IsDict (update d e) := by
  induction e generalizing d with
  | nil => exact h
  | cons p e ih => exact ih (put_dict h)

theorem holds_none {d : List (Str × V)} {k : Str} (h : k ∉ d.map (fun p => p.1)) : holds d k = none := by
  unfold holds
  rw [Option.map_eq_none_iff, List.find?_eq_none]
  intro p hp
  simp only [decide_eq_true_eq]
  exact fun e => h (List.mem_map.2 ⟨p, hp, e⟩)

theorem holds_update (d e : List (Str × V)) (he : IsDict e) (k : Str) : holds (update d e) k = (holds e k).or (holds d k) := by
  induction e generalizing d with
  | nil => rfl
  | cons p e ih =>
    unfold IsDict at he
    rw [List.map_cons, List.nodup_cons] at he
    show holds (update (put p.1 p.2 d) e) k = _
    rw [ih _ he.2, holds_put]
    by_cases h : p.1 = k
    · subst h
      rw [holds_none he.1, if_pos rfl]
      unfold holds
      rw [List.find?_cons_of_pos (by simp)]
      rfl
    · have : holds (p :: e) k = holds e k := by unfold holds; rw [List.find?_cons_of_neg (by simpa using h)]
      rw [this, if_neg (fun q => h q.symm)]

/-! ## C128 -/

/-- **C128**: what was entered last under a name is found under it, the other names are not touched; the stitches and threads
neither. -/
theorem C128_entered (p : Whole τ V) (name name' : Str) (v : V) (default : Option V) :
    (p.metadata name v).getMetadata name' default = (if name' = name then some v else p.getMetadata name' default) ∧
      (p.metadata name v).build = p.build ∧ (IsDict p.extras → IsDict (p.metadata name v).extras) := by
  refine ⟨?_, rfl, put_dict⟩
  have := holds_put name name' v p.extras
  unfold Whole.getMetadata
  rw [show get name' (p.metadata name v).extras = holds (put name v p.extras) name' from rfl, this,
    show get name' p.extras = holds p.extras name' from rfl]
  split_ifs <;> rfl

/-- **C128**: `pattern[name]` is that value, or a KeyError if there is none. -/
theorem C128_item (p : Whole τ V) (name : Str) :
    p.item name = match p.getMetadata name none with | some v => .ok v | none => .error .keyError := by
  unfold Whole.item Whole.getMetadata
  cases get name p.extras <;> rfl

/-- **C128**: copies and derived patterns have the metadata of the pattern they come from, in the same order. -/
theorem C128_derived [DecidableEq τ] (p : Whole τ V) (h : IsDict p.extras) (filler : Nat → τ) (jumps : Nat) :
    p.copy.extras = p.extras ∧ (p.interpolateTrim jumps).extras = p.extras ∧ p.mergeJumps.extras = p.extras ∧
      (p.stable filler).extras = p.extras := by
  have : update [] p.extras = p.extras := by simpa using update_new [] p.extras (by simpa using h)
  exact ⟨this, this, this, this⟩

/-- **C128**: so does the normalized pattern, which is what is saved; and metadata do not change what is sewn. -/
theorem C128_normalized (o : Settings) (lm : Libm) (p : Whole Thread V) (h : IsDict p.extras) :
    (∀ q, p.normalized o lm = .ok q → q.extras = p.extras ∧ encode o lm p.build.threads p.build.stitches = .ok (q.build.stitches, q.build.threads)) ∧
      (∀ e, p.normalized o lm = .error e ↔ encode o lm p.build.threads p.build.stitches = .error e) := by
  have : update [] p.extras = p.extras := by simpa using update_new [] p.extras (by simpa using h)
  unfold Whole.normalized
  rw [this]
  cases encode o lm p.build.threads p.build.stitches with
  | error e => exact ⟨fun q hq => by simp [Except.map] at hq, fun e => by simp [Except.map]⟩
  | ok r => exact ⟨fun q hq => by simp only [Except.map, Except.ok.injEq] at hq; subst hq; exact ⟨rfl, rfl⟩, fun e => by simp [Except.map]⟩

/-- **C128**: of two patterns added, the second one's metadata count where both have some, the first one's otherwise; nothing else is
there. -/
theorem C128_added (eqv : τ → τ → Bool) (filler : Nat → τ) (p q r : Whole τ V) (hp : IsDict p.extras) (hq : IsDict q.extras) (dx dy sx sy rotate : Option ℚ)
    (h : p.add eqv filler q dx dy sx sy rotate = .ok r ∨ p.plus eqv filler q = .ok r) (name : Str) (default : Option V) :
    r.getMetadata name default = (match q.getMetadata name none with | some v => some v | none => p.getMetadata name default) ∧ IsDict r.extras := by
  have hc : p.copy.extras = p.extras := by
    simpa [Whole.copy] using update_new [] p.extras (by simpa using hp)
  have e : r.extras = update p.extras q.extras := by
    rcases h with h | h
    · unfold Whole.add at h
      cases ha : Ops.addPattern eqv filler p.build q.build dx dy sx sy rotate with
      | error e => rw [ha] at h; simp [Except.map] at h
      | ok b => rw [ha] at h; simp only [Except.map, Except.ok.injEq] at h; rw [← h]
    · unfold Whole.plus Whole.add at h
      cases ha : Ops.addPattern eqv filler p.copy.build q.build none none none none none with
      | error e => rw [ha] at h; simp [Except.map] at h
      | ok b => rw [ha] at h; simp only [Except.map, Except.ok.injEq] at h; rw [← h, hc]
  refine ⟨?_, by rw [e]; exact update_dict hp⟩
  have key := holds_update p.extras q.extras hq name
  unfold Whole.getMetadata
  rw [show get name r.extras = holds r.extras name from rfl, e, key, show get name q.extras = holds q.extras name from rfl,
    show get name p.extras = holds p.extras name from rfl]
  cases holds q.extras name <;> rfl

/-- **C128**: a cleared pattern has none. -/
theorem C128_clear (p : Whole τ V) (name : Str) (default : Option V) : p.clear.getMetadata name default = default := rfl

/-- **C128**: the text of a pattern has its name, if it has one, and says how many commands and threads it has. -/
theorem C128_str (show_ : V → Str) (p : Whole τ V) : p.str show_ = "EmbPattern ".toList ++
    (match p.getMetadata "name".toList none with | some v => show_ v ++ " ".toList | none => []) ++
    ("(commands: ".toList ++ padLeft 3 (dec p.build.stitches.length) ++ ", threads: ".toList ++ padLeft 3 (dec p.build.threads.length) ++ ")".toList) := by
  unfold Whole.str Whole.getMetadata
  cases get "name".toList p.extras <;> simp

/-- A pattern with a name and an author; another with a name and a category. -/
def demo : Whole Nat Nat := { build := { stitches := [⟨0, 0, 0⟩, ⟨5, 0, 0⟩], threads := [1] }, extras := [("name".toList, 1), ("author".toList, 2)] }
def demo2 : Whole Nat Nat := { build := { stitches := [⟨0, 0, 0⟩], threads := [2] }, extras := [("category".toList, 3), ("name".toList, 4)] }

example : IsDict demo.extras ∧ IsDict demo2.extras := by unfold IsDict; decide +kernel
example : (demo.plus (· == ·) id demo2).map (fun r => r.extras) = .ok [("name".toList, 4), ("author".toList, 2), ("category".toList, 3)] := by
  decide +kernel
example : (demo.metadata "author".toList 9).extras = [("name".toList, 1), ("author".toList, 9)] := by decide +kernel
example : demo.str (fun v : Nat => dec v) = "EmbPattern 1 (commands:   2, threads:   1)".toList := by decide +kernel

end Extras
end Emb
