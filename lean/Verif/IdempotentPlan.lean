import Verif.Idempotent

/-!
# The plan of the second pass
-/

namespace Emb

/-- The word of the `k`-th colour change of a pattern normalized without explicit threads and needles. -/
def plainWord (limit : Int) (k : Int) : Int := encodeThreadChange 5 (some k) (some (k % limit + 1)) none

/-- Its entry in the plan of the second pass, before filling in. -/
def plainEntry (threads : List Thread) (limit : Int) (k : Int) : Change :=
  ⟨some 5, some k, some (k % limit + 1), some (threadOrFiller threads k)⟩

/-- Its finished entry. -/
def plainFull (threads : List Thread) (limit : Int) (k : Int) : Full := ⟨5, k, k % limit + 1, threadOrFiller threads k⟩

/-- The plan of the second pass for `n` threads. -/
def plainPlan (threads : List Thread) (limit : Int) (n : Nat) : List (Int × Full) :=
  (List.range n).map fun k : Nat => ((k : Int), plainFull threads limit k)

theorem mod_bound {limit k : Int} (hl : 1 ≤ limit) (hk : 0 ≤ k) : 0 ≤ k % limit ∧ k % limit ≤ k := by
  have h1 := Int.emod_nonneg k (show limit ≠ 0 by omega)
  refine ⟨h1, ?_⟩
  have h2 := Int.mul_ediv_add_emod k limit
  have h3 : 0 ≤ k / limit := Int.ediv_nonneg hk (by omega)
  have h4 : 0 ≤ limit * (k / limit) := Int.mul_nonneg (by omega) h3
  omega

theorem plainWord_decode {limit k : Int} (hl : 1 ≤ limit) (hk : 0 ≤ k) (hb : k < 254) :
    decodeCommand (plainWord limit k) = (5, some k, some (k % limit + 1), none) := by
  obtain ⟨h1, h2⟩ := mod_bound hl hk
  exact decode_word hk (by omega) (by omega) (by omega)

theorem upsert_new {α : Type} (k : Int) (new : α) (f : α → α) : ∀ (l : List (Int × α)), k ∉ l.map (·.1) →
    upsert k new f l = l ++ [(k, f new)] := by
  intro l
  induction l with
  | nil => intro _; rfl
  | cons a l ih =>
    obtain ⟨k', v⟩ := a
    intro h
    simp only [List.map_cons, List.mem_cons, not_or] at h
    unfold upsert
    rw [if_neg (fun e => h.1 e.symm), ih h.2]; rfl

theorem dget_plain {threads : List Thread} {limit : Int} (n : Nat) {k : Nat} (hk : k < n) :
    dget (k : Int) (plainPlan threads limit n) = some (plainFull threads limit k) := by
  unfold plainPlan
  have : ∀ (m j : Nat), j ≤ k → k < j + m → dget (k : Int) ((List.range' j m).map fun i : Nat => ((i : Int), plainFull threads limit i)) =
      some (plainFull threads limit k) := by
    intro m
    induction m with
    | zero => intro j h1 h2; omega
    | succ m ih =>
      intro j h1 h2
      rw [List.range'_succ, List.map_cons]
      unfold dget
      by_cases e : j = k
      · subst e; rw [if_pos rfl]
      · rw [if_neg (by omega)]; exact ih (j + 1) (by omega) (by omega)
  rw [List.range_eq_range']
  exact this n 0 (by omega) (by omega)

/-- Commands of a normalized pattern as far as the planner cares. -/
def Quiet (a : Stitch) : Prop := a.low ≠ 9 ∧ a.low ≠ 226 ∧ a.low ≠ 16

theorem isChange_iff {a : Stitch} (h : Quiet a) : isChange (cmdOf a.cmd) = true ↔ a.low = 5 := by
  obtain ⟨h1, h2, _⟩ := h
  have e : cmdOf a.cmd = a.low := rfl
  unfold isChange
  simp only [Bool.or_eq_true, beq_iff_eq, e, NEEDLE_SET, COLOR_CHANGE, COLOR_BREAK]
  constructor
  · rintro ((h | h) | h)
    · exact h
    · exact absurd h h1
    · exact absurd h h2
  · intro h; exact .inl (.inl h)

theorem changeWords_cons (a : Stitch) (l : List Stitch) :
    changeWords (a :: l) = if a.low = 5 then a :: changeWords l else changeWords l := by
  unfold changeWords
  by_cases h : a.low = 5
  · rw [if_pos h, List.filter_cons_of_pos (p := fun a : Stitch => a.low == 5) (by simpa using h)]
  · rw [if_neg h, List.filter_cons_of_neg (p := fun a : Stitch => a.low == 5) (by simpa using h)]

theorem raw_fold {threads : List Thread} {limit : Int} (hl : 1 ≤ limit) : ∀ (l : List Stitch) (n : Nat)
    (plan : List (Int × Change)) (look : Int), 1 ≤ n → (∀ k ∈ plan.map (·.1), k < (n : Int)) → (∀ a ∈ l, Quiet a) →
    (∀ (k : Nat) w, (changeWords l)[k]? = some w → w.cmd = plainWord limit (n + k : Nat)) →
    n + (changeWords l).length ≤ 254 →
    ((events l n).foldl (planEvent threads) (plan, look)).1 =
      plan ++ (List.range' n (changeWords l).length).map (fun k : Nat => ((k : Int), plainEntry threads limit k)) := by
  intro l
  induction l with
  | nil => intro n plan look _ _ _ _ _; simp [events, changeWords]
  | cons a l ih =>
    intro n plan look hn hp hq hw hb
    have hqa := hq a List.mem_cons_self
    have hr := fun x hx => hq x (List.mem_cons_of_mem a hx)
    rw [events_cons, if_neg (show ¬ cmdOf a.cmd = SET_CHANGE_SEQUENCE from hqa.2.2)]
    by_cases h5 : a.low = 5
    · have h2 := (isChange_iff hqa).2 h5
      have hns : isSewing (cmdOf a.cmd) = false := by
        have e : cmdOf a.cmd = 5 := h5
        rw [e]; rfl
      have hni : nextIndex n a = ((n + 1 : Nat) : Int) := by
        unfold nextIndex
        simp only [hns, Bool.false_eq_true, and_false, if_false, if_pos h2]
        push_cast; rfl
      rw [changeWords_cons, if_pos h5] at hw hb ⊢
      rw [if_pos h2, List.foldl_cons, hni]
      have hcmd : a.cmd = plainWord limit n := by
        have := hw 0 a (by simp)
        simpa using this
      have hd := plainWord_decode hl (show (0 : Int) ≤ (n : Int) by omega) (by simp at hb; omega)
      rw [← hcmd] at hd
      have hf : cmdOf a.cmd = COLOR_CHANGE := h5
      have hpe : planEvent threads (plan, look) ⟨cmdOf a.cmd, (decodeCommand a.cmd).2.1, (decodeCommand a.cmd).2.2.1,
          (decodeCommand a.cmd).2.2.2, some (n : Int)⟩ = (plan ++ [((n : Int), plainEntry threads limit n)], if (n : Int) ≥ look then (n : Int) + 1 else look) := by
        unfold planEvent
        simp only [if_neg (show ¬ cmdOf a.cmd = SET_CHANGE_SEQUENCE from hqa.2.2), Option.getD_some]
        rw [upsert_new _ _ _ _ (fun hm => absurd (hp _ hm) (by omega)), hd]
        unfold Change.record
        simp only [hf, true_or, if_true]
        rfl
      rw [hpe, ih (n + 1) _ _ (by omega) ?_ hr ?_ (by simp at hb; omega)]
      · rw [List.length_cons, List.range'_succ, List.map_cons, List.append_assoc]; rfl
      · intro k hk
        simp only [List.map_append, List.map_cons, List.map_nil, List.mem_append, List.mem_singleton] at hk
        rcases hk with hk | hk
        · have := hp k hk; omega
        · omega
      · intro k w hkw
        have := hw (k + 1) w (by simpa using hkw)
        rw [this]; congr 1; push_cast; ring
    · have h2 : ¬ isChange (cmdOf a.cmd) = true := fun h => h5 ((isChange_iff hqa).1 h)
      have hni : nextIndex n a = (n : Int) := by
        unfold nextIndex
        simp only [if_neg h2]
        rw [if_neg (by omega)]
      rw [changeWords_cons, if_neg h5] at hw hb ⊢
      rw [if_neg h2, hni]
      exact ih n plan look hn hp hr hw hb

/-- Colour changes come after sewing: then the planner starts counting at one. -/
theorem events_lead : ∀ (l : List Stitch), (∀ a ∈ l, Quiet a) →
    (∀ pre a post, l = pre ++ a :: post → a.low = 5 → ∃ b ∈ pre, b.low = 0) → events l 0 = events l 1 := by
  intro l
  induction l with
  | nil => intro _ _; rfl
  | cons a l ih =>
    intro hq hlead
    have hqa := hq a List.mem_cons_self
    have h5 : a.low ≠ 5 := by
      intro h
      obtain ⟨b, hb, _⟩ := hlead [] a l rfl h
      simp at hb
    have h2 : ¬ isChange (cmdOf a.cmd) = true := fun h => h5 ((isChange_iff hqa).1 h)
    have hs := (show ¬ cmdOf a.cmd = SET_CHANGE_SEQUENCE from hqa.2.2)
    rw [events_cons, events_cons, if_neg hs, if_neg hs, if_neg h2, if_neg h2]
    have e1 : nextIndex 1 a = 1 := by
      unfold nextIndex
      simp only [if_neg h2]; rw [if_neg (by omega)]
    by_cases hw : isSewing (cmdOf a.cmd) = true
    · have e0 : nextIndex 0 a = 1 := by
        unfold nextIndex
        simp only [if_neg h2]; rw [if_pos ⟨trivial, hw⟩]
      rw [e0, e1]
    · have e0 : nextIndex 0 a = 0 := by
        unfold nextIndex
        simp only [if_neg h2]; rw [if_neg (fun h => hw h.2)]
      rw [e0, e1]
      refine ih (fun x hx => hq x (List.mem_cons_of_mem a hx)) ?_
      intro pre b post e h
      obtain ⟨c, hc, hc0⟩ := hlead (a :: pre) b post (by rw [e]; rfl) h
      rcases List.mem_cons.1 hc with rfl | hc
      · exact absurd (show isSewing (cmdOf c.cmd) = true by
          have e : cmdOf c.cmd = 0 := hc0
          rw [e]; rfl) hw
      · exact ⟨c, hc, hc0⟩

theorem fill_explicit {threads : List Thread} {limit : Int} (ti ni : Int) : ∀ (l : List Nat),
    fillPlan threads 5 limit (l.map (fun k : Nat => ((k : Int), plainEntry threads limit k))) ti ni =
      .ok (l.map (fun k : Nat => ((k : Int), plainFull threads limit k))) := by
  intro l
  induction l with
  | nil => rfl
  | cons k l ih =>
    rw [List.map_cons]
    unfold fillPlan
    have e : (if (plainEntry threads limit k).thread = none then ti + 1 else ti) = ti := rfl
    have e' : (if (plainEntry threads limit k).needle = none then ni + 1 else ni) = ni := rfl
    rw [e, e', ih]
    rfl

/-- The plan of a pattern whose changes are `plainWord`s after the first STITCH. -/
theorem buildPlan_plain {o : Settings} {threads : List Thread} {l : List Stitch} (hc : o.changeCommand = 5)
    (hl : 1 ≤ o.needleCount) (hq : ∀ a ∈ l, Quiet a)
    (hlead : ∀ pre a post, l = pre ++ a :: post → a.low = 5 → ∃ b ∈ pre, b.low = 0)
    (hw : ∀ (k : Nat) w, (changeWords l)[k]? = some w → w.cmd = plainWord o.needleCount (k + 1))
    (hb : changes l < 254) : buildPlan o threads l = .ok (plainPlan threads o.needleCount (changes l + 1)) := by
  unfold buildPlan rawPlan
  rw [events_lead l hq hlead]
  have := raw_fold (threads := threads) hl l 1 [(0, {})] 0 (le_refl _) (by simp) hq
    (fun k w h => by rw [hw k w h]; congr 1; push_cast; ring) (by rw [changes_length]; omega)
  rw [show ((1 : Nat) : Int) = 1 from rfl] at this
  rw [this, hc, changes_length]
  unfold plainPlan
  rw [List.range_eq_range', List.range'_succ, List.map_cons]
  show fillPlan threads 5 o.needleCount ((0, {}) :: _) 0 1 = _
  unfold fillPlan
  have ha : autoNeedle o.needleCount 1 = .ok 1 := by
    unfold autoNeedle; rw [if_neg (by omega)]
  have hf : fillOne threads 5 o.needleCount {} 0 1 = .ok (plainFull threads o.needleCount 0) := by
    unfold fillOne
    simp only [ha]
    rfl
  rw [hf]
  show (do
    let r ← fillPlan threads 5 o.needleCount (List.map _ (List.range' 1 (changes l))) _ _
    return ((0 : Int), plainFull threads o.needleCount 0) :: r) = _
  rw [fill_explicit]
  rfl

end Emb
