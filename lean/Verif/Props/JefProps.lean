import Verif.Jef
import Verif.Format
import Verif.Props.Commands
import Verif.Props.ThreadProps
import Verif.Props.PlanProps

/-!
# Properties C09, C10: JEF files
-/

namespace Emb
namespace Jef

/-- What a JEF file shows of the records before END (4). `n` is the number of jumps written for a TRIM (none by default);
`t` says whether the current colour has been stopped an odd number of times: the first STOP of a colour is shown as a
STOP, the second as a colour change, and so on. There are no speeds. -/
def shown (n : Nat) : Bool → List Rec → List Rec
  | _, [] => []
  | t, r :: rs =>
    if r.cmd = 0 ∨ r.cmd = 1 then r :: shown n t rs
    else if r.cmd = 2 then List.replicate n ⟨0, 0, 1⟩ ++ shown n t rs
    else if r.cmd = 5 then ⟨0, 0, 5⟩ :: shown n false rs
    else if r.cmd = 3 then (if t then ⟨0, 0, 5⟩ else ⟨0, 0, 3⟩) :: shown n (!t) rs
    else shown n t rs

/-! ## The palette -/

theorem table_entries : 2 ≤ entries table := by decide +kernel

theorem choose_ok (last : Option Nat) (lastThread : Option Thread) (t : Thread) :
    ∃ i, choose table last lastThread t = .ok i ∧ i ≠ 0 ∧ i < table.length := by
  have he := table_entries
  have h0 : ∀ (p : List (Option Thread)) (i : Nat) (u : Thread), p[0]? = some none → p[i]? = some (some u) → i ≠ 0 := by
    intro p i u h0 h hi; subst hi; rw [h0] at h; cases h
  obtain ⟨i, u, e, hu⟩ := findNearest_some_of_entries (c := t.color) (p := table) (by omega)
  have hi : i < table.length := (List.getElem?_eq_some_iff.1 hu).1
  unfold choose
  rw [e]
  simp only
  split
  · have := entries_set_none hu
    obtain ⟨j, v, e', hv⟩ := findNearest_some_of_entries (c := t.color) (p := table.set i none) (by omega)
    rw [e']
    have hj : j < (table.set i none).length := (List.getElem?_eq_some_iff.1 hv).1
    rw [List.length_set] at hj
    refine ⟨j, rfl, h0 _ j v ?_ hv, hj⟩
    have hi0 : i ≠ 0 := h0 table i u rfl hu
    rw [List.getElem?_set_ne hi0]; rfl
  · exact ⟨i, rfl, h0 table i u rfl hu, hi⟩

/-- With a colour set, the palette gets one entry for every colour change or stop. -/
theorem palette_length (threads : List Thread) (cs : List Int) (s : PalState) (p : List Nat) (hs : s.idx ≠ 0)
    (h : palette table threads s cs = .ok p) : p.length = cs.countP (fun c => c = 5 ∨ c = 3) := by
  induction cs generalizing s p with
  | nil => injection h with h; subst h; rfl
  | cons c cs ih =>
    unfold palette at h
    cases hc : palColor table threads s c with
    | error e => rw [hc] at h; cases h
    | ok q =>
      rw [hc] at h
      have hq : q.1.length = (if c = 5 then 1 else 0) ∧ q.2.idx ≠ 0 := by
        unfold palColor at hc
        by_cases c5 : c = 5
        · rw [if_pos (.inl c5)] at hc
          cases ht : threads[s.idx]? with
          | none => rw [ht] at hc; cases hc
          | some t =>
            rw [ht] at hc
            obtain ⟨i, hi, _⟩ := choose_ok s.lastIndex s.lastThread t
            simp only [hi] at hc
            injection hc with hc
            subst hc
            exact ⟨by rw [if_pos c5]; rfl, Nat.succ_ne_zero _⟩
        · rw [if_neg (by unfold COLOR_CHANGE; omega)] at hc
          injection hc with hc
          subst hc
          exact ⟨by rw [if_neg c5]; rfl, hs⟩
      have hst : (palStop q.2 c).1.length = (if c = 3 then 1 else 0) ∧ (palStop q.2 c).2.idx = q.2.idx := by
        unfold palStop STOP; split_ifs <;> exact ⟨rfl, rfl⟩
      cases hr : palette table threads (palStop q.2 c).2 cs with
      | error e => exact absurd h (by show ¬ (palette table threads (palStop q.2 c).2 cs >>= _) = _; rw [hr]; exact fun h => nomatch h)
      | ok r =>
        have h : Except.ok (q.1 ++ (palStop q.2 c).1 ++ r) = Except.ok (ε := PyErr) p := by
          rw [← h]; show _ = (palette table threads (palStop q.2 c).2 cs >>= _); rw [hr]; rfl
        injection h with h
        subst h
        have := ih _ r (by rw [hst.2]; exact hq.2) hr
        simp only [List.length_append, hq.1, hst.1, this, List.countP_cons, decide_eq_true_eq]
        split_ifs <;> omega

/-- The state after the first command has set the colour. -/
theorem palette_top (threads : List Thread) (c : Int) (cs : List Int) (p : List Nat) (hc : c ≠ 5)
    (h : palette table threads {} (c :: cs) = .ok p) :
    ∃ i t p', p = i :: p' ∧ i ≠ 0 ∧ i < table.length ∧ threads[0]? = some t ∧
      palette table threads ⟨1, some i, some t, false⟩ (c :: cs) = .ok p' := by
  unfold palette at h
  cases ht : threads[0]? with
  | none =>
    have e : palColor table threads {} c = .error .indexError := by
      unfold palColor; rw [if_pos (.inr rfl)]; simp only [ht]
    rw [e] at h; cases h
  | some t =>
    obtain ⟨i, hi, hi0, hi1⟩ := choose_ok none none t
    have e : palColor table threads {} c = .ok ([i], ⟨1, some i, some t, false⟩) := by
      unfold palColor; rw [if_pos (.inr rfl)]; simp only [ht, hi]; rfl
    rw [e] at h
    have e2 : palColor table threads ⟨1, some i, some t, false⟩ c = .ok ([], ⟨1, some i, some t, false⟩) := by
      unfold palColor; rw [if_neg]; simp [COLOR_CHANGE, hc]
    cases hr : palette table threads (palStop ⟨1, some i, some t, false⟩ c).2 cs with
    | error e =>
      exfalso
      have h : (palette table threads (palStop ⟨1, some i, some t, false⟩ c).2 cs >>= fun r =>
        Except.ok ([i] ++ (palStop ⟨1, some i, some t, false⟩ c).1 ++ r)) = Except.ok p := h
      rw [hr] at h; cases h
    | ok r =>
      have h : (palette table threads (palStop ⟨1, some i, some t, false⟩ c).2 cs >>= fun r =>
        Except.ok ([i] ++ (palStop ⟨1, some i, some t, false⟩ c).1 ++ r)) = Except.ok p := h
      rw [hr] at h
      injection h with h
      refine ⟨i, t, (palStop ⟨1, some i, some t, false⟩ c).1 ++ r, h.symm, hi0, hi1, rfl, ?_⟩
      unfold palette
      rw [e2]
      show (palette table threads (palStop ⟨1, some i, some t, false⟩ c).2 cs >>= _) = _
      rw [hr]; rfl

/-- C10: unless the pattern starts with a COLOR_CHANGE (5), the colour table has one entry more than there are colour
changes (5) and stops (3). -/
theorem C10_count_partial (threads : List Thread) (c : Int) (cs : List Int) (p : List Nat) (hc : c ≠ 5)
    (h : palette table threads {} (c :: cs) = .ok p) :
    p.length = (c :: cs).countP (fun c => c = 5 ∨ c = 3) + 1 := by
  obtain ⟨i, t, p', rfl, _, _, _, h'⟩ := palette_top threads c cs p hc h
  have := palette_length threads (c :: cs) _ p' (by simp) h'
  rw [List.length_cons, this]

/-- C10: the table is computed whenever there is a thread for the first colour and for every change. -/
theorem palette_total (threads : List Thread) (cs : List Int) (s : PalState)
    (h : s.idx + cs.countP (fun c => c = 5) + (if s.idx = 0 ∧ cs ≠ [] ∧ cs.head? ≠ some 5 then 1 else 0) ≤ threads.length) :
    ∃ p, palette table threads s cs = .ok p := by
  induction cs generalizing s with
  | nil => exact ⟨[], rfl⟩
  | cons c cs ih =>
    have key : ∃ q, palColor table threads s c = .ok q ∧
        q.2.idx = (if c = 5 ∨ s.idx = 0 then s.idx + 1 else s.idx) := by
      unfold palColor
      by_cases hc : c = COLOR_CHANGE ∨ s.idx = 0
      · rw [if_pos hc, if_pos (by exact hc)]
        have hlt : s.idx < threads.length := by
          by_cases c5 : c = 5
          · subst c5
            simp only [List.countP_cons, decide_true, if_true] at h
            omega
          · have h0 : s.idx = 0 := hc.resolve_left c5
            rw [if_pos ⟨h0, by simp, by simp [c5]⟩] at h
            omega
        rw [List.getElem?_eq_getElem hlt]
        simp only
        obtain ⟨i, hi, _⟩ := choose_ok s.lastIndex s.lastThread threads[s.idx]
        rw [hi]
        exact ⟨_, rfl, rfl⟩
      · rw [if_neg hc, if_neg (by exact hc)]
        exact ⟨_, rfl, rfl⟩
    obtain ⟨q, hq, hidx⟩ := key
    have hst : (palStop q.2 c).2.idx = q.2.idx := by unfold palStop; split_ifs <;> rfl
    obtain ⟨r, hr⟩ := ih (palStop q.2 c).2 (by
      rw [hst, hidx]
      by_cases hc : c = 5 ∨ s.idx = 0
      · rw [if_pos hc, if_neg (by omega)]
        by_cases c5 : c = 5
        · subst c5
          simp only [List.countP_cons, decide_true, if_true] at h
          omega
        · have h0 : s.idx = 0 := hc.resolve_left c5
          rw [if_pos ⟨h0, by simp, by simp [c5]⟩] at h
          simp only [List.countP_cons, c5, decide_false] at h
          simp at h
          omega
      · rw [if_neg hc, if_neg (by omega)]
        simp only [List.countP_cons] at h
        omega)
    refine ⟨q.1 ++ (palStop q.2 c).1 ++ r, ?_⟩
    unfold palette
    rw [hq]
    show (palette table threads (palStop q.2 c).2 cs >>= _) = _
    rw [hr]; rfl

/-! ## The body -/

/-- What the reader makes of a colour table entry. -/
def entry (v : Nat) : Option Nat := if v = 0 then none else some (v % table.length)

/-- The colours among them. -/
def kept (p : List Nat) : List (Option Nat) := (p.map entry).filter (·.isSome)

theorem readRecs_stop (T : List (Option Nat)) (k : Nat) (c0 c1 : Int) (rest : Bytes) (h : T[k]? = some none) :
    readRecs T k (0x80 :: 0x01 :: c0 :: c1 :: rest) =
      (readRecs (T.eraseIdx k) k rest >>= fun q => .ok (⟨0, 0, 3⟩ :: q.1, q.2)) := by
  rw [readRecs.eq_def]; simp [h, STOP]

theorem readRecs_change (T : List (Option Nat)) (k v : Nat) (c0 c1 : Int) (rest : Bytes) (h : T[k]? = some (some v)) :
    readRecs T k (0x80 :: 0x01 :: c0 :: c1 :: rest) =
      (readRecs T (k + 1) rest >>= fun q => .ok (⟨0, 0, 5⟩ :: q.1, q.2)) := by
  rw [readRecs.eq_def]; simp [h, COLOR_CHANGE]

theorem readRecs_jump (T : List (Option Nat)) (k : Nat) (c0 c1 : Int) (rest : Bytes) :
    readRecs T k (0x80 :: 0x02 :: c0 :: c1 :: rest) =
      (readRecs T k rest >>= fun q => .ok (⟨signed8 c0, -signed8 c1, 1⟩ :: q.1, q.2)) := by
  rw [readRecs.eq_def]; simp [JUMP]

theorem readRecs_stitch (T : List (Option Nat)) (k : Nat) (b0 b1 : Int) (rest : Bytes) (h : b0 ≠ 0x80) :
    readRecs T k (b0 :: b1 :: rest) =
      (readRecs T k rest >>= fun q => .ok (⟨signed8 b0, -signed8 b1, 0⟩ :: q.1, q.2)) := by
  rw [readRecs.eq_def]; simp [STITCH, h]

theorem readRecs_jumps (T : List (Option Nat)) (k n : Nat) (rest : Bytes) :
    readRecs T k ((List.replicate n [0x80, 0x02, 0x00, 0x00]).flatten ++ rest) =
      (readRecs T k rest >>= fun q => .ok (List.replicate n ⟨0, 0, 1⟩ ++ q.1, q.2)) := by
  induction n with
  | zero => simp; cases readRecs T k rest <;> rfl
  | succ n ih =>
    rw [List.replicate_succ, List.flatten_cons, List.append_assoc]
    simp only [List.cons_append, List.nil_append]
    rw [readRecs_jump, ih]
    cases readRecs T k rest <;> rfl

theorem bind_assoc' {α β γ : Type} (x : Except PyErr α) (f : α → Except PyErr β) (g : β → Except PyErr γ) :
    (x >>= f) >>= g = x >>= fun a => f a >>= g := by cases x <;> rfl

/-- Reading the written records, when the reader's thread list has the palette's entries for them from its current colour
on. -/
theorem body (trimAt : Option Nat) (threads : List Thread) (rs : List Rec) (s : PalState) (p : List Nat)
    (hok : ∀ r ∈ rs, RecOK 127 r ∧ r.cmd ≠ 9) (hs : s.idx ≠ 0) (hl : ∃ i, s.lastIndex = some i ∧ i ≠ 0)
    (h : palette table threads s (rs.map (·.cmd)) = .ok p) (pre post : List (Option Nat)) (rest : Bytes) :
    readRecs (pre ++ p.map entry ++ post) pre.length (rs.flatMap (writeRec trimAt) ++ rest) =
      (readRecs (pre ++ kept p ++ post) (pre.length + (kept p).length) rest >>= fun q =>
        .ok (shown (trimAt.getD 0) s.toggled rs ++ q.1, q.2)) := by
  have neg : ∀ v : Int, -127 ≤ v → v ≤ 127 → -signed8 (lo8 (-v)) = v := fun v h1 h2 => by
    unfold lo8; rw [signed8_mod _ (by omega) (by omega)]; omega
  have pos : ∀ v : Int, -127 ≤ v → v ≤ 127 → signed8 (lo8 v) = v := fun v h1 h2 => by
    unfold lo8; rw [signed8_mod _ (by omega) (by omega)]
  induction rs generalizing s p pre with
  | nil =>
    injection h with h; subst h
    simp [kept, shown]
    cases readRecs (pre ++ post) pre.length rest <;> rfl
  | cons r rs ih =>
    have ih := fun s p => ih s p (fun a ha => hok a (by simp [ha]))
    obtain ⟨hr, h9⟩ := hok r (by simp)
    obtain ⟨dx, dy, c⟩ := r
    unfold RecOK at hr
    simp only at hr h9
    simp only [List.map_cons] at h
    unfold palette at h
    -- commands without an entry
    have plain : c ≠ 5 → c ≠ 3 → palette table threads s (rs.map (·.cmd)) = .ok p := by
      intro c5 c3
      have e : palColor table threads s c = .ok ([], s) := by
        unfold palColor; rw [if_neg]; unfold COLOR_CHANGE; omega
      rw [e] at h
      have e2 : palStop s c = ([], s) := by unfold palStop; rw [if_neg (by unfold STOP; omega)]
      have h : (palette table threads (palStop s c).2 (rs.map (·.cmd)) >>= fun r =>
        Except.ok ([] ++ (palStop s c).1 ++ r)) = Except.ok p := h
      rw [e2] at h
      cases hh : palette table threads s (rs.map (·.cmd)) with
      | error e => rw [hh] at h; cases h
      | ok r => rw [hh] at h; injection h with h; rw [← h]; rfl
    rw [List.flatMap_cons, List.append_assoc (writeRec trimAt _)]
    rcases hr with ⟨hc | hc, h1, h2, h3, h4⟩ | ⟨hc, h1, h2⟩
    · subst hc
      have hw : writeRec trimAt ⟨dx, dy, 0⟩ = [lo8 dx, lo8 (-dy)] := rfl
      rw [hw, List.cons_append, List.cons_append, List.nil_append, readRecs_stitch _ _ _ _ _ (by unfold lo8; omega), ih s p hs hl (plain (by decide) (by decide)), bind_assoc',
        pos _ h1 h2, neg _ h3 h4]
      rfl
    · subst hc
      have hw : writeRec trimAt ⟨dx, dy, 1⟩ = [0x80, 0x02, lo8 dx, lo8 (-dy)] := rfl
      rw [hw]
      simp only [List.cons_append, List.nil_append]
      rw [readRecs_jump, ih s p hs hl (plain (by decide) (by decide)), bind_assoc', pos _ h1 h2, neg _ h3 h4]
      rfl
    · subst h1; subst h2
      rcases hc with rfl | rfl | rfl | rfl | rfl | rfl
      · have hw : writeRec trimAt ⟨0, 0, 2⟩ = (List.replicate (trimAt.getD 0) [0x80, 0x02, 0x00, 0x00]).flatten := rfl
        rw [hw, readRecs_jumps, ih s p hs hl (plain (by decide) (by decide)), bind_assoc']
        simp only [shown]
        congr 1
        funext q
        simp [bind, Except.bind]
      · -- STOP
        have e : palColor table threads s 3 = .ok ([], s) := by
          unfold palColor; rw [if_neg]; unfold COLOR_CHANGE; omega
        rw [e] at h
        obtain ⟨i, hi, hi0⟩ := hl
        have h : (palette table threads (palStop s 3).2 (rs.map (·.cmd)) >>= fun r =>
          Except.ok ([] ++ (palStop s 3).1 ++ r)) = Except.ok p := h
        have e2 : palStop s 3 = ([if (!s.toggled) = true then 0 else i], { s with toggled := !s.toggled }) := by
          unfold palStop; rw [if_pos (by rfl)]; simp [hi]
        rw [e2] at h
        cases hh : palette table threads { s with toggled := !s.toggled } (rs.map (·.cmd)) with
        | error e => rw [hh] at h; cases h
        | ok p' =>
          rw [hh] at h
          injection h with h
          have hw : writeRec trimAt ⟨0, 0, 3⟩ = [0x80, 0x01, 0, 0] := rfl
          rw [hw]
          simp only [List.cons_append, List.nil_append]
          have ih' := ih { s with toggled := !s.toggled } p' hs ⟨i, hi, hi0⟩ hh
          have hT : ∀ v, ∀ w : List (Option Nat), (pre ++ v :: w)[pre.length]? = some v := fun v w => by simp
          cases ht : s.toggled with
          | false =>
            have hp : p = 0 :: p' := by rw [← h, ht]; rfl
            subst hp
            have e3 : pre ++ List.map entry (0 :: p') ++ post = pre ++ none :: (List.map entry p' ++ post) := by
              simp [entry]
            have e4 : kept (0 :: p') = kept p' := by simp [kept, entry]
            rw [e3, readRecs_stop _ _ _ _ _ (hT _ _)]
            have e5 : (pre ++ none :: (List.map entry p' ++ post)).eraseIdx pre.length =
                pre ++ List.map entry p' ++ post := by
              rw [List.eraseIdx_append_of_length_le (Nat.le_refl _)]
              simp
            rw [e5, ih', e4, bind_assoc', ht]
            simp [shown, STOP, bind, Except.bind]
          | true =>
            have hp : p = i :: p' := by rw [← h, ht]; rfl
            subst hp
            have e3 : pre ++ List.map entry (i :: p') ++ post =
                pre ++ some (i % table.length) :: (List.map entry p' ++ post) := by
              simp [entry, hi0]
            have e4 : kept (i :: p') = some (i % table.length) :: kept p' := by simp [kept, entry, hi0]
            rw [e3, readRecs_change _ _ _ _ _ _ (hT _ _)]
            have e5 : pre ++ some (i % table.length) :: (List.map entry p' ++ post) =
                (pre ++ [some (i % table.length)]) ++ List.map entry p' ++ post := by simp
            have ih'' := ih' (pre ++ [some (i % table.length)])
            rw [List.length_append, List.length_singleton] at ih''
            rw [e5, ih'', e4, bind_assoc', ht]
            simp [shown, COLOR_CHANGE, bind, Except.bind, Nat.add_assoc, Nat.add_comm]
      · -- COLOR_CHANGE
        cases ht : threads[s.idx]? with
        | none =>
          have e : palColor table threads s 5 = .error .indexError := by
            unfold palColor; rw [if_pos (.inl rfl)]; simp only [ht]
          rw [e] at h; cases h
        | some t =>
          obtain ⟨i, hi, hi0, _⟩ := choose_ok s.lastIndex s.lastThread t
          have e : palColor table threads s 5 = .ok ([i], ⟨s.idx + 1, some i, some t, false⟩) := by
            unfold palColor; rw [if_pos (.inl rfl)]; simp only [ht, hi]; rfl
          rw [e] at h
          have h : (palette table threads ⟨s.idx + 1, some i, some t, false⟩ (rs.map (·.cmd)) >>= fun r =>
            Except.ok ([i] ++ [] ++ r)) = Except.ok p := h
          cases hh : palette table threads ⟨s.idx + 1, some i, some t, false⟩ (rs.map (·.cmd)) with
          | error e => rw [hh] at h; cases h
          | ok p' =>
            rw [hh] at h
            injection h with h
            have hp : p = i :: p' := by rw [← h]; rfl
            subst hp
            have hw : writeRec trimAt ⟨0, 0, 5⟩ = [0x80, 0x01, 0, 0] := rfl
            rw [hw]
            simp only [List.cons_append, List.nil_append]
            have hT : ∀ v, ∀ w : List (Option Nat), (pre ++ v :: w)[pre.length]? = some v := fun v w => by simp
            have e3 : pre ++ List.map entry (i :: p') ++ post =
                pre ++ some (i % table.length) :: (List.map entry p' ++ post) := by
              simp [entry, hi0]
            have e4 : kept (i :: p') = some (i % table.length) :: kept p' := by simp [kept, entry, hi0]
            have ih'' := ih _ p' (Nat.succ_ne_zero _) ⟨i, rfl, hi0⟩ hh (pre ++ [some (i % table.length)])
            rw [e3, readRecs_change _ _ _ _ _ _ (hT _ _)]
            have e5 : pre ++ some (i % table.length) :: (List.map entry p' ++ post) =
                (pre ++ [some (i % table.length)]) ++ List.map entry p' ++ post := by simp
            rw [List.length_append, List.length_singleton] at ih''
            rw [e5, ih'', e4, bind_assoc']
            simp [shown, COLOR_CHANGE, bind, Except.bind, Nat.add_assoc, Nat.add_comm]
      · exact absurd rfl h9
      · have := ih s p hs hl (plain (by decide) (by decide)) pre
        show readRecs _ _ (_) = _
        simpa [writeRec, STITCH, COLOR_CHANGE, STOP, TRIM, JUMP, shown] using this
      · have := ih s p hs hl (plain (by decide) (by decide)) pre
        show readRecs _ _ (_) = _
        simpa [writeRec, STITCH, COLOR_CHANGE, STOP, TRIM, JUMP, shown] using this

/-! ## Whole files -/

/-- `shown` for positioned commands: what a JEF file shows of an encoded pattern, up to and including its END (4). -/
def seen (n : Nat) : Bool → List Stitch → List Stitch
  | _, [] => []
  | t, a :: l =>
    if a.cmd = 0 ∨ a.cmd = 1 ∨ a.cmd = 4 then a :: seen n t l
    else if a.cmd = 2 then List.replicate n ⟨a.x, a.y, 1⟩ ++ seen n t l
    else if a.cmd = 5 then ⟨a.x, a.y, 5⟩ :: seen n false l
    else if a.cmd = 3 then ⟨a.x, a.y, if t then 5 else 3⟩ :: seen n (!t) l
    else seen n t l

theorem place_zeros (n : Nat) (x y : ℚ) (rs : List Rec) :
    place x y (List.replicate n ⟨0, 0, 1⟩ ++ rs) = List.replicate n ⟨x, y, 1⟩ ++ place x y rs := by
  induction n with
  | zero => rfl
  | succ n ih => rw [List.replicate_succ, List.cons_append, List.replicate_succ, List.cons_append]; simp [place, ih]

theorem place_shown (n : Nat) (rs : List Rec) (hok : ∀ r ∈ rs, RecOK 127 r) (t : Bool) (x y : ℚ) :
    place x y (shown n t rs ++ [⟨0, 0, 4⟩]) = seen n t (place x y (rs ++ [⟨0, 0, 4⟩])) := by
  induction rs generalizing t x y with
  | nil => simp [shown, place, seen]
  | cons r rs ih =>
    have ih := ih (fun a ha => hok a (by simp [ha]))
    obtain ⟨dx, dy, c⟩ := r
    have hr := hok ⟨dx, dy, c⟩ (by simp)
    unfold RecOK at hr
    simp only at hr
    rcases hr with ⟨hc | hc, _⟩ | ⟨hc, h1, h2⟩
    · subst hc; simp [shown, place, seen, ih]
    · subst hc; simp [shown, place, seen, ih]
    · subst h1; subst h2
      rcases hc with rfl | rfl | rfl | rfl | rfl | rfl
      · simp only [shown, List.append_assoc, List.cons_append, place, seen]
        simp [place_zeros, ih]
      · cases t <;> simp [shown, place, seen, ih]
      · simp [shown, place, seen, ih]
      · simp [shown, place, seen, ih]
      · simp [shown, place, seen, ih]
      · simp [shown, place, seen, ih]

theorem header_length (date : Bytes) (c n w h : Int) : (header date c n w h).length = date.length + 102 := by
  have h1 : ∀ a b, (hoopEdge a b).length = 16 := fun a b => by
    unfold hoopEdge; split_ifs <;> simp [writeInt32le]
  simp [header, h1, writeInt32le, writeInt8]

theorem header_front (date : Bytes) (c n w h : Int) :
    ∃ tail, header date c n w h = writeInt32le (0x74 + c * 8) ++ (writeInt32le 0x14 ++ (date ++ ([0, 0] ++
      (writeInt32le c ++ (writeInt32le n ++ tail))))) := by
  unfold header
  simp only [List.append_assoc]
  exact ⟨_, rfl⟩

theorem header_ints (date : Bytes) (c n w h : Int) (rest : Bytes) (hd : date.length = 14) :
    (readInt32le (header date c n w h ++ rest)).1 = some ((0x74 + c * 8) % 2 ^ 32) ∧
    (readInt32le ((header date c n w h ++ rest).drop 24)).1 = some (c % 2 ^ 32) ∧
    (readInt32le ((header date c n w h ++ rest).drop 28)).1 = some (n % 2 ^ 32) := by
  obtain ⟨tail, e⟩ := header_front date c n w h
  rw [e]
  have h1 : ∀ v, (writeInt32le v).length = 4 := fun _ => rfl
  simp only [List.append_assoc]
  refine ⟨?_, ?_, ?_⟩
  · rw [(C02_read_write _ _).2.2.2.2.2.1]
  · have : List.drop 24 (writeInt32le (0x74 + c * 8) ++ (writeInt32le 0x14 ++ (date ++ ([0, 0] ++
        (writeInt32le c ++ (writeInt32le n ++ (tail ++ rest))))))) = writeInt32le c ++ (writeInt32le n ++ (tail ++ rest)) := by
      simp [List.drop_append, h1, hd, writeInt32le, List.drop_eq_nil_of_le]
    rw [this, (C02_read_write _ _).2.2.2.2.2.1]
  · have : List.drop 28 (writeInt32le (0x74 + c * 8) ++ (writeInt32le 0x14 ++ (date ++ ([0, 0] ++
        (writeInt32le c ++ (writeInt32le n ++ (tail ++ rest))))))) = writeInt32le n ++ (tail ++ rest) := by
      simp [List.drop_append, h1, hd, writeInt32le, List.drop_eq_nil_of_le]
    rw [this, (C02_read_write _ _).2.2.2.2.2.1]

theorem colorTable_length (p : List Nat) : (colorTable p).length = 8 * p.length := by
  have : ∀ (f : Nat → Bytes), (∀ a, (f a).length = 4) → (p.flatMap f).length = 4 * p.length := by
    intro f hf
    rw [List.length_flatMap, List.map_congr_left (fun a _ => hf a)]
    simp; omega
  rw [colorTable, List.length_append, this _ (fun _ => rfl), this _ (fun _ => rfl)]
  omega

theorem readColors_table (p : List Nat) (rest : Bytes) (hp : ∀ i ∈ p, i < table.length) :
    readColors p.length (p.flatMap (fun t : Nat => writeInt32le (t : Int)) ++ rest) = .ok (p.map entry) := by
  induction p with
  | nil => rfl
  | cons i p ih =>
    have hi := hp i (by simp)
    have hlen : table.length = 79 := by decide +kernel
    rw [List.flatMap_cons, List.append_assoc, List.length_cons, readColors,
      (C02_read_write i _).2.2.2.2.2.1]
    simp only
    rw [ih (fun a ha => hp a (by simp [ha]))]
    have e : (i : Int) % 2 ^ 32 = i := by omega
    rw [e]
    simp [entry, bind, Except.bind]

/-- The indices written are indices of the table. -/
theorem palette_mem (threads : List Thread) (cs : List Int) (s : PalState) (p : List Nat)
    (hs : s.lastIndex.getD 0 < table.length)
    (h : palette table threads s cs = .ok p) : ∀ i ∈ p, i < table.length := by
  induction cs generalizing s p with
  | nil => injection h with h; subst h; simp
  | cons c cs ih =>
    unfold palette at h
    cases hc : palColor table threads s c with
    | error e => rw [hc] at h; cases h
    | ok q =>
      rw [hc] at h
      have hq : (∀ i ∈ q.1, i < table.length) ∧ q.2.lastIndex.getD 0 < table.length := by
        unfold palColor at hc
        split at hc
        · cases ht : threads[s.idx]? with
          | none => rw [ht] at hc; cases hc
          | some t =>
            rw [ht] at hc
            obtain ⟨i, hi, _, hl⟩ := choose_ok s.lastIndex s.lastThread t
            simp only [hi] at hc
            injection hc with hc
            subst hc
            exact ⟨by simpa using hl, hl⟩
        · injection hc with hc
          subst hc
          exact ⟨by simp, hs⟩
      have hst : (∀ i ∈ (palStop q.2 c).1, i < table.length) ∧ (palStop q.2 c).2.lastIndex.getD 0 < table.length := by
        unfold palStop
        split
        · refine ⟨?_, hq.2⟩
          intro i hi
          simp only [List.mem_singleton] at hi
          subst hi
          split
          · decide +kernel
          · exact hq.2
        · exact ⟨by simp, hq.2⟩
      have h : (palette table threads (palStop q.2 c).2 cs >>= fun r =>
        Except.ok (q.1 ++ (palStop q.2 c).1 ++ r)) = Except.ok p := h
      cases hr : palette table threads (palStop q.2 c).2 cs with
      | error e => rw [hr] at h; cases h
      | ok r =>
        rw [hr] at h
        injection h with h
        subst h
        have := ih _ r hst.2 hr
        intro i hi
        simp only [List.mem_append] at hi
        rcases hi with (hi | hi) | hi
        · exact hq.1 i hi
        · exact hst.1 i hi
        · exact this i hi

/-- C10: the first integer of the file is the offset of the stitch section, the integer at 24 the number of colours, and
the section is as long as the number of two-byte units at 28 says. -/
theorem C10_offset {trimAt : Option Nat} {date : Bytes} {w h : Int} {threads : List Thread} {l : List Stitch} {f : Bytes}
    (hd : date.length = 14) (hw : write trimAt date w h threads l = .ok f) :
    ∃ p body, palette table threads {} (l.map (fun a => a.low)) = .ok p ∧
      f.drop (116 + 8 * p.length) = body ∧ f.length = 116 + 8 * p.length + body.length ∧
      body = writeBody trimAt (deltas 0 0 l) ∧
      (readInt32le f).1 = some ((116 + 8 * (p.length : Int)) % 2 ^ 32) ∧
      (readInt32le (f.drop 24)).1 = some ((p.length : Int) % 2 ^ 32) ∧
      (readInt32le (f.drop 28)).1 = some (pointCount trimAt (l.map (fun a => a.low)) % 2 ^ 32) ∧
      (∀ n, readColors n (f.drop 116) =
        readColors n (p.flatMap (fun t : Nat => writeInt32le (t : Int)) ++ (p.flatMap (fun _ => writeInt32le 0x0D) ++ body))) := by
  have hw : (palette table threads {} (l.map (fun a => a.low)) >>= fun p =>
      Except.ok (header date p.length (pointCount trimAt (l.map (fun a => a.low))) w h ++ colorTable p ++
        writeBody trimAt (deltas 0 0 l))) = Except.ok f := hw
  cases hp : palette table threads {} (l.map (fun a => a.low)) with
  | error e => rw [hp] at hw; cases hw
  | ok p =>
    rw [hp] at hw
    injection hw with hw
    have hw : header date p.length (pointCount trimAt (l.map (fun a => a.low))) w h ++ (colorTable p ++
        writeBody trimAt (deltas 0 0 l)) = f := by rw [← hw, List.append_assoc]
    have hl := header_length date p.length (pointCount trimAt (l.map (fun a => a.low))) w h
    have hi := header_ints date p.length (pointCount trimAt (l.map (fun a => a.low))) w h
      (colorTable p ++ writeBody trimAt (deltas 0 0 l)) hd
    rw [hw] at hi
    generalize header date p.length (pointCount trimAt (l.map (fun a => a.low))) w h = hdr at hw hl
    rw [hd] at hl
    have hct := colorTable_length p
    refine ⟨p, writeBody trimAt (deltas 0 0 l), rfl, ?_, ?_, rfl, ?_, hi.2.1, hi.2.2, ?_⟩
    · rw [← hw, ← List.append_assoc]
      exact List.drop_left' (by rw [List.length_append, hl, hct])
    · rw [← hw, List.length_append, List.length_append, hl, hct]; omega
    · rw [hi.1]; congr 2; omega
    · intro n
      rw [← hw, List.drop_left' hl, colorTable, List.append_assoc]

/-- C10: the stitch section is as long as the header's count of two-byte units says. -/
theorem C10_units (trimAt : Option Nat) (l : List Stitch) :
    ((writeBody trimAt (deltas 0 0 l)).length : Int) = 2 * pointCount trimAt (l.map (fun a => a.low)) := by
  have key : ∀ rs : List Rec, ((writeBody trimAt rs).length : Int) = 2 * pointCount trimAt (rs.map (·.cmd)) := by
    intro rs
    induction rs with
    | nil => rfl
    | cons r rs ih =>
      have hz : ((List.replicate (trimAt.getD 0) [(0x80 : Int), 0x02, 0x00, 0x00]).flatten).length = 4 * trimAt.getD 0 := by
        simp; omega
      simp only [List.map_cons, writeBody, pointCount, writeRec, STITCH, JUMP, TRIM, COLOR_CHANGE, STOP, END] at ih ⊢
      by_cases c4 : r.cmd = 4
      · simp [c4]
      by_cases c0 : r.cmd = 0
      · simp only [c0]; simp [writeInt8]; omega
      by_cases c1 : r.cmd = 1
      · simp only [c1]; simp [writeInt8]; omega
      by_cases c2 : r.cmd = 2
      · simp only [c2]; simp; omega
      by_cases c5 : r.cmd = 5
      · simp only [c5]; simp [writeInt8]; omega
      by_cases c3 : r.cmd = 3
      · simp only [c3]; simp [writeInt8]; omega
      simp [c0, c1, c2, c3, c4, c5, ih]
  rw [key]
  congr 2
  exact deltas_cmds _ _ _

theorem writeBody_end (trimAt : Option Nat) (rs : List Rec) (h : ∀ r ∈ rs, r.cmd ≠ 4) (rest : List Rec) :
    writeBody trimAt (rs ++ ⟨0, 0, 4⟩ :: rest) = rs.flatMap (writeRec trimAt) ++ [0x80, 0x10] := by
  induction rs with
  | nil => rfl
  | cons r rs ih =>
    rw [List.cons_append, writeBody, if_neg (show ¬ r.cmd = END from h r (by simp)), ih (fun a ha => h a (by simp [ha])), List.flatMap_cons,
      List.append_assoc]

/-- One step of the palette loop once a colour is set. -/
theorem palette_step (threads : List Thread) (c : Int) (cs : List Int) (s : PalState) (p : List Nat) (i : Nat)
    (hs : s.idx ≠ 0) (hi : s.lastIndex = some i) (h : palette table threads s (c :: cs) = .ok p) :
    (c ≠ 5 ∧ c ≠ 3 ∧ palette table threads s cs = .ok p) ∨
    (c = 3 ∧ ∃ p', p = (if s.toggled then i else 0) :: p' ∧ palette table threads { s with toggled := !s.toggled } cs = .ok p') ∨
    (c = 5 ∧ ∃ j t p', j ≠ 0 ∧ p = j :: p' ∧ palette table threads ⟨s.idx + 1, some j, some t, false⟩ cs = .ok p') := by
  unfold palette at h
  by_cases c5 : c = 5
  · subst c5
    right; right
    refine ⟨rfl, ?_⟩
    cases ht : threads[s.idx]? with
    | none =>
      have e : palColor table threads s 5 = .error .indexError := by
        unfold palColor; rw [if_pos (.inl rfl)]; simp only [ht]
      rw [e] at h; cases h
    | some t =>
      obtain ⟨j, hj, hj0, _⟩ := choose_ok s.lastIndex s.lastThread t
      have e : palColor table threads s 5 = .ok ([j], ⟨s.idx + 1, some j, some t, false⟩) := by
        unfold palColor; rw [if_pos (.inl rfl)]; simp only [ht, hj]; rfl
      rw [e] at h
      have h : (palette table threads ⟨s.idx + 1, some j, some t, false⟩ cs >>= fun r =>
        Except.ok ([j] ++ [] ++ r)) = Except.ok p := h
      cases hh : palette table threads ⟨s.idx + 1, some j, some t, false⟩ cs with
      | error e => rw [hh] at h; cases h
      | ok p' => rw [hh] at h; injection h with h; exact ⟨j, t, p', hj0, h.symm, hh⟩
  · have e : palColor table threads s c = .ok ([], s) := by
      unfold palColor; rw [if_neg]; unfold COLOR_CHANGE; omega
    rw [e] at h
    have h : (palette table threads (palStop s c).2 cs >>= fun r => Except.ok ([] ++ (palStop s c).1 ++ r)) = Except.ok p := h
    by_cases c3 : c = 3
    · subst c3
      right; left
      refine ⟨rfl, ?_⟩
      have e2 : palStop s 3 = ([if (!s.toggled) = true then 0 else i], { s with toggled := !s.toggled }) := by
        unfold palStop; rw [if_pos (by rfl)]; simp [hi]
      rw [e2] at h
      cases hh : palette table threads { s with toggled := !s.toggled } cs with
      | error e => rw [hh] at h; cases h
      | ok p' =>
        rw [hh] at h
        injection h with h
        refine ⟨p', ?_, rfl⟩
        rw [← h]
        cases s.toggled <;> rfl
    · have e2 : palStop s c = ([], s) := by unfold palStop; rw [if_neg (by unfold STOP; omega)]
      rw [e2] at h
      left
      refine ⟨c5, c3, ?_⟩
      cases hh : palette table threads s cs with
      | error e => rw [hh] at h; cases h
      | ok r => rw [hh] at h; injection h with h; rw [← h]; rfl

theorem palette_end (threads : List Thread) (cs : List Int) (s : PalState) (hs : s.idx ≠ 0) :
    palette table threads s (cs ++ [4]) = palette table threads s cs := by
  induction cs generalizing s with
  | nil =>
    have e : palColor table threads s 4 = .ok ([], s) := by
      unfold palColor; rw [if_neg]; unfold COLOR_CHANGE; omega
    simp [palette, e, bind, Except.bind, palStop, STOP]
  | cons c cs ih =>
    rw [List.cons_append, palette, palette]
    cases hc : palColor table threads s c with
    | error e => rfl
    | ok q =>
      have : (palStop q.2 c).2.idx ≠ 0 := by
        have h1 : (palStop q.2 c).2.idx = q.2.idx := by unfold palStop; split_ifs <;> rfl
        rw [h1]
        unfold palColor at hc
        split at hc
        · cases ht : threads[s.idx]? with
          | none => rw [ht] at hc; cases hc
          | some t =>
            rw [ht] at hc
            obtain ⟨i, hi, _⟩ := choose_ok s.lastIndex s.lastThread t
            simp only [hi] at hc
            injection hc with hc
            subst hc
            exact Nat.succ_ne_zero _
        · injection hc with hc; subst hc; exact hs
      show (palette table threads (palStop q.2 c).2 (cs ++ [4]) >>= _) = (palette table threads (palStop q.2 c).2 cs >>= _)
      rw [ih _ this]

/-- The colours the reader keeps are as many as the colour changes it shows. -/
theorem kept_length (n : Nat) (threads : List Thread) (rs : List Rec) (s : PalState) (p : List Nat)
    (hs : s.idx ≠ 0) (hl : ∃ i, s.lastIndex = some i ∧ i ≠ 0)
    (h : palette table threads s (rs.map (·.cmd)) = .ok p) :
    (kept p).length = (shown n s.toggled rs).countP (fun r => r.cmd = 5) := by
  induction rs generalizing s p with
  | nil => injection h with h; subst h; rfl
  | cons r rs ih =>
    obtain ⟨i, hi, hi0⟩ := hl
    have k0 : ∀ p, kept (0 :: p) = kept p := fun p => by simp [kept, entry]
    have k1 : ∀ j p, j ≠ 0 → (kept (j :: p)).length = (kept p).length + 1 := fun j p hj => by simp [kept, entry, hj]
    rcases palette_step threads r.cmd _ s p i hs hi h with ⟨h5, h3, hp⟩ | ⟨h3, p', rfl, hp⟩ | ⟨h5, j, t, p', hj, rfl, hp⟩
    · rw [ih s p hs ⟨i, hi, hi0⟩ hp]
      rw [show shown n s.toggled (r :: rs) = _ from shown.eq_def _ _ _]
      simp only
      split_ifs
      · simp [h5]
      · rw [List.countP_append, List.countP_replicate]; simp
      · rfl
    · have := ih { s with toggled := !s.toggled } p' hs ⟨i, hi, hi0⟩ hp
      simp only at this
      simp only [shown, h3]
      cases ht : s.toggled with
      | false => rw [ht] at this; simpa [k0] using this
      | true => rw [ht] at this; simp [k1 i p' hi0]; simpa using this
    · have := ih _ p' (Nat.succ_ne_zero _) ⟨j, rfl, hj⟩ hp
      simp only [shown, h5]
      rw [k1 j p' hj, this]
      simp

theorem recOK_not_end {M : Int} {r : Rec} (h : RecOK M r) : r.cmd ≠ 4 := by
  rcases h with h | h <;> omega

variable {o : Settings} {lm : Libm} {threads ts : List Thread} {source out : List Stitch} {ths : List (Option Thread)}
  {trimAt : Option Nat} {date f : Bytes} {w h : Int}

/-- C10: a pattern that sews or changes colour can be written, whatever threads fill the places of unnamed ones. -/
theorem C10_written (hv : o.ValidSequins) (hc : o.changeCommand = 5) (hu : Uses source)
    (he : encode o lm threads source = .ok (out, ths)) (ht : ts.length = ths.length) :
    ∃ f, write trimAt date w h ts out = .ok f := by
  have hn := (C27_thread_count hv hc he).1 hu
  have hk : (out.map (fun a => cmdOf a.cmd)).countP (fun c => c = 5) = out.countP (fun a => a.low == 5) := by
    rw [List.countP_map]; congr 1
  obtain ⟨p, hp⟩ := palette_total ts (out.map (fun a => cmdOf a.cmd)) {} (by
    show 0 + _ + _ ≤ _
    rw [hk, ht, hn]
    split_ifs <;> omega)
  exact ⟨_, by unfold write; simp only [hp]; rfl⟩

/-- C09 and C10: for every source pattern that does not change the limits or switch sequins on and whose encoded form does
not start with a colour change, writing the encoded pattern and reading the file gives the encoded commands, at the
positions of the encoded pattern rounded to the grid, with the stops and colours as `seen` says; the reader does not run
off the colour table, and ends with one thread more than it shows colour changes. (The trims the reader then infers from
jumps are the subject of C50.) -/
theorem C09_roundtrip_partial (hlm : lm.Sound) (hv : o.ValidSequins) (hr : o.round = true)
    (h1 : o.maxStitch = some 127) (h2 : o.maxJump = some 127) (h3 : o.longStitch = 0xF1 ∨ o.longStitch = 0xF2)
    (hc : o.changeCommand ≠ 9) (hs : o.sequin ≠ 0xF5)
    (hq : ∀ st ∈ source, st.low ≠ 0xD5 ∧ st.low ≠ 0xD6 ∧ st.low ≠ 0xF0 ∧ st.low ≠ 0xF5)
    (he : encode o lm threads source = .ok (out, ths))
    (hd : date.length = 14) (hw : write trimAt date w h ts out = .ok f)
    (hfirst : ∀ a, out.head? = some a → a.low ≠ 5) (hsize : out.length < 2 ^ 28) :
    ∃ T, readPlain f = .ok (seen (trimAt.getD 0) false (place 0 0 (deltas 0 0 out)), T) ∧
      (∀ v ∈ T, v.isSome) ∧
      T.length = (seen (trimAt.getD 0) false (place 0 0 (deltas 0 0 out))).countP (fun a => a.cmd = 5) + 1 := by
  obtain ⟨l, e, rfl, hdl, hok⟩ := encoded_recs (M := 127) (by decide) hlm hv hr (by rw [h1]; norm_num)
    (by rw [h2]; norm_num) h3 hs hq he
  have hok' : ∀ r ∈ deltas 0 0 l, RecOK 127 r ∧ r.cmd ≠ 9 := fun r hr => ⟨(hok r hr).1, fun h9 => hc ((hok r hr).2.2 h9)⟩
  obtain ⟨p, bytes, hp, hb, _, hbe, hi1, hi2, _, hcol⟩ := C10_offset hd hw
  have hcmds : (l ++ [e]).map (fun a => a.low) = (deltas 0 0 l).map (·.cmd) ++ [4] := by
    have := deltas_cmds (l ++ [e]) 0 0
    rw [hdl, List.map_append] at this
    exact this.symm
  rw [hdl, writeBody_end _ _ (fun r hr => recOK_not_end (hok' r hr).1) []] at hbe
  -- the palette
  have hp0 := hp
  rw [hcmds] at hp
  have key : ∃ i t p', p = i :: p' ∧ i ≠ 0 ∧ palette table ts ⟨1, some i, some t, false⟩ ((deltas 0 0 l).map (·.cmd)) = .ok p' := by
    cases hcs : (deltas 0 0 l).map (·.cmd) with
    | nil =>
      rw [hcs] at hp
      obtain ⟨i, t, p', e1, e2, _, _, e3⟩ := palette_top ts 4 [] p (by decide) hp
      exact ⟨i, t, p', e1, e2, by rw [← palette_end]; exact e3; simp⟩
    | cons c cs =>
      rw [hcs, List.cons_append] at hp
      have hc5 : c ≠ 5 := by
        cases hl : l with
        | nil => rw [hl] at hcs; simp [deltas] at hcs
        | cons a l' =>
          rw [hl] at hcs hfirst
          have := hfirst a rfl
          simp only [deltas, List.map_cons, List.cons.injEq] at hcs
          rw [← hcs.1]; exact this
      obtain ⟨i, t, p', e1, e2, _, _, e3⟩ := palette_top ts c (cs ++ [4]) p hc5 hp
      exact ⟨i, t, p', e1, e2, by rw [← palette_end]; exact e3; simp⟩
  obtain ⟨i, t, p', rfl, hi0, hp'⟩ := key
  have hrange : ∀ j ∈ i :: p', j < table.length := palette_mem ts _ {} _ (by decide +kernel) hp0
  have hT : readColors ((i :: p').length) (f.drop 116) = .ok ((i :: p').map entry) := by
    rw [hcol, readColors_table _ _ hrange]
  have hlen : (i :: p').length ≤ 2 ^ 28 := by
    have := palette_length ts _ _ p' (by simp) hp'
    have h2 := List.countP_le_length (p := fun c : Int => decide (c = 5 ∨ c = 3)) (l := (deltas 0 0 l).map (·.cmd))
    have h3 : ((deltas 0 0 l).map (·.cmd)).length + 1 = (l ++ [e]).length := by
      have := congrArg List.length hcmds
      simpa using this.symm
    simp only [List.length_cons]
    omega
  have e1 : (((i :: p').length : Int) % 2 ^ 32).toNat = (i :: p').length := by omega
  have e2 : ((116 + 8 * ((i :: p').length : Int)) % 2 ^ 32).toNat = 116 + 8 * (i :: p').length := by omega
  have hbody := body trimAt ts (deltas 0 0 l) ⟨1, some i, some t, false⟩ p' hok' (by simp) ⟨i, rfl, hi0⟩ hp'
    [entry i] [] [0x80, 0x10]
  refine ⟨entry i :: kept p', ?_, ?_, ?_⟩
  · unfold readPlain
    rw [hi1, hi2]
    simp only
    rw [e1, e2, hb, hT, hbe]
    have e3 : List.map entry (i :: p') = [entry i] ++ List.map entry p' ++ [] := by simp
    have e4 : readRecs ([entry i] ++ kept p' ++ []) ([entry i].length + (kept p').length) [0x80, 0x10] =
        .ok ([], [entry i] ++ kept p' ++ []) := rfl
    rw [e4] at hbody
    show (readRecs (List.map entry (i :: p')) 1 _ >>= _) = _
    rw [e3]
    have hbody : readRecs ([entry i] ++ List.map entry p' ++ []) 1 ((deltas 0 0 l).flatMap (writeRec trimAt) ++ [0x80, 0x10])
      = _ := hbody
    rw [hbody, hdl, ← place_shown _ _ (fun r hr => (hok' r hr).1)]
    simp [bind, Except.bind, END]
  · intro v hv
    rcases List.mem_cons.1 hv with rfl | hv
    · simp [entry, hi0]
    · simpa using (List.mem_filter.1 hv).2
  · rw [hdl, ← place_shown _ _ (fun r hr => (hok' r hr).1)]
    have hk := kept_length (trimAt.getD 0) ts (deltas 0 0 l) _ p' (by simp) ⟨i, rfl, hi0⟩ hp'
    have hcnt : ∀ (rs : List Rec) (x y : ℚ), (place x y rs).countP (fun a => a.cmd = 5) = rs.countP (fun r => r.cmd = 5) := by
      intro rs
      induction rs with
      | nil => intros; rfl
      | cons r rs ih => intro x y; simp [place, List.countP_cons, ih]
    rw [hcnt, List.countP_append, ← hk]
    rfl

/-- C10: the colour chosen at a change is not the previous one unless the two threads are equal. -/
theorem C10_distinct (threads : List Thread) (s : PalState) (q : List Nat × PalState) (t t' : Thread) (i : Nat)
    (hi : s.lastIndex = some i) (ht : s.lastThread = some t) (ht' : threads[s.idx]? = some t') (hne : t.same t' = false)
    (h : palColor table threads s 5 = .ok q) : ∃ j, q.1 = [j] ∧ j ≠ i := by
  unfold palColor at h
  rw [if_pos (.inl rfl)] at h
  simp only [ht', hi, ht] at h
  cases hc : choose table (some i) (some t) t' with
  | error e => rw [hc] at h; cases h
  | ok j =>
    rw [hc] at h
    injection h with h
    subst h
    refine ⟨j, rfl, ?_⟩
    rintro rfl
    unfold choose at hc
    cases hf : findNearest t'.color table with
    | none => rw [hf] at hc; cases hc
    | some k =>
      rw [hf] at hc
      simp only [Option.some.injEq, differs, hne, Bool.not_false, and_true] at hc
      by_cases hk : j = k
      · rw [if_pos hk] at hc
        subst hk
        cases hg : findNearest t'.color (table.set j none) with
        | none => rw [hg] at hc; cases hc
        | some m =>
          rw [hg] at hc
          injection hc with hc
          subst hc
          obtain ⟨u, hu, _⟩ := ((C38_nearest _ _).2 m).1 hg
          rw [List.getElem?_set] at hu
          by_cases hl : m < table.length <;> simp [hl] at hu
      · rw [if_neg hk] at hc
        injection hc with hc
        exact hk hc.symm

/-- C10: the colour chosen at a change is the nearest one of the table. Only the previous colour is passed over, and only if
the thread differs from the previous one: two equal threads in a row get one and the same colour. -/
theorem C10_nearest (threads : List Thread) (s : PalState) (q : List Nat × PalState) (t t' : Thread) (i : Nat)
    (hi : s.lastIndex = some i) (ht : s.lastThread = some t) (ht' : threads[s.idx]? = some t')
    (h : palColor table threads s 5 = .ok q) :
    ∃ j u, q.1 = [j] ∧ table[j]? = some (some u) ∧
      ∀ (k : Nat) (v : Thread), table[k]? = some (some v) → (k ≠ i ∨ t.same t' = true) →
        distTo t'.color u ≤ distTo t'.color v := by
  unfold palColor at h
  rw [if_pos (.inl rfl)] at h
  simp only [ht', hi, ht] at h
  cases hc : choose table (some i) (some t) t' with
  | error e => rw [hc] at h; cases h
  | ok j =>
    rw [hc] at h
    injection h with h
    subst h
    unfold choose at hc
    cases hf : findNearest t'.color table with
    | none => rw [hf] at hc; cases hc
    | some n =>
      rw [hf] at hc
      obtain ⟨u, hu, hmin⟩ := ((C38_nearest _ _).2 n).1 hf
      by_cases hk : some i = some n ∧ differs (some t) t' = true
      · simp only [if_pos hk] at hc
        obtain ⟨rfl⟩ := hk.1
        cases hg : findNearest t'.color (table.set i none) with
        | none => rw [hg] at hc; cases hc
        | some m =>
          rw [hg] at hc
          injection hc with hc
          subst hc
          obtain ⟨w, hw, hmin'⟩ := ((C38_nearest _ _).2 m).1 hg
          rw [List.getElem?_set] at hw
          have hm : i ≠ m := by
            rintro rfl
            by_cases hl : i < table.length <;> simp [hl] at hw
          rw [if_neg hm] at hw
          refine ⟨m, w, rfl, hw, fun k v hv hor => ?_⟩
          have hne : k ≠ i := by
            rcases hor with h | h
            · exact h
            · have := hk.2
              simp [differs, h] at this
          exact (hmin' k v (by rw [List.getElem?_set, if_neg (Ne.symm hne)]; exact hv)).1
      · simp only [if_neg hk] at hc
        injection hc with hc
        subst hc
        exact ⟨n, u, rfl, hu, fun k v hv _ => (hmin k v hv).1⟩

/-- The JEF settings, `JefWriter.py` 7-11. -/
def settings : Settings where
  maxStitch := some 127
  maxJump := some 127
  fullJump := true
  round := true
  sequinContingency := some CONTINGENCY_SEQUIN_JUMP

/-- Writing and reading a pattern (used in examples only). -/
def roundtrip (trimAt : Option Nat) (threads : List Thread) (l : List Stitch) : Except PyErr (List Stitch × List (Option Nat)) :=
  write trimAt (List.replicate 14 48) 100 50 threads (demoEncode settings l) >>= readPlain

/-- Is this the exception `e`? (used in examples only) -/
def raises {α : Type} (e : PyErr) : Except PyErr α → Bool
  | .ok _ => false
  | .error e' => e' == e

/-- What came out, if anything did (used in examples only). -/
def result {α : Type} : Except PyErr α → Option α
  | .ok a => some a
  | .error _ => none

example : settings.ValidSequins ∧ settings.changeCommand = 5 ∧ settings.sequin ≠ 0xF5 :=
  ⟨fun v h => by injection h with h; subst h; exact .inr (.inl rfl), rfl, by decide⟩

example : result (roundtrip (some 2) [{ color := 0xFF0000 }, { color := 0xFF0001 }] demoPattern) =
    some ([⟨0, 0, 0⟩, ⟨5, 3, 0⟩, ⟨5, 3, 1⟩, ⟨5, 3, 1⟩, ⟨-97, 3, 1⟩, ⟨-198, 4, 1⟩, ⟨-300, 4, 1⟩, ⟨-300, 4, 0⟩,
      ⟨-300, 4, 3⟩, ⟨-301, 4, 1⟩, ⟨-301, 4, 0⟩, ⟨-301, 4, 5⟩, ⟨-301, -4, 1⟩, ⟨-301, -4, 0⟩, ⟨-301, -4, 4⟩],
      [some 10, some 74]) := by decide +kernel

example : ((result (palColor table [{ color := 0xFF0000 }, { color := 0xFF0000 }]
      { idx := 1, lastIndex := some 10, lastThread := some { color := 0xFF0000 } } 5)).map (·.1) = some [10]) ∧
    ((result (palColor table [{ color := 0xFF0000 }, { color := 0xFE0000 }]
      { idx := 1, lastIndex := some 10, lastThread := some { color := 0xFF0000 } } 5)).map (·.1) = some [74]) := by
  decide +kernel

/-- Why encoded patterns that start with a colour change are excluded from C09 and C10: this one, with the two threads it
needs, gets one colour in the table and one colour record, and the reader runs off the table. -/
theorem C10_leading_change :
    raises .indexError (roundtrip none [{ color := 1 }, { color := 2 }] [⟨0, 0, 5⟩, ⟨0, 0, 5⟩, ⟨1, 0, 0⟩, ⟨1, 0, 4⟩]) = true := by
  decide +kernel

/-- Why C10 asks for something sewn or coloured: the empty pattern, encoded, has no thread, and writing it fails. -/
theorem C10_empty_fails : raises .indexError (write none (List.replicate 14 48) 0 0 [] (demoEncode settings [])) = true := by
  decide +kernel

end Jef
end Emb
