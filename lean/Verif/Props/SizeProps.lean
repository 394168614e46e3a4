import Verif.Props.ReaderProps
import Verif.Props.CutFileProps
import Verif.Props.Commands
import Verif.Containers
import Verif.SmallFiles
import Verif.DstRead
import Verif.Jef
import Verif.Xxx
import Verif.Tbf
import Verif.Shv
import Verif.Vp3
import Verif.Hus
import Verif.Pes
import Verif.Props.CompressProps

/-!
# C106: a file is read as no more than it holds
-/

namespace Emb
namespace Size
open Blocks

/-- The list ends with an END command. -/
def Ended (l : List Stitch) : Prop := ∃ m e, l = m ++ [e] ∧ e.cmd = END

/-- At most one command per byte, and the END; at most one thread per byte. -/
def Held (n : Nat) (l : List Stitch) (threads : Nat) : Prop := Ended l ∧ l.length ≤ n + 1 ∧ threads ≤ n

/-- Reading gives a pattern the file can hold, or raises one of the exceptions. -/
def Opens {α : Type} (errors : List PyErr) (n : Nat) (stitches : α → List Stitch) (threads : α → Nat) (r : Except PyErr α) : Prop :=
  (∃ d, r = .ok d ∧ Held n (stitches d) (threads d)) ∨ ∃ e ∈ errors, r = .error e

/-! ## Small numbers from files -/

theorem rest8 (s : Bytes) : (readInt8 s).2 = s.drop 1 := by rw [readInt8]; split <;> simp_all [readN]
theorem rest16le (s : Bytes) : (readInt16le s).2 = s.drop 2 := by rw [readInt16le]; split <;> simp_all [readN]
theorem rest16be (s : Bytes) : (readInt16be s).2 = s.drop 2 := by rw [readInt16be]; split <;> simp_all [readN]
theorem rest24be (s : Bytes) : (readInt24be s).2 = s.drop 3 := by rw [readInt24be]; split <;> simp_all [readN]
theorem rest32le (s : Bytes) : (readInt32le s).2 = s.drop 4 := by rw [readInt32le]; split <;> simp_all [readN]
theorem rest32be (s : Bytes) : (readInt32be s).2 = s.drop 4 := by rw [readInt32be]; split <;> simp_all [readN]

theorem has8 {s : Bytes} {v : Int} (h : (readInt8 s).1 = some v) : 1 ≤ s.length := by
  by_contra c
  rw [((C02_short s).1).2 (by omega)] at h; cases h
theorem has16le {s : Bytes} {v : Int} (h : (readInt16le s).1 = some v) : 2 ≤ s.length := by
  by_contra c
  rw [((C02_short s).2.1).2 (by omega)] at h; cases h
theorem has16be {s : Bytes} {v : Int} (h : (readInt16be s).1 = some v) : 2 ≤ s.length := by
  by_contra c
  rw [((C02_short s).2.2.1).2 (by omega)] at h; cases h
theorem has24be {s : Bytes} {v : Int} (h : (readInt24be s).1 = some v) : 3 ≤ s.length := by
  by_contra c
  rw [((C02_short s).2.2.2.2.1).2 (by omega)] at h; cases h
theorem has32le {s : Bytes} {v : Int} (h : (readInt32le s).1 = some v) : 4 ≤ s.length := by
  by_contra c
  rw [((C02_short s).2.2.2.2.2.1).2 (by omega)] at h; cases h
theorem has32be {s : Bytes} {v : Int} (h : (readInt32be s).1 = some v) : 4 ≤ s.length := by
  by_contra c
  rw [((C02_short s).2.2.2.2.2.2).2 (by omega)] at h; cases h

/-! ## Endings -/

theorem ended_place (x y : ℚ) (l : List Rec) : Ended (place x y (l ++ [⟨0, 0, END⟩])) :=
  ⟨place x y l, _, by rw [place_append]; rfl, rfl⟩

theorem place_len (x y : ℚ) (l : List Rec) : (place x y l).length = l.length := Readers.place_length l x y

theorem itStep_len (j : Option Int) (d : Option ℚ) (c : Bool) (p : List Stitch × ITState) (st : Stitch) :
    (itStep j d c p st).1.length ≤ p.1.length + 2 := by
  have hins : ∀ (l : List Stitch) (i : Nat) (a : Stitch), (pyInsert l i a).length ≤ l.length + 1 := by
    intro l i a
    rw [pyInsert]
    simp only [List.length_append, List.length_cons, List.length_take, List.length_drop]
    omega
  unfold itStep
  dsimp only
  split_ifs <;> simp only [List.length_take] <;>
    first
    | (have := hins (p.1 ++ [st]) p.1.length ⟨(posBefore (p.1 ++ [st]) p.1.length).1, (posBefore (p.1 ++ [st]) p.1.length).2, TRIM⟩
       simp only [List.length_append, List.length_cons, List.length_nil] at this ⊢
       omega)
    | (refine (Nat.min_le_right _ _).trans ((hins _ _ _).trans ?_); simp)
    | (refine ((hins _ _ _).trans ?_); simp)

theorem itStep_other (j : Option Int) (d : Option ℚ) (c : Bool) (p : List Stitch × ITState) (st : Stitch) (h : cmdOf st.cmd ≠ JUMP) :
    (itStep j d c p st).1 = p.1 ++ [st] := by
  unfold itStep
  dsimp only
  rw [if_neg h]

theorem trims_len (j : Option Int) (d : Option ℚ) (c : Bool) (l : List Stitch) (e : Stitch) (he : e.cmd = END) :
    Ended (interpolateTrims j d c (l ++ [e])) ∧ (interpolateTrims j d c (l ++ [e])).length ≤ 2 * l.length + 1 := by
  have hc : cmdOf e.cmd ≠ JUMP := by rw [he]; decide
  have h : ∀ (l : List Stitch) (p : List Stitch × ITState), (l.foldl (itStep j d c) p).1.length ≤ p.1.length + 2 * l.length := by
    intro l
    induction l with
    | nil => intro p; simp
    | cons a l ih =>
      intro p
      have h1 := ih (itStep j d c p a)
      have h2 := itStep_len j d c p a
      simp only [List.foldl_cons, List.length_cons]
      omega
  have h0 := h l ([], ITState.init)
  rw [interpolateTrims, List.foldl_append, List.foldl_cons, List.foldl_nil, itStep_other _ _ _ _ _ hc]
  refine ⟨⟨_, e, rfl, he⟩, ?_⟩
  simp only [List.length_nil] at h0
  rw [List.length_append, List.length_singleton]
  omega

theorem stopped_ended {l m : List Stitch} (h : List.Forall₂ Ops.Stopped l m) (he : Ended l) : Ended m := by
  obtain ⟨k, e, rfl, hc⟩ := he
  have h2 := List.forall₂_reverse_iff.2 h
  rw [List.reverse_append] at h2
  cases hm : m.reverse with
  | nil => rw [hm] at h2; cases h2
  | cons b r =>
    rw [hm] at h2
    cases h2 with
    | cons h3 _ =>
      refine ⟨r.reverse, b, by rw [← List.reverse_reverse m, hm, List.reverse_cons], ?_⟩
      rcases h3 with rfl | ⟨h3, -⟩
      · exact hc
      · rw [Stitch.low, hc] at h3
        exact absurd h3 (by decide)

theorem dup_threads {τ : Type} (eqv : τ → τ → Bool) : ∀ (l acc : List Stitch) (T : List τ) (ti : Nat) (init : Bool) (last : Option Nat),
    (Ops.dupLoop eqv acc T ti init last l).2.length ≤ T.length := by
  intro l
  induction l with
  | nil => intros; exact le_refl _
  | cons a l ih =>
    intro acc T ti init last
    rw [Ops.dupLoop.eq_def]
    dsimp only
    split
    · split
      · split
        · exact ih _ _ _ _ _
        · split
          · exact ih _ _ _ _ _
          · split
            · split
              · refine (ih _ _ _ _ _).trans ?_
                rw [List.length_eraseIdx]
                split <;> omega
              · exact ih _ _ _ _ _
            · exact le_refl _
      · exact ih _ _ _ _ _
    · split
      · exact ih _ _ _ _ _
      · exact ih _ _ _ _ _

theorem stops_held {n : Nat} {d : Pec.Design} (h : Held n d.stitches d.threads.length) : Held n d.stops.stitches d.stops.threads.length := by
  have hs : List.Forall₂ Ops.Stopped d.stitches d.stops.stitches := by
    have := Ops.dupLoop_stopped Thread.same d.stitches [] [] d.threads 0 true none .nil (by simp)
    exact this
  exact ⟨stopped_ended hs h.1, hs.length_eq ▸ h.2.1, (dup_threads _ _ _ _ _ _ _).trans h.2.2⟩

/-! ## Results -/

/-- The result satisfies `P`, or the exception is one of `E`. -/
def Res {α : Type} (E : List PyErr) (P : α → Prop) (r : Except PyErr α) : Prop := (∃ q, r = .ok q ∧ P q) ∨ ∃ e ∈ E, r = .error e

theorem Res.bind {α β : Type} {P : α → Prop} {Q : β → Prop} {E : List PyErr} {r : Except PyErr α} {g : α → Except PyErr β}
    (h : Res E P r) (hg : ∀ q, P q → Res E Q (g q)) : Res E Q (r >>= g) := by
  rcases h with ⟨q, rfl, hq⟩ | ⟨e, he, rfl⟩
  · exact hg q hq
  · exact .inr ⟨e, he, rfl⟩

theorem Res.map {α β : Type} {P : α → Prop} {Q : β → Prop} {E : List PyErr} {r : Except PyErr α} {g : α → β}
    (h : Res E P r) (hg : ∀ q, P q → Q (g q)) : Res E Q (r.map g) := by
  rcases h with ⟨q, rfl, hq⟩ | ⟨e, he, rfl⟩
  · exact .inl ⟨_, rfl, hg q hq⟩
  · exact .inr ⟨e, he, rfl⟩

theorem Res.ok {α : Type} {P : α → Prop} {E : List PyErr} {a : α} (h : P a) : Res E P (.ok a) := .inl ⟨a, rfl, h⟩
theorem Res.err {α : Type} {P : α → Prop} {E : List PyErr} {e : PyErr} (h : e ∈ E) : Res E P (.error e) := .inr ⟨e, h, rfl⟩
theorem Res.ite {α : Type} {P : α → Prop} {E : List PyErr} {c : Prop} [Decidable c] {a b : Except PyErr α}
    (ha : c → Res E P a) (hb : ¬ c → Res E P b) : Res E P (if c then a else b) := by
  split
  · exact ha ‹_›
  · exact hb ‹_›
theorem Res.more {α : Type} {P Q : α → Prop} {E F : List PyErr} {r : Except PyErr α} (h : Res E P r) (hE : ∀ e ∈ E, e ∈ F)
    (hP : ∀ a, P a → Q a) : Res F Q r := by
  rcases h with ⟨q, h, hq⟩ | ⟨e, he, h⟩
  · exact .inl ⟨q, h, hP q hq⟩
  · exact .inr ⟨e, hE e he, h⟩

/-! ## JEF -/

theorem jef_colors (n : Nat) : ∀ f, Res [.typeError] (fun T => T.length ≤ f.length) (Jef.readColors n f) := by
  induction n with
  | zero => intro f; exact .ok (by simp)
  | succ n ih =>
    intro f
    rw [Jef.readColors]
    cases hr : readInt32le f with
    | mk a r =>
      cases a with
      | none => exact .err (by simp)
      | some v =>
        have h1 := has32le (s := f) (v := v) (by rw [hr])
        have h2 := rest32le f
        rw [hr] at h2
        dsimp only at h2 ⊢
        subst h2
        refine (ih _).bind fun T hT => .ok ?_
        rw [List.length_drop] at hT
        rw [List.length_cons]
        omega

theorem jef_recs : ∀ (T : List (Option Nat)) (k : Nat) (b : Bytes),
    Res [.indexError] (fun q => 2 * q.1.length ≤ b.length ∧ q.2.length ≤ T.length) (Jef.readRecs T k b)
  | T, k, [] => by rw [Jef.readRecs.eq_def]; exact .ok ⟨by simp, le_refl _⟩
  | T, k, [_] => by rw [Jef.readRecs.eq_def]; exact .ok ⟨by simp, le_refl _⟩
  | T, k, b0 :: b1 :: rest => by
    rw [Jef.readRecs.eq_def]
    refine .ite (fun _ => ?_) (fun _ => ?_)
    · refine (jef_recs T k rest).bind fun q hq => .ok ⟨?_, hq.2⟩
      simp only [List.length_cons]; omega
    · match rest with
      | [] => exact .ok ⟨by simp, le_refl _⟩
      | [_] => exact .ok ⟨by simp, le_refl _⟩
      | c0 :: c1 :: rest =>
        refine .ite (fun _ => ?_) (fun _ => .ite (fun _ => ?_) (fun _ => .ok ⟨by simp, le_refl _⟩))
        · refine (jef_recs T k rest).bind fun q hq => .ok ⟨?_, hq.2⟩
          simp only [List.length_cons]; omega
        · cases hT : T[k]? with
          | none => exact .err (by simp)
          | some t =>
            cases t with
            | none =>
              refine (jef_recs (T.eraseIdx k) k rest).bind fun q hq => .ok ⟨?_, hq.2.trans ?_⟩
              · simp only [List.length_cons]; omega
              · rw [List.length_eraseIdx]; split <;> omega
            | some t =>
              refine (jef_recs T (k + 1) rest).bind fun q hq => .ok ⟨?_, hq.2⟩
              simp only [List.length_cons]; omega
termination_by _ _ b => b.length

theorem held_trims {n k : Nat} (j : Option Int) (d : Option ℚ) (c : Bool) (l : List Rec) (h : 2 * l.length ≤ n) (hk : k ≤ n) :
    Held n (interpolateTrims j d c (place 0 0 (l ++ [⟨0, 0, END⟩]))) k := by
  have := trims_len j d c (place 0 0 l) ⟨(placeEnd 0 0 l).1 + (0 : Int), (placeEnd 0 0 l).2 + (0 : Int), END⟩ rfl
  rw [place_append]
  refine ⟨this.1, this.2.trans ?_, hk⟩
  rw [place_len]
  omega

theorem held_place {n k : Nat} (l : List Rec) (h : l.length ≤ n) (hk : k ≤ n) : Held n (place 0 0 (l ++ [⟨0, 0, END⟩])) k := by
  refine ⟨ended_place _ _ _, ?_, hk⟩
  rw [place_len, List.length_append, List.length_singleton]
  omega

/-- C106: JEF. -/
theorem C106_jef (trimAt : Option Int) (dist : Option ℚ) (clip : Bool) (f : Bytes) :
    Opens [.typeError, .indexError] f.length Prod.fst (fun q => q.2.length) (Jef.read trimAt dist clip f) := by
  show Res _ _ _
  rw [Jef.read, Jef.readPlain]
  cases (readInt32le (f.drop 24)).1 with
  | none => exact .err (by simp)
  | some n =>
    cases (readInt32le f).1 with
    | none => exact .err (by simp)
    | some o =>
      refine Res.bind (P := fun q => ∃ l : List Rec, q.1 = place 0 0 (l ++ [⟨0, 0, END⟩]) ∧ 2 * l.length ≤ f.length ∧ q.2.length ≤ f.length) ?_ ?_
      · refine ((jef_colors n.toNat (f.drop 116)).more (by simp) (fun _ h => h)).bind fun T hT => ?_
        refine ((jef_recs T 1 (f.drop o.toNat)).more (by simp) (fun _ h => h)).bind fun q hq => .ok ⟨_, rfl, ?_⟩
        rw [List.length_drop] at hT hq
        dsimp only
        omega
      · rintro q ⟨l, h1, h2, h3⟩
        refine .ok ?_
        show Held _ (interpolateTrims _ _ _ q.1) _
        rw [h1]
        exact held_trims _ _ _ l h2 h3

/-! ## XXX -/

theorem xxx_recs : ∀ b : Bytes, Res [.typeError] (fun q => q.1.length + q.2.length ≤ b.length) (Xxx.readRecs b)
  | [] => by rw [Xxx.readRecs]; exact .err (by simp)
  | b1 :: rest => by
    rw [Xxx.readRecs.eq_def]
    refine .ite (fun _ => ?_) (fun _ => ?_)
    · match rest with
      | x0 :: x1 :: y0 :: y1 :: rest =>
        refine (xxx_recs rest).bind fun q hq => .ok ?_
        simp only [List.length_cons]; omega
      | [] => exact .err (by simp)
      | [_] => exact .err (by simp)
      | [_, _] => exact .err (by simp)
      | [_, _, _] => exact .err (by simp)
    · match rest with
      | [] => exact .err (by simp)
      | b2 :: rest =>
        refine .ite (fun _ => ?_) (fun _ => ?_)
        · refine (xxx_recs rest).bind fun q hq => .ok ?_
          simp only [List.length_cons]; omega
        · match rest with
          | [] => exact .ite (fun _ => .ok (by simp)) (fun _ => .err (by simp))
          | [_] => exact .ite (fun _ => .ok (by simp)) (fun _ => .err (by simp))
          | b3 :: b4 :: rest =>
            refine .ite (fun _ => ?_) (fun _ => .ite (fun _ => ?_) (fun _ => .ite (fun _ => ?_) (fun _ => .ite (fun _ => .ok ?_) (fun _ => ?_))))
            · refine (xxx_recs rest).bind fun q hq => .ok ?_
              simp only [List.length_cons]; omega
            · refine (xxx_recs rest).bind fun q hq => .ok ?_
              split <;> simp only [List.length_cons, List.length_append, List.length_nil] <;> omega
            · refine (xxx_recs rest).bind fun q hq => .ok ?_
              simp only [List.length_cons]; omega
            · simp only [List.length_cons, List.length_nil]; omega
            · refine (xxx_recs rest).more (fun _ h => h) fun q hq => ?_
              simp only [List.length_cons]; omega
termination_by b => b.length

theorem xxx_threads (n : Nat) : ∀ b : Bytes, (Xxx.readThreads n b).length ≤ b.length := by
  induction n with
  | zero => intro b; simp [Xxx.readThreads]
  | succ n ih =>
    intro b
    rw [Xxx.readThreads]
    cases hr : readInt32be b with
    | mk a r =>
      cases a with
      | none => simp
      | some v =>
        have h1 := has32be (s := b) (v := v) (by rw [hr])
        have h2 := rest32be b
        rw [hr] at h2
        dsimp only at h2 ⊢
        subst h2
        have := ih (b.drop 4)
        rw [List.length_drop] at this
        rw [List.length_cons]
        omega

/-- C106: XXX. -/
theorem C106_xxx (f : Bytes) : Opens [.typeError] f.length Prod.snd (fun q => q.1.length) (Xxx.read f) := by
  show Res _ _ _
  rw [Xxx.read]
  refine (xxx_recs (f.drop 0x100)).bind fun q hq => ?_
  rw [List.length_drop] at hq
  cases (readInt16le (f.drop 0x27)).1 with
  | none => exact .err (by simp)
  | some n =>
    refine .ok (held_place _ (by omega) ?_)
    have := xxx_threads n.toNat (q.2.drop 2)
    rw [List.length_drop] at this
    dsimp only
    omega

/-! ## TBF -/

theorem tbf_threads : ∀ b : Bytes, (Tbf.readThreads b).length ≤ b.length
  | [] => by simp [Tbf.readThreads]
  | v :: rest => by
    rw [Tbf.readThreads]
    split
    · have := tbf_threads (rest.drop 4)
      rw [List.length_drop] at this
      simp only [List.length_cons]
      omega
    · simp
termination_by b => b.length

theorem tbf_recs (order : Bytes) : ∀ (k : Nat) (b : Bytes), Res [.indexError] (fun q => q.length ≤ b.length) (Tbf.readRecs order k b)
  | k, [] => by rw [Tbf.readRecs.eq_def]; exact .ok (by simp)
  | k, [_] => by rw [Tbf.readRecs.eq_def]; exact .ok (by simp)
  | k, [_, _] => by rw [Tbf.readRecs.eq_def]; exact .ok (by simp)
  | k, x :: y :: c :: rest => by
    have step : ∀ (k : Nat) (r : Rec), Res [.indexError] (fun q : List Rec => q.length ≤ (x :: y :: c :: rest).length)
        (Tbf.readRecs order k rest >>= fun t => .ok (r :: t)) := by
      intro k r
      refine (tbf_recs order k rest).bind fun q hq => .ok ?_
      simp only [List.length_cons]; omega
    rw [Tbf.readRecs.eq_def]
    refine .ite (fun _ => step _ _) (fun _ => .ite (fun _ => ?_) (fun _ => .ite (fun _ => step _ _) (fun _ =>
      .ite (fun _ => step _ _) (fun _ => .ite (fun _ => step _ _) (fun _ => .ok (by simp))))))
    cases order[k]? with
    | none => exact .err (by simp)
    | some v => exact step _ _
termination_by _ b => b.length

/-- C106: TBF. -/
theorem C106_tbf (f : Bytes) : Opens [.attributeError, .indexError] f.length Tbf.Loaded.stitches (fun d => d.threads.length) (Tbf.read f) := by
  show Res _ _ _
  rw [Tbf.read]
  cases decodeUtf8 ((f.drop 0x83).take 0x10) with
  | none => exact .err (by simp)
  | some name =>
    refine ((tbf_recs _ 0 (f.drop 0x600)).more (by simp) (fun _ h => h)).bind fun q hq => .ok (held_place q ?_ ?_)
    · rw [List.length_drop] at hq
      omega
    · have := tbf_threads (f.drop 0x20E)
      rw [List.length_drop] at this
      dsimp only
      omega

/-! ## SHV -/

theorem shv_recs : ∀ (s : Shv.State) (b : Bytes), Res [.typeError] (fun q => q.length ≤ b.length) (Shv.recs s b)
  | s, [] => by rw [Shv.recs.eq_def]; exact .ok (by simp)
  | s, [_] => by rw [Shv.recs.eq_def]; exact .ok (by simp)
  | s, b0 :: b1 :: rest => by
    have hc : (Shv.change s).1.length ≤ 1 := by rw [Shv.change]; split <;> simp
    rw [Shv.recs.eq_def]
    refine .ite (fun _ => ?_) (fun _ => .ite (fun _ => ?_) (fun _ => .ite (fun _ => ?_) (fun _ => ?_)))
    · refine (shv_recs _ rest).map fun q hq => ?_
      simp only [List.length_cons, List.length_append]; omega
    · refine (shv_recs _ rest).map fun q hq => ?_
      simp only [List.length_cons, List.length_append]; omega
    · match rest with
      | x0 :: x1 :: y0 :: y1 :: rest =>
        refine (shv_recs _ rest).map fun q hq => ?_
        simp only [List.length_cons, List.length_append]; omega
      | [] => exact .err (by simp)
      | [_] => exact .err (by simp)
      | [_, _] => exact .err (by simp)
      | [_, _, _] => exact .err (by simp)
    · refine (shv_recs _ rest).map fun q hq => ?_
      simp only [List.length_cons, List.length_append]; omega
termination_by _ b => b.length

theorem shv_colours (n : Nat) : ∀ b : Bytes, Res [.typeError] (fun q => q.length ≤ b.length) (Shv.colours n b) := by
  induction n with
  | zero => intro b; exact .ok (by simp)
  | succ n ih =>
    intro b
    rw [Shv.colours]
    cases h1 : (readInt32be b).1 with
    | none => exact .err (by simp)
    | some count =>
      cases h2 : (readInt8 (b.drop 4)).1 with
      | none => exact .err (by simp)
      | some code =>
        have hl := has8 h2
        rw [List.length_drop] at hl
        dsimp only
        cases h3 : shvThreads[(code % 43).toNat]? with
        | none =>
          have h4 := List.getElem?_eq_none_iff.1 h3
          have h5 : shvThreads.length = 43 := by decide +kernel
          omega
        | some t =>
          refine (ih _).map fun q hq => ?_
          rw [List.length_drop] at hq
          rw [List.length_cons]
          omega

/-- C106: SHV. -/
theorem C106_shv (f : Bytes) : Opens [.typeError, .keyError] f.length Shv.Found.stitches (fun d => d.threads.length) (Shv.read f) := by
  show Res _ _ _
  rw [Shv.read]
  cases (readInt8 (f.drop 0x56)).1 with
  | none => exact .err (by simp)
  | some length =>
    dsimp only
    cases (readInt8 (f.drop (0x57 + length.toNat))).1 with
    | none => exact .err (by simp)
    | some width =>
      cases (readInt8 (f.drop (0x57 + length.toNat + 1))).1 with
      | none => exact .err (by simp)
      | some height =>
        dsimp only
        split
        · exact .err (by simp)
        · refine ((shv_colours _ _).more (by simp) (fun _ h => h)).bind fun cs hcs => ?_
          rw [List.length_drop] at hcs
          cases cs with
          | nil => exact .err (by simp)
          | cons c rest =>
            refine ((shv_recs _ _).more (by simp) (fun _ h => h)).map fun q hq => held_place q ?_ ?_
            · rw [List.length_drop] at hq
              omega
            · rw [List.length_map]
              omega

/-! ## VP3 -/

theorem le_adv (f : Bytes) (p n : Nat) : p ≤ Vp3.adv f p n := Nat.le_add_right _ _

theorem vp3_colors (f : Bytes) (n : Nat) : ∀ c p, p ≤ (Vp3.readColors f n c p).2 := by
  induction n with
  | zero => intro c p; exact le_refl _
  | succ n ih =>
    intro c p
    rw [Vp3.readColors]
    refine le_trans ?_ (ih _ _)
    exact (le_adv f p 3).trans ((le_adv f _ 1).trans (le_adv f _ 2))

theorem vp3_string (f : Bytes) (p : Nat) : p ≤ (Vp3.readString f p).2 := by
  rw [Vp3.readString]
  split
  · rename_i q h
    have : q = Vp3.adv f p 2 := (congrArg Prod.snd h).symm
    rw [this]
    exact le_adv f p 2
  · rename_i n q h
    have : q = Vp3.adv f p 2 := (congrArg Prod.snd h).symm
    rw [this]
    exact (le_adv f p 2).trans (le_adv f _ _)

theorem vp3_thread (f : Bytes) (p : Nat) : Res [.typeError] (fun t => p ≤ t.2) (Vp3.readThread f p) := by
  rw [Vp3.readThread]
  cases h : Vp3.r8 f p with
  | mk a q =>
    have hq : q = Vp3.adv f p 1 := (congrArg Prod.snd h).symm
    cases a with
    | none => exact .err (by simp)
    | some n =>
      refine .ok ?_
      dsimp only
      rw [hq]
      refine le_trans ?_ (vp3_string _ _)
      refine le_trans ?_ (vp3_string _ _)
      refine le_trans ?_ (vp3_string _ _)
      refine le_trans ?_ (le_adv _ _ _)
      refine le_trans ?_ (le_adv _ _ _)
      refine le_trans ?_ (vp3_colors _ _ _ _)
      exact (le_adv f p 1).trans (le_adv f _ 1)

theorem vp3_stitches : ∀ (b : Build Vp3.RThread) (l : List Int),
    Res [.indexError] (fun r => r.stitches.length ≤ b.stitches.length + l.length ∧ r.threads = b.threads) (Vp3.readStitches b l)
  | b, [] => by rw [Vp3.readStitches.eq_def]; exact .ok ⟨by simp, rfl⟩
  | b, [_] => by rw [Vp3.readStitches.eq_def]; exact .ok ⟨by simp, rfl⟩
  | b, x :: y :: rest => by
    have hr : ∀ (b : Build Vp3.RThread) (c : Int) (u v : ℚ), (b.rel c u v).stitches.length = b.stitches.length + 1 ∧ (b.rel c u v).threads = b.threads := by
      intro b c u v
      exact ⟨by simp [Build.rel, Build.abs], rfl⟩
    rw [Vp3.readStitches.eq_def]
    refine .ite (fun _ => ?_) (fun _ => .ite (fun _ => ?_) (fun _ => .ite (fun _ => ?_) (fun _ => ?_)))
    · refine (vp3_stitches _ rest).more (fun _ h => h) fun r h => ?_
      rw [(hr _ _ _ _).1, (hr _ _ _ _).2] at h
      refine ⟨?_, h.2⟩
      simp only [List.length_cons]; omega
    · match rest with
      | a0 :: a1 :: b0 :: b1 :: _ :: _ :: rest =>
        refine (vp3_stitches _ rest).more (fun _ h => h) fun r h => ?_
        rw [(hr _ _ _ _).1, (hr _ _ _ _).2] at h
        refine ⟨?_, h.2⟩
        simp only [List.length_cons]; omega
      | [a0, a1, b0, b1] =>
        refine .ok ⟨?_, (hr _ _ _ _).2⟩
        rw [(hr _ _ _ _).1]
        simp only [List.length_cons]; omega
      | [a0, a1, b0, b1, _] =>
        refine .ok ⟨?_, (hr _ _ _ _).2⟩
        rw [(hr _ _ _ _).1]
        simp only [List.length_cons]; omega
      | [] => exact .err (by simp)
      | [_] => exact .err (by simp)
      | [_, _] => exact .err (by simp)
      | [_, _, _] => exact .err (by simp)
    · refine (vp3_stitches _ rest).more (fun _ h => h) fun r h => ?_
      rw [(hr _ _ _ _).1, (hr _ _ _ _).2] at h
      refine ⟨?_, h.2⟩
      simp only [List.length_cons]; omega
    · refine (vp3_stitches _ rest).more (fun _ h => h) fun r h => ⟨?_, h.2⟩
      simp only [List.length_cons]; omega
termination_by _ l => l.length

theorem adv_eq {f : Bytes} {p n : Nat} (h : p + n ≤ f.length) : Vp3.adv f p n = p + n := by
  rw [Vp3.adv]; omega

theorem vp3_hundredths (f : Bytes) (p : Nat) : Res [.typeError] (fun t => t.2 = p + 4 ∧ p + 4 ≤ f.length) (Vp3.hundredths f p) := by
  rw [Vp3.hundredths]
  cases h : Vp3.r32 f p with
  | mk a q =>
    have hq : q = Vp3.adv f p 4 := (congrArg Prod.snd h).symm
    cases a with
    | none => exact .err (by simp)
    | some v =>
      have h4 := has32be (s := f.drop p) (v := v) (congrArg Prod.fst h)
      rw [List.length_drop] at h4
      refine .ok ⟨?_, by omega⟩
      rw [hq, adv_eq (by omega)]

/-- A block takes more bytes than it adds commands. -/
theorem vp3_block (f : Bytes) (cx cy : ℚ) (b : Build Vp3.RThread) (p : Nat) :
    Res [.typeError, .indexError] (fun r => r.1.stitches.length + 2 + (f.length - r.2) ≤ b.stitches.length + (f.length - p) ∧
      r.1.threads.length + (f.length - r.2) ≤ b.threads.length + (f.length - p)) (Vp3.readBlock f cx cy b p) := by
  rw [Vp3.readBlock]
  dsimp only
  have h0 := le_adv f p 3
  generalize Vp3.adv f p 3 = p0 at h0
  cases h : Vp3.r32 f p0 with
  | mk a q =>
    have hq : q = Vp3.adv f p0 4 := (congrArg Prod.snd h).symm
    cases a with
    | none => exact .err (by simp)
    | some d =>
      have h4 := has32be (s := f.drop p0) (v := d) (congrArg Prod.fst h)
      rw [List.length_drop] at h4
      rw [adv_eq (by omega)] at hq
      dsimp only
      refine ((vp3_hundredths f q).more (by simp) (fun _ h => h)).bind fun sx hx => ?_
      refine ((vp3_hundredths f sx.2).more (by simp) (fun _ h => h)).bind fun sy hy => ?_
      refine ((vp3_thread f sy.2).more (by simp) (fun _ h => h)).bind fun t ht => ?_
      have h5 := le_adv f (t.2 + 15) 3
      generalize Vp3.adv f (t.2 + 15) 3 = p5 at h5
      generalize hbytes : (if d + (q : Int) - (p5 : Int) < 0 then f.drop p5 else (f.drop p5).take (d + (q : Int) - (p5 : Int)).toNat) = bytes
      have hl : bytes.length ≤ f.length - p5 := by
        rw [← hbytes]
        split <;> simp
      generalize hb : (if sx.1 + cx ≠ 0 ∧ -sy.1 + cy ≠ 0 then b.abs JUMP (sx.1 + cx) (-sy.1 + cy) else b) = b1
      have hb1 : b1.stitches.length ≤ b.stitches.length + 1 ∧ b1.threads = b.threads := by
        rw [← hb]
        split
        · exact ⟨by simp [Build.abs], rfl⟩
        · exact ⟨by omega, rfl⟩
      refine ((vp3_stitches _ _).more (by simp) (fun _ h => h)).bind fun r hr => .ok ?_
      rw [hr.2]
      have hr1 := hr.1
      rw [List.length_map] at hr1
      dsimp only at hr1 ⊢
      rw [List.length_append, List.length_singleton, hb1.2]
      omega

theorem vp3_blocks (f : Bytes) (cx cy : ℚ) (n : Nat) : ∀ (b : Build Vp3.RThread) (p : Nat),
    Res [.typeError, .indexError] (fun r => r.stitches.length ≤ b.stitches.length + (f.length - p) ∧
      r.threads.length ≤ b.threads.length + (f.length - p)) (Vp3.readBlocks f cx cy n b p) := by
  induction n with
  | zero => intro b p; exact .ok ⟨by omega, by omega⟩
  | succ n ih =>
    intro b p
    rw [Vp3.readBlocks]
    refine (vp3_block f cx cy b p).bind fun r hr => ?_
    generalize hb : (if n = 0 then r.1 else r.1.rel COLOR_CHANGE 0 0) = b1
    have hb1 : b1.stitches.length ≤ r.1.stitches.length + 1 ∧ b1.threads = r.1.threads := by
      rw [← hb]
      split
      · exact ⟨by omega, rfl⟩
      · exact ⟨by simp [Build.rel, Build.abs], rfl⟩
    refine (ih b1 r.2).more (fun _ h => h) fun q hq => ?_
    rw [hb1.2] at hq
    omega

theorem vp3_skip (f : Bytes) (p : Nat) : Res [.typeError] (fun _ => True) (Vp3.skipString f p) := by
  rw [Vp3.skipString]
  split
  · exact .err (by simp)
  · exact .ok trivial

/-- C106: VP3. -/
theorem C106_vp3 (f : Bytes) : Opens [.typeError, .indexError] f.length (fun b : Build Vp3.RThread => b.stitches) (fun b => b.threads.length) (Vp3.read f) := by
  show Res _ _ _
  rw [Vp3.read]
  refine ((vp3_skip f _).more (by simp) (fun _ h => h)).bind fun p1 _ => ?_
  refine ((vp3_skip f _).more (by simp) (fun _ h => h)).bind fun p2 _ => ?_
  refine ((vp3_hundredths f _).more (by simp) (fun _ h => h)).bind fun cx _ => ?_
  refine ((vp3_hundredths f _).more (by simp) (fun _ h => h)).bind fun cy _ => ?_
  refine ((vp3_skip f _).more (by simp) (fun _ h => h)).bind fun p3 _ => ?_
  refine ((vp3_skip f _).more (by simp) (fun _ h => h)).bind fun p4 _ => ?_
  split
  · exact .err (by simp)
  · refine (vp3_blocks f cx.1 (-cy.1) _ {} _).bind fun b hb => .ok ?_
    have h1 : (({} : Build Vp3.RThread)).stitches.length = 0 := rfl
    have h2 : (({} : Build Vp3.RThread)).threads.length = 0 := rfl
    rw [h1, h2] at hb
    refine ⟨⟨_, _, rfl, rfl⟩, ?_, ?_⟩
    · simp only [Build.rel, Build.abs, List.length_append, List.length_singleton]
      omega
    · show b.threads.length ≤ _
      omega

/-! ## PEC and PES -/

theorem emit_len (j t : Bool) (x y : Int) : (Pec.emit j t x y).length ≤ 2 := by
  rw [Pec.emit]; split_ifs <;> simp

theorem pec_recs : ∀ b : Bytes, (Pec.readRecs b).length ≤ b.length
  | [] => by rw [Pec.readRecs.eq_def]; simp
  | [_] => by rw [Pec.readRecs.eq_def]; simp
  | v1 :: v2 :: rest => by
    rw [Pec.readRecs.eq_def]
    dsimp only
    split_ifs
    · simp
    · match rest with
      | [] => simp
      | _ :: rest => have := pec_recs rest; simp only [List.length_cons]; omega
    · match rest with
      | [] => simp
      | w :: rest =>
        dsimp only
        split_ifs
        · match rest with
          | [] => simp
          | w2 :: rest =>
            have := pec_recs rest
            have := emit_len (Pec.hasJump v1 || Pec.hasJump w) (Pec.hasTrim v1 || Pec.hasTrim w) (Pec.signed12 (v1 * 256 + v2)) (Pec.signed12 (w * 256 + w2))
            simp only [List.length_cons, List.length_append]; omega
        · have := pec_recs rest
          have := emit_len (Pec.hasJump v1) (Pec.hasTrim v1) (Pec.signed12 (v1 * 256 + v2)) (Pec.signed7 w)
          simp only [List.length_cons, List.length_append]; omega
    · match rest with
      | [] => simp
      | v3 :: rest =>
        have := pec_recs rest
        have := emit_len (Pec.hasJump v2) (Pec.hasTrim v2) (Pec.signed7 v1) (Pec.signed12 (v2 * 256 + v3))
        simp only [List.length_cons, List.length_append]; omega
    · have := pec_recs rest
      have := emit_len false false (Pec.signed7 v1) (Pec.signed7 v2)
      simp only [List.length_cons, List.length_append]; omega
termination_by b => b.length

theorem section_held (f : Bytes) (p n k : Nat) (h : f.length ≤ n) (hk : k ≤ n) : Held n (Pec.readSection (f.drop p)) k := by
  rw [Pec.readSection]
  refine held_place _ ?_ hk
  have := pec_recs (f.drop p)
  rw [List.length_drop] at this
  omega

theorem table_len : ∀ (b : Bytes) (seen : List (Int × Option Thread)) (chart : List Thread), (Pec.tableLoop seen chart b).length = b.length := by
  intro b
  induction b with
  | nil => intros; rw [Pec.tableLoop.eq_def]; rfl
  | cons v b ih =>
    intro seen chart
    rw [Pec.tableLoop.eq_def]
    dsimp only
    split
    · simp [ih]
    · split <;> simp [ih]

theorem map_len (chart : List Thread) (colors : Bytes) : (Pec.mapColors chart colors).length ≤ max chart.length colors.length := by
  rw [Pec.mapColors]
  split_ifs
  · simp
  · simp
  · rw [table_len]; omega

theorem pec_held (chart : List Thread) (f : Bytes) (n : Nat) (h : f.length ≤ n) (hc : chart.length ≤ n) :
    Res [.typeError, .indexError] (fun d => Held n d.stitches d.threads.length) (Pec.readPattern chart f) := by
  rw [Pec.readPattern]
  have hr : Res [.typeError] (fun d => d.colors.length ≤ n ∧ ∃ p, d.stitches = Pec.readSection (f.drop p)) (Pec.read f) := by
    rw [Pec.read]
    split
    · dsimp only
      split
      · exact .err (by simp)
      · refine .ok ⟨?_, _, rfl⟩
        simp only [List.length_take, List.length_drop]
        omega
    · exact .err (by simp)
  rcases hr with ⟨d, h1, h2, p, h3⟩ | ⟨e, he, h1⟩
  · rw [h1]
    dsimp only
    refine .ite (fun _ => .err (by simp)) (fun _ => .ok ?_)
    dsimp only
    rw [h3]
    refine section_held f p n _ h ?_
    rw [List.length_map]
    have := map_len chart d.colors
    omega
  · rw [h1]
    exact .err (by simp at he; simp [he])

/-- C106: PEC. -/
theorem C106_pec (f : Bytes) : Opens [.typeError, .indexError] f.length Pec.Design.stitches (fun d => d.threads.length) (Pec.readFile f) := by
  show Res _ _ _
  rw [Pec.readFile]
  exact (pec_held [] (f.drop 8) f.length (by simp) (by simp)).map fun d hd => stops_held hd

theorem pes_string (s : Bytes) : (Pes.readString s).2.length ≤ s.length := by
  rw [Pes.readString]
  have h8 := rest8 s
  split
  · rename_i r h
    rw [h] at h8
    dsimp only at h8 ⊢
    rw [h8, List.length_drop]; omega
  · rename_i n r h
    rw [h] at h8
    dsimp only at h8 ⊢
    split
    · rw [h8, List.length_drop]; omega
    · rw [h8, List.length_drop, List.length_drop]; omega

theorem pes_thread (s : Bytes) : Res [.typeError] (fun r => r.2.length + 1 ≤ s.length) (Pes.readThread s) := by
  rw [Pes.readThread]
  dsimp only
  have h1 := pes_string s
  generalize Pes.readString s = a at h1
  cases h : readInt24be a.2 with
  | mk v r =>
    cases v with
    | none => exact .err (by simp)
    | some v =>
      have h2 := has24be (s := a.2) (v := v) (by rw [h])
      have h3 := rest24be a.2
      rw [h] at h3
      dsimp only at h3 ⊢
      refine .ok ?_
      dsimp only
      have e1 := pes_string (r.drop 5)
      have e2 := pes_string (Pes.readString (r.drop 5)).2
      have e3 := pes_string (Pes.readString (Pes.readString (r.drop 5)).2).2
      rw [List.length_drop, h3, List.length_drop] at e1
      rw [h3] at e2 e3 ⊢
      omega

theorem pes_threads (n : Nat) : ∀ s : Bytes, Res [.typeError] (fun l => l.length ≤ s.length) (Pes.readThreads n s) := by
  induction n with
  | zero => intro s; exact .ok (by simp)
  | succ n ih =>
    intro s
    rw [Pes.readThreads]
    refine (pes_thread s).bind fun r hr => (ih r.2).map fun l hl => ?_
    rw [List.length_cons]
    omega

theorem pes_chart (s : Bytes) : Res [.typeError] (fun l => l.length ≤ s.length) (Pes.readChart s) := by
  rw [Pes.readChart]
  dsimp only
  refine .ite (fun _ => .ok (by simp)) (fun _ => .ite (fun _ => .ok (by simp)) (fun _ => .ite (fun _ => .ok (by simp)) (fun _ => ?_)))
  have h1 := rest16le s
  have h2 := rest16le (readInt16le s).2
  have h3 := rest16le (readInt16le (readInt16le s).2).2
  have h4 := rest16le (readInt16le (readInt16le (readInt16le s).2).2).2
  split
  · exact .err (by simp)
  · rename_i n r h
    refine (pes_threads _ _).more (fun _ h => h) fun l hl => hl.trans ?_
    rw [h] at h4
    dsimp only at h4
    rw [h4, h3, h2, h1]
    simp only [List.length_drop]
    omega

theorem pes_meta (s : Bytes) : (Pes.readMeta s).2.length ≤ s.length := by
  have e1 := pes_string s
  have e2 := pes_string (Pes.readString s).2
  have e3 := pes_string (Pes.readString (Pes.readString s).2).2
  have e4 := pes_string (Pes.readString (Pes.readString (Pes.readString s).2).2).2
  have e5 := pes_string (Pes.readString (Pes.readString (Pes.readString (Pes.readString s).2).2).2).2
  show (Pes.readString (Pes.readString (Pes.readString (Pes.readString (Pes.readString s).2).2).2).2).2.length ≤ _
  omega

theorem pes_header (key : String) (a b : Nat) (s : Bytes) : Res [.typeError] (fun r => r.2.length ≤ s.length) (Pes.readHeader key a b s) := by
  rw [Pes.readHeader]
  have h1 := pes_meta (s.drop 4)
  have h2 := pes_string ((Pes.readMeta (s.drop 4)).2.drop a)
  rw [List.length_drop] at h1 h2
  refine (pes_chart _).map fun l hl => ?_
  rw [List.length_drop] at hl
  show l.length ≤ _
  omega

theorem pes_hoop (a : Nat) (s : Bytes) : Res [.typeError] (fun r => r.2.length ≤ s.length) (Pes.readHoopHeader a s) := by
  rw [Pes.readHoopHeader]
  have h1 := pes_meta (s.drop 4)
  have h2 := pes_string ((Pes.readMeta (s.drop 4)).2.drop 14)
  have h3 := pes_string ((Pes.readString ((Pes.readMeta (s.drop 4)).2.drop 14)).2.drop a)
  rw [List.length_drop] at h1 h2 h3
  refine (pes_chart _).map fun l hl => ?_
  rw [List.length_drop] at hl
  show l.length ≤ _
  omega

theorem pes_version (sig : Option Str) (s : Bytes) : Res [.typeError] (fun r => r.2.2.length ≤ s.length) (Pes.readVersion sig s) := by
  rw [Pes.readVersion]
  have H := fun k a b (v : Option ℚ) => (pes_header k a b s).map (g := fun r => (v, r)) (Q := fun r => r.2.2.length ≤ s.length) fun _ h => h
  have G := fun a (v : Option ℚ) => (pes_hoop a s).map (g := fun r => (v, r)) (Q := fun r => r.2.2.length ≤ s.length) fun _ h => h
  refine .ite (fun _ => G _ _) (fun _ => .ite (fun _ => G _ _) (fun _ => .ite (fun _ => H _ _ _ _) (fun _ => .ite (fun _ => H _ _ _ _)
    (fun _ => .ite (fun _ => H _ _ _ _) (fun _ => .ite (fun _ => H _ _ _ _) (fun _ => .ite (fun _ => H _ _ _ _)
    (fun _ => .ite (fun _ => H _ _ _ _) (fun _ => ?_))))))))
  split_ifs <;> exact .ok (by simp)

/-- C106: PES. -/
theorem C106_pes (f : Bytes) : Opens [.typeError, .indexError] f.length (fun d : Pes.Design => d.pec.stitches) (fun d => d.pec.threads.length) (Pes.readFile f) := by
  show Res _ _ _
  rw [Pes.readFile]
  refine .ite (fun _ => ?_) (fun _ => ?_)
  · exact (pec_held [] (f.drop 8) f.length (by simp) (by simp)).map fun d hd => stops_held hd
  · dsimp only
    refine ((pes_version _ _).more (by simp) (fun _ h => h)).bind fun h hh => ?_
    rw [rest32le, List.length_drop, List.length_drop] at hh
    split
    · exact .err (by simp)
    · exact (pec_held h.2.2 (f.drop _) f.length (by simp) (by omega)).map fun d hd => stops_held hd

/-! ## PHB, PHC, STX -/

theorem phb_colours (n : Nat) : ∀ b : Bytes, Res [.typeError] (fun l => l.length ≤ b.length) (Containers.phbColours n b) := by
  induction n with
  | zero => intro b; exact .ok (by simp)
  | succ n ih =>
    intro b
    rw [Containers.phbColours]
    cases h : (readInt8 b).1 with
    | none => exact .err (by simp)
    | some c =>
      have h1 := has8 h
      refine (ih _).map fun l hl => ?_
      rw [rest8, List.length_drop] at hl
      rw [List.length_cons]
      omega

/-- C106: PHB. -/
theorem C106_phb (f : Bytes) : Opens [.typeError] f.length Pec.Design.stitches (fun d => d.threads.length) (Containers.readPhb f) := by
  show Res _ _ _
  rw [Containers.readPhb]
  split
  · exact .err (by simp)
  refine (phb_colours _ _).bind fun l hl => ?_
  rw [List.length_drop] at hl
  split
  · exact .err (by simp)
  dsimp only
  split
  · exact .err (by simp)
  split
  · exact .err (by simp)
  split
  · exact .err (by simp)
  refine .ok (stops_held ?_)
  exact section_held f _ _ _ (le_refl _) (by dsimp only; omega)

theorem phc_colours (n : Nat) : ∀ b : Bytes, (Containers.phcColours n b).1.length ≤ b.length := by
  induction n with
  | zero => intro b; simp [Containers.phcColours]
  | succ n ih =>
    intro b
    rw [Containers.phcColours]
    cases h : (readInt8 b).1 with
    | none => simp
    | some c =>
      have h1 := has8 h
      have h2 := ih (readInt8 b).2
      rw [rest8, List.length_drop] at h2
      dsimp only
      rw [List.length_cons, rest8]
      omega

/-- C106: PHC. A file that ends within the list of colours is read as these colours and no stitches. -/
theorem C106_phc (f : Bytes) : Opens [.typeError] f.length Pec.Design.stitches (fun d => d.threads.length) (Containers.readPhc f) ∨
    ∃ d, Containers.readPhc f = .ok d ∧ d.stitches = [] ∧ d.threads.length ≤ f.length := by
  rw [Containers.readPhc]
  split
  · rename_i height stride count _ _ _
    have hl := phc_colours count.toNat (f.drop 0x4F)
    rw [List.length_drop] at hl
    dsimp only
    split
    · exact .inr ⟨_, rfl, rfl, by dsimp only; omega⟩
    · left
      show Res _ _ _
      split
      · split
        · exact .err (by simp)
        split
        · exact .err (by simp)
        split
        · exact .err (by simp)
        refine .ok (stops_held ?_)
        exact section_held f _ _ _ (le_refl _) (by dsimp only; omega)
      · exact .err (by simp)
  · exact .inl (.inr ⟨_, by simp, rfl⟩)

theorem exp_recs : ∀ b : Bytes, (Exp.readRecs b).length ≤ b.length
  | [] => by rw [Exp.readRecs.eq_def]; simp
  | [_] => by rw [Exp.readRecs.eq_def]; simp
  | b0 :: b1 :: rest => by
    rw [Exp.readRecs.eq_def]
    dsimp only
    by_cases c : b0 ≠ 0x80
    · rw [if_pos c]
      have := exp_recs rest
      simp only [List.length_cons]; omega
    · rw [if_neg c]
      match rest with
      | [] => simp
      | [_] => simp
      | c0 :: c1 :: rest =>
        have := exp_recs rest
        dsimp only
        split_ifs <;> simp only [List.length_cons, List.length_nil] <;> omega
termination_by b => b.length

/-- C106: STX. -/
theorem C106_stx (f : Bytes) : Opens [.typeError] f.length id (fun _ => 0) (Containers.readStx f) := by
  show Res _ _ _
  rw [Containers.readStx]
  split
  · exact .err (by simp)
  · refine .ok (held_place _ ?_ (Nat.zero_le _))
    refine (exp_recs _).trans ?_
    rw [List.length_drop]
    omega

/-! ## DST, TAP and EXY -/

theorem dst_recs : ∀ (q : Bool) (b : Bytes), 3 * (Dst.readRecs q b).length ≤ b.length
  | q, [] => by rw [Dst.readRecs.eq_def]; simp
  | q, [_] => by rw [Dst.readRecs.eq_def]; simp
  | q, [_, _] => by rw [Dst.readRecs.eq_def]; simp
  | q, b0 :: b1 :: b2 :: rest => by
    rw [Dst.readRecs.eq_def]
    dsimp only
    split
    · simp
    · have := dst_recs (if ‹Int› = SEQUIN_MODE then !q else q) rest
      simp only [List.length_cons]; omega
termination_by _ b => b.length

theorem dst_body (t : Int) (d : Option ℚ) (c : Bool) (f : Bytes) (p n k : Nat) (h : f.length ≤ n) (hk : k ≤ n) :
    Held n (Dst.readBody t d c (f.drop p)) k := by
  rw [Dst.readBody]
  refine held_trims _ _ _ _ ?_ hk
  have := dst_recs false (f.drop p)
  rw [List.length_drop] at this
  omega

theorem colorHex_error (s : Str) : Res [.valueError] (fun _ => True) (colorHex s) := by
  have hg : ∀ (s : List Char) (a : Int), Res [.valueError] (fun _ => True) (parseHex.go s a) := by
    intro s
    induction s with
    | nil => intro a; exact .ok trivial
    | cons c s ih =>
      intro a
      rw [parseHex.go]
      split
      · exact ih _
      · exact .err (by simp)
  have hp : ∀ s : List Char, Res [.valueError] (fun _ => True) (parseHex s) := by
    intro s
    rw [parseHex]
    exact .ite (fun _ => .err (by simp)) (fun _ => hg _ _)
  rw [colorHex]
  split
  all_goals first
    | exact (hp _).map (fun _ _ => trivial)
    | exact .ok trivial

theorem header_lines : ∀ (cur b : Bytes), (Dst.headerLines cur b).length ≤ b.length
  | cur, [] => by simp [Dst.headerLines]
  | cur, b :: rest => by
    rw [Dst.headerLines]
    split
    · have := header_lines [b] rest
      simp only [List.length_cons]; omega
    · have := header_lines (cur ++ [b]) rest
      simp only [List.length_cons]; omega

theorem header_line (d : Doc) (l : Bytes) : Res [.typeError, .indexError, .valueError] (fun e => e.threads.length ≤ d.threads.length + 1) (Dst.headerLine d l) := by
  have ok0 : ∀ e : Doc, e.threads = d.threads → Res [.typeError, .indexError, .valueError] (fun e => e.threads.length ≤ d.threads.length + 1) (.ok e) := by
    intro e he
    exact .ok (by rw [he]; omega)
  rw [Dst.headerLine]
  split
  · exact ok0 _ rfl
  refine .ite (fun _ => ?_) (fun _ => ok0 _ rfl)
  rw [Dst.headerInfo]
  refine .ite (fun _ => ok0 _ rfl) (fun _ => .ite (fun _ => ok0 _ rfl) (fun _ => .ite (fun _ => ok0 _ rfl) (fun _ => .ite (fun _ => ?_) (fun _ => ok0 _ rfl))))
  split
  · refine ((colorHex_error _).more (by simp) (fun _ h => h)).bind fun c _ => ?_
    split
    · exact .err (by simp)
    · refine .ok ?_
      simp
  · exact .err (by simp)

theorem header_held (f : Bytes) : Res [.typeError, .indexError, .valueError] (fun d => d.threads.length ≤ f.length) (Dst.readHeader f) := by
  have h : ∀ (ls : List Bytes) (d : Doc), Res [.typeError, .indexError, .valueError] (fun e => e.threads.length ≤ d.threads.length + ls.length)
      (ls.foldlM Dst.headerLine d) := by
    intro ls
    induction ls with
    | nil => intro d; exact .ok (by simp)
    | cons l ls ih =>
      intro d
      rw [List.foldlM_cons]
      refine (header_line d l).bind fun e he => (ih e).more (fun _ h => h) fun x hx => ?_
      rw [List.length_cons]
      omega
  rw [Dst.readHeader]
  refine (h _ _).more (fun _ h => h) fun d hd => ?_
  have h2 := header_lines [] (f.take 512)
  rw [List.length_take] at h2
  have h3 : (({} : Doc)).threads.length = 0 := rfl
  omega

/-- C106: DST. -/
theorem C106_dst (trimAt : Int) (dist : Option ℚ) (clip : Bool) (f : Bytes) :
    Opens [.typeError, .indexError, .valueError] f.length Doc.stitches (fun d => d.threads.length) (Dst.readDoc trimAt dist clip f) := by
  show Res _ _ _
  rw [Dst.readDoc]
  exact (header_held f).bind fun d hd => .ok (dst_body _ _ _ f 512 _ _ (le_refl _) hd)

/-- C106: TAP and EXY. -/
theorem C106_tap (trimAt : Int) (dist : Option ℚ) (clip : Bool) (f : Bytes) :
    Held f.length (Containers.readTap trimAt dist clip f) 0 ∧ Held f.length (Containers.readExy trimAt dist clip f) 0 :=
  ⟨dst_body _ _ _ f 0 _ _ (le_refl _) (Nat.zero_le _), dst_body _ _ _ f 0x100 _ _ (le_refl _) (Nat.zero_le _)⟩

/-! ## The small formats with headers -/

/-- With as many rounds as there are bytes (and one) the reader ends as in `Opens`. -/
def OpensIn (errors : List PyErr) (n : Nat) (r : Nat → Option (Except PyErr Doc)) : Prop :=
  ∃ x, Opens errors n Doc.stitches (fun d => d.threads.length) x ∧ ∀ fuel, n < fuel → r fuel = some x

theorem with_stitches {E : List PyErr} {n : Nat} {d : Except PyErr Doc} {s : Nat → Option (Except PyErr (List Stitch))} {l : List Stitch}
    (hd : Res E (fun d => d.threads.length ≤ n) d) (hs : ∀ fuel, n < fuel → s fuel = some (.ok l)) (hl : Ended l) (hn : l.length ≤ n + 1) :
    OpensIn E n (fun fuel => SmallFiles.withStitches d (s fuel)) := by
  rcases hd with ⟨d, rfl, h⟩ | ⟨e, he, rfl⟩
  · refine ⟨_, .inl ⟨{ d with stitches := l }, rfl, hl, hn, h⟩, fun fuel hf => ?_⟩
    show SmallFiles.withStitches (.ok d) (s fuel) = _
    rw [hs fuel hf]
    rfl
  · exact ⟨_, .inr ⟨e, he, rfl⟩, fun fuel hf => rfl⟩

theorem design_ended {kinds : List Int} {D : ℚ} {l : List Stitch} (h : Readers.Design kinds D l) : Ended l := by
  obtain ⟨m, e, h1, h2, -⟩ := h
  exact ⟨m, e, h1, h2⟩

theorem bytes_drop {f : Bytes} (hf : ∀ v ∈ f, IsByte v) (n : Nat) : ∀ v ∈ f.drop n, IsByte v := fun v hv => hf v (List.mem_of_mem_drop hv)

theorem accepted {kinds : List Int} {D : ℚ} {read : Nat → Bytes → Option (Except PyErr (List Stitch))} (h : Readers.Accepts kinds D read)
    (f : Bytes) (hf : ∀ v ∈ f, IsByte v) (p : Nat) {E : List PyErr} {d : Except PyErr Doc} (hd : Res E (fun d => d.threads.length ≤ f.length) d) :
    OpensIn E f.length (fun fuel => SmallFiles.withStitches d (read fuel (f.drop p))) := by
  obtain ⟨l, h1, h2, h3⟩ := h (f.drop p) (bytes_drop hf p)
  rw [List.length_drop] at h2 h3
  exact with_stitches hd (fun fuel hfu => h3 fuel (by omega)) (design_ended h1) (by omega)

/-- C106: DSB and DSZ. -/
theorem C106_dsb (f : Bytes) (hf : ∀ v ∈ f, IsByte v) :
    OpensIn [.typeError, .indexError, .valueError] f.length (fun fuel => SmallFiles.readDsb fuel f) ∧
    OpensIn [.typeError, .indexError, .valueError] f.length (fun fuel => SmallFiles.readDsz fuel f) :=
  ⟨accepted Readers.C60_dsb f hf 512 (header_held f), accepted Readers.C60_dsz f hf 512 (header_held f)⟩

theorem sew_colours (n : Nat) : ∀ b : Bytes, Res [.typeError] (fun l => l.length ≤ b.length) (SmallFiles.sewColours n b) := by
  induction n with
  | zero => intro b; exact .ok (by simp)
  | succ n ih =>
    intro b
    rw [SmallFiles.sewColours]
    cases hr : readInt16le b with
    | mk a r =>
      cases a with
      | none => exact .err (by simp)
      | some i =>
        have h1 := has16le (s := b) (v := i) (by rw [hr])
        have h2 := rest16le b
        rw [hr] at h2
        dsimp only at h2 ⊢
        subst h2
        cases h3 : sewThreads[(i % 79).toNat]? with
        | none =>
          have h4 := List.getElem?_eq_none_iff.1 h3
          have h5 : sewThreads.length = 79 := by decide +kernel
          omega
        | some t =>
          refine (ih _).map fun l hl => ?_
          rw [List.length_drop] at hl
          rw [List.length_cons]
          omega

/-- C106: SEW. -/
theorem C106_sew (f : Bytes) (hf : ∀ v ∈ f, IsByte v) : OpensIn [.typeError] f.length (fun fuel => SmallFiles.readSew fuel f) := by
  cases hr : readInt16le f with
  | mk a r =>
    cases a with
    | none => exact ⟨_, .inr ⟨PyErr.typeError, by simp, rfl⟩, fun fuel _ => by show SmallFiles.readSew fuel f = _; rw [SmallFiles.readSew, hr]⟩
    | some n =>
      have h2 := rest16le f
      rw [hr] at h2
      dsimp only at h2
      have := accepted Readers.C60_sew f hf 0x1D78 (((sew_colours n.toNat r).map (g := fun l => ({ threads := l } : Doc))
        (Q := fun d => d.threads.length ≤ f.length) (fun l hl => by rw [h2, List.length_drop] at hl; dsimp only; omega)))
      obtain ⟨x, h3, h4⟩ := this
      refine ⟨x, h3, fun fuel hfu => ?_⟩
      rw [← h4 fuel hfu]
      show SmallFiles.readSew fuel f = _
      rw [SmallFiles.readSew, hr]

theorem jpx_colours (rnd : Nat → Int) (n : Nat) : ∀ (k : Nat) (b : Bytes), (SmallFiles.jpxColours rnd n k b).length ≤ b.length := by
  induction n with
  | zero => intro k b; simp [SmallFiles.jpxColours]
  | succ n ih =>
    intro k b
    rw [SmallFiles.jpxColours]
    cases hr : readInt32le b with
    | mk a r =>
      cases a with
      | none => simp
      | some i =>
        have h1 := has32le (s := b) (v := i) (by rw [hr])
        have h2 := rest32le b
        rw [hr] at h2
        dsimp only at h2 ⊢
        subst h2
        have := ih (k + 1) (b.drop 4)
        rw [List.length_drop] at this
        rw [List.length_cons]
        omega

/-- C106: JPX. -/
theorem C106_jpx (rnd : Nat → Int) (f : Bytes) (hf : ∀ v ∈ f, IsByte v) :
    OpensIn [.typeError] f.length (fun fuel => SmallFiles.readJpx rnd fuel f) := by
  cases hr : readInt32le f with
  | mk a r =>
    cases hq : readInt32le (f.drop 0x20) with
    | mk b q =>
      cases a with
      | none => exact ⟨_, .inr ⟨PyErr.typeError, by simp, rfl⟩, fun fuel _ => by show SmallFiles.readJpx rnd fuel f = _; rw [SmallFiles.readJpx, hr, hq]⟩
      | some s =>
        cases b with
        | none => exact ⟨_, .inr ⟨PyErr.typeError, by simp, rfl⟩, fun fuel _ => by show SmallFiles.readJpx rnd fuel f = _; rw [SmallFiles.readJpx, hr, hq]⟩
        | some n =>
          have hl := jpx_colours rnd n.toNat 0 (f.drop 0x3C)
          rw [List.length_drop] at hl
          obtain ⟨x, h3, h4⟩ := accepted Readers.C60_jpx f hf s.toNat (E := [.typeError]) (d := .ok { threads := SmallFiles.jpxColours rnd n.toNat 0 (f.drop 0x3C) })
            (.ok (by dsimp only; omega))
          refine ⟨x, h3, fun fuel hfu => ?_⟩
          rw [← h4 fuel hfu]
          show SmallFiles.readJpx rnd fuel f = _
          rw [SmallFiles.readJpx, hr, hq]

theorem placed_ended {D : ℚ} {l : List Stitch} (h : Readers.Placed D l) : Ended l := by
  obtain ⟨m, e, h1, h2, -⟩ := h
  exact ⟨m, e, h1, h2⟩

theorem mem_drop_of {f b : Bytes} (hf : ∀ v ∈ f, IsByte v) (h : ∃ n, b = f.drop n) : ∀ v ∈ b, IsByte v := by
  obtain ⟨n, rfl⟩ := h
  exact bytes_drop hf n

theorem pcd_colours (n : Nat) : ∀ b : Bytes, Res [.typeError] (fun r => r.1.length ≤ b.length ∧ ∃ k, r.2 = b.drop k) (SmallFiles.pcdColours n b) := by
  induction n with
  | zero => intro b; exact .ok ⟨by simp, 0, rfl⟩
  | succ n ih =>
    intro b
    rw [SmallFiles.pcdColours]
    cases hr : readInt24be b with
    | mk a r =>
      cases a with
      | none => exact .err (by simp)
      | some c =>
        have h1 := has24be (s := b) (v := c) (by rw [hr])
        have h2 := rest24be b
        rw [hr] at h2
        dsimp only at h2 ⊢
        subst h2
        refine (ih _).map fun l hl => ?_
        obtain ⟨hl, k, hk⟩ := hl
        rw [List.length_drop, List.length_drop] at hl
        refine ⟨?_, 3 + (1 + k), ?_⟩
        · rw [List.length_cons]
          omega
        · rw [← List.drop_drop, ← List.drop_drop]
          exact hk

theorem pcm_colours (n : Nat) : ∀ b : Bytes, Res [.typeError, .indexError] (fun r => r.1.length ≤ b.length ∧ ∃ k, r.2 = b.drop k) (SmallFiles.pcmColours n b) := by
  induction n with
  | zero => intro b; exact .ok ⟨by simp, 0, rfl⟩
  | succ n ih =>
    intro b
    rw [SmallFiles.pcmColours]
    cases hr : readInt16be b with
    | mk a r =>
      cases a with
      | none => exact .err (by simp)
      | some c =>
        have h1 := has16be (s := b) (v := c) (by rw [hr])
        have h2 := rest16be b
        rw [hr] at h2
        dsimp only at h2 ⊢
        subst h2
        split
        · exact .err (by simp)
        refine (ih _).map fun l hl => ?_
        obtain ⟨hl, k, hk⟩ := hl
        rw [List.length_drop] at hl
        refine ⟨?_, 2 + k, ?_⟩
        · rw [List.length_cons]
          omega
        · rw [← List.drop_drop]
          exact hk

/-- C106: PCD, PCQ and PCS. -/
theorem C106_pcd (f : Bytes) (hf : ∀ v ∈ f, IsByte v) : OpensIn [.typeError] f.length (fun fuel => SmallFiles.readPcd fuel f) := by
  cases hr : readInt16le (f.drop 2) with
  | mk a r =>
    cases a with
    | none => exact ⟨_, .inr ⟨PyErr.typeError, by simp, rfl⟩, fun fuel _ => by show SmallFiles.readPcd fuel f = _; rw [SmallFiles.readPcd, hr]⟩
    | some n =>
      have h2 := rest16le (f.drop 2)
      rw [hr, List.drop_drop] at h2
      dsimp only at h2
      rcases pcd_colours n.toNat r with ⟨⟨l, b⟩, h3, h4, k, h5⟩ | ⟨e, he, h3⟩
      · dsimp only at h4 h5
        rw [h2, List.drop_drop] at h5
        have h6 : b.drop 2 = f.drop (2 + 2 + k + 2) := by rw [h5, List.drop_drop]
        obtain ⟨s, p1, p2, p3⟩ := Readers.C60_pcd (b.drop 2) (mem_drop_of hf ⟨_, h6⟩)
        have h7 : (b.drop 2).length ≤ f.length := by rw [h6, List.length_drop]; omega
        rw [h2, List.length_drop] at h4
        obtain ⟨x, q1, q2⟩ := with_stitches (E := [.typeError]) (n := f.length) (d := .ok { threads := l }) (s := fun fuel => Readers.readPcdBody fuel (b.drop 2))
          (.ok (by dsimp only; omega)) (fun fuel hfu => p3 fuel (by omega)) (placed_ended p1) (by omega)
        refine ⟨x, q1, fun fuel hfu => ?_⟩
        rw [← q2 fuel hfu]
        show SmallFiles.readPcd fuel f = _
        rw [SmallFiles.readPcd, hr]
        dsimp only
        rw [h3]
      · refine ⟨_, .inr ⟨e, he, rfl⟩, fun fuel _ => ?_⟩
        show SmallFiles.readPcd fuel f = _
        rw [SmallFiles.readPcd, hr]
        dsimp only
        rw [h3]

/-- C106: PCM. A file too short for the number of colours is read as an empty pattern. -/
theorem C106_pcm (f : Bytes) (hf : ∀ v ∈ f, IsByte v) :
    (4 ≤ f.length → OpensIn [.typeError, .indexError] f.length (fun fuel => SmallFiles.readPcm fuel f)) ∧
    (f.length < 4 → ∀ fuel, SmallFiles.readPcm fuel f = some (.ok {})) := by
  cases hr : readInt16be (f.drop 2) with
  | mk a r =>
    cases a with
    | none =>
      have h0 := (C02_short (f.drop 2)).2.2.1.1 (by rw [hr])
      rw [List.length_drop] at h0
      refine ⟨fun h => by omega, fun _ fuel => ?_⟩
      rw [SmallFiles.readPcm, hr]
    | some n =>
      have h0 := has16be (s := f.drop 2) (v := n) (by rw [hr])
      rw [List.length_drop] at h0
      refine ⟨fun _ => ?_, fun h => by omega⟩
      have h2 := rest16be (f.drop 2)
      rw [hr, List.drop_drop] at h2
      dsimp only at h2
      rcases pcm_colours n.toNat r with ⟨⟨l, b⟩, h3, h4, k, h5⟩ | ⟨e, he, h3⟩
      · dsimp only at h4 h5
        rw [h2, List.drop_drop] at h5
        have h6 : b.drop 2 = f.drop (2 + 2 + k + 2) := by rw [h5, List.drop_drop]
        obtain ⟨s, p1, p2, p3⟩ := Readers.C60_pcm (b.drop 2) (mem_drop_of hf ⟨_, h6⟩)
        have h7 : (b.drop 2).length ≤ f.length := by rw [h6, List.length_drop]; omega
        rw [h2, List.length_drop] at h4
        obtain ⟨x, q1, q2⟩ := with_stitches (E := [.typeError, .indexError]) (n := f.length) (d := .ok { threads := l }) (s := fun fuel => Readers.readPcmBody fuel (b.drop 2))
          (.ok (by dsimp only; omega)) (fun fuel hfu => p3 fuel (by omega)) (placed_ended p1) (by omega)
        refine ⟨x, q1, fun fuel hfu => ?_⟩
        rw [← q2 fuel hfu]
        show SmallFiles.readPcm fuel f = _
        rw [SmallFiles.readPcm, hr]
        dsimp only
        rw [h3]
      · refine ⟨_, .inr ⟨e, he, rfl⟩, fun fuel _ => ?_⟩
        show SmallFiles.readPcm fuel f = _
        rw [SmallFiles.readPcm, hr]
        dsimp only
        rw [h3]

/-! ## ZHS and HUS, which announce more than they hold -/

theorem zhs_colours (n : Nat) : ∀ b : Bytes, (SmallFiles.zhsColours n b).1.length = n := by
  induction n with
  | zero => intro b; rfl
  | succ n ih =>
    intro b
    rw [SmallFiles.zhsColours]
    simp [ih]

theorem zhs_texts : ∀ (ts : List Thread) (ds : List Str), (SmallFiles.zhsTexts ts ds).length = ts.length
  | [], _ => by simp [SmallFiles.zhsTexts]
  | _ :: _, [] => by simp [SmallFiles.zhsTexts]
  | t :: ts, d :: ds => by simp [SmallFiles.zhsTexts, zhs_texts ts ds]

/-- C106: ZHS, with up to 255 threads whatever the size of the file. -/
theorem C106_zhs_partial (f : Bytes) (hf : ∀ v ∈ f, IsByte v) :
    ∃ x : Except PyErr Doc, ((∃ d, x = .ok d ∧ Ended d.stitches ∧ d.stitches.length ≤ f.length + 1 ∧ d.threads.length ≤ 255) ∨
      x = .error .typeError ∨ x = .error .valueError) ∧ ∀ fuel, f.length < fuel → SmallFiles.readZhs fuel f = some x := by
  cases hr : readInt32le (f.drop 0x0F) with
  | mk a r =>
    cases hq : readInt32le (f.drop 0x13) with
    | mk b q =>
      cases a with
      | none => exact ⟨_, .inr (.inl rfl), fun fuel _ => by rw [SmallFiles.readZhs, hr, hq]⟩
      | some s =>
        cases b with
        | none => exact ⟨_, .inr (.inl rfl), fun fuel _ => by rw [SmallFiles.readZhs, hr, hq]⟩
        | some h =>
          have hh : Res [.typeError, .valueError] (fun d : Doc => d.threads.length ≤ 255) (SmallFiles.zhsHeader (f.drop h.toNat)) := by
            rw [SmallFiles.zhsHeader]
            cases h8 : readInt8 (f.drop h.toNat) with
            | mk a r =>
              cases a with
              | none => exact .err (by simp)
              | some n =>
                have hb : IsByte n := by
                  cases hd : f.drop h.toNat with
                  | nil => rw [hd] at h8; cases h8
                  | cons v l =>
                    rw [hd] at h8
                    cases h8
                    exact bytes_drop hf h.toNat n (by rw [hd]; simp)
                dsimp only
                split
                · exact .err (by simp)
                · refine .ok ?_
                  dsimp only
                  rw [zhs_texts, zhs_colours]
                  have := hb.2
                  omega
          obtain ⟨l, D, p1, p2, p3⟩ := Readers.C60_zhs (f.drop s.toNat) (bytes_drop hf _)
          rw [List.length_drop] at p2 p3
          rcases hh with ⟨d, h1, h2⟩ | ⟨e, he, h1⟩
          · refine ⟨.ok { d with stitches := l }, .inl ⟨_, rfl, design_ended p1, by dsimp only; omega, h2⟩, fun fuel hfu => ?_⟩
            rw [SmallFiles.readZhs, hr, hq]
            dsimp only
            rw [h1, p3 fuel (by omega)]
            rfl
          · refine ⟨.error e, .inr (by simpa using he), fun fuel hfu => ?_⟩
            rw [SmallFiles.readZhs, hr, hq]
            dsimp only
            rw [h1]
            rfl

/-- The number of threads in a ZHS file is not checked: 255 threads in 24 bytes. -/
theorem C106_zhs_fails : ∃ f : Bytes, (∀ v ∈ f, IsByte v) ∧ f.length = 24 ∧
    ∃ d, SmallFiles.readZhs 25 f = some (.ok d) ∧ d.threads.length = 255 := by
  have h : ((SmallFiles.readZhs 25 (List.replicate 15 0 ++ [24, 0, 0, 0, 23, 0, 0, 0, 255])).bind Except.toOption).map (fun d => d.threads.length) = some 255 := by
    decide +kernel
  refine ⟨List.replicate 15 0 ++ [24, 0, 0, 0, 23, 0, 0, 0, 255], by decide +kernel, by decide +kernel, ?_⟩
  obtain ⟨d, h1, h2⟩ := Option.map_eq_some_iff.1 h
  obtain ⟨x, h3, h4⟩ := Option.bind_eq_some_iff.1 h1
  cases x with
  | error e => cases h4
  | ok x => cases h4; exact ⟨d, h3, h2⟩

theorem hus_colours (n : Nat) : ∀ (b : Bytes) (l : List Thread), Hus.colours n b = .ok l → l.length ≤ b.length := by
  induction n with
  | zero => intro b l h; cases h; simp
  | succ n ih =>
    intro b l h
    rw [Hus.colours] at h
    cases h1 : (readInt16le b).1 with
    | none => rw [h1] at h; cases h
    | some i =>
      have h2 := has16le h1
      rw [h1] at h
      change (match husThreads[i.toNat]? with
        | none => _
        | some t => (Hus.colours n (readInt16le b).2).map (fun l => t :: l)) = _ at h
      split at h
      · cases h
      · cases h3 : Hus.colours n (readInt16le b).2 with
        | error e => rw [h3] at h; cases h
        | ok m =>
          rw [h3] at h
          cases h
          have := ih _ _ h3
          rw [rest16le, List.length_drop] at this
          rw [List.length_cons]
          omega

theorem hus_events : ∀ (cs xs ys : List Nat), (Hus.events cs xs ys).length ≤ 2 * cs.length
  | [], _, _ => by simp [Hus.events]
  | _ :: _, [], _ => by simp [Hus.events]
  | _ :: _, _ :: _, [] => by simp [Hus.events]
  | c :: cs, x :: xs, y :: ys => by
    have := hus_events cs xs ys
    rw [Hus.events]
    split_ifs <;> simp only [List.length_cons, List.length_append, List.length_nil] <;> omega

theorem bind_ok {α β : Type} {r : Except Compress.Err α} {g : α → Except Compress.Err β} {b : β} (h : (r >>= g) = .ok b) :
    ∃ a, r = .ok a ∧ g a = .ok b := by
  cases r with
  | error e => cases h
  | ok a => exact ⟨a, rfl, h⟩

/-- C106: HUS. The commands are compressed: there are at most two for each one announced in the header, and a rest. -/
theorem C106_hus_partial (f : Bytes) (d : Doc) (h : Hus.read f = .ok d) :
    Ended d.stitches ∧ d.threads.length ≤ f.length ∧ ∃ count, (readInt32le (f.drop 4)).1 = some count ∧
      d.stitches.length ≤ 2 * (count.toNat + 258) + 1 := by
  rw [Hus.read] at h
  obtain ⟨_, -, h⟩ := bind_ok h
  obtain ⟨_, -, h⟩ := bind_ok h
  obtain ⟨_, -, h⟩ := bind_ok h
  obtain ⟨_, -, h⟩ := bind_ok h
  obtain ⟨n, -, h⟩ := bind_ok h
  obtain ⟨threads, ht, h⟩ := bind_ok h
  obtain ⟨_, -, h⟩ := bind_ok h
  obtain ⟨_, -, h⟩ := bind_ok h
  obtain ⟨_, -, h⟩ := bind_ok h
  obtain ⟨count, hc, h⟩ := bind_ok h
  obtain ⟨cs, hcs, h⟩ := bind_ok h
  obtain ⟨xs, -, h⟩ := bind_ok h
  obtain ⟨ys, -, h⟩ := bind_ok h
  cases h
  refine ⟨ended_place _ _ _, ?_, count, ?_, ?_⟩
  · refine (hus_colours _ _ _ ht).trans ?_
    simp only [rest32le, rest16le, readN, List.length_drop]
    omega
  · rw [rest32le] at hc
    cases h1 : (readInt32le (f.drop 4)).1 with
    | none => rw [h1] at hc; cases hc
    | some v => rw [h1] at hc; cases hc; rfl
  · have h1 := (Compress.C17_bounds _ _ _ hcs).2 _ rfl
    have h2 := hus_events cs xs ys
    dsimp only
    rw [place_len, List.length_append, List.length_singleton]
    omega

/-- What can be raised is among `L`. -/
def Errs {α : Type} (L : List Compress.Err) (r : Except Compress.Err α) : Prop := ∀ e, r = .error e → e ∈ L

theorem Errs.ok {α : Type} {L : List Compress.Err} (a : α) : Errs L (.ok a : Except Compress.Err α) := fun e h => by cases h

theorem Errs.err {α : Type} {L : List Compress.Err} {x : Compress.Err} (h : x ∈ L) : Errs L (.error x : Except Compress.Err α) :=
  fun e he => by cases he; exact h

theorem Errs.bind {α β : Type} {L : List Compress.Err} {r : Except Compress.Err α} {g : α → Except Compress.Err β} (h : Errs L r)
    (k : ∀ a, r = .ok a → Errs L (g a)) : Errs L (r >>= g) := by
  cases r with
  | error x => intro e he; exact h e (by cases he; rfl)
  | ok a => exact k a rfl

/-- The exceptions of a damaged stream. -/
def damaged : List Compress.Err := [.py .indexError, .py .valueError, .steps]

theorem lookup_errs (h : Compress.Huffman) (w : Nat) : Errs damaged (h.lookup w) := by
  unfold Compress.Huffman.lookup
  split
  · exact .ok _
  · split
    · exact .err (by decide)
    · split
      · exact .err (by decide)
      · exact .ok _

theorem lengthLoop_errs (data : Bytes) : ∀ (n index : Nat) (ls : List Nat) (pos : Nat), Errs damaged (Compress.lengthLoop data n index ls pos) := by
  intro n
  induction n with
  | zero => intro _ _ _; exact .ok _
  | succ n ih =>
    intro index ls pos
    rw [Compress.lengthLoop]
    split
    · simp only
      repeat' split
      all_goals first | exact ih _ _ _ | exact .err (by decide)
    · exact .ok _

theorem charLoop_errs (data : Bytes) (lh : Compress.Huffman) :
    ∀ (n index : Nat) (ls : List Nat) (pos : Nat), Errs damaged (Compress.charLoop data lh n index ls pos) := by
  intro n
  induction n with
  | zero => intro _ _ _; exact .ok _
  | succ n ih =>
    intro index ls pos
    rw [Compress.charLoop]
    split
    · refine (lookup_errs _ _).bind fun h _ => ?_
      simp only
      split
      · exact ih _ _ _
      · split
        · exact ih _ _ _
        · split
          · exact ih _ _ _
          · exact ih _ _ _
    · exact .ok _

theorem loadBlock_errs (data : Bytes) (s : Compress.State) : Errs damaged (Compress.loadBlock data s) := by
  unfold Compress.loadBlock
  refine Errs.bind ?_ fun lh _ => Errs.bind ?_ fun ch _ => .ok _
  · unfold Compress.loadLengthHuffman
    simp only
    split
    · exact .ok _
    · exact (lengthLoop_errs _ _ _ _ _).bind fun _ _ => .ok _
  · unfold Compress.loadCharHuffman
    simp only
    split
    · exact .ok _
    · exact (charLoop_errs _ _ _ _ _ _).bind fun _ _ => .ok _

theorem token_errs (data : Bytes) (s : Compress.State) : Errs damaged (Compress.token data s) := by
  unfold Compress.token
  refine Errs.bind ?_ fun s _ => (lookup_errs _ _).bind fun _ _ => .ok _
  split
  · exact loadBlock_errs _ _
  · exact .ok _

theorem position_errs (data : Bytes) (s : Compress.State) : Errs damaged (Compress.position data s) := by
  unfold Compress.position
  refine (lookup_errs _ _).bind fun h _ => ?_
  split
  · exact .ok _
  · exact .ok _

theorem copyLoop_errs : ∀ (n : Nat) (i : Int) (out : List Nat), Errs damaged (Compress.copyLoop n i out) := by
  intro n
  induction n with
  | zero => intro _ _; exact .ok _
  | succ n ih =>
    intro i out
    rw [Compress.copyLoop]
    split
    · rename_i e he
      have : e = .indexError := by
        unfold pyGet at he
        simp only at he
        generalize (if i < 0 then i + (out.length : Int) else i) = j at he
        by_cases hj : j < 0
        · rw [if_pos hj] at he; cases he; rfl
        · rw [if_neg hj] at he
          cases ho : out[j.toNat]? with
          | none => rw [ho] at he; cases he; rfl
          | some v => rw [ho] at he; cases he
      rw [this]
      exact .err (by decide)
    · exact ih _ _

theorem loop_errs (data : Bytes) (size : Option Nat) : ∀ (n : Nat) (s : Compress.State) (out : List Nat),
    Errs damaged (Compress.loop data size n s out) := by
  intro n
  induction n with
  | zero => intro _ _; exact .err (by decide)
  | succ n ih =>
    intro s out
    rw [Compress.loop]
    split
    · refine (token_errs _ _).bind fun t _ => ?_
      split
      · exact ih _ _
      · split
        · exact .ok _
        · refine (position_errs _ _).bind fun b _ => ?_
          refine Errs.bind ?_ fun out _ => ih _ _
          unfold Compress.copyBack
          simp only
          split
          · exact .ok _
          · exact copyLoop_errs _ _ _
    · exact .ok _

/-- C17, C106: a damaged compressed stream is refused with `IndexError` or `ValueError` and nothing else. -/
theorem C106_expand_refused (data : Bytes) (size : Option Nat) (e : Compress.Err) (h : Compress.expand data size = .error e) :
    e = .py .indexError ∨ e = .py .valueError := by
  have h1 : e ≠ .steps := fun he => Compress.C17_terminates data size (he ▸ h)
  have h2 := loop_errs _ _ _ _ _ e h
  simp only [damaged, List.mem_cons, List.not_mem_nil, or_false] at h2
  tauto

theorem need_errs {α : Type} (o : Option α) : Errs [.py .typeError, .py .indexError] (Hus.need o) := by
  cases o with
  | none => exact .err (by decide)
  | some a => exact .ok a

theorem hus_colours_errs (n : Nat) (b : Bytes) : Errs [.py .typeError, .py .indexError] (Hus.colours n b) := by
  induction n generalizing b with
  | zero => exact .ok _
  | succ n ih =>
    rw [Hus.colours]
    refine (need_errs _).bind fun i _ => ?_
    split
    · exact .err (by decide)
    · intro e he
      have := ih (readInt16le b).2
      cases hc : Hus.colours n (readInt16le b).2 with
      | error x => rw [hc] at he; exact this e (by rw [hc]; cases he; rfl)
      | ok l => rw [hc] at he; cases he

/-- C106: HUS, the exceptions: `TypeError` for a header cut short, `IndexError` for a colour outside the chart or a damaged stream, `ValueError`
for a damaged stream. The reader never runs on for ever. -/
theorem C106_hus_refused (f : Bytes) (e : Compress.Err) (h : Hus.read f = .error e) :
    e = .py .typeError ∨ e = .py .indexError ∨ e = .py .valueError := by
  have hn : ∀ {α : Type} (o : Option α), Errs [.py .typeError, .py .indexError, .py .valueError] (Hus.need o) := fun o e he => by
    have := need_errs o e he
    simp only [List.mem_cons, List.not_mem_nil, or_false] at this ⊢
    tauto
  have hx : ∀ d n, Errs [.py .typeError, .py .indexError, .py .valueError] (Compress.expand d n) := fun d n e he => by
    have := C106_expand_refused d n e he
    simp only [List.mem_cons, List.not_mem_nil, or_false]
    tauto
  have : Errs [.py .typeError, .py .indexError, .py .valueError] (Hus.read f) := by
    unfold Hus.read
    refine (hn _).bind fun _ _ => (hn _).bind fun _ _ => (hn _).bind fun _ _ => (hn _).bind fun _ _ => (hn _).bind fun n _ => ?_
    refine Errs.bind ?_ fun _ _ => ?_
    · intro e he
      have := hus_colours_errs _ _ e he
      simp only [List.mem_cons, List.not_mem_nil, or_false] at this ⊢
      tauto
    refine (hn _).bind fun _ _ => (hn _).bind fun _ _ => (hn _).bind fun _ _ => (hn _).bind fun _ _ => ?_
    exact (hx _ _).bind fun _ _ => (hx _ _).bind fun _ _ => (hx _ _).bind fun _ _ => .ok _
  have := this e h
  simp only [List.mem_cons, List.not_mem_nil, or_false] at this
  exact this

/-- A HUS file can hold more commands than bytes: 101 stitches in 65 bytes. -/
def dense : Bytes := [0, 0, 0, 0, 100, 0, 0, 0, 1, 0, 0, 0, 0, 0, 0, 0, 0, 0, 0, 0, 44, 0, 0, 0, 51, 0, 0, 0, 58, 0, 0, 0, 0, 0, 0, 0, 0, 0, 0, 0, 0, 0, 0, 0,
  4, 0, 0, 0, 8, 0, 0, 4, 0, 0, 0, 0, 0, 0, 4, 0, 0, 0, 0, 0, 0]

theorem C106_hus_fails : (∀ v ∈ dense, IsByte v) ∧ dense.length = 65 ∧ ∃ d, Hus.read dense = .ok d ∧ d.stitches.length = 102 := by
  have h : (Hus.read dense).toOption.map (fun d => d.stitches.length) = some 102 := by decide +kernel
  refine ⟨by decide +kernel, by decide +kernel, ?_⟩
  obtain ⟨d, h1, h2⟩ := Option.map_eq_some_iff.1 h
  cases hr : Hus.read dense with
  | error e => rw [hr] at h1; cases h1
  | ok x => rw [hr] at h1; cases h1; exact ⟨_, rfl, h2⟩

/-! ## Cases -/

example : Jef.read none none true (List.replicate 24 0 ++ [1, 0, 0, 0]) = .error .typeError := by decide +kernel
example : (Xxx.read (List.replicate 256 0 ++ [3, 4, 0x7F, 0x03, 5, 6, 0x7F, 0x7F, 0, 0])).toOption.map (fun q => q.2.length) = some 4 := by
  decide +kernel
example : (Tbf.read (List.replicate 0x600 0 ++ [1, 2, 0x80, 3, 4, 0x90])).toOption.map (fun d => d.stitches.map Stitch.cmd) = some [STITCH, JUMP, END] := by
  decide +kernel

end Size
end Emb
