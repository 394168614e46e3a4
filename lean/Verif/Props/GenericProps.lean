import Verif.Generic
import Verif.Spec
import Verif.Props.EncoderProps

/-!
# C61, C72: the generic text writer
-/

namespace Emb
namespace Generic

/-! ## What is to be proved -/

/-- What a level lies in. -/
def parent : Level → Option Level
  | .pattern => none
  | .document => some .pattern
  | .color => some .document
  | .block => some .color

/-- Where the text of a command belongs: in a colour for TRIM (2) and NEEDLE_SET (9), in a document for COLOR_CHANGE (5), in a
block for STITCH, JUMP, STOP, END, SEQUIN_MODE, SEQUIN_EJECT, SLOW and FAST. -/
def home (cmd : Int) : Option Level :=
  if cmd = 2 ∨ cmd = 9 then some .color
  else if cmd = 5 then some .document
  else if cmd ∈ ([0, 1, 3, 4, 6, 7, 11, 12] : List Int) then some .block
  else none

/-- Reads the texts as brackets: a start only directly in its parent, an end only for the last start, a segment only where it
belongs. The result is what is open in the end, innermost first; `none` if something is out of place. -/
def nest : List Level → List Tok → Option (List Level)
  | st, [] => some st
  | st, .start l :: r => if st.head? = parent l then nest (l :: st) r else none
  | st, .stop l :: r => if st.head? = some l then nest st.tail r else none
  | st, .segment _ cmd _ _ :: r => if ∀ l ∈ home cmd, l ∈ st then nest st r else none
  | st, _ :: r => nest st r

/-- The same without regard to parents and segments. -/
def matched : List Level → List Tok → Option (List Level)
  | st, [] => some st
  | st, .start l :: r => matched (l :: st) r
  | st, .stop l :: r => if st.head? = some l then matched st.tail r else none
  | st, _ :: r => matched st r

/-- The indices of a segment count the starts: documents from 0, colours of the document and blocks of the colour from 1. -/
def Numbered : Int → Int → Int → List Tok → Prop
  | _, _, _, [] => True
  | d, _, b, .start .document :: r => Numbered (d + 1) 0 b r
  | d, c, _, .start .color :: r => Numbered d (c + 1) 0 r
  | d, c, b, .start .block :: r => Numbered d c (b + 1) r
  | d, c, b, .segment _ _ _ e :: r => e.documentIndex = d ∧ e.colorIndex = c ∧ e.blockIndex = b ∧ Numbered d c b r
  | d, c, b, _ :: r => Numbered d c b r

/-- The segments. -/
def segments : List Tok → List (Nat × Int × Env)
  | [] => []
  | .segment i c _ e :: r => (i, c, e) :: segments r
  | _ :: r => segments r

/-- The segments are those of the commands, in order. Differences are to the command written before; the integer positions are
the sums of the integer differences and never more than one half off; `z` goes up with every STITCH. -/
def Follows (up : ℚ) : ℚ × ℚ → Int × Int → ℚ → List (Nat × Stitch) → List (Nat × Int × Env) → Prop
  | _, _, _, [], [] => True
  | last, at', z, (i, st) :: w, (j, c, e) :: r =>
    j = i ∧ c = st.low ∧ e.x = st.x ∧ e.y = st.y ∧ e.z = z ∧ e.dx = st.x - last.1 ∧ e.dy = st.y - last.2 ∧
    e.ix = at'.1 + e.idx ∧ e.iy = at'.2 + e.idy ∧ |(e.ix : ℚ) - st.x| ≤ 1 / 2 ∧ |(e.iy : ℚ) - st.y| ≤ 1 / 2 ∧
    Follows up (st.x, st.y) (e.ix, e.iy) (if st.low = 0 then z + up else z) w r
  | _, _, _, _, _ => False

/-- There is a text for this command. -/
def HasText (T : Texts) (cmd : Int) : Prop :=
  T.segment = true ∨ (cmd ∈ ([0, 1, 2, 3, 4, 5, 6, 7, 9, 11, 12] : List Int) ∧ T.own cmd = true)

instance (T : Texts) (cmd : Int) : Decidable (HasText T cmd) := by unfold HasText; infer_instance

/-- The commands with a text, with their numbers. -/
def written (T : Texts) : Nat → List Stitch → List (Nat × Stitch)
  | _, [] => []
  | i, st :: l => if HasText T st.low then (i, st) :: written T (i + 1) l else written T (i + 1) l

/-- Every segment has the text of its command if that has one, else the general one, and stands right behind the start and
right before the join and the end of segments, as far as there are texts for them. `p` is the text before. -/
def Framed (T : Texts) : Option Tok → List Tok → Prop
  | _, [] => True
  | p, .segment i c own e :: r =>
    (own = true ↔ c ∈ ([0, 1, 2, 3, 4, 5, 6, 7, 9, 11, 12] : List Int) ∧ T.own c = true) ∧
    (T.segmentStart = true → p = some .segmentStart) ∧
    ((if T.segmentJoin then [Tok.segmentJoin] else []) ++ (if T.segmentEnd then [Tok.segmentEnd] else [])) <+: r ∧
    Framed T (some (.segment i c own e)) r
  | _, t :: r => Framed T (some t) r

/-! ## Lemmas -/

theorem nest_append (st : List Level) (a b : List Tok) : nest st (a ++ b) = (nest st a).bind (fun st => nest st b) := by
  induction a generalizing st with
  | nil => rfl
  | cons t a ih =>
    cases t <;> simp only [List.cons_append, nest]
    all_goals first
      | exact ih _
      | (split_ifs
         · exact ih _
         · rfl)

theorem matched_append (st : List Level) (a b : List Tok) :
    matched st (a ++ b) = (matched st a).bind (fun st => matched st b) := by
  induction a generalizing st with
  | nil => rfl
  | cons t a ih =>
    cases t <;> simp only [List.cons_append, matched]
    all_goals first
      | exact ih _
      | (split_ifs
         · exact ih _
         · rfl)

theorem segments_append (a b : List Tok) : segments (a ++ b) = segments a ++ segments b := by
  induction a with
  | nil => rfl
  | cons t a ih => cases t <;> simp [segments, ih]

/-- Texts with all starts and ends. -/
def Texts.full (T : Texts) : Texts := { T with start := fun _ => true, stop := fun _ => true }

/-- Whether a text is in the settings, as far as starts and ends go. -/
def keeps (T : Texts) : Tok → Bool
  | .start l => T.start l
  | .stop l => T.stop l
  | _ => true

/-- The writer's state between commands. -/
structure Quiet (s : St) : Prop where
  o1 : s.docOpening = false
  o2 : s.colOpening = false
  o3 : s.blkOpening = false
  c1 : s.docClosing = false
  c2 : s.colClosing = false
  c3 : s.blkClosing = false
  b : s.blkEst = true → s.colEst = true
  c : s.colEst = true → s.docEst = true
  p : s.colEst = true → 0 < s.colorIndex
  q : s.docEst = true → 0 ≤ s.colorIndex

/-- What is open. -/
def St.stack (s : St) : List Level :=
  (if s.blkEst then [.block] else []) ++ (if s.colEst then [.color] else []) ++ (if s.docEst then [.document] else []) ++ [.pattern]

theorem owned_iff (cmd : Int) : cmd ∈ owned ↔ cmd ∈ ([0, 1, 2, 3, 4, 5, 6, 7, 9, 11, 12] : List Int) := by
  simp only [owned, SEQUIN_MODE, SEQUIN_EJECT, STITCH, TRIM, JUMP, COLOR_CHANGE, NEEDLE_SET, STOP, SLOW, FAST, END,
    List.mem_cons, List.not_mem_nil, or_false]
  omega

theorem getWriteSegment_none (T : Texts) (cmd : Int) : getWriteSegment T cmd = none ↔ ¬ HasText T cmd := by
  unfold getWriteSegment HasText
  rw [← owned_iff]
  split_ifs with h1 h2
  · simp [h1]
  · simp [h2]
  · simp only [true_iff, not_or]
    exact ⟨h2, h1⟩

/-- The kinds of commands. -/
theorem kinds (cmd : Int) : cmd = TRIM ∨ cmd = NEEDLE_SET ∨ cmd = COLOR_CHANGE ∨ cmd = END ∨
    (cmd ∈ owned ∧ cmd ≠ TRIM ∧ cmd ≠ NEEDLE_SET ∧ cmd ≠ COLOR_CHANGE ∧ cmd ≠ END) ∨
    (cmd ∉ owned ∧ cmd ≠ TRIM ∧ cmd ≠ NEEDLE_SET ∧ cmd ≠ COLOR_CHANGE ∧ cmd ≠ END) := by
  by_cases h1 : cmd = TRIM
  · exact .inl h1
  by_cases h2 : cmd = NEEDLE_SET
  · exact .inr (.inl h2)
  by_cases h3 : cmd = COLOR_CHANGE
  · exact .inr (.inr (.inl h3))
  by_cases h4 : cmd = END
  · exact .inr (.inr (.inr (.inl h4)))
  by_cases h5 : cmd ∈ owned
  · exact .inr (.inr (.inr (.inr (.inl ⟨h5, h1, h2, h3, h4⟩))))
  · exact .inr (.inr (.inr (.inr (.inr ⟨h5, h1, h2, h3, h4⟩))))

/-- The part of a round that opens, writes and closes. -/
def body (T : Texts) (cmd : Int) (seg : St → Tok) (s : St) : List Tok × St :=
  let s := opens cmd s
  let a := writeOpens T s
  let c := writeCloses T (closes cmd a.2)
  (a.1 ++ writeSegment T (seg a.2) ++ c.1, c.2)

theorem step_eq (T : Texts) (i : Nat) (st : Stitch) (s : St) : step T i st s =
    lookup nameDict (decodeCommand st.cmd).1 >>= fun _ =>
    match getWriteSegment T (decodeCommand st.cmd).1 with
    | none => .ok ([], s)
    | some own =>
      .ok (body T (decodeCommand st.cmd).1
        (fun s' => .segment i (decodeCommand st.cmd).1 own ((updatePositions T st.x st.y (decodeCommand st.cmd).1 s).1 s'))
        (updatePositions T st.x st.y (decodeCommand st.cmd).1 s).2) := rfl

@[simp] theorem nest_join (st : List Level) (c : Prop) [Decidable c] (l : Level) (r : List Tok) :
    nest st ((if c then [.join l] else []) ++ r) = nest st r := by
  split_ifs <;> rfl

@[simp] theorem numbered_join (d k b : Int) (c : Prop) [Decidable c] (l : Level) (r : List Tok) :
    Numbered d k b ((if c then [.join l] else []) ++ r) = Numbered d k b r := by
  split_ifs <;> rfl

theorem nest_segment (T : Texts) (st : List Level) (i : Nat) (cmd : Int) (own : Bool) (e : Env) (h : ∀ l ∈ home cmd, l ∈ st) :
    nest st (writeSegment T (.segment i cmd own e)) = some st := by
  unfold writeSegment text
  split_ifs <;> simp only [List.nil_append, List.cons_append, nest, if_pos h]

theorem numbered_segment (T : Texts) (d c b : Int) (i : Nat) (cmd : Int) (own : Bool) (e : Env) (rest : List Tok)
    (h : e.documentIndex = d ∧ e.colorIndex = c ∧ e.blockIndex = b) (hr : Numbered d c b rest) :
    Numbered d c b (writeSegment T (.segment i cmd own e) ++ rest) := by
  obtain ⟨h1, h2, h3⟩ := h
  unfold writeSegment text
  split_ifs <;> simp only [List.nil_append, List.cons_append, Numbered] <;> exact ⟨h1, h2, h3, hr⟩

theorem home_trim : home TRIM = some .color := rfl
theorem home_needle : home NEEDLE_SET = some .color := rfl
theorem home_change : home COLOR_CHANGE = some .document := rfl

theorem home_le (cmd : Int) (st : List Level) (h : Level.block ∈ st ∧ Level.color ∈ st ∧ Level.document ∈ st) : ∀ l ∈ home cmd, l ∈ st := by
  intro l hl
  unfold home at hl
  split_ifs at hl
  · cases hl; exact h.2.1
  · cases hl; exact h.2.2
  · cases hl; exact h.1
  · cases hl

theorem home_none (cmd : Int) (h : cmd ∉ owned) : home cmd = none := by
  rw [owned_iff] at h
  simp only [List.mem_cons, List.not_mem_nil, or_false, not_or] at h
  unfold home
  rw [if_neg (by omega), if_neg (by omega), if_neg]
  simp only [List.mem_cons, List.not_mem_nil, or_false]
  omega

theorem opens_full (T : Texts) (hs : ∀ l, T.start l = true) (cmd : Int) (s : St) (h : Quiet s) :
    Quiet (writeOpens T (opens cmd s)).2 ∧
    nest s.stack (writeOpens T (opens cmd s)).1 = some (writeOpens T (opens cmd s)).2.stack ∧
    (∀ l ∈ home cmd, l ∈ (writeOpens T (opens cmd s)).2.stack) ∧
    (∀ rest, Numbered (writeOpens T (opens cmd s)).2.documentIndex (writeOpens T (opens cmd s)).2.colorIndex
        (writeOpens T (opens cmd s)).2.blockIndex rest →
      Numbered s.documentIndex s.colorIndex s.blockIndex ((writeOpens T (opens cmd s)).1 ++ rest)) := by
  obtain ⟨docEst, colEst, blkEst, _, _, _, _, _, _, di, ci, bi, xx, yy, lx, ly, z⟩ := s
  obtain ⟨o1, o2, o3, c1, c2, c3, hb, hc, hp, hq⟩ := h
  dsimp only at o1 o2 o3 c1 c2 c3 hb hc hp hq
  subst o1 o2 o3 c1 c2 c3
  have e3 : ∀ s, cmd ∈ owned → cmd ≠ TRIM → cmd ≠ NEEDLE_SET → cmd ≠ COLOR_CHANGE → opens cmd s = openBlock (openColor (openDocument s)) := by
    intro s h1 h2 h3 h4
    rw [opens, if_neg (by simp [h2, h3]), if_neg h4, if_pos h1]
  have main : ∀ (f : St → St), (f = openDocument ∧ cmd = COLOR_CHANGE ∨ f = openColor ∘ openDocument ∧ (cmd = TRIM ∨ cmd = NEEDLE_SET) ∨
      f = openBlock ∘ openColor ∘ openDocument ∨ f = id ∧ cmd ∉ owned) →
      ∀ s : St, s = ⟨docEst, colEst, blkEst, false, false, false, false, false, false, di, ci, bi, xx, yy, lx, ly, z⟩ →
      Quiet (writeOpens T (f s)).2 ∧
      nest s.stack (writeOpens T (f s)).1 = some (writeOpens T (f s)).2.stack ∧
      (∀ l ∈ home cmd, l ∈ (writeOpens T (f s)).2.stack) ∧
      (∀ rest, Numbered (writeOpens T (f s)).2.documentIndex (writeOpens T (f s)).2.colorIndex
          (writeOpens T (f s)).2.blockIndex rest →
        Numbered s.documentIndex s.colorIndex s.blockIndex ((writeOpens T (f s)).1 ++ rest)) := by
    rintro f hf s rfl
    rcases hf with ⟨rfl, rfl⟩ | ⟨rfl, hk⟩ | rfl | ⟨rfl, hk⟩
    · cases docEst <;> cases colEst <;> cases blkEst <;> simp at hb hc hp hq <;>
        simp [openDocument, writeOpens, St.stack, nest, parent, text, hs, home_change, Numbered] <;>
        constructor <;> simp_all
    · have hh : ∀ st : List Level, Level.color ∈ st → ∀ l ∈ home cmd, l ∈ st := by
        rcases hk with rfl | rfl
        · intro st h l hl; rw [home_trim] at hl; cases hl; exact h
        · intro st h l hl; rw [home_needle] at hl; cases hl; exact h
      refine ⟨?_, ?_, hh _ ?_, ?_⟩
      all_goals
        cases docEst <;> cases colEst <;> cases blkEst <;> simp at hb hc hp hq <;>
        simp [openDocument, openColor, writeOpens, St.stack, nest, parent, text, hs, Numbered, Function.comp]
      all_goals constructor <;> simp_all <;> omega
    · refine ⟨?_, ?_, home_le cmd _ ?_, ?_⟩
      all_goals
        cases docEst <;> cases colEst <;> cases blkEst <;> simp at hb hc hp hq <;>
        simp [openDocument, openColor, openBlock, writeOpens, St.stack, nest, parent, text, hs, Numbered, Function.comp]
      all_goals constructor <;> simp_all <;> omega
    · rw [home_none cmd hk]
      cases docEst <;> cases colEst <;> cases blkEst <;> simp at hb hc hp hq <;>
        simp [writeOpens, St.stack, nest] <;> constructor <;> simp_all
  rcases kinds cmd with rfl | rfl | rfl | rfl | ⟨k1, k2, k3, k4, k5⟩ | ⟨k1, k2, k3, k4, k5⟩
  · exact main _ (.inr (.inl ⟨rfl, .inl rfl⟩)) _ rfl
  · exact main _ (.inr (.inl ⟨rfl, .inr rfl⟩)) _ rfl
  · exact main _ (.inl ⟨rfl, rfl⟩) _ rfl
  · exact main _ (.inr (.inr (.inl rfl))) _ rfl
  · have := main _ (.inr (.inr (.inl rfl))) _ rfl
    rw [e3 _ k1 k2 k3 k4]
    exact this
  · have := main _ (.inr (.inr (.inr ⟨rfl, k1⟩))) _ rfl
    rw [show opens cmd = id from by
      funext s; rw [opens, if_neg (by simp [k2, k3]), if_neg k4, if_neg k1]; rfl]
    exact this

theorem closes_full (T : Texts) (hs : ∀ l, T.stop l = true) (cmd : Int) (s : St) (h : Quiet s) :
    Quiet (writeCloses T (closes cmd s)).2 ∧
    nest s.stack (writeCloses T (closes cmd s)).1 = some (writeCloses T (closes cmd s)).2.stack ∧
    (∀ rest, Numbered (writeCloses T (closes cmd s)).2.documentIndex (writeCloses T (closes cmd s)).2.colorIndex
        (writeCloses T (closes cmd s)).2.blockIndex rest →
      Numbered s.documentIndex s.colorIndex s.blockIndex ((writeCloses T (closes cmd s)).1 ++ rest)) ∧
    (cmd = END → (writeCloses T (closes cmd s)).2.stack = [.pattern]) := by
  obtain ⟨docEst, colEst, blkEst, _, _, _, _, _, _, di, ci, bi, xx, yy, lx, ly, z⟩ := s
  obtain ⟨o1, o2, o3, c1, c2, c3, hb, hc, hp, hq⟩ := h
  dsimp only at o1 o2 o3 c1 c2 c3 hb hc hp hq
  subst o1 o2 o3 c1 c2 c3
  have main : ∀ (f : St → St), (f = closeBlock ∨ f = closeColor ∘ closeBlock ∨
      f = closeDocument ∘ closeColor ∘ closeBlock ∨ f = id) →
      ∀ s : St, s = ⟨docEst, colEst, blkEst, false, false, false, false, false, false, di, ci, bi, xx, yy, lx, ly, z⟩ →
      Quiet (writeCloses T (f s)).2 ∧
      nest s.stack (writeCloses T (f s)).1 = some (writeCloses T (f s)).2.stack ∧
      (∀ rest, Numbered (writeCloses T (f s)).2.documentIndex (writeCloses T (f s)).2.colorIndex
          (writeCloses T (f s)).2.blockIndex rest →
        Numbered s.documentIndex s.colorIndex s.blockIndex ((writeCloses T (f s)).1 ++ rest)) ∧
      (f = closeDocument ∘ closeColor ∘ closeBlock → (writeCloses T (f s)).2.stack = [.pattern]) := by
    rintro f hf s rfl
    refine ⟨?_, ?_, ?_, ?_⟩
    rotate_left 3
    · rintro rfl
      cases docEst <;> cases colEst <;> cases blkEst <;> simp at hb hc hp hq <;>
        simp [closeDocument, closeColor, closeBlock, writeCloses, St.stack, Function.comp]
    all_goals
      rcases hf with rfl | rfl | rfl | rfl <;>
      cases docEst <;> cases colEst <;> cases blkEst <;> simp at hb hc hp hq <;>
      simp [closeDocument, closeColor, closeBlock, writeCloses, St.stack, nest, text, hs, Numbered, Function.comp]
    all_goals constructor <;> simp_all
  have e1 : cmd ≠ TRIM → cmd ≠ COLOR_CHANGE → cmd ≠ END → closes cmd = id := by
    intro h1 h2 h3
    funext s
    rw [closes, if_neg h1, if_neg h2, if_neg h3]
    rfl
  have weak : ∀ {P Q R A B : Prop}, P ∧ Q ∧ R ∧ (A → B) → ¬ (cmd = END) → P ∧ Q ∧ R ∧ (cmd = END → B) :=
    fun h hn => ⟨h.1, h.2.1, h.2.2.1, fun e => absurd e hn⟩
  by_cases h1 : cmd = TRIM
  · subst h1
    exact weak (main _ (.inl rfl) _ rfl) (by decide)
  by_cases h2 : cmd = COLOR_CHANGE
  · subst h2
    exact weak (main _ (.inr (.inl rfl)) _ rfl) (by decide)
  by_cases h3 : cmd = END
  · subst h3
    have := main _ (.inr (.inr (.inl rfl))) _ rfl
    exact ⟨this.1, this.2.1, this.2.2.1, fun _ => this.2.2.2 rfl⟩
  · rw [e1 h1 h2 h3]
    exact weak (main _ (.inr (.inr (.inr rfl))) _ rfl) h3

theorem body_full (T : Texts) (hs : ∀ l, T.start l = true) (ht : ∀ l, T.stop l = true) (cmd : Int) (i : Nat) (own : Bool)
    (e : St → Env) (he : ∀ s, (e s).documentIndex = s.documentIndex ∧ (e s).colorIndex = s.colorIndex ∧ (e s).blockIndex = s.blockIndex)
    (s : St) (h : Quiet s) (out : List Tok × St) (ho : body T cmd (fun s => .segment i cmd own (e s)) s = out) :
    Quiet out.2 ∧ nest s.stack out.1 = some out.2.stack ∧
    (∀ rest, Numbered out.2.documentIndex out.2.colorIndex out.2.blockIndex rest →
      Numbered s.documentIndex s.colorIndex s.blockIndex (out.1 ++ rest)) ∧
    (cmd = END → out.2.stack = [.pattern]) := by
  subst ho
  obtain ⟨a1, a2, a3, a4⟩ := opens_full T hs cmd s h
  obtain ⟨b1, b2, b3, b4⟩ := closes_full T ht cmd _ a1
  refine ⟨b1, ?_, ?_, b4⟩
  · simp only [body]
    rw [nest_append, nest_append, a2]
    simp only [Option.bind_some]
    rw [nest_segment T _ i cmd own _ a3]
    exact b2
  · intro rest hr
    simp only [body, List.append_assoc]
    exact a4 _ (numbered_segment T _ _ _ i cmd own _ _ (he _) (b3 rest hr))

theorem quiet_positions (T : Texts) (x y : ℚ) (cmd : Int) (s : St) (h : Quiet s) : Quiet (updatePositions T x y cmd s).2 :=
  ⟨h.o1, h.o2, h.o3, h.c1, h.c2, h.c3, h.b, h.c, h.p, h.q⟩

theorem step_full (T : Texts) (hs : ∀ l, T.start l = true) (ht : ∀ l, T.stop l = true) (i : Nat) (st : Stitch) (s : St)
    (h : Quiet s) (out : List Tok × St) (ho : step T i st s = .ok out) :
    Quiet out.2 ∧ nest s.stack out.1 = some out.2.stack ∧
    (∀ rest, Numbered out.2.documentIndex out.2.colorIndex out.2.blockIndex rest →
      Numbered s.documentIndex s.colorIndex s.blockIndex (out.1 ++ rest)) ∧
    (st.low = 4 → HasText T 4 → out.2.stack = [.pattern]) := by
  have hcmd : (decodeCommand st.cmd).1 = st.low := rfl
  rw [step_eq] at ho
  rw [hcmd] at ho
  cases hn : lookup nameDict st.low with
  | error e => rw [hn] at ho; exact absurd ho (by intro h; cases h)
  | ok nm =>
    rw [hn] at ho
    cases hg : getWriteSegment T st.low with
    | none =>
      rw [hg] at ho
      obtain rfl : ([], s) = out := by injection ho
      refine ⟨h, rfl, fun rest hr => hr, fun h4 ht => ?_⟩
      rw [h4] at hg
      exact absurd ht ((getWriteSegment_none T 4).1 hg)
    | some own =>
      rw [hg] at ho
      have hb : body T st.low (fun s' => .segment i st.low own ((updatePositions T st.x st.y st.low s).1 s'))
        (updatePositions T st.x st.y st.low s).2 = out := by injection ho
      have := body_full T hs ht st.low i own _ (fun s => ⟨rfl, rfl, rfl⟩) _ (quiet_positions T st.x st.y st.low s h) out hb
      exact ⟨this.1, this.2.1, this.2.2.1, fun h4 _ => this.2.2.2 h4⟩

theorem run_cons (T : Texts) (i : Nat) (st : Stitch) (l : List Stitch) (s : St) (out : List Tok × St) :
    run T i (st :: l) s = .ok out ↔ ∃ a b, step T i st s = .ok a ∧ run T (i + 1) l a.2 = .ok b ∧ out = (a.1 ++ b.1, b.2) := by
  simp only [run]
  cases h : step T i st s with
  | error e => constructor
               · intro h'; cases h'
               · rintro ⟨a, b, h1, _⟩; cases h1
  | ok a =>
    show (run T (i + 1) l a.2 >>= fun q => Except.ok (a.1 ++ q.1, q.2)) = .ok out ↔ _
    cases h2 : run T (i + 1) l a.2 with
    | error e => constructor
                 · intro h'; cases h'
                 · rintro ⟨a', b, h1, h3, _⟩; cases h1; rw [h2] at h3; cases h3
    | ok b =>
      constructor
      · intro h'
        exact ⟨a, b, rfl, h2, by injection h' with h'; exact h'.symm⟩
      · rintro ⟨a', b', h1, h3, h4⟩
        cases h1
        rw [h2] at h3
        cases h3
        rw [h4]
        rfl

theorem run_full (T : Texts) (hs : ∀ l, T.start l = true) (ht : ∀ l, T.stop l = true) (l : List Stitch) (i : Nat) (s : St)
    (h : Quiet s) (out : List Tok × St) (ho : run T i l s = .ok out) :
    nest s.stack out.1 = some out.2.stack ∧
    (∀ rest, Numbered out.2.documentIndex out.2.colorIndex out.2.blockIndex rest →
      Numbered s.documentIndex s.colorIndex s.blockIndex (out.1 ++ rest)) ∧
    (∀ m e, l = m ++ [e] → e.low = 4 → HasText T 4 → out.2.stack = [.pattern]) := by
  induction l generalizing i s out with
  | nil =>
    obtain rfl : ([], s) = out := by simpa [run] using ho
    exact ⟨rfl, fun _ h => h, fun m e h => by simp at h⟩
  | cons st l ih =>
    obtain ⟨a, b, h1, h2, rfl⟩ := (run_cons T i st l s out).1 ho
    obtain ⟨p1, p2, p3, p4⟩ := step_full T hs ht i st s h a h1
    obtain ⟨q1, q2, q3⟩ := ih (i + 1) a.2 p1 b h2
    refine ⟨?_, ?_, ?_⟩
    · rw [nest_append, p2]
      exact q1
    · intro rest hr
      rw [List.append_assoc]
      exact p3 _ (q2 rest hr)
    · intro m e hm he hT
      cases m with
      | nil =>
        obtain ⟨rfl, rfl⟩ : st = e ∧ l = [] := by simpa using hm
        obtain rfl : ([], a.2) = b := by simpa [run] using h2
        exact p4 he hT
      | cons x m =>
        obtain ⟨rfl, rfl⟩ : st = x ∧ l = m ++ [e] := by simpa using hm
        exact q3 m e rfl he hT

theorem quiet_init : Quiet St.init := by constructor <;> simp [St.init]

theorem nest_entries (st : List Level) (c : Bool) (n : Nat) (f : Nat → Tok) (hf : f = .metadata ∨ f = .thread) :
    nest st (if c then (List.range n).map f else []) = some st := by
  have : ∀ l : List Nat, nest st (l.map f) = some st := by
    intro l
    induction l with
    | nil => rfl
    | cons a l ih => rcases hf with rfl | rfl <;> exact ih
  split_ifs
  · exact this _
  · rfl

theorem numbered_entries (d k b : Int) (c : Bool) (n : Nat) (f : Nat → Tok) (hf : f = .metadata ∨ f = .thread) (r : List Tok)
    (hr : Numbered d k b r) : Numbered d k b ((if c then (List.range n).map f else []) ++ r) := by
  have : ∀ l : List Nat, Numbered d k b (l.map f ++ r) := by
    intro l
    induction l with
    | nil => exact hr
    | cons a l ih => rcases hf with rfl | rfl <;> exact ih
  split_ifs
  · exact this _
  · exact hr

theorem write_iff (T : Texts) (m t : Nat) (l : List Stitch) (toks : List Tok) : write T m t l = .ok toks ↔
    ∃ r, run T 0 l St.init = .ok r ∧ toks = text (T.start .pattern) (.start .pattern) ++
      (if T.metadataEntry then (List.range m).map .metadata else []) ++
      (if T.threadEntry then (List.range t).map .thread else []) ++ r.1 ++ text (T.stop .pattern) (.stop .pattern) := by
  unfold write
  cases run T 0 l St.init with
  | error e => constructor
               · intro h; cases h
               · rintro ⟨r, h, _⟩; cases h
  | ok r =>
    constructor
    · intro h
      exact ⟨r, rfl, by injection h with h; exact h.symm⟩
    · rintro ⟨r', h, h2⟩
      cases h
      rw [h2]
      rfl

/-! ## The theorems -/

/-- C61: the texts up to the end of the pattern never close what is not open, never open anything out of place and have every
segment where it belongs. -/
theorem C61_nested (T : Texts) (hs : ∀ l, T.start l = true) (ht : ∀ l, T.stop l = true) (m t : Nat) (l : List Stitch)
    (toks : List Tok) (h : write T m t l = .ok toks) :
    ∃ a st, toks = a ++ [.stop .pattern] ∧ nest [] a = some (st ++ [.pattern]) := by
  obtain ⟨r, hr, rfl⟩ := (write_iff T m t l toks).1 h
  obtain ⟨p1, -, -⟩ := run_full T hs ht l 0 St.init quiet_init r hr
  refine ⟨_, (if r.2.blkEst then [.block] else []) ++ (if r.2.colEst then [.color] else []) ++
    (if r.2.docEst then [.document] else []), by rw [ht]; rfl, ?_⟩
  rw [nest_append, nest_append, nest_append, hs]
  show ((some [Level.pattern]).bind _ |>.bind _).bind _ = _
  simp only [Option.bind_some]
  rw [nest_entries _ _ _ _ (.inl rfl)]
  simp only [Option.bind_some]
  rw [nest_entries _ _ _ _ (.inr rfl)]
  exact p1

/-- C61: if the pattern ends with END and there is a text for END, everything is closed. -/
theorem C61_balanced_partial (T : Texts) (hs : ∀ l, T.start l = true) (ht : ∀ l, T.stop l = true) (m t : Nat) (l : List Stitch)
    (e : Stitch) (he : e.low = 4) (hT : HasText T 4) (toks : List Tok) (h : write T m t (l ++ [e]) = .ok toks) :
    nest [] toks = some [] := by
  obtain ⟨r, hr, rfl⟩ := (write_iff T m t _ toks).1 h
  obtain ⟨p1, -, p3⟩ := run_full T hs ht _ 0 St.init quiet_init r hr
  rw [nest_append, nest_append, nest_append, nest_append, hs, ht]
  show (((some [Level.pattern]).bind _ |>.bind _).bind _).bind _ = _
  simp only [Option.bind_some]
  rw [nest_entries _ _ _ _ (.inl rfl)]
  simp only [Option.bind_some]
  rw [nest_entries _ _ _ _ (.inr rfl)]
  simp only [Option.bind_some]
  rw [show nest [Level.pattern] r.1 = some [.pattern] from p1.trans (congrArg some (p3 l e rfl he hT))]
  rfl

/-- C61: the indices given to the segments count the documents, colours and blocks. -/
theorem C61_numbered (T : Texts) (hs : ∀ l, T.start l = true) (ht : ∀ l, T.stop l = true) (m t : Nat) (l : List Stitch)
    (toks : List Tok) (h : write T m t l = .ok toks) : Numbered (-1) (-1) (-1) toks := by
  obtain ⟨r, hr, rfl⟩ := (write_iff T m t l toks).1 h
  obtain ⟨-, p2, -⟩ := run_full T hs ht l 0 St.init quiet_init r hr
  rw [hs, ht, List.append_assoc, List.append_assoc, List.append_assoc]
  show Numbered (-1) (-1) (-1) _
  refine numbered_entries _ _ _ _ _ _ (.inl rfl) _ ?_
  refine numbered_entries _ _ _ _ _ _ (.inr rfl) _ ?_
  exact p2 _ trivial

/-! ### Settings without some of the texts -/

theorem app {a b c d : List Tok} (h : a = b) (h' : c = d) : a ++ c = b ++ d := by rw [h, h']

theorem filter_text (T : Texts) (t : Tok) (b : Bool) (h : keeps T t = b) : (text true t).filter (keeps T) = text b t := by
  subst h
  show List.filter (keeps T) [t] = text (keeps T t) t
  cases hk : keeps T t
  · rw [List.filter_cons_of_neg (by simp [hk])]; rfl
  · rw [List.filter_cons_of_pos hk]; rfl

theorem filter_join (T : Texts) (c : Prop) [Decidable c] (l : Level) :
    List.filter (keeps T) (if c then [.join l] else []) = if c then [.join l] else [] := by
  split_ifs <;> rfl

theorem filter_when (T : Texts) (c : Bool) (a b : List Tok) (h : List.filter (keeps T) a = b) :
    List.filter (keeps T) (if c then a else []) = if c then b else [] := by
  cases c
  · rfl
  · exact h

theorem filter_keep (T : Texts) (b : Bool) (t : Tok) (h : keeps T t = true) : (text b t).filter (keeps T) = text b t := by
  unfold text
  cases b <;> simp [h]

theorem opens_filter (T : Texts) (s : St) : writeOpens T s = ((writeOpens T.full s).1.filter (keeps T), (writeOpens T.full s).2) := by
  refine Prod.ext ?_ rfl
  show _ = List.filter (keeps T) (_ ++ _ ++ _)
  rw [List.filter_append, List.filter_append]
  unfold writeOpens
  symm
  refine app (app ?_ ?_) ?_
  · exact filter_when T _ _ _ (filter_text T (.start .document) _ rfl)
  all_goals refine filter_when T _ _ _ ?_
  · show List.filter (keeps T) (_ ++ _) = _
    rw [List.filter_append]
    exact app (filter_join T _ _) (filter_text T (.start .color) _ rfl)
  · show List.filter (keeps T) (_ ++ _) = _
    rw [List.filter_append]
    exact app (filter_join T _ _) (filter_text T (.start .block) _ rfl)

theorem closes_filter (T : Texts) (s : St) : writeCloses T s = ((writeCloses T.full s).1.filter (keeps T), (writeCloses T.full s).2) := by
  refine Prod.ext ?_ rfl
  show _ = List.filter (keeps T) (_ ++ _ ++ _)
  rw [List.filter_append, List.filter_append]
  unfold writeCloses
  symm
  refine app (app ?_ ?_) ?_
  · exact filter_when T _ _ _ (filter_text T (.stop .block) _ rfl)
  · exact filter_when T _ _ _ (filter_text T (.stop .color) _ rfl)
  · exact filter_when T _ _ _ (filter_text T (.stop .document) _ rfl)

theorem segment_filter (T : Texts) (t : Tok) (h : keeps T t = true) :
    writeSegment T t = (writeSegment T.full t).filter (keeps T) := by
  simp only [writeSegment, Texts.full, List.filter_append]
  rw [filter_keep T _ _ rfl, filter_keep T _ _ rfl, filter_keep T _ _ rfl]
  simp [h]

theorem step_filter (T : Texts) (i : Nat) (st : Stitch) (s : St) :
    step T i st s = (step T.full i st s).map (fun r => (r.1.filter (keeps T), r.2)) := by
  rw [step_eq, step_eq]
  cases lookup nameDict (decodeCommand st.cmd).1 with
  | error e => rfl
  | ok nm =>
    have hg : getWriteSegment T.full (decodeCommand st.cmd).1 = getWriteSegment T (decodeCommand st.cmd).1 := rfl
    rw [hg]
    cases getWriteSegment T (decodeCommand st.cmd).1 with
    | none => rfl
    | some own =>
      show Except.ok _ = Except.ok _
      congr 1
      have hu : updatePositions T.full = updatePositions T := rfl
      rw [hu]
      simp only [body]
      rw [opens_filter T, closes_filter T]
      simp only [List.filter_append]
      rw [← segment_filter T _ rfl]

theorem run_filter (T : Texts) (l : List Stitch) (i : Nat) (s : St) :
    run T i l s = (run T.full i l s).map (fun r => (r.1.filter (keeps T), r.2)) := by
  induction l generalizing i s with
  | nil => rfl
  | cons st l ih =>
    simp only [run]
    rw [step_filter]
    cases step T.full i st s with
    | error e => rfl
    | ok a =>
      show (run T (i + 1) l a.2 >>= _) = Except.map _ (run T.full (i + 1) l a.2 >>= _)
      rw [ih]
      cases run T.full (i + 1) l a.2 with
      | error e => rfl
      | ok b =>
        show Except.ok _ = Except.ok _
        simp

/-- C61: leaving starts and ends out of the settings leaves them out of the output and changes nothing else. -/
theorem C61_left_out (T : Texts) (m t : Nat) (l : List Stitch) :
    write T m t l = (write T.full m t l).map (List.filter (keeps T)) := by
  unfold write
  rw [run_filter]
  cases run T.full 0 l St.init with
  | error e => rfl
  | ok r =>
    show Except.ok _ = Except.ok _
    congr 1
    show _ = List.filter (keeps T) (_ ++ _ ++ _ ++ _ ++ _)
    rw [List.filter_append, List.filter_append, List.filter_append, List.filter_append]
    have h1 : ∀ (c : Bool) (n : Nat), List.filter (keeps T) (if c then (List.range n).map Tok.metadata else []) =
        if c then (List.range n).map Tok.metadata else [] := by
      intro c n
      cases c
      · rfl
      · rw [if_pos rfl, List.filter_eq_self.2]
        intro a ha
        obtain ⟨k, -, rfl⟩ := List.mem_map.1 ha
        rfl
    have h2 : ∀ (c : Bool) (n : Nat), List.filter (keeps T) (if c then (List.range n).map Tok.thread else []) =
        if c then (List.range n).map Tok.thread else [] := by
      intro c n
      cases c
      · rfl
      · rw [if_pos rfl, List.filter_eq_self.2]
        intro a ha
        obtain ⟨k, -, rfl⟩ := List.mem_map.1 ha
        rfl
    symm
    refine app (app (app (app ?_ ?_) ?_) rfl) ?_
    · exact filter_text T (.start .pattern) _ rfl
    · exact h1 _ _
    · exact h2 _ _
    · exact filter_text T (.stop .pattern) _ rfl

theorem matched_filter (T : Texts) (hp : ∀ l, T.start l = T.stop l) (toks : List Tok) (st fin : List Level)
    (h : nest st toks = some fin) : matched (st.filter T.start) (toks.filter (keeps T)) = some (fin.filter T.start) := by
  induction toks generalizing st with
  | nil => simp only [nest, Option.some.injEq] at h; subst h; rfl
  | cons t r ih =>
    cases t with
    | start l =>
      simp only [nest] at h
      split_ifs at h with h1
      have := ih _ h
      by_cases hl : T.start l = true
      · rw [List.filter_cons_of_pos (show keeps T (.start l) = true from hl)]
        rw [List.filter_cons_of_pos hl] at this
        exact this
      · rw [List.filter_cons_of_neg (show ¬ keeps T (.start l) = true from hl)]
        rw [List.filter_cons_of_neg hl] at this
        exact this
    | stop l =>
      simp only [nest] at h
      split_ifs at h with h1
      obtain ⟨st', rfl⟩ : ∃ st', st = l :: st' := by
        cases st with
        | nil => simp at h1
        | cons a st' => simp at h1; exact ⟨st', by rw [h1]⟩
      have := ih _ h
      by_cases hl : T.start l = true
      · rw [List.filter_cons_of_pos (show keeps T (.stop l) = true from by simp only [keeps, ← hp]; exact hl), List.filter_cons_of_pos hl]
        simp only [matched, List.head?_cons, if_true, List.tail_cons]
        exact this
      · rw [List.filter_cons_of_neg (show ¬ keeps T (.stop l) = true from by simp only [keeps, ← hp]; exact hl), List.filter_cons_of_neg hl]
        exact this
    | segment i c o e =>
      simp only [nest] at h
      split_ifs at h with h1
      exact ih _ h
    | _ => exact ih _ h

/-- C61: with any choice of levels that have both a start and an end, every start is closed by its own end, if the pattern ends
with END and there is a text for END. -/
theorem C61_matched (T : Texts) (hp : ∀ l, T.start l = T.stop l) (m t : Nat) (l : List Stitch)
    (e : Stitch) (he : e.low = 4) (hT : HasText T 4) (toks : List Tok) (h : write T m t (l ++ [e]) = .ok toks) :
    matched [] toks = some [] := by
  rw [C61_left_out] at h
  cases hw : write T.full m t (l ++ [e]) with
  | error x => rw [hw] at h; cases h
  | ok toks' =>
    rw [hw] at h
    obtain rfl : toks'.filter (keeps T) = toks := by injection h
    exact matched_filter T hp toks' [] [] (C61_balanced_partial T.full (fun _ => rfl) (fun _ => rfl) m t l e he hT toks' hw)

/-- C61: every pattern whose commands have names is accepted, and no other. -/
theorem C61_accepted (T : Texts) (m t : Nat) (l : List Stitch) :
    (∃ toks, write T m t l = .ok toks) ↔ ∀ a ∈ l, a.low ∈ nameDict.map Prod.fst := by
  have hl : ∀ c : Int, (∃ n, lookup nameDict c = .ok n) ↔ c ∈ nameDict.map Prod.fst := by
    intro c
    unfold lookup
    cases hf : nameDict.find? (fun p => p.1 = c) with
    | none =>
      rw [List.find?_eq_none] at hf
      simp only [reduceCtorEq, exists_false, false_iff, List.mem_map, not_exists, not_and]
      intro p hp he
      exact hf p hp (by simp [he])
    | some p =>
      have h1 := List.mem_of_find?_eq_some hf
      have h2 := List.find?_some hf
      simp only [decide_eq_true_eq] at h2
      simp only [Except.ok.injEq, exists_eq', true_iff, List.mem_map]
      exact ⟨p, h1, h2⟩
  have hs : ∀ (i : Nat) (st : Stitch) (s : St), (∃ r, step T i st s = .ok r) ↔ st.low ∈ nameDict.map Prod.fst := by
    intro i st s
    rw [step_eq, ← hl]
    have hcmd : (decodeCommand st.cmd).1 = st.low := rfl
    rw [hcmd]
    cases lookup nameDict st.low with
    | error e => constructor <;> rintro ⟨r, h⟩ <;> cases h
    | ok n =>
      refine ⟨fun _ => ⟨n, rfl⟩, fun _ => ?_⟩
      cases getWriteSegment T st.low with
      | none => exact ⟨_, rfl⟩
      | some own => exact ⟨_, rfl⟩
  have hr : ∀ (l : List Stitch) (i : Nat) (s : St), (∃ r, run T i l s = .ok r) ↔ ∀ a ∈ l, a.low ∈ nameDict.map Prod.fst := by
    intro l
    induction l with
    | nil => intro i s; simp [run]
    | cons st l ih =>
      intro i s
      rw [List.forall_mem_cons, ← hs i st s]
      constructor
      · rintro ⟨r, h⟩
        obtain ⟨a, b, h1, h2, -⟩ := (run_cons T i st l s r).1 h
        exact ⟨⟨a, h1⟩, (ih (i + 1) a.2).1 ⟨b, h2⟩⟩
      · rintro ⟨⟨a, h1⟩, h2⟩
        obtain ⟨b, hb⟩ := (ih (i + 1) a.2).2 h2
        exact ⟨_, (run_cons T i st l s _).2 ⟨a, b, h1, hb, rfl⟩⟩
  rw [← hr l 0 St.init]
  constructor
  · rintro ⟨toks, h⟩
    obtain ⟨r, h1, -⟩ := (write_iff T m t l toks).1 h
    exact ⟨r, h1⟩
  · rintro ⟨r, h⟩
    exact ⟨_, (write_iff T m t l _).2 ⟨r, h, rfl⟩⟩

/-- C61 for what the encoder makes: it is accepted, and everything is closed in the end. -/
theorem C61_encoded {o : Settings} {lm : Libm} {threads : List Thread} {source out : List Stitch} {ths : List (Option Thread)}
    (hv : o.ValidSequins) (henc : encode o lm threads source = .ok (out, ths)) (T : Texts) (hp : ∀ l, T.start l = T.stop l)
    (hT : HasText T 4) (m t : Nat) : ∃ toks, write T m t out = .ok toks ∧ matched [] toks = some [] := by
  obtain ⟨l, e, rfl, he, -⟩ := C20_single_end hv henc
  obtain ⟨toks, h⟩ := (C61_accepted T m t (l ++ [e])).2 (by
    intro a ha
    have h1 := C21_low_level hv henc a ha
    have h2 : ∀ c ∈ ([0, 1, 2, 3, 4, 5, 6, 7, 9, 11, 12] : List Int), c ∈ nameDict.map Prod.fst := by decide
    exact h2 _ h1)
  exact ⟨toks, h, C61_matched T hp m t l e he hT toks h⟩

/-! ### What is not closed, and joins -/

/-- Settings with a text for stitches, and starts and ends of documents, as an example. -/
def demoTexts (segment : Bool) : Texts where
  metadataEntry := false
  threadEntry := false
  start l := decide (l = .document)
  stop l := decide (l = .document)
  colorJoin := false
  blockJoin := false
  segmentStart := false
  segment := segment
  segmentEnd := false
  segmentJoin := false
  own c := decide (c = 0)
  zTravel := 10

/-- C61 fails for settings without a text for END: the document is never closed. -/
theorem C61_unclosed : ∃ toks, write (demoTexts false) 0 0 [⟨1, 2, 0⟩, ⟨1, 2, 4⟩] = .ok toks ∧ matched [] toks = some [.document] := by
  refine ⟨_, rfl, ?_⟩
  decide +kernel

/-- A join is meant to stand between two colours or blocks, yet it stands before the first ones too, as their indices start at
one and not at nought. -/
theorem C61_join_first :
    (write { demoTexts true with colorJoin := true, blockJoin := true, start := fun _ => true } 0 0 [⟨1, 2, 0⟩, ⟨1, 2, 4⟩]).map
      (List.take 6) = .ok [.start .pattern, .start .document, .join .color, .start .color, .join .block, .start .block] := by
  decide +kernel

/-! ## The positions -/

theorem segments_text (b : Bool) (t : Tok) (h : segments [t] = []) : segments (text b t) = [] := by
  unfold text
  split_ifs
  · exact h
  · rfl

theorem segments_body (T : Texts) (cmd : Int) (i : Nat) (c : Int) (own : Bool) (e : St → Env) (s : St) :
    segments (body T cmd (fun s => .segment i c own (e s)) s).1 = [(i, c, e (writeOpens T (opens cmd s)).2)] := by
  have hw : ∀ (c : Bool) (a : List Tok), segments a = [] → segments (if c then a else []) = [] := by
    intro c a h
    cases c
    · rfl
    · exact h
  have hj : ∀ (c : Prop) [Decidable c] (l : Level), segments (if c then [.join l] else []) = [] := by
    intro c _ l
    split_ifs <;> rfl
  simp only [body, segments_append]
  rw [show segments (writeOpens T (opens cmd s)).1 = [] from ?_, show segments (writeCloses T (closes cmd (writeOpens T (opens cmd s)).2)).1 = [] from ?_]
  · simp only [writeSegment, segments_append]
    rw [segments_text _ _ rfl, segments_text _ _ rfl, segments_text _ _ rfl]
    rfl
  · unfold writeCloses
    simp only [segments_append]
    rw [hw _ _ (segments_text _ _ rfl), hw _ _ (segments_text _ _ rfl), hw _ _ (segments_text _ _ rfl)]
    rfl
  · unfold writeOpens
    simp only [segments_append]
    rw [hw _ _ (segments_text _ _ rfl), hw _ _ (by rw [segments_append, hj, segments_text _ _ rfl]; rfl),
      hw _ _ (by rw [segments_append, hj, segments_text _ _ rfl]; rfl)]
    rfl

/-- The fields that only `updatePositions` changes. -/
def St.where' (s : St) : Int × Int × ℚ × ℚ × ℚ := (s.xx, s.yy, s.lastX, s.lastY, s.z)

theorem opens_where (cmd : Int) (s : St) : (opens cmd s).where' = s.where' := by
  have h1 : ∀ s, (openDocument s).where' = s.where' := by intro s; unfold openDocument; split_ifs <;> rfl
  have h2 : ∀ s, (openColor s).where' = s.where' := by intro s; unfold openColor; split_ifs <;> rfl
  have h3 : ∀ s, (openBlock s).where' = s.where' := by intro s; unfold openBlock; split_ifs <;> rfl
  unfold opens
  split_ifs <;> simp only [h1, h2, h3]

theorem closes_where (cmd : Int) (s : St) : (closes cmd s).where' = s.where' := by
  have h1 : ∀ s, (closeDocument s).where' = s.where' := by intro s; unfold closeDocument; split_ifs <;> rfl
  have h2 : ∀ s, (closeColor s).where' = s.where' := by intro s; unfold closeColor; split_ifs <;> rfl
  have h3 : ∀ s, (closeBlock s).where' = s.where' := by intro s; unfold closeBlock; split_ifs <;> rfl
  unfold closes
  split_ifs <;> simp only [h1, h2, h3]

theorem body_where (T : Texts) (cmd : Int) (f : St → Tok) (s : St) : (body T cmd f s).2.where' = s.where' := by
  show (closes cmd (writeOpens T (opens cmd s)).2).where' = _
  rw [closes_where]
  show (opens cmd s).where' = _
  rw [opens_where]

theorem run_follows (T : Texts) (l : List Stitch) (i : Nat) (s : St) (out : List Tok × St) (ho : run T i l s = .ok out) :
    Follows T.zTravel (s.lastX, s.lastY) (s.xx, s.yy) s.z (written T i l) (segments out.1) := by
  induction l generalizing i s out with
  | nil =>
    obtain rfl : ([], s) = out := by simpa [run] using ho
    exact trivial
  | cons st l ih =>
    obtain ⟨a, b, h1, h2, rfl⟩ := (run_cons T i st l s out).1 ho
    have hb := ih (i + 1) a.2 b h2
    rw [segments_append]
    rw [step_eq] at h1
    have hcmd : (decodeCommand st.cmd).1 = st.low := rfl
    rw [hcmd] at h1
    cases hn : lookup nameDict st.low with
    | error e => rw [hn] at h1; cases h1
    | ok nm =>
      rw [hn] at h1
      cases hg : getWriteSegment T st.low with
      | none =>
        rw [hg] at h1
        obtain rfl : ([], s) = a := by injection h1
        rw [written, if_neg ((getWriteSegment_none T _).1 hg)]
        exact hb
      | some own =>
        rw [hg] at h1
        have hb' : body T st.low (fun s' => .segment i st.low own ((updatePositions T st.x st.y st.low s).1 s'))
          (updatePositions T st.x st.y st.low s).2 = a := by injection h1
        have hw := body_where T st.low (fun s' => .segment i st.low own ((updatePositions T st.x st.y st.low s).1 s'))
          (updatePositions T st.x st.y st.low s).2
        have hs := segments_body T st.low i st.low own (updatePositions T st.x st.y st.low s).1 (updatePositions T st.x st.y st.low s).2
        rw [hb'] at hw hs
        have hT : HasText T st.low := by
          by_contra hc
          rw [(getWriteSegment_none T _).2 hc] at hg
          cases hg
        rw [hs, written, if_pos hT]
        simp only [St.where', updatePositions, Prod.mk.injEq] at hw
        obtain ⟨w1, w2, w3, w4, w5⟩ := hw
        rw [w1, w2, w3, w4, w5] at hb
        have r1 := pyRound_abs (st.x - s.xx)
        have r2 := pyRound_abs (st.y - s.yy)
        refine ⟨rfl, rfl, rfl, rfl, rfl, rfl, rfl, rfl, rfl, ?_, ?_, hb⟩
        · show |((s.xx + pyRound (st.x - s.xx) : Int) : ℚ) - st.x| ≤ 1 / 2
          push_cast
          rwa [show (s.xx : ℚ) + (pyRound (st.x - s.xx) : ℚ) - st.x = pyRound (st.x - s.xx) - (st.x - s.xx) by ring]
        · show |((s.yy + pyRound (st.y - s.yy) : Int) : ℚ) - st.y| ≤ 1 / 2
          push_cast
          rwa [show (s.yy : ℚ) + (pyRound (st.y - s.yy) : ℚ) - st.y = pyRound (st.y - s.yy) - (st.y - s.yy) by ring]

/-- C72: the segments are those of the commands that have a text, in order, with their positions. -/
theorem C72_positions (T : Texts) (m t : Nat) (l : List Stitch) (toks : List Tok) (h : write T m t l = .ok toks) :
    Follows T.zTravel (0, 0) (0, 0) 0 (written T 0 l) (segments toks) := by
  obtain ⟨r, hr, rfl⟩ := (write_iff T m t l toks).1 h
  have hm : ∀ (c : Bool) (n : Nat) (f : Nat → Tok), (f = .metadata ∨ f = .thread) → segments (if c then (List.range n).map f else []) = [] := by
    intro c n f hf
    have : ∀ l : List Nat, segments (l.map f) = [] := by
      intro l
      induction l with
      | nil => rfl
      | cons a l ih => rcases hf with rfl | rfl <;> exact ih
    cases c
    · rfl
    · exact this _
  rw [segments_append, segments_append, segments_append, segments_append, segments_text _ _ rfl, segments_text _ _ rfl,
    hm _ _ _ (.inl rfl), hm _ _ _ (.inr rfl), List.append_nil]
  exact run_follows T l 0 St.init r hr

theorem framed_plain (T : Texts) (p : Option Tok) (a : List Tok) (h : segments a = []) : Framed T p a := by
  induction a generalizing p with
  | nil => exact trivial
  | cons t a ih =>
    cases t
    case segment => cases h
    all_goals exact ih _ h

theorem framed_append (T : Texts) (p : Option Tok) (a b : List Tok) (ha : Framed T p a) (hb : ∀ q, Framed T q b) :
    Framed T p (a ++ b) := by
  induction a generalizing p with
  | nil => exact hb p
  | cons t a ih =>
    cases t
    case segment => exact ⟨ha.1, ha.2.1, ha.2.2.1.trans (List.prefix_append _ _), ih _ ha.2.2.2⟩
    all_goals exact ih _ ha

theorem framed_segment (T : Texts) (p : Option Tok) (i : Nat) (c : Int) (own : Bool) (e : Env)
    (h : getWriteSegment T c = some own) : Framed T p (writeSegment T (.segment i c own e)) := by
  have ho : own = true ↔ c ∈ ([0, 1, 2, 3, 4, 5, 6, 7, 9, 11, 12] : List Int) ∧ T.own c = true := by
    have hl : c ∈ owned ↔ c ∈ ([0, 1, 2, 3, 4, 5, 6, 7, 9, 11, 12] : List Int) := by
      unfold owned
      simp only [SEQUIN_MODE, SEQUIN_EJECT, STITCH, TRIM, JUMP, COLOR_CHANGE, NEEDLE_SET, STOP, SLOW, FAST, END, List.mem_cons,
        List.not_mem_nil, or_false]
      tauto
    rw [← hl]
    unfold getWriteSegment at h
    split_ifs at h with h1 h2
    · injection h with h; subst h; exact ⟨fun _ => h1, fun _ => rfl⟩
    · injection h with h; subst h; exact ⟨fun h => (Bool.false_ne_true h).elim, fun h => absurd h h1⟩
  have key : ∀ q, (T.segmentStart = true → q = some .segmentStart) →
      Framed T q (.segment i c own e :: (text T.segmentJoin .segmentJoin ++ text T.segmentEnd .segmentEnd)) := by
    intro q hq
    refine ⟨ho, hq, List.prefix_rfl, framed_plain _ _ _ ?_⟩
    rw [segments_append, segments_text _ _ rfl, segments_text _ _ rfl]; rfl
  unfold writeSegment
  rw [List.append_assoc, List.append_assoc]
  cases hs : T.segmentStart
  · exact key p (by rw [hs]; exact fun h => (Bool.false_ne_true h).elim)
  · exact key _ (fun _ => rfl)

theorem writeOpens_segments (T : Texts) (s : St) : segments (writeOpens T s).1 = [] := by
  unfold writeOpens text
  simp only [segments_append]
  split_ifs <;> rfl

theorem writeCloses_segments (T : Texts) (s : St) : segments (writeCloses T s).1 = [] := by
  unfold writeCloses text
  simp only [segments_append]
  split_ifs <;> rfl

theorem run_framed (T : Texts) (l : List Stitch) (i : Nat) (s : St) (out : List Tok × St) (ho : run T i l s = .ok out)
    (p : Option Tok) : Framed T p out.1 := by
  induction l generalizing i s out p with
  | nil =>
    obtain rfl : ([], s) = out := by simpa [run] using ho
    exact trivial
  | cons st l ih =>
    obtain ⟨a, b, h1, h2, rfl⟩ := (run_cons T i st l s out).1 ho
    refine framed_append T p a.1 b.1 ?_ (ih (i + 1) a.2 b h2)
    rw [step_eq] at h1
    have hcmd : (decodeCommand st.cmd).1 = st.low := rfl
    rw [hcmd] at h1
    cases hn : lookup nameDict st.low with
    | error e => rw [hn] at h1; cases h1
    | ok nm =>
      rw [hn] at h1
      cases hg : getWriteSegment T st.low with
      | none =>
        rw [hg] at h1
        obtain rfl : ([], s) = a := by injection h1
        exact trivial
      | some own =>
        rw [hg] at h1
        have hb' : body T st.low (fun s' => .segment i st.low own ((updatePositions T st.x st.y st.low s).1 s'))
          (updatePositions T st.x st.y st.low s).2 = a := by injection h1
        rw [← hb']
        unfold body
        refine framed_append T _ _ _ (framed_append T _ _ _ (framed_plain _ _ _ (writeOpens_segments _ _)) ?_) ?_
        · exact fun q => framed_segment T q _ _ _ _ hg
        · exact fun q => framed_plain _ _ _ (writeCloses_segments _ _)

/-- **C72**: each segment has the right text and stands between its start, join and end. -/
theorem C72_framed (T : Texts) (m t : Nat) (l : List Stitch) (toks : List Tok) (h : write T m t l = .ok toks) :
    Framed T none toks := by
  obtain ⟨r, hr, rfl⟩ := (write_iff T m t l toks).1 h
  have hm : ∀ (c : Bool) (n : Nat) (f : Nat → Tok), (f = .metadata ∨ f = .thread) → segments (if c then (List.range n).map f else []) = [] := by
    intro c n f hf
    have : ∀ l : List Nat, segments (l.map f) = [] := by
      intro l
      induction l with
      | nil => rfl
      | cons a l ih => rcases hf with rfl | rfl <;> exact ih
    cases c
    · rfl
    · exact this _
  refine framed_append _ _ _ _ (framed_append _ _ _ _ (framed_append _ _ _ _ (framed_append _ _ _ _ ?_ ?_) ?_) ?_) ?_
  · exact framed_plain _ _ _ (segments_text _ _ rfl)
  · exact fun q => framed_plain _ _ _ (hm _ _ _ (.inl rfl))
  · exact fun q => framed_plain _ _ _ (hm _ _ _ (.inr rfl))
  · exact run_framed T l 0 St.init r hr
  · exact fun q => framed_plain _ _ _ (segments_text _ _ rfl)

-- two colours, with a text for everything; the documents, colours and blocks nest
example : (write { demoTexts true with start := fun _ => true, stop := fun _ => true } 0 0
    [⟨1, 2, 0⟩, ⟨1, 2, 2⟩, ⟨1, 2, 5⟩, ⟨(3 : ℚ) / 2, 2, 0⟩, ⟨2, 2, 4⟩]).map (fun t => (nest [] t, (segments t).map (fun p => (p.1, p.2.2.ix, p.2.2.colorIndex)))) =
    .ok (some [], [(0, 1, 1), (1, 1, 1), (2, 1, 1), (3, 1, 2), (4, 2, 2)]) := by decide +kernel

end Generic
end Emb
