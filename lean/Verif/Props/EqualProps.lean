import Verif.Props.ThreadSetProps
import Verif.Props.SettingProps
import Verif.Pes
import Verif.Jef
import Verif.Xxx
import Verif.Vp3
import Verif.Ct0
import Verif.Exp
import Verif.U01
import Verif.Pmv
import Verif.Svg
import Verif.Txt
import Verif.Json
import Verif.Gcode
import Verif.DstRead
import Verif.ColorFiles
import Verif.PngGuides

/-!
# C113: patterns that compare equal are saved as the same file

`==` between patterns (`Pattern.same`, C93) looks only at the low 24 bits of the colours and not at the order of the metadata. A writer that
looks at more would make two files of what Python calls one design.
-/

namespace Emb

open Blocks Ops

/-- The thread with only the 24 bits of its colour that `==` looks at. -/
def Thread.pure (t : Thread) : Thread := { t with color := t.color % 16777216 }

namespace Equal

theorem pure_eq_iff (a b : Thread) : a.pure = b.pure ↔ a.same b = true := by
  rw [C93_equal]
  cases a; cases b
  simp [Thread.pure, Thread.key]

theorem same_iff (T U : List Thread) : sameThreads T U = true ↔ T.map Thread.pure = U.map Thread.pure := by
  induction T generalizing U with
  | nil => cases U <;> simp [sameThreads]
  | cons t T ih =>
    cases U with
    | nil => simp [sameThreads]
    | cons u U => simp [sameThreads, pure_eq_iff, ih]

/-- What depends only on the colours that `==` looks at does not distinguish equal threads. -/
theorem agree {β : Type} {V W : List Thread → β} (h : ∀ T, V (T.map Thread.pure) = W T) {T U : List Thread} (e : sameThreads T U = true) :
    W T = W U := by
  rw [← h T, (same_iff T U).1 e, h U]

theorem same_refl (T : List Thread) : sameThreads T T = true := (same_iff T T).2 rfl

/-- What makes equal threads of equal threads. -/
theorem agree_same {V W : List Thread → List Thread} (h : ∀ T, V (T.map Thread.pure) = (W T).map Thread.pure) {T U : List Thread}
    (e : sameThreads T U = true) : sameThreads (W T) (W U) = true := (same_iff _ _).2 (agree h e)

theorem pure_red (t : Thread) : t.pure.red = t.red := by unfold Thread.pure Thread.red; simp only; omega
theorem pure_green (t : Thread) : t.pure.green = t.green := by unfold Thread.pure Thread.green; simp only; omega
theorem pure_blue (t : Thread) : t.pure.blue = t.blue := by unfold Thread.pure Thread.blue; simp only; omega
theorem pure_hex (t : Thread) : hexColor t.pure = hexColor t := by unfold hexColor; rw [pure_red, pure_green, pure_blue]
theorem pure_24be (t : Thread) : writeInt24be t.pure.color = writeInt24be t.color := by
  unfold writeInt24be lo8 Thread.pure; simp only [shr]; norm_num; omega
theorem pure_24le (t : Thread) : writeInt24le t.pure.color = writeInt24le t.color := by
  unfold writeInt24le lo8 Thread.pure; simp only [shr]; norm_num; omega

theorem pure_same (a b : Thread) : a.pure.same b.pure = a.same b := by
  unfold Thread.same Thread.pure
  simp only [Int.emod_emod]

theorem pure_dist (c : Int) (t : Thread) : distTo c t.pure = distTo c t := by unfold distTo; rw [pure_red, pure_green, pure_blue]

theorem color_dist (c : Int) (t : Thread) : distTo (c % 16777216) t = distTo c t := by
  unfold distTo
  rw [show c % 16777216 / 65536 % 256 = c / 65536 % 256 by omega, show c % 16777216 / 256 % 256 = c / 256 % 256 by omega,
    show c % 16777216 % 256 = c % 256 by omega]

theorem find_color (c : Int) (v : List (Option Thread)) : findNearest (c % 16777216) v = findNearest c v := by
  unfold findNearest
  have : ∀ i b, findLoop (c % 16777216) v i b = findLoop c v i b := by
    induction v with
    | nil => exact fun _ _ => rfl
    | cons t v ih =>
      intro i b
      cases t with
      | none => exact ih _ _
      | some t =>
        unfold findLoop
        simp only [color_dist, ih]
  exact this _ _

theorem find_palette (c : Int) (v : List (Option Thread)) : findNearest c (v.map (Option.map Thread.pure)) = findNearest c v := by
  unfold findNearest
  have : ∀ i b, findLoop c (v.map (Option.map Thread.pure)) i b = findLoop c v i b := by
    induction v with
    | nil => exact fun _ _ => rfl
    | cons t v ih =>
      intro i b
      cases t with
      | none => exact ih _ _
      | some t =>
        simp only [List.map_cons, Option.map_some]
        unfold findLoop
        simp only [pure_dist, ih]
  exact this _ _

theorem find_thread (t : Thread) (v : List (Option Thread)) : findNearest t.pure.color v = findNearest t.color v := find_color t.color v

/-! ## Dividing into blocks is the same for all kinds of threads -/

section
variable {τ ρ : Type} (f : τ → ρ) (T : List τ) (filler : Nat → τ)

theorem threadAt_map (k : Nat) : threadAt (T.map f) (fun i => f (filler i)) k = f (threadAt T filler k) := by
  unfold threadAt
  rw [List.getElem?_map]
  cases T[k]? <;> rfl

theorem stitchLoop_map (l : List Stitch) : ∀ cur t k, stitchLoop (T.map f) (fun i => f (filler i)) cur (f t) k l =
    (stitchLoop T filler cur t k l).map (Prod.map id f) := by
  induction l with
  | nil => intro cur t k; unfold stitchLoop; split_ifs <;> rfl
  | cons st l ih =>
    intro cur t k
    unfold stitchLoop
    split_ifs <;> simp [ih, threadAt_map]

theorem stitchBlocks_map (l : List Stitch) : stitchBlocks (T.map f) (fun i => f (filler i)) l =
    (stitchBlocks T filler l).map (Prod.map id f) := by
  unfold stitchBlocks
  rw [threadAt_map, stitchLoop_map]

theorem colorLoop_map (l : List Stitch) : ∀ cur k, colorLoop (T.map f) (fun i => f (filler i)) cur k l =
    (colorLoop T filler cur k l).map (Prod.map id f) := by
  induction l with
  | nil => intro cur k; unfold colorLoop; split_ifs <;> simp [threadAt_map]
  | cons st l ih =>
    intro cur k
    unfold colorLoop
    split_ifs <;> simp [ih, threadAt_map]

theorem colorBlocks_map (l : List Stitch) : colorBlocks (T.map f) (fun i => f (filler i)) l =
    (colorBlocks T filler l).map (Prod.map id f) := colorLoop_map f T filler l [] 0

theorem fixColorCount_map (l : List Stitch) : fixColorCount (T.map f) (fun i => f (filler i)) l = (fixColorCount T filler l).map f := by
  unfold fixColorCount
  simp

theorem stopLoop_map (c : Int) (l : List Stitch) : ∀ (T : List τ) k, stopLoop c (T.map f) k l =
    ((stopLoop c T k l).1, (stopLoop c T k l).2.map f) := by
  induction l with
  | nil => exact fun _ _ => rfl
  | cons st l ih =>
    intro T k
    unfold stopLoop
    split_ifs
    · simp [ih]
    · simp [ih]
    · rw [List.getElem?_map]
      cases T[k]? with
      | none => rfl
      | some t =>
        simp only [Option.map_some]
        rw [← List.map_insertIdx, ih]
    · simp [ih]

end

theorem fix_same {T U : List Thread} (e : sameThreads T U = true) (filler : Nat → Thread) (l : List Stitch) :
    sameThreads (fixColorCount T filler l) (fixColorCount U filler l) = true :=
  agree_same (V := fun T => fixColorCount T (fun i => (filler i).pure) l) (fun T => fixColorCount_map Thread.pure T filler l) e

theorem length_same {T U : List Thread} (e : sameThreads T U = true) : T.length = U.length := agree (V := List.length) (by simp) e

theorem flatMap_same {g : Thread → Bytes} (hg : ∀ t, g t.pure = g t) {T U : List Thread} (e : sameThreads T U = true) :
    T.flatMap g = U.flatMap g :=
  agree (V := fun T => T.flatMap g) (fun T => by induction T <;> simp_all) e

theorem map_same {β : Type} {g : Thread → β} (hg : ∀ t, g t.pure = g t) {T U : List Thread} (e : sameThreads T U = true) :
    T.map g = U.map g :=
  agree (V := fun T => T.map g) (fun T => by induction T <;> simp_all) e

theorem mapIdx_same {β : Type} {g : Nat → Thread → β} (hg : ∀ i t, g i t.pure = g i t) {T U : List Thread} (e : sameThreads T U = true) :
    T.mapIdx g = U.mapIdx g :=
  agree (V := fun T => T.mapIdx g) (fun T => List.ext_getElem? fun i => by simp [List.getElem?_mapIdx, Option.map_map, Function.comp_def, hg]) e

/-! ## The colours of a PEC file -/

theorem unique_map (O : List Thread) : ∀ (pal ch : List (Option Thread)), uniqueLoop (O.map Thread.pure) pal (ch.map (Option.map Thread.pure)) =
    (uniqueLoop O pal ch).map (Option.map Thread.pure) := by
  induction O with
  | nil => exact fun _ _ => rfl
  | cons t O ih =>
    intro pal ch
    simp only [List.map_cons]
    unfold uniqueLoop
    rw [find_thread]
    cases findNearest t.color pal with
    | none => rfl
    | some i =>
      simp only
      rw [← ih, List.map_set]
      rfl

theorem unique_same (pal : List (Option Thread)) {O P T U : List Thread} (h : sameThreads O P = true) (e : sameThreads T U = true) :
    buildUnique pal O T = buildUnique pal P U := by
  have h1 : ∀ O T : List Thread, buildUnique pal (O.map Thread.pure) (T.map Thread.pure) = buildUnique pal O T := by
    intro O T
    unfold buildUnique
    have : List.replicate pal.length (none : Option Thread) = (List.replicate pal.length none).map (Option.map Thread.pure) := by simp
    simp only [List.map_map]
    refine List.map_congr_left fun t _ => ?_
    rw [Function.comp_apply, find_thread, this, unique_map, find_palette, List.map_replicate, Option.map_none]
  rw [← h1 O T, (same_iff O P).1 h, (same_iff T U).1 e, h1 P U]

/-- An iteration order of Python's sets: it may depend on anything that `==` and `hash` can see. -/
def Natural (order : List Thread → List Thread) : Prop := ∀ T U, sameThreads T U = true → sameThreads (order T) (order U) = true

theorem pec_same {order : List Thread → List Thread} (ho : Natural order) (name : Option Str) {T U : List Thread}
    (e : sameThreads T U = true) (l : List Stitch) : Pec.writePattern order name T l = Pec.writePattern order name U l := by
  unfold Pec.writePattern
  rw [unique_same _ (ho T U e) e]

theorem prepare_same {T U : List Thread} (e : sameThreads T U = true) (filler : Nat → Thread) (l : List Stitch) :
    (Pec.prepare filler T l).1 = (Pec.prepare filler U l).1 ∧ sameThreads (Pec.prepare filler T l).2 (Pec.prepare filler U l).2 = true := by
  have h := fun T : List Thread => stopLoop_map Thread.pure 5 l T 0
  have e := fix_same e filler l
  unfold Pec.prepare stopAsDup
  exact ⟨agree (V := fun T => (stopLoop 5 T 0 l).1) (fun T => by rw [h T]) e,
    agree_same (V := fun T => (stopLoop 5 T 0 l).2) (fun T => by rw [h T]) e⟩

/-! ## The segments of a PES file -/

theorem segments_pure (T : List Thread) (filler : Nat → Thread) (chart : List (Option Thread)) (ax ay : ℚ) (l : List Stitch) :
    Pes.segments (T.map Thread.pure) (fun i => (filler i).pure) (chart.map (Option.map Thread.pure)) ax ay l =
      Pes.segments T filler chart ax ay l := by
  unfold Pes.segments
  rw [threadAt_map, find_palette, find_thread]
  generalize commandBlocks l = bs
  have : ∀ (bs : List (List Stitch)) (k : Nat) (c : Option Nat) (sx sy : ℚ),
      Pes.segLoop (T.map Thread.pure) (fun i => (filler i).pure) (chart.map (Option.map Thread.pure)) ax ay k c sx sy bs =
      Pes.segLoop T filler chart ax ay k c sx sy bs := by
    intro bs
    induction bs with
    | nil => intros; rfl
    | cons b bs ih =>
      intro k c sx sy
      cases b with
      | nil => unfold Pes.segLoop; exact ih _ _ _ _
      | cons st b =>
        unfold Pes.segLoop
        simp only [ih, threadAt_map, find_palette, find_thread]
  exact this _ _ _ _ _

theorem segments_same {T U : List Thread} (e : sameThreads T U = true) (filler : Nat → Thread) (chart : List Thread → List (Option Thread))
    (hc : ∀ T, chart (T.map Thread.pure) = (chart T).map (Option.map Thread.pure)) (ax ay : ℚ) (l : List Stitch) :
    Pes.segments T filler (chart T) ax ay l = Pes.segments U filler (chart U) ax ay l :=
  agree (V := fun T => Pes.segments T (fun i => (filler i).pure) (chart T) ax ay l)
    (W := fun T => Pes.segments T filler (chart T) ax ay l) (fun T => by rw [hc]; exact segments_pure T filler (chart T) ax ay l) e

theorem pure_pes (t : Thread) : Pes.thread t.pure = Pes.thread t := by
  unfold Pes.thread
  rw [pure_red, pure_green, pure_blue]
  rfl

theorem brother_pure : Pec.palette.map (Option.map Thread.pure) = Pec.palette := by decide +kernel

theorem blocks_same {T U : List Thread} (e : sameThreads T U = true) (f32 : ℚ → Bytes) (filler : Nat → Thread)
    (chart : List Thread → List (Option Thread)) (hc : ∀ T, chart (T.map Thread.pure) = (chart T).map (Option.map Thread.pure)) (b : Box)
    (l : List Stitch) : Pes.blocks f32 T filler (chart T) b l = Pes.blocks f32 U filler (chart U) b l := by
  unfold Pes.blocks
  simp only
  rw [segments_same e filler chart hc]

/-! ## The colours of a JEF file -/

/-- The same state up to the colours `==` does not look at. -/
def purePal (s : Jef.PalState) : Jef.PalState := { s with lastThread := s.lastThread.map Thread.pure }

theorem choose_pure (i : Option Nat) (t : Option Thread) (u : Thread) :
    Jef.choose Jef.table i (t.map Thread.pure) u.pure = Jef.choose Jef.table i t u := by
  unfold Jef.choose
  have : differs (t.map Thread.pure) u.pure = differs t u := by cases t <;> simp [differs, pure_same]
  simp only [find_thread, this]

theorem palette_pure (T : List Thread) (cs : List Int) : ∀ s, Jef.palette Jef.table (T.map Thread.pure) (purePal s) cs =
    Jef.palette Jef.table T s cs := by
  induction cs with
  | nil => exact fun _ => rfl
  | cons c cs ih =>
    intro s
    have h1 : Jef.palColor Jef.table (T.map Thread.pure) (purePal s) c =
        (Jef.palColor Jef.table T s c).map (fun p => (p.1, purePal p.2)) := by
      unfold Jef.palColor
      simp only [purePal, List.getElem?_map]
      split_ifs
      · cases T[s.idx]? with
        | none => rfl
        | some t =>
          simp only [Option.map_some, choose_pure]
          cases Jef.choose Jef.table s.lastIndex s.lastThread t <;> rfl
      · rfl
    have h2 : ∀ s, Jef.palStop (purePal s) c = ((Jef.palStop s c).1, purePal (Jef.palStop s c).2) := by
      intro s
      unfold Jef.palStop
      split_ifs <;> rfl
    unfold Jef.palette
    rw [h1]
    cases Jef.palColor Jef.table T s c with
    | error e => rfl
    | ok p =>
      show (Jef.palette Jef.table (T.map Thread.pure) (Jef.palStop (purePal p.2) c).2 cs >>= fun r =>
          .ok (p.1 ++ (Jef.palStop (purePal p.2) c).1 ++ r)) = _
      rw [h2, ih]
      rfl

/-! ## The blocks of a VP3 file -/

theorem vp3_blocks_map {τ ρ : Type} (f : τ → ρ) (T : List τ) (filler : Nat → τ) (l : List Stitch) :
    Vp3.blocks (T.map f) (fun i => f (filler i)) l = (Vp3.blocks T filler l).map (Prod.map id f) := by
  have : ∀ (l cur : List Stitch) (k : Nat), Vp3.blockLoop (T.map f) (fun i => f (filler i)) cur k l =
      (Vp3.blockLoop T filler cur k l).map (Prod.map id f) := by
    intro l
    induction l with
    | nil => intro cur k; simp [Vp3.blockLoop, threadAt_map]
    | cons st l ih =>
      intro cur k
      unfold Vp3.blockLoop
      split_ifs <;> simp [ih, threadAt_map]
  exact this l [] 0

theorem vp3_thread (t : Thread) : Vp3.threadBytes t.pure = Vp3.threadBytes t := by
  unfold Vp3.threadBytes
  rw [pure_24be, pure_hex]
  rfl

theorem vp3_colors (cx cy : ℚ) (bs : List (List Stitch × Thread)) : ∀ first, Vp3.colorBlocks cx cy first (bs.map (Prod.map id Thread.pure)) =
    Vp3.colorBlocks cx cy first bs := by
  induction bs with
  | nil => exact fun _ => rfl
  | cons b bs ih =>
    intro first
    simp only [List.map_cons, Vp3.colorBlocks, ih]
    unfold Vp3.colorBlock
    simp only [Prod.map_fst, Prod.map_snd, id_eq, vp3_thread]

theorem vp3_file (l : List Stitch) (x : Box) (bs : List (List Stitch × Thread)) :
    Vp3.fileBlock l x (bs.map (Prod.map id Thread.pure)) = Vp3.fileBlock l x bs := by
  unfold Vp3.fileBlock Vp3.designBlock
  simp only [vp3_colors, List.length_map]

end Equal

/-! ## Saving -/

open Equal

/-- The extras as a text format sees them. -/
def Pattern.doc (p : Pattern) : Doc := ⟨p.stitches, p.threads, p.extras.map (fun e => (e.1.toList, e.2.toList))⟩

/-- `get_metadata(key)`, `EmbPattern.py` 322-323. -/
def Pattern.text (p : Pattern) (key : String) : Option Str := (p.extras.lookup key).map String.toList

/-- The pattern is called the same by `==` as another one, and both have each key of their extras once, as a dict does. -/
structure Equals (p q : Pattern) : Prop where
  same : p.same q = true
  left : (p.extras.map (·.1)).Nodup
  right : (q.extras.map (·.1)).Nodup

/-- Equal patterns are written as the same file, or with the same exception. -/
def SameFile {β : Type} (W : Pattern → β) : Prop := ∀ p q, Equals p q → W p = W q

namespace Equal

theorem stitches {p q : Pattern} (h : Equals p q) : p.stitches = q.stitches := ((C93_pattern p q h.left h.right).1 h.same).1
theorem threads {p q : Pattern} (h : Equals p q) : sameThreads p.threads q.threads = true :=
  (sameThreads_iff _ _).2 ((C93_pattern p q h.left h.right).1 h.same).2.1
theorem text {p q : Pattern} (h : Equals p q) (key : String) : p.text key = q.text key := by
  unfold Pattern.text
  rw [((C93_pattern p q h.left h.right).1 h.same).2.2 key]

theorem getText_doc (p : Pattern) (key : String) : Dst.getText key.toList p.doc.extras = p.text key := by
  unfold Dst.getText Pattern.text Pattern.doc
  generalize p.extras = d
  simp only
  induction d with
  | nil => rfl
  | cons e d ih =>
    rw [List.map_cons, List.find?_cons, List.lookup_cons]
    by_cases h : e.1 = key
    · subst h; simp
    · rw [show decide (e.1.toList = key.toList) = false by simpa using fun g => h (String.toList_injective g),
        show (key == e.1) = false by simpa using fun g => h g.symm]
      exact ih

end Equal

/-- **C113.** Writers that look at the stitches only. -/
theorem C113_stitches : SameFile (fun p => Exp.write p.stitches) ∧ SameFile (fun p => U01.write p.stitches) ∧
    SameFile (fun p => Pmv.write p.stitches) ∧ SameFile (fun p => Ct0.write p.stitches) := by
  refine ⟨?_, ?_, ?_, ?_⟩ <;> intro p q h <;> simp only [Equal.stitches h]

/-- **C113.** DST, with or without an extended header. -/
theorem C113_dst (extended : Bool) (trimAt : Int) : SameFile (fun p => Dst.writeDoc extended trimAt p.doc) := by
  intro p q h
  have h1 : p.doc.stitches = q.doc.stitches := Equal.stitches h
  have h2 : ∀ b last, Dst.docInfo extended p.doc b last = Dst.docInfo extended q.doc b last := by
    intro b last
    unfold Dst.docInfo
    rw [h1, getText_doc, getText_doc, getText_doc, getText_doc, getText_doc, getText_doc, Equal.text h, Equal.text h, Equal.text h]
    rw [show p.doc.threads = p.threads from rfl, show q.doc.threads = q.threads from rfl,
      map_same (fun t => by rw [pure_hex]; rfl) (Equal.threads h)]
  simp only [Dst.writeDoc, h1, h2]

/-- **C113.** JEF. -/
theorem C113_jef (trimAt : Option Nat) (date : Bytes) (w h : Int) : SameFile (fun p => Jef.write trimAt date w h p.threads p.stitches) := by
  intro p q e
  simp only [Jef.write, Equal.stitches e]
  rw [agree (V := fun T => Jef.palette Jef.table T {} _) (fun T => palette_pure T _ {}) (Equal.threads e)]

/-- **C113.** XXX. -/
theorem C113_xxx : SameFile (fun p => Xxx.write p.threads p.stitches) := by
  intro p q h
  have : Xxx.colorBytes p.threads = Xxx.colorBytes q.threads := by
    unfold Xxx.colorBytes
    rw [flatMap_same (fun t => by unfold Xxx.threadBytes; rw [pure_red, pure_green, pure_blue]) (Equal.threads h), length_same (Equal.threads h)]
  simp only [Xxx.write, this, Equal.stitches h, length_same (Equal.threads h)]

/-- **C113.** VP3. -/
theorem C113_vp3 (filler : Nat → Thread) : SameFile (fun p => Vp3.write p.threads filler p.stitches) := by
  intro p q h
  simp only [Equal.stitches h]
  refine agree (V := fun T => Vp3.write T (fun i => (filler i).pure) q.stitches) (W := fun T => Vp3.write T filler q.stitches)
    (fun T => ?_) (Equal.threads h)
  unfold Vp3.write
  rw [fixColorCount_map, vp3_blocks_map]
  cases bounds q.stitches with
  | none => rfl
  | some b => simp only [vp3_file]

/-- **C113.** TBF, with the texts it takes from the metadata. -/
theorem C113_tbf : SameFile (fun p => Tbf.write ((p.text "name").getD "Untitled".toList) ((p.text "tp").getD "EG/".toList) p.threads p.stitches) := by
  intro p q h
  have : ∀ o n, Tbf.partC o p.threads n = Tbf.partC o q.threads n := by
    intro o n
    unfold Tbf.partC
    rw [flatMap_same (fun t => by unfold Tbf.threadBytes; rw [pure_red, pure_green, pure_blue]) (Equal.threads h)]
  simp only [Equal.text h, Equal.stitches h]
  unfold Tbf.write Tbf.header
  simp only [this]

/-- **C113.** PEC, for every iteration order of sets that sees no more than `==` does. -/
theorem C113_pec {order : List Thread → List Thread} (ho : Natural order) (filler filler' : Nat → Thread) :
    SameFile (fun p => Pec.writeFile order filler filler' (p.text "name") p.threads p.stitches) := by
  intro p q h
  obtain ⟨h1, h2⟩ := prepare_same (Equal.threads h) filler q.stitches
  simp only [Pec.writeFile, Equal.text h, Equal.stitches h, h1, pec_same ho _ (fix_same h2 filler' _)]

/-- The texts of a PES file, `PesWriter.py` 162-167. -/
def Pattern.pesTexts (p : Pattern) : Pes.Texts :=
  ⟨p.text "name", p.text "category", p.text "author", p.text "keywords", p.text "comments"⟩

/-- **C113.** PES of both versions, with or without segments. -/
theorem C113_pes {order : List Thread → List Thread} (ho : Natural order) (f32 : ℚ → Bytes) (filler filler' fillerSeg : Nat → Thread)
    (version : ℚ) (truncated : Bool) :
    SameFile (fun p => Pes.writeFile f32 order filler filler' fillerSeg p.pesTexts version truncated p.threads p.stitches) := by
  intro p q h
  obtain ⟨h1, h2⟩ := prepare_same (Equal.threads h) filler q.stitches
  have ht : p.pesTexts = q.pesTexts := by simp only [Pattern.pesTexts, Equal.text h]
  have hk : ∀ l, sameThreads (fixColorCount (Pec.prepare filler p.threads q.stitches).2 filler' l)
      (fixColorCount (Pec.prepare filler q.threads q.stitches).2 filler' l) = true := fix_same h2 filler'
  simp only [Pes.writeFile, ht, Equal.stitches h, h1]
  generalize (Pec.prepare filler q.threads q.stitches).1 = l at *
  generalize (Pec.prepare filler p.threads q.stitches).2 = T at *
  generalize (Pec.prepare filler q.threads q.stitches).2 = U at *
  have hk := hk l
  have hp : ∀ name, Pec.writePattern order name (fixColorCount T filler' l) l = Pec.writePattern order name (fixColorCount U filler' l) l :=
    fun name => pec_same ho name hk l
  have hh : ∀ {T U : List Thread}, sameThreads T U = true → ∀ texts n, Pes.headerV6 f32 texts T n = Pes.headerV6 f32 texts U n := by
    intro T U e texts n
    unfold Pes.headerV6
    rw [length_same e, flatMap_same pure_pes e]
  have hb1 : ∀ b, Pes.blocks f32 T fillerSeg Pec.palette b l = Pes.blocks f32 U fillerSeg Pec.palette b l :=
    fun b => blocks_same h2 f32 fillerSeg (fun _ => Pec.palette) (fun _ => brother_pure.symm) b l
  have hb6 : ∀ b, Pes.blocks f32 (fixColorCount T filler' l) fillerSeg ((fixColorCount T filler' l).map some) b l =
      Pes.blocks f32 (fixColorCount U filler' l) fillerSeg ((fixColorCount U filler' l).map some) b l :=
    fun b => blocks_same hk f32 fillerSeg (fun T => T.map some) (fun T => by simp) b l
  have hi : Pes.colorIndices order (fixColorCount T filler' l) = Pes.colorIndices order (fixColorCount U filler' l) := by
    unfold Pes.colorIndices
    rw [unique_same _ (ho _ _ hk) hk]
  have ha : ∀ ix, Pes.addendum ix ((fixColorCount T filler' l).map (·.color)) = Pes.addendum ix ((fixColorCount U filler' l).map (·.color)) := by
    intro ix
    unfold Pes.addendum
    rw [List.length_map, List.length_map, length_same hk, List.flatMap_map, List.flatMap_map]
    rw [flatMap_same (g := fun t => writeInt24le t.color) pure_24le hk]
  simp only [Pes.writeTruncatedV1, Pes.writeTruncatedV6, Pes.writeV1, Pes.writeV6, hp, hh h2, hh hk, hb1, hb6, hi, ha]

/-- **C113.** The files that hold only colours: EDR, COL and INF. -/
theorem C113_colours : SameFile (fun p => Edr.write p.threads) ∧ SameFile (fun p => Col.write p.threads) ∧
    SameFile (fun p => Inf.write p.threads) := by
  refine ⟨fun p q h => ?_, fun p q h => ?_, fun p q h => ?_⟩
  · exact flatMap_same (fun t => by rw [pure_red, pure_green, pure_blue]) (Equal.threads h)
  · refine agree (V := Col.write) (W := Col.write) (fun T => ?_) (Equal.threads h)
    have : ∀ (T : List Thread) i, Col.lines i (T.map Thread.pure) = Col.lines i T := by
      intro T
      induction T with
      | nil => exact fun _ => rfl
      | cons t T ih => intro i; simp only [List.map_cons, Col.lines, ih, Col.line, pure_red, pure_green, pure_blue]
    unfold Col.write
    rw [this, List.length_map]
  · refine agree (V := Inf.write) (W := Inf.write) (fun T => ?_) (Equal.threads h)
    have : ∀ (T : List Thread) i, Inf.records i (T.map Thread.pure) = Inf.records i T := by
      intro T
      induction T with
      | nil => exact fun _ => rfl
      | cons t T ih =>
        intro i
        simp only [List.map_cons, Inf.records, ih, Inf.record, pure_red, pure_green, pure_blue]
        rfl
    unfold Inf.write
    simp only [this, List.length_map]

/-- **C113.** SVG. -/
theorem C113_svg (n : Csv.Num) (filler : Nat → Thread) : SameFile (fun p => Svg.text n p.threads filler p.stitches) := by
  intro p q h
  simp only [Equal.stitches h]
  refine agree (V := fun T => Svg.text n T (fun i => (filler i).pure) q.stitches) (W := fun T => Svg.text n T filler q.stitches)
    (fun T => ?_) (Equal.threads h)
  unfold Svg.text Svg.dom
  simp only [stitchBlocks_map, List.map_map]
  congr 2
  refine List.map_congr_left fun b _ => ?_
  simp only [Function.comp_apply, Svg.path, Prod.map_fst, Prod.map_snd, id_eq, pure_hex]

/-- **C113.** PNG, with guides; without them the picture is the first part of it. -/
theorem C113_png (fuel : Nat) (box : Box) (fancy : Bool) (background : Option (Int × Int × Int)) (linewidth : Option Int)
    (filler : Nat → Int × Int × Int) :
    SameFile (fun p => Png.draw fuel box fancy background linewidth (p.threads.map (fun t => (t.red, t.green, t.blue))) filler p.stitches) ∧
    SameFile (fun p =>
      Png.drawWithGuides fuel box fancy background linewidth (p.threads.map (fun t => (t.red, t.green, t.blue))) filler p.stitches) := by
  have : ∀ {p q : Pattern}, Equals p q → p.threads.map (fun t => (t.red, t.green, t.blue)) = q.threads.map (fun t => (t.red, t.green, t.blue)) :=
    fun h => map_same (fun t => by rw [pure_red, pure_green, pure_blue]) (Equal.threads h)
  exact ⟨fun p q h => by simp only [Equal.stitches h, this h], fun p q h => by simp only [Equal.stitches h, this h]⟩

/-- **C113.** CSV, JSON and G-code list the metadata in the order of their entry; if that is the same, so is the file. -/
theorem C113_listed_partial {p q : Pattern} (h : Equals p q) (ho : p.extras = q.extras) (n : Csv.Num) (v : Csv.Version) (inc : ℚ)
    (extras : List (Str × Json.Meta)) :
    Csv.write n v p.doc = Csv.write n v q.doc ∧ Gcode.text inc p.doc = Gcode.text inc q.doc ∧
    Json.write ⟨p.stitches, p.threads, extras⟩ = Json.write ⟨q.stitches, q.threads, extras⟩ := by
  have h1 : p.doc.stitches = q.doc.stitches := Equal.stitches h
  have h2 : p.doc.extras = q.doc.extras := by unfold Pattern.doc; simp only [ho]
  have h3 : Csv.threadRows p.doc.threads = Csv.threadRows q.doc.threads := by
    unfold Csv.threadRows
    exact congrArg _ (mapIdx_same (g := Csv.threadRow) (fun i t => by unfold Csv.threadRow; rw [pure_hex]; rfl) (Equal.threads h))
  have h4 : p.doc.threads = [] ↔ q.doc.threads = [] := by
    rw [← List.length_eq_zero_iff, ← List.length_eq_zero_iff]
    exact (length_same (Equal.threads h)) ▸ Iff.rfl
  have h5 : p.doc.threads.mapIdx Gcode.threadComment = q.doc.threads.mapIdx Gcode.threadComment :=
    mapIdx_same (fun i t => by unfold Gcode.threadComment; rw [pure_hex]; rfl) (Equal.threads h)
  refine ⟨?_, ?_, ?_⟩
  · simp only [Csv.write, h1, h2, h3, h4]
  · simp only [Gcode.text, h1, h2, h5]
  · simp only [Json.write, Equal.stitches h, map_same (g := fun t : Thread => (⟨hexColor t, t.description, t.catalog, t.details, t.brand,
      t.chart, t.weight⟩ : Json.JThread)) (fun t => by rw [pure_hex]; rfl) (Equal.threads h)]

/-! ## Saving with encoding -/

/-- The threads of a normalized pattern; where the source has none there is a random one, as chosen by `f`. -/
def filled (f : Nat → Thread) (ths : List (Option Thread)) : List Thread := ths.mapIdx (fun i t => t.getD (f i))

/-- `write_embroidery` with encoding, `EmbPattern.py` 1563-1647: the normalized pattern, with the metadata of the source
(`transcode_metadata`, `EmbEncoder.py` 94-98), is given to the writer. -/
def saveAs {β : Type} (o : Settings) (lm : Libm) (f : Nat → Thread) (W : Pattern → Except PyErr β) (p : Pattern) : Except PyErr β :=
  encode o lm p.threads p.stitches >>= fun r => W ⟨r.1, filled f r.2, p.extras⟩

namespace Equal
open Setting

/-- Equal threads, or both missing. -/
def OptSame (a b : List (Option Thread)) : Prop := a.map (Option.map Thread.pure) = b.map (Option.map Thread.pure)

theorem filler_same {T U : List Thread} (e : sameThreads T U = true) (n : Int) :
    (threadOrFiller T n).map Thread.pure = (threadOrFiller U n).map Thread.pure := by
  refine agree (V := fun T => threadOrFiller T n) (W := fun T => (threadOrFiller T n).map Thread.pure) (fun T => ?_) e
  unfold threadOrFiller
  rw [List.length_map, List.getElem?_map]
  split_ifs <;> rfl

/-- The same change with an equal thread. -/
def Near (c c' : Change) : Prop := Alike c c' ∧ c.thr.map (Option.map Thread.pure) = c'.thr.map (Option.map Thread.pure)

theorem record_near {T U : List Thread} (h : sameThreads T U = true) (e : Event) {c c' : Change} (hc : Near c c') :
    Near (c.record T e) (c'.record U e) := by
  refine ⟨record_alike T U e hc.1, ?_⟩
  have h2 := hc.2
  have hf := filler_same h
  unfold Change.record
  rcases e.thread with _ | t <;> rcases e.needle with _ | n <;> split_ifs <;> simp [*]

theorem raw_near {T U : List Thread} (h : sameThreads T U = true) (l : List Stitch) :
    List.Forall₂ (fun a b => a.1 = b.1 ∧ Near a.2 b.2) (rawPlan T l) (rawPlan U l) := by
  have : ∀ (es : List Event) (p q : List (Int × Change) × Int), List.Forall₂ (fun a b => a.1 = b.1 ∧ Near a.2 b.2) p.1 q.1 → p.2 = q.2 →
      List.Forall₂ (fun a b => a.1 = b.1 ∧ Near a.2 b.2) (es.foldl (planEvent T) p).1 (es.foldl (planEvent U) q).1 := by
    intro es
    induction es with
    | nil => exact fun p q h _ => h
    | cons e es ih =>
      rintro ⟨p, i⟩ ⟨q, j⟩ hpq rfl
      refine ih _ _ ?_ ?_
      · unfold planEvent
        simp only
        have := fun k => upsert_rel (P := Near) ⟨⟨rfl, rfl, rfl⟩, rfl⟩ (fun c c' => record_near h e) k hpq
        split_ifs
        · cases e.order <;> exact this _
        all_goals exact this _
      · unfold planEvent
        simp only
        split_ifs
        · cases e.order <;> rfl
        all_goals rfl
  exact this _ _ _ (.cons ⟨rfl, ⟨rfl, rfl, rfl⟩, rfl⟩ .nil) rfl

/-- Two finished changes with equal threads. -/
def NearFull (f f' : Full) : Prop :=
  f.cmd = f'.cmd ∧ f.thread = f'.thread ∧ f.needle = f'.needle ∧ f.thr.map Thread.pure = f'.thr.map Thread.pure

theorem fillOne_near {T U : List Thread} (h : sameThreads T U = true) (change limit : Int) {c c' : Change} (hc : Near c c') (ti ni : Int) :
    Both NearFull (fillOne T change limit c ti ni) (fillOne U change limit c' ti ni) := by
  obtain ⟨⟨h1, h2, h3⟩, h4⟩ := hc
  unfold fillOne
  rw [h1, h2, h3]
  have ht : (c.thr.getD (threadOrFiller T (c'.thread.getD ti))).map Thread.pure =
      (c'.thr.getD (threadOrFiller U (c'.thread.getD ti))).map Thread.pure := by
    rcases hx : c.thr with _ | x <;> rcases hy : c'.thr with _ | y <;> rw [hx, hy] at h4
    · exact filler_same h _
    · simp at h4
    · simp at h4
    · simpa using h4
  cases c'.needle with
  | some n => exact .ok ⟨rfl, rfl, rfl, ht⟩
  | none =>
    cases autoNeedle limit ni with
    | error e => exact .error e
    | ok n => exact .ok ⟨rfl, rfl, rfl, ht⟩

end Equal

open Setting in
/-- **C113.** Equal patterns are normalized to equal patterns: the same commands, and equal threads where there are any. -/
theorem C113_normalized (o : Settings) (lm : Libm) {p q : Pattern} (h : Equals p q) :
    Both (fun a b => a.1 = b.1 ∧ OptSame a.2 b.2) (encode o lm p.threads p.stitches) (encode o lm q.threads q.stitches) := by
  rw [Equal.stitches h]
  have e := Equal.threads h
  generalize p.threads = T at e ⊢
  generalize q.threads = U at e ⊢
  generalize q.stitches = l
  let F : Frame := ⟨fun _ a b => a = b, OptSame, False, False, False⟩
  refine (Setting.encode (F := F) ?_ ⟨⟨[], _, _, _, _⟩, rfl, ⟨rfl, ?_, .inl rfl, .inl rfl, .inl rfl, rfl, False.elim, le_refl _⟩⟩
    False.elim False.elim).mono fun p q h => ⟨h.1.choose_spec, h.2⟩
  · refine (fill_rel NearFull Equal.Near (fun c c' h => ⟨h.1.2.1, h.1.2.2, fun ti ni => ?_⟩) (raw_near e l) 0 1).mono fun p p' h => ?_
    · exact fillOne_near e _ _ h _ _
    · have hs : ∀ (a b : List Stitch) (q : List Stitch), a = b → a ++ q = b ++ q := fun a b q h => by rw [h]
      refine ⟨rfl, fun n a b e _ h => hs _ _ _ h, .inl rfl, .inl ⟨rfl, fun n a b e _ h => hs _ _ _ h⟩, False.elim, fun n _ => ?_⟩
      have hd := dget_rel (P := NearFull) h n
      show Option.Rel _ (dget n p) (dget n p')
      revert hd
      generalize dget n p = u
      generalize dget n p' = v
      intro hd
      cases hd with
      | none => exact .none
      | some hc =>
        refine .some ⟨fun x y a b h => ?_, fun a b hab => ?_⟩
        · unfold announce
          rw [hc.2.1, hc.2.2.1]
          exact hs _ _ _ h
        · have hl : ∀ c c' : Full, c.thr.map Thread.pure = c'.thr.map Thread.pure →
              (learned (mkCfg o lm l p) c).map (Option.map Thread.pure) = (learned (mkCfg o lm l p') c').map (Option.map Thread.pure) := by
            intro c c' hcc
            unfold learned
            rw [show (mkCfg o lm l p').change = (mkCfg o lm l p).change from rfl]
            split_ifs <;> simp [hcc]
          have hab : a.map (Option.map Thread.pure) = b.map (Option.map Thread.pure) := hab
          show OptSame _ _
          unfold OptSame
          rw [List.map_append, List.map_append, hl _ _ hc.2.2.2, hab]
  · show OptSame (initSt o lm T).threads (initSt o lm U).threads
    unfold OptSame initSt
    simp only
    split_ifs
    · have := (same_iff T U).1 e
      have := congrArg (List.map some) this
      simpa [List.map_map, Function.comp_def] using this
    · rfl

/-- **C113.** A format that makes the same file of equal patterns also does so after encoding, with whatever settings; the random
threads for colours without a thread being the same. -/
theorem C113_encoded {β : Type} {W : Pattern → Except PyErr β} (hW : SameFile W) (o : Settings) (lm : Libm) (f : Nat → Thread) :
    SameFile (saveAs o lm f W) := by
  intro p q h
  unfold saveAs
  have hn := C113_normalized o lm h
  revert hn
  generalize encode o lm p.threads p.stitches = x
  generalize encode o lm q.threads q.stitches = y
  intro hn
  cases hn with
  | error e => rfl
  | ok hn =>
    rename_i a b
    refine hW _ _ ⟨?_, h.left, h.right⟩
    refine (C93_pattern ⟨a.1, filled f a.2, p.extras⟩ ⟨b.1, filled f b.2, q.extras⟩ h.left h.right).2 ⟨hn.1, (sameThreads_iff _ _).1 ?_, ((C93_pattern p q h.left h.right).1 h.same).2.2⟩
    refine (same_iff _ _).2 ?_
    have hm : ∀ l : List (Option Thread), (filled f l).map Thread.pure =
        (l.map (Option.map Thread.pure)).mapIdx (fun i t => t.getD (f i).pure) := by
      intro l
      unfold filled
      refine List.ext_getElem? fun i => ?_
      rw [List.getElem?_map, List.getElem?_mapIdx, List.getElem?_mapIdx, List.getElem?_map]
      rcases l[i]? with _ | _ | t <;> rfl
    show (filled f a.2).map Thread.pure = (filled f b.2).map Thread.pure
    rw [hm, hm, hn.2]

/-! ## What equal patterns do not share -/

/-- **C113 fails** for TXT: the colour is written with all its bits. -/
theorem C113_txt_fails : ∃ p q : Pattern, Equals p q ∧ Txt.write false p.threads (fun _ => ⟨0, none, none, none, none, none, none⟩) p.stitches ≠
    Txt.write false q.threads (fun _ => ⟨0, none, none, none, none, none, none⟩) q.stitches :=
  ⟨⟨[⟨0, 0, 0⟩], [{ color := 0xFF000001 }], []⟩, ⟨[⟨0, 0, 0⟩], [{ color := 1 }], []⟩, ⟨by decide +kernel, by decide, by decide⟩, by decide +kernel⟩

/-- **C113 fails** for CSV, G-code and JSON if the metadata was entered in another order. -/
theorem C113_order_fails : ∃ p q : Pattern, Equals p q ∧ (∀ n v, Csv.write n v p.doc ≠ Csv.write n v q.doc) ∧
    (∀ inc, Gcode.text inc p.doc ≠ Gcode.text inc q.doc) ∧
    Json.write ⟨p.stitches, p.threads, p.doc.extras.map (fun e => (e.1, .str e.2))⟩ ≠
      Json.write ⟨q.stitches, q.threads, q.doc.extras.map (fun e => (e.1, .str e.2))⟩ := by
  refine ⟨⟨[], [], [("a", "b"), ("c", "d")]⟩, ⟨[], [], [("c", "d"), ("a", "b")]⟩, ⟨by decide +kernel, by decide, by decide⟩, ?_, ?_, by decide +kernel⟩
  · intro n v
    unfold Csv.write
    intro h
    rw [List.append_assoc, List.append_assoc, List.append_assoc, List.append_assoc, List.append_assoc, List.append_assoc] at h
    have h := List.append_cancel_left h
    have h : ['\n'] ++ ((Csv.metaRows [(['a'], ['b']), (['c'], ['d'])]).flatMap Csv.line ++ ['\n'] ++ ([] ++ [])) =
      ['\n'] ++ ((Csv.metaRows [(['c'], ['d']), (['a'], ['b'])]).flatMap Csv.line ++ ['\n'] ++ ([] ++ [])) := h
    revert h
    decide +kernel
  · intro inc
    have : ∀ inc, Gcode.body inc 0 [] = [] := fun _ => rfl
    unfold Gcode.text
    simp only [show ∀ e, (Pattern.doc ⟨[], [], e⟩).stitches = [] from fun _ => rfl, this]
    decide +kernel

/-! ## Examples -/

/-- Two equal patterns: one has a colour with an alpha byte, and the metadata are in another order. -/
def equalDemo : Pattern :=
  ⟨[⟨0, 0, 0⟩, ⟨10, 5, 0⟩, ⟨10, 5, 5⟩, ⟨20, 5, 0⟩, ⟨20, 5, 4⟩], [{ color := 0xFFED171F }, { color := 0x000080, brand := some "x" }],
    [("name", "demo"), ("author", "me")]⟩
def equalDemo' : Pattern :=
  ⟨[⟨0, 0, 0⟩, ⟨10, 5, 0⟩, ⟨10, 5, 5⟩, ⟨20, 5, 0⟩, ⟨20, 5, 4⟩], [{ color := 0xED171F }, { color := -0x1000000 + 0x000080, brand := some "x" }],
    [("author", "me"), ("name", "demo")]⟩

example : Equals equalDemo equalDemo' ∧ equalDemo.threads ≠ equalDemo'.threads ∧ equalDemo.extras ≠ equalDemo'.extras :=
  ⟨⟨by decide +kernel, by decide, by decide⟩, by decide +kernel, by decide +kernel⟩

/-- The iteration order in which the members were entered sees no more than `==`. -/
theorem Equal.entered_natural : Natural uniqueThreads := by
  refine fun T U e => agree_same (V := uniqueThreads) (fun T => ?_) e
  unfold uniqueThreads
  have : ∀ (T acc : List Thread), (T.map Thread.pure).foldl addMember (acc.map Thread.pure) = (T.foldl addMember acc).map Thread.pure := by
    intro T
    induction T with
    | nil => exact fun _ => rfl
    | cons t T ih =>
      intro acc
      rw [List.map_cons, List.foldl_cons, List.foldl_cons, ← ih]
      congr 1
      unfold addMember
      have hh : ∀ u : Thread, u.pure.hash = u.hash := fun u => by unfold Thread.hash Thread.pure; simp only; omega
      have : (acc.map Thread.pure).any (fun u => decide (u.hash = t.pure.hash ∧ u.same t.pure = true)) =
          acc.any (fun u => decide (u.hash = t.hash ∧ u.same t = true)) := by
        rw [List.any_map]
        congr 1
        funext u
        simp only [Function.comp_apply, hh, pure_same]
      rw [this]
      split_ifs
      · rfl
      · simp
  exact this T []

end Emb
