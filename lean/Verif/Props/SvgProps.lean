import Verif.Svg
import Verif.Props.BlockProps
import Verif.Props.StrikeProps
import Verif.Props.CsvProps
import Verif.Props.BoundsProps
import Verif.Props.DispatchProps

/-!
# C82: SVG files

The specification is a small reader of XML tags and of path data.
-/

namespace Emb
namespace Svg

/-! ## Specification -/

/-- The name before `=`, after the last blank. -/
def attrName (s : Str) : Str := ((splitOn ' ' s).getLast?.getD []).dropLast

/-- The attributes in a tag cut at its quotes. -/
def attrsOf : List Str → List (Str × Str)
  | k :: v :: rest => (attrName k, v) :: attrsOf rest
  | _ => []

/-- A tag (without `<`): its name and its attributes. -/
def tagOf (s : Str) : Str × List (Str × Str) :=
  (((splitOn ' ' s).head?).getD [], attrsOf (splitOn '"' s))

/-- The tags of a text. -/
def tags (s : Str) : List (Str × List (Str × Str)) := ((splitOn '<' s).drop 1).map tagOf

/-- The value of an attribute. -/
def attr (k : String) (a : List (Str × Str)) : Str := ((a.find? (fun p => p.1 = k.toList)).map (·.2)).getD []

/-- `x,y`. -/
def point (n : Csv.Num) (s : Str) : Except PyErr Pt :=
  match splitOn ',' s with
  | [x, y] => do
    let x ← n.float x
    let y ← n.float y
    pure (x, y)
  | _ => .error .valueError

/-- `M x,y x,y ...`: the corners of the line. -/
def points (n : Csv.Num) (d : Str) : Except PyErr (List Pt) :=
  match splitOn ' ' d with
  | m :: ps => if m = ['M'] then ps.mapM (point n) else .error .valueError
  | [] => .error .valueError

/-- What an SVG file draws: each path with its colour and its corners. -/
def drawing (n : Csv.Num) (s : Str) : Except PyErr (List (Str × List Pt)) :=
  ((tags s).filter (fun t => t.1 = "path".toList)).mapM fun t => do
    let ps ← points n (attr "d" t.2)
    pure (attr "stroke" t.2, ps)

/-- What is assumed of printed numbers: they can be read again, and have no blank, comma or character with a meaning in XML. -/
structure NumOK (n : Csv.Num) : Prop where
  float_str : ∀ q, n.float (n.str q) = .ok q
  plain : ∀ q, ∀ c ∈ n.str q, c ∉ [' ', ',', '"', '<', '>', '&', '\r', '\n', '\t']

/-! ## Proofs -/

/-- Characters that are written as they are. -/
def Safe (s : Str) : Prop := ∀ c ∈ s, c ∉ ['"', '<', '>', '&', '\r', '\n', '\t']

theorem escape_safe (s : Str) (h : Safe s) : escape s = s := by
  induction s with
  | nil => rfl
  | cons a s ih =>
    have ha := h a (by simp)
    simp only [List.mem_cons, List.not_mem_nil, or_false, not_or] at ha
    unfold escape at ih ⊢
    rw [List.flatMap_cons, ih (fun c hc => h c (by simp [hc]))]
    simp [ha]

theorem Safe.append {a b : Str} (ha : Safe a) (hb : Safe b) : Safe (a ++ b) := by
  intro c hc
  rcases List.mem_append.1 hc with h | h
  · exact ha c h
  · exact hb c h

theorem Safe.cons {a : Char} {b : Str} (ha : a ∉ ['"', '<', '>', '&', '\r', '\n', '\t']) (hb : Safe b) : Safe (a :: b) := by
  intro c hc
  rcases List.mem_cons.1 hc with rfl | h
  · exact ha
  · exact hb c h

theorem Safe.flatMap {α : Type} {l : List α} {f : α → Str} (h : ∀ a ∈ l, Safe (f a)) : Safe (l.flatMap f) := by
  intro c hc
  obtain ⟨a, ha, hc⟩ := List.mem_flatMap.1 hc
  exact h a ha c hc

/-- An attribute that comes back: a name without blank and quote, a safe value. -/
def AttrOK (a : Str × Str) : Prop := (∀ c ∈ a.1, c ≠ ' ' ∧ c ≠ '"' ∧ c ≠ '<') ∧ Safe a.2

theorem attrName_eq (pre k : Str) (hk : ' ' ∉ k) (hp : ' ' ∉ pre) : attrName (pre ++ ' ' :: k ++ ['=']) = k := by
  unfold attrName
  rw [List.append_assoc, List.cons_append, splitOn_append _ _ _ hp, splitOn_plain _ _ (by simp [hk])]
  simp

theorem attrs_read (attrs : List (Str × Str)) (h : ∀ a ∈ attrs, AttrOK a) (pre post : Str) (hp : ' ' ∉ pre ∧ '"' ∉ pre) (hq : '"' ∉ post) :
    attrsOf (splitOn '"' (pre ++ attrs.flatMap attrText ++ post)) = attrs := by
  induction attrs generalizing pre with
  | nil =>
    rw [List.flatMap_nil, List.append_nil, splitOn_plain _ _ (by simp [hp.2, hq])]
    rfl
  | cons a attrs ih =>
    obtain ⟨h1, h2⟩ := h a (by simp)
    have e : pre ++ (a :: attrs).flatMap attrText ++ post =
        (pre ++ ' ' :: a.1 ++ ['=']) ++ '"' :: (a.2 ++ '"' :: ([] ++ attrs.flatMap attrText ++ post)) := by
      rw [List.flatMap_cons]
      unfold attrText
      rw [escape_safe _ h2]
      simp
    rw [e, splitOn_append, splitOn_append, attrsOf, ih (fun x hx => h x (by simp [hx])) [] (by simp), attrName_eq _ _ _ hp.1]
    · intro hh; exact (h1 _ hh).1 rfl
    · intro hh; exact absurd (h2 _ hh) (by decide)
    · simp only [List.mem_append, List.mem_cons, List.not_mem_nil, or_false, not_or]
      exact ⟨⟨hp.2, by decide, fun hh => (h1 _ hh).2.1 rfl⟩, by decide⟩

/-- The tag text without its `<`. -/
theorem tag_read (tag : Str) (attrs : List (Str × Str)) (h : ∀ a ∈ attrs, AttrOK a) (post : Str) (ht : ' ' ∉ tag ∧ '"' ∉ tag)
    (hq : '"' ∉ post) (hne : attrs ≠ []) : tagOf (tag ++ attrs.flatMap attrText ++ post) = (tag, attrs) := by
  unfold tagOf
  rw [attrs_read attrs h tag post ht hq]
  obtain ⟨a, r, rfl⟩ := List.exists_cons_of_ne_nil hne
  rw [List.flatMap_cons]
  unfold attrText
  rw [List.append_assoc, List.append_assoc, List.append_assoc, List.cons_append, List.cons_append, splitOn_append _ _ _ ht.1]
  rfl

theorem attrs_noLt (attrs : List (Str × Str)) (h : ∀ a ∈ attrs, AttrOK a) : '<' ∉ attrs.flatMap attrText := by
  intro hc
  obtain ⟨a, ha, hc⟩ := List.mem_flatMap.1 hc
  obtain ⟨h1, h2⟩ := h a ha
  unfold attrText at hc
  rw [escape_safe _ h2] at hc
  simp only [List.mem_append, List.mem_cons, List.not_mem_nil, or_false, List.cons_append, Char.reduceEq, false_or] at hc
  rcases hc with hc | hc
  · exact (h1 _ hc).2.2 rfl
  · exact absurd (h2 _ hc) (by decide)

/-- An element that comes back. -/
structure LeafOK (l : Leaf) : Prop where
  tag : ∀ c ∈ l.tag, c ≠ ' ' ∧ c ≠ '"' ∧ c ≠ '<'
  attrs : ∀ a ∈ l.attrs, AttrOK a
  ne : l.attrs ≠ []

theorem leaves_split (kids : List Leaf) (h : ∀ k ∈ kids, LeafOK k) (pre post : Str) (hp : '<' ∉ pre) (hq : '<' ∉ post) :
    splitOn '<' (pre ++ kids.flatMap leafText ++ '<' :: post) =
      pre :: kids.map (fun l => l.tag ++ l.attrs.flatMap attrText ++ " />".toList) ++ [post] := by
  induction kids generalizing pre with
  | nil => rw [List.flatMap_nil, List.append_nil, splitOn_append _ _ _ hp, splitOn_plain _ _ hq]; rfl
  | cons k kids ih =>
    have hk := h k (by simp)
    rw [List.flatMap_cons]
    have e : pre ++ (leafText k ++ kids.flatMap leafText) ++ '<' :: post =
        pre ++ '<' :: ((k.tag ++ k.attrs.flatMap attrText ++ " />".toList) ++ kids.flatMap leafText ++ '<' :: post) := by
      unfold leafText
      simp only [List.append_assoc, List.cons_append]
    rw [e, splitOn_append _ _ _ hp, ih (fun x hx => h x (by simp [hx]))]
    · rfl
    · simp only [List.mem_append, not_or]
      exact ⟨⟨fun hh => (hk.tag _ hh).2.2 rfl, attrs_noLt _ hk.attrs⟩, by decide⟩

theorem leaf_tag (l : Leaf) (h : LeafOK l) (post : Str) (hq : '"' ∉ post) : tagOf (l.tag ++ l.attrs.flatMap attrText ++ post) = (l.tag, l.attrs) :=
  tag_read l.tag l.attrs h.attrs post ⟨fun hh => (h.tag _ hh).1 rfl, fun hh => (h.tag _ hh).2.1 rfl⟩ hq h.ne

/-- The tags of a text are the root and its children (and, if there are children, the end of the root). -/
theorem tags_root (r : Root) (hr : LeafOK ⟨r.tag, r.attrs⟩) (hk : ∀ k ∈ r.kids, LeafOK k) :
    ∃ e, tags (rootText r) = (r.tag, r.attrs) :: r.kids.map (fun l => (l.tag, l.attrs)) ++ e ∧ ∀ t ∈ e, t.1.head? = some '/' := by
  have hmap : (r.kids.map (fun l => l.tag ++ l.attrs.flatMap attrText ++ " />".toList)).map tagOf = r.kids.map (fun l => (l.tag, l.attrs)) := by
    rw [List.map_map]
    refine List.map_congr_left fun l hl => ?_
    exact leaf_tag l (hk l hl) _ (by decide)
  unfold tags rootText
  by_cases hn : r.kids = []
  · rw [if_pos hn, hn]
    refine ⟨[], ?_, by simp⟩
    have e : leafText ⟨r.tag, r.attrs⟩ = [] ++ '<' :: (r.tag ++ r.attrs.flatMap attrText ++ " />".toList) := by
      unfold leafText
      simp only [List.nil_append, List.cons_append]
    rw [e, splitOn_append _ _ _ (by simp), splitOn_plain]
    · show [tagOf _] = _
      rw [leaf_tag _ hr _ (by decide)]
      rfl
    · simp only [List.mem_append, not_or]
      exact ⟨⟨fun hh => (hr.tag _ hh).2.2 rfl, attrs_noLt _ hr.attrs⟩, by decide⟩
  · rw [if_neg hn]
    refine ⟨[tagOf ('/' :: r.tag ++ ['>'])], ?_, ?_⟩
    · have e : '<' :: r.tag ++ r.attrs.flatMap attrText ++ '>' :: r.kids.flatMap leafText ++ '<' :: '/' :: r.tag ++ ['>'] =
          [] ++ '<' :: ((r.tag ++ r.attrs.flatMap attrText ++ ['>']) ++ r.kids.flatMap leafText ++ '<' :: ('/' :: r.tag ++ ['>'])) := by
        simp only [List.nil_append, List.append_assoc, List.cons_append]
      rw [e, splitOn_append _ _ _ (by simp), leaves_split _ hk]
      · show (_ :: (_ ++ _)).map tagOf = _
        rw [List.map_cons, List.map_append, hmap, leaf_tag _ hr _ (by decide)]
        rfl
      · simp only [List.mem_append, not_or]
        exact ⟨⟨fun hh => (hr.tag _ hh).2.2 rfl, attrs_noLt _ hr.attrs⟩, by decide⟩
      · simp only [List.mem_append, List.mem_cons, List.not_mem_nil, or_false, not_or]
        exact ⟨⟨by decide, fun hh => (hr.tag _ hh).2.2 rfl⟩, by decide⟩
    · intro t ht
      rw [List.mem_singleton] at ht
      subst ht
      show ((splitOn ' ' ('/' :: r.tag ++ ['>'])).head?.getD []).head? = _
      rw [splitOn_plain]
      · rfl
      · simp only [List.mem_append, List.mem_cons, List.not_mem_nil, or_false, not_or]
        exact ⟨⟨by decide, fun hh => (hr.tag _ hh).1 rfl⟩, by decide⟩

/-! ### The file -/

theorem NumOK.safe {n : Csv.Num} (hn : NumOK n) (q : ℚ) : Safe (n.str q) := by
  intro c hc h
  exact hn.plain q c hc (by simp only [List.mem_cons, List.not_mem_nil, or_false] at h ⊢; tauto)

theorem NumOK.noBlank {n : Csv.Num} (hn : NumOK n) (q : ℚ) : ' ' ∉ n.str q := fun h => hn.plain q _ h (by decide)
theorem NumOK.noComma {n : Csv.Num} (hn : NumOK n) (q : ℚ) : ',' ∉ n.str q := fun h => hn.plain q _ h (by decide)

theorem hexColor_chars (t : Thread) : ∀ c ∈ hexColor t, c ∈ "#0123456789abcdef".toList := by
  have key : ∀ n : Nat, n < 16 → hexDigit (n : Int) ∈ "#0123456789abcdef".toList := by decide +kernel
  have hx : ∀ v : Int, 0 ≤ v → v < 16 → hexDigit v ∈ "#0123456789abcdef".toList := by
    intro v h0 h1
    have := key v.toNat (by omega)
    rwa [Int.toNat_of_nonneg h0] at this
  have byte : ∀ v : Int, 0 ≤ v → v < 256 → ∀ c ∈ hex2 v, c ∈ "#0123456789abcdef".toList := by
    intro v h0 h1 c hc
    unfold hex2 at hc
    simp only [List.mem_cons, List.not_mem_nil, or_false] at hc
    rcases hc with rfl | rfl
    · exact hx _ (by omega) (by omega)
    · exact hx _ (by omega) (by omega)
  intro c hc
  unfold hexColor at hc
  simp only [List.mem_cons, List.mem_append] at hc
  rcases hc with rfl | (hc | hc) | hc
  · decide +kernel
  · exact byte _ (by unfold Thread.red; omega) (by unfold Thread.red; omega) c hc
  · exact byte _ (by unfold Thread.green; omega) (by unfold Thread.green; omega) c hc
  · exact byte _ (by unfold Thread.blue; omega) (by unfold Thread.blue; omega) c hc

theorem hex_safe (t : Thread) : Safe (hexColor t) := by
  have key : ∀ c ∈ "#0123456789abcdef".toList, c ∉ ['"', '<', '>', '&', '\r', '\n', '\t'] := by decide +kernel
  exact fun c hc => key c (hexColor_chars t c hc)

theorem path_ok {n : Csv.Num} (hn : NumOK n) (b : List Stitch × Thread) : LeafOK (path n b) where
  tag := by show ∀ c ∈ "path".toList, _; decide
  ne := by simp [path]
  attrs := by
    intro a ha
    simp only [path, List.mem_cons, List.not_mem_nil, or_false] at ha
    rcases ha with rfl | rfl | rfl | rfl
    · refine ⟨(by decide +kernel : ∀ c ∈ "d".toList, c ≠ ' ' ∧ c ≠ '"' ∧ c ≠ '<'), Safe.cons (by decide) (Safe.flatMap fun st _ => ?_)⟩
      exact Safe.append (Safe.cons (by decide) (hn.safe _)) (Safe.cons (by decide) (hn.safe _))
    · exact ⟨by decide, by unfold Safe; decide⟩
    · exact ⟨(by decide +kernel : ∀ c ∈ "stroke".toList, c ≠ ' ' ∧ c ≠ '"' ∧ c ≠ '<'), hex_safe _⟩
    · exact ⟨by decide +kernel, by unfold Safe; decide⟩

theorem extents_safe {n : Csv.Num} (hn : NumOK n) (l : List Stitch) : Safe (extents n l).1 ∧ Safe (extents n l).2.1 ∧
    Safe (extents n l).2.2.1 ∧ Safe (extents n l).2.2.2 := by
  unfold extents
  split
  · exact ⟨hn.safe _, hn.safe _, hn.safe _, hn.safe _⟩
  · refine ⟨?_, ?_, ?_, ?_⟩ <;> (unfold Safe; decide)

theorem root_ok {n : Csv.Num} (hn : NumOK n) (threads : List Thread) (filler : Nat → Thread) (l : List Stitch) :
    LeafOK ⟨(dom n threads filler l).tag, (dom n threads filler l).attrs⟩ where
  tag := by show ∀ c ∈ "svg".toList, _; decide
  ne := by simp [dom]
  attrs := by
    obtain ⟨e1, e2, e3, e4⟩ := extents_safe hn l
    intro a ha
    simp only [dom, List.mem_cons, List.not_mem_nil, or_false] at ha
    rcases ha with rfl | rfl | rfl | rfl | rfl | rfl | rfl
    · exact ⟨by decide +kernel, by unfold Safe; decide +kernel⟩
    · exact ⟨by decide +kernel, by unfold Safe; decide +kernel⟩
    · exact ⟨by decide +kernel, by unfold Safe; decide +kernel⟩
    · exact ⟨by decide +kernel, by unfold Safe; decide +kernel⟩
    · exact ⟨(by decide +kernel : ∀ c ∈ "width".toList, c ≠ ' ' ∧ c ≠ '"' ∧ c ≠ '<'), e3⟩
    · exact ⟨(by decide +kernel : ∀ c ∈ "height".toList, c ≠ ' ' ∧ c ≠ '"' ∧ c ≠ '<'), e4⟩
    · exact ⟨(by decide +kernel : ∀ c ∈ "viewBox".toList, c ≠ ' ' ∧ c ≠ '"' ∧ c ≠ '<'),
        ((e1.append (Safe.cons (by decide) e2)).append (Safe.cons (by decide) e3)).append (Safe.cons (by decide) e4)⟩

theorem points_read {n : Csv.Num} (hn : NumOK n) (b : List Stitch) : points n (pathData n b) = .ok (b.map (fun st => (st.x, st.y))) := by
  have split : ∀ (b : List Stitch) (pre : Str), ' ' ∉ pre → splitOn ' ' (pre ++ b.flatMap (fun st => ' ' :: n.str st.x ++ ',' :: n.str st.y)) =
      pre :: b.map (fun st => n.str st.x ++ ',' :: n.str st.y) := by
    intro b
    induction b with
    | nil => intro pre hp; rw [List.flatMap_nil, List.append_nil, splitOn_plain _ _ hp]; rfl
    | cons st b ih =>
      intro pre hp
      rw [List.flatMap_cons]
      have e : pre ++ (' ' :: n.str st.x ++ ',' :: n.str st.y ++ b.flatMap (fun st => ' ' :: n.str st.x ++ ',' :: n.str st.y)) =
          pre ++ ' ' :: ((n.str st.x ++ ',' :: n.str st.y) ++ b.flatMap (fun st => ' ' :: n.str st.x ++ ',' :: n.str st.y)) := by
        simp only [List.append_assoc, List.cons_append]
      rw [e, splitOn_append _ _ _ hp, ih]
      · rfl
      · simp only [List.mem_append, List.mem_cons, not_or]
        exact ⟨hn.noBlank _, by decide, hn.noBlank _⟩
  have pt : ∀ st : Stitch, point n (n.str st.x ++ ',' :: n.str st.y) = .ok (st.x, st.y) := by
    intro st
    unfold point
    rw [splitOn_append _ _ _ (hn.noComma _), splitOn_plain _ _ (hn.noComma _)]
    simp only [hn.float_str]
    rfl
  unfold points pathData
  have e := split b ['M'] (by decide)
  rw [List.singleton_append] at e
  rw [e]
  show (if ['M'] = ['M'] then _ else _) = _
  rw [if_pos rfl]
  clear e
  induction b with
  | nil => rfl
  | cons st b ih =>
    rw [List.map_cons, List.mapM_cons, pt, Csv.bind_of rfl, Csv.bind_of ih]
    rfl

/-- C82: an SVG file draws the stitch blocks: one line for each run of stitches, in the colour of its thread. -/
theorem C82_paths {n : Csv.Num} (hn : NumOK n) (threads : List Thread) (filler : Nat → Thread) (l : List Stitch) :
    drawing n (text n threads filler l) =
      .ok ((Blocks.stitchBlocks threads filler l).map (fun b => (hexColor b.2, b.1.map (fun st => (st.x, st.y))))) := by
  obtain ⟨e, he, hs⟩ := tags_root (dom n threads filler l) (root_ok hn threads filler l) (by
    intro k hk
    obtain ⟨b, -, rfl⟩ := List.mem_map.1 hk
    exact path_ok hn b)
  obtain ⟨-, -, hne⟩ := Blocks.C47_stitch_blocks threads filler l
  unfold drawing text
  rw [he, List.filter_append, List.filter_cons_of_neg (by show ¬ decide ("svg".toList = "path".toList) = true; decide)]
  have h1 : e.filter (fun t => t.1 = "path".toList) = [] := by
    rw [List.filter_eq_nil_iff]
    intro t ht hc
    have := hs t ht
    rw [of_decide_eq_true hc] at this
    exact absurd this (by decide)
  rw [h1, List.append_nil]
  show List.mapM _ (List.filter _ (((Blocks.stitchBlocks threads filler l).map (path n)).map _)) = _
  generalize Blocks.stitchBlocks threads filler l = bs at hne
  rw [List.filter_eq_self.2 (by
    intro t ht
    rw [List.map_map] at ht
    obtain ⟨b, -, rfl⟩ := List.mem_map.1 ht
    exact decide_eq_true rfl)]
  induction bs with
  | nil => rfl
  | cons b bs ih =>
    simp only [List.map_cons, List.mapM_cons]
    rw [ih (fun x hx => hne x (by simp [hx]))]
    have e1 : attr "d" (path n b).attrs = pathData n b.1 := rfl
    have e2 : attr "stroke" (path n b).attrs = hexColor b.2 := rfl
    rw [e1, e2, points_read hn b.1]
    rfl

/-- C82: together the lines hold every stitch of the pattern once, in order, each in the colour of the thread in use. -/
theorem C82_stitches {n : Csv.Num} (hn : NumOK n) (threads : List Thread) (filler : Nat → Thread) (l : List Stitch) :
    ∃ d, drawing n (text n threads filler l) = .ok d ∧
      d.flatMap (fun p => p.2.map (fun q => (p.1, q))) =
        (Blocks.colored threads filler 0 l).map (fun a => (hexColor a.2, (a.1.x, a.1.y))) ∧
      ∀ p ∈ d, p.2 ≠ [] := by
  refine ⟨_, C82_paths hn threads filler l, ?_, ?_⟩
  · rw [← (Blocks.C47_stitch_blocks threads filler l).1]
    rw [List.flatMap_map, List.map_flatMap]
    refine List.flatMap_congr fun b _ => ?_
    simp [Blocks.paint]
  · intro p hp
    obtain ⟨b, hb, rfl⟩ := List.mem_map.1 hp
    simpa using ((Blocks.C47_stitch_blocks threads filler l).2.2 b hb).1

theorem strikes_blocks (threads : List Thread) (filler : Nat → Thread) (l : List Stitch) :
    ((Blocks.stitchBlocks threads filler l).map (fun b => (hexColor b.2, b.1.map (fun st => (st.x, st.y))))).flatMap (·.2) = strikes l := by
  have h := congrArg (List.map (fun a : Stitch × Thread => (a.1.x, a.1.y))) (Blocks.C47_stitch_blocks threads filler l).1
  have h2 : ∀ k, (Blocks.colored threads filler k l).map (fun a : Stitch × Thread => (a.1.x, a.1.y)) = strikes l := by
    clear h
    unfold strikes
    induction l with
    | nil => intro k; rfl
    | cons a l ih =>
      intro k
      rw [Blocks.colored]
      by_cases h0 : a.low = 0
      · rw [if_pos h0, List.filter_cons_of_pos (by simpa using h0), List.map_cons, List.map_cons, ih]
      · rw [if_neg h0, List.filter_cons_of_neg (by simpa using h0)]
        by_cases h5 : a.low = 5
        · rw [if_pos h5, ih]
        · rw [if_neg h5, ih]
  rw [h2] at h
  rw [← h, List.flatMap_map, List.map_flatMap]
  refine List.flatMap_congr fun b _ => ?_
  simp [Blocks.paint]

/-- C82: the picture of a saved pattern shows the points at which the source sews, in order, for every source, setting and maths library (`Verif.Walk` says which they are). -/
theorem C82_saved {n : Csv.Num} (hn : NumOK n) (filler : Nat → Thread) {o : Settings} {lm : Libm} {threads ts : List Thread} {source out : List Stitch}
    {ths : List (Option Thread)} (he : encode o lm threads source = .ok (out, ths)) :
    ∃ d, drawing n (text n ts filler out) = .ok d ∧ d.flatMap (·.2) = walk lm o.round (o.head lm) source.getLast? source := by
  refine ⟨_, C82_paths hn ts filler out, ?_⟩
  rw [strikes_blocks, C24_strikes he]

/-- C82: in particular, of a source of plain stitching it shows the sewing commands in order, unmoved. -/
theorem C82_plain {n : Csv.Num} (hn : NumOK n) (filler : Nat → Thread) {lm : Libm} {threads ts : List Thread} {A E out : List Stitch}
    {ths : List (Option Thread)} (hA : ∀ st ∈ A, Plain none st) (hE : ∀ e ∈ E.head?, e.low = 4)
    (he : encode { sequinContingency := some CONTINGENCY_SEQUIN_STITCH } lm threads (A ++ E) = .ok (out, ths)) :
    ∃ d, drawing n (text n ts filler out) = .ok d ∧
      d.flatMap (·.2) = (A.filter (fun st => st.low ∈ [0, 0xB0, 0xB1])).map (fun st => (st.x, st.y)) := by
  refine ⟨_, C82_paths hn ts filler out, ?_⟩
  rw [strikes_blocks, C24_exact (o := { sequinContingency := some CONTINGENCY_SEQUIN_STITCH })
    ⟨⟨by decide, by decide⟩, ⟨by decide, by decide⟩, by decide⟩ hA hE he]
  unfold images
  refine List.map_congr_left fun st _ => ?_
  simp [Settings.place]

/-- The four numbers of the view box. -/
def viewBox (n : Csv.Num) (s : Str) : Except PyErr (List ℚ) :=
  match (tags s).head? with
  | some t => if t.1 = "svg".toList then (splitOn ' ' (attr "viewBox" t.2)).mapM n.float else .error .valueError
  | none => .error .valueError

/-- C82: the view box is the bounding box of the pattern. -/
theorem C82_viewbox {n : Csv.Num} (hn : NumOK n) (threads : List Thread) (filler : Nat → Thread) (l : List Stitch) (hl : l ≠ []) :
    ∃ x y w h, viewBox n (text n threads filler l) = .ok [x, y, w, h] ∧
      (∀ a ∈ l, x ≤ a.x ∧ a.x ≤ x + w ∧ y ≤ a.y ∧ a.y ≤ y + h) ∧
      (∃ a ∈ l, a.x = x) ∧ (∃ a ∈ l, a.y = y) ∧ (∃ a ∈ l, a.x = x + w) ∧ (∃ a ∈ l, a.y = y + h) := by
  obtain ⟨b, hb, ht⟩ := C43_tight l hl
  obtain ⟨e, he, hs⟩ := tags_root (dom n threads filler l) (root_ok hn threads filler l) (by
    intro k hk
    obtain ⟨b, -, rfl⟩ := List.mem_map.1 hk
    exact path_ok hn b)
  refine ⟨b.minX, b.minY, b.maxX - b.minX, b.maxY - b.minY, ?_, ?_⟩
  · unfold viewBox text
    rw [he]
    show (if "svg".toList = "svg".toList then _ else _) = _
    rw [if_pos rfl]
    have ea : attr "viewBox" (dom n threads filler l).attrs = n.str b.minX ++ ' ' :: (n.str b.minY ++ ' ' ::
        (n.str (b.maxX - b.minX) ++ ' ' :: n.str (b.maxY - b.minY))) := by
      have : attr "viewBox" (dom n threads filler l).attrs = (extents n l).1 ++ ' ' :: (extents n l).2.1 ++ ' ' :: (extents n l).2.2.1 ++
        ' ' :: (extents n l).2.2.2 := rfl
      rw [this]
      unfold extents
      rw [hb]
      simp only [List.append_assoc, List.cons_append]
    rw [ea, splitOn_append _ _ _ (hn.noBlank _), splitOn_append _ _ _ (hn.noBlank _), splitOn_append _ _ _ (hn.noBlank _),
      splitOn_plain _ _ (hn.noBlank _)]
    simp only [List.mapM_cons, hn.float_str]
    rfl
  · obtain ⟨hin, h1, h2, h3, h4⟩ := ht
    rw [add_sub_cancel, add_sub_cancel]
    exact ⟨hin, h1, h3, h2, h4⟩

/-! ## Cases -/

theorem fractions_ok : NumOK Csv.fractions where
  float_str := Csv.fractions_sound.float_str
  plain q := by
    intro c hc
    have hne : ∀ d ∈ [' ', ',', '"', '<', '>', '&', '\r', '\n', '\t'], d ≠ '-' ∧ d.isDigit = false ∧ d ≠ '/' := by decide
    intro hm
    obtain ⟨h1, h2, h3⟩ := hne c hm
    rcases List.mem_append.1 hc with hc | hc
    · exact dec_ne h2 h1 hc
    · rcases List.mem_cons.1 hc with hc | hc
      · exact h3 hc
      · exact dec_ne h2 h1 hc

/-- Two threads, a trim and a jump inside the first colour. -/
def demo : List Stitch := [⟨0, 0, 0⟩, ⟨10, 5 / 2, 0⟩, ⟨10, 5 / 2, 2⟩, ⟨40, 0, 1⟩, ⟨40, -7, 0⟩, ⟨40, -7, 5⟩, ⟨41, -7, 0⟩, ⟨41, -7, 4⟩]

example : drawing Csv.fractions (text Csv.fractions [{ color := 0xFF0000 }] (fun _ => { color := 0x102030 }) demo) =
    .ok [("#ff0000".toList, [(0, 0), (10, 5 / 2)]), ("#ff0000".toList, [(40, -7)]), ("#102030".toList, [(41, -7)])] := by
  rw [C82_paths fractions_ok]; decide +kernel

example : viewBox Csv.fractions (text Csv.fractions [{ color := 0xFF0000 }] (fun _ => { color := 0x102030 }) demo) =
    .ok [0, -7, 41, 19 / 2] := by decide +kernel

-- a source that is moved by the settings, and what is sewn of it
example : (match encode { translate := some (5, 0) } demoLm [] [⟨0, 0, 0⟩, ⟨10, 0, 0xB1⟩, ⟨10, 0, 2⟩, ⟨3, 4, 0⟩] with
    | .ok (out, _) => strikes out
    | .error _ => []) = [(5, 0), (15, 0), (8, 4)] := by decide +kernel

/-- The entities of XML that stand for characters with a meaning. -/
def entities : List (Str × Str) :=
  [("amp".toList, ['&']), ("lt".toList, ['<']), ("gt".toList, ['>']), ("quot".toList, ['"']), ("#13".toList, ['\r']), ("#10".toList, ['\n']),
    ("#09".toList, ['\t'])]

/-- What a reader of XML takes an attribute value for: what is between `&` and `;` names a character. `none` outside a name, else the name so far. -/
def unescape : Option Str → Str → Str
  | _, [] => []
  | none, c :: r => if c = '&' then unescape (some []) r else c :: unescape none r
  | some n, c :: r => if c = ';' then (entities.lookup n).getD [] ++ unescape none r else unescape (some (n ++ [c])) r

/-- **C82** Whatever the text of an attribute is, it neither ends the attribute nor the element early, and it is read as the text it was. -/
theorem C82_escape (s : Str) : '"' ∉ escape s ∧ '<' ∉ escape s ∧ '>' ∉ escape s ∧ unescape none (escape s) = s := by
  induction s with
  | nil => simp [escape, unescape]
  | cons c s ih =>
    have e : escape (c :: s) = escape [c] ++ escape s := List.flatMap_append (xs := [c]) (ys := s)
    obtain ⟨h1, h2, h3, h4⟩ := ih
    rw [e]
    simp only [List.mem_append, not_or, h1, h2, h3, not_false_eq_true, and_true]
    by_cases hc : c ∈ ['&', '<', '>', '"', '\r', '\n', '\t']
    · simp only [List.mem_cons, List.not_mem_nil, or_false] at hc
      have key : ∀ t, unescape none (escape [c] ++ t) = c :: unescape none t := by
        intro t; rcases hc with rfl | rfl | rfl | rfl | rfl | rfl | rfl <;> rfl
      rw [key, h4]
      rcases hc with rfl | rfl | rfl | rfl | rfl | rfl | rfl <;> exact ⟨by decide, by decide, by decide, rfl⟩
    · simp only [List.mem_cons, List.not_mem_nil, or_false, not_or] at hc
      obtain ⟨c1, c2, c3, c4, c5, c6, c7⟩ := hc
      have e1 : escape [c] = [c] := escape_safe [c] (by
        intro x hx
        rw [List.mem_singleton.1 hx]
        simp only [List.mem_cons, List.not_mem_nil, or_false, not_or]
        exact ⟨c4, c2, c3, c1, c5, c6, c7⟩)
      rw [e1]
      refine ⟨by simpa using fun h => c4 h.symm, by simpa using fun h => c2 h.symm, by simpa using fun h => c3 h.symm, ?_⟩
      rw [List.singleton_append, unescape, if_neg c1, h4]

/-- A text with all the characters that mean something. -/
example : escape "a<b & \"c\"".toList = "a&lt;b &amp; &quot;c&quot;".toList := by decide

/-- C82: without stitches the view box is not a box of numbers. -/
theorem C82_empty (n : Csv.Num) (filler : Nat → Thread) : ∃ a b, text n [] filler [] = a ++ "viewBox=\"inf inf -inf -inf\"".toList ++ b :=
  ⟨"<svg version=\"1.1\" xmlns=\"http://www.w3.org/2000/svg\" xmlns:xlink=\"http://www.w3.org/1999/xlink\" xmlns:ev=\"http://www.w3.org/2001/xml-events\" width=\"-inf\" height=\"-inf\" ".toList,
   " />".toList, by
    have : text n [] filler [] = text Csv.fractions [] (fun _ => { color := 0 }) [] := rfl
    rw [this]; decide +kernel⟩

end Svg
end Emb
