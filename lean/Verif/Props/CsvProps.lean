import Verif.Csv
import Verif.Props.NamesProps
import Verif.Props.ThreadProps
import Verif.Props.BoundsProps
import Mathlib.Data.List.Induction

/-!
# Property C70: CSV files
-/

namespace Emb
namespace Csv

/-- Text that survives: no double quote (the writer does not double them) and no carriage return (universal newlines). -/
def Plain (s : Str) : Prop := '"' ∉ s ∧ '\r' ∉ s

instance (s : Str) : Decidable (Plain s) := by unfold Plain; infer_instance

theorem Plain.append {a b : Str} (ha : Plain a) (hb : Plain b) : Plain (a ++ b) := by
  simp only [Plain, List.mem_append, not_or] at *
  exact ⟨⟨ha.1, hb.1⟩, ha.2, hb.2⟩

theorem dec_plain (n : Int) : Plain (dec n) := ⟨dec_ne (by decide) (by decide), dec_ne (by decide) (by decide)⟩

theorem lookup_plain {c : Int} {n : String} (h : lookup nameDict c = .ok n) : Plain n.toList := by
  have t : ∀ p ∈ nameDict, Plain p.2.toList := by decide +kernel
  unfold lookup at h
  rcases e : nameDict.find? (fun p => p.1 = c) with _ | p
  · rw [e] at h; cases h
  · rw [e] at h
    injection h with h
    subst h
    exact t p (List.mem_of_find?_eq_some e)

theorem suffix_plain (c : Char) (hc : Plain [c]) (f : Option Int) : Plain (suffix c f) := by
  cases f with
  | none => simp [suffix, Plain]
  | some v =>
    have : suffix c (some v) = [' '] ++ [c] ++ dec v := rfl
    rw [this]
    exact (Plain.append (by decide) hc).append (dec_plain v)

theorem decodedName_plain (c : Int) : Plain (decodedName c) := by
  unfold decodedName
  generalize decodeCommand c = w
  simp only
  rcases e : lookup nameDict w.1 with _ | n
  · exact Plain.append (a := "UNKNOWN ".toList) (by decide +kernel) (dec_plain c)
  · exact (((lookup_plain e).append (suffix_plain 't' (by decide) _)).append (suffix_plain 'n' (by decide) _)).append
      (suffix_plain 'o' (by decide) _)

theorem countName_plain (c : Int) : Plain (countName c) := by
  unfold countName
  rcases e : lookup nameDict c with _ | n
  · exact Plain.append (a := "COMMAND_UNKNOWN_".toList) (by decide +kernel) (dec_plain c)
  · exact Plain.append (a := "COMMAND_".toList) (by decide +kernel) (lookup_plain e)

theorem hexColor_plain (t : Thread) : Plain (hexColor t) := by
  have h : ∀ n : Fin 16, hexDigit (n.val : Int) ≠ '"' ∧ hexDigit (n.val : Int) ≠ '\r' := by decide +kernel
  have h' : ∀ n : Int, 0 ≤ n → n < 16 → hexDigit n ≠ '"' ∧ hexDigit n ≠ '\r' := by
    intro n h0 h1
    have := h ⟨n.toNat, by omega⟩
    rwa [show (((n.toNat : Nat)) : Int) = n by omega] at this
  have r : 0 ≤ t.red ∧ t.red < 256 := by unfold Thread.red; omega
  have g : 0 ≤ t.green ∧ t.green < 256 := by unfold Thread.green; omega
  have b : 0 ≤ t.blue ∧ t.blue < 256 := by unfold Thread.blue; omega
  have v1 := h' (t.red / 16) (by omega) (by omega)
  have v2 := h' (t.red % 16) (by omega) (by omega)
  have v3 := h' (t.green / 16) (by omega) (by omega)
  have v4 := h' (t.green % 16) (by omega) (by omega)
  have v5 := h' (t.blue / 16) (by omega) (by omega)
  have v6 := h' (t.blue % 16) (by omega) (by omega)
  unfold Plain hexColor hex2
  simp only [List.cons_append, List.nil_append, List.mem_cons, List.not_mem_nil, or_false, not_or]
  exact ⟨⟨by decide, v1.1.symm, v2.1.symm, v3.1.symm, v4.1.symm, v5.1.symm, v6.1.symm⟩,
    by decide, v1.2.symm, v2.2.symm, v3.2.symm, v4.2.symm, v5.2.symm, v6.2.symm⟩

/-! ## The parser on quoted rows -/

theorem rows_quoted (v fld : Str) (row : List Str) (s : Str) (h : '"' ∉ v) :
    rows .quoted fld row (v ++ '"' :: s) = rows .quoteInQuoted (fld ++ v) row s := by
  induction v generalizing fld with
  | nil => simp [rows]
  | cons c v ih =>
    simp only [List.mem_cons, not_or] at h
    rw [List.cons_append, rows, if_neg (Ne.symm h.1), ih _ h.2, List.append_assoc]; rfl

theorem line_cons (v : Str) (vs : List Str) (h : vs ≠ []) :
    line (v :: vs) = '"' :: (v ++ '"' :: ',' :: line vs) := by
  unfold line
  rcases vs with _ | ⟨w, vs⟩
  · exact absurd rfl h
  · simp [List.intercalate]

theorem rows_line_aux (vs : List Str) (hne : vs ≠ []) (h : ∀ v ∈ vs, '"' ∉ v) (row : List Str) (s : Str) :
    rows .startField [] row (line vs ++ s) = (row ++ vs) :: rows .startRecord [] [] s := by
  induction vs generalizing row with
  | nil => exact absurd rfl hne
  | cons v vs ih =>
    have hv : '"' ∉ v := h v (by simp)
    by_cases e : vs = []
    · subst e
      have : line [v] ++ s = '"' :: (v ++ '"' :: '\n' :: s) := by simp [line, List.intercalate]
      rw [this, rows, if_neg (by decide), if_pos rfl, rows_quoted _ _ _ _ hv, List.nil_append]
      rfl
    · have : line (v :: vs) ++ s = '"' :: (v ++ '"' :: ',' :: (line vs ++ s)) := by rw [line_cons _ _ e]; simp
      rw [this, rows, if_neg (by decide), if_pos rfl, rows_quoted _ _ _ _ hv, List.nil_append]
      show rows .startField [] (row ++ [v]) (line vs ++ s) = _
      rw [ih e (fun w hw => h w (by simp [hw])), List.append_assoc]; rfl

theorem rows_line (vs : List Str) (hne : vs ≠ []) (h : ∀ v ∈ vs, '"' ∉ v) (s : Str) :
    rows .startRecord [] [] (line vs ++ s) = vs :: rows .startRecord [] [] s := by
  have := rows_line_aux vs hne h [] s
  rw [List.nil_append] at this
  rw [← this]
  obtain ⟨c, t, e, hc⟩ : ∃ c t, line vs ++ s = c :: t ∧ c = '"' := by
    rcases vs with _ | ⟨v, vs⟩
    · exact absurd rfl hne
    · by_cases e : vs = []
      · subst e; exact ⟨'"', _, by simp [line, List.intercalate]; rfl, rfl⟩
      · exact ⟨'"', _, by rw [line_cons _ _ e]; rfl, rfl⟩
  rw [e]; subst hc
  rfl

/-- A row as the writer makes them: at least one value, none with a quote or carriage return. -/
def RowOK (r : List Str) : Prop := r ≠ [] ∧ ∀ v ∈ r, Plain v

theorem rows_lines (rs : List (List Str)) (h : ∀ r ∈ rs, RowOK r) (s : Str) :
    rows .startRecord [] [] (rs.flatMap line ++ s) = rs ++ rows .startRecord [] [] s := by
  induction rs with
  | nil => rfl
  | cons r rs ih =>
    have hr := h r (by simp)
    rw [List.flatMap_cons, List.append_assoc, rows_line r hr.1 (fun v hv => (hr.2 v hv).1), ih (fun r hr => h r (by simp [hr]))]
    rfl

theorem line_cr (vs : List Str) (h : ∀ v ∈ vs, Plain v) : '\r' ∉ line vs := by
  induction vs with
  | nil => decide
  | cons v vs ih =>
    have hv := (h v (by simp)).2
    by_cases e : vs = []
    · subst e
      simp [line, List.intercalate, hv]
    · rw [line_cons _ _ e]
      have := ih (fun w hw => h w (by simp [hw]))
      simp [hv, this]

theorem lines_cr (rs : List (List Str)) (h : ∀ r ∈ rs, RowOK r) : '\r' ∉ rs.flatMap line := by
  rw [List.mem_flatMap]
  rintro ⟨r, hr, hc⟩
  exact line_cr r (h r hr).2 hc

/-! ## The rows of the writer -/

variable {n : Num} {rnd : Int}

theorem dataRows_ok (hn : n.Sound) (l : List Stitch) : ∀ r ∈ dataRows n l, RowOK r := by
  unfold dataRows
  intro r hr
  have hx : ∀ v ∈ extents n l, Plain v := by
    unfold extents
    rcases bounds l with _ | b
    · have : ∀ v ∈ ["inf".toList, "inf".toList, "-inf".toList, "-inf".toList, "-inf".toList, "-inf".toList], Plain v := by
        decide +kernel
      exact this
    · intro v hv
      simp only [List.mem_cons, List.not_mem_nil, or_false] at hv
      rcases hv with rfl | rfl | rfl | rfl | rfl | rfl <;> exact hn.str_plain _
  rcases List.mem_append.1 hr with hr | hr
  · rcases List.mem_append.1 hr with hr | hr
    · simp only [List.mem_cons, List.not_mem_nil, or_false] at hr
      rcases hr with rfl | rfl | rfl | rfl
      · exact ⟨by simp, by decide +kernel⟩
      all_goals
        refine ⟨by simp, fun v hv => ?_⟩
        simp only [List.mem_cons, List.not_mem_nil, or_false] at hv
        rcases hv with rfl | rfl | rfl
        · decide +kernel
        · decide +kernel
        · exact dec_plain _
    · have hk : ∀ k ∈ ["EXTENTS_LEFT:", "EXTENTS_TOP:", "EXTENTS_RIGHT:", "EXTENTS_BOTTOM:", "EXTENTS_WIDTH:",
          "EXTENTS_HEIGHT:"], Plain k.toList := by decide +kernel
      obtain ⟨i, hi, e⟩ := List.mem_iff_getElem.1 hr
      rw [List.getElem_zipWith] at e
      subst e
      refine ⟨by simp, fun v hv => ?_⟩
      simp only [List.mem_cons, List.not_mem_nil, or_false] at hv
      rcases hv with rfl | rfl | rfl
      · decide +kernel
      · exact hk _ (List.getElem_mem _)
      · exact hx _ (List.getElem_mem _)
  · rw [List.mem_map] at hr
    obtain ⟨p, _, rfl⟩ := hr
    refine ⟨by simp, fun v hv => ?_⟩
    simp only [List.mem_cons, List.not_mem_nil, or_false] at hv
    rcases hv with rfl | rfl | rfl
    · decide +kernel
    · exact countName_plain _
    · exact dec_plain _

/-- Rows whose first value is `#` or `>` change nothing. -/
def Skipped (r : List Str) : Prop := ∃ t, r = "#".toList :: t ∨ r = ">".toList :: t

theorem read_skipped {r : List Str} (h : Skipped r) (d : Doc) : readRow n rnd d r = .ok d := by
  obtain ⟨t, rfl | rfl⟩ := h
  · unfold readRow; simp only; rw [if_neg (by decide +kernel), if_pos (by decide +kernel)]
  · unfold readRow; simp only
    rw [if_neg (by decide +kernel), if_neg (by decide +kernel), if_neg (by decide +kernel), if_neg (by decide +kernel)]

theorem fold_skipped (rs : List (List Str)) (h : ∀ r ∈ rs, Skipped r) (d : Doc) : rs.foldlM (readRow n rnd) d = .ok d := by
  induction rs with
  | nil => rfl
  | cons r rs ih =>
    rw [List.foldlM_cons, read_skipped (h r (by simp))]
    exact ih (fun r hr => h r (by simp [hr]))

theorem dataRows_skipped (l : List Stitch) : ∀ r ∈ dataRows n l, Skipped r := by
  unfold dataRows
  intro r hr
  rcases List.mem_append.1 hr with hr | hr
  · rcases List.mem_append.1 hr with hr | hr
    · simp only [List.mem_cons, List.not_mem_nil, or_false] at hr
      rcases hr with rfl | rfl | rfl | rfl
      · exact ⟨_, Or.inl rfl⟩
      all_goals exact ⟨_, Or.inr rfl⟩
    · obtain ⟨i, hi, e⟩ := List.mem_iff_getElem.1 hr
      rw [List.getElem_zipWith] at e
      subst e
      exact ⟨_, Or.inr rfl⟩
  · rw [List.mem_map] at hr
    obtain ⟨p, _, rfl⟩ := hr
    exact ⟨_, Or.inr rfl⟩

theorem bind_of {α β : Type} {x : Except PyErr α} {a : α} {f : α → Except PyErr β} (h : x = .ok a) : (x >>= f) = f a := by
  rw [h]; rfl

theorem put_new {β : Type} (k : Str) (v : β) (l : List (Str × β)) (h : k ∉ l.map (·.1)) : put k v l = l ++ [(k, v)] := by
  induction l with
  | nil => rfl
  | cons p l ih =>
    simp only [List.map_cons, List.mem_cons, not_or] at h
    rw [put, if_neg (Ne.symm h.1), ih h.2]; rfl

theorem fold_meta (ex : List (Str × Str)) (d : Doc) (h : (d.extras.map (·.1) ++ ex.map (·.1)).Nodup) :
    (ex.map (fun p => ["@".toList, p.1, p.2])).foldlM (readRow n rnd) d = .ok { d with extras := d.extras ++ ex } := by
  induction ex generalizing d with
  | nil => rw [List.append_nil]; rfl
  | cons p ex ih =>
    have hp : p.1 ∉ d.extras.map (·.1) := by
      intro hc
      rw [List.nodup_append] at h
      exact h.2.2 p.1 hc p.1 (by simp) rfl
    have e : readRow n rnd d ["@".toList, p.1, p.2] = .ok { d with extras := d.extras ++ [p] } := by
      unfold readRow; simp only
      rw [if_neg (by decide +kernel), if_neg (by decide +kernel), if_pos (by decide +kernel), put_new _ _ _ hp]
    rw [List.map_cons, List.foldlM_cons, e]
    show (ex.map _).foldlM (readRow n rnd) _ = _
    rw [ih]
    · simp
    · simpa using h

/-- A thread as it comes back: the 24-bit colour, and description, brand and catalogue number as text, `None` as the word
"None"; details, chart and weight are gone. -/
def threadSeen (t : Thread) : Thread :=
  { color := t.color % 16777216, description := some (t.description.getD "None"), brand := some (t.brand.getD "None"),
    catalog := some (t.catalog.getD "None") }

theorem opt_ofList (o : Option String) : String.ofList (opt o) = o.getD "None" := by
  cases o with
  | none => exact String.ofList_toList
  | some s => exact String.ofList_toList

theorem parse_hexColor (t : Thread) : parseStringColor rnd (hexColor t) = .ok (some (t.color % 16777216)) := by
  have h := (C42_hex_roundtrip t).2
  unfold parseStringColor
  rw [if_neg (by
    intro e
    have : ("random".toList).head? = some '#' := by rw [← e]; rfl
    revert this; decide +kernel)]
  have e : hexColor t = '#' :: (hexColor t).tail := rfl
  rw [e]
  exact h

theorem read_thread (i : Nat) (t : Thread) (d : Doc) :
    readRow n rnd d (threadRow i t) = .ok { d with threads := d.threads ++ [threadSeen t] } := by
  have e : readThread rnd (threadRow i t) = .ok (threadSeen t) := by
    unfold readThread threadRow
    simp only [readThread.general, List.getElem?_cons_succ, List.getElem?_cons_zero, parse_hexColor, Option.map_some,
      opt_ofList]
    rfl
  unfold readRow threadRow; simp only
  rw [if_neg (by decide +kernel), if_neg (by decide +kernel), if_neg (by decide +kernel), if_pos (by decide +kernel)]
  unfold threadRow at e
  rw [e]; rfl

theorem fold_threads (ts : List Thread) (f : Nat → Nat) (d : Doc) :
    (ts.mapIdx (fun i => threadRow (f i))).foldlM (readRow n rnd) d = .ok { d with threads := d.threads ++ ts.map threadSeen } := by
  induction ts generalizing d f with
  | nil => simp; rfl
  | cons t ts ih =>
    rw [List.mapIdx_cons, List.foldlM_cons, read_thread]
    have := ih (fun i => f (i + 1)) { d with threads := d.threads ++ [threadSeen t] }
    refine this.trans ?_
    simp

/-- The command words that survive: 32 bits, and the command has a name. -/
def WordOK (c : Int) : Prop := 0 ≤ c ∧ c < 2 ^ 32 ∧ c % 256 ∈ named

theorem fold_stitches (hn : n.Sound) (v : Version) (l : List Stitch) (hl : ∀ st ∈ l, WordOK st.cmd) (i : Nat) (x y : ℚ) (d : Doc) :
    (stitchRows n v i x y l).foldlM (readRow n rnd) d = .ok { d with stitches := d.stitches ++ l } := by
  induction l generalizing i x y d with
  | nil => rw [List.append_nil]; rfl
  | cons st l ih =>
    have hw := hl st (by simp)
    have hc := C58_roundtrip_partial st.cmd hw.1 hw.2.1 hw.2.2
    have e : ∀ more : List Str, readRow n rnd d (["*".toList, dec i, decodedName st.cmd, n.str st.x, n.str st.y] ++ more) =
        .ok { d with stitches := d.stitches ++ [st] } := by
      intro more
      unfold readRow
      simp only [List.cons_append, List.nil_append, List.getElem?_cons_succ, List.getElem?_cons_zero]
      rw [if_pos (by decide +kernel), hc, bind_of rfl, if_neg (by simp), hn.float_str, hn.float_str]; rfl
    rw [stitchRows, List.foldlM_cons, e]
    refine (ih (fun st hst => hl st (by simp [hst])) _ _ _ _).trans ?_
    simp

theorem stitchRows_ok (hn : n.Sound) (v : Version) (l : List Stitch) (i : Nat) (x y : ℚ) : ∀ r ∈ stitchRows n v i x y l, RowOK r := by
  induction l generalizing i x y with
  | nil => intro r hr; cases hr
  | cons st l ih =>
    intro r hr
    rcases List.mem_cons.1 hr with rfl | hr
    · refine ⟨by simp, fun w hw => ?_⟩
      rcases List.mem_append.1 hw with hw | hw
      · simp only [List.mem_cons, List.not_mem_nil, or_false] at hw
        rcases hw with rfl | rfl | rfl | rfl | rfl
        · decide +kernel
        · exact dec_plain _
        · exact decodedName_plain _
        · exact hn.str_plain _
        · exact hn.str_plain _
      · unfold moreColumns at hw
        cases v with
        | default => cases hw
        | delta =>
          simp only [List.mem_cons, List.not_mem_nil, or_false] at hw
          rcases hw with rfl | rfl <;> exact hn.str_plain _
        | full =>
          simp only [List.mem_cons, List.not_mem_nil, or_false] at hw
          rcases hw with rfl | rfl | rfl | rfl
          · exact hn.str_plain _
          · exact hn.str_plain _
          · exact hn.distance_plain _ _
          · exact hn.angle_plain _ _
    · exact ih _ _ _ r hr

theorem title_ok (v : Version) : RowOK (stitchTitle v) ∧ Skipped (stitchTitle v) := by
  have h : ∀ v : Version, RowOK (stitchTitle v) := by
    intro v
    cases v <;> exact ⟨by simp [stitchTitle], by decide +kernel⟩
  exact ⟨h v, _, Or.inl rfl⟩

/-- The file has no carriage return, and these are its rows. -/
theorem rows_write (hn : n.Sound) (v : Version) (d : Doc)
    (ht : ∀ t ∈ d.threads, Plain (opt t.description) ∧ Plain (opt t.brand) ∧ Plain (opt t.catalog) ∧
      Plain (opt t.details) ∧ Plain (opt t.weight))
    (hx : ∀ p ∈ d.extras, Plain p.1 ∧ Plain p.2) : '\r' ∉ write n v d ∧
    rows .startRecord [] [] (write n v d) = dataRows n d.stitches ++ ([[]] ++
      ((if d.extras = [] then [] else metaRows d.extras ++ [[]]) ++ ((if d.threads = [] then [] else threadRows d.threads ++ [[]]) ++
        (if d.stitches = [] then [] else stitchTitle v :: stitchRows n v 0 0 0 d.stitches)))) := by
  have m_ok : ∀ r ∈ metaRows d.extras, RowOK r := by
    intro r hr
    rcases List.mem_cons.1 hr with rfl | hr
    · exact ⟨by simp, by decide +kernel⟩
    · obtain ⟨p, hp, rfl⟩ := List.mem_map.1 hr
      refine ⟨by simp, fun w hw => ?_⟩
      simp only [List.mem_cons, List.not_mem_nil, or_false] at hw
      rcases hw with rfl | rfl | rfl
      · decide +kernel
      · exact (hx p hp).1
      · exact (hx p hp).2
  have t_ok : ∀ r ∈ threadRows d.threads, RowOK r := by
    intro r hr
    rcases List.mem_cons.1 hr with rfl | hr
    · exact ⟨by simp, by decide +kernel⟩
    · obtain ⟨i, hi, rfl⟩ := List.mem_iff_getElem.1 hr
      rw [List.getElem_mapIdx]
      rw [List.length_mapIdx] at hi
      have := ht _ (List.getElem_mem hi)
      refine ⟨by simp [threadRow], fun w hw => ?_⟩
      unfold threadRow at hw
      simp only [List.mem_cons, List.not_mem_nil, or_false] at hw
      rcases hw with rfl | rfl | rfl | rfl | rfl | rfl | rfl | rfl
      · decide +kernel
      · exact dec_plain _
      · exact hexColor_plain _
      · exact this.1
      · exact this.2.1
      · exact this.2.2.1
      · exact this.2.2.2.1
      · exact this.2.2.2.2
  have s_ok : ∀ r ∈ stitchTitle v :: stitchRows n v 0 0 0 d.stitches, RowOK r := by
    intro r hr
    rcases List.mem_cons.1 hr with rfl | hr
    · exact (title_ok v).1
    · exact stitchRows_ok hn v _ _ _ _ r hr
  have d_ok := dataRows_ok hn d.stitches
  have cr : '\r' ∉ write n v d := by
    unfold write
    simp only [List.mem_append, not_or]
    refine ⟨⟨⟨⟨lines_cr _ d_ok, by decide⟩, ?_⟩, ?_⟩, ?_⟩
    · split_ifs
      · simp
      · rw [List.mem_append]; rintro (h | h)
        · exact lines_cr _ m_ok h
        · revert h; decide
    · split_ifs
      · simp
      · rw [List.mem_append]; rintro (h | h)
        · exact lines_cr _ t_ok h
        · revert h; decide
    · split_ifs
      · simp
      · exact lines_cr _ s_ok
  have blank : ∀ s, rows .startRecord [] [] ('\n' :: s) = [] :: rows .startRecord [] [] s := fun _ => rfl
  have stage : ∀ (c : Prop) [Decidable c] (rs : List (List Str)) (s : Str), (∀ r ∈ rs, RowOK r) →
      rows .startRecord [] [] ((if c then [] else rs.flatMap line ++ ['\n']) ++ s) =
        (if c then [] else rs ++ [[]]) ++ rows .startRecord [] [] s := by
    intro c _ rs s h
    split_ifs
    · rfl
    · rw [List.append_assoc, rows_lines _ h]
      simp [blank]
  have last : rows .startRecord [] [] (if d.stitches = [] then [] else
      (stitchTitle v :: stitchRows n v 0 0 0 d.stitches).flatMap line) =
      if d.stitches = [] then [] else stitchTitle v :: stitchRows n v 0 0 0 d.stitches := by
    split_ifs
    · rfl
    · have := rows_lines _ s_ok []
      simpa [rows] using this
  refine ⟨cr, ?_⟩
  unfold write
  rw [List.append_assoc, List.append_assoc, List.append_assoc, rows_lines _ d_ok]
  congr 1
  rw [List.singleton_append, blank, stage _ _ _ m_ok, stage _ _ _ t_ok, last]; rfl

/-- **C70**: a pattern whose commands have names and whose texts have no quotes or carriage returns is read back from
its CSV file, in any of the three layouts, with exactly the same stitches (positions and whole command words), the same
metadata, and its threads as `threadSeen` says. Missing for the full claim: texts with quotes
(`C70_quote_breaks`), unnamed commands (`C58_unnamed`), and the thread fields `threadSeen` drops (`C70_thread_loses`). -/
theorem C70_roundtrip_partial (hn : n.Sound) (v : Version) (d : Doc) (hs : ∀ st ∈ d.stitches, WordOK st.cmd)
    (ht : ∀ t ∈ d.threads, Plain (opt t.description) ∧ Plain (opt t.brand) ∧ Plain (opt t.catalog) ∧
      Plain (opt t.details) ∧ Plain (opt t.weight))
    (hx : ∀ p ∈ d.extras, Plain p.1 ∧ Plain p.2) (hk : (d.extras.map (·.1)).Nodup) :
    read n rnd (write n v d) =
      .ok { stitches := d.stitches, threads := d.threads.map threadSeen, extras := d.extras } := by
  obtain ⟨cr, all⟩ := rows_write hn v d ht hx
  have skip1 : ∀ (d' : Doc) (rs : List (List Str)), ([[]] ++ rs).foldlM (readRow n rnd) d' = rs.foldlM (readRow n rnd) d' :=
    fun _ _ => rfl
  have fin1 : ∀ (d' : Doc), ([[]] : List (List Str)).foldlM (readRow n rnd) d' = .ok d' := fun _ => rfl
  unfold read
  rw [textMode_plain _ cr, all, List.foldlM_append, fold_skipped _ (dataRows_skipped _)]
  rw [bind_of (x := Except.ok ({} : Doc)) rfl, skip1, List.foldlM_append]
  have m : (if d.extras = [] then [] else metaRows d.extras ++ [[]]).foldlM (readRow n rnd) ({} : Doc) =
      .ok { extras := d.extras } := by
    split_ifs with h
    · rw [h]; rfl
    · rw [List.foldlM_append]
      have : (metaRows d.extras).foldlM (readRow n rnd) ({} : Doc) = .ok { extras := d.extras } := by
        unfold metaRows
        rw [List.foldlM_cons, read_skipped ⟨_, Or.inl rfl⟩]
        exact fold_meta d.extras {} (by simpa using hk)
      rw [this]; rfl
  rw [m]
  show List.foldlM (readRow n rnd) _ _ = _
  rw [List.foldlM_append]
  have t : (if d.threads = [] then [] else threadRows d.threads ++ [[]]).foldlM (readRow n rnd) ({ extras := d.extras } : Doc) =
      .ok { threads := d.threads.map threadSeen, extras := d.extras } := by
    split_ifs with h
    · rw [h]; rfl
    · rw [List.foldlM_append]
      have : (threadRows d.threads).foldlM (readRow n rnd) ({ extras := d.extras } : Doc) =
          .ok { threads := d.threads.map threadSeen, extras := d.extras } := by
        unfold threadRows
        rw [List.map_cons, List.foldlM_cons, read_skipped ⟨_, Or.inl rfl⟩]
        exact fold_threads d.threads id { extras := d.extras }
      rw [this]; rfl
  rw [t]
  show List.foldlM (readRow n rnd) _ _ = _
  split_ifs with h
  · rw [h]; rfl
  · rw [List.foldlM_cons, read_skipped (title_ok v).2]
    refine (fold_stitches hn v d.stitches hs 0 0 0 _).trans ?_
    rfl

/-- Two patterns that differ only in details, chart and weight of their threads read back the same: those fields are
lost. -/
theorem C70_thread_loses (hn : n.Sound) (v : Version) : ∃ a b : Doc, a ≠ b ∧ b.threads = [{ color := 1, weight := some "40" }] ∧
    read n rnd (write n v a) = read n rnd (write n v b) := by
  refine ⟨{ threads := [{ color := 1 }] }, { threads := [{ color := 1, weight := some "40" }] }, by decide, rfl, ?_⟩
  rw [C70_roundtrip_partial hn v _ (by simp) (by decide +kernel) (by simp) (by simp),
    C70_roundtrip_partial hn v _ (by simp) (by decide +kernel) (by simp) (by simp)]
  rfl

/-! ## What the rows say -/

theorem stitchRows_idx (v : Version) (pre l : List Stitch) :
    stitchRows n v pre.length (lastPos pre).1 (lastPos pre).2 l = l.mapIdx (fun i st =>
      ["*".toList, dec (pre.length + i : Nat), decodedName st.cmd, n.str st.x, n.str st.y] ++
        moreColumns n v (st.x - (lastPos (pre ++ l.take i)).1) (st.y - (lastPos (pre ++ l.take i)).2)) := by
  induction l generalizing pre with
  | nil => rfl
  | cons st l ih =>
    have e : lastPos (pre ++ [st]) = (st.x, st.y) := by simp [lastPos]
    have := ih (pre ++ [st])
    rw [e, List.length_append, List.length_singleton] at this
    rw [stitchRows, this, List.mapIdx_cons]
    congr 1
    · simp
    · congr 1
      funext i st'
      simp [Nat.add_assoc, Nat.add_comm 1 i]

theorem stitchTitle_eq (v : Version) : stitchTitle v =
    ["#".toList, "[STITCH_INDEX]".toList, "[STITCH_TYPE]".toList, "[X]".toList, "[Y]".toList] ++
      (match v with
        | .default => []
        | .delta => ["[DX]".toList, "[DY]".toList]
        | .full => ["[DX]".toList, "[DY]".toList, "[R]".toList, "[ANGLE]".toList]) := by
  cases v <;> simp only [stitchTitle, List.map_append, List.map_cons, List.map_nil]

theorem stitchRows_eq (v : Version) (l : List Stitch) : stitchRows n v 0 0 0 l = l.mapIdx (fun i st =>
    let dx := st.x - (lastPos (l.take i)).1
    let dy := st.y - (lastPos (l.take i)).2
    ["*".toList, dec i, decodedName st.cmd, n.str st.x, n.str st.y] ++
    (match v with
      | .default => []
      | .delta => [n.str dx, n.str dy]
      | .full => [n.str dx, n.str dy, n.distance dx dy, n.angle dx dy])) := by
  refine (stitchRows_idx (n := n) v [] l).trans ?_
  congr 1
  funext i st
  rw [List.length_nil, Nat.zero_add, List.nil_append]
  cases v <;> simp only [moreColumns]

theorem addCount_keys (c : Int) (d : List (Int × Nat)) :
    (addCount c d).map (·.1) = if c ∈ d.map (·.1) then d.map (·.1) else d.map (·.1) ++ [c] := by
  induction d with
  | nil => rfl
  | cons p d ih =>
    unfold addCount
    by_cases h : p.1 = c
    · rw [if_pos h, if_pos (by simp [h]), List.map_cons, List.map_cons, h]
    · rw [if_neg h, List.map_cons, ih]
      by_cases m : c ∈ d.map (·.1)
      · rw [if_pos m, if_pos (by simp only [List.map_cons, List.mem_cons]; exact Or.inr m)]; rfl
      · rw [if_neg m, if_neg (by simp only [List.map_cons, List.mem_cons, not_or]; exact ⟨fun e => h e.symm, m⟩)]; rfl

/-- The counts after the stitches `l`. -/
structure Counts (l : List Stitch) (d : List (Int × Nat)) : Prop where
  nodup : (d.map (·.1)).Nodup
  keys : ∀ c, c ∈ d.map (·.1) ↔ ∃ st ∈ l, st.low = c
  value : ∀ p ∈ d, p.2 = l.countP (fun st => st.low = p.1)

theorem addCount_mem {c : Int} {d : List (Int × Nat)} (hd : (d.map (·.1)).Nodup) {p : Int × Nat} (h : p ∈ addCount c d) :
    (p.1 ≠ c ∧ p ∈ d) ∨ (p.1 = c ∧ ((∃ k, (c, k) ∈ d ∧ p.2 = k + 1) ∨ (c ∉ d.map (·.1) ∧ p.2 = 1))) := by
  induction d with
  | nil =>
    rw [addCount, List.mem_singleton] at h
    subst h
    exact Or.inr ⟨rfl, Or.inr ⟨by simp, rfl⟩⟩
  | cons q d ih =>
    rw [List.map_cons, List.nodup_cons] at hd
    unfold addCount at h
    by_cases e : q.1 = c
    · rw [if_pos e] at h
      rcases List.mem_cons.1 h with rfl | h
      · exact Or.inr ⟨rfl, Or.inl ⟨q.2, by rw [← e]; simp, rfl⟩⟩
      · refine Or.inl ⟨fun e' => hd.1 ?_, List.mem_cons_of_mem _ h⟩
        rw [e, ← e']; exact List.mem_map.2 ⟨p, h, rfl⟩
    · rw [if_neg e] at h
      rcases List.mem_cons.1 h with rfl | h
      · exact Or.inl ⟨e, by simp⟩
      · rcases ih hd.2 h with ⟨a, b⟩ | ⟨a, ⟨k, b, b'⟩ | ⟨b, b'⟩⟩
        · exact Or.inl ⟨a, List.mem_cons_of_mem _ b⟩
        · exact Or.inr ⟨a, Or.inl ⟨k, List.mem_cons_of_mem _ b, b'⟩⟩
        · refine Or.inr ⟨a, Or.inr ⟨?_, b'⟩⟩
          rw [List.map_cons, List.mem_cons, not_or]
          exact ⟨fun x => e x.symm, b⟩

theorem counts (l : List Stitch) : Counts l (l.foldl (fun d st => addCount (cmdOf st.cmd) d) []) := by
  induction l using List.reverseRecOn with
  | nil => exact ⟨by simp, by simp, by simp⟩
  | append_singleton l st ih =>
    rw [List.foldl_append, List.foldl_cons, List.foldl_nil]
    generalize l.foldl (fun d st => addCount (cmdOf st.cmd) d) [] = d at *
    have el : cmdOf st.cmd = st.low := rfl
    rw [el]
    refine ⟨?_, ?_, ?_⟩
    · rw [addCount_keys]
      split_ifs with h
      · exact ih.nodup
      · rw [List.nodup_append]
        refine ⟨ih.nodup, by simp, ?_⟩
        intro a ha b hb
        rw [List.mem_singleton] at hb
        subst hb
        rintro rfl; exact h ha
    · intro c
      rw [addCount_keys]
      have k := ih.keys
      split_ifs with h
      · rw [k c]
        constructor
        · rintro ⟨s, hs, e⟩; exact ⟨s, by simp [hs], e⟩
        · rintro ⟨s, hs, e⟩
          rcases List.mem_append.1 hs with hs | hs
          · exact ⟨s, hs, e⟩
          · rw [List.mem_singleton] at hs; subst hs; subst e; exact (k _).1 h
      · rw [List.mem_append, k c, List.mem_singleton]
        constructor
        · rintro (⟨s, hs, e⟩ | e)
          · exact ⟨s, by simp [hs], e⟩
          · exact ⟨st, by simp, e.symm⟩
        · rintro ⟨s, hs, e⟩
          rcases List.mem_append.1 hs with hs | hs
          · exact Or.inl ⟨s, hs, e⟩
          · rw [List.mem_singleton] at hs; subst hs; exact Or.inr e.symm
    · intro p hp
      rw [List.countP_append, List.countP_singleton]
      rcases addCount_mem ih.nodup hp with ⟨a, b⟩ | ⟨a, ⟨k, b, b'⟩ | ⟨b, b'⟩⟩
      · rw [ih.value p b, if_neg (by rw [decide_eq_true_iff]; exact fun e => a e.symm)]
        rfl
      · have := ih.value _ b
        simp only at this
        rw [b', this, a, if_pos (by simp)]
      · rw [b', a, if_pos (by simp), List.countP_eq_zero.2]
        intro s hs
        have := (ih.keys st.low).not.1 b
        simp only [not_exists, not_and] at this
        simpa using this s hs

/-- The four title-less rows that say how large the pattern is; `[left, top, right, bottom]` is the smallest box around the
stitches. -/
def ExtentRows (n : Num) (l : List Stitch) (rs : List (List Str)) : Prop :=
  if l = [] then rs = [[">", "EXTENTS_LEFT:", "inf"], [">", "EXTENTS_TOP:", "inf"], [">", "EXTENTS_RIGHT:", "-inf"],
    [">", "EXTENTS_BOTTOM:", "-inf"], [">", "EXTENTS_WIDTH:", "-inf"], [">", "EXTENTS_HEIGHT:", "-inf"]].map (·.map String.toList)
  else ∃ left top right bottom : ℚ,
    (∀ st ∈ l, left ≤ st.x ∧ st.x ≤ right ∧ top ≤ st.y ∧ st.y ≤ bottom) ∧
    (∃ st ∈ l, st.x = left) ∧ (∃ st ∈ l, st.x = right) ∧ (∃ st ∈ l, st.y = top) ∧ (∃ st ∈ l, st.y = bottom) ∧
    rs = [[">".toList, "EXTENTS_LEFT:".toList, n.str left], [">".toList, "EXTENTS_TOP:".toList, n.str top],
      [">".toList, "EXTENTS_RIGHT:".toList, n.str right], [">".toList, "EXTENTS_BOTTOM:".toList, n.str bottom],
      [">".toList, "EXTENTS_WIDTH:".toList, n.str (right - left)], [">".toList, "EXTENTS_HEIGHT:".toList, n.str (bottom - top)]]

/-- C70: the rows of a written file, as `csv.reader` finds them in it. First the numbers of stitches, colour changes and needle
changes; the box around the stitches with its width and height; one row for each kind of command in the pattern with the number of
its occurrences. Then, each part with a title and only if it is not empty, the metadata, the threads, and the stitches in order:
index, name of the command, position, and in the longer layouts the displacement from the stitch before it. -/
theorem C70_rows (hn : n.Sound) (v : Version) (d : Doc)
    (ht : ∀ t ∈ d.threads, Plain (opt t.description) ∧ Plain (opt t.brand) ∧ Plain (opt t.catalog) ∧
      Plain (opt t.details) ∧ Plain (opt t.weight))
    (hx : ∀ p ∈ d.extras, Plain p.1 ∧ Plain p.2) :
    ∃ (box : List (List Str)) (keys : List Int), ExtentRows n d.stitches box ∧ keys.Nodup ∧ (∀ c : Int, c ∈ keys ↔ ∃ st ∈ d.stitches, st.low = c) ∧
      rows .startRecord [] [] (textMode (write n v d)) =
        [["#".toList, "[VAR_NAME]".toList, "[VAR_VALUE]".toList],
         [">".toList, "STITCH_COUNT:".toList, dec d.stitches.length],
         [">".toList, "THREAD_COUNT:".toList, dec (d.stitches.countP (fun st => st.low = 5) : Nat)],
         [">".toList, "NEEDLE_COUNT:".toList, dec (d.stitches.countP (fun st => st.low = 9) : Nat)]] ++ box ++
        keys.map (fun c => [">".toList, countName c, dec (d.stitches.countP (fun st => st.low = c) : Nat)]) ++ [[]] ++
        (if d.extras = [] then [] else ["#".toList, "[METADATA_NAME]".toList, "[METADATA]".toList] ::
          d.extras.map (fun p => ["@".toList, p.1, p.2]) ++ [[]]) ++
        (if d.threads = [] then [] else ["#".toList, "[THREAD_NUMBER]".toList, "[HEX_COLOR]".toList, "[DESCRIPTION]".toList,
            "[BRAND]".toList, "[CATALOG_NUMBER]".toList, "[DETAILS]".toList, "[WEIGHT]".toList] ::
          d.threads.mapIdx (fun i t => ["$".toList, dec i, hexColor t, opt t.description, opt t.brand, opt t.catalog,
            opt t.details, opt t.weight]) ++ [[]]) ++
        (if d.stitches = [] then [] else
          (["#".toList, "[STITCH_INDEX]".toList, "[STITCH_TYPE]".toList, "[X]".toList, "[Y]".toList] ++
            (match v with
              | .default => []
              | .delta => ["[DX]".toList, "[DY]".toList]
              | .full => ["[DX]".toList, "[DY]".toList, "[R]".toList, "[ANGLE]".toList])) ::
          d.stitches.mapIdx (fun i st =>
            let dx := st.x - (lastPos (d.stitches.take i)).1
            let dy := st.y - (lastPos (d.stitches.take i)).2
            ["*".toList, dec i, decodedName st.cmd, n.str st.x, n.str st.y] ++
            (match v with
              | .default => []
              | .delta => [n.str dx, n.str dy]
              | .full => [n.str dx, n.str dy, n.distance dx dy, n.angle dx dy]))) := by
  obtain ⟨cr, all⟩ := rows_write hn v d ht hx
  have hc := counts d.stitches
  generalize e : d.stitches.foldl (fun d st => addCount (cmdOf st.cmd) d) [] = cs at hc
  refine ⟨["EXTENTS_LEFT:", "EXTENTS_TOP:", "EXTENTS_RIGHT:", "EXTENTS_BOTTOM:", "EXTENTS_WIDTH:", "EXTENTS_HEIGHT:"].zipWith
    (fun k v => [">".toList, k.toList, v]) (extents n d.stitches), cs.map (·.1), ?_, hc.nodup, hc.keys, ?_⟩
  · unfold ExtentRows extents
    split_ifs with h
    · rw [h]; rfl
    · obtain ⟨b, hb, hin, h1, h2, h3, h4⟩ := C43_tight _ h
      rw [hb]
      exact ⟨b.minX, b.minY, b.maxX, b.maxY, fun st hst => ⟨(hin st hst).1, (hin st hst).2.1, (hin st hst).2.2.1, (hin st hst).2.2.2⟩,
        h1, h2, h3, h4, rfl⟩
  · have hm : cs.map (fun p => [">".toList, countName p.1, dec p.2]) =
        (cs.map (·.1)).map (fun c => [">".toList, countName c, dec (d.stitches.countP (fun st => st.low = c) : Nat)]) := by
      rw [List.map_map]
      refine List.map_congr_left (fun p hp => ?_)
      show _ = [">".toList, countName p.1, dec (d.stitches.countP (fun st => st.low = p.1) : Nat)]
      rw [hc.value p hp]
    have hc5 : ∀ c : Int, countCommands d.stitches c = d.stitches.countP (fun st => st.low = c) := fun c => rfl
    have hmeta : metaRows d.extras = ["#".toList, "[METADATA_NAME]".toList, "[METADATA]".toList] ::
      d.extras.map (fun p => ["@".toList, p.1, p.2]) := rfl
    have hthr : threadRows d.threads = ["#".toList, "[THREAD_NUMBER]".toList, "[HEX_COLOR]".toList, "[DESCRIPTION]".toList,
            "[BRAND]".toList, "[CATALOG_NUMBER]".toList, "[DETAILS]".toList, "[WEIGHT]".toList] ::
          d.threads.mapIdx (fun i t => ["$".toList, dec i, hexColor t, opt t.description, opt t.brand, opt t.catalog,
            opt t.details, opt t.weight]) := rfl
    rw [textMode_plain _ cr, all, hmeta, hthr, stitchTitle_eq, stitchRows_eq]
    unfold dataRows
    rw [e, hm, hc5, hc5]
    simp only [List.append_assoc, COLOR_CHANGE, NEEDLE_SET]
    congr 6

/-! ## Concrete cases -/

/-- One way of printing numbers that satisfies the assumption (Python's own is another). -/
def fractions : Num where
  str q := dec q.num ++ '/' :: dec q.den
  float s := match splitOn '/' s with
    | [a, b] => parseInt a >>= fun a => parseInt b >>= fun b => .ok ((a : ℚ) / b)
    | _ => .error .valueError
  distance _ _ := []
  angle _ _ := []

theorem fractions_sound : fractions.Sound where
  float_str q := by
    show (match splitOn '/' (dec q.num ++ '/' :: dec q.den) with
      | [a, b] => parseInt a >>= fun a => parseInt b >>= fun b => Except.ok ((a : ℚ) / b)
      | _ => .error .valueError) = _
    rw [splitOn_append _ _ _ (dec_ne (by decide) (by decide)), splitOn_plain _ _ (dec_ne (by decide) (by decide))]
    simp only [parseInt_dec]
    show Except.ok ((q.num : ℚ) / ((q.den : Int) : ℚ)) = _
    rw [Int.cast_natCast, Rat.num_div_den]
  str_plain q := (dec_plain q.num).append (Plain.append (a := ['/']) (by decide) (dec_plain q.den))
  distance_plain _ _ := ⟨List.not_mem_nil, List.not_mem_nil⟩
  angle_plain _ _ := ⟨List.not_mem_nil, List.not_mem_nil⟩

/-- A pattern with an order, a thread and metadata. -/
def demoDoc : Doc where
  stitches := [⟨0, 5 / 2, STITCH⟩, ⟨-3, 7, 0x1041205⟩, ⟨-3, 7, END⟩]
  threads := [{ color := 0xFF102030, description := some "red, dark", weight := some "40" }]
  extras := [("name".toList, "a\nb".toList), ("author".toList, [])]

example : (∀ st ∈ demoDoc.stitches, WordOK st.cmd) ∧ (∀ t ∈ demoDoc.threads, Plain (opt t.description) ∧ Plain (opt t.brand) ∧
    Plain (opt t.catalog) ∧ Plain (opt t.details) ∧ Plain (opt t.weight)) ∧ (∀ p ∈ demoDoc.extras, Plain p.1 ∧ Plain p.2) ∧
    (demoDoc.extras.map (·.1)).Nodup := by unfold WordOK; decide +kernel

/-- The writer does not double the quotes inside a value: a metadata text with a quote comes back changed. -/
theorem C70_quote_breaks : read fractions 0 (write fractions .default { extras := [("a".toList, "x\"y".toList)] }) =
    .ok { extras := [("a".toList, "xy\"".toList)] } := by decide +kernel

/-- A thread description with a quote and a comma is spread over two columns. -/
theorem C70_quote_shifts : (read fractions 0 (write fractions .default
      { threads := [{ color := 1, description := some "a\",b", brand := some "c", catalog := some "d" }] })).map (·.threads) =
    .ok [{ color := 1, description := some "a", brand := some "b\"", catalog := some "c" }] := by decide +kernel

end Csv
end Emb
