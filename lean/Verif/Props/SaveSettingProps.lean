import Verif.SaveSettings
import Verif.Props.PesProps
import Verif.Props.DstReadProps
import Verif.Props.CsvProps
import Verif.Props.CutFileProps
import Verif.Props.DstTrimProps

/-!
# Property C132: the settings of a writer choose the variant of the file, not the design

## Specification
-/

namespace Emb

open Dispatch (Dict get)

/-- The dictionary has this entry. -/
def Entry (s : Option (Dict Opt)) (k : String) (v : Opt) : Prop := ∃ d, s = some d ∧ get d k = some v

/-- No dictionary, or one without this entry. -/
def NoEntry (s : Option (Dict Opt)) (k : String) : Prop := ∀ d, s = some d → get d k = none

/-- Stitch by stitch the same place and the same command, except that a change of the thread (COLOR_CHANGE 5, NEEDLE_SET 9, COLOR_BREAK 0xE2) may be a stop (3) or the reverse. -/
def SameButStops (l l' : List Stitch) : Prop :=
  List.Forall₂ (fun a b => a.x = b.x ∧ a.y = b.y ∧ (a.low = b.low ∨ a.low ∈ [(3 : Int), 5, 9, 0xE2] ∧ b.low ∈ [(3 : Int), 5, 9, 0xE2])) l l'

/-! ## Proofs -/

theorem save_has {s : Option (Dict Opt)} {d : Dict Opt} (h : s = some d) (k : String) : NoEntry s k ∨ ∃ v, Entry s k v := by
  subst h
  rcases e : get d k with _ | v
  · exact .inl fun d' h => by injection h with h; rw [← h]; exact e
  · exact .inr ⟨v, d, rfl, e⟩

theorem flag_eq {d : Dict Opt} {k : String} : flag d k = true ↔ ∃ v, get d k = some v ∧ v.truthy = true := by
  unfold flag
  rcases get d k with _ | v <;> simp

theorem sameButStops_of {l a b : List Stitch} (h1 : List.Forall₂ Ops.Stopped l a) (h2 : List.Forall₂ Ops.Stopped l b) : SameButStops a b := by
  induction h1 generalizing b with
  | nil => cases h2; exact .nil
  | cons h t ih =>
    cases h2 with
    | cons h' t' =>
      refine .cons ?_ (ih t')
      have e : ∀ s : Stitch, (⟨s.x, s.y, 3⟩ : Stitch).low = 3 := fun _ => rfl
      rcases h with rfl | ⟨h, rfl⟩ <;> rcases h' with rfl | ⟨h', rfl⟩
      · exact ⟨rfl, rfl, .inl rfl⟩
      · refine ⟨rfl, rfl, .inr ⟨?_, by rw [e]; simp⟩⟩
        simp only [List.mem_cons, List.not_mem_nil, or_false]; omega
      · refine ⟨rfl, rfl, .inr ⟨by rw [e]; simp, ?_⟩⟩
        simp only [List.mem_cons, List.not_mem_nil, or_false]; omega
      · exact ⟨rfl, rfl, .inl rfl⟩

/-- **C132**, DST: the header is an extended one exactly if the version is `extended` or `extended header` is set. -/
theorem C132_dst_choice (s : Option (Dict Opt)) :
    Dst.extendedOf s = true ↔ Entry s "version" (.text "extended".toList) ∨ ∃ v, Entry s "extended header" v ∧ v.truthy = true := by
  rcases s with _ | d
  · simp [Dst.extendedOf, Entry]
  · unfold Dst.extendedOf Entry
    have e : ("default".toList : Str) ≠ "extended".toList := by decide
    rcases h : get d "version" with _ | v
    · simp only [Option.getD_none, Opt.text.injEq, e, if_false]
      simp [h, flag_eq]
    · simp only [h, Option.getD_some]
      by_cases hv : v = .text "extended".toList
      · rw [if_pos hv]
        simp only [true_iff]
        exact .inl ⟨d, rfl, by rw [h, hv]⟩
      · rw [if_neg hv, flag_eq]
        constructor
        · rintro ⟨w, h1, h2⟩; exact .inr ⟨w, ⟨d, rfl, h1⟩, h2⟩
        · rintro (⟨d', h1, h2⟩ | ⟨w, ⟨d', h1, h2⟩, h3⟩)
          · injection h1 with h1
            rw [← h1, h] at h2
            injection h2 with h2
            exact absurd h2 hv
          · injection h1 with h1
            rw [← h1] at h2
            exact ⟨w, h2, h3⟩

/-- **C132**, DST: with the same `trim_at`, all else in the settings does not change what is sewn: files whose headers fit into their 512 bytes are loaded as the same stitches. -/
theorem C132_dst {s s' : Option (Dict Opt)} {d : Doc} {f f' : Bytes} (ht : trimAtOf s = trimAtOf s') (h : Dst.save s d = some (.ok f)) (h' : Dst.save s' d = some (.ok f'))
    (hfit : ∀ x b last, bounds d.stitches = some b → d.stitches.getLast? = some last → (utf8 (Dst.headerText (Dst.docInfo x d b last))).length < 512) (st : LoadSettings) :
    Dst.load st f = Dst.load st f' := by
  have key : ∀ (s : Option (Dict Opt)) (f : Bytes), Dst.save s d = some (.ok f) → ∃ t, trimAtOf s = some t ∧ Dst.writeBody t d.stitches = .ok (f.drop 512) := by
    intro s f h
    unfold Dst.save at h
    obtain ⟨t, h1, h2⟩ := Option.map_eq_some_iff.1 h
    refine ⟨t, h1, ?_⟩
    unfold Dst.writeDoc at h2
    split at h2
    · rename_i b last hb hl
      cases hw : Dst.writeBody t d.stitches with
      | error e => rw [hw] at h2; cases h2
      | ok body =>
        rw [hw] at h2
        have h2 : Dst.header (Dst.docInfo (Dst.extendedOf s) d b last) ++ body = f := Except.ok.inj h2
        have := hfit (Dst.extendedOf s) b last hb hl
        rw [← h2, List.drop_left' (by rw [Dst.header_length]; omega)]
    · cases h2
  obtain ⟨t, h1, h2⟩ := key s f h
  obtain ⟨t', h3, h4⟩ := key s' f' h'
  rw [ht, h3] at h1
  have h1 := Option.some.inj h1
  subst h1
  have h4 := Except.ok.inj (h2.symm.trans h4)
  unfold Dst.load
  rw [h4]

/-- **C132**, CSV: the version decides, then `deltas`, then `displacement`. -/
theorem C132_csv_choice (s : Option (Dict Opt)) :
    (∀ v, Entry s "version" v → Csv.versionOf s = if v = .text "full".toList then .full else if v = .text "delta".toList then .delta else .default) ∧
    (∀ v, NoEntry s "version" → Entry s "deltas" v → Csv.versionOf s = .delta) ∧
    (∀ v, NoEntry s "version" → NoEntry s "deltas" → Entry s "displacement" v → Csv.versionOf s = .full) ∧
    (NoEntry s "version" → NoEntry s "deltas" → NoEntry s "displacement" → Csv.versionOf s = .default) := by
  refine ⟨?_, ?_, ?_, ?_⟩
  · rintro v ⟨d, rfl, h⟩
    simp only [Csv.versionOf, h, Option.getD_some]
  · rintro v h0 ⟨d, rfl, h⟩
    simp only [Csv.versionOf, h, h0 d rfl, Option.getD_none, Option.isSome_some, if_true]
    decide +kernel
  · rintro v h0 h1 ⟨d, rfl, h⟩
    simp only [Csv.versionOf, h, h0 d rfl, h1 d rfl, Option.getD_none, Option.isSome_some, Option.isSome_none, Bool.false_eq_true, if_false, if_true]
  · intro h0 h1 h2
    rcases s with _ | d
    · rfl
    · simp only [Csv.versionOf, h2 d rfl, h0 d rfl, h1 d rfl, Option.getD_none, Option.isSome_none, Bool.false_eq_true, if_false]
      decide +kernel

/-- **C132**, CSV: whatever the settings, the table is loaded as the design (with the texts of C70). -/
theorem C132_csv {n : Csv.Num} {rnd} (hn : n.Sound) (s : Option (Dict Opt)) (d : Doc) (hs : ∀ st ∈ d.stitches, Csv.WordOK st.cmd)
    (ht : ∀ t ∈ d.threads, Csv.Plain (Csv.opt t.description) ∧ Csv.Plain (Csv.opt t.brand) ∧ Csv.Plain (Csv.opt t.catalog) ∧ Csv.Plain (Csv.opt t.details) ∧ Csv.Plain (Csv.opt t.weight))
    (hx : ∀ p ∈ d.extras, Csv.Plain p.1 ∧ Csv.Plain p.2) (hk : (d.extras.map (·.1)).Nodup) :
    Csv.read n rnd (Csv.save n s d) = .ok { stitches := d.stitches, threads := d.threads.map Csv.threadSeen, extras := d.extras } :=
  Csv.C70_roundtrip_partial hn _ d hs ht hx hk

/-- **C132**, TXT: the short form is written if `mimic` is there, with whatever value, or a version other than `default`. -/
theorem C132_txt_choice (s : Option (Dict Opt)) (threads : List Thread) (filler : Nat → Thread) (l : List Stitch) :
    ((∃ v, Entry s "mimic" v) ∨ (∃ v, Entry s "version" v ∧ v ≠ .text "default".toList) → Txt.save s threads filler l = Txt.mimic 0 l) ∧
    (NoEntry s "mimic" → (∀ v, Entry s "version" v → v = .text "default".toList) → Txt.save s threads filler l = Txt.normal threads filler 1 (Txt.firstColor threads filler 0) l) := by
  unfold Txt.save Txt.write
  constructor
  · intro h
    rw [if_pos]
    rcases h with ⟨v, d, rfl, h⟩ | ⟨v, ⟨d, rfl, h⟩, hv⟩
    · simp only [Txt.mimicOf, h, Option.isSome_some, if_true, ite_self]
    · simp only [Txt.mimicOf, h, Option.getD_some]
      rw [if_pos hv]
  · intro h1 h2
    rw [if_neg]
    rcases s with _ | d
    · simp [Txt.mimicOf]
    · have h1 := h1 d rfl
      simp only [Txt.mimicOf, h1, Option.isSome_none, Bool.false_eq_true, if_false]
      rcases e : get d "version" with _ | v
      · simp
      · have := h2 v ⟨d, rfl, e⟩
        simp [this]

/-- **C132**, PES: `version` decides; without it the old name `pes version` is looked up, and without both it is 1. A text is read as a number, and a `t` at its end asks for the short form, as does
`truncated`. -/
theorem C132_pes_choice (float : Str → Except PyErr ℚ) (d : Dict Opt) (v : Opt)
    (hv : get d "version" = some v ∨ get d "version" = none ∧ get d "pes version" = some v ∨ get d "version" = none ∧ get d "pes version" = none ∧ v = .num 1) :
    (∀ q, v = .num q → Pes.versionOf float (some d) = .ok (q, flag d "truncated")) ∧
    (∀ t q, v = .text (t ++ ['t']) → float t = .ok q → Pes.versionOf float (some d) = .ok (q, true)) ∧
    (∀ t q, v = .text t → t.getLast? ≠ some 't' → float t = .ok q → Pes.versionOf float (some d) = .ok (q, flag d "truncated")) ∧
    (∀ t e, v = .text t → (∀ u, float u = .error e) → Pes.versionOf float (some d) = .error e) := by
  have h0 : (get d "version").getD ((get d "pes version").getD (.num 1)) = v := by
    rcases hv with h | ⟨h1, h2⟩ | ⟨h1, h2, rfl⟩
    · rw [h]; rfl
    · rw [h1, h2]; rfl
    · rw [h1, h2]; rfl
  unfold Pes.versionOf
  simp only [h0]
  refine ⟨?_, ?_, ?_, ?_⟩
  · rintro q rfl; rfl
  · rintro t q rfl h
    simp only [List.getLast?_append, List.getLast?_singleton, Option.some_or, if_true, List.dropLast_concat, h]
    rfl
  · rintro t q rfl h1 h
    simp only [if_neg h1, h]
    rfl
  · rintro t e rfl h
    simp only [h]
    split_ifs <;> rfl

/-- **C132**, PES: for a version other than 1 and 6 the file stays empty. -/
theorem C132_pes_other {float : Str → Except PyErr ℚ} {s : Option (Dict Opt)} {v : ℚ} {truncated : Bool} (h : Pes.versionOf float s = .ok (v, truncated)) (h1 : v ≠ 1) (h6 : v ≠ 6)
    (f32 : ℚ → Bytes) (order : List Thread → List Thread) (filler filler' fillerSeg : Nat → Thread) (texts : Pes.Texts) (threads : List Thread) (l : List Stitch) :
    Pes.save float f32 order filler filler' fillerSeg texts s threads l = .ok [] := by
  unfold Pes.save
  rw [h]
  show Pes.writeFile _ _ _ _ _ _ v truncated _ _ = _
  unfold Pes.writeFile
  simp only [h1, h6, if_false, ite_self]

open Blocks Ops Pec in
/-- **C132**, PES: whatever the settings, a file that is written for a version that there is can be loaded, and any two of them are loaded as the same stitches, except that colour changes of one may be
stops of the other (see C79 for that). -/
theorem C132_pes {o : Settings} {lm : Libm} {threads : List Thread} {source out : List Stitch} {ths : List (Option Thread)} (hlm : lm.Sound) (hv : o.ValidSequins) (hr : o.round = true)
    (h1 : o.maxStitch = some 2047) (h2 : o.maxJump = some 2047) (h3 : o.longStitch = 0xF1 ∨ o.longStitch = 0xF2) (hs : o.sequin ≠ 0xF5)
    (hq : ∀ st ∈ source, st.low ≠ 0xD5 ∧ st.low ≠ 0xD6 ∧ st.low ≠ 0xF0 ∧ st.low ≠ 0xF5)
    (h : encode o lm threads source = .ok (out, ths)) (f32 : ℚ → Bytes) (hf : ∀ q, (f32 q).length = 4)
    (order : List Thread → List Thread) (filler filler' fillerSeg : Nat → Thread) (texts : Pes.Texts) (T : List Thread)
    (hT : out.countP Blocks.isChange < (fixColorCount T filler out).length)
    (hlen : (fixColorCount T filler out).length + out.countP (fun a => a.low == 3) ≤ 255)
    (ho : IsSetOrder (order (prepare filler T out).2) (prepare filler T out).2) (hsz : (order (prepare filler T out).2).length ≤ 64)
    (htexts : Pes.PlainTexts texts) (hthr : ∀ t ∈ (prepare filler T out).2, Pes.PlainThread t)
    (hsec : 16 + (encodeSection (stopsAsChanges out)).length < 2 ^ 24) (float : Str → Except PyErr ℚ) {s s' : Option (Dict Opt)} {v v' : ℚ} {t t' : Bool}
    (hs1 : Pes.versionOf float s = .ok (v, t)) (hs2 : Pes.versionOf float s' = .ok (v', t')) (hv1 : v = 1 ∨ v = 6) (hv2 : v' = 1 ∨ v' = 6) :
    ∃ f f', Pes.save float f32 order filler filler' fillerSeg texts s T out = .ok f ∧ Pes.save float f32 order filler filler' fillerSeg texts s' T out = .ok f' ∧
      (f.length < 2 ^ 32 → f'.length < 2 ^ 32 → ∃ d d', Pes.readFile f = .ok d ∧ Pes.readFile f' = .ok d' ∧ SameButStops d.pec.stitches d'.pec.stitches) := by
  have hname : ∀ c ∈ (texts.name.getD "Untitled".toList).take 8, c.utf8Size = 1 := by
    cases hn : texts.name with
    | none => decide
    | some s =>
      intro c hc
      refine htexts.1 s hn c ?_
      have e : (s.take 255).take 8 = s.take 8 := by rw [List.take_take]; rfl
      exact List.mem_of_mem_take (e.symm ▸ hc)
  have key : ∀ (s : Option (Dict Opt)) (v : ℚ) (t : Bool), Pes.versionOf float s = .ok (v, t) → (v = 1 ∨ v = 6) →
      ∃ f, Pes.save float f32 order filler filler' fillerSeg texts s T out = .ok f ∧ (f.length < 2 ^ 32 →
        ∃ d, Pes.readFile f = .ok d ∧ List.Forall₂ Stopped (seen 0 0 true true (place 0 0 (deltas 0 0 (stopsAsChanges out)))) d.pec.stitches) := by
    intro s v t hsv hv'
    unfold Pes.save
    rw [hsv]
    show ∃ f, Pes.writeFile f32 order filler filler' fillerSeg texts v t T out = .ok f ∧ _
    rcases hv' with rfl | rfl
    · obtain ⟨f', d, g, hw, hrd, -, hst, -⟩ := C78_file_partial hlm hv hr h1 h2 h3 hs hq h order filler filler' texts.name T hT hlen ho hsz hname hsec
      obtain ⟨f, hf1, hf2⟩ := Pes.C79_version_1 f32 order filler filler' fillerSeg texts t T out f' hw
      refine ⟨f, hf1, fun hl => ⟨⟨some 1, [], d.stops⟩, ?_, ?_⟩⟩
      · rw [hf2 hl, hrd]; rfl
      · rw [← hst]; exact C49_only_changes _ _ _
    · obtain ⟨f, d, hw, hrd, -, hst, -⟩ := Pes.C79_version_6_partial hlm hv hr h1 h2 h3 hs hq h f32 hf order filler filler' fillerSeg texts t T hT hlen ho hsz htexts hthr hsec
      refine ⟨f, hw, fun hl => ⟨_, hrd hl, ?_⟩⟩
      rw [← hst]; exact C49_only_changes _ _ _
  obtain ⟨f, e1, e2⟩ := key s v t hs1 hv1
  obtain ⟨f', e3, e4⟩ := key s' v' t' hs2 hv2
  refine ⟨f, f', e1, e3, fun l1 l2 => ?_⟩
  obtain ⟨d, r1, q1⟩ := e2 l1
  obtain ⟨d', r2, q2⟩ := e4 l2
  exact ⟨d, d', r1, r2, sameButStops_of q1 q2⟩

/-- **C132**, JEF: trims are written only with `trims`, as `trim_at` jumps or else 3; without `trims` the number does not matter. -/
theorem C132_jef_choice (s : Option (Dict Opt)) (date : Bytes) (w h : Int) (threads : List Thread) (l : List Stitch) :
    ((NoEntry s "trims" ∨ ∃ v, Entry s "trims" v ∧ v.truthy = false) → Jef.save s date w h threads l = some (Jef.write none date w h threads l)) ∧
    (∀ v (n : Nat), Entry s "trims" v → v.truthy = true → Entry s "trim_at" (.num n) → Jef.save s date w h threads l = some (Jef.write (some n) date w h threads l)) ∧
    (∀ v, Entry s "trims" v → v.truthy = true → NoEntry s "trim_at" → Jef.save s date w h threads l = some (Jef.write (some 3) date w h threads l)) := by
  unfold Jef.save
  have key : ∀ d v, get d "trims" = some v → flag d "trims" = v.truthy := by
    intro d v h
    rw [flag, h]; rfl
  refine ⟨fun hs => ?_, ?_, ?_⟩
  · have : Jef.trimsOf s = some none := by
      rcases hs with hs | ⟨v, ⟨d, rfl, h1⟩, h2⟩
      · rcases s with _ | d
        · rfl
        · have : flag d "trims" = false := by rw [flag, hs d rfl]; rfl
          simp [Jef.trimsOf, this]
      · simp [Jef.trimsOf, key d v h1, h2]
    rw [this]; rfl
  · rintro v n ⟨d, rfl, h1⟩ h2 ⟨d', h3, h4⟩
    have h3 := Option.some.inj h3
    subst h3
    have : Jef.trimsOf (some d) = some (some n) := by
      simp [Jef.trimsOf, key d v h1, h2, trimAtOf, h4, Opt.whole]
    rw [this]; rfl
  · rintro v ⟨d, rfl, h1⟩ h2 h3
    have : Jef.trimsOf (some d) = some (some 3) := by
      simp [Jef.trimsOf, key d v h1, h2, trimAtOf, h3 d rfl]
    rw [this]; rfl

/-! ## Examples -/

/-- The digits `1` and `6`. -/
def oneOrSix (s : Str) : Except PyErr ℚ := if s = ['1'] then .ok 1 else if s = ['6'] then .ok 6 else .error .valueError

example : Dst.extendedOf (some [("version", .text "extended".toList)]) = true ∧ Dst.extendedOf (some [("extended header", .bool true)]) = true ∧ Dst.extendedOf (some [("version", .num 6)]) = false ∧
    Csv.versionOf (some [("deltas", .null), ("displacement", .bool true)]) = .delta ∧ Csv.versionOf (some [("deltas", .null), ("version", .text "full".toList)]) = .full ∧
    Pes.versionOf oneOrSix (some [("version", .text "6t".toList)]) = .ok (6, true) ∧ Pes.versionOf oneOrSix (some [("pes version", .num 6), ("version", .text "1".toList)]) = .ok (1, false) ∧
    Pes.versionOf oneOrSix (some [("pes version", .num 6), ("truncated", .bool true)]) = .ok (6, true) ∧ Txt.mimicOf (some [("mimic", .bool false)]) = true ∧
    Jef.trimsOf (some [("trim_at", .num 4)]) = some none ∧ Jef.trimsOf (some [("trim_at", .num 4), ("trims", .bool true)]) = some (some 4) := by decide +kernel

/-- The stitches a design is loaded with after it was saved as PES with the given settings. -/
def pesStitches (s : Option (Dict Opt)) : Option (List Stitch) :=
  ((Pes.save oneOrSix (fun _ => [0, 0, 0, 0]) List.dedup (fun _ => { color := 0 }) (fun _ => { color := 0 }) (fun _ => { color := 0 }) {} s Pes.pesThreads Pec.fileDemo) >>= Pes.readFile).toOption.map
    (fun d => d.pec.stitches)

-- the four kinds of file are loaded as the same stitches
example : (pesStitches none).isSome = true ∧ pesStitches (some [("version", .num 6)]) = pesStitches none ∧ pesStitches (some [("version", .text "6t".toList)]) = pesStitches none ∧
    pesStitches (some [("truncated", .bool true)]) = pesStitches none := by decide +kernel

end Emb
