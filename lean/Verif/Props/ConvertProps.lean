import Verif.Props.ResaveProps
import Verif.Props.SizeProps

/-!
# Converting a file into another format (C108)

Any file that one of the readers of whole units accepts, normalized for EXP, DST, JEF or XXX, written and read back, is sewn as before.
-/

namespace Emb

/-! ## Specification -/

/-- What the readers make: moves, colours, stops, trims, speeds, then END (4). -/
def Shaped (l : List Stitch) : Prop := ∃ m e, l = m ++ [e] ∧ e.low = 4 ∧ ∀ a ∈ m, a.low ∈ [(0 : Int), 1, 2, 3, 5, 6, 9, 11, 12]

/-- What the readers of formats in whole units make: moves, colours, stops, trims, speeds, then END (4), all at whole positions. -/
structure Tidy (l : List Stitch) : Prop where
  shape : Shaped l
  whole : ∀ a ∈ l, ∃ i j : Int, a.x = i ∧ a.y = j

/-- `l` are the commands a reader makes of the bytes `f`; the readers that loop are given enough rounds. -/
inductive Loaded (f : Bytes) : List Stitch → Prop
  | loop {read fuel l} : read ∈ [Readers.readKsm, Readers.readFxy, Readers.readGt, Readers.readNew, Readers.readZxy, Readers.readInb,
      Readers.read10o, Readers.readStc, Readers.readDat, Readers.readEmd, Readers.read100, Readers.readBro] →
      f.length < fuel → read fuel f = some (.ok l) → Loaded f l
  | header {read fuel d} {rnd : Nat → Int} : read ∈ [SmallFiles.readDsb, SmallFiles.readDsz, SmallFiles.readSew, SmallFiles.readZhs, SmallFiles.readJpx rnd] →
      f.length < fuel → read fuel f = some (.ok d) → Loaded f d.stitches
  | exp : Loaded f (Exp.read f)
  | stx {l} : Containers.readStx f = .ok l → Loaded f l
  | u01 : Loaded f (U01.read f)
  | pec {d} : Pec.readFile f = .ok d → Loaded f d.stitches
  | pes {d} : Pes.readFile f = .ok d → Loaded f d.pec.stitches
  | phb {d} : Containers.readPhb f = .ok d → Loaded f d.stitches
  | tbf {d} : Tbf.read f = .ok d → Loaded f d.stitches
  | xxx {c l} : Xxx.read f = .ok (c, l) → Loaded f l
  | jef {ta dist clip l T} : Jef.read ta dist clip f = .ok (l, T) → Loaded f l
  | dst {ta dist clip d} : Dst.readDoc ta dist clip f = .ok d → (∀ a ∈ d.stitches, a.low ≠ 7) → Loaded f d.stitches
  | tap {ta dist clip} : (∀ a ∈ Containers.readTap ta dist clip f, a.low ≠ 7) → Loaded f (Containers.readTap ta dist clip f)
  | exy {ta dist clip} : (∀ a ∈ Containers.readExy ta dist clip f, a.low ≠ 7) → Loaded f (Containers.readExy ta dist clip f)

/-- The stitches of a design, each with the number of COLOR_CHANGE (5) and NEEDLE_SET (9) commands before it. -/
def worn : Nat → List Stitch → List (Nat × Pt)
  | _, [] => []
  | n, a :: l =>
    if a.low = 5 ∨ a.low = 9 then worn (n + 1) l
    else if a.low = 0 then (n, (a.x, a.y)) :: worn n l
    else worn n l

/-- Every command moved to the nearest whole position (halves to the even one). -/
def gridded (l : List Stitch) : List Stitch := l.map (fun a => ⟨(pyRound a.x : ℚ), (pyRound a.y : ℚ), a.cmd⟩)

/-! ## What is read is tidy -/

namespace Convert

abbrev kinds : List Int := [0, 1, 2, 3, 5, 6, 9, 11, 12]

theorem whole_place (rs : List Rec) : ∀ a ∈ place 0 0 rs, ∃ i j : Int, a.x = i ∧ a.y = j := by
  have := SaveLoad.place_whole rs 0 0
  push_cast at this
  exact this

theorem tidy_place (rs : List Rec) (h : ∀ r ∈ rs, r.cmd % 256 ∈ kinds) : Tidy (place 0 0 (rs ++ [⟨0, 0, END⟩])) where
  shape := by
    rw [place_append]
    exact ⟨_, _, rfl, rfl, Dst.place_cmd (P := fun c => c % 256 ∈ kinds) _ h 0 0⟩
  whole := whole_place _

theorem plain_kinds {c : Int} (h : c ∈ Readers.plain) : c ∈ kinds := by
  simp [Readers.plain, kinds, STITCH, JUMP, TRIM, STOP, COLOR_CHANGE, NEEDLE_SET, FAST, SLOW] at h ⊢
  omega

theorem tidy_design {D : ℚ} {l : List Stitch} (h : Readers.Design Readers.plain D l) (hw : ∀ a ∈ l, ∃ i j : Int, a.x = i ∧ a.y = j) : Tidy l := by
  obtain ⟨m, e, rfl, he, hk, -⟩ := h
  exact ⟨⟨m, e, rfl, by show e.cmd % 256 = 4; rw [he]; rfl, fun a ha => plain_kinds (hk a ha)⟩, hw⟩

theorem finish_whole {r : Option (Except PyErr (List Rec))} {l : List Stitch} (h : Readers.finish r = some (.ok l)) :
    ∀ a ∈ l, ∃ i j : Int, a.x = i ∧ a.y = j := by
  unfold Readers.finish at h
  cases r with
  | none => simp at h
  | some e =>
    cases e with
    | error e => simp [Except.map] at h
    | ok l' =>
      simp only [Option.map_some, Except.map, Option.some.injEq, Except.ok.injEq] at h
      rw [← h]
      exact whole_place _

theorem tidy_accepts {D : ℚ} {read : Nat → Bytes → Option (Except PyErr (List Stitch))} (h : Readers.Accepts Readers.plain D read)
    (hfin : ∀ fuel f, ∃ r, read fuel f = Readers.finish r) {f : Bytes} (hf : ∀ v ∈ f, IsByte v) {fuel : Nat} {l : List Stitch} (hfu : f.length < fuel)
    (hr : read fuel f = some (.ok l)) : Tidy l := by
  obtain ⟨l', h1, -, h3⟩ := h f hf
  have := h3 fuel hfu
  rw [hr] at this
  injection this with this; injection this with this; subst this
  obtain ⟨r, e⟩ := hfin fuel f
  exact tidy_design h1 (finish_whole (e ▸ hr))

theorem tidy_loop {f : Bytes} (hf : ∀ v ∈ f, IsByte v) {read fuel l} (hm : read ∈ [Readers.readKsm, Readers.readFxy, Readers.readGt,
    Readers.readNew, Readers.readZxy, Readers.readInb, Readers.read10o, Readers.readStc, Readers.readDat, Readers.readEmd, Readers.read100, Readers.readBro])
    (hfu : f.length < fuel) (hr : read fuel f = some (.ok l)) : Tidy l := by
  simp only [List.mem_cons, List.not_mem_nil, or_false] at hm
  rcases hm with rfl | rfl | rfl | rfl | rfl | rfl | rfl | rfl | rfl | rfl | rfl | rfl
  · exact tidy_accepts Readers.C60_ksm (fun _ _ => ⟨_, rfl⟩) hf hfu hr
  · exact tidy_accepts Readers.C60_fxy (fun _ _ => ⟨_, rfl⟩) hf hfu hr
  · exact tidy_accepts Readers.C60_gt (fun _ _ => ⟨_, rfl⟩) hf hfu hr
  · exact tidy_accepts Readers.C60_new (fun _ _ => ⟨_, rfl⟩) hf hfu hr
  · have h := Readers.C60_zxy_partial f hf
    split_ifs at h with hlen
    · rw [h fuel] at hr; cases hr
    · obtain ⟨l', h1, -, h3⟩ := h
      have h3 := h3 fuel hfu
      rw [hr] at h3
      injection h3 with h3; injection h3 with h3; subst h3
      refine tidy_design h1 ?_
      unfold Readers.readZxy at hr
      split at hr
      · cases hr
      · exact finish_whole hr
  · exact tidy_accepts Readers.C60_inb (fun _ _ => ⟨_, rfl⟩) hf hfu hr
  · exact tidy_accepts Readers.C60_10o (fun _ _ => ⟨_, rfl⟩) hf hfu hr
  · exact tidy_accepts Readers.C60_stc (fun _ _ => ⟨_, rfl⟩) hf hfu hr
  · rcases Readers.C60_dat_partial f hf with ⟨l', h1, -, h3⟩ | h3
    · have h3 := h3 fuel hfu
      rw [hr] at h3
      injection h3 with h3; injection h3 with h3; subst h3
      refine tidy_design h1 ?_
      unfold Readers.readDat at hr
      split at hr
      · cases hr
      · cases hr
      · dsimp only at hr
        split at hr
        · exact finish_whole hr
        · exact finish_whole hr
    · rw [h3 fuel hfu] at hr; cases hr
  · exact tidy_accepts Readers.C60_emd (fun _ _ => ⟨_, rfl⟩) hf hfu hr
  · exact tidy_accepts Readers.C60_100 (fun _ _ => ⟨_, rfl⟩) hf hfu hr
  · rcases Readers.C60_bro_partial f hf with ⟨l', h1, -, h3⟩ | ⟨e, -, h3⟩
    · have h3 := h3 fuel hfu
      rw [hr] at h3
      injection h3 with h3; injection h3 with h3; subst h3
      exact tidy_design h1 (finish_whole hr)
    · rw [h3 fuel hfu] at hr; cases hr

theorem with_ok {h : Except PyErr Doc} {s : Option (Except PyErr (List Stitch))} {d : Doc} (e : SmallFiles.withStitches h s = some (.ok d)) :
    s = some (.ok d.stitches) := by
  unfold SmallFiles.withStitches at e
  cases h with
  | error x => simp at e
  | ok d0 =>
    cases s with
    | none => simp at e
    | some r =>
      cases r with
      | error x => simp [Except.map] at e
      | ok l => simp [Except.map] at e; rw [← e]

theorem tidy_header {f : Bytes} (hf : ∀ v ∈ f, IsByte v) {read fuel d} {rnd : Nat → Int} (hm : read ∈ [SmallFiles.readDsb, SmallFiles.readDsz,
    SmallFiles.readSew, SmallFiles.readZhs, SmallFiles.readJpx rnd]) (hfu : f.length < fuel) (hr : read fuel f = some (.ok d)) : Tidy d.stitches := by
  have hd : ∀ n, (f.drop n).length < fuel := fun n => by rw [List.length_drop]; omega
  simp only [List.mem_cons, List.not_mem_nil, or_false] at hm
  rcases hm with rfl | rfl | rfl | rfl | rfl
  · exact tidy_accepts Readers.C60_dsb (fun _ _ => ⟨_, rfl⟩) (Size.bytes_drop hf _) (hd _) (with_ok hr)
  · exact tidy_accepts Readers.C60_dsz (fun _ _ => ⟨_, rfl⟩) (Size.bytes_drop hf _) (hd _) (with_ok hr)
  · unfold SmallFiles.readSew at hr
    split at hr
    · cases hr
    · exact tidy_accepts Readers.C60_sew (fun _ _ => ⟨_, rfl⟩) (Size.bytes_drop hf _) (hd _) (with_ok hr)
  · unfold SmallFiles.readZhs at hr
    split at hr
    · rename_i start _ _ _ _ _
      have hr := with_ok hr
      obtain ⟨l', D, h1, -, h3⟩ := Readers.C60_zhs (f.drop start.toNat) (Size.bytes_drop hf _)
      have h3 := h3 fuel (hd _)
      rw [hr] at h3
      injection h3 with h3; injection h3 with h3; subst h3
      exact tidy_design h1 (finish_whole hr)
    · cases hr
  · unfold SmallFiles.readJpx at hr
    split at hr
    · exact tidy_accepts Readers.C60_jpx (fun _ _ => ⟨_, rfl⟩) (Size.bytes_drop hf _) (hd _) (with_ok hr)
    · cases hr

/-- Trims are added at whole positions too. -/
theorem edited_whole {p q : ℚ × ℚ} {l l' : List Stitch} (h : Edited p q l l') (hq : ∃ i j : Int, q.1 = i ∧ q.2 = j)
    (hl : ∀ a ∈ l, ∃ i j : Int, a.x = i ∧ a.y = j) : ∀ a ∈ l', ∃ i j : Int, a.x = i ∧ a.y = j := by
  induction h with
  | nil => intro a ha; simp at ha
  | keep x h ih =>
    intro a ha
    rcases List.mem_cons.1 ha with rfl | ha
    · exact hl _ (by simp)
    · exact ih (hl x (by simp)) (fun b hb => hl b (by simp [hb])) a ha
  | trim h ih =>
    intro a ha
    rcases List.mem_cons.1 ha with rfl | ha
    · exact hq
    · exact ih hq hl a ha
  | clip j run h1 h2 h3 h4 ih => exact ih hq (fun b hb => hl b (by simp [hb]))

theorem trims_whole (j : Option Int) (d : Option ℚ) (c : Bool) {l : List Stitch} (h : ∀ a ∈ l, ∃ i j : Int, a.x = i ∧ a.y = j) :
    ∀ a ∈ interpolateTrims j d c l, ∃ i j : Int, a.x = i ∧ a.y = j :=
  edited_whole (interpolateTrims_edited j d c l) ⟨0, 0, by norm_num, by norm_num⟩ h

theorem tidy_trims (j : Option Int) (d : Option ℚ) (c : Bool) {l : List Stitch} (h : Tidy l) : Tidy (interpolateTrims j d c l) := by
  refine ⟨?_, trims_whole j d c h.whole⟩
  obtain ⟨m, e, rfl, he, hm⟩ := h.shape
  refine ⟨_, e, Resave.trims_snoc j d c m e (by rw [he]; decide), he, fun a ha => ?_⟩
  rcases Resave.trims_mem (interpolateTrims_edited j d c m) a ha with h | h
  · exact hm a h
  · rw [h]; decide

theorem tidy_dst (ta : Int) (dist : Option ℚ) (clip : Bool) (b : Bytes) (h : ∀ a ∈ Dst.readBody ta dist clip b, a.low ≠ 7) :
    Tidy (Dst.readBody ta dist clip b) := by
  have hw : ∀ a ∈ Dst.readBody ta dist clip b, ∃ i j : Int, a.x = i ∧ a.y = j := trims_whole _ _ _ (whole_place _)
  obtain ⟨m, e, hl, he, hk, -⟩ := (Readers.design_of_few (by decide) (Readers.dst_few b false)).1
  refine ⟨?_, hw⟩
  rw [Dst.readBody, hl] at h ⊢
  have he : e.low = 4 := by show e.cmd % 256 = 4; rw [he]; rfl
  have hs := Resave.trims_snoc (some ta) (dist.map (· * 10)) clip m e (by rw [he]; decide)
  rw [hs] at h ⊢
  refine ⟨_, e, rfl, he, fun a ha => ?_⟩
  have h3 := h a (by simp [ha])
  rcases Resave.trims_mem (interpolateTrims_edited _ _ _ m) a ha with h1 | h1
  · have h2 := hk a h1
    simp [Readers.dstKinds, STITCH, JUMP, COLOR_CHANGE, SEQUIN_MODE, SEQUIN_EJECT] at h2 ⊢
    omega
  · rw [h1]; decide

theorem tidy_pec (f : Bytes) (hf : ∀ v ∈ f, IsByte v) : Tidy (Pec.readSection f) :=
  tidy_design (Readers.C60_pec f hf).1 (whole_place _)

theorem tidy_stopped {l m : List Stitch} (h : List.Forall₂ Ops.Stopped l m) (hl : Tidy l) : Tidy m := by
  obtain ⟨k, e, rfl, he, hk⟩ := hl.shape
  have hw := hl.whole
  obtain ⟨m', e', rfl, h1, h2⟩ : ∃ m' e', m = m' ++ [e'] ∧ List.Forall₂ Ops.Stopped k m' ∧ Ops.Stopped e e' := by
    have h2 := List.forall₂_reverse_iff.2 h
    rw [List.reverse_append] at h2
    cases hm : m.reverse with
    | nil => rw [hm] at h2; cases h2
    | cons b r =>
      rw [hm] at h2
      cases h2 with
      | cons h3 h4 =>
        refine ⟨r.reverse, b, by rw [← List.reverse_reverse m, hm, List.reverse_cons], ?_, h3⟩
        rw [← List.forall₂_reverse_iff, List.reverse_reverse]; exact h4
  have place : ∀ a b, Ops.Stopped a b → (∃ i j : Int, a.x = i ∧ a.y = j) → ∃ i j : Int, b.x = i ∧ b.y = j := by
    rintro a b (rfl | ⟨-, rfl⟩) h
    · exact h
    · exact h
  have all : ∀ (k m' : List Stitch), List.Forall₂ Ops.Stopped k m' → (∀ a ∈ k, a.low ∈ kinds) → (∀ a ∈ k, ∃ i j : Int, a.x = i ∧ a.y = j) →
      ∀ b ∈ m', b.low ∈ kinds ∧ ∃ i j : Int, b.x = i ∧ b.y = j := by
    intro k m' h
    induction h with
    | nil => intro _ _ b hb; simp at hb
    | @cons a b k m' h1 _ ih =>
      intro hk hw c hc
      rcases List.mem_cons.1 hc with rfl | hc
      · refine ⟨?_, place a _ h1 (hw a (by simp))⟩
        rcases h1 with rfl | ⟨-, rfl⟩
        · exact hk _ (by simp)
        · show (3 : Int) % 256 ∈ _; decide
      · exact ih (fun a ha => hk a (by simp [ha])) (fun a ha => hw a (by simp [ha])) c hc
  have hm := all k m' h1 hk (fun a ha => hw a (by simp [ha]))
  refine ⟨⟨m', e', rfl, ?_, fun a ha => (hm a ha).1⟩, fun a ha => ?_⟩
  · rcases h2 with rfl | ⟨h2, -⟩
    · exact he
    · rw [he] at h2; exact absurd h2 (by decide)
  · rcases List.mem_append.1 ha with ha | ha
    · exact (hm a ha).2
    · simp at ha; subst ha
      exact place e _ h2 (hw e (by simp))

theorem tidy_stops {d : Pec.Design} (h : Tidy d.stitches) : Tidy d.stops.stitches := by
  have hs : List.Forall₂ Ops.Stopped d.stitches d.stops.stitches := by
    have := Ops.dupLoop_stopped Thread.same d.stitches [] [] d.threads 0 true none .nil (by simp)
    exact this
  exact tidy_stopped hs h

/-- Every exception. -/
theorem Res.ok_of {α : Type} {E : List PyErr} {P : α → Prop} {r : Except PyErr α} {a : α} (h : Size.Res E P r) (e : r = .ok a) : P a := by
  rcases h with ⟨q, h, hq⟩ | ⟨x, -, h⟩
  · rw [e] at h; injection h with h; rw [h]; exact hq
  · rw [e] at h; cases h

theorem tidy_pattern {chart : List Thread} {f : Bytes} (hf : ∀ v ∈ f, IsByte v) {d : Pec.Design} (h : Pec.readPattern chart f = .ok d) : Tidy d.stitches := by
  have hr : ∀ x, Pec.read f = .ok x → ∃ p, x.stitches = Pec.readSection (f.drop p) := by
    intro x hx
    rw [Pec.read] at hx
    split at hx
    · dsimp only at hx
      split at hx
      · cases hx
      · injection hx with hx; rw [← hx]; exact ⟨_, rfl⟩
    · cases hx
  rw [Pec.readPattern] at h
  cases hx : Pec.read f with
  | error e => rw [hx] at h; cases h
  | ok x =>
    rw [hx] at h
    dsimp only at h
    split at h
    · cases h
    · injection h with h
      rw [← h]
      obtain ⟨p, e⟩ := hr x hx
      show Tidy x.stitches
      rw [e]
      exact tidy_pec _ (Size.bytes_drop hf _)

theorem map_ok {α β : Type} {g : α → β} {r : Except PyErr α} {b : β} (h : r.map g = .ok b) : ∃ a, r = .ok a ∧ g a = b := by
  cases r with
  | error e => cases h
  | ok a => injection h with h; exact ⟨a, rfl, h⟩

theorem bind_ok {α β : Type} {g : α → Except PyErr β} {r : Except PyErr α} {b : β} (h : r >>= g = .ok b) : ∃ a, r = .ok a ∧ g a = .ok b := by
  cases r with
  | error e => cases h
  | ok a => exact ⟨a, rfl, h⟩

theorem tidy_phb {f : Bytes} (hf : ∀ v ∈ f, IsByte v) {d : Pec.Design} (h : Containers.readPhb f = .ok d) : Tidy d.stitches := by
  rw [Containers.readPhb] at h
  split at h
  · cases h
  obtain ⟨l, -, h⟩ := bind_ok h
  split at h
  · cases h
  dsimp only at h
  split at h
  · cases h
  split at h
  · cases h
  split at h
  · cases h
  injection h with h
  rw [← h]
  exact tidy_stops (tidy_pec _ (Size.bytes_drop hf _))

theorem jef_kinds : ∀ (T : List (Option Nat)) (k : Nat) (b : Bytes) q, Jef.readRecs T k b = .ok q → ∀ r ∈ q.1, r.cmd % 256 ∈ kinds := by
  intro T k b
  fun_induction Jef.readRecs T k b <;> intro q hq
  all_goals first
    | (injection hq with hq; subst hq; simp; done)
    | (cases hq; done)
    | (obtain ⟨t, h1, h2⟩ := bind_ok hq
       injection h2 with h2; subst h2
       rename_i ih
       intro r hr
       rcases List.mem_cons.1 hr with rfl | hr
       · simp [STITCH, JUMP, STOP, COLOR_CHANGE]
       · exact ih t h1 r hr)

theorem xxx_kinds : ∀ (b : Bytes) q, Xxx.readRecs b = .ok q → ∀ r ∈ q.1, r.cmd % 256 ∈ kinds := by
  intro b
  fun_induction Xxx.readRecs b <;> intro q hq
  all_goals first
    | (injection hq with hq; subst hq; simp; done)
    | (cases hq; done)
    | (rename_i ih; exact ih q hq)
    | (obtain ⟨t, h1, h2⟩ := bind_ok hq
       injection h2 with h2; subst h2
       rename_i ih
       intro r hr
       rcases List.mem_cons.1 hr with rfl | hr
       · simp [STITCH, JUMP, TRIM, COLOR_CHANGE]
       · first
         | exact ih t h1 r hr
         | (rcases List.mem_append.1 hr with hr | hr
            · split at hr
              · simp at hr; subst hr; simp [JUMP]
              · simp at hr
            · exact ih t h1 r hr))

theorem tbf_kinds (order : Bytes) : ∀ (k : Nat) (b : Bytes) q, Tbf.readRecs order k b = .ok q → ∀ r ∈ q, r.cmd % 256 ∈ kinds := by
  intro k b
  fun_induction Tbf.readRecs order k b <;> intro q hq
  all_goals first
    | (injection hq with hq; subst hq; simp; done)
    | (cases hq; done)
    | (obtain ⟨t, h1, h2⟩ := bind_ok hq
       injection h2 with h2; subst h2
       rename_i ih
       intro r hr
       rcases List.mem_cons.1 hr with rfl | hr
       · try split
         all_goals first
           | (simp [STITCH, JUMP, TRIM, STOP]; done)
           | (show encodeThreadChange _ _ _ _ % 256 ∈ _; rw [encodeThreadChange_low _ (by decide) (by decide)]; decide)
           | (show (if _ then STOP else encodeThreadChange _ _ _ _) % 256 ∈ _
              split
              · decide
              · rw [encodeThreadChange_low _ (by decide) (by decide)]; decide)
       · exact ih t h1 r hr)

/-! ## Same stitches -/

theorem strikes_cons (a : Stitch) (l : List Stitch) : strikes (a :: l) = (if a.low = 0 then [(a.x, a.y)] else []) ++ strikes l := by
  unfold strikes
  by_cases h : a.low = 0 <;> simp [h]

theorem strikes_shaded (l : List Stitch) : ∀ n, (shadedFrom n l).map Prod.snd = strikes l := by
  induction l with
  | nil => intro n; rfl
  | cons a l ih =>
    intro n
    have e := strikes_cons a l
    rw [shadedFrom, e]
    by_cases h5 : a.low = 5
    · rw [if_pos h5, ih, if_neg (by omega)]; rfl
    · rw [if_neg h5]
      split_ifs with h0
      · rw [List.map_cons, ih]; rfl
      · rw [ih]; rfl

theorem strikes_worn (l : List Stitch) : ∀ n, (worn n l).map Prod.snd = strikes l := by
  induction l with
  | nil => intro n; rfl
  | cons a l ih =>
    intro n
    have e := strikes_cons a l
    rw [worn, e]
    by_cases h5 : a.low = 5 ∨ a.low = 9
    · rw [if_pos h5, ih, if_neg (by omega)]; rfl
    · rw [if_neg h5]
      split_ifs with h0
      · rw [List.map_cons, ih]; rfl
      · rw [ih]; rfl

theorem strikes_settled (w : List (Nat × Pt)) : (settled w).map Prod.snd = w.map Prod.snd := by
  unfold settled
  cases w with
  | nil => rfl
  | cons p w =>
    dsimp only
    split_ifs
    · rfl
    · rw [List.map_map]; rfl

theorem worn_shift (l : List Stitch) : ∀ n, worn (n + 1) l = (worn n l).map (fun p => (p.1 + 1, p.2)) := by
  induction l with
  | nil => intro n; rfl
  | cons a l ih =>
    intro n
    rw [worn, worn]
    split_ifs
    · exact ih _
    · rw [List.map_cons, ih]
    · exact ih _

variable {f : Pt → Pt}

theorem sewn_running (hf : ∀ p, f p = p) (e : Stitch) (he : e.low = 4) (m : List Stitch) (hm : ∀ a ∈ m, a.low ∈ kinds)
    (hw : ∀ a ∈ m, ∃ i j : Int, a.x = i ∧ a.y = j) : ∀ n, sewnIn true f (n + 1) (m ++ [e]) = worn n (m ++ [e]) := by
  induction m with
  | nil => intro n; simp [sewnIn, worn, he]
  | cons a m ih =>
    intro n
    have ih := ih (fun b hb => hm b (by simp [hb])) (fun b hb => hw b (by simp [hb]))
    have ha := hm a (by simp)
    obtain ⟨i, j, hi, hj⟩ := hw a (by simp)
    rw [List.cons_append, sewnIn, worn]
    simp only [List.mem_cons, List.not_mem_nil, or_false] at ha
    rcases ha with h | h | h | h | h | h | h | h | h
    · have e1 : begun (n + 1) a (m ++ [e]) = n + 1 := by simp [begun, h]
      rw [e1, ih]
      simp [h, hf, hi, hj]
    all_goals
      first
      | (have e1 : begun (n + 1) a (m ++ [e]) = n + 1 + 1 := by simp [begun, h]
         rw [e1, ih]; simp [h]; done)
      | (have e1 : begun (n + 1) a (m ++ [e]) = n + 1 := by simp [begun, h]
         rw [e1, ih]; simp [h]; done)

theorem sewn_settled (hf : ∀ p, f p = p) (e : Stitch) (he : e.low = 4) (m : List Stitch) (hm : ∀ a ∈ m, a.low ∈ kinds)
    (hw : ∀ a ∈ m, ∃ i j : Int, a.x = i ∧ a.y = j) : sewnIn true f 0 (m ++ [e]) = settled (worn 0 (m ++ [e])) := by
  induction m with
  | nil => simp [sewnIn, worn, he, settled]
  | cons a m ih =>
    have hm' : ∀ b ∈ m, b.low ∈ kinds := fun b hb => hm b (by simp [hb])
    have hw' : ∀ b ∈ m, ∃ i j : Int, b.x = i ∧ b.y = j := fun b hb => hw b (by simp [hb])
    have run := sewn_running hf e he m hm' hw'
    have ih := ih hm' hw'
    have ha := hm a (by simp)
    obtain ⟨i, j, hi, hj⟩ := hw a (by simp)
    rw [List.cons_append, sewnIn, worn]
    have hset : settled (worn (0 + 1) (m ++ [e])) = worn 0 (m ++ [e]) := by
      rw [worn_shift]
      cases worn 0 (m ++ [e]) with
      | nil => rfl
      | cons p w =>
        rw [List.map_cons, settled, if_neg (by simp), List.map_cons, List.map_map]
        have : ((fun p : Nat × Pt => (p.1 - 1, p.2)) ∘ fun p => (p.1 + 1, p.2)) = id := rfl
        rw [this]; simp
    simp only [List.mem_cons, List.not_mem_nil, or_false] at ha
    rcases ha with h | h | h | h | h | h | h | h | h
    · have e1 : begun 0 a (m ++ [e]) = 0 + 1 := by simp [begun, h]
      rw [e1, run]
      simp [h, hf, hi, hj, settled]
    all_goals
      first
      | (have e1 : begun 0 a (m ++ [e]) = 0 + 1 := by simp [begun, h]
         rw [e1, run, if_neg (by rw [h]; decide), if_neg (by rw [h]; decide), if_pos (by rw [h]; decide), hset]; rfl)
      | (have e1 : begun 0 a (m ++ [e]) = 0 := by simp [begun, h]
         rw [e1, ih]; simp [h]; done)

theorem tidy_gridded {l : List Stitch} (hl : Shaped l) : Tidy (gridded l) := by
  obtain ⟨m, e, rfl, he, hm⟩ := hl
  refine ⟨⟨gridded m, ⟨(pyRound e.x : ℚ), (pyRound e.y : ℚ), e.cmd⟩, by simp [gridded], he, ?_⟩, ?_⟩
  · intro a ha
    obtain ⟨b, hb, rfl⟩ := List.mem_map.1 ha
    exact hm b hb
  · intro a ha
    obtain ⟨b, hb, rfl⟩ := List.mem_map.1 ha
    exact ⟨_, _, rfl, rfl⟩

theorem gridded_whole {l : List Stitch} (hl : ∀ a ∈ l, ∃ i j : Int, a.x = i ∧ a.y = j) : gridded l = l := by
  unfold gridded
  conv_rhs => rw [← List.map_id l]
  refine List.map_congr_left fun a ha => ?_
  obtain ⟨i, j, hi, hj⟩ := hl a ha
  rcases a with ⟨x, y, c⟩
  dsimp only at hi hj
  rw [hi, hj]
  simp

theorem sewnAhead_gridded (l : List Stitch) : sewnAhead (gridded l) = sewnAhead l := by
  unfold sewnAhead gridded
  rw [List.takeWhile_map, List.any_map]
  rfl

theorem sewn_gridded (hf : ∀ p, f p = p) (l : List Stitch) : ∀ k, sewnIn true f k (gridded l) = sewnIn true f k l := by
  induction l with
  | nil => intro k; rfl
  | cons a l ih =>
    intro k
    have e : gridded (a :: l) = ⟨(pyRound a.x : ℚ), (pyRound a.y : ℚ), a.cmd⟩ :: gridded l := rfl
    have e1 : begun k ⟨(pyRound a.x : ℚ), (pyRound a.y : ℚ), a.cmd⟩ (gridded l) = begun k a l := by
      unfold begun
      rw [sewnAhead_gridded]; rfl
    rw [e, sewnIn, sewnIn, e1, ih]
    simp only [hf, Stitch.low]
    simp

theorem low_of {l : List Stitch} (hl : Shaped l) : ∀ st ∈ l, st.low ∈ [(0 : Int), 1, 2, 3, 4, 5, 6, 9, 11, 12] := by
  obtain ⟨m, e, rfl, he, hm⟩ := hl
  intro a ha
  rcases List.mem_append.1 ha with ha | ha
  · have := hm a ha
    simp only [List.mem_cons, List.not_mem_nil, or_false] at this ⊢
    omega
  · simp at ha; subst ha; rw [he]; decide

/-- What is written is sewn as the source is. -/
theorem core {o : Settings} {lm : Libm} {M : ℚ} {l l' : List Stitch} (hs : Saving o lm M) (hl : Shaped l)
    (h : List.Forall₂ OnGrid (walkShaded lm true 0 (o.head lm) l.getLast? l) (shadedFrom 0 l')) :
    shadedFrom 0 l' = settled (worn 0 (gridded l)) := by
  have hg := tidy_gridded hl
  obtain ⟨m, e, rfl, he, hm⟩ := hl
  rw [C94_exact (A := m) (E := [e]) hs.ties ?_ (by simpa using he) h]
  · rw [← sewn_gridded hs.place]
    obtain ⟨m', e', h1, h2, h3⟩ := hg.shape
    have hw := hg.whole
    rw [h1] at hw ⊢
    exact sewn_settled hs.place e' h2 m' h3 (fun a ha => hw a (by simp [ha]))
  · intro st hst
    have := hm st hst
    simp only [List.mem_cons, List.not_mem_nil, or_false] at this
    refine ⟨?_, ?_⟩
    · simp only [List.mem_cons, List.not_mem_nil, or_false]; omega
    · intro h; omega

theorem written {o : Settings} {lm : Libm} {M : ℚ} {l out : List Stitch} {threads : List Thread} {ths : List (Option Thread)} (hs : Saving o lm M)
    (hl : Shaped l) (h : encode o lm threads l = .ok (out, ths)) : strikes (place 0 0 (deltas 0 0 out)) = strikes (gridded l) := by
  have hw := C94_written hs.sequins hs.change h
  rw [hs.round] at hw
  rw [← strikes_shaded _ 0, core hs hl hw, strikes_settled, strikes_worn]

theorem strikes_view {g : Int → Option Int} (l : List Stitch)
    (h : ∀ a ∈ l, match g a.cmd with | none => a.low ≠ 0 | some c => c % 256 = 0 ↔ a.low = 0) : strikes (view g l) = strikes l := by
  induction l with
  | nil => rfl
  | cons a l ih =>
    have h1 := h a (by simp)
    have ih := ih (fun b hb => h b (by simp [hb]))
    have e := strikes_cons
    unfold view at ih ⊢
    rw [List.filterMap_cons, e]
    cases hg : g a.cmd with
    | none =>
      rw [hg] at h1
      rw [Option.map_none, if_neg h1]
      exact ih
    | some c =>
      rw [hg] at h1
      rw [Option.map_some, e, ih]
      have e0 : (⟨a.x, a.y, c⟩ : Stitch).low = 0 ↔ a.low = 0 := h1
      simp only [e0]

theorem strikes_dst (l : List Stitch) : strikes (Dst.sewn l) = strikes l := by
  induction l with
  | nil => rfl
  | cons a l ih =>
    unfold Dst.sewn at ih ⊢
    rw [List.filterMap_cons, strikes_cons a]
    by_cases h1 : a.low = 0 ∨ a.low = 7
    · have e : (⟨a.x, a.y, a.low⟩ : Stitch).low = a.low := by show a.cmd % 256 % 256 = a.cmd % 256; omega
      rw [if_pos h1]
      dsimp only
      rw [strikes_cons, ih, e]
    · rw [if_neg h1, if_neg (by omega : ¬ a.low = 0)]
      by_cases h2 : a.low = 5 ∨ a.low = 3
      · rw [if_pos h2]
        dsimp only
        rw [strikes_cons, ih, if_neg (by show ¬ (5 : Int) % 256 = 0; decide)]
      · rw [if_neg h2]
        exact ih

theorem strikes_edited {p q : ℚ × ℚ} {l l' : List Stitch} (h : Edited p q l l') : strikes l' = strikes l := by
  have e := strikes_cons
  induction h with
  | nil => rfl
  | keep x h ih => rw [e, e, ih]
  | @trim p q l l' h ih => rw [e, ih, if_neg (by show ¬ (2 : Int) % 256 = 0; decide)]; rfl
  | clip j run h1 h2 h3 h4 ih =>
    rw [ih, Strike.strikes_append]
    have : strikes (j :: run) = [] := by
      rw [e, if_neg (by rw [h1]; decide)]
      unfold strikes
      rw [List.filter_eq_nil_iff.2 (fun b hb => by simpa using (h2 b hb).1)]; rfl
    rw [this]; rfl

theorem strikes_seen (n : Nat) (l : List Stitch) (h : ∀ a ∈ l, a.cmd = a.low) : ∀ t, strikes (Jef.seen n t l) = strikes l := by
  induction l with
  | nil => intro t; rfl
  | cons a l ih =>
    intro t
    have ha := h a (by simp)
    have ih := ih (fun b hb => h b (by simp [hb]))
    rw [Jef.seen, strikes_cons a]
    by_cases c0 : a.cmd = 0 ∨ a.cmd = 1 ∨ a.cmd = 4
    · rw [if_pos c0, strikes_cons, ih]
    · have h0 : ¬ a.low = 0 := by omega
      rw [if_neg c0, if_neg h0]
      split_ifs
      · rw [Strike.strikes_append, ih]
        congr 1
        unfold strikes
        rw [List.filter_eq_nil_iff.2 (fun b hb => by rw [List.eq_of_mem_replicate hb]; show ¬ (((1 : Int) % 256 == 0) = true); decide)]; rfl
      · rw [strikes_cons, ih, if_neg (by show ¬ (5 : Int) % 256 = 0; decide)]
      · rw [strikes_cons, ih, if_neg (by show ¬ (5 : Int) % 256 = 0; decide)]
      · rw [strikes_cons, ih, if_neg (by show ¬ (3 : Int) % 256 = 0; decide)]
      · rw [ih]; rfl

theorem tidy_exp (f : Bytes) : Tidy (Exp.read f) := by
  refine tidy_place _ fun r hr => ?_
  have := Resave.exp_kinds f r hr
  simp only [List.mem_cons, List.not_mem_nil, or_false] at this ⊢
  omega

theorem tidy_xxx {f : Bytes} {c : List Int} {l : List Stitch} (h : Xxx.read f = .ok (c, l)) : Tidy l := by
  rw [Xxx.read] at h
  obtain ⟨t, h1, h2⟩ := bind_ok h
  split at h2
  · cases h2
  · injection h2 with h2; injection h2 with h2 h3
    rw [← h3]
    exact tidy_place _ (xxx_kinds _ _ h1)

theorem tidy_jef {ta : Option Int} {dist : Option ℚ} {clip : Bool} {f : Bytes} {l : List Stitch} {T : List (Option Nat)}
    (h : Jef.read ta dist clip f = .ok (l, T)) : Tidy l := by
  rw [Jef.read] at h
  obtain ⟨q, h1, h2⟩ := bind_ok h
  injection h2 with h2; injection h2 with h2 h3
  rw [← h2]
  refine tidy_trims _ _ _ ?_
  rw [Jef.readPlain] at h1
  split at h1
  · obtain ⟨T', -, h1⟩ := bind_ok h1
    obtain ⟨q', h4, h5⟩ := bind_ok h1
    injection h5 with h5
    rw [← h5]
    exact tidy_place _ (jef_kinds _ _ _ _ h4)
  · cases h1

end Convert

/-- **C108**: what any of the readers makes of any bytes can be converted. -/
theorem C108_readable {f : Bytes} {l : List Stitch} (hf : ∀ v ∈ f, IsByte v) (h : Loaded f l) : Tidy l := by
  cases h with
  | loop hm hfu hr => exact Convert.tidy_loop hf hm hfu hr
  | header hm hfu hr => exact Convert.tidy_header hf hm hfu hr
  | exp => exact Convert.tidy_exp f
  | stx h =>
    rw [Containers.readStx] at h
    split at h
    · cases h
    · injection h with h; rw [← h]; exact Convert.tidy_exp _
  | u01 => exact Convert.tidy_design (Readers.C60_u01 f hf).1 (Convert.whole_place _)
  | pec h =>
    obtain ⟨d, h1, rfl⟩ := Convert.map_ok h
    exact Convert.tidy_stops (Convert.tidy_pattern (Size.bytes_drop hf _) h1)
  | pes h =>
    rw [Pes.readFile] at h
    split at h
    · obtain ⟨d, h1, rfl⟩ := Convert.map_ok h
      exact Convert.tidy_stops (Convert.tidy_pattern (Size.bytes_drop hf _) h1)
    · dsimp only at h
      obtain ⟨v, -, h⟩ := Convert.bind_ok h
      split at h
      · cases h
      · obtain ⟨d, h1, rfl⟩ := Convert.map_ok h
        exact Convert.tidy_stops (Convert.tidy_pattern (Size.bytes_drop hf _) h1)
  | phb h => exact Convert.tidy_phb hf h
  | tbf h =>
    rw [Tbf.read] at h
    split at h
    · cases h
    · obtain ⟨rs, h1, h2⟩ := Convert.bind_ok h
      injection h2 with h2
      rw [← h2]
      exact Convert.tidy_place _ (Convert.tbf_kinds _ _ _ _ h1)
  | xxx h => exact Convert.tidy_xxx h
  | jef h => exact Convert.tidy_jef h
  | dst h h7 =>
    rw [Dst.readDoc] at h
    obtain ⟨d, h1, h2⟩ := Convert.bind_ok h
    injection h2 with h2
    subst h2
    exact Convert.tidy_dst _ _ _ _ h7
  | tap h7 => exact Convert.tidy_dst _ _ _ _ h7
  | exy h7 => exact Convert.tidy_dst _ _ _ _ h7

theorem Convert.shaped_placed {D : ℚ} {l : List Stitch} (h : Readers.Placed D l) : Shaped l := by
  obtain ⟨m, e, rfl, he, -, -, hk⟩ := h
  refine ⟨m, e, rfl, by show e.cmd % 256 = 4; rw [he]; rfl, fun a ha => ?_⟩
  show a.cmd % 256 ∈ _
  rcases (hk a ha).1 with h | h | h <;> rw [h] <;> decide

/-- **C108**: what the readers of PCD (PCQ, PCS), PCM and MAX make of the stitches in any bytes can be converted as well; their units are not the grid's. -/
theorem C108_readable_fine {f : Bytes} {l : List Stitch} {fuel : Nat} (hf : ∀ v ∈ f, IsByte v) (hfu : f.length < fuel)
    (h : Readers.readPcdBody fuel f = some (.ok l) ∨ Readers.readPcmBody fuel f = some (.ok l) ∨ Readers.readMax fuel f = some (.ok l)) : Shaped l := by
  have same : ∀ {r : Option (Except PyErr (List Stitch))} {l' : List Stitch}, r = some (.ok l) → r = some (.ok l') → l' = l := by
    intro r l' h1 h2
    rw [h1] at h2; injection h2 with h2; injection h2 with h2; exact h2.symm
  rcases h with h | h | h
  · obtain ⟨l', h1, -, h3⟩ := Readers.C60_pcd f hf
    rw [← same h (h3 fuel hfu)]
    exact Convert.shaped_placed h1
  · obtain ⟨l', h1, -, h3⟩ := Readers.C60_pcm f hf
    rw [← same h (h3 fuel hfu)]
    exact Convert.shaped_placed h1
  · rcases Readers.C60_max_partial f hf with ⟨l', h1, -, h3⟩ | h3
    · rw [← same h (h3 fuel hfu)]
      exact Convert.shaped_placed h1
    · rw [h3 fuel hfu] at h; cases h

/-- `l'` is `l` saved in another format and loaded again: EXP, DST (any header and reader's settings; no FAST or SLOW, which DST does not
hold), JEF (no colour change comes first) or XXX (no stitch is exactly 124 units long along an axis, see C15). -/
inductive Converted : List Stitch → List Stitch → Prop
  | exp {o lm threads ths l out} : Saving o lm 127 → o.sequin ≠ 0xF5 → encode o lm threads l = .ok (out, ths) → Converted l (Exp.read (Exp.write out))
  | dst {o lm threads ths l out t b} {header : Bytes} {ta : Int} {dist : Option ℚ} {clipping : Bool} : Saving o lm 121 →
      encode o lm threads l = .ok (out, ths) → (∀ a ∈ l, a.low ≠ 11 ∧ a.low ≠ 12) → Dst.writeBody t out = .ok b → header.length = 512 →
      Converted l (Dst.read ta dist clipping (header ++ b))
  | jef {o lm threads ths l l' out T f} {trimAt : Option Nat} {date : Bytes} {hoop : Int × Int} {ts : List Thread} {ta : Option Int}
      {dist : Option ℚ} {clipping : Bool} : Saving o lm 127 → o.sequin ≠ 0xF5 → encode o lm threads l = .ok (out, ths) →
      (∀ a, out.head? = some a → a.low ≠ 5) → date.length = 14 → Jef.write trimAt date hoop.1 hoop.2 ts out = .ok f → out.length < 2 ^ 28 →
      Jef.read ta dist clipping f = .ok (l', T) → Converted l l'
  | xxx {o lm threads ths l l' out f colours} {ts : List Thread} : Saving o lm 124 → o.sequin ≠ 0xF5 → encode o lm threads l = .ok (out, ths) →
      ts.length < 65536 → (∀ r ∈ deltas 0 0 out, r.cmd = 0 → |r.dx| < 124 ∧ |r.dy| < 124) → Xxx.write ts out = .ok f →
      Xxx.read f = .ok (colours, l') → Converted l l'

namespace Convert

theorem step {l l' : List Stitch} (hl : Shaped l) (h : Converted l l') : strikes l' = strikes (gridded l) ∧ Tidy l' ∧
    ((∀ a ∈ l, a.low ≠ 3) → shadedFrom 0 l' = settled (worn 0 (gridded l))) := by
  have hlow := low_of hl
  have hq : ∀ st ∈ l, st.low ≠ 0xD5 ∧ st.low ≠ 0xD6 ∧ st.low ≠ 0xF0 ∧ st.low ≠ 0xF5 := by
    intro st h
    have := hlow st h
    simp only [List.mem_cons, List.not_mem_nil, or_false] at this
    omega
  have hp : (∀ a ∈ l, a.low ≠ 3) → ∀ st ∈ l, st.low ≠ 3 ∧ st.low ≠ 0xE9 := by
    intro h3 st h
    have := hlow st h
    simp only [List.mem_cons, List.not_mem_nil, or_false] at this
    exact ⟨h3 st h, by omega⟩
  cases h with
  | @exp o lm threads ths _ out hs hm he =>
    refine ⟨?_, tidy_exp _, fun h3 => core hs hl (C94_exp hs.libm hs.sequins hs.round hs.stitch hs.jump (.inl hs.long) hs.change hm hq (hp h3) he)⟩
    rw [Exp.C08_roundtrip hs.libm hs.sequins hs.round hs.stitch hs.jump (.inl hs.long) (by rw [hs.change]; decide) hm hq he]
    rw [strikes_view, written hs hl he]
    intro a ha
    have hw := (SaveLoad.written_low (P := fun _ => True) (l := out) (fun _ _ => trivial) a ha).2
    have hr : 0 ≤ a.low ∧ a.low < 256 := by unfold Stitch.low; omega
    rw [hw]
    unfold Exp.shows
    split_ifs <;> dsimp only <;> omega
  | @dst o lm threads ths _ out t b header ta dist clipping hs he hfast hb hh =>
    have hq2 : ∀ st ∈ l, st.low ≠ 0xD5 ∧ st.low ≠ 0xD6 ∧ st.low ≠ 0xF0 ∧ st.low ≠ 11 ∧ st.low ≠ 12 :=
      fun st h => ⟨(hq st h).1, (hq st h).2.1, (hq st h).2.2.1, hfast st h⟩
    obtain ⟨b2, hw2, hrd⟩ := Dst.C06_roundtrip_partial hs.libm hs.sequins hs.round hs.stitch hs.jump (.inl hs.long) (by rw [hs.change]; decide) hq2 he t
    rw [hb] at hw2
    injection hw2 with hw2; subst hw2
    have hrd := hrd header hh ta dist clipping
    refine ⟨?_, tidy_dst _ _ _ _ ?_, fun h3 => ?_⟩
    · rw [← strikes_dst, hrd, strikes_dst, written hs hl he]
    · intro a ha h7
      have h1 := Resave.dst_sewn_mem ha h7
      change _ ∈ Dst.sewn (Dst.read ta dist clipping (header ++ b)) at h1
      rw [hrd] at h1
      obtain ⟨c, hc, hc7⟩ := Resave.dst_mem_sewn h1 rfl
      obtain ⟨c', hc', e⟩ : ∃ c' ∈ out, c'.low = c.low := by
        have := (SaveLoad.written_low (l := out) (P := fun k => ∃ c' ∈ out, c'.low = k) (fun a ha => ⟨a, ha, rfl⟩) c hc).1
        exact this
      obtain ⟨st, hst, h7'⟩ := C21_ejects hs.sequins he c' hc' (by rw [e, hc7])
      have := hlow st hst
      rw [h7'] at this
      revert this; decide
    · obtain ⟨b1, hw1, hg⟩ := C94_dst hs.libm hs.sequins hs.round hs.stitch hs.jump (.inl hs.long) hs.change hq2 (hp h3) he t
      rw [hb] at hw1
      injection hw1 with hw1; subst hw1
      exact core hs hl (hg header hh ta dist clipping)
  | @jef o lm threads ths _ _ out T f trimAt date hoop ts ta dist clipping hs hm he hf hd hw hsz hrd =>
    refine ⟨?_, tidy_jef hrd, fun h3 => ?_⟩
    · obtain ⟨T3, h3, -, -⟩ := Jef.C09_roundtrip_partial hs.libm hs.sequins hs.round hs.stitch hs.jump (.inl hs.long) (by rw [hs.change]; decide)
        hm hq he hd hw hf hsz
      unfold Jef.read at hrd
      rw [h3] at hrd
      injection hrd with hrd; injection hrd with hrd hrd'
      rw [← hrd, strikes_edited (interpolateTrims_edited _ _ _ _), strikes_seen, written hs hl he]
      exact fun a ha => (SaveLoad.written_low (P := fun _ => True) (l := out) (fun _ _ => trivial) a ha).2
    · obtain ⟨l2, T2, h1, h2⟩ := C94_jef_partial hs.libm hs.sequins hs.round hs.stitch hs.jump (.inl hs.long) hs.change hm hq (hp h3) he hd hw hf hsz
        ta dist clipping
      rw [hrd] at h1
      injection h1 with h1; injection h1 with h1 h1'; subst h1
      exact core hs hl h2
  | @xxx o lm threads ths _ _ out f colours ts hs hm he ht hlim hw hrd =>
    refine ⟨?_, tidy_xxx hrd, fun h3 => ?_⟩
    · obtain ⟨f2, h4, h5⟩ := Xxx.C15_roundtrip_partial hs.libm hs.sequins hs.round hs.stitch hs.jump (.inl hs.long) (by rw [hs.change]; decide)
        hm hq he ht (by
          intro r hr h0
          refine hlim ⟨r.dx, r.dy, cmdOf r.cmd⟩ ?_ h0
          rw [deltas_eq]
          exact List.mem_map.2 ⟨r, hr, rfl⟩)
      rw [hw] at h4
      injection h4 with h4; subst h4
      rw [hrd] at h5
      injection h5 with h5; injection h5 with h5' h5
      rw [h5, strikes_view, ← strikes_shaded _ 0, SaveLoad.shaded_words, strikes_shaded, written hs hl he]
      intro a _
      unfold Xxx.shows Stitch.low
      split_ifs <;> dsimp only <;> omega
    · obtain ⟨f1, c1, l1, h1, h2, -, h3⟩ := C94_xxx_partial hs.libm hs.sequins hs.round hs.stitch hs.jump (.inl hs.long) hs.change hm hq (hp h3) he ht hlim
      rw [hw] at h1
      injection h1 with h1; subst h1
      rw [hrd] at h2
      injection h2 with h2; injection h2 with h2' h2; subst h2
      exact core hs hl h3

end Convert

/-- **C108**: through however many of the formats a design is converted, exactly the same points are sewn in the same order, and the result can
be converted again. -/
theorem C108_converted_partial {l l' : List Stitch} (hl : Tidy l) (h : Relation.ReflTransGen Converted l l') : strikes l' = strikes l ∧ Tidy l' := by
  induction h with
  | refl => exact ⟨rfl, hl⟩
  | tail _ h1 ih =>
    obtain ⟨e, hc, -⟩ := Convert.step ih.2.shape h1
    rw [Convert.gridded_whole ih.2.whole] at e
    exact ⟨e.trans ih.1, hc⟩

/-- **C108**: a design in other units is moved to the grid by the first conversion, every stitch to the nearest point, and not by later ones. -/
theorem C108_first_partial {l l' l'' : List Stitch} (hl : Shaped l) (h : Converted l l') (h' : Relation.ReflTransGen Converted l' l'') :
    strikes l'' = strikes (gridded l) ∧ ((∀ a ∈ l, a.low ≠ 3) → shadedFrom 0 l' = settled (worn 0 (gridded l))) := by
  obtain ⟨e, hc, e2⟩ := Convert.step hl h
  exact ⟨(C108_converted_partial hc h').1.trans e, e2⟩

/-- **C108**: a conversion keeps the colour of every stitch, if there are no STOPs (3): the colours are counted from the first that is sewn, but for
colour changes before the first stitch, of which one is lost. -/
theorem C108_colours_partial {l l' : List Stitch} (hl : Tidy l) (h : Converted l l') (h3 : ∀ a ∈ l, a.low ≠ 3) :
    shadedFrom 0 l' = settled (worn 0 l) := by
  have := (Convert.step hl.shape h).2.2 h3
  rwa [Convert.gridded_whole hl.whole] at this

/-- **C108**: conversion to EXP and DST goes on for every such design, with any settings for them that have needles. -/
theorem C108_goes_on {o : Settings} {lm : Libm} {M : ℚ} {l : List Stitch} (hl : Shaped l) (hs : Saving o lm M) (hM : 0 < M)
    (hn : o.needleCount ≠ 0) (threads : List Thread) :
    (M = 127 → o.sequin ≠ 0xF5 → ∃ out ths, encode o lm threads l = .ok (out, ths) ∧ Converted l (Exp.read (Exp.write out))) ∧
    (M = 121 → (∀ a ∈ l, a.low ≠ 11 ∧ a.low ≠ 12) → ∀ t, ∃ out ths b, encode o lm threads l = .ok (out, ths) ∧ Dst.writeBody t out = .ok b ∧
      ∀ header : Bytes, header.length = 512 → ∀ ta dist clipping, Converted l (Dst.read ta dist clipping (header ++ b))) := by
  have hlow := Convert.low_of hl
  have hq : ∀ st ∈ l, st.low ≠ 0xD5 ∧ st.low ≠ 0xD6 ∧ st.low ≠ 0xC4 ∧ st.low ≠ 0xC5 := by
    intro st h
    have := hlow st h
    simp only [List.mem_cons, List.not_mem_nil, or_false] at this
    omega
  obtain ⟨out, ths, he⟩ := C27_total (lm := lm) (threads := threads) hn
    (fun m h => by rw [hs.stitch] at h; injection h with h; rw [← h]; exact hM)
    (fun m h => by rw [hs.jump] at h; injection h with h; rw [← h]; exact hM) hq
  refine ⟨?_, ?_⟩
  · rintro rfl hm
    exact ⟨out, ths, he, .exp hs hm he⟩
  · rintro rfl hfast t
    obtain ⟨b, hb, -⟩ := Dst.C06_roundtrip_partial hs.libm hs.sequins hs.round hs.stitch hs.jump (.inl hs.long) (by rw [hs.change]; decide) (by
      intro st h
      have := hlow st h
      have := hfast st h
      simp only [List.mem_cons, List.not_mem_nil, or_false] at *
      omega) he t
    exact ⟨out, ths, b, he, hb, fun header hh ta dist clipping => .dst hs he hfast hb hh⟩

/-- **C108**: every file that one of these readers accepts can be converted to EXP, and every stitch stays in its place. -/
theorem C108_file {f : Bytes} {l : List Stitch} (hf : ∀ v ∈ f, IsByte v) (h : Loaded f l) {o : Settings} {lm : Libm} (hs : Saving o lm 127)
    (hm : o.sequin ≠ 0xF5) (hn : o.needleCount ≠ 0) (threads : List Thread) :
    ∃ out ths, encode o lm threads l = .ok (out, ths) ∧ strikes (Exp.read (Exp.write out)) = strikes l ∧
      ((∀ a ∈ l, a.low ≠ 3) → shadedFrom 0 (Exp.read (Exp.write out)) = settled (worn 0 l)) := by
  have hl := C108_readable hf h
  obtain ⟨out, ths, he, hc⟩ := (C108_goes_on hl.shape hs (by norm_num) hn threads).1 rfl hm
  have := Convert.step hl.shape hc
  rw [Convert.gridded_whole hl.whole] at this
  exact ⟨out, ths, he, this.1, this.2.2⟩

/-! ## Examples -/

/-- A KSM file: stitches, a trim, needle 1, a move back to sewing, a long stitch, the end. -/
def ksmDemo : Bytes := List.replicate 0x200 0 ++ [4, 3, 0, 9, 8, 0x07, 0, 0, 0x0B, 0, 0, 0x1B, 200, 100, 0x40, 1, 1, 0, 0, 0, 0x06]

/-- What it is read as: NEEDLE_SET is 9, and the needle is in the third byte. -/
def ksmRead : List Stitch :=
  [⟨3, -4, 0⟩, ⟨11, -13, 0⟩, ⟨11, -13, 2⟩, ⟨11, -13, 131081⟩, ⟨-89, -213, 0⟩, ⟨-88, -214, 0⟩, ⟨-88, -214, 4⟩]

theorem ksmDemo_loaded : Loaded ksmDemo ksmRead := .loop (read := Readers.readKsm) (fuel := 600) (by simp) (by decide +kernel) (by decide +kernel)

theorem ksmDemo_bytes : ∀ v ∈ ksmDemo, IsByte v := by unfold IsByte; decide +kernel

-- KSM to EXP to DST and back to EXP: nothing moves, and the second colour is a second colour
example : ∃ l1 l2 l3, Converted ksmRead l1 ∧ Converted l1 l2 ∧ Converted l2 l3 ∧
    shadedFrom 0 l1 = [(0, (3, -4)), (0, (11, -13)), (1, (-89, -213)), (1, (-88, -214))] ∧ strikes l3 = strikes ksmRead := by
  have c0 := C108_readable ksmDemo_bytes ksmDemo_loaded
  obtain ⟨o1, _, _, h1⟩ := (C108_goes_on c0.shape Resave.saving_exp (by norm_num) (by decide) []).1 rfl (by decide)
  have c1 := (C108_converted_partial c0 (.single h1)).2
  have hk : ∀ f, ∀ a ∈ Exp.read f, a.low ≠ 11 ∧ a.low ≠ 12 := by
    intro f a ha
    obtain ⟨m, e, h, he, hm⟩ := Resave.exp_shape f
    rw [h] at ha
    rcases List.mem_append.1 ha with ha | ha
    · have := hm a ha
      simp only [List.mem_cons, List.not_mem_nil, or_false] at this
      omega
    · simp at ha; subst ha; omega
  obtain ⟨o2, _, b2, _, _, h2⟩ := (C108_goes_on c1.shape Resave.saving_dst (by norm_num) (by decide) []).2 rfl (hk _) 3
  have h2 := h2 (List.replicate 512 0) (by decide +kernel) 3 none true
  have c2 := (C108_converted_partial c1 (.single h2)).2
  obtain ⟨o3, _, _, h3⟩ := (C108_goes_on c2.shape Resave.saving_exp (by norm_num) (by decide) []).1 rfl (by decide)
  refine ⟨_, _, _, h1, h2, h3, ?_, (C108_converted_partial c0 (((Relation.ReflTransGen.single h1).tail h2).tail h3)).1⟩
  rw [C108_colours_partial c0 h1 (by decide)]
  decide +kernel

/-- **C108** fails for formats whose unit is not 1/10 mm: a PCD file's stitch at 5/3 units is sewn at 2. -/
theorem C108_other_units : ∃ l : List Stitch, Readers.readPcdBody 100 [0, 1, 0, 0, 0, 0, 0, 0, 0] = some (.ok l) ∧
    strikes l ≠ strikes (Exp.read (Exp.write (demoEncode Exp.settings l))) := by
  refine ⟨_, rfl, ?_⟩
  decide +kernel

end Emb
