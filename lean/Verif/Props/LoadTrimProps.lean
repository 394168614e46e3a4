import Verif.LoadTrims
import Verif.Containers
import Verif.Props.TrimSpecProps

/-!
# Property C130: which trims a loaded design gets

A run of jumps between a stitch and the next command that ends the run is looked at as a whole; distances are those between positions of the design.
-/

namespace Emb

/-! ## The claim -/

/-- One of the jumps `J`, which start at `s`, is the one with number `n` (counted from one), or ends more than `d` tenths of a millimetre from `s` in one of the directions. -/
def LongRun (n : Option Int) (d : Option ℚ) (s : Stitch) (J : List Stitch) : Prop :=
  (∃ i : Nat, i < J.length ∧ n = some (i + 1)) ∨ ∃ r, d = some r ∧ ∃ j ∈ J, r < |j.x - s.x| ∨ r < |j.y - s.y|

/-- The trim at `s`, if there is thread to cut and the run is long. -/
noncomputable def cutAt (n : Option Int) (d : Option ℚ) (s : Stitch) (J : List Stitch) : List Stitch :=
  open Classical in if (s.low = 0 ∨ s.low = 7) ∧ LongRun n d s J then [⟨s.x, s.y, 2⟩] else []

/-- The jumps, the distance in millimetres and the clipping that a JEF file is loaded with: no number of jumps is asked for unless `trims` (then 3) or `trim_at` says so; 3 mm. -/
structure JefRule (s : LoadSettings) (n : Option Int) (mm : Option ℚ) (clip : Bool) : Prop where
  given : ∀ k, s.trimAt = some (some k) → n = some k
  asked : s.trimAt = none ∨ s.trimAt = some none → s.trims = some true → n = some 3
  usual : s.trimAt = none ∨ s.trimAt = some none → s.trims ≠ some true → n = none
  near : ∀ r, s.distance = some r → mm = r
  three : s.distance = none → mm = some 3
  clipped : ∀ b, s.clipping = some b → clip = b
  usually : s.clipping = none → clip = true

/-- DST, TAP and EXY: 3 jumps, no distance. -/
structure DstRule (s : LoadSettings) (n : Option Int) (mm : Option ℚ) (clip : Bool) : Prop where
  given : ∀ k, s.trimAt = some k → n = k
  usual : s.trimAt = none → n = some 3
  near : ∀ r, s.distance = some r → mm = r
  none : s.distance = none → mm = none
  clipped : ∀ b, s.clipping = some b → clip = b
  usually : s.clipping = Option.none → clip = true

/-- The settings that leave the design as it is in the file. -/
def asIs : LoadSettings := { trimAt := some none, distance := some none, clipping := some false }

/-! ## Proofs -/

namespace LoadTrim

variable {n : Option Int} {d : Option ℚ} {clip : Bool}

theorem asks_split {s : Stitch} (hs : endsRun s) (l m : List Stitch) : ∀ (A : List Stitch) (k : Int) (q p : ℚ × ℚ),
    asksTrim n d k q p (A ++ s :: l) = asksTrim n d k q p (A ++ s :: m) := by
  intro A
  induction A with
  | nil => intro k q p; simp [asksTrim, hs]
  | cons a A ih => intro k q p; simp only [List.cons_append, asksTrim, ih]

theorem back_split {s : Stitch} (hs : endsRun s) (l m : List Stitch) : ∀ (A : List Stitch) (q p : ℚ × ℚ),
    comesBack q p (A ++ s :: l) = comesBack q p (A ++ s :: m) := by
  intro A
  induction A with
  | nil => intro q p; simp [comesBack, hs]
  | cons a A ih => intro q p; simp only [List.cons_append, comesBack, ih]

theorem design_split {s : Stitch} (hs : endsRun s) (l : List Stitch) : ∀ (A : List Stitch) (p : ℚ × ℚ) (sewn : Bool) (run : Option (ℚ × ℚ)),
    trimmedDesign n d clip p sewn run (A ++ s :: l) =
      trimmedDesign n d clip p sewn run (A ++ [s]) ++ trimmedDesign n d clip (s.x, s.y) (s.low = 0 ∨ s.low = 7) none l := by
  intro A
  induction A with
  | nil => intro p sewn run; simp [trimmedDesign, hs]
  | cons a A ih =>
    intro p sewn run
    have e1 := asks_split (n := n) (d := d) hs l [] (a :: A)
    have e2 := back_split hs l [] (a :: A)
    simp only [List.cons_append] at e1 e2
    rw [List.cons_append, List.cons_append, trimmedDesign_cons, trimmedDesign_cons]
    simp only [e1, e2, ih]
    cases run <;> split_ifs <;> simp

theorem back_never {s b : Stitch} (hb : endsRun b) (B : List Stitch) : ∀ (J : List Stitch) (p : ℚ × ℚ), (∀ j ∈ J, j.low = 1) →
    (∀ j ∈ J, (j.x, j.y) ≠ (s.x, s.y)) → comesBack (p.1 - s.x, p.2 - s.y) p (J ++ b :: B) = false := by
  intro J
  induction J with
  | nil => intro p _ _; simp [comesBack, hb]
  | cons j J ih =>
    intro p h1 h2
    have hj := h1 j (by simp)
    have he : ¬ endsRun j = true := by rw [endsRun_iff]; omega
    have e1 : p.1 - s.x + (j.x - p.1) = j.x - s.x := by ring
    have e2 : p.2 - s.y + (j.y - p.2) = j.y - s.y := by ring
    rw [List.cons_append, comesBack, if_neg he, if_pos hj, e1, e2]
    have := ih (j.x, j.y) (fun j h => h1 j (by simp [h])) (fun j h => h2 j (by simp [h]))
    dsimp only at this
    rw [this]
    have h3 := h2 j (by simp)
    simp only [ne_eq, Prod.mk.injEq, sub_eq_zero] at h3 ⊢
    simpa using h3

theorem asks_iff {s b : Stitch} (hb : endsRun b) (B : List Stitch) : ∀ (J : List Stitch) (k : Int) (p : ℚ × ℚ), (∀ j ∈ J, j.low = 1) →
    (asksTrim n d k (p.1 - s.x, p.2 - s.y) p (J ++ b :: B) = true ↔
      (∃ i : Nat, i < J.length ∧ n = some (k + i + 1)) ∨ ∃ r, d = some r ∧ ∃ j ∈ J, r < |j.x - s.x| ∨ r < |j.y - s.y|) := by
  intro J
  induction J with
  | nil => intro k p _; simp [asksTrim, hb]
  | cons j J ih =>
    intro k p h1
    have hj := h1 j (by simp)
    have he : ¬ endsRun j = true := by rw [endsRun_iff]; omega
    have e1 : p.1 - s.x + (j.x - p.1) = j.x - s.x := by ring
    have e2 : p.2 - s.y + (j.y - p.2) = j.y - s.y := by ring
    rw [List.cons_append, asksTrim, if_neg he, if_pos hj, e1, e2]
    have := ih (k + 1) (j.x, j.y) (fun j h => h1 j (by simp [h]))
    dsimp only at this
    rw [decide_eq_true_eq, this]
    have far : isFar d (j.x - s.x, j.y - s.y) = true ↔ ∃ r, d = some r ∧ (r < |j.x - s.x| ∨ r < |j.y - s.y|) := by
      unfold isFar
      cases d <;> simp
    rw [far]
    constructor
    · rintro (h | ⟨r, hr, h⟩ | ⟨i, hi, h⟩ | ⟨r, hr, j', hj', h⟩)
      · exact .inl ⟨0, by simp, by simpa using h⟩
      · exact .inr ⟨r, hr, j, by simp, h⟩
      · exact .inl ⟨i + 1, by simpa using hi, by rw [h]; congr 1; push_cast; ring⟩
      · exact .inr ⟨r, hr, j', by simp [hj'], h⟩
    · rintro (⟨i, hi, h⟩ | ⟨r, hr, j', hj', h⟩)
      · cases i with
        | zero => exact .inl (by simpa using h)
        | succ i => exact .inr (.inr (.inl ⟨i, by simpa using hi, by rw [h]; congr 1; push_cast; ring⟩))
      · rcases List.mem_cons.1 hj' with rfl | hj'
        · exact .inr (.inl ⟨r, hr, h⟩)
        · exact .inr (.inr (.inr ⟨r, hr, j', hj', h⟩))

theorem run_kept {s b : Stitch} (hb : endsRun b) (B : List Stitch) : ∀ (J : List Stitch) (p : ℚ × ℚ) (sewn : Bool), (∀ j ∈ J, j.low = 1) →
    (clip = true → ∀ j ∈ J, (j.x, j.y) ≠ (s.x, s.y)) →
    trimmedDesign n d clip p sewn (some (p.1 - s.x, p.2 - s.y)) (J ++ b :: B) = J ++ trimmedDesign n d clip (0, 0) false none (b :: B) := by
  intro J
  induction J with
  | nil => intro p sewn _ _; simp [trimmedDesign, hb]
  | cons j J ih =>
    intro p sewn h1 h2
    have hj := h1 j (by simp)
    have he : ¬ endsRun j = true := by rw [endsRun_iff]; omega
    have e1 : p.1 - s.x + (j.x - p.1) = j.x - s.x := by ring
    have e2 : p.2 - s.y + (j.y - p.2) = j.y - s.y := by ring
    have hn : ¬ (clip = true ∧ comesBack (p.1 - s.x, p.2 - s.y) p (j :: J ++ b :: B) = true) := by
      rintro ⟨hc, h⟩
      rw [back_never hb B (j :: J) p h1 (h2 hc)] at h
      exact absurd h (by decide)
    rw [List.cons_append] at hn ⊢
    rw [trimmedDesign_cons n d clip p, if_neg he, if_pos hj]
    dsimp only
    rw [if_neg hn, e1, e2]
    have := ih (j.x, j.y) sewn (fun j h => h1 j (by simp [h])) (fun hc j h => h2 hc j (by simp [h]))
    dsimp only at this
    rw [this]; rfl

end LoadTrim

/-- **C130**: a run of jumps after a stitch, a sequin, a trim or a change stays as it is (with clipping, if it does not come back to where it started), and a trim is put before it
exactly if there is thread to cut and the run is long. What is before and after it has no part in that. -/
theorem C130_run (n : Option Int) (d : Option ℚ) (clip : Bool) (A J B : List Stitch) (s b : Stitch) (hs : s.low ∈ [(0 : Int), 2, 5, 7, 9]) (hb : b.low ∈ [(0 : Int), 2, 5, 7, 9])
    (hJ : ∀ j ∈ J, j.low = 1) (hc : clip = true → ∀ j ∈ J, (j.x, j.y) ≠ (s.x, s.y)) :
    interpolateTrims n d clip (A ++ s :: (J ++ b :: B)) =
      interpolateTrims n d clip (A ++ [s]) ++ cutAt n d s J ++ J ++ interpolateTrims n d clip (b :: B) := by
  have hs' : endsRun s = true := by rw [endsRun_iff]; simp at hs; omega
  have hb' : endsRun b = true := by rw [endsRun_iff]; simp at hb; omega
  simp only [C50_exact]
  rw [LoadTrim.design_split hs' (J ++ b :: B) A, List.append_assoc, List.append_assoc]
  congr 1
  cases J with
  | nil =>
    have : cutAt n d s [] = [] := by simp [cutAt, LongRun]
    rw [this]
    simp [trimmedDesign, hb']
  | cons j J =>
    have hj := hJ j (by simp)
    have he : ¬ endsRun j = true := by rw [endsRun_iff]; omega
    have hn : ¬ (clip = true ∧ comesBack (0, 0) (s.x, s.y) (j :: J ++ b :: B) = true) := by
      rintro ⟨hcl, h⟩
      have := LoadTrim.back_never hb' B (j :: J) (s.x, s.y) hJ (hc hcl)
      dsimp only at this
      rw [sub_self, sub_self, h] at this
      exact absurd this (by decide)
    have ha := LoadTrim.asks_iff (n := n) (d := d) (s := s) hb' B (j :: J) 0 (s.x, s.y) hJ
    dsimp only at ha
    rw [sub_self, sub_self] at ha
    have hr := fun sewn => LoadTrim.run_kept (n := n) (d := d) (clip := clip) (s := s) hb' B J (j.x, j.y) sewn (fun j h => hJ j (by simp [h])) (fun h j h' => hc h j (by simp [h']))
    dsimp only at hr
    rw [List.cons_append] at hn ha ⊢
    rw [trimmedDesign_cons n d clip (s.x, s.y), if_neg he, if_pos hj]
    dsimp only
    rw [if_neg hn, hr]
    have hl : LongRun n d s (j :: J) ↔ asksTrim n d 0 (0, 0) (s.x, s.y) (j :: (J ++ b :: B)) = true := by
      rw [ha]; unfold LongRun
      simp
    unfold cutAt
    rw [hl]
    simp

theorem Jef.trimRule_eq {st : LoadSettings} {n : Option Int} {mm : Option ℚ} {clip : Bool} (hr : JefRule st n mm clip) : Jef.trimRule st = (n, mm, clip) := by
  unfold Jef.trimRule
  have h1 : (if st.trims.getD false = true ∧ st.trimAt.getD none = none then some 3 else st.trimAt.getD none) = n := by
    rcases h : st.trimAt with _ | _ | k
    · by_cases ht : st.trims = some true
      · rw [hr.asked (.inl h) ht, ht]; rfl
      · rw [hr.usual (.inl h) ht, if_neg]
        · rfl
        · rintro ⟨h2, -⟩; rcases ht' : st.trims with _ | _ | _ <;> simp_all
    · by_cases ht : st.trims = some true
      · rw [hr.asked (.inr h) ht, ht]; rfl
      · rw [hr.usual (.inr h) ht, if_neg]
        · rfl
        · rintro ⟨h2, -⟩; rcases ht' : st.trims with _ | _ | _ <;> simp_all
    · rw [hr.given k h]; simp
  have h2 : st.distance.getD (some 3) = mm := by
    rcases h : st.distance with _ | r
    · rw [hr.three h]; rfl
    · rw [hr.near r h]; rfl
  have h3 : st.clipping.getD true = clip := by
    rcases h : st.clipping with _ | r
    · rw [hr.usually h]; rfl
    · rw [hr.clipped r h]; rfl
  dsimp only
  rw [h1, h2, h3]

/-- **C130**, JEF: compared with the file as it is, the loaded design has a trim before a run of jumps exactly if there is thread to cut and the run has the number of jumps asked for or goes
farther than the distance, which is in millimetres. -/
theorem C130_jef {st : LoadSettings} {n : Option Int} {mm : Option ℚ} {clip : Bool} (hr : JefRule st n mm clip) {f : Bytes} {T : List (Option Nat)} {A J B : List Stitch} {s b : Stitch}
    (hf : Jef.load asIs f = .ok (A ++ s :: (J ++ b :: B), T)) (hs : s.low ∈ [(0 : Int), 2, 5, 7, 9]) (hb : b.low ∈ [(0 : Int), 2, 5, 7, 9])
    (hJ : ∀ j ∈ J, j.low = 1) (hc : clip = true → ∀ j ∈ J, (j.x, j.y) ≠ (s.x, s.y)) :
    Jef.load st f = .ok (trimmedDesign n (mm.map (10 * ·)) clip (0, 0) false none (A ++ [s]) ++ cutAt n (mm.map (10 * ·)) s J ++ J ++
      trimmedDesign n (mm.map (10 * ·)) clip (0, 0) false none (b :: B), T) := by
  have hrule := Jef.trimRule_eq hr
  have hm : (fun x : ℚ => x * 10) = (fun x => 10 * x) := by funext x; ring
  rw [← hm]
  simp only [Jef.load, Jef.read, hrule] at hf ⊢
  rcases hp : Jef.readPlain f with e | ⟨L, T'⟩
  · rw [hp] at hf; cases hf
  · rw [hp] at hf
    have hf : Except.ok (interpolateTrims none none false L, T') = Except.ok (ε := PyErr) (A ++ s :: (J ++ b :: B), T) := hf
    injection hf with hf; injection hf with h1 h2
    rw [C50_no_thresholds] at h1
    subst h1 h2
    show Except.ok (ε := PyErr) (interpolateTrims n _ clip _, T') = _
    rw [C130_run n _ clip A J B s b hs hb hJ hc, C50_exact, C50_exact]

theorem Dst.trimRule_eq {st : LoadSettings} {n : Option Int} {mm : Option ℚ} {clip : Bool} (hr : DstRule st n mm clip) : Dst.trimRule st = (n, mm, clip) := by
  unfold Dst.trimRule
  have h1 : st.trimAt.getD (some 3) = n := by
    rcases h : st.trimAt with _ | r
    · rw [hr.usual h]; rfl
    · rw [hr.given r h]; rfl
  have h2 : st.distance.getD none = mm := by
    rcases h : st.distance with _ | r
    · rw [hr.none h]; rfl
    · rw [hr.near r h]; rfl
  have h3 : st.clipping.getD true = clip := by
    rcases h : st.clipping with _ | r
    · rw [hr.usually h]; rfl
    · rw [hr.clipped r h]; rfl
  rw [h1, h2, h3]

/-- **C130**, DST, TAP and EXY. -/
theorem C130_dst {st : LoadSettings} {n : Option Int} {mm : Option ℚ} {clip : Bool} (hr : DstRule st n mm clip) {A J B : List Stitch} {s b : Stitch}
    (hs : s.low ∈ [(0 : Int), 2, 5, 7, 9]) (hb : b.low ∈ [(0 : Int), 2, 5, 7, 9]) (hJ : ∀ j ∈ J, j.low = 1) (hc : clip = true → ∀ j ∈ J, (j.x, j.y) ≠ (s.x, s.y))
    (load : LoadSettings → Bytes → List Stitch) (hload : load = Dst.load ∨ load = Containers.loadTap ∨ load = Containers.loadExy) {f : Bytes}
    (hf : load asIs f = A ++ s :: (J ++ b :: B)) :
    load st f = trimmedDesign n (mm.map (10 * ·)) clip (0, 0) false none (A ++ [s]) ++ cutAt n (mm.map (10 * ·)) s J ++ J ++
      trimmedDesign n (mm.map (10 * ·)) clip (0, 0) false none (b :: B) := by
  have hrule := Dst.trimRule_eq hr
  have hm : (fun x : ℚ => x * 10) = (fun x => 10 * x) := by funext x; ring
  rw [← hm, ← C50_exact, ← C50_exact]
  have key : ∀ x : Bytes, Dst.loadBody asIs x = A ++ s :: (J ++ b :: B) →
      Dst.loadBody st x = interpolateTrims n (mm.map (· * 10)) clip (A ++ [s]) ++ cutAt n (mm.map (· * 10)) s J ++ J ++
        interpolateTrims n (mm.map (· * 10)) clip (b :: B) := by
    intro x h
    have h : interpolateTrims none none false (place 0 0 (Dst.readRecs false x ++ [⟨0, 0, END⟩])) = A ++ s :: (J ++ b :: B) := h
    rw [C50_no_thresholds] at h
    unfold Dst.loadBody
    rw [hrule, h]
    exact C130_run n _ clip A J B s b hs hb hJ hc
  rcases hload with rfl | rfl | rfl <;> exact key _ hf

/-- **C130** speaks of the same files as the other properties of these readers. -/
theorem C130_same (t : Int) (mm : Option ℚ) (clip : Bool) (f : Bytes) :
    Jef.read (some t) mm clip f = Jef.load { trimAt := some (some t), distance := some mm, clipping := some clip } f ∧
    Dst.read t mm clip f = Dst.load { trimAt := some (some t), distance := some mm, clipping := some clip } f ∧
    Containers.readTap t mm clip f = Containers.loadTap { trimAt := some (some t), distance := some mm, clipping := some clip } f ∧
    Containers.readExy t mm clip f = Containers.loadExy { trimAt := some (some t), distance := some mm, clipping := some clip } f :=
  ⟨by simp [Jef.load, Jef.trimRule], rfl, rfl, rfl⟩

/-! ## Examples -/

/-- A JEF file with one colour: a stitch, two jumps of 20 units to the right, a stitch, a jump of 30 units, a stitch. -/
def runsDemo : Bytes :=
  [120, 0, 0, 0] ++ List.replicate 20 0 ++ [1, 0, 0, 0] ++ List.replicate 88 0 ++ [1, 0, 0, 0] ++
    [5, 0, 0x80, 2, 20, 0, 0x80, 2, 20, 0, 3, 0, 0x80, 2, 30, 0, 1, 0, 0x80, 0x10]

-- 40 units are more than 3 mm, 30 are not
example : Jef.load {} runsDemo = .ok ([⟨5, 0, 0⟩, ⟨5, 0, 2⟩, ⟨25, 0, 1⟩, ⟨45, 0, 1⟩, ⟨48, 0, 0⟩, ⟨78, 0, 1⟩, ⟨79, 0, 0⟩, ⟨79, 0, 4⟩], [some 1]) := by decide +kernel

-- the hypotheses of `C130_jef` for the first run
example : Jef.load asIs runsDemo = .ok ([] ++ ⟨5, 0, 0⟩ :: ([⟨25, 0, 1⟩, ⟨45, 0, 1⟩] ++ ⟨48, 0, 0⟩ :: [⟨78, 0, 1⟩, ⟨79, 0, 0⟩, ⟨79, 0, 4⟩]), [some 1]) ∧
    JefRule {} none (some 3) true ∧ JefRule { trims := some true } (some 3) (some 3) true ∧ DstRule { distance := some (some 2) } (some 3) (some 2) true := by
  refine ⟨by decide +kernel, ?_, ?_, ?_⟩ <;> constructor <;> simp

end Emb
