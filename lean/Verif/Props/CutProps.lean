import Verif.Props.ReaderProps
import Verif.Props.TrimProps
import Verif.Jef
import Verif.Tbf
import Verif.Xxx

/-!
# C99: a file that was cut off is read as the beginning of its design
-/

namespace Emb
namespace Readers

/-! ## Specification -/

/-- `l` is the beginning of `l'`, followed by an END. -/
def Begins (l l' : List Stitch) : Prop := ∃ m e, l = m ++ [e] ∧ e.cmd = END ∧ m <+: l'

/-- Whatever the file `f` and whatever followed it before it was cut: both are read, and what is read from `f` is the beginning of
what is read from the whole. -/
def Cut (read : Nat → Bytes → Option (Except PyErr (List Stitch))) : Prop :=
  ∀ f g, (∀ v ∈ f ++ g, IsByte v) → ∃ l l', (∀ fuel, f.length < fuel → read fuel f = some (.ok l)) ∧
    (∀ fuel, (f ++ g).length < fuel → read fuel (f ++ g) = some (.ok l')) ∧ Begins l l'

/-! ## Loops -/

/-- More bytes do not change what a round makes of a complete record; without one nothing is added. -/
structure Stepwise {σ α : Type} (step : σ → Bytes → Next σ α) : Prop where
  again : ∀ s b g out s' rest, step s b = .again out s' rest → step s (b ++ g) = .again out s' (rest ++ g)
  done : ∀ s b g out, step s b = .done out → step s (b ++ g) = .done out ∨ out = []

theorem loop_cut {σ α : Type} {step : σ → Bytes → Next σ α} (h : Stepwise step) (g : Bytes) (n : Nat) :
    ∀ (m : Nat) (s : σ) (b : Bytes) (l l' : List α), loop step n s b = some (.ok l) → loop step m s (b ++ g) = some (.ok l') → l <+: l' := by
  induction n with
  | zero => intro m s b l l' h1; cases h1
  | succ n ih =>
    intro m s b l l' h1 h2
    rw [loop] at h1
    cases hs : step s b with
    | again out s' rest =>
      rw [hs] at h1
      cases m with
      | zero => cases h2
      | succ m =>
        rw [loop, h.again _ _ g _ _ _ hs] at h2
        simp only [Option.map_eq_some_iff] at h1 h2
        obtain ⟨r, p1, p2⟩ := h1
        obtain ⟨r', q1, q2⟩ := h2
        cases r with
        | error e => cases p2
        | ok r =>
          cases r' with
          | error e => cases q2
          | ok r' =>
            injection p2 with p2
            injection q2 with q2
            subst p2; subst q2
            exact (List.prefix_append_right_inj out).2 (ih m s' rest r r' p1 q1)
    | done out =>
      rw [hs] at h1
      injection h1 with h1
      injection h1 with h1
      subst h1
      rcases h.done _ _ g _ hs with hd | rfl
      · cases m with
        | zero => cases h2
        | succ m =>
          rw [loop, hd] at h2
          injection h2 with h2
          injection h2 with h2
          exact h2 ▸ List.prefix_rfl
      · exact List.nil_prefix
    | raise e =>
      rw [hs] at h1
      injection h1 with h1
      cases h1

theorem place_prefix {l l' : List Rec} (h : l <+: l') (x y : ℚ) : place x y l <+: place x y l' := by
  obtain ⟨t, rfl⟩ := h
  rw [place_append]
  exact List.prefix_append _ _

theorem begins_place {l l' : List Rec} (h : l <+: l') : Begins (place 0 0 (l ++ [⟨0, 0, END⟩])) (place 0 0 (l' ++ [⟨0, 0, END⟩])) := by
  refine ⟨place 0 0 l, _, by rw [place_append]; rfl, rfl, place_prefix (h.trans (List.prefix_append _ _)) 0 0⟩

theorem drop_cut (n : Nat) (f g : Bytes) : ∃ g', (f ++ g).drop n = f.drop n ++ g' := ⟨_, List.drop_append⟩

theorem finish_ok {r : Option (Except PyErr (List Rec))} {l : List Stitch} (h : finish r = some (.ok l)) :
    ∃ recs, r = some (.ok recs) ∧ l = place 0 0 (recs ++ [⟨0, 0, END⟩]) := by
  unfold finish at h
  rw [Option.map_eq_some_iff] at h
  obtain ⟨e, h1, h2⟩ := h
  cases e with
  | error e => cases h2
  | ok recs => injection h2 with h2; exact ⟨recs, h1, h2.symm⟩

/-- A file and the beginning of it, both read. -/
def Cut' (read : Nat → Bytes → Option (Except PyErr (List Stitch))) : Prop :=
  ∀ f g n m l l', read n f = some (.ok l) → read m (f ++ g) = some (.ok l') → Begins l l'

theorem cut'_of {σ : Type} {step : σ → Bytes → Next σ Rec} (hs : Stepwise step) (s : σ) (n : Nat)
    {read : Nat → Bytes → Option (Except PyErr (List Stitch))} (hr : ∀ fuel f, read fuel f = finish (loop step fuel s (f.drop n))) : Cut' read := by
  intro f g a b l l' h1 h2
  rw [hr] at h1 h2
  obtain ⟨r1, p1, rfl⟩ := finish_ok h1
  obtain ⟨r2, p2, rfl⟩ := finish_ok h2
  obtain ⟨g', hg⟩ := drop_cut n f g
  rw [hg] at p2
  exact begins_place (loop_cut hs g' _ _ _ _ _ _ p1 p2)

theorem cut_of {σ : Type} {step : σ → Bytes → Next σ Rec} (hs : Stepwise step) {kinds : List Int} {D : ℚ} (s : σ) (n : Nat)
    {read : Nat → Bytes → Option (Except PyErr (List Stitch))} (hr : ∀ fuel f, read fuel f = finish (loop step fuel s (f.drop n)))
    (h : Accepts kinds D read) : Cut read := by
  intro f g hb
  obtain ⟨l, -, -, h1⟩ := h f (fun v hv => hb v (List.mem_append_left _ hv))
  obtain ⟨l', -, -, h2⟩ := h (f ++ g) hb
  exact ⟨l, l', h1, h2, cut'_of hs s n hr f g _ _ l l' (h1 _ (Nat.lt_succ_self _)) (h2 _ (Nat.lt_succ_self _))⟩

theorem three_stepwise {σ : Type} (r : σ → Int → Int → Int → List Rec × Option σ) : Stepwise (three r) where
  again := by
    intro s b g out s' rest h
    match b, h with
    | [], h => cases h
    | [_], h => cases h
    | [_, _], h => cases h
    | b0 :: b1 :: b2 :: b, h =>
      simp only [three, List.cons_append] at h ⊢
      cases hr : r s b0 b1 b2 with
      | mk o t =>
        rw [hr] at h
        cases t with
        | none => cases h
        | some t => injection h with h1 h2 h3; subst h1; subst h2; subst h3; rfl
  done := by
    intro s b g out h
    match b, h with
    | [], h => injection h with h; exact .inr h.symm
    | [_], h => injection h with h; exact .inr h.symm
    | [_, _], h => injection h with h; exact .inr h.symm
    | b0 :: b1 :: b2 :: b, h => 
      left
      simp only [three, List.cons_append] at h ⊢
      cases hr : r s b0 b1 b2 with
      | mk o t =>
        rw [hr] at h
        cases t with
        | none => exact h
        | some t => cases h

/-! ## Records of three bytes -/

/-- **C99**: KSM, DSB, DSZ, FXY, GT, NEW, Inbro, 10O, STC and Sunstar files. -/
theorem C99_ksm : Cut readKsm := cut_of (three_stepwise _) _ 0x200 (fun _ _ => rfl) C60_ksm
theorem C99_dsb : Cut readDsbBody := cut_of (three_stepwise _) _ 0 (fun _ _ => rfl) C60_dsb
theorem C99_dsz : Cut readDszBody := cut_of (three_stepwise _) _ 0 (fun _ _ => rfl) C60_dsz
theorem C99_fxy : Cut readFxy := cut_of (three_stepwise _) _ 0x100 (fun _ _ => rfl) C60_fxy
theorem C99_gt : Cut readGt := cut_of (three_stepwise _) _ 0x200 (fun _ _ => rfl) C60_gt
theorem C99_new : Cut readNew := cut_of (three_stepwise _) _ 2 (fun _ _ => rfl) C60_new
theorem C99_inb : Cut readInb := cut_of (three_stepwise _) _ 0x2000 (fun _ _ => rfl) C60_inb
theorem C99_10o : Cut read10o := cut_of (three_stepwise _) _ 0 (fun _ _ => rfl) C60_10o
theorem C99_stc : Cut readStc := cut_of (three_stepwise _) _ 0x28 (fun _ _ => rfl) C60_stc
theorem C99_sunstar : Cut readSunstar := cut_of (three_stepwise _) _ 0x100 (fun _ _ => rfl) C60_sunstar

/-! ## Other records -/

/-- Both conditions at once. -/
def Same {σ α : Type} (g : Bytes) : Next σ α → Next σ α → Prop
  | .again out s rest, r => r = .again out s (rest ++ g)
  | .done out, r => r = .done out ∨ out = []
  | .raise _, _ => True

theorem stepwise_of {σ α : Type} {step : σ → Bytes → Next σ α} (h : ∀ s b g, Same g (step s b) (step s (b ++ g))) : Stepwise step where
  again := by
    intro s b g out s' rest e
    have := h s b g
    rw [e] at this
    exact this
  done := by
    intro s b g out e
    have := h s b g
    rw [e] at this
    exact this

theorem same_nil {σ α : Type} {g : Bytes} {r : Next σ α} : Same g (.done []) r := .inr rfl

theorem same_ite {σ α : Type} {g : Bytes} {c : Prop} [Decidable c] {a a' b b' : Next σ α} (h1 : Same g a a') (h2 : Same g b b') :
    Same g (if c then a else b) (if c then a' else b') := by
  split_ifs
  · exact h1
  · exact h2

theorem emd_stepwise : Stepwise emdStep := stepwise_of fun s b g => by
  match b with
  | [] => exact same_nil
  | [_] => exact same_nil
  | b0 :: b1 :: rest =>
    simp only [emdStep, List.cons_append]
    refine same_ite rfl (same_ite ?_ (same_ite rfl (same_ite rfl (same_ite rfl (same_ite rfl same_nil)))))
    match rest with
    | [] => exact same_nil
    | [_] => exact same_nil
    | _ :: _ :: _ => rfl

theorem hundred_stepwise : Stepwise hundredStep := stepwise_of fun s b g => by
  match b with
  | [] => exact same_nil
  | [_] => exact same_nil
  | [_, _] => exact same_nil
  | [_, _, _] => exact same_nil
  | _ :: _ :: _ :: _ :: _ => exact same_ite rfl (same_ite rfl rfl)

theorem mit_stepwise : Stepwise mitStep := stepwise_of fun s b g => by
  match b with
  | [] => exact same_nil
  | [_] => exact same_nil
  | b0 :: b1 :: rest =>
    exact same_ite rfl (same_ite rfl (same_ite rfl (same_ite rfl (same_ite rfl (same_ite rfl rfl)))))

theorem jpx_stepwise : Stepwise jpxStep := stepwise_of fun s b g => by
  match b with
  | [] => exact same_nil
  | [_] => exact same_nil
  | b0 :: b1 :: rest =>
    simp only [jpxStep, List.cons_append]
    refine same_ite rfl ?_
    match rest with
    | [] => exact same_nil
    | [_] => exact same_nil
    | _ :: _ :: _ => exact same_ite rfl (same_ite rfl same_nil)

theorem sew_stepwise : Stepwise sewStep := stepwise_of fun s b g => by
  match b with
  | [] => exact same_nil
  | [_] => exact same_nil
  | b0 :: b1 :: rest =>
    simp only [sewStep, List.cons_append]
    refine same_ite rfl ?_
    match rest with
    | [] => exact same_nil
    | [_] => exact same_nil
    | _ :: _ :: _ => exact same_ite rfl (same_ite rfl (same_ite rfl same_nil))

theorem broMove_same (b g : Bytes) (before : List Rec) : Same g (broMove b before) (broMove (b ++ g) before) := by
  match b with
  | [] => trivial
  | [_] => trivial
  | [_, _] => trivial
  | [_, _, _] => trivial
  | _ :: _ :: _ :: _ :: _ => rfl

theorem bro_stepwise : Stepwise broStep := stepwise_of fun s b g => by
  match b with
  | [] => exact same_nil
  | [_] => exact same_nil
  | b0 :: b1 :: rest =>
    simp only [broStep, List.cons_append]
    refine same_ite rfl ?_
    match rest with
    | [] => trivial
    | c :: rest =>
      exact same_ite rfl (same_ite same_nil (same_ite same_nil (same_ite (broMove_same _ _ _) (same_ite (broMove_same _ _ _)
        (same_ite (broMove_same _ _ _) same_nil)))))

theorem spx_stepwise : Stepwise spxStep := stepwise_of fun s b g => by
  match b with
  | [] => exact same_nil
  | [_] => exact same_nil
  | [_, _] => trivial
  | [_, _, _] => trivial
  | [_, _, _, _] => trivial
  | [_, _, _, _, _] => trivial
  | [_, _, _, _, _, _] => trivial
  | [_, _, _, _, _, _, _] => exact same_nil
  | [_, _, _, _, _, _, _, _] => exact same_nil
  | _ :: _ :: _ :: _ :: _ :: _ :: _ :: _ :: _ :: _ => rfl

theorem pcd_stepwise : Stepwise pcdStep := stepwise_of fun s b g => by
  match b with
  | [] => exact same_nil
  | [_] => exact same_nil
  | [_, _] => exact same_nil
  | [_, _, _] => exact same_nil
  | [_, _, _, _] => exact same_nil
  | [_, _, _, _, _] => exact same_nil
  | [_, _, _, _, _, _] => exact same_nil
  | [_, _, _, _, _, _, _] => exact same_nil
  | [_, _, _, _, _, _, _, _] => exact same_nil
  | _ :: _ :: _ :: _ :: _ :: _ :: _ :: _ :: _ :: _ => exact same_ite rfl (same_ite rfl (same_ite rfl same_nil))

theorem pcm_stepwise : Stepwise pcmStep := stepwise_of fun s b g => by
  match b with
  | [] => exact same_nil
  | [_] => exact same_nil
  | [_, _] => exact same_nil
  | [_, _, _] => exact same_nil
  | [_, _, _, _] => exact same_nil
  | [_, _, _, _, _] => exact same_nil
  | [_, _, _, _, _, _] => exact same_nil
  | [_, _, _, _, _, _, _] => exact same_nil
  | [_, _, _, _, _, _, _, _] => exact same_nil
  | _ :: _ :: _ :: _ :: _ :: _ :: _ :: _ :: _ :: _ => exact same_ite rfl (same_ite rfl (same_ite rfl same_nil))

theorem max_stepwise : Stepwise maxStep := stepwise_of fun s b g => by
  cases s with
  | zero => exact .inl rfl
  | succ n =>
    match b with
    | [] => trivial
    | [_] => trivial
    | [_, _] => trivial
    | [_, _, _] => trivial
    | [_, _, _, _] => trivial
    | [_, _, _, _, _] => trivial
    | [_, _, _, _, _, _] => trivial
    | [_, _, _, _, _, _, _] => exact same_nil
    | _ :: _ :: _ :: _ :: _ :: _ :: _ :: _ :: _ => rfl

theorem barudan_stepwise : Stepwise barudanStep := stepwise_of fun s b g => by
  match b with
  | [] => exact same_nil
  | [_] => exact same_nil
  | [_, _] => exact same_nil
  | b0 :: b1 :: b2 :: rest =>
    exact same_ite (.inl rfl) (same_ite rfl (same_ite rfl (same_ite rfl (same_ite rfl (same_ite rfl (same_ite rfl (same_ite rfl (same_ite rfl
      (same_ite trivial same_nil)))))))))

/-- **C99**: EMD, 100, MIT, JPX and SEW files. -/
theorem C99_emd : Cut readEmd := cut_of emd_stepwise _ 0x30 (fun _ _ => rfl) C60_emd
theorem C99_100 : Cut read100 := cut_of hundred_stepwise _ 0 (fun _ _ => rfl) C60_100
theorem C99_mit : Cut readMit := cut_of mit_stepwise _ 0 (fun _ _ => rfl) C60_mit
theorem C99_jpx : Cut readJpxBody := cut_of jpx_stepwise _ 0 (fun _ _ => rfl) C60_jpx
theorem C99_sew : Cut readSewBody := cut_of sew_stepwise _ 0 (fun _ _ => rfl) C60_sew

/-- **C99**: ZHS stitches. -/
theorem C99_zhs : Cut readZhsBody := by
  intro f g hb
  obtain ⟨l, -, -, -, h1⟩ := C60_zhs f (fun v hv => hb v (List.mem_append_left _ hv))
  obtain ⟨l', -, -, -, h2⟩ := C60_zhs (f ++ g) hb
  exact ⟨l, l', h1, h2, cut'_of (three_stepwise _) (0, 0) 0 (fun _ _ => rfl) f g _ _ l l' (h1 _ (Nat.lt_succ_self _)) (h2 _ (Nat.lt_succ_self _))⟩

theorem perform_append (x y : ℚ) (l l' : List Call) : perform x y l <+: perform x y (l ++ l') := by
  induction l generalizing x y with
  | nil => exact List.nil_prefix
  | cons c l ih =>
    cases c <;> exact (List.prefix_append_right_inj [_]).2 (ih _ _)

theorem perform_here (x y : ℚ) (l : List Call) (c : Int) : ∃ e, perform x y (l ++ [.here c]) = perform x y l ++ [e] ∧ e.cmd = c := by
  induction l generalizing x y with
  | nil => exact ⟨_, rfl, rfl⟩
  | cons a l ih =>
    cases a with
    | abs k u v => obtain ⟨e, h1, h2⟩ := ih u v; exact ⟨e, by simp [perform, h1], h2⟩
    | here k => obtain ⟨e, h1, h2⟩ := ih x y; exact ⟨e, by simp [perform, h1], h2⟩

theorem begins_perform {l l' : List Call} (h : l <+: l') : Begins (perform 0 0 (l ++ [.here END])) (perform 0 0 (l' ++ [.here END])) := by
  obtain ⟨e, h1, h2⟩ := perform_here 0 0 l END
  obtain ⟨t, rfl⟩ := h
  exact ⟨_, e, h1, h2, by rw [List.append_assoc]; exact perform_append 0 0 l _⟩

theorem perform_ok {r : Option (Except PyErr (List Call))} {l : List Stitch}
    (h : r.map (fun e => e.map (fun l => perform 0 0 (l ++ [.here END]))) = some (.ok l)) :
    ∃ calls, r = some (.ok calls) ∧ l = perform 0 0 (calls ++ [.here END]) := by
  rw [Option.map_eq_some_iff] at h
  obtain ⟨e, h1, h2⟩ := h
  cases e with
  | error e => cases h2
  | ok calls => injection h2 with h2; exact ⟨calls, h1, h2.symm⟩

theorem begins_loop {σ : Type} {step : σ → Bytes → Next σ Call} (hs : Stepwise step) (s : σ) (f g : Bytes) (n m : Nat) (l l' : List Stitch)
    (h1 : (loop step n s f).map (fun e => e.map (fun l => perform 0 0 (l ++ [.here END]))) = some (.ok l))
    (h2 : (loop step m s (f ++ g)).map (fun e => e.map (fun l => perform 0 0 (l ++ [.here END]))) = some (.ok l')) : Begins l l' := by
  obtain ⟨r1, p1, rfl⟩ := perform_ok h1
  obtain ⟨r2, p2, rfl⟩ := perform_ok h2
  exact begins_perform (loop_cut hs g _ _ _ _ _ _ p1 p2)

/-- **C99**: the stitches of PCD, PCQ, PCS and PCM files. -/
theorem C99_pcd : Cut readPcdBody := by
  intro f g hb
  obtain ⟨l, -, -, h1⟩ := C60_pcd f (fun v hv => hb v (List.mem_append_left _ hv))
  obtain ⟨l', -, -, h2⟩ := C60_pcd (f ++ g) hb
  exact ⟨l, l', h1, h2, begins_loop pcd_stepwise () f g _ _ l l' (h1 _ (Nat.lt_succ_self _)) (h2 _ (Nat.lt_succ_self _))⟩

theorem C99_pcm : Cut readPcmBody := by
  intro f g hb
  obtain ⟨l, -, -, h1⟩ := C60_pcm f (fun v hv => hb v (List.mem_append_left _ hv))
  obtain ⟨l', -, -, h2⟩ := C60_pcm (f ++ g) hb
  exact ⟨l, l', h1, h2, begins_loop pcm_stepwise () f g _ _ l l' (h1 _ (Nat.lt_succ_self _)) (h2 _ (Nat.lt_succ_self _))⟩

/-- **C99**: BRO files. The cut file need not be read (C60_bro_cut_off). -/
theorem C99_bro_partial : Cut' readBro := cut'_of bro_stepwise _ 0x100 (fun _ _ => rfl)

/-- What a number is read as does not depend on what follows. -/
theorem readInt16be_append (b g : Bytes) (n : Int) (h : (readInt16be b).1 = some n) :
    readInt16be (b ++ g) = (some n, (readInt16be b).2 ++ g) := by
  match b, h with
  | [], h => cases h
  | [_], h => cases h
  | _ :: _ :: _, h => injection h with h; subst h; rfl

theorem readInt32le_append (b g : Bytes) (n : Int) (h : (readInt32le b).1 = some n) :
    readInt32le (b ++ g) = (some n, (readInt32le b).2 ++ g) := by
  match b, h with
  | [], h => cases h
  | [_], h => cases h
  | [_, _], h => cases h
  | [_, _, _], h => cases h
  | _ :: _ :: _ :: _ :: _, h => injection h with h; subst h; rfl

theorem drop_cut_pos {n : Nat} {f : Bytes} (g : Bytes) (h : f.drop n ≠ []) : (f ++ g).drop n = f.drop n ++ g := by
  have hn : n ≤ f.length := by
    by_contra hh
    exact h (List.drop_eq_nil_of_le (by omega))
  rw [List.drop_append_of_le_length hn]

/-- **C99**: ZXY files. -/
theorem C99_zxy_partial : Cut' readZxy := by
  intro f g n m l l' h1 h2
  unfold readZxy at h1
  cases hr : readInt16be (f.drop 1) with
  | mk v rest =>
    rw [hr] at h1
    cases v with
    | none => cases h1
    | some v =>
      have hne : f.drop 1 ≠ [] := by intro hh; rw [hh] at hr; cases hr
      unfold readZxy at h2
      rw [drop_cut_pos g hne, readInt16be_append _ g v (by rw [hr]), hr] at h2
      obtain ⟨r1, p1, rfl⟩ := finish_ok h1
      obtain ⟨r2, p2, rfl⟩ := finish_ok h2
      obtain ⟨g', hg⟩ := drop_cut v.toNat rest g
      rw [hg] at p2
      exact begins_place (loop_cut (three_stepwise _) g' _ _ _ _ _ _ p1 p2)

/-- **C99**: MAX files. -/
theorem C99_max_partial : Cut' readMax := by
  intro f g n m l l' h1 h2
  unfold readMax at h1
  cases hr : readInt32le (f.drop 0xD5) with
  | mk v rest =>
    rw [hr] at h1
    cases v with
    | none => cases h1
    | some v =>
      have hne : f.drop 0xD5 ≠ [] := by intro hh; rw [hh] at hr; cases hr
      unfold readMax at h2
      rw [drop_cut_pos g hne, readInt32le_append _ g v (by rw [hr]), hr] at h2
      exact begins_loop max_stepwise _ _ g n m l l' h1 h2

/-- **C99**: SPX files; no END is added to these. -/
theorem C99_spx_partial (f g : Bytes) (n m : Nat) (l l' : List Stitch) (h1 : readSpx n f = some (.ok l)) (h2 : readSpx m (f ++ g) = some (.ok l')) :
    l <+: l' := by
  unfold readSpx at h1 h2
  rw [Option.map_eq_some_iff] at h1 h2
  obtain ⟨r1, p1, q1⟩ := h1
  obtain ⟨r2, p2, q2⟩ := h2
  obtain ⟨g', hg⟩ := drop_cut 0x11E f g
  rw [hg] at p2
  cases r1 with
  | error e => cases q1
  | ok r1 =>
    cases r2 with
    | error e => cases q2
    | ok r2 =>
      injection q1 with q1
      injection q2 with q2
      subst q1; subst q2
      exact place_prefix (loop_cut spx_stepwise g' _ _ _ _ _ _ p1 p2) 0 0

/-- A round that goes on does not say that the file is another. -/
def GoesOn : Next Unit (Option Rec) → Prop
  | .again out _ _ => none ∉ out
  | _ => True

theorem goesOn_ite {c : Prop} [Decidable c] {a b : Next Unit (Option Rec)} (h1 : GoesOn a) (h2 : GoesOn b) : GoesOn (if c then a else b) := by
  split_ifs
  · exact h1
  · exact h2

theorem goesOn_also {c : Prop} [Decidable c] (r t : Rec) (rest : Bytes) : GoesOn (.again (some r :: if c then [some t] else []) () rest) := by
  unfold GoesOn
  split_ifs <;> simp

theorem barudan_goesOn (b : Bytes) : GoesOn (barudanStep () b) := by
  match b with
  | [] => trivial
  | [_] => trivial
  | [_, _] => trivial
  | _ :: _ :: _ :: _ =>
    exact goesOn_ite trivial (goesOn_ite (by simp [GoesOn]) (goesOn_ite (by simp [GoesOn]) (goesOn_ite (goesOn_also _ _ _) (goesOn_ite (goesOn_also _ _ _)
      (goesOn_ite (goesOn_also _ _ _) (goesOn_ite (goesOn_also _ _ _) (goesOn_ite (goesOn_also _ _ _) (goesOn_ite (goesOn_also _ _ _)
        (goesOn_ite trivial trivial)))))))))

/-- A Barudan file that turns out not to be one does so whatever follows. -/
theorem barudan_cut (g : Bytes) (n : Nat) : ∀ (m : Nat) (b : Bytes) (l l' : List (Option Rec)), loop barudanStep n () b = some (.ok l) →
    loop barudanStep m () (b ++ g) = some (.ok l') → none ∈ l → l' = l := by
  induction n with
  | zero => intro m b l l' h1; cases h1
  | succ n ih =>
    intro m b l l' h1 h2 hn
    cases m with
    | zero => cases h2
    | succ m =>
      rw [loop] at h1 h2
      cases hs : barudanStep () b with
      | again out s' rest =>
        have hout : none ∉ out := by have := barudan_goesOn b; rw [hs] at this; exact this
        rw [barudan_stepwise.again _ _ g _ _ _ hs] at h2
        rw [hs] at h1
        simp only [Option.map_eq_some_iff] at h1 h2
        obtain ⟨r, p1, p2⟩ := h1
        obtain ⟨r', q1, q2⟩ := h2
        cases r with
        | error e => cases p2
        | ok r =>
          cases r' with
          | error e => cases q2
          | ok r' =>
            injection p2 with p2
            injection q2 with q2
            subst p2; subst q2
            rcases List.mem_append.1 hn with hh | hh
            · exact absurd hh hout
            · rw [ih m rest r r' p1 q1 hh]
      | done out =>
        rw [hs] at h1
        injection h1 with h1
        injection h1 with h1
        subst h1
        rcases barudan_stepwise.done _ _ g _ hs with hd | rfl
        · rw [hd] at h2
          injection h2 with h2
          injection h2 with h2
          exact h2.symm
        · cases hn
      | raise e =>
        rw [hs] at h1
        injection h1 with h1
        cases h1

/-- **C99**: DAT files, Barudan and Sunstar. -/
theorem C99_dat_partial : Cut' readDat := by
  intro f g n m l l' h1 h2
  unfold readDat at h1 h2
  cases e1 : loop barudanStep n () f with
  | none => rw [e1] at h1; cases h1
  | some r1 =>
    cases r1 with
    | error e => rw [e1] at h1; cases h1
    | ok r1 =>
      cases e2 : loop barudanStep m () (f ++ g) with
      | none => rw [e2] at h2; cases h2
      | some r2 =>
        cases r2 with
        | error e => rw [e2] at h2; cases h2
        | ok r2 =>
          rw [e1] at h1
          rw [e2] at h2
          dsimp only at h1 h2
          by_cases hn : none ∈ r1
          · have := barudan_cut g n m f r1 r2 e1 e2 hn
            subst this
            rw [if_pos hn] at h1 h2
            obtain ⟨s1, p1, rfl⟩ := finish_ok h1
            obtain ⟨s2, p2, rfl⟩ := finish_ok h2
            rw [Option.map_eq_some_iff] at p1 p2
            obtain ⟨t1, a1, b1⟩ := p1
            obtain ⟨t2, a2, b2⟩ := p2
            obtain ⟨g', hg⟩ := drop_cut 0x100 f g
            rw [hg] at a2
            cases t1 with
            | error e => cases b1
            | ok t1 =>
              cases t2 with
              | error e => cases b2
              | ok t2 =>
                injection b1 with b1
                injection b2 with b2
                subst b1; subst b2
                exact begins_place ((List.prefix_append_right_inj _).2 (loop_cut (three_stepwise _) g' _ _ _ _ _ _ a1 a2))
          · rw [if_neg hn] at h1
            have hp := loop_cut barudan_stepwise g _ _ _ _ _ _ e1 e2
            obtain ⟨s1, p1, rfl⟩ := finish_ok h1
            injection p1 with p1
            injection p1 with p1
            subst p1
            have hq : r1.filterMap id <+: r2.filterMap id := by
              obtain ⟨t, rfl⟩ := hp
              rw [List.filterMap_append]
              exact List.prefix_append _ _
            by_cases hm : none ∈ r2
            · rw [if_pos hm] at h2
              obtain ⟨s2, p2, rfl⟩ := finish_ok h2
              rw [Option.map_eq_some_iff] at p2
              obtain ⟨t2, a2, b2⟩ := p2
              cases t2 with
              | error e => cases b2
              | ok t2 =>
                injection b2 with b2
                subst b2
                exact begins_place (hq.trans (List.prefix_append _ _))
            · rw [if_neg hm] at h2
              obtain ⟨s2, p2, rfl⟩ := finish_ok h2
              injection p2 with p2
              injection p2 with p2
              subst p2
              exact begins_place hq

/-! ## EXP, U01, PEC, DST, TBF and JEF -/

theorem prefix_cons {α : Type} {a : α} {l l' : List α} (h : l <+: l') : a :: l <+: a :: l' := (List.prefix_append_right_inj [a]).2 h

theorem prefix_ite {α : Type} {c : Prop} [Decidable c] {a a' b b' : List α} (h1 : a <+: a') (h2 : b <+: b') :
    (if c then a else b) <+: (if c then a' else b') := by
  split_ifs
  · exact h1
  · exact h2

theorem exp_stitch (b0 b1 : Int) (rest : Bytes) (h : b0 ≠ 0x80) :
    Exp.readRecs (b0 :: b1 :: rest) = ⟨signed8 b0, -signed8 b1, STITCH⟩ :: Exp.readRecs rest := by
  rw [Exp.readRecs.eq_def]
  exact if_pos h

theorem exp_short (b0 b1 : Int) (rest : Bytes) (h : ¬ b0 ≠ 0x80) (hr : rest.length < 2) : Exp.readRecs (b0 :: b1 :: rest) = [] := by
  rw [Exp.readRecs.eq_def]
  dsimp only
  rw [if_neg h]
  match rest, hr with
  | [], _ => rfl
  | [_], _ => rfl

theorem exp_cut : ∀ f g, Exp.readRecs f <+: Exp.readRecs (f ++ g)
  | [], _ => List.nil_prefix
  | [_], _ => List.nil_prefix
  | b0 :: b1 :: [], g => by
    have h1 := exp_cut [] g
    by_cases h : b0 ≠ 0x80
    · rw [List.cons_append, List.cons_append, exp_stitch _ _ _ h, exp_stitch _ _ _ h]
      exact prefix_cons h1
    · rw [exp_short _ _ _ h (by simp)]
      exact List.nil_prefix
  | b0 :: b1 :: [c], g => by
    have h1 := exp_cut [c] g
    by_cases h : b0 ≠ 0x80
    · rw [List.cons_append, List.cons_append, exp_stitch _ _ _ h, exp_stitch _ _ _ h]
      exact prefix_cons h1
    · rw [exp_short _ _ _ h (by simp)]
      exact List.nil_prefix
  | b0 :: b1 :: c0 :: c1 :: rest, g => by
    have h1 := exp_cut (c0 :: c1 :: rest) g
    have h2 := exp_cut rest g
    rw [List.cons_append, List.cons_append, List.cons_append, List.cons_append, Exp.readRecs, Exp.readRecs]
    exact prefix_ite (prefix_cons h1) (prefix_ite (prefix_cons h2) (prefix_ite (prefix_cons h2) (prefix_ite (prefix_cons h2)
      (prefix_ite (prefix_ite (prefix_cons (prefix_cons h2)) (prefix_cons h2)) List.nil_prefix))))

/-- **C99**: EXP files. -/
theorem C99_exp (f g : Bytes) : Begins (Exp.read f) (Exp.read (f ++ g)) := begins_place (exp_cut f g)

theorem u01_cut : ∀ f g, U01.readRecs f <+: U01.readRecs (f ++ g)
  | [], _ => List.nil_prefix
  | [_], _ => List.nil_prefix
  | [_, _], _ => List.nil_prefix
  | c :: b1 :: b2 :: rest, g => by
    have h := u01_cut rest g
    simp only [List.cons_append, U01.readRecs]
    split
    · exact (List.prefix_append_right_inj _).2 h
    · exact List.nil_prefix

/-- **C99**: U01 files. -/
theorem C99_u01 (f g : Bytes) : Begins (U01.read f) (U01.read (f ++ g)) := by
  obtain ⟨g', hg⟩ := drop_cut 0x100 f g
  unfold U01.read
  rw [hg]
  exact begins_place (u01_cut _ g')

theorem dst_cut : ∀ (sequin : Bool) (f g : Bytes), Dst.readRecs sequin f <+: Dst.readRecs sequin (f ++ g)
  | _, [], _ => List.nil_prefix
  | _, [_], _ => List.nil_prefix
  | _, [_, _], _ => List.nil_prefix
  | s, b0 :: b1 :: b2 :: rest, g => by
    simp only [List.cons_append, Dst.readRecs]
    split
    · exact List.nil_prefix
    · exact prefix_cons (dst_cut _ rest g)

/-- The commands that inferring trims keeps: stitches, sequins, colour changes and needle changes (C50). -/
def kept (l : List Stitch) : List Stitch := l.filter (fun a => a.low = 0 ∨ a.low = 5 ∨ a.low = 7 ∨ a.low = 9)

theorem kept_begins {l l' : List Stitch} (h : Begins l l') : kept l <+: kept l' := by
  obtain ⟨m, e, rfl, he, t, rfl⟩ := h
  unfold kept
  have : [e].filter (fun a => decide (a.low = 0 ∨ a.low = 5 ∨ a.low = 7 ∨ a.low = 9)) = [] := by
    rw [List.filter_cons_of_neg, List.filter_nil]
    simp only [Stitch.low, he]
    decide
  rw [List.filter_append, this, List.append_nil, List.filter_append]
  exact List.prefix_append _ _

/-- **C99**: DST files: up to the jumps and the trims made from them. -/
theorem C99_dst (trimAt : Int) (dist : Option ℚ) (clip : Bool) (f g : Bytes) :
    kept (Dst.read trimAt dist clip f) <+: kept (Dst.read trimAt dist clip (f ++ g)) := by
  obtain ⟨g', hg⟩ := drop_cut 512 f g
  unfold Dst.read Dst.readBody kept
  rw [hg, C50_sewing_kept_partial, C50_sewing_kept_partial]
  exact kept_begins (begins_place (dst_cut false _ g'))

theorem pec_cut : ∀ f g, Pec.readRecs f <+: Pec.readRecs (f ++ g)
  | [], _ => List.nil_prefix
  | [_], _ => List.nil_prefix
  | v1 :: v2 :: rest, g => by
    have h0 := pec_cut rest g
    rw [List.cons_append, List.cons_append, Pec.readRecs.eq_def, Pec.readRecs.eq_def (v1 :: v2 :: _)]
    dsimp only
    refine prefix_ite List.nil_prefix (prefix_ite ?_ (prefix_ite ?_ (prefix_ite ?_ ((List.prefix_append_right_inj _).2 h0))))
    · match rest with
      | [] => cases g with
        | nil => exact List.prefix_rfl
        | cons a g => exact prefix_cons List.nil_prefix
      | a :: rest => exact prefix_cons (pec_cut rest g)
    · match rest with
      | [] => exact List.nil_prefix
      | [w] =>
        show (if Pec.isLong w = true then _ else _) <+: (if Pec.isLong w = true then _ else _)
        exact prefix_ite List.nil_prefix ((List.prefix_append_right_inj _).2 (pec_cut [] g))
      | w :: w2 :: rest =>
        exact prefix_ite ((List.prefix_append_right_inj _).2 (pec_cut rest g)) ((List.prefix_append_right_inj _).2 (pec_cut (w2 :: rest) g))
    · match rest with
      | [] => exact List.nil_prefix
      | v3 :: rest => exact (List.prefix_append_right_inj _).2 (pec_cut rest g)

/-- **C99**: the stitches of a PEC file. -/
theorem C99_pec (f g : Bytes) : Begins (Pec.readSection f) (Pec.readSection (f ++ g)) := begins_place (pec_cut f g)

theorem tbf_cut (order : Bytes) : ∀ (n : Nat) (f g : Bytes) (l' : List Rec), Tbf.readRecs order n (f ++ g) = .ok l' →
    ∃ l, Tbf.readRecs order n f = .ok l ∧ l <+: l'
  | _, [], _, _, _ => ⟨[], rfl, List.nil_prefix⟩
  | _, [_], _, _, _ => ⟨[], rfl, List.nil_prefix⟩
  | _, [_, _], _, _, _ => ⟨[], rfl, List.nil_prefix⟩
  | n, x :: y :: c :: rest, g, l', h => by
    have go : ∀ (k : Nat) (r : Rec), (Tbf.readRecs order k (rest ++ g) >>= fun t => Except.ok (r :: t)) = .ok l' →
        ∃ l, (Tbf.readRecs order k rest >>= fun t => Except.ok (r :: t)) = .ok l ∧ l <+: l' := by
      intro k r h
      cases hr : Tbf.readRecs order k (rest ++ g) with
      | error e => rw [hr] at h; cases h
      | ok t =>
        rw [hr] at h
        injection h with h
        subst h
        obtain ⟨u, h1, h2⟩ := tbf_cut order k rest g t hr
        exact ⟨r :: u, by rw [h1]; rfl, prefix_cons h2⟩
    simp only [List.cons_append, Tbf.readRecs] at h ⊢
    by_cases h1 : c = 0x80
    · rw [if_pos h1] at h ⊢; exact go _ _ h
    rw [if_neg h1] at h ⊢
    by_cases h2 : c = 0x81
    · rw [if_pos h2] at h ⊢
      cases ho : order[n]? with
      | none => rw [ho] at h; cases h
      | some v => rw [ho] at h; exact go _ _ h
    rw [if_neg h2] at h ⊢
    by_cases h3 : c = 0x90
    · rw [if_pos h3] at h ⊢; exact go _ _ h
    rw [if_neg h3] at h ⊢
    by_cases h4 : c = 0x40
    · rw [if_pos h4] at h ⊢; exact go _ _ h
    rw [if_neg h4] at h ⊢
    by_cases h5 : c = 0x86
    · rw [if_pos h5] at h ⊢; exact go _ _ h
    rw [if_neg h5] at h ⊢
    exact ⟨[], rfl, List.nil_prefix⟩

/-- **C99**: TBF files that are cut after the header. -/
theorem C99_tbf (f g : Bytes) (hf : 0x600 ≤ f.length) (d' : Tbf.Loaded) (h : Tbf.read (f ++ g) = .ok d') :
    ∃ d, Tbf.read f = .ok d ∧ d.name = d'.name ∧ Begins d.stitches d'.stitches := by
  unfold Tbf.read at h ⊢
  have e1 : ((f ++ g).drop 0x83).take 0x10 = (f.drop 0x83).take 0x10 := by
    rw [List.drop_append_of_le_length (by omega), List.take_append_of_le_length (by rw [List.length_drop]; omega)]
  have e2 : ((f ++ g).drop 0x10A).take 0x100 = (f.drop 0x10A).take 0x100 := by
    rw [List.drop_append_of_le_length (by omega), List.take_append_of_le_length (by rw [List.length_drop]; omega)]
  rw [e1, e2, List.drop_append_of_le_length hf] at h
  cases hn : decodeUtf8 ((f.drop 0x83).take 0x10) with
  | none => rw [hn] at h; cases h
  | some name =>
    rw [hn] at h
    dsimp only at h ⊢
    cases hr : Tbf.readRecs ((f.drop 0x10A).take 0x100) 0 (f.drop 0x600 ++ g) with
    | error e => rw [hr] at h; cases h
    | ok recs =>
      rw [hr] at h
      injection h with h
      subst h
      obtain ⟨l, h1, h2⟩ := tbf_cut _ _ _ _ _ hr
      rw [h1]
      exact ⟨_, rfl, rfl, begins_place h2⟩

theorem jef_cut : ∀ (T : List (Option Nat)) (k : Nat) (f g : Bytes) (q' : List Rec × List (Option Nat)), Jef.readRecs T k (f ++ g) = .ok q' →
    ∃ q, Jef.readRecs T k f = .ok q ∧ q.1 <+: q'.1
  | T, _, [], _, _, _ => ⟨([], T), rfl, List.nil_prefix⟩
  | T, _, [_], _, _, _ => ⟨([], T), rfl, List.nil_prefix⟩
  | T, k, b0 :: b1 :: rest, g, q', h => by
    have go : ∀ (T : List (Option Nat)) (k : Nat) (r : Rec) (t : Bytes), t.length ≤ rest.length →
        (Jef.readRecs T k (t ++ g) >>= fun q => Except.ok (r :: q.1, q.2)) = .ok q' →
        ∃ q, (Jef.readRecs T k t >>= fun q => Except.ok (r :: q.1, q.2)) = .ok q ∧ q.1 <+: q'.1 := by
      intro T k r t ht h
      cases hr : Jef.readRecs T k (t ++ g) with
      | error e => rw [hr] at h; cases h
      | ok u =>
        rw [hr] at h
        injection h with h
        subst h
        obtain ⟨v, h1, h2⟩ := jef_cut T k t g u hr
        exact ⟨(r :: v.1, v.2), by rw [h1]; rfl, prefix_cons h2⟩
    rw [List.cons_append, List.cons_append, Jef.readRecs.eq_def] at h
    rw [Jef.readRecs.eq_def]
    dsimp only at h ⊢
    by_cases h0 : b0 ≠ 0x80
    · rw [if_pos h0] at h ⊢
      exact go _ _ _ _ le_rfl h
    rw [if_neg h0] at h ⊢
    match rest, go, h with
    | [], _, _ => exact ⟨([], T), rfl, List.nil_prefix⟩
    | [_], _, _ => exact ⟨([], T), rfl, List.nil_prefix⟩
    | c0 :: c1 :: rest, go, h =>
      simp only [List.cons_append] at h ⊢
      by_cases h2 : b1 = 0x02
      · rw [if_pos h2] at h ⊢
        exact go _ _ _ _ (by simp only [List.length_cons]; omega) h
      rw [if_neg h2] at h ⊢
      by_cases h3 : b1 = 0x01
      · rw [if_pos h3] at h ⊢
        cases hT : T[k]? with
        | none => rw [hT] at h; cases h
        | some o =>
          rw [hT] at h
          cases o with
          | none => exact go _ _ _ _ (by simp only [List.length_cons]; omega) h
          | some v => exact go _ _ _ _ (by simp only [List.length_cons]; omega) h
      rw [if_neg h3] at h ⊢
      exact ⟨([], T), rfl, List.nil_prefix⟩
termination_by _ _ f => f.length
decreasing_by simp only [List.length_cons]; omega

theorem jef_colors (n : Nat) (f g : Bytes) (hf : 4 * n ≤ f.length) : Jef.readColors n (f ++ g) = Jef.readColors n f := by
  induction n generalizing f with
  | zero => rfl
  | succ n ih =>
    match f, hf with
    | a :: b :: c :: d :: f, hf =>
      simp only [Jef.readColors, List.cons_append]
      obtain ⟨v, e, e'⟩ : ∃ v, readInt32le (a :: b :: c :: d :: (f ++ g)) = (some v, f ++ g) ∧ readInt32le (a :: b :: c :: d :: f) = (some v, f) :=
        ⟨_, rfl, rfl⟩
      rw [e, e']
      dsimp only
      rw [ih f (by simp only [List.length_cons] at hf; omega)]

/-- **C99**: JEF files that are cut after the colour table, whose number of colours is at byte 24: up to the jumps and the trims
made from them. -/
theorem C99_jef (trimAt : Option Int) (dist : Option ℚ) (clip : Bool) (f g : Bytes) (n : Int) (hn : (readInt32le (f.drop 24)).1 = some n)
    (hf : 116 + 4 * n.toNat ≤ f.length) (d' : List Stitch × List (Option Nat)) (h : Jef.read trimAt dist clip (f ++ g) = .ok d') :
    ∃ d, Jef.read trimAt dist clip f = .ok d ∧ kept d.1 <+: kept d'.1 := by
  unfold Jef.read Jef.readPlain at h ⊢
  have hne : f.drop 24 ≠ [] := by intro hh; rw [hh] at hn; cases hn
  obtain ⟨o, ho⟩ : ∃ o, (readInt32le f).1 = some o := by
    match f, hf with
    | a :: b :: c :: d :: f, hf => exact ⟨_, rfl⟩
  rw [drop_cut_pos g hne, readInt32le_append _ g n hn, readInt32le_append _ g o ho, List.drop_append_of_le_length (by omega)] at h
  rw [hn, ho]
  dsimp only at h ⊢
  rw [jef_colors n.toNat _ g (by rw [List.length_drop]; omega)] at h
  cases hc : Jef.readColors n.toNat (f.drop 116) with
  | error e => rw [hc] at h; cases h
  | ok T =>
    rw [hc] at h
    obtain ⟨g', hg⟩ := drop_cut o.toNat f g
    rw [hg] at h
    cases hr : Jef.readRecs T 1 (f.drop o.toNat ++ g') with
    | error e =>
      simp only [bind, Except.bind, hr] at h
      cases h
    | ok q' =>
      obtain ⟨q, h1, h2⟩ := jef_cut _ _ _ _ _ hr
      simp only [bind, Except.bind, hr, h1] at h ⊢
      injection h with h
      subst h
      refine ⟨_, rfl, ?_⟩
      unfold kept
      dsimp only
      rw [C50_sewing_kept_partial, C50_sewing_kept_partial]
      exact kept_begins (begins_place h2)

theorem xxx_end (b1 b2 : Int) (h1 : b1 = 0x7F) (h2 : b2 = 0x7F ∨ b2 = 0x18) (rest : Bytes) : ∃ r, Xxx.readRecs (b1 :: b2 :: rest) = .ok ([], r) := by
  subst h1
  rw [Xxx.readRecs.eq_def]
  dsimp only
  rw [if_neg (by decide), if_neg (by decide)]
  match rest with
  | [] => exact ⟨[], if_pos h2⟩
  | [_] => exact ⟨[], if_pos h2⟩
  | b3 :: b4 :: rest => exact ⟨rest, by dsimp only; rw [if_neg (by omega), if_neg (by omega), if_neg (by omega), if_pos h2]⟩

theorem xxx_cut : ∀ (f g : Bytes) (t : List Rec × Bytes), Xxx.readRecs f = .ok t → ∃ r, Xxx.readRecs (f ++ g) = .ok (t.1, r)
  | [], _, _, h => by cases h
  | b1 :: rest, g, t, h => by
    have on : ∀ (b : Bytes) (u : List Rec × Bytes), b.length ≤ rest.length → Xxx.readRecs b = .ok u → ∃ k, Xxx.readRecs (b ++ g) = .ok (u.1, k) :=
      fun b u _ h => xxx_cut b g u h
    have go : ∀ (r : List Rec) (b : Bytes), b.length ≤ rest.length → (Xxx.readRecs b >>= fun t => Except.ok (r ++ t.1, t.2)) = .ok t →
        ∃ k, (Xxx.readRecs (b ++ g) >>= fun t => Except.ok (r ++ t.1, t.2)) = .ok (t.1, k) := by
      intro r b hb h
      cases hr : Xxx.readRecs b with
      | error e => rw [hr] at h; cases h
      | ok u =>
        rw [hr] at h
        injection h with h
        subst h
        obtain ⟨k, hk⟩ := on b u hb hr
        exact ⟨k, by rw [hk]; rfl⟩
    have e1 : b1 :: rest ++ g = b1 :: (rest ++ g) := rfl
    rw [Xxx.readRecs.eq_def] at h
    dsimp only at h
    by_cases h1 : b1 = 0x7D ∨ b1 = 0x7E
    · rw [if_pos h1] at h
      rw [e1, Xxx.readRecs.eq_def]
      dsimp only
      rw [if_pos h1]
      match rest, go, h with
      | [], _, h => cases h
      | [_], _, h => cases h
      | [_, _], _, h => cases h
      | [_, _, _], _, h => cases h
      | x0 :: x1 :: y0 :: y1 :: rest, go, h => exact go [_] rest (by simp only [List.length_cons]; omega) h
    rw [if_neg h1] at h
    match rest, on, go, h with
    | [], _, _, h => cases h
    | b2 :: rest, on, go, h =>
      dsimp only at h
      by_cases h2 : b1 ≠ 0x7F
      · rw [if_pos h2] at h
        rw [List.cons_append, List.cons_append, Xxx.readRecs.eq_def]
        dsimp only
        rw [if_neg h1, if_pos h2]
        exact go [_] rest (by simp only [List.length_cons]; omega) h
      rw [if_neg h2] at h
      by_cases h6 : b2 = 0x7F ∨ b2 = 0x18
      · have ht : t.1 = [] := by
          match rest, h with
          | [], h => dsimp only at h; rw [if_pos h6] at h; injection h with h; subst h; rfl
          | [_], h => dsimp only at h; rw [if_pos h6] at h; injection h with h; subst h; rfl
          | b3 :: b4 :: rest, h =>
            dsimp only at h
            rw [if_neg (by omega), if_neg (by omega), if_neg (by omega), if_pos h6] at h
            injection h with h; subst h; rfl
        rw [ht]
        exact xxx_end b1 b2 (by omega) h6 (rest ++ g)
      match rest, on, go, h with
      | [], _, _, h => dsimp only at h; rw [if_neg h6] at h; cases h
      | [_], _, _, h => dsimp only at h; rw [if_neg h6] at h; cases h
      | b3 :: b4 :: rest, on, go, h =>
        rw [List.cons_append, List.cons_append, List.cons_append, List.cons_append, Xxx.readRecs.eq_def]
        dsimp only at h ⊢
        rw [if_neg h1, if_neg h2]
        have hl : rest.length ≤ (b2 :: b3 :: b4 :: rest).length := by simp only [List.length_cons]; omega
        by_cases h3 : b2 = 0x01
        · rw [if_pos h3] at h ⊢; exact go [_] rest hl h
        rw [if_neg h3] at h ⊢
        by_cases h4 : b2 = 0x03
        · rw [if_pos h4] at h ⊢; exact go (_ :: _) rest hl h
        rw [if_neg h4] at h ⊢
        by_cases h5 : b2 = 0x08 ∨ (0x0A ≤ b2 ∧ b2 ≤ 0x17)
        · rw [if_pos h5] at h ⊢; exact go [_] rest hl h
        rw [if_neg h5, if_neg h6] at h ⊢
        exact on rest t hl h
termination_by f => f.length
decreasing_by all_goals simp only [List.length_cons] at *; omega

/-- **C99**: an XXX file that was cut and is read all the same has the stitches of the whole. -/
theorem C99_xxx_partial (f g : Bytes) (t t' : List Int) (l l' : List Stitch) (h : Xxx.read f = .ok (t, l)) (h' : Xxx.read (f ++ g) = .ok (t', l')) :
    l = l' := by
  obtain ⟨g', hg⟩ := drop_cut 0x100 f g
  unfold Xxx.read at h h'
  rw [hg] at h'
  cases hr : Xxx.readRecs (f.drop 0x100) with
  | error e => rw [hr] at h; cases h
  | ok r =>
    obtain ⟨k, hk⟩ := xxx_cut _ g' r hr
    rw [hr] at h
    rw [hk] at h'
    simp only [bind, Except.bind] at h h'
    split at h
    · cases h
    · split at h'
      · cases h'
      · injection h with h
        injection h' with h'
        injection h with _ h
        injection h' with _ h'
        exact h.symm.trans h'

theorem xxx_stitches (l : List Rec) (h : ∀ r ∈ l, -124 < r.dx ∧ r.dx < 124) :
    Xxx.readRecs (l.flatMap (fun r => [lo8 r.dx, lo8 (-r.dy)])) = .error .typeError := by
  induction l with
  | nil => rfl
  | cons r l ih =>
    have hr := h r (by simp)
    rw [List.flatMap_cons, List.cons_append, List.cons_append, List.nil_append, Xxx.readRecs.eq_def]
    have e : ¬ (lo8 r.dx = 0x7D ∨ lo8 r.dx = 0x7E) ∧ lo8 r.dx ≠ 0x7F := by unfold lo8; omega
    dsimp only
    rw [if_neg e.1, if_pos e.2, ih (fun a ha => h a (by simp [ha]))]
    rfl

/-- **C99** fails for XXX: whatever stitches a file has, without an end record after them it is not read at all. -/
theorem C99_xxx_fails (l : List Rec) (h : ∀ r ∈ l, -124 < r.dx ∧ r.dx < 124) (f : Bytes) (hf : f.length = 0x100) :
    Xxx.read (f ++ l.flatMap (fun r => [lo8 r.dx, lo8 (-r.dy)])) = .error .typeError := by
  unfold Xxx.read
  rw [List.drop_left' hf, xxx_stitches l h]
  rfl

/-- An EXP file of four records cut in the middle of its colour change. -/
example : Exp.read [5, 0, 3, 253, 0x80, 1, 0] = [⟨5, 0, 0⟩, ⟨8, 3, 0⟩, ⟨8, 3, 4⟩] ∧
    Exp.read ([5, 0, 3, 253, 0x80, 1, 0] ++ [0, 7, 0]) = [⟨5, 0, 0⟩, ⟨8, 3, 0⟩, ⟨8, 3, 5⟩, ⟨15, 3, 0⟩, ⟨15, 3, 4⟩] := by decide +kernel

/-- A DST file without its last stitch and its end. -/
example : kept (Dst.read 3 none true (List.replicate 512 32 ++ [1, 0, 3, 0])) = [⟨1, 0, 0⟩] ∧
    kept (Dst.read 3 none true (List.replicate 512 32 ++ [1, 0, 3, 0] ++ [1, 3, 0, 0, 0xF3])) = [⟨1, 0, 0⟩, ⟨4, 0, 0⟩] := by decide +kernel

/-- A KSM file without its last stitch. -/
example : readKsm 600 (List.replicate 0x200 0 ++ [0, 5, 0, 1]) = some (.ok [⟨5, 0, 0⟩, ⟨5, 0, 4⟩]) ∧
    readKsm 600 (List.replicate 0x200 0 ++ [0, 5, 0, 1] ++ [0, 0]) = some (.ok [⟨5, 0, 0⟩, ⟨5, -1, 0⟩, ⟨5, -1, 4⟩]) := by decide +kernel

/-- PEC stitches cut within a long jump. -/
example : Pec.readSection [5, 0, 0x90] = [⟨5, 0, 0⟩, ⟨5, 0, 4⟩] ∧
    Pec.readSection ([5, 0, 0x90] ++ [100, 0x90, 0, 0xFF, 0]) = [⟨5, 0, 0⟩, ⟨105, 0, 1⟩, ⟨105, 0, 4⟩] := by decide +kernel

end Readers
end Emb
