import Verif.Props.ConvertMoreProps
import Verif.Props.ScoreProps

/-!
# C129: no sequin is lost, invented or moved

The sequins of a normalized pattern, told by the walk of `Walk.lean`; the sequins of a DST file; and what is sewn of a design with sequins.
Commands are written by number (README table): 7 SEQUIN_EJECT, 0xF5 to 0xF8 the sequin contingencies (use, jump, stitch, remove).
-/

namespace Emb

/-! ## Specification -/

/-- The places where sequins are ejected. -/
def ejects (l : List Stitch) : List Pt := (l.filter (fun a => a.low == 7)).map (fun a => (a.x, a.y))

/-- The sequins of a source from a given state; END (4) finishes. -/
noncomputable def sequinWalk (lm : Libm) (round : Bool) : Head → Option Stitch → List Stitch → List Pt
  | _, _, [] => []
  | h, prev, st :: rest =>
    if st.low = 4 then []
    else (if st.low = 7 ∧ h.sequin = 0xF5 then [h.image round st] else []) ++
      sequinWalk lm round (h.step lm round prev st rest).2 (some st) rest

/-- Where `f` puts the sequins of a design, rounded. -/
def sequinImages (round : Bool) (f : Pt → Pt) (l : List Stitch) : List Pt :=
  (ejects l).map fun p => if round then ((pyRound (f p).1 : ℚ), (pyRound (f p).2 : ℚ)) else f p

/-- Every sequin is held by a thread: since the last trim, stop or change something was sewn or ejected, and the frame moves at most `M` for it.
`down` says whether the thread is in the fabric, `p` is the place of the needle. -/
def Held (M : ℚ) : Bool → Pt → List Stitch → Prop
  | _, _, [] => True
  | down, p, a :: l =>
    if a.low = 7 then down = true ∧ |a.x - p.1| ≤ M ∧ |a.y - p.2| ≤ M ∧ Held M true (a.x, a.y) l
    else if a.low = 0 then Held M true (a.x, a.y) l
    else if a.low = 1 then Held M down (a.x, a.y) l
    else if a.low ∈ [2, 3, 5, 9] then Held M false p l
    else Held M down p l

/-- The stitches, and the sequins as well if `too`. -/
def stitched (too : Bool) (l : List Stitch) : List Pt :=
  (l.filter (fun a => a.low == 0 || (too && a.low == 7))).map (fun a => (a.x, a.y))

/-- A design with sequins as files hold it: END at the end, whole positions. -/
structure Spangled (M : ℚ) (l : List Stitch) : Prop where
  shape : ∃ m e, l = m ++ [e] ∧ e.low = 4 ∧ ∀ a ∈ m, a.low ∈ [(0 : Int), 1, 2, 3, 5, 6, 7, 9, 11, 12]
  whole : ∀ a ∈ l, ∃ i j : Int, a.x = i ∧ a.y = j
  held : Held M false (0, 0) l

/-! ## Sequins of the normalized pattern -/

namespace Sequin

open Strike

variable {cfg : Cfg} {s s' t : St} {position : Nat} {prev : Option Stitch} {st : Stitch} {rest : List Stitch} {c : Int} {G : Prop}

theorem ejects_append (a b : List Stitch) : ejects (a ++ b) = ejects a ++ ejects b := by simp [ejects]

theorem ejects_mute {a : Stitch} (h : a.low ≠ 7) : ejects [a] = [] := by simp [ejects, h]

theorem ejects_none {l : List Stitch} (h : ∀ a ∈ l, a.low ≠ 7) : ejects l = [] := by
  unfold ejects
  rw [List.map_eq_nil_iff, List.filter_eq_nil_iff]
  intro a ha
  simpa using h a ha

/-- Only SEQUIN_EJECT ejects. -/
theorem micro_ejects (hc : c ≠ 7) (h : Micro cfg c G s s') (hh : HighInv s) : ejects s'.out = ejects s.out := by
  have app : ∀ a : Stitch, a.low ≠ 7 → ejects (s.out ++ [a]) = ejects s.out := by
    intro a ha
    rw [ejects_append, ejects_mute ha, List.append_nil]
  have plain : ∀ (x y : ℚ) (k : Int), 0 ≤ k → k < 256 → k ≠ 7 → ejects (s.out ++ [⟨x, y, k + s.high⟩]) = ejects s.out := by
    intro x y k h0 h1 h2
    refine app _ ?_
    have hlow : (⟨x, y, k + s.high⟩ : Stitch).low = k := low_add hh (by omega) (by omega)
    omega
  cases h with
  | quiet => rfl
  | high => rfl
  | maxStitch => rfl
  | maxJump => rfl
  | long => rfl
  | sequin => rfl
  | untrim => rfl
  | toggle h => exact plain _ _ 6 (by decide) (by decide) (by decide)
  | stitch x y h => exact plain _ _ 0 (by decide) (by decide) (by decide)
  | jump x y h hm => exact plain _ _ 1 (by decide) (by decide) (by decide)
  | eject x y h hm hc' => exact absurd hc' hc
  | trim h hm => exact plain _ _ 2 (by decide) (by decide) (by decide)
  | stop h => exact plain _ _ 3 (by decide) (by decide) (by decide)
  | speed v h hw hcv =>
    rcases h with rfl | rfl
    · exact plain _ _ 11 (by decide) (by decide) (by decide)
    · exact plain _ _ 12 (by decide) (by decide) (by decide)
  | lock ax ay =>
    obtain ⟨a1, a2, a3, e, e1, e2, e3⟩ := lockStitches_eq cfg.lm s.nx s.ny ax ay s.maxStitch
    show ejects (s.out ++ lockStitches cfg.lm s.nx s.ny ax ay s.maxStitch) = _
    rw [ejects_append, ejects_none (l := lockStitches cfg.lm s.nx s.ny ax ay s.maxStitch), List.append_nil]
    intro b hb
    rw [e] at hb
    have : b.low = 0 := by
      simp at hb
      rcases hb with rfl | rfl | rfl | rfl <;> simp [Stitch.low, e1, e2, e3]
    omega
  | change s' h =>
    obtain ⟨ch, _, hcase⟩ := nextChange_out h
    have low : ∀ {k : Int} {a b}, 0 ≤ k → k < 256 → k ≠ 7 → (⟨s.nx, s.ny, encodeThreadChange k a b none⟩ : Stitch).low ≠ 7 := by
      intro k a b h0 h1 h2 h7
      have : encodeThreadChange k a b none % 256 = k := encodeThreadChange_low k h0 h1 _ _ _
      exact h2 (this.symm.trans h7)
    rcases hcase with ⟨hc, _, ⟨_, e⟩ | ⟨_, e⟩⟩ | ⟨hc, _, e⟩ | ⟨hx, _, e⟩ | ⟨_, _, _, _, e⟩
    · rw [e]
    · rw [e]; exact app _ (low (k := COLOR_CHANGE) (by decide) (by decide) (by decide))
    · rw [e]; exact app _ (low (k := NEEDLE_SET) (by decide) (by decide) (by decide))
    · rw [e]; exact app _ (low (k := STOP) (by decide) (by decide) (by decide))
    · rw [e]

theorem chain_ejects (hc : c ≠ 7) (h : Chain cfg c G s s') (hI : BaseInv s) (hh : HighInv s) : ejects s'.out = ejects s.out :=
  (chain_lift (P := fun u => HighInv u ∧ ejects u.out = ejects s.out)
    (fun _ _ _ hm hp => ⟨micro_high hm hp.1, (micro_ejects hc hm hp.1).trans hp.2⟩) h hI ⟨hh, rfl⟩).2

theorem chain_high (h : Chain cfg c G s s') (hI : BaseInv s) (hh : HighInv s) : HighInv s' :=
  chain_lift (P := HighInv) (fun _ _ _ hm hp => micro_high hm hp) h hI hh

/-- SEQUIN_EJECT ejects one sequin at its place, if sequins are used. -/
theorem eject_ejects (hI : BaseInv s) (g : Good s) (a : Around cfg.source position prev st rest) {x y : ℚ}
    (h : ejectStep cfg position s x y = .ok s') :
    ejects s'.out = ejects s.out ++ (if s.sequinC = 0xF5 then [(x, y)] else []) := by
  unfold ejectStep at h
  rw [bind_ok] at h
  obtain ⟨s1, hs1, h2⟩ := h
  have hq : ejects s1.out = ejects s.out ∧ HighInv s1 ∧ s1.sequinC = s.sequinC ∧ SeqInv s1 := by
    cases ht : s.trimmed with
    | true =>
      rw [ht, if_pos rfl] at hs1
      have hc := (firstStrike_chain (c := 0) (G := False) hI (fun f => f.elim) (fun f => f.elim) hs1).1
      have := (firstStrike_eff g a hs1).head
      exact ⟨chain_ejects (by decide) hc hI g.high, chain_high hc hI g.high, congrArg Head.sequin this, (chain_base hc hI).1⟩
    | false =>
      rw [ht, if_neg (by simp)] at hs1
      injection hs1 with hs1; subst hs1
      exact ⟨rfl, g.high, rfl, hI.1⟩
  obtain ⟨q1, q2, q3, q4⟩ := hq
  have hr : ejects (if s1.sequinMode = true then s1 else toggleSequins s1).out = ejects s1.out ∧
      HighInv (if s1.sequinMode = true then s1 else toggleSequins s1) ∧
      (if s1.sequinMode = true then s1 else toggleSequins s1).sequinC = s1.sequinC := by
    split
    · exact ⟨rfl, q2, rfl⟩
    · unfold toggleSequins
      split
      · refine ⟨?_, q2, rfl⟩
        show ejects (s1.out ++ [_]) = _
        rw [ejects_append, ejects_mute, List.append_nil]
        rw [low_add q2 (by decide) (by decide)]; decide
      · exact ⟨rfl, q2, rfl⟩
  generalize (if s1.sequinMode = true then s1 else toggleSequins s1) = s2 at h2 hr
  obtain ⟨r1, r2, r3⟩ := hr
  have e2 : s2.sequinC = s.sequinC := r3.trans q3
  unfold sequinAt at h2
  simp only at h2
  split at h2
  · rename_i h8
    injection h2 with h2; subst h2
    rw [e2] at h8
    rw [if_neg (by rw [h8]; decide), r1, q1, List.append_nil]
  · rw [bind_ok] at h2
    obtain ⟨s3, h3, h4⟩ := h2
    rw [pure_ok] at h4; subst h4
    obtain ⟨⟨n, e3, hn⟩, -, hh⟩ := Score.gap_quiet r2 (.inr (.inr (.inr rfl))) h3
    have hz : ejects s3.out = ejects s2.out := by
      have hge : ∀ (n : Nat) (s : St) (u v : ℚ), HighInv s → ejects (gapLoop STITCH u v n s).out = ejects s.out := by
        intro n
        induction n with
        | zero => intro s u v _; rfl
        | succ n ih =>
          intro s u v hs
          rw [gapLoop, ih (s.moveTo STITCH (s.nx + u) (s.ny + v)) u v hs]
          show ejects (s.out ++ [_]) = _
          rw [ejects_append, ejects_mute, List.append_nil]
          rw [low_add hs (by decide) (by decide)]; decide
      unfold gap at h3
      simp only at h3
      split at h3
      · injection h3 with h3; rw [← h3]
      · split at h3
        · rw [if_neg (c := STITCH = JUMP ∧ s2.sequinMode = true) (fun h => absurd h.1 (by decide))] at h3
          split at h3
          · cases h3
          · split at h3
            · split at h3
              · cases h3
              · injection h3 with h3; rw [← h3]; exact hge _ _ _ _ r2
            · split at h3
              · cases h3
              · injection h3 with h3; rw [← h3]; exact hge _ _ _ _ r2
        · injection h3 with h3; rw [← h3]
    have hh3 : s3.high % 256 = 0 := by rw [hh]; exact r2
    have hm : ∀ k : Int, 0 ≤ k → k < 256 → ejects (s3.out ++ [⟨x, y, k + s3.high⟩]) = ejects s3.out ++ if k = 7 then [(x, y)] else [] := by
      intro k h0 h1
      have hlow : (⟨x, y, k + s3.high⟩ : Stitch).low = k := low_add hh3 (by omega) (by omega)
      rw [ejects_append]
      congr 1
      split_ifs with h7
      · have : (⟨x, y, k + s3.high⟩ : Stitch).low = 7 := hlow.trans h7
        unfold ejects
        rw [List.filter_cons, if_pos (by rw [this]; rfl)]
        rfl
      · exact ejects_mute (by rw [hlow]; exact h7)
    rw [e2]
    have hd : ejects s.out = ejects s3.out := by rw [hz, r1, q1]
    rw [hd]
    by_cases h5 : s.sequinC = 0xF5
    · rw [if_pos (show s.sequinC = CONTINGENCY_SEQUIN_UTILIZE from h5), if_pos h5]
      exact hm 7 (by decide) (by decide)
    · rw [if_neg (show ¬ s.sequinC = CONTINGENCY_SEQUIN_UTILIZE from h5), if_neg h5, List.append_nil]
      split
      · have := hm 1 (by decide) (by decide)
        rw [if_neg (by decide), List.append_nil] at this
        exact this
      · split
        · have := hm 0 (by decide) (by decide)
          rw [if_neg (by decide), List.append_nil] at this
          exact this
        · rfl

theorem step_ejects (hI : BaseInv s) (g : Good s) (a : Around cfg.source position prev st rest)
    (h : Emb.step cfg position s st = .ok s') :
    ejects s'.out = ejects s.out ++ (if st.low = 7 ∧ (headOf s).sequin = 0xF5 then [(headOf s).image cfg.round st] else []) := by
  by_cases h7 : st.low = 7
  · unfold Emb.step at h
    simp only at h
    have hp : target cfg s st = (headOf s).image cfg.round st := rfl
    rw [hp, show cmdOf st.cmd = 7 from h7] at h
    have h : ejectStep cfg position { s with high := flagsOf st.cmd } ((headOf s).image cfg.round st).1 ((headOf s).image cfg.round st).2
      = .ok s' := h
    have := eject_ejects (s := { s with high := flagsOf st.cmd }) hI ⟨flagsOf_low _, g.affine, g.order, g.down⟩ a h
    rw [this]
    show ejects s.out ++ (if s.sequinC = 0xF5 then _ else _) = ejects s.out ++ (if st.low = 7 ∧ s.sequinC = 0xF5 then _ else _)
    simp only [h7, true_and]
  · rw [if_neg (fun h => h7 h.1), List.append_nil]
    exact chain_ejects (c := cmdOf st.cmd) h7 (step_chain st hI h).1 hI g.high

theorem run_sequins (cfg : Cfg) : ∀ (rest : List Stitch) (position : Nat) (s sf : St) (prev : Option Stitch), Good s → BaseInv s →
    (∃ pre, cfg.source = pre ++ rest ∧ pre.length = position) →
    prev = (if position = 0 then cfg.source.getLast? else cfg.source[position - 1]?) →
    runFrom cfg position s rest = .ok sf →
    ejects sf.out = ejects s.out ++ sequinWalk cfg.lm cfg.round (headOf s) prev rest := by
  intro rest
  have hend : ∀ s : St, Good s → ejects (endHere s).out = ejects s.out := by
    intro s g
    show ejects (s.out ++ [_]) = _
    rw [ejects_append, ejects_mute, List.append_nil]
    rw [low_add g.high (by decide) (by decide)]; decide
  induction rest with
  | nil =>
    intro position s sf prev g _ _ _ h
    rw [runFrom] at h
    injection h with h; subst h
    rw [hend s g, sequinWalk]; simp
  | cons st rest ih =>
    intro position s sf prev g hI hs hp h
    rw [runFrom] at h
    rw [sequinWalk]
    by_cases h4 : st.low = 4
    · rw [if_pos (show cmdOf st.cmd = END from h4)] at h
      injection h with h; subst h
      rw [if_pos h4]
      have := hend { s with high := flagsOf st.cmd } ⟨flagsOf_low _, g.affine, g.order, g.down⟩
      rw [this]; simp
    · rw [if_neg (show ¬ cmdOf st.cmd = END from h4)] at h
      rw [if_neg h4]
      cases hst : Emb.step cfg position s st with
      | error e => rw [hst] at h; cases h
      | ok s' =>
        rw [hst] at h
        simp only at h
        obtain ⟨pre, e1, e2⟩ := hs
        have e := step_eff g ⟨⟨pre, e1, e2⟩, hp⟩ hst
        have e' := step_ejects hI g ⟨⟨pre, e1, e2⟩, hp⟩ hst
        have := ih (position + 1) s' sf (some st) e.good (chain_base (step_chain st hI hst).1 hI)
          ⟨pre ++ [st], by simp [e1], by simp [e2]⟩ ?_ h
        · rw [this, e', e.head, List.append_assoc]
        · rw [if_neg (by omega), e1]
          simp [← e2]

end Sequin

variable {o : Settings} {lm : Libm} {threads : List Thread} {source out : List Stitch} {ths : List (Option Thread)}

/-- **C129**: for every source, every (documented) setting and every maths library, sequins are ejected exactly at the SEQUIN_EJECT commands before END for which
sequins are in use, placed by the transformation there. -/
theorem C129_sequins (hv : o.ValidSequins) (h : encode o lm threads source = .ok (out, ths)) :
    ejects out = sequinWalk lm o.round (o.head lm) source.getLast? source := by
  obtain ⟨plan, sf, -, hr, rfl, -⟩ := encode_state h
  have := Sequin.run_sequins _ _ _ _ _ source.getLast?
    (⟨rfl, (Strike.place_affine o lm).1, le_refl _, fun h => nomatch h⟩ : Strike.Good (initSt o lm threads))
    (init_base o lm threads hv) ⟨[], rfl, rfl⟩ rfl hr
  rw [Strike.init_head] at this
  rw [this]
  rfl

/-! ## Without transformations on the way -/

namespace Sequin

/-- A command that neither moves the design nor changes what becomes of sequins. -/
def Steady (st : Stitch) : Prop := st.low ∉ [(4 : Int), 0xC0, 0xC1, 0xC2, 0xC3, 0xC4, 0xC5, 0xF5, 0xF6, 0xF7, 0xF8]

theorem sew_steady {h : Head} {next : Option Stitch} {p : Pt} {fine : Bool} :
    (h.sew lm next p fine).2.f = h.f ∧ (h.sew lm next p fine).2.sequin = h.sequin := by
  unfold Head.sew
  split
  · split <;> exact ⟨rfl, rfl⟩
  · exact ⟨rfl, rfl⟩

theorem step_steady {round : Bool} {h : Head} (prev : Option Stitch) {st : Stitch} (rest : List Stitch) (hp : Steady st) :
    (h.step lm round prev st rest).2.f = h.f ∧ (h.step lm round prev st rest).2.sequin = h.sequin := by
  unfold Steady at hp
  simp only [List.mem_cons, List.not_mem_nil, or_false, not_or] at hp
  obtain ⟨n4, n0, n1, n2, n3, n5, n6, n7, n8, n9, n10⟩ := hp
  unfold Head.step
  dsimp only
  generalize st.low = c at *
  simp only [n0, n1, n2, n3, n5, n6, n7, n8, n9, n10, if_false, or_self]
  have e1 : ∀ n p b, (h.sew lm n p b).2.f = h.f := fun _ _ _ => sew_steady.1
  have e2 : ∀ n p b, (h.sew lm n p b).2.sequin = h.sequin := fun _ _ _ => sew_steady.2
  constructor
  · simp only [apply_ite Prod.snd, apply_ite Head.f, e1, ite_self]
  · simp only [apply_ite Prod.snd, apply_ite Head.sequin, e2, ite_self]

theorem walk_steady {round : Bool} : ∀ (A : List Stitch) (h : Head) (prev : Option Stitch) (E : List Stitch), (∀ st ∈ A, Steady st) →
    (∀ e ∈ E.head?, e.low = 4) →
    sequinWalk lm round h prev (A ++ E) = if h.sequin = 0xF5 then sequinImages round h.f A else [] := by
  intro A
  induction A with
  | nil =>
    intro h prev E _ hE
    cases E with
    | nil => simp [sequinWalk, sequinImages, ejects]
    | cons e E => rw [List.nil_append, sequinWalk, if_pos (hE e (by simp))]; simp [sequinImages, ejects]
  | cons st A ih =>
    intro h prev E hA hE
    have hs := hA st (by simp)
    obtain ⟨e1, e2⟩ := step_steady (lm := lm) (round := round) (h := h) prev (A ++ E) hs
    have h4 : ¬ st.low = 4 := fun e => hs (by simp [e])
    rw [List.cons_append, sequinWalk, if_neg h4, ih _ _ E (fun a ha => hA a (by simp [ha])) hE, e1, e2]
    by_cases h5 : h.sequin = 0xF5
    · rw [if_pos h5, if_pos h5]
      unfold sequinImages
      rw [show st :: A = [st] ++ A from rfl, ejects_append, List.map_append]
      congr 1
      by_cases h7 : st.low = 7
      · rw [if_pos ⟨h7, h5⟩]
        unfold ejects
        rw [List.filter_cons, if_pos (by rw [h7]; rfl)]
        rfl
      · rw [if_neg (fun h => h7 h.1), ejects_mute h7]; rfl
    · rw [if_neg h5, if_neg h5, if_neg (fun h => h5 h.2)]; rfl

theorem sequin_head : (o.head lm).sequin = o.sequin := by
  unfold Settings.head Settings.sequin
  cases o.sequinContingency <;> rfl

end Sequin

/-- **C129**: if the source neither transforms nor says otherwise about sequins on its way, there is one sequin for each SEQUIN_EJECT before END, in order,
where the settings put it, if sequins are in use, and none at all if not. `E` is empty or starts with END. -/
theorem C129_exact {A E : List Stitch} (hv : o.ValidSequins)
    (hA : ∀ st ∈ A, st.low ∉ [(4 : Int), 0xC0, 0xC1, 0xC2, 0xC3, 0xC4, 0xC5, 0xF5, 0xF6, 0xF7, 0xF8]) (hE : ∀ e ∈ E.head?, e.low = 4)
    (h : encode o lm threads (A ++ E) = .ok (out, ths)) :
    ejects out = if o.sequin = 0xF5 then sequinImages o.round (o.place lm) A else [] := by
  rw [C129_sequins hv h, Sequin.walk_steady A _ _ E hA hE, Sequin.sequin_head]
  rfl

/-! ## What is sewn -/

namespace Sequin

/-- What the walk knows while nothing ties, cuts or transforms. -/
structure Calm (c : Int) (M : ℚ) (down : Bool) (p : Pt) (h : Head) : Prop where
  simple : h.Simple
  f : ∀ q, h.f q = q
  limit : h.limit = some M
  sequin : h.sequin = c
  jumping : h.jumping = false
  down : h.down = down
  pt : c ≠ 0xF8 → h.pt = p

theorem sew_calm {c : Int} {M : ℚ} {down : Bool} {p q : Pt} {h : Head} (k : Calm c M down p h) (next : Option Stitch) :
    (h.sew lm next q false).1 = [q] ∧ Calm c M true q (h.sew lm next q false).2 := by
  refine ⟨(Strike.sew_plain k.simple (by simp)).1, ?_⟩
  obtain ⟨⟨k1, k2, k3⟩, k4, k5, k6, k7, k8, k9⟩ := k
  unfold Head.sew
  cases hd : h.down with
  | true =>
    rw [if_pos rfl, if_neg (by simp [k7])]
    exact ⟨⟨k1, k2, k3⟩, k4, k5, k6, k7, rfl, fun _ => rfl⟩
  | false =>
    rw [if_neg (by simp)]
    exact ⟨⟨k1, k2, k3⟩, k4, k5, k6, k7, rfl, fun _ => rfl⟩

theorem cuts_near {M : ℚ} {p q : Pt} (h1 : |q.1 - p.1| ≤ M) (h2 : |q.2 - p.2| ≤ M) : cuts (some M) p q = [] := by
  unfold cuts
  exact if_neg (by rintro (h | h) <;> linarith)

theorem image_whole {round : Bool} {h : Head} (hf : ∀ q, h.f q = q) {st : Stitch} (hw : ∃ i j : Int, st.x = i ∧ st.y = j) : h.image round st = (st.x, st.y) := by
  obtain ⟨i, j, hi, hj⟩ := hw
  unfold Head.image
  cases round <;> simp only [hf, hi, hj, pyRound_intCast, if_true, Bool.false_eq_true, if_false]

theorem walk_held {round : Bool} {c : Int} {M : ℚ} : ∀ (A : List Stitch) (down : Bool) (p : Pt) (h : Head) (prev : Option Stitch) (e : Stitch), Calm c M down p h →
    e.low = 4 → (∀ a ∈ A, a.low ∈ [(0 : Int), 1, 2, 3, 5, 6, 7, 9, 11, 12]) → (∀ a ∈ A, ∃ i j : Int, a.x = i ∧ a.y = j) →
    Held M down p (A ++ [e]) → walk lm round h prev (A ++ [e]) = stitched (c == 0xF7) A := by
  intro A
  induction A with
  | nil =>
    intro down p h prev e _ he _ _ _
    rw [List.nil_append, walk, if_pos he]; rfl
  | cons st A ih =>
    intro down p h prev e k he hA hw hh
    have hst := hA st (by simp)
    have him := image_whole (round := round) k.f (hw st (by simp))
    have ih := fun down p h prev k' hh => ih down p h prev e k' he (fun a ha => hA a (by simp [ha])) (fun a ha => hw a (by simp [ha])) hh
    rw [List.cons_append, Held] at hh
    have h4 : ¬ st.low = 4 := by
      intro h; rw [h] at hst; revert hst; decide
    rw [List.cons_append, walk, if_neg h4]
    have hoff := Strike.off_plain (lm := lm) k.simple prev
    have split : ∀ b, stitched b (st :: A) = (if st.low = 0 ∨ (b = true ∧ st.low = 7) then [(st.x, st.y)] else []) ++ stitched b A := by
      intro b
      unfold stitched
      rw [List.filter_cons]
      by_cases hc : st.low = 0 ∨ (b = true ∧ st.low = 7)
      · rw [if_pos hc, if_pos (by simpa using hc)]; rfl
      · rw [if_neg hc, if_neg (by simpa using hc)]; rfl
    rw [split]
    have go : ∀ {pts : List Pt} {h' : Head} {down' : Bool} {p' : Pt} {l : List Pt}, pts = l → Calm c M down' p' h' → Held M down' p' (A ++ [e]) →
        pts ++ walk lm round h' (some st) (A ++ [e]) = l ++ stitched (c == 0xF7) A := by
      intro pts h' down' p' l e1 k' hh'
      rw [e1, ih _ _ _ _ k' hh']
    simp only [List.mem_cons, List.not_mem_nil, or_false] at hst
    unfold Head.step
    simp only [him, hoff]
    have hlong : decide (h.long = 0xF2) = false := by simp [k.simple.long]
    have up : Calm c M false p { h with down := false } := ⟨⟨k.simple.on, k.simple.off, k.simple.long⟩, k.f, k.limit, k.sequin, k.jumping, rfl, k.pt⟩
    rcases hst with h0 | h0 | h0 | h0 | h0 | h0 | h0 | h0 | h0 | h0 <;>
      simp only [h0, Int.reduceEq, if_true, if_false, or_self, or_true, or_false, false_or, and_false, and_true, List.mem_cons,
        List.not_mem_nil] at hh ⊢
    · rw [hlong]
      obtain ⟨s1, s2⟩ := sew_calm (lm := lm) (q := (st.x, st.y)) k (A ++ [e]).head?
      exact go s1 s2 hh
    · refine go rfl ?_ hh
      rw [k.jumping, if_neg (by simp)]
      exact ⟨⟨k.simple.on, k.simple.off, k.simple.long⟩, k.f, k.limit, k.sequin, rfl, k.down, fun _ => rfl⟩
    · exact go rfl up hh
    · exact go rfl up hh
    · exact go rfl up hh
    · exact go rfl k hh
    · obtain ⟨hd, h1, h2, hh⟩ := hh
      have hdown : h.down = true := k.down.trans hd
      simp only [hdown, if_true, k.sequin]
      have kk : Calm c M true (st.x, st.y) { h with pt := (st.x, st.y), down := true, sequin := c } :=
        ⟨⟨k.simple.on, k.simple.off, k.simple.long⟩, k.f, k.limit, rfl, k.jumping, rfl, fun _ => rfl⟩
      by_cases h8 : c = 0xF8
      · rw [if_pos h8]
        refine go ?_ (⟨⟨k.simple.on, k.simple.off, k.simple.long⟩, k.f, k.limit, k.sequin, k.jumping, hdown, fun h => absurd h8 h⟩ : Calm c M true (st.x, st.y) h) hh
        rw [h8]; rfl
      · rw [if_neg h8]
        refine go ?_ kk hh
        rw [k.limit, k.pt h8, cuts_near (q := (st.x, st.y)) h1 h2]
        by_cases h7 : c = 0xF7 <;> simp [h7]
    · exact go rfl up hh
    · exact go rfl k hh
    · exact go rfl k hh

theorem held_start {M : ℚ} (ho : o.NoTies) (hp : ∀ p, o.place lm p = p) (hM : o.maxStitch = some M) : Calm o.sequin M false (0, 0) (o.head lm) :=
  ⟨ho.simple lm, hp, hM, sequin_head, rfl, rfl, fun _ => rfl⟩

/-- Points of one kind of command, if whole, are written as they are. -/
theorem points_alike {k : Int} {l m : List Stitch} (h : List.Forall₂ SaveLoad.Alike l m)
    (hw : ∀ p ∈ (l.filter (fun a => a.low == k)).map (fun a => (a.x, a.y)), ∃ i j : Int, p = ((i : ℚ), (j : ℚ))) :
    (m.filter (fun a => a.low == k)).map (fun a => (a.x, a.y)) = (l.filter (fun a => a.low == k)).map (fun a => (a.x, a.y)) := by
  induction h with
  | nil => rfl
  | @cons a b l m h1 _ ih =>
    obtain ⟨e, hx, hy, i, j, hi, hj⟩ := h1
    rw [List.filter_cons, List.filter_cons, e]
    rw [List.filter_cons] at hw
    split_ifs at hw ⊢ with hk
    · rw [List.map_cons, List.map_cons, ih (fun p hp => hw p (by simp at hp ⊢; exact .inr hp))]
      obtain ⟨u, v, hp⟩ := hw (a.x, a.y) (by simp)
      have hu : a.x = u := congrArg Prod.fst hp
      have hv : a.y = v := congrArg Prod.snd hp
      rw [hi] at hx ⊢
      rw [hj] at hy ⊢
      rw [SaveLoad.whole_near hu hx, SaveLoad.whole_near hv hy]
    · exact ih hw

theorem stitched_whole {b : Bool} {l : List Stitch} (h : ∀ a ∈ l, ∃ i j : Int, a.x = i ∧ a.y = j) : ∀ p ∈ stitched b l, ∃ i j : Int, p = ((i : ℚ), (j : ℚ)) := by
  intro p hp
  obtain ⟨a, ha, rfl⟩ := List.mem_map.1 hp
  obtain ⟨i, j, hi, hj⟩ := h a (List.mem_filter.1 ha).1
  exact ⟨i, j, by rw [hi, hj]⟩

theorem stitched_end {b : Bool} {m : List Stitch} {e : Stitch} (he : e.low = 4) : stitched b (m ++ [e]) = stitched b m := by
  unfold stitched
  rw [List.filter_append]
  simp [he]

theorem ejects_end {m : List Stitch} {e : Stitch} (he : e.low = 4) : ejects (m ++ [e]) = ejects m := by
  rw [ejects_append, ejects_mute (by omega), List.append_nil]

theorem images_whole {round : Bool} {l : List Stitch} {f : Pt → Pt} (hf : ∀ p, f p = p) (h : ∀ a ∈ l, ∃ i j : Int, a.x = i ∧ a.y = j) : sequinImages round f l = ejects l := by
  unfold sequinImages
  conv_rhs => rw [← List.map_id (ejects l)]
  refine List.map_congr_left fun p hp => ?_
  obtain ⟨a, ha, rfl⟩ := List.mem_map.1 hp
  obtain ⟨i, j, hi, hj⟩ := h a (List.mem_filter.1 ha).1
  cases round <;> simp only [if_true, Bool.false_eq_true, if_false, hf, hi, hj, pyRound_intCast, id]

end Sequin

/-- **C129**: of a design whose sequins are held by a thread, exactly its stitches are sewn, and its sequins too if the settings turn them into stitches; and exactly its
sequins are ejected if the settings use them. -/
theorem C129_held {M : ℚ} {l : List Stitch} (hl : Spangled M l) (hv : o.ValidSequins) (ho : o.NoTies) (hp : ∀ p, o.place lm p = p)
    (hM : o.maxStitch = some M) (h : encode o lm threads l = .ok (out, ths)) :
    strikes out = stitched (o.sequin == 0xF7) l ∧ ejects out = if o.sequin = 0xF5 then ejects l else [] := by
  obtain ⟨⟨m, e, rfl, he, hk⟩, hw, hh⟩ := hl
  constructor
  · rw [C24_strikes h, Sequin.stitched_end he]
    exact Sequin.walk_held m false (0, 0) _ _ e (Sequin.held_start ho hp hM) he hk (fun a ha => hw a (by simp [ha])) hh
  · rw [C129_exact hv (fun st hst => ?_) (by simpa using he) h, Sequin.images_whole hp (fun a ha => hw a (by simp [ha])), Sequin.ejects_end he]
    have := hk st hst
    simp only [List.mem_cons, List.not_mem_nil, or_false] at this ⊢
    omega

namespace Sequin

/-- The same, written as displacements and added up again. -/
theorem written {M : ℚ} {l : List Stitch} (hl : Spangled M l) (hs : Saving o lm M) (h : encode o lm threads l = .ok (out, ths)) :
    strikes (place 0 0 (deltas 0 0 out)) = stitched (o.sequin == 0xF7) l ∧
    ejects (place 0 0 (deltas 0 0 out)) = if o.sequin = 0xF5 then ejects l else [] := by
  obtain ⟨h1, h2⟩ := C129_held hl hs.sequins hs.ties hs.place hs.stitch h
  have ha := SaveLoad.alike_deltas out
  constructor
  · rw [← h1]
    refine points_alike ha ?_
    show ∀ p ∈ strikes out, _
    rw [h1]
    exact stitched_whole hl.whole
  · rw [← h2]
    refine points_alike ha ?_
    show ∀ p ∈ ejects out, _
    rw [h2]
    intro p hp
    split_ifs at hp
    · obtain ⟨a, ha, rfl⟩ := List.mem_map.1 hp
      obtain ⟨i, j, hi, hj⟩ := hl.whole a (List.mem_filter.1 ha).1
      exact ⟨i, j, by rw [hi, hj]⟩
    · simp at hp

/-- The same for the formats with needles. -/
theorem written_any {l : List Stitch} (hl : Spangled 127 l) (hs : SavingNeedles o lm) (h : encode o lm threads l = .ok (out, ths)) :
    strikes (place 0 0 (wdeltas 0 0 out)) = stitched (o.sequin == 0xF7) l := by
  obtain ⟨h1, -⟩ := C129_held hl hs.sequins hs.ties hs.place hs.stitch h
  rw [← h1]
  refine points_alike ((Needle.alike_wdeltas out).imp fun a b h => h.1) ?_
  show ∀ p ∈ strikes out, _
  rw [h1]
  exact stitched_whole hl.whole

theorem low_of {M : ℚ} {l : List Stitch} (hl : Spangled M l) : ∀ st ∈ l, st.low ≠ 0xD5 ∧ st.low ≠ 0xD6 ∧ st.low ≠ 0xF0 ∧ st.low ≠ 0xF5 := by
  obtain ⟨⟨m, e, rfl, he, hm⟩, -, -⟩ := hl
  intro a ha
  rcases List.mem_append.1 ha with ha | ha
  · have := hm a ha
    simp only [List.mem_cons, List.not_mem_nil, or_false] at this
    omega
  · simp at ha; subst ha; omega

theorem ejects_dst (l : List Stitch) : ejects (Dst.sewn l) = ejects l := by
  induction l with
  | nil => rfl
  | cons a l ih =>
    rw [show a :: l = [a] ++ l from rfl, ejects_append, ← ih]
    have : Dst.sewn ([a] ++ l) = Dst.sewn [a] ++ Dst.sewn l := by unfold Dst.sewn; rw [List.filterMap_append]
    rw [this, ejects_append]
    congr 1
    unfold Dst.sewn
    by_cases h0 : a.low = 0 ∨ a.low = 7
    · rw [List.filterMap_cons_some (by rw [if_pos h0])]
      have hl : (⟨a.x, a.y, a.low⟩ : Stitch).low = a.low := by unfold Stitch.low; simp
      rw [List.filterMap_nil]
      unfold ejects
      rw [List.filter_cons, List.filter_cons, hl]
      split_ifs <;> rfl
    · by_cases h5 : a.low = 5 ∨ a.low = 3
      · rw [List.filterMap_cons_some (by rw [if_neg h0, if_pos h5]), List.filterMap_nil, ejects_mute, ejects_mute (by omega)]
        unfold Stitch.low; simp
      · rw [List.filterMap_cons_none (by rw [if_neg h0, if_neg h5]), ejects_mute (by omega)]; rfl

end Sequin

/-- **C129**: DST. A design with sequins saved as DST and loaded again has the same sequins and the same stitches, each in their order and at their
places, if the settings use sequins; with other settings no sequins and the same stitches, to which the sequins are added if they are turned into stitches. -/
theorem C129_dst {l : List Stitch} (hl : Spangled 121 l) (hs : Saving o lm 121) (hfast : ∀ a ∈ l, a.low ≠ 11 ∧ a.low ≠ 12)
    (h : encode o lm threads l = .ok (out, ths)) (t : Int) :
    ∃ b, Dst.writeBody t out = .ok b ∧ ∀ header : Bytes, header.length = 512 → ∀ ta dist clipping,
      strikes (Dst.read ta dist clipping (header ++ b)) = stitched (o.sequin == 0xF7) l ∧
      ejects (Dst.read ta dist clipping (header ++ b)) = if o.sequin = 0xF5 then ejects l else [] := by
  have hq := Sequin.low_of hl
  obtain ⟨b, hw, hrd⟩ := Dst.C06_roundtrip_partial hs.libm hs.sequins hs.round hs.stitch hs.jump (.inl hs.long) (by rw [hs.change]; decide)
    (fun st h => ⟨(hq st h).1, (hq st h).2.1, (hq st h).2.2.1, hfast st h⟩) h t
  refine ⟨b, hw, fun header hh ta dist clipping => ?_⟩
  have hrd := hrd header hh ta dist clipping
  obtain ⟨h1, h2⟩ := Sequin.written hl hs h
  constructor
  · rw [← Convert.strikes_dst, hrd, Convert.strikes_dst, h1]
  · rw [← Sequin.ejects_dst, hrd, Sequin.ejects_dst, h2]

/-- **C129**: EXP, which holds no sequins: the stitches stay where they are, and the sequins are added to them if they are turned into stitches. -/
theorem C129_exp {l : List Stitch} (hl : Spangled 127 l) (hs : Saving o lm 127) (hm : o.sequin ≠ 0xF5) (h : encode o lm threads l = .ok (out, ths)) :
    strikes (Exp.read (Exp.write out)) = stitched (o.sequin == 0xF7) l := by
  rw [Exp.C08_roundtrip hs.libm hs.sequins hs.round hs.stitch hs.jump (.inl hs.long) (by rw [hs.change]; decide) hm (Sequin.low_of hl) h]
  rw [Convert.strikes_view, (Sequin.written hl hs h).1]
  intro a ha
  have hw := (SaveLoad.written_low (P := fun _ => True) (l := out) (fun _ _ => trivial) a ha).2
  have hr : 0 ≤ a.low ∧ a.low < 256 := by unfold Stitch.low; omega
  rw [hw]
  unfold Exp.shows
  split_ifs <;> dsimp only <;> omega

/-- **C129**: JEF, likewise. -/
theorem C129_jef {l l' : List Stitch} {T : List (Option ℕ)} {f : Bytes} {trimAt : Option Nat} {date : Bytes} {hoop : Int × Int} {ts : List Thread} {ta : Option Int}
    {dist : Option ℚ} {clipping : Bool} (hl : Spangled 127 l) (hs : Saving o lm 127) (hm : o.sequin ≠ 0xF5) (h : encode o lm threads l = .ok (out, ths))
    (hf : ∀ a, out.head? = some a → a.low ≠ 5) (hd : date.length = 14) (hw : Jef.write trimAt date hoop.1 hoop.2 ts out = .ok f)
    (hsz : out.length < 2 ^ 28) (hrd : Jef.read ta dist clipping f = .ok (l', T)) :
    strikes l' = stitched (o.sequin == 0xF7) l := by
  obtain ⟨T3, h3, -, -⟩ := Jef.C09_roundtrip_partial hs.libm hs.sequins hs.round hs.stitch hs.jump (.inl hs.long) (by rw [hs.change]; decide)
    hm (Sequin.low_of hl) h hd hw hf hsz
  unfold Jef.read at hrd
  rw [h3] at hrd
  injection hrd with hrd; injection hrd with hrd hrd'
  rw [← hrd, Convert.strikes_edited (interpolateTrims_edited _ _ _ _), Convert.strikes_seen, (Sequin.written hl hs h).1]
  exact fun a ha => (SaveLoad.written_low (P := fun _ => True) (l := out) (fun _ _ => trivial) a ha).2

/-- **C129**: XXX, likewise. -/
theorem C129_xxx {l l' : List Stitch} {f : Bytes} {colours : List Int} {ts : List Thread} (hl : Spangled 124 l) (hs : Saving o lm 124) (hm : o.sequin ≠ 0xF5)
    (h : encode o lm threads l = .ok (out, ths)) (ht : ts.length < 65536) (hlim : ∀ r ∈ deltas 0 0 out, r.cmd = 0 → |r.dx| < 124 ∧ |r.dy| < 124)
    (hw : Xxx.write ts out = .ok f) (hrd : Xxx.read f = .ok (colours, l')) : strikes l' = stitched (o.sequin == 0xF7) l := by
  obtain ⟨f2, h4, h5⟩ := Xxx.C15_roundtrip_partial hs.libm hs.sequins hs.round hs.stitch hs.jump (.inl hs.long) (by rw [hs.change]; decide)
    hm (Sequin.low_of hl) h ht (by
      intro r hr h0
      refine hlim ⟨r.dx, r.dy, cmdOf r.cmd⟩ ?_ h0
      rw [deltas_eq]
      exact List.mem_map.2 ⟨r, hr, rfl⟩)
  rw [hw] at h4
  injection h4 with h4; subst h4
  rw [hrd] at h5
  injection h5 with h5; injection h5 with h5' h5
  rw [h5, Convert.strikes_view, ← Convert.strikes_shaded _ 0, SaveLoad.shaded_words, Convert.strikes_shaded, (Sequin.written hl hs h).1]
  intro a _
  unfold Xxx.shows Stitch.low
  split_ifs <;> dsimp only <;> omega

/-- **C129**: U01, likewise. -/
theorem C129_u01 {l : List Stitch} {f : Bytes} (hl : Spangled 127 l) (hs : SavingNeedles o lm) (h : encode o lm threads l = .ok (out, ths))
    (hfast : ∀ a ∈ l, a.low ≠ 11 ∧ a.low ≠ 12) (hn : ∀ a ∈ out, U01.NeedleFits a.cmd) (hw : U01.write out = .ok f) :
    strikes (U01.read f) = stitched (o.sequin == 0xF7) l := by
  obtain ⟨f2, hw2, hr⟩ := U01.C13_roundtrip_partial hs.libm hs.sequins hs.stitch hs.jump (.inl hs.long) hs.change hs.nosequins (Sequin.low_of hl) hfast h hn
  rw [hw] at hw2
  injection hw2 with hw2; subst hw2
  rw [hr, Convert.strikes_view, Sequin.written_any hl hs h]
  intro a _
  unfold U01.shows Stitch.low
  split_ifs <;> dsimp only <;> omega

/-- **C129**: TBF, likewise. -/
theorem C129_tbf {l : List Stitch} {f : Bytes} {name tp : Str} {d} (hl : Spangled 127 l) (hs : SavingNeedles o lm) (hr : o.round = true)
    (h : encode o lm threads l = .ok (out, ths)) (hn : ∀ a ∈ out, a.low = 9 → a.cmd / 65536 % 256 ≠ 0) (hf : Tbf.Fits name tp threads out)
    (hw : Tbf.write name tp threads out = .ok f) (hrd : Tbf.read f = .ok d) : strikes d.stitches = stitched (o.sequin == 0xF7) l := by
  have hq := Sequin.low_of hl
  obtain ⟨f2, hw2, hr⟩ := Tbf.C14_exact hs.libm hs.sequins hr hs.stitch hs.jump (.inl hs.long) hs.change hs.nosequins hq h hn hf
  rw [hw] at hw2
  injection hw2 with hw2; subst hw2
  rw [hrd] at hr
  injection hr with hr
  rw [hr]
  dsimp only
  rw [Convert.strikes_tbf _ (U01.hidden_still hs.sequins hs.nosequins (fun st hst => (hq st hst).2.2.2) h), Sequin.written_any hl hs h]

/-- **C129**: VP3, with any settings that do not move or tie the design; `M` is the length above which its stitches are split. -/
theorem C129_vp3 {M : ℚ} {l : List Stitch} {f : Bytes} {T : List Thread} {filler : Nat → Thread} {x} {b} (hl : Spangled M l) (hv : o.ValidSequins)
    (ho : o.NoTies) (hp : ∀ p, o.place lm p = p) (hM : o.maxStitch = some M) (h : encode o lm threads l = .ok (out, ths)) (hf : f.length < 2 ^ 32)
    (hT : ∀ k, Vp3.PlainThread (Blocks.threadAt T filler k)) (hc : changes out < 65535) (hx : bounds out = some x) (hg : Vp3.Good out)
    (hr : Vp3.ReachAll 32767 (0, 0) out) (hcx : Vp3.Whole (Vp3.centre x)) (h5 : ∀ a ∈ out, a.low = 5 → a.x ≠ 0 ∧ a.y ≠ 0)
    (hw : Vp3.write T filler out = .ok f) (hrd : Vp3.read f = .ok b) : strikes b.stitches = stitched (o.sequin == 0xF7) l := by
  obtain ⟨b2, h1, h2, -⟩ := Vp3.C16_file_partial f T filler out x hf hT hc hx hg hr hcx h5 hw
  rw [hrd] at h1
  injection h1 with h1; subst h1
  rw [h2, Vp3.withEnd, Strike.strikes_append, ← Convert.strikes_shaded _ 0, SaveLoad.shaded_sewnFile, Convert.strikes_shaded, (C129_held hl hv ho hp hM h).1]
  exact List.append_nil _

namespace Sequin

theorem held_mono {M N : ℚ} (hMN : M ≤ N) : ∀ (l : List Stitch) (down : Bool) (p : Pt), Held M down p l → Held N down p l := by
  intro l
  induction l with
  | nil => intro _ _ h; simpa [Held] using h
  | cons a l ih =>
    intro down p h
    rw [Held] at h ⊢
    split_ifs at h ⊢ <;> first | exact ih _ _ h | exact ⟨h.1, h.2.1.trans hMN, h.2.2.1.trans hMN, ih _ _ h.2.2.2⟩

/-- What the DST reader makes of any bytes, sequins included. -/
theorem dst_spangled {M : ℚ} (ta : Int) (dist : Option ℚ) (clip : Bool) (b : Bytes) (h : Held M false (0, 0) (Dst.readBody ta dist clip b)) :
    Spangled M (Dst.readBody ta dist clip b) := by
  have hw : ∀ a ∈ Dst.readBody ta dist clip b, ∃ i j : Int, a.x = i ∧ a.y = j := Convert.trims_whole _ _ _ (Convert.whole_place _)
  obtain ⟨m, e, hl, he, hk, -⟩ := (Readers.design_of_few (by decide) (Readers.dst_few b false)).1
  refine ⟨?_, hw, h⟩
  rw [Dst.readBody, hl]
  have he : e.low = 4 := by show e.cmd % 256 = 4; rw [he]; rfl
  have hs := Resave.trims_snoc (some ta) (dist.map (· * 10)) clip m e (by rw [he]; decide)
  rw [hs]
  refine ⟨_, e, rfl, he, fun a ha => ?_⟩
  rcases Resave.trims_mem (interpolateTrims_edited _ _ _ m) a ha with h1 | h1
  · have h2 := hk a h1
    simp [Readers.dstKinds, STITCH, JUMP, COLOR_CHANGE, SEQUIN_MODE, SEQUIN_EJECT] at h2 ⊢
    omega
  · rw [h1]; decide

end Sequin

/-- **C129** (and C108 for files with sequins): whatever bytes the DST, TAP and EXY readers get, if the sequins they read are held by a thread, the design can be converted as
`C129_dst`, `C129_exp` and `C129_jef` say. -/
theorem C129_loaded {M : ℚ} {f : Bytes} {ta : Int} {dist : Option ℚ} {clip : Bool} :
    (∀ d, Dst.readDoc ta dist clip f = .ok d → Held M false (0, 0) d.stitches → Spangled M d.stitches) ∧
    (Held M false (0, 0) (Containers.readTap ta dist clip f) → Spangled M (Containers.readTap ta dist clip f)) ∧
    (Held M false (0, 0) (Containers.readExy ta dist clip f) → Spangled M (Containers.readExy ta dist clip f)) := by
  refine ⟨fun d h hh => ?_, fun hh => Sequin.dst_spangled _ _ _ _ hh, fun hh => Sequin.dst_spangled _ _ _ _ hh⟩
  rw [Dst.readDoc] at h
  obtain ⟨d', h1, h2⟩ := Convert.bind_ok h
  injection h2 with h2
  subst h2
  exact Sequin.dst_spangled _ _ _ _ hh

/-! ## Examples -/

/-- Two sequins in a row of stitches, a trim, a long way, and two sequins of the second colour. -/
def spangledDemo : List Stitch :=
  [⟨0, 0, 0⟩, ⟨10, 0, 0⟩, ⟨30, 5, 7⟩, ⟨50, 5, 7⟩, ⟨60, 0, 0⟩, ⟨60, 0, 2⟩, ⟨60, 0, 5⟩, ⟨360, 0, 1⟩, ⟨360, 0, 0⟩, ⟨350, 100, 7⟩, ⟨350, 120, 7⟩, ⟨350, 120, 4⟩]

theorem spangledDemo_ok : Spangled 121 spangledDemo where
  shape := ⟨spangledDemo.dropLast, ⟨350, 120, 4⟩, rfl, rfl, by decide +kernel⟩
  whole := by
    intro a ha
    simp only [spangledDemo, List.mem_cons, List.not_mem_nil, or_false] at ha
    rcases ha with rfl | rfl | rfl | rfl | rfl | rfl | rfl | rfl | rfl | rfl | rfl | rfl
    exacts [⟨0, 0, by simp⟩, ⟨10, 0, by simp⟩, ⟨30, 5, by simp⟩, ⟨50, 5, by simp⟩, ⟨60, 0, by simp⟩, ⟨60, 0, by simp⟩, ⟨60, 0, by simp⟩, ⟨360, 0, by simp⟩,
      ⟨360, 0, by simp⟩, ⟨350, 100, by simp⟩, ⟨350, 120, by simp⟩, ⟨350, 120, by simp⟩]
  held := by
    simp only [spangledDemo, Held, Stitch.low, List.mem_cons, List.not_mem_nil]
    norm_num [abs_le]

-- saved as DST and loaded again: four sequins and four stitches where they were
example : ∃ b, Dst.writeBody 3 (demoEncode Dst.settings spangledDemo) = .ok b ∧ ∀ header : Bytes, header.length = 512 →
    strikes (Dst.read 3 none true (header ++ b)) = [(0, 0), (10, 0), (60, 0), (360, 0)] ∧
    ejects (Dst.read 3 none true (header ++ b)) = [(30, 5), (50, 5), (350, 100), (350, 120)] := by
  obtain ⟨out, ths, he⟩ := C27_total (o := Dst.settings) (lm := demoLm) (threads := []) (source := spangledDemo) (by decide)
    (fun m h => by injection h with h; rw [← h]; norm_num) (fun m h => by injection h with h; rw [← h]; norm_num) (by decide +kernel)
  obtain ⟨b, hw, h⟩ := C129_dst spangledDemo_ok Resave.saving_dst (by decide +kernel) he 3
  have hd : demoEncode Dst.settings spangledDemo = out := by unfold demoEncode; rw [he]
  refine ⟨b, by rw [hd]; exact hw, fun header hh => ?_⟩
  obtain ⟨h1, h2⟩ := h header hh 3 none true
  rw [h1, h2]
  constructor <;> decide +kernel

theorem spangledDemo_wide {M : ℚ} (hM : 121 ≤ M) : Spangled M spangledDemo :=
  ⟨spangledDemo_ok.shape, spangledDemo_ok.whole, Sequin.held_mono hM _ _ _ spangledDemo_ok.held⟩

-- saved as U01, which turns sequins into jumps: the four stitches stay
example : ∃ f, U01.write (demoEncode U01.settings spangledDemo) = .ok f ∧ strikes (U01.read f) = [(0, 0), (10, 0), (60, 0), (360, 0)] := by
  obtain ⟨out, ths, he⟩ := C27_total (o := U01.settings) (lm := demoLm) (threads := []) (source := spangledDemo) (by decide)
    (fun m h => by injection h with h; rw [← h]; norm_num) (fun m h => by injection h with h; rw [← h]; norm_num) (by decide +kernel)
  have hs := Convert.saving_u01
  have hd : demoEncode U01.settings spangledDemo = out := by unfold demoEncode; rw [he]
  have hl := spangledDemo_wide (M := 127) (by norm_num)
  have hfit := U01.C13_needles hs.sequins hs.change (by decide) (by decide) he (by decide +kernel) (by unfold ChangeLike; decide +kernel)
  obtain ⟨f, hw, -⟩ := U01.C13_exact hs.libm hs.sequins hs.stitch hs.jump (.inl hs.long) hs.change hs.nosequins (Sequin.low_of hl) he hfit
  refine ⟨f, by rw [hd]; exact hw, ?_⟩
  rw [C129_u01 hl hs he (by decide +kernel) hfit hw]
  decide +kernel

/-- **C129** needs the thread: a sequin that begins a thread is sewn on with a stitch the source does not have (see C24), and one that is far away gets stitches on the way. -/
theorem C129_loose : strikes (demoEncode Dst.settings [⟨30, 5, 7⟩, ⟨31, 5, 0⟩, ⟨31, 5, 4⟩]) = [(30, 5), (31, 5)] ∧
    strikes (demoEncode Dst.settings [⟨0, 0, 0⟩, ⟨200, 0, 7⟩, ⟨200, 0, 4⟩]) = [(0, 0), (100, 0)] := by
  constructor <;> decide +kernel

end Emb
