import Verif.Props.MirrorProps
import Verif.Props.GapProps
import Verif.EncoderInv

/-!
# C105: a moved design is encoded to the moved result, but for the way to its first point
-/

namespace Emb

/-- A shift. -/
def shiftBy (tx ty : ℚ) (st : Stitch) : Stitch := ⟨st.x + tx, st.y + ty, st.cmd⟩

/-- A design moved: positions move, lengths remain. -/
def moveDesign (tx ty : ℚ) (l : List Stitch) : List Stitch := l.map fun st => if st.Length then st else shiftBy tx ty st

/-- The way to the first point: jumps, and at the origin the choice of the first thread or needle. -/
def OnTheWay (l : List Stitch) : Prop := ∀ a ∈ l, a.low = 1 ∨ (a.x = 0 ∧ a.y = 0 ∧ a.low ∈ [3, 5, 9])

namespace Move

/-- Only the needle and the output change, by jumps. -/
def Jumps (s s' : St) : Prop := ∃ J : List Stitch, s' = { s with nx := s'.nx, ny := s'.ny, out := s.out ++ J } ∧ ∀ a ∈ J, a.cmd = JUMP + s.high

theorem Jumps.refl (s : St) : Jumps s s := ⟨[], by simp, by simp⟩

theorem Jumps.trans {a b c : St} (h : Jumps a b) (k : Jumps b c) : Jumps a c := by
  obtain ⟨J, h, hJ⟩ := h
  obtain ⟨K, k, hK⟩ := k
  have hh : b.high = a.high := by rw [h]
  refine ⟨J ++ K, ?_, ?_⟩
  · rw [k, h]; simp
  · intro x hx
    rcases List.mem_append.1 hx with hx | hx
    · exact hJ x hx
    · rw [hK x hx, hh]

theorem jumps_moveTo (s : St) (x y : ℚ) : Jumps s (s.moveTo JUMP x y) := ⟨[⟨x, y, JUMP + s.high⟩], rfl, by simp⟩

theorem jumps_gapLoop (sx sy : ℚ) : ∀ (n : Nat) (s : St), Jumps s (gapLoop JUMP sx sy n s)
  | 0, s => .refl s
  | n + 1, s => (jumps_moveTo s _ _).trans (jumps_gapLoop sx sy n _)

theorem jumps_gap {s s' : St} {x y : ℚ} {limit : Option ℚ} (hm : s.sequinMode = false) (h : gap s x y limit JUMP = .ok s') :
    Jumps s s' := by
  cases limit with
  | none => cases h; exact .refl _
  | some m =>
    unfold gap at h
    simp only at h
    rw [hm] at h
    simp only [Bool.false_eq_true, and_false, if_false] at h
    generalize (if ceilQ |(x - s.nx) / m| > ceilQ |(y - s.ny) / m| then ceilQ |(x - s.nx) / m| else ceilQ |(y - s.ny) / m|) = n at h
    split_ifs at h
    · cases h; exact jumps_gapLoop _ _ _ _
    · cases h; exact .refl _

theorem jumps_within {cfg : Cfg} {s s' : St} {x y : ℚ} (hm : s.sequinMode = false) (h : jumpToWithin cfg s x y = .ok s') :
    Jumps s s' := by
  refine Mirror.kept_bind h (fun a => jumps_gap hm) fun a ha hk => ?_
  injection hk with hk
  subst hk
  refine ha.trans ?_
  split
  · unfold jumpAt
    have : a.sequinMode = false := by obtain ⟨J, ha, -⟩ := ha; rw [ha]; exact hm
    simp only [this, Bool.false_eq_true, if_false]
    exact jumps_moveTo a x y
  · exact .refl _

theorem within_total (cfg : Cfg) {s : St} (x y : ℚ) (hm : ∀ m, s.maxJump = some m → 0 < m) : ∃ s', jumpToWithin cfg s x y = .ok s' := by
  obtain ⟨s', h⟩ := C23_gap_total (s := s) (x := x) (y := y) (data := JUMP) hm
  exact ⟨_, by unfold jumpToWithin; rw [h]; rfl⟩

/-- The motion that moves nothing. -/
def still : Motion := ⟨⟨false, false, false⟩, 0, 0⟩

theorem still_act (p : ℚ × ℚ) : still.act p = p := by simp [still, Motion.act, Sym.act]

theorem still_stitch (a : Stitch) : still.stitch a = a := by
  unfold Motion.stitch
  rw [still_act]

theorem still_fair (lm : Libm) : still.Fair lm := ⟨fun p q => by rw [still_act, still_act], fun p q d => by simp only [still_act]⟩

theorem still_twin (N : Mat) (cfg : Cfg) : Mirror.Twin still N N id cfg cfg :=
  ⟨by rw [List.map_id], fun _ => rfl, fun _ _ => rfl, fun _ _ => by rw [still_act]; rfl, fun _ => ⟨0, 0, by simp [still], by simp [still]⟩⟩

theorem still_map (l : List Stitch) : l.map still.stitch = l := by
  rw [show still.stitch = id from funext still_stitch, List.map_id]

/-- The rest of the run, from the first point on. -/
theorem rest {g : Motion} {N M : Mat} {h : Stitch → Stitch} {cfg cfg' : Cfg} (t : Mirror.Twin g N M h cfg cfg') {r : St}
    (hr : Mirror.Fine g N cfg.lm r) {l : List Stitch} (hc : ∀ a ∈ l, Mirror.Calm (g.Fair cfg.lm) (a.cmd % 256)) (P Q : List Stitch) (i : Nat) :
    runFrom cfg i (Mirror.st still N P r) l = (runFrom cfg i r l).map (Mirror.st still N P) ∧
    runFrom cfg' i (Mirror.st g M Q r) (l.map h) = (runFrom cfg i r l).map (Mirror.st g M Q) := by
  refine ⟨?_, Mirror.run t l i hr hc⟩
  have := Mirror.run (P := P) (still_twin N cfg) l i (s := r) ⟨hr.1, .inl (still_fair _)⟩ fun a ha =>
    ⟨(hc a ha).1, fun hn => absurd (still_fair _) hn⟩
  rwa [List.map_id] at this

theorem rest' {g : Motion} {N M : Mat} {h : Stitch → Stitch} {cfg cfg' : Cfg} (t : Mirror.Twin g N M h cfg cfg') {d e e' : St}
    (hd : Mirror.Fine g N cfg.lm d) (he : Jumps d e) (he' : Jumps { d with matrix := M } e') (p : ℚ × ℚ) (c : Int) :
    ∃ J J', (∀ a ∈ J ++ J', a.cmd = JUMP + d.high) ∧
      e.moveTo c p.1 p.2 = Mirror.st still N (d.out ++ J ++ [⟨p.1, p.2, c + d.high⟩]) { d with nx := p.1, ny := p.2, out := [] } ∧
      e'.moveTo c (g.act p).1 (g.act p).2
        = Mirror.st g M (d.out ++ J' ++ [g.stitch ⟨p.1, p.2, c + d.high⟩]) { d with nx := p.1, ny := p.2, out := [] } := by
  obtain ⟨J, he, hJ⟩ := he
  obtain ⟨J', he', hJ'⟩ := he'
  refine ⟨J, J', ?_, ?_, ?_⟩
  · intro a ha
    rcases List.mem_append.1 ha with h | h
    · exact hJ a h
    · exact hJ' a h
  · rw [he]
    unfold Mirror.st St.moveTo
    rw [still_act]
    simp [hd.1]
  · rw [he']
    unfold Mirror.st St.moveTo Motion.stitch
    simp

/-- What the first step leaves, in both runs. -/
def Began (g : Motion) (N M : Mat) (lm : Libm) (p : ℚ × ℚ) (k : Int) (x x' : Except PyErr St) : Prop :=
  (∃ e, x = .error e ∧ x' = .error e) ∨
  ∃ P P' b r, OnTheWay P ∧ OnTheWay P' ∧ b.low = k ∧ (b.x, b.y) = p ∧ Mirror.Fine g N lm r ∧
    x = .ok (Mirror.st still N (P ++ [b]) r) ∧ x' = .ok (Mirror.st g M (P' ++ [g.stitch b]) r)

theorem way_jumps {P J : List Stitch} {high : Int} (hP : OnTheWay P) (hh : high % 256 = 0) (hJ : ∀ a ∈ J, a.cmd = JUMP + high) :
    OnTheWay (P ++ J) := by
  intro a ha
  rcases List.mem_append.1 ha with h | h
  · exact hP a h
  · left
    unfold Stitch.low
    rw [hJ a h]
    unfold JUMP
    omega

theorem began_first {g : Motion} {N M : Mat} {h : Stitch → Stitch} {cfg cfg' : Cfg} (t : Mirror.Twin g N M h cfg cfg') {s : St}
    (hs : Mirror.Fine g N cfg.lm s) (h0 : s.nx = 0 ∧ s.ny = 0 ∧ s.out = [] ∧ s.sequinMode = false ∧ s.order = -1) (hh : s.high % 256 = 0)
    (hm : ∀ m, s.maxJump = some m → 0 < m) (p : ℚ × ℚ) :
    Began g N M cfg.lm p 0 (firstStrike cfg 0 s p.1 p.2) (firstStrike cfg' 0 { s with matrix := M } (g.act p).1 (g.act p).2) := by
  have hst : ({ s with matrix := M } : St) = Mirror.st still M [] s := by
    unfold Mirror.st
    rw [still_act, still_map]; rfl
  have hd' : declareNotTrimmed cfg' { s with matrix := M } = (declareNotTrimmed cfg s).map (Mirror.st still M []) := by
    rw [hst, Mirror.declare, t.eq]; rfl
  unfold firstStrike
  rw [hd']
  cases hd : declareNotTrimmed cfg s with
  | error e => exact .inl ⟨e, rfl, rfl⟩
  | ok d =>
    have hk := Mirror.kept_declare hd
    have hfd := hs.of_kept hk
    have hprop : d.sequinMode = false ∧ d.high = s.high ∧ d.maxJump = s.maxJump ∧ OnTheWay d.out := by
      unfold declareNotTrimmed at hd
      rw [if_pos h0.2.2.2.2] at hd
      cases hn : nextChange cfg s with
      | error e => rw [hn] at hd; cases hd
      | ok c =>
        rw [hn] at hd
        injection hd with hd
        have f := nextChange_fields hn
        subst hd
        refine ⟨f.2.2.2.2.2.2.2.2.2.2.1.trans h0.2.2.2.1, f.2.2.2.2.2.2.2.2.2.2.2.2.2.2, f.2.1, ?_⟩
        show OnTheWay c.out
        obtain ⟨ch, -, hout⟩ := nextChange_out hn
        have one : ∀ k : Int, k ∈ [(3 : Int), 5, 9] → OnTheWay (s.out ++ [⟨s.nx, s.ny, encodeThreadChange k (some ch.thread) (some ch.needle) none⟩]) := by
          intro k hk a ha
          rw [h0.2.2.1, List.nil_append, List.mem_singleton] at ha
          subst ha
          refine .inr ⟨h0.1, h0.2.1, ?_⟩
          show encodeThreadChange k _ _ _ % 256 ∈ _
          rw [encodeThreadChange_low k (by simp at hk; omega) (by simp at hk; omega)]
          exact hk
        have none' : OnTheWay s.out := by
          rw [h0.2.2.1]; intro a ha; cases ha
        rcases hout with ⟨-, -, ⟨-, ho⟩ | ⟨-, ho⟩⟩ | ⟨-, -, ho⟩ | ⟨-, -, ho⟩ | ⟨-, -, -, -, ho⟩ <;> rw [ho]
        · exact none'
        · exact one _ (by decide)
        · exact one _ (by decide)
        · exact one _ (by decide)
        · exact none'
    have hst' : Mirror.st still M [] d = { d with matrix := M } := by
      unfold Mirror.st
      rw [still_act, still_map]; rfl
    obtain ⟨e, he⟩ := within_total cfg (s := d) p.1 p.2 (by rw [hprop.2.2.1]; exact hm)
    obtain ⟨e', he'⟩ := within_total cfg' (s := { d with matrix := M }) (g.act p).1 (g.act p).2 (by
      show ∀ m, d.maxJump = some m → 0 < m
      rw [hprop.2.2.1]; exact hm)
    obtain ⟨J, J', hJ, e1, e2⟩ := rest' t hfd (jumps_within hprop.1 he) (jumps_within (s := { d with matrix := M }) hprop.1 he') p STITCH
    rw [Mirror.map_ok]
    change Began g N M cfg.lm p 0 (jumpToWithin cfg d p.1 p.2 >>= _) (jumpToWithin cfg' (Mirror.st still M [] d) _ _ >>= _)
    rw [hst', he, he']
    change Began g N M cfg.lm p 0 (.ok (tieOn cfg 0 (stitchAt e p.1 p.2))) (.ok (tieOn cfg' 0 (stitchAt e' (g.act p).1 (g.act p).2)))
    unfold stitchAt
    rw [e1, e2]
    have hr : Mirror.Fine g N cfg.lm { d with nx := p.1, ny := p.2, out := [] } := hfd.of_kept ⟨rfl, rfl, rfl⟩
    refine .inr ⟨d.out ++ J, d.out ++ J', ⟨p.1, p.2, STITCH + d.high⟩, tieOn cfg 0 { d with nx := p.1, ny := p.2, out := [] },
      way_jumps hprop.2.2.2 (by rw [hprop.2.1]; exact hh) fun a ha => hJ a (by simp [ha]),
      way_jumps hprop.2.2.2 (by rw [hprop.2.1]; exact hh) fun a ha => hJ a (by simp [ha]), ?_, rfl, hr.of_kept (Mirror.kept_tieOn _ _ _), ?_, ?_⟩
    · show (STITCH + d.high) % 256 = 0
      unfold STITCH
      rw [hprop.2.1]; omega
    · rw [Mirror.tieOn (still_twin N cfg) hr.1 (.inl (still_fair _))]
    · rw [Mirror.tieOn t hr.1 hr.2]

theorem began_jump {g : Motion} {N M : Mat} {h : Stitch → Stitch} {cfg cfg' : Cfg} (t : Mirror.Twin g N M h cfg cfg') {s : St}
    (hs : Mirror.Fine g N cfg.lm s) (h0 : s.out = [] ∧ s.sequinMode = false) (hh : s.high % 256 = 0)
    (hm : ∀ m, s.maxJump = some m → 0 < m) (p : ℚ × ℚ) :
    Began g N M cfg.lm p 1 (jumpTo s p.1 p.2) (jumpTo { s with matrix := M } (g.act p).1 (g.act p).2) := by
  obtain ⟨e, he⟩ := C23_gap_total (s := s) (x := p.1) (y := p.2) (data := JUMP) hm
  obtain ⟨e', he'⟩ := C23_gap_total (s := { s with matrix := M }) (x := (g.act p).1) (y := (g.act p).2) (data := JUMP) hm
  have j := jumps_gap h0.2 he
  have j' := jumps_gap (s := { s with matrix := M }) h0.2 he'
  have m1 : e.sequinMode = false := by obtain ⟨J, ha, -⟩ := j; rw [ha]; exact h0.2
  have m2 : e'.sequinMode = false := by obtain ⟨J, ha, -⟩ := j'; rw [ha]; exact h0.2
  obtain ⟨J, J', hJ, e1, e2⟩ := rest' t hs j j' p JUMP
  have f1 : jumpTo s p.1 p.2 = .ok (e.moveTo JUMP p.1 p.2) := by
    unfold jumpTo jumpAt
    rw [he]
    show Except.ok _ = _
    simp only [m1, Bool.false_eq_true, if_false]
  have f2 : jumpTo { s with matrix := M } (g.act p).1 (g.act p).2 = .ok (e'.moveTo JUMP (g.act p).1 (g.act p).2) := by
    unfold jumpTo jumpAt
    rw [he']
    show Except.ok _ = _
    simp only [m2, Bool.false_eq_true, if_false]
  have nil : OnTheWay s.out := by rw [h0.1]; intro a h; cases h
  rw [f1, f2, e1, e2]
  refine .inr ⟨s.out ++ J, s.out ++ J', ⟨p.1, p.2, JUMP + s.high⟩, { s with nx := p.1, ny := p.2, out := [] },
    way_jumps nil hh fun a ha => hJ a (by simp [ha]), way_jumps nil hh fun a ha => hJ a (by simp [ha]), ?_, rfl,
    hs.of_kept ⟨rfl, rfl, rfl⟩, rfl, rfl⟩
  show (JUMP + s.high) % 256 = 1
  unfold JUMP
  omega

/-- The encoder over a design that begins with a stitch or a jump. -/
theorem two {g : Motion} {h : Stitch → Stitch} {o o' : Settings} {lm : Libm} {threads : List Thread} {a : Stitch} {l : List Stitch}
    (ho : o' = { o with translate := o'.translate, scale := o'.scale, rotate := o'.rotate })
    (hcmd : ∀ a, (h a).cmd = a.cmd) (hlen : ∀ a, a.Length → h a = a)
    (hpos : ∀ a, ¬ a.Length → (o'.matrix lm).point (h a).x (h a).y = g.act ((o.matrix lm).point a.x a.y))
    (heven : o.round = true → Mirror.Even g)
    (hl : g.Fair lm ∨ (o.tieOnCode ≠ 0xD1 ∧ o.tieOffCode ≠ 0xD2)) (hc : ∀ b ∈ a :: l, Mirror.Calm (g.Fair lm) (b.cmd % 256))
    (ha : a.low ∈ [0, 1, 0xB0, 0xB1]) (hm : ∀ m, o.maxJump = some m → 0 < m) :
    ∃ (P P' : List Stitch) (R : Except PyErr (List Stitch × List (Option Thread))), OnTheWay P ∧ OnTheWay P' ∧
      (∀ r, R = .ok r → ∃ b tl, r.1 = b :: tl ∧ b.low = (if a.low = 1 then 1 else 0) ∧
        (b.x, b.y) = (if o.round then (((pyRound ((o.matrix lm).point a.x a.y).1 : ℚ), (pyRound ((o.matrix lm).point a.x a.y).2 : ℚ)))
          else (o.matrix lm).point a.x a.y)) ∧
      encode o lm threads (a :: l) = R.map (fun r => (P ++ r.1, r.2)) ∧
      encode o' lm threads ((a :: l).map h) = R.map (fun r => (P' ++ r.1.map g.stitch, r.2)) := by
  have h1 : o'.changeCommand = o.changeCommand := by rw [ho]; rfl
  have h2 : o'.needleCount = o.needleCount := by rw [ho]
  have hp : buildPlan o' threads ((a :: l).map h) = buildPlan o threads (a :: l) := by
    unfold buildPlan rawPlan
    rw [Mirror.events_map hcmd, h1, h2]
  have nil : OnTheWay [] := fun a h => by cases h
  unfold encode
  rw [hp]
  cases buildPlan o threads (a :: l) with
  | error e => exact ⟨[], [], .error e, nil, nil, fun r h => (by cases h), rfl, rfl⟩
  | ok plan =>
    have t : Mirror.Twin g (o.matrix lm) (o'.matrix lm) h (mkCfg o lm (a :: l) plan) (mkCfg o' lm ((a :: l).map h) plan) :=
      ⟨by rw [ho]; rfl, hcmd, hlen, hpos, heven⟩
    have hlow : cmdOf a.cmd = a.low := rfl
    have hi := Mirror.init_moved lm threads ho
    have hlen' : ¬ a.Length := by
      show ¬ (a.low = 0xD5 ∨ a.low = 0xD6)
      simp only [List.mem_cons, List.not_mem_nil, or_false] at ha
      omega
    generalize hs0 : initSt o lm threads = s0 at hi
    generalize hN : o.matrix lm = N at *
    generalize hM : o'.matrix lm = M at *
    generalize hq : (if o.round then ((pyRound (N.point a.x a.y).1 : ℚ), (pyRound (N.point a.x a.y).2 : ℚ)) else N.point a.x a.y) = p
    have f0 : Mirror.Fine g N (mkCfg o lm (a :: l) plan).lm { s0 with high := flagsOf a.cmd } := by
      subst hs0; exact ⟨hN, hl⟩
    have hh : ({ s0 with high := flagsOf a.cmd } : St).high % 256 = 0 := flagsOf_low _
    have p1 : target (mkCfg o lm (a :: l) plan) s0 a = p := by
      rw [← hq, ← hN]; subst hs0; rfl
    have p2 : target (mkCfg o' lm ((a :: l).map h) plan) { s0 with matrix := M } (h a) = g.act p := by
      unfold target
      simp only
      rw [hpos a hlen', show (mkCfg o' lm ((a :: l).map h) plan).round = o.round by rw [ho]; rfl, ← hq]
      split
      · exact (Mirror.act_round g (heven ‹_›) _).symm
      · rfl
    have began : Began g N M lm p (if a.low = 1 then 1 else 0) (step (mkCfg o lm (a :: l) plan) 0 s0 a)
        (step (mkCfg o' lm ((a :: l).map h) plan) 0 { s0 with matrix := M } (h a)) := by
      unfold step
      rw [p1, p2, hcmd, hlow]
      have ff := began_first t f0 (by subst hs0; exact ⟨rfl, rfl, rfl, rfl, rfl⟩) hh (by subst hs0; exact hm) p
      simp only [List.mem_cons, List.not_mem_nil, or_false] at ha
      rcases ha with ha | ha | ha | ha <;> rw [ha]
      · subst hs0; exact ff
      · subst hs0
        exact began_jump t f0 ⟨rfl, rfl⟩ hh hm p
      · subst hs0; exact ff
      · subst hs0; exact ff
    have hne : a.low ≠ END := by
      simp only [List.mem_cons, List.not_mem_nil, or_false] at ha
      unfold END
      omega
    simp only [List.map_cons, runFrom, hcmd, hlow, if_neg hne]
    simp only [List.map_cons] at began
    rw [hi]
    rcases began with ⟨e, b1, b2⟩ | ⟨P, P', b, r, hP, hP', hb, hbp, hr, b1, b2⟩
    · rw [b1, b2]
      exact ⟨[], [], .error e, nil, nil, fun r h => (by cases h), rfl, rfl⟩
    · rw [b1, b2]
      obtain ⟨r1, r2⟩ := rest t hr (l := l) (fun x hx => hc x (by simp [hx])) (P ++ [b]) (P' ++ [g.stitch b]) 1
      simp only [List.map_cons] at r2
      simp only [Nat.zero_add]
      rw [r1, r2]
      refine ⟨P, P', (runFrom (mkCfg o lm (a :: l) plan) 1 r l).map (fun f => (b :: f.out, f.threads)), hP, hP', ?_, ?_, ?_⟩
      · intro v hv
        cases hrun : runFrom (mkCfg o lm (a :: l) plan) 1 r l with
        | error e => rw [hrun] at hv; cases hv
        | ok f =>
          rw [hrun] at hv
          injection hv with hv
          subst hv
          exact ⟨b, f.out, rfl, hb, hbp⟩
      · cases runFrom (mkCfg o lm (a :: l) plan) 1 r l with
        | error e => rfl
        | ok f =>
          simp only [Mirror.map_ok, Mirror.st, still_map, List.append_assoc, List.singleton_append]
      · cases runFrom (mkCfg o lm (a :: l) plan) 1 r l with
        | error e => rfl
        | ok f =>
          simp only [Mirror.map_ok, Mirror.st, List.append_assoc, List.singleton_append, List.map_cons]

end Move

/-- The C functions do the same wherever the points are. -/
structure Libm.Everywhere (lm : Libm) (tx ty : ℚ) : Prop where
  dist : ∀ a b c d, lm.dist (a + tx) (b + ty) (c + tx) (d + ty) = lm.dist a b c d
  oriented : ∀ a b c d m, lm.oriented (a + tx) (b + ty) (c + tx) (d + ty) m
    = ((lm.oriented a b c d m).1 + tx, (lm.oriented a b c d m).2 + ty)

/-- What C105 supposes: a design that begins with a stitch or a jump, in which no command changes the matrix; no command or setting
asks for lock stitches, unless the C functions do the same everywhere; the limit for jumps (if any) is positive; and if the encoder
rounds, the shift consists of even numbers. -/
structure Movable (o : Settings) (lm : Libm) (tx ty : ℚ) (l : List Stitch) : Prop where
  plain : o.translate = none ∧ o.scale = none ∧ o.rotate = none
  begins : ∃ a ∈ l.head?, a.low ∈ [0, 1, 0xB0, 0xB1]
  matrix : ∀ a ∈ l, a.low ∉ [0xC0, 0xC1, 0xC2, 0xC3, 0xC4, 0xC5]
  locks : lm.Everywhere tx ty ∨ (o.tieOnCode ≠ 0xD1 ∧ o.tieOffCode ≠ 0xD2 ∧ ∀ a ∈ l, a.low ∉ [0xD1, 0xD2])
  jump : ∀ m, o.maxJump = some m → 0 < m
  even : o.round = true → ∃ a b : Int, tx = 2 * a ∧ ty = 2 * b

/-- Two results are the same but for the way to the first point `p`, where `move` takes the first to the second. -/
def MovedFrom (p : ℚ × ℚ) (move : Stitch → Stitch) (x x' : Except PyErr (List Stitch × List (Option Thread))) : Prop :=
  ∃ (P P' : List Stitch) (R : Except PyErr (List Stitch × List (Option Thread))), OnTheWay P ∧ OnTheWay P' ∧
    (∀ r, R = .ok r → ∃ b ∈ r.1.head?, (b.x, b.y) = p ∧ b.low ∈ [0, 1]) ∧
    x = R.map (fun r => (P ++ r.1, r.2)) ∧ x' = R.map (fun r => (P' ++ r.1.map move, r.2))

namespace Move

/-- Where the encoder puts a stitch. -/
def place (round : Bool) (a : Stitch) : ℚ × ℚ := if round then ((pyRound a.x : ℚ), (pyRound a.y : ℚ)) else (a.x, a.y)

theorem general {o o' : Settings} {lm : Libm} {threads : List Thread} {tx ty : ℚ} {h : Stitch → Stitch} {a : Stitch} {l : List Stitch}
    (hm : Movable o lm tx ty (a :: l)) (ho : o' = { o with translate := o'.translate, scale := o'.scale, rotate := o'.rotate })
    (hcmd : ∀ a, (h a).cmd = a.cmd) (hlen : ∀ a, a.Length → h a = a)
    (hpos : ∀ a, ¬ a.Length → (o'.matrix lm).point (h a).x (h a).y = (a.x + tx, a.y + ty)) :
    MovedFrom (place o.round a) (shiftBy tx ty) (encode o lm threads (a :: l)) (encode o' lm threads ((a :: l).map h)) := by
  have hact : ∀ p, (⟨⟨false, false, false⟩, tx, ty⟩ : Motion).act p = (p.1 + tx, p.2 + ty) := fun p => by simp [Motion.act, Sym.act]
  have hst : (⟨⟨false, false, false⟩, tx, ty⟩ : Motion).stitch = shiftBy tx ty := by
    funext a
    unfold Motion.stitch
    rw [hact]; rfl
  have hid : ∀ x y, (o.matrix lm).point x y = (x, y) := by
    intro x y
    have : o.matrix lm = Mat.identity := by unfold Settings.matrix; rw [hm.plain.1, hm.plain.2.1, hm.plain.2.2]
    rw [this]
    simp [Mat.point, Mat.identity]
  have hfair : lm.Everywhere tx ty → (⟨⟨false, false, false⟩, tx, ty⟩ : Motion).Fair lm := fun e =>
    ⟨fun p q => by rw [hact, hact]; exact e.dist _ _ _ _, fun p q d => by rw [hact, hact, hact]; exact e.oriented _ _ _ _ _⟩
  have hbeg : a.low ∈ [0, 1, 0xB0, 0xB1] := by
    obtain ⟨b, hb, hl⟩ := hm.begins
    simp at hb
    subst hb
    simpa using hl
  obtain ⟨P, P', R, hP, hP', hR, e1, e2⟩ := two (g := ⟨⟨false, false, false⟩, tx, ty⟩) (lm := lm) (threads := threads) ho hcmd hlen
    (fun b hb => by rw [hpos b hb, hact, hid]) (fun hr => by
      obtain ⟨a, b, h1, h2⟩ := hm.even hr
      exact ⟨a, b, by rw [h1]; push_cast; ring, by rw [h2]; push_cast; ring⟩)
    (hm.locks.imp hfair fun h => ⟨h.1, h.2.1⟩)
    (fun b hb => ⟨hm.matrix b hb, fun hn => (hm.locks.resolve_left fun e => hn (hfair e)).2.2 b hb⟩) hbeg hm.jump
  refine ⟨P, P', R, hP, hP', ?_, e1, ?_⟩
  · intro r hr
    obtain ⟨b, tl, hb, hk, hp⟩ := hR r hr
    refine ⟨b, by rw [hb]; rfl, ?_, by rw [hk]; split <;> simp⟩
    rw [hp, hid]
    unfold place
    split <;> rfl
  · rw [e2, hst]

end Move

/-- **C105**: a design moved by any distance (by even numbers of units, if the encoder rounds) is normalized to what the design itself
is normalized to, moved by that distance; only the way from the origin to its first point may differ, which consists of jumps and
the choice of the first thread or needle. The threads and errors are the same. -/
theorem C105_design_partial {o : Settings} {lm : Libm} {threads : List Thread} {tx ty : ℚ} {a : Stitch} {l : List Stitch}
    (hm : Movable o lm tx ty (a :: l)) :
    MovedFrom (if o.round then ((pyRound a.x : ℚ), (pyRound a.y : ℚ)) else (a.x, a.y)) (shiftBy tx ty)
      (encode o lm threads (a :: l)) (encode o lm threads (moveDesign tx ty (a :: l))) := by
  refine Move.general (o' := o) hm rfl (fun b => by split <;> rfl) (fun b hb => by rw [if_pos hb]) fun b hb => ?_
  have : o.matrix lm = Mat.identity := by unfold Settings.matrix; rw [hm.plain.1, hm.plain.2.1, hm.plain.2.2]
  rw [if_neg hb, this]
  simp [Mat.point, Mat.identity, shiftBy]

/-- **C105**: so does the setting `translate`. -/
theorem C105_translate_partial {o : Settings} {lm : Libm} {threads : List Thread} {tx ty : ℚ} {a : Stitch} {l : List Stitch}
    (hm : Movable o lm tx ty (a :: l)) :
    MovedFrom (if o.round then ((pyRound a.x : ℚ), (pyRound a.y : ℚ)) else (a.x, a.y)) (shiftBy tx ty)
      (encode o lm threads (a :: l)) (encode { o with translate := some (tx, ty) } lm threads (a :: l)) := by
  have := Move.general (threads := threads) (h := id) (o' := { o with translate := some (tx, ty) }) hm rfl
    (fun _ => rfl) (fun _ _ => rfl) fun b _ => (by
      have : Settings.matrix { o with translate := some (tx, ty) } lm = Mat.identity.postTranslate tx ty := by
        unfold Settings.matrix; rw [hm.plain.2.1, hm.plain.2.2]
      rw [this]
      simp [Mat.point, Mat.identity, Mat.postTranslate, Mat.multiply, Mat.getTranslate])
  rwa [List.map_id] at this

/-! A design with exact halves, a long stitch and a trim, moved by (100, -40). -/

def moveDemo : List Stitch := [⟨5 / 2, 1, 0⟩, ⟨7 / 2, 100, 0⟩, ⟨-300, 7, 0⟩, ⟨0, 0, 2⟩, ⟨9, 9, 1⟩, ⟨1, 1, 0⟩, ⟨1, 1, 4⟩]

example : Movable { round := true, maxStitch := some 121, maxJump := some 121, fullJump := true } demoLm 100 (-40) moveDemo :=
  ⟨⟨rfl, rfl, rfl⟩, ⟨⟨5 / 2, 1, 0⟩, rfl, by decide⟩, by decide, .inr ⟨by decide, by decide, by decide⟩,
    fun m h => by cases h; norm_num, fun _ => ⟨50, -20, by norm_num, by norm_num⟩⟩

/-- If the shift is odd, halves are rounded the other way: moved by 1, this stitch moves by 2. -/
theorem C105_odd_fails : ∃ out out', encode { round := true } demoLm [] [⟨1 / 2, 0, 0⟩] = .ok (out, [none]) ∧
    encode { round := true } demoLm [] (moveDesign 1 0 [⟨1 / 2, 0, 0⟩]) = .ok (out', [none]) ∧
    out = [⟨0, 0, 0⟩, ⟨0, 0, 4⟩] ∧ out' = [⟨2, 0, 0⟩, ⟨2, 0, 4⟩] := by
  refine ⟨_, _, ?_, ?_, rfl, rfl⟩
  · decide +kernel
  · decide +kernel

end Emb
