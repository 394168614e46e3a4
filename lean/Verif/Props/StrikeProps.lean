import Verif.Walk
import Verif.Props.GapProps
import Verif.Props.MatrixProps
import Verif.PlanLemmas
import Verif.Format

/-!
# The encoder sews exactly where the walk says (C24, C32, C34)
-/

namespace Emb

namespace Strike

/-- The walk's state read off the encoder's. -/
def headOf (s : St) : Head :=
  ⟨(s.nx, s.ny), fun q => s.matrix.point q.1 q.2, !s.trimmed, s.jumping, s.maxStitch, s.explicitTrim, s.sequinC, s.longC,
    s.tieOnC, s.tieOffC⟩

structure Good (s : St) : Prop where
  high : s.high % 256 = 0
  affine : s.matrix.Affine
  order : -1 ≤ s.order
  down : s.trimmed = false → 0 ≤ s.order

/-- `s'` comes from `s` by sewing `pts`, leaving the needle as in `h`. -/
structure Eff (s s' : St) (h : Head) (pts : List Pt) : Prop where
  head : headOf s' = h
  out : strikes s'.out = strikes s.out ++ pts
  good : Good s'

theorem Eff.comp {a b c : St} {h1 h2 : Head} {p1 p2 : List Pt} (e1 : Eff a b h1 p1) (e2 : Eff b c h2 p2) :
    Eff a c h2 (p1 ++ p2) := ⟨e2.head, by rw [e2.out, e1.out, List.append_assoc], e2.good⟩

theorem Eff.cast {a b : St} {h h' : Head} {p p' : List Pt} (e : Eff a b h p) (hh : h = h') (hp : p = p') : Eff a b h' p' := by
  subst hh; subst hp; exact e

theorem Eff.refl {s : St} (g : Good s) : Eff s s (headOf s) [] := ⟨rfl, by simp, g⟩

theorem strikes_append (a b : List Stitch) : strikes (a ++ b) = strikes a ++ strikes b := by
  simp [strikes]

theorem strikes_mute {a : Stitch} (h : a.low ≠ 0) : strikes [a] = [] := by
  simp [strikes, h]

theorem strikes_one {a : Stitch} (h : a.low = 0) : strikes [a] = [(a.x, a.y)] := by
  simp [strikes, h]

theorem add_eff {s : St} (g : Good s) {k : Int} (h0 : 0 < k) (h1 : k < 256) : Eff s (s.add k) (headOf s) [] := by
  refine ⟨rfl, ?_, ⟨g.high, g.affine, g.order, g.down⟩⟩
  simp only [St.add, strikes_append]
  rw [strikes_mute]
  rw [low_add g.high (by omega) h1]; omega

theorem move_eff {s : St} (g : Good s) {k : Int} (h0 : 0 < k) (h1 : k < 256) (x y : ℚ) :
    Eff s (s.moveTo k x y) { headOf s with pt := (x, y) } [] := by
  refine ⟨rfl, ?_, ⟨g.high, g.affine, g.order, g.down⟩⟩
  simp only [St.moveTo, strikes_append]
  rw [strikes_mute]
  rw [low_add g.high (by omega) h1]; omega

theorem sewAt_eff {s : St} (g : Good s) (x y : ℚ) :
    Eff s (s.moveTo 0 x y) { headOf s with pt := (x, y) } [(x, y)] := by
  refine ⟨rfl, ?_, ⟨g.high, g.affine, g.order, g.down⟩⟩
  simp only [St.moveTo, strikes_append]
  rw [strikes_one (low_add g.high (by omega) (by omega))]

theorem toggle_eff {s : St} (g : Good s) : Eff s (toggleSequins s) (headOf s) [] := by
  unfold toggleSequins
  by_cases h : s.sequinC = CONTINGENCY_SEQUIN_UTILIZE
  · rw [if_pos h]
    have e := add_eff g (k := SEQUIN_MODE) (by decide) (by decide)
    exact ⟨e.head, e.out, ⟨e.good.high, e.good.affine, e.good.order, e.good.down⟩⟩
  · rw [if_neg h]; exact .refl g

theorem toggleIf_eff {s : St} (g : Good s) (b : Bool) : Eff s (if b then toggleSequins s else s) (headOf s) [] := by
  cases b
  · exact .refl g
  · exact toggle_eff g

theorem trimHere_eff {s : St} (g : Good s) : Eff s (trimHere s) { headOf s with down := false } [] := by
  unfold trimHere
  have e1 := toggleIf_eff g s.sequinMode
  have e2 := add_eff e1.good (k := TRIM) (by decide) (by decide)
  have e := e1.comp e2
  simp only
  generalize (if s.sequinMode = true then toggleSequins s else s) = s1 at e e1
  exact ⟨by
      show { headOf (s1.add TRIM) with down := false } = _
      rw [e.head, e1.head], e.out, ⟨e.good.high, e.good.affine, e.good.order, fun h => nomatch h⟩⟩

theorem nextChange_eff {cfg : Cfg} {s s' : St} (g : Good s) (h : nextChange cfg s = .ok s') :
    Eff s s' { headOf s with down := false } [] ∧ s'.order = s.order + 1 := by
  obtain ⟨h1, h2, h3, h4, h5, h6, h7, h8, h9, h10, h11, h12, h13, h14, h15⟩ := nextChange_fields h
  refine ⟨⟨?_, ?_, ⟨by rw [h15]; exact g.high, by rw [h8]; exact g.affine, by rw [h9]; have := g.order; omega,
    by rw [h10]; intro h; cases h⟩⟩, h9⟩
  · unfold headOf
    simp only [h1, h3, h4, h5, h6, h7, h8, h10, h12, h13, h14]
    rfl
  · have key : ∀ k : Int, 0 < k → k < 256 → ∀ t n : Option Int, strikes [⟨s.nx, s.ny, encodeThreadChange k t n none⟩] = [] := by
      intro k h0 h1 t n
      apply strikes_mute
      show encodeThreadChange k t n none % 256 ≠ 0
      rw [encodeThreadChange_low k (by omega) h1]; omega
    obtain ⟨ch, -, hc⟩ := nextChange_out h
    rcases hc with ⟨-, -, ⟨-, e⟩ | ⟨-, e⟩⟩ | ⟨-, -, e⟩ | ⟨-, -, e⟩ | ⟨-, -, -, -, e⟩ <;> rw [e]
    · simp
    · rw [strikes_append, key _ (by decide) (by decide)]
    · rw [strikes_append, key _ (by decide) (by decide)]
    · rw [strikes_append, key _ (by decide) (by decide)]
    · simp

theorem declare_eff {cfg : Cfg} {s s' : St} (g : Good s) (h : declareNotTrimmed cfg s = .ok s') :
    Eff s s' { headOf s with down := true } [] := by
  unfold declareNotTrimmed at h
  rw [bind_ok] at h
  obtain ⟨s1, h1, h2⟩ := h
  rw [pure_ok] at h2
  subst h2
  by_cases ho : s.order = -1
  · rw [if_pos ho] at h1
    obtain ⟨e, eo⟩ := nextChange_eff g h1
    refine ⟨?_, e.out, ⟨e.good.high, e.good.affine, e.good.order, fun _ => by show 0 ≤ s1.order; omega⟩⟩
    show { headOf s1 with down := true } = _
    rw [e.head]
  · rw [if_neg ho] at h1
    injection h1 with h1; subst h1
    exact ⟨rfl, by simp, ⟨g.high, g.affine, g.order, fun _ => by have := g.order; show 0 ≤ s.order; omega⟩⟩

/-! ## Gaps -/

theorem ceilQ_eq (q : ℚ) : ceilQ q = ⌈q⌉ := by
  symm
  rw [Int.ceil_eq_iff]
  have h1 := ceilQ_ge q
  have h2 := ceilQ_lt q
  constructor <;> linarith

theorem strikes_map {data high : Int} (hh : high % 256 = 0) (n : Nat) (f : Nat → Pt) :
    (data = 0 → strikes ((List.range n).map fun i => (⟨(f i).1, (f i).2, data + high⟩ : Stitch)) = (List.range n).map f) ∧
    (0 < data → data < 256 → strikes ((List.range n).map fun i => (⟨(f i).1, (f i).2, data + high⟩ : Stitch)) = []) := by
  constructor
  · intro h
    subst h
    unfold strikes
    rw [List.filter_eq_self.2, List.map_map]
    · apply List.map_congr_left; intro i _; rfl
    · intro a ha
      rw [List.mem_map] at ha
      obtain ⟨i, _, rfl⟩ := ha
      rw [low_add hh (by omega) (by omega)]; rfl
  · intro h0 h1
    unfold strikes
    rw [List.filter_eq_nil_iff.2]; · rfl
    intro a ha
    rw [List.mem_map] at ha
    obtain ⟨i, _, rfl⟩ := ha
    rw [low_add hh (by omega) h1]
    simp; omega

theorem gapLoop_same (data : Int) (sx sy : ℚ) : ∀ (n : Nat) (s : St),
    headOf (gapLoop data sx sy n s) =
      { headOf s with pt := ((gapLoop data sx sy n s).nx, (gapLoop data sx sy n s).ny) } ∧
    (gapLoop data sx sy n s).high = s.high ∧ (gapLoop data sx sy n s).matrix = s.matrix ∧
    (gapLoop data sx sy n s).order = s.order ∧ (gapLoop data sx sy n s).trimmed = s.trimmed := by
  intro n
  induction n with
  | zero => intro s; exact ⟨rfl, rfl, rfl, rfl, rfl⟩
  | succ n ih =>
    intro s
    obtain ⟨h1, h2, h3, h4, h5⟩ := ih (s.moveTo data (s.nx + sx) (s.ny + sy))
    rw [gapLoop]
    exact ⟨h1, h2, h3, h4, h5⟩

theorem gapLoop_eff {s : St} (g : Good s) {data : Int} (h0 : 0 ≤ data) (h1 : data < 256) (sx sy : ℚ) (n : Nat) :
    Eff s (gapLoop data sx sy n s) { headOf s with pt := ((gapLoop data sx sy n s).nx, (gapLoop data sx sy n s).ny) }
      (if data = 0 then (List.range n).map fun (i : Nat) => (s.nx + (i + 1) * sx, s.ny + (i + 1) * sy) else []) := by
  obtain ⟨e1, e2, e3, e4, e5⟩ := gapLoop_same data sx sy n s
  obtain ⟨o1, -, -⟩ := gapLoop_out data sx sy n s
  refine ⟨e1, ?_, ⟨by rw [e2]; exact g.high, by rw [e3]; exact g.affine, by rw [e4]; exact g.order,
    by rw [e4, e5]; exact g.down⟩⟩
  rw [o1, strikes_append]
  congr 1
  obtain ⟨k1, k2⟩ := strikes_map (data := data) g.high n
    (fun (i : Nat) => ((s.nx + (i + 1) * sx, s.ny + (i + 1) * sy) : Pt))
  by_cases hd : data = 0
  · rw [if_pos hd]; exact k1 hd
  · rw [if_neg hd]; exact k2 (by omega) h1

/-- The intermediate points of a gap. -/
theorem gap_eff {s s' : St} (g : Good s) {x y : ℚ} {limit : Option ℚ} {data : Int} (h0 : 0 ≤ data) (h1 : data < 256)
    (h : gap s x y limit data = .ok s') :
    Eff s s' { headOf s with pt := (s'.nx, s'.ny) } (if data = 0 then cuts limit (s.nx, s.ny) (x, y) else []) := by
  unfold gap at h
  simp only at h
  cases limit with
  | none =>
    injection h with h; subst h
    have := Eff.refl g
    exact ⟨rfl, by simp [cuts], g⟩
  | some m =>
    simp only at h
    by_cases hf : tooFar (some m) (x - s.nx) (y - s.ny) = true
    · rw [if_pos hf] at h
      have hf' : m < |x - s.nx| ∨ m < |y - s.ny| := by
        simpa [tooFar] using hf
      by_cases hm : m = 0
      · rw [if_pos hm] at h; cases h
      · rw [if_neg hm] at h
        by_cases hst : (if ceilQ |(x - s.nx) / m| > ceilQ |(y - s.ny) / m| then ceilQ |(x - s.nx) / m|
            else ceilQ |(y - s.ny) / m|) = 0
        · rw [if_pos hst] at h; cases h
        · rw [if_neg hst] at h
          injection h with h
          have hn : (if ceilQ |(x - s.nx) / m| > ceilQ |(y - s.ny) / m| then ceilQ |(x - s.nx) / m|
            else ceilQ |(y - s.ny) / m|) = max ⌈|(x - s.nx) / m|⌉ ⌈|(y - s.ny) / m|⌉ := by
            rw [ceilQ_eq, ceilQ_eq, max_def]
            split_ifs <;> omega
          rw [hn] at h
          have ht := toggleIf_eff g (decide (data = JUMP ∧ s.sequinMode = true))
          have e0 : (if (decide (data = JUMP ∧ s.sequinMode = true)) = true then toggleSequins s else s) =
            (if data = JUMP ∧ s.sequinMode = true then toggleSequins s else s) := by
            simp only [decide_eq_true_eq]
          rw [e0] at ht
          generalize hs1 : (if data = JUMP ∧ s.sequinMode = true then toggleSequins s else s) = s1 at h ht
          have hp : (s1.nx, s1.ny) = (s.nx, s.ny) := congrArg Head.pt ht.head
          injection hp with hp1 hp2
          have e := ht.comp (gapLoop_eff ht.good h0 h1
            ((x - s.nx) / (max ⌈|(x - s.nx) / m|⌉ ⌈|(y - s.ny) / m|⌉ : ℤ)) ((y - s.ny) / (max ⌈|(x - s.nx) / m|⌉ ⌈|(y - s.ny) / m|⌉ : ℤ))
            ((max ⌈|(x - s.nx) / m|⌉ ⌈|(y - s.ny) / m|⌉ : ℤ) - 1).toNat)
          rw [h] at e
          refine e.cast (by rw [ht.head]) ?_
          rw [List.nil_append]
          by_cases hd : data = 0
          · rw [if_pos hd, if_pos hd]
            simp only [cuts]
            rw [if_pos hf', hp1, hp2]
          · rw [if_neg hd, if_neg hd]
    · rw [if_neg hf] at h
      injection h with h; subst h
      refine ⟨rfl, ?_, g⟩
      have hf' : ¬ (m < |x - s.nx| ∨ m < |y - s.ny|) := by
        simpa [tooFar] using hf
      simp [cuts, hf']

theorem jumpAt_eff {s : St} (g : Good s) (x y : ℚ) : Eff s (jumpAt s x y) { headOf s with pt := (x, y) } [] := by
  have e1 := toggleIf_eff g s.sequinMode
  have e2 := move_eff e1.good (k := JUMP) (by decide) (by decide) x y
  exact (e1.comp e2).cast (by rw [e1.head]) rfl

theorem jumpTo_eff {s s' : St} (g : Good s) {x y : ℚ} (h : jumpTo s x y = .ok s') :
    Eff s s' { headOf s with pt := (x, y) } [] := by
  unfold jumpTo at h
  rw [bind_ok] at h
  obtain ⟨s1, h1, h2⟩ := h
  rw [pure_ok] at h2; subst h2
  have e1 := gap_eff g (by decide) (by decide) h1
  rw [if_neg (by decide)] at e1
  exact (e1.comp (jumpAt_eff e1.good x y)).cast (by rw [e1.head]) rfl

theorem jumpToWithin_eff {cfg : Cfg} {s s' : St} (g : Good s) {x y : ℚ} (h : jumpToWithin cfg s x y = .ok s') :
    Eff s s' { headOf s with pt := (s'.nx, s'.ny) } [] := by
  unfold jumpToWithin at h
  rw [bind_ok] at h
  obtain ⟨s1, h1, h2⟩ := h
  rw [pure_ok] at h2; subst h2
  have e1 := gap_eff g (by decide) (by decide) h1
  rw [if_neg (by decide)] at e1
  by_cases hc : cfg.fullJump = true ∧ (s1.nx ≠ x ∨ s1.ny ≠ y)
  · rw [if_pos hc]
    exact (e1.comp (jumpAt_eff e1.good x y)).cast (by rw [e1.head]; rfl) rfl
  · rw [if_neg hc]; exact e1

theorem sewTo_eff {s s' : St} (g : Good s) {x y : ℚ} (h : sewTo s x y = .ok s') :
    Eff s s' { headOf s with pt := (x, y) } (cuts s.maxStitch (s.nx, s.ny) (x, y) ++ [(x, y)]) := by
  unfold sewTo at h
  rw [bind_ok] at h
  obtain ⟨s1, h1, h2⟩ := h
  rw [pure_ok] at h2; subst h2
  have e1 := gap_eff g (by decide) (by decide) h1
  rw [if_pos (show STITCH = 0 from rfl)] at e1
  exact (e1.comp (sewAt_eff e1.good x y)).cast (by rw [e1.head]) rfl

theorem needleTo_eff {s s' : St} (g : Good s) {x y : ℚ} (h : needleTo s x y = .ok s') :
    Eff s s' { headOf s with pt := (x, y) } [(x, y)] := by
  unfold needleTo at h
  rw [bind_ok] at h
  obtain ⟨s1, h1, h2⟩ := h
  rw [pure_ok] at h2; subst h2
  have e1 := gap_eff g (by decide) (by decide) h1
  rw [if_neg (by decide)] at e1
  exact (e1.comp (sewAt_eff e1.good x y)).cast (by rw [e1.head]) rfl

theorem contingency_eff {s s' : St} (g : Good s) {x y : ℚ} (h : stitchWithContingency s x y = .ok s') :
    Eff s s' { headOf s with pt := (x, y) }
      ((if s.longC = 0xF2 then cuts s.maxStitch (s.nx, s.ny) (x, y) else []) ++ [(x, y)]) := by
  unfold stitchWithContingency at h
  by_cases h2 : s.longC = 0xF2
  · rw [if_pos (show s.longC = CONTINGENCY_LONG_STITCH_SEW_TO from h2)] at h
    rw [if_pos h2]; exact sewTo_eff g h
  · rw [if_neg (show ¬ s.longC = CONTINGENCY_LONG_STITCH_SEW_TO from h2)] at h
    rw [if_neg h2]
    split_ifs at h
    · exact needleTo_eff g h
    · injection h with h; subst h; exact sewAt_eff g x y

/-! ## Locks -/

/-- The anchor of a lock. -/
def anchor (lm : Libm) (limit : Option ℚ) (p a : Pt) : Pt :=
  match limit with
  | none => a
  | some m => if m < lm.dist p.1 p.2 a.1 a.2 then lm.oriented p.1 p.2 a.1 a.2 m else a

theorem lockPts_anchor (lm : Libm) (limit : Option ℚ) (p a : Pt) : lockPts lm limit p a =
    [33 / 100, 66 / 100, 33 / 100, 0].map fun t =>
      (p.1 + t * ((anchor lm limit p a).1 - p.1), p.2 + t * ((anchor lm limit p a).2 - p.2)) := by
  cases limit <;> rfl

theorem lockTowards_eff {cfg : Cfg} {s : St} (g : Good s) (b : Stitch) :
    Eff s (lockTowards cfg s b) (headOf s) ((headOf s).lock cfg.lm (some b)) := by
  unfold lockTowards
  simp only
  by_cases hb : b.cmd = STITCH ∨ b.cmd = NEEDLE_AT ∨ b.cmd = SEW_TO ∨ b.cmd = SEQUIN_EJECT
  · rw [if_pos hb]
    refine ⟨rfl, ?_, ⟨g.high, g.affine, g.order, g.down⟩⟩
    simp only [strikes_append]
    congr 1
    have hb' : b.cmd ∈ [(0 : Int), 0xB0, 0xB1, 7] := by
      simp only [STITCH, NEEDLE_AT, SEW_TO, SEQUIN_EJECT] at hb
      simp only [List.mem_cons, List.not_mem_nil, or_false]; omega
    simp only [Head.lock]
    rw [if_pos hb']
    have ha : lockAnchor cfg.lm s.nx s.ny (s.matrix.point b.x b.y).1 (s.matrix.point b.x b.y).2 s.maxStitch =
        anchor cfg.lm s.maxStitch (s.nx, s.ny) (s.matrix.point b.x b.y) := by
      unfold lockAnchor exceeds anchor
      cases s.maxStitch with
      | none => simp
      | some m => simp
    unfold lockStitches
    rw [lockPts_anchor]
    simp only [headOf]
    rw [ha]
    generalize anchor cfg.lm s.maxStitch (s.nx, s.ny) (s.matrix.point b.x b.y) = a
    unfold strikes
    rw [List.filter_eq_self.2, List.map_map]
    · apply List.map_congr_left
      intro t _
      simp only [Function.comp_apply, towards]
      rw [add_comm s.nx, add_comm s.ny]
    · intro c hc
      rw [List.mem_map] at hc
      obtain ⟨t, _, rfl⟩ := hc
      rfl
  · rw [if_neg hb]
    have hb' : ¬ b.cmd ∈ [(0 : Int), 0xB0, 0xB1, 7] := by
      simp only [STITCH, NEEDLE_AT, SEW_TO, SEQUIN_EJECT] at hb
      simp only [List.mem_cons, List.not_mem_nil, or_false]; omega
    simp only [Head.lock]
    rw [if_neg hb']
    exact .refl g

/-- Python's indexing as an option. -/
def ofOpt {α : Type} : Option α → Except PyErr α
  | some b => .ok b
  | none => .error .indexError

/-- The source around a position. -/
structure Around (source : List Stitch) (position : Nat) (prev : Option Stitch) (st : Stitch) (rest : List Stitch) : Prop where
  split : ∃ pre, source = pre ++ st :: rest ∧ pre.length = position
  prev : prev = if position = 0 then source.getLast? else source[position - 1]?

theorem pyGet_next {source : List Stitch} {position : Nat} {prev : Option Stitch} {st : Stitch} {rest : List Stitch}
    (a : Around source position prev st rest) :
    pyGet source ((position : Int) + 1) = ofOpt rest.head? := by
  obtain ⟨pre, rfl, rfl⟩ := a.split
  unfold pyGet
  rw [if_neg (show ¬ ((pre.length : Int) + 1 < 0) by omega)]
  simp only
  rw [if_neg (show ¬ ((pre.length : Int) + 1 < 0) by omega)]
  have : ((pre.length : Int) + 1).toNat = pre.length + 1 := by omega
  rw [this, List.getElem?_append_right (by omega)]
  have : pre.length + 1 - pre.length = 1 := by omega
  rw [this]
  cases rest <;> rfl

theorem pyGet_prev {source : List Stitch} {position : Nat} {prev : Option Stitch} {st : Stitch} {rest : List Stitch}
    (a : Around source position prev st rest) :
    pyGet source ((position : Int) - 1) = ofOpt prev := by
  obtain ⟨pre, hs, hl⟩ := a.split
  have hp := a.prev
  have hlen : source.length = position + 1 + rest.length := by rw [hs]; simp [hl]; omega
  unfold pyGet
  by_cases h0 : position = 0
  · rw [if_pos h0] at hp
    rw [if_pos (show ((position : Int) - 1 < 0) by omega)]
    simp only
    rw [if_neg (by omega)]
    have : ((position : Int) - 1 + source.length).toNat = source.length - 1 := by omega
    rw [this, hp, List.getLast?_eq_getElem?]
    cases source[source.length - 1]? <;> rfl
  · rw [if_neg h0] at hp
    rw [if_neg (show ¬ ((position : Int) - 1 < 0) by omega)]
    simp only
    rw [if_neg (show ¬ ((position : Int) - 1 < 0) by omega)]
    have : ((position : Int) - 1).toNat = position - 1 := by omega
    rw [this, hp]
    cases source[position - 1]? <;> rfl

variable {cfg : Cfg} {s s' : St} {position : Nat} {prev : Option Stitch} {st : Stitch} {rest : List Stitch}

theorem tieOn_eff (g : Good s) (a : Around cfg.source position prev st rest) :
    Eff s (tieOn cfg position s) (headOf s) ((headOf s).lockOn cfg.lm rest.head?) := by
  unfold tieOn Head.lockOn
  by_cases h : s.tieOnC = 0xD1
  · rw [if_pos (show s.tieOnC = CONTINGENCY_TIE_ON_THREE_SMALL from h), if_pos (show (headOf s).tieOn = 0xD1 from h),
      pyGet_next a]
    cases rest.head? with
    | none => exact .refl g
    | some b => exact lockTowards_eff g b
  · rw [if_neg (show ¬ s.tieOnC = CONTINGENCY_TIE_ON_THREE_SMALL from h), if_neg (show ¬ (headOf s).tieOn = 0xD1 from h)]
    exact .refl g

theorem tieOff_eff (g : Good s) (a : Around cfg.source position prev st rest) :
    Eff s (tieOff cfg position s) (headOf s) ((headOf s).lockOff cfg.lm prev) := by
  unfold tieOff Head.lockOff
  by_cases h : s.tieOffC = 0xD2
  · rw [if_pos (show s.tieOffC = CONTINGENCY_TIE_OFF_THREE_SMALL from h), if_pos (show (headOf s).tieOff = 0xD2 from h),
      pyGet_prev a]
    cases prev with
    | none => exact .refl g
    | some b => exact lockTowards_eff g b
  · rw [if_neg (show ¬ s.tieOffC = CONTINGENCY_TIE_OFF_THREE_SMALL from h), if_neg (show ¬ (headOf s).tieOff = 0xD2 from h)]
    exact .refl g

/-- Lock strikes of a trim or change. -/
def offPts (cfg : Cfg) (s : St) (prev : Option Stitch) : List Pt :=
  if (headOf s).down then (headOf s).lockOff cfg.lm prev else []

theorem trimIfNeeded_eff (g : Good s) (a : Around cfg.source position prev st rest) :
    Eff s (tieOffAndTrimIfNeeded cfg position s) { headOf s with down := false } (offPts cfg s prev) := by
  unfold tieOffAndTrimIfNeeded offPts
  cases ht : s.trimmed with
  | true =>
    rw [if_pos rfl, if_neg (by simp [headOf, ht])]
    exact (Eff.refl g).cast (by simp [headOf, ht]) rfl
  | false =>
    rw [if_neg (by simp), if_pos (by simp [headOf, ht])]
    have e1 := tieOff_eff g a
    exact (e1.comp (trimHere_eff e1.good)).cast (by rw [e1.head]) (by simp)

theorem trimIfExplicit_eff (g : Good s) (a : Around cfg.source position prev st rest) :
    Eff s (tieOffTrimIfExplicit cfg position s) { headOf s with down := (headOf s).down && !s.explicitTrim } (offPts cfg s prev) := by
  have hdef : tieOffTrimIfExplicit cfg position s = if s.trimmed = true then s else
    if (tieOff cfg position s).explicitTrim = true then trimHere (tieOff cfg position s) else tieOff cfg position s := rfl
  rw [hdef]
  unfold offPts
  cases ht : s.trimmed with
  | true =>
    rw [if_pos rfl, if_neg (by simp [headOf, ht])]
    exact (Eff.refl g).cast (by simp [headOf, ht]) rfl
  | false =>
    rw [if_neg (c := false = true) (by simp), if_pos (c := (headOf s).down = true) (by simp [headOf, ht])]
    have e1 := tieOff_eff g a
    have hx : (tieOff cfg position s).explicitTrim = s.explicitTrim := congrArg Head.explicit e1.head
    rw [hx]
    cases hexp : s.explicitTrim with
    | true =>
      rw [if_pos rfl]
      exact (e1.comp (trimHere_eff e1.good)).cast (by rw [e1.head]; simp) (by simp)
    | false =>
      rw [if_neg (by simp)]
      exact e1.cast (by simp [headOf, ht]) rfl

theorem change_eff (g : Good s) (a : Around cfg.source position prev st rest)
    (h : colorChange cfg position s = .ok s') : Eff s s' { headOf s with down := false } (offPts cfg s prev) := by
  unfold colorChange at h
  rw [bind_ok] at h
  obtain ⟨s1, h1, h2⟩ := h
  rw [pure_ok] at h2; subst h2
  have e1 := trimIfExplicit_eff g a
  obtain ⟨e2, -⟩ := nextChange_eff e1.good h1
  have e := e1.comp e2
  refine ⟨?_, by simpa using e.out, ⟨e.good.high, e.good.affine, e.good.order, fun h => nomatch h⟩⟩
  show { headOf s1 with down := false } = _
  rw [e.head, e1.head]

theorem lookaheadIn_eq (l : List Stitch) : lookaheadIn l = sewnAhead l := by
  induction l with
  | nil => rfl
  | cons b l ih =>
    rw [lookaheadIn]
    unfold sewnAhead at ih ⊢
    rw [List.takeWhile_cons]
    by_cases h4 : b.cmd = 4
    · simp [h4, STITCH, NEEDLE_AT, SEW_TO, TIE_ON, SEQUIN_EJECT, END]
    · have : (b.cmd != 4) = true := by simp [h4]
      rw [if_pos this, List.any_cons, ← ih]
      by_cases hb : b.cmd ∈ [(0 : Int), 0xB0, 0xB1, 7, 0xE4]
      · simp only [hb, decide_true, Bool.true_or]
        simp only [List.mem_cons, List.not_mem_nil, or_false] at hb
        rcases hb with h | h | h | h | h <;> simp [h, STITCH, NEEDLE_AT, SEW_TO, TIE_ON, SEQUIN_EJECT]
      · simp only [hb, decide_false, Bool.false_or]
        simp only [List.mem_cons, List.not_mem_nil, or_false, not_or] at hb
        obtain ⟨a1, a2, a3, a4, a5⟩ := hb
        simp [STITCH, NEEDLE_AT, SEW_TO, TIE_ON, SEQUIN_EJECT, END, a1, a2, a3, a4, a5, h4]

theorem lookahead_eq (a : Around cfg.source position prev st rest) (hst : st.low = 0xE2) :
    lookahead cfg position = sewnAhead rest := by
  obtain ⟨pre, hs, hl⟩ := a.split
  unfold lookahead
  rw [hs, ← hl, List.drop_left, lookaheadIn_eq]
  unfold sewnAhead
  have hne : ∀ k : Int, k % 256 ≠ 0xE2 → st.cmd ≠ k := by
    intro k hk h; apply hk; rw [← h]; exact hst
  have h4 : (st.cmd != 4) = true := by simp [hne 4 (by decide)]
  rw [List.takeWhile_cons, if_pos h4, List.any_cons]
  have : ¬ st.cmd ∈ [(0 : Int), 0xB0, 0xB1, 7, 0xE4] := by
    simp only [List.mem_cons, List.not_mem_nil, or_false, not_or]
    exact ⟨hne _ (by decide), hne _ (by decide), hne _ (by decide), hne _ (by decide), hne _ (by decide)⟩
  simp [this]

theorem break_eff (g : Good s) (a : Around cfg.source position prev st rest) (hst : st.low = 0xE2)
    (h : colorBreak cfg position s = .ok s') :
    Eff s s' { headOf s with down := (headOf s).down && !s.explicitTrim && !sewnAhead rest } (offPts cfg s prev) := by
  unfold colorBreak at h
  by_cases ho : s.order < 0
  · rw [if_pos ho] at h
    injection h with h; subst h
    have ht : s.trimmed = true := by
      cases h : s.trimmed with
      | true => rfl
      | false => have := g.down h; omega
    have : (headOf s).down = false := by simp [headOf, ht]
    unfold offPts
    rw [this]
    exact (Eff.refl g).cast (by simp [headOf, ht]) rfl
  · rw [if_neg ho] at h
    have e1 := trimIfExplicit_eff g a
    simp only at h
    rw [lookahead_eq a hst] at h
    cases hl : sewnAhead rest with
    | true =>
      rw [hl, if_pos rfl, bind_ok] at h
      obtain ⟨s1, h1, h2⟩ := h
      rw [pure_ok] at h2; subst h2
      obtain ⟨e2, -⟩ := nextChange_eff e1.good h1
      have e := e1.comp e2
      refine ⟨?_, by simpa using e.out, ⟨e.good.high, e.good.affine, e.good.order, fun h => nomatch h⟩⟩
      show { headOf s1 with down := false } = _
      rw [e.head, e1.head]; simp
    | false =>
      rw [hl, if_neg (by simp)] at h
      injection h with h; subst h
      exact e1.cast (by simp) rfl

/-! ## Sewing -/

theorem firstStrike_eff (g : Good s) (a : Around cfg.source position prev st rest) {x y : ℚ}
    (h : firstStrike cfg position s x y = .ok s') :
    Eff s s' { headOf s with pt := (x, y), down := true }
      ([(x, y)] ++ ({ headOf s with pt := (x, y) } : Head).lockOn cfg.lm rest.head?) := by
  unfold firstStrike at h
  rw [bind_ok] at h
  obtain ⟨s1, h1, h⟩ := h
  rw [bind_ok] at h
  obtain ⟨s2, h2, h3⟩ := h
  rw [pure_ok] at h3; subst h3
  have e1 := declare_eff g h1
  have e2 := jumpToWithin_eff e1.good h2
  have e3 : Eff s2 (stitchAt s2 x y) _ _ := sewAt_eff e2.good x y
  have e4 := tieOn_eff e3.good a
  refine (((e1.comp e2).comp e3).comp e4).cast ?_ ?_
  · rw [e3.head, e2.head, e1.head]
  · rw [e3.head, e2.head, e1.head]; rfl

theorem sew_eff (g : Good s) (a : Around cfg.source position prev st rest) {x y : ℚ} {fine : Bool}
    {direct : St → ℚ → ℚ → Except PyErr St}
    (hd : ∀ s', direct s x y = .ok s' →
      Eff s s' { headOf s with pt := (x, y) } ((if fine then cuts s.maxStitch (s.nx, s.ny) (x, y) else []) ++ [(x, y)]))
    (h : sewStep cfg position s x y direct = .ok s') :
    Eff s s' ((headOf s).sew cfg.lm rest.head? (x, y) fine).2 ((headOf s).sew cfg.lm rest.head? (x, y) fine).1 := by
  unfold sewStep at h
  cases ht : s.trimmed with
  | true =>
    have hdn : (headOf s).down = false := by simp [headOf, ht]
    rw [ht, if_pos rfl] at h
    unfold Head.sew
    rw [hdn, if_neg (by simp)]
    exact firstStrike_eff g a h
  | false =>
    have hdn : (headOf s).down = true := by simp [headOf, ht]
    rw [ht, if_neg (by simp)] at h
    unfold Head.sew
    rw [hdn, if_pos rfl]
    cases hj : s.jumping with
    | true =>
      rw [hj, if_pos rfl, bind_ok] at h
      obtain ⟨s1, h1, h2⟩ := h
      rw [pure_ok] at h2; subst h2
      rw [if_pos (show (headOf s).jumping = true from hj)]
      have e := needleTo_eff g h1
      refine ⟨?_, e.out, ⟨e.good.high, e.good.affine, e.good.order, e.good.down⟩⟩
      show { headOf s1 with jumping := false } = _
      rw [e.head]; simp only [hdn]
    | false =>
      rw [hj, if_neg (by simp)] at h
      rw [if_neg (by simp [headOf, hj])]
      exact (hd s' h).cast (by simp only [hdn]) rfl

theorem sequinAt_eff (g : Good s) {x y : ℚ} (h : sequinAt s x y = .ok s') :
    Eff s s' (if s.sequinC = 0xF8 then headOf s else { headOf s with pt := (x, y) })
      (if s.sequinC = 0xF8 then [] else cuts s.maxStitch (s.nx, s.ny) (x, y) ++ (if s.sequinC = 0xF7 then [(x, y)] else [])) := by
  unfold sequinAt at h
  simp only at h
  by_cases h8 : s.sequinC = 0xF8
  · rw [if_pos (show s.sequinC = CONTINGENCY_SEQUIN_REMOVE from h8)] at h
    injection h with h; subst h
    rw [if_pos h8, if_pos h8]; exact .refl g
  · rw [if_neg (show ¬ s.sequinC = CONTINGENCY_SEQUIN_REMOVE from h8), bind_ok] at h
    rw [if_neg h8, if_neg h8]
    obtain ⟨s1, h1, h2⟩ := h
    rw [pure_ok] at h2; subst h2
    have e1 := gap_eff g (by decide) (by decide) h1
    rw [if_pos (show STITCH = 0 from rfl)] at e1
    refine Eff.comp e1 ?_
    have hfin : ∀ {t : St} {pts : List Pt} {p : Pt}, Eff s1 t { headOf s1 with pt := p } pts →
        Eff s1 { t with nx := x, ny := y } { headOf s with pt := (x, y) } pts := by
      intro t pts p e
      refine ⟨?_, e.out, ⟨e.good.high, e.good.affine, e.good.order, e.good.down⟩⟩
      show { headOf t with pt := (x, y) } = _
      rw [e.head, e1.head]
    by_cases c1 : s.sequinC = CONTINGENCY_SEQUIN_UTILIZE
    · rw [if_pos c1, if_neg (by rw [c1]; decide)]
      exact hfin (move_eff e1.good (by decide) (by decide) x y)
    · rw [if_neg c1]
      by_cases c2 : s.sequinC = CONTINGENCY_SEQUIN_JUMP
      · rw [if_pos c2, if_neg (by rw [c2]; decide)]
        exact hfin (move_eff e1.good (by decide) (by decide) x y)
      · rw [if_neg c2]
        by_cases c3 : s.sequinC = 0xF7
        · rw [if_pos (show s.sequinC = CONTINGENCY_SEQUIN_STITCH from c3), if_pos c3]
          exact hfin (sewAt_eff e1.good x y)
        · rw [if_neg (show ¬ s.sequinC = CONTINGENCY_SEQUIN_STITCH from c3), if_neg c3]
          exact hfin (p := (s1.nx, s1.ny)) (Eff.refl e1.good)

theorem eject_eff (g : Good s) (a : Around cfg.source position prev st rest) {x y : ℚ}
    (h : ejectStep cfg position s x y = .ok s') :
    let h1 : Head := if (headOf s).down then headOf s else { headOf s with pt := (x, y), down := true }
    let first := if (headOf s).down then [] else [(x, y)] ++ h1.lockOn cfg.lm rest.head?
    Eff s s' (if s.sequinC = 0xF8 then h1 else { h1 with pt := (x, y) })
      (if s.sequinC = 0xF8 then first
       else first ++ cuts h1.limit h1.pt (x, y) ++ (if s.sequinC = 0xF7 then [(x, y)] else [])) := by
  intro h1 first
  unfold ejectStep at h
  rw [bind_ok] at h
  obtain ⟨s1, hs1, h2⟩ := h
  have e1 : Eff s s1 h1 first := by
    cases ht : s.trimmed with
    | true =>
      rw [ht, if_pos rfl] at hs1
      have hd : (headOf s).down = false := by simp [headOf, ht]
      refine (firstStrike_eff g a hs1).cast ?_ ?_
      · simp only [h1, hd]; rfl
      · simp only [first, h1, hd]; rfl
    | false =>
      rw [ht, if_neg (by simp)] at hs1
      injection hs1 with hs1; subst hs1
      have hd : (headOf s).down = true := by simp [headOf, ht]
      refine (Eff.refl g).cast ?_ ?_
      · simp only [h1, hd]; rfl
      · simp only [first, hd]; rfl
  have e2 : Eff s1 (if s1.sequinMode = true then s1 else toggleSequins s1) (headOf s1) [] := by
    cases s1.sequinMode
    · exact toggle_eff e1.good
    · exact .refl e1.good
  generalize (if s1.sequinMode = true then s1 else toggleSequins s1) = s2 at h2 e2
  have e3 := sequinAt_eff e2.good h2
  have q1 : h1.sequin = s.sequinC := by
    simp only [h1]
    split <;> rfl
  have hh : headOf s2 = h1 := by rw [e2.head, e1.head]
  have q2 : s2.sequinC = s.sequinC := by rw [← q1, ← hh]; rfl
  have q3 : s2.maxStitch = h1.limit := by rw [← hh]; rfl
  have q4 : (s2.nx, s2.ny) = h1.pt := by rw [← hh]; rfl
  rw [q2, q3, q4, hh] at e3
  refine ((e1.comp e2).comp e3).cast rfl ?_
  by_cases h8 : s.sequinC = 0xF8
  · rw [if_pos h8, if_pos h8]; simp
  · rw [if_neg h8, if_neg h8]; simp

theorem stop_eff (g : Good s) : Eff s (stopHere s) { headOf s with down := false } [] := by
  have e := add_eff g (k := STOP) (by decide) (by decide)
  exact ⟨rfl, e.out, ⟨g.high, g.affine, g.order, fun h => nomatch h⟩⟩

theorem frame_eff (g : Good s) (a : Around cfg.source position prev st rest) {x y : ℚ}
    (h : frameEject cfg position s x y = .ok s') :
    Eff s s' { headOf s with down := false, pt := (x, y) } (offPts cfg s prev) := by
  unfold frameEject at h
  rw [bind_ok] at h
  obtain ⟨s1, h1, h2⟩ := h
  rw [pure_ok] at h2; subst h2
  have e1 := trimIfNeeded_eff g a
  have e2 := jumpTo_eff e1.good h1
  refine ((e1.comp e2).comp (stop_eff e2.good)).cast ?_ (by simp)
  rw [e2.head, e1.head]

/-! ## Matrix commands -/

theorem under_eq (g : Good s) {m : Mat} {qx qy : ℚ} (h : needlePreimage s = .ok (m, qx, qy)) :
    m = s.matrix ∧ (headOf s).under = (qx, qy) := by
  unfold needlePreimage at h
  rw [bind_ok] at h
  obtain ⟨inv, h1, h⟩ := h
  simp only at h
  rw [bind_ok] at h
  obtain ⟨back, h2, h3⟩ := h
  rw [pure_ok] at h3
  injection h3 with h3 h4
  injection h4 with h4 h5
  have hb : back = s.matrix := C36_inverse_inverse s.matrix inv back h1 h2
  refine ⟨by rw [← h3, hb], ?_⟩
  have hr := C36_point_roundtrip s.matrix inv g.affine h1
  have hex : ∃ q, (headOf s).f q = (headOf s).pt := by
    refine ⟨inv.point s.nx s.ny, ?_⟩
    exact (hr s.nx s.ny).2
  unfold Head.under
  rw [dif_pos hex]
  have hc := Classical.choose_spec hex
  generalize Classical.choose hex = q at hc
  have hk := (hr q.1 q.2).1
  have hc' : s.matrix.point q.1 q.2 = (s.nx, s.ny) := hc
  rw [hc'] at hk
  rw [← h4, ← h5, hk]

theorem matrix_eff (g : Good s) {m : Mat} {f : Pt → Pt} (hm : m.Affine) (hf : ∀ q : Pt, m.point q.1 q.2 = f q) :
    Eff s { s with matrix := m } { headOf s with f := f } [] := by
  refine ⟨?_, by simp, ⟨g.high, hm, g.order, g.down⟩⟩
  show { headOf s with f := fun q => m.point q.1 q.2 } = _
  have : (fun q : Pt => m.point q.1 q.2) = f := funext hf
  rw [this]

theorem quiet_eff (g : Good s) {h : Head} (hs : Good s → Good s') (ho : s'.out = s.out) (hh : headOf s' = h) :
    Eff s s' h [] := ⟨hh, by simp [ho], hs g⟩

theorem leave_eff (g : Good s) (c : Int) : Eff s (leaveSequins s c) { headOf s with sequin := c } [] := by
  unfold leaveSequins
  have e := toggleIf_eff g s.sequinMode
  generalize (if s.sequinMode = true then toggleSequins s else s) = s1 at e
  refine ⟨?_, e.out, ⟨e.good.high, e.good.affine, e.good.order, e.good.down⟩⟩
  show { headOf s1 with sequin := c } = _
  rw [e.head]

/-- One command: the encoder's step does what the walk's step says. -/
theorem step_eff (g : Good s) (a : Around cfg.source position prev st rest)
    (h : Emb.step cfg position s st = .ok s') :
    Eff s s' ((headOf s).step cfg.lm cfg.round prev st rest).2 ((headOf s).step cfg.lm cfg.round prev st rest).1 := by
  unfold Emb.step at h
  simp only at h
  have hp : target cfg s st = (headOf s).image cfg.round st := by
    unfold target Head.image
    rfl
  rw [hp] at h
  have g1 : Good { s with high := flagsOf st.cmd } := ⟨flagsOf_low _, g.affine, g.order, g.down⟩
  have hh : headOf { s with high := flagsOf st.cmd } = headOf s := rfl
  suffices ∀ t : St, Good t → headOf t = headOf s → ∀ x y : ℚ, (headOf s).image cfg.round st = (x, y) →
      dispatch cfg position t st x y st.low = .ok s' →
      Eff t s' ((headOf s).step cfg.lm cfg.round prev st rest).2 ((headOf s).step cfg.lm cfg.round prev st rest).1 by
    have e := this _ g1 hh _ _ rfl h
    exact ⟨e.head, e.out, e.good⟩
  clear h g g1 hh hp
  intro t g ht x y hp h
  rw [← ht] at hp ⊢
  clear ht
  have hoff : (if (headOf t).down = true then (headOf t).lockOff cfg.lm prev else []) = offPts cfg t prev := rfl
  unfold dispatch at h
  unfold Head.step
  simp only [hp, hoff]
  generalize hc : st.low = c at h
  by_cases c0 : c = 0
  · subst c0; exact sew_eff g a (fun s' h => by
      refine (contingency_eff g h).cast rfl ?_
      show (if (headOf t).long = 0xF2 then _ else _) ++ _ = _
      simp only [decide_eq_true_eq]) h
  by_cases c1 : c = 0xB1
  · subst c1
    exact sew_eff g a (fun s' h => (needleTo_eff g h).cast rfl rfl) h
  by_cases c2 : c = 0xB0
  · subst c2
    exact sew_eff g a (fun s' h => (sewTo_eff g h).cast rfl rfl) h
  by_cases c3 : c = 1
  · subst c3
    have h : (if t.jumping = true then Except.ok t else jumpTo t x y) = .ok s' := h
    show Eff t s' (if (headOf t).jumping = true then headOf t else { headOf t with pt := (x, y) }) []
    by_cases hj : t.jumping = true
    · rw [if_pos hj] at h
      rw [if_pos (show (headOf t).jumping = true from hj)]
      injection h with h; subst h; exact .refl g
    · rw [if_neg hj] at h
      rw [if_neg (show ¬ (headOf t).jumping = true from hj)]
      exact jumpTo_eff g h
  by_cases c4 : c = 2
  · subst c4
    have h : (Except.ok (tieOffAndTrimIfNeeded cfg position t) : Except PyErr St) = .ok s' := h
    injection h with h; subst h
    exact trimIfNeeded_eff g a
  by_cases c5 : c = 0xE1
  · subst c5
    have h : (Except.ok (tieOffAndTrimIfNeeded cfg position t) : Except PyErr St) = .ok s' := h
    injection h with h; subst h
    exact trimIfNeeded_eff g a
  by_cases c6 : c = 5
  · subst c6
    exact change_eff g a h
  by_cases c7 : c = 9
  · subst c7
    exact change_eff g a h
  by_cases c8 : c = 0xE2
  · subst c8
    exact break_eff g a hc h
  by_cases c9 : c = 0xE9
  · subst c9
    exact frame_eff g a h
  by_cases c10 : c = 3
  · subst c10
    have h : (Except.ok (stopHere t) : Except PyErr St) = .ok s' := h
    injection h with h; subst h
    exact stop_eff g
  by_cases c11 : c = 0xE0
  · subst c11
    have h : (Except.ok ({ t with jumping := true }) : Except PyErr St) = .ok s' := h
    injection h with h; subst h
    exact quiet_eff g (fun g => ⟨g.high, g.affine, g.order, g.down⟩) rfl rfl
  by_cases c12 : c = 7
  · subst c12
    have e := eject_eff g a (show ejectStep cfg position t x y = .ok s' from h)
    simp only at e
    rw [if_neg (by decide), if_neg (by decide), if_neg (by decide), if_neg (by decide), if_neg (by decide),
      if_neg (by decide), if_neg (by decide), if_neg (by decide), if_neg (by decide), if_neg (by decide), if_pos rfl]
    by_cases h8 : t.sequinC = 0xF8
    · rw [if_pos h8, if_pos h8] at e
      rw [if_pos (show (headOf t).sequin = 0xF8 from h8)]
      exact e
    · rw [if_neg h8, if_neg h8] at e
      rw [if_neg (show ¬ (headOf t).sequin = 0xF8 from h8)]
      exact e
  by_cases c13 : c = 0xE5
  · subst c13
    have h : (Except.ok (tieOff cfg position t) : Except PyErr St) = .ok s' := h
    injection h with h; subst h
    exact tieOff_eff g a
  by_cases c14 : c = 0xE4
  · subst c14
    have h : (Except.ok (tieOn cfg position t) : Except PyErr St) = .ok s' := h
    injection h with h; subst h
    exact tieOn_eff g a
  by_cases c15 : c = 0xD1
  · subst c15
    have h : (Except.ok ({ t with tieOnC := 0xD1 }) : Except PyErr St) = .ok s' := h
    injection h with h; subst h
    exact quiet_eff g (fun g => ⟨g.high, g.affine, g.order, g.down⟩) rfl rfl
  by_cases c16 : c = 0xD3
  · subst c16
    have h : (Except.ok ({ t with tieOnC := 0xD3 }) : Except PyErr St) = .ok s' := h
    injection h with h; subst h
    exact quiet_eff g (fun g => ⟨g.high, g.affine, g.order, g.down⟩) rfl rfl
  by_cases c17 : c = 0xD2
  · subst c17
    have h : (Except.ok ({ t with tieOffC := 0xD2 }) : Except PyErr St) = .ok s' := h
    injection h with h; subst h
    exact quiet_eff g (fun g => ⟨g.high, g.affine, g.order, g.down⟩) rfl rfl
  by_cases c18 : c = 0xD4
  · subst c18
    have h : (Except.ok ({ t with tieOffC := 0xD4 }) : Except PyErr St) = .ok s' := h
    injection h with h; subst h
    exact quiet_eff g (fun g => ⟨g.high, g.affine, g.order, g.down⟩) rfl rfl
  by_cases c19 : c = 0xD5
  · subst c19
    have h : (Except.ok ({ t with maxStitch := some st.x }) : Except PyErr St) = .ok s' := h
    injection h with h; subst h
    exact quiet_eff g (fun g => ⟨g.high, g.affine, g.order, g.down⟩) rfl rfl
  by_cases c20 : c = 0xD7
  · subst c20
    have h : (Except.ok ({ t with explicitTrim := true }) : Except PyErr St) = .ok s' := h
    injection h with h; subst h
    exact quiet_eff g (fun g => ⟨g.high, g.affine, g.order, g.down⟩) rfl rfl
  by_cases c21 : c = 0xD8
  · subst c21
    have h : (Except.ok ({ t with explicitTrim := false }) : Except PyErr St) = .ok s' := h
    injection h with h; subst h
    exact quiet_eff g (fun g => ⟨g.high, g.affine, g.order, g.down⟩) rfl rfl
  by_cases c22 : c = 0xF0
  · subst c22
    have h : (Except.ok ({ t with longC := 0xF0 }) : Except PyErr St) = .ok s' := h
    injection h with h; subst h
    exact quiet_eff g (fun g => ⟨g.high, g.affine, g.order, g.down⟩) rfl rfl
  by_cases c23 : c = 0xF1
  · subst c23
    have h : (Except.ok ({ t with longC := 0xF1 }) : Except PyErr St) = .ok s' := h
    injection h with h; subst h
    exact quiet_eff g (fun g => ⟨g.high, g.affine, g.order, g.down⟩) rfl rfl
  by_cases c24 : c = 0xF2
  · subst c24
    have h : (Except.ok ({ t with longC := 0xF2 }) : Except PyErr St) = .ok s' := h
    injection h with h; subst h
    exact quiet_eff g (fun g => ⟨g.high, g.affine, g.order, g.down⟩) rfl rfl
  by_cases c25 : c = 0xF5
  · subst c25
    have h : (Except.ok ({ t with sequinC := 0xF5 }) : Except PyErr St) = .ok s' := h
    injection h with h; subst h
    exact quiet_eff g (fun g => ⟨g.high, g.affine, g.order, g.down⟩) rfl rfl
  by_cases c26 : c = 0xF6
  · subst c26
    have h : (Except.ok (leaveSequins t 0xF6) : Except PyErr St) = .ok s' := h
    injection h with h; subst h
    exact leave_eff g 0xF6
  by_cases c27 : c = 0xF7
  · subst c27
    have h : (Except.ok (leaveSequins t 0xF7) : Except PyErr St) = .ok s' := h
    injection h with h; subst h
    exact leave_eff g 0xF7
  by_cases c28 : c = 0xF8
  · subst c28
    have h : (Except.ok (leaveSequins t 0xF8) : Except PyErr St) = .ok s' := h
    injection h with h; subst h
    exact leave_eff g 0xF8
  by_cases c29 : c = 0xC0
  · subst c29
    have h : (Except.ok ({ t with matrix := t.matrix.postTranslate st.x st.y }) : Except PyErr St) = .ok s' := h
    injection h with h; subst h
    exact matrix_eff g (C37_affine t.matrix g.affine 0 0 0 0 st.x st.y).2.2
      (fun q => (C35_post_pre t.matrix g.affine q.1 q.2 st.x st.y 0 0 0 0).1)
  by_cases c30 : c = 0xC1
  · subst c30
    have h : (Except.ok ({ t with matrix := t.matrix.postScale st.x st.y 0 0 }) : Except PyErr St) = .ok s' := h
    injection h with h; subst h
    refine matrix_eff g (C37_affine t.matrix g.affine st.x st.y 0 0 0 0).1 (fun q => ?_)
    exact C37_scale_about t.matrix g.affine st.x st.y 0 0 q.1 q.2
  by_cases c31 : c = 0xC2
  · subst c31
    have h : (Except.ok ({ t with matrix := t.matrix.postRotate (cfg.lm.cos st.x) (cfg.lm.sin st.x) 0 0 }) : Except PyErr St) = .ok s' := h
    injection h with h; subst h
    refine matrix_eff g (C37_affine t.matrix g.affine 0 0 (cfg.lm.cos st.x) (cfg.lm.sin st.x) 0 0).2.1 (fun q => ?_)
    exact C37_rotate_about t.matrix g.affine (cfg.lm.cos st.x) (cfg.lm.sin st.x) 0 0 q.1 q.2
  by_cases c32 : c = 0xC3
  · subst c32
    have h : (Except.ok ({ t with matrix := Mat.identity }) : Except PyErr St) = .ok s' := h
    injection h with h; subst h
    exact matrix_eff g (C35_affine_closed Mat.identity Mat.identity ⟨rfl, rfl, rfl⟩ ⟨rfl, rfl, rfl⟩ 0 0 0 0 0 0).1
      (fun q => (C35_basic_points q.1 q.2 0 0 0 0 0 0).1)
  by_cases c33 : c = 0xC4
  · subst c33
    have h : (needlePreimage t >>= fun r => pure { t with matrix := r.1.postScale st.x st.y r.2.1 r.2.2 }) = .ok s' := h
    rw [bind_ok] at h
    obtain ⟨⟨m, qx, qy⟩, h1, h2⟩ := h
    rw [pure_ok] at h2; subst h2
    obtain ⟨rfl, hu⟩ := under_eq g h1
    refine matrix_eff g (C37_affine t.matrix g.affine st.x st.y 0 0 qx qy).1 (fun q => ?_)
    rw [hu]
    exact C37_scale_about t.matrix g.affine st.x st.y qx qy q.1 q.2
  by_cases c34 : c = 0xC5
  · subst c34
    have h : (needlePreimage t >>= fun r =>
      pure { t with matrix := r.1.postRotate (cfg.lm.cos st.x) (cfg.lm.sin st.x) r.2.1 r.2.2 }) = .ok s' := h
    rw [bind_ok] at h
    obtain ⟨⟨m, qx, qy⟩, h1, h2⟩ := h
    rw [pure_ok] at h2; subst h2
    obtain ⟨rfl, hu⟩ := under_eq g h1
    refine matrix_eff g (C37_affine t.matrix g.affine 0 0 (cfg.lm.cos st.x) (cfg.lm.sin st.x) qx qy).2.1 (fun q => ?_)
    rw [hu]
    exact C37_rotate_about t.matrix g.affine (cfg.lm.cos st.x) (cfg.lm.sin st.x) qx qy q.1 q.2
  by_cases c35 : c = 6
  · subst c35
    have h : (Except.ok (toggleSequins t) : Except PyErr St) = .ok s' := h
    injection h with h; subst h
    exact toggle_eff g
  by_cases c36 : c = 0xB
  · subst c36
    have h : (Except.ok (if cfg.writesSpeeds = true then t.add SLOW else t) : Except PyErr St) = .ok s' := h
    injection h with h; subst h
    cases cfg.writesSpeeds
    · exact .refl g
    · exact add_eff g (by decide) (by decide)
  by_cases c37 : c = 0xC
  · subst c37
    have h : (Except.ok (if cfg.writesSpeeds = true then t.add FAST else t) : Except PyErr St) = .ok s' := h
    injection h with h; subst h
    cases cfg.writesSpeeds
    · exact .refl g
    · exact add_eff g (by decide) (by decide)
  by_cases c38 : c = 0xD6
  · subst c38
    have h : (Except.ok ({ t with maxJump := some st.x }) : Except PyErr St) = .ok s' := h
    injection h with h; subst h
    exact quiet_eff g (fun g => ⟨g.high, g.affine, g.order, g.down⟩) rfl rfl
  simp only [settingStep, matrixStep, STITCH, NEEDLE_AT, SEW_TO, STITCH_BREAK, FRAME_EJECT, SEQUENCE_BREAK, COLOR_BREAK,
    TIE_OFF, TIE_ON, TRIM, JUMP, SEQUIN_MODE, SEQUIN_EJECT, COLOR_CHANGE, NEEDLE_SET, STOP, SLOW, FAST,
    CONTINGENCY_TIE_ON_THREE_SMALL, CONTINGENCY_TIE_OFF_THREE_SMALL, CONTINGENCY_TIE_ON_NONE, CONTINGENCY_TIE_OFF_NONE,
    OPTION_MAX_JUMP_LENGTH, OPTION_MAX_STITCH_LENGTH, OPTION_EXPLICIT_TRIM, OPTION_IMPLICIT_TRIM,
    CONTINGENCY_LONG_STITCH_NONE, CONTINGENCY_LONG_STITCH_JUMP_NEEDLE, CONTINGENCY_LONG_STITCH_SEW_TO,
    CONTINGENCY_SEQUIN_REMOVE, CONTINGENCY_SEQUIN_STITCH, CONTINGENCY_SEQUIN_JUMP, CONTINGENCY_SEQUIN_UTILIZE,
    MATRIX_TRANSLATE, MATRIX_SCALE_ORIGIN, MATRIX_ROTATE_ORIGIN, MATRIX_SCALE, MATRIX_ROTATE, MATRIX_RESET,
    c0, c1, c2, c3, c4, c5, c6, c7, c8, c9, c10, c11, c12, c13, c14, c15, c16, c17, c18, c19, c20, c21, c22, c23, c24, c25, c26, c27, c28, c29, c30, c31, c32, c33, c34, c35, c36, c37, c38, if_false, or_self] at h ⊢
  injection h with h; subst h; exact .refl g

theorem run_walk (cfg : Cfg) : ∀ (rest : List Stitch) (position : Nat) (s sf : St) (prev : Option Stitch), Good s →
    (∃ pre, cfg.source = pre ++ rest ∧ pre.length = position) →
    prev = (if position = 0 then cfg.source.getLast? else cfg.source[position - 1]?) →
    runFrom cfg position s rest = .ok sf →
    strikes sf.out = strikes s.out ++ walk cfg.lm cfg.round (headOf s) prev rest := by
  intro rest
  have hend : ∀ s : St, Good s → strikes (endHere s).out = strikes s.out := by
    intro s g
    have := (add_eff g (k := END) (by decide) (by decide)).out
    simpa [endHere] using this
  induction rest with
  | nil =>
    intro position s sf prev g _ _ h
    rw [runFrom] at h
    injection h with h; subst h
    rw [hend s g, walk]; simp
  | cons st rest ih =>
    intro position s sf prev g hs hp h
    rw [runFrom] at h
    rw [walk]
    by_cases h4 : st.low = 4
    · rw [if_pos (show cmdOf st.cmd = END from h4)] at h
      injection h with h; subst h
      rw [if_pos h4]
      have := hend { s with high := flagsOf st.cmd } ⟨flagsOf_low _, g.affine, g.order, g.down⟩
      rw [this]; simp
    · rw [if_neg (show ¬ cmdOf st.cmd = END from h4)] at h
      rw [if_neg h4]
      cases hst : Emb.step cfg position s st with
      | error e => rw [hst] at h; cases h
      | ok s' =>
        rw [hst] at h
        simp only at h
        obtain ⟨pre, e1, e2⟩ := hs
        have e := step_eff g ⟨⟨pre, e1, e2⟩, hp⟩ hst
        have := ih (position + 1) s' sf (some st) e.good ⟨pre ++ [st], by simp [e1], by simp [e2]⟩ ?_ h
        · rw [this, e.out, e.head, List.append_assoc]
        · rw [if_neg (by omega), e1]
          simp [← e2]

def Rep (m : Mat) (f : Pt → Pt) : Prop := m.Affine ∧ ∀ q : Pt, m.point q.1 q.2 = f q

theorem Rep.id : Rep Mat.identity (fun q => q) := ⟨⟨rfl, rfl, rfl⟩, fun q => (C35_basic_points q.1 q.2 0 0 0 0 0 0).1⟩

theorem Rep.translate {m : Mat} {f : Pt → Pt} (h : Rep m f) (t : Pt) :
    Rep (m.postTranslate t.1 t.2) (fun q => f (q.1 + t.1, q.2 + t.2)) :=
  ⟨(C37_affine _ h.1 0 0 0 0 t.1 t.2).2.2, fun q => by
    rw [(C35_post_pre m h.1 q.1 q.2 t.1 t.2 0 0 0 0).1]; exact h.2 (q.1 + t.1, q.2 + t.2)⟩

theorem Rep.scale {m : Mat} {f : Pt → Pt} (h : Rep m f) (t : Pt) :
    Rep (m.postScale t.1 t.2 0 0) (fun q => f (t.1 * q.1, t.2 * q.2)) :=
  ⟨(C37_affine _ h.1 t.1 t.2 0 0 0 0).1, fun q => by
    rw [(C35_post_pre m h.1 q.1 q.2 0 0 t.1 t.2 0 0).2.1]; exact h.2 (t.1 * q.1, t.2 * q.2)⟩

theorem Rep.rotate {m : Mat} {f : Pt → Pt} (h : Rep m f) (c d : ℚ) :
    Rep (m.postRotate c d 0 0) (fun q => f (rotAbout (0, 0) c d q)) :=
  ⟨(C37_affine _ h.1 0 0 c d 0 0).2.1, fun q => by
    rw [C37_rotate_about m h.1]; exact h.2 (rotAbout (0, 0) c d q)⟩

theorem place_affine (o : Settings) (lm : Libm) : Rep (o.matrix lm) (o.place lm) := by
  unfold Settings.matrix Settings.place
  cases o.translate with
  | none =>
    cases o.scale with
    | none =>
      cases o.rotate with
      | none => exact Rep.id
      | some r => exact Rep.id.rotate _ _
    | some s =>
      cases o.rotate with
      | none => exact Rep.id.scale s
      | some r => exact (Rep.id.scale s).rotate _ _
  | some t =>
    cases o.scale with
    | none =>
      cases o.rotate with
      | none => exact Rep.id.translate t
      | some r => exact (Rep.id.translate t).rotate _ _
    | some s =>
      cases o.rotate with
      | none => exact (Rep.id.translate t).scale s
      | some r => exact ((Rep.id.translate t).scale s).rotate _ _

theorem init_head (o : Settings) (lm : Libm) (threads : List Thread) : headOf (initSt o lm threads) = o.head lm := by
  unfold headOf Settings.head
  have : (fun q : Pt => (initSt o lm threads).matrix.point q.1 q.2) = o.place lm := funext (place_affine o lm).2
  rw [this]
  have h1 : (initSt o lm threads).sequinC = (match o.sequinContingency with
    | some c => c
    | none => if o.stripSequins then 0xF6 else 0xF5) := by
    simp only [initSt, Settings.sequin]
    cases o.sequinContingency <;> rfl
  have h2 : (initSt o lm threads).tieOnC = (match o.tieOn with
    | .bool true => 0xD1
    | .bool false => 0xD3
    | .code c => c) := by
    simp only [initSt, Settings.tieOnCode]
    cases o.tieOn with
    | bool b => cases b <;> rfl
    | code c => rfl
  have h3 : (initSt o lm threads).tieOffC = (match o.tieOff with
    | .bool true => 0xD2
    | .bool false => 0xD4
    | .code c => c) := by
    simp only [initSt, Settings.tieOffCode]
    cases o.tieOff with
    | bool b => cases b <;> rfl
    | code c => rfl
  rw [h1, h2, h3]
  rfl

end Strike

/-- **C24** (with C32 and C34): for every source, every setting and every maths library, a normalized pattern is sewn at
exactly the points given by the walk of `Verif.Walk`. The command before the first one is the last one, because Python's
index -1 wraps around. -/
theorem C24_strikes {o : Settings} {lm : Libm} {threads : List Thread} {source out : List Stitch}
    {ths : List (Option Thread)} (h : encode o lm threads source = .ok (out, ths)) :
    strikes out = walk lm o.round (o.head lm) source.getLast? source := by
  obtain ⟨plan, sf, -, hr, rfl, -⟩ := encode_state h
  have := Strike.run_walk _ _ _ _ _ source.getLast?
    (⟨rfl, (Strike.place_affine o lm).1, le_refl _, fun h => nomatch h⟩ : Strike.Good (initSt o lm threads))
    ⟨[], rfl, rfl⟩ rfl hr
  rw [Strike.init_head] at this
  rw [this]
  rfl

/-! ## Plain stretches -/

/-- A command without influence on where other commands sew: not END, SEQUIN_EJECT, a matrix command, a request for
ties, a stitch length or a long-stitch contingency; SEW_TO only without a stitch limit. -/
def Plain (limit : Option ℚ) (st : Stitch) : Prop :=
  st.low ∉ [4, 7, 0xC0, 0xC1, 0xC2, 0xC3, 0xC4, 0xC5, 0xD1, 0xD2, 0xD5, 0xF2] ∧ (st.low = 0xB0 → limit = none)

/-- The sewing commands (STITCH, NEEDLE_AT, SEW_TO), placed by `f` and rounded. -/
def images (round : Bool) (f : Pt → Pt) (l : List Stitch) : List Pt :=
  (l.filter (fun st => st.low ∈ [0, 0xB0, 0xB1])).map fun st =>
    if round then ((pyRound (f (st.x, st.y)).1 : ℚ), (pyRound (f (st.x, st.y)).2 : ℚ)) else f (st.x, st.y)

/-- A walk without ties and cuts. -/
structure Head.Simple (h : Head) : Prop where
  on : h.tieOn ≠ 0xD1
  off : h.tieOff ≠ 0xD2
  long : h.long ≠ 0xF2

namespace Strike

theorem sew_plain {lm : Libm} {h : Head} (hs : h.Simple) {next : Option Stitch} {p : Pt} {fine : Bool}
    (hf : fine = true → h.limit = none) :
    (h.sew lm next p fine).1 = [p] ∧ (h.sew lm next p fine).2.f = h.f ∧ (h.sew lm next p fine).2.limit = h.limit ∧
    (h.sew lm next p fine).2.Simple := by
  unfold Head.sew
  cases h.down with
  | false =>
    refine ⟨?_, rfl, rfl, ⟨hs.on, hs.off, hs.long⟩⟩
    show [p] ++ Head.lockOn lm _ next = [p]
    unfold Head.lockOn
    rw [if_neg hs.on]; rfl
  | true =>
    cases h.jumping with
    | true => exact ⟨rfl, rfl, rfl, ⟨hs.on, hs.off, hs.long⟩⟩
    | false =>
      refine ⟨?_, rfl, rfl, ⟨hs.on, hs.off, hs.long⟩⟩
      cases fine with
      | false => rfl
      | true =>
        show cuts h.limit h.pt p ++ [p] = [p]
        rw [hf rfl]; rfl

theorem off_plain {lm : Libm} {h : Head} (hs : h.Simple) (prev : Option Stitch) :
    (if h.down = true then h.lockOff lm prev else []) = [] := by
  unfold Head.lockOff
  rw [if_neg hs.off]; simp

theorem step_plain {lm : Libm} {round : Bool} {h : Head} (hs : h.Simple) (prev : Option Stitch) {st : Stitch}
    (rest : List Stitch) (hp : Plain h.limit st) :
    (h.step lm round prev st rest).1 = images round h.f [st] ∧ (h.step lm round prev st rest).2.f = h.f ∧
    (h.step lm round prev st rest).2.limit = h.limit ∧ (h.step lm round prev st rest).2.Simple := by
  obtain ⟨hl, hb⟩ := hp
  have hon := hs.on
  have hoff := hs.off
  have hlong := hs.long
  unfold Head.step
  simp only [off_plain hs]
  have him : st.low ∈ [(0 : Int), 0xB0, 0xB1] → images round h.f [st] = [h.image round st] := by
    intro hm
    unfold images Head.image
    rw [List.filter_cons, if_pos (by simpa using hm)]
    rfl
  have hno : ¬ st.low ∈ [(0 : Int), 0xB0, 0xB1] → images round h.f [st] = [] := by
    intro hm
    unfold images
    simp only [List.filter_cons, List.filter_nil, hm, decide_false]
    rfl
  generalize st.low = c at *
  have other : ∀ h' : Head, ¬ c ∈ [(0 : Int), 0xB0, 0xB1] → h'.f = h.f → h'.limit = h.limit → h'.Simple →
      ([] : List Pt) = images round h.f [st] ∧ h'.f = h.f ∧ h'.limit = h.limit ∧ h'.Simple :=
    fun h' hn a b c => ⟨(hno hn).symm, a, b, c⟩
  simp only [List.mem_cons, List.not_mem_nil, or_false, not_or] at hl
  obtain ⟨n1, n2, n3, n4, n5, n6, n7, n8, n9, n10, n11, n12⟩ := hl
  have hmem : ∀ k : Int, c = k → k ∉ [(0 : Int), 0xB0, 0xB1] → ¬ c ∈ [(0 : Int), 0xB0, 0xB1] := by
    intro k e hk; rw [e]; exact hk
  by_cases c0 : c = 0
  · rw [if_pos c0, him (by simp [c0])]
    exact sew_plain hs (by simp [hlong])
  rw [if_neg c0]
  by_cases c1 : c = 0xB1
  · rw [if_pos c1, him (by simp [c1])]
    exact sew_plain hs (by simp)
  rw [if_neg c1]
  by_cases c2 : c = 0xB0
  · rw [if_pos c2, him (by simp [c2])]
    exact sew_plain hs (fun _ => hb c2)
  rw [if_neg c2]
  have hn : ¬ c ∈ [(0 : Int), 0xB0, 0xB1] := by simp [c0, c1, c2]
  by_cases c3 : c = 1
  · rw [if_pos c3]
    refine other _ hn ?_ ?_ ?_
    · split <;> rfl
    · split <;> rfl
    · split
      · exact hs
      · exact ⟨hon, hoff, hlong⟩
  rw [if_neg c3]
  by_cases c4 : c = 2 ∨ c = 0xE1
  · rw [if_pos c4]; exact other _ hn rfl rfl ⟨hon, hoff, hlong⟩
  rw [if_neg c4]
  by_cases c5 : c = 5 ∨ c = 9
  · rw [if_pos c5]; exact other _ hn rfl rfl ⟨hon, hoff, hlong⟩
  rw [if_neg c5]
  by_cases c6 : c = 0xE2
  · rw [if_pos c6]; exact other _ hn rfl rfl ⟨hon, hoff, hlong⟩
  rw [if_neg c6]
  by_cases c7 : c = 0xE9
  · rw [if_pos c7]; exact other _ hn rfl rfl ⟨hon, hoff, hlong⟩
  rw [if_neg c7]
  by_cases c8 : c = 3
  · rw [if_pos c8]; exact other _ hn rfl rfl ⟨hon, hoff, hlong⟩
  rw [if_neg c8]
  by_cases c9 : c = 0xE0
  · rw [if_pos c9]; exact other _ hn rfl rfl ⟨hon, hoff, hlong⟩
  rw [if_neg c9, if_neg n2]
  by_cases c10 : c = 0xE5
  · rw [if_pos c10]
    have : h.lockOff lm prev = [] := by unfold Head.lockOff; rw [if_neg hoff]
    rw [this]; exact other _ hn rfl rfl hs
  rw [if_neg c10]
  by_cases c11 : c = 0xE4
  · rw [if_pos c11]
    have : h.lockOn lm rest.head? = [] := by unfold Head.lockOn; rw [if_neg hon]
    rw [this]; exact other _ hn rfl rfl hs
  rw [if_neg c11]
  by_cases c12 : c = 0xD1 ∨ c = 0xD3
  · rw [if_pos c12]; exact other _ hn rfl rfl ⟨n9, hoff, hlong⟩
  rw [if_neg c12]
  by_cases c13 : c = 0xD2 ∨ c = 0xD4
  · rw [if_pos c13]; exact other _ hn rfl rfl ⟨hon, n10, hlong⟩
  rw [if_neg c13, if_neg n11]
  by_cases c14 : c = 0xD7
  · rw [if_pos c14]; exact other _ hn rfl rfl ⟨hon, hoff, hlong⟩
  rw [if_neg c14]
  by_cases c15 : c = 0xD8
  · rw [if_pos c15]; exact other _ hn rfl rfl ⟨hon, hoff, hlong⟩
  rw [if_neg c15]
  by_cases c16 : c = 0xF0 ∨ c = 0xF1 ∨ c = 0xF2
  · rw [if_pos c16]; exact other _ hn rfl rfl ⟨hon, hoff, n12⟩
  rw [if_neg c16]
  by_cases c17 : c = 0xF5 ∨ c = 0xF6 ∨ c = 0xF7 ∨ c = 0xF8
  · rw [if_pos c17]; exact other _ hn rfl rfl ⟨hon, hoff, hlong⟩
  rw [if_neg c17, if_neg n3, if_neg n4, if_neg n5, if_neg n6, if_neg n7, if_neg n8]
  exact other _ hn rfl rfl hs

/-- A plain stretch sews its own sewing commands, then the walk goes on with the same map. -/
theorem walk_plain {lm : Libm} {round : Bool} : ∀ (A : List Stitch) (h : Head) (prev : Option Stitch) (B : List Stitch),
    h.Simple → (∀ st ∈ A, Plain h.limit st) →
    ∃ h' prev', h'.Simple ∧ h'.f = h.f ∧ h'.limit = h.limit ∧
      walk lm round h prev (A ++ B) = images round h.f A ++ walk lm round h' prev' B := by
  intro A
  induction A with
  | nil => intro h prev B hs _; exact ⟨h, prev, hs, rfl, rfl, rfl⟩
  | cons st A ih =>
    intro h prev B hs hp
    obtain ⟨e1, e2, e3, e4⟩ := step_plain (lm := lm) (round := round) hs prev (A ++ B) (hp st (by simp))
    obtain ⟨h', prev', a1, a2, a3, a4⟩ := ih (h.step lm round prev st (A ++ B)).2 (some st) B e4
      (fun b hb => by rw [e3]; exact hp b (by simp [hb]))
    refine ⟨h', prev', a1, by rw [a2, e2], by rw [a3, e3], ?_⟩
    rw [List.cons_append, walk, if_neg, a4, e1, e2]
    · unfold images
      rw [← List.append_assoc, ← List.map_append, ← List.filter_append]; rfl
    · intro h4; exact (hp st (by simp)).1 (by simp [h4])

end Strike

/-- The settings allow a plain walk: no ties, no cutting of long stitches. -/
def Settings.NoTies (o : Settings) : Prop :=
  (o.tieOn ≠ .bool true ∧ o.tieOn ≠ .code 0xD1) ∧ (o.tieOff ≠ .bool true ∧ o.tieOff ≠ .code 0xD2) ∧ o.longStitch ≠ 0xF2

theorem Settings.NoTies.simple {o : Settings} (h : o.NoTies) (lm : Libm) : (o.head lm).Simple := by
  obtain ⟨hon, hoff, hlong⟩ := h
  refine ⟨?_, ?_, hlong⟩
  · simp only [Settings.head]
    cases ht : o.tieOn with
    | bool b => cases b <;> simp_all
    | code c => simp_all
  · simp only [Settings.head]
    cases ht : o.tieOff with
    | bool b => cases b <;> simp_all
    | code c => simp_all

/-- **C24**: without ties, sequins, cuts and matrix commands, encoding neither loses nor invents a strike: what is sewn
is exactly the images of the STITCH, NEEDLE_AT and SEW_TO commands before END, in order. `E` is empty or starts with
END. -/
theorem C24_exact {o : Settings} {lm : Libm} {threads : List Thread} {A E out : List Stitch} {ths : List (Option Thread)}
    (ho : o.NoTies) (hA : ∀ st ∈ A, Plain o.maxStitch st) (hE : ∀ e ∈ E.head?, e.low = 4)
    (h : encode o lm threads (A ++ E) = .ok (out, ths)) :
    strikes out = images o.round (o.place lm) A := by
  rw [C24_strikes h]
  obtain ⟨h', prev', -, -, -, e⟩ := Strike.walk_plain (lm := lm) (round := o.round) A (o.head lm) (A ++ E).getLast? E
    (ho.simple lm) hA
  rw [e]
  cases E with
  | nil => rw [walk]; simp [Settings.head]
  | cons b E =>
    rw [walk, if_pos (hE b (by simp))]; simp [Settings.head]

/-- How a matrix command `c` changes the map `f` when the needle is above the source point `q`. -/
def rebase (lm : Libm) (f : Pt → Pt) (q : Pt) (c : Stitch) : Pt → Pt :=
  if c.low = 0xC0 then fun p => f (p.1 + c.x, p.2 + c.y)
  else if c.low = 0xC1 then fun p => f (c.x * p.1, c.y * p.2)
  else if c.low = 0xC2 then fun p => f (rotAbout (0, 0) (lm.cos c.x) (lm.sin c.x) p)
  else if c.low = 0xC4 then fun p => f (scaleAbout q c.x c.y p)
  else if c.low = 0xC5 then fun p => f (rotAbout q (lm.cos c.x) (lm.sin c.x) p)
  else id

/-- **C34**: the `rotate`, `scale`, `translate` settings place every strike by `Settings.place` (rotation first, then
scaling, then translation); a matrix command in the source changes where the later commands go and leaves the earlier
ones alone. `a` is the sewing command before the matrix command (it puts the needle above the source point
`(a.x, a.y)`); MATRIX_RESET (0xC3) drops all transformations. -/
theorem C34_matrix {o : Settings} {lm : Libm} {threads : List Thread} {A B E out : List Stitch} {a c : Stitch}
    {ths : List (Option Thread)} (ho : o.NoTies)
    (hA : ∀ st ∈ A, Plain o.maxStitch st) (ha : Plain o.maxStitch a) (hB : ∀ st ∈ B, Plain o.maxStitch st)
    (hE : ∀ e ∈ E.head?, e.low = 4) (hs : a.low ∈ [0, 0xB0, 0xB1])
    (hc : c.low ∈ [0xC0, 0xC1, 0xC2, 0xC3, 0xC4, 0xC5])
    (hn : c.low = 0xC4 ∨ c.low = 0xC5 → o.round = false ∧ Function.Injective (o.place lm))
    (h : encode o lm threads (A ++ a :: c :: (B ++ E)) = .ok (out, ths)) :
    strikes out = images o.round (o.place lm) (A ++ [a]) ++
      images o.round (rebase lm (o.place lm) (a.x, a.y) c) B := by
  rw [C24_strikes h]
  generalize (A ++ a :: c :: (B ++ E)).getLast? = prev0
  obtain ⟨h1, prev1, s1, f1, l1, e1⟩ := Strike.walk_plain (lm := lm) (round := o.round) A (o.head lm) prev0
    (a :: c :: (B ++ E)) (ho.simple lm) hA
  rw [e1, walk, if_neg (fun h4 => ha.1 (by simp [h4]))]
  obtain ⟨p1, p2, p3, p4⟩ := Strike.step_plain (lm := lm) (round := o.round) s1 prev1 (c :: (B ++ E)) (st := a)
    (by rw [l1]; exact ha)
  have hpt : (h1.step lm o.round prev1 a (c :: (B ++ E))).2.pt = h1.image o.round a := by
    unfold Head.step Head.sew
    simp only [List.mem_cons, List.not_mem_nil, or_false] at hs
    rcases hs with hs | hs | hs
    · rw [hs]
      simp only [if_true]
      split
      · split <;> rfl
      · rfl
    · rw [hs]
      simp only [if_true, if_neg (show ¬ ((0xB0 : Int) = 0) by decide), if_neg (show ¬ ((0xB0 : Int) = 0xB1) by decide)]
      split
      · split <;> rfl
      · rfl
    · rw [hs]
      simp only [if_true, if_neg (show ¬ ((0xB1 : Int) = 0) by decide)]
      split
      · split <;> rfl
      · rfl
  generalize h1.step lm o.round prev1 a (c :: (B ++ E)) = r at p1 p2 p3 p4 hpt ⊢
  obtain ⟨pts, h2⟩ := r
  simp only at p1 p2 p3 p4 hpt ⊢
  have f2 : h2.f = o.place lm := by rw [p2, f1]; rfl
  have l2 : h2.limit = o.maxStitch := by rw [p3, l1]; rfl
  have hc4 : ¬ c.low = 4 := by
    intro h4; rw [h4] at hc; simp at hc
  rw [walk, if_neg hc4]
  have hstep : (h2.step lm o.round (some a) c (B ++ E)).1 = [] ∧
      (h2.step lm o.round (some a) c (B ++ E)).2.f = rebase lm (o.place lm) (a.x, a.y) c ∧
      (h2.step lm o.round (some a) c (B ++ E)).2.limit = o.maxStitch ∧
      (h2.step lm o.round (some a) c (B ++ E)).2.Simple := by
    have hu : c.low = 0xC4 ∨ c.low = 0xC5 → h2.under = (a.x, a.y) := by
      intro hcc
      obtain ⟨hr, hinj⟩ := hn hcc
      have hpt' : h2.pt = o.place lm (a.x, a.y) := by
        rw [hpt]; unfold Head.image
        rw [hr, if_neg (by simp), f1]; rfl
      have hex : ∃ q, h2.f q = h2.pt := ⟨(a.x, a.y), by rw [hpt', f2]⟩
      unfold Head.under
      rw [dif_pos hex]
      have := Classical.choose_spec hex
      generalize Classical.choose hex = q at this ⊢
      rw [f2, hpt'] at this
      exact hinj this
    unfold Head.step rebase
    simp only [List.mem_cons, List.not_mem_nil, or_false] at hc
    rcases hc with hc | hc | hc | hc | hc | hc
    · simp only [hc]
      refine ⟨by simp, ?_, by simpa using l2, by simpa using ⟨p4.on, p4.off, p4.long⟩⟩
      simp [f2]
    · simp only [hc]
      refine ⟨by simp, ?_, by simpa using l2, by simpa using ⟨p4.on, p4.off, p4.long⟩⟩
      simp [f2, scaleAbout]
    · simp only [hc]
      refine ⟨by simp, ?_, by simpa using l2, by simpa using ⟨p4.on, p4.off, p4.long⟩⟩
      simp [f2]
    · simp only [hc]
      refine ⟨by simp, ?_, by simpa using l2, by simpa using ⟨p4.on, p4.off, p4.long⟩⟩
      simp
    · simp only [hc]
      refine ⟨by simp, ?_, by simpa using l2, by simpa using ⟨p4.on, p4.off, p4.long⟩⟩
      simp [f2, hu (Or.inl hc)]
    · simp only [hc]
      refine ⟨by simp, ?_, by simpa using l2, by simpa using ⟨p4.on, p4.off, p4.long⟩⟩
      simp [f2, hu (Or.inr hc)]
  obtain ⟨k1, k2, k3, k4⟩ := hstep
  generalize h2.step lm o.round (some a) c (B ++ E) = r at k1 k2 k3 k4 ⊢
  obtain ⟨pts2, h3⟩ := r
  simp only at k1 k2 k3 k4 ⊢
  obtain ⟨h4, prev4, -, -, -, e4⟩ := Strike.walk_plain (lm := lm) (round := o.round) B h3 (some c) E k4
    (fun st hst => by rw [k3]; exact hB st hst)
  have hend : walk lm o.round h4 prev4 E = [] := by
    cases E with
    | nil => rw [walk]
    | cons b E => rw [walk, if_pos (hE b (by simp))]
  rw [e4, hend, p1, k1, k2]
  have f1' : h1.f = o.place lm := f1
  rw [f1']
  have : (o.head lm).f = o.place lm := rfl
  rw [this]
  unfold images
  simp

/-- **C34**: MATRIX_SCALE (0xC4) and MATRIX_ROTATE (0xC5) keep the needle where it is: there is a source point under
the needle, and it stays there under the new map. Nothing is written. -/
theorem C34_needle_fixed {cfg : Cfg} {position : Nat} {s s' : St} {c : Stitch} (hm : s.matrix.Affine)
    (hc : c.low = 0xC4 ∨ c.low = 0xC5) (h : step cfg position s c = .ok s') :
    s'.out = s.out ∧ (s'.nx, s'.ny) = (s.nx, s.ny) ∧
    ∃ q : Pt, s.matrix.point q.1 q.2 = (s.nx, s.ny) ∧ s'.matrix.point q.1 q.2 = (s.nx, s.ny) := by
  unfold step at h
  simp only at h
  have pre : ∀ (t : St) (m : Mat) (qx qy : ℚ), t.matrix.Affine → needlePreimage t = .ok (m, qx, qy) →
      m = t.matrix ∧ t.matrix.point qx qy = (t.nx, t.ny) := by
    intro t m qx qy hm h
    unfold needlePreimage at h
    rw [bind_ok] at h
    obtain ⟨inv, h1, h⟩ := h
    simp only at h
    rw [bind_ok] at h
    obtain ⟨back, h2, h3⟩ := h
    rw [pure_ok] at h3
    injection h3 with h3 h4
    injection h4 with h4 h5
    refine ⟨by rw [← h3]; exact C36_inverse_inverse _ _ _ h1 h2, ?_⟩
    rw [← h4, ← h5]; exact (C36_point_roundtrip _ _ hm h1 _ _).2
  generalize ht : ({ s with high := flagsOf c.cmd } : St) = t at h
  have e1 : t.out = s.out := by rw [← ht]
  have e2 : t.nx = s.nx := by rw [← ht]
  have e3 : t.ny = s.ny := by rw [← ht]
  have e4 : t.matrix = s.matrix := by rw [← ht]
  rw [← e1, ← e2, ← e3, ← e4]
  rw [← e4] at hm
  have hl : cmdOf c.cmd = c.low := rfl
  rw [hl] at h
  rcases hc with hc | hc <;> rw [hc] at h
  · have h : (needlePreimage t >>= fun r => pure { t with matrix := r.1.postScale c.x c.y r.2.1 r.2.2 }) = .ok s' := h
    rw [bind_ok] at h
    obtain ⟨⟨m, qx, qy⟩, h1, h2⟩ := h
    rw [pure_ok] at h2; subst h2
    obtain ⟨rfl, hq⟩ := pre t m qx qy hm h1
    exact ⟨rfl, rfl, (qx, qy), hq, by
      show (t.matrix.postScale c.x c.y qx qy).point qx qy = _
      rw [(C37_fixed_point t.matrix hm c.x c.y 0 0 qx qy).1]; exact hq⟩
  · have h : (needlePreimage t >>= fun r =>
      pure { t with matrix := r.1.postRotate (cfg.lm.cos c.x) (cfg.lm.sin c.x) r.2.1 r.2.2 }) = .ok s' := h
    rw [bind_ok] at h
    obtain ⟨⟨m, qx, qy⟩, h1, h2⟩ := h
    rw [pure_ok] at h2; subst h2
    obtain ⟨rfl, hq⟩ := pre t m qx qy hm h1
    exact ⟨rfl, rfl, (qx, qy), hq, by
      show (t.matrix.postRotate (cfg.lm.cos c.x) (cfg.lm.sin c.x) qx qy).point qx qy = _
      rw [(C37_fixed_point t.matrix hm 0 0 (cfg.lm.cos c.x) (cfg.lm.sin c.x) qx qy).2]; exact hq⟩

/-! ## Examples -/

/-- A source with a tie-on request, a long SEW_TO, a trim with tie off, a sequin and a colour break. -/
def strikeDemo : List Stitch :=
  [⟨0, 0, 0xD1⟩, ⟨10, 0, 0⟩, ⟨0, 0, 0xB0⟩, ⟨0, 0, 2⟩, ⟨20, 5, 7⟩, ⟨3, 3, 0xE2⟩, ⟨4, 4, 0xB1⟩, ⟨0, 0, 4⟩, ⟨9, 9, 0⟩]

-- the encoder, on the source above: four lock stitches, a cut, sequin strike, nothing after END
example : strikes (demoEncode { maxStitch := some 6, tieOff := .bool true } strikeDemo) =
    [(10, 0), (10, 0), (10, 0), (10, 0), (10, 0), (5, 0), (0, 0), (0, 0), (0, 0), (0, 0), (0, 0), (20, 5),
     (20, 5), (20, 5), (20, 5), (20, 5), (4, 4)] := by
  decide +kernel

-- `C24_exact` and `C34_matrix` apply to sources like these
example : strikes (demoEncode { scale := some (2, 3), translate := some (10, 0) }
    [⟨1, 1, 0⟩, ⟨5, 0, 0xC0⟩, ⟨1, 1, 0⟩, ⟨0, 0, 4⟩]) = [(12, 3), (22, 3)] := by decide +kernel
example : strikes (demoEncode { scale := some (2, 3), translate := some (10, 0) }
    [⟨1, 1, 0⟩, ⟨5, 7, 0xC4⟩, ⟨1, 1, 0⟩, ⟨2, 2, 0⟩, ⟨0, 0, 4⟩]) = [(12, 3), (12, 3), (22, 24)] := by decide +kernel
example : Function.Injective (({ scale := some (2, 3), translate := some (10, 0) } : Settings).place demoLm) := by
  intro p q h
  simp only [Settings.place, Prod.mk.injEq] at h
  obtain ⟨h1, h2⟩ := h
  ext <;> linarith
example : Plain none ⟨3, 4, 0xB0⟩ ∧ Plain (some 5) ⟨3, 4, 0xE2⟩ ∧ ({} : Settings).NoTies := by
  refine ⟨⟨by decide, fun _ => rfl⟩, ⟨by decide, by decide⟩, ?_⟩
  refine ⟨⟨?_, ?_⟩, ⟨?_, ?_⟩, ?_⟩ <;> decide

end Emb
