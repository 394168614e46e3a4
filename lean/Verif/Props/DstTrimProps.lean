import Verif.Props.JefTrimProps
import Verif.Props.DstFileProps

/-!
# Property C131: trims of designs saved as DST
-/

namespace Emb

namespace LoadTrim

/-- The number of stitches. -/
theorem strikes_countP (l : List Stitch) : (strikes l).length = l.countP (fun a => a.low == 0) := by
  unfold strikes
  rw [List.length_map, List.countP_eq_length_filter]

theorem place_countP : ∀ (rs : List Rec) (x y : ℚ), (place x y rs).countP (fun a => a.low == 0) = rs.countP (fun r => r.cmd % 256 == 0) := by
  intro rs
  induction rs with
  | nil => intro x y; rfl
  | cons r rs ih => intro x y; simp only [place, List.countP_cons, ih]; rfl

theorem asks_many {n : Int} {d : Option ℚ} (R : List Stitch) : ∀ (J : List Stitch) (k : Int) (q p : ℚ × ℚ), (∀ j ∈ J, endsRun j = false) → k < n →
    n ≤ k + J.countP (fun a => a.low == 1) → asksTrim (some n) d k q p (J ++ R) = true := by
  intro J
  induction J with
  | nil => intro k q p _ h1 h2; simp at h2; omega
  | cons j J ih =>
    intro k q p hJ h1 h2
    have he : ¬ endsRun j = true := by rw [hJ j (by simp)]; decide
    have ih := ih
    rw [List.cons_append, asksTrim, if_neg he]
    rw [List.countP_cons] at h2
    by_cases hj : j.low = 1
    · rw [if_pos hj, decide_eq_true_eq]
      simp only [hj, beq_self_eq_true, if_true] at h2
      by_cases hn : n = k + 1
      · exact .inl (by rw [hn])
      · exact .inr (.inr (ih _ _ _ (fun j h => hJ j (by simp [h])) (by omega) (by push_cast at h2; omega)))
    · rw [if_neg hj]
      have : (j.low == 1) = false := by simpa using hj
      simp only [this, Bool.false_eq_true, if_false, add_zero] at h2
      exact ih _ _ _ (fun j h => hJ j (by simp [h])) h1 h2

theorem cut_soon {t : Nat} (ht : 1 ≤ t) {d : Option ℚ} {clip : Bool} (R : List Stitch) : ∀ (J : List Stitch) (p : ℚ × ℚ), (∀ j ∈ J, endsRun j = false) →
    t ≤ J.countP (fun a => a.low == 1) →
    ∃ E z Y, trimmedDesign (some (t : Int)) d clip p true none (J ++ R) = E ++ z :: Y ∧ z.low = 2 ∧ (∀ a ∈ E, a.low ≠ 0) ∧
      ∀ rs : List Rec, J = place p.1 p.2 rs → (∀ r ∈ rs, r.cmd % 256 ≠ 1 → r.dx = 0 ∧ r.dy = 0) → z.x = p.1 ∧ z.y = p.2 := by
  intro J
  induction J with
  | nil => intro p _ h; simp at h; omega
  | cons j J ih =>
    intro p hJ hn
    have he : ¬ endsRun j = true := by rw [hJ j (by simp)]; decide
    by_cases hj : j.low = 1
    · have ha := asks_many (n := (t : Int)) (d := d) R (j :: J) 0 (0, 0) p hJ (by omega) (by omega)
      rw [List.cons_append] at ha ⊢
      rw [trimmedDesign_cons, if_neg he, if_pos hj]
      dsimp only
      rw [ha]
      simp only [decide_true, and_self, if_true]
      exact ⟨[], ⟨p.1, p.2, 2⟩, _, by rw [List.nil_append, List.append_assoc]; rfl, rfl, by simp, fun _ _ _ => ⟨rfl, rfl⟩⟩
    · have : (j.low == 1) = false := by simpa using hj
      rw [List.countP_cons, this] at hn
      obtain ⟨E, z, Y, e1, e2, e3, e0⟩ := ih (j.x, j.y) (fun j h => hJ j (by simp [h])) (by simpa using hn)
      rw [List.cons_append, trimmedDesign_cons, if_neg he, if_neg hj]
      dsimp only
      rw [e1]
      refine ⟨j :: E, z, Y, rfl, e2, fun a ha => ?_, fun rs hp hz => ?_⟩
      swap
      · cases rs with
        | nil => simp [place] at hp
        | cons r rs =>
          simp only [place, List.cons.injEq] at hp
          obtain ⟨rfl, hp⟩ := hp
          obtain ⟨h1, h2⟩ := hz r (by simp) hj
          have := e0 rs hp (fun r hr => hz r (by simp [hr]))
          simp only [h1, h2, Int.cast_zero, add_zero] at this
          exact this
      rcases List.mem_cons.1 ha with rfl | ha
      · intro h0
        apply he
        rw [endsRun_iff]; exact .inl h0
      · exact e3 a ha

theorem place_length : ∀ (l : List Rec) (x y : ℚ), (place x y l).length = l.length
  | [], _, _ => rfl
  | _ :: l, _, _ => by simp only [place, List.length_cons, place_length l]

theorem recsOK_still (rs : List Rec) (m : Bool) (h : Dst.RecsOK m rs) : ∀ r ∈ rs, r.cmd = 2 ∨ r.cmd = 3 ∨ r.cmd = 6 → r.dx = 0 ∧ r.dy = 0 := by
  induction rs generalizing m with
  | nil => intro r hr; simp at hr
  | cons a rs ih =>
    intro r hr hc
    rcases List.mem_cons.1 hr with rfl | hr
    · rcases h.1 with h1 | h1
      · omega
      · exact h1.2
    · exact ih _ h.2 r hr hc

/-- What the reader makes of the records leads where they lead. -/
theorem placeEnd_readBack (t : Nat) : ∀ (rs : List Rec) (x y : ℚ), (∀ r ∈ rs, r.cmd = 2 ∨ r.cmd = 3 ∨ r.cmd = 6 → r.dx = 0 ∧ r.dy = 0) →
    placeEnd x y (rs.flatMap (Dst.readBack t)) = placeEnd x y rs := by
  intro rs
  induction rs with
  | nil => intro x y _; rfl
  | cons r rs ih =>
    intro x y h
    have hr := h r (by simp)
    rw [List.flatMap_cons, placeEnd_append]
    have h1 : placeEnd x y (Dst.readBack t r) = (x + r.dx, y + r.dy) := by
      unfold Dst.readBack
      split_ifs with h2 h3
      · rw [Dst.C05_net, (hr (.inl h2)).1, (hr (.inl h2)).2]; simp
      · rw [(hr (.inr (.inl h3))).1, (hr (.inr (.inl h3))).2]; simp [placeEnd]
      · rfl
    rw [h1, ih _ _ (fun r hr => h r (by simp [hr]))]
    rfl

/-- The last stitch or sequin. -/
theorem last_sewn {A : List Stitch} (h : Threaded A) : ∃ A1 s M, A = A1 ++ s :: M ∧ (s.low = 0 ∨ s.low = 7) ∧ ∀ a ∈ M, a.low = 1 ∨ a.low = 6 ∨ a.low = 11 ∨ a.low = 12 := by
  obtain ⟨A0, s0, M0, rfl, h0, hM⟩ := h
  induction M0 using List.reverseRecOn with
  | nil => exact ⟨A0, s0, [], rfl, .inl h0, by simp⟩
  | append_singleton M b ih =>
    have hb := hM b (by simp)
    by_cases h7 : b.low = 7
    · exact ⟨A0 ++ s0 :: M, b, [], by simp, .inr h7, by simp⟩
    · obtain ⟨A1, s, M1, e, hs, h1⟩ := ih (fun a ha => hM a (by simp [ha]))
      refine ⟨A1, s, M1 ++ [b], ?_, hs, ?_⟩
      · rw [← List.cons_append, ← List.append_assoc, e]; simp
      · intro a ha
        rcases List.mem_append.1 ha with ha | ha
        · exact h1 a ha
        · rw [List.mem_singleton.1 ha]
          simp only [List.mem_cons, List.not_mem_nil, or_false] at hb
          omega

theorem count_readBack (t : Int) (rs : List Rec) (h : ∀ r ∈ rs, 0 ≤ r.cmd ∧ r.cmd < 256) :
    (rs.flatMap (Dst.readBack t)).countP (fun r => r.cmd % 256 == 0) = rs.countP (fun r => r.cmd % 256 == 0) := by
  induction rs with
  | nil => rfl
  | cons r rs ih =>
    rw [List.flatMap_cons, List.countP_append, List.countP_cons, ih (fun r hr => h r (by simp [hr])), Nat.add_comm]
    congr 1
    unfold Dst.readBack
    split_ifs with h1 h2 h3 h4
    · rw [h1] at h2; exact absurd h2 (by decide)
    · rw [List.countP_eq_zero]
      intro a ha
      rw [(Dst.burst_jumps t a ha).1]; decide
    · rw [h3] at h4; exact absurd h4 (by decide)
    · rfl
    · rw [List.countP_singleton, if_pos ‹_›]
    · rw [List.countP_singleton, if_neg ‹_›]

theorem map_split {α β : Type} {f : α → β} {l : List α} {x z : List β} {y : β} (h : l.map f = x ++ y :: z) :
    ∃ l1 a l2, l = l1 ++ a :: l2 ∧ l1.map f = x ∧ f a = y ∧ l2.map f = z := by
  obtain ⟨l1, l2, rfl, e1, e2⟩ := List.map_eq_append_iff.1 h
  obtain ⟨a, l3, rfl, e3, e4⟩ := List.map_eq_cons_iff.1 e2
  exact ⟨l1, a, l3, rfl, e1, e3, e4⟩

end LoadTrim

/-- **C131**: a design without speed commands saved as DST with a number of jumps for a trim and loaded with the same number (and any distance and clipping): every trim of the normalized design is a
trim of the loaded design with the same number of stitches before and after it, at the stitch or sequin before it. -/
theorem C131_dst_partial {o : Settings} {lm : Libm} {threads : List Thread} {ths : List (Option Thread)} {source out : List Stitch} {t : Nat} (hs : Saving o lm 121) (ht : 1 ≤ t)
    (hq : ∀ a ∈ source, a.low ≠ 0xD5 ∧ a.low ≠ 0xD6 ∧ a.low ≠ 0xF0 ∧ a.low ≠ 11 ∧ a.low ≠ 12) (h : encode o lm threads source = .ok (out, ths))
    {A R : List Stitch} {c : Stitch} (hout : out = A ++ c :: R) (hc : c.low = 2) :
    ∃ b, Dst.writeBody t out = .ok b ∧ ∀ header : Bytes, header.length = 512 → ∀ (st : LoadSettings) (mm : Option ℚ) (clip : Bool), DstRule st (some (t : Int)) mm clip →
      ∃ X Y z, Dst.load st (header ++ b) = X ++ z :: Y ∧ z.low = 2 ∧ (strikes X).length = (strikes A).length ∧ (strikes Y).length = (strikes R).length ∧
        ∃ v, (A.filter (fun a => a.low = 0 ∨ a.low = 7)).getLast? = some v ∧ |z.x - v.x| ≤ 1 / 2 ∧ |z.y - v.y| ≤ 1 / 2 := by
  obtain ⟨A1, s, M, hA, hs0, hM⟩ := LoadTrim.last_sewn (C131_thread hs.sequins h A c R hout hc)
  obtain ⟨l, e, rfl, hl4, rs, r0, hdl, hr0, hok⟩ := Dst.encoded_ok hs.libm hs.sequins hs.round hs.stitch hs.jump (.inl hs.long) (by rw [hs.change]; decide) hq h
  -- the bytes and what is read of them
  obtain ⟨b, hb, hread⟩ := Dst.read_write t rs false hok
  have hw : Dst.writeBody t (l ++ [e]) = .ok (b ++ [0, 0, 0xF3]) := by
    unfold Dst.writeBody
    rw [hdl, List.flatMap_append]
    refine Dst.encodeAll_append hb ?_
    simp only [List.flatMap_cons, List.flatMap_nil, List.append_nil]
    unfold Dst.expand
    rw [if_neg (by rw [hr0]; decide)]
    simp only [Dst.encodeAll, hr0]
    rfl
  have e1 : Dst.readRecs false (b ++ [0, 0, 0xF3]) = rs.flatMap (Dst.readBack t) := by
    rw [hread]
    have : Dst.readRecs (Dst.modeAfter false rs) [0, 0, 0xF3] = [] := by
      rw [Dst.readRecs]
      have : ∀ m, Dst.classify m 0xF3 = none := by decide +kernel
      rw [this]
    rw [this, List.append_nil]
  refine ⟨_, hw, fun header hh st mm clip hr => ?_⟩
  unfold Dst.load Dst.loadBody
  rw [List.drop_left' hh, e1, Dst.trimRule_eq hr]
  dsimp only
  -- the records around the trim
  have hR : ∃ R', R = R' ++ [e] ∧ l = A ++ c :: R' := by
    rcases List.eq_nil_or_concat R with rfl | ⟨R', e', rfl⟩
    · have := List.append_inj_right' hout rfl
      simp at this
      rw [← this, hl4] at hc; exact absurd hc (by decide)
    · rw [List.concat_eq_append] at hout ⊢
      rw [← List.cons_append, ← List.append_assoc] at hout
      obtain ⟨h1, h2⟩ := List.append_inj' hout rfl
      simp at h2
      exact ⟨R', by rw [h2], h1⟩
  obtain ⟨R', rfl, hl⟩ := hR
  have hcm : rs.map (·.cmd) = l.map (·.low) := by
    have := deltas_cmds (l ++ [e]) 0 0
    rw [hdl, List.map_append, List.map_append] at this
    exact (List.append_inj' this rfl).1
  rw [hl, hA] at hcm
  rw [List.append_assoc, List.cons_append, List.map_append, List.map_cons, List.map_append, List.map_cons] at hcm
  obtain ⟨D1, ds, D2, hrs, c1, c2, c3⟩ := LoadTrim.map_split hcm
  obtain ⟨DM, dc, DR, hD2, c4, c5, c6⟩ := LoadTrim.map_split c3
  have hcmd := Dst.recsOK_cmd rs false hok
  have range : ∀ r ∈ rs, 0 ≤ r.cmd ∧ r.cmd < 256 := by
    intro r hr
    have := hcmd r hr
    simp only [List.mem_cons, List.not_mem_nil, or_false] at this
    omega
  have hDM : ∀ r ∈ DM, r.cmd = 1 ∨ r.cmd = 6 := by
    intro r hr
    have h1 : r.cmd ∈ M.map (·.low) := by rw [← c4]; exact List.mem_map.2 ⟨r, hr, rfl⟩
    obtain ⟨a, ha, e2⟩ := List.mem_map.1 h1
    have h2 := hM a ha
    have h3 := hcmd r (by rw [hrs, hD2]; simp [hr])
    simp only [List.mem_cons, List.not_mem_nil, or_false] at h3
    omega
  have fDM : DM.flatMap (Dst.readBack t) = DM := by
    conv_rhs => rw [← List.flatMap_singleton' DM]
    refine List.flatMap_congr fun r hr => ?_
    have := hDM r hr
    unfold Dst.readBack
    rw [if_neg (by omega), if_neg (by omega)]
  have fds : Dst.readBack t ds = [ds] := by
    unfold Dst.readBack
    rw [if_neg (by omega), if_neg (by omega)]
  have fdc : Dst.readBack t dc = Dst.burst t := by
    unfold Dst.readBack
    rw [if_pos (by omega)]
  have hflat : rs.flatMap (Dst.readBack t) = D1.flatMap (Dst.readBack t) ++ ([ds] ++ ((DM ++ Dst.burst t) ++ DR.flatMap (Dst.readBack t))) := by
    rw [hrs, hD2]
    simp only [List.flatMap_append, List.flatMap_cons, fDM, fds, fdc, List.append_assoc]
  have tot := LoadTrim.count_readBack t rs range
  have tot1 := LoadTrim.count_readBack t D1 (fun r hr => range r (by rw [hrs]; simp [hr]))
  generalize hL : place 0 0 (rs.flatMap (Dst.readBack t) ++ [⟨0, 0, END⟩]) = L
  have hcount : (strikes L).length = l.countP (fun a => a.low == 0) := by
    rw [LoadTrim.strikes_countP, ← hL, LoadTrim.place_countP, List.countP_append, tot]
    have : l.countP (fun a => a.low == 0) = (l.map (·.low)).countP (· == 0) := by rw [List.countP_map]; rfl
    rw [this]
    have h2 : rs.countP (fun r => r.cmd % 256 == 0) = (rs.map (·.cmd)).countP (· == 0) := by
      rw [List.countP_map]
      refine List.countP_congr fun r hr => ?_
      have := range r hr
      simp only [Function.comp, beq_iff_eq]
      omega
    rw [h2]
    have : rs.map (·.cmd) = l.map (·.low) := by rw [hcm, hl, hA]; simp
    rw [this]
    have : List.countP (fun r : Rec => r.cmd % 256 == 0) [⟨0, 0, END⟩] = 0 := by decide
    rw [this, Nat.add_zero]
  obtain ⟨x1, y1, hx1, hy1, hp⟩ : ∃ x1 y1, x1 = (placeEnd 0 0 (D1.flatMap (Dst.readBack t))).1 + ds.dx ∧ y1 = (placeEnd 0 0 (D1.flatMap (Dst.readBack t))).2 + ds.dy ∧ L = place 0 0 (D1.flatMap (Dst.readBack t)) ++ (⟨x1, y1, ds.cmd⟩ : Stitch) ::
      (place x1 y1 (DM ++ Dst.burst t) ++ place (placeEnd x1 y1 (DM ++ Dst.burst t)).1 (placeEnd x1 y1 (DM ++ Dst.burst t)).2 (DR.flatMap (Dst.readBack t) ++ [⟨0, 0, END⟩])) := by
    rw [← hL, hflat]
    simp only [List.append_assoc, List.cons_append, List.nil_append]
    have step : ∀ (x y : ℚ) (r : Rec) (rs : List Rec), place x y (r :: rs) = ⟨x + r.dx, y + r.dy, r.cmd⟩ :: place (x + r.dx) (y + r.dy) rs := fun _ _ _ _ => rfl
    rw [place_append, step]
    refine ⟨(placeEnd 0 0 (D1.flatMap (Dst.readBack t))).1 + ds.dx, (placeEnd 0 0 (D1.flatMap (Dst.readBack t))).2 + ds.dy, rfl, rfl, ?_⟩
    rw [← place_append, List.append_assoc]
  have hsl : (⟨x1, y1, ds.cmd⟩ : Stitch).low = s.low := by
    show ds.cmd % 256 = s.low
    rw [c2]
    omega
  have hends : endsRun (⟨x1, y1, ds.cmd⟩ : Stitch) = true := by rw [endsRun_iff, hsl]; omega
  have hJ : ∀ j ∈ place x1 y1 (DM ++ Dst.burst t), endsRun j = false := by
    intro j hj
    have := Dst.place_cmd (P := fun c => c = 1 ∨ c = 6) (DM ++ Dst.burst t) (by
      intro r hr
      rcases List.mem_append.1 hr with hr | hr
      · exact hDM r hr
      · exact .inl (Dst.burst_jumps t r hr).1) x1 y1 j hj
    rw [Bool.eq_false_iff]
    intro h
    rw [endsRun_iff] at h
    unfold Stitch.low at h
    rcases this with h1 | h1 <;> rw [h1] at h <;> revert h <;> decide
  have hn : t ≤ (place x1 y1 (DM ++ Dst.burst t)).countP (fun a => a.low == 1) := by
    have h1 := (Dst.C05_jumps t).1
    have h2 : ∀ (rs : List Rec) (x y : ℚ), (place x y rs).countP (fun a => a.low == 1) = rs.countP (fun r => r.cmd % 256 == 1) := by
      intro rs
      induction rs with
      | nil => intro x y; rfl
      | cons r rs ih => intro x y; simp only [place, List.countP_cons, ih]; rfl
    rw [h2, List.countP_append]
    have h3 : (Dst.burst t).countP (fun r => r.cmd % 256 == 1) = (Dst.burst t).length := by
      rw [List.countP_eq_length]
      intro r hr
      rw [(Dst.burst_jumps t r hr).1]; decide
    rw [h3]
    omega
  obtain ⟨E, z, Y, e2, e3, e4, e5⟩ := LoadTrim.cut_soon ht (d := mm.map (· * 10)) (clip := clip)
    (place (placeEnd x1 y1 (DM ++ Dst.burst t)).1 (placeEnd x1 y1 (DM ++ Dst.burst t)).2 (DR.flatMap (Dst.readBack t) ++ [⟨0, 0, END⟩]))
    (place x1 y1 (DM ++ Dst.burst t)) (x1, y1) hJ hn
  have htot := Convert.strikes_edited (interpolateTrims_edited (some (t : Int)) (mm.map (· * 10)) clip L)
  have hpre := Convert.strikes_edited (interpolateTrims_edited (some (t : Int)) (mm.map (· * 10)) clip
    (place 0 0 (D1.flatMap (Dst.readBack t)) ++ [(⟨x1, y1, ds.cmd⟩ : Stitch)]))
  have hres : interpolateTrims (some (t : Int)) (mm.map (· * 10)) clip L =
      (interpolateTrims (some (t : Int)) (mm.map (· * 10)) clip (place 0 0 (D1.flatMap (Dst.readBack t)) ++ [(⟨x1, y1, ds.cmd⟩ : Stitch)]) ++ E) ++ z :: Y := by
    rw [C50_exact, C50_exact, hp, LoadTrim.design_split hends, List.append_assoc]
    congr 1
    rw [← e2]
    congr 1
    rw [hsl]
    simpa using hs0
  have hE : strikes E = [] := by
    unfold strikes
    rw [List.filter_eq_nil_iff.2]; · rfl
    intro a ha
    simpa using e4 a ha
  have hx : (strikes (interpolateTrims (some (t : Int)) (mm.map (· * 10)) clip (place 0 0 (D1.flatMap (Dst.readBack t)) ++ [(⟨x1, y1, ds.cmd⟩ : Stitch)]) ++ E)).length =
      (strikes A).length := by
    rw [Strike.strikes_append, hE, List.append_nil, hpre, LoadTrim.strikes_countP, LoadTrim.strikes_countP, hA, List.countP_append, List.countP_append, LoadTrim.place_countP, tot1]
    have h1 : D1.countP (fun r => r.cmd % 256 == 0) = A1.countP (fun a => a.low == 0) := by
      have h2 : A1.countP (fun a => a.low == 0) = (A1.map (·.low)).countP (· == 0) := by rw [List.countP_map]; rfl
      rw [h2, ← c1, List.countP_map]
      refine List.countP_congr fun r hr => ?_
      have := range r (by rw [hrs]; simp [hr])
      simp only [Function.comp, beq_iff_eq]
      omega
    rw [h1, List.countP_cons, List.countP_cons, List.countP_nil, hsl]
    have h3 : M.countP (fun a => a.low == 0) = 0 := by
      rw [List.countP_eq_zero]
      intro a ha h
      have := hM a ha
      simp only [beq_iff_eq] at h
      omega
    rw [h3, Nat.zero_add]
  have hlast : ∃ v, (A.filter (fun a => a.low = 0 ∨ a.low = 7)).getLast? = some v ∧ |z.x - v.x| ≤ 1 / 2 ∧ |z.y - v.y| ≤ 1 / 2 := by
    have still := LoadTrim.recsOK_still rs false hok
    refine ⟨s, ?_, ?_⟩
    · have : M.filter (fun a => a.low = 0 ∨ a.low = 7) = [] := by
        rw [List.filter_eq_nil_iff]
        intro a ha h
        have := hM a ha
        simp only [decide_eq_true_eq] at h
        omega
      rw [hA, List.filter_append, List.filter_cons_of_pos (by simpa using hs0), this]
      simp
    · obtain ⟨zx, zy⟩ := e5 _ rfl (by
        intro r hr h1
        rcases List.mem_append.1 hr with hr | hr
        · rcases hDM r hr with h2 | h2
          · rw [h2] at h1; exact absurd rfl h1
          · exact still r (by rw [hrs, hD2]; simp [hr]) (.inr (.inr h2))
        · rw [(Dst.burst_jumps t r hr).1] at h1; exact absurd rfl h1)
      have near := place_deltas_near (l ++ [e]) 0 0
      have len : A1.length = D1.length := by have := congrArg List.length c1; simpa using this.symm
      rw [hdl, hrs, hl, hA] at near
      simp only [List.append_assoc, List.cons_append, Int.cast_zero] at near
      rw [place_append] at near
      have := (List.forall₂_iff_get.1 near).2 A1.length (by simp) (by simp [LoadTrim.place_length, len, place])
      simp [LoadTrim.place_length, len, place] at this
      rw [zx, zy, hx1, hy1, LoadTrim.placeEnd_readBack t D1 0 0 (fun r hr => still r (by rw [hrs]; simp [hr]))]
      rw [one_div]
      exact ⟨this.1, this.2.1⟩
  refine ⟨_, Y, z, hres, e3, hx, ?_, hlast⟩
  have := congrArg List.length htot
  rw [hres, Strike.strikes_append, List.length_append, hx, Convert.strikes_cons z, if_neg (by rw [e3]; decide), List.nil_append, hcount, hl, ← LoadTrim.strikes_countP,
    Strike.strikes_append, List.length_append, Convert.strikes_cons c, if_neg (by rw [hc]; decide), List.nil_append] at this
  rw [Strike.strikes_append, Convert.strikes_cons e, if_neg (by rw [hl4]; decide), List.length_append]
  simp only [List.nil_append]
  have : (strikes ([] : List Stitch)).length = 0 := rfl
  omega

/-! ## Examples -/

/-- Saved as DST with a number of jumps for a trim and loaded with the given settings. -/
def viaDst (trimAt : Nat) (s : LoadSettings) : Except PyErr (List Stitch) :=
  Dst.writeBody trimAt (demoEncode Dst.settings trimDemo) >>= fun b => .ok (Dst.load s (List.replicate 512 32 ++ b))

-- the design has a trim and is loaded with it
example : (∃ A c R, demoEncode Dst.settings trimDemo = A ++ c :: R ∧ c.low = 2 ∧ strikes A = [(0, 0), (10, 0)]) ∧
    viaDst 3 {} = .ok (demoEncode Dst.settings trimDemo) ∧ viaDst 5 { trimAt := some (some 5) } = viaDst 3 {} :=
  ⟨⟨[⟨0, 0, 0⟩, ⟨10, 0, 0⟩], ⟨10, 0, 2⟩, [⟨20, 10, 1⟩, ⟨20, 20, 0⟩, ⟨30, 20, 0⟩, ⟨30, 20, 4⟩], by decide +kernel, by decide +kernel, by decide +kernel⟩, by decide +kernel, by decide +kernel⟩

/-- A design with a speed command before its trim. -/
def slowTrim : List Stitch := [⟨0, 0, 0⟩, ⟨0, 0, 11⟩, ⟨10, 0, 0⟩, ⟨10, 0, 2⟩, ⟨20, 20, 0⟩, ⟨30, 20, 0⟩]

/-- The number of stitches before the first trim. -/
def strikesBefore (l : List Stitch) : Nat := (strikes (l.takeWhile (fun a => a.low ≠ 2))).length

/-- C131: with speed commands the number of stitches before a trim is not kept (DST makes stitches of them, see C06). -/
theorem C131_speed_fails : ∃ b, Dst.writeBody 3 (demoEncode Dst.settings slowTrim) = .ok b ∧ strikesBefore (demoEncode Dst.settings slowTrim) = 2 ∧
    ∀ header : Bytes, header.length = 512 → strikesBefore (Dst.load {} (header ++ b)) = 3 := by
  refine ⟨[0, 0, 3, 0, 0, 0, 5, 0, 3, 130, 65, 131, 130, 130, 131, 130, 65, 131, 165, 80, 3, 5, 0, 3, 0, 0, 243], by decide +kernel, by decide +kernel, fun header hh => ?_⟩
  unfold Dst.load
  rw [List.drop_left' hh]
  decide +kernel

end Emb
