import Verif.Thread

/-!
# Properties C38-C42: colours and palettes
-/

namespace Emb

/-! ## C39: the distance -/

/-- `round((a + b) / 2)` of two bytes is a byte. -/
theorem redMean_range {a b : Int} (ha : 0 ≤ a ∧ a < 256) (hb : 0 ≤ b ∧ b < 256) :
    0 ≤ pyRound (((a + b : Int) : ℚ) / 2) ∧ pyRound (((a + b : Int) : ℚ) / 2) ≤ 255 := by
  have h1 := pyRound_le (((a + b : Int) : ℚ) / 2)
  have h2 := le_pyRound (((a + b : Int) : ℚ) / 2)
  have ha1 : (a : ℚ) ≤ 255 := by exact_mod_cast (by omega : a ≤ 255)
  have hb1 : (b : ℚ) ≤ 255 := by exact_mod_cast (by omega : b ≤ 255)
  have ha0 : (0 : ℚ) ≤ a := by exact_mod_cast ha.1
  have hb0 : (0 : ℚ) ≤ b := by exact_mod_cast hb.1
  push_cast at h1 h2
  constructor
  · have : (-1 : ℚ) < (pyRound (((a + b : Int) : ℚ) / 2) : ℚ) := by push_cast; linarith
    have : (-1 : Int) < pyRound (((a + b : Int) : ℚ) / 2) := by exact_mod_cast this
    omega
  · have : (pyRound (((a + b : Int) : ℚ) / 2) : ℚ) < 256 := by push_cast; linarith
    have : pyRound (((a + b : Int) : ℚ) / 2) < 256 := by exact_mod_cast this
    omega

theorem weighted_nonneg {w r : Int} (hw : 512 ≤ w) : 0 ≤ (w * r * r) / 256 := by
  apply Int.ediv_nonneg _ (by omega)
  have : 0 ≤ r * r := mul_self_nonneg r
  nlinarith

theorem weighted_zero {w r : Int} (hw : 512 ≤ w) : (w * r * r) / 256 = 0 ↔ r = 0 := by
  constructor
  · intro h
    by_contra hr
    have h1 : 1 ≤ r * r := by
      rcases lt_or_gt_of_ne hr with h | h <;> nlinarith
    have h2 : 512 ≤ w * r * r := by nlinarith
    have h3 := Int.ediv_le_ediv (by omega : (0 : Int) < 256) h2
    norm_num at h3; omega
  · rintro rfl; simp

/-- **C39**: for byte components the distance is never negative, is symmetric, and is zero exactly for equal colours. -/
theorem C39_distance (r1 g1 b1 r2 g2 b2 : Int)
    (h1 : 0 ≤ r1 ∧ r1 < 256) (h2 : 0 ≤ r2 ∧ r2 < 256) :
    0 ≤ colorDistance r1 g1 b1 r2 g2 b2 ∧
    colorDistance r1 g1 b1 r2 g2 b2 = colorDistance r2 g2 b2 r1 g1 b1 ∧
    (colorDistance r1 g1 b1 r2 g2 b2 = 0 ↔ r1 = r2 ∧ g1 = g2 ∧ b1 = b2) := by
  obtain ⟨hm0, hm1⟩ := redMean_range h1 h2
  unfold colorDistance
  simp only
  have hcomm : r1 + r2 = r2 + r1 := by omega
  rw [show ((r2 + r1 : Int)) = r1 + r2 by omega]
  generalize pyRound (((r1 + r2 : Int) : ℚ) / 2) = m at *
  have A := weighted_nonneg (r := r1 - r2) (by omega : 512 ≤ 512 + m)
  have B := weighted_nonneg (r := b1 - b2) (by omega : 512 ≤ 767 - m)
  have A0 := weighted_zero (r := r1 - r2) (by omega : 512 ≤ 512 + m)
  have B0 := weighted_zero (r := b1 - b2) (by omega : 512 ≤ 767 - m)
  have G : 0 ≤ 4 * (g1 - g2) * (g1 - g2) := by nlinarith [mul_self_nonneg (g1 - g2)]
  refine ⟨by omega, ?_, ?_⟩
  · have e1 : (512 + m) * (r1 - r2) * (r1 - r2) = (512 + m) * (r2 - r1) * (r2 - r1) := by ring
    have e2 : 4 * (g1 - g2) * (g1 - g2) = 4 * (g2 - g1) * (g2 - g1) := by ring
    have e3 : (767 - m) * (b1 - b2) * (b1 - b2) = (767 - m) * (b2 - b1) * (b2 - b1) := by ring
    rw [e1, e2, e3]
  · constructor
    · intro h
      have hA : (512 + m) * (r1 - r2) * (r1 - r2) / 256 = 0 := by omega
      have hB : (767 - m) * (b1 - b2) * (b1 - b2) / 256 = 0 := by omega
      have hG : 4 * (g1 - g2) * (g1 - g2) = 0 := by omega
      have := A0.1 hA
      have := B0.1 hB
      have hg : (g1 - g2) * (g1 - g2) = 0 := by nlinarith
      have := mul_self_eq_zero.1 hg
      refine ⟨by omega, by omega, by omega⟩
    · rintro ⟨rfl, rfl, rfl⟩; simp

/-- The 24-bit colour value of a thread, as opposed to its channels. -/
def Thread.rgb (t : Thread) : Int := t.color % 16777216

/-- Two colour values have the same channels exactly if their low 24 bits agree. -/
theorem channels_eq_iff (a b : Int) :
    (a / 65536 % 256 = b / 65536 % 256 ∧ a / 256 % 256 = b / 256 % 256 ∧ a % 256 = b % 256) ↔
      a % 16777216 = b % 16777216 := by omega

/-- **C39** for threads: distance zero exactly for equal 24-bit colours; never negative. -/
theorem C39_distTo (c : Int) (t : Thread) :
    0 ≤ distTo c t ∧ (distTo c t = 0 ↔ c % 16777216 = t.rgb) := by
  have h := C39_distance (c / 65536 % 256) (c / 256 % 256) (c % 256) t.red t.green t.blue
    (by omega) (by unfold Thread.red; omega)
  refine ⟨h.1, ?_⟩
  unfold distTo
  rw [h.2.2]
  exact channels_eq_iff c t.color

example : colorDistance 255 0 0 0 0 255 = 324870 ∧ colorDistance 1 2 3 1 2 4 = 2 := by decide +kernel

/-! ## C38: the nearest entry -/

/-- What "the nearest palette entry, the later one on ties" means. -/
def IsNearest (c : Int) (values : List (Option Thread)) (i : Nat) : Prop :=
  ∃ t, values[i]? = some (some t) ∧
    ∀ j u, values[j]? = some (some u) → distTo c t ≤ distTo c u ∧ (distTo c u = distTo c t → j ≤ i)

theorem findLoop_spec (c : Int) (pre : List (Option Thread)) :
    ∀ (vs : List (Option Thread)) (best : Option (Nat × Int)),
      (match best with
        | none => ∀ j : Nat, ∀ u, pre[j]? = some (some u) → False
        | some (i, d) => (∃ t, pre[i]? = some (some t) ∧ distTo c t = d) ∧
            ∀ j u, pre[j]? = some (some u) → d ≤ distTo c u ∧ (distTo c u = d → j ≤ i)) →
      match findLoop c vs pre.length best with
      | none => ∀ j : Nat, ∀ u, (pre ++ vs)[j]? = some (some u) → False
      | some i => IsNearest c (pre ++ vs) i := by
  intro vs
  induction vs generalizing pre with
  | nil =>
    intro best hb
    cases best with
    | none => simpa [findLoop] using hb
    | some p =>
      obtain ⟨i, d⟩ := p
      simp only [findLoop, Option.map_some, List.append_nil]
      obtain ⟨⟨t, ht, hd⟩, hall⟩ := hb
      exact ⟨t, ht, by intro j u hu; rw [hd]; exact hall j u hu⟩
  | cons v vs ih =>
    intro best hb
    have hsnoc : ∀ (j : Nat) (u : Thread), (pre ++ [v])[j]? = some (some u) →
        pre[j]? = some (some u) ∨ (j = pre.length ∧ v = some u) := by
      intro j u hu
      rw [List.getElem?_append] at hu
      split at hu
      · exact Or.inl hu
      · rename_i hlt
        rcases Nat.lt_or_ge (j - pre.length) 1 with h | h
        · have : j = pre.length := by omega
          subst this
          simp at hu
          exact Or.inr ⟨rfl, hu⟩
        · rw [List.getElem?_eq_none (by simpa using h)] at hu; cases hu
    have hleft : ∀ (j : Nat) (u : Thread), pre[j]? = some (some u) → (pre ++ [v])[j]? = some (some u) := by
      intro j u hu
      have hlt : j < pre.length := by
        by_contra hcon
        rw [List.getElem?_eq_none (by omega)] at hu; cases hu
      rw [List.getElem?_append_left hlt]; exact hu
    have happ : pre ++ v :: vs = (pre ++ [v]) ++ vs := by simp
    have hlen : pre.length + 1 = (pre ++ [v]).length := by simp
    cases v with
    | none =>
      simp only [findLoop]
      rw [happ, hlen]
      apply ih
      cases best with
      | none =>
        intro j u hu
        rcases hsnoc j u hu with h | ⟨_, h⟩
        · exact hb j u h
        · cases h
      | some p =>
        obtain ⟨i, d⟩ := p
        obtain ⟨⟨t, ht, hd⟩, hall⟩ := hb
        refine ⟨⟨t, hleft i t ht, hd⟩, ?_⟩
        intro j u hu
        rcases hsnoc j u hu with h | ⟨_, h⟩
        · exact hall j u h
        · cases h
    | some t0 =>
      have hnew : (pre ++ [some t0])[pre.length]? = some (some t0) := by simp
      cases best with
      | none =>
        simp only [findLoop]
        rw [happ, hlen]
        apply ih
        refine ⟨⟨t0, hnew, rfl⟩, ?_⟩
        intro j u hu
        rcases hsnoc j u hu with h | ⟨h1, h2⟩
        · exact absurd h (fun h => hb j u h)
        · cases h2; exact ⟨le_refl _, fun _ => by omega⟩
      | some p =>
        obtain ⟨i, d⟩ := p
        obtain ⟨⟨t, ht, hd⟩, hall⟩ := hb
        have hi : i < pre.length := by
          by_contra hcon
          rw [List.getElem?_eq_none (by omega)] at ht; cases ht
        simp only [findLoop]
        by_cases hle : distTo c t0 ≤ d
        · rw [if_pos hle, happ, hlen]
          apply ih
          refine ⟨⟨t0, hnew, rfl⟩, ?_⟩
          intro j u hu
          rcases hsnoc j u hu with h | ⟨h1, h2⟩
          · have hj : j < pre.length := by
              by_contra hcon
              rw [List.getElem?_eq_none (by omega)] at h; cases h
            exact ⟨by have := (hall j u h).1; omega, fun _ => by omega⟩
          · cases h2; exact ⟨le_refl _, fun _ => by omega⟩
        · rw [if_neg hle, happ, hlen]
          apply ih
          refine ⟨⟨t, hleft i t ht, hd⟩, ?_⟩
          intro j u hu
          rcases hsnoc j u hu with h | ⟨h1, h2⟩
          · exact hall j u h
          · cases h2; exact ⟨by omega, fun h => by omega⟩

/-- **C38**: `find_nearest_color_index` returns `None` exactly for a palette without entries, and otherwise the index of
an existing entry of minimal distance, the last one among equals. -/
theorem C38_nearest (c : Int) (values : List (Option Thread)) :
    (findNearest c values = none ↔ ∀ v ∈ values, v = none) ∧
    (∀ i, findNearest c values = some i ↔ IsNearest c values i) := by
  have h := findLoop_spec c [] values none (by simp)
  simp only [List.length_nil, List.nil_append] at h
  have hmem : (∀ v ∈ values, v = none) ↔ ∀ (j : Nat) (u : Thread), values[j]? = some (some u) → False := by
    constructor
    · intro hv j u hu
      have := hv (some u) (List.mem_of_getElem? hu)
      cases this
    · intro hv v hvm
      cases v with
      | none => rfl
      | some u =>
        obtain ⟨j, hj⟩ := List.mem_iff_getElem?.1 hvm
        exact absurd hj (fun h => hv j u h)
  unfold findNearest
  cases hr : findLoop c values 0 none with
  | none =>
    rw [hr] at h
    refine ⟨⟨fun _ => hmem.2 h, fun _ => rfl⟩, fun i => ⟨(fun h => nomatch h), ?_⟩⟩
    rintro ⟨t, ht, _⟩
    exact absurd ht (fun hh => h i t hh)
  | some k =>
    rw [hr] at h
    refine ⟨⟨(fun h => nomatch h), fun hn => ?_⟩, fun i => ⟨?_, ?_⟩⟩
    · obtain ⟨t, ht, _⟩ := h
      exact absurd ht (fun hh => hmem.1 hn k t hh)
    · intro hi; injection hi with hi; subst hi; exact h
    · rintro ⟨t, ht, hall⟩
      obtain ⟨t', ht', hall'⟩ := h
      have h1 := hall k t' ht'
      have h2 := hall' i t ht
      have e : distTo c t = distTo c t' := by omega
      have := h1.2 e.symm
      have := h2.2 e
      congr 1; omega

/-- **C38**: `build_palette` gives each thread, in order, the index of the entry nearest to its colour, the last one among equals, and `None` exactly if the palette has no entries. -/
theorem C38_palette (palette : List (Option Thread)) (threads : List Thread) :
    List.Forall₂ (fun t r => (r = none ↔ ∀ v ∈ palette, v = none) ∧ ∀ i, r = some i ↔ IsNearest t.color palette i) threads (buildPalette palette threads) := by
  unfold buildPalette
  induction threads with
  | nil => exact .nil
  | cons t ts ih => exact .cons (C38_nearest t.color palette) ih

example : buildPalette [none, some { color := 0x000000 }, some { color := 0xFF0000 }, some { color := 0xFFFFFF }] [{ color := 0xEE1111 }, { color := 0x101010 }, { color := 0xFF0000 }] =
    [some 2, some 1, some 2] := by decide +kernel

/-- **C38**: a colour present in the palette is found exactly. -/
theorem C38_exact (c : Int) (values : List (Option Thread)) (t : Thread) (h : some t ∈ values)
    (ht : t.rgb = c % 16777216) :
    ∃ i u, findNearest c values = some i ∧ values[i]? = some (some u) ∧ u.rgb = c % 16777216 := by
  cases hr : findNearest c values with
  | none => have := (C38_nearest c values).1.1 hr _ h; cases this
  | some i =>
    obtain ⟨u, hu, hall⟩ := ((C38_nearest c values).2 i).1 hr
    refine ⟨i, u, rfl, hu, ?_⟩
    obtain ⟨j, hj⟩ := List.mem_iff_getElem?.1 h
    have h0 : distTo c t = 0 := (C39_distTo c t).2.2 ht.symm
    have h1 := (hall j t hj).1
    have h2 := (C39_distTo c u).1
    have : distTo c u = 0 := by omega
    exact ((C39_distTo c u).2.1 this).symm

/-- The search depends only on the low 24 bits of the colour. -/
theorem findNearest_congr (c d : Int) (values : List (Option Thread)) (h : c % 16777216 = d % 16777216) :
    findNearest c values = findNearest d values := by
  have e : ∀ t, distTo c t = distTo d t := by
    intro t
    obtain ⟨h1, h2, h3⟩ := (channels_eq_iff c d).2 h
    unfold distTo; rw [h1, h2, h3]
  have : ∀ vs i best, findLoop c vs i best = findLoop d vs i best := by
    intro vs
    induction vs with
    | nil => intro i best; rfl
    | cons v vs ih =>
      intro i best
      cases v with
      | none => simp [findLoop, ih]
      | some t => cases best with
        | none => simp [findLoop, ih, e]
        | some p => simp [findLoop, ih, e]
  exact this _ _ _

example : findNearest 0x0000FE [some ⟨0xFF, none, none, none, none, none, none⟩, none,
    some ⟨0xFF0000, none, none, none, none, none, none⟩, some ⟨0xFF, none, none, none, none, none, none⟩] = some 3 := by
  decide +kernel

/-! ## C40: unique palettes -/

/-- `order` is a possible iteration order of Python's `set(threads)`: its members come from the list and every thread of
the list has an equal (`__eq__`) member. -/
def IsSetOrder (order threads : List Thread) : Prop :=
  (∀ t ∈ order, t ∈ threads) ∧ (∀ t ∈ threads, ∃ u ∈ order, Thread.same t u = true)

/-- Number of usable palette entries. -/
def entries (palette : List (Option Thread)) : Nat := palette.countP (·.isSome)

theorem same_rgb {a b : Thread} (h : a.same b = true) : a.rgb = b.rgb := by
  unfold Thread.same at h
  unfold Thread.rgb
  by_contra hne
  simp [hne] at h

theorem findNearest_some_of_entries {c : Int} {p : List (Option Thread)} (h : 0 < entries p) :
    ∃ i t, findNearest c p = some i ∧ p[i]? = some (some t) := by
  cases hr : findNearest c p with
  | none =>
    have hn := (C38_nearest c p).1.1 hr
    have : entries p = 0 := by
      unfold entries
      rw [List.countP_eq_zero]
      intro v hv; rw [hn v hv]; simp
    omega
  | some i =>
    obtain ⟨t, ht, _⟩ := ((C38_nearest c p).2 i).1 hr
    exact ⟨i, t, rfl, ht⟩

theorem entries_set_none {p : List (Option Thread)} {i : Nat} {t : Thread} (h : p[i]? = some (some t)) :
    entries (p.set i none) + 1 = entries p := by
  unfold entries
  induction p generalizing i with
  | nil => simp at h
  | cons v p ih =>
    cases i with
    | zero => simp at h; subst h; simp
    | succ i =>
      simp only [List.getElem?_cons_succ] at h
      simp only [List.set_cons_succ, List.countP_cons]
      have := ih h
      omega

/-- Invariant of the first loop: entries are used at most once, so nothing in the chart is overwritten. -/
theorem uniqueLoop_spec (order : List Thread) :
    ∀ (p chart : List (Option Thread)), p.length = chart.length →
      (∀ (i : Nat), (∃ t, chart[i]? = some (some t)) → p[i]? = some none) →
      order.length ≤ entries p →
      let r := uniqueLoop order p chart
      r.length = chart.length ∧
      (∀ t ∈ order, some t ∈ r) ∧
      (∀ (i : Nat) (t : Thread), chart[i]? = some (some t) → r[i]? = some (some t)) ∧
      (∀ (i : Nat) (t : Thread), r[i]? = some (some t) → chart[i]? = some (some t) ∨ (t ∈ order ∧ ∃ q, p[i]? = some (some q))) := by
  induction order with
  | nil => intro p chart hl _ _; simp [uniqueLoop]
  | cons t ts ih =>
    intro p chart hl hused hle
    simp only [List.length_cons] at hle
    obtain ⟨i, q, hi, hq⟩ := findNearest_some_of_entries (c := t.color) (p := p) (by omega)
    have hlt : i < p.length := by
      by_contra hcon; rw [List.getElem?_eq_none (by omega)] at hq; cases hq
    have hset := entries_set_none hq
    have hused' : ∀ (j : Nat), (∃ u, (chart.set i (some t))[j]? = some (some u)) → (p.set i none)[j]? = some none := by
      intro j ⟨u, hu⟩
      by_cases hij : i = j
      · subst hij; simp [hlt]
      · rw [List.getElem?_set_ne hij] at hu ⊢; exact hused j ⟨u, hu⟩
    obtain ⟨r1, r2, r3, r4⟩ := ih (p.set i none) (chart.set i (some t)) (by simpa using hl) hused' (by omega)
    have hchart_i : (chart.set i (some t))[i]? = some (some t) := by simp [← hl, hlt]
    simp only [uniqueLoop, hi]
    refine ⟨by simpa using r1, ?_, ?_, ?_⟩
    · intro u hu
      rcases List.mem_cons.1 hu with rfl | hu
      · exact List.mem_of_getElem? (r3 i u hchart_i)
      · exact r2 u hu
    · intro j u hu
      apply r3
      have hij : i ≠ j := by
        rintro rfl
        have := hused i ⟨u, hu⟩
        rw [hq] at this; cases this
      rw [List.getElem?_set_ne hij]; exact hu
    · intro j u hu
      rcases r4 j u hu with h | ⟨h1, q', h2⟩
      · by_cases hij : i = j
        · subst hij
          rw [hchart_i] at h; injection h with h; injection h with h; subst h
          exact Or.inr ⟨List.mem_cons_self, q, hq⟩
        · rw [List.getElem?_set_ne hij] at h; exact Or.inl h
      · by_cases hij : i = j
        · subst hij; simp [hlt] at h2
        · rw [List.getElem?_set_ne hij] at h2
          exact Or.inr ⟨List.mem_cons_of_mem _ h1, q', h2⟩

/-- **C40**: for a palette with at least as many entries as there are different threads, and for *every* iteration
order of the set: each thread gets an index of a genuine palette entry, and two threads get the same index exactly if
they have the same 24-bit colour. -/
theorem C40_unique (palette : List (Option Thread)) (order threads : List Thread)
    (ho : IsSetOrder order threads) (hsize : order.length ≤ entries palette) :
    (∀ r ∈ buildUnique palette order threads, ∃ i q, r = some i ∧ palette[i]? = some (some q)) ∧
    (∀ a ∈ threads, ∀ b ∈ threads,
      let ix := fun t : Thread => findNearest t.color (uniqueLoop order palette (List.replicate palette.length none))
      (ix a = ix b ↔ a.rgb = b.rgb)) := by
  have hs := uniqueLoop_spec order palette (List.replicate palette.length none) (by simp)
    (by
      intro i ⟨t, ht⟩
      rw [List.getElem?_replicate] at ht
      split at ht <;> cases ht) hsize
  simp only at hs
  set chart := uniqueLoop order palette (List.replicate palette.length none) with hc
  obtain ⟨hl, hin, _, hfrom⟩ := hs
  have hfind : ∀ a ∈ threads, ∃ i u, findNearest a.color chart = some i ∧ chart[i]? = some (some u) ∧ u.rgb = a.rgb := by
    intro a ha
    obtain ⟨u, hu, hsame⟩ := ho.2 a ha
    exact C38_exact a.color chart u (hin u hu) (same_rgb hsame).symm
  refine ⟨?_, ?_⟩
  · intro r hr
    simp only [buildUnique, List.mem_map] at hr
    obtain ⟨a, ha, rfl⟩ := hr
    obtain ⟨i, u, hi, hu, _⟩ := hfind a ha
    rcases hfrom i u hu with h | ⟨_, q, hq⟩
    · rw [List.getElem?_replicate] at h
      split at h <;> cases h
    · exact ⟨i, q, hi, hq⟩
  · intro a ha b hb
    obtain ⟨i, u, hi, hu, hua⟩ := hfind a ha
    obtain ⟨j, v, hj, hv, hvb⟩ := hfind b hb
    simp only
    constructor
    · intro h
      rw [hi, hj] at h; injection h with h; subst h
      rw [hu] at hv; injection hv with hv; injection hv with hv; subst hv
      rw [← hua, hvb]
    · intro h
      exact findNearest_congr _ _ _ h

/-- The indices returned are those of the threads, in order (so C40 speaks about the returned list). -/
theorem C40_result_shape (palette : List (Option Thread)) (order threads : List Thread) :
    (buildUnique palette order threads).length = threads.length := by simp [buildUnique]

/-- **C40** as a statement about the returned list itself. -/
theorem C40_unique_list (palette : List (Option Thread)) (order threads : List Thread)
    (ho : IsSetOrder order threads) (hsize : order.length ≤ entries palette)
    (i j : Nat) (a b : Thread) (ha : threads[i]? = some a) (hb : threads[j]? = some b) :
    ((buildUnique palette order threads)[i]? = (buildUnique palette order threads)[j]?) ↔ a.rgb = b.rgb := by
  have h := (C40_unique palette order threads ho hsize).2 a (List.mem_of_getElem? ha) b (List.mem_of_getElem? hb)
  simp only at h
  simp only [buildUnique, List.getElem?_map, ha, hb, Option.map_some]
  rw [Option.some_inj]
  exact h

def thr (c : Int) : Thread := { color := c }

example : IsSetOrder [thr 1, thr 0x20000] [thr 0x20000, thr 1, thr 0x20000] ∧
    [thr 1, thr 0x20000].length ≤ entries [some (thr 0), none, some (thr 5)] ∧
    buildUnique [some (thr 0), none, some (thr 5)] [thr 1, thr 0x20000] [thr 0x20000, thr 1, thr 0x20000]
      = [some 2, some 0, some 2] := by
  refine ⟨⟨by decide +kernel, by decide +kernel⟩, by decide +kernel, by decide +kernel⟩

/-! ## C41: non-repeating palettes -/

theorem nonrepeatLoop_spec (palette : List (Option Thread)) (he : 2 ≤ entries palette) :
    ∀ (threads : List Thread) (li : Option Nat) (lt : Option Thread),
      ((∃ i, li = some i) ∨ lt = none) → (lt = none → li = none) →
      ∃ r, nonrepeatLoop palette threads li lt = .ok r ∧ r.length = threads.length ∧
        (∀ x ∈ r, ∃ i q, x = some i ∧ palette[i]? = some (some q)) ∧
        (∀ t0 r0, threads.head? = some t0 → r.head? = some r0 → ∀ l, lt = some l → l.same t0 = false → r0 ≠ li) ∧
        (∀ k a b x y, threads[k]? = some a → threads[k + 1]? = some b → r[k]? = some x → r[k + 1]? = some y →
          a.same b = false → x ≠ y) := by
  intro threads
  induction threads with
  | nil => intro li lt _ _; exact ⟨[], rfl, rfl, by simp, by simp, by simp⟩
  | cons t ts ih =>
    intro li lt hli hlt
    obtain ⟨i, q, hi, hq⟩ := findNearest_some_of_entries (c := t.color) (p := palette) (by omega)
    have hset := entries_set_none hq
    obtain ⟨i', q', hi', hq'⟩ := findNearest_some_of_entries (c := t.color) (p := palette.set i none) (by omega)
    have hne : i' ≠ i := by
      rintro rfl
      by_cases hl : i' < palette.length
      · simp [hl] at hq'
      · rw [List.getElem?_eq_none (by simpa using hl)] at hq'; cases hq'
    have hq'' : palette[i']? = some (some q') := by
      rw [List.getElem?_set_ne (Ne.symm hne)] at hq'; exact hq'
    -- the two branches share the tail of the argument
    have tail : ∀ (k : Nat) (qq : Thread), palette[k]? = some (some qq) →
        (∀ l, lt = some l → l.same t = false → some k ≠ li) →
        ∃ r, (match nonrepeatLoop palette ts (some k) (some t) with
              | .ok r => (.ok (some k :: r) : Except PyErr (List (Option Nat)))
              | .error e => .error e) = .ok r ∧ r.length = (t :: ts).length ∧
          (∀ x ∈ r, ∃ i q, x = some i ∧ palette[i]? = some (some q)) ∧
          (∀ t0 r0, (t :: ts).head? = some t0 → r.head? = some r0 → ∀ l, lt = some l → l.same t0 = false → r0 ≠ li) ∧
          (∀ j a b x y, (t :: ts)[j]? = some a → (t :: ts)[j + 1]? = some b → r[j]? = some x → r[j + 1]? = some y →
            a.same b = false → x ≠ y) := by
      intro k qq hk hfirst
      obtain ⟨r, hr, hlen, hval, hhead, hcons⟩ := ih (some k) (some t) (Or.inl ⟨k, rfl⟩) (by intro h; cases h)
      refine ⟨some k :: r, by rw [hr], by simp [hlen], ?_, ?_, ?_⟩
      · intro x hx
        rcases List.mem_cons.1 hx with rfl | hx
        · exact ⟨k, qq, rfl, hk⟩
        · exact hval x hx
      · intro t0 r0 h1 h2 l hl hs
        simp at h1 h2; subst h1; subst h2
        exact hfirst l hl hs
      · intro j a b x y ha hb hx hy hs
        cases j with
        | zero =>
          simp at ha hx; subst ha; subst hx
          simp only [Nat.zero_add, List.getElem?_cons_succ] at hb hy
          have := hhead b y (by rw [List.head?_eq_getElem?]; exact hb) (by rw [List.head?_eq_getElem?]; exact hy) t rfl hs
          exact fun h => this h.symm
        | succ j =>
          simp only [List.getElem?_cons_succ] at ha hb hx hy
          exact hcons j a b x y ha hb hx hy hs
    simp only [nonrepeatLoop, hi, hi']
    by_cases hcond : li = some i ∧ differs lt t = true
    · rw [if_pos hcond]
      apply tail i' q' hq''
      intro l hl hs
      rw [hcond.1]; simpa using hne
    · rw [if_neg hcond]
      apply tail i q hq
      intro l hl hs heq
      apply hcond
      refine ⟨heq.symm, ?_⟩
      rw [hl]; simp [differs, hs]

/-- **C41** (partial): with at least two palette entries `build_nonrepeat_palette` succeeds, gives every thread a genuine
entry, and gives different (`!=`) neighbouring threads different indices. Missing from the full claim: "a repeated thread
keeps its index", which is false of the code, see `C41_repeat_not_kept`. -/
theorem C41_nonrepeat_partial (palette : List (Option Thread)) (threads : List Thread) (he : 2 ≤ entries palette) :
    ∃ r, buildNonrepeat palette threads = .ok r ∧ r.length = threads.length ∧
      (∀ x ∈ r, ∃ i q, x = some i ∧ palette[i]? = some (some q)) ∧
      (∀ k a b x y, threads[k]? = some a → threads[k + 1]? = some b → r[k]? = some x → r[k + 1]? = some y →
        a.same b = false → x ≠ y) := by
  obtain ⟨r, h1, h2, h3, _, h5⟩ := nonrepeatLoop_spec palette he threads none none (Or.inr rfl) (fun _ => rfl)
  exact ⟨r, h1, h2, h3, h5⟩

/-- An entry whose nearest colour is not the previous index keeps its nearest colour: no needless substitution.
(Stated for the first thread and for a thread whose nearest index differs from the previous result.) -/
theorem C41_minimal_change (palette : List (Option Thread)) (t : Thread) (ts : List Thread) (li : Option Nat)
    (lt : Option Thread) (r : List (Option Nat))
    (h : nonrepeatLoop palette (t :: ts) li lt = .ok r) (hdiff : li ≠ findNearest t.color palette) :
    r.head? = some (findNearest t.color palette) := by
  simp only [nonrepeatLoop] at h
  rw [if_neg (by rintro ⟨h1, _⟩; exact hdiff h1)] at h
  split at h
  · injection h with h; subst h; rfl
  · cases h

/-- The last part of C41 fails: thread 2 is moved to the second entry because its nearest entry was just used, but its
immediate repetition is compared with that moved index and goes back to the first entry. -/
theorem C41_repeat_not_kept :
    ∃ (palette : List (Option Thread)) (threads : List Thread) (r : List (Option Nat)) (k : Nat),
      2 ≤ entries palette ∧ buildNonrepeat palette threads = .ok r ∧ threads[k]? = threads[k + 1]? ∧
      k + 1 < threads.length ∧ r[k]? ≠ r[k + 1]? :=
  ⟨[some (thr 0), some (thr 0xFF)], [thr 1, thr 2, thr 2], [some 0, some 1, some 0], 1, by decide +kernel⟩

/-- A repeated thread does keep its index when the previous index is its nearest entry. -/
theorem C41_repeat_kept_when_nearest (palette : List (Option Thread)) (t : Thread) (ts : List Thread)
    (r : List (Option Nat)) (h : nonrepeatLoop palette (t :: ts) (findNearest t.color palette) (some t) = .ok r) :
    r.head? = some (findNearest t.color palette) := by
  simp only [nonrepeatLoop] at h
  rw [if_neg (by rintro ⟨_, h1⟩; simp [differs, Thread.same] at h1)] at h
  split at h
  · injection h with h; subst h; rfl
  · cases h

/-- With an empty palette the function raises `TypeError`; with one entry two different neighbours cannot be told apart
(the second gets `None`). -/
theorem C41_small_palettes :
    buildNonrepeat [] [thr 1] = .error .typeError ∧
    buildNonrepeat [some (thr 0)] [thr 1, thr 2] = .ok [some 0, none] := by decide +kernel

example : 2 ≤ entries [some (thr 0), some (thr 0xFF)] ∧
    buildNonrepeat [some (thr 0), some (thr 0xFF)] [thr 1, thr 2, thr 2, thr 3] = .ok [some 0, some 1, some 0, some 1] := by
  decide +kernel

/-! ## C42: hex notation -/

theorem hexVal_hexDigit : ∀ n : Fin 16, hexVal (hexDigit (n.val : Int)) = some (n.val : Int) := by decide +kernel

theorem hexVal_hexDigit' (n : Int) (h0 : 0 ≤ n) (h1 : n < 16) : hexVal (hexDigit n) = some n := by
  have := hexVal_hexDigit ⟨n.toNat, by omega⟩
  simpa [Int.toNat_of_nonneg h0] using this

theorem hexDigit_ne_hash : ∀ n : Fin 16, hexDigit (n.val : Int) ≠ '#' := by decide +kernel

/-- **C42**: printing a thread's colour as `#rrggbb` and parsing that (either `color_hex` directly or through
`parse_string_color`, which drops the `#` first) returns the 24-bit colour. -/
theorem C42_hex_roundtrip (t : Thread) :
    colorHex (hexColor t) = .ok (some t.rgb) ∧ colorHex (hexColor t).tail = .ok (some t.rgb) := by
  have hr : 0 ≤ t.red ∧ t.red < 256 := by unfold Thread.red; omega
  have hg : 0 ≤ t.green ∧ t.green < 256 := by unfold Thread.green; omega
  have hb : 0 ≤ t.blue ∧ t.blue < 256 := by unfold Thread.blue; omega
  have hd : hexDigit (t.red / 16) ≠ '#' := by
    have := hexDigit_ne_hash ⟨(t.red / 16).toNat, by omega⟩
    simpa [Int.toNat_of_nonneg (by omega : 0 ≤ t.red / 16)] using this
  have v1 := hexVal_hexDigit' (t.red / 16) (by omega) (by omega)
  have v2 := hexVal_hexDigit' (t.red % 16) (by omega) (by omega)
  have v3 := hexVal_hexDigit' (t.green / 16) (by omega) (by omega)
  have v4 := hexVal_hexDigit' (t.green % 16) (by omega) (by omega)
  have v5 := hexVal_hexDigit' (t.blue / 16) (by omega) (by omega)
  have v6 := hexVal_hexDigit' (t.blue % 16) (by omega) (by omega)
  have hval : (((((t.red / 16) * 16 + t.red % 16) * 16 + t.green / 16) * 16 + t.green % 16) * 16 + t.blue / 16) * 16 +
      t.blue % 16 = t.rgb := by
    unfold Thread.red Thread.green Thread.blue Thread.rgb; omega
  constructor <;>
    simp [colorHex, hexColor, hex2, hd, parseHex, parseHex.go, v1, v2, v3, v4, v5, v6, hval, Except.map]

/-- **C42**: `color_rgb` and the channel getters are inverse to each other. -/
theorem C42_channels (r g b : Int) :
    (thr (colorRgb r g b)).red = r % 256 ∧ (thr (colorRgb r g b)).green = g % 256 ∧
    (thr (colorRgb r g b)).blue = b % 256 := by
  simp only [thr, Thread.red, Thread.green, Thread.blue, colorRgb]; omega

theorem C42_channels' (t : Thread) : colorRgb t.red t.green t.blue = t.rgb := by
  simp only [Thread.red, Thread.green, Thread.blue, colorRgb, Thread.rgb]; omega

/-- **C42**: the short form `#rgb` means `#rrggbb`, also with any number of leading `#`; 4 and 8 digits ignore alpha. -/
theorem C42_short (a b c d e f x y : Char) (ha : a ≠ '#') :
    colorHex ['#', a, b, c] = colorHex [a, a, b, b, c, c] ∧
    colorHex ['#', a, b, c, x] = colorHex [a, a, b, b, c, c] ∧
    colorHex ['#', '#', a, b, c, d, e, f] = colorHex [a, b, c, d, e, f] ∧
    colorHex ['#', a, b, c, d, e, f, x, y] = colorHex [a, b, c, d, e, f] := by
  simp [colorHex, ha]

theorem hexVal_lower (c : Char) : hexVal c.toLower = hexVal c := by
  have all : ∀ k : Fin 26, hexVal (Char.ofNat (65 + k.val)).toLower = hexVal (Char.ofNat (65 + k.val)) := by decide +kernel
  by_cases h : 65 ≤ c.toNat ∧ c.toNat ≤ 90
  · have := all ⟨c.toNat - 65, by omega⟩
    have e : 65 + (c.toNat - 65) = c.toNat := by omega
    simpa only [e, Char.ofNat_toNat] using this
  · have : c.toLower = c := by
      unfold Char.toLower
      apply dif_neg
      rintro ⟨h1, h2⟩
      exact h ⟨UInt32.le_iff_toNat_le.1 h1, UInt32.le_iff_toNat_le.1 h2⟩
    rw [this]

theorem lower_hash (c : Char) : c.toLower = '#' ↔ c = '#' := by
  have all : ∀ k : Fin 26, (Char.ofNat (65 + k.val)).toLower ≠ '#' ∧ Char.ofNat (65 + k.val) ≠ '#' := by decide +kernel
  by_cases h : 65 ≤ c.toNat ∧ c.toNat ≤ 90
  · have := all ⟨c.toNat - 65, by omega⟩
    have e : 65 + (c.toNat - 65) = c.toNat := by omega
    simp only [e, Char.ofNat_toNat] at this
    simp [this]
  · have : c.toLower = c := by
      unfold Char.toLower
      apply dif_neg
      rintro ⟨h1, h2⟩
      exact h ⟨UInt32.le_iff_toNat_le.1 h1, UInt32.le_iff_toNat_le.1 h2⟩
    rw [this]

theorem parseHex_go_lower : ∀ (s : List Char) (acc : Int), parseHex.go (s.map Char.toLower) acc = parseHex.go s acc
  | [], _ => rfl
  | c :: cs, acc => by
    simp only [List.map_cons, parseHex.go, hexVal_lower]
    split
    · exact parseHex_go_lower cs _
    · rfl

/-- **C42**: capitals and small letters mean the same, in any mixture. -/
theorem C42_any_case (s t : List Char) (h : s.map Char.toLower = t.map Char.toLower) : colorHex s = colorHex t := by
  have drops : ∀ u : List Char, (u.map Char.toLower).dropWhile (· = '#') = (u.dropWhile (· = '#')).map Char.toLower := by
    intro u
    induction u with
    | nil => rfl
    | cons c cs ih =>
      by_cases hc : c = '#'
      · simp only [hc, List.map_cons]
        have : Char.toLower '#' = '#' := by decide
        rw [this]
        simpa using ih
      · have := mt (lower_hash c).1 hc
        simp [hc, this]
  have parses : ∀ u : List Char, parseHex (u.map Char.toLower) = parseHex u := by
    intro u
    unfold parseHex
    simp only [List.map_eq_nil_iff, parseHex_go_lower]
  have lower : ∀ u : List Char, colorHex (u.map Char.toLower) = colorHex u := by
    intro u
    unfold colorHex
    rw [drops]
    match u.dropWhile (· = '#') with
    | [] => rfl
    | [_] => rfl
    | [_, _] => rfl
    | [a, b, c] => exact congrArg (Except.map some) (parses [a, a, b, b, c, c])
    | [a, b, c, _] => exact congrArg (Except.map some) (parses [a, a, b, b, c, c])
    | [_, _, _, _, _] => rfl
    | [a, b, c, d, e, f] => exact congrArg (Except.map some) (parses [a, b, c, d, e, f])
    | [_, _, _, _, _, _, _] => rfl
    | [a, b, c, d, e, f, _, _] => exact congrArg (Except.map some) (parses [a, b, c, d, e, f])
    | _ :: _ :: _ :: _ :: _ :: _ :: _ :: _ :: _ :: _ => rfl
  rw [← lower s, h, lower t]

/-- The sixteen digits. -/
def digits : List Char := ['0', '1', '2', '3', '4', '5', '6', '7', '8', '9', 'a', 'b', 'c', 'd', 'e', 'f']

/-- **C42**: a colour is printed as `#` and the six hexadecimal digits, lower case, of its 24 bits, most significant first. -/
theorem C42_hex_form (t : Thread) :
    (hexColor t).head? = some '#' ∧ (hexColor t).length = 7 ∧
    ∀ k : Fin 6, (hexColor t)[k.val + 1]? = digits[(t.rgb / 16 ^ (5 - k.val) % 16).toNat]? := by
  have hd : ∀ n : Fin 16, some (hexDigit (n.val : Int)) = digits[n.val]? := by decide +kernel
  have hd' : ∀ v n : Int, 0 ≤ v → v < 16 → v = n → some (hexDigit v) = digits[n.toNat]? := by
    rintro v _ h0 h1 rfl
    have := hd ⟨v.toNat, by omega⟩
    simpa [Int.toNat_of_nonneg h0] using this
  refine ⟨rfl, rfl, ?_⟩
  intro k
  have e : t.rgb = t.color % 16777216 := rfl
  rw [e]
  match k with
  | 0 => exact hd' _ (t.color % 16777216 / 1048576 % 16) (by unfold Thread.red; omega) (by unfold Thread.red; omega) (by unfold Thread.red; omega)
  | 1 => exact hd' _ (t.color % 16777216 / 65536 % 16) (by unfold Thread.red; omega) (by unfold Thread.red; omega) (by unfold Thread.red; omega)
  | 2 => exact hd' _ (t.color % 16777216 / 4096 % 16) (by unfold Thread.green; omega) (by unfold Thread.green; omega) (by unfold Thread.green; omega)
  | 3 => exact hd' _ (t.color % 16777216 / 256 % 16) (by unfold Thread.green; omega) (by unfold Thread.green; omega) (by unfold Thread.green; omega)
  | 4 => exact hd' _ (t.color % 16777216 / 16 % 16) (by unfold Thread.blue; omega) (by unfold Thread.blue; omega) (by unfold Thread.blue; omega)
  | 5 => exact hd' _ (t.color % 16777216 / 1 % 16) (by unfold Thread.blue; omega) (by unfold Thread.blue; omega) (by unfold Thread.blue; omega)

example : colorHex "#0a0B0c".toList = .ok (some 0x0a0b0c) ∧ colorHex "#F0f".toList = .ok (some 0xff00ff) ∧
    hexColor (thr 0xFF00000A) = "#00000a".toList ∧ colorHex "#12".toList = .ok none ∧
    colorHex "#gg0000".toList = .error .valueError := by decide +kernel

end Emb
