import Verif.PecFile
import Verif.Props.PecProps
import Verif.Props.PecGraphicsProps
import Verif.Props.ThreadProps
import Verif.Props.BoundsProps
import Verif.Props.OpsProps

/-!
# C78: whole PEC files
-/

namespace Emb
namespace Pec

open Blocks Ops PecGraphics

/-! ## Colours -/

theorem palette_entries : entries palette = 64 := by decide +kernel

theorem palette_length : palette.length = 65 := by decide +kernel

theorem palette_inj : ∀ i < 65, ∀ j < 65, palette[i]? = palette[j]? → i = j := by decide +kernel

theorem allSome_map {α β : Type} (f : α → Option β) (l : List α) (g : α → β) (h : ∀ a ∈ l, f a = some (g a)) :
    allSome (l.map f) = some (l.map g) := by
  induction l with
  | nil => rfl
  | cons a l ih =>
    rw [List.map_cons, h a (by simp), allSome, ih (fun b hb => h b (by simp [hb]))]
    rfl

/-- The palette entry a thread is given. -/
noncomputable def entryOf (order : List Thread) (t : Thread) : Nat :=
  (findNearest t.color (uniqueLoop order palette (List.replicate palette.length none))).getD 0

theorem entryOf_spec (order threads : List Thread) (ho : IsSetOrder order threads) (hsize : order.length ≤ 64) :
    (∀ t ∈ threads, findNearest t.color (uniqueLoop order palette (List.replicate palette.length none)) = some (entryOf order t) ∧
      ∃ q ∈ brother, palette[entryOf order t]? = some (some q)) ∧
    (∀ a ∈ threads, ∀ b ∈ threads, entryOf order a = entryOf order b ↔ a.rgb = b.rgb) := by
  obtain ⟨h1, h2⟩ := C40_unique palette order threads ho (by rw [palette_entries]; exact hsize)
  have h3 : ∀ t ∈ threads, findNearest t.color (uniqueLoop order palette (List.replicate palette.length none)) = some (entryOf order t) ∧
      ∃ q ∈ brother, palette[entryOf order t]? = some (some q) := by
    intro t ht
    obtain ⟨i, q, e1, e2⟩ := h1 (findNearest t.color (uniqueLoop order palette (List.replicate palette.length none)))
      (List.mem_map.2 ⟨t, ht, rfl⟩)
    have e : entryOf order t = i := by unfold entryOf; rw [e1]; rfl
    refine ⟨by rw [e1, e], q, ?_, by rw [e, e2]⟩
    have := List.mem_of_getElem? e2
    simpa [palette] using this
  refine ⟨h3, fun a ha b hb => ?_⟩
  have := h2 a ha b hb
  simp only at this
  rw [← this, (h3 a ha).1, (h3 b hb).1, Option.some_inj]

/-- If every thread of the set has a colour of the palette and no two have the same colour, each is given an entry of its own
colour. -/
theorem uniqueLoop_exact (P : List (Option Thread)) (order : List Thread) :
    ∀ (p chart : List (Option Thread)), p.length = chart.length →
      (∀ (i : Nat) (q : Thread), p[i]? = some (some q) → P[i]? = some (some q)) →
      (∀ (i : Nat) (t : Thread), chart[i]? = some (some t) → ∃ q : Thread, P[i]? = some (some q) ∧ q.rgb = t.rgb) →
      (∀ t ∈ order, ∃ q, some q ∈ p ∧ q.rgb = t.rgb) → order.Pairwise (fun a b => a.rgb ≠ b.rgb) →
      ∀ (i : Nat) (t : Thread), (uniqueLoop order p chart)[i]? = some (some t) → ∃ q : Thread, P[i]? = some (some q) ∧ q.rgb = t.rgb := by
  induction order with
  | nil => intro p chart _ _ hc _ _ i t h; exact hc i t h
  | cons u us ih =>
    intro p chart hl hp hc he hd
    rw [List.pairwise_cons] at hd
    obtain ⟨q, hq, hr⟩ := he u (by simp)
    obtain ⟨k, v, e1, e2, e3⟩ := C38_exact u.color p q hq (by rw [hr]; rfl)
    have e3 : v.rgb = u.rgb := e3
    unfold uniqueLoop
    rw [e1]
    simp only
    refine ih (p.set k none) (chart.set k (some u)) (by simp [hl]) ?_ ?_ ?_ hd.2
    · intro i w hw
      by_cases hik : k = i
      · subst hik
        rw [List.getElem?_set, if_pos rfl] at hw
        split_ifs at hw
        cases hw
      · rw [List.getElem?_set_ne hik] at hw; exact hp i w hw
    · intro i w hw
      by_cases hik : k = i
      · subst hik
        rw [List.getElem?_set, if_pos rfl] at hw
        split_ifs at hw
        cases hw
        exact ⟨v, hp k v e2, e3⟩
      · rw [List.getElem?_set_ne hik] at hw; exact hc i w hw
    · intro t ht
      obtain ⟨w, hw, hwr⟩ := he t (by simp [ht])
      obtain ⟨i, hi⟩ := List.mem_iff_getElem?.1 hw
      refine ⟨w, ?_, hwr⟩
      refine List.mem_iff_getElem?.2 ⟨i, ?_⟩
      have : k ≠ i := by
        rintro rfl
        rw [e2] at hi
        cases hi
        exact hd.1 t ht (by rw [← e3, hwr])
      rw [List.getElem?_set_ne this, hi]

theorem entryOf_exact (order threads : List Thread) (ho : IsSetOrder order threads) (hsize : order.length ≤ 64)
    (hd : order.Pairwise (fun a b => a.rgb ≠ b.rgb)) (he : ∀ t ∈ threads, ∃ q ∈ brother, q.rgb = t.rgb) (t : Thread)
    (ht : t ∈ threads) (q : Thread) (hq : palette[entryOf order t]? = some (some q)) : q.rgb = t.rgb := by
  have h := (entryOf_spec order threads ho hsize).1 t ht
  have hs := uniqueLoop_spec order palette (List.replicate palette.length none) (by simp)
    (by
      intro i ⟨t, ht⟩
      rw [List.getElem?_replicate] at ht
      split at ht <;> cases ht) (by rw [palette_entries]; exact hsize)
  simp only at hs
  have hx := uniqueLoop_exact palette order palette (List.replicate palette.length none) (by simp) (fun _ _ h => h)
    (by
      intro i t ht
      rw [List.getElem?_replicate] at ht
      split at ht <;> cases ht)
    (by
      intro t ht
      obtain ⟨q, hq, hr⟩ := he t (ho.1 t ht)
      exact ⟨q, by simp [palette, hq], hr⟩) hd
  obtain ⟨u, hu, hsame⟩ := ho.2 t ht
  obtain ⟨i, v, e1, e2, e3⟩ := C38_exact t.color _ u (hs.2.1 u hu) (same_rgb hsame).symm
  rw [h.1] at e1
  cases e1
  obtain ⟨w, hw, hr⟩ := hx _ _ e2
  rw [hq] at hw
  cases hw
  rw [hr]; exact e3

/-! ## Thumbnails -/

theorem update_head {g g' : List Nat} {i : Int} {f : Nat → Nat} (hi : 1 ≤ i) (h : update g i f = .ok g') : g'.head? = g.head? := by
  unfold update at h
  simp only at h
  rw [if_neg (by omega : ¬ i < 0), if_neg (by omega : ¬ i < 0)] at h
  obtain ⟨k, hk⟩ : ∃ k, i.toNat = k + 1 := ⟨i.toNat - 1, by omega⟩
  rw [hk] at h
  cases hg : g[k + 1]? with
  | none => rw [hg] at h; cases h
  | some b =>
    rw [hg] at h
    cases h
    cases g <;> simp

/-- Drawing with a margin of at least four leaves the first row alone. -/
theorem draw_head (b : Box) (buf : ℚ) (hb : 4 ≤ buf) (hb2 : buf ≤ 38) (ps : List (ℚ × ℚ))
    (hp : ∀ p ∈ ps, b.minX ≤ p.1 ∧ p.1 ≤ b.maxX ∧ b.minY ≤ p.2 ∧ p.2 ≤ b.maxY) (g : List Nat) (hg : g.length = 228) :
    (drawScaled b.minX b.minY b.maxX b.maxY 6 buf ps g).length = 228 ∧
    (drawScaled b.minX b.minY b.maxX b.maxY 6 buf ps g).head? = g.head? := by
  refine ⟨(C63_drawn b.minX b.minY b.maxX b.maxY buf 6 38 (by linarith) (by push_cast; linarith) (by push_cast; linarith) (by decide) ps hp g
    (by rw [hg])).1, ?_⟩
  induction ps generalizing g with
  | nil => rfl
  | cons p ps ih =>
    obtain ⟨i1, i2, i3, i4⟩ := hp p (by simp)
    obtain ⟨px, py, e, l1, l2⟩ := C63_scaled_margin b.minX b.minY b.maxX b.maxY buf p.1 p.2 6 38 i1 i2 i3 i4 (by linarith)
      (by push_cast; linarith) (by push_cast; linarith) (by decide)
    have hpx : px < 8 * 6 := by
      have : (px : ℚ) < 48 := by have := l1.2; push_cast at this; linarith
      exact_mod_cast this
    have hpy : py < 38 := by
      have : (py : ℚ) < 38 := by have := l2.2; push_cast at this; linarith
      exact_mod_cast this
    have hpy1 : 1 ≤ py := by
      have : (1 : ℚ) ≤ py := by have := l2.1; linarith
      exact_mod_cast this
    obtain ⟨g', e1, e2, -, -⟩ := C63_mark g 6 38 px py (by rw [hg]) hpx hpy
    have ed : drawScaled b.minX b.minY b.maxX b.maxY 6 buf (p :: ps) g = drawScaled b.minX b.minY b.maxX b.maxY 6 buf ps g' := by
      conv_lhs => unfold drawScaled
      rw [show g.length = 6 * 38 by rw [hg]]
      simp only [e, e1]
    rw [ed, ih (fun q hq => hp q (by simp [hq])) g' (by rw [e2, hg])]
    refine update_head (i := (py : Int) * (6 : Nat) + (px : Int).tdiv 8) ?_ e1
    have : 0 ≤ (px : Int).tdiv 8 := Int.tdiv_nonneg (by omega) (by decide)
    push_cast
    omega

theorem blank_length : blank.length = 228 := by decide +kernel

theorem draw_blocks (b : Box) (bs : List (List Stitch × Unit))
    (hp : ∀ k ∈ bs, ∀ a ∈ k.1, b.minX ≤ a.x ∧ a.x ≤ b.maxX ∧ b.minY ≤ a.y ∧ a.y ≤ b.maxY) (g : List Nat) (hg : g.length = 228) :
    (bs.foldl (fun g blk => drawScaled b.minX b.minY b.maxX b.maxY 6 4 (points blk.1) g) g).length = 228 ∧
    (bs.foldl (fun g blk => drawScaled b.minX b.minY b.maxX b.maxY 6 4 (points blk.1) g) g).head? = g.head? := by
  induction bs generalizing g with
  | nil => exact ⟨hg, rfl⟩
  | cons k bs ih =>
    obtain ⟨h1, h2⟩ := draw_head b 4 (by norm_num) (by norm_num) (points k.1) (by
      intro p hp'
      obtain ⟨a, ha, rfl⟩ := List.mem_map.1 hp'
      exact hp k (by simp) a ha) g hg
    rw [List.foldl_cons]
    obtain ⟨h3, h4⟩ := ih (fun k hk => hp k (by simp [hk])) _ h1
    exact ⟨h3, by rw [h4, h2]⟩

/-- The stitches of the stitch blocks are stitches of the pattern. -/
theorem mem_block {τ : Type} {threads : List τ} {filler : Nat → τ} {l : List Stitch} {k : List Stitch × τ}
    (hk : k ∈ stitchBlocks threads filler l) {a : Stitch} (ha : a ∈ k.1) : a ∈ l := by
  have h := (C47_stitch_blocks threads filler l).1
  have hm : (a, k.2) ∈ colored threads filler 0 l := by
    rw [← h]
    exact List.mem_flatMap.2 ⟨k, hk, List.mem_map.2 ⟨a, ha, rfl⟩⟩
  have : ∀ (l : List Stitch) (n : Nat), (a, k.2) ∈ colored threads filler n l → a ∈ l := by
    intro l
    induction l with
    | nil => intro n h; cases h
    | cons c l ih =>
      intro n h
      unfold colored at h
      split_ifs at h
      · rcases List.mem_cons.1 h with e | h
        · injection e with e _; rw [e]; simp
        · exact List.mem_cons_of_mem _ (ih _ h)
      · exact List.mem_cons_of_mem _ (ih _ h)
      · exact List.mem_cons_of_mem _ (ih _ h)
  exact this l 0 hm

/-- The first thumbnail starts with a zero byte. -/
theorem thumbnails_zero (b : Box) (l : List Stitch) (hb : bounds l = some b) (tail : Bytes) :
    ∃ rest, (thumbnails b l).flatten ++ tail = 0x00 :: rest := by
  have hl : l ≠ [] := by
    intro e; rw [e] at hb; cases hb
  obtain ⟨b', e', ht⟩ := C43_tight l hl
  rw [hb] at e'; cases e'
  obtain ⟨-, h2⟩ := draw_blocks b (stitchBlocks ([] : List Unit) (fun _ => ()) l) (by
    intro k hk a ha
    exact ht.1 a (mem_block hk ha)) blank blank_length
  have h0 : blank.head? = some 0 := by decide +kernel
  rw [h0] at h2
  unfold thumbnails
  generalize List.foldl _ blank _ = g at h2 ⊢
  cases g with
  | nil => cases h2
  | cons c g => cases h2; exact ⟨_, rfl⟩

theorem update_length {g g' : List Nat} {i : Int} {f : Nat → Nat} (h : update g i f = .ok g') : g'.length = g.length := by
  unfold update at h
  simp only at h
  generalize (if i < 0 then i + (g.length : Int) else i) = j at h
  split_ifs at h
  cases hg : g[j.toNat]? with
  | none => rw [hg] at h; cases h
  | some b => rw [hg] at h; cases h; simp

theorem drawScaled_length (l t r b : ℚ) (stride : Nat) (buf : ℚ) (ps : List (ℚ × ℚ)) (g : List Nat) :
    (drawScaled l t r b stride buf ps g).length = g.length := by
  induction ps generalizing g with
  | nil => rfl
  | cons p ps ih =>
    unfold drawScaled
    simp only
    cases h : markBit g (scaledPixel l t r b g.length stride buf p.1 p.2).1 (scaledPixel l t r b g.length stride buf p.1 p.2).2 stride with
    | error e => exact ih g
    | ok g' => simp only; rw [ih g', update_length h]

/-- Every thumbnail has 6 × 38 bytes. -/
theorem thumbnails_size (b : Box) (l : List Stitch) : ∀ g ∈ thumbnails b l, g.length = 228 := by
  have fold : ∀ (bs : List (List Stitch × Unit)) (g : List Nat),
      (bs.foldl (fun g blk => drawScaled b.minX b.minY b.maxX b.maxY 6 4 (points blk.1) g) g).length = g.length := by
    intro bs
    induction bs with
    | nil => intro g; rfl
    | cons k bs ih => intro g; rw [List.foldl_cons, ih, drawScaled_length]
  intro g hg
  unfold thumbnails at hg
  rcases List.mem_cons.1 hg with rfl | hg
  · unfold toBytes; rw [List.length_map, fold, blank_length]
  · obtain ⟨k, -, rfl⟩ := List.mem_map.1 hg
    unfold toBytes; rw [List.length_map, drawScaled_length, blank_length]

/-! ## The layout -/

/-- The thread of the palette a thread becomes. -/
noncomputable def paletteOf (order : List Thread) (t : Thread) : Thread := added ((palette[entryOf order t]?).getD none)

theorem mapColors_entries (order threads : List Thread) (ho : IsSetOrder order threads) (hsize : order.length ≤ 64) :
    mapColors [] ((threads.map (entryOf order)).map (fun c : Nat => (c : Int))) = threads.map (fun t => some (paletteOf order t)) := by
  unfold mapColors
  rw [if_pos rfl, List.map_map, List.map_map]
  refine List.map_congr_left (fun t ht => ?_)
  obtain ⟨-, q, -, hq⟩ := (entryOf_spec order threads ho hsize).1 t ht
  have hlt : entryOf order t < 65 := by
    rw [← palette_length]
    exact (List.getElem?_eq_some_iff.1 hq).1
  have e : (((entryOf order t : Nat) : Int) % 65).toNat = entryOf order t := by omega
  simp only [Function.comp_apply, e, paletteOf, hq]
  rfl

/-- What the reader makes of a written pattern that is followed by something else, with the threads of a PES header or none. -/
theorem readPattern_layout (chart : List Thread) (order : List Thread → List Thread) (name : Option Str) (T : List Thread)
    (l : List Stitch) (tail : Bytes) (hl : l ≠ []) (ho : IsSetOrder (order T) T) (hs : (order T).length ≤ 64) (hT0 : T ≠ [])
    (hT : T.length ≤ 255) (hname : ∀ c ∈ (name.getD "Untitled".toList).take 8, c.utf8Size = 1)
    (hsec : 16 + (encodeSection l).length < 2 ^ 24) (hchart : chart = [] ∨ T.length ≤ chart.length) :
    ∃ (b : Box) (f rest : Bytes) (d : Design), bounds l = some b ∧ writePattern order name T l = .ok f ∧
      readPattern chart (f ++ tail) = .ok d ∧ d.label = some (strip ((name.getD "Untitled".toList).take 8)) ∧
      d.stitches = readSection (encodeSection l ++ 0x00 :: rest) ∧
      d.threads = (if chart = [] then T.map (paletteOf (order T)) else chart) ∧
      d.graphics.length = T.length + 1 ∧
      ∀ i g, (thumbnails b l)[i]? = some g → i ≤ T.length →
        d.graphics[i]? = some (g, 6, if i = 0 then none else d.threads[i - 1]?) := by
  obtain ⟨b, hb, -⟩ := C43_tight l hl
  have hcol : allSome (buildUnique palette (order T) T) = some (T.map (entryOf (order T))) :=
    allSome_map _ T _ (fun t ht => ((entryOf_spec (order T) T ho hs).1 t ht).1)
  obtain ⟨f, hw, hr⟩ := read_layout (name.getD "Untitled".toList) (T.map (entryOf (order T))) (pyRound (b.maxX - b.minX))
    (pyRound (b.maxY - b.minY)) (thumbnails b l) l hname (by rw [List.length_map]; exact List.length_pos_iff.2 hT0)
    (by rw [List.length_map]; exact hT) hsec tail
  obtain ⟨rest, hz⟩ := thumbnails_zero b l hb tail
  have hval : ∃ U : List Thread, mapColors chart ((T.map (entryOf (order T))).map (fun c : Nat => (c : Int))) = U.map some ∧
      T.length ≤ U.length ∧ U = (if chart = [] then T.map (paletteOf (order T)) else chart) := by
    by_cases hc : chart = []
    · refine ⟨T.map (paletteOf (order T)), ?_, by simp, by rw [if_pos hc]⟩
      rw [hc, mapColors_entries (order T) T ho hs, List.map_map]
      rfl
    · have hle := hchart.resolve_left hc
      refine ⟨chart, ?_, hle, by rw [if_neg hc]⟩
      unfold mapColors
      rw [if_neg hc, if_pos (by simpa using hle)]
  obtain ⟨U, e1, e2, e3⟩ := hval
  refine ⟨b, f, rest, ⟨some (strip ((name.getD "Untitled".toList).take 8)), U, readSection (encodeSection l ++ 0x00 :: rest),
      List.zipWith (fun g v => (g, 6, v))
      ((List.range ((T.map (entryOf (order T))).length + 1)).map (fun i => (((thumbnails b l).flatten ++ tail).drop (i * 228)).take 228))
      (none :: U.map some)⟩, hb, ?_, ?_, rfl, rfl, e3, ?_, ?_⟩
  · unfold writePattern
    rw [hcol, hb]
    exact hw
  · unfold readPattern
    rw [hr]
    simp only [e1]
    rw [if_neg (by simp; omega), hz]
    have : (U.map some).map added = U := by
      rw [List.map_map]
      exact List.map_id U
    rw [this]
  · simp; omega
  · intro i g hg hi
    have hlt := (List.getElem?_eq_some_iff.1 hg).1
    have hsl := flatten_slice_append (thumbnails b l) 228 (thumbnails_size b l) tail i hlt
    rw [List.getElem?_zipWith, List.getElem?_map, List.getElem?_range (by rw [List.length_map]; omega)]
    simp only [Option.map_some]
    rw [hsl, (List.getElem?_eq_some_iff.1 hg).2]
    cases i with
    | zero => rfl
    | succ i =>
      rw [List.getElem?_cons_succ, List.getElem?_map, if_neg (by omega), Nat.add_sub_cancel]
      have : i < U.length := by omega
      rw [List.getElem?_eq_getElem this]
      rfl

/-! ## Stops and colour changes -/

section
variable {τ : Type}

/-- The colour changes (`true`) and stops (`false`) of a pattern. -/
def kinds (l : List Stitch) : List Bool :=
  l.filterMap (fun a => if isSew a then none else if isChange a then some true else if a.low = 3 then some false else none)

/-- `dups` from the colour changes and stops. -/
def dupsOf : τ → List τ → List Bool → List τ
  | t, ts, [] => t :: ts
  | t, ts, true :: l => match ts with
    | [] => [t]
    | u :: us => t :: dupsOf u us l
  | t, ts, false :: l => t :: dupsOf t ts l

theorem dups_kinds (t : τ) (ts : List τ) (l : List Stitch) : dups t ts l = dupsOf t ts (kinds l) := by
  induction l generalizing t ts with
  | nil => rfl
  | cons a l ih =>
    rw [dups_cons]
    unfold kinds
    rw [List.filterMap_cons]
    by_cases c1 : isSew a = true
    · rw [if_pos c1, if_pos c1, ih]; rfl
    · rw [if_neg c1, if_neg c1]
      by_cases c2 : isChange a = true
      · rw [if_pos c2, if_pos c2]
        cases ts with
        | nil => rfl
        | cons u us => simp only [dupsOf]; rw [ih]; rfl
      · rw [if_neg c2, if_neg c2]
        by_cases c3 : a.low = 3
        · rw [if_pos c3, if_pos c3]; simp only [dupsOf]; rw [ih]; rfl
        · rw [if_neg c3, if_neg c3, ih]; rfl

theorem dupsOf_map {σ : Type} (g : τ → σ) (t : τ) (ts : List τ) (l : List Bool) :
    (dupsOf t ts l).map g = dupsOf (g t) (ts.map g) l := by
  induction l generalizing t ts with
  | nil => rfl
  | cons a l ih =>
    cases a with
    | true => cases ts with
      | nil => rfl
      | cons u us => simp only [dupsOf, List.map_cons, ih]
    | false => simp only [dupsOf, List.map_cons, ih]

theorem dupsOf_mem (t : τ) (ts : List τ) (l : List Bool) : ∀ u ∈ dupsOf t ts l, u ∈ t :: ts := by
  induction l generalizing t ts with
  | nil => intro u h; exact h
  | cons a l ih =>
    intro u h
    cases a with
    | true => cases ts with
      | nil => exact h
      | cons v vs =>
        simp only [dupsOf, List.mem_cons] at h
        rcases h with h | h
        · simp [h]
        · exact List.mem_cons_of_mem _ (ih v vs u h)
    | false =>
      simp only [dupsOf, List.mem_cons] at h
      rcases h with h | h
      · simp [h]
      · exact ih t ts u h

end

/-- What a PEC file shows of a design up to and including its END (4), with the needle at `(px, py)`: as `seen`, with the stops
(3) kept. A move is shown as a trim and a jump, except at the very start. Before the first stitch after a move there may be another
one on the spot, and so before a colour change or stop after a move. There are no other trims and no speeds. -/
def kept (px py : ℚ) (moved first : Bool) : List Stitch → List Stitch
  | [] => []
  | a :: l =>
    if a.cmd = 0 then
      (if moved = true ∧ a.x ≠ px ∧ a.y ≠ py then [⟨px, py, 0⟩] else []) ++ a :: kept a.x a.y false false l
    else if a.cmd = 1 then (if first = true then [] else [⟨px, py, 2⟩]) ++ a :: kept a.x a.y true false l
    else if a.cmd = 5 ∨ a.cmd = 3 then (if moved = true then [⟨px, py, 0⟩] else []) ++ a :: kept a.x a.y false false l
    else if a.cmd = 4 then [a]
    else kept a.x a.y moved false l

/-- The commands of the body of a design in the PEC file. -/
def Body (a : Stitch) : Prop := a.cmd = 0 ∨ a.cmd = 1 ∨ a.cmd = 2 ∨ a.cmd = 3 ∨ a.cmd = 5 ∨ a.cmd = 11 ∨ a.cmd = 12

theorem seen_unstop (m : List Stitch) (hm : ∀ a ∈ m, Body a) (e : Stitch) (he : e.cmd = 4) (px py : ℚ) (mv fs : Bool) :
    seen px py mv fs ((m ++ [e]).map (unstop 5)) = (kept px py mv fs (m ++ [e])).map (unstop 5) := by
  induction m generalizing px py mv fs with
  | nil =>
    obtain ⟨x, y, c⟩ := e
    subst he
    rfl
  | cons a m ih =>
    have ih := fun p q u v => ih (fun b hb => hm b (by simp [hb])) p q u v
    obtain ⟨x, y, c⟩ := a
    have hb : Body ⟨x, y, c⟩ := hm _ (by simp)
    unfold Body at hb
    simp only at hb
    rcases hb with rfl | rfl | rfl | rfl | rfl | rfl | rfl
    · have u : unstop 5 (⟨x, y, 0⟩ : Stitch) = ⟨x, y, 0⟩ := rfl
      by_cases hj : mv = true ∧ x ≠ px ∧ y ≠ py
      · simp only [List.cons_append, List.map_cons, u, seen, kept, if_true, if_pos hj, ih, List.nil_append]; rfl
      · simp only [List.cons_append, List.map_cons, u, seen, kept, if_true, if_neg hj, ih, List.nil_append]
    · have u : unstop 5 (⟨x, y, 1⟩ : Stitch) = ⟨x, y, 1⟩ := rfl
      cases fs
      · simp only [List.cons_append, List.map_cons, u, seen, kept, ih]; rfl
      · simp only [List.cons_append, List.map_cons, u, seen, kept, ih]; rfl
    · simp only [List.cons_append, List.map_cons, seen, kept]
      exact ih x y mv false
    · cases mv
      · have := ih x y false false
        simp only [List.cons_append, List.map_cons, seen, kept]
        exact congrArg (fun r => (⟨x, y, 5⟩ : Stitch) :: r) this
      · have := ih x y false false
        simp only [List.cons_append, List.map_cons, seen, kept]
        exact congrArg (fun r => (⟨px, py, 0⟩ : Stitch) :: ⟨x, y, 5⟩ :: r) this
    · cases mv
      · have := ih x y false false
        simp only [List.cons_append, List.map_cons, seen, kept]
        exact congrArg (fun r => (⟨x, y, 5⟩ : Stitch) :: r) this
      · have := ih x y false false
        simp only [List.cons_append, List.map_cons, seen, kept]
        exact congrArg (fun r => (⟨px, py, 0⟩ : Stitch) :: ⟨x, y, 5⟩ :: r) this
    · simp only [List.cons_append, List.map_cons, seen, kept]
      exact ih x y mv false
    · simp only [List.cons_append, List.map_cons, seen, kept]
      exact ih x y mv false

theorem Sewn_mono (l : List Stitch) (h : Sewn true l) : Sewn false l := by
  induction l with
  | nil => rfl
  | cons a l ih =>
    unfold Sewn at h ⊢
    split_ifs at h ⊢
    · exact h
    · exact absurd h.1 (by simp)
    · exact absurd h.1 (by simp)
    · exact ih h

theorem kept_sewn (m : List Stitch) (hm : ∀ a ∈ m, Body a) (e : Stitch) (he : e.cmd = 4) (px py : ℚ) (mv fs fresh : Bool)
    (h : Sewn fresh (m ++ [e])) : Sewn fresh (kept px py mv fs (m ++ [e])) := by
  induction m generalizing px py mv fs fresh with
  | nil =>
    obtain ⟨x, y, c⟩ := e
    subst he
    exact h
  | cons a m ih =>
    have ih := fun p q u v w => ih (fun b hb => hm b (by simp [hb])) p q u v w
    obtain ⟨x, y, c⟩ := a
    have hb : Body ⟨x, y, c⟩ := hm _ (by simp)
    unfold Body at hb
    simp only at hb
    have sew : ∀ (p q : ℚ) (fr : Bool) (r : List Stitch), Sewn false r → Sewn fr (⟨p, q, 0⟩ :: r) := fun _ _ _ _ h => h
    rcases hb with rfl | rfl | rfl | rfl | rfl | rfl | rfl
    · have h : Sewn false (m ++ [e]) := h
      have := ih x y false false false h
      simp only [List.cons_append, kept, if_true]
      by_cases hj : mv = true ∧ x ≠ px ∧ y ≠ py
      · rw [if_pos hj]; exact this
      · rw [if_neg hj]; exact this
    · have h : Sewn fresh (m ++ [e]) := h
      have := ih x y true false fresh h
      cases fs <;> exact this
    · exact ih x y mv false fresh h
    · have h : fresh = false ∧ (3 : Int) = 3 ∧ Sewn true (m ++ [e]) := h
      have := ih x y false false true h.2.2
      cases mv
      · exact ⟨h.1, rfl, this⟩
      · exact (⟨rfl, rfl, this⟩ : false = false ∧ (3 : Int) = 3 ∧ _)
    · have h : fresh = false ∧ Sewn true (m ++ [e]) := h
      have := ih x y false false true h.2
      cases mv
      · exact ⟨h.1, this⟩
      · exact (⟨rfl, this⟩ : false = false ∧ _)
    · exact ih x y mv false fresh h
    · exact ih x y mv false fresh h

theorem kept_kinds (m : List Stitch) (hm : ∀ a ∈ m, Body a) (e : Stitch) (he : e.cmd = 4) (px py : ℚ) (mv fs : Bool) :
    kinds (kept px py mv fs (m ++ [e])) = kinds (m ++ [e]) := by
  induction m generalizing px py mv fs with
  | nil =>
    obtain ⟨x, y, c⟩ := e
    subst he
    rfl
  | cons a m ih =>
    have ih := fun p q u v => ih (fun b hb => hm b (by simp [hb])) p q u v
    obtain ⟨x, y, c⟩ := a
    have hb : Body ⟨x, y, c⟩ := hm _ (by simp)
    unfold Body at hb
    simp only at hb
    rcases hb with rfl | rfl | rfl | rfl | rfl | rfl | rfl
    · simp only [List.cons_append, kept, if_true]
      by_cases hj : mv = true ∧ x ≠ px ∧ y ≠ py
      · rw [if_pos hj]; exact ih x y false false
      · rw [if_neg hj]; exact ih x y false false
    · cases fs <;> exact ih x y true false
    · exact ih x y mv false
    · cases mv <;> exact congrArg (fun r => false :: r) (ih x y false false)
    · cases mv <;> exact congrArg (fun r => true :: r) (ih x y false false)
    · exact ih x y mv false
    · exact ih x y mv false

theorem kinds_changes (l : List Stitch) : l.countP isChange = (kinds l).countP (fun b => b) := by
  unfold kinds
  rw [List.countP_filterMap]
  refine List.countP_congr (fun a _ => ?_)
  by_cases c1 : isSew a = true
  · rw [if_pos c1, sew_not_change c1]; simp
  · rw [if_neg c1]
    by_cases c2 : isChange a = true
    · rw [if_pos c2, c2]; simp
    · rw [if_neg c2]
      by_cases c3 : a.low = 3
      · rw [if_pos c3]; simpa using c2
      · rw [if_neg c3]; simpa using c2

theorem place_kinds (x y : ℚ) (xx yy : Int) (l : List Stitch) : kinds (place x y (deltas xx yy l)) = kinds l := by
  induction l generalizing x y xx yy with
  | nil => rfl
  | cons a l ih =>
    simp only [deltas, place]
    unfold kinds
    rw [List.filterMap_cons, List.filterMap_cons]
    have e1 : ∀ p q : ℚ, (⟨p, q, cmdOf a.cmd⟩ : Stitch).low = a.low := by
      intro p q
      show a.cmd % 256 % 256 = a.cmd % 256
      omega
    have := ih (x + (pyRound (a.x - xx) : Int)) (y + (pyRound (a.y - yy) : Int)) (xx + pyRound (a.x - xx)) (yy + pyRound (a.y - yy))
    unfold kinds at this
    rw [this]
    simp only [isSew, isChange, e1]
    rfl

theorem place_unstop (x y : ℚ) (rs : List Rec) (hr : ∀ r ∈ rs, 0 ≤ r.cmd ∧ r.cmd < 256) :
    place x y (rs.map (fun r => if r.cmd = 3 then ⟨r.dx, r.dy, 5⟩ else r)) = (place x y rs).map (unstop 5) := by
  induction rs generalizing x y with
  | nil => rfl
  | cons r rs ih =>
    have h0 := hr r (by simp)
    have ih := fun p q => ih p q (fun a ha => hr a (by simp [ha]))
    have hlow : ∀ p q : ℚ, (⟨p, q, r.cmd⟩ : Stitch).low = r.cmd := by
      intro p q
      show r.cmd % 256 = r.cmd
      omega
    by_cases h3 : r.cmd = 3
    · simp only [List.map_cons, if_pos h3, place, ih]
      rw [unstop, if_pos (by rw [hlow]; exact h3)]
    · simp only [List.map_cons, if_neg h3, place, ih]
      rw [unstop, if_neg (by rw [hlow]; exact h3)]

theorem colorCount_le (l : List Stitch) :
    colorCount true l ≤ l.countP isChange + 1 ∧ colorCount false l ≤ l.countP isChange := by
  induction l with
  | nil => simp [colorCount]
  | cons a l ih =>
    rw [colorCount_cons, colorCount_cons]
    by_cases c1 : isSew a = true
    · rw [if_pos c1, if_pos c1, List.countP_cons_of_neg (by simp [sew_not_change c1])]
      simp; omega
    · rw [if_neg c1, if_neg c1]
      by_cases c2 : isChange a = true
      · rw [if_pos c2, if_pos c2, List.countP_cons_of_pos c2]; omega
      · rw [if_neg c2, if_neg c2, List.countP_cons_of_neg c2]; omega

theorem unstop_changes (l : List Stitch) :
    (l.map (unstop 5)).countP isChange = l.countP isChange + l.countP (fun a => a.low == 3) := by
  induction l with
  | nil => rfl
  | cons a l ih =>
    rw [List.map_cons, unstop]
    by_cases h3 : a.low = 3
    · have hn : isChange a = false := by simp [isChange, h3]
      rw [if_pos h3, List.countP_cons_of_pos (by rfl), List.countP_cons_of_neg (by simp [hn]), List.countP_cons_of_pos (by simp [h3]), ih]
      omega
    · rw [if_neg h3, List.countP_cons, List.countP_cons, List.countP_cons_of_neg (by simpa using h3), ih]
      omega

theorem fixColorCount_enough {τ : Type} (T : List τ) (filler : Nat → τ) (l : List Stitch) (h : l.countP isChange < T.length) :
    fixColorCount T filler l = T := by
  unfold fixColorCount
  have : colorCount true l - T.length = 0 := by have := (colorCount_le l).1; omega
  rw [this]
  simp

variable {o : Settings} {lm : Libm} {threads : List Thread} {source out : List Stitch} {ths : List (Option Thread)}

/-- The pattern handed to `write_pec`: stops are colour changes, and no thread is missing. -/
theorem prepare_spec (filler filler' : Nat → Thread) (T : List Thread) (hT : out.countP isChange < (fixColorCount T filler out).length) :
    ∃ t ts, fixColorCount T filler out = t :: ts ∧ prepare filler T out = (stopsAsChanges out, dupsOf t ts (kinds out)) ∧
      (dupsOf t ts (kinds out)).length = (fixColorCount T filler out).length + out.countP (fun a => a.low == 3) ∧
      fixColorCount (dupsOf t ts (kinds out)) filler' (stopsAsChanges out) = dupsOf t ts (kinds out) := by
  cases hT1 : fixColorCount T filler out with
  | nil => rw [hT1] at hT; simp at hT
  | cons t ts =>
    rw [hT1] at hT
    have h2 : Ops.changes out ≤ ts.length := by unfold Ops.changes; rw [List.length_cons] at hT; omega
    have hsp := stopLoop_spec 5 out [] t ts h2
    simp only [List.nil_append, List.length_nil] at hsp
    have hl := (C49_stops_become_colours 5 out (t :: ts) hT).2
    unfold stopAsDup at hl
    rw [hsp] at hl
    have hl : (dups t ts out).length = (t :: ts).length + out.countP (fun a => a.low == 3) := hl
    rw [dups_kinds] at hl hsp
    refine ⟨t, ts, rfl, ?_, hl, ?_⟩
    · unfold prepare stopAsDup
      rw [hT1]
      exact hsp
    · refine fixColorCount_enough _ _ _ ?_
      have : stopsAsChanges out = out.map (unstop 5) := rfl
      rw [this, unstop_changes, hl]
      omega

/-- C78: the file written from a pattern encoded for PEC is read without an exception. Read are the first eight characters of the name,
the stitches as in C12, for every thread one of the 64 threads of the palette, the same for two threads exactly if they have the
same colour, and the thumbnails, each with its thread; then threads doubled for stops are joined again (C49). -/
theorem C78_file_partial (hlm : lm.Sound) (hv : o.ValidSequins) (hr : o.round = true)
    (h1 : o.maxStitch = some 2047) (h2 : o.maxJump = some 2047) (h3 : o.longStitch = 0xF1 ∨ o.longStitch = 0xF2)
    (hs : o.sequin ≠ 0xF5)
    (hq : ∀ st ∈ source, st.low ≠ 0xD5 ∧ st.low ≠ 0xD6 ∧ st.low ≠ 0xF0 ∧ st.low ≠ 0xF5)
    (h : encode o lm threads source = .ok (out, ths)) (order : List Thread → List Thread) (filler filler' : Nat → Thread)
    (name : Option Str) (T : List Thread)
    (hT : out.countP isChange < (fixColorCount T filler out).length)
    (hlen : (fixColorCount T filler out).length + out.countP (fun a => a.low == 3) ≤ 255)
    (ho : IsSetOrder (order (prepare filler T out).2) (prepare filler T out).2) (hsz : (order (prepare filler T out).2).length ≤ 64)
    (hname : ∀ c ∈ (name.getD "Untitled".toList).take 8, c.utf8Size = 1)
    (hsec : 16 + (encodeSection (stopsAsChanges out)).length < 2 ^ 24) :
    ∃ (f : Bytes) (d : Design) (g : Thread → Thread), writeFile order filler filler' name T out = .ok f ∧ readFile f = .ok d.stops ∧
      d.label = some (strip ((name.getD "Untitled".toList).take 8)) ∧
      d.stitches = seen 0 0 true true (place 0 0 (deltas 0 0 (stopsAsChanges out))) ∧
      d.threads = (prepare filler T out).2.map g ∧
      (∀ t ∈ (prepare filler T out).2, g t ∈ brother) ∧
      (∀ a ∈ (prepare filler T out).2, ∀ b ∈ (prepare filler T out).2, g a = g b ↔ a.rgb = b.rgb) ∧
      ((order (prepare filler T out).2).Pairwise (fun a b => a.rgb ≠ b.rgb) →
        (∀ t ∈ (prepare filler T out).2, ∃ q ∈ brother, q.rgb = t.rgb) → ∀ t ∈ (prepare filler T out).2, (g t).rgb = t.rgb) ∧
      ∃ b, bounds out = some b ∧ d.graphics.length = d.threads.length + 1 ∧
        ∀ i p, (thumbnails b (stopsAsChanges out))[i]? = some p → i ≤ d.threads.length →
          d.graphics[i]? = some (p, 6, if i = 0 then none else d.threads[i - 1]?) := by
  obtain ⟨t, ts, hT1, hp, hpl, hfix⟩ := prepare_spec (out := out) filler filler' T hT
  rw [hp] at ho hsz ⊢
  simp only at ho hsz ⊢
  generalize hT' : dupsOf t ts (kinds out) = T' at *
  have hne : stopsAsChanges out ≠ [] := by
    obtain ⟨l, e, rfl, -⟩ := encoded_recs (M := 2047) (by decide) hlm hv hr (by rw [h1]; norm_num)
      (by rw [h2]; norm_num) h3 hs hq h
    simp [stopsAsChanges]
  have hT0 : T' ≠ [] := by
    intro e
    rw [e, hT1] at hpl
    simp only [List.length_nil, List.length_cons] at hpl
    omega
  obtain ⟨b, f, rest, d, hb, hw, hrd, hlab, hst, hth, hgl, hg⟩ := readPattern_layout [] order name T' (stopsAsChanges out) [] hne ho hsz hT0
    (by omega) hname hsec (.inl rfl)
  rw [List.append_nil] at hrd
  rw [if_pos rfl] at hth
  have hspec := entryOf_spec (order T') T' ho hsz
  have hgq : ∀ u ∈ T', ∀ q, palette[entryOf (order T') u]? = some (some q) → paletteOf (order T') u = q := by
    intro u _ q hq
    unfold paletteOf
    rw [hq]
    rfl
  have hbnd : bounds (stopsAsChanges out) = bounds out := by
    have : ∀ (l : List Stitch) (b : Option Box), (stopsAsChanges l).foldl boundsStep b = l.foldl boundsStep b := by
      intro l
      induction l with
      | nil => intro b; rfl
      | cons a l ih =>
        intro b
        have e : stopsAsChanges (a :: l) = (if a.low = 3 then ⟨a.x, a.y, 5⟩ else a) :: stopsAsChanges l := rfl
        rw [e, List.foldl_cons, List.foldl_cons, ih]
        congr 1
        by_cases h3 : a.low = 3
        · rw [if_pos h3]; rfl
        · rw [if_neg h3]
    exact this out none
  refine ⟨utf8 "#PEC0001".toList ++ f, d, paletteOf (order T'), ?_, ?_, hlab, ?_, hth, ?_, ?_, ?_, b, by rw [← hbnd, hb], ?_, ?_⟩
  · unfold writeFile
    rw [hp]
    simp only
    rw [hfix, hw]
    rfl
  · unfold readFile
    have e8 : (utf8 "#PEC0001".toList).length = 8 := by decide +kernel
    have := drop_past (utf8 "#PEC0001".toList) f 0 e8
    rw [Nat.add_zero, List.drop_zero] at this
    rw [this, hrd]
    rfl
  · rw [hst]
    exact C12_exact hlm hv hr h1 h2 h3 hs hq h rest
  · intro u hu
    obtain ⟨-, q, hqb, hq⟩ := hspec.1 u hu
    rw [hgq u hu q hq]; exact hqb
  · intro u hu v hv'
    obtain ⟨-, q, -, hq⟩ := hspec.1 u hu
    obtain ⟨-, q', -, hq'⟩ := hspec.1 v hv'
    rw [hgq u hu q hq, hgq v hv' q' hq', ← hspec.2 u hu v hv']
    constructor
    · intro e
      have l1 := (List.getElem?_eq_some_iff.1 hq).1
      have l2 := (List.getElem?_eq_some_iff.1 hq').1
      rw [palette_length] at l1 l2
      exact palette_inj _ l1 _ l2 (by rw [hq, hq', e])
    · intro e
      rw [e, hq'] at hq
      cases hq; rfl
  · intro hd he u hu
    obtain ⟨-, q, -, hq⟩ := hspec.1 u hu
    rw [hgq u hu q hq]
    exact entryOf_exact (order T') T' ho hsz hd he u hu q hq
  · rw [hgl, hth, List.length_map]
  · intro i p hi hle
    exact hg i p hi (by rw [hth, List.length_map] at hle; exact hle)

/-- Converting back what was written for stops (C49), whatever `g` makes of the threads, if it keeps neighbours distinct. -/
theorem stops_restored (hlm : lm.Sound) (hv : o.ValidSequins) (hr : o.round = true)
    (h1 : o.maxStitch = some 2047) (h2 : o.maxJump = some 2047) (h3 : o.longStitch = 0xF1 ∨ o.longStitch = 0xF2)
    (hs : o.sequin ≠ 0xF5) (hcc : o.changeCommand ≠ 9)
    (hq : ∀ st ∈ source, st.low ≠ 0xD5 ∧ st.low ≠ 0xD6 ∧ st.low ≠ 0xF0 ∧ st.low ≠ 0xF5)
    (h : encode o lm threads source = .ok (out, ths)) (filler : Nat → Thread) (T : List Thread)
    (hT : out.countP isChange < (fixColorCount T filler out).length)
    (hsew : Sewn true (place 0 0 (deltas 0 0 out))) (g : Thread → Thread)
    (hchain : ((fixColorCount T filler out).map g).IsChain (fun a b => Thread.same a b = false)) :
    dupAsStop Thread.same (seen 0 0 true true (place 0 0 (deltas 0 0 (stopsAsChanges out)))) ((prepare filler T out).2.map g) =
      (kept 0 0 true true (place 0 0 (deltas 0 0 out)), (fixColorCount T filler out).map g) := by
  obtain ⟨t, ts, hT1, hp, hpl, -⟩ := prepare_spec (out := out) filler filler T hT
  rw [hp]
  simp only
  obtain ⟨l, e, rfl, hd, hok⟩ := encoded_recs (M := 2047) (by decide) hlm hv hr (by rw [h1]; norm_num)
    (by rw [h2]; norm_num) h3 hs hq h
  have hkinds := place_kinds 0 0 0 0 (l ++ [e])
  have hP : ∃ z, z.cmd = 4 ∧ place 0 0 (deltas 0 0 (l ++ [e])) = place 0 0 (deltas 0 0 l) ++ [z] := by
    have : ∀ (rs : List Rec) (x y : ℚ), ∃ z : Stitch, z.cmd = 4 ∧ place x y (rs ++ [⟨0, 0, 4⟩]) = place x y rs ++ [z] := by
      intro rs
      induction rs with
      | nil => intro x y; exact ⟨_, rfl, rfl⟩
      | cons r rs ih =>
        intro x y
        obtain ⟨z, h1, h2⟩ := ih (x + r.dx) (y + r.dy)
        exact ⟨z, h1, by rw [List.cons_append, place, place, h2]; rfl⟩
    rw [hd]
    exact this _ _ _
  obtain ⟨z, hz, hP⟩ := hP
  have hbody : ∀ a ∈ place 0 0 (deltas 0 0 l), Body a := by
    have : ∀ (rs : List Rec) (x y : ℚ), (∀ r ∈ rs, r.cmd = 0 ∨ r.cmd = 1 ∨ r.cmd = 2 ∨ r.cmd = 3 ∨ r.cmd = 5 ∨ r.cmd = 11 ∨ r.cmd = 12) →
        ∀ a ∈ place x y rs, Body a := by
      intro rs
      induction rs with
      | nil => intro x y _ a ha; cases ha
      | cons r rs ih =>
        intro x y hr a ha
        rcases List.mem_cons.1 ha with rfl | ha
        · exact hr r (by simp)
        · exact ih _ _ (fun q hq => hr q (by simp [hq])) a ha
    refine this _ _ _ (fun r hr => ?_)
    obtain ⟨k, -, k9⟩ := hok r hr
    have : r.cmd ≠ 9 := fun h9 => hcc (k9 h9)
    rcases k with ⟨hc | hc, -⟩ | ⟨hc, -⟩ <;> omega
  have hcmd : ∀ r ∈ deltas 0 0 (l ++ [e]), 0 ≤ r.cmd ∧ r.cmd < 256 := by
    have : ∀ (l : List Stitch) (x y : Int), ∀ r ∈ deltas x y l, 0 ≤ r.cmd ∧ r.cmd < 256 := by
      intro l
      induction l with
      | nil => intro x y r hr; cases hr
      | cons a l ih =>
        intro x y r hr
        rcases List.mem_cons.1 hr with rfl | hr
        · exact ⟨Int.emod_nonneg _ (by decide), Int.emod_lt_of_pos _ (by decide)⟩
        · exact ih _ _ r hr
    exact this _ _ _
  set K := kept 0 0 true true (place 0 0 (deltas 0 0 (l ++ [e]))) with hK
  have hKs : seen 0 0 true true (place 0 0 (deltas 0 0 (stopsAsChanges (l ++ [e])))) = K.map (unstop 5) := by
    rw [deltas_stops, place_unstop 0 0 _ hcmd, hK, hP, seen_unstop _ hbody z hz]
  have hKk : kinds K = kinds (l ++ [e]) := by
    rw [hK, hP, kept_kinds _ hbody z hz, ← hP, hkinds]
  have hKsew : Sewn true K := by
    rw [hK, hP]
    refine kept_sewn _ hbody z hz 0 0 true true true ?_
    rw [← hP]; exact hsew
  have hthr : (dupsOf t ts (kinds (l ++ [e]))).map g = dups (g t) (ts.map g) K := by
    rw [dupsOf_map, dups_kinds, hKk]
  have hKc : K.countP isChange < ((t :: ts).map g).length := by
    rw [kinds_changes, hKk, ← kinds_changes, List.length_map, ← hT1]
    exact hT
  rw [hT1] at hchain
  have hrefl : ∀ a : Thread, Thread.same a a = true := by intro a; simp [Thread.same]
  have hback := C49_restores_partial Thread.same 5 (.inl rfl) hrefl K ((t :: ts).map g) hKsew hKc hchain
  have hstop : stopAsDup 5 K ((t :: ts).map g) = (K.map (unstop 5), dups (g t) (ts.map g) K) := by
    have h2 : Ops.changes K ≤ (ts.map g).length := by unfold Ops.changes; simp only [List.map_cons, List.length_cons] at hKc; omega
    have := stopLoop_spec 5 K [] (g t) (ts.map g) h2
    simp only [List.nil_append, List.length_nil] at this
    unfold stopAsDup
    exact this
  rw [hstop] at hback
  rw [hKs, hthr, hT1]
  exact hback

theorem dupsOf_all : ∀ (b : List Bool) (t : Thread) (ts : List Thread), b.countP (fun b => b) ≤ ts.length → ∀ u ∈ t :: ts, u ∈ dupsOf t ts b := by
  intro b
  induction b with
  | nil => intro t ts _ u hu; exact hu
  | cons c b ih =>
    intro t ts hle u hu
    cases c with
    | true =>
      cases ts with
      | nil => simp at hle
      | cons v vs =>
        simp only [dupsOf]
        rcases List.mem_cons.1 hu with rfl | hu
        · simp
        · exact List.mem_cons_of_mem _ (ih v vs (by simpa using hle) u hu)
    | false =>
      simp only [dupsOf]
      exact List.mem_cons_of_mem _ (ih t ts (by simpa using hle) u hu)

/-- Every thread of the pattern is among those written. -/
theorem prepare_mem (filler : Nat → Thread) (T : List Thread) (hT : out.countP isChange < (fixColorCount T filler out).length) :
    ∀ u ∈ fixColorCount T filler out, u ∈ (prepare filler T out).2 := by
  obtain ⟨t, ts, hT1, hp, -⟩ := prepare_spec (out := out) filler filler T hT
  rw [hp, hT1]
  refine dupsOf_all _ t ts ?_
  rw [← kinds_changes]
  rw [hT1, List.length_cons] at hT
  omega

/-- C78: if, moreover, something is sewn before, between and after the stops and colour changes, and neighbouring threads differ in
colour, then stops come back as stops, and there is one thread for each of the pattern. -/
theorem C78_roundtrip_partial (hlm : lm.Sound) (hv : o.ValidSequins) (hr : o.round = true)
    (h1 : o.maxStitch = some 2047) (h2 : o.maxJump = some 2047) (h3 : o.longStitch = 0xF1 ∨ o.longStitch = 0xF2)
    (hs : o.sequin ≠ 0xF5) (hcc : o.changeCommand ≠ 9)
    (hq : ∀ st ∈ source, st.low ≠ 0xD5 ∧ st.low ≠ 0xD6 ∧ st.low ≠ 0xF0 ∧ st.low ≠ 0xF5)
    (h : encode o lm threads source = .ok (out, ths)) (order : List Thread → List Thread) (filler filler' : Nat → Thread)
    (name : Option Str) (T : List Thread)
    (hT : out.countP isChange < (fixColorCount T filler out).length)
    (hlen : (fixColorCount T filler out).length + out.countP (fun a => a.low == 3) ≤ 255)
    (ho : IsSetOrder (order (prepare filler T out).2) (prepare filler T out).2) (hsz : (order (prepare filler T out).2).length ≤ 64)
    (hname : ∀ c ∈ (name.getD "Untitled".toList).take 8, c.utf8Size = 1)
    (hsec : 16 + (encodeSection (stopsAsChanges out)).length < 2 ^ 24)
    (hsew : Sewn true (place 0 0 (deltas 0 0 out)))
    (hne : (fixColorCount T filler out).IsChain (fun a b => a.rgb ≠ b.rgb)) :
    ∃ (f : Bytes) (d : Design) (g : Thread → Thread), writeFile order filler filler' name T out = .ok f ∧ readFile f = .ok d ∧
      d.label = some (strip ((name.getD "Untitled".toList).take 8)) ∧
      d.stitches = kept 0 0 true true (place 0 0 (deltas 0 0 out)) ∧
      d.threads = (fixColorCount T filler out).map g ∧ (∀ t ∈ fixColorCount T filler out, g t ∈ brother) ∧
      (∀ a ∈ fixColorCount T filler out, ∀ b ∈ fixColorCount T filler out, g a = g b ↔ a.rgb = b.rgb) ∧
      ((order (prepare filler T out).2).Pairwise (fun a b => a.rgb ≠ b.rgb) →
        (∀ t ∈ (prepare filler T out).2, ∃ q ∈ brother, q.rgb = t.rgb) → ∀ t ∈ fixColorCount T filler out, (g t).rgb = t.rgb) := by
  obtain ⟨f, d, g, hw, hrd, hlab, hst, hth, hgb, hgi, hge, -⟩ := C78_file_partial hlm hv hr h1 h2 h3 hs hq h order filler filler' name T hT hlen
    ho hsz hname hsec
  have hmem := prepare_mem filler T hT
  have hchain : ((fixColorCount T filler out).map g).IsChain (fun a b => Thread.same a b = false) := by
    have : ∀ L : List Thread, (∀ u ∈ L, u ∈ fixColorCount T filler out) → L.IsChain (fun a b => a.rgb ≠ b.rgb) → (L.map g).IsChain (fun a b => Thread.same a b = false) := by
      intro L
      induction L with
      | nil => intro _ _; exact List.isChain_nil
      | cons u L ih =>
        intro hm hc
        cases L with
        | nil => exact List.isChain_singleton _
        | cons v L =>
          rw [List.isChain_cons_cons] at hc
          rw [List.map_cons, List.map_cons, List.isChain_cons_cons]
          refine ⟨?_, ih (fun w hw => hm w (by simp [hw])) hc.2⟩
          by_contra hsame
          rw [Bool.not_eq_false] at hsame
          have hu := hmem u (hm u (by simp))
          have hv' := hmem v (hm v (by simp))
          have hguv : g u = g v := by
            obtain ⟨i, hi⟩ := List.mem_iff_getElem?.1 (hgb u hu)
            obtain ⟨j, hj⟩ := List.mem_iff_getElem?.1 (hgb v hv')
            have : ∀ i < 64, ∀ j < 64, ∀ p ∈ brother[i]?, ∀ q ∈ brother[j]?, Thread.same p q = true → p = q := by decide +kernel
            have bl : brother.length = 64 := by decide +kernel
            exact this i (by rw [← bl]; exact (List.getElem?_eq_some_iff.1 hi).1) j (by rw [← bl]; exact (List.getElem?_eq_some_iff.1 hj).1)
              _ hi _ hj hsame
          exact hc.1 ((hgi u hu v hv').1 hguv)
    exact this _ (fun u hu => hu) hne
  have hback := stops_restored hlm hv hr h1 h2 h3 hs hcc hq h filler T hT hsew g hchain
  refine ⟨f, d.stops, g, hw, hrd, hlab, ?_, ?_, fun u hu => hgb u (hmem u hu),
    fun a ha b hb => hgi a (hmem a ha) b (hmem b hb), fun e1 e2 u hu => hge e1 e2 u (hmem u hu)⟩
  · unfold Design.stops
    simp only
    rw [hst, hth, hback]
  · unfold Design.stops
    simp only
    rw [hst, hth, hback]

/-! ## Examples -/

/-- Two stitches, a stop, a stitch, a colour change, a stitch. -/
def fileDemo : List Stitch := demoEncode settings [⟨0, 0, 0⟩, ⟨5, 3, 0⟩, ⟨5, 3, 3⟩, ⟨30, 4, 0⟩, ⟨30, 4, 5⟩, ⟨31, 40, 0⟩]

/-- Red, which is in the palette, and a blue that is not. -/
def fileThreads : List Thread := [{ color := 0xED171F }, { color := 0x0000FE }]

example : fileDemo.countP isChange < (fixColorCount fileThreads (fun _ => { color := 0 }) fileDemo).length ∧
    (fixColorCount fileThreads (fun _ => { color := 0 }) fileDemo).length + fileDemo.countP (fun a => a.low == 3) ≤ 255 ∧
    (prepare (fun _ => { color := 0 }) fileThreads fileDemo).2.dedup.length ≤ 64 ∧
    16 + (encodeSection (stopsAsChanges fileDemo)).length < 2 ^ 24 := by decide +kernel

example : Sewn true (place 0 0 (deltas 0 0 fileDemo)) := by
  have : place 0 0 (deltas 0 0 fileDemo) = [⟨0, 0, 0⟩, ⟨5, 3, 0⟩, ⟨5, 3, 3⟩, ⟨30, 4, 1⟩, ⟨30, 4, 0⟩, ⟨30, 4, 5⟩, ⟨31, 40, 1⟩, ⟨31, 40, 0⟩, ⟨31, 40, 4⟩] := by
    decide +kernel
  rw [this]
  simp [Ops.Sewn, isSew, isChange, Stitch.low]

/-- What a user gets back from a PEC file. -/
def viaPec (name : Option Str) (threads : List Thread) (l : List Stitch) : Except PyErr Design :=
  writeFile List.dedup (fun _ => { color := 0 }) (fun _ => { color := 0 }) name threads l >>= readFile

example : ((viaPec (some "Rose garden".toList) fileThreads fileDemo).toOption.map fun d =>
      (d.label, d.threads.map (·.description), d.stitches, d.graphics.length)) =
    some (some "Rose gar".toList, [some "Red", some "Ultramarine"],
      [⟨0, 0, 0⟩, ⟨5, 3, 0⟩, ⟨5, 3, 3⟩, ⟨5, 3, 2⟩, ⟨30, 4, 1⟩, ⟨30, 4, 0⟩, ⟨30, 4, 5⟩, ⟨30, 4, 2⟩, ⟨31, 40, 1⟩, ⟨31, 40, 0⟩, ⟨31, 40, 4⟩],
      4) := by decide +kernel

/-- Why C78 is only partial: the file of an empty pattern has no thread, its colour count is written as 255, and the reader makes
256 threads of it. -/
theorem C78_no_threads : ((viaPec none [] (demoEncode settings [])).toOption.map fun d => (d.threads.length, d.stitches)) =
    some (256, [⟨0, 0, 4⟩]) := by decide +kernel

/-- The label is padded by characters: after a name with an accent everything is read one byte late, and threads and
stitches are wrong. -/
theorem C78_accent_fails : ((viaPec (some "Rosé".toList) fileThreads fileDemo).toOption.map fun d =>
    (decide (d.threads.length = 2), decide (⟨5, 3, 0⟩ ∈ d.stitches))) = some (false, false) := by decide +kernel

/-- Without any stitch, not even an END, nothing is written. -/
theorem C78_no_stitches (order : List Thread → List Thread) (filler filler' : Nat → Thread) (name : Option Str) (threads : List Thread)
    (f : Bytes) : writeFile order filler filler' name threads [] ≠ .ok f := by
  have hp : (prepare filler threads []).1 = [] := by
    unfold prepare stopAsDup
    cases fixColorCount threads filler [] <;> rfl
  intro hw
  unfold writeFile at hw
  simp only [hp] at hw
  unfold writePattern at hw
  cases h : allSome (buildUnique palette (order (fixColorCount (prepare filler threads []).2 filler' []))
      (fixColorCount (prepare filler threads []).2 filler' [])) with
  | none => rw [h] at hw; cases hw
  | some c =>
    rw [h] at hw
    simp only [show bounds [] = none from rfl] at hw
    cases hh : header (name.getD "Untitled".toList) c <;> rw [hh] at hw <;> cases hw

end Pec
end Emb
