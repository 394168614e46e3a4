import Verif.U01
import Verif.Props.NeedleProps

/-!
# Property C13: U01 files
-/

namespace Emb
namespace U01

/-- What a U01 file shows of a command word: STITCH (0), JUMP (1), TRIM (2), STOP (3) and END (4) without flags, a needle
change (9) with its needle number (third byte, stored plus one). -/
def shows (w : Int) : Option Int :=
  if w % 256 ≤ 4 then some (w % 256) else if w % 256 = 9 then some (9 + w / 65536 % 256 * 65536) else none

/-- A needle change to a needle between 1 and 14. -/
def NeedleFits (w : Int) : Prop := w % 256 = 9 → 2 ≤ w / 65536 % 256 ∧ w / 65536 % 256 ≤ 15

/-- The records a written list is read as, by the pending speed changes: a STITCH or JUMP takes the pending speed changes
with it, both together turn it into a TRIM and a JUMP, and one that does not move is lost behind them. -/
def seen : Bool → Bool → List Rec → List Rec
  | _, _, [] => []
  | fast, slow, r :: rest =>
    if r.cmd % 256 = 11 then seen fast true rest
    else if r.cmd % 256 = 12 then seen true slow rest
    else if r.cmd % 256 ≤ 1 then
      (if fast then
        if slow then ⟨0, 0, 2⟩ :: (if r.dx ≠ 0 ∨ r.dy ≠ 0 then [⟨r.dx, r.dy, 1⟩] else [])
        else ⟨0, 0, 12⟩ :: (if r.dx ≠ 0 ∨ r.dy ≠ 0 then [⟨r.dx, r.dy, r.cmd % 256⟩] else [])
       else if slow then ⟨0, 0, 11⟩ :: (if r.dx ≠ 0 ∨ r.dy ≠ 0 then [⟨r.dx, r.dy, r.cmd % 256⟩] else [])
       else [⟨r.dx, r.dy, r.cmd % 256⟩]) ++ seen false false rest
    else ((shows r.cmd).map (fun c => ⟨r.dx, r.dy, c⟩)).toList ++ seen fast slow rest

theorem one (k dx dy : Int) (h0 : 0 ≤ k) (h1 : k < 32) (hx : -128 ≤ dx ∧ dx ≤ 128) (hy : -128 ≤ dy ∧ dy ≤ 128) :
    ∃ b, triple (base dx dy + k) dx dy = .ok b ∧ ∀ rs, interpret k dx dy = some rs →
      ∀ rest, readRecs (b ++ rest) = rs ++ readRecs rest := by
  have ax : |dx| ≤ 128 := abs_le.2 hx
  have ay : |dy| ≤ 128 := abs_le.2 hy
  have nx := abs_nonneg dx
  have ny := abs_nonneg dy
  have hb : 128 ≤ base dx dy ∧ base dx dy ≤ 224 ∧ base dx dy % 32 = 0 ∧ (base dx dy / 32 % 2 = 1 ↔ dx ≤ 0) ∧
      (base dx dy / 64 % 2 = 1 ↔ dy ≥ 0) := by
    unfold base
    split_ifs <;> omega
  obtain ⟨b1, b2, b3, b4, b5⟩ := hb
  refine ⟨[base dx dy + k, |dy|, |dx|], ?_, ?_⟩
  · unfold triple IsByte
    rw [if_pos]
    omega
  · intro rs hrs rest
    simp only [List.cons_append, List.nil_append]
    rw [readRecs]
    have e1 : (base dx dy + k) % 32 = k := by omega
    have e2 : (base dx dy + k) / 32 = base dx dy / 32 := by omega
    have e3 : (base dx dy + k) / 64 = base dx dy / 64 := by omega
    have e4 : (if base dx dy / 32 % 2 = 1 then -|dx| else |dx|) = dx := by
      by_cases h : dx ≤ 0
      · rw [if_pos (b4.2 h), abs_of_nonpos h]; omega
      · rw [if_neg (fun c => h (b4.1 c)), abs_of_pos (by omega)]
    have e5 : (if base dx dy / 64 % 2 = 1 then |dy| else -|dy|) = dy := by
      by_cases h : dy ≥ 0
      · rw [if_pos (b5.2 h), abs_of_nonneg h]
      · rw [if_neg (fun c => h (b5.1 c)), abs_of_neg (by omega)]; omega
    simp only [e1, e2, e3, e4, e5, hrs]

theorem bind_of {α β : Type} {x : Except PyErr α} {a : α} {f : α → Except PyErr β} (h : x = .ok a) : (x >>= f) = f a := by
  rw [h]; rfl

theorem endRecs : readRecs [0xF8, 0x00, 0x00] = [] := by decide

/-- The word the reader makes for needle `n`. -/
theorem needle_word (n : Int) (h0 : 1 ≤ n) (h1 : n ≤ 15) :
    encodeThreadChange NEEDLE_SET none (some n) none = 9 + (n + 1) * 65536 := by
  have h : n = 1 ∨ n = 2 ∨ n = 3 ∨ n = 4 ∨ n = 5 ∨ n = 6 ∨ n = 7 ∨ n = 8 ∨ n = 9 ∨ n = 10 ∨ n = 11 ∨ n = 12 ∨ n = 13 ∨
    n = 14 ∨ n = 15 := by omega
  rcases h with rfl | rfl | rfl | rfl | rfl | rfl | rfl | rfl | rfl | rfl | rfl | rfl | rfl | rfl | rfl <;> decide +kernel

theorem needle_of (w : Int) (h : w / 65536 % 256 ≠ 0) : (decodeCommand w).2.2.1 = some (w / 65536 % 256 - 1) := by
  unfold decodeCommand decField
  simp only
  rw [if_neg (by omega)]

/-- Records are read back as `seen` says. -/
theorem readRecs_write (rs : List Rec) (e : Rec) (he : e.cmd % 256 = 4)
    (h : ∀ r ∈ rs, RecOK 128 ⟨r.dx, r.dy, r.cmd % 256⟩ ∧ r.cmd % 256 ≠ 5 ∧ NeedleFits r.cmd) (fast slow : Bool) :
    ∃ b, writeRecs fast slow (rs ++ [e]) = .ok b ∧ readRecs b = seen fast slow rs := by
  induction rs generalizing fast slow with
  | nil =>
    refine ⟨[0xF8, 0, 0], ?_, endRecs⟩
    simp [writeRecs, cmdOf, he, SLOW, FAST, STITCH, JUMP, STOP, TRIM, NEEDLE_SET, END]
  | cons r rs ih =>
    have ih := fun f s => ih (fun a ha => h a (by simp [ha])) f s
    obtain ⟨hok, h5, hn⟩ := h r (by simp)
    obtain ⟨dx, dy, w⟩ := r
    simp only [List.cons_append]
    unfold RecOK at hok
    simp only at hok h5 hn
    have go : ∀ (k : Int) (rs' : List Rec) (f s : Bool), 0 ≤ k → k < 32 → (-128 ≤ dx ∧ dx ≤ 128) → (-128 ≤ dy ∧ dy ≤ 128) →
        interpret k dx dy = some rs' →
        ∃ b, (triple (base dx dy + k) dx dy >>= fun b => writeRecs f s (rs ++ [e]) >>= fun t => .ok (b ++ t)) = .ok b ∧
          readRecs b = rs' ++ seen f s rs := by
      intro k rs' f s k0 k1 hx hy hi
      obtain ⟨b, hb, hr⟩ := one k dx dy k0 k1 hx hy
      obtain ⟨t, ht, hr2⟩ := ih f s
      refine ⟨b ++ t, ?_, by rw [hr rs' hi, hr2]⟩
      rw [bind_of hb, bind_of ht]
    rcases hok with ⟨hc | hc, h1, h2, h3, h4⟩ | ⟨hc, h1, h2⟩
    · have ew : writeRecs fast slow (⟨dx, dy, w⟩ :: (rs ++ [e])) =
          (triple (base dx dy + speedBits fast slow) dx dy >>= fun b => writeRecs false false (rs ++ [e]) >>= fun t => .ok (b ++ t)) := by
        simp [writeRecs, cmdOf, hc, SLOW, FAST, STITCH]
      rw [ew]
      unfold seen
      simp only [hc]
      cases fast <;> cases slow
      · exact go 0 _ _ _ (by decide) (by decide) ⟨h1, h2⟩ ⟨h3, h4⟩ rfl
      · exact go 4 _ _ _ (by decide) (by decide) ⟨h1, h2⟩ ⟨h3, h4⟩ rfl
      · exact go 2 _ _ _ (by decide) (by decide) ⟨h1, h2⟩ ⟨h3, h4⟩ rfl
      · exact go 6 _ _ _ (by decide) (by decide) ⟨h1, h2⟩ ⟨h3, h4⟩ rfl
    · have ew : writeRecs fast slow (⟨dx, dy, w⟩ :: (rs ++ [e])) =
          (triple (base dx dy + (speedBits fast slow + 1)) dx dy >>= fun b => writeRecs false false (rs ++ [e]) >>= fun t => .ok (b ++ t)) := by
        simp [writeRecs, cmdOf, hc, SLOW, FAST, STITCH, JUMP, add_assoc]
      rw [ew]
      unfold seen
      simp only [hc]
      cases fast <;> cases slow
      · exact go 1 _ _ _ (by decide) (by decide) ⟨h1, h2⟩ ⟨h3, h4⟩ rfl
      · exact go 5 _ _ _ (by decide) (by decide) ⟨h1, h2⟩ ⟨h3, h4⟩ rfl
      · exact go 3 _ _ _ (by decide) (by decide) ⟨h1, h2⟩ ⟨h3, h4⟩ rfl
      · exact go 7 _ _ _ (by decide) (by decide) ⟨h1, h2⟩ ⟨h3, h4⟩ rfl
    · subst h1; subst h2
      rcases hc with hc | hc | hc | hc | hc | hc
      · have ew : writeRecs fast slow (⟨0, 0, w⟩ :: (rs ++ [e])) =
            (triple (base 0 0 + 7) 0 0 >>= fun b => writeRecs fast slow (rs ++ [e]) >>= fun t => .ok (b ++ t)) := by
          simp [writeRecs, cmdOf, hc, SLOW, FAST, STITCH, JUMP, STOP, TRIM]
        have es : seen fast slow (⟨0, 0, w⟩ :: rs) = [⟨0, 0, 2⟩] ++ seen fast slow rs := by
          simp [seen, hc, shows]
        rw [ew, es]
        exact go 7 _ _ _ (by decide) (by decide) (by decide) (by decide) rfl
      · have ew : writeRecs fast slow (⟨0, 0, w⟩ :: (rs ++ [e])) =
            (triple (base 0 0 + 8) 0 0 >>= fun b => writeRecs fast slow (rs ++ [e]) >>= fun t => .ok (b ++ t)) := by
          simp [writeRecs, cmdOf, hc, SLOW, FAST, STITCH, JUMP, STOP]
        have es : seen fast slow (⟨0, 0, w⟩ :: rs) = [⟨0, 0, 3⟩] ++ seen fast slow rs := by
          simp [seen, hc, shows]
        rw [ew, es]
        exact go 8 _ _ _ (by decide) (by decide) (by decide) (by decide) rfl
      · exact absurd hc h5
      · obtain ⟨n1, n2⟩ := hn hc
        have ew : writeRecs fast slow (⟨0, 0, w⟩ :: (rs ++ [e])) =
            (triple (base 0 0 + (8 + (w / 65536 % 256 - 1))) 0 0 >>= fun b => writeRecs fast slow (rs ++ [e]) >>= fun t => .ok (b ++ t)) := by
          have : needleCode (w / 65536 % 256 - 1) = w / 65536 % 256 - 1 := by unfold needleCode; rw [if_neg (by omega)]
          simp [writeRecs, cmdOf, hc, SLOW, FAST, STITCH, JUMP, STOP, TRIM, NEEDLE_SET, needle_of w (by omega), this, add_assoc]
        have es : seen fast slow (⟨0, 0, w⟩ :: rs) = [⟨0, 0, 9 + w / 65536 % 256 * 65536⟩] ++ seen fast slow rs := by
          simp [seen, hc, shows]
        rw [ew, es]
        refine go _ _ _ _ (by omega) (by omega) (by decide) (by decide) ?_
        unfold interpret
        rw [if_neg (by omega), if_neg (by omega), if_neg (by omega), if_neg (by omega), if_neg (by omega), if_neg (by omega),
          if_neg (by omega), if_neg (by omega), if_neg (by omega), if_pos (by omega)]
        have : 8 + (w / 65536 % 256 - 1) - 8 = w / 65536 % 256 - 1 := by omega
        rw [this, needle_word _ (by omega) (by omega)]
        simp [also]
      · have ew : writeRecs fast slow (⟨0, 0, w⟩ :: (rs ++ [e])) = writeRecs fast true (rs ++ [e]) := by
          simp [writeRecs, cmdOf, hc, SLOW]
        have es : seen fast slow (⟨0, 0, w⟩ :: rs) = seen fast true rs := by simp [seen, hc]
        rw [ew, es]; exact ih _ _
      · have ew : writeRecs fast slow (⟨0, 0, w⟩ :: (rs ++ [e])) = writeRecs true slow (rs ++ [e]) := by
          simp [writeRecs, cmdOf, hc, SLOW, FAST]
        have es : seen fast slow (⟨0, 0, w⟩ :: rs) = seen true slow rs := by simp [seen, hc]
        rw [ew, es]; exact ih _ _

variable {o : Settings} {lm : Libm} {threads : List Thread} {source out : List Stitch} {ths : List (Option Thread)}

/-- C66 for U01: the header is 0x100 bytes whatever the pattern. -/
theorem C66_u01 (l : List Stitch) (b : Box) (last : Stitch) : (header l b last).length = 0x100 := by
  simp only [header, writeInt16le, writeInt32le, List.length_append, List.length_replicate, List.length_cons, List.length_nil]

theorem bounds_some (l : List Stitch) (e : Stitch) : ∃ b, bounds (l ++ [e]) = some b := by
  unfold bounds
  rw [List.foldl_append]
  generalize l.foldl boundsStep none = b
  cases b with
  | none => exact ⟨_, rfl⟩
  | some b => exact ⟨_, rfl⟩

/-- C13, exactly: for every source pattern that does not change the limits or switch sequins on, encoding with the U01
settings and writing succeeds if the needles fit, and the file reads back as `seen` says. -/
theorem C13_exact (hlm : lm.Sound) (hv : o.ValidSequins)
    (h1 : o.maxStitch = some 127) (h2 : o.maxJump = some 127) (h3 : o.longStitch = 0xF1 ∨ o.longStitch = 0xF2)
    (hc : o.changeCommand = 9) (hs : o.sequin ≠ 0xF5)
    (hq : ∀ st ∈ source, st.low ≠ 0xD5 ∧ st.low ≠ 0xD6 ∧ st.low ≠ 0xF0 ∧ st.low ≠ 0xF5)
    (h : encode o lm threads source = .ok (out, ths)) (hn : ∀ a ∈ out, NeedleFits a.cmd) :
    ∃ f, write out = .ok f ∧
      read f = place 0 0 (seen false false (wdeltas 0 0 out)) := by
  obtain ⟨l, e, rfl, hd, hok⟩ := encoded_recs_loose (M := 127) (by decide) hlm hv (by rw [h1]; norm_num)
    (by rw [h2]; norm_num) h3 hs hq h
  obtain ⟨he, hw, hok⟩ := recs_words hd hok
  obtain ⟨bx, hb⟩ := bounds_some l e
  have hok' : ∀ r ∈ wdeltas 0 0 l, RecOK 128 ⟨r.dx, r.dy, r.cmd % 256⟩ ∧ r.cmd % 256 ≠ 5 ∧ NeedleFits r.cmd := by
    intro r hr
    refine ⟨(hok r hr).1, fun h5 => absurd ((hok r hr).2.1 h5) (by rw [hc]; decide), ?_⟩
    have : r.cmd ∈ (wdeltas 0 0 l).map (·.cmd) := List.mem_map.2 ⟨r, hr, rfl⟩
    rw [wdeltas_cmds] at this
    obtain ⟨a, ha, e⟩ := List.mem_map.1 this
    rw [← e]; exact hn a (by simp [ha])
  obtain ⟨b, wb, rb⟩ := readRecs_write (wdeltas 0 0 l) ⟨0, 0, e.cmd⟩ he hok' false false
  refine ⟨header (l ++ [e]) bx e ++ b, ?_, ?_⟩
  · unfold write
    rw [hb, List.getLast?_append]
    simp only [List.getLast?_singleton, Option.some_or]
    rw [hw, bind_of wb]
  · unfold read
    rw [List.drop_append_of_le_length (by rw [C66_u01]), List.drop_of_length_le (by rw [C66_u01]),
      List.nil_append, rb, hw]
    have : ∀ (rs : List Rec) (f s : Bool), seen f s (rs ++ [⟨0, 0, e.cmd⟩]) = seen f s rs ++ [⟨0, 0, 4⟩] := by
      intro rs
      induction rs with
      | nil => intro f s; simp [seen, he, shows]
      | cons r rs ih => intro f s; simp only [List.cons_append, seen, ih]; split_ifs <;> simp
    rw [this]; rfl

theorem seen_plain (rs : List Rec) (h : ∀ r ∈ rs, r.cmd % 256 ≠ 11 ∧ r.cmd % 256 ≠ 12) :
    seen false false rs = viewRec shows rs := by
  induction rs with
  | nil => rfl
  | cons r rs ih =>
    have ih := ih (fun a ha => h a (by simp [ha]))
    obtain ⟨a, b⟩ := h r (by simp)
    have hv : viewRec shows (r :: rs) = ((shows r.cmd).map (fun c => ⟨r.dx, r.dy, c⟩)).toList ++ viewRec shows rs := by
      unfold viewRec
      rw [List.filterMap_cons]
      cases (shows r.cmd) <;> rfl
    rw [hv]
    unfold seen
    rw [if_neg a, if_neg b, ih]
    by_cases c : r.cmd % 256 ≤ 1
    · rw [if_pos c]
      have : shows r.cmd = some (r.cmd % 256) := by unfold shows; rw [if_pos (by omega)]
      rw [this]; rfl
    · rw [if_neg c]

theorem wdeltas_cmd_mem {l : List Stitch} {r : Rec} (hr : r ∈ wdeltas 0 0 l) : ∃ a ∈ l, a.cmd = r.cmd := by
  have : r.cmd ∈ (wdeltas 0 0 l).map (·.cmd) := List.mem_map.2 ⟨r, hr, rfl⟩
  rw [wdeltas_cmds] at this
  obtain ⟨a, ha, e⟩ := List.mem_map.1 this
  exact ⟨a, ha, e⟩

/-- Commands without a record do not move. -/
theorem hidden_still (hv : o.ValidSequins) (hs : o.sequin ≠ 0xF5) (hq : ∀ st ∈ source, st.low ≠ 0xF5)
    (h : encode o lm threads source = .ok (out, ths)) :
    ∀ r ∈ wdeltas 0 0 out, shows r.cmd = none → r.dx = 0 ∧ r.dy = 0 := by
  intro r hr hg
  have hat := C26_at_needle hv h
  have hst : ∀ r ∈ deltas 0 0 out, r.cmd ≠ 0 ∧ r.cmd ≠ 1 ∧ r.cmd ≠ 7 → r.dx = 0 ∧ r.dy = 0 :=
    deltas_still (K := fun c => c ≠ 0 ∧ c ≠ 1 ∧ c ≠ 7) out [] 0 0 (by simp) (by simp)
      (fun m a post eq hk => by simpa using hat m a post eq hk.1 hk.2.1 hk.2.2)
  obtain ⟨a, ha, e⟩ := wdeltas_cmd_mem hr
  have h7 := (C21_no_sequins hv hs hq h a ha).2
  have el : a.low = r.cmd % 256 := by unfold Stitch.low; rw [e]
  rw [el] at h7
  have hm : (⟨r.dx, r.dy, cmdOf r.cmd⟩ : Rec) ∈ deltas 0 0 out := by
    rw [deltas_eq]; exact List.mem_map.2 ⟨r, hr, rfl⟩
  have h4 : ¬ r.cmd % 256 ≤ 4 := fun c => by unfold shows at hg; rw [if_pos c] at hg; cases hg
  have := hst ⟨r.dx, r.dy, cmdOf r.cmd⟩ hm ⟨by show r.cmd % 256 ≠ 0; omega, by show r.cmd % 256 ≠ 1; omega, h7⟩
  exact this

/-- C13: for every source pattern without speed commands that does not change the limits or switch sequins on: encoding
with the U01 settings, writing and reading back gives the encoded commands in order, all of them at the positions of the
encoded pattern rounded to the grid, needle changes with their needle. Partial: sources with SLOW or FAST, for which the
claim fails (`C13_fast_loses_stitch`, `C13_both_lose_stitch`); see `C13_exact` and `C13_speeds_partial` for these. -/
theorem C13_roundtrip_partial (hlm : lm.Sound) (hv : o.ValidSequins)
    (h1 : o.maxStitch = some 127) (h2 : o.maxJump = some 127) (h3 : o.longStitch = 0xF1 ∨ o.longStitch = 0xF2)
    (hc : o.changeCommand = 9) (hs : o.sequin ≠ 0xF5)
    (hq : ∀ st ∈ source, st.low ≠ 0xD5 ∧ st.low ≠ 0xD6 ∧ st.low ≠ 0xF0 ∧ st.low ≠ 0xF5)
    (hsp : ∀ st ∈ source, st.low ≠ 11 ∧ st.low ≠ 12)
    (h : encode o lm threads source = .ok (out, ths)) (hn : ∀ a ∈ out, NeedleFits a.cmd) :
    ∃ f, write out = .ok f ∧ read f = view shows (place 0 0 (wdeltas 0 0 out)) := by
  obtain ⟨f, hf, hr⟩ := C13_exact hlm hv h1 h2 h3 hc hs hq h hn
  refine ⟨f, hf, ?_⟩
  rw [hr, seen_plain, place_viewRec]
  · exact hidden_still hv hs (fun st hst => (hq st hst).2.2.2) h
  · intro r hr
    obtain ⟨a, ha, e⟩ := wdeltas_cmd_mem hr
    have hk := (C21_kinds hv h a ha).2.2
    have el : a.low = r.cmd % 256 := by unfold Stitch.low; rw [e]
    rw [el] at hk
    constructor
    · intro hx
      obtain ⟨st, hst, hx⟩ := hk (.inl hx)
      have := hsp st hst; omega
    · intro hx
      obtain ⟨st, hst, hx⟩ := hk (.inr hx)
      have := hsp st hst; omega

/-- Needles fit if the needle count does and none is stated in the source. -/
theorem C13_needles (hv : o.ValidSequins) (hc : o.changeCommand = 9) (hl : 1 ≤ o.needleCount) (hl2 : o.needleCount ≤ 14)
    (h : encode o lm threads source = .ok (out, ths)) (hn : source.countP (fun st => st.low ∈ [5, 9, 226, 16]) ≤ 254)
    (hex : ∀ st ∈ source, ChangeLike st → (decodeCommand st.cmd).2.2.1 = none) : ∀ a ∈ out, NeedleFits a.cmd := by
  intro a ha h9
  obtain ⟨n, e, h1, h2⟩ := C31_needle_range_partial hv hc hl (by omega) h hn hex a ha h9
  by_cases h0 : a.cmd / 65536 % 256 = 0
  · unfold decodeCommand decField at e; simp [h0] at e
  · rw [needle_of _ h0] at e; injection e with e; omega

/-- Speed changes a U01 file can hold: never two pending, and the STITCH or JUMP that takes a pending one moves. -/
def Tame : Bool → List Rec → Prop
  | _, [] => True
  | pending, r :: rest =>
    if r.cmd % 256 = 11 ∨ r.cmd % 256 = 12 then pending = false ∧ Tame true rest
    else if r.cmd % 256 ≤ 1 then (pending = true → r.dx ≠ 0 ∨ r.dy ≠ 0) ∧ Tame false rest
    else Tame pending rest

/-- Everything but speeds. -/
def noSpeed (w : Int) : Option Int := if w % 256 = 11 ∨ w % 256 = 12 then none else some w

theorem seen_tame (rs : List Rec) (fast slow : Bool) (hb : ¬ (fast = true ∧ slow = true)) (h : Tame (fast || slow) rs) :
    viewRec noSpeed (seen fast slow rs) = viewRec shows rs := by
  induction rs generalizing fast slow with
  | nil => rfl
  | cons r rs ih =>
    have hv : viewRec shows (r :: rs) = ((shows r.cmd).map (fun c => ⟨r.dx, r.dy, c⟩)).toList ++ viewRec shows rs := by
      unfold viewRec
      rw [List.filterMap_cons]
      cases (shows r.cmd) <;> rfl
    rw [hv]
    unfold Tame at h
    unfold seen
    by_cases a : r.cmd % 256 = 11
    · rw [if_pos (.inl a)] at h
      have hp : fast = false ∧ slow = false := by simpa using h.1
      have : shows r.cmd = none := by unfold shows; rw [if_neg (by omega), if_neg (by omega)]
      rw [if_pos a, this, hp.1]
      exact ih false true (by simp) h.2
    by_cases b : r.cmd % 256 = 12
    · rw [if_pos (.inr b)] at h
      have hp : fast = false ∧ slow = false := by simpa using h.1
      have : shows r.cmd = none := by unfold shows; rw [if_neg (by omega), if_neg (by omega)]
      rw [if_neg a, if_pos b, this, hp.2]
      exact ih true false (by simp) h.2
    rw [if_neg (by omega)] at h
    rw [if_neg a, if_neg b]
    by_cases c : r.cmd % 256 ≤ 1
    · rw [if_pos c] at h
      have e1 : shows r.cmd = some (r.cmd % 256) := by unfold shows; rw [if_pos (by omega)]
      rw [if_pos c, e1, viewRec_append, ih false false (by simp) h.2]
      congr 1
      have e2 : noSpeed (r.cmd % 256) = some (r.cmd % 256) := by unfold noSpeed; rw [if_neg (by omega)]
      have e3 : viewRec noSpeed [⟨r.dx, r.dy, r.cmd % 256⟩] = [⟨r.dx, r.dy, r.cmd % 256⟩] := by
        simp [viewRec, e2]
      have e4 : ∀ k : Int, k = 11 ∨ k = 12 → viewRec noSpeed (⟨0, 0, k⟩ :: [⟨r.dx, r.dy, r.cmd % 256⟩]) =
          [⟨r.dx, r.dy, r.cmd % 256⟩] := by
        rintro k (rfl | rfl) <;> exact e3
      cases fast <;> cases slow
      · exact e3
      · simp only [Bool.false_eq_true, if_false, if_true]
        rw [if_pos (h.1 rfl)]; exact e4 11 (.inl rfl)
      · simp only [Bool.false_eq_true, if_false, if_true]
        rw [if_pos (h.1 rfl)]; exact e4 12 (.inr rfl)
      · exact absurd ⟨rfl, rfl⟩ hb
    · rw [if_neg c] at h
      rw [if_neg c, viewRec_append, ih fast slow hb h]
      congr 1
      unfold shows
      by_cases d : r.cmd % 256 ≤ 4
      · rw [if_pos d]
        have e2 : noSpeed (r.cmd % 256) = some (r.cmd % 256) := by unfold noSpeed; rw [if_neg (by omega)]
        simp [viewRec, e2]
      · rw [if_neg d]
        by_cases e : r.cmd % 256 = 9
        · rw [if_pos e]
          have e2 : noSpeed (9 + r.cmd / 65536 % 256 * 65536) = some (9 + r.cmd / 65536 % 256 * 65536) := by
            unfold noSpeed; rw [if_neg (by omega)]
          simp [viewRec, e2]
        · rw [if_neg e]; rfl

theorem seen_speed_still : ∀ (rs : List Rec) (fast slow : Bool), ∀ r ∈ seen fast slow rs, noSpeed r.cmd = none → r.dx = 0 ∧ r.dy = 0 := by
  intro rs
  induction rs with
  | nil => intro f s r hr; simp [seen] at hr
  | cons q rs ih =>
    intro fast slow r hr hn
    unfold seen at hr
    have hn' : r.cmd % 256 = 11 ∨ r.cmd % 256 = 12 := by
      unfold noSpeed at hn
      by_contra hh
      rw [if_neg hh] at hn; cases hn
    split_ifs at hr with h1 h2 h3 h4 h5 h6 h7 h8 h9
    all_goals first
      | exact ih _ _ r hr hn
      | (simp only [List.cons_append, List.nil_append, List.mem_cons] at hr
         rcases hr with hr | hr | hr
         · subst hr; exact ⟨rfl, rfl⟩
         · subst hr; simp only at hn'; omega
         · exact ih _ _ r hr hn)
      | (simp only [List.cons_append, List.nil_append, List.mem_cons] at hr
         rcases hr with hr | hr
         · subst hr; first | exact ⟨rfl, rfl⟩ | (simp only at hn'; omega)
         · exact ih _ _ r hr hn)
      | skip
    rcases List.mem_append.1 hr with hr | hr
    · exfalso
      unfold shows at hr
      split_ifs at hr with ha hb
      · simp at hr; subst hr; simp only at hn'; omega
      · simp at hr; subst hr; simp only at hn'; omega
      · simp at hr
    · exact ih _ _ r hr hn

/-- C13 with speeds: if the encoded speed changes are `Tame`, everything else is read back as in `C13_roundtrip_partial`. -/
theorem C13_speeds_partial (hlm : lm.Sound) (hv : o.ValidSequins)
    (h1 : o.maxStitch = some 127) (h2 : o.maxJump = some 127) (h3 : o.longStitch = 0xF1 ∨ o.longStitch = 0xF2)
    (hc : o.changeCommand = 9) (hs : o.sequin ≠ 0xF5)
    (hq : ∀ st ∈ source, st.low ≠ 0xD5 ∧ st.low ≠ 0xD6 ∧ st.low ≠ 0xF0 ∧ st.low ≠ 0xF5)
    (h : encode o lm threads source = .ok (out, ths)) (hn : ∀ a ∈ out, NeedleFits a.cmd)
    (ht : Tame false (wdeltas 0 0 out)) :
    ∃ f, write out = .ok f ∧ view noSpeed (read f) = view shows (place 0 0 (wdeltas 0 0 out)) := by
  obtain ⟨f, hf, hr⟩ := C13_exact hlm hv h1 h2 h3 hc hs hq h hn
  refine ⟨f, hf, ?_⟩
  rw [hr, ← place_viewRec, seen_tame _ false false (by simp) ht, place_viewRec]
  · exact hidden_still hv hs (fun st hst => (hq st hst).2.2.2) h
  · exact seen_speed_still _ _ _

/-- The U01 settings, `U01Writer.py` 4-9. -/
def settings : Settings where
  maxStitch := some 127
  maxJump := some 127
  threadChange := NEEDLE_SET
  sequinContingency := some CONTINGENCY_SEQUIN_JUMP

example : settings.ValidSequins ∧ settings.changeCommand = 9 ∧ settings.sequin ≠ 0xF5 :=
  ⟨fun v h => by injection h with h; subst h; exact .inr (.inl rfl), by decide, by decide⟩

/-- What is read back from the file of an example pattern. -/
def again (l : List Stitch) : List Stitch := (write (demoEncode settings l)).toOption.elim [] read

example : again demoPattern =
    [⟨0, 0, 131081⟩, ⟨0, 0, 0⟩, ⟨5, 3, 0⟩, ⟨5, 3, 2⟩, ⟨5, 3, 11⟩, ⟨-96, 3, 1⟩, ⟨-198, 3, 1⟩, ⟨-300, 3, 0⟩, ⟨-300, 3, 3⟩,
     ⟨-301, 4, 0⟩, ⟨-301, 4, 196617⟩, ⟨-301, -4, 0⟩, ⟨-301, -4, 4⟩] := by decide +kernel
example : Tame false (wdeltas 0 0 (demoEncode settings demoPattern)) := by
  have : wdeltas 0 0 (demoEncode settings demoPattern) = [⟨0, 0, 131337⟩, ⟨0, 0, 0⟩, ⟨5, 3, 0⟩, ⟨0, 0, 2⟩, ⟨0, 0, 11⟩,
      ⟨-101, 0, 1⟩, ⟨-102, 0, 1⟩, ⟨-102, 0, 0⟩, ⟨0, 0, 3⟩, ⟨-1, 1, 0⟩, ⟨0, 0, 197129⟩, ⟨0, -8, 0⟩, ⟨0, 0, 4⟩] := by decide +kernel
  rw [this]
  simp [Tame]

/-- The claim fails with speeds: a stitch that does not move after a FAST is lost. -/
theorem C13_fast_loses_stitch : again [⟨0, 0, 12⟩, ⟨0, 0, 0⟩, ⟨10, 0, 0⟩] =
    [⟨0, 0, 131081⟩, ⟨0, 0, 12⟩, ⟨10, 0, 0⟩, ⟨10, 0, 4⟩] := by decide +kernel

/-- The claim fails with speeds: a FAST and a SLOW turn the next stitch into a trim and a jump. -/
theorem C13_both_lose_stitch : again [⟨0, 0, 0⟩, ⟨0, 0, 12⟩, ⟨0, 0, 11⟩, ⟨10, 0, 0⟩] =
    [⟨0, 0, 131081⟩, ⟨0, 0, 0⟩, ⟨0, 0, 2⟩, ⟨10, 0, 1⟩, ⟨10, 0, 4⟩] := by decide +kernel

/-- Needle 0 is read as a stop and needle 15 as needle 1. -/
theorem C13_needle_range :
    again [⟨0, 0, encodeThreadChange 9 none (some 0) none⟩, ⟨0, 0, 0⟩, ⟨0, 0, encodeThreadChange 9 none (some 15) none⟩,
      ⟨5, 0, 0⟩] = [⟨0, 0, 3⟩, ⟨0, 0, 0⟩, ⟨0, 0, 131081⟩, ⟨5, 0, 0⟩, ⟨5, 0, 4⟩] := by decide +kernel

end U01
end Emb
