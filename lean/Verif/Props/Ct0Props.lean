import Verif.Ct0
import Verif.Props.TbfProps

/-!
# Property C112: the CT0 file beside a TBF file
-/

namespace Emb
namespace Ct0

open U01 (bind_of)

/-- The needles of the needle changes (command 9; the needle is the third byte less one). -/
def needlesOf (l : List Stitch) : List Int :=
  (l.filter (fun a => a.cmd % 256 == 9)).map (fun a => a.cmd / 65536 % 256 - 1)

theorem needles_eq (l : List Stitch) (h : ∀ a ∈ l, a.cmd % 256 = 9 → a.cmd / 65536 % 256 ≠ 0) :
    Tbf.needles l = (needlesOf l).map some := by
  unfold Tbf.needles needlesOf
  rw [List.map_map]
  apply List.map_congr_left
  intro a ha
  obtain ⟨h1, h2⟩ := List.mem_filter.1 ha
  exact U01.needle_of _ (h a h1 (by simpa [cmdOf, NEEDLE_SET] using h2))

theorem pairs_some (v : List Int) : pairs (v.map some) = .ok (v.flatMap (fun n => [(n + 48) % 256, 0x31])) := by
  induction v with
  | nil => rfl
  | cons n v ih =>
    rw [List.map_cons, pairs, bind_of ih]
    rfl

theorem flat_length (v : List Int) : (v.flatMap (fun n => [(n + 48) % 256, 0x31])).length = 2 * v.length := by
  induction v with
  | nil => rfl
  | cons n v ih => rw [List.flatMap_cons, List.length_append, ih]; simp; omega

theorem flat_get (v : List Int) (k : Nat) (n : Int) (h : v[k]? = some n) :
    (v.flatMap (fun n => [(n + 48) % 256, 0x31]))[2 * k]? = some ((n + 48) % 256) ∧
    (v.flatMap (fun n => [(n + 48) % 256, 0x31]))[2 * k + 1]? = some 0x31 := by
  induction v generalizing k with
  | nil => simp at h
  | cons m v ih =>
    cases k with
    | zero => simp at h; subst h; simp
    | succ k =>
      have := ih k (by simpa using h)
      rw [show 2 * (k + 1) = 2 * k + 1 + 1 by omega]
      simpa using this

theorem head_length : head.length = 0x10E := by decide +kernel
theorem textRP_length : textRP.length = 65 := by decide +kernel
theorem textST_length : textST.length = 79 := by decide +kernel
theorem textNS_length : textNS.length = 5 := by decide +kernel

theorem write_eq (l : List Stitch) (h : ∀ a ∈ l, a.cmd % 256 = 9 → a.cmd / 65536 % 256 ≠ 0) :
    write l = .ok (file ((needlesOf l).flatMap (fun n => [(n + 48) % 256, 0x31])) (needlesOf l).length) := by
  unfold write
  rw [needles_eq l h, bind_of (pairs_some _), List.length_map]

/-- The layout of the file for at most 255 needle changes: every part at a fixed place. -/
theorem file_layout (p : Bytes) (n : Nat) (hp : p.length = 2 * n) (hn : n ≤ 255) :
    file p n = head ++ p ++ List.replicate (511 - 2 * n) 0x20 ++ textRP ++ List.replicate 230 0x20 ++ textST ++
      List.replicate n 0x30 ++ List.replicate (256 - n) 0x20 ++ textNS ++ List.replicate 496 0x20 ++ [13, 26] ++
      List.replicate 22 0x20 := by
  have e : utf8 "\r\x1a".toList = [13, 26] := by decide +kernel
  unfold file pad
  simp only [List.length_append, List.length_replicate, head_length, textRP_length, textST_length, textNS_length, hp, e,
    List.length_cons, List.length_nil, List.append_assoc]
  rw [show 0x30D - (270 + 2 * n) = 511 - 2 * n by omega]
  rw [show 0x434 - (270 + (2 * n + (511 - 2 * n + 65))) = 230 by omega]
  rw [show 0x583 - (270 + (2 * n + (511 - 2 * n + (65 + (230 + (79 + n)))))) = 256 - n by omega]
  rw [show 0x778 - (270 + (2 * n + (511 - 2 * n + (65 + (230 + (79 + (n + (256 - n + 5)))))))) = 496 by omega]
  rw [show 0x790 - (270 + (2 * n + (511 - 2 * n + (65 + (230 + (79 + (n + (256 - n + (5 + (496 + (0 + 1 + 1))))))))))) = 22 by omega]

theorem drop_at {A B : Bytes} {n : Nat} (h : A.length = n) : (A ++ B).drop n = B := by
  subst h; exact List.drop_left

theorem get_at {A B : Bytes} {n : Nat} (h : A.length = n) (k : Nat) : (A ++ B)[n + k]? = B[k]? := by
  subst h; rw [List.getElem?_append_right (by omega), Nat.add_sub_cancel_left]

/-- C112: of every design with at most 255 needle changes, all with a needle, the CT0 file is 0x790 bytes long. The needle of
change number `k` is at 0x10E + 2 `k` as a digit ("0" for needle 0), followed by "1"; at 0x483 + `k` there is a "0"; the other
fields begin at 0x30D, 0x434, 0x583 and 0x778, and what the needles leave free is blank. Partial: 256 changes and more, and changes
without a needle (`C112_overrun`, `C112_without_needle`). -/
theorem C112_layout_partial (l : List Stitch) (h : ∀ a ∈ l, a.cmd % 256 = 9 → a.cmd / 65536 % 256 ≠ 0)
    (hc : l.countP (fun a => a.cmd % 256 == 9) ≤ 255) :
    ∃ f, write l = .ok f ∧ f.length = 0x790 ∧
      (∀ k n, (needlesOf l)[k]? = some n →
        f[0x10E + 2 * k]? = some ((n + 48) % 256) ∧ f[0x10E + 2 * k + 1]? = some 0x31 ∧ f[0x483 + k]? = some 0x30) ∧
      (∀ i, 0x10E + 2 * (needlesOf l).length ≤ i → i < 0x30D → f[i]? = some 0x20) ∧
      (∀ i, 0x483 + (needlesOf l).length ≤ i → i < 0x583 → f[i]? = some 0x20) ∧
      textRP <+: f.drop 0x30D ∧ textST <+: f.drop 0x434 ∧ textNS <+: f.drop 0x583 ∧ [13, 26] <+: f.drop 0x778 := by
  have hl : (needlesOf l).length ≤ 255 := by
    unfold needlesOf; rw [List.length_map, ← List.countP_eq_length_filter]; exact hc
  refine ⟨_, write_eq l h, ?_⟩
  have hp := flat_length (needlesOf l)
  have hg := flat_get (needlesOf l)
  generalize (needlesOf l).flatMap (fun n => [(n + 48) % 256, 0x31]) = p at hp hg
  generalize hv : needlesOf l = v at *
  have hH := head_length
  have h1 := textRP_length
  have h2 := textST_length
  have h3 := textNS_length
  rw [file_layout p v.length hp hl]
  generalize hF : head ++ p ++ List.replicate (511 - 2 * v.length) 0x20 ++ textRP ++ List.replicate 230 0x20 ++ textST ++
      List.replicate v.length 0x30 ++ List.replicate (256 - v.length) 0x20 ++ textNS ++ List.replicate 496 0x20 ++ [13, 26] ++
      List.replicate 22 0x20 = F
  have s2 : ∃ pre post : Bytes, pre.length = 0x10E + 2 * v.length ∧ F = pre ++ (List.replicate (511 - 2 * v.length) 0x20 ++ post) := by
    refine ⟨head ++ p, textRP ++ List.replicate 230 0x20 ++ textST ++ List.replicate v.length 0x30 ++ List.replicate (256 - v.length) 0x20 ++ textNS ++ List.replicate 496 0x20 ++ [13, 26] ++ List.replicate 22 0x20, ?_, ?_⟩
    · simp only [List.length_append, hH, hp]
    · rw [← hF]; simp only [List.append_assoc]
  have s3 : ∃ pre post : Bytes, pre.length = 0x30D ∧ F = pre ++ (textRP ++ post) := by
    refine ⟨head ++ p ++ List.replicate (511 - 2 * v.length) 0x20, List.replicate 230 0x20 ++ textST ++ List.replicate v.length 0x30 ++ List.replicate (256 - v.length) 0x20 ++ textNS ++ List.replicate 496 0x20 ++ [13, 26] ++ List.replicate 22 0x20, ?_, ?_⟩
    · simp only [List.length_append, List.length_replicate, hH, h1, h2, h3, hp]
      omega
    · rw [← hF]; simp only [List.append_assoc]
  have s5 : ∃ pre post : Bytes, pre.length = 0x434 ∧ F = pre ++ (textST ++ post) := by
    refine ⟨head ++ p ++ List.replicate (511 - 2 * v.length) 0x20 ++ textRP ++ List.replicate 230 0x20, List.replicate v.length 0x30 ++ List.replicate (256 - v.length) 0x20 ++ textNS ++ List.replicate 496 0x20 ++ [13, 26] ++ List.replicate 22 0x20, ?_, ?_⟩
    · simp only [List.length_append, List.length_replicate, hH, h1, h2, h3, hp]
      omega
    · rw [← hF]; simp only [List.append_assoc]
  have s6 : ∃ pre post : Bytes, pre.length = 0x483 ∧ F = pre ++ (List.replicate v.length 0x30 ++ post) := by
    refine ⟨head ++ p ++ List.replicate (511 - 2 * v.length) 0x20 ++ textRP ++ List.replicate 230 0x20 ++ textST, List.replicate (256 - v.length) 0x20 ++ textNS ++ List.replicate 496 0x20 ++ [13, 26] ++ List.replicate 22 0x20, ?_, ?_⟩
    · simp only [List.length_append, List.length_replicate, hH, h1, h2, h3, hp]
      omega
    · rw [← hF]; simp only [List.append_assoc]
  have s7 : ∃ pre post : Bytes, pre.length = 0x483 + v.length ∧ F = pre ++ (List.replicate (256 - v.length) 0x20 ++ post) := by
    refine ⟨head ++ p ++ List.replicate (511 - 2 * v.length) 0x20 ++ textRP ++ List.replicate 230 0x20 ++ textST ++ List.replicate v.length 0x30, textNS ++ List.replicate 496 0x20 ++ [13, 26] ++ List.replicate 22 0x20, ?_, ?_⟩
    · simp only [List.length_append, List.length_replicate, hH, h1, h2, h3, hp]
      omega
    · rw [← hF]; simp only [List.append_assoc]
  have s8 : ∃ pre post : Bytes, pre.length = 0x583 ∧ F = pre ++ (textNS ++ post) := by
    refine ⟨head ++ p ++ List.replicate (511 - 2 * v.length) 0x20 ++ textRP ++ List.replicate 230 0x20 ++ textST ++ List.replicate v.length 0x30 ++ List.replicate (256 - v.length) 0x20, List.replicate 496 0x20 ++ [13, 26] ++ List.replicate 22 0x20, ?_, ?_⟩
    · simp only [List.length_append, List.length_replicate, hH, h1, h2, h3, hp]
      omega
    · rw [← hF]; simp only [List.append_assoc]
  have s10 : ∃ pre post : Bytes, pre.length = 0x778 ∧ F = pre ++ ([13, 26] ++ post) := by
    refine ⟨head ++ p ++ List.replicate (511 - 2 * v.length) 0x20 ++ textRP ++ List.replicate 230 0x20 ++ textST ++ List.replicate v.length 0x30 ++ List.replicate (256 - v.length) 0x20 ++ textNS ++ List.replicate 496 0x20, List.replicate 22 0x20, ?_, ?_⟩
    · simp only [List.length_append, List.length_replicate, hH, h1, h2, h3, hp]
      omega
    · rw [← hF]; simp only [List.append_assoc]
  have s1 : F = head ++ (p ++ F.drop (0x10E + 2 * v.length)) := by
    obtain ⟨pre, post, e1, e2⟩ := s2
    rw [← hF]
    simp only [List.append_assoc]
    congr 2
    rw [← List.append_assoc head, drop_at]
    rw [List.length_append, hH, hp]
  have pre : ∀ (n : Nat) (seg : Bytes), (∃ pre post : Bytes, pre.length = n ∧ F = pre ++ (seg ++ post)) → seg <+: F.drop n := by
    rintro n seg ⟨a, b, e1, e2⟩
    rw [e2, drop_at e1]; exact List.prefix_append _ _
  have rep : ∀ (n m : Nat) (c : Int), (∃ pre post : Bytes, pre.length = n ∧ F = pre ++ (List.replicate m c ++ post)) →
      ∀ k, k < m → F[n + k]? = some c := by
    rintro n m c ⟨a, b, e1, e2⟩ k hk
    rw [e2, get_at e1, List.getElem?_append_left (by rw [List.length_replicate]; exact hk), List.getElem?_replicate, if_pos hk]
  refine ⟨?_, ?_, ?_, ?_, pre _ _ s3, pre _ _ s5, pre _ _ s8, pre _ _ s10⟩
  · rw [← hF]
    simp only [List.length_append, List.length_replicate, hH, h1, h2, h3, hp, List.length_cons, List.length_nil]
    omega
  · intro k n hk
    have hkl : k < v.length := by
      by_contra c
      rw [List.getElem?_eq_none (by omega)] at hk
      cases hk
    obtain ⟨g1, g2⟩ := hg k n hk
    refine ⟨?_, ?_, rep _ _ _ s6 k hkl⟩
    · rw [s1, get_at hH, List.getElem?_append_left (by omega)]; exact g1
    · rw [s1, add_assoc, get_at hH, List.getElem?_append_left (by omega)]; exact g2
  · intro i h1 h2
    have := rep _ _ _ s2 (i - (0x10E + 2 * v.length)) (by omega)
    rwa [show 0x10E + 2 * v.length + (i - (0x10E + 2 * v.length)) = i by omega] at this
  · intro i h1 h2
    have := rep _ _ _ s7 (i - (0x483 + v.length)) (by omega)
    rwa [show 0x483 + v.length + (i - (0x483 + v.length)) = i by omega] at this

/-- The file reaches 0x30D with the needles alone if there are 256 or more: where the field `RP0` begins there is a "1". -/
theorem C112_overrun (l : List Stitch) (h : ∀ a ∈ l, a.cmd % 256 = 9 → a.cmd / 65536 % 256 ≠ 0)
    (hc : 256 ≤ l.countP (fun a => a.cmd % 256 == 9)) :
    ∃ f, write l = .ok f ∧ f[0x30D]? = some 0x31 := by
  have hl : 256 ≤ (needlesOf l).length := by
    unfold needlesOf; rw [List.length_map, ← List.countP_eq_length_filter]; exact hc
  refine ⟨_, write_eq l h, ?_⟩
  have hp := flat_length (needlesOf l)
  obtain ⟨n, hn⟩ : ∃ n, (needlesOf l)[255]? = some n := ⟨_, List.getElem?_eq_getElem (by omega)⟩
  have hg := (flat_get (needlesOf l) 255 n hn).2
  unfold file pad
  simp only [List.append_assoc]
  rw [show 0x30D = 0x10E + (2 * 255 + 1) from rfl, get_at head_length, List.getElem?_append_left (by omega)]
  exact hg

theorem pairs_none (v : List (Option Int)) (h : none ∈ v) : pairs v = .error .typeError := by
  induction v with
  | nil => simp at h
  | cons a v ih =>
    cases a with
    | none => rfl
    | some n =>
      have hm : none ∈ v := by simpa using h
      rw [pairs, ih hm]; rfl

/-- A needle change without a needle fails with a `TypeError`, and then there is no TBF file either. -/
theorem C112_without_needle (name tp : Str) (threads : List Thread) (l : List Stitch) (a : Stitch) (ha : a ∈ l)
    (h9 : a.cmd % 256 = 9) (h0 : a.cmd / 65536 % 256 = 0) :
    writeBoth name tp threads l = (.error .typeError, .error .typeError) := by
  have hm : none ∈ Tbf.needles l := by
    unfold Tbf.needles
    rw [List.mem_map]
    refine ⟨a, List.mem_filter.2 ⟨ha, by simp [cmdOf, h9, NEEDLE_SET]⟩, ?_⟩
    unfold decodeCommand decField
    simp only
    rw [if_pos (by omega)]
  have : write l = .error .typeError := by unfold write; rw [pairs_none _ hm]; rfl
  unfold writeBoth
  rw [this]

/-- The two files agree: of a design that fits the TBF header, with at most 255 needle changes, the needle at 0x10A + `k` of the
TBF file is the one at 0x10E + 2 `k` of the CT0 file (less 48). -/
theorem C112_agree_partial {name tp : Str} {threads : List Thread} {l : List Stitch} (hf : Tbf.Fits name tp threads l)
    (h : ∀ a ∈ l, a.cmd % 256 = 9 → a.cmd / 65536 % 256 ≠ 0) (hc : l.countP (fun a => a.cmd % 256 == 9) ≤ 255) (hne : l ≠ []) :
    ∃ f g, writeBoth name tp threads l = (.ok f, .ok g) ∧
      ∀ k, k < l.countP (fun a => a.cmd % 256 == 9) → ∃ n, g[0x10A + k]? = some n ∧ f[0x10E + 2 * k]? = some ((n + 48) % 256) := by
  have hv := needles_eq l h
  have hl : (needlesOf l).length = l.countP (fun a => a.cmd % 256 == 9) := by
    unfold needlesOf; rw [List.length_map, ← List.countP_eq_length_filter]
  have hb : ∀ v ∈ needlesOf l, IsByte v := by
    intro v hv
    unfold needlesOf at hv
    obtain ⟨a, ha, rfl⟩ := List.mem_map.1 hv
    obtain ⟨h1, h2⟩ := List.mem_filter.1 ha
    have := h a h1 (by simpa using h2)
    unfold IsByte
    omega
  have hnb := Tbf.needleBytes_ok _ _ hv hb
  have hlen : (Tbf.needles l).length = (needlesOf l).length := by rw [hv, List.length_map]
  have horder : Tbf.orderBytes l = .ok (needlesOf l ++ List.replicate (0x100 - (needlesOf l).length) 0) := by
    unfold Tbf.orderBytes
    rw [if_neg (by omega), bind_of hnb, hlen]
  obtain ⟨f, hw, -, hf1, -⟩ := C112_layout_partial l h hc
  obtain ⟨b, hbd, ht⟩ := C43_tight l hne
  obtain ⟨last, hlast⟩ : ∃ e, l.getLast? = some e := ⟨_, List.getLast?_eq_getLast_of_ne_nil hne⟩
  have hmem : last ∈ l := List.mem_of_getLast? hlast
  have hT : Tbf.write name tp threads l = .ok (Tbf.header name tp threads l b last
      (needlesOf l ++ List.replicate (0x100 - (needlesOf l).length) 0) ++ Tbf.writeRecs (wdeltas 0 0 l)) := by
    unfold Tbf.write
    rw [hbd, hlast]
    simp only
    rw [bind_of horder]
  have holen : (needlesOf l ++ List.replicate (0x100 - (needlesOf l).length) (0 : Int)).length = 0x100 := by
    rw [List.length_append, List.length_replicate]; omega
  obtain ⟨c1, -, c3, -⟩ := Tbf.C66_tbf_partial hf b ht last hmem _ holen
  refine ⟨f, _, by unfold writeBoth; rw [hw, hT], ?_⟩
  intro k hk
  obtain ⟨n, hn⟩ : ∃ n, (needlesOf l)[k]? = some n := ⟨_, List.getElem?_eq_getElem (by omega)⟩
  refine ⟨n, ?_, (hf1 k n hn).1⟩
  rw [List.getElem?_append_left (by omega)]
  have := congrArg (fun z : Bytes => z[k]?) c3
  beta_reduce at this
  rw [List.getElem?_take_of_lt (by omega), List.getElem?_drop, List.getElem?_append_left (by omega)] at this
  rw [this, hn]

/-- With 257 needle changes or more the CT0 file is written and the TBF file is not (`IndexError`). -/
theorem C112_half (name tp : Str) (threads : List Thread) (l : List Stitch)
    (h : ∀ a ∈ l, a.cmd % 256 = 9 → a.cmd / 65536 % 256 ≠ 0) (hc : 257 ≤ l.countP (fun a => a.cmd % 256 == 9)) :
    ∃ f, writeBoth name tp threads l = (.ok f, .error .indexError) := by
  have hv := needles_eq l h
  have hl : (needlesOf l).length = l.countP (fun a => a.cmd % 256 == 9) := by
    unfold needlesOf; rw [List.length_map, ← List.countP_eq_length_filter]
  have hlen : (Tbf.needles l).length = (needlesOf l).length := by rw [hv, List.length_map]
  have hne : l ≠ [] := by rintro rfl; simp at hc
  obtain ⟨b, hbd, -⟩ := C43_tight l hne
  obtain ⟨last, hlast⟩ : ∃ e, l.getLast? = some e := ⟨_, List.getLast?_eq_getLast_of_ne_nil hne⟩
  have hw := write_eq l h
  generalize file _ _ = f at hw
  refine ⟨f, ?_⟩
  unfold writeBoth
  rw [hw]
  simp only [Prod.mk.injEq, true_and]
  unfold Tbf.write Tbf.orderBytes
  rw [hbd, hlast]
  simp only
  rw [if_pos (by omega)]
  rfl

/-! ## Examples -/

/-- Two needle changes, to needles 3 and 1, around a few stitches. -/
def sample : List Stitch := [⟨0, 0, encodeThreadChange 9 none (some 3) none⟩, ⟨0, 0, 0⟩, ⟨5, 3, 0⟩,
  ⟨5, 3, encodeThreadChange 9 none (some 1) none⟩, ⟨7, 3, 0⟩, ⟨7, 3, 4⟩]

example : (∀ a ∈ sample, a.cmd % 256 = 9 → a.cmd / 65536 % 256 ≠ 0) ∧ sample.countP (fun a => a.cmd % 256 == 9) = 2 ∧
    needlesOf sample = [3, 1] ∧ Tbf.Fits "ab".toList "EG/".toList [] sample :=
  ⟨by decide +kernel, by decide +kernel, by decide +kernel,
   ⟨by decide, by decide, by decide, by decide, by decide, by decide, by decide +kernel, by decide +kernel⟩⟩

example : (write sample).toOption.map (fun f => (f.drop 0x10C).take 10) = some (utf8 "11".toList ++ utf8 "3111".toList ++ [32, 32, 32, 32]) := by
  decide +kernel

/-- A design with 300 needle changes. -/
example : ∃ l : List Stitch, (∀ a ∈ l, a.cmd % 256 = 9 → a.cmd / 65536 % 256 ≠ 0) ∧ 257 ≤ l.countP (fun a => a.cmd % 256 == 9) :=
  ⟨List.replicate 300 ⟨0, 0, 9 + 2 * 65536⟩, fun a ha _ => by rw [List.eq_of_mem_replicate ha]; decide, by rw [List.countP_replicate]; decide⟩

end Ct0
end Emb
