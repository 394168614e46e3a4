import Verif.Listing
import Verif.Props.Commands
import Mathlib.Algebra.BigOperators.Group.Finset.Basic
import Mathlib.Algebra.BigOperators.Ring.Finset

/-!
# C136: get_as_stitches lists everything, and the counts are those of the list
-/

namespace Emb
namespace Listing

theorem listFrom_get : ∀ (l : List Stitch) (p i : Nat), (listFrom p l)[i]? =
    l[i]?.map (fun st => ⟨p + i, st.x, st.y, (decodeCommand st.cmd).1, (decodeCommand st.cmd).2.1, (decodeCommand st.cmd).2.2.1, (decodeCommand st.cmd).2.2.2⟩)
  | [], _, _ => by simp [listFrom]
  | st :: l, p, 0 => by simp [listFrom]
  | st :: l, p, i + 1 => by
    simp only [listFrom, List.getElem?_cons_succ, listFrom_get l (p + 1) i]
    congr 1
    funext st
    rw [Nat.add_right_comm, Nat.add_assoc]

theorem listFrom_map {α : Type} (f : Entry → α) (g : Stitch → α)
    (h : ∀ p (st : Stitch), f ⟨p, st.x, st.y, (decodeCommand st.cmd).1, (decodeCommand st.cmd).2.1, (decodeCommand st.cmd).2.2.1, (decodeCommand st.cmd).2.2.2⟩ = g st) :
    ∀ (l : List Stitch) (p : Nat), (listFrom p l).map f = l.map g
  | [], _ => rfl
  | st :: l, p => by
    simp only [listFrom, List.map_cons, h]
    rw [listFrom_map f g h l (p + 1)]

/-- A field that was decoded is encoded as the byte it was. -/
theorem encField_decField {b : Int} (h : 0 ≤ b ∧ b < 256) : (encField (decField b) : Int) = b := by
  unfold decField
  split_ifs with h1
  · simp only [encField]; omega
  · simp only [encField]; omega

/-- Encoding what was decoded of a word of four bytes gives the word. -/
theorem encode_decode {w : Int} (h : 0 ≤ w ∧ w < 4294967296) :
    encodeThreadChange (decodeCommand w).1 (decodeCommand w).2.1 (decodeCommand w).2.2.1 (decodeCommand w).2.2.2 = w := by
  have ht := encField_decField (b := w / 256 % 256) (by omega)
  have hn := encField_decField (b := w / 65536 % 256) (by omega)
  have ho := encField_decField (b := w / 16777216 % 256) (by omega)
  unfold encodeThreadChange decodeCommand
  dsimp only
  rw [encode_arith (by omega) (by omega) (by omega)]
  push_cast
  rw [ht, hn, ho]
  omega

/-- **C136**: there is one entry for each command, in order: its number, where it is, and what its word says. -/
theorem C136_listed (l : List Stitch) : (asStitches l).length = l.length ∧
    ∀ (i : Nat) (st : Stitch), l[i]? = some st → ∃ e, (asStitches l)[i]? = some e ∧ e.pos = i ∧ (e.x, e.y) = (st.x, st.y) ∧ (e.command, e.thread, e.needle, e.order) = decodeCommand st.cmd := by
  constructor
  · have := congrArg List.length (listFrom_map (fun _ => ()) (fun _ => ()) (fun _ _ => rfl) l 0)
    simpa [asStitches] using this
  · intro i st h
    refine ⟨_, by rw [asStitches, listFrom_get, h]; rfl, ?_, rfl, rfl⟩
    simp

/-- **C136**: nothing is lost: the commands encoded from the list are the commands of the pattern. -/
theorem C136_restored (l : List Stitch) (h : ∀ st ∈ l, 0 ≤ st.cmd ∧ st.cmd < 2 ^ 32) :
    (asStitches l).map (fun e => (⟨e.x, e.y, encodeThreadChange e.command e.thread e.needle e.order⟩ : Stitch)) = l := by
  unfold asStitches
  rw [listFrom_map _ (fun st => (⟨st.x, st.y, encodeThreadChange (decodeCommand st.cmd).1 (decodeCommand st.cmd).2.1 (decodeCommand st.cmd).2.2.1 (decodeCommand st.cmd).2.2.2⟩ : Stitch)) (fun _ _ => rfl)]
  conv_rhs => rw [← List.map_id l]
  refine List.map_congr_left fun st hst => ?_
  rw [encode_decode (by have := h st hst; omega)]
  rfl

/-- **C136**: `count_stitch_commands` counts the entries with that command (so `count_color_changes` and `count_needle_sets`), and the counts of all commands add up to `count_stitches`. -/
theorem C136_counts (l : List Stitch) : (∀ c, countCommands l c = ((asStitches l).filter (fun e => e.command = c)).length) ∧
    ∑ c ∈ Finset.range 256, countCommands l (c : Int) = l.length := by
  constructor
  · intro c
    have h := listFrom_map (fun e => e.command) (fun st => cmdOf st.cmd) (fun _ _ => rfl) l 0
    unfold countCommands asStitches
    have h1 : l.countP (fun st => cmdOf st.cmd == c) = (l.map (fun st => cmdOf st.cmd)).countP (· == c) := by rw [List.countP_map]; rfl
    rw [h1, ← h, List.countP_map, List.countP_eq_length_filter]
    rfl
  · induction l with
    | nil => simp [countCommands]
    | cons st l ih =>
      have e : ∀ c : Int, countCommands (st :: l) c = countCommands l c + if cmdOf st.cmd = c then 1 else 0 := by
        intro c
        simp [countCommands, List.countP_cons]
      simp only [e]
      have hr : 0 ≤ cmdOf st.cmd ∧ cmdOf st.cmd < 256 := by unfold cmdOf; omega
      have h1 : ∑ c ∈ Finset.range 256, (if cmdOf st.cmd = (c : Int) then 1 else 0) = 1 := by
        rw [Finset.sum_eq_single (cmdOf st.cmd).toNat]
        · rw [if_pos (by omega)]
        · intro b _ hb
          rw [if_neg (by omega)]
        · intro hm
          exact absurd (Finset.mem_range.2 (by omega)) hm
      rw [Finset.sum_add_distrib, ih, h1, List.length_cons]

-- a stitch, the change to thread 3 with needle 2, and a stitch
example : asStitches [⟨1, 2, 0⟩, ⟨1, 2, encodeThreadChange 5 (some 3) (some 2) none⟩, ⟨4, 4, 0⟩] =
    [⟨0, 1, 2, 0, none, none, none⟩, ⟨1, 1, 2, 5, some 3, some 2, none⟩, ⟨2, 4, 4, 0, none, none, none⟩] := by decide +kernel
example : countCommands [⟨1, 2, 0⟩, ⟨1, 2, encodeThreadChange 5 (some 3) (some 2) none⟩, ⟨4, 4, 0⟩] 5 = 1 := by decide +kernel

end Listing
end Emb
