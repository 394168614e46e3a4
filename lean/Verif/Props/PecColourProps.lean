import Verif.Props.PesDetailProps

/-!
# C118: the threads read from any PEC or PES file
-/

namespace Emb
namespace Pec

/-- The thread a colour byte stands for: number 1 to 64 of the Brother threads, starting again after 65; black if there is none. -/
def shadeOf (b : Int) : Thread := if b % 65 = 0 then { color := 0 } else (brother[(b % 65 - 1).toNat]?).getD { color := 0 }

namespace Colours

theorem shade_eq (b : Int) : added ((palette[(b % 65).toNat]?).getD none) = shadeOf b := by
  have h0 := Int.emod_nonneg b (show (65 : Int) ≠ 0 by decide)
  unfold shadeOf
  by_cases h : b % 65 = 0
  · rw [if_pos h, h]; rfl
  · rw [if_neg h]
    obtain ⟨k, hk⟩ : ∃ k : Nat, b % 65 = k + 1 := ⟨(b % 65 - 1).toNat, by omega⟩
    rw [hk, show ((k : Int) + 1).toNat = k + 1 by omega, show ((k : Int) + 1 - 1).toNat = k by omega]
    unfold palette
    rw [List.getElem?_cons_succ, List.getElem?_map]
    cases brother[k]? <;> rfl

/-- What is handed out for a number: the header's thread, or that of the palette. -/
def lot (chart : List Thread) (used : List Int) (c : Int) : Option Thread :=
  (chart[used.idxOf c]?).or ((palette[c.toNat]?).getD none)

theorem lot_append {chart : List Thread} {D E : List Int} {c : Int} (h : c ∈ D) : lot chart (D ++ E) c = lot chart D c := by
  unfold lot
  rw [List.idxOf_append, if_pos h]

theorem table (chart : List Thread) : ∀ (rest : Bytes) (D : List Int) (seen : List (Int × Option Thread)),
    (∀ c, (seen.find? (fun e => e.1 == c)).bind (·.2) = if c ∈ D then lot chart D c else none) →
    tableLoop seen (chart.drop D.length) rest = rest.map fun b => lot chart (D ++ ((rest.map (· % 65)).removeAll D).eraseDups) (b % 65)
  | [], _, _, _ => rfl
  | b :: rest, D, seen, hs => by
    rw [tableLoop.eq_def]
    simp only
    rw [hs (b % 65)]
    by_cases hb : b % 65 ∈ D
    · have hE : ((b :: rest).map (· % 65)).removeAll D = (rest.map (· % 65)).removeAll D := by
        rw [List.map_cons, List.cons_removeAll, if_neg]
        simpa using hb
      rw [if_pos hb, hE, List.map_cons, lot_append hb]
      cases hl : lot chart D (b % 65) with
      | some t =>
        simp only
        rw [table chart rest D seen hs]
      | none =>
        unfold lot at hl
        rw [Option.or_eq_none_iff] at hl
        have hlt := List.idxOf_lt_length_of_mem hb
        have hd : chart.drop D.length = [] := by
          rw [List.getElem?_eq_none_iff] at hl
          exact List.drop_eq_nil_iff.2 (by omega)
        rw [hd]
        simp only
        rw [hl.2]
        have := table chart rest D ((b % 65, none) :: seen) (fun c => by
          rw [List.find?_cons]
          by_cases hc : b % 65 = c
          · subst hc
            simp only [beq_self_eq_true, Option.bind_some, if_pos hb]
            unfold lot
            rw [hl.1, hl.2]; rfl
          · have : (b % 65 == c) = false := by simpa using hc
            simp only [this]
            exact hs c)
        rw [hd] at this
        rw [this]
    · have hE : ((b :: rest).map (· % 65)).removeAll D = b % 65 :: (rest.map (· % 65)).removeAll D := by
        rw [List.map_cons, List.cons_removeAll, if_pos]
        simpa using hb
      have hF : D ++ (((b :: rest).map (· % 65)).removeAll D).eraseDups
          = (D ++ [b % 65]) ++ ((rest.map (· % 65)).removeAll (D ++ [b % 65])).eraseDups := by
        rw [hE, List.eraseDups_cons, List.append_assoc]
        congr 3
        unfold List.removeAll
        rw [List.filter_filter]
        congr 1
        funext c
        simp only [List.elem_eq_contains, List.contains_eq_mem, List.mem_append, List.mem_singleton, Bool.decide_or, Bool.not_or]
        cases decide (c ∈ D) <;> simp [bne, beq_eq_decide]
      rw [if_neg hb, hF, List.map_cons, lot_append (show b % 65 ∈ D ++ [b % 65] by simp)]
      have key : ∀ t, t = lot chart (D ++ [b % 65]) (b % 65) →
          ∀ c, ((((b % 65, t) :: seen).find? (fun e => e.1 == c)).bind (·.2)) = if c ∈ D ++ [b % 65] then lot chart (D ++ [b % 65]) c else none := by
        intro t ht c
        rw [List.find?_cons]
        by_cases hc : b % 65 = c
        · subst hc
          simp only [beq_self_eq_true, Option.bind_some]
          rw [if_pos (by simp), ht]
        · have : (b % 65 == c) = false := by simpa using hc
          simp only [this]
          rw [hs c]
          have hc' : ¬ c = b % 65 := fun h => hc h.symm
          by_cases hd : c ∈ D
          · rw [if_pos hd, if_pos (by simp [hd]), lot_append hd]
          · rw [if_neg hd, if_neg (by simp [hd, hc'])]
      have hidx : (D ++ [b % 65]).idxOf (b % 65) = D.length := by
        rw [List.idxOf_append, if_neg hb, List.idxOf_cons_self]; simp
      simp only
      cases hd : chart.drop D.length with
      | nil =>
        have hl : lot chart (D ++ [b % 65]) (b % 65) = (palette[(b % 65).toNat]?).getD none := by
          unfold lot
          rw [hidx, List.getElem?_eq_none (List.drop_eq_nil_iff.1 hd)]; rfl
        simp only
        have := table chart rest (D ++ [b % 65]) _ (key _ hl.symm)
        rw [List.length_append, ← List.drop_drop, hd, List.drop_nil] at this
        rw [this, hl]
      | cons t chart' =>
        have ht : chart[D.length]? = some t := by
          have := congrArg (fun l : List Thread => l[0]?) hd
          simpa [List.getElem?_drop] using this
        have hl : lot chart (D ++ [b % 65]) (b % 65) = some t := by
          unfold lot
          rw [hidx, ht]; rfl
        simp only
        have := table chart rest (D ++ [b % 65]) _ (key _ hl.symm)
        rw [List.length_append, ← List.drop_drop, hd] at this
        rw [show [b % 65].length = 1 from rfl, List.drop_one, List.tail_cons] at this
        rw [this, hl]

end Colours

open Colours

/-- **C118**: the threads that are read, for any bytes: without threads from a PES header, each colour byte gives its Brother thread;
with at least as many of them as there are colour bytes, those of the header as they are; with fewer, equal numbers get the same thread,
and the numbers in order of their first appearance get the header's threads and after these are used up those of the palette. The
number of changes is the byte at 48, and the colour bytes follow. -/
theorem C118_threads {chart : List Thread} {f : Bytes} {d : Design} (h : readPattern chart f = .ok d) :
    ∃ n, f[48]? = some n ∧ ∀ colours, colours = (f.drop 49).take (n + 1).toNat →
      (chart = [] → d.threads = colours.map shadeOf) ∧
      (chart ≠ [] → colours.length ≤ chart.length → d.threads = chart) ∧
      (chart.length < colours.length →
        d.threads = colours.map fun b => (chart[((colours.map (· % 65)).eraseDups).idxOf (b % 65)]?).getD (shadeOf b)) := by
  unfold readPattern at h
  cases hr : read f with
  | error e => rw [hr] at h; cases h
  | ok found =>
    rw [hr] at h
    simp only at h
    split at h
    · cases h
    · injection h with h
      have hd : d.threads = (mapColors chart found.colors).map added := by rw [← h]
      have hcol : ∃ n, f[48]? = some n ∧ found.colors = (f.drop 49).take (n + 1).toNat := by
        unfold read at hr
        split at hr
        · rename_i stride height changes e1 e2 e3
          simp only at hr
          split at hr
          · cases hr
          · injection hr with hr
            refine ⟨changes, ?_, by rw [← hr]⟩
            unfold readInt8 readN at e3
            cases hdr : f.drop 48 with
            | nil => rw [hdr] at e3; simp at e3
            | cons c rest =>
              rw [hdr] at e3
              simp only [List.take_succ_cons, List.take_zero, Option.some.injEq] at e3
              have := congrArg (fun l : List Int => l[0]?) hdr
              rw [← e3]
              simpa [List.getElem?_drop] using this
        · cases hr
      obtain ⟨n, hn, hc⟩ := hcol
      refine ⟨n, hn, fun colours hcs => ?_⟩
      rw [← hc] at hcs
      subst hcs
      refine ⟨fun h0 => ?_, fun h0 h1 => ?_, fun h1 => ?_⟩
      · rw [hd]
        unfold mapColors
        rw [if_pos h0, List.map_map]
        exact List.map_congr_left fun b _ => shade_eq b
      · rw [hd]
        unfold mapColors
        rw [if_neg h0, if_pos h1, List.map_map]
        exact List.map_id' _
      · rw [hd]
        unfold mapColors
        by_cases h0 : chart = []
        · subst h0
          rw [if_pos rfl, List.map_map]
          exact List.map_congr_left fun b _ => by simpa using shade_eq b
        · rw [if_neg h0, if_neg (by omega)]
          have := table chart found.colors [] [] (fun c => by simp)
          rw [List.length_nil, List.drop_zero] at this
          rw [this, List.map_map]
          refine List.map_congr_left fun b _ => ?_
          have he : (found.colors.map (· % 65)).removeAll [] = found.colors.map (· % 65) := by simp [List.removeAll]
          simp only [Function.comp_apply, he, List.nil_append]
          rw [← shade_eq b]
          unfold lot
          cases chart[((found.colors.map (· % 65)).eraseDups).idxOf (b % 65)]? <;> rfl

/-! Beside it: five colour bytes for three numbers with two threads in the header; the third number is that of a Brother thread; a zero
is black. -/

example : (mapColors [{ color := 0xABCDEF }, { color := 0x123456 }] [5, 70, 1, 5, 7, 0]).map (fun t => (added t).color)
    = [0xABCDEF, 0xABCDEF, 0x123456, 0xABCDEF, 0x913697, 0] := by decide +kernel

end Pec
end Emb
