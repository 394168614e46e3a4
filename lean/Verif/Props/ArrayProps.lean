import Verif.Props.Commands

/-!
# Arrays of bytes (C02)
-/

namespace Emb

/-- **C02**: an array is written as one byte for each value, modulo 256 and in order, and values from -128 to 127 are recovered by `signed8`. -/
theorem C02_array (vs : List Int) (rest : Bytes) :
    (writeIntArray8 vs ++ rest).take vs.length = vs.map (· % 256) ∧ (writeIntArray8 vs ++ rest).drop vs.length = rest ∧
      ((∀ v ∈ vs, -128 ≤ v ∧ v ≤ 127) → (writeIntArray8 vs).map signed8 = vs) := by
  have h : writeIntArray8 vs = vs.map (· % 256) := by
    unfold writeIntArray8
    induction vs with
    | nil => rfl
    | cons v vs ih => rw [List.flatMap_cons, ih]; rfl
  refine ⟨?_, ?_, fun hv => ?_⟩
  · rw [h, List.take_left' (by simp)]
  · rw [h, List.drop_left' (by simp)]
  · rw [h, List.map_map]
    conv_rhs => rw [← List.map_id vs]
    exact List.map_congr_left fun v hm => (C02_signed_roundtrip v).1 (hv v hm)

example : writeIntArray8 [1, -1, 127, 300] = [1, 255, 127, 44] ∧ (writeIntArray8 [1, -1, -128]).map signed8 = [1, -1, -128] := by decide +kernel

end Emb
