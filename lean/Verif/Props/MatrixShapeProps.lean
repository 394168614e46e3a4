import Verif.Props.MatrixProps

/-!
# Which matrices act on points (C35, C36)
-/

namespace Emb

/-- **C36**: products and inverses of affine matrices are affine. -/
theorem C36_affine (a b : Mat) (ha : a.Affine) (hb : b.Affine) : (Mat.multiply a b).Affine ∧ ∀ n, a.inverse = .ok n → n.Affine := by
  obtain ⟨a2, a5, a8⟩ := ha
  obtain ⟨b2, b5, b8⟩ := hb
  refine ⟨⟨?_, ?_, ?_⟩, fun n hn => ?_⟩
  · simp [Mat.multiply, a2, a5, a8, b2, b5, b8]
  · simp [Mat.multiply, a2, a5, a8, b2, b5, b8]
  · simp [Mat.multiply, a2, a5, a8, b2, b5, b8]
  · unfold Mat.inverse at hn
    dsimp only at hn
    split_ifs at hn with h
    have := Except.ok.inj hn
    subst this
    rw [a2, a5, a8] at h ⊢
    refine ⟨by simp, by simp, ?_⟩
    have e : a.m0 * (a.m4 * 1 - a.m7 * 0) + a.m1 * (0 * a.m6 - a.m3 * 1) + 0 * (a.m3 * a.m7 - a.m4 * a.m6) = a.m0 * a.m4 - a.m3 * a.m1 := by ring
    rw [e] at h
    dsimp only
    rw [e]
    field_simp

/-- **C35**, **C36**: matrices with another last column, which only a caller can make, act on points without it, so that neither products nor inverses act as they should. -/
theorem C36_not_affine : ∃ m n : Mat, m.inverse = .ok n ∧ n.point (m.point 1 0).1 (m.point 1 0).2 ≠ (1, 0) ∧
    ∃ a b : Mat, (Mat.multiply a b).point 1 0 ≠ a.point (b.point 1 0).1 (b.point 1 0).2 := by
  refine ⟨⟨1, 0, 1, 0, 1, 0, 1, 0, 2⟩, ⟨2, 0, -1, 0, 1, 0, -1, 0, 1⟩, by decide +kernel, by decide +kernel, ⟨1, 0, 0, 0, 1, 0, 5, 0, 1⟩, ⟨1, 0, 1, 0, 1, 0, 0, 0, 1⟩, by decide +kernel⟩

example : (⟨2, 0, 0, 0, 3, 0, 5, 7, 1⟩ : Mat).Affine ∧ (⟨2, 0, 0, 0, 3, 0, 5, 7, 1⟩ : Mat).inverse = .ok ⟨1 / 2, 0, 0, 0, 1 / 3, 0, -5 / 2, -7 / 3, 1⟩ := by
  exact ⟨⟨rfl, rfl, rfl⟩, by decide +kernel⟩

end Emb
