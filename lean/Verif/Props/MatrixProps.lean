import Verif.Matrix
import Mathlib.Data.Matrix.Mul
import Mathlib.LinearAlgebra.Matrix.Notation

/-!
# Properties C35, C36, C37: `EmbMatrix`

The specification side uses Mathlib's `Matrix (Fin 3) (Fin 3) ℚ` acting on row vectors `(x, y, 1)`.
-/

namespace Emb

open Matrix

/-- The mathematical matrix an `EmbMatrix` stands for. -/
def Mat.toM (m : Mat) : Matrix (Fin 3) (Fin 3) ℚ :=
  !![m.m0, m.m1, m.m2; m.m3, m.m4, m.m5; m.m6, m.m7, m.m8]

/-- Affine: the last column is `(0, 0, 1)`. Every matrix the library builds is affine. -/
def Mat.Affine (m : Mat) : Prop := m.m2 = 0 ∧ m.m5 = 0 ∧ m.m8 = 1

theorem Mat.toM_injective {a b : Mat} (h : a.toM = b.toM) : a = b := by
  cases a; cases b
  have hh := fun i j => congrFun (congrFun h i) j
  have h00 := hh 0 0; have h01 := hh 0 1; have h02 := hh 0 2
  have h10 := hh 1 0; have h11 := hh 1 1; have h12 := hh 1 2
  have h20 := hh 2 0; have h21 := hh 2 1; have h22 := hh 2 2
  simp [Mat.toM] at h00 h01 h02 h10 h11 h12 h20 h21 h22
  simp [*]

/-! ## C35 -/

/-- **C35**: `matrix_multiply(m0, m1)` is the matrix product `m1 * m0` (row-vector convention). -/
theorem C35_multiply_spec (a b : Mat) : (Mat.multiply a b).toM = b.toM * a.toM := by
  ext i j
  fin_cases i <;> fin_cases j <;>
    simp [Mat.toM, Mat.multiply, Matrix.mul_apply, Fin.sum_univ_three]

/-- The identity is the identity matrix. -/
theorem C35_identity_spec : Mat.identity.toM = 1 := by
  ext i j
  fin_cases i <;> fin_cases j <;> simp [Mat.toM, Mat.identity]

/-- Mapping a point is the first two entries of the row vector `(x, y, 1)` times the matrix. -/
theorem C35_point_spec (m : Mat) (x y : ℚ) :
    ((m.point x y).1 = (![x, y, 1] ᵥ* m.toM) 0) ∧ ((m.point x y).2 = (![x, y, 1] ᵥ* m.toM) 1) := by
  constructor <;> simp [Mat.point, Mat.toM, Matrix.vecMul, dotProduct, Fin.sum_univ_three]

/-- **C35**: applying a product is applying the right factor first, then the left one. -/
theorem C35_point_multiply (a b : Mat) (hb : b.Affine) (x y : ℚ) :
    (Mat.multiply a b).point x y = a.point (b.point x y).1 (b.point x y).2 := by
  obtain ⟨h2, h5, h8⟩ := hb
  simp only [Mat.point, Mat.multiply, h2, h5, h8]
  ext <;> simp only <;> ring

/-- **C35**: multiplication is associative and the identity is neutral. -/
theorem C35_monoid (a b c : Mat) :
    Mat.multiply (Mat.multiply a b) c = Mat.multiply a (Mat.multiply b c) ∧
    Mat.multiply Mat.identity a = a ∧ Mat.multiply a Mat.identity = a := by
  refine ⟨?_, ?_, ?_⟩ <;> apply Mat.toM_injective <;>
    simp only [C35_multiply_spec, C35_identity_spec, Matrix.mul_assoc, Matrix.one_mul, Matrix.mul_one]

/-- **C35**: the identity moves nothing; translating adds; scaling multiplies; rotating uses the rotation formula. -/
theorem C35_basic_points (x y tx ty sx sy ct st : ℚ) :
    Mat.identity.point x y = (x, y) ∧
    (Mat.getTranslate tx ty).point x y = (x + tx, y + ty) ∧
    (Mat.getScale sx (some sy)).point x y = (sx * x, sy * y) ∧
    (Mat.getScale sx none).point x y = (sx * x, sx * y) ∧
    (Mat.getRotate ct st).point x y = (x * ct - y * st, x * st + y * ct) := by
  simp only [Mat.point, Mat.identity, Mat.getTranslate, Mat.getScale, Mat.getRotate, Option.getD_some, Option.getD_none,
    Prod.mk.injEq]
  refine ⟨⟨?_, ?_⟩, ⟨?_, ?_⟩, ⟨?_, ?_⟩, ⟨?_, ?_⟩, ?_, ?_⟩ <;> ring

/-- **C35**: `post_*` puts the new transformation before the existing one, `pre_*` after it. -/
theorem C35_post_pre (m : Mat) (hm : m.Affine) (x y tx ty sx sy ct st : ℚ) :
    (m.postTranslate tx ty).point x y = m.point (x + tx) (y + ty) ∧
    (m.postScale sx sy 0 0).point x y = m.point (sx * x) (sy * y) ∧
    (m.postRotate ct st 0 0).point x y = m.point (x * ct - y * st) (x * st + y * ct) ∧
    (m.preTranslate tx ty).point x y = ((m.point x y).1 + tx, (m.point x y).2 + ty) ∧
    (m.preScale sx sy).point x y = (sx * (m.point x y).1, sy * (m.point x y).2) ∧
    (m.preRotate ct st).point x y =
      ((m.point x y).1 * ct - (m.point x y).2 * st, (m.point x y).1 * st + (m.point x y).2 * ct) := by
  obtain ⟨h2, h5, h8⟩ := hm
  simp only [Mat.point, Mat.postTranslate, Mat.postScale, Mat.postRotate, Mat.preTranslate, Mat.preScale, Mat.preRotate,
    Mat.getTranslate, Mat.getScale, Mat.getRotate, Mat.multiply, h2, h5, h8, and_self, if_true, Option.getD_some,
    Prod.mk.injEq]
  refine ⟨⟨?_, ?_⟩, ⟨?_, ?_⟩, ⟨?_, ?_⟩, ⟨?_, ?_⟩, ⟨?_, ?_⟩, ?_, ?_⟩ <;> ring

/-- Affine matrices are closed under everything the library does. -/
theorem C35_affine_closed (a b : Mat) (ha : a.Affine) (hb : b.Affine) (tx ty sx sy ct st : ℚ) :
    Mat.identity.Affine ∧ (Mat.multiply a b).Affine ∧ (Mat.getTranslate tx ty).Affine ∧
    (Mat.getScale sx (some sy)).Affine ∧ (Mat.getRotate ct st).Affine := by
  obtain ⟨h2, h5, h8⟩ := ha
  obtain ⟨k2, k5, k8⟩ := hb
  simp [Mat.Affine, Mat.identity, Mat.multiply, Mat.getTranslate, Mat.getScale, Mat.getRotate, *]

/-- Concatenating a list multiplies in the stated order. -/
theorem C35_cat (m : Mat) (ms : List Mat) :
    (m.postCat ms).toM = (ms.reverse.map Mat.toM).prod * m.toM ∧
    (m.preCat ms).toM = m.toM * (ms.map Mat.toM).prod := by
  induction ms generalizing m with
  | nil => simp [Mat.postCat, Mat.preCat]
  | cons a ms ih =>
    have h1 := (ih (Mat.multiply m a)).1
    have h2 := (ih (Mat.multiply a m)).2
    simp only [Mat.postCat, Mat.preCat, List.foldl_cons] at *
    rw [h1, h2]
    simp [C35_multiply_spec, Matrix.mul_assoc]

/-- `a @= b` loses the result: the object is updated but the name is rebound to `None`. -/
theorem C35_imatmul_returns_none (a b : Mat) :
    (Mat.imatmul a b).1 = Mat.matmul a b ∧ (Mat.imatmul a b).2 = none := ⟨rfl, rfl⟩

/-! ## C36 -/

theorem Mat.det_toM (m : Mat) : m.det =
    m.m0 * (m.m4 * m.m8 - m.m7 * m.m5) + m.m1 * (m.m5 * m.m6 - m.m3 * m.m8) + m.m2 * (m.m3 * m.m7 - m.m4 * m.m6) := rfl

/-- **C36**: `inverse()` succeeds exactly for a non-zero determinant. -/
theorem C36_inverse_defined (m : Mat) : (∃ n, m.inverse = .ok n) ↔ m.det ≠ 0 := by
  unfold Mat.inverse Mat.det
  simp only
  split <;> simp_all

/-- **C36**: the result is a two-sided inverse. -/
theorem C36_inverse_spec (m n : Mat) (h : m.inverse = .ok n) : m.toM * n.toM = 1 ∧ n.toM * m.toM = 1 := by
  have hd : m.det ≠ 0 := (C36_inverse_defined m).1 ⟨n, h⟩
  have hn : n = { m0 := (m.m4 * m.m8 - m.m7 * m.m5) * (1 / m.det)
                  m1 := (m.m2 * m.m7 - m.m1 * m.m8) * (1 / m.det)
                  m2 := (m.m1 * m.m5 - m.m2 * m.m4) * (1 / m.det)
                  m3 := (m.m5 * m.m6 - m.m3 * m.m8) * (1 / m.det)
                  m4 := (m.m0 * m.m8 - m.m2 * m.m6) * (1 / m.det)
                  m5 := (m.m3 * m.m2 - m.m0 * m.m5) * (1 / m.det)
                  m6 := (m.m3 * m.m7 - m.m4 * m.m6) * (1 / m.det)
                  m7 := (m.m6 * m.m1 - m.m0 * m.m7) * (1 / m.det)
                  m8 := (m.m0 * m.m4 - m.m3 * m.m1) * (1 / m.det) : Mat } := by
    unfold Mat.inverse at h
    simp only at h
    split at h
    · cases h
    · injection h with h; rw [← h]; rfl
  generalize hD : m.det = D at *
  have key : m.m0 * (m.m4 * m.m8 - m.m7 * m.m5) + m.m1 * (m.m5 * m.m6 - m.m3 * m.m8) +
      m.m2 * (m.m3 * m.m7 - m.m4 * m.m6) = D := hD
  subst hn
  constructor <;> ext i j <;> fin_cases i <;> fin_cases j <;>
    simp [Mat.toM, Matrix.mul_apply, Fin.sum_univ_three] <;> field_simp <;> (try linarith)

/-- **C36**: inverting twice restores the matrix (as the encoder relies on for `MATRIX_SCALE`/`MATRIX_ROTATE`). -/
theorem C36_inverse_inverse (m n k : Mat) (h : m.inverse = .ok n) (h' : n.inverse = .ok k) : k = m := by
  apply Mat.toM_injective
  have h1 := (C36_inverse_spec m n h).1
  have h2 := (C36_inverse_spec n k h').1
  calc k.toM = (m.toM * n.toM) * k.toM := by rw [h1, Matrix.one_mul]
    _ = m.toM * (n.toM * k.toM) := by rw [Matrix.mul_assoc]
    _ = m.toM := by rw [h2, Matrix.mul_one]

/-- The second inversion never fails when the first succeeded. -/
theorem C36_inverse_again (m n : Mat) (h : m.inverse = .ok n) : ∃ k, n.inverse = .ok k := by
  rw [C36_inverse_defined]
  have hs := (C36_inverse_spec m n h).2
  intro h0
  have e := fun i j => congrFun (congrFun hs i) j
  -- multiply the cofactor expansion through: det n * det m = 1
  have hdet : n.det * m.det = 1 := by
    have key : (Mat.multiply m n).det = n.det * m.det := by simp only [Mat.det, Mat.multiply]; ring
    have hid : Mat.multiply m n = Mat.identity := by
      apply Mat.toM_injective; rw [C35_multiply_spec, hs, C35_identity_spec]
    rw [← key, hid]; simp [Mat.det, Mat.identity]
  rw [h0] at hdet; simp at hdet

/-- **C36**: for an affine matrix, mapping a point forth and back (either way round) returns it. -/
theorem C36_point_roundtrip (m n : Mat) (hm : m.Affine) (h : m.inverse = .ok n) (x y : ℚ) :
    n.point (m.point x y).1 (m.point x y).2 = (x, y) ∧ m.point (n.point x y).1 (n.point x y).2 = (x, y) := by
  obtain ⟨hs1, hs2⟩ := C36_inverse_spec m n h
  have hnm : Mat.multiply n m = Mat.identity := by
    apply Mat.toM_injective; rw [C35_multiply_spec, hs1, C35_identity_spec]
  have hmn : Mat.multiply m n = Mat.identity := by
    apply Mat.toM_injective; rw [C35_multiply_spec, hs2, C35_identity_spec]
  have hn : n.Affine := by
    obtain ⟨h2, h5, h8⟩ := hm
    have e2 : (Mat.multiply m n).m2 = 0 := by rw [hmn]; rfl
    have e5 : (Mat.multiply m n).m5 = 0 := by rw [hmn]; rfl
    have e8 : (Mat.multiply m n).m8 = 1 := by rw [hmn]; rfl
    simp only [Mat.multiply, h2, h5, h8] at e2 e5 e8
    refine ⟨?_, ?_, ?_⟩ <;> linarith
  have id := (C35_basic_points x y 0 0 0 0 0 0).1
  exact ⟨by rw [← C35_point_multiply n m hm, hnm, id], by rw [← C35_point_multiply m n hn, hmn, id]⟩

example : (⟨2, 1, 0, 1, 1, 0, 5, 7, 1⟩ : Mat).Affine ∧ (⟨2, 1, 0, 1, 1, 0, 5, 7, 1⟩ : Mat).det ≠ 0 := by
  constructor
  · simp [Mat.Affine]
  · simp [Mat.det]; norm_num

/-! ## C37 -/

/-- **C37**: scaling or rotating about a point: the new transformation acts on source points as the same
transformation about `(x, y)`, then the old matrix; in particular `(x, y)` is mapped exactly as before. -/
theorem C37_scale_about (m : Mat) (hm : m.Affine) (sx sy x y u v : ℚ) :
    (m.postScale sx sy x y).point u v = m.point (x + sx * (u - x)) (y + sy * (v - y)) := by
  obtain ⟨h2, h5, h8⟩ := hm
  unfold Mat.postScale
  split
  · next h =>
    obtain ⟨rfl, rfl⟩ := h
    simp only [Mat.point, Mat.multiply, Mat.getScale, h2, h5, h8, Option.getD_some]
    ext <;> simp only <;> ring
  · simp only [Mat.point, Mat.postTranslate, Mat.multiply, Mat.getScale, Mat.getTranslate, h2, h5, h8, Option.getD_some]
    ext <;> simp only <;> ring

theorem C37_rotate_about (m : Mat) (hm : m.Affine) (ct st x y u v : ℚ) :
    (m.postRotate ct st x y).point u v =
      m.point (x + ((u - x) * ct - (v - y) * st)) (y + ((u - x) * st + (v - y) * ct)) := by
  obtain ⟨h2, h5, h8⟩ := hm
  unfold Mat.postRotate
  split
  · next h =>
    obtain ⟨rfl, rfl⟩ := h
    simp only [Mat.point, Mat.multiply, Mat.getRotate, h2, h5, h8]
    ext <;> simp only <;> ring
  · simp only [Mat.point, Mat.postTranslate, Mat.multiply, Mat.getRotate, Mat.getTranslate, h2, h5, h8]
    ext <;> simp only <;> ring

theorem C37_fixed_point (m : Mat) (hm : m.Affine) (sx sy ct st x y : ℚ) :
    (m.postScale sx sy x y).point x y = m.point x y ∧ (m.postRotate ct st x y).point x y = m.point x y := by
  rw [C37_scale_about m hm, C37_rotate_about m hm]
  simp

/-- `post_scale` and `post_rotate` keep the matrix affine. -/
theorem C37_affine (m : Mat) (hm : m.Affine) (sx sy ct st x y : ℚ) :
    (m.postScale sx sy x y).Affine ∧ (m.postRotate ct st x y).Affine ∧ (m.postTranslate x y).Affine := by
  obtain ⟨h2, h5, h8⟩ := hm
  unfold Mat.postScale Mat.postRotate Mat.postTranslate
  refine ⟨?_, ?_, ?_⟩ <;> (try split) <;>
    simp [Mat.Affine, Mat.multiply, Mat.getTranslate, Mat.getScale, Mat.getRotate, *]

example : (Mat.identity.postScale 2 3 5 7).point 5 7 = (5, 7) ∧ (Mat.identity.postScale 2 3 5 7).point 6 8 = (7, 10) := by
  decide +kernel

end Emb
