import Verif.Py

/-!
# Affine matrices

Models `EmbMatrix.py`. Entries are exact rationals (simplification of floats). `cos`/`sin` are parameters.
-/

namespace Emb

/-- The nine entries of `EmbMatrix.m`, row by row (`EmbMatrix.py` 5-9). -/
structure Mat where
  (m0 m1 m2 m3 m4 m5 m6 m7 m8 : ℚ)
deriving DecidableEq, Repr

namespace Mat

/-- `get_identity`, `EmbMatrix.py` 126-128. -/
def identity : Mat := ⟨1, 0, 0, 0, 1, 0, 0, 0, 1⟩

/-- `get_scale`, `EmbMatrix.py` 130-134 (`sy=None` means `sy=sx`). -/
def getScale (sx : ℚ) (sy : Option ℚ) : Mat := ⟨sx, 0, 0, 0, sy.getD sx, 0, 0, 0, 1⟩

/-- `get_translate`, `EmbMatrix.py` 136-138. -/
def getTranslate (tx ty : ℚ) : Mat := ⟨1, 0, 0, 0, 1, 0, tx, ty, 1⟩

/-- `get_rotate`, `EmbMatrix.py` 140-146, given the cosine and sine of the angle. -/
def getRotate (ct st : ℚ) : Mat := ⟨ct, st, 0, -st, ct, 0, 0, 0, 1⟩

/-- `matrix_multiply(m0, m1)`, `EmbMatrix.py` 148-160. -/
def multiply (a b : Mat) : Mat where
  m0 := b.m0 * a.m0 + b.m1 * a.m3 + b.m2 * a.m6
  m1 := b.m0 * a.m1 + b.m1 * a.m4 + b.m2 * a.m7
  m2 := b.m0 * a.m2 + b.m1 * a.m5 + b.m2 * a.m8
  m3 := b.m3 * a.m0 + b.m4 * a.m3 + b.m5 * a.m6
  m4 := b.m3 * a.m1 + b.m4 * a.m4 + b.m5 * a.m7
  m5 := b.m3 * a.m2 + b.m4 * a.m5 + b.m5 * a.m8
  m6 := b.m6 * a.m0 + b.m7 * a.m3 + b.m8 * a.m6
  m7 := b.m6 * a.m1 + b.m7 * a.m4 + b.m8 * a.m7
  m8 := b.m6 * a.m2 + b.m7 * a.m5 + b.m8 * a.m8

/-- The determinant computed in `inverse`, `EmbMatrix.py` 37-40. -/
def det (m : Mat) : ℚ :=
  m.m0 * (m.m4 * m.m8 - m.m7 * m.m5) + m.m1 * (m.m5 * m.m6 - m.m3 * m.m8) + m.m2 * (m.m3 * m.m7 - m.m4 * m.m6)

/-- `inverse`, `EmbMatrix.py` 35-52. A zero determinant raises `ZeroDivisionError` (line 41). -/
def inverse (m : Mat) : Except PyErr Mat :=
  let m48s75 := m.m4 * m.m8 - m.m7 * m.m5
  let m38s56 := m.m5 * m.m6 - m.m3 * m.m8
  let m37s46 := m.m3 * m.m7 - m.m4 * m.m6
  let det := m.m0 * m48s75 + m.m1 * m38s56 + m.m2 * m37s46
  if det = 0 then .error .zeroDivision
  else
    let inverse_det := 1 / det
    .ok { m0 := m48s75 * inverse_det
          m1 := (m.m2 * m.m7 - m.m1 * m.m8) * inverse_det
          m2 := (m.m1 * m.m5 - m.m2 * m.m4) * inverse_det
          m3 := m38s56 * inverse_det
          m4 := (m.m0 * m.m8 - m.m2 * m.m6) * inverse_det
          m5 := (m.m3 * m.m2 - m.m0 * m.m5) * inverse_det
          m6 := m37s46 * inverse_det
          m7 := (m.m6 * m.m1 - m.m0 * m.m7) * inverse_det
          m8 := (m.m0 * m.m4 - m.m3 * m.m1) * inverse_det }

/-- `post_translate`, `EmbMatrix.py` 68-69. -/
def postTranslate (m : Mat) (tx ty : ℚ) : Mat := multiply m (getTranslate tx ty)

/-- `post_scale(sx, sy, x, y)`, `EmbMatrix.py` 54-66. -/
def postScale (m : Mat) (sx sy : ℚ) (x y : ℚ) : Mat :=
  if x = 0 ∧ y = 0 then multiply m (getScale sx (some sy))
  else postTranslate (multiply (postTranslate m x y) (getScale sx (some sy))) (-x) (-y)

/-- `post_rotate(theta, x, y)`, `EmbMatrix.py` 71-81, given cosine and sine of theta. -/
def postRotate (m : Mat) (ct st : ℚ) (x y : ℚ) : Mat :=
  if x = 0 ∧ y = 0 then multiply m (getRotate ct st)
  else postTranslate (multiply (postTranslate m x y) (getRotate ct st)) (-x) (-y)

/-- `post_cat`, `EmbMatrix.py` 83-85. -/
def postCat (m : Mat) (ms : List Mat) : Mat := ms.foldl (fun m mx => multiply m mx) m

/-- `pre_scale`, `EmbMatrix.py` 87-90. -/
def preScale (m : Mat) (sx sy : ℚ) : Mat := multiply (getScale sx (some sy)) m

/-- `pre_translate`, `EmbMatrix.py` 92-93. -/
def preTranslate (m : Mat) (tx ty : ℚ) : Mat := multiply (getTranslate tx ty) m

/-- `pre_rotate`, `EmbMatrix.py` 95-96. -/
def preRotate (m : Mat) (ct st : ℚ) : Mat := multiply (getRotate ct st) m

/-- `pre_cat`, `EmbMatrix.py` 98-100. -/
def preCat (m : Mat) (ms : List Mat) : Mat := ms.foldl (fun m mx => multiply mx m) m

/-- `point_in_matrix_space` / `apply` on the coordinates, `EmbMatrix.py` 102-124. -/
def point (m : Mat) (x y : ℚ) : ℚ × ℚ := (x * m.m0 + y * m.m3 + 1 * m.m6, x * m.m1 + y * m.m4 + 1 * m.m7)

/-- What `a @ b` evaluates to: `__matmul__`, `EmbMatrix.py` 17-18. -/
def matmul (a b : Mat) : Mat := multiply a b

/-- `__imatmul__`, `EmbMatrix.py` 23-24: updates `self.m` and **returns nothing**. First component: the new content of
the left operand's object; second: the value Python rebinds the name `a` to in `a @= b` (`none` = Python `None`). -/
def imatmul (a b : Mat) : Mat × Option Mat := (multiply a b, none)

end Mat

end Emb
