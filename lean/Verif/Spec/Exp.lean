import Mathlib.Analysis.SpecialFunctions.Log.Basic

/-!
# The exponential cone as a set

In the order of the code, `(x, y, z)` with `z exp(x/z) ≤ y`.
-/
namespace Ecos

/-- the exponential cone (closed) -/
def InExp (x y z : ℝ) : Prop := (0 < z ∧ z * Real.exp (x / z) ≤ y) ∨ (z = 0 ∧ x ≤ 0 ∧ 0 ≤ y)

/-- strictly inside the exponential cone -/
def IntExp (x y z : ℝ) : Prop := 0 < z ∧ z * Real.exp (x / z) < y

/-- the dual cone: nonnegative inner product with all of the cone -/
def InExpDual (u v w : ℝ) : Prop := ∀ x y z, InExp x y z → 0 ≤ u * x + v * y + w * z

/-- strictly inside the dual cone: positive inner product with every nonzero point of the cone -/
def IntExpDual (u v w : ℝ) : Prop :=
  ∀ x y z, InExp x y z → ¬ (x = 0 ∧ y = 0 ∧ z = 0) → 0 < u * x + v * y + w * z

end Ecos
