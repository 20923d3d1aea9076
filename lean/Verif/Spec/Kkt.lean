import Verif.Spec.Matrix
import Verif.Lemmas.Glue
import Mathlib.Data.Real.Basic

/-!
# The documented KKT matrix

`[δI A' Ĝ'; A -δI 0; Ĝ 0 -V₀]`, upper triangle, where `Ĝ` is `G` with two zero rows behind every second-order cone and `V₀` is the
matrix the scalings start from: the identity, with `-1` in the second extra row of every second-order cone.
-/
namespace Ecos

/-- static regularisation -/
noncomputable def kktDelta : ℝ := 7e-8

/-- `G` with two zero rows behind every second-order cone -/
noncomputable def expandG (S : Shape) (G : Nat → Nat → ℝ) : Nat → Nat → ℝ :=
  glue S.x G (fun k j => if j < S.q k then G (S.start k + j) else 0) fun l j => G (S.fexv + 3 * l + j)

/-- diagonal of `V₀` -/
noncomputable def diagV0 (S : Shape) : Nat → ℝ :=
  glue S.x (fun _ => 1) (fun k j => if j = S.q k + 1 then -1 else 1) fun _ _ => 1

/-- entry of the documented matrix in row `r` and column `c` -/
noncomputable def kktDoc (n p : Nat) (S : Shape) (A G : Nat → Nat → ℝ) (r c : Nat) : ℝ :=
  if c < n then if r = c then kktDelta else 0
  else if c < n + p then if r < n then A (c - n) r else if r = c then -kktDelta else 0
  else if r < n then expandG S G (c - n - p) r else if r = c then -diagV0 S (c - n - p) else 0

/-- the documented signs of the pivots: `+1` for the rows of `x` and the second extra row of a second-order cone -/
def kktSignDoc (n p : Nat) (S : Shape) (i : Nat) (s : Int) : Prop :=
  ((i < n ∨ ∃ k, k < S.ns ∧ i = n + p + S.start k + 2 * k + (S.q k + 1)) → s = 1) ∧
  (¬(i < n ∨ ∃ k, k < S.ns ∧ i = n + p + S.start k + 2 * k + (S.q k + 1)) → s = -1)

end Ecos
