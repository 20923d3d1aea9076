import Verif.Spec.Cone
import Verif.Spec.Exp
import Verif.Lemmas.Resid

/-!
# Solutions of a cone program, and the effect of scaling
-/
namespace Ecos

open Finset

/-- `v` lies in the cone of the problem -/
structure InK (S : Shape) (v : Nat → ℝ) : Prop where
  sym : InSym S v
  exp : ∀ l, l < S.ne → InExp (v (S.fexv + 3 * l)) (v (S.fexv + 3 * l + 1)) (v (S.fexv + 3 * l + 2))

/-- `v` lies in the dual cone -/
structure InKDual (S : Shape) (v : Nat → ℝ) : Prop where
  sym : InSym S v
  exp : ∀ l, l < S.ne → InExpDual (v (S.fexv + 3 * l)) (v (S.fexv + 3 * l + 1)) (v (S.fexv + 3 * l + 2))

/-- `v` solves the equations and cone constraints of the problem, up to the factor `tau` on the
right-hand sides; with `tau = 1` this is a primal and dual feasible point -/
structure Solves (S : Shape) (T : Pat) (P : Dat) (v : Iter) : Prop where
  dual : ∀ j, j < T.n → ∑ i ∈ range T.p, P.A T i j * v.y i + ∑ i ∈ range T.m, P.G T i j * v.z i + v.tau * P.c j = 0
  eq : ∀ i, i < T.p → ∑ j ∈ range T.n, P.A T i j * v.x j = v.tau * P.b i
  ineq : ∀ i, i < T.m → ∑ j ∈ range T.n, P.G T i j * v.x j + v.s i = v.tau * P.h i
  s : InK S v.s
  z : InKDual S v.z

/-- scaling factors -/
structure Fac where
  x : Nat → ℝ
  A : Nat → ℝ
  G : Nat → ℝ

/-- the factors are positive, and equal on the rows of one cone -/
structure Fac.Ok (E : Fac) (S : Shape) (T : Pat) : Prop where
  x : ∀ j, j < T.n → 0 < E.x j
  A : ∀ i, i < T.p → 0 < E.A i
  G : ∀ i, i < T.m → 0 < E.G i
  soc : ∀ k, k < S.ns → ∀ j, j < S.q k → E.G (S.start k + j) = E.G (S.start k)
  exp : ∀ l, l < S.ne → ∀ j, j < 3 → E.G (S.fexv + 3 * l + j) = E.G (S.fexv + 3 * l)

/-- `P'` is `P` scaled by `E` -/
structure ScaledBy (T : Pat) (P P' : Dat) (E : Fac) : Prop where
  a : T.hasA → ∀ k, k < T.jcA T.n → P'.a k = P.a k / (E.A (T.irA k) * E.x (colOf T.n T.jcA k))
  g : ∀ k, k < T.jcG T.n → P'.g k = P.g k / (E.G (T.irG k) * E.x (colOf T.n T.jcG k))
  c : ∀ j, j < T.n → P'.c j = P.c j / E.x j
  b : ∀ i, i < T.p → P'.b i = P.b i / E.A i
  h : ∀ i, i < T.m → P'.h i = P.h i / E.G i

/-- the iterate in the units of the user -/
noncomputable def Iter.user (v : Iter) (E : Fac) : Iter where
  x := fun j => v.x j / (E.x j * v.tau)
  y := fun i => v.y i / (E.A i * v.tau)
  z := fun i => v.z i / (E.G i * v.tau)
  s := fun i => v.s i * (E.G i / v.tau)
  kap := v.kap
  tau := 1

end Ecos
