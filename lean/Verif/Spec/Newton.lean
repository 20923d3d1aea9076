import Verif.Spec.Cone
import Verif.Lemmas.Resid

/-!
# The Newton step of the homogeneous embedding

`rx = -A'y - G'z - tau c`, `ry = A x - tau b`, `rz = G x + s - tau h`, `rt = kap + c'x + b'y + h'z` are the linear residuals of
an iterate.
-/
namespace Ecos

open Finset

/-- the linear residuals of an iterate -/
noncomputable def lresX (P : Dat) (T : Pat) (v : Iter) (j : Nat) : ℝ :=
  -(∑ i ∈ range T.p, P.A T i j * v.y i + ∑ i ∈ range T.m, P.G T i j * v.z i) - v.tau * P.c j
noncomputable def lresY (P : Dat) (T : Pat) (v : Iter) (i : Nat) : ℝ := ∑ j ∈ range T.n, P.A T i j * v.x j - v.tau * P.b i
noncomputable def lresZ (P : Dat) (T : Pat) (v : Iter) (i : Nat) : ℝ := ∑ j ∈ range T.n, P.G T i j * v.x j + v.s i - v.tau * P.h i
noncomputable def lresT (P : Dat) (T : Pat) (v : Iter) : ℝ :=
  v.kap + ∑ j ∈ range T.n, P.c j * v.x j + ∑ i ∈ range T.p, P.b i * v.y i + ∑ i ∈ range T.m, P.h i * v.z i

/-- the complementarity of an iterate -/
noncomputable def compl (T : Pat) (v : Iter) : ℝ := ∑ i ∈ range T.m, v.s i * v.z i + v.kap * v.tau

/-- a direction in `(x, y, z)`, also used for right-hand sides -/
structure Dir3 where
  x : Nat → ℝ
  y : Nat → ℝ
  z : Nat → ℝ

/-- what is left of the right-hand side `r` of `[0 A' G'; A 0 0; G 0 -W²] d = r` -/
noncomputable def kktErr (T : Pat) (P : Dat) (W : (Nat → ℝ) → Nat → ℝ) (d r : Dir3) : Dir3 where
  x := fun j => r.x j - (∑ i ∈ range T.p, P.A T i j * d.y i + ∑ i ∈ range T.m, P.G T i j * d.z i)
  y := fun i => r.y i - ∑ j ∈ range T.n, P.A T i j * d.x j
  z := fun i => r.z i - (∑ j ∈ range T.n, P.G T i j * d.x j - W (W d.z) i)

/-- `d` solves that system -/
structure KktSolved (T : Pat) (P : Dat) (W : (Nat → ℝ) → Nat → ℝ) (d r : Dir3) : Prop where
  x : ∀ j, j < T.n → ∑ i ∈ range T.p, P.A T i j * d.y i + ∑ i ∈ range T.m, P.G T i j * d.z i = r.x j
  y : ∀ i, i < T.p → ∑ j ∈ range T.n, P.A T i j * d.x j = r.y i
  z : ∀ i, i < T.m → ∑ j ∈ range T.n, P.G T i j * d.x j - W (W d.z) i = r.z i

/-- a symmetric linear map of the rows of linear and second-order cones -/
structure SymMap (S : Shape) (W : (Nat → ℝ) → Nat → ℝ) : Prop where
  ext : ∀ x y : Nat → ℝ, (∀ i, i < S.fexv → x i = y i) → ∀ i, i < S.fexv → W x i = W y i
  lin : ∀ x y (c d : ℝ) i, i < S.fexv → W (fun i => c * x i + d * y i) i = c * W x i + d * W y i
  symm : ∀ x y : Nat → ℝ, ∑ i ∈ range S.fexv, y i * W x i = ∑ i ∈ range S.fexv, W y i * x i

/-- inner product of two directions -/
noncomputable def Dir3.dot (T : Pat) (f g : Dir3) : ℝ :=
  ∑ j ∈ range T.n, f.x j * g.x j + ∑ i ∈ range T.p, f.y i * g.y i + ∑ i ∈ range T.m, f.z i * g.z i

/-- `d + t e` -/
noncomputable def Dir3.along (d : Dir3) (t : ℝ) (e : Dir3) : Dir3 :=
  ⟨fun j => d.x j + t * e.x j, fun i => d.y i + t * e.y i, fun i => d.z i + t * e.z i⟩

/-- the linear residuals as a direction -/
noncomputable def lres (P : Dat) (T : Pat) (v : Iter) : Dir3 := ⟨lresX P T v, lresY P T v, lresZ P T v⟩

/-- the data as a direction -/
def Dat.chb (P : Dat) : Dir3 := ⟨P.c, P.b, P.h⟩

/-- the right-hand sides of the three linear systems of one iteration: data, predictor, corrector -/
def rhs1 (P : Dat) : Dir3 := ⟨fun j => -P.c j, P.b, P.h⟩
noncomputable def rhsA (P : Dat) (T : Pat) (v : Iter) : Dir3 := ⟨lresX P T v, fun i => -lresY P T v i, fun i => v.s i - lresZ P T v i⟩
noncomputable def rhs2 (P : Dat) (T : Pat) (v : Iter) (W : (Nat → ℝ) → Nat → ℝ) (sigma : ℝ) (u : Nat → ℝ) : Dir3 :=
  ⟨fun j => (1 - sigma) * lresX P T v j, fun i => -((1 - sigma) * lresY P T v i), fun i => -((1 - sigma) * lresZ P T v i) + W u i⟩

/-- the numbers of one iteration -/
structure StepNum where
  mu : ℝ
  sigma : ℝ
  step : ℝ
  /-- predictor -/
  dtauA : ℝ
  dkapA : ℝ
  /-- corrector -/
  dtau : ℝ
  dkap : ℝ

/-- the entries of `λ = W z` are above the floors of the divisions by `λ` -/
structure AboveFloors (S : Shape) (lam : Nat → ℝ) : Prop where
  lp : ∀ i, i < S.l → EPS ≤ lam i
  soc : ∀ k, k < S.ns → EPS ≤ S.block lam k 0 ∧ EPS ≤ S.block lam k 0 * S.block lam k 0 - tailSq (S.q k) (S.block lam k)

/-- `v'` is reached from `v` by a predictor-corrector step with the scaling `W`, where `d1`, `da`, `d2` were returned for the three
linear systems and `u` stands for the scaled right-hand side of complementarity -/
structure PcStep (T : Pat) (S : Shape) (P : Dat) (W : (Nat → ℝ) → Nat → ℝ) (v v' : Iter) (d1 da d2 : Dir3) (u : Nat → ℝ) (N : StepNum) : Prop where
  x : ∀ j, j < T.n → v'.x j = v.x j + N.step * (d2.along N.dtau d1).x j
  y : ∀ i, i < T.p → v'.y i = v.y i + N.step * (d2.along N.dtau d1).y i
  z : ∀ i, i < T.m → v'.z i = v.z i + N.step * (d2.along N.dtau d1).z i
  /-- the direction of `s` is `-W (u + W dz)` -/
  s : ∀ i, i < T.m → v'.s i = v.s i + N.step * W (fun i => -(u i + W (d2.along N.dtau d1).z i)) i
  tau : v'.tau = v.tau + N.step * N.dtau
  kap : v'.kap = v.kap + N.step * N.dkap
  /-- `λ ∘ u = λ ∘ λ + (W⁻¹ dsA) ∘ (W dzA) - σ μ e` with `W⁻¹ dsA = -(W dzA) - λ` -/
  comp : AboveFloors S (W v.z) → ∀ q1 q2 e, IsProduct S (W v.z) (W v.z) q1 →
    IsProduct S (fun i => -W (da.along N.dtauA d1).z i - W v.z i) (W (da.along N.dtauA d1).z) q2 → IsIdentity S e →
    IsProduct S (W v.z) u fun i => q1 i + q2 i - N.sigma * N.mu * e i
  dtauA : N.dtauA * (v.kap / v.tau - P.chb.dot T d1) = lresT P T v - v.kap + P.chb.dot T da ∨ v.kap / v.tau - P.chb.dot T d1 = 0
  dkapA : N.dkapA = -v.kap - v.kap / v.tau * N.dtauA
  dtau : N.dtau * (v.kap / v.tau - P.chb.dot T d1) = (1 - N.sigma) * lresT P T v -
    (v.kap * v.tau + N.dkapA * N.dtauA - N.sigma * N.mu) / v.tau + P.chb.dot T d2 ∨ v.kap / v.tau - P.chb.dot T d1 = 0
  dkap : N.dkap = -(v.kap * v.tau + N.dkapA * N.dtauA - N.sigma * N.mu + v.kap * N.dtau) / v.tau
  mu : N.mu = compl T v / ((S.l + S.ns : Nat) + 1)

end Ecos
