import Verif.Spec.BB
import Mathlib.Algebra.BigOperators.Group.Finset.Basic
import Mathlib.Algebra.Order.BigOperators.Group.Finset

/-!
# Mixed-integer problems, over the reals

Vocabulary for C33-C37 that does not mention the search.
-/
namespace Ecos
namespace BB

variable {W I : Type}

/-- objective of a point -/
noncomputable def objective (n : Nat) (c v : Nat → ℝ) : ℝ := ∑ i ∈ Finset.range n, v i * c i

/-- the bounds of a node: booleans 1, 0 or -1 (free), integers `-i (2j) ≤ v ≤ i (2j+1)`, without
integrality -/
structure InRelax (P : Par XR W) (b : Nat → Int) (i : Nat → XR) (v : Nat → ℝ) : Prop where
  one : ∀ j, j < P.nb → b j = 1 → v (P.bv j) = 1
  zero : ∀ j, j < P.nb → b j = 0 → v (P.bv j) = 0
  star : ∀ j, j < P.nb → b j = -1 → 0 ≤ v (P.bv j) ∧ v (P.bv j) ≤ 1
  int : ∀ j, j < P.ni → ∃ lo hi, i (2 * j) = XR.fin lo ∧ i (2 * j + 1) = XR.fin hi ∧
    -lo ≤ v (P.iv j) ∧ v (P.iv j) ≤ hi

/-- declared booleans are 0 or 1, declared integers are integers -/
structure Integer (P : Par XR W) (v : Nat → ℝ) : Prop where
  bool : ∀ j, j < P.nb → v (P.bv j) = 0 ∨ v (P.bv j) = 1
  int : ∀ j, j < P.ni → ∃ k : Int, v (P.iv j) = (k : ℝ)

/-- integer points of a node -/
structure InNode (P : Par XR W) (b : Nat → Int) (i : Nat → XR) (v : Nat → ℝ) : Prop where
  ids : ∀ j, j < P.nb → b j = -1 ∨ b j = 0 ∨ b j = 1
  rel : InRelax P b i v
  integer : Integer P v

/-- the range of integer variables the solver covers (`MAX_FLOAT_INT`, include/ecos_bb.h:60) -/
def Covered (P : Par XR W) (v : Nat → ℝ) : Prop := ∀ j, j < P.ni → |v (P.iv j)| ≤ 8388608

/-- The continuous solver returns finite points and the objective is finite. -/
structure Finite (P : Par XR W) (env : Env XR W I) (c : Nat → ℝ) : Prop where
  cost : ∀ cf, P.cs cf → ∀ i, i < P.n → cf i = XR.fin (c i)
  point : ∀ b i code xf, Trial P env b i code xf → ∃ x : Nat → ℝ, ∀ k, k < P.n → xf k = XR.fin (x k)

/-- The continuous solver is exact up to `δ` on every node: whenever the node contains a point `v` of the
user's feasible set, the solve is accepted and the returned objective is at most that of `v` plus `δ`. -/
def Exact (P : Par XR W) (env : Env XR W I) (c : Nat → ℝ) (Feas : (Nat → ℝ) → Prop) (δ : ℝ) : Prop :=
  ∀ b i code xf (x : Nat → ℝ), (∀ j, j < P.nb → b j = -1 ∨ b j = 0 ∨ b j = 1) →
    Trial P env b i code xf → (∀ k, k < P.n → xf k = XR.fin (x k)) → ∀ v, Feas v → InRelax P b i v → Usable code ∧ objective P.n c x ≤ objective P.n c v + δ

/-- Accepted solves respect the bounds of the node up to `ε`. -/
def Respects (P : Par XR W) (env : Env XR W I) (ε : ℝ) : Prop :=
  ∀ b i code xf (x : Nat → ℝ), Trial P env b i code xf → Usable code →
    (∀ k, k < P.n → xf k = XR.fin (x k)) →
    (∀ j, j < P.nb → (b j = 1 → |x (P.bv j) - 1| ≤ ε) ∧ (b j = 0 → |x (P.bv j)| ≤ ε) ∧
      (b j = -1 → -ε ≤ x (P.bv j) ∧ x (P.bv j) ≤ 1 + ε)) ∧
    (∀ j, j < P.ni → ∀ lo hi, i (2 * j) = XR.fin lo → i (2 * j + 1) = XR.fin hi →
      -lo - ε ≤ x (P.iv j) ∧ x (P.iv j) ≤ hi + ε)

/-- Accepted solves within the root box give declared integers in `a j .. b j`, up to `ε`. -/
def Within (P : Par XR W) (env : Env XR W I) (a b : Nat → Int) (ε : ℝ) : Prop :=
  ∀ bid iid code xf (x : Nat → ℝ), Trial P env bid iid code xf → Usable code → (∀ k, k < P.n → xf k = XR.fin (x k)) →
    (∀ j, j < P.ni → ∃ lo hi : ℝ, iid (2 * j) = XR.fin lo ∧ iid (2 * j + 1) = XR.fin hi ∧ lo ≤ 8388608 ∧ hi ≤ 8388608) →
    ∀ j, j < P.ni → (a j : ℝ) - ε ≤ x (P.iv j) ∧ x (P.iv j) ≤ b j + ε

/-- number of integer points the search has to distinguish -/
def points (P : Par XR W) (a b : Nat → Int) : Nat := 2 ^ P.nb * ∏ j ∈ Finset.range P.ni, (b j - a j + 1).toNat

/-- For strong branching only: the answer of the continuous solver is determined by the problem. -/
def Deterministic (P : Par XR W) (env : Env XR W I) : Prop :=
  ∀ e1 e2 hf e1' e2' k1 k2 x1 x2, EWF P e1 hf → EWF P e2 hf → env.solve e1 = .ok (e1', k1) →
    env.solve e2 = .ok (e2', k2) → Holds e1'.x P.n x1 → Holds e2'.x P.n x2 → ∀ i, i < P.n → x1 i = x2 i

/-- The continuous solver returns, keeps the problem data and fills `x`; `rand` stays in its range. -/
abbrev Keeps (P : Par XR W) (env : Env XR W I) : Prop :=
  Contract P env (fun _ => True) (fun _ => True) fun _ => False

end BB
end Ecos
