import Mathlib.Analysis.SpecialFunctions.Sqrt
import Verif.Lemmas.Vec

/-!
# Cones as sets

Independent of the code: the second-order cone, the product cone of a problem, its identity element.
-/
namespace Ecos

open Finset

/-- squared norm of the tail `u 1, .., u (p-1)` -/
noncomputable def tailSq (p : Nat) (u : Nat → ℝ) : ℝ := ∑ i ∈ range (p - 1), u (i + 1) * u (i + 1)

/-- `u` lies in the second-order cone of dimension `p` -/
def InSoc (p : Nat) (u : Nat → ℝ) : Prop := Real.sqrt (tailSq p u) ≤ u 0

/-- `u` lies strictly inside the second-order cone -/
def IntSoc (p : Nat) (u : Nat → ℝ) : Prop := Real.sqrt (tailSq p u) < u 0

/-- the rows of the `k`-th second-order cone of a vector -/
def Shape.block {α : Type} (S : Shape) (v : Nat → α) (k : Nat) : Nat → α := fun j => v (S.start k + j)

/-- the vector lies in the product of the nonnegative orthant and the second-order cones -/
structure InSym (S : Shape) (v : Nat → ℝ) : Prop where
  lp : ∀ i, i < S.l → 0 ≤ v i
  soc : ∀ k, k < S.ns → InSoc (S.q k) (S.block v k)

/-- the vector lies strictly inside that product -/
structure IntSym (S : Shape) (v : Nat → ℝ) : Prop where
  lp : ∀ i, i < S.l → 0 < v i
  soc : ∀ k, k < S.ns → IntSoc (S.q k) (S.block v k)

/-- the identity element of the product cone: 1 on linear rows and on the first row of each
second-order cone -/
structure IsIdentity (S : Shape) (e : Nat → ℝ) : Prop where
  lp : ∀ i, i < S.l → e i = 1
  soc : ∀ k, k < S.ns → S.block e k 0 = 1 ∧ ∀ j, 0 < j → j < S.q k → S.block e k j = 0

/-- `w` is the conic product of `u` and `v`: entrywise on linear rows; on a second-order cone the inner
product followed by the cross combination of the tails -/
structure IsProduct (S : Shape) (u v w : Nat → ℝ) : Prop where
  lp : ∀ i, i < S.l → w i = u i * v i
  head : ∀ k, k < S.ns → S.block w k 0 = ∑ i ∈ range (S.q k), S.block u k i * S.block v k i
  tail : ∀ k, k < S.ns → ∀ j, 0 < j → j < S.q k →
    S.block w k j = S.block u k 0 * S.block v k j + S.block v k 0 * S.block u k j

theorem tailSq_nonneg (p : Nat) (u : Nat → ℝ) : 0 ≤ tailSq p u :=
  sum_nonneg fun _ _ => mul_self_nonneg _

theorem tailSq_congr {p : Nat} {u v : Nat → ℝ} (h : ∀ j, j < p → u j = v j) : tailSq p u = tailSq p v := by
  refine sum_congr rfl fun i hi => ?_
  rw [mem_range] at hi
  rw [h (i + 1) (by omega)]

theorem tailSq_congr' {p : Nat} {u v : Nat → ℝ} (h : ∀ j, 0 < j → j < p → u j = v j) :
    tailSq p u = tailSq p v := by
  refine sum_congr rfl fun i hi => ?_
  rw [mem_range] at hi
  rw [h (i + 1) (by omega) (by omega)]

theorem IntSoc.inSoc {p : Nat} {u : Nat → ℝ} (h : IntSoc p u) : InSoc p u := le_of_lt h

theorem IntSym.inSym {S : Shape} {v : Nat → ℝ} (h : IntSym S v) : InSym S v :=
  ⟨fun i hi => (h.lp i hi).le, fun k hk => (h.soc k hk).inSoc⟩

/-- every row of the symmetric part belongs to exactly one cone -/
theorem Shape.row_cases (S : Shape) {i : Nat} (h : i < S.fexv) :
    i < S.l ∨ ∃ k, k < S.ns ∧ S.start k ≤ i ∧ i < S.start k + S.q k := by
  have : ∀ n, i < S.start n → i < S.l ∨ ∃ k, k < n ∧ S.start k ≤ i ∧ i < S.start k + S.q k := by
    intro n
    induction n with
    | zero => intro h; left; simpa using h
    | succ n ih =>
      intro h
      by_cases h1 : i < S.start n
      · rcases ih h1 with h | ⟨k, h2, h3⟩
        · exact Or.inl h
        · exact Or.inr ⟨k, by omega, h3⟩
      · rw [S.start_succ] at h
        exact Or.inr ⟨n, by omega, by omega, h⟩
  exact this _ h

theorem Shape.row_unique (S : Shape) {i j k : Nat} (h1 : S.start i ≤ k) (h2 : k < S.start i + S.q i)
    (h3 : S.start j ≤ k) (h4 : k < S.start j + S.q j) : i = j := by
  rcases Nat.lt_trichotomy i j with h | h | h
  · have := S.disj h; omega
  · exact h
  · have := S.disj h; omega

end Ecos
