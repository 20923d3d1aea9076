import Mathlib.Algebra.BigOperators.Intervals
import Mathlib.Data.Real.Basic
import Verif.Model.Splamm

/-!
# What a compressed-column matrix means

Independent of the code: a pattern `(jc, ir)` with values `pr` denotes the matrix whose `(i,j)`
entry is the sum of the values stored in column `j` with row index `i`.
-/
namespace Ecos

open Finset

/-- Well-formed compressed-column data of an `m × n` matrix, as mathematical functions. -/
structure CscOk (m n : Nat) (jc ir : Nat → Nat) : Prop where
  zero : jc 0 = 0
  mono : ∀ j, j < n → jc j ≤ jc (j + 1)
  rows : ∀ k, k < jc n → ir k < m

/-- The memory of `A` holds the compressed-column data `(jc, ir, pr)` of an `m × n` matrix. -/
structure Rep {F : Type} (A : SpMat F) (m n : Nat) (jc ir : Nat → Nat) (pr : Nat → F) : Prop where
  m_eq : A.m = m
  n_eq : A.n = n
  nnz_eq : A.nnz = jc n
  hjc : Holds A.jc (n + 1) jc
  hir : Holds A.ir (jc n) ir
  hpr : Holds A.pr (jc n) pr
  ok : CscOk m n jc ir

/-- the dense matrix denoted by compressed-column data -/
noncomputable def dense (jc ir : Nat → Nat) (pr : Nat → ℝ) (i j : Nat) : ℝ :=
  ∑ k ∈ Ico (jc j) (jc (j + 1)), if ir k = i then pr k else 0

namespace CscOk

variable {m n : Nat} {jc ir : Nat → Nat}

theorem mono' (h : CscOk m n jc ir) {i j : Nat} (hij : i ≤ j) (hj : j ≤ n) : jc i ≤ jc j := by
  induction j with
  | zero => have : i = 0 := by omega
            subst this; exact le_rfl
  | succ k ih =>
    by_cases hik : i = k + 1
    · subst hik; exact le_rfl
    · exact le_trans (ih (by omega) (by omega)) (h.mono k (by omega))

theorem le_top (h : CscOk m n jc ir) {j : Nat} (hj : j ≤ n) : jc j ≤ jc n := h.mono' hj le_rfl

/-- every entry lies in exactly one column -/
theorem exists_col (h : CscOk m n jc ir) {k : Nat} (hk : k < jc n) :
    ∃ j, j < n ∧ jc j ≤ k ∧ k < jc (j + 1) := by
  induction n with
  | zero => rw [h.zero] at hk; omega
  | succ n ih =>
    by_cases hkn : k < jc n
    · obtain ⟨j, h1, h2, h3⟩ := ih
        ⟨h.zero, fun j hj => h.mono j (by omega), fun k hk => h.rows k
          (lt_of_lt_of_le hk (h.mono n (by omega)))⟩ hkn
      exact ⟨j, by omega, h2, h3⟩
    · exact ⟨n, by omega, by omega, hk⟩

theorem col_unique (h : CscOk m n jc ir) {k j j' : Nat} (hj : j < n) (hj' : j' < n)
    (h1 : jc j ≤ k) (h2 : k < jc (j + 1)) (h1' : jc j' ≤ k) (h2' : k < jc (j' + 1)) : j = j' := by
  rcases lt_trichotomy j j' with hlt | he | hlt
  · have := h.mono' (show j + 1 ≤ j' from hlt) (by omega); omega
  · exact he
  · have := h.mono' (show j' + 1 ≤ j from hlt) (by omega); omega

end CscOk

/-- the column in which entry `k` is stored -/
def colOf (n : Nat) (jc : Nat → Nat) (k : Nat) : Nat := Nat.findGreatest (fun j => jc j ≤ k) (n - 1)

theorem colOf_eq {m n : Nat} {jc ir : Nat → Nat} (h : CscOk m n jc ir) {j k : Nat} (hj : j < n)
    (h1 : jc j ≤ k) (h2 : k < jc (j + 1)) : colOf n jc k = j := by
  unfold colOf
  rw [Nat.findGreatest_eq_iff]
  refine ⟨by omega, fun _ => h1, fun i hi hin => ?_⟩
  have := h.mono' (show j + 1 ≤ i from hi) (by omega)
  omega

end Ecos
