import Verif.Lemmas.Kkt1

/-!
# The factored KKT struct over the reals
-/
namespace Ecos.Fact

open Ecos Finset

/-- `L D L'` is the matrix plus the diagonal `R` added by the dynamic regularisation -/
theorem ldl_sym {n : Nat} {ap ai q : Nat → Nat} {ax : Nat → ℝ} {sg : Nat → Int} {eps delta : ℝ}
    {lf : Nat → Nat → ℝ} {df : Nat → ℝ} (hU : UpperPat n ap ai) (hnd : NoDup n ap ai) (hT : Tree n n ap ai q)
    (hrow : ∀ r, r < n → RowEq (Row ap ai q) q (ent ap ai ax) sg eps delta lf df r)
    (hs : ∀ i, i < n → sg i = 1 ∨ sg i = -1) (he : 0 ≤ eps) (hd : 0 < delta) :
    (∀ i, i < n → 0 < (sg i : ℝ) * df i) ∧ ∃ R : Nat → ℝ,
      (∀ i j, i < n → j < n →
        ∑ m ∈ range n, lmat (Row ap ai q) lf i m * df m * lmat (Row ap ai q) lf j m =
          symDense ap ai ax i j + if i = j then R i else 0) ∧
      ∀ k, k < n → (R k = 0 ∧ eps < (sg k : ℝ) * df k) ∨
        (df k = (sg k : ℝ) * delta ∧ (sg k : ℝ) * (df k - R k) ≤ eps) := by
  have hpos : ∀ i, i < n → 0 < (sg i : ℝ) * df i := by
    intro i hi
    obtain ⟨ord, u, -, -, -, -, e⟩ := hrow i hi
    rw [e]
    exact dynReg_ne (hs i hi) he hd _
  have hdf : ∀ i, i < n → df i ≠ 0 := fun i hi h0 => by
    have := hpos i hi
    rw [h0, mul_zero] at this
    exact lt_irrefl _ this
  have hv : ∀ k, ∃ v, k < n → df k = dynReg (sg k) eps delta v ∧
      ∑ m ∈ range n, lmat (Row ap ai q) lf k m * df m * lmat (Row ap ai q) lf k m = ent ap ai ax k k + (df k - v) := by
    intro k
    by_cases hk : k < n
    · obtain ⟨v, hv⟩ := ldl_diag hrow hdf hk
      exact ⟨v, fun _ => hv⟩
    · exact ⟨0, fun h => absurd h hk⟩
  choose v hv using hv
  refine ⟨hpos, fun k => df k - v k, ?_, ?_⟩
  · intro i j hi hj
    unfold symDense
    rcases lt_trichotomy i j with hij | hij | hij
    · rw [if_pos (by omega), if_neg (by omega), add_zero, ← ent_dense hU.csc hnd hj, ← ldl_lower hU hT hrow hdf hj hij]
      refine sum_congr rfl fun m _ => by ring
    · subst hij
      rw [if_pos le_rfl, if_pos rfl, ← ent_dense hU.csc hnd hi]
      exact (hv i hi).2
    · rw [if_neg (by omega), if_neg (by omega), add_zero, ← ent_dense hU.csc hnd hi, ← ldl_lower hU hT hrow hdf hi hij]
  · intro k hk
    have hdk := (hv k hk).1
    unfold dynReg at hdk
    by_cases hle : (sg k : ℝ) * v k ≤ eps
    · rw [if_pos (by simpa using hle)] at hdk
      right
      refine ⟨hdk, ?_⟩
      beta_reduce
      rw [sub_sub_cancel]
      exact hle
    · rw [if_neg (by simpa using hle)] at hdk
      left
      refine ⟨by beta_reduce; rw [hdk, sub_self], by rw [hdk]; exact not_le.1 hle⟩

/-- the stored factor is `lmat` -/
theorem lmat_dense {n : Nat} {V : Nat → Nat → Prop} {lf : Nat → Nat → ℝ} {lir : Nat → Nat} {lxv : Nat → ℝ}
    (c2 : Lower n (lpOf V n) lir)
    (c5 : ∀ i t (ht : t < (rows V n i).length), i < n →
        lir (lpOf V n i + t) = (rows V n i)[t] ∧ lxv (lpOf V n i + t) = lf (rows V n i)[t] i)
    {i m : Nat} (hi : i < n) (hm : m < n) :
    (if i = m then (1 : ℝ) else 0) + dense (lpOf V n) lir lxv i m = lmat V lf i m := by
  unfold lmat
  by_cases e : i = m
  · subst e
    rw [dense_lower c2 hi le_rfl, if_pos rfl, if_pos rfl, add_zero]
  · rw [store_dense c5 hi hm, if_neg e, if_neg e, zero_add]

theorem sum_delta {n i : Nat} (hi : i < n) (x : Nat → ℝ) : ∑ m ∈ range n, (if i = m then (1 : ℝ) else 0) * x m = x i := by
  simp [hi]

/-- the three triangular solves return the solution of the regularised system -/
theorem triSolve_eq {K : Kkt ℝ} {N : Nat} {ap ai q : Nat → Nat} {ax : Nat → ℝ} {sg : Nat → Int} {eps delta : ℝ}
    {lf : Nat → Nat → ℝ} {df : Nat → ℝ} (hK : KktOk K N ap ai ax q sg)
    (hF : Factored K N ap ai ax q sg eps delta lf df) (hdf : ∀ i, i < N → df i ≠ 0) {M : Nat → Nat → ℝ}
    (hM : ∀ i j, i < N → j < N →
        ∑ m ∈ range N, lmat (Row ap ai q) lf i m * df m * lmat (Row ap ai q) lf j m = M i j)
    {b : Buf ℝ} {bf : Nat → ℝ} (hb : Holds b N bf) :
    Ok (triSolve K b) fun x => ∃ xf, Holds x N xf ∧ ∀ i, i < N → ∑ k ∈ range N, M i k * xf k = bf i := by
  refine (triSolve_ok hK hF hb).mono ?_
  rintro x ⟨lir, lxv, c1, c2, c5, hx⟩
  refine ⟨_, hx, ?_⟩
  generalize hy : itr N bf (lsCol (lpOf (Row ap ai q) N) lir lxv) = y
  generalize hz : (fun i => y i / df i) = z
  generalize hxe : itr N z (fun t x => ltCol (lpOf (Row ap ai q) N) lir lxv (N - 1 - t) x) = xf
  have e1 : ∀ i, i < N → ∑ m ∈ range N, lmat (Row ap ai q) lf i m * y m = bf i := by
    intro i hi
    have := lsolve_eq c2 c1 (lx := lxv) bf hi
    rw [hy] at this
    rw [← this, ← sum_delta hi y, ← sum_add_distrib]
    refine sum_congr rfl fun m hm => ?_
    rw [← lmat_dense c2 c5 hi (mem_range.1 hm)]
    ring
  have e2 : ∀ j, j < N → ∑ k ∈ range N, lmat (Row ap ai q) lf k j * xf k = z j := by
    intro j hj
    have := ltsolve_eq c2 c1 (lx := lxv) z hj
    rw [hxe] at this
    rw [← this]
    conv_rhs => rw [← sum_delta hj xf]
    rw [← sum_add_distrib]
    refine sum_congr rfl fun m hm => ?_
    rw [← lmat_dense c2 c5 (mem_range.1 hm) hj]
    simp only [eq_comm (a := m)]
    ring
  have e3 : ∀ m, m < N → df m * z m = y m := fun m hm => by
    rw [← hz]
    exact mul_div_cancel₀ _ (hdf m hm)
  intro i hi
  rw [← e1 i hi]
  calc ∑ k ∈ range N, M i k * xf k
      = ∑ k ∈ range N, ∑ m ∈ range N, lmat (Row ap ai q) lf i m * df m * (lmat (Row ap ai q) lf k m * xf k) := by
        refine sum_congr rfl fun k hk => ?_
        rw [← hM i k hi (mem_range.1 hk), sum_mul]
        exact sum_congr rfl fun m _ => by ring
    _ = ∑ m ∈ range N, lmat (Row ap ai q) lf i m * df m * z m := by
        rw [sum_comm]
        refine sum_congr rfl fun m hm => ?_
        rw [← mul_sum, e2 m (mem_range.1 hm)]
    _ = ∑ m ∈ range N, lmat (Row ap ai q) lf i m * y m := by
        refine sum_congr rfl fun m hm => ?_
        rw [mul_assoc, e3 m (mem_range.1 hm)]

/-- a sum over all indices may be taken along a permutation -/
theorem sum_perm {N : Nat} {π : Nat → Nat} (hπ : IsPerm N π) (f : Nat → ℝ) :
    ∑ k ∈ range N, f (π k) = ∑ k ∈ range N, f k := by
  refine sum_nbij π (fun i hi => mem_range.2 (hπ.lt i (mem_range.1 hi)))
    (fun i hi j hj h => hπ.inj i j (mem_range.1 hi) (mem_range.1 hj) h) (fun j hj => ?_) fun _ _ => rfl
  obtain ⟨k, hk, rfl⟩ := hπ.surj (mem_range.1 hj)
  exact ⟨k, mem_coe.2 (mem_range.2 hk), rfl⟩

end Ecos.Fact
