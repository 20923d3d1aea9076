import Verif.Lemmas.Scal3
import Verif.Lemmas.XR
import Verif.Spec.Exp

/-!
# The exponential cone tests
-/
namespace Ecos

set_option linter.unusedSectionVars false

section generic
variable {F : Type} [Zero F] [One F] [Add F] [Sub F] [Mul F] [Div F] [Neg F] [OfScientific F]
  [IntCast F] [PFloat F]

theorem evalExpPrimalFeas_ok {b : Buf F} {off n : Nat} {g : Nat → F} (h : Has b off (3 * n) g) :
    Ok (evalExpPrimalFeas b off n) fun r =>
      (r = true ↔ ∀ j, j < n → expPrimalBad (g (3 * j)) (g (3 * j + 1)) (g (3 * j + 2)) = false) := by
  unfold evalExpPrimalFeas
  refine Ok.bind (P := fun r => (∃ e, r = .inl e ∧ ∃ j, j < n ∧ expPrimalBad (g (3 * j)) (g (3 * j + 1)) (g (3 * j + 2)) = true) ∨
    ∃ s, r = .inr s ∧ ∀ j, j < n → expPrimalBad (g (3 * j)) (g (3 * j + 1)) (g (3 * j + 2)) = false) ?_ ?_
  · refine loopE_ok (fun k _ => ∀ j, j < k → expPrimalBad (g (3 * j)) (g (3 * j + 1)) (g (3 * j + 2)) = false)
      (fun _ => ∃ j, j < n ∧ expPrimalBad (g (3 * j)) (g (3 * j + 1)) (g (3 * j + 2)) = true) (by omega)
      (fun j hj => by omega) ?_ (fun e h => Or.inl ⟨e, rfl, h⟩) fun s h => Or.inr ⟨s, rfl, h⟩
    intro k s _ hk hI
    have e0 := h.rd (j := 3 * k) (by omega)
    have e1 := h.rd (j := 3 * k + 1) (by omega)
    have e2 := h.rd (j := 3 * k + 2) (by omega)
    rw [← Nat.add_assoc] at e1 e2
    rw [e0, ok_bind_eq, e1, ok_bind_eq, e2, ok_bind_eq, Ok_pure]
    by_cases hb : expPrimalBad (g (3 * k)) (g (3 * k + 1)) (g (3 * k + 2)) = true
    · rw [if_pos hb]
      exact Or.inl ⟨_, rfl, k, hk, hb⟩
    · rw [if_neg hb]
      refine Or.inr ⟨_, rfl, fun j hj => ?_⟩
      by_cases hjk : j = k
      · subst hjk; simpa using hb
      · exact hI j (by omega)
  · rintro r (⟨e, rfl, j, hj, hb⟩ | ⟨s, rfl, hall⟩)
    · rw [Ok_pure]
      simp only [Bool.false_eq_true, false_iff]
      intro hh
      rw [hh j hj] at hb
      exact absurd hb (by simp)
    · rw [Ok_pure]
      simpa using hall

theorem evalExpDualFeas_ok {b : Buf F} {off n : Nat} {g : Nat → F} (h : Has b off (3 * n) g) :
    Ok (evalExpDualFeas b off n) fun r =>
      (r = true ↔ ∀ j, j < n → expDualBad (g (3 * j)) (g (3 * j + 1)) (g (3 * j + 2)) = false) := by
  unfold evalExpDualFeas
  refine Ok.bind (P := fun r => (∃ e, r = .inl e ∧ ∃ j, j < n ∧ expDualBad (g (3 * j)) (g (3 * j + 1)) (g (3 * j + 2)) = true) ∨
    ∃ s, r = .inr s ∧ ∀ j, j < n → expDualBad (g (3 * j)) (g (3 * j + 1)) (g (3 * j + 2)) = false) ?_ ?_
  · refine loopE_ok (fun k _ => ∀ j, j < k → expDualBad (g (3 * j)) (g (3 * j + 1)) (g (3 * j + 2)) = false)
      (fun _ => ∃ j, j < n ∧ expDualBad (g (3 * j)) (g (3 * j + 1)) (g (3 * j + 2)) = true) (by omega)
      (fun j hj => by omega) ?_ (fun e h => Or.inl ⟨e, rfl, h⟩) fun s h => Or.inr ⟨s, rfl, h⟩
    intro k s _ hk hI
    have e0 := h.rd (j := 3 * k) (by omega)
    have e1 := h.rd (j := 3 * k + 1) (by omega)
    have e2 := h.rd (j := 3 * k + 2) (by omega)
    rw [← Nat.add_assoc] at e1 e2
    rw [e0, ok_bind_eq, e1, ok_bind_eq, e2, ok_bind_eq, Ok_pure]
    by_cases hb : expDualBad (g (3 * k)) (g (3 * k + 1)) (g (3 * k + 2)) = true
    · rw [if_pos hb]
      exact Or.inl ⟨_, rfl, k, hk, hb⟩
    · rw [if_neg hb]
      refine Or.inr ⟨_, rfl, fun j hj => ?_⟩
      by_cases hjk : j = k
      · subst hjk; simpa using hb
      · exact hI j (by omega)
  · rintro r (⟨e, rfl, j, hj, hb⟩ | ⟨s, rfl, hall⟩)
    · rw [Ok_pure]
      simp only [Bool.false_eq_true, false_iff]
      intro hh
      rw [hh j hj] at hb
      exact absurd hb (by simp)
    · rw [Ok_pure]
      simpa using hall

end generic

/-! ### In exact arithmetic -/

/-- the condition with logarithms is the condition with the exponential -/
theorem exp_psi {x y z : ℝ} (hy : 0 < y) (hz : 0 < z) :
    0 ≤ z * Real.log (y / z) - x ↔ z * Real.exp (x / z) ≤ y := by
  rw [sub_nonneg, ← div_le_iff₀' hz, Real.le_log_iff_exp_le (div_pos hy hz), le_div_iff₀' hz]

theorem exp_psi_lt {x y z : ℝ} (hy : 0 < y) (hz : 0 < z) :
    0 < z * Real.log (y / z) - x ↔ z * Real.exp (x / z) < y := by
  rw [sub_pos, ← div_lt_iff₀' hz, Real.lt_log_iff_exp_lt (div_pos hy hz), lt_div_iff₀' hz]

/-- `psi` of the dual test -/
noncomputable def dpsi (u v w : ℝ) : ℝ := -u - u * Real.log (-v / u) + w

/-- the inner product of a dual point with a point of the cone is at least `z * psi` -/
theorem inner_ge {u v w x y z : ℝ} (hu : u < 0) (hv : 0 < v) (hz : 0 < z) (h : z * Real.exp (x / z) ≤ y) :
    z * dpsi u v w ≤ u * x + v * y + w * z := by
  have hy : 0 < y := lt_of_lt_of_le (mul_pos hz (Real.exp_pos _)) h
  have h1 : x ≤ z * Real.log (y / z) := by have := (exp_psi (x := x) hy hz).2 h; linarith
  have h2 : u * (z * Real.log (y / z)) ≤ u * x := mul_le_mul_of_nonpos_left h1 hu.le
  have hb : 0 < -u * z := mul_pos (by linarith) hz
  have ha : 0 < v * y := mul_pos hv hy
  have h3 := Real.log_le_sub_one_of_pos (div_pos ha hb)
  have hvu : 0 < -v / u := div_pos_of_neg_of_neg (by linarith) hu
  have e : Real.log (v * y / (-u * z)) = Real.log (-v / u) + Real.log (y / z) := by
    rw [← Real.log_mul hvu.ne' (div_pos hy hz).ne']
    congr 1
    have := hu.ne
    field_simp
  rw [e] at h3
  have h4 := mul_le_mul_of_nonneg_left h3 hb.le
  have h5 : -u * z * (v * y / (-u * z) - 1) = v * y - -u * z := by
    rw [mul_sub, mul_div_cancel₀ _ hb.ne', mul_one]
  rw [h5] at h4
  unfold dpsi
  nlinarith

theorem dual_of_psi {u v w : ℝ} (hu : u < 0) (hv : 0 < v) (h : 0 ≤ dpsi u v w) : InExpDual u v w := by
  rintro x y z (⟨hz, hm⟩ | ⟨rfl, hx, hy⟩)
  · exact (mul_nonneg hz.le h).trans (inner_ge hu hv hz hm)
  · have := mul_nonneg hv.le hy
    have := mul_nonneg_of_nonpos_of_nonpos hu.le hx
    linarith

theorem intDual_of_psi {u v w : ℝ} (hu : u < 0) (hv : 0 < v) (h : 0 < dpsi u v w) : IntExpDual u v w := by
  rintro x y z (⟨hz, hm⟩ | ⟨rfl, hx, hy⟩) hne
  · exact (mul_pos hz h).trans_le (inner_ge hu hv hz hm)
  · have h1 := mul_nonneg hv.le hy
    have h2 := mul_nonneg_of_nonpos_of_nonpos hu.le hx
    rcases lt_or_eq_of_le hx with hx' | hx'
    · have := mul_pos_of_neg_of_neg hu hx'
      linarith
    · rcases lt_or_eq_of_le hy with hy' | hy'
      · have := mul_pos hv hy'
        linarith
      · exact absurd ⟨hx', hy'.symm, rfl⟩ hne

theorem psi_of_dual {u v w : ℝ} (hu : u < 0) (hv : 0 < v) (h : InExpDual u v w) : 0 ≤ dpsi u v w := by
  have hq : 0 < -u / v := div_pos (by linarith) hv
  have := h (Real.log (-u / v)) (-u / v) 1 (Or.inl ⟨one_pos, by
    rw [div_one, Real.exp_log hq, one_mul]⟩)
  have e : Real.log (-u / v) = -Real.log (-v / u) := by
    rw [← Real.log_inv]
    congr 1
    have := hu.ne
    field_simp
  have e2 : v * (-u / v) = -u := by field_simp
  rw [e, e2] at this
  unfold dpsi
  linarith

/-- a dual point with negative first component has a positive second one -/
theorem dual_pos {u v w : ℝ} (hu : u < 0) (h : InExpDual u v w) : 0 < v := by
  have h0 : 0 ≤ v := by
    have := h 0 1 0 (Or.inr ⟨rfl, le_rfl, by norm_num⟩)
    linarith
  refine lt_of_le_of_ne h0 fun he => ?_
  subst he
  -- the point (t, exp t, 1) has inner product u t + w
  have := h ((|w| + 1) / -u) (Real.exp ((|w| + 1) / -u)) 1 (Or.inl ⟨one_pos, by simp⟩)
  have e : u * ((|w| + 1) / -u) = -(|w| + 1) := by
    have := hu.ne
    field_simp
  rw [e] at this
  linarith [le_abs_self w]

/-- strictly inside the dual cone means exactly this -/
theorem intDual_iff {u v w : ℝ} : IntExpDual u v w ↔ u < 0 ∧ 0 < v ∧ 0 < dpsi u v w := by
  constructor
  · intro h
    have hu : u < 0 := by
      have := h (-1) 0 0 (Or.inr ⟨rfl, by norm_num, le_rfl⟩) (by norm_num)
      linarith
    have hv : 0 < v := by
      have := h 0 1 0 (Or.inr ⟨rfl, le_rfl, by norm_num⟩) (by norm_num)
      linarith
    refine ⟨hu, hv, ?_⟩
    have hq : 0 < -u / v := div_pos (by linarith) hv
    have := h (Real.log (-u / v)) (-u / v) 1 (Or.inl ⟨one_pos, by
      rw [div_one, Real.exp_log hq, one_mul]⟩) (by norm_num)
    have e : Real.log (-u / v) = -Real.log (-v / u) := by
      rw [← Real.log_inv]
      congr 1
      have := hu.ne
      field_simp
    have e2 : v * (-u / v) = -u := by field_simp
    rw [e, e2] at this
    unfold dpsi
    linarith
  · rintro ⟨hu, hv, h⟩
    exact intDual_of_psi hu hv h

end Ecos
