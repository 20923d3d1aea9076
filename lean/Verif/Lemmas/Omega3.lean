import Verif.Lemmas.Omega2

/-!
# The residual of `wrightOmega`
-/
namespace Ecos.Exp

theorem asyP_up {y s : ℝ} (hy : 0 ≤ y) (hy1 : y ≤ 0.37) (hs : 0 ≤ s) (hs1 : s ≤ 0.2415) :
    y * asyP y s (1 + (y / 2 - s + y ^ 2 / 3 - 3 / 2 * y * s + s ^ 2)) ≤ 0.11 * s := by
  obtain ⟨E1, E2⟩ := asyE hy hy1 hs hs1
  have k1 : asyP y s (1 + (y / 2 - s + y ^ 2 / 3 - 3 / 2 * y * s + s ^ 2)) ≤
      -y ^ 2 / 3 + 3 / 2 * y * s - s ^ 2 - y * (y / 2 - s + y ^ 2 / 3 - 3 / 2 * y * s + s ^ 2) * (1 + y) - y ^ 2 +
        0.782 * (y * s) + 1.57 * (y ^ 2 * s) := by
    unfold asyP
    generalize hE : 1 + (y / 2 - s + y ^ 2 / 3 - 3 / 2 * y * s + s ^ 2) = E at *
    have hε : y / 2 - s + y ^ 2 / 3 - 3 / 2 * y * s + s ^ 2 = E - 1 := by rw [← hE]; ring
    rw [hε]
    have hE2 : E ^ 2 ≤ 1.5625 := by norm_num at E1 E2 ⊢; nlinarith
    have hE3 : 0 ≤ y ^ 2 * s ^ 2 * E ^ 3 := by
      have : 0 ≤ E := by norm_num at E1; linarith
      positivity
    have a1 : y * s * E ^ 2 ≤ y * s * 1.5625 := mul_le_mul_of_nonneg_left hE2 (by positivity)
    have a2 : y ^ 2 * s * E ^ 2 ≤ y ^ 2 * s * 1.5625 := mul_le_mul_of_nonneg_left hE2 (by positivity)
    have a3 : 0 ≤ y * s := by positivity
    have a4 : 0 ≤ y ^ 2 * s := by positivity
    norm_num at a1 a2 ⊢
    nlinarith
  refine (mul_le_mul_of_nonneg_left k1 hy).trans ?_
  clear k1 E1 E2
  norm_num at hy1 hs1 ⊢
  set k := 11 / 6 * y ^ 3 + 5 / 6 * y ^ 4 + y ^ 5 / 3 with hk
  set c := 3.282 * y ^ 2 + 4.07 * y ^ 3 + 3 / 2 * y ^ 4 with hc
  set m := y + y ^ 2 + y ^ 3 with hm
  have e : y * (-y ^ 2 / 3 + 3 / 2 * y * s - s ^ 2 -
      y * (y / 2 - s + y ^ 2 / 3 - 3 / 2 * y * s + s ^ 2) * (1 + y) - y ^ 2 +
        391 / 500 * (y * s) + 157 / 100 * (y ^ 2 * s)) = s * c - k - s ^ 2 * m := by
    rw [hk, hc, hm]
    ring
  rw [e]
  rcases le_total y 0.25 with h | h
  · have h1 : 0 ≤ y * (1.354 * y - s) ^ 2 := by positivity
    have h2 : 0.574 * y ^ 2 + 4.07 * y ^ 3 + 1.5 * y ^ 4 ≤ 0.11 := by
      have b2 := pow_le_pow_left₀ hy h 2
      have b3 := pow_le_pow_left₀ hy h 3
      have b4 := pow_le_pow_left₀ hy h 4
      norm_num at b2 b3 b4 ⊢
      linarith
    have h3 := mul_le_mul_of_nonneg_left h2 hs
    have h4 : 0 ≤ s ^ 2 * (y ^ 2 + y ^ 3) := by positivity
    have h5 : 0 ≤ y ^ 3 := by positivity
    have h6 : 0 ≤ y ^ 4 := by positivity
    have h7 : 0 ≤ y ^ 5 := by positivity
    rw [hk, hc, hm]
    norm_num at h1 h3 ⊢
    nlinarith
  · have b1 : m * (483 / 2000) ^ 2 ≤ k := by
      rw [hk, hm]
      norm_num at h
      have : 0 ≤ y * (y - 1 / 4) := mul_nonneg hy (by linarith)
      nlinarith [mul_nonneg hy this, mul_nonneg hy (mul_nonneg hy this), pow_nonneg hy 5, pow_nonneg hy 4]
    have b2 : c - k * (2000 / 483) - 483 / 2000 * m ≤ 0.11 := by
      rw [hk, hc, hm]
      norm_num at h ⊢
      have q1 : 0 ≤ (y - 1 / 4) * (37 / 100 - y) := mul_nonneg (by linarith) (by linarith)
      nlinarith [mul_nonneg hy q1, mul_nonneg hy (mul_nonneg hy q1), pow_nonneg hy 5, pow_nonneg hy 4]
    have b3 := mul_le_mul_of_nonneg_left b2 hs
    have hm0 : 0 ≤ m := by rw [hm]; positivity
    have b4 : 0 ≤ (483 / 2000 - s) * (k - m * (483 / 2000) * s) := by
      refine mul_nonneg (by linarith) ?_
      nlinarith
    norm_num at b3 ⊢
    nlinarith

theorem asyP_lo {y s : ℝ} (hy : 0 ≤ y) (hy1 : y ≤ 0.37) (hs : 0 ≤ s) (hs1 : s ≤ 0.2415) :
    -(0.112 - 0.4 * s) ≤ y * asyP y s (1 + (y / 2 - s + y ^ 2 / 3 - 3 / 2 * y * s + s ^ 2)) := by
  obtain ⟨E1, E2⟩ := asyE hy hy1 hs hs1
  have k1 :
      -y ^ 2 / 3 + 3 / 2 * y * s - s ^ 2 - y * (y / 2 - s + y ^ 2 / 3 - 3 / 2 * y * s + s ^ 2) * (1 + y) - y ^ 2 +
        0.32 * (y * s) ≤ asyP y s (1 + (y / 2 - s + y ^ 2 / 3 - 3 / 2 * y * s + s ^ 2)) := by
    unfold asyP
    generalize hE : 1 + (y / 2 - s + y ^ 2 / 3 - 3 / 2 * y * s + s ^ 2) = E at *
    have hε : y / 2 - s + y ^ 2 / 3 - 3 / 2 * y * s + s ^ 2 = E - 1 := by rw [← hE]; ring
    rw [hε]
    have hE2 : 0.64 ≤ E ^ 2 := by norm_num at E1 E2 ⊢; nlinarith
    have hsE : s * E ≤ 3 := by norm_num at E1 E2 hs1 ⊢; nlinarith
    have a1 : y * s * 0.64 ≤ y * s * E ^ 2 := mul_le_mul_of_nonneg_left hE2 (by positivity)
    have a2 : y ^ 2 * s * E ^ 2 * (s * E) ≤ y ^ 2 * s * E ^ 2 * 3 := mul_le_mul_of_nonneg_left hsE (by positivity)
    norm_num at a1 a2 ⊢
    nlinarith
  refine le_trans ?_ (mul_le_mul_of_nonneg_left k1 hy)
  clear k1 E1 E2
  norm_num at hy1 hs1 ⊢
  nlinarith [mul_nonneg hy hs, mul_nonneg (mul_nonneg hy hs) (sub_nonneg.2 hs1), mul_nonneg (mul_nonneg hy hs) (sub_nonneg.2 hy1), mul_nonneg (mul_nonneg hy hy) (mul_nonneg hs hs), mul_nonneg (mul_nonneg hy hy) (mul_nonneg hs (sub_nonneg.2 hs1)), mul_nonneg (mul_nonneg hy hy) (mul_nonneg hs (sub_nonneg.2 hy1)), mul_nonneg (mul_nonneg (mul_nonneg hy hy) hs) (mul_nonneg hy (sub_nonneg.2 hs1)), pow_nonneg hy 3, pow_nonneg hy 4, pow_nonneg hy 5]

/-- the numbers `V = 0.37 - 0.296 s` bound `1 - w/z`; the fourth order terms they leave -/
theorem asy_budget {s : ℝ} (hs : 0 < s) (hs1 : s ≤ 0.2415) :
    0.11 * s ^ 2 + (0.37 - 0.296 * s) ^ 4 / (1 - (0.37 - 0.296 * s)) ≤
        0.0049 * (1 + (1 - (0.37 - 0.296 * s)) / s) ∧
      s * (0.112 - 0.4 * s) + (0.37 - 0.296 * s) ^ 4 / (1 - (0.37 - 0.296 * s)) ≤
        0.0049 * (1 + (1 - (0.37 - 0.296 * s)) / s) := by
  norm_num at hs1
  have hd : 0 < 0.63 + 0.296 * s := by norm_num; linarith
  have e : 1 - (0.37 - 0.296 * s) = 0.63 + 0.296 * s := by norm_num; ring
  rw [e]
  have h4 : (0.37 - 0.296 * s) ^ 4 / (0.63 + 0.296 * s) ≤ 0.0299 - 0.104 * s + 0.115 * s ^ 2 := by
    rw [div_le_iff₀ hd]
    norm_num
    nlinarith [mul_nonneg hs.le (sub_nonneg.2 hs1), mul_nonneg (mul_nonneg hs.le hs.le) (sub_nonneg.2 hs1), mul_nonneg (mul_nonneg hs.le (mul_nonneg hs.le hs.le)) (sub_nonneg.2 hs1)]
  have h5 : 0.0049 * (1 + (0.63 + 0.296 * s) / s) = 0.0049 * 1.296 + 0.0049 * 0.63 / s := by
    field_simp
    norm_num
    ring
  have h6 : 0.11 * s ^ 2 + (0.0299 - 0.104 * s + 0.115 * s ^ 2) - 0.0049 * 1.296 ≤ 0.0049 * 0.63 / s := by
    rw [le_div_iff₀ hs]
    norm_num
    nlinarith [mul_nonneg hs.le (sub_nonneg.2 hs1), mul_nonneg (mul_nonneg hs.le hs.le) (sub_nonneg.2 hs1),
      mul_nonneg hs.le (sq_nonneg (s - 0.2)), sq_nonneg (s - 0.2)]
  have h7 : s * (0.112 - 0.4 * s) + (0.0299 - 0.104 * s + 0.115 * s ^ 2) - 0.0049 * 1.296 ≤ 0.0049 * 0.63 / s := by
    rw [le_div_iff₀ hs]
    norm_num
    nlinarith [mul_nonneg hs.le (sub_nonneg.2 hs1), mul_nonneg hs.le (sq_nonneg (s - 0.175)), sq_nonneg (s - 0.175)]
  rw [h5]
  constructor <;> linarith

theorem omegaAsym_le {z : ℝ} (hz : 4.1415 ≤ z) :
    0 < omegaAsym z ∧ |z - omegaAsym z - Real.log (omegaAsym z)| ≤ 0.0049 * (1 + omegaAsym z) := by
  norm_num at hz
  have hz0 : 0 < z := by linarith
  have hy : 0 ≤ Real.log z / z := div_nonneg (Real.log_nonneg (by linarith)) hz0.le
  have hy1 : Real.log z / z ≤ 0.37 := by
    rw [div_le_iff₀ hz0]
    have he := Real.exp_one_gt_d9
    have h1 := Real.log_le_sub_one_of_pos (div_pos hz0 (Real.exp_pos 1))
    rw [Real.log_div hz0.ne' (Real.exp_pos 1).ne', Real.log_exp] at h1
    have h2 : z / Real.exp 1 ≤ 0.37 * z := by
      rw [div_le_iff₀ (Real.exp_pos 1)]
      norm_num at he ⊢
      nlinarith
    linarith
  have hs : 0 < 1 / z := by positivity
  have hs1 : 1 / z ≤ 0.2415 := by
    rw [div_le_iff₀ hz0]
    norm_num
    linarith
  rw [omegaAsym_eq hz0]
  have hl : Real.log z = Real.log z / z / (1 / z) := by field_simp
  have hzs : z = 1 / (1 / z) := by field_simp
  obtain ⟨E1, E2⟩ := asyE hy hy1 hs.le hs1
  have up := asyP_up hy hy1 hs.le hs1
  have lo := asyP_lo hy hy1 hs.le hs1
  obtain ⟨b1, b2⟩ := asy_budget hs hs1
  have hp := asyP_eq (Real.log z / z) (1 / z)
  have hv0 : 0 ≤ asyV (Real.log z / z) (1 / z) := by
    unfold asyV
    have : (1 / z) * (1 + (Real.log z / z / 2 - 1 / z + (Real.log z / z) ^ 2 / 3 - 3 / 2 * (Real.log z / z) * (1 / z) + (1 / z) ^ 2)) ≤ 1 := by
      norm_num at hs1 E1 E2 hs ⊢
      nlinarith
    nlinarith
  have hv1 : asyV (Real.log z / z) (1 / z) ≤ 0.37 - 0.296 * (1 / z) := by
    unfold asyV
    generalize 1 + (Real.log z / z / 2 - 1 / z + (Real.log z / z) ^ 2 / 3 - 3 / 2 * (Real.log z / z) * (1 / z) +
      (1 / z) ^ 2) = E at *
    generalize Real.log z / z = y at *
    generalize 1 / z = s at *
    norm_num at *
    have : y * (1 - s * E) ≤ 37 / 100 * (1 - s * (4 / 5)) :=
      mul_le_mul hy1 (by nlinarith) (by nlinarith) (by norm_num)
    nlinarith
  have hlv : z * asyV (Real.log z / z) (1 / z) - Real.log z =
      -(Real.log z / z) - (Real.log z / z) * (Real.log z / z / 2 - 1 / z) -
        (Real.log z / z) * ((Real.log z / z) ^ 2 / 3 - 3 / 2 * (Real.log z / z) * (1 / z) + (1 / z) ^ 2) := by
    unfold asyV
    field_simp
    ring
  have hzz : z * (1 / z) = 1 := by field_simp
  generalize asyP (Real.log z / z) (1 / z) (1 + (Real.log z / z / 2 - 1 / z + (Real.log z / z) ^ 2 / 3 -
    3 / 2 * (Real.log z / z) * (1 / z) + (1 / z) ^ 2)) = p at *
  generalize asyV (Real.log z / z) (1 / z) = v at *
  have hvk : v < 1 := by
    norm_num at hv1
    have : 0 < z⁻¹ := by positivity
    linarith
  refine ⟨mul_pos hz0 (by linarith), ?_⟩
  rw [Real.log_mul hz0.ne' (by linarith)]
  have h3 := log_third (x := v) (by rw [abs_of_nonneg hv0]; exact hvk)
  rw [abs_of_nonneg hv0] at h3
  have hV : v ^ 4 / (1 - v) ≤ (0.37 - 0.296 * (1 / z)) ^ 4 / (1 - (0.37 - 0.296 * (1 / z))) := by
    refine div_le_div₀ (pow_nonneg (hv0.trans hv1) 4) (pow_le_pow_left₀ hv0 hv1 4) ?_ (by linarith)
    norm_num
    have : 0 < z⁻¹ := by positivity
    linarith
  have h4 : z - z * (1 - v) - (Real.log z + Real.log (1 - v)) =
      (Real.log z / z) * (1 / z) * p - (v + v ^ 2 / 2 + v ^ 3 / 3 + Real.log (1 - v)) := by
    rw [← hp]
    linear_combination hlv
  have h5 : (1 - (0.37 - 0.296 * (1 / z))) / (1 / z) ≤ z * (1 - v) := by
    rw [div_le_iff₀ hs]
    have : z * (1 - v) * (1 / z) = 1 - v := by field_simp
    rw [this]
    linarith
  have u1 : (Real.log z / z) * (1 / z) * p ≤ 0.11 * (1 / z) ^ 2 := by
    have := mul_le_mul_of_nonneg_right up hs.le
    calc (Real.log z / z) * (1 / z) * p = Real.log z / z * p * (1 / z) := by ring
      _ ≤ _ := this
      _ = _ := by ring
  have l1 : -((1 / z) * (0.112 - 0.4 * (1 / z))) ≤ (Real.log z / z) * (1 / z) * p := by
    have := mul_le_mul_of_nonneg_right lo hs.le
    calc -((1 / z) * (0.112 - 0.4 * (1 / z))) = -(0.112 - 0.4 * (1 / z)) * (1 / z) := by ring
      _ ≤ _ := this
      _ = _ := by ring
  rw [h4]
  obtain ⟨q1, q2⟩ := abs_le.1 h3
  rw [abs_le]
  constructor <;> linarith

/-- the equation defining the Wright omega function is met to nine digits -/
theorem wrightOmega_residual {z : ℝ} (hz : 0 ≤ z) :
    0 < wrightOmega z ∧ |z - wrightOmega z - Real.log (wrightOmega z)| ≤ 1e-9 := by
  have h0 : PFloat.lt z 0 = false := by
    show decide (z < 0) = false
    simpa using hz
  have hg : 0 < (if lt z (1 + 3.14159265358979323846) then omegaTaylor z else omegaAsym z) ∧
      |z - (if lt z (1 + 3.14159265358979323846) then omegaTaylor z else omegaAsym z) -
        Real.log (if lt z (1 + 3.14159265358979323846) then omegaTaylor z else omegaAsym z)| ≤
      0.0049 * (1 + (if lt z (1 + 3.14159265358979323846) then omegaTaylor z else omegaAsym z)) := by
    split
    · next h =>
      have h : z < 1 + 3.14159265358979323846 := of_decide_eq_true h
      rw [omegaTaylor_eq]
      have a1 : -1 ≤ z - 1 := by linarith
      have a2 : z - 1 ≤ 3.1416 := by norm_num at h ⊢; linarith
      have := tay_pos a1 a2
      have h2 := tayRes_le a1 a2
      unfold tayRes at h2
      rw [add_sub_cancel] at h2
      exact ⟨by norm_num at this; linarith, h2⟩
    · next h =>
      have h : ¬ z < 1 + 3.14159265358979323846 := fun h' => h (decide_eq_true h')
      exact omegaAsym_le (by norm_num at h ⊢; linarith)
  have := rounds_residual hg.1 hg.2
  unfold wrightOmega
  rw [if_neg (by rw [h0]; decide)]
  exact this

end Ecos.Exp
