import Verif.Model.ExpCone
import Mathlib.Analysis.SpecialFunctions.Log.Deriv
import Mathlib.Analysis.SpecialFunctions.Log.Monotone
import Mathlib.Analysis.Complex.ExponentialBounds
import Mathlib.Analysis.Calculus.Deriv.MeanValue
import Mathlib.Tactic.FieldSimp
import Mathlib.Tactic.LinearCombination

/-!
# How far one round of the iteration in `wrightOmega` reduces the residual
-/
namespace Ecos.Exp

open Finset

/-- third order expansion of the logarithm -/
theorem log_third {x : ℝ} (h : |x| < 1) :
    |x + x ^ 2 / 2 + x ^ 3 / 3 + Real.log (1 - x)| ≤ |x| ^ 4 / (1 - |x|) := by
  have := Real.abs_log_sub_add_sum_range_le h 3
  simp only [sum_range_succ, sum_range_zero] at this
  norm_num at this
  refine le_trans (le_of_eq ?_) this
  congr 1
  try ring

theorem log_first {x : ℝ} (h : |x| < 1) : |Real.log (1 + x)| ≤ |x| / (1 - |x|) := by
  have := Real.abs_log_sub_add_sum_range_le (x := -x) (by rwa [abs_neg]) 0
  simpa using this

/-- the relative step of one round, in terms of `t = r/(1+w)` and `a = 1/(1+w)` -/
noncomputable def omegaStep (t a : ℝ) : ℝ :=
  t * (1 + 2 * t / 3 - a * t / 2) / (1 + 2 * t / 3 - a * t)

theorem omegaRound_fst {w r : ℝ} (hw : 0 < w) :
    (omegaRound w r).1 = w * (1 + omegaStep (r / (1 + w)) (1 / (1 + w))) := by
  have hz : (1 + w) ≠ 0 := by positivity
  unfold omegaRound omegaStep
  simp only
  have h23 : (2.0 / 3.0 : ℝ) = 2 / 3 := by norm_num
  have h05 : (0.5 : ℝ) = 1 / 2 := by norm_num
  rw [h23, h05]
  have e1 : (1 + w) * (1 + w + 2 / 3 * r) - 1 / 2 * r =
      (1 + w) ^ 2 * (1 + 2 * (r / (1 + w)) / 3 - 1 / (1 + w) * (r / (1 + w)) / 2) := by
    field_simp
  have e2 : (1 + w) * (1 + w + 2 / 3 * r) - r =
      (1 + w) ^ 2 * (1 + 2 * (r / (1 + w)) / 3 - 1 / (1 + w) * (r / (1 + w))) := by
    field_simp
  rw [e1, e2, mul_left_comm, mul_div_mul_left _ _ (pow_ne_zero 2 hz)]

theorem step_den {t a : ℝ} (ht : |t| ≤ 0.005) (ha : 0 ≤ a) (ha1 : a ≤ 1) :
    0.994 ≤ 1 + 2 * t / 3 - a * t ∧ 1 + 2 * t / 3 - a * t ≤ 1.006 := by
  obtain ⟨h1, h2⟩ := abs_le.1 ht
  constructor <;> nlinarith

theorem abs_step {t a : ℝ} (ht : |t| ≤ 0.005) (ha : 0 ≤ a) (ha1 : a ≤ 1) :
    |omegaStep t a| ≤ 1.01 * |t| := by
  obtain ⟨d1, d2⟩ := step_den ht ha ha1
  obtain ⟨h1, h2⟩ := abs_le.1 ht
  unfold omegaStep
  rw [mul_div_assoc, abs_mul, mul_comm]
  refine mul_le_mul_of_nonneg_right ?_ (abs_nonneg _)
  rw [abs_div, abs_of_pos (a := 1 + 2 * t / 3 - a * t) (by linarith), div_le_iff₀ (by linarith), abs_le]
  constructor <;> nlinarith

theorem bracket_le {t a d : ℝ} (h1 : -0.005 ≤ t) (h2 : t ≤ 0.005) (ha : 0 ≤ a) (ha1 : a ≤ 1) (d1 : 0.994 ≤ d)
    (d2 : d ≤ 1.006) : |(-8 / 3 + a - 6 * t * (2 / 3 - a / 2) ^ 2 - 2 * t ^ 2 * (2 / 3 - a / 2) ^ 3 +
          3 * d * (2 / 3 - a / 2) ^ 2) / (6 * d ^ 3)| ≤ 0.48 := by
  have hd3 : 0.98 ≤ d ^ 3 := by
    have : (0.994 : ℝ) ^ 3 ≤ d ^ 3 := pow_le_pow_left₀ (by norm_num) d1 3
    norm_num at this ⊢
    linarith
  rw [abs_div, abs_of_pos (a := 6 * d ^ 3) (by linarith), div_le_iff₀ (by linarith)]
  have m1 : 1 / 6 ≤ 2 / 3 - a / 2 := by linarith
  have m2 : 2 / 3 - a / 2 ≤ 2 / 3 := by linarith
  generalize 2 / 3 - a / 2 = m at *
  have m0 : 0 ≤ m := by linarith
  have m3 : 0 ≤ m ^ 2 := by positivity
  have m4 : m ^ 2 ≤ 4 / 9 := (pow_le_pow_left₀ m0 m2 2).trans (by norm_num)
  have m5 : 0 ≤ m ^ 3 := by positivity
  have m6 : m ^ 3 ≤ 8 / 27 := (pow_le_pow_left₀ m0 m2 3).trans (by norm_num)
  have t2 : t ^ 2 ≤ 0.000025 := by nlinarith
  have t3 : 0 ≤ t ^ 2 := by positivity
  have p1 : |t * m ^ 2| ≤ 0.005 * (4 / 9) := by
    rw [abs_mul, abs_of_nonneg m3]
    exact mul_le_mul (abs_le.2 ⟨h1, h2⟩) m4 m3 (by norm_num)
  obtain ⟨p1, p2⟩ := abs_le.1 p1
  have p3 : 0 ≤ t ^ 2 * m ^ 3 := by positivity
  have p4 : t ^ 2 * m ^ 3 ≤ 0.000025 * (8 / 27) := mul_le_mul t2 m6 m5 (by norm_num)
  have p5 : 0 ≤ d * m ^ 2 := mul_nonneg (by linarith) m3
  have p6 : d * m ^ 2 ≤ 1.006 * (4 / 9) := mul_le_mul d2 m4 m3 (by norm_num)
  have e : -8 / 3 + a - 6 * t * m ^ 2 - 2 * t ^ 2 * m ^ 3 + 3 * d * m ^ 2 =
      -8 / 3 + a - 6 * (t * m ^ 2) - 2 * (t ^ 2 * m ^ 3) + 3 * (d * m ^ 2) := by ring
  rw [e]
  generalize t * m ^ 2 = x1 at *
  generalize t ^ 2 * m ^ 3 = x2 at *
  generalize d * m ^ 2 = x3 at *
  generalize d ^ 3 = x4 at *
  norm_num at *
  rw [abs_le]
  constructor <;> linarith

/-- the residual left by one round is of fourth order -/
theorem round_residual {w r : ℝ} (hw : 0 < w) (hr : |r / (1 + w)| ≤ 0.005) :
    |r - w * omegaStep (r / (1 + w)) (1 / (1 + w)) - Real.log (1 + omegaStep (r / (1 + w)) (1 / (1 + w)))| ≤
      1.55 * (r / (1 + w)) ^ 4 := by
  have hz : (1 + w) ≠ 0 := by positivity
  have ha : (0 : ℝ) ≤ 1 / (1 + w) := by positivity
  have ha1 : 1 / (1 + w) ≤ (1 : ℝ) := by
    rw [div_le_one (by positivity)]
    linarith
  have hrt : r = r / (1 + w) * (1 + w) := by field_simp
  have hwa : w = (1 + w) * (1 - 1 / (1 + w)) := by field_simp; ring
  have hza : (1 + w) * (1 / (1 + w)) = 1 := by field_simp
  generalize r / (1 + w) = t at *
  generalize 1 / (1 + w) = a at *
  obtain ⟨d1, d2⟩ := step_den hr ha ha1
  have he := abs_step hr ha ha1
  obtain ⟨h1, h2⟩ := abs_le.1 hr
  set e := omegaStep t a with hed
  set d := 1 + 2 * t / 3 - a * t with hd
  have hd0 : d ≠ 0 := by linarith
  have hs : 1 + 2 * t / 3 - a * t / 2 = d + a * t / 2 := by rw [hd]; ring
  have hee : e * d = t * (d + a * t / 2) := by
    rw [hed, omegaStep, hs, ← hd]
    field_simp
  -- the linear part of the equation is met up to a square
  have h3 : r - w * e = e - t ^ 2 / (2 * d) := by
    rw [eq_sub_iff_add_eq, ← mul_right_inj' hd0]
    have : d * (t ^ 2 / (2 * d)) = t ^ 2 / 2 := by field_simp
    rw [mul_add, this]
    rw [hrt]
    linear_combination (-(1 + w)) * hee - (t ^ 2 / 2) * hza
  have hek : |e| ≤ 0.0051 := by nlinarith [abs_nonneg t]
  have h4 := log_third (x := -e) (by rw [abs_neg]; linarith)
  rw [abs_neg] at h4
  have h5 : |e| ^ 4 / (1 - |e|) ≤ 1.06 * t ^ 4 := by
    rw [div_le_iff₀ (by linarith)]
    have : |e| ^ 4 ≤ (1.01 * |t|) ^ 4 := pow_le_pow_left₀ (abs_nonneg _) he 4
    have h6 : (1.01 * |t|) ^ 4 = 1.01 ^ 4 * t ^ 4 := by
      rw [mul_pow, Even.pow_abs (by decide)]
    rw [h6] at this
    have h7 : 0 ≤ t ^ 4 := by positivity
    nlinarith
  -- the polynomial part
  have h8 : |e ^ 2 / 2 - e ^ 3 / 3 - t ^ 2 / (2 * d)| ≤ 0.48 * t ^ 4 := by
    have e1 : e = t * (d + a * t / 2) / d := by rw [← hee]; field_simp
    have e2 : e ^ 2 / 2 - e ^ 3 / 3 - t ^ 2 / (2 * d) =
        t ^ 4 * ((-8 / 3 + a - 6 * t * (2 / 3 - a / 2) ^ 2 - 2 * t ^ 2 * (2 / 3 - a / 2) ^ 3 +
          3 * d * (2 / 3 - a / 2) ^ 2) / (6 * d ^ 3)) := by
      rw [e1]
      field_simp
      rw [hd]
      ring
    rw [e2, abs_mul, abs_of_nonneg (a := t ^ 4) (by positivity), mul_comm]
    refine mul_le_mul_of_nonneg_right ?_ (by positivity)
    exact bracket_le h1 h2 ha ha1 d1 d2
  have h9 : r - w * e - Real.log (1 + e) = -((-e + (-e) ^ 2 / 2 + (-e) ^ 3 / 3 + Real.log (1 - -e))) +
      (e ^ 2 / 2 - e ^ 3 / 3 - t ^ 2 / (2 * d)) := by
    rw [h3, sub_neg_eq_add]
    ring
  rw [h9]
  refine (abs_add_le _ _).trans ?_
  rw [abs_neg]
  have : 0 ≤ t ^ 4 := by positivity
  linarith [h4.trans h5]

/-- the residual of the equation after the two rounds -/
theorem rounds_residual {z w : ℝ} (hw : 0 < w) (hr : |(z - w - Real.log w)| ≤ 0.0049 * (1 + w)) :
    let a := omegaRound w (z - w - Real.log w)
    0 < (omegaRound a.1 a.2).1 ∧
      |z - (omegaRound a.1 a.2).1 - Real.log (omegaRound a.1 a.2).1| ≤ 1e-9 := by
  intro a
  have hz : 0 < 1 + w := by positivity
  set r := z - w - Real.log w with hrd
  have ht : |r / (1 + w)| ≤ 0.0049 := by
    rw [abs_div, abs_of_pos hz, div_le_iff₀ hz]
    exact hr
  have ha : (0 : ℝ) ≤ 1 / (1 + w) := by positivity
  have ha1 : 1 / (1 + w) ≤ (1 : ℝ) := by
    rw [div_le_one (by positivity)]
    linarith
  have h1 := round_residual hw (ht.trans (by norm_num))
  have h2 := abs_step (ht.trans (by norm_num)) ha ha1
  have h3 : a.1 = w * (1 + omegaStep (r / (1 + w)) (1 / (1 + w))) := omegaRound_fst hw
  have h4 : a.2 = (2.0 * a.1 * a.1 - 8.0 * a.1 - 1) /
      (72.0 * ((1 + w) * (1 + w) * (1 + w) * (1 + w) * (1 + w) * (1 + w))) * r * r * r * r := rfl
  have h5 : a.2 = (2.0 * a.1 * a.1 - 8.0 * a.1 - 1) / (72.0 * (1 + w) ^ 2) * (r / (1 + w)) ^ 4 := by
    rw [h4]
    field_simp
  generalize omegaStep (r / (1 + w)) (1 / (1 + w)) = e at *
  generalize r / (1 + w) = t at *
  have hek : |e| ≤ 0.005 := by linarith
  obtain ⟨e1, e2⟩ := abs_le.1 hek
  have hw1 : 0 < a.1 := by
    rw [h3]
    exact mul_pos hw (by linarith)
  have hr1 : z - a.1 - Real.log a.1 = r - w * e - Real.log (1 + e) := by
    rw [h3, Real.log_mul hw.ne' (by linarith), hrd]
    ring
  have ht4 : t ^ 4 ≤ 0.0049 ^ 4 := by
    rw [← Even.pow_abs (by decide : Even 4) t]
    exact pow_le_pow_left₀ (abs_nonneg _) ht 4
  have ht0 : 0 ≤ t ^ 4 := by positivity
  have h6 : |a.2| ≤ 0.06 * t ^ 4 := by
    rw [h5, abs_mul, abs_of_nonneg ht0]
    refine mul_le_mul_of_nonneg_right ?_ ht0
    rw [abs_div, abs_of_pos (a := 72.0 * (1 + w) ^ 2) (by norm_num; positivity),
      div_le_iff₀ (by norm_num; positivity)]
    have b1 : a.1 ≤ 1.005 * w := by
      rw [h3]
      nlinarith
    have b2 : a.1 * a.1 ≤ 1.005 * w * (1.005 * w) := mul_le_mul b1 b1 hw1.le (by linarith)
    have b3 : 0 ≤ a.1 * a.1 := by positivity
    rw [abs_le]
    constructor <;> nlinarith
  -- the second round moves the point very little
  have hz1 : 0 < 1 + a.1 := by positivity
  have g1 : |a.2 / (1 + a.1)| ≤ |a.2| := by
    rw [abs_div, abs_of_pos hz1]
    exact div_le_self (abs_nonneg _) (by linarith)
  have g0 : |a.2| ≤ 1e-9 := by
    norm_num at h6 ht4 ⊢
    linarith
  have g2 := abs_step (t := a.2 / (1 + a.1)) (a := 1 / (1 + a.1)) (by norm_num at g0 ⊢; linarith)
    (by positivity) (by rw [div_le_one (by positivity)]; linarith)
  have g3 : (omegaRound a.1 a.2).1 = a.1 * (1 + omegaStep (a.2 / (1 + a.1)) (1 / (1 + a.1))) :=
    omegaRound_fst hw1
  have g4 : |a.2 / (1 + a.1)| * (1 + a.1) = |a.2| := by
    rw [abs_div, abs_of_pos hz1]
    field_simp
  generalize omegaStep (a.2 / (1 + a.1)) (1 / (1 + a.1)) = e' at *
  have g5 : |e'| ≤ 1e-8 := by
    norm_num at g0 g1 g2 ⊢
    linarith
  obtain ⟨g6, g7⟩ := abs_le.1 g5
  norm_num at g6 g7
  have g8 : 0 < 1 + e' := by linarith
  rw [g3]
  refine ⟨mul_pos hw1 g8, ?_⟩
  have g9 : z - a.1 * (1 + e') - Real.log (a.1 * (1 + e')) =
      (r - w * e - Real.log (1 + e)) + -(a.1 * e') + -Real.log (1 + e') := by
    rw [Real.log_mul hw1.ne' g8.ne', ← hr1]
    ring
  have g10 : |Real.log (1 + e')| ≤ 1.01 * |e'| := by
    refine (log_first (by norm_num at g5 ⊢; linarith)).trans ?_
    rw [div_le_iff₀ (by norm_num at g5 ⊢; linarith)]
    norm_num at g5 ⊢
    nlinarith [abs_nonneg e']
  have g11 : |a.1 * e'| = a.1 * |e'| := by rw [abs_mul, abs_of_pos hw1]
  rw [g9]
  refine (abs_add_le _ _).trans ?_
  rw [abs_neg]
  refine (add_le_add (abs_add_le _ _) le_rfl).trans ?_
  rw [abs_neg, g11]
  have g12 : a.1 * |e'| + 1.01 * |e'| ≤ 1.03 * |a.2| := by
    have q0 := abs_nonneg (a.2 / (1 + a.1))
    rw [← g4]
    generalize |a.2 / (1 + a.1)| = x at *
    generalize |e'| = y at *
    generalize a.1 = v at *
    have : y * (v + 1.01) ≤ 1.01 * x * (v + 1.01) := mul_le_mul_of_nonneg_right g2 (by linarith)
    have : 0 ≤ x * v := mul_nonneg q0 hw1.le
    norm_num at *
    linarith
  norm_num at h1 h6 ht4 g10 g12 ⊢
  linarith

end Ecos.Exp
