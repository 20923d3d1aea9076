import Verif.Lemmas.Omega3
import Verif.Props.ExpDeriv
import Mathlib.Topology.Order.IntermediateValue

/-!
# C58: the primal part of the barrier is the conjugate of the dual barrier

`primalBarrier` calls `wrightOmega`, a series followed by two rounds of an iteration.  The function it stands
for is the solution `o` of `o + log o = z`.
-/
namespace Ecos.Exp

open Finset

/-- `o` is the value of the Wright omega function at `z` -/
def IsOmega (z o : ℝ) : Prop := 0 < o ∧ o + Real.log o = z

theorem omega_lip {a b : ℝ} (ha : 0 < a) (hb : 0 < b) :
    |a - b| ≤ |(a + Real.log a) - (b + Real.log b)| := by
  rcases le_total a b with h | h
  · have := Real.log_le_log ha h
    rw [abs_of_nonpos (by linarith), abs_of_nonpos (by linarith)]
    linarith
  · have := Real.log_le_log hb h
    rw [abs_of_nonneg (by linarith), abs_of_nonneg (by linarith)]
    linarith

theorem omega_unique (z : ℝ) : ∃! o, IsOmega z o := by
  have hc : ContinuousOn (fun o : ℝ => o + Real.log o) (Set.Icc (Real.exp (-|z| - 1)) (|z| + 1)) := by
    refine continuousOn_id.add (Real.continuousOn_log.mono ?_)
    intro x hx
    have : 0 < x := (Real.exp_pos _).trans_le hx.1
    simpa using this.ne'
  have h0 := abs_nonneg z
  have h1 : Real.exp (-|z| - 1) ≤ 1 := by
    rw [Real.exp_le_one_iff]
    linarith
  have hm : z ∈ Set.Icc (Real.exp (-|z| - 1) + Real.log (Real.exp (-|z| - 1))) (|z| + 1 + Real.log (|z| + 1)) := by
    constructor
    · rw [Real.log_exp]
      linarith [neg_abs_le z]
    · have := Real.log_nonneg (x := |z| + 1) (by linarith)
      linarith [le_abs_self z]
  obtain ⟨o, ho, he⟩ := intermediate_value_Icc (by linarith) hc hm
  have hp : 0 < o := (Real.exp_pos _).trans_le ho.1
  refine ⟨o, ⟨hp, he⟩, ?_⟩
  rintro b ⟨hb, hbe⟩
  have := omega_lip hb hp
  simp only at he
  rw [hbe, he, sub_self, abs_zero] at this
  exact sub_eq_zero.1 (abs_nonpos_iff.1 this)

/-- **C58, accuracy.**  In exact arithmetic `wrightOmega` returns the Wright omega function to within 1e-9 at
every nonnegative argument. -/
theorem C58_omega {z : ℝ} (hz : 0 ≤ z) : ∃ o, IsOmega z o ∧ |wrightOmega z - o| ≤ 1e-9 := by
  obtain ⟨o, ho, -⟩ := omega_unique z
  refine ⟨o, ho, ?_⟩
  obtain ⟨h1, h2⟩ := wrightOmega_residual hz
  refine (omega_lip h1 ho.1).trans ?_
  rw [ho.2, abs_sub_comm]
  rw [sub_sub] at h2
  exact h2

/-! ### the conjugate -/

/-- how far inside the cone a point is, on a logarithmic scale; positive exactly at the interior points -/
noncomputable def depth (x y z : ℝ) : ℝ := Real.log y - Real.log z - x / z

theorem depth_pos {x y z : ℝ} (h : IntExp x y z) : 0 < depth x y z := by
  have h0 : 0 < z * Real.exp (x / z) := mul_pos h.1 (Real.exp_pos _)
  have := Real.log_lt_log h0 h.2
  rw [Real.log_mul h.1.ne' (Real.exp_pos _).ne', Real.log_exp] at this
  unfold depth
  linarith

theorem omega_depth {x y z o : ℝ} (h : IntExp x y z) (ho : IsOmega (1 - x / z - Real.log z + Real.log y) o) :
    depth x y z / 2 ≤ o - 1 ∧ 1 < o := by
  have hd := depth_pos h
  have h1 := Real.log_le_sub_one_of_pos ho.1
  have h2 := ho.2
  have : depth x y z / 2 ≤ o - 1 := by
    unfold depth at *
    linarith
  exact ⟨this, by linarith⟩

noncomputable def conjAux (k a : ℝ) : ℝ :=
  Real.log a + Real.log (1 + a) + a * (Real.log (1 + a) - Real.log a) - a * k

theorem conjAux_deriv {k a : ℝ} (ha : 0 < a) :
    HasDerivAt (conjAux k) (1 / a + Real.log (1 + a) - Real.log a - k) a := by
  have hi := hasDerivAt_id a
  have h1 := Real.hasDerivAt_log ha.ne'
  have h2 : HasDerivAt (fun x : ℝ => Real.log (1 + x)) (1 / (1 + a)) a := by
    have := ((hasDerivAt_const a (1 : ℝ)).add hi).log (by simp; linarith)
    simpa using this
  have h := ((h1.add h2).add (hi.mul (h2.sub h1))).sub (hi.mul_const k)
  refine h.congr_deriv ?_
  have : 1 + a ≠ 0 := by linarith
  simp only [id, Pi.sub_apply]
  field_simp
  ring

theorem conjAux_max {o a : ℝ} (ho : 1 < o) (ha : 0 < a) :
    conjAux (o + Real.log o - 1) a ≤ conjAux (o + Real.log o - 1) (1 / (o - 1)) := by
  have hs : 0 < 1 / (o - 1) := by
    have : 0 < o - 1 := by linarith
    positivity
  have key : ∀ x : ℝ, 0 < x → 1 / x + Real.log (1 + x) - Real.log x = (1 + 1 / x) + Real.log (1 + 1 / x) - 1 := by
    intro x hx
    have : 1 + 1 / x = (1 + x) / x := by field_simp; ring
    rw [this, Real.log_div (by linarith) hx.ne', ← this]
    ring
  have h1s : 1 + 1 / (1 / (o - 1)) = o := by
    rw [one_div_one_div]
    ring
  rcases le_total a (1 / (o - 1)) with h | h
  · have := le_of_deriv (f := fun x => -conjAux (o + Real.log o - 1) x) (G := fun _ => (0 : ℝ)) (G' := fun _ => 0) h
      (fun x hx => (conjAux_deriv (lt_of_lt_of_le ha hx.1)).neg) (fun x _ => hasDerivAt_const x 0) (fun x hx => by
        have hx0 := lt_of_lt_of_le ha hx.1
        rw [key x hx0]
        have h3 : 1 / (1 / (o - 1)) ≤ 1 / x := one_div_le_one_div_of_le hx0 hx.2
        have h4 : o ≤ 1 + 1 / x := by linarith
        have := Real.log_le_log (by linarith) h4
        linarith)
    linarith
  · have := le_of_deriv (f := fun x => conjAux (o + Real.log o - 1) x) (G := fun _ => (0 : ℝ)) (G' := fun _ => 0) h
      (fun x hx => conjAux_deriv (lt_of_lt_of_le hs hx.1)) (fun x _ => hasDerivAt_const x 0) (fun x hx => by
        have hx0 := lt_of_lt_of_le hs hx.1
        rw [key x hx0]
        have h3 : 1 / x ≤ 1 / (1 / (o - 1)) := one_div_le_one_div_of_le hs hx.1
        have h4 : 1 + 1 / x ≤ o := by linarith
        have := Real.log_le_log (by positivity) h4
        linarith)
    linarith

theorem conjAux_star {o : ℝ} (ho : 1 < o) :
    conjAux (o + Real.log o - 1) (1 / (o - 1)) = -Real.log ((o - 1) ^ 2 / o) - 1 := by
  have h0 : 0 < o - 1 := by linarith
  have h1 : 1 + 1 / (o - 1) = o / (o - 1) := by field_simp; ring
  unfold conjAux
  rw [h1, Real.log_div (x := o) (by linarith) h0.ne', Real.log_div one_ne_zero h0.ne', Real.log_one,
    Real.log_div (by positivity) (by linarith), Real.log_pow]
  field_simp
  push_cast
  ring

/-- the conjugate of the dual barrier at a point of the exponential cone: the largest value of `-⟨s, ·⟩ - F`
over the interior of the dual cone -/
def IsConj (x y z c : ℝ) : Prop :=
  IsGreatest {t | ∃ u v w, IntExpDual u v w ∧ t = -(x * u + y * v + z * w) - barrier (u, v, w)} c

theorem conj_eq {x y z o : ℝ} (h : IntExp x y z) (ho : IsOmega (1 - x / z - Real.log z + Real.log y) o) :
    IsConj x y z (-Real.log ((o - 1) ^ 2 / o) - 2 * Real.log z - Real.log y - 3) := by
  obtain ⟨-, ho1⟩ := omega_depth h ho
  have hz := h.1
  have hy : 0 < y := lt_trans (mul_pos hz (Real.exp_pos _)) h.2
  have hk := ho.2
  have h0 : 0 < o - 1 := by linarith
  constructor
  · -- attained
    set a := 1 / (o - 1) with had
    have ha : 0 < a := by rw [had]; positivity
    set l := Real.log (1 + a) - Real.log y - (Real.log a - Real.log z) with hl
    have hlog : Real.log (-((1 + a) / y) / (-(a / z))) = l := by
      have : -((1 + a) / y) / (-(a / z)) = ((1 + a) / y) / (a / z) := neg_div_neg_eq _ _
      rw [this, Real.log_div (by positivity) (by positivity), Real.log_div (by positivity) hy.ne',
        Real.log_div ha.ne' hz.ne', hl]
    have hψ : dpsi (-(a / z)) ((1 + a) / y) (1 / z + -(a / z) + -(a / z) * l) = 1 / z := by
      unfold dpsi
      rw [hlog]
      ring
    refine ⟨-(a / z), (1 + a) / y, 1 / z + -(a / z) + -(a / z) * l,
      intDual_of_psi (by rw [neg_lt_zero]; positivity) (by positivity) (by rw [hψ]; positivity), ?_⟩
    unfold barrier
    simp only
    rw [hlog]
    have e1 : 1 / z + -(a / z) + -(a / z) * l - -(a / z) - -(a / z) * l = 1 / z := by ring
    rw [e1, neg_neg, Real.log_div (x := 1 + a) (by positivity) hy.ne', Real.log_div ha.ne' hz.ne',
      Real.log_div one_ne_zero hz.ne', Real.log_one]
    have hst := conjAux_star ho1
    rw [← had] at hst
    have e2 : x * -(a / z) + y * ((1 + a) / y) + z * (1 / z + -(a / z) + -(a / z) * l) =
        -a * (x / z) + (1 + a) + (1 - a - a * l) := by
      field_simp
      ring
    rw [e2]
    unfold conjAux at hst
    rw [hk] at hst
    rw [hl]
    linear_combination -hst
  · rintro t ⟨u, v, w, hd, rfl⟩
    obtain ⟨hu, hv, hψ⟩ := intDual_iff.1 hd
    have hp : 0 < -u := by linarith
    have hlog : Real.log (-v / u) = Real.log v - Real.log (-u) := by
      have : -v / u = v / -u := by rw [div_neg, neg_div]
      rw [this, Real.log_div hv.ne' hp.ne']
    unfold barrier
    simp only
    have e1 : w - u - u * Real.log (-v / u) = dpsi u v w := by
      unfold dpsi
      ring
    rw [e1]
    have hw : w = dpsi u v w + u + u * (Real.log v - Real.log (-u)) := by
      rw [← hlog]
      unfold dpsi
      ring
    generalize dpsi u v w = r at *
    set a := -u * z with had
    have ha : 0 < a := mul_pos hp hz
    have b1 := Real.log_le_sub_one_of_pos (mul_pos hz hψ)
    rw [Real.log_mul hz.ne' hψ.ne'] at b1
    have b2 := Real.log_le_sub_one_of_pos (x := y * v / (1 + a)) (by positivity)
    rw [Real.log_div (by positivity) (by positivity), Real.log_mul hy.ne' hv.ne'] at b2
    have b3 := mul_le_mul_of_nonneg_left b2 (show 0 ≤ 1 + a by linarith)
    have b4 : (1 + a) * (y * v / (1 + a) - 1) = y * v - (1 + a) := by field_simp
    rw [b4] at b3
    have b5 := conjAux_max ho1 ha
    rw [conjAux_star ho1] at b5
    unfold conjAux at b5
    rw [hk] at b5
    have b6 : Real.log a = Real.log (-u) + Real.log z := by rw [had, Real.log_mul hp.ne' hz.ne']
    rw [b6] at b5
    have b7 : x * u = -(a * (x / z)) := by
      rw [had]
      field_simp
    have b8 : z * w = z * r - a - a * (Real.log v - Real.log (-u)) := by
      rw [hw, had]
      ring
    rw [b7, b8]
    linarith

theorem abs_log_le {h : ℝ} (hh : |h| ≤ 1 / 2) : |Real.log (1 + h)| ≤ 2 * |h| := by
  refine (log_first (by linarith)).trans ?_
  rw [div_le_iff₀ (by linarith)]
  nlinarith [abs_nonneg h]

/-- **C58, primal barrier.**  At every point strictly inside the exponential cone the conjugate of the dual
barrier exists and the computed primal barrier value is within `1.2e-8 / depth` of it, unless the point is
within a relative `4e-9` of the boundary. -/
theorem C58_primal {x y z : ℝ} (h : IntExp x y z) : ∃ c, IsConj x y z c ∧
    (4e-9 ≤ depth x y z → |primalBarrier x y z - c| ≤ 1.2e-8 / depth x y z) := by
  obtain ⟨o, ho, hacc⟩ := C58_omega (z := 1 - x / z - Real.log z + Real.log y) (by
    have := depth_pos h
    unfold depth at this
    linarith)
  obtain ⟨hd, ho1⟩ := omega_depth h ho
  refine ⟨_, conj_eq h ho, fun hδ => ?_⟩
  have hd0 := depth_pos h
  obtain ⟨b1, -⟩ := wrightOmega_residual (z := 1 - x / z - Real.log z + Real.log y) (by
    have := hd0
    unfold depth at this
    linarith)
  have e1 : primalBarrier x y z = -Real.log ((wrightOmega (1 - x / z - Real.log z + Real.log y) - 1) *
      (wrightOmega (1 - x / z - Real.log z + Real.log y) - 1) /
        wrightOmega (1 - x / z - Real.log z + Real.log y)) - 2.0 * Real.log z - Real.log y - 3.0 := rfl
  rw [e1]
  generalize wrightOmega (1 - x / z - Real.log z + Real.log y) = w at *
  have h0 : 0 < o - 1 := by linarith
  have hop : 0 < o := by linarith
  generalize depth x y z = g at *
  norm_num at hacc hδ
  set p := (w - o) / (o - 1) with hp
  set q := (w - o) / o with hq
  have hpa : |p| ≤ 2e-9 / g := by
    rw [hp, abs_div, abs_of_pos h0, div_le_div_iff₀ h0 hd0]
    norm_num
    nlinarith [abs_nonneg (w - o)]
  have hqa : |q| ≤ 2e-9 / g := by
    rw [hq, abs_div, abs_of_pos hop, div_le_div_iff₀ hop hd0]
    norm_num
    nlinarith [abs_nonneg (w - o)]
  have hh : 2e-9 / g ≤ 1 / 2 := by
    rw [div_le_iff₀ hd0]
    norm_num
    linarith
  obtain ⟨p1, p2⟩ := abs_le.1 (hpa.trans hh)
  obtain ⟨q1, q2⟩ := abs_le.1 (hqa.trans hh)
  have ew : w - 1 = (o - 1) * (1 + p) := by
    rw [hp]
    field_simp
    ring
  have ew' : w = o * (1 + q) := by
    rw [hq]
    field_simp
    ring
  have hpp : 0 < 1 + p := by linarith
  have hqp : 0 < 1 + q := by linarith
  have e2 : Real.log ((w - 1) * (w - 1) / w) =
      2 * Real.log (o - 1) + 2 * Real.log (1 + p) - Real.log o - Real.log (1 + q) := by
    have hw1 : 0 < w - 1 := by rw [ew]; exact mul_pos h0 hpp
    rw [Real.log_div (by positivity) b1.ne', Real.log_mul hw1.ne' hw1.ne', ew, Real.log_mul h0.ne' hpp.ne', ew',
      Real.log_mul hop.ne' hqp.ne']
    ring
  have e3 : Real.log ((o - 1) ^ 2 / o) = 2 * Real.log (o - 1) - Real.log o := by
    rw [Real.log_div (by positivity) hop.ne', Real.log_pow]
    push_cast
    ring
  rw [e2, e3]
  have l1 := abs_log_le (hpa.trans hh)
  have l2 := abs_log_le (hqa.trans hh)
  have e4 : -(2 * Real.log (o - 1) + 2 * Real.log (1 + p) - Real.log o - Real.log (1 + q)) - 2.0 * Real.log z -
      Real.log y - 3.0 - (-(2 * Real.log (o - 1) - Real.log o) - 2 * Real.log z - Real.log y - 3) =
      -(2 * Real.log (1 + p)) + Real.log (1 + q) := by
    norm_num
    ring
  rw [e4]
  refine (abs_add_le _ _).trans ?_
  rw [abs_neg, abs_mul, abs_of_pos (a := (2 : ℝ)) (by norm_num)]
  have e5 : (1.2e-8 : ℝ) / g = 6 * (2e-9 / g) := by
    norm_num
    ring
  rw [e5]
  linarith

/-- **C58.**  `evalBarrierValue` returns, up to the stated tolerance, the sum over the cones of the dual
barrier and of its conjugate at the primal point. -/
theorem C58_barrier_value {sb zb : Buf ℝ} {fc n : Nat} {s z : Nat → ℝ} (hs : Has sb fc (3 * n) s)
    (hz : Has zb fc (3 * n) z) (hi : ∀ j < n, IntExp (s (3 * j)) (s (3 * j + 1)) (s (3 * j + 2)))
    (hδ : ∀ j < n, 4e-9 ≤ depth (s (3 * j)) (s (3 * j + 1)) (s (3 * j + 2))) :
    ∃ (val : ℝ) (c : Nat → ℝ), evalBarrierValue sb zb fc n = .ok val ∧
      (∀ j < n, IsConj (s (3 * j)) (s (3 * j + 1)) (s (3 * j + 2)) (c j)) ∧
      |val - ∑ j ∈ range n, (c j + barrier (z (3 * j), z (3 * j + 1), z (3 * j + 2)))| ≤
        ∑ j ∈ range n, 1.2e-8 / depth (s (3 * j)) (s (3 * j + 1)) (s (3 * j + 2)) := by
  have hc : ∀ j, ∃ c, j < n → IsConj (s (3 * j)) (s (3 * j + 1)) (s (3 * j + 2)) c ∧
      |primalBarrier (s (3 * j)) (s (3 * j + 1)) (s (3 * j + 2)) - c| ≤
        1.2e-8 / depth (s (3 * j)) (s (3 * j + 1)) (s (3 * j + 2)) := by
    intro j
    by_cases hj : j < n
    · obtain ⟨c, h1, h2⟩ := C58_primal (hi j hj)
      exact ⟨c, fun _ => ⟨h1, h2 (hδ j hj)⟩⟩
    · exact ⟨0, fun h => absurd h hj⟩
  choose c hc using hc
  refine ⟨_, c, C30_barrier_value hs hz, fun j hj => (hc j hj).1, ?_⟩
  rw [← sum_add_distrib, ← sum_sub_distrib]
  refine (abs_sum_le_sum_abs _ _).trans (sum_le_sum fun j hj => ?_)
  have := (hc j (mem_range.1 hj)).2
  rw [add_sub_add_right_eq_sub]
  exact this

/-- Example: at (0, 2e, 1) the conjugate is -4, and the code computes it to eight digits -/
theorem omega_example : IsOmega (1 - 0 / 1 - Real.log 1 + Real.log (2 * Real.exp 1)) 2 := by
  refine ⟨by norm_num, ?_⟩
  rw [Real.log_mul (by norm_num) (Real.exp_pos 1).ne', Real.log_exp, Real.log_one]
  ring

theorem int_example : IntExp 0 (2 * Real.exp 1) 1 := by
  refine ⟨one_pos, ?_⟩
  have := Real.exp_one_gt_d9
  norm_num at this ⊢
  linarith

example : |primalBarrier 0 (2 * Real.exp 1) 1 - (-4)| ≤ 1.2e-8 := by
  obtain ⟨c, h1, h2⟩ := C58_primal int_example
  have h3 := conj_eq int_example omega_example
  have hlog : Real.log (2 * Real.exp 1) = Real.log 2 + 1 := by
    rw [Real.log_mul (by norm_num) (Real.exp_pos 1).ne', Real.log_exp]
  have hl2 : 0 < Real.log 2 := Real.log_pos (by norm_num)
  have hd : 1 ≤ depth 0 (2 * Real.exp 1) 1 := by
    unfold depth
    rw [hlog, Real.log_one]
    linarith
  have hc : c = -4 := by
    rw [h1.unique h3, hlog, Real.log_one, Real.log_div (by norm_num) (by norm_num)]
    norm_num
  rw [hc] at h2
  refine (h2 (by norm_num at hd ⊢; linarith)).trans ?_
  exact div_le_self (by norm_num) hd

end Ecos.Exp
