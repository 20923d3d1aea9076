import Verif.Lemmas.Omega

/-!
# The first guess of `wrightOmega` is close enough for the two rounds
-/
namespace Ecos.Exp

/-- a function whose derivative is bounded by that of `G` stays below `G` -/
theorem le_of_deriv {f G f' G' : ℝ → ℝ} {a b : ℝ} (hab : a ≤ b)
    (hf : ∀ x ∈ Set.Icc a b, HasDerivAt f (f' x) x) (hG : ∀ x ∈ Set.Icc a b, HasDerivAt G (G' x) x)
    (h : ∀ x ∈ Set.Icc a b, f' x ≤ G' x) : f b - f a ≤ G b - G a := by
  have hm : MonotoneOn (fun x => G x - f x) (Set.Icc a b) := by
    refine monotoneOn_of_deriv_nonneg (convex_Icc a b) ?_ ?_ ?_
    · intro x hx
      exact ((hG x hx).sub (hf x hx)).continuousAt.continuousWithinAt
    · intro x hx
      rw [interior_Icc] at hx
      exact ((hG x ⟨hx.1.le, hx.2.le⟩).sub (hf x ⟨hx.1.le, hx.2.le⟩)).differentiableAt.differentiableWithinAt
    · intro x hx
      rw [interior_Icc] at hx
      have hx' : x ∈ Set.Icc a b := ⟨hx.1.le, hx.2.le⟩
      show 0 ≤ deriv (G - f) x
      rw [((hG x hx').sub (hf x hx')).deriv]
      linarith [h x hx']
  have := hm ⟨le_rfl, hab⟩ ⟨hab, le_rfl⟩ hab
  simp only at this
  linarith

/-- the polynomial of the first branch, in `q = z - 1` -/
noncomputable def tay (q : ℝ) : ℝ := 1 + (1 / 2 - 7 / 61440) * q + q ^ 2 / 16 - q ^ 3 / 192

noncomputable def tay' (q : ℝ) : ℝ := (1 / 2 - 7 / 61440) + q / 8 - q ^ 2 / 64

theorem omegaTaylor_eq (z : ℝ) : omegaTaylor z = tay (z - 1) := by
  unfold omegaTaylor tay
  norm_num
  ring

theorem tay_deriv (q : ℝ) : HasDerivAt tay (tay' q) q := by
  have h : HasDerivAt (fun q : ℝ => 1 + (1 / 2 - 7 / 61440) * q + q ^ 2 / 16 - q ^ 3 / 192)
      (0 + (1 / 2 - 7 / 61440) * 1 + (2 * q ^ (2 - 1) * 1) / 16 - (3 * q ^ (3 - 1) * 1) / 192) q := by
    have hi := hasDerivAt_id q
    exact (((hasDerivAt_const q (1 : ℝ)).add (hi.const_mul _)).add ((hi.pow 2).div_const 16)).sub
      ((hi.pow 3).div_const 192)
  refine h.congr_deriv ?_
  unfold tay'
  norm_num
  ring

theorem tay_pos {q : ℝ} (h : -1 ≤ q) (h1 : q ≤ 3.1416) : 0.56 ≤ tay q := by
  unfold tay
  norm_num at h1
  nlinarith [mul_nonneg (sub_nonneg.2 h) (sub_nonneg.2 h1), sq_nonneg q, mul_nonneg (mul_nonneg (sub_nonneg.2 h) (sub_nonneg.2 h1)) (sub_nonneg.2 h)]

/-- residual of the first guess -/
noncomputable def tayRes (q : ℝ) : ℝ := 1 + q - tay q - Real.log (tay q)

noncomputable def tayNum (q : ℝ) : ℝ := tay q - tay' q * (1 + tay q)

theorem tayRes_deriv {q : ℝ} (h : -1 ≤ q) (h1 : q ≤ 3.1416) :
    HasDerivAt tayRes (tayNum q / tay q) q := by
  have hp : tay q ≠ 0 := by have := tay_pos h h1; norm_num at this; linarith
  have := (((hasDerivAt_const q (1 : ℝ)).add (hasDerivAt_id q)).sub (tay_deriv q)).sub ((tay_deriv q).log hp)
  refine this.congr_deriv ?_
  unfold tayNum
  field_simp
  ring

theorem tayRes_zero : tayRes 0 = 0 := by
  unfold tayRes tay
  norm_num

theorem num_up {q : ℝ} (h : 0 ≤ q) (h1 : q ≤ 3.1416) : tayNum q ≤ (5e-4 + 7e-4 * q ^ 3) * tay q := by
  unfold tayNum tay' tay
  norm_num at h1 ⊢
  have h2 : 0 ≤ q ^ 3 * (0.0033 - 0.001278 * q + 1.25e-4 * q ^ 2 - 3.7e-6 * q ^ 3) := by
    refine mul_nonneg (by positivity) ?_
    norm_num
    nlinarith [mul_nonneg h (sub_nonneg.2 h1), sq_nonneg q, mul_nonneg (mul_nonneg h h) (sub_nonneg.2 h1)]
  norm_num at h2
  nlinarith [pow_nonneg h 2, pow_nonneg h 3, pow_nonneg h 4, pow_nonneg h 5]

theorem num_lo {q : ℝ} (h : 0 ≤ q) (h1 : q ≤ 3.1416) : -((5e-4 + 7e-4 * q ^ 3) * tay q) ≤ tayNum q := by
  unfold tayNum tay' tay
  norm_num at h1 ⊢
  nlinarith [pow_nonneg h 2, pow_nonneg h 3, pow_nonneg h 4, pow_nonneg h 5, mul_nonneg (pow_nonneg h 4) (sub_nonneg.2 h1), mul_nonneg (pow_nonneg h 5) (sub_nonneg.2 h1), mul_nonneg h (sq_nonneg (q - 0.7)), mul_nonneg (pow_nonneg h 2) (sq_nonneg (q - 0.7)), sq_nonneg (q-0.7)]

theorem num_neg {p : ℝ} (h : 0 ≤ p) (h1 : p ≤ 1) : |tayNum (-p)| ≤ (1e-3 + 9e-3 * p ^ 3) * tay (-p) := by
  unfold tayNum tay' tay
  norm_num
  rw [abs_le]
  constructor <;>
  nlinarith [pow_nonneg h 2, pow_nonneg h 3, pow_nonneg h 4, pow_nonneg h 5, mul_nonneg (pow_nonneg h 3) (sub_nonneg.2 h1), mul_nonneg (pow_nonneg h 4) (sub_nonneg.2 h1), mul_nonneg (pow_nonneg h 5) (sub_nonneg.2 h1)]

theorem quartic_deriv (A B q : ℝ) : HasDerivAt (fun q : ℝ => A * q + B / 4 * q ^ 4) (A + B * q ^ 3) q := by
  have hi := hasDerivAt_id q
  have h : HasDerivAt (fun q : ℝ => A * q + B / 4 * q ^ 4) (A * 1 + B / 4 * (4 * q ^ (4 - 1) * 1)) q :=
    (hi.const_mul A).add ((hi.pow 4).const_mul (B / 4))
  refine h.congr_deriv ?_
  norm_num
  ring

/-- the first guess of the first branch -/
theorem tayRes_le {q : ℝ} (h : -1 ≤ q) (h1 : q ≤ 3.1416) : |tayRes q| ≤ 0.0049 * (1 + tay q) := by
  rcases le_total 0 q with hq | hq
  · have hb : ∀ x ∈ Set.Icc 0 q, -1 ≤ x ∧ x ≤ 3.1416 := fun x hx => ⟨by linarith [hx.1], hx.2.trans h1⟩
    have hp : ∀ x ∈ Set.Icc 0 q, 0 < tay x := fun x hx => by
      have := tay_pos (hb x hx).1 (hb x hx).2
      norm_num at this
      linarith
    have u := le_of_deriv hq (fun x hx => tayRes_deriv (hb x hx).1 (hb x hx).2)
      (fun x _ => quartic_deriv 5e-4 7e-4 x) (fun x hx => by
        rw [div_le_iff₀ (hp x hx)]
        exact num_up hx.1 (hb x hx).2)
    have l := le_of_deriv hq (fun x _ => (quartic_deriv 5e-4 7e-4 x).neg)
      (fun x hx => tayRes_deriv (hb x hx).1 (hb x hx).2) (fun x hx => by
        rw [le_div_iff₀ (hp x hx), neg_mul]
        exact num_lo hx.1 (hb x hx).2)
    have hk : 5e-4 * q + 7e-4 / 4 * q ^ 4 ≤ 0.0049 * (1 + tay q) := by
      unfold tay
      norm_num at h1 ⊢
      nlinarith [mul_nonneg hq (sub_nonneg.2 h1), pow_nonneg hq 3, mul_nonneg (pow_nonneg hq 2) (sub_nonneg.2 h1),
        mul_nonneg (pow_nonneg hq 3) (sub_nonneg.2 h1)]
    simp only [Pi.neg_apply] at l
    rw [tayRes_zero] at u l
    rw [abs_le]
    norm_num at u l hk ⊢
    constructor <;> linarith
  · have hq0 : 0 ≤ -q := by linarith
    have hb : ∀ x ∈ Set.Icc 0 (-q), x ≤ 1 ∧ -1 ≤ -x ∧ -x ≤ 3.1416 := fun x hx =>
      ⟨by linarith [hx.2], by linarith [hx.2], by norm_num; linarith [hx.1]⟩
    have hp : ∀ x ∈ Set.Icc 0 (-q), 0 < tay (-x) := fun x hx => by
      have := tay_pos (hb x hx).2.1 (hb x hx).2.2
      norm_num at this
      linarith
    have hd : ∀ x ∈ Set.Icc 0 (-q), HasDerivAt (fun x => tayRes (-x)) (-(tayNum (-x) / tay (-x))) x :=
      fun x hx => by
        have := (tayRes_deriv (hb x hx).2.1 (hb x hx).2.2).scomp x (hasDerivAt_neg x)
        refine this.congr_deriv ?_
        simp
    have u := le_of_deriv hq0 hd (fun x _ => quartic_deriv 1e-3 9e-3 x) (fun x hx => by
        rw [neg_le, le_div_iff₀ (hp x hx), neg_mul]
        exact (abs_le.1 (num_neg hx.1 (hb x hx).1)).1)
    have l := le_of_deriv hq0 (fun x _ => (quartic_deriv 1e-3 9e-3 x).neg) hd (fun x hx => by
        rw [neg_le_neg_iff, div_le_iff₀ (hp x hx)]
        exact (abs_le.1 (num_neg hx.1 (hb x hx).1)).2)
    have hk : 1e-3 * -q + 9e-3 / 4 * (-q) ^ 4 ≤ 0.004 := by
      have h2 : (-q) ^ 4 ≤ 1 := pow_le_one₀ hq0 (by linarith)
      norm_num at h2 ⊢
      linarith
    have ht := tay_pos h h1
    simp only [Pi.neg_apply, neg_neg, neg_zero] at u l
    rw [tayRes_zero] at u l
    rw [abs_le]
    norm_num at u l hk ht ⊢
    constructor <;> linarith

/-! ### the second branch -/

/-- `1 - w/z` for the second guess, with `y = log z / z`, `s = 1/z` -/
noncomputable def asyV (y s : ℝ) : ℝ := y - y * s * (1 + (y / 2 - s + y ^ 2 / 3 - 3 / 2 * y * s + s ^ 2))

theorem omegaAsym_eq {z : ℝ} (hz : 0 < z) : omegaAsym z = z * (1 - asyV (Real.log z / z) (1 / z)) := by
  unfold omegaAsym asyV
  show z - Real.log z + _ + _ + _ = _
  have : ∀ x : ℝ, PFloat.log x = Real.log x := fun _ => rfl
  simp only [this]
  norm_num
  field_simp
  ring

theorem asyE {y s : ℝ} (hy : 0 ≤ y) (hy1 : y ≤ 0.37) (hs : 0 ≤ s) (hs1 : s ≤ 0.2415) :
    0.8 ≤ 1 + (y / 2 - s + y ^ 2 / 3 - 3 / 2 * y * s + s ^ 2) ∧
      1 + (y / 2 - s + y ^ 2 / 3 - 3 / 2 * y * s + s ^ 2) ≤ 1.25 := by
  norm_num at hy1 hs1 ⊢
  constructor <;> nlinarith [mul_nonneg hy hs, sq_nonneg y, sq_nonneg s, mul_nonneg hy (sub_nonneg.2 hs1), mul_nonneg hs (sub_nonneg.2 hs1), mul_nonneg hy (sub_nonneg.2 hy1)]

noncomputable def asyP (y s E : ℝ) : ℝ :=
  -y ^ 2 / 3 + 3 / 2 * y * s - s ^ 2 - y * (E - 1) + y * s * E ^ 2 / 2 - y ^ 2 * E + y ^ 2 * s * E ^ 2 -
    y ^ 2 * s ^ 2 * E ^ 3 / 3

theorem asyP_eq (y s : ℝ) :
    -y - y * (y / 2 - s) - y * (y ^ 2 / 3 - 3 / 2 * y * s + s ^ 2) + asyV y s + asyV y s ^ 2 / 2 + asyV y s ^ 3 / 3 =
      y * s * asyP y s (1 + (y / 2 - s + y ^ 2 / 3 - 3 / 2 * y * s + s ^ 2)) := by
  unfold asyP asyV
  ring

end Ecos.Exp
