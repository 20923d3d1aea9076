import Mathlib.Analysis.SpecialFunctions.Log.Deriv
import Mathlib.Analysis.Calculus.FDeriv.Prod
import Mathlib.Analysis.Calculus.FDeriv.Mul
import Verif.Lemmas.Exp2

/-!
# Derivatives of the dual barrier
-/
namespace Ecos

set_option linter.unusedSimpArgs false

/-- the barrier of the dual exponential cone -/
noncomputable def barrier (p : ℝ × ℝ × ℝ) : ℝ :=
  -Real.log (p.2.2 - p.1 - p.1 * Real.log (-p.2.1 / p.1)) - Real.log (-p.1) - Real.log p.2.1

/-- the linear form with coefficients `g` -/
noncomputable def lin (g : Nat → ℝ) : (ℝ × ℝ × ℝ) →L[ℝ] ℝ :=
  g 0 • ContinuousLinearMap.fst ℝ ℝ (ℝ × ℝ) +
  g 1 • (ContinuousLinearMap.fst ℝ ℝ ℝ).comp (ContinuousLinearMap.snd ℝ ℝ (ℝ × ℝ)) +
  g 2 • (ContinuousLinearMap.snd ℝ ℝ ℝ).comp (ContinuousLinearMap.snd ℝ ℝ (ℝ × ℝ))

theorem lin_apply (g : Nat → ℝ) (q : ℝ × ℝ × ℝ) : lin g q = g 0 * q.1 + g 1 * q.2.1 + g 2 * q.2.2 := rfl

/-- the coefficient vector `a b c` -/
def co (a b c : ℝ) : Nat → ℝ := fun i => if i = 0 then a else if i = 1 then b else c

@[simp] theorem co_0 (a b c : ℝ) : co a b c 0 = a := rfl
@[simp] theorem co_1 (a b c : ℝ) : co a b c 1 = b := rfl
@[simp] theorem co_2 (a b c : ℝ) : co a b c 2 = c := rfl

theorem lin_co (a b c : ℝ) (q : ℝ × ℝ × ℝ) : lin (co a b c) q = a * q.1 + b * q.2.1 + c * q.2.2 := rfl

theorem lin_congr {L : (ℝ × ℝ × ℝ) →L[ℝ] ℝ} {f : ℝ × ℝ × ℝ → ℝ} {p : ℝ × ℝ × ℝ} {g : Nat → ℝ}
    (h : HasFDerivAt f L p) (hL : ∀ q, L q = lin g q) : HasFDerivAt f (lin g) p := by
  rwa [show lin g = L from ContinuousLinearMap.ext fun q => (hL q).symm]

theorem d_u (p : ℝ × ℝ × ℝ) : HasFDerivAt (fun p : ℝ × ℝ × ℝ => p.1) (lin (co 1 0 0)) p :=
  lin_congr hasFDerivAt_fst fun q => by simp [lin_co]

theorem d_v (p : ℝ × ℝ × ℝ) : HasFDerivAt (fun p : ℝ × ℝ × ℝ => p.2.1) (lin (co 0 1 0)) p :=
  lin_congr (hasFDerivAt_snd (𝕜 := ℝ) (p := p)).fst fun q => by simp [lin_co]

theorem d_w (p : ℝ × ℝ × ℝ) : HasFDerivAt (fun p : ℝ × ℝ × ℝ => p.2.2) (lin (co 0 0 1)) p :=
  lin_congr (hasFDerivAt_snd (𝕜 := ℝ) (p := p)).snd fun q => by simp [lin_co]

/-- the logarithm in the barrier -/
noncomputable def bL (p : ℝ × ℝ × ℝ) : ℝ := Real.log (-p.2.1 / p.1)

/-- the residual in the barrier -/
noncomputable def bR (p : ℝ × ℝ × ℝ) : ℝ := -p.1 * bL p - p.1 + p.2.2

variable {u v w : ℝ}

theorem d_div {f g : ℝ × ℝ × ℝ → ℝ} {p : ℝ × ℝ × ℝ} {a b : Nat → ℝ} (hf : HasFDerivAt f (lin a) p)
    (hg : HasFDerivAt g (lin b) p) (h0 : g p ≠ 0) :
    HasFDerivAt (fun p => f p / g p) (lin fun i => (a i * g p - f p * b i) / (g p * g p)) p := by
  have hi := (hasDerivAt_inv h0).comp_hasFDerivAt p hg
  have := hf.mul hi
  refine lin_congr (L := f p • (-(g p ^ 2)⁻¹ • lin b) + (g p)⁻¹ • lin a) (this.congr_of_eventuallyEq
    (Filter.Eventually.of_forall fun q => div_eq_mul_inv _ _)) fun q => ?_
  simp only [lin_apply, add_apply, smul_apply, smul_eq_mul]
  field_simp
  ring

theorem d_mul {f g : ℝ × ℝ × ℝ → ℝ} {p : ℝ × ℝ × ℝ} {a b : Nat → ℝ} (hf : HasFDerivAt f (lin a) p)
    (hg : HasFDerivAt g (lin b) p) :
    HasFDerivAt (fun p => f p * g p) (lin fun i => f p * b i + g p * a i) p := by
  refine lin_congr (hf.mul hg) fun q => ?_
  simp [lin_apply]
  ring

theorem d_add {f g : ℝ × ℝ × ℝ → ℝ} {p : ℝ × ℝ × ℝ} {a b : Nat → ℝ} (hf : HasFDerivAt f (lin a) p)
    (hg : HasFDerivAt g (lin b) p) : HasFDerivAt (fun p => f p + g p) (lin fun i => a i + b i) p := by
  refine lin_congr (hf.add hg) fun q => ?_
  simp [lin_apply]
  ring

theorem d_sub {f g : ℝ × ℝ × ℝ → ℝ} {p : ℝ × ℝ × ℝ} {a b : Nat → ℝ} (hf : HasFDerivAt f (lin a) p)
    (hg : HasFDerivAt g (lin b) p) : HasFDerivAt (fun p => f p - g p) (lin fun i => a i - b i) p := by
  refine lin_congr (hf.sub hg) fun q => ?_
  simp [lin_apply]
  ring

theorem d_neg {f : ℝ × ℝ × ℝ → ℝ} {p : ℝ × ℝ × ℝ} {a : Nat → ℝ} (hf : HasFDerivAt f (lin a) p) :
    HasFDerivAt (fun p => -f p) (lin fun i => -a i) p := by
  refine lin_congr hf.neg fun q => ?_
  simp [lin_apply]
  ring

theorem d_const (c : ℝ) (p : ℝ × ℝ × ℝ) : HasFDerivAt (fun _ : ℝ × ℝ × ℝ => c) (lin fun _ => 0) p := by
  refine lin_congr (hasFDerivAt_const c p) fun q => ?_
  simp [lin_apply]

theorem d_log {f : ℝ × ℝ × ℝ → ℝ} {p : ℝ × ℝ × ℝ} {a : Nat → ℝ} (hf : HasFDerivAt f (lin a) p)
    (h0 : f p ≠ 0) : HasFDerivAt (fun p => Real.log (f p)) (lin fun i => a i / f p) p := by
  refine lin_congr (hf.log h0) fun q => ?_
  simp [lin_apply]
  ring

/-- change the coefficients -/
theorem d_congr {f : ℝ × ℝ × ℝ → ℝ} {p : ℝ × ℝ × ℝ} {a b : Nat → ℝ} (hf : HasFDerivAt f (lin a) p)
    (h0 : a 0 = b 0) (h1 : a 1 = b 1) (h2 : a 2 = b 2) : HasFDerivAt f (lin b) p :=
  lin_congr hf fun q => by rw [lin_apply, lin_apply, h0, h1, h2]

theorem d_L (hu : u < 0) (hv : 0 < v) : HasFDerivAt bL (lin (co (-1 / u) (1 / v) 0)) (u, v, w) := by
  have h := d_log (d_div (d_neg (d_v (u, v, w))) (d_u (u, v, w)) hu.ne)
    (div_pos_of_neg_of_neg (by simpa using hv) hu).ne'
  have := hu.ne
  refine d_congr h ?_ ?_ ?_ <;> simp [co] <;> field_simp

theorem d_R (hu : u < 0) (hv : 0 < v) :
    HasFDerivAt bR (lin (co (-bL (u, v, w)) (-u / v) 1)) (u, v, w) := by
  have h := d_add (d_sub (d_mul (d_neg (d_u (u, v, w))) (d_L hu hv)) (d_u (u, v, w))) (d_w (u, v, w))
  have := hu.ne
  refine d_congr h ?_ ?_ ?_ <;> simp <;> field_simp
  ring

theorem barrier_eq (p : ℝ × ℝ × ℝ) : barrier p = -Real.log (bR p) - Real.log (-p.1) - Real.log p.2.1 := by
  unfold barrier bR bL
  congr 4
  ring

/-- the numbers of the gradient routine are the derivative of the barrier -/
theorem grad_barrier (hu : u < 0) (hv : 0 < v) (hr : 0 < bR (u, v, w)) :
    HasFDerivAt barrier (lin (gradF u v w)) (u, v, w) := by
  have h := d_sub (d_sub (d_neg (d_log (d_R hu hv) hr.ne')) (d_log (d_neg (d_u (u, v, w))) (by simpa using hu.ne)))
    (d_log (d_v (u, v, w)) hv.ne')
  rw [show barrier = fun p => -Real.log (bR p) - Real.log (-p.1) - Real.log p.2.1 from funext barrier_eq]
  have hR : expR u v w = bR (u, v, w) := rfl
  have hL : expL u v = bL (u, v, w) := rfl
  have h1 := hu.ne
  have h2 := hr.ne'
  refine d_congr h ?_ ?_ ?_
  · simp only [gradF, expGrad, hR, hL, co, if_true]
    field_simp
    ring
  · simp only [gradF, expGrad, hR, hL, co]
    norm_num
    field_simp
    try ring
  · simp only [gradF, expGrad, hR, hL, co]
    norm_num
    try field_simp

/-- row `i` of the symmetric matrix stored in the six numbers `h` -/
def symRow (h : Nat → ℝ) (i : Nat) : Nat → ℝ :=
  if i = 0 then co (h 0) (h 1) (h 3) else if i = 1 then co (h 1) (h 2) (h 4) else co (h 3) (h 4) (h 5)

@[simp] theorem symRow_0 (h : Nat → ℝ) : symRow h 0 = co (h 0) (h 1) (h 3) := rfl
@[simp] theorem symRow_1 (h : Nat → ℝ) : symRow h 1 = co (h 1) (h 2) (h 4) := rfl
@[simp] theorem symRow_2 (h : Nat → ℝ) : symRow h 2 = co (h 3) (h 4) (h 5) := rfl

theorem hess_barrier (hu : u < 0) (hv : 0 < v) (hr : 0 < bR (u, v, w)) (i : Nat) (hi : i < 3) :
    HasFDerivAt (fun p : ℝ × ℝ × ℝ => gradF p.1 p.2.1 p.2.2 i) (lin (symRow (hessF u v w 1) i)) (u, v, w) := by
  have h1 := hu.ne
  have h2 := hr.ne'
  have h3 := hv.ne'
  have hR : expR u v w = bR (u, v, w) := rfl
  have hL : expL u v = bL (u, v, w) := rfl
  have hw : w = bR (u, v, w) + u * bL (u, v, w) + u := by unfold bR; simp; ring
  have dL := d_L (w := w) hu hv
  have dR := d_R (w := w) hu hv
  have : i = 0 ∨ i = 1 ∨ i = 2 := by omega
  rcases this with rfl | rfl | rfl
  · have h := d_div (d_sub (d_mul dL (d_u (u, v, w))) dR) (d_mul dR (d_u (u, v, w))) (mul_ne_zero h2 h1)
    show HasFDerivAt (fun p : ℝ × ℝ × ℝ => (bL p * p.1 - bR p) / (bR p * p.1)) _ _
    generalize bR (u, v, w) = r at *
    generalize bL (u, v, w) = l at *
    refine d_congr h ?_ ?_ ?_
    · simp only [symRow_0, symRow_1, symRow_2, co_0, co_1, co_2, hessF, expHess, hR, hL]
      norm_num
      field_simp
      ring
    · simp only [symRow_0, symRow_1, symRow_2, co_0, co_1, co_2, hessF, expHess, hR, hL]
      norm_num
      rw [hw]
      field_simp
      ring
    · simp only [symRow_0, symRow_1, symRow_2, co_0, co_1, co_2, hessF, expHess, hR, hL]
      norm_num
      field_simp
      ring
  · have h := d_div (d_sub (d_u (u, v, w)) dR) (d_mul (d_v (u, v, w)) dR) (mul_ne_zero h3 h2)
    show HasFDerivAt (fun p : ℝ × ℝ × ℝ => (p.1 - bR p) / (p.2.1 * bR p)) _ _
    generalize bR (u, v, w) = r at *
    generalize bL (u, v, w) = l at *
    refine d_congr h ?_ ?_ ?_
    · simp only [symRow_0, symRow_1, symRow_2, co_0, co_1, co_2, hessF, expHess, hR, hL]
      norm_num
      rw [hw]
      field_simp
      ring
    · simp only [symRow_0, symRow_1, symRow_2, co_0, co_1, co_2, hessF, expHess, hR, hL]
      norm_num
      field_simp
      ring
    · simp only [symRow_0, symRow_1, symRow_2, co_0, co_1, co_2, hessF, expHess, hR, hL]
      norm_num
      field_simp
      ring
  · have h := d_div (d_const (-1) (u, v, w)) dR h2
    show HasFDerivAt (fun p : ℝ × ℝ × ℝ => (-1) / bR p) _ _
    generalize bR (u, v, w) = r at *
    generalize bL (u, v, w) = l at *
    refine d_congr h ?_ ?_ ?_ <;>
    · simp only [symRow_0, symRow_1, symRow_2, co_0, co_1, co_2, hessF, expHess, hR, hL]
      norm_num
      try field_simp

end Ecos
