import Mathlib.Algebra.BigOperators.Field
import Verif.Lemmas.Scal1

/-!
# The Nesterov-Todd scaling over the reals
-/
namespace Ecos

open Finset

/-- inner product of the tails -/
noncomputable def tdot (p : Nat) (x y : Nat → ℝ) : ℝ := ∑ i ∈ range (p - 1), x (i + 1) * y (i + 1)

theorem tdot_self (p : Nat) (x : Nat → ℝ) : tdot p x x = tailSq p x := rfl

theorem tdot_comm (p : Nat) (x y : Nat → ℝ) : tdot p x y = tdot p y x :=
  sum_congr rfl fun _ _ => mul_comm _ _

theorem tdot_congr {p : Nat} {x x' y y' : Nat → ℝ} (hx : ∀ j, 0 < j → j < p → x j = x' j)
    (hy : ∀ j, 0 < j → j < p → y j = y' j) : tdot p x y = tdot p x' y' := by
  refine sum_congr rfl fun i hi => ?_
  rw [mem_range] at hi
  rw [hx (i + 1) (by omega) (by omega), hy (i + 1) (by omega) (by omega)]

theorem tdot_lin (p : Nat) (x y z : Nat → ℝ) (a b : ℝ) :
    tdot p x (fun j => a * y j + b * z j) = a * tdot p x y + b * tdot p x z := by
  unfold tdot
  rw [mul_sum, mul_sum, ← sum_add_distrib]
  exact sum_congr rfl fun _ _ => by ring

theorem tdot_lin' (p : Nat) (x y z : Nat → ℝ) (a b : ℝ) :
    tdot p (fun j => a * y j + b * z j) x = a * tdot p y x + b * tdot p z x := by
  rw [tdot_comm, tdot_lin, tdot_comm p x y, tdot_comm p x z]

theorem tdot_cs (p : Nat) (x y : Nat → ℝ) : tdot p x y ^ 2 ≤ tailSq p x * tailSq p y := by
  unfold tdot tailSq
  have := sum_mul_sq_le_sq_mul_sq (range (p - 1)) (fun i => x (i + 1)) (fun i => y (i + 1))
  simpa only [pow_two] using this

/-- two interior points of the second-order cone have a positive inner product -/
theorem tdot_abs_lt {p : Nat} {x y : Nat → ℝ} (hx : 0 < x 0) (hx' : tailSq p x < x 0 * x 0)
    (hy : 0 < y 0) (hy' : tailSq p y < y 0 * y 0) : |tdot p x y| < x 0 * y 0 := by
  have h := tdot_cs p x y
  have h1 := tailSq_nonneg p x
  have h2 := tailSq_nonneg p y
  have h3 : tailSq p x * tailSq p y < (x 0 * x 0) * (y 0 * y 0) :=
    mul_lt_mul'' hx' hy' h1 h2
  refine abs_lt_of_sq_lt_sq ?_ (mul_pos hx hy).le
  calc tdot p x y ^ 2 ≤ _ := h
    _ < _ := h3
    _ = (x 0 * y 0) ^ 2 := by ring

theorem IntSoc.pos {p : Nat} {u : Nat → ℝ} (h : IntSoc p u) : 0 < u 0 :=
  lt_of_le_of_lt (Real.sqrt_nonneg _) h

theorem IntSoc.det {p : Nat} {u : Nat → ℝ} (h : IntSoc p u) : tailSq p u < u 0 * u 0 := by
  have := Real.lt_sq_of_sqrt_lt h
  rwa [pow_two] at this

theorem intSoc_of {p : Nat} {u : Nat → ℝ} (h0 : 0 < u 0) (h : tailSq p u < u 0 * u 0) : IntSoc p u := by
  unfold IntSoc
  rw [Real.sqrt_lt' h0, pow_two]
  exact h

/-- what the scaling of a second-order cone satisfies: `(a, q)` is a hyperbolic unit vector, `d1`, `u0`, `u1`,
`v1` are the entries of the sparse representation of `W²` -/
structure NT (p : Nat) (V : SocV ℝ) : Prop where
  a : 1 ≤ V.a
  w : ∑ i ∈ range (p - 1), V.q i * V.q i = V.a * V.a - 1
  etaPos : 0 < V.eta
  etaSq : V.etaSq = V.eta * V.eta
  d1 : V.d1 * (2 * (2 * V.a * V.a - 1)) = 1
  u0 : V.u0 * V.u0 = 2 * V.a * V.a - 1 - V.d1
  u01 : V.u0 * V.u1 = 2 * V.a
  u1v1 : V.u1 * V.u1 - V.v1 * V.v1 = 2
  v1 : 0 < V.v1

theorem one_ge_EPS {x : ℝ} (h : 1 ≤ x) : (EPS : ℝ) ≤ x := by
  have : (EPS : ℝ) ≤ 1 := by unfold EPS; norm_num
  linarith

theorem half_ge_EPS {x : ℝ} (h : 1 / 2 ≤ x) : (EPS : ℝ) ≤ x := by
  have : (EPS : ℝ) ≤ 1 / 2 := by unfold EPS; norm_num
  linarith

theorem socDerived_real {a : ℝ} (ha : 1 ≤ a) :
    ∃ d1 u0 u1 v1, socDerived a (a * a - 1) = some (d1, u0, u1, v1) ∧
      d1 * (2 * (2 * a * a - 1)) = 1 ∧ u0 * u0 = 2 * a * a - 1 - d1 ∧ u0 * u1 = 2 * a ∧
      u1 * u1 - v1 * v1 = 2 ∧ 0 < v1 := by
  have h1 : (0 : ℝ) < 1 + a := by linarith
  have hk : 1 ≤ 2 * a * a - 1 := by nlinarith
  obtain ⟨κ, hκ⟩ : ∃ κ, κ = 2 * a * a - 1 := ⟨_, rfl⟩
  have hk' : 1 ≤ κ := by rw [hκ]; exact hk
  have hk0 : κ ≠ 0 := by linarith
  have haa : a * a = (κ + 1) / 2 := by rw [hκ]; ring
  have e1 : safedivPos (a * a - 1) (1 + a) = a - 1 := by
    rw [real_safediv (one_ge_EPS (by linarith))]; field_simp; ring
  have e2 : 1 + a + (a - 1) = 2 * a := by ring
  have e3 : safedivPos (2.0 : ℝ) (1 + a) = 2 / (1 + a) := by
    rw [real_safediv (one_ge_EPS (by linarith))]; norm_num
  have e4 : safedivPos (a * a - 1) ((1 + a) * (1 + a)) = (a - 1) / (1 + a) := by
    rw [real_safediv (one_ge_EPS (by nlinarith))]; field_simp; ring
  have e5 : 1 + 2 / (1 + a) + (a - 1) / (1 + a) = 2 := by field_simp; ring
  have e6 : 1 + (a * a - 1) * 2 = κ := by rw [hκ]; ring
  have e7 : safedivPos (2 * a * (2 * a)) κ = 2 * (κ + 1) / κ := by
    rw [real_safediv (one_ge_EPS hk')]
    rw [show 2 * a * (2 * a) = 4 * (a * a) by ring, haa]
    ring
  have e8 : (0.5 : ℝ) * (a * a + (a * a - 1) * (1 - 2 * (κ + 1) / κ)) = 1 / (2 * κ) := by
    rw [haa]
    field_simp
    norm_num
    ring
  have hd : 0 < 1 / (2 * κ) := by positivity
  have e9 : lt (1 / (2 * κ)) (0 : ℝ) = false := by
    simp
    linarith
  have e10 : a * a + (a * a - 1) - 1 / (2 * κ) = κ - 1 / (2 * κ) := by rw [haa]; ring
  have hd2 : 1 / (2 * κ) ≤ 1 / 2 := by
    rw [div_le_div_iff₀ (by positivity) (by norm_num)]; linarith
  have hu : 1 / 2 ≤ κ - 1 / (2 * κ) := by linarith
  have e11 : safedivPos (2 * a * (2 * a)) (κ - 1 / (2 * κ)) = 2 * (κ + 1) / (κ - 1 / (2 * κ)) := by
    rw [real_safediv (half_ge_EPS hu), show 2 * a * (2 * a) = 4 * (a * a) by ring, haa]
    ring
  have hpos : 0 < 2 * (κ + 1) / (κ - 1 / (2 * κ)) - 2 := by
    rw [sub_pos, lt_div_iff₀ (by linarith)]
    linarith
  have e12 : le (2 * (κ + 1) / (κ - 1 / (2 * κ)) - 2) (0 : ℝ) = false := by
    exact decide_eq_false (not_le.2 hpos)
  refine ⟨1 / (2 * κ), Real.sqrt (κ - 1 / (2 * κ)), Real.sqrt (2 * (κ + 1) / (κ - 1 / (2 * κ))),
    Real.sqrt (2 * (κ + 1) / (κ - 1 / (2 * κ)) - 2), ?_, ?_, ?_, ?_, ?_, Real.sqrt_pos.2 hpos⟩
  · unfold socDerived
    simp only [e1, e2, e3, e4, e5, e6, e7, e8, e9, e10, e11, e12, if_false, Bool.false_eq_true]
    rfl
  · rw [← hκ]; field_simp
  · rw [Real.mul_self_sqrt (by linarith), ← hκ]
  · rw [← Real.sqrt_mul (by linarith)]
    rw [mul_div_cancel₀ _ (by linarith : κ - 1 / (2 * κ) ≠ 0)]
    rw [show 2 * (κ + 1) = (2 * a) * (2 * a) by rw [hκ]; ring, Real.sqrt_mul_self (by linarith)]
  · rw [Real.mul_self_sqrt (by linarith), Real.mul_self_sqrt hpos.le]; ring

/-- the determinants are large enough for the divisions of `updateScalings`, `unscale` to be exact -/
structure SocFloors (p : Nat) (s z : Nat → ℝ) : Prop where
  fs : EPS ≤ Real.sqrt (s 0 * s 0 - tailSq p s)
  fz : EPS ≤ Real.sqrt (z 0 * z 0 - tailSq p z)
  eta : EPS ≤ Real.sqrt (Real.sqrt (s 0 * s 0 - tailSq p s) / Real.sqrt (z 0 * z 0 - tailSq p z))

theorem scaleF_congr {p : Nat} (hp : 0 < p) {V : SocV ℝ} {x y : Nat → ℝ} (h : ∀ j, j < p → x j = y j) (j : Nat)
    (hj : j < p) : scaleF p V x j = scaleF p V y j := by
  have hz : zetaF p V.q x = zetaF p V.q y := by
    unfold zetaF
    rw [itr_sum, itr_sum]
    congr 1
    refine sum_congr rfl fun i hi => ?_
    rw [mem_range] at hi
    rw [h _ (by omega)]
  unfold scaleF
  rw [hz, h 0 hp, h j hj]

theorem unscaleF_congr {p : Nat} (hp : 0 < p) {V : SocV ℝ} {x y : Nat → ℝ} (h : ∀ j, j < p → x j = y j) (j : Nat)
    (hj : j < p) : unscaleF p V x j = unscaleF p V y j := by
  have hz : zetaF p V.q x = zetaF p V.q y := by
    unfold zetaF
    rw [itr_sum, itr_sum]
    congr 1
    refine sum_congr rfl fun i hi => ?_
    rw [mem_range] at hi
    rw [h _ (by omega)]
  unfold unscaleF
  rw [hz, h 0 hp, h j hj]

/-- `q` with the indices of the cone -/
def SocV.Q (V : SocV ℝ) : Nat → ℝ := fun j => V.q (j - 1)

theorem zetaF_real (p : Nat) (V : SocV ℝ) (x : Nat → ℝ) : zetaF p V.q x = tdot p V.Q x := by
  unfold zetaF tdot SocV.Q
  rw [itr_sum, zero_add]
  exact sum_congr rfl fun _ _ => rfl

theorem NT.w' {p : Nat} {V : SocV ℝ} (h : NT p V) : tdot p V.Q V.Q = V.a * V.a - 1 := h.w

theorem NT.scale_eq {p : Nat} {V : SocV ℝ} (h : NT p V) (x : Nat → ℝ) (j : Nat) : scaleF p V x j =
    if j = 0 then V.eta * (V.a * x 0 + tdot p V.Q x)
    else V.eta * (x j + (x 0 + tdot p V.Q x / (1 + V.a)) * V.Q j) := by
  have := h.a
  unfold scaleF
  rw [zetaF_real, real_safediv (one_ge_EPS (by linarith))]
  rfl

theorem NT.unscale_eq {p : Nat} {V : SocV ℝ} (h : NT p V) (he : EPS ≤ V.eta) (x : Nat → ℝ) (j : Nat) :
    unscaleF p V x j = if j = 0 then (V.a * x 0 - tdot p V.Q x) / V.eta
    else (x j + (-(x 0) + tdot p V.Q x / (1 + V.a)) * V.Q j) / V.eta := by
  have := h.a
  unfold unscaleF
  rw [zetaF_real, real_safediv he, real_safediv he, real_safediv (x := tdot p V.Q x) (one_ge_EPS (by linarith))]
  rfl

/-- tail of the scaled vector as a combination -/
theorem NT.tdot_scale {p : Nat} {V : SocV ℝ} (h : NT p V) (x y : Nat → ℝ) : tdot p y (scaleF p V x) =
    V.eta * (tdot p y x + (x 0 + tdot p V.Q x / (1 + V.a)) * tdot p y V.Q) := by
  have e : tdot p y (scaleF p V x) =
      tdot p y (fun j => V.eta * x j + (V.eta * (x 0 + tdot p V.Q x / (1 + V.a))) * V.Q j) := by
    refine tdot_congr (fun _ _ _ => rfl) fun j h0 hj => ?_
    rw [h.scale_eq, if_neg (by omega)]; ring
  rw [e, tdot_lin]; ring

theorem NT.tdot_unscale {p : Nat} {V : SocV ℝ} (h : NT p V) (he : EPS ≤ V.eta) (x y : Nat → ℝ) :
    tdot p y (unscaleF p V x) =
      (tdot p y x + (-(x 0) + tdot p V.Q x / (1 + V.a)) * tdot p y V.Q) / V.eta := by
  have hp := h.etaPos
  have e : tdot p y (unscaleF p V x) =
      tdot p y (fun j => (1 / V.eta) * x j + ((1 / V.eta) * (-(x 0) + tdot p V.Q x / (1 + V.a))) * V.Q j) := by
    refine tdot_congr (fun _ _ _ => rfl) fun j h0 hj => ?_
    rw [h.unscale_eq he, if_neg (by omega)]; ring
  rw [e, tdot_lin]; ring

/-- unscaling undoes scaling -/
theorem NT.unscale_scale {p : Nat} {V : SocV ℝ} (h : NT p V) (he : EPS ≤ V.eta) (x : Nat → ℝ) (j : Nat) :
    unscaleF p V (scaleF p V x) j = x j := by
  have ha := h.a
  have hp := h.etaPos
  have h1 : (1 + V.a) ≠ 0 := by linarith
  rw [h.unscale_eq he, h.tdot_scale, h.w']
  have e0 : scaleF p V x 0 = V.eta * (V.a * x 0 + tdot p V.Q x) := by rw [h.scale_eq, if_pos rfl]
  by_cases hj : j = 0
  · subst hj
    rw [if_pos rfl, e0]
    field_simp
    ring
  · rw [if_neg hj, e0, h.scale_eq, if_neg hj]
    field_simp
    ring

/-- scaling undoes unscaling -/
theorem NT.scale_unscale {p : Nat} {V : SocV ℝ} (h : NT p V) (he : EPS ≤ V.eta) (x : Nat → ℝ) (j : Nat) :
    scaleF p V (unscaleF p V x) j = x j := by
  have ha := h.a
  have hp := h.etaPos
  have h1 : (1 + V.a) ≠ 0 := by linarith
  rw [h.scale_eq, h.tdot_unscale he, h.w']
  have e0 : unscaleF p V x 0 = (V.a * x 0 - tdot p V.Q x) / V.eta := by rw [h.unscale_eq he, if_pos rfl]
  by_cases hj : j = 0
  · subst hj
    rw [if_pos rfl, e0]
    field_simp
    ring
  · rw [if_neg hj, e0, h.unscale_eq he, if_neg hj]
    field_simp
    ring

/-- scaling is symmetric -/
theorem NT.scale_symm {p : Nat} (hp : 0 < p) {V : SocV ℝ} (h : NT p V) (x y : Nat → ℝ) :
    ∑ j ∈ range p, y j * scaleF p V x j = ∑ j ∈ range p, scaleF p V y j * x j := by
  rw [sum_split p hp, sum_split p hp]
  change y 0 * scaleF p V x 0 + tdot p y (scaleF p V x) = scaleF p V y 0 * x 0 + tdot p (scaleF p V y) x
  rw [tdot_comm p (scaleF p V y) x, h.tdot_scale, h.tdot_scale, h.scale_eq, h.scale_eq, if_pos rfl, if_pos rfl,
    tdot_comm p y V.Q, tdot_comm p x V.Q, tdot_comm p y x]
  ring

/-- scaling is linear -/
theorem NT.scale_lin {p : Nat} {V : SocV ℝ} (h : NT p V) (x y : Nat → ℝ) (c d : ℝ) (j : Nat) :
    scaleF p V (fun i => c * x i + d * y i) j = c * scaleF p V x j + d * scaleF p V y j := by
  have h1 : (1 + V.a) ≠ 0 := by have := h.a; linarith
  rw [h.scale_eq, h.scale_eq, h.scale_eq, tdot_lin]
  by_cases hj : j = 0
  · subst hj; simp only [if_true]; ring
  · simp only [hj, if_false]; field_simp; ring

/-- the determinant of the scaled vector -/
theorem NT.scale_det {p : Nat} {V : SocV ℝ} (h : NT p V) (x : Nat → ℝ) :
    scaleF p V x 0 * scaleF p V x 0 - tailSq p (scaleF p V x) =
      V.eta * V.eta * (x 0 * x 0 - tailSq p x) := by
  have h1 : (1 + V.a) ≠ 0 := by have := h.a; linarith
  rw [← tdot_self, h.tdot_scale, tdot_comm p _ x, tdot_comm p _ V.Q, h.tdot_scale, h.tdot_scale, h.w',
    tdot_comm p x V.Q, tdot_self, h.scale_eq, if_pos rfl]
  field_simp
  ring

/-- scaling maps the interior of the cone to itself -/
theorem NT.scale_int {p : Nat} {V : SocV ℝ} (h : NT p V) {x : Nat → ℝ} (hx : IntSoc p x) :
    IntSoc p (scaleF p V x) := by
  have ha := h.a
  have he := h.etaPos
  refine intSoc_of ?_ ?_
  · rw [h.scale_eq, if_pos rfl]
    refine mul_pos he ?_
    have hw : tailSq p (fun j => if j = 0 then V.a else V.Q j) = V.a * V.a - 1 := by
      rw [← h.w', tdot_self]
      exact tailSq_congr' fun j h0 _ => by rw [if_neg (by omega)]
    have := tdot_abs_lt (p := p) (x := fun j => if j = 0 then V.a else V.Q j) (y := x)
      (by simp only [if_true]; linarith) (by rw [hw]; simp only [if_true]; linarith) hx.pos hx.det
    have e : tdot p (fun j => if j = 0 then V.a else V.Q j) x = tdot p V.Q x :=
      tdot_congr (fun j h0 _ => by rw [if_neg (by omega)]) fun _ _ _ => rfl
    rw [e] at this
    simp only [if_true] at this
    have := (abs_lt.1 this).1
    linarith
  · have h1 := h.scale_det x
    have h2 := hx.det
    have : 0 < V.eta * V.eta * (x 0 * x 0 - tailSq p x) := mul_pos (mul_pos he he) (by linarith)
    linarith

/-- `W²` in terms of the scaling point -/
theorem NT.scale_sq {p : Nat} {V : SocV ℝ} (h : NT p V) (x : Nat → ℝ) (j : Nat) :
    scaleF p V (scaleF p V x) j = if j = 0 then V.etaSq * ((2 * V.a * V.a - 1) * x 0 + 2 * V.a * tdot p V.Q x)
      else V.etaSq * (x j + (2 * V.a * x 0 + 2 * tdot p V.Q x) * V.Q j) := by
  have h1 : (1 + V.a) ≠ 0 := by have := h.a; linarith
  rw [h.scale_eq, h.tdot_scale, h.w', h.etaSq]
  have e0 : scaleF p V x 0 = V.eta * (V.a * x 0 + tdot p V.Q x) := by rw [h.scale_eq, if_pos rfl]
  by_cases hj : j = 0
  · subst hj
    rw [if_pos rfl, if_pos rfl, e0]
    field_simp
    ring
  · rw [if_neg hj, if_neg hj, e0, h.scale_eq, if_neg hj]
    field_simp
    ring

/-- the scaling computed from interior points: it is a Nesterov-Todd scaling and maps `z` and `s` to the
same vector -/
theorem ntF_real {p : Nat} (hp : 0 < p) {s z : Nat → ℝ} (hs : IntSoc p s) (hz : IntSoc p z) (hf : SocFloors p s z) :
    ∃ V, ntF p s z = some V ∧ NT p V ∧ EPS ≤ V.eta ∧ ∀ j, j < p → scaleF p V z j = unscaleF p V s j := by
  obtain ⟨sn, hsn⟩ : ∃ sn, sn = Real.sqrt (s 0 * s 0 - tailSq p s) := ⟨_, rfl⟩
  obtain ⟨zn, hzn⟩ : ∃ zn, zn = Real.sqrt (z 0 * z 0 - tailSq p z) := ⟨_, rfl⟩
  have f1 := hf.fs
  have f2 := hf.fz
  have f3 := hf.eta
  rw [← hsn] at f1 f3
  rw [← hzn] at f2 f3
  have ep := real_EPS_pos
  have sp : 0 < sn := by linarith
  have zp : 0 < zn := by linarith
  have s2 : sn * sn = s 0 * s 0 - tailSq p s := by rw [hsn]; exact Real.mul_self_sqrt (by linarith [hs.det])
  have z2 : zn * zn = z 0 * z 0 - tailSq p z := by rw [hzn]; exact Real.mul_self_sqrt (by linarith [hz.det])
  -- normalised points
  have hsb : (fun i => safedivPos (s i) sn) = fun i => s i / sn := funext fun i => real_safediv f1
  have hzb : (fun i => safedivPos (z i) zn) = fun i => z i / zn := funext fun i => real_safediv f2
  obtain ⟨X, hX⟩ : ∃ X, X = (s 0 * z 0 + tdot p s z) / (sn * zn) := ⟨_, rfl⟩
  have hXp : 0 < X := by
    rw [hX]
    have := (abs_lt.1 (tdot_abs_lt hs.pos hs.det hz.pos hz.det)).1
    exact div_pos (by linarith) (mul_pos sp zp)
  have hg : itr p 1 (fun i g => g + (s i / sn) * (z i / zn)) = 1 + X := by
    rw [itr_sum, sum_split p hp, hX, tdot, add_div, sum_div]
    congr 1
    congr 1
    · field_simp
    · exact sum_congr rfl fun i _ => by field_simp
  obtain ⟨g, hgd⟩ : ∃ g, g = Real.sqrt (0.5 * (1 + X)) := ⟨_, rfl⟩
  have hg2 : g * g = (1 + X) / 2 := by
    rw [hgd, Real.mul_self_sqrt (by norm_num; linarith)]; norm_num; ring
  have hgp : 1 / 2 ≤ g := by
    have h0 : 0 ≤ g := by rw [hgd]; exact Real.sqrt_nonneg _
    nlinarith
  have hh : safedivPos (0.5 : ℝ) g = 1 / (2 * g) := by
    rw [real_safediv (half_ge_EPS hgp)]; norm_num; field_simp
  obtain ⟨h, hhd⟩ : ∃ h, h = 1 / (2 * g) := ⟨_, rfl⟩
  have hpos : 0 < h := by rw [hhd]; positivity
  have hh2 : h * h * (2 * (1 + X)) = 1 := by
    have : 1 + X = 2 * (g * g) := by rw [hg2]; ring
    rw [this, hhd]
    have : g ≠ 0 := by linarith
    field_simp
  obtain ⟨a, had⟩ : ∃ a, a = h * (s 0 / sn + z 0 / zn) := ⟨_, rfl⟩
  have hap : 0 < a := by
    rw [had]; have := hs.pos; have := hz.pos; positivity
  let q : Nat → ℝ := fun i => h * (s (i + 1) / sn - z (i + 1) / zn)
  have hw : ∑ i ∈ range (p - 1), q i * q i = h * h * (tailSq p s / (sn * sn) + tailSq p z / (zn * zn) -
      2 * (tdot p s z / (sn * zn))) := by
    unfold tailSq tdot
    rw [sum_div, sum_div, sum_div, mul_sum, ← sum_add_distrib, ← sum_sub_distrib, mul_sum]
    refine sum_congr rfl fun i _ => ?_
    simp only [q]
    field_simp
    ring
  have hw1 : ∑ i ∈ range (p - 1), q i * q i = a * a - 1 := by
    rw [hw, ← hh2, had, hX]
    have t1 : tailSq p s = s 0 * s 0 - sn * sn := by rw [s2]; ring
    have t2 : tailSq p z = z 0 * z 0 - zn * zn := by rw [z2]; ring
    rw [t1, t2]
    field_simp
    ring
  have ha1 : 1 ≤ a := by
    have : 0 ≤ ∑ i ∈ range (p - 1), q i * q i := sum_nonneg fun _ _ => mul_self_nonneg _
    rw [hw1] at this
    nlinarith
  obtain ⟨d1, u0, u1, v1, hd, d1h, u0h, u01h, u1h, v1h⟩ := socDerived_real ha1
  let V : SocV ℝ := { a := a, w := a * a - 1, eta := Real.sqrt (sn / zn), etaSq := sn / zn, d1 := d1, u0 := u0, u1 := u1, v1 := v1, q := q }
  have hV : ntF p s z = some V := by
    unfold ntF
    have b1 : le (socresF p s) (0 : ℝ) = false := by
      rw [socresF_real]
      exact decide_eq_false (not_le.2 (by linarith [hs.det]))
    have b2 : le (socresF p z) (0 : ℝ) = false := by
      rw [socresF_real]
      exact decide_eq_false (not_le.2 (by linarith [hz.det]))
    rw [b1, b2]
    simp only [Bool.or_self, Bool.false_eq_true, if_false]
    have r1 : PFloat.sqrt (socresF p s) = sn := by rw [socresF_real, hsn]; rfl
    have r2 : PFloat.sqrt (socresF p z) = zn := by rw [socresF_real, hzn]; rfl
    rw [r1, r2]
    have r3 : ntGF p (fun i => safedivPos (s i) sn) (fun i => safedivPos (z i) zn) = h := by
      unfold ntGF
      rw [show (fun (i : Nat) (g : ℝ) => g + safedivPos (s i) sn * safedivPos (z i) zn) =
        fun i g => g + (s i / sn) * (z i / zn) from by
          funext i g; rw [real_safediv f1, real_safediv f2]]
      rw [hg, hhd, ← hh, hgd]
      rfl
    rw [r3]
    have r4 : ∀ i, safedivPos (s i) sn = s i / sn := fun i => real_safediv f1
    have r5 : ∀ i, safedivPos (z i) zn = z i / zn := fun i => real_safediv f2
    have r6 : safedivPos sn zn = sn / zn := real_safediv f2
    simp only [r4, r5, r6, ← had]
    have r7 : itr (p - 1) 0 (fun i t => t + h * (s (i + 1) / sn - z (i + 1) / zn) *
        (h * (s (i + 1) / sn - z (i + 1) / zn))) = a * a - 1 := by
      rw [itr_sum, zero_add]; exact hw1
    rw [r7, hd]
    rfl
  have he0 : 0 < sn / zn := div_pos sp zp
  have hNT : NT p V := ⟨ha1, hw1, Real.sqrt_pos.2 he0, (Real.mul_self_sqrt he0.le).symm, d1h, u0h, u01h, u1h, v1h⟩
  refine ⟨V, hV, hNT, f3, fun j hj => ?_⟩
  have hee : V.eta * V.eta = sn / zn := Real.mul_self_sqrt he0.le
  have hep := hNT.etaPos
  have hQ : ∀ x, tdot p V.Q x = h * (tdot p s x / sn - tdot p z x / zn) := by
    intro x
    unfold tdot
    rw [sum_div, sum_div, ← sum_sub_distrib, mul_sum]
    refine sum_congr rfl fun i _ => ?_
    simp only [SocV.Q, V, q, Nat.add_sub_cancel]
    field_simp
  have t1 : tdot p s s = s 0 * s 0 - sn * sn := by rw [s2, tdot_self]; ring
  have t2 : tdot p z z = z 0 * z 0 - zn * zn := by rw [z2, tdot_self]; ring
  have hVa : V.a = h * (s 0 / sn + z 0 / zn) := had
  have key : V.eta * V.eta * zn = sn := by rw [hee]; field_simp
  rw [hNT.scale_eq, hNT.unscale_eq f3]
  by_cases hj0 : j = 0
  · subst hj0
    rw [if_pos rfl, if_pos rfl, eq_div_iff hep.ne', hQ z, hQ s, t1, t2, tdot_comm p z s]
    rw [show ∀ y, V.eta * y * V.eta = (V.eta * V.eta) * y from fun y => by ring, hee, hVa]
    field_simp
    ring
  · rw [if_neg hj0, if_neg hj0, eq_div_iff hep.ne']
    rw [show ∀ y, V.eta * y * V.eta = (V.eta * V.eta) * y from fun y => by ring, hee]
    have hQj : V.Q j = h * (s j / sn - z j / zn) := by
      simp only [SocV.Q, V, q]; rw [show j - 1 + 1 = j by omega]
    -- `T(q, s/sn - z/zn) = (a² - 1)/h`
    have hT : tdot p V.Q s / sn - tdot p V.Q z / zn = (V.a * V.a - 1) / h := by
      rw [eq_div_iff hpos.ne', ← hNT.w', hQ V.Q, tdot_comm p V.Q s, tdot_comm p V.Q z]; ring
    have h1a : 1 + V.a ≠ 0 := by linarith [hNT.a]
    have hs1 : s j / sn = z j / zn + V.Q j / h := by rw [hQj]; field_simp; ring
    have hs0 : s 0 / sn = V.a / h - z 0 / zn := by rw [hVa]; field_simp; ring
    have hTs : tdot p V.Q s / sn = tdot p V.Q z / zn + (V.a * V.a - 1) / h := by rw [← hT]; ring
    have e1 : s j = sn * (z j / zn + V.Q j / h) := by rw [← hs1]; field_simp
    have e2 : s 0 = sn * (V.a / h - z 0 / zn) := by rw [← hs0]; field_simp
    have e3 : tdot p V.Q s = sn * (tdot p V.Q z / zn + (V.a * V.a - 1) / h) := by rw [← hTs]; field_simp
    rw [e1, e2, e3]
    field_simp
    ring

end Ecos
