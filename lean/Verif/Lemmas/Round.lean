import Verif.Lemmas.XR
import Verif.Model.BB

/-! # Rounding helpers of the branch and bound module -/
set_option linter.all false
namespace Ecos
namespace BB

/-- values for which every cast in the helpers is defined -/
def InRange (r : ℝ) : Prop := -2147483647 ≤ r ∧ r ≤ 2147483646

theorem castInt_nonneg {r : ℝ} (h0 : 0 ≤ r) (h : r < 2147483648) : castInt r = .ok ⌊r⌋ := by
  unfold castInt PFloat.trunc
  have h1 : (0 : Int) ≤ ⌊r⌋ := Int.floor_nonneg.mpr h0
  have h2 : ⌊r⌋ < 2147483648 := by rw [Int.floor_lt]; exact_mod_cast h
  have : (-2147483648 ≤ ⌊r⌋ ∧ ⌊r⌋ ≤ 2147483647) := by omega
  simp only [instPFloatReal, h0, if_true, this, and_self]

theorem castInt_neg {r : ℝ} (h0 : r < 0) (h : -2147483649 < r) : castInt r = .ok ⌈r⌉ := by
  unfold castInt PFloat.trunc
  have h1 : ⌈r⌉ ≤ 0 := by rw [Int.ceil_le]; exact_mod_cast h0.le
  have h2 : -2147483649 < ⌈r⌉ := by rw [Int.lt_ceil]; exact_mod_cast h
  have : (-2147483648 ≤ ⌈r⌉ ∧ ⌈r⌉ ≤ 2147483647) := by omega
  simp only [instPFloatReal, not_le.mpr h0, if_false, this, and_self, if_true]

/-- integers computed by the helpers in exact arithmetic -/
noncomputable def rFloor (x tol : ℝ) : Int := if x < 0 then ⌈x - (1 - tol)⌉ else ⌊x⌋
noncomputable def rCeil (x tol : ℝ) : Int := if x < 0 then ⌈x⌉ else ⌊x + (1 - tol)⌋
noncomputable def rRound (x : ℝ) : Int := if 0 ≤ x then ⌊x + 0.5⌋ else ⌈x - 0.5⌉

theorem castInt_fin (r : ℝ) : castInt (XR.fin r) = castInt r := by
  unfold castInt; rw [XR.trunc_fin]

theorem pfFloor_real {x tol : ℝ} (h : InRange x) (h0 : 0 ≤ tol) (h1 : tol < 1) :
    pfFloor x tol = .ok ((rFloor x tol : Int) : ℝ) := by
  unfold pfFloor rFloor
  by_cases hx : x < 0
  · simp only [real_lt, hx, if_true]
    rw [castInt_neg (by linarith) (by linarith [h.1])]; rfl
  · simp only [real_lt, hx, if_false]
    rw [castInt_nonneg (by linarith) (by linarith [h.2])]; rfl

theorem pfCeil_real {x tol : ℝ} (h : InRange x) (h0 : 0 ≤ tol) (h1 : tol < 1) :
    pfCeil x tol = .ok ((rCeil x tol : Int) : ℝ) := by
  unfold pfCeil rCeil
  by_cases hx : x < 0
  · simp only [real_lt, hx, if_true]
    rw [castInt_neg hx (by linarith [h.1])]; rfl
  · simp only [real_lt, hx, if_false]
    rw [castInt_nonneg (by linarith) (by linarith [h.2])]; rfl

theorem pfRound_real {x : ℝ} (h : InRange x) : pfRound x = .ok ((rRound x : Int) : ℝ) := by
  unfold pfRound rRound
  by_cases hx : 0 ≤ x
  · simp only [real_le, hx, if_true]
    rw [castInt_nonneg (by norm_num; linarith) (by norm_num; linarith [h.2])]; rfl
  · simp only [real_le, hx, if_false]
    rw [castInt_neg (by norm_num; linarith) (by norm_num; linarith [h.1])]; rfl

theorem pfFloor_xr {x tol : ℝ} (h : InRange x) (h0 : 0 ≤ tol) (h1 : tol < 1) :
    pfFloor (XR.fin x) (XR.fin tol) = .ok (XR.fin ((rFloor x tol : Int) : ℝ)) := by
  unfold pfFloor rFloor
  by_cases hx : x < 0
  · simp only [XR.zero_def, XR.one_def, XR.fin_sub, XR.lt_fin, hx, decide_true, if_true, castInt_fin]
    rw [castInt_neg (by linarith) (by linarith [h.1])]; rfl
  · simp only [XR.zero_def, XR.one_def, XR.fin_sub, XR.lt_fin, hx, decide_false, if_false, castInt_fin,
      Bool.false_eq_true]
    rw [castInt_nonneg (by linarith) (by linarith [h.2])]; rfl

theorem pfCeil_xr {x tol : ℝ} (h : InRange x) (h0 : 0 ≤ tol) (h1 : tol < 1) :
    pfCeil (XR.fin x) (XR.fin tol) = .ok (XR.fin ((rCeil x tol : Int) : ℝ)) := by
  unfold pfCeil rCeil
  by_cases hx : x < 0
  · simp only [XR.zero_def, XR.one_def, XR.fin_sub, XR.lt_fin, hx, decide_true, if_true, castInt_fin]
    rw [castInt_neg hx (by linarith [h.1])]; rfl
  · simp only [XR.zero_def, XR.one_def, XR.fin_sub, XR.fin_add, XR.lt_fin, hx, decide_false, if_false,
      castInt_fin, Bool.false_eq_true]
    rw [castInt_nonneg (by linarith) (by linarith [h.2])]; rfl

theorem pfRound_xr {x : ℝ} (h : InRange x) :
    pfRound (XR.fin x) = .ok (XR.fin ((rRound x : Int) : ℝ)) := by
  unfold pfRound rRound
  by_cases hx : 0 ≤ x
  · simp only [XR.zero_def, XR.le_fin, hx, decide_true, if_true, XR.fin_sci, XR.fin_add, castInt_fin]
    rw [castInt_nonneg (by norm_num; linarith) (by norm_num; linarith [h.2])]; rfl
  · simp only [XR.zero_def, XR.le_fin, hx, decide_false, if_false, XR.fin_sci, XR.fin_sub, castInt_fin,
      Bool.false_eq_true]
    rw [castInt_neg (by norm_num; linarith) (by norm_num; linarith [h.1])]; rfl

/-! ### what the integers are -/

theorem rCeil_le_rFloor {x tol : ℝ} (h0 : 0 ≤ tol) : rCeil x tol ≤ rFloor x tol + 1 := by
  unfold rCeil rFloor
  split
  · have : x ≤ x - (1 - tol) + 1 := by linarith
    have h2 := Int.ceil_le_ceil this
    rw [Int.ceil_add_one] at h2; exact h2
  · have : x + (1 - tol) ≤ x + 1 := by linarith
    have h2 := Int.floor_le_floor this
    rw [Int.floor_add_one] at h2; exact h2

theorem rFloor_lt {x tol : ℝ} (h0 : 0 ≤ tol) : (rFloor x tol : ℝ) ≤ x + tol := by
  unfold rFloor
  split
  · have := Int.ceil_lt_add_one (x - (1 - tol)); push_cast; linarith
  · have := Int.floor_le x; linarith

theorem rCeil_gt {x tol : ℝ} (h0 : 0 ≤ tol) : x - tol ≤ (rCeil x tol : ℝ) := by
  unfold rCeil
  split
  · have := Int.le_ceil x; linarith
  · have := Int.lt_floor_add_one (x + (1 - tol)); linarith

theorem rRound_near (x : ℝ) : |(rRound x : ℝ) - x| ≤ 1 / 2 := by
  unfold rRound
  rw [abs_le]
  split
  · have h1 := Int.floor_le (x + 0.5)
    have h2 := Int.lt_floor_add_one (x + 0.5)
    constructor <;> linarith
  · have h1 := Int.le_ceil (x - 0.5)
    have h2 := Int.ceil_lt_add_one (x - 0.5)
    constructor <;> linarith

/-- no integer is nearer than the rounded value -/
theorem rRound_nearest (x : ℝ) (k : Int) : |(rRound x : ℝ) - x| ≤ |(k : ℝ) - x| := by
  by_cases hk : k = rRound x
  · rw [hk]
  · have h1 := rRound_near x
    have h2 : (1 : ℝ) ≤ |(k : ℝ) - rRound x| := by
      have : (1 : Int) ≤ |k - rRound x| := Int.one_le_abs (sub_ne_zero.mpr hk)
      exact_mod_cast this
    have h3 : |(k : ℝ) - rRound x| ≤ |(k : ℝ) - x| + |(rRound x : ℝ) - x| := by
      have : (k : ℝ) - rRound x = ((k : ℝ) - x) - ((rRound x : ℝ) - x) := by ring
      rw [this]; exact abs_sub _ _
    linarith

theorem rFloor_eq {x tol : ℝ} (h0 : 0 ≤ tol) (h1 : tol < 1) (hx : ∀ k : Int, tol ≤ |x - k|) (hne : ∀ k : Int, x ≠ k) :
    rFloor x tol = ⌊x⌋ := by
  unfold rFloor
  split
  · next h =>
    rw [Int.ceil_eq_iff]
    have a1 := Int.floor_le x
    have a2 := Int.lt_floor_add_one x
    have a3 := hx (⌊x⌋ + 1)
    rw [abs_of_neg (by push_cast; linarith)] at a3
    have a4 : (⌊x⌋ : ℝ) ≠ x := fun h => hne _ h.symm
    have a5 : (⌊x⌋ : ℝ) < x := lt_of_le_of_ne a1 a4
    push_cast at a3
    constructor <;> linarith
  · rfl

theorem rCeil_eq {x tol : ℝ} (h0 : 0 ≤ tol) (h1 : tol < 1) (hx : ∀ k : Int, tol ≤ |x - k|) (hne : ∀ k : Int, x ≠ k) :
    rCeil x tol = ⌈x⌉ := by
  unfold rCeil
  split
  · rfl
  · next h =>
    rw [Int.floor_eq_iff]
    have a1 := Int.le_ceil x
    have a2 := Int.ceil_lt_add_one x
    have a3 := hx (⌈x⌉ - 1)
    rw [abs_of_nonneg (by push_cast; linarith)] at a3
    have a4 : x ≠ (⌈x⌉ : ℝ) := hne _
    have a5 : x < (⌈x⌉ : ℝ) := lt_of_le_of_ne a1 a4
    push_cast at a3
    constructor <;> linarith

/-- `float_eqls` in exact arithmetic -/
theorem floatEqls_xr (a b t : ℝ) : floatEqls (XR.fin a) (XR.fin b) (XR.fin t) = decide (|a - b| < t) := by
  unfold floatEqls abs2
  by_cases h : a - b < 0
  · simp [h, abs_of_neg h]
  · simp [h, abs_of_nonneg (not_lt.mp h)]

theorem floatEqls_real (a b t : ℝ) : floatEqls a b t = decide (|a - b| < t) := by
  unfold floatEqls abs2
  by_cases h : a - b < 0
  · rw [if_pos (by simpa using h), abs_of_neg h]; rfl
  · rw [if_neg (by simpa using h), abs_of_nonneg (not_lt.mp h)]; rfl

theorem isIntegral_xr {x tol : ℝ} (h : InRange x) (h0 : 0 ≤ tol) (h1 : tol < 1) :
    isIntegral (XR.fin tol) (XR.fin x) =
      .ok (decide (|x - rFloor x tol| < tol) || decide (|x - rCeil x tol| < tol)) := by
  unfold isIntegral
  rw [pfFloor_xr h h0 h1, ok_bind_eq, floatEqls_xr]
  by_cases hc : |x - rFloor x tol| < tol
  · simp [hc]; rfl
  · simp only [hc, decide_false, Bool.false_eq_true, if_false, Bool.false_or]
    rw [pfCeil_xr h h0 h1, ok_bind_eq, floatEqls_xr]; rfl

/-- a value that is not within the tolerance of its nearest integer is not "already an integer" -/
theorem isIntegral_false {x tol : ℝ} (h : InRange x) (h0 : 0 ≤ tol) (h1 : tol < 1)
    (hr : tol ≤ |x - rRound x|) (t : Bool) (ht : isIntegral (XR.fin tol) (XR.fin x) = .ok t) :
    t = false := by
  rw [isIntegral_xr h h0 h1] at ht
  have : ∀ k : Int, ¬ |x - k| < tol := by
    intro k hk
    have := rRound_nearest x k
    rw [abs_sub_comm, abs_sub_comm (k : ℝ)] at this
    linarith
  cases ht
  simp [this]

end BB
end Ecos
