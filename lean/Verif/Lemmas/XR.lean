import Verif.Core.Num

/-! # Arithmetic of `XR` -/
namespace Ecos
namespace XR

@[simp] theorem zero_def : (0 : XR) = fin 0 := rfl
@[simp] theorem one_def : (1 : XR) = fin 1 := rfl
@[simp] theorem fin_add (a b : ℝ) : fin a + fin b = fin (a + b) := rfl
@[simp] theorem fin_neg (a : ℝ) : -fin a = fin (-a) := rfl
@[simp] theorem fin_sub (a b : ℝ) : fin a - fin b = fin (a - b) := by
  rw [sub_eq_add_neg]; rfl
@[simp] theorem fin_mul (a b : ℝ) : fin a * fin b = fin (a * b) := rfl
theorem fin_div {a b : ℝ} (h : b ≠ 0) : fin a / fin b = fin (a / b) := by
  show div _ _ = _
  simp [div, h]
@[simp] theorem fin_int (k : Int) : ((k : Int) : XR) = fin (k : ℝ) := rfl
@[simp] theorem fin_sci (m : Nat) (s : Bool) (e : Nat) :
    (OfScientific.ofScientific m s e : XR) = fin (OfScientific.ofScientific m s e) := rfl
@[simp] theorem lt_fin (a b : ℝ) : (lt (fin a) (fin b) : Bool) = decide (a < b) := by
  show ltB _ _ = _
  simp [ltB]
@[simp] theorem le_fin (a b : ℝ) : (le (fin a) (fin b) : Bool) = decide (a ≤ b) := by
  show (ltB _ _ || eqB _ _) = _
  simp only [ltB, eqB]
  rw [← Bool.decide_or]
  congr 1
  exact propext le_iff_lt_or_eq.symm
@[simp] theorem lt_fin_pinf (a : ℝ) : (lt (fin a) pinf : Bool) = true := rfl
@[simp] theorem lt_pinf (a : XR) : (lt pinf a : Bool) = false := by cases a <;> rfl
@[simp] theorem lt_nan (a : XR) : (lt nan a : Bool) = false := by cases a <;> rfl
@[simp] theorem lt_nan' (a : XR) : (lt a nan : Bool) = false := by cases a <;> rfl
@[simp] theorem lt_ninf' (a : XR) : (lt a ninf : Bool) = false := by cases a <;> rfl
@[simp] theorem lt_ninf_fin (a : ℝ) : (lt ninf (fin a) : Bool) = true := rfl
@[simp] theorem lt_ninf_pinf : (lt ninf pinf : Bool) = true := rfl
@[simp] theorem inf_def : (HasInf.inf : XR) = pinf := rfl
@[simp] theorem neg_pinf : -(pinf) = ninf := rfl
@[simp] theorem neg_ninf : -(ninf) = pinf := rfl
@[simp] theorem trunc_fin (r : ℝ) : PFloat.trunc (fin r) = PFloat.trunc r := rfl
theorem fin_inj {a b : ℝ} : fin a = fin b ↔ a = b := by
  constructor
  · intro h; cases h; rfl
  · rintro rfl; rfl

theorem lt_irrefl (a : XR) : lt a a = false := by
  cases a <;> simp

theorem lt_trans (a b c : XR) (h : lt a b = true) (h' : lt b c = true) : lt a c = true := by
  cases a <;> cases b <;> cases c <;> simp_all
  exact _root_.lt_trans h h'

theorem pinf_sub_fin (a : ℝ) : pinf - fin a = pinf := rfl
theorem pinf_div_fin (a : ℝ) : pinf / fin a = if a < 0 then ninf else pinf := rfl
theorem fin_div_zero (a : ℝ) : fin a / fin 0 = signInf a := by
  show div _ _ = _
  simp [div]

end XR
end Ecos
