import Mathlib.Analysis.SpecialFunctions.Log.Basic
import Mathlib.Analysis.SpecialFunctions.Sqrt
import Mathlib.Algebra.Order.Floor.Defs
import Mathlib.Algebra.Order.Floor.Ring
import Verif.Core.Mem

/-!
# Number types

`pfloat` of the C code (include/glblopts.h:52, `typedef double pfloat`).  The model is generic
in the number type `F`.  Arithmetic uses the ordinary notation classes; what C adds to it
(boolean comparisons, library functions, casts) is collected in `PFloat`.
-/
namespace Ecos

/-- Boolean comparisons and library functions of `double` used by ECOS. -/
class PFloat (F : Type) where
  /-- `a < b` -/
  lt : F → F → Bool
  /-- `a <= b` -/
  le : F → F → Bool
  /-- `a == b` -/
  eqb : F → F → Bool
  sqrt : F → F
  log : F → F
  fabs : F → F
  /-- `(int) x`: truncation toward zero; `none` when the value does not fit an `int` (UB in C) -/
  trunc : F → Option Int
  isNaN : F → Bool
  isInf : F → Bool

export PFloat (lt le eqb)

/-- `ECOS_INFINITY` (include/glblopts.h:53). -/
class HasInf (F : Type) where
  inf : F

section generic
variable {F : Type} [Zero F] [One F] [Add F] [Sub F] [Mul F] [Div F] [Neg F] [OfScientific F]
  [IntCast F] [PFloat F]

/-- `MAX(X,Y)  ((X) < (Y) ? (Y) : (X))` (include/ecos.h:253). -/
def fmax (x y : F) : F := if lt x y then y else x

/-- `EPS` (include/ecos.h:56). -/
def EPS : F := 1e-13

/-- `SAFEDIV_POS(X,Y)  ( (Y)<EPS ? ((X)/EPS) : (X)/(Y) )` (include/ecos.h:255). -/
def safedivPos (x y : F) : F := if lt y EPS then x / EPS else x / y

end generic

/-! ### Exact real arithmetic -/

open Classical in
/-- Exact real arithmetic. `log` and `sqrt` are Mathlib's total functions. -/
noncomputable instance : PFloat ℝ where
  lt a b := decide (a < b)
  le a b := decide (a ≤ b)
  eqb a b := decide (a = b)
  sqrt := Real.sqrt
  log := Real.log
  fabs a := |a|
  trunc a :=
    let t : Int := if 0 ≤ a then ⌊a⌋ else ⌈a⌉
    if -2147483648 ≤ t ∧ t ≤ 2147483647 then some t else none
  isNaN _ := false
  isInf _ := false

@[simp] theorem real_lt (a b : ℝ) : (lt a b = true) ↔ a < b := by simp [lt, PFloat.lt]
@[simp] theorem real_le (a b : ℝ) : (le a b = true) ↔ a ≤ b := by simp [le, PFloat.le]
@[simp] theorem real_eqb (a b : ℝ) : (eqb a b = true) ↔ a = b := by simp [eqb, PFloat.eqb]
@[simp] theorem real_lt_false (a b : ℝ) : (lt a b = false) ↔ b ≤ a := by simp [lt, PFloat.lt]
@[simp] theorem real_le_false (a b : ℝ) : (le a b = false) ↔ b < a := by simp [le, PFloat.le]
@[simp] theorem real_eqb_false (a b : ℝ) : (eqb a b = false) ↔ a ≠ b := by simp [eqb, PFloat.eqb]
@[simp] theorem real_sqrt (a : ℝ) : PFloat.sqrt a = Real.sqrt a := rfl
@[simp] theorem real_log (a : ℝ) : PFloat.log a = Real.log a := rfl
@[simp] theorem real_fabs (a : ℝ) : PFloat.fabs a = |a| := rfl
@[simp] theorem real_isNaN (a : ℝ) : PFloat.isNaN a = false := rfl
@[simp] theorem real_isInf (a : ℝ) : PFloat.isInf a = false := rfl

@[simp] theorem real_fmax (a b : ℝ) : fmax a b = max a b := by
  unfold fmax
  by_cases h : a < b
  · simp [h, max_eq_right h.le]
  · simp [h, max_eq_left (not_lt.mp h)]

theorem real_EPS_pos : (0 : ℝ) < EPS := by unfold EPS; norm_num

theorem real_safediv {x y : ℝ} (h : EPS ≤ y) : safedivPos x y = x / y := by
  unfold safedivPos; simp [not_lt.mpr h]

/-! ### Reals extended by infinities and NaN -/

/-- Reals with `+inf`, `-inf` and `nan`, exact arithmetic otherwise, a single zero. -/
inductive XR where
  | fin (r : ℝ)
  | pinf
  | ninf
  | nan

namespace XR

noncomputable section
open Classical

def neg : XR → XR
  | fin r => fin (-r)
  | pinf => ninf
  | ninf => pinf
  | nan => nan

def add : XR → XR → XR
  | fin a, fin b => fin (a + b)
  | nan, _ => nan
  | _, nan => nan
  | pinf, ninf => nan
  | ninf, pinf => nan
  | pinf, _ => pinf
  | _, pinf => pinf
  | ninf, _ => ninf
  | _, ninf => ninf

/-- infinity with the sign of `r`, `nan` for `r = 0` -/
def signInf (r : ℝ) : XR := if 0 < r then pinf else if r < 0 then ninf else nan

def mul : XR → XR → XR
  | fin a, fin b => fin (a * b)
  | nan, _ => nan
  | _, nan => nan
  | pinf, pinf => pinf
  | pinf, ninf => ninf
  | ninf, pinf => ninf
  | ninf, ninf => pinf
  | pinf, fin b => signInf b
  | fin a, pinf => signInf a
  | ninf, fin b => signInf (-b)
  | fin a, ninf => signInf (-a)

/-- IEEE division; the sign of a zero divisor is not modelled (taken as `+0`). -/
def div : XR → XR → XR
  | fin a, fin b => if b = 0 then signInf a else fin (a / b)
  | nan, _ => nan
  | _, nan => nan
  | fin _, _ => fin 0
  | pinf, fin b => if b < 0 then ninf else pinf
  | ninf, fin b => if b < 0 then pinf else ninf
  | _, _ => nan

/-- IEEE `<`: false whenever a NaN is involved -/
def ltB : XR → XR → Bool
  | fin a, fin b => decide (a < b)
  | nan, _ => false
  | _, nan => false
  | ninf, ninf => false
  | ninf, _ => true
  | _, ninf => false
  | pinf, _ => false
  | _, pinf => true

/-- IEEE `==`: false whenever a NaN is involved -/
def eqB : XR → XR → Bool
  | fin a, fin b => decide (a = b)
  | pinf, pinf => true
  | ninf, ninf => true
  | _, _ => false

instance : Zero XR := ⟨fin 0⟩
instance : One XR := ⟨fin 1⟩
instance : Add XR := ⟨add⟩
instance : Neg XR := ⟨neg⟩
instance : Sub XR := ⟨fun a b => add a (neg b)⟩
instance : Mul XR := ⟨mul⟩
instance : Div XR := ⟨div⟩
instance : OfScientific XR := ⟨fun m s e => fin (OfScientific.ofScientific m s e)⟩
instance : IntCast XR := ⟨fun i => fin (i : ℝ)⟩
instance : HasInf XR := ⟨pinf⟩

instance : PFloat XR where
  lt := ltB
  le a b := ltB a b || eqB a b
  eqb := eqB
  sqrt
    | fin r => if r < 0 then nan else fin (Real.sqrt r)
    | pinf => pinf
    | _ => nan
  log
    | fin r => if r < 0 then nan else if r = 0 then ninf else fin (Real.log r)
    | pinf => pinf
    | _ => nan
  fabs
    | fin r => fin |r|
    | nan => nan
    | _ => pinf
  trunc
    | fin r => PFloat.trunc r
    | _ => none
  isNaN
    | nan => true
    | _ => false
  isInf
    | pinf => true
    | ninf => true
    | _ => false

end
end XR

end Ecos
