import Verif.Core.Num
import Mathlib.Data.Nat.Sqrt

/-!
# A computable number type for concrete runs

Fixed-point numbers with 80 fractional bits, infinities and NaN, used only to exhibit concrete
executions of the model that the kernel can evaluate (`decide +kernel`): instances that meet the
hypotheses of theorems, and counterexamples.  Nothing universal is stated about it.
-/
namespace Ecos

/-- `fin v` stands for `v / 2^80` -/
inductive Fx where
  | fin (v : Int)
  | pinf
  | ninf
  | nan
  deriving DecidableEq

namespace Fx

/-- the representation of 1 -/
def unit : Int := 2 ^ 80

/-- infinity with the sign of `v`, `nan` for 0 -/
def signed (v : Int) : Fx := if 0 < v then pinf else if v < 0 then ninf else nan

def neg : Fx → Fx
  | fin v => fin (-v)
  | pinf => ninf
  | ninf => pinf
  | nan => nan

def add : Fx → Fx → Fx
  | fin a, fin b => fin (a + b)
  | nan, _ => nan
  | _, nan => nan
  | pinf, ninf => nan
  | ninf, pinf => nan
  | pinf, _ => pinf
  | _, pinf => pinf
  | ninf, _ => ninf
  | _, ninf => ninf

def mul : Fx → Fx → Fx
  | fin a, fin b => fin (a * b / unit)
  | nan, _ => nan
  | _, nan => nan
  | pinf, pinf => pinf
  | pinf, ninf => ninf
  | ninf, pinf => ninf
  | ninf, ninf => pinf
  | pinf, fin b => signed b
  | fin a, pinf => signed a
  | ninf, fin b => signed (-b)
  | fin a, ninf => signed (-a)

def div : Fx → Fx → Fx
  | fin a, fin b => if b = 0 then signed a else fin (a * unit / b)
  | nan, _ => nan
  | _, nan => nan
  | fin _, _ => fin 0
  | pinf, fin b => if b < 0 then ninf else pinf
  | ninf, fin b => if b < 0 then pinf else ninf
  | _, _ => nan

def ltB : Fx → Fx → Bool
  | fin a, fin b => decide (a < b)
  | nan, _ => false
  | _, nan => false
  | ninf, ninf => false
  | ninf, _ => true
  | _, ninf => false
  | pinf, _ => false
  | _, pinf => true

def eqB : Fx → Fx → Bool
  | fin a, fin b => decide (a = b)
  | pinf, pinf => true
  | ninf, ninf => true
  | _, _ => false

/-- `2 * atanh(y)` by its series, `t = y^(2k-1)` -/
def atanh2 (y2 : Int) : Nat → Int → Int → Int → Int
  | 0, _, _, acc => 2 * acc
  | n + 1, k, t, acc => atanh2 y2 n (k + 2) (t * y2 / unit) (acc + t / k)

/-- natural logarithm of `v / 2^80` for `0 < v` -/
def logPos (v : Int) : Int :=
  let e : Int := (Nat.log2 v.toNat : Int) - 80
  let mant : Int := if 0 ≤ e then v / 2 ^ e.toNat else v * 2 ^ (-e).toNat
  let y := (mant - unit) * unit / (mant + unit)
  e * 837963523372001241319907 + atanh2 (y * y / unit) 26 1 y 0

instance : Zero Fx := ⟨fin 0⟩
instance : One Fx := ⟨fin unit⟩
instance : Add Fx := ⟨add⟩
instance : Neg Fx := ⟨neg⟩
instance : Sub Fx := ⟨fun a b => add a (neg b)⟩
instance : Mul Fx := ⟨mul⟩
instance : Div Fx := ⟨div⟩
instance : OfScientific Fx :=
  ⟨fun m s e => fin (if s then (m : Int) * unit / 10 ^ e else (m : Int) * 10 ^ e * unit)⟩
instance : IntCast Fx := ⟨fun i => fin (i * unit)⟩
instance : HasInf Fx := ⟨pinf⟩

instance : PFloat Fx where
  lt := ltB
  le a b := ltB a b || eqB a b
  eqb := eqB
  sqrt
    | fin v => if v < 0 then nan else fin (Nat.sqrt (v * unit).toNat : Int)
    | pinf => pinf
    | _ => nan
  log
    | fin v => if v < 0 then nan else if v = 0 then ninf else fin (logPos v)
    | pinf => pinf
    | _ => nan
  fabs
    | fin v => fin (v.natAbs : Int)
    | nan => nan
    | _ => pinf
  trunc
    | fin v => some (Int.tdiv v unit)
    | _ => none
  isNaN
    | nan => true
    | _ => false
  isInf
    | pinf => true
    | ninf => true
    | _ => false

end Fx
end Ecos
