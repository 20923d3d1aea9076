import Verif.Model.Base

/-!
# Exponential cones (src/expcone.c, src/wright_omega.c)

A C pointer into the middle of an array (`z+k`) is an array and an offset here.
-/
namespace Ecos

section generic
variable {F : Type} [Zero F] [One F] [Add F] [Sub F] [Mul F] [Div F] [Neg F] [OfScientific F]
  [IntCast F] [PFloat F]

/-- `struct expcone` (include/expcone.h:35-40): `colstart[3]`, `v[6]`, `g[3]` -/
structure ExpCone (F : Type) where
  colstart : Buf Nat
  v : Buf F
  g : Buf F

/-- `l = log(-y/x)` (expcone.c:45, :63) -/
def expL (x y : F) : F := PFloat.log ((-y) / x)

/-- `r = -x*l-x+z` (expcone.c:46, :64) -/
def expR (x y z : F) : F := (-x) * expL x y - x + z

/-- the six numbers written by `evalExpHessian` (expcone.c:47-52) -/
def expHess (x y z mu : F) : F × F × F × F × F × F :=
  let l := expL x y
  let r := expR x y z
  (mu * ((r * r - x * r + l * l * x * x) / (r * x * x * r)),
   mu * ((z - x) / (r * r * y)),
   mu * ((r * r - x * r + x * x) / (r * r * y * y)),
   mu * ((-l) / (r * r)),
   mu * ((-x) / (r * r * y)),
   mu * (1 / (r * r)))

/-- `evalExpHessian` (expcone.c:32-53), `w = b + off` -/
def evalExpHessian (b : Buf F) (off : Nat) (v : Buf F) (mu : F) : M (Buf F) := do
  let x ← rd b off
  let y ← rd b (off + 1)
  let z ← rd b (off + 2)
  let h := expHess x y z mu
  let v ← wr v 0 h.1
  let v ← wr v 1 h.2.1
  let v ← wr v 2 h.2.2.1
  let v ← wr v 3 h.2.2.2.1
  let v ← wr v 4 h.2.2.2.2.1
  wr v 5 h.2.2.2.2.2

/-- the three numbers written by `evalExpGradient` (expcone.c:66-68) -/
def expGrad (x y z : F) : F × F × F :=
  let l := expL x y
  let r := expR x y z
  ((l * x - r) / (r * x), (x - r) / (y * r), (-1) / r)

/-- `evalExpGradient` (expcone.c:58-69), `w = b + off` -/
def evalExpGradient (b : Buf F) (off : Nat) (g : Buf F) : M (Buf F) := do
  let x ← rd b off
  let y ← rd b (off + 1)
  let z ← rd b (off + 2)
  let h := expGrad x y z
  let g ← wr g 0 h.1
  let g ← wr g 1 h.2.1
  wr g 2 h.2.2

/-- first guess of `wrightOmega` for `z < 1+pi` (wright_omega.c:32-43). The last two terms are multiplied by
`q` as in the code (the Taylor series would have the powers `r` there) -/
def omegaTaylor (z : F) : F :=
  let q := z - 1
  let r := q
  let w := 1 + 0.5 * r
  let r := r * q
  let w := w + 1 / 16.0 * r
  let r := r * q
  let w := w - 1 / 192.0 * r
  let w := w - 1 / 3072.0 * q
  w + 13.0 / 61440.0 * q

/-- first guess of `wrightOmega` for large `z` (wright_omega.c:47-57) -/
def omegaAsym (z : F) : F :=
  let r := PFloat.log z
  let zi := 1 / z
  let w := z - r
  let q := r * zi
  let w := w + q
  let q := q * zi
  let w := w + q * (0.5 * r - 1)
  let q := q * zi
  w + q * (1 / 3.0 * r * r - 3.0 / 2.0 * r + 1)

/-- one round of the iteration (wright_omega.c:62-65, :68-71); returns `(w, r)` -/
def omegaRound (w r : F) : F × F :=
  let z := 1 + w
  let q := z + 2.0 / 3.0 * r
  let w := w * (1 + r / z * (z * q - 0.5 * r) / (z * q - r))
  (w, (2.0 * w * w - 8.0 * w - 1) / (72.0 * (z * z * z * z * z * z)) * r * r * r * r)

/-- `wrightOmega` (wright_omega.c:21-74) -/
def wrightOmega (z : F) : F :=
  if lt z 0 then -1
  else
    let w := if lt z (1 + 3.14159265358979323846) then omegaTaylor z else omegaAsym z
    let r := z - w - PFloat.log w
    let a := omegaRound w r
    (omegaRound a.1 a.2).1

/-- dual part of the barrier, one cone (expcone.c:98-99) -/
def dualBarrier (u v w : F) : F :=
  let l := PFloat.log ((-v) / u);
  -(PFloat.log (w - u - u * l)) - PFloat.log (-u) - PFloat.log v

/-- primal part of the barrier, one cone (expcone.c:102-104) -/
def primalBarrier (x y z : F) : F :=
  let o := wrightOmega (1 - x / z - PFloat.log z + PFloat.log y)
  let o := (o - 1) * (o - 1) / o;
  -(PFloat.log o) - 2.0 * PFloat.log z - PFloat.log y - 3.0

/-- `evalBarrierValue` (expcone.c:72-111) -/
def evalBarrierValue (siter ziter : Buf F) (fc nexc : Nat) : M F := do
  let r ← loop 0 nexc ((0 : F), (0 : F)) fun j t => do
    let u ← rd ziter (fc + 3 * j)
    let v ← rd ziter (fc + 3 * j + 1)
    let w ← rd ziter (fc + 3 * j + 2)
    let x ← rd siter (fc + 3 * j)
    let y ← rd siter (fc + 3 * j + 1)
    let z ← rd siter (fc + 3 * j + 2)
    pure (t.1 + primalBarrier x y z, t.2 + dualBarrier u v w)
  pure (r.1 + r.2)

/-- one cone of `scaleToAddExpcone` (expcone.c:130-132) -/
def scaleExp1 (e : ExpCone F) (x : Buf F) (k : Nat) (y : Buf F) : M (Buf F) := do
  let v0 ← rd e.v 0
  let v1 ← rd e.v 1
  let v2 ← rd e.v 2
  let v3 ← rd e.v 3
  let v4 ← rd e.v 4
  let v5 ← rd e.v 5
  let x0 ← rd x k
  let x1 ← rd x (k + 1)
  let x2 ← rd x (k + 2)
  let y0 ← rd y k
  let y ← wr y k (y0 + (v0 * x0 + v1 * x1 + v3 * x2))
  let y1 ← rd y (k + 1)
  let y ← wr y (k + 1) (y1 + (v1 * x0 + v2 * x1 + v4 * x2))
  let y2 ← rd y (k + 2)
  wr y (k + 2) (y2 + (v3 * x0 + v4 * x1 + v5 * x2))

/-- `scaleToAddExpcone` (expcone.c:121-138): `y[fc..] += muH * x[fc..]` -/
def scaleToAddExpcone (y x : Buf F) (expc : Array (ExpCone F)) (nexc fc : Nat) : M (Buf F) :=
  loop 0 nexc y fun l y => do
    let e ← getIdx expc l
    scaleExp1 e x (fc + 3 * l) y

/-- the test of one cone in `evalExpPrimalFeas` (expcone.c:155-157); true means "return 0" -/
def expPrimalBad (x1 x2 x3 : F) : Bool :=
  let psi := x3 * PFloat.log (x2 / x3) - x1
  lt psi 0 || lt x2 0 || lt x3 0

/-- `evalExpPrimalFeas` (expcone.c:145-164), `s = b + off` -/
def evalExpPrimalFeas (b : Buf F) (off nexc : Nat) : M Bool := do
  let r ← loopE 0 nexc () fun j _ => do
    let x1 ← rd b (off + 3 * j)
    let x2 ← rd b (off + 3 * j + 1)
    let x3 ← rd b (off + 3 * j + 2)
    pure (if expPrimalBad x1 x2 x3 then Sum.inl () else Sum.inr ())
  pure (match r with
    | .inl _ => false
    | .inr _ => true)

/-- the test of one cone in `evalExpDualFeas` (expcone.c:181-183); true means "return 0" -/
def expDualBad (x1 x2 x3 : F) : Bool :=
  let psi := (-x1) - x1 * PFloat.log ((-x2) / x1) + x3
  lt 0 x1 || lt x2 0 || lt psi 0

/-- `evalExpDualFeas` (expcone.c:171-190), `z = b + off` -/
def evalExpDualFeas (b : Buf F) (off nexc : Nat) : M Bool := do
  let r ← loopE 0 nexc () fun j _ => do
    let x1 ← rd b (off + 3 * j)
    let x2 ← rd b (off + 3 * j + 1)
    let x3 ← rd b (off + 3 * j + 2)
    pure (if expDualBad x1 x2 x3 then Sum.inl () else Sum.inr ())
  pure (match r with
    | .inl _ => false
    | .inr _ => true)

end generic
end Ecos
