import Verif.Model.ExpCone
import Verif.Model.Spla

/-!
# Cones (src/cone.c, include/cone.h), `CONEMODE == 0`

`s+k` in C is a buffer and an offset here.  Counters that run through consecutive loops
(`r[i++]`) are written as "offset of the cone + index inside the cone".
-/
namespace Ecos

section generic
variable {F : Type} [Zero F] [One F] [Add F] [Sub F] [Mul F] [Div F] [Neg F] [OfScientific F]
  [IntCast F] [PFloat F]
variable {σ : Type}

/-- `struct lpcone` (include/cone.h:35-40) -/
structure LpCone (F : Type) where
  p : Nat
  w : Buf F
  v : Buf F
  kktIdx : Buf Nat

/-- `struct socone` (include/cone.h:45-69); scalar fields are `none` until first written -/
structure SoCone (F : Type) where
  p : Nat
  skbar : Buf F
  zkbar : Buf F
  a : Option F
  d1 : Option F
  w : Option F
  eta : Option F
  etaSq : Option F
  q : Buf F
  Didx : Buf Nat
  u0 : Option F
  u1 : Option F
  v1 : Option F

/-- `struct cone` (include/cone.h:73-83) -/
structure Cone (F : Type) where
  lpc : LpCone F
  soc : Array (SoCone F)
  nsoc : Nat
  expc : Array (ExpCone F)
  nexc : Nat
  fexv : Nat

/-- the loops `cone_start = C->lpc->p; for (l=0; l<C->nsoc; l++) { ..; cone_start += C->soc[l].p; }`;
`extra` is 2 where the expanded cones (two extra rows each) are traversed -/
def forSoc (C : Cone F) (start extra : Nat) (s : σ)
    (body : Nat → SoCone F → Nat → σ → M σ) : M (σ × Nat) :=
  loop 0 C.nsoc (s, start) fun l t => do
    let soc ← getIdx C.soc l
    let s ← body l soc t.2 t.1
    pure (s, t.2 + soc.p + extra)

/-- `socres` (cone.c:36-42), `u = b + k` -/
def socres (b : Buf F) (k p : Nat) : M F := do
  let u0 ← rd b k
  loop 1 p (u0 * u0) fun i res => do
    let u ← rd b (k + i)
    pure (res - u * u)

/-- `if( x <= 0 && -x > alpha ) alpha = -x` (cone.c:64, :72) -/
def raise (alpha x : F) : F := if le x 0 && lt alpha (-x) then -x else alpha

/-- residual of one second-order cone, `r0 - sqrt(sum r_i^2)` (cone.c:69-71) -/
def coneRes (r : Buf F) (k p : Nat) : M F := do
  let c ← rd r k
  let sq ← loop 1 p (0 : F) fun j acc => do
    let v ← rd r (k + j)
    pure (acc + v * v)
  pure (c - PFloat.sqrt sq)

/-- largest residual (cone.c:54-73) -/
def maxRes (C : Cone F) (r : Buf F) : M F := do
  let alpha ← loop 0 C.lpc.p (-(GAMMA : F)) fun i alpha => do
    let v ← rd r i
    pure (raise alpha v)
  let t ← forSoc C C.lpc.p 0 alpha fun _ soc k alpha => do
    let c ← coneRes r k soc.p
    pure (raise alpha c)
  pure t.1

/-- `bring2cone` (cone.c:52-92) -/
def bring2cone (C : Cone F) (r s : Buf F) : M (Buf F) := do
  let alpha ← maxRes C r
  let alpha := alpha + 1
  let s ← fill s 0 C.lpc.p fun i => do
    let v ← rd r i
    pure (v + alpha)
  let t ← forSoc C C.lpc.p 0 s fun _ soc k s => do
    let v ← rd r k
    let s ← wr s k (v + alpha)
    fill s (k + 1) (soc.p - 1) fun j => rd r (k + 1 + j)
  pure t.1

/-- first, second, third coordinate of the central ray (cone.c:117-122) -/
def RAY0 : F := -1.051383945322714
def RAY1 : F := 1.258967884768947
def RAY2 : F := 0.556409619469370

/-- one of the two vectors of `unitInitialization` -/
def unitInit1 (C : Cone F) (s : Buf F) (scaling : F) : M (Buf F) := do
  let s ← fill s 0 C.lpc.p fun _ => pure scaling
  let t ← forSoc C C.lpc.p 0 s fun _ soc k s => do
    let s ← wr s k scaling
    fill s (k + 1) (soc.p - 1) fun _ => pure 0
  loop 0 C.nexc t.1 fun l s => do
    let s ← wr s (t.2 + 3 * l) (scaling * RAY0)
    let s ← wr s (t.2 + 3 * l + 1) (scaling * RAY1)
    wr s (t.2 + 3 * l + 2) (scaling * RAY2)

/-- `unitInitialization` (cone.c:99-126); the writes to `s` and `z` are independent and done one
vector after the other here -/
def unitInitialization (C : Cone F) (s z : Buf F) (scaling : F) : M (Buf F × Buf F) := do
  let s ← unitInit1 C s scaling
  let z ← unitInit1 C z scaling
  pure (s, z)

/-- scaling of one second-order cone: everything computed from `a`, `w` (cone.c:188-213).
`none` is the early `return OUTSIDE_CONE` (cone.c:206).  Result `(d1, u0, u1, v1)`. -/
def socDerived (a w : F) : Option (F × F × F × F) :=
  let temp := 1 + a
  let c := 1 + a + safedivPos w temp
  let divisor := temp * temp
  let d := 1 + safedivPos 2.0 temp + safedivPos w divisor
  let c_square := c * c
  let divisor := 1 + w * d
  let d1 := 0.5 * (a * a + w * (1 - safedivPos c_square divisor))
  let d1 := if lt d1 0 then 0 else d1
  let u0_square := a * a + w - d1
  let u0 := PFloat.sqrt u0_square
  let c2byu02 := safedivPos (c * c) u0_square
  let c2byu02_d := c2byu02 - d
  if le c2byu02_d 0 then none
  else some (d1, u0, PFloat.sqrt c2byu02, PFloat.sqrt c2byu02_d)

/-- `gamma` and `one_over_2gamma` (cone.c:175-178) -/
def ntOneOver2Gamma (skbar zkbar : Buf F) (p : Nat) : M F := do
  let g ← loop 0 p (1 : F) fun i g => do
    let s ← rd skbar i
    let z ← rd zkbar i
    pure (g + s * z)
  pure (safedivPos 0.5 (PFloat.sqrt (0.5 * g)))

/-- the loop computing `q` and `w` (cone.c:180-184) -/
def ntQ (skbar zkbar q : Buf F) (p : Nat) (h : F) : M (Buf F × F) :=
  loop 1 p (q, (0 : F)) fun i t => do
    let s ← rd skbar i
    let z ← rd zkbar i
    let q ← wr t.1 (i - 1) (h * (s - z))
    let v ← rd q (i - 1)
    pure (q, t.2 + v * v)

/-- one second-order cone of `updateScalings` (cone.c:160-213).  `Sum.inl` is the early
`return OUTSIDE_CONE`; the cone carries what was written before it. -/
def socScaling (soc : SoCone F) (s z : Buf F) (k : Nat) : M (SoCone F ⊕ SoCone F) := do
  let sres ← socres s k soc.p
  let zres ← socres z k soc.p
  if le sres 0 || le zres 0 then pure (.inl soc)
  else do
    let snorm := PFloat.sqrt sres
    let znorm := PFloat.sqrt zres
    let skbar ← fill soc.skbar 0 soc.p fun i => do
      let v ← rd s (k + i)
      pure (safedivPos v snorm)
    let zkbar ← fill soc.zkbar 0 soc.p fun i => do
      let v ← rd z (k + i)
      pure (safedivPos v znorm)
    let etaSq := safedivPos snorm znorm
    let h ← ntOneOver2Gamma skbar zkbar soc.p
    let s0 ← rd skbar 0
    let z0 ← rd zkbar 0
    let a := h * (s0 + z0)
    let qw ← ntQ skbar zkbar soc.q soc.p h
    let soc := { soc with skbar := skbar, zkbar := zkbar, etaSq := some etaSq,
                          eta := some (PFloat.sqrt etaSq), q := qw.1, w := some qw.2, a := some a }
    match socDerived a qw.2 with
    | none => pure (.inl soc)
    | some t => pure (.inr { soc with d1 := some t.1, u0 := some t.2.1, u1 := some t.2.2.1,
                                      v1 := some t.2.2.2 })

/-- the second-order cones of `updateScalings` (cone.c:156-217) -/
def socScalings (C : Cone F) (s z : Buf F) : M (Cone F ⊕ Cone F × Nat) :=
  loopE 0 C.nsoc (C, C.lpc.p) fun l t => do
    let soc ← getIdx t.1.soc l
    let r ← socScaling soc s z t.2
    match r with
    | .inl soc => do
      let a ← setIdx t.1.soc l soc
      pure (.inl { t.1 with soc := a })
    | .inr soc' => do
      let a ← setIdx t.1.soc l soc'
      pure (.inr ({ t.1 with soc := a }, t.2 + soc'.p))

/-- the exponential cones of `updateScalings` (cone.c:219-227) -/
def expScalings (C : Cone F) (z : Buf F) (mu : F) : M (Cone F) :=
  loop 0 C.nexc C fun l C => do
    let e ← getIdx C.expc l
    let v ← evalExpHessian z (C.fexv + 3 * l) e.v mu
    let g ← evalExpGradient z (C.fexv + 3 * l) e.g
    let a ← setIdx C.expc l { e with v := v, g := g }
    pure { C with expc := a }

/-- the linear cone of `updateScalings` (cone.c:150-154) -/
def lpScalings (L : LpCone F) (s z : Buf F) : M (LpCone F) :=
  loop 0 L.p L fun i L => do
    let sv ← rd s i
    let zv ← rd z i
    let v ← wr L.v i (safedivPos sv zv)
    let x ← rd v i
    let w ← wr L.w i (PFloat.sqrt x)
    pure { L with v := v, w := w }

/-- one second-order cone of `scale` (cone.c:288-302) -/
def scaleSoc (soc : SoCone F) (z : Buf F) (k : Nat) (lam : Buf F) : M (Buf F) := do
  let zeta ← loop 1 soc.p (0 : F) fun i zeta => do
    let q ← rd soc.q (i - 1)
    let v ← rd z (k + i)
    pure (zeta + q * v)
  let z0 ← rd z k
  let a ← get soc.a
  let factor := z0 + safedivPos zeta (1 + a)
  let eta ← get soc.eta
  let lam ← wr lam k (eta * (a * z0 + zeta))
  fill lam (k + 1) (soc.p - 1) fun i => do
    let v ← rd z (k + 1 + i)
    let q ← rd soc.q i
    pure (eta * (v + factor * q))

/-- `scale` (cone.c:276-306): `lambda = W*z`; exponential entries are not touched -/
def scale (z : Buf F) (C : Cone F) (lam : Buf F) : M (Buf F) := do
  let lam ← fill lam 0 C.lpc.p fun i => do
    let w ← rd C.lpc.w i
    let v ← rd z i
    pure (w * v)
  let t ← forSoc C C.lpc.p 0 lam fun _ soc k lam => scaleSoc soc z k lam
  pure t.1

/-- `updateScalings` (cone.c:136-232).  `none` is `OUTSIDE_CONE`.  Returns the cone with the new
scalings (partly updated on `OUTSIDE_CONE`) and `lambda`. -/
def updateScalings (C : Cone F) (s z lam : Buf F) (mu : F) : M (Cone F × Option (Buf F)) := do
  let L ← lpScalings C.lpc s z
  let r ← socScalings { C with lpc := L } s z
  match r with
  | .inl C => pure (C, none)
  | .inr t => do
    let C ← expScalings t.1 z mu
    let lam ← scale z C lam
    pure (C, some lam)

/-- `x <= 0 || y <= 0 ? ECOS_INFINITY : log(x)+log(y)` (cone.c:245, :247) -/
def logOrInf2 [HasInf F] (x y : F) : F :=
  if le x 0 || le y 0 then INF else PFloat.log x + PFloat.log y

/-- `x <= 0 ? ECOS_INFINITY : 0.5*log(x)` (cone.c:263-264) -/
def halfLogOrInf [HasInf F] (x : F) : F := if le x 0 then INF else 0.5 * PFloat.log x

/-- `evalSymmetricBarrierValue` (cone.c:236-268); `D` is the degree converted to `pfloat` -/
def evalSymmetricBarrierValue [HasInf F] (siter ziter : Buf F) (tauIter kapIter : F) (C : Cone F)
    (D : F) : M F := do
  let barrier ← loop 0 C.lpc.p (0 : F) fun k b => do
    let s ← rd siter k
    let z ← rd ziter k
    pure (b - logOrInf2 s z)
  let barrier := barrier - logOrInf2 tauIter kapIter
  let t ← forSoc C C.lpc.p 0 barrier fun _ soc k b => do
    let ns ← socres siter k soc.p
    let nz ← socres ziter k soc.p
    pure (b - halfLogOrInf ns - halfLogOrInf nz)
  pure (t.1 - D - 1)

/-- one second-order cone of `scale2add` (cone.c:335-363), reads `x`, updates `y`, both at `k` -/
def scale2addSoc (soc : SoCone F) (x : Buf F) (k : Nat) (y : Buf F) : M (Buf F) := do
  let etaSq ← get soc.etaSq
  let d1 ← get soc.d1
  let u0 ← get soc.u0
  let u1 ← get soc.u1
  let v1 ← get soc.v1
  let x1 ← rd x k
  let x3 ← rd x (k + soc.p)
  let x4 ← rd x (k + soc.p + 1)
  let y1 ← rd y k
  let y ← wr y k (y1 + etaSq * (d1 * x1 + u0 * x4))
  let f := v1 * x3 + u1 * x4
  let t ← loop 0 (soc.p - 1) (y, (0 : F)) fun i t => do
    let x2 ← rd x (k + 1 + i)
    let q ← rd soc.q i
    let y2 ← rd t.1 (k + 1 + i)
    let y ← wr t.1 (k + 1 + i) (y2 + etaSq * (x2 + f * q))
    pure (y, t.2 + q * x2)
  let y3 ← rd t.1 (k + soc.p)
  let y ← wr t.1 (k + soc.p) (y3 + etaSq * (v1 * t.2 + x3))
  let y4 ← rd y (k + soc.p + 1)
  wr y (k + soc.p + 1) (y4 + etaSq * (u0 * x1 + u1 * t.2 - x4))

/-- `scale2add` (cone.c:313-407): `y += W^2 x` on expanded vectors -/
def scale2add (x y : Buf F) (C : Cone F) : M (Buf F) := do
  let y ← modify y 0 C.lpc.p fun i yv => do
    let v ← rd C.lpc.v i
    let xv ← rd x i
    pure (yv + v * xv)
  let t ← forSoc C C.lpc.p 2 y fun _ soc k y => scale2addSoc soc x k y
  scaleToAddExpcone t.1 x C.expc C.nexc t.2

/-- one second-order cone of `unscale` (cone.c:428-440) -/
def unscaleSoc (soc : SoCone F) (lam : Buf F) (k : Nat) (z : Buf F) : M (Buf F) := do
  let zeta ← loop 1 soc.p (0 : F) fun i zeta => do
    let q ← rd soc.q (i - 1)
    let v ← rd lam (k + i)
    pure (zeta + q * v)
  let l0 ← rd lam k
  let a ← get soc.a
  let factor := (-l0) + safedivPos zeta (1 + a)
  let eta ← get soc.eta
  let z ← wr z k (safedivPos (a * l0 - zeta) eta)
  fill z (k + 1) (soc.p - 1) fun i => do
    let v ← rd lam (k + 1 + i)
    let q ← rd soc.q i
    pure (safedivPos (v + factor * q) eta)

/-- `unscale` (cone.c:416-444): `z = W\lambda` -/
def unscale (lam : Buf F) (C : Cone F) (z : Buf F) : M (Buf F) := do
  let z ← fill z 0 C.lpc.p fun i => do
    let v ← rd lam i
    let w ← rd C.lpc.w i
    pure (safedivPos v w)
  let t ← forSoc C C.lpc.p 0 z fun _ soc k z => unscaleSoc soc lam k z
  pure t.1

/-- `w < 0 ? -w : w` (cone.c:463, :474) -/
def cabs (x : F) : F := if lt x 0 then -x else x

/-- `eddot(n, x+k, y+k)` (spla.c:159-164 with offset pointers) -/
def eddotOff (n : Nat) (x : Buf F) (kx : Nat) (y : Buf F) (ky : Nat) : M F :=
  loop 0 n (0 : F) fun i z => do
    let a ← rd x (kx + i)
    let b ← rd y (ky + i)
    pure (z + a * b)

/-- one second-order cone of `conicProduct` (cone.c:470-477); the counter `k` of the code equals
`cone_start` at the start of a cone -/
def conicProductSoc (soc : SoCone F) (u v : Buf F) (k : Nat) (t : Buf F × F) : M (Buf F × F) := do
  let u0 ← rd u k
  let v0 ← rd v k
  let d ← eddotOff soc.p u k v k
  let w ← wr t.1 k d
  let w ← fill w (k + 1) (soc.p - 1) fun j => do
    let vj ← rd v (k + 1 + j)
    let uj ← rd u (k + 1 + j)
    pure (u0 * vj + v0 * uj)
  pure (w, t.2 + cabs d)

/-- `conicProduct` (cone.c:452-481): `w = u o v`, returns `w` and `e'*|w|` -/
def conicProduct (u v : Buf F) (C : Cone F) (w : Buf F) : M (Buf F × F) := do
  let t ← loop 0 C.lpc.p (w, (0 : F)) fun i t => do
    let a ← rd u i
    let b ← rd v i
    let w ← wr t.1 i (a * b)
    pure (w, t.2 + cabs (a * b))
  let t ← forSoc C C.lpc.p 0 t fun _ soc k t => conicProductSoc soc u v k t
  pure t.1

/-- one second-order cone of `conicDivision` (cone.c:499-515) -/
def conicDivisionSoc (soc : SoCone F) (u w : Buf F) (k : Nat) (v : Buf F) : M (Buf F) := do
  let u0 ← rd u k
  let w0 ← rd w k
  let t ← loop 1 soc.p (u0 * u0, (0 : F)) fun j t => do
    let uj ← rd u (k + j)
    let wj ← rd w (k + j)
    pure (t.1 - uj * uj, t.2 + uj * wj)
  let factor := safedivPos (safedivPos t.2 u0 - w0) t.1
  let v ← wr v k (safedivPos (u0 * w0 - t.2) t.1)
  fill v (k + 1) (soc.p - 1) fun j => do
    let uj ← rd u (k + 1 + j)
    let wj ← rd w (k + 1 + j)
    pure (factor * uj + safedivPos wj u0)

/-- `conicDivision` (cone.c:488-517): `v = u \ w` -/
def conicDivision (u w : Buf F) (C : Cone F) (v : Buf F) : M (Buf F) := do
  let v ← fill v 0 C.lpc.p fun i => do
    let a ← rd w i
    let b ← rd u i
    pure (safedivPos a b)
  let t ← forSoc C C.lpc.p 0 v fun _ soc k v => conicDivisionSoc soc u w k v
  pure t.1

/-- `dst[off..off+n) = Px[Pinv[src..src+n)]` (cone.c:545-558) -/
def gather (dst : Buf F) (off : Nat) (Px : Buf F) (Pinv : Buf Nat) (src n : Nat) : M (Buf F) :=
  fill dst off n fun i => do
    let j ← rd Pinv (src + i)
    rd Px j

/-- `unstretch` (cone.c:541-561) -/
def unstretch (n p : Nat) (C : Cone F) (Pinv : Buf Nat) (Px dx dy dz : Buf F) :
    M (Buf F × Buf F × Buf F) := do
  let dx ← gather dx 0 Px Pinv 0 n
  let dy ← gather dy 0 Px Pinv n p
  let dz ← gather dz 0 Px Pinv (n + p) C.lpc.p
  let t ← forSoc C C.lpc.p 0 dz fun l soc k dz => gather dz k Px Pinv (n + p + k + 2 * l) soc.p
  let dz ← gather t.1 t.2 Px Pinv (n + p + t.2 + 2 * C.nsoc) (3 * C.nexc)
  pure (dx, dy, dz)

end generic
end Ecos
