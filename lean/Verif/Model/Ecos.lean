import Verif.Model.Kkt
import Verif.Model.Equil

/-!
# The interior-point driver (src/ecos.c, include/ecos.h, src/ctrlc.c)

Simplifications (besides those of the other files):
* `lambda`, `dsaff`, `dsaff_by_W`, `W_times_dzaff` are filled and used within one pass of the main
  loop; each pass starts with unwritten ones of size `m`.  `dzaff`, `saff`, `zaff`, `sz` are never
  used by the code.
* printing and timing are left out (`best_info->iter` is only printed).
* scalars are `none` until first written.
-/
namespace Ecos

section generic
variable {F : Type} [Zero F] [One F] [Add F] [Sub F] [Mul F] [Div F] [Neg F] [OfScientific F]
  [IntCast F] [PFloat F]

/-! ### Data structures -/

/-- `struct settings` (include/ecos.h:99-117) without `verbose` -/
structure Settings (F : Type) where
  gamma : F
  delta : F
  eps : F
  feastol : F
  abstol : F
  reltol : F
  feastolInacc : F
  abstolInacc : F
  reltolInacc : F
  nitref : Int
  maxit : Int
  maxBk : Int
  bkScale : F
  centrality : F

/-- `struct stats` (include/ecos.h:121-170) without the timers -/
structure Stats (F : Type) where
  pcost : Option F := none
  dcost : Option F := none
  pres : Option F := none
  dres : Option F := none
  pinf : Option F := none
  dinf : Option F := none
  pinfres : Option F := none
  dinfres : Option F := none
  gap : Option F := none
  relgap : Option F := none
  sigma : Option F := none
  mu : Option F := none
  step : Option F := none
  stepAff : Option F := none
  kapovert : Option F := none
  iter : Nat := 0
  nitref1 : Nat := 0
  nitref2 : Nat := 0
  nitref3 : Nat := 0
  pob : Nat := 0
  cb : Nat := 0
  cob : Nat := 0
  pb : Nat := 0
  db : Nat := 0
  affBack : Nat := 0
  cmbBack : Nat := 0
  centrality : Option F := none

/-- `struct pwork` (include/ecos.h:174-249) -/
structure Work (F : Type) where
  n : Nat
  m : Nat
  p : Nat
  D : Nat
  x : Buf F
  y : Buf F
  z : Buf F
  s : Buf F
  kap : Option F := none
  tau : Option F := none
  bestX : Buf F
  bestY : Buf F
  bestZ : Buf F
  bestS : Buf F
  bestKap : Option F := none
  bestTau : Option F := none
  bestCx : Option F := none
  bestBy : Option F := none
  bestHz : Option F := none
  bestInfo : Stats F := {}
  C : Cone F
  A : Option (SpMat F)
  G : SpMat F
  c : Buf F
  b : Buf F
  h : Buf F
  AtoK : Option (Buf Nat)
  GtoK : Buf Nat
  xequil : Buf F
  Aequil : Buf F
  Gequil : Buf F
  resx0 : Option F := none
  resy0 : Option F := none
  resz0 : Option F := none
  rx : Buf F
  ry : Option (Buf F)
  rz : Buf F
  rt : Option F := none
  hresx : Option F := none
  hresy : Option F := none
  hresz : Option F := none
  nx : Option F := none
  ny : Option F := none
  nz : Option F := none
  ns : Option F := none
  cx : Option F := none
  bY : Option F := none
  hz : Option F := none
  KKT : Kkt F
  info : Stats F := {}
  stgs : Settings F

/-! ### Exit codes (include/ecos.h:87-95, ecos.c:39) -/

def OPTIMAL : Int := 0
def PINF : Int := 1
def DINF : Int := 2
def INACC : Int := 10
def MAXIT : Int := -1
def NUMERICS : Int := -2
def OUTCONE : Int := -3
def SIGINT : Int := -4
def FATAL : Int := -7
def NOTYET : Int := -87

/-- `a && b` where evaluating `b` may read memory -/
def andM (a : Bool) (b : M Bool) : M Bool := if a then b else pure false

/-! ### Best iterate -/

/-- `a > 0 && b > 0 && a < b` on two fields -/
def cmpPos (a b : Option F) : M Bool := do
  let x ← get a
  andM (lt 0 x) (do
    let y ← get b
    andM (lt 0 y) (pure (lt x y)))

/-- `a > 0 && a < b` on two fields -/
def cmpLt (a b : Option F) : M Bool := do
  let x ← get a
  andM (lt 0 x) (do
    let y ← get b
    pure (lt x y))

/-- `compareStatistics` (ecos.c:61-101).  `x != ECOS_NAN` is written as it stands. -/
def compareStatistics [HasInf F] (a b : Stats F) : M Bool := do
  let pa ← get a.pinfres
  let c ← andM (!eqb pa NAN) (do
    let k ← get a.kapovert
    pure (lt 1 k))
  if c then do
    let pb ← get b.pinfres
    if !eqb pb NAN then do
      let r ← cmpPos a.gap b.gap
      let r ← andM r (cmpLt a.pinfres b.pres)
      andM r (cmpLt a.mu b.mu)
    else do
      let r ← cmpPos a.gap b.gap
      andM r (cmpLt a.mu b.mu)
  else do
    let r ← cmpPos a.gap b.gap
    let r ← andM r (cmpLt a.pres b.pres)
    let r ← andM r (cmpLt a.dres b.dres)
    let r ← andM r (cmpLt a.kapovert b.kapovert)
    andM r (cmpLt a.mu b.mu)

/-- `saveIterateAsBest` (ecos.c:105-128) -/
def saveIterateAsBest (w : Work F) : M (Work F) := do
  let x ← BB.cpAll w.x w.bestX w.n
  let y ← BB.cpAll w.y w.bestY w.p
  let z ← BB.cpAll w.z w.bestZ w.m
  let s ← BB.cpAll w.s w.bestS w.m
  pure { w with
    bestX := x, bestY := y, bestZ := z, bestS := s,
    bestKap := w.kap, bestTau := w.tau, bestCx := w.cx, bestBy := w.bY, bestHz := w.hz,
    bestInfo := { w.bestInfo with
      pcost := w.info.pcost, dcost := w.info.dcost, pres := w.info.pres, dres := w.info.dres,
      pinfres := w.info.pinfres, dinfres := w.info.dinfres, gap := w.info.gap,
      relgap := w.info.relgap, mu := w.info.mu, kapovert := w.info.kapovert, iter := w.info.iter } }

/-- `restoreBestIterate` (ecos.c:135-157) -/
def restoreBestIterate (w : Work F) : M (Work F) := do
  let x ← BB.cpAll w.bestX w.x w.n
  let y ← BB.cpAll w.bestY w.y w.p
  let z ← BB.cpAll w.bestZ w.z w.m
  let s ← BB.cpAll w.bestS w.s w.m
  pure { w with
    x := x, y := y, z := z, s := s,
    kap := w.bestKap, tau := w.bestTau, cx := w.bestCx, bY := w.bestBy, hz := w.bestHz,
    info := { w.info with
      pcost := w.bestInfo.pcost, dcost := w.bestInfo.dcost, pres := w.bestInfo.pres,
      dres := w.bestInfo.dres, pinfres := w.bestInfo.pinfres, dinfres := w.bestInfo.dinfres,
      gap := w.bestInfo.gap, relgap := w.bestInfo.relgap, mu := w.bestInfo.mu,
      kapovert := w.bestInfo.kapovert } }

/-! ### Exit conditions -/

/-- the numbers `checkExitConditions` looks at -/
structure ExitIn (F : Type) where
  cx : F
  by_ : F
  hz : F
  pres : F
  dres : F
  gap : F
  relgap : F
  pinfres : F
  dinfres : F
  tau : F
  kap : F

/-- reading them (the code reads some only when needed; all are written by
`computeResiduals`/`updateStatistics` or restored together) -/
def exitIn (w : Work F) : M (ExitIn F) := do
  let cx ← get w.cx
  let b ← get w.bY
  let hz ← get w.hz
  let pres ← get w.info.pres
  let dres ← get w.info.dres
  let gap ← get w.info.gap
  let relgap ← get w.info.relgap
  let pinfres ← get w.info.pinfres
  let dinfres ← get w.info.dinfres
  let tau ← get w.tau
  let kap ← get w.kap
  pure { cx := cx, by_ := b, hz := hz, pres := pres, dres := dres, gap := gap, relgap := relgap,
         pinfres := pinfres, dinfres := dinfres, tau := tau, kap := kap }

/-- the optimality test (ecos.c:199-201) -/
def isOptimal (e : ExitIn F) (feastol abstol reltol : F) : Bool :=
  (lt 0 (-e.cx) || le (-abstol) ((-e.by_) - e.hz)) &&
  (lt e.pres feastol && lt e.dres feastol) &&
  (lt e.gap abstol || lt e.relgap reltol)

/-- the dual infeasibility test (ecos.c:217) -/
def isDinf [HasInf F] (e : ExitIn F) (feastol : F) : Bool :=
  (!eqb e.dinfres NAN) && lt e.dinfres feastol && lt e.tau e.kap

/-- the primal infeasibility test (ecos.c:233-234); `feastol0` is `w->stgs->feastol` -/
def isPinf [HasInf F] (e : ExitIn F) (feastol feastol0 : F) : Bool :=
  ((!eqb e.pinfres NAN && lt e.pinfres feastol) && lt e.tau e.kap) ||
  (lt e.tau feastol0 && lt e.kap feastol0 && lt e.pinfres feastol0)

/-- `checkExitConditions` (ecos.c:179-254): the workspace with the flags raised, and the code -/
def checkExitConditions [HasInf F] (w : Work F) (mode : Int) : M (Work F × Int) := do
  let feastol := if mode = 0 then w.stgs.feastol else w.stgs.feastolInacc
  let abstol := if mode = 0 then w.stgs.abstol else w.stgs.abstolInacc
  let reltol := if mode = 0 then w.stgs.reltol else w.stgs.reltolInacc
  let e ← exitIn w
  if isOptimal e feastol abstol reltol then
    pure ({ w with info := { w.info with pinf := some 0, dinf := some 0 } }, OPTIMAL + mode)
  else if isDinf e feastol then
    pure ({ w with info := { w.info with pinf := some 0, dinf := some 1 } }, DINF + mode)
  else if isPinf e feastol w.stgs.feastol then
    pure ({ w with info := { w.info with pinf := some 1, dinf := some 0 } }, PINF + mode)
  else pure (w, NOTYET)

/-! ### Initialisation -/

/-- writing `h` (or another vector of size m) into the rows of the expanded system behind
`Pinv`, zeros in the two extra rows of each second-order cone (ecos.c:285-298, :659-678, :718-749) -/
def stretchRows (C : Cone F) (Pinv : Buf Nat) (off : Nat) (rhs : Buf F) (val : Nat → M F) :
    M (Buf F) := do
  let rhs ← scatter rhs Pinv off C.lpc.p val
  let t ← forSoc C C.lpc.p 0 rhs fun l soc k rhs => do
    let rhs ← scatter rhs Pinv (off + k + 2 * l) soc.p fun i => val (k + i)
    let j1 ← rd Pinv (off + k + 2 * l + soc.p)
    let rhs ← wr rhs j1 0
    let j2 ← rd Pinv (off + k + 2 * l + soc.p + 1)
    wr rhs j2 0
  scatter t.1 Pinv (off + t.2 + 2 * C.nsoc) (3 * C.nexc) fun i => val (t.2 + i)

/-- right-hand sides of `init` (ecos.c:282-305) -/
def initRhs (w : Work F) : M (Buf F × Buf F) := do
  let r1 ← scatter w.KKT.RHS1 w.KKT.Pinv 0 w.n fun _ => pure (0 : F)
  let r1 ← scatter r1 w.KKT.Pinv w.n w.p fun i => rd w.b i
  let r1 ← stretchRows w.C w.KKT.Pinv (w.n + w.p) r1 fun i => rd w.h i
  let r2 ← scatter w.KKT.RHS2 w.KKT.Pinv 0 w.n fun i => do
    let v ← rd w.c i
    pure (-v)
  let r2 ← scatter r2 w.KKT.Pinv w.n (w.KKT.PKPt.n - w.n) fun _ => pure (0 : F)
  pure (r1, r2)

/-- the arguments `kkt_solve` gets from the driver -/
def Work.args (w : Work F) (Pb : Buf F) (isinit : Int) : SolveArgs F :=
  { K := w.KKT, A := w.A, G := w.G, Pb := Pb, n := w.n, p := w.p, m := w.m, C := w.C,
    isinit := isinit }

/-- `MAX(1, norm2(v, n))` (ecos.c:308-310) -/
def resScale (v : Buf F) (n : Nat) : M F := do
  let r ← norm2 v n
  pure (fmax 1 r)

/-- the Mehrotra starting point (ecos.c:320-413); `false` is the return of
`ECOS_FATAL` -/
def initMehrotra [HasInf F] (w : Work F) : M (Work F × Bool) := do
  let f ← kktFactor w.KKT w.stgs.eps w.stgs.delta
  let w := { w with KKT := f.1 }
  if f.2 ≠ KKT_OK then pure (w, false)
  else do
    let r ← kktSolve (w.args w.KKT.RHS1 1) w.KKT.dx1 w.KKT.dy1 w.KKT.dz1 w.stgs.nitref
    let x ← fill w.x 0 w.n fun i => rd r.1 i
    let nr ← fill (malloc w.KKT.PKPt.n) 0 w.m fun i => do
      let v ← rd r.2.2.1 i
      pure (-v)
    let s ← bring2cone w.C nr w.s
    let q ← kktSolve (w.args w.KKT.RHS2 1) w.KKT.dx2 w.KKT.dy2 w.KKT.dz2 w.stgs.nitref
    let y ← fill w.y 0 w.p fun i => rd q.2.1 i
    let z ← bring2cone w.C q.2.2.1 w.z
    pure ({ w with
      x := x, y := y, z := z, s := s,
      KKT := { w.KKT with dx1 := r.1, dy1 := r.2.1, dz1 := r.2.2.1,
                          dx2 := q.1, dy2 := q.2.1, dz2 := q.2.2.1 },
      info := { w.info with nitref1 := r.2.2.2, nitref2 := q.2.2.2 } }, true)

/-- the starting point with exponential cones (ecos.c:417-425) -/
def initUnit (w : Work F) : M (Work F) := do
  let t ← unitInitialization w.C w.s w.z 1.0
  let y ← fill w.y 0 w.p fun _ => pure (0.0 : F)
  let x ← fill w.x 0 w.n fun _ => pure (0.0 : F)
  pure { w with x := x, y := y, s := t.1, z := t.2,
                info := { w.info with nitref1 := 0, nitref2 := 0 } }

/-- `init` (ecos.c:260-443); `false` is `ECOS_FATAL` -/
def initSolver [HasInf F] (w : Work F) : M (Work F × Bool) := do
  let PKPt ← kktInit w.KKT.PKPt w.KKT.PK w.C
  let r ← initRhs w
  let rx ← resScale w.c w.n
  let ry ← resScale w.b w.p
  let rz ← resScale w.h w.m
  let w := { w with KKT := { w.KKT with PKPt := PKPt, RHS1 := r.1, RHS2 := r.2 },
                    resx0 := some rx, resy0 := some ry, resz0 := some rz }
  let o ← (if w.C.nexc = 0 then initMehrotra w
    else do
      let w ← initUnit w
      pure (w, true))
  let w := o.1
  if o.2 = false then pure (w, false)
  else do
    let r1 ← scatter w.KKT.RHS1 w.KKT.Pinv 0 w.n fun i => do
      let v ← rd w.c i
      pure (-v)
    pure ({ w with
      KKT := { w.KKT with RHS1 := r1 }, kap := some 1.0, tau := some 1.0,
      info := { w.info with step := some 0, stepAff := some 0, dinf := some 0, pinf := some 0 } }, true)

/-! ### Residuals and statistics -/

/-- residual vectors (ecos.c:457-481): `rx`, `ry` (null without equality constraints), `rz` and the
norms `hresx`, `hresy`, `hresz` -/
structure ResV (F : Type) where
  rx : Buf F
  ry : Option (Buf F)
  rz : Buf F
  hresx : F
  hresy : F
  hresz : F

/-- `A'` and `G'` products (ecos.c:458-463) -/
def resMt (w : Work F) : M (Buf F) :=
  if w.p > 0 then do
    let A ← deref w.A
    let r ← sparseMtVm A w.y w.rx 1 0
    sparseMtVm w.G w.z r 0 0
  else sparseMtVm w.G w.z w.rx 1 0

/-- `ry` (ecos.c:468-475) -/
def resEq (w : Work F) (tau : F) : M (Option (Buf F) × F) :=
  if w.p > 0 then do
    let A ← deref w.A
    let ry ← deref w.ry
    let ry ← sparseMV A w.x ry 1 1
    let h ← norm2 ry w.p
    let ry ← vsubscale w.p tau w.b ry
    pure (some ry, h)
  else pure (none, 0)

/-- residual part of `computeResiduals` (ecos.c:457-481) -/
def residuals (w : Work F) : M (ResV F) := do
  let rx ← resMt w
  let hresx ← norm2 rx w.n
  let tau ← get w.tau
  let rx ← vsubscale w.n tau w.c rx
  let e ← resEq w tau
  let rz ← sparseMV w.G w.x w.rz 1 1
  let rz ← vadd w.m w.s rz
  let hresz ← norm2 rz w.m
  let rz ← vsubscale w.m tau w.h rz
  pure { rx := rx, ry := e.1, rz := rz, hresx := hresx, hresy := e.2, hresz := hresz }

/-- `computeResiduals` (ecos.c:455-495) -/
def computeResiduals (w : Work F) : M (Work F) := do
  let r ← residuals w
  let cx ← eddot w.n w.c w.x
  let b ← (if w.p > 0 then eddot w.p w.b w.y else pure 0.0)
  let hz ← eddot w.m w.h w.z
  let kap ← get w.kap
  let nx ← norm2 w.x w.n
  let ny ← norm2 w.y w.p
  let ns ← norm2 w.s w.m
  let nz ← norm2 w.z w.m
  pure { w with
    rx := r.rx, ry := r.ry, rz := r.rz,
    hresx := some r.hresx, hresy := some r.hresy, hresz := some r.hresz,
    cx := some cx, bY := some b, hz := some hz, rt := some (kap + cx + b + hz),
    nx := some nx, ny := some ny, ns := some ns, nz := some nz }

/-- what `updateStatistics` computes (ecos.c:509-534) -/
structure StatOut (F : Type) where
  gap : F
  mu : F
  kapovert : F
  pcost : F
  dcost : F
  relgap : F
  pres : F
  dres : F
  pinfres : F
  dinfres : F

/-- the relative gap (ecos.c:517-519) -/
def relGap [HasInf F] (gap pcost dcost : F) : F :=
  if lt pcost 0 then gap / (-pcost)
  else if lt 0 dcost then gap / dcost
  else NAN

/-- the numbers used by `updateStatistics` -/
structure StatIn (F : Type) where
  gap : F
  nry : F
  nrz : F
  nrx : F
  kap : F
  tau : F
  cx : F
  by_ : F
  hz : F
  nx : F
  ny : F
  nz : F
  ns : F
  hresx : F
  hresy : F
  hresz : F
  resx0 : F
  resy0 : F
  resz0 : F

/-- the formulas of `updateStatistics` (ecos.c:509-534); `nry`, `nrz`, `nrx` are the norms of the
residual vectors, `D1` is `D+1` -/
def statFormulas [HasInf F] (i : StatIn F) (p : Nat) (D1 reltol : F) : StatOut F :=
  let mu := (i.gap + i.kap * i.tau) / D1
  let pcost := i.cx / i.tau
  let dcost := (-(i.hz + i.by_)) / i.tau
  let nry := if p > 0 then i.nry / fmax (i.resy0 + i.nx) 1 else 0.0
  let nrz := i.nrz / fmax (i.resz0 + i.nx + i.ns) 1
  { gap := i.gap
    mu := mu
    kapovert := i.kap / i.tau
    pcost := pcost
    dcost := dcost
    relgap := relGap i.gap pcost dcost
    pres := fmax nry nrz / i.tau
    dres := i.nrx / fmax (i.resx0 + i.ny + i.nz) 1 / i.tau
    pinfres := if lt ((i.hz + i.by_) / fmax (i.ny + i.nz) 1) (-reltol)
      then i.hresx / fmax (i.ny + i.nz) 1 else NAN
    dinfres := if lt (i.cx / fmax i.nx 1) (-reltol)
      then fmax (i.hresy / fmax i.nx 1) (i.hresz / fmax (i.nx + i.ns) 1) else NAN }

/-- the numbers `updateStatistics` reads -/
def statIn (w : Work F) : M (StatIn F) := do
  let gap ← eddot w.m w.s w.z
  let kap ← get w.kap
  let tau ← get w.tau
  let cx ← get w.cx
  let b ← get w.bY
  let hz ← get w.hz
  let nx ← get w.nx
  let ny ← get w.ny
  let nz ← get w.nz
  let ns ← get w.ns
  let hresx ← get w.hresx
  let hresy ← get w.hresy
  let hresz ← get w.hresz
  let resx0 ← get w.resx0
  let resy0 ← get w.resy0
  let resz0 ← get w.resz0
  let nry ← (if w.p > 0 then do
      let ry ← deref w.ry
      norm2 ry w.p
    else pure 0.0)
  let nrz ← norm2 w.rz w.m
  let nrx ← norm2 w.rx w.n
  pure { gap := gap, nry := nry, nrz := nrz, nrx := nrx, kap := kap, tau := tau, cx := cx, by_ := b,
         hz := hz, nx := nx, ny := ny, nz := nz, ns := ns, hresx := hresx, hresy := hresy,
         hresz := hresz, resx0 := resx0, resy0 := resy0, resz0 := resz0 }

/-- `updateStatistics` (ecos.c:502-542) -/
def updateStatistics [HasInf F] (w : Work F) : M (Work F) := do
  let i ← statIn w
  let o := statFormulas i w.p (((w.D + 1 : Nat) : Int) : F) w.stgs.reltol
  pure { w with info := { w.info with
    gap := some o.gap, mu := some o.mu, kapovert := some o.kapovert, pcost := some o.pcost,
    dcost := some o.dcost, relgap := some o.relgap, pres := some o.pres, dres := some o.dres,
    pinfres := some o.pinfres, dinfres := some o.dinfres } }

/-! ### Search directions -/

/-- `RHS_affine` (ecos.c:648-681): the new `RHS2` -/
def rhsAffine (w : Work F) : M (Buf F) := do
  let r ← scatter w.KKT.RHS2 w.KKT.Pinv 0 w.n fun i => rd w.rx i
  let r ← (if w.p > 0 then do
      let ry ← deref w.ry
      scatter r w.KKT.Pinv w.n w.p fun i => do
        let v ← rd ry i
        pure (-v)
    else pure r)
  stretchRows w.C w.KKT.Pinv (w.n + w.p) r fun i => do
    let s ← rd w.s i
    let z ← rd w.rz i
    pure (s - z)

/-- `ds1 += ds2 - sigma*mu*e` (ecos.c:703-708) -/
def addCentering (C : Cone F) (ds1 ds2 : Buf F) (sigmamu : F) : M (Buf F) := do
  let ds ← modify ds1 0 C.lpc.p fun i v => do
    let d ← rd ds2 i
    pure (v + (d - sigmamu))
  let t ← forSoc C C.lpc.p 0 ds fun _ soc k ds => do
    let v ← rd ds k
    let d ← rd ds2 k
    let ds ← wr ds k (v + (d - sigmamu))
    modify ds (k + 1) (soc.p - 1) fun j v => do
      let d ← rd ds2 (k + 1 + j)
      pure (v + d)
  pure t.1

/-- the exponential cones of `RHS_combined` (ecos.c:737-749): `g := s + sigma*mu*g` -/
def expCentering (C : Cone F) (s : Buf F) (sigmamu : F) : M (Cone F) :=
  loop 0 C.nexc C fun l C => do
    let e ← getIdx C.expc l
    let g ← modify e.g 0 3 fun i v => do
      let sv ← rd s (C.fexv + 3 * l + i)
      pure (sv + sigmamu * v)
    let a ← setIdx C.expc l { e with g := g }
    pure { C with expc := a }

/-- value of row `i` of the combined right-hand side (ecos.c:718-749) -/
def combRow (C : Cone F) (rz ds1 : Buf F) (oms : F) (i : Nat) : M F := do
  let r ← rd rz i
  if i < C.fexv then do
    let d ← rd ds1 i
    pure ((-oms) * r + d)
  else do
    let e ← getIdx C.expc ((i - C.fexv) / 3)
    let g ← rd e.g ((i - C.fexv) % 3)
    pure ((-oms) * r + g)

/-- `RHS_combined` (ecos.c:688-752): returns the new `RHS2`, `dsaff_by_W` and the cone (whose
exponential gradients are overwritten).  In the code the exponential cones are updated one after
the other together with their rows of the right-hand side. -/
def rhsCombined (w : Work F) (lam dsW Wdz : Buf F) (sigma mu : F) :
    M (Buf F × Buf F × Cone F) := do
  let sigmamu := sigma * mu
  let oms := 1.0 - sigma
  let ds1 ← conicProduct lam lam w.C (malloc w.KKT.PKPt.n)
  let ds2 ← conicProduct dsW Wdz w.C (malloc w.KKT.PKPt.n)
  let ds ← addCentering w.C ds1.1 ds2.1 sigmamu
  let dsW ← conicDivision lam ds w.C dsW
  let ds ← scale dsW w.C ds
  let r ← loop 0 (w.n + w.p) w.KKT.RHS2 fun i r => do
    let j ← rd w.KKT.Pinv i
    let v ← rd r j
    wr r j (v * oms)
  let C ← expCentering w.C w.s sigmamu
  let r ← stretchRows C w.KKT.Pinv (w.n + w.p) r fun i => combRow C w.rz ds oms i
  pure (r, dsW, C)

/-! ### Line searches -/

/-- `x < m ? x : m` as used for `rhomin`, `sigmamin` (ecos.c:966-967) -/
def fminTo (m x : F) : F := if lt x m then x else m

/-- the step allowed by the linear cone (ecos.c:963-977) -/
def lsLp (C : Cone F) (lam ds dz : Buf F) : M F :=
  if C.lpc.p > 0 then do
    let l0 ← rd lam 0
    let s0 ← rd ds 0
    let z0 ← rd dz 0
    let t ← loop 1 C.lpc.p (s0 / l0, z0 / l0) fun i t => do
      let l ← rd lam i
      let s ← rd ds i
      let z ← rd dz i
      pure (fminTo t.1 (s / l), fminTo t.2 (z / l))
    if lt (-t.1) (-t.2) then pure (if lt t.2 0 then 1.0 / (-t.2) else 1.0 / EPS)
    else pure (if lt t.1 0 then 1.0 / (-t.1) else 1.0 / EPS)
  else pure 10.0

/-- `if( x > 0 && x < alpha ) alpha = x` (ecos.c:980-987) -/
def lsTauKap (alpha x : F) : F := if lt 0 x && lt x alpha then x else alpha

/-- `lkbar' J d` (ecos.c:1008-1011) -/
def lsProd (lkbar d : Buf F) (k p : Nat) : M F := do
  let l0 ← rd lkbar 0
  let d0 ← rd d k
  loop 1 p (l0 * d0) fun j acc => do
    let l ← rd lkbar j
    let v ← rd d (k + j)
    pure (acc - l * v)

/-- `rho` and `norm2(rho+1) - rho[0]` for one direction (ecos.c:1014-1022) -/
def lsNorm (lkbar d : Buf F) (k p : Nat) (lknorminv : F) : M F := do
  let pr ← lsProd lkbar d k p
  let rho0 := lknorminv * pr
  let d0 ← rd d k
  let l0 ← rd lkbar 0
  let factor := (pr + d0) / (l0 + 1)
  let sq ← loop 1 p (0 : F) fun j acc => do
    let v ← rd d (k + j)
    let l ← rd lkbar j
    let r := lknorminv * (v - factor * l)
    pure (acc + r * r)
  pure (PFloat.sqrt sq - rho0)

/-- `conic_step` (ecos.c:1025-1027) -/
def conicStep (rhonorm sigmanorm : F) : F :=
  let c : F := if lt 0 rhonorm then rhonorm else 0
  if lt c sigmanorm then sigmanorm else c

/-- the update of `alpha` by one cone (ecos.c:1028-1031) -/
def lsUpd (alpha cs : F) : F :=
  if !eqb cs 0 then (if lt (1.0 / cs) alpha then 1.0 / cs else alpha) else alpha

/-- `lk[0]^2 - eddot(conesize-1, lk+1, lk+1)` (ecos.c:999) -/
def lsLknorm2 (lam : Buf F) (k p : Nat) : M F := do
  let l0 ← rd lam k
  let d ← eddotOff (p - 1) lam (k + 1) lam (k + 1)
  pure (l0 * l0 - d)

/-- one second-order cone of `lineSearch` (ecos.c:995-1033); the state is `(alpha, cone_start)`.
With `lknorm2 <= 0` the code does `continue`, which also skips `cone_start += ..`.
The arrays `lkbar` and `rho` (work1, work2) are local here, `rho` is summed up on the fly. -/
def lsSoc (soc : SoCone F) (lam ds dz : Buf F) (t : F × Nat) : M (F × Nat) := do
  let n2 ← lsLknorm2 lam t.2 soc.p
  if le n2 0.0 then pure t
  else do
    let lknorm := PFloat.sqrt n2
    let lkbar ← fill (malloc soc.p) 0 soc.p fun j => do
      let l ← rd lam (t.2 + j)
      pure (l / lknorm)
    let inv := 1.0 / lknorm
    let rhonorm ← lsNorm lkbar ds t.2 soc.p inv
    let sigmanorm ← lsNorm lkbar dz t.2 soc.p inv
    pure (lsUpd t.1 (conicStep rhonorm sigmanorm), t.2 + soc.p)

/-- saturation between `STEPMIN` and `STEPMAX` (ecos.c:1038-1039) -/
def saturate (alpha : F) : F :=
  let a : F := if lt STEPMAX alpha then STEPMAX else alpha
  if lt a STEPMIN then STEPMIN else a

/-- `lineSearch` (ecos.c:947-1043) -/
def lineSearch (C : Cone F) (lam ds dz : Buf F) (tau dtau kap dkap : F) : M F := do
  let alpha ← lsLp C lam ds dz
  let alpha := lsTauKap alpha ((-tau) / dtau)
  let alpha := lsTauKap alpha ((-kap) / dkap)
  let t ← loop 0 C.nsoc (alpha, C.lpc.p) fun i t => do
    let soc ← getIdx C.soc i
    lsSoc soc lam ds dz t
  pure (saturate t.1)

/-- why a trial step of `expConeLineSearch` is rejected -/
inductive Reject where
  | dual
  | primal
  | close
  | central
  deriving DecidableEq

/-- the trial point (ecos.c:831-832); `work1`, `work2` of the code -/
def trialPoint (m : Nat) (v dv : Buf F) (alpha : F) : M (Buf F) :=
  fill (malloc m) 0 m fun j => do
    let a ← rd v j
    let d ← rd dv j
    pure (a + alpha * d)

/-- `ws[j]*wz[j]+ws[j+1]*wz[j+1]+ws[j+2]*wz[j+2]`, divided by 3 (ecos.c:852-853, :860-861) -/
def muOf (ws wz : Buf F) (j : Nat) : M F := do
  let s0 ← rd ws j
  let z0 ← rd wz j
  let s1 ← rd ws (j + 1)
  let z1 ← rd wz (j + 1)
  let s2 ← rd ws (j + 2)
  let z2 ← rd wz (j + 2)
  pure ((s0 * z0 + s1 * z1 + s2 * z2) / 3.0)

/-- `while(mui>MIN_DISTANCE*mu && j<w->m-2)` (ecos.c:854-864); returns the final `j` -/
def muiWalk (ws wz : Buf F) (m : Nat) (mu : F) : Nat → Nat → F → M Nat
  | 0, _, _ => .error .fuel
  | fuel + 1, j, mui =>
    if lt (MIN_DISTANCE * mu) mui && j + 2 < m then do
      let j := j + 3
      if j < m then do
        let mui ← muOf ws wz j
        muiWalk ws wz m mu fuel j mui
      else muiWalk ws wz m mu fuel j mui
    else pure j

/-- evaluation of one trial point (ecos.c:840-933): `none` is acceptance; also returns the value
stored in `info->centrality`, if any -/
def trialTest [HasInf F] (w : Work F) (ws wz : Buf F) (mu tauT kapT : F) :
    M (Option Reject × Option F) := do
  let df ← evalExpDualFeas wz w.C.fexv w.C.nexc
  if !df then pure (some .dual, none)
  else do
    let pf ← evalExpPrimalFeas ws w.C.fexv w.C.nexc
    if !pf then pure (some .primal, none)
    else do
      let mui ← muOf ws wz w.C.fexv
      let j ← muiWalk ws wz w.m mu (w.m + 1) w.C.fexv mui
      if j = w.m then do
        let b ← evalBarrierValue ws wz w.C.fexv w.C.nexc
        let b2 ← evalSymmetricBarrierValue ws wz tauT kapT w.C ((w.D : Int) : F)
        let cc : F := ((w.D + 1 : Nat) : Int)
        let cent := b + b2 + cc * PFloat.log mu + cc
        if lt cent w.stgs.centrality then pure (none, some cent)
        else pure (some .central, some cent)
      else pure (some .close, none)

/-- counters of `expConeLineSearch` -/
def bump (i : Stats F) (r : Reject) : Stats F :=
  match r with
  | .dual => { i with db := i.db + 1 }
  | .primal => { i with pb := i.pb + 1 }
  | .close => { i with cob := i.cob + 1 }
  | .central => { i with cb := i.cb + 1 }

/-- `mu` of a trial point (ecos.c:827-837) -/
def trialMu (w : Work F) (ws wz : Buf F) (tauT kapT : F) : M F := do
  let mu ← loop 0 w.m (0.0 : F) fun j mu => do
    let a ← rd ws j
    let b ← rd wz j
    pure (mu + a * b)
  pure ((mu + tauT * kapT) / (((w.D + 1 : Nat) : Int) : F))

/-- the counters and `centrality` at the start of `expConeLineSearch` (ecos.c:801, :819-823) -/
def lsCounters (i : Stats F) : Stats F :=
  { i with pob := 0, cb := 0, cob := 0, pb := 0, db := 0, centrality := some 1e300 }

/-- `expConeLineSearch` (ecos.c:761-942): starts from `alpha`; returns the step (`none` is the
failure value -1) and the statistics with the counters -/
def expConeLineSearch [HasInf F] (w : Work F) (ds dz : Buf F) (tau kap dtau dkap alpha : F) :
    M (Option F × Stats F) := do
  let r ← loopE 0 w.stgs.maxBk.toNat (alpha, lsCounters w.info) fun _ t => do
    let ws ← trialPoint w.m w.s ds t.1
    let wz ← trialPoint w.m w.z dz t.1
    let mu ← trialMu w ws wz (tau + t.1 * dtau) (kap + t.1 * dkap)
    let q ← trialTest w ws wz mu (tau + t.1 * dtau) (kap + t.1 * dkap)
    let i := match q.2 with
      | some c => { t.2 with centrality := some c }
      | none => t.2
    match q.1 with
    | none => pure (.inl (t.1 * w.stgs.gamma, i))
    | some rej => pure (.inr (t.1 * w.stgs.bkScale, bump i rej))
  match r with
  | .inl t => pure (some t.1, t.2)
  | .inr t => pure (none, t.2)

/-! ### One pass of the main loop -/

/-- `eddot(n,c,dx) + eddot(p,b,dy) + eddot(m,h,dz)`, the three products in order -/
def dots (w : Work F) (dx dy dz : Buf F) : M (F × F × F) := do
  let a ← eddot w.n w.c dx
  let b ← eddot w.p w.b dy
  let c ← eddot w.m w.h dz
  pure (a, b, c)

/-- `dst[i] = dst[i] + a*src[i]` -/
def axpy (dst : Buf F) (n : Nat) (a : F) (src : Buf F) : M (Buf F) :=
  modify dst 0 n fun i v => do
    let x ← rd src i
    pure (v + a * x)

/-- `dst[i] = f(a[i], b[i])` for `i < m`, where cells of exponential cones may be indeterminate -/
def cells (f : F → F → F) (a b dst : Buf F) (m : Nat) : M (Buf F) :=
  loop 0 m dst fun i dst => cell2 f a b dst i

/-- `dsaff` of the exponential cones: `mu*H*dz` (ecos.c:1413-1418, :1511-1516) -/
def expDs (C : Cone F) (m : Nat) (ds dz : Buf F) : M (Buf F) := do
  let ds ← fill ds C.fexv (m - C.fexv) fun _ => pure (0.0 : F)
  scaleToAddExpcone ds dz C.expc C.nexc C.fexv

/-- results of the predictor step -/
structure Pred (F : Type) where
  w : Work F
  lam : Buf F
  denom : F
  dtauaff : F
  dkapaff : F
  Wdz : Buf F
  dsW : Buf F
  dsaff : Buf F

/-- affine search direction (ecos.c:1349-1424), after factoring -/
def affineDir [HasInf F] (w : Work F) (lam : Buf F) (kap tau rt : F) : M (Pred F) := do
  let r1 ← kktSolve (w.args w.KKT.RHS1 0) w.KKT.dx1 w.KKT.dy1 w.KKT.dz1 w.stgs.nitref
  let rhs ← rhsAffine w
  let r2 ← kktSolve (w.args rhs 0) w.KKT.dx2 w.KKT.dy2 w.KKT.dz2 w.stgs.nitref
  let d1 ← dots w r1.1 r1.2.1 r1.2.2.1
  let denom := kap / tau - d1.1 - d1.2.1 - d1.2.2
  let d2 ← dots w r2.1 r2.2.1 r2.2.2.1
  let dtauaff := (rt - kap + d2.1 + d2.2.1 + d2.2.2) / denom
  let dz2 ← axpy r2.2.2.1 w.m dtauaff r1.2.2.1
  let Wdz ← scale dz2 w.C (malloc w.m)
  let dsW ← cells (fun a b => (-a) - b) Wdz lam (malloc w.m) w.m
  let dkapaff := (-kap) - kap / tau * dtauaff
  let w := { w with
    KKT := { w.KKT with RHS2 := rhs, dx1 := r1.1, dy1 := r1.2.1, dz1 := r1.2.2.1,
                        dx2 := r2.1, dy2 := r2.2.1, dz2 := dz2 },
    info := { w.info with nitref1 := r1.2.2.2, nitref2 := r2.2.2.2 } }
  let sa ← lineSearch w.C lam dsW Wdz tau dtauaff kap dkapaff
  let ds ← scale dsW w.C (malloc w.m)
  let ds ← expDs w.C w.m ds dz2
  let ds ← modify ds w.C.fexv (w.m - w.C.fexv) fun i v => do
    let s ← rd w.s (w.C.fexv + i)
    pure ((-v) - s)
  pure { w := { w with info := { w.info with stepAff := some sa } }, lam := lam, denom := denom,
         dtauaff := dtauaff, dkapaff := dkapaff, Wdz := Wdz, dsW := dsW, dsaff := ds }

/-- affine step with exponential cones (ecos.c:1432-1461): the step and the statistics -/
def affineStep [HasInf F] (P : Pred F) (kap tau : F) : M (F × Stats F) := do
  let sa ← get P.w.info.stepAff
  let i0 := { P.w.info with affBack := 0 }
  if P.w.C.nexc > 0 then do
    let r ← expConeLineSearch { P.w with info := i0 } P.dsaff P.w.KKT.dz2 tau kap P.dtauaff P.dkapaff sa
    let i := r.2
    let i := { i with affBack := i.pob + i.cb + i.cob + i.pb + i.db }
    match r.1 with
    | some a => pure (if eqb a (-1) then 0.0 else a, i)
    | none => pure (0.0, i)
  else pure (sa, i0)

/-- the centering parameter (ecos.c:1465-1468) -/
def centering (stepAff : F) : F :=
  let sigma := 1.0 - stepAff
  let sigma := sigma * sigma * sigma
  let sigma : F := if lt SIGMAMAX sigma then SIGMAMAX else sigma
  if lt sigma SIGMAMIN then SIGMAMIN else sigma

/-- results of the corrector step -/
structure Corr (F : Type) where
  w : Work F
  dtau : F
  dkap : F
  ds : Buf F

/-- the last part of the combined direction with exponential cones (ecos.c:1519-1528) -/
def expDsFinal (C : Cone F) (ds : Buf F) : M (Buf F) :=
  loop 0 C.nexc ds fun l ds => do
    let e ← getIdx C.expc l
    modify ds (C.fexv + 3 * l) 3 fun i v => do
      let g ← rd e.g i
      pure ((-v) - g)

/-- combined search direction (ecos.c:1473-1528) -/
def combinedDir [HasInf F] (P : Pred F) (kap tau rt mu sigma : F) : M (Corr F) := do
  let w := P.w
  let q ← rhsCombined w P.lam P.dsW P.Wdz sigma mu
  let w := { w with C := q.2.2, KKT := { w.KKT with RHS2 := q.1 } }
  let r2 ← kktSolve (w.args q.1 0) w.KKT.dx2 w.KKT.dy2 w.KKT.dz2 w.stgs.nitref
  let bkap := kap * tau + P.dkapaff * P.dtauaff - sigma * mu
  let d2 ← dots w r2.1 r2.2.1 r2.2.2.1
  let dtau := ((1 - sigma) * rt - bkap / tau + d2.1 + d2.2.1 + d2.2.2) / P.denom
  let dx2 ← axpy r2.1 w.n dtau w.KKT.dx1
  let dy2 ← axpy r2.2.1 w.p dtau w.KKT.dy1
  let dz2 ← axpy r2.2.2.1 w.m dtau w.KKT.dz1
  let Wdz ← scale dz2 w.C P.Wdz
  let dsW ← cells (fun a b => -(a + b)) q.2.1 Wdz q.2.1 w.m
  let dkap := (-(bkap + kap * dtau)) / tau
  let a ← lineSearch w.C P.lam dsW Wdz tau dtau kap dkap
  let ds ← scale dsW w.C P.dsaff
  let ds ← expDs w.C w.m ds dz2
  let ds ← expDsFinal w.C ds
  pure { w := { w with
           KKT := { w.KKT with dx2 := dx2, dy2 := dy2, dz2 := dz2 },
           info := { w.info with nitref3 := r2.2.2.2, step := some (a * w.stgs.gamma) } },
         dtau := dtau, dkap := dkap, ds := ds }

/-- combined step with exponential cones (ecos.c:1531-1550): `none` is the failure of the line
search (also when the accepted value equals -1) -/
def combinedStep [HasInf F] (R : Corr F) (kap tau : F) : M (Option F × Stats F) := do
  let a ← get R.w.info.step
  let i0 := { R.w.info with cmbBack := 0 }
  if R.w.C.nexc > 0 then do
    let r ← expConeLineSearch { R.w with info := i0 } R.ds R.w.KKT.dz2 tau kap R.dtau R.dkap a
    let i := r.2
    let i := { i with cmbBack := i.cb + i.cob + i.pb + i.db }
    match r.1 with
    | some b => pure (if eqb b (-1) then none else some b, { i with step := some b })
    | none => pure (none, { i with step := some (-1) })
  else pure (some a, i0)

/-- the update of the variables (ecos.c:1589-1594) -/
def updateVars (R : Corr F) (kap tau a : F) : M (Work F) := do
  let w := R.w
  let x ← axpy w.x w.n a w.KKT.dx2
  let y ← axpy w.y w.p a w.KKT.dy2
  let z ← axpy w.z w.m a w.KKT.dz2
  let s ← axpy w.s w.m a R.ds
  pure { w with x := x, y := y, z := z, s := s,
                kap := some (kap + a * R.dkap), tau := some (tau + a * R.dtau) }

/-! ### Signals (src/ctrlc.c, Unix part) -/

/-- who gets a SIGINT: some handler of the caller, or `handle_ctrlc` (ctrlc.c:89-92) -/
inductive Handler where
  | ecos
  | user (id : Nat)
  deriving DecidableEq

/-- the active handler and the statics `oact`, `int_detected` (ctrlc.c:87-88) -/
structure Sig where
  cur : Handler
  oact : Handler
  det : Bool

/-- `init_ctrlc` (ctrlc.c:93-101) -/
def initCtrlc (g : Sig) : Sig := { cur := .ecos, oact := g.cur, det := false }
/-- `remove_ctrlc` (ctrlc.c:102-106) -/
def removeCtrlc (g : Sig) : Sig := { g with cur := g.oact }
/-- arrival (or not) of a SIGINT: `handle_ctrlc` raises the flag -/
def deliver (g : Sig) (arrives : Bool) : Sig :=
  if arrives && g.cur = .ecos then { g with det := true } else g

/-! ### Driver -/

/-- how `ECOS_solve` leaves the main loop: `early` is a `return` from inside the loop -/
structure Exit (F : Type) where
  w : Work F
  sig : Sig
  code : Int
  early : Bool

/-- state of the main loop -/
structure LoopS (F : Type) where
  w : Work F
  presPrev : F
  sig : Sig

/-- `exitcode = checkExitConditions(w, ECOS_INACC_OFFSET); if not converged: exitcode = dflt` -/
def inaccOr [HasInf F] (w : Work F) (dflt : Int) : M (Work F × Int) := do
  let r ← checkExitConditions w INACC
  pure (r.1, if r.2 = NOTYET then dflt else r.2)

/-- `restoreBestIterate` followed by the reduced-accuracy test (ecos.c:1150-1164, :1189-1199,
:1299-1312, :1566-1580) -/
def recover [HasInf F] (w : Work F) (dflt : Int) : M (Work F × Int) := do
  let w ← restoreBestIterate w
  inaccOr w dflt

/-- keep the current iterate if it is better than the best one, restore that otherwise, then test
for reduced accuracy (ecos.c:1208-1233, :1241-1265) -/
def recoverCmp [HasInf F] (w : Work F) (dflt : Int) : M (Work F × Int) := do
  let b ← compareStatistics w.info w.bestInfo
  if b then inaccOr w dflt
  else recover w dflt

/-- "is the current iterate worth keeping" (ecos.c:1279-1285) -/
def keepBest [HasInf F] (w : Work F) : M (Work F) :=
  if w.info.iter = 0 then saveIterateAsBest w
  else do
    let b ← compareStatistics w.info w.bestInfo
    if b then saveIterateAsBest w else pure w

/-- the second half of a pass: scalings, factorisation, directions, update (ecos.c:1290-1594).
`Sum.inl (w, code, early)` leaves the loop. -/
def passTail [HasInf F] (w : Work F) : M ((Work F × Int × Bool) ⊕ Work F) := do
  let mu ← get w.info.mu
  let u ← updateScalings w.C w.s w.z (malloc w.m) mu
  let w := { w with C := u.1 }
  match u.2 with
  | none => do
    let r ← recover w OUTCONE
    pure (.inl (r.1, r.2, r.2 = OUTCONE))
  | some lam => do
    let PKPt ← kktUpdate w.KKT.PKPt w.KKT.PK w.C
    let f ← kktFactor { w.KKT with PKPt := PKPt } w.stgs.eps w.stgs.delta
    let w := { w with KKT := f.1 }
    if f.2 ≠ KKT_OK then pure (.inl (w, FATAL, true))
    else do
      let kap ← get w.kap
      let tau ← get w.tau
      let rt ← get w.rt
      let P ← affineDir w lam kap tau rt
      let sa ← affineStep P kap tau
      let sigma := centering sa.1
      let P := { P with w := { P.w with info := { sa.2 with stepAff := some sa.1, sigma := some sigma } } }
      let R ← combinedDir P kap tau rt mu sigma
      let st ← combinedStep R kap tau
      let R := { R with w := { R.w with info := st.2 } }
      match st.1 with
      | none => do
        let r ← recover R.w NUMERICS
        pure (.inl (r.1, r.2, false))
      | some a => do
        let w ← updateVars R kap tau a
        pure (.inr w)

/-- the tests between `checkExitConditions` and the next iteration, once full precision was not
reached (ecos.c:1174-1266): `Sum.inl (w, code)` is a `break` -/
def notYet [HasInf F] (w : Work F) (interrupted : Bool) : M ((Work F × Int) ⊕ Work F) := do
  let step ← get w.info.step
  let pcost ← get w.info.pcost
  if w.info.iter > 0 && eqb step (STEPMIN * GAMMA) then do
    let r ← recover w NUMERICS
    pure (.inl r)
  else if interrupted || (w.info.iter : Int) = w.stgs.maxit then do
    let r ← recoverCmp w (if interrupted then SIGINT else MAXIT)
    pure (.inl r)
  else if PFloat.isNaN pcost then do
    let r ← recoverCmp w NUMERICS
    pure (.inl r)
  else pure (.inr w)

/-- the safeguard test (ecos.c:1145) -/
def unreliable (i : Stats F) (presPrev : F) : M Bool :=
  andM (0 < i.iter) (do
    let pres ← get i.pres
    let gap ← get i.gap
    pure (lt (SAFEGUARD * presPrev) pres || lt gap 0))

/-- residuals and statistics of pass `k` (ecos.c:1124-1130) -/
def passHead [HasInf F] (w : Work F) (k : Nat) : M (Work F) := do
  let w ← computeResiduals { w with info := { w.info with iter := k } }
  updateStatistics w

/-- one pass of the main loop (ecos.c:1124-1595); `arrives` says whether a SIGINT arrives before the
check of this pass -/
def pass [HasInf F] (arrives : Nat → Bool) (k : Nat) (S : LoopS F) : M (Exit F ⊕ LoopS F) := do
  let w ← passHead S.w k
  let sig := deliver S.sig (arrives k)
  let bad ← unreliable w.info S.presPrev
  if bad then do
    let r ← recover w NUMERICS
    pure (.inl { w := r.1, sig := sig, code := r.2, early := false })
  else do
    let pres ← get w.info.pres
    let r ← checkExitConditions w 0
    if r.2 ≠ NOTYET then
      pure (.inl { w := r.1, sig := sig, code := r.2, early := false })
    else do
      let q ← notYet r.1 sig.det
      match q with
      | .inl q => pure (.inl { w := q.1, sig := sig, code := q.2, early := false })
      | .inr w => do
        let w ← keepBest w
        let t ← passTail w
        match t with
        | .inl e => pure (.inl { w := e.1, sig := sig, code := e.2.1, early := e.2.2 })
        | .inr w => pure (.inr { w := w, presPrev := pres, sig := sig })

/-- `backscale` (ecos.c:1051-1068) -/
def backscale (w : Work F) : M (Work F) := do
  let tau ← get w.tau
  let x ← modify w.x 0 w.n fun i v => do
    let e ← rd w.xequil i
    pure (v / (e * tau))
  let y ← modify w.y 0 w.p fun i v => do
    let e ← rd w.Aequil i
    pure (v / (e * tau))
  let z ← modify w.z 0 w.m fun i v => do
    let e ← rd w.Gequil i
    pure (v / (e * tau))
  let s ← modify w.s 0 w.m fun i v => do
    let e ← rd w.Gequil i
    pure (v * (e / tau))
  let c ← mulBy w.c w.xequil w.n
  pure { w with x := x, y := y, z := z, s := s, c := c }

/-- the main loop (ecos.c:1124-1595).  Running out of passes (only for `maxit < 0`) leaves
`exitcode = ECOS_FATAL`. -/
def mainLoop [HasInf F] (arrives : Nat → Bool) (w : Work F) (sig : Sig) : M (Exit F) := do
  let w := { w with info := { w.info with iter := 0 } }
  let r ← loopE 0 (w.stgs.maxit + 1).toNat ({ w := w, presPrev := NAN, sig := sig } : LoopS F)
    (pass arrives)
  match r with
  | .inl e => pure e
  | .inr S => pure { w := S.w, sig := S.sig, code := FATAL, early := false }

/-- the end of `ECOS_solve` (ecos.c:1598-1615) -/
def finish (e : Exit F) : M (Work F × Sig × Int) :=
  if e.early then pure (e.w, e.sig, e.code)
  else do
    let w ← backscale e.w
    pure (w, removeCtrlc e.sig, e.code)

/-- `ECOS_solve` (ecos.c:1075-1616) -/
def ecosSolve [HasInf F] (arrives : Nat → Bool) (w : Work F) (sig : Sig) :
    M (Work F × Sig × Int) := do
  let c ← divBy w.c w.xequil w.n
  let w := { w with c := c }
  let sig := initCtrlc sig
  let o ← initSolver w
  if o.2 = false then pure (o.1, sig, FATAL)
  else do
    let e ← mainLoop arrives o.1 sig
    finish e

/-! ### Data updates -/

/-- `ecos_updateDataEntry_h` (ecos.c:1623-1630) -/
def ecosUpdateDataEntryH (w : Work F) (idx : Nat) (value : F) : M (Work F) := do
  let e ← rd w.Gequil idx
  let h ← wr w.h idx (value / e)
  pure { w with h := h }

/-- `ecos_updateDataEntry_c` (ecos.c:1637-1640) -/
def ecosUpdateDataEntryC (w : Work F) (idx : Nat) (value : F) : M (Work F) := do
  let c ← wr w.c idx value
  pure { w with c := c }

/-- the part of the workspace that equilibration changes -/
def Work.eqs (w : Work F) : EqS F := { A := w.A, G := w.G, xe := w.xequil, Ae := w.Aequil, Ge := w.Gequil }

/-- which of the new arrays lie apart from the old ones (ecos.c:1658-1662) -/
structure Apart where
  G : Bool
  A : Bool
  c : Bool
  h : Bool
  b : Bool

/-- the test "all new arrays lie apart" (ecos.c:1658-1662), with its short circuit: `w->A->nnz` is
evaluated once the test on `G` holds, whether or not there is a matrix `A` -/
def allApart (A : Option (SpMat F)) (t : Apart) : M Bool :=
  andM t.G (do
    let _ ← deref A
    pure (t.A && t.c && t.h && t.b))

/-- `PKPt->pr[PK[map[k]]] = v[k]` (ecos.c:1686-1688, :1691-1693) -/
def pushK (PK map : Buf Nat) (v : Buf F) (nnz : Nat) (pr : Buf F) : M (Buf F) :=
  loop 0 nnz pr fun k pr => do
    let a ← rd map k
    let x ← rd v k
    setPK PK pr a x

/-- what becomes of the old arrays in `ECOS_updateData`: `some (A, G, b, h)` if they are restored -/
def updateUnset (w : Work F) (t : Apart) : M (Option (Option (SpMat F) × SpMat F × Buf F × Buf F)) := do
  let apart ← allApart w.A t
  if apart then do
    let r ← unsetEquilibration w.eqs w.b w.h
    pure (some r)
  else pure none

/-- the workspace after the pointers are set (ecos.c:1669-1677); `w->G` is never null -/
def setPointers (w : Work F) (Gpr : Buf F) (Apr : Buf F) (c h b : Buf F) : Work F :=
  { w with
    G := { w.G with pr := Gpr }, h := h,
    A := w.A.map fun A => { A with pr := Apr },
    b := if w.A.isSome then b else w.b,
    c := c }

/-- `ECOS_updateData` (ecos.c:1648-1695): the new workspace, and the old arrays if they lie apart
from the new ones -/
def ecosUpdateData (w : Work F) (t : Apart) (Gpr Apr c h b : Buf F) :
    M (Work F × Option (Option (SpMat F) × SpMat F × Buf F × Buf F)) := do
  let old ← updateUnset w t
  let w := setPointers w Gpr Apr c h b
  let e ← setEquilibration w.C w.eqs w.b w.h
  let pr ← (match e.1.A with
    | some A => do
      let map ← deref w.AtoK
      pushK w.KKT.PK map A.pr A.nnz w.KKT.PKPt.pr
    | none => pure w.KKT.PKPt.pr)
  let pr ← pushK w.KKT.PK w.GtoK e.1.G.pr e.1.G.nnz pr
  pure ({ w with A := e.1.A, G := e.1.G, xequil := e.1.xe, Aequil := e.1.Ae, Gequil := e.1.Ge,
                 b := e.2.1, h := e.2.2,
                 KKT := { w.KKT with PKPt := { w.KKT.PKPt with pr := pr } } }, old)

end generic
end Ecos
