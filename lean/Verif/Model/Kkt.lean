import Verif.Model.Cone
import Verif.Model.Ldl

/-!
# The KKT system (src/kkt.c, include/kkt.h), `CONEMODE == 0`, `STATICREG == 1`

The scratch arrays `work1..work6`, `Pattern` and `Flag` of `struct kkt` are not kept in the model
between calls: every function starts with unwritten ones (`malloc`) of the size given to them by
`ECOS_setup`.  A read of a value left over from an earlier call would show up as `uninit`.
-/
namespace Ecos

section generic
variable {F : Type} [Zero F] [One F] [Add F] [Sub F] [Mul F] [Div F] [Neg F] [OfScientific F]
  [IntCast F] [PFloat F]

/-- `struct kkt` (include/kkt.h:37-69) without the scratch arrays -/
structure Kkt (F : Type) where
  PKPt : SpMat F
  L : SpMat F
  D : Buf F
  RHS1 : Buf F
  RHS2 : Buf F
  dx1 : Buf F
  dx2 : Buf F
  dy1 : Buf F
  dy2 : Buf F
  dz1 : Buf F
  dz2 : Buf F
  Pinv : Buf Nat
  PK : Buf Nat
  Parent : Buf Int
  Sign : Buf Int
  Lnz : Buf Nat

/-- `KKT_OK`, `KKT_PROBLEM` (include/kkt.h:72-73) -/
def KKT_OK : Nat := 1
def KKT_PROBLEM : Nat := 0

/-- the arrays handed to `LDL_numeric2` by `kkt_factor` -/
def Kkt.scratch (K : Kkt F) : Num F :=
  { lnz := malloc K.PKPt.n, li := malloc K.L.ir.size, lx := malloc K.L.pr.size,
    d := malloc K.PKPt.n, y := malloc K.PKPt.n, pattern := malloc K.PKPt.n,
    flag := malloc K.PKPt.n }

/-- `kkt_factor` (kkt.c:41-70).  The old contents of `Lnz`, `L->ir`, `L->pr`, `D` are outputs only
("not defn. on input"); they start out unwritten here. -/
def kktFactor (K : Kkt F) (eps delta : F) : M (Kkt F × Nat) := do
  let r ← ldlNumeric K.PKPt.n K.PKPt.jc K.PKPt.ir K.PKPt.pr K.L.jc K.Parent K.Sign eps delta K.scratch
  let K := { K with L := { K.L with ir := r.1.li, pr := r.1.lx }, D := r.1.d, Lnz := r.1.lnz }
  pure (K, if r.2 = K.PKPt.n then KKT_OK else KKT_PROBLEM)

/-- forward, diagonal and backward solve (kkt.c:120-122, :249-251) -/
def triSolve (K : Kkt F) (b : Buf F) : M (Buf F) := do
  let x ← ldlLsolve2 K.PKPt.n b K.L.jc K.L.ir K.L.pr (malloc K.PKPt.n)
  let x ← ldlDsolve K.PKPt.n x K.D
  ldlLtsolve K.PKPt.n x K.L.jc K.L.ir K.L.pr

/-- the arguments of `kkt_solve` that stay fixed during refinement -/
structure SolveArgs (F : Type) where
  K : Kkt F
  A : Option (SpMat F)
  G : SpMat F
  Pb : Buf F
  n : Nat
  p : Nat
  m : Nat
  C : Cone F
  isinit : Int

/-- `MTILDE` (kkt.c:91) -/
def SolveArgs.mt (a : SolveArgs F) : Nat := a.m + 2 * a.C.nsoc

/-- error on dx (kkt.c:143-152): `ex = bx - A'*dy - G'*dz - DELTASTAT*dx` -/
def resX (a : SolveArgs F) (dx dy dz : Buf F) : M (Buf F) := do
  let ex ← fill (malloc a.n) 0 a.n fun i => do
    let k ← rd a.K.Pinv i
    let b ← rd a.Pb k
    let d ← rd dx i
    pure (b - DELTASTAT * d)
  let ex ← (match a.A with
    | some A => sparseMtVm A dy ex 0 0
    | none => pure ex)
  sparseMtVm a.G dz ex 0 0

/-- error on dy (kkt.c:156-164): `ey = by - A*dx + DELTASTAT*dy`; only executed when `p > 0` -/
def resY (a : SolveArgs F) (dx dy : Buf F) : M (Buf F) := do
  let ey ← fill (malloc a.p) 0 a.p fun i => do
    let k ← rd a.K.Pinv (a.n + i)
    let b ← rd a.Pb k
    let d ← rd dy i
    pure (b + DELTASTAT * d)
  let A ← deref a.A
  sparseMV A dx ey (-1) 0

/-- `Pb[Pinv[k]] - Gdx[j] + DELTASTAT*dz[j]` (kkt.c:177, :186, :203) -/
def ezPlus (a : SolveArgs F) (Gdx dz : Buf F) (k j : Nat) : M F := do
  let q ← rd a.K.Pinv k
  let b ← rd a.Pb q
  let g ← rd Gdx j
  let d ← rd dz j
  pure (b - g + DELTASTAT * d)

/-- `Pb[Pinv[k]] - Gdx[j] - DELTASTAT*dz[j]` (kkt.c:186, last row of a second-order cone) -/
def ezMinus (a : SolveArgs F) (Gdx dz : Buf F) (k j : Nat) : M F := do
  let q ← rd a.K.Pinv k
  let b ← rd a.Pb q
  let g ← rd Gdx j
  let d ← rd dz j
  pure (b - g - DELTASTAT * d)

/-- the linear part of the error on dz (kkt.c:170-208).  The counters `k`, `kk`, `j` of the code are
written in terms of the start `c` of a cone in `dz` and its number `l`. -/
def resZlin (a : SolveArgs F) (dx dz : Buf F) : M (Buf F) := do
  let Gdx ← sparseMV a.G dx (malloc a.K.PKPt.n) 1 1
  let ez ← fill (malloc a.mt) 0 a.C.lpc.p fun i => ezPlus a Gdx dz (a.n + a.p + i) i
  let t ← forSoc a.C a.C.lpc.p 0 ez fun l soc c ez => do
    let ez ← fill ez (c + 2 * l) soc.p fun i =>
      if i < soc.p - 1 then ezPlus a Gdx dz (a.n + a.p + c + 2 * l + i) (c + i)
      else ezMinus a Gdx dz (a.n + a.p + c + 2 * l + i) (c + i)
    let ez ← wr ez (c + 2 * l + soc.p) 0
    wr ez (c + 2 * l + soc.p + 1) 0
  fill t.1 (t.2 + 2 * a.C.nsoc) (3 * a.C.nexc) fun i =>
    ezPlus a Gdx dz (a.n + a.p + t.2 + 2 * a.C.nsoc + i) (t.2 + i)

/-- error on dz (kkt.c:169-216): adds `V*dz_true`; `truez` is the gathered expanded solution -/
def resZ (a : SolveArgs F) (Px dx dz : Buf F) : M (Buf F) := do
  let ez ← resZlin a dx dz
  let truez ← gather (malloc a.K.PKPt.n) 0 Px a.K.Pinv (a.n + a.p) a.mt
  if a.isinit = 0 then scale2add truez ez a.C
  else vadd a.mt truez ez

/-- error term and its norm (kkt.c:141-229).  The array `e` (work3) of the code is cut into its
three parts `ex`, `ey`, `ez`; the result is their concatenation. For `p == 0` the part `ey` is
empty. -/
def residual (a : SolveArgs F) (Px dx dy dz : Buf F) : M (Buf F × F) := do
  let ex ← resX a dx dy dz
  let nex ← norminf ex a.n
  let ey ← (if a.p > 0 then resY a dx dy else pure (malloc 0))
  let ney ← norminf ey a.p
  let ez ← resZ a Px dx dz
  let nez ← norminf ez a.mt
  let nerr := fmax nex nez
  let nerr := if a.p > 0 then fmax nerr ney else nerr
  pure (ex ++ ey ++ ez, nerr)

/-- state of the refinement loop -/
structure RefS (F : Type) where
  Px : Buf F
  dPx : Buf F
  dx : Buf F
  dy : Buf F
  dz : Buf F
  prev : F

/-- one pass of the refinement loop (kkt.c:135-255); `Sum.inl` is a `break`, with the value of
`kItRef` -/
def refineStep (a : SolveArgs F) (nitref : Int) (thr : F) (kIt : Nat) (s : RefS F) :
    M ((RefS F × Nat) ⊕ RefS F) := do
  let d ← unstretch a.n a.p a.C a.K.Pinv s.Px s.dx s.dy s.dz
  let r ← residual a s.Px d.1 d.2.1 d.2.2
  let s := { s with dx := d.1, dy := d.2.1, dz := d.2.2 }
  if kIt > 0 && lt s.prev r.2 then do
    let Px ← modify s.Px 0 a.K.PKPt.n fun i v => do
      let d ← rd s.dPx i
      pure (v - d)
    pure (.inl ({ s with Px := Px }, kIt - 1))
  else if (kIt : Int) = nitref || lt r.2 thr || (kIt > 0 && lt s.prev (IRERRFACT * r.2)) then
    pure (.inl (s, kIt))
  else do
    let Pe ← scatter (malloc a.K.PKPt.n) a.K.Pinv 0 a.K.PKPt.n fun i => rd r.1 i
    let dPx ← triSolve a.K Pe
    let Px ← modify s.Px 0 a.K.PKPt.n fun i v => do
      let d ← rd dPx i
      pure (v + d)
    pure (.inr { s with Px := Px, dPx := dPx, prev := r.2 })

/-- `kkt_solve` (kkt.c:87-265): returns the new `dx`, `dy`, `dz` and the number of refinement
steps -/
def kktSolve [HasInf F] (a : SolveArgs F) (dx dy dz : Buf F) (nitref : Int) :
    M (Buf F × Buf F × Buf F × Nat) := do
  let nb ← norminf a.Pb (a.n + a.p + a.mt)
  let thr := (1.0 + nb) * LINSYSACC
  let Px ← triSolve a.K a.Pb
  let r ← loopE 0 (nitref + 1).toNat
    { Px := Px, dPx := malloc a.K.PKPt.n, dx := dx, dy := dy, dz := dz, prev := NAN }
    (refineStep a nitref thr)
  let t : RefS F × Nat := match r with
    | .inl t => t
    | .inr s => (s, (nitref + 1).toNat)
  let d ← unstretch a.n a.p a.C a.K.Pinv t.1.Px t.1.dx t.1.dy t.1.dz
  pure (d.1, d.2.1, d.2.2, t.2)

/-- `PKP->pr[P[k]] = v` -/
def setPK (P : Buf Nat) (pr : Buf F) (k : Nat) (v : F) : M (Buf F) := do
  let i ← rd P k
  wr pr i v

/-- one second-order cone of `kkt_update`/`kkt_init` (kkt.c:290-312, :391-413): diagonal `D`, then
the `v` column, then the `u` column, with the values given as arguments -/
def setSoc (P : Buf Nat) (soc : SoCone F) (pr : Buf F) (D0 Dk : F) (v : Nat → M F) (vd u0 : F)
    (u : Nat → M F) (ud : F) : M (Buf F) := do
  let i0 ← rd soc.Didx 0
  let pr ← setPK P pr i0 D0
  let pr ← loop 1 soc.p pr fun k pr => do
    let i ← rd soc.Didx k
    setPK P pr i Dk
  let i1 ← rd soc.Didx (soc.p - 1)
  let pr ← loop 0 (soc.p - 1) pr fun k pr => do
    let x ← v k
    setPK P pr (i1 + 1 + k) x
  let pr ← setPK P pr (i1 + soc.p) vd
  let pr ← setPK P pr (i1 + soc.p + 1) u0
  let pr ← loop 0 (soc.p - 1) pr fun k pr => do
    let x ← u k
    setPK P pr (i1 + soc.p + 2 + k) x
  setPK P pr (i1 + 2 * soc.p + 1) ud

/-- one second-order cone of `kkt_update` (kkt.c:287-312) -/
def kktUpdateSoc (P : Buf Nat) (soc : SoCone F) (pr : Buf F) : M (Buf F) := do
  let es ← get soc.etaSq
  let d1 ← get soc.d1
  let u0 ← get soc.u0
  let u1 ← get soc.u1
  let v1 ← get soc.v1
  setSoc P soc pr ((-es) * d1 - DELTASTAT) ((-es) - DELTASTAT)
    (fun k => do
      let q ← rd soc.q k
      pure ((-es) * v1 * q))
    (-es) ((-es) * u0)
    (fun k => do
      let q ← rd soc.q k
      pure ((-es) * u1 * q))
    (es + DELTASTAT)

/-- one exponential cone of `kkt_update` (kkt.c:346-351) -/
def kktUpdateExp (P : Buf Nat) (e : ExpCone F) (pr : Buf F) : M (Buf F) := do
  let c0 ← rd e.colstart 0
  let c1 ← rd e.colstart 1
  let c2 ← rd e.colstart 2
  let v0 ← rd e.v 0
  let v1 ← rd e.v 1
  let v2 ← rd e.v 2
  let v3 ← rd e.v 3
  let v4 ← rd e.v 4
  let v5 ← rd e.v 5
  let pr ← setPK P pr c0 ((-v0) - DELTASTAT)
  let pr ← setPK P pr c1 (-v1)
  let pr ← setPK P pr (c1 + 1) ((-v2) - DELTASTAT)
  let pr ← setPK P pr c2 (-v3)
  let pr ← setPK P pr (c2 + 1) (-v4)
  setPK P pr (c2 + 2) ((-v5) - DELTASTAT)

/-- `kkt_update` (kkt.c:271-357): new values of the permuted KKT matrix -/
def kktUpdate (PKPt : SpMat F) (P : Buf Nat) (C : Cone F) : M (SpMat F) := do
  let pr ← loop 0 C.lpc.p PKPt.pr fun i pr => do
    let v ← rd C.lpc.v i
    let k ← rd C.lpc.kktIdx i
    setPK P pr k ((-v) - DELTASTAT)
  let pr ← loop 0 C.nsoc pr fun l pr => do
    let soc ← getIdx C.soc l
    kktUpdateSoc P soc pr
  let pr ← loop 0 C.nexc pr fun l pr => do
    let e ← getIdx C.expc l
    kktUpdateExp P e pr
  pure { PKPt with pr := pr }

/-- `kkt_init` (kkt.c:373-446).  `getSOCDetails` copies fields that are then not used. -/
def kktInit (PKPt : SpMat F) (P : Buf Nat) (C : Cone F) : M (SpMat F) := do
  let pr ← loop 0 C.lpc.p PKPt.pr fun i pr => do
    let k ← rd C.lpc.kktIdx i
    setPK P pr k (-1.0)
  let pr ← loop 0 C.nsoc pr fun l pr => do
    let soc ← getIdx C.soc l
    setSoc P soc pr (-1.0) (-1.0) (fun _ => pure 0.0) (-1.0) 0.0 (fun _ => pure 0.0) 1.0
  pure { PKPt with pr := pr }

end generic
end Ecos
