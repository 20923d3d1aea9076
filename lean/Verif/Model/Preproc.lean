import Verif.Model.Ecos
import Verif.Model.Splamm

/-!
# Set-up (src/preproc.c), `CONEMODE == 0`, `STATICREG == 1`, `EXPCONE`

The ordering computed by AMD is a parameter (any function that returns an array or fails).
-/
namespace Ecos

section generic
variable {F : Type} [Zero F] [One F] [Add F] [Sub F] [Mul F] [Div F] [Neg F] [OfScientific F]
  [IntCast F] [PFloat F]

/-- the KKT matrix under construction: `Kjc`, `Kir`, `Kpr` and the counter `k` -/
structure KB (F : Type) where
  jc : Buf Nat
  ir : Buf Nat
  pr : Buf F
  k : Nat

/-- `Kir[k] = row; Kpr[k] = v; k++` -/
def KB.push (B : KB F) (row : Nat) (v : F) : M (KB F) := do
  let ir ← wr B.ir B.k row
  let pr ← wr B.pr B.k v
  pure { B with ir := ir, pr := pr, k := B.k + 1 }

/-- `Kjc[col] = k` -/
def KB.col (B : KB F) (col : Nat) : M (KB F) := do
  let jc ← wr B.jc col B.k
  pure { B with jc := jc }

/-- the matrix under construction, the counter `i` of entries of `At` or `Gt` copied so far and the
index map -/
structure KC (F : Type) where
  B : KB F
  i : Nat
  map : Buf Nat

/-- `Kir[k] = At->ir[i]; Kpr[k] = At->pr[i]; AttoK[i++] = k++;` (preproc.c:208-210, :238-240,
:282-284, :401-403) -/
def copyEntry (T : SpMat F) (s : KC F) : M (KC F) := do
  let r ← rd T.ir s.i
  let v ← rd T.pr s.i
  let map ← wr s.map s.i s.B.k
  let B ← s.B.push r v
  pure { B := B, i := s.i + 1, map := map }

/-- copies column `j` of the transposed matrix into column `col` (preproc.c:203-212, :233-242,
:277-286, :396-405) -/
def copyCol (T : SpMat F) (j col : Nat) (s : KC F) : M (KC F) := do
  let row ← rd T.jc j
  let stop ← rd T.jc (j + 1)
  if row ≤ stop then do
    let B ← s.B.col col
    loop row stop { s with B := B } fun _ s => copyEntry T s
  else pure s

/-- (1,1) block (preproc.c:191-195) -/
def kktBlock1 (n : Nat) (B : KB F) : M (KB F) :=
  loop 0 n B fun j B => do
    let jc ← wr B.jc j j
    let ir ← wr B.ir j j
    let pr ← wr B.pr B.k DELTASTAT
    pure { jc := jc, ir := ir, pr := pr, k := B.k + 1 }

/-- (1,2) and (2,2) blocks (preproc.c:200-217); `At` is not touched for `p == 0` -/
def kktBlock2 (At : Option (SpMat F)) (n p : Nat) (s : KC F) : M (KC F) :=
  loop 0 p s fun j s => do
    let At ← deref At
    let s ← copyCol At j (n + j) s
    let B ← s.B.push (n + j) (-DELTASTAT)
    pure { s with B := B }

/-- columns of the LP cone (preproc.c:230-248); the state includes `kkt_idx` -/
def kktLp (Gt : SpMat F) (np l : Nat) (s : KC F × Buf Nat) : M (KC F × Buf Nat) :=
  loop 0 l s fun j s => do
    let t ← copyCol Gt j (np + j) s.1
    let idx ← wr s.2 j t.B.k
    let B ← t.B.push (np + j) (-1.0)
    pure ({ t with B := B }, idx)

/-- columns of the diagonal block of a second-order cone (preproc.c:275-293); the state includes
`Didx`; `base` is the first column of the cone -/
def kktSocD (Gt : SpMat F) (start base p : Nat) (s : KC F × Buf Nat) : M (KC F × Buf Nat) :=
  loop 0 p s fun j s => do
    let t ← copyCol Gt (start + j) (base + j) s.1
    let idx ← wr s.2 j t.B.k
    let B ← t.B.push (base + j) (-1.0)
    pure ({ t with B := B }, idx)

/-- the `v` and `u` columns of a second-order cone (preproc.c:296-316) -/
def kktSocVU (base p : Nat) (B : KB F) : M (KB F) := do
  let B ← B.col (base + p)
  let B ← loop 1 p B fun r B => B.push (base + r) 0
  let B ← B.push (base + p) (-1)
  let B ← B.col (base + p + 1)
  let B ← loop 0 p B fun r B => B.push (base + r) 0
  B.push (base + p + 1) 1

/-- columns of the second-order cones (preproc.c:268-321); state: matrix, cone array and
`cone_strt` -/
def kktSocs (Gt : SpMat F) (np nsoc : Nat) (t : KC F × Array (SoCone F) × Nat) :
    M (KC F × Array (SoCone F) × Nat) :=
  loop 0 nsoc t fun l t => do
    let soc ← getIdx t.2.1 l
    let s ← kktSocD Gt t.2.2 (np + t.2.2 + 2 * l) soc.p (t.1, soc.Didx)
    let B ← kktSocVU (np + t.2.2 + 2 * l) soc.p s.1.B
    let a ← setIdx t.2.1 l { soc with Didx := s.2 }
    pure ({ s.1 with B := B }, a, t.2.2 + soc.p)

/-- one column of an exponential cone (preproc.c:396-417) -/
def kktExpCol (Gt : SpMat F) (start base j : Nat) (s : KC F × Buf Nat) : M (KC F × Buf Nat) := do
  let t ← copyCol Gt (start + j) (base + j) s.1
  let idx ← wr s.2 j t.B.k
  let B ← loop 0 j t.B fun r B => B.push (base + r) 0.0
  let B ← B.push (base + j) (-1.0)
  pure ({ t with B := B }, idx)

/-- columns of the exponential cones (preproc.c:388-423); `start` is `cone_strt` and `base` is
`n+p+exp_cone_strt` at the beginning -/
def kktExps (Gt : SpMat F) (start base nexc : Nat) (t : KC F × Array (ExpCone F)) :
    M (KC F × Array (ExpCone F)) :=
  loop 0 nexc t fun l t => do
    let e ← getIdx t.2 l
    let s ← loop 0 3 (t.1, e.colstart) fun j s =>
      kktExpCol Gt (start + 3 * l) (base + 3 * l) j s
    let a ← setIdx t.2 l { e with colstart := s.2 }
    pure (s.1, a)

/-- `Sign` of the second-order cones (preproc.c:153-160) -/
def signSocs (C : Cone F) (start : Nat) (sg : Buf Int) : M (Buf Int) := do
  let t ← forSoc C start 2 sg fun _ soc ks sg => do
    let sg ← fill sg ks soc.p fun _ => pure (-1)
    let sg ← wr sg (ks + soc.p) (-1)
    wr sg (ks + soc.p + 1) 1
  pure t.1

/-- the vector `Sign` (preproc.c:143-171) -/
def kktSign (C : Cone F) (n p nK : Nat) : M (Buf Int) := do
  let sg ← fill (malloc nK) 0 n fun _ => pure 1
  let sg ← fill sg n p fun _ => pure (-1)
  let sg ← fill sg (n + p) C.lpc.p fun _ => pure (-1)
  let sg ← signSocs C (n + p + C.lpc.p) sg
  fill sg (nK - 3 * C.nexc) (3 * C.nexc) fun _ => pure (-1)

/-- `nnzK` (preproc.c:110-124) -/
def kktNnz (C : Cone F) (nnzA nnzG n p : Nat) : M Nat := do
  let k ← loop 0 C.nsoc (nnzA + nnzG + C.lpc.p + (n + p)) fun i k => do
    let soc ← getIdx C.soc i
    pure (k + (3 * soc.p + 1))
  pure (k + 6 * C.nexc)

/-- `At ? At->n : 0` (preproc.c:83) -/
def matCols : Option (SpMat F) → Nat
  | some A => A.n
  | none => 0

/-- `A ? A->nnz : 0` (preproc.c:110, :849, :863) -/
def matNnz : Option (SpMat F) → Nat
  | some A => A.nnz
  | none => 0

/-- results of `createKKT_U` -/
structure KktU (F : Type) where
  K : SpMat F
  Sign : Buf Int
  AttoK : Buf Nat
  GttoK : Buf Nat
  C : Cone F

/-- `createKKT_U` (preproc.c:77-436); for `At == NULL` the map `AttoK` is not touched -/
def createKKT (Gt : SpMat F) (At : Option (SpMat F)) (C : Cone F) (AttoK GttoK : Buf Nat) :
    M (KktU F) := do
  let n := Gt.m
  let m := Gt.n
  let p := matCols At
  let nnzA := matNnz At
  let nK := n + p + m + 2 * C.nsoc
  let nnzK ← kktNnz C nnzA Gt.nnz n p
  let sg ← kktSign C n p nK
  let B ← kktBlock1 n { jc := malloc (nK + 1), ir := malloc nnzK, pr := malloc nnzK, k := 0 }
  let a ← kktBlock2 At n p { B := B, i := 0, map := AttoK }
  let g ← kktLp Gt (n + p) C.lpc.p ({ B := a.B, i := 0, map := GttoK }, C.lpc.kktIdx)
  let s ← kktSocs Gt (n + p) C.nsoc (g.1, C.soc, C.lpc.p)
  let e ← kktExps Gt s.2.2 (n + p + s.2.2 + 2 * C.nsoc) C.nexc (s.1, C.expc)
  let K ← ecoscreateSparseMatrix nK nK nnzK e.1.B.jc e.1.B.ir e.1.B.pr
  pure { K := K, Sign := sg, AttoK := a.map, GttoK := e.1.map,
         C := { C with lpc := { C.lpc with kktIdx := g.2 }, soc := s.2.1, expc := e.2 } }

/-! ### `ECOS_setup` -/

/-- a matrix given by the caller as three pointers, each possibly null -/
structure Mat3 (F : Type) where
  pr : Option (Buf F)
  jc : Option (Buf Nat)
  ir : Option (Buf Nat)

/-- the default settings (preproc.c:762-777, include/ecos.h:45-74) -/
def defaultSettings : Settings F :=
  { gamma := GAMMA, delta := 2e-7, eps := EPS, feastol := 1e-8, abstol := 1e-8, reltol := 1e-8,
    feastolInacc := 1e-4, abstolInacc := 5e-5, reltolInacc := 5e-5, nitref := 9, maxit := 100,
    maxBk := 90, bkScale := 0.8, centrality := 1 }

/-- a fresh second-order cone (preproc.c:689-698) -/
def newSoc (p : Nat) : SoCone F :=
  { p := p, skbar := malloc p, zkbar := malloc p, a := some 0, d1 := none, w := none, eta := some 0,
    etaSq := none, q := malloc (p - 1), Didx := malloc p, u0 := none, u1 := none, v1 := none }

/-- a fresh exponential cone (preproc.c:711) -/
def newExp : ExpCone F := { colstart := malloc 3, v := malloc 6, g := malloc 3 }

/-- the second-order cones and the sum of their sizes (preproc.c:685-703) -/
def newSocs (ncones : Nat) (q : Buf Nat) : M (Array (SoCone F) × Nat) :=
  loop 0 ncones ((#[] : Array (SoCone F)), 0) fun i t => do
    let p ← rd q i
    pure (t.1.push (newSoc p), t.2 + p)

/-- the matrix `A`, null if one of the pointers is (preproc.c:793-797) -/
def setupA (p n : Nat) (A : Mat3 F) : M (Option (SpMat F)) :=
  match A.pr, A.jc, A.ir with
  | some pr, some jc, some ir => do
    let nnz ← rd jc n
    let A ← ecoscreateSparseMatrix p n nnz jc ir pr
    pure (some A)
  | _, _, _ => pure none

/-- the matrix `G`, with no entries if one of the pointers is null (preproc.c:798-803); a null
pointer becomes an empty array -/
def setupG (m n : Nat) (G : Mat3 F) : M (SpMat F) :=
  match G.pr, G.jc, G.ir with
  | some pr, some jc, some ir => do
    let nnz ← rd jc n
    ecoscreateSparseMatrix m n nnz jc ir pr
  | pr, jc, ir => ecoscreateSparseMatrix m n 0 (jc.getD #[]) (ir.getD #[]) (pr.getD #[])

/-- transposition of `A` (preproc.c:816-823) -/
def setupAt (A : Option (SpMat F)) : M (Option (SpMat F × Buf Nat)) :=
  match A with
  | some A => do
    let t ← transposeSparseMatrix A (malloc A.nnz)
    pure (some t)
  | none => pure none

/-- `AtoK[i] = AttoK[AtoAt[i]]` (preproc.c:864, :869) -/
def composeMap (nnz : Nat) (outer inner : Buf Nat) : M (Buf Nat) :=
  fill (malloc nnz) 0 nnz fun i => do
    let k ← rd inner i
    rd outer k

/-- how `ECOS_setup` ends: a null pointer because of the dimensions (nothing of the caller's data is
touched), a null pointer because of AMD (the caller's data is equilibrated), or the workspace -/
inductive SetupRes (F : Type) where
  | dims
  | amd (A : Option (SpMat F)) (G : SpMat F) (b h : Buf F)
  | ok (w : Work F)

/-- everything computed from the problem before the ordering: equilibrated data, KKT matrix, maps -/
structure Pre (F : Type) where
  e : EqS F
  b : Buf F
  h : Buf F
  U : KktU F
  AtoK : Option (Buf Nat)
  GtoK : Buf Nat

/-- equilibration, transposition, KKT matrix and maps (preproc.c:805-869) -/
def setupPre (C : Cone F) (A : Option (SpMat F)) (G : SpMat F) (n m p : Nat) (b h : Buf F) :
    M (Pre F) := do
  let e ← setEquilibration C { A := A, G := G, xe := malloc n, Ae := malloc p, Ge := malloc m } b h
  let At ← setupAt e.1.A
  let Gt ← transposeSparseMatrix e.1.G (malloc e.1.G.nnz)
  let nnzA := matNnz e.1.A
  let U ← createKKT Gt.1 (At.map fun t => t.1) C (malloc nnzA) (malloc e.1.G.nnz)
  let AtoK ← (match At with
    | some t => do
      let a ← composeMap nnzA U.AttoK t.2
      pure (some a)
    | none => pure none)
  let GtoK ← composeMap e.1.G.nnz U.GttoK Gt.2
  pure { e := e.1, b := e.2.1, h := e.2.2, U := U, AtoK := AtoK, GtoK := GtoK }

/-- ordering-dependent part of the KKT struct (preproc.c:889-1002) -/
def setupKkt (U : KktU F) (P : Buf Nat) (n m p : Nat) : M (Kkt F) := do
  let nK := U.K.n
  let pin ← pinv nK P (malloc nK)
  let C0 ← newSparseMatrix nK nK U.K.nnz
  let r ← permuteSparseSymmetricMatrix U.K pin C0 (some (malloc U.K.nnz))
  let sg ← scatter (malloc nK) pin 0 nK fun i => rd U.Sign i
  let s ← ldlSymbolic r.1.n r.1.jc r.1.ir (malloc (nK + 1))
    { parent := malloc nK, lnz := malloc nK, flag := malloc nK }
  let lnz ← rd s.1 nK
  let L ← ecoscreateSparseMatrix nK nK lnz s.1 (malloc lnz) (malloc lnz)
  let r2 ← permuteSparseSymmetricMatrix U.K pin r.1 none
  pure { PKPt := r2.1, L := L, D := malloc nK, RHS1 := malloc nK, RHS2 := malloc nK,
         dx1 := malloc n, dx2 := malloc n, dy1 := malloc p, dy2 := malloc p, dz1 := malloc m,
         dz2 := malloc m, Pinv := pin, PK := r.2.getD #[], Parent := s.2.parent, Sign := sg,
         Lnz := s.2.lnz }

/-- `ECOS_setup` (preproc.c:554-1030) -/
def ecosSetup (amd : Nat → Buf Nat → Buf Nat → Option (Buf Nat)) (n m p l ncones : Nat)
    (q : Buf Nat) (nexc : Nat) (G3 A3 : Mat3 F) (c h b : Buf F) : M (SetupRes F) := do
  let soc ← newSocs ncones q
  if soc.2 + l + 3 * nexc ≠ m then pure .dims
  else do
    let C : Cone F :=
      { lpc := { p := l, w := malloc l, v := malloc l, kktIdx := malloc l }, soc := soc.1,
        nsoc := ncones, expc := Array.replicate nexc newExp, nexc := nexc, fexv := soc.2 + l }
    let A ← setupA p n A3
    let G ← setupG m n G3
    let R ← setupPre C A G n m p b h
    match amd R.U.K.n R.U.K.jc R.U.K.ir with
    | none => pure (.amd R.e.A R.e.G R.b R.h)
    | some P => do
      let K ← setupKkt R.U P n m p
      pure (.ok
        { n := n, m := m, p := p, D := l + ncones + 3 * nexc,
          x := malloc n, y := malloc p, z := malloc m, s := malloc m,
          bestX := malloc n, bestY := malloc p, bestZ := malloc m, bestS := malloc m,
          C := R.U.C, A := R.e.A, G := R.e.G, c := c, b := R.b, h := R.h,
          AtoK := R.AtoK, GtoK := R.GtoK,
          xequil := R.e.xe, Aequil := R.e.Ae, Gequil := R.e.Ge,
          rx := malloc n, ry := if p = 0 then none else some (malloc p), rz := malloc m,
          KKT := K, stgs := defaultSettings })

end generic
end Ecos
