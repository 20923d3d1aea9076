import Verif.Core.Num

/-!
# Model of src/spla.c — sparse linear algebra kernels
-/
namespace Ecos

variable {F : Type} [Zero F] [One F] [Add F] [Sub F] [Mul F] [Div F] [Neg F] [OfScientific F]
  [IntCast F] [PFloat F]

/-- `struct spmat` (include/spla.h:35-42): compressed columns. -/
structure SpMat (F : Type) where
  jc : Buf Nat
  ir : Buf Nat
  pr : Buf F
  n : Nat
  m : Nat
  nnz : Nat

/-- src/spla.c:45 and :85, the loop `for(i=0;i<n;i++) y[i] = 0`. -/
def fillZero (y : Buf F) (n : Nat) : M (Buf F) :=
  loop 0 n y fun i y => wr y i 0

/-- src/spla.c:45: `if( newVector > 0 ) for(...) y[i] = 0;` -/
def initVec (y : Buf F) (n : Nat) (newVector : Int) : M (Buf F) :=
  if newVector > 0 then fillZero y n else pure y

/-- src/spla.c:47-64, the body of `sparseMV` after the initialisation of `y`. -/
def mvAcc (A : SpMat F) (x y : Buf F) (a : Int) : M (Buf F) :=
  if A.nnz = 0 then pure y
  else if a > 0 then
    loop 0 A.n y fun j y => do
      let s ← rd A.jc j
      let e ← rd A.jc (j + 1)
      loop s e y fun i y => do
        let r ← rd A.ir i
        let yv ← rd y r
        let p ← rd A.pr i
        let xv ← rd x j
        wr y r (yv + p * xv)
  else
    loop 0 A.n y fun j y => do
      let s ← rd A.jc j
      let e ← rd A.jc (j + 1)
      loop s e y fun i y => do
        let r ← rd A.ir i
        let yv ← rd y r
        let p ← rd A.pr i
        let xv ← rd x j
        wr y r (yv - p * xv)

/-- src/spla.c:41-65 `sparseMV`. The result is the new content of `y`. -/
def sparseMV (A : SpMat F) (x y : Buf F) (a newVector : Int) : M (Buf F) := do
  let y ← initVec y A.m newVector
  mvAcc A x y a

/-- src/spla.c:95-96, `i==j ? 0 : A->pr[k]*x[i]`. -/
def skipProd (A : SpMat F) (x : Buf F) (i j k : Nat) : M F :=
  if i = j then pure 0
  else do
    let p ← rd A.pr k
    let xv ← rd x i
    pure (p * xv)

/-- src/spla.c:87-105, the body of `sparseMtVm` after the initialisation of `y`. -/
def mtvAcc (A : SpMat F) (x y : Buf F) (skipDiagonal : Int) : M (Buf F) :=
  if A.nnz = 0 then pure y
  else if skipDiagonal ≠ 0 then
    loop 0 A.n y fun j y => do
      let s ← rd A.jc j
      let e ← rd A.jc (j + 1)
      loop s e y fun k y => do
        let i ← rd A.ir k
        let yv ← rd y j
        let t ← skipProd A x i j k
        wr y j (yv - t)
  else
    loop 0 A.n y fun j y => do
      let s ← rd A.jc j
      let e ← rd A.jc (j + 1)
      loop s e y fun k y => do
        let yv ← rd y j
        let p ← rd A.pr k
        let i ← rd A.ir k
        let xv ← rd x i
        wr y j (yv - p * xv)

/-- src/spla.c:81-106 `sparseMtVm`. The result is the new content of `y`. -/
def sparseMtVm (A : SpMat F) (x y : Buf F) (newVector skipDiagonal : Int) : M (Buf F) := do
  let y ← initVec y A.n newVector
  mtvAcc A x y skipDiagonal

/-- src/spla.c:112-116 `vadd`: `y += x`. -/
def vadd (n : Nat) (x y : Buf F) : M (Buf F) :=
  loop 0 n y fun i y => do
    let yv ← rd y i
    let xv ← rd x i
    wr y i (yv + xv)

/-- src/spla.c:122-126 `vsubscale`: `y -= a*x`. -/
def vsubscale (n : Nat) (a : F) (x y : Buf F) : M (Buf F) :=
  loop 0 n y fun i y => do
    let yv ← rd y i
    let xv ← rd x i
    wr y i (yv - a * xv)

/-- src/spla.c:131-137 `norm2`. -/
def norm2 (v : Buf F) (n : Nat) : M F := do
  let s ← loop 0 n (0 : F) fun i s => do
    let a ← rd v i
    pure (s + a * a)
  pure (PFloat.sqrt s)

/-- src/spla.c:143-154 `norminf`. -/
def norminf (v : Buf F) (n : Nat) : M F :=
  loop 0 n (0 : F) fun i norm => do
    let a ← rd v i
    let norm := if lt norm a then a else norm
    let mv := -a
    pure (if lt norm mv then mv else norm)

/-- src/spla.c:159-164 `eddot`. -/
def eddot (n : Nat) (x y : Buf F) : M F :=
  loop 0 n (0 : F) fun i z => do
    let a ← rd x i
    let b ← rd y i
    pure (z + a * b)

end Ecos
