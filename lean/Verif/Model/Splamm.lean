import Verif.Model.Spla

/-!
# Model of src/splamm.c — sparse matrix memory management and permutation
-/
namespace Ecos

variable {F : Type}

/-- src/splamm.c:43-45, one step of `spla_cumsum`; state `(cumsum, p, w)`. -/
def cumsumStep (i : Nat) (t : Nat × Buf Nat × Buf Nat) : M (Nat × Buf Nat × Buf Nat) := do
  let p ← wr t.2.1 i t.1
  let wi ← rd t.2.2 i
  let pi ← rd p i
  let w ← wr t.2.2 i pi
  pure (t.1 + wi, p, w)

/-- src/splamm.c:38-47 `spla_cumsum`: returns the new contents of `p` and `w`. -/
def splaCumsum (p w : Buf Nat) (m : Nat) : M (Buf Nat × Buf Nat) := do
  let r ← loop 0 m ((0 : Nat), p, w) cumsumStep
  pure (r.2.1, r.2.2)

/-- src/splamm.c:53-57 `pinv`. -/
def pinv (n : Nat) (p pin : Buf Nat) : M (Buf Nat) :=
  loop 0 n pin fun i pin => do
    let pi ← rd p i
    wr pin pi i

/-- src/splamm.c:113-124 `ecoscreateSparseMatrix` (writes `jc[n] = nnz`).
The test `if (M->jc)` is modelled by the caller: a null `jc` is an empty buffer, for which the
write is skipped. -/
def ecoscreateSparseMatrix (m n nnz : Nat) (jc ir : Buf Nat) (pr : Buf F) : M (SpMat F) := do
  let jc ← if jc.size = 0 then pure jc else wr jc n nnz
  pure { jc, ir, pr, n, m, nnz }

/-- src/splamm.c:100-107 `newSparseMatrix`: three `malloc`s, only `jc[n]` is written. -/
def newSparseMatrix (m n nnz : Nat) : M (SpMat F) := do
  let jc : Buf Nat := malloc (n + 1)
  let jc ← wr jc n nnz
  ecoscreateSparseMatrix m n nnz jc (malloc nnz) (malloc nnz)

/-- State of the scatter phase of transposition and permutation: the matrix under construction,
the index map and the position counters `w`. -/
structure Scat (F : Type) where
  A : SpMat F
  map : Option (Buf Nat)
  w : Buf Nat

/-- `if( PK ) PK[k] = q;` (`none` is the null pointer) -/
def wrOpt (b : Option (Buf Nat)) (k q : Nat) : M (Option (Buf Nat)) :=
  match b with
  | none => pure none
  | some b => do
    let b ← wr b k q
    pure (some b)

/-- src/splamm.c:76, `w[M->ir[k]]++`. -/
def countRow (Mt : SpMat F) (k : Nat) (w : Buf Nat) : M (Buf Nat) := do
  let r ← rd Mt.ir k
  let c ← rd w r
  wr w r (c + 1)

/-- src/splamm.c:84-87, the body of the scatter loop of `transposeSparseMatrix`. -/
def transposeStep (Mt : SpMat F) (j k : Nat) (t : Scat F) : M (Scat F) := do
  let r ← rd Mt.ir k
  let q ← rd t.w r
  let w ← wr t.w r (q + 1)
  let ir ← wr t.A.ir q j
  let v ← rd Mt.pr k
  let pr ← wr t.A.pr q v
  let map ← wrOpt t.map k q
  pure { A := { t.A with ir := ir, pr := pr }, map := map, w := w }

/-- src/splamm.c:72-93, `transposeSparseMatrix` once `A` is allocated and `M` is known to have
entries. The work array `w` is local (allocated and freed in the function). -/
def transposeFill (Mt : SpMat F) (MtoMt : Buf Nat) (A : SpMat F) : M (Scat F) := do
  let w : Buf Nat := malloc Mt.m
  let w ← loop 0 Mt.m w fun i w => wr w i 0
  let w ← loop 0 Mt.nnz w fun k w => countRow Mt k w
  let r ← splaCumsum A.jc w Mt.m
  loop 0 Mt.n (Scat.mk { A with jc := r.1 } (some MtoMt) r.2) fun j t => do
    let s ← rd Mt.jc j
    let e ← rd Mt.jc (j + 1)
    loop s e t fun k t => transposeStep Mt j k t

/-- src/splamm.c:65-94 `transposeSparseMatrix`. Returns the transpose and the new content of
`MtoMt`. -/
def transposeSparseMatrix (Mt : SpMat F) (MtoMt : Buf Nat) : M (SpMat F × Buf Nat) := do
  let A ← newSparseMatrix Mt.n Mt.m Mt.nnz
  if Mt.nnz = 0 then pure (A, MtoMt)
  else do
    let t ← transposeFill Mt MtoMt A
    pure (t.A, t.map.getD MtoMt)

/-- `i2 > j2 ? i2 : j2` (src/splamm.c:167, :181) -/
def permCol (i2 j2 : Nat) : Nat := if i2 > j2 then i2 else j2

/-- `i2 < j2 ? i2 : j2` (src/splamm.c:182) -/
def permRow (i2 j2 : Nat) : Nat := if i2 < j2 then i2 else j2

/-- src/splamm.c:163-168, counting the entries of each column of `C`. -/
def permCount (A : SpMat F) (pin : Buf Nat) (j k : Nat) (w : Buf Nat) : M (Buf Nat) := do
  let j2 ← rd pin j
  let i ← rd A.ir k
  if i > j then pure w
  else do
    let i2 ← rd pin i
    let c ← rd w (permCol i2 j2)
    wr w (permCol i2 j2) (c + 1)

/-- src/splamm.c:177-186, the body of the copy loop. -/
def permStep (A : SpMat F) (pin : Buf Nat) (j k : Nat) (t : Scat F) : M (Scat F) := do
  let j2 ← rd pin j
  let i ← rd A.ir k
  if i > j then pure t
  else do
    let i2 ← rd pin i
    let q ← rd t.w (permCol i2 j2)
    let w ← wr t.w (permCol i2 j2) (q + 1)
    let ir ← wr t.A.ir q (permRow i2 j2)
    let v ← rd A.pr k
    let pr ← wr t.A.pr q v
    let map ← wrOpt t.map k q
    pure { A := { t.A with ir := ir, pr := pr }, map := map, w := w }

/-- src/splamm.c:152-191 `permuteSparseSymmetricMatrix`.  `C` must be allocated by the caller; the
result is the new content of `C` and of `PK` (`none` is the null pointer). Reading `pinv[j]` once
per column (C) or once per entry (here) is the same. -/
def permuteSparseSymmetricMatrix (A : SpMat F) (pin : Buf Nat) (C : SpMat F)
    (PK : Option (Buf Nat)) : M (SpMat F × Option (Buf Nat)) := do
  let w : Buf Nat := malloc A.n
  let w ← loop 0 A.n w fun j w => wr w j 0
  let w ← loop 0 A.n w fun j w => do
    let s ← rd A.jc j
    let e ← rd A.jc (j + 1)
    loop s e w fun k w => permCount A pin j k w
  let r ← splaCumsum C.jc w A.n
  let t ← loop 0 A.n (Scat.mk { C with jc := r.1 } PK r.2) fun j t => do
    let s ← rd A.jc j
    let e ← rd A.jc (j + 1)
    loop s e t fun k t => permStep A pin j k t
  pure (t.A, t.map)

/-- src/splamm.c:197-208 `copySparseMatrix`. -/
def copySparseMatrix (A : SpMat F) : M (SpMat F) := do
  let B ← newSparseMatrix A.m A.n A.nnz
  let jc ← loop 0 (A.n + 1) B.jc fun i jc => do
    let v ← rd A.jc i
    wr jc i v
  let ir ← loop 0 A.nnz B.ir fun i ir => do
    let v ← rd A.ir i
    wr ir i v
  let pr ← loop 0 A.nnz B.pr fun i pr => do
    let v ← rd A.pr i
    wr pr i v
  pure { B with jc := jc, ir := ir, pr := pr }

end Ecos
