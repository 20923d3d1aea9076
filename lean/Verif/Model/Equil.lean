import Verif.Model.Cone

/-!
# Equilibration of the problem data (src/equil.c), `RUIZ_EQUIL`, `EQUIL_ITERS == 3`
-/
namespace Ecos

section generic
variable {F : Type} [Zero F] [One F] [Add F] [Sub F] [Mul F] [Div F] [Neg F] [OfScientific F]
  [IntCast F] [PFloat F]
variable {σ : Type}

/-- `for(i = 0; i < mat->n; i++) for(j = mat->jc[i]; j < mat->jc[i+1]; j++) ..` -/
def walk (A : SpMat F) (s : σ) (body : Nat → Nat → σ → M σ) : M σ :=
  loop 0 A.n s fun j s => do
    let a ← rd A.jc j
    let e ← rd A.jc (j + 1)
    loop a e s fun k s => body j k s

/-- `max_rows` (equil.c:31-41) -/
def maxRows (E : Buf F) (A : SpMat F) : M (Buf F) :=
  walk A E fun _ k E => do
    let r ← rd A.ir k
    let v ← rd A.pr k
    let e ← rd E r
    wr E r (fmax (PFloat.fabs v) e)

/-- `max_cols` (equil.c:43-52) -/
def maxCols (E : Buf F) (A : SpMat F) : M (Buf F) :=
  walk A E fun j k E => do
    let v ← rd A.pr k
    let e ← rd E j
    wr E j (fmax (PFloat.fabs v) e)

/-- `equilibrate_rows` (equil.c:77-88): the new values of the matrix -/
def equilibrateRows (E : Buf F) (A : SpMat F) : M (SpMat F) := do
  let pr ← walk A A.pr fun _ k pr => do
    let r ← rd A.ir k
    let v ← rd pr k
    let e ← rd E r
    wr pr k (v / e)
  pure { A with pr := pr }

/-- `equilibrate_cols` (equil.c:90-100) -/
def equilibrateCols (E : Buf F) (A : SpMat F) : M (SpMat F) := do
  let pr ← walk A A.pr fun j k pr => do
    let v ← rd pr k
    let e ← rd E j
    wr pr k (v / e)
  pure { A with pr := pr }

/-- `restore` (equil.c:102-113) -/
def restoreMat (D E : Buf F) (A : SpMat F) : M (SpMat F) := do
  let pr ← walk A A.pr fun j k pr => do
    let r ← rd A.ir k
    let v ← rd pr k
    let d ← rd D r
    let e ← rd E j
    wr pr k (v * (d * e))
  pure { A with pr := pr }

/-- replace a group of entries by their total (equil.c:264-272, :276-284) -/
def collapseGroup (E : Buf F) (ind p : Nat) : M (Buf F) := do
  let total ← loop 0 p (0 : F) fun j t => do
    let v ← rd E (ind + j)
    pure (t + v)
  fill E ind p fun _ => pure total

/-- collapse the cones (equil.c:261-286) -/
def collapseCones (C : Cone F) (E : Buf F) : M (Buf F) := do
  let t ← forSoc C C.lpc.p 0 E fun _ soc k E => collapseGroup E k soc.p
  loop 0 C.nexc t.1 fun l E => collapseGroup E (t.2 + 3 * l) 3

/-- `fabs(x) < 1e-6 ? 1.0 : sqrt(x)` (equil.c:291, :294, :297) -/
def sqrtOrOne (x : F) : F := if lt (PFloat.fabs x) 1e-6 then 1.0 else PFloat.sqrt x

/-- the part of the workspace that equilibration changes -/
structure EqS (F : Type) where
  A : Option (SpMat F)
  G : SpMat F
  xe : Buf F
  Ae : Buf F
  Ge : Buf F

/-- `num_cols`, `num_A_rows`, `num_G_rows` (equil.c:213-215) -/
def EqS.cols (e : EqS F) : Nat :=
  match e.A with
  | some A => A.n
  | none => e.G.n
def EqS.rowsA (e : EqS F) : Nat :=
  match e.A with
  | some A => A.m
  | none => 0
def EqS.rowsG (e : EqS F) : Nat := e.G.m

/-- `if(w->A) f(w->A)` -/
def onA (A : Option (SpMat F)) (s : σ) (f : σ → SpMat F → M σ) : M σ :=
  match A with
  | some A => f s A
  | none => pure s

/-- `if(w->A) w->A = f(w->A)` -/
def mapA (A : Option (SpMat F)) (f : SpMat F → M (SpMat F)) : M (Option (SpMat F)) :=
  match A with
  | some A => do
    let A ← f A
    pure (some A)
  | none => pure none

/-- the three vectors of scaling factors of one pass (equil.c:236-298) -/
def ruizFactors (C : Cone F) (e : EqS F) : M (Buf F × Buf F × Buf F) := do
  let xt ← fill (malloc e.cols) 0 e.cols fun _ => pure (0 : F)
  let At ← fill (malloc e.rowsA) 0 e.rowsA fun _ => pure (0 : F)
  let Gt ← fill (malloc e.rowsG) 0 e.rowsG fun _ => pure (0 : F)
  let xt ← onA e.A xt maxCols
  let xt ← (if e.rowsG > 0 then maxCols xt e.G else pure xt)
  let At ← onA e.A At maxRows
  let Gt ← (if e.rowsG > 0 then maxRows Gt e.G else pure Gt)
  let Gt ← collapseCones C Gt
  let xt ← modify xt 0 e.cols fun _ v => pure (sqrtOrOne v)
  let At ← modify At 0 e.rowsA fun _ v => pure (sqrtOrOne v)
  let Gt ← modify Gt 0 e.rowsG fun _ v => pure (sqrtOrOne v)
  pure (xt, At, Gt)

/-- `dst[i] *= src[i]` -/
def mulBy (dst src : Buf F) (n : Nat) : M (Buf F) :=
  modify dst 0 n fun i v => do
    let w ← rd src i
    pure (v * w)

/-- `dst[i] /= src[i]` -/
def divBy (dst src : Buf F) (n : Nat) : M (Buf F) :=
  modify dst 0 n fun i v => do
    let w ← rd src i
    pure (v / w)

/-- one pass of the Ruiz iteration (equil.c:233-321) -/
def ruizPass (C : Cone F) (e : EqS F) : M (EqS F) := do
  let t ← ruizFactors C e
  let A ← mapA e.A (equilibrateRows t.2.1)
  let G ← (if e.rowsG > 0 then equilibrateRows t.2.2 e.G else pure e.G)
  let A ← mapA A (equilibrateCols t.1)
  let G ← (if e.rowsG > 0 then equilibrateCols t.1 G else pure G)
  let xe ← mulBy e.xe t.1 e.cols
  let Ae ← mulBy e.Ae t.2.1 e.rowsA
  let Ge ← mulBy e.Ge t.2.2 e.rowsG
  pure { A := A, G := G, xe := xe, Ae := Ae, Ge := Ge }

/-- `EQUIL_ITERS` (include/ecos.h:81) -/
def EQUIL_ITERS : Nat := 3

/-- `set_equilibration` = `use_ruiz_equilibration` (equil.c:210-340, :343-348): returns the scaled
matrices, the factors and the scaled `b`, `h` -/
def setEquilibration (C : Cone F) (e : EqS F) (b h : Buf F) : M (EqS F × Buf F × Buf F) := do
  let xe ← fill e.xe 0 e.cols fun _ => pure (1.0 : F)
  let Ae ← fill e.Ae 0 e.rowsA fun _ => pure (1.0 : F)
  let Ge ← fill e.Ge 0 e.rowsG fun _ => pure (1.0 : F)
  let e ← loop 0 EQUIL_ITERS { e with xe := xe, Ae := Ae, Ge := Ge } fun _ e => ruizPass C e
  let b ← divBy b e.Ae e.rowsA
  let h ← divBy h e.Ge e.rowsG
  pure (e, b, h)

/-- `unset_equilibration` (equil.c:369-394): returns the restored matrices, `b` and `h` -/
def unsetEquilibration (e : EqS F) (b h : Buf F) : M (Option (SpMat F) × SpMat F × Buf F × Buf F) := do
  let A ← mapA e.A (restoreMat e.Ae e.xe)
  let G ← (if e.rowsG > 0 then restoreMat e.Ge e.xe e.G else pure e.G)
  let b ← mulBy b e.Ae e.rowsA
  let h ← mulBy h e.Ge e.rowsG
  pure (A, G, b, h)

end generic
end Ecos
