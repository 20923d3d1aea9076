import Verif.Model.Equil

/-!
# The other equilibration algorithms (src/equil.c)

`include/ecos.h:82-83` chooses the algorithm when the library is built: Ruiz (the default, `Model/Equil`), alternating
norms, or none. `use_alternating_norm_equilibration` is compiled and exported in any case.
-/
namespace Ecos

section generic
variable {F : Type} [Zero F] [One F] [Add F] [Sub F] [Mul F] [Div F] [Neg F] [OfScientific F]
  [IntCast F] [PFloat F]

/-- `sum_sq_rows` (equil.c:54-64) -/
def sumSqRows (E : Buf F) (A : SpMat F) : M (Buf F) :=
  walk A E fun _ k E => do
    let r ← rd A.ir k
    let v ← rd A.pr k
    let e ← rd E r
    wr E r (e + v * v)

/-- `sum_sq_cols` (equil.c:66-75) -/
def sumSqCols (E : Buf F) (A : SpMat F) : M (Buf F) :=
  walk A E fun j k E => do
    let v ← rd A.pr k
    let e ← rd E j
    wr E j (e + v * v)

/-- replace a group of entries by their mean (equil.c:142-150, :155-163); `d` is the divisor `soc[i].p` or `3.0` -/
def averageGroup (E : Buf F) (ind p : Nat) (d : F) : M (Buf F) := do
  let sum ← loop 0 p (0 : F) fun j t => do
    let v ← rd E (ind + j)
    pure (t + v)
  fill E ind p fun _ => pure (sum / d)

/-- the mean over each cone (equil.c:139-165) -/
def averageCones (C : Cone F) (E : Buf F) : M (Buf F) := do
  let t ← forSoc C C.lpc.p 0 E fun _ soc k E => averageGroup E k soc.p ((soc.p : Int) : F)
  loop 0 C.nexc t.1 fun l E => averageGroup E (t.2 + 3 * l) 3 3.0

/-- `use_alternating_norm_equilibration` (equil.c:115-208) -/
def altEquilibration (C : Cone F) (e : EqS F) (b h : Buf F) : M (EqS F × Buf F × Buf F) := do
  let xe ← fill e.xe 0 e.cols fun _ => pure (0 : F)
  let Ae ← fill e.Ae 0 e.rowsA fun _ => pure (0 : F)
  let Ge ← fill e.Ge 0 e.rowsG fun _ => pure (0 : F)
  let Ae ← onA e.A Ae sumSqRows
  let Ge ← (if e.rowsG > 0 then sumSqRows Ge e.G else pure Ge)
  let Ge ← averageCones C Ge
  let Ae ← modify Ae 0 e.rowsA fun _ v => pure (sqrtOrOne v)
  let Ge ← modify Ge 0 e.rowsG fun _ v => pure (sqrtOrOne v)
  let A ← mapA e.A (equilibrateRows Ae)
  let G ← (if e.rowsG > 0 then equilibrateRows Ge e.G else pure e.G)
  let xe ← onA A xe sumSqCols
  let xe ← (if e.rowsG > 0 then sumSqCols xe G else pure xe)
  let xe ← modify xe 0 e.cols fun _ v => pure (sqrtOrOne v)
  let A ← mapA A (equilibrateCols xe)
  let G ← (if e.rowsG > 0 then equilibrateCols xe G else pure G)
  let b ← divBy b Ae e.rowsA
  let h ← divBy h Ge e.rowsG
  pure ({ A := A, G := G, xe := xe, Ae := Ae, Ge := Ge }, b, h)

/-- `set_equilibration` without an algorithm (equil.c:349-365) -/
def noEquilibration (e : EqS F) (b h : Buf F) : M (EqS F × Buf F × Buf F) := do
  let xe ← fill e.xe 0 e.cols fun _ => pure (1.0 : F)
  let Ae ← fill e.Ae 0 e.rowsA fun _ => pure (1.0 : F)
  let Ge ← fill e.Ge 0 e.rowsG fun _ => pure (1.0 : F)
  pure ({ e with xe := xe, Ae := Ae, Ge := Ge }, b, h)

end generic
end Ecos
