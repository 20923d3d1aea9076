import Verif.Model.Amd
import Verif.Model.Preproc

/-!
# `ECOS_setup` with the ordering it calls

`ecosSetup` (Model/Preproc.lean) takes the ordering as a parameter. Here it is `AMD_order`, as called at
preproc.c:921-922 with the default parameters.
-/
namespace Ecos

/-- `idxint` arrays of the two models: `ECOS` arrays of indices are natural numbers, those of AMD integers -/
def toI (b : Buf Nat) : Buf Int := b.map (Option.map Int.ofNat)
def toN (b : Buf Int) : Buf Nat := b.map (Option.map Int.toNat)

/-- `AMD_order` on the KKT matrix (preproc.c:915-938): only `AMD_OK` is accepted, every other status (`AMD_OK_BUT_JUMBLED`
included) makes `ECOS_setup` return a null pointer -/
def amdCall (dense0 : Nat → Int) (imax : Int) (N : Nat) (jc ir : Buf Nat) : M (Option (Buf Nat)) := do
  let r ← Amd.order (dense0 N) imax N (toI jc) (toI ir) (malloc N)
  match r.1 with
  | .ok => pure (some (toN r.2))
  | _ => pure none

/-- the ordering as a function, for runs without undefined behaviour -/
def amdOrder (dense0 : Nat → Int) (imax : Int) (N : Nat) (jc ir : Buf Nat) : Option (Buf Nat) :=
  match amdCall dense0 imax N jc ir with
  | .ok r => r
  | .error _ => none

section generic
variable {F : Type} [Zero F] [One F] [Add F] [Sub F] [Mul F] [Div F] [Neg F] [OfScientific F]
  [IntCast F] [PFloat F]

/-- `ECOS_setup` (preproc.c:554-1030) with an ordering routine that may have undefined behaviour -/
def ecosSetupM (amd : Nat → Buf Nat → Buf Nat → M (Option (Buf Nat))) (n m p l ncones : Nat)
    (q : Buf Nat) (nexc : Nat) (G3 A3 : Mat3 F) (c h b : Buf F) : M (SetupRes F) := do
  let soc ← newSocs ncones q
  if soc.2 + l + 3 * nexc ≠ m then pure .dims
  else do
    let C : Cone F :=
      { lpc := { p := l, w := malloc l, v := malloc l, kktIdx := malloc l }, soc := soc.1,
        nsoc := ncones, expc := Array.replicate nexc newExp, nexc := nexc, fexv := soc.2 + l }
    let A ← setupA p n A3
    let G ← setupG m n G3
    let R ← setupPre C A G n m p b h
    let o ← amd R.U.K.n R.U.K.jc R.U.K.ir
    match o with
    | none => pure (.amd R.e.A R.e.G R.b R.h)
    | some P => do
      let K ← setupKkt R.U P n m p
      pure (.ok
        { n := n, m := m, p := p, D := l + ncones + 3 * nexc,
          x := malloc n, y := malloc p, z := malloc m, s := malloc m,
          bestX := malloc n, bestY := malloc p, bestZ := malloc m, bestS := malloc m,
          C := R.U.C, A := R.e.A, G := R.e.G, c := c, b := R.b, h := R.h,
          AtoK := R.AtoK, GtoK := R.GtoK,
          xequil := R.e.xe, Aequil := R.e.Ae, Gequil := R.e.Ge,
          rx := malloc n, ry := if p = 0 then none else some (malloc p), rz := malloc m,
          KKT := K, stgs := defaultSettings })

/-- the two models of `ECOS_setup` are one -/
theorem ecosSetupM_pure (amd : Nat → Buf Nat → Buf Nat → Option (Buf Nat)) :
    ecosSetupM (F := F) (fun N jc ir => pure (amd N jc ir)) = ecosSetup amd := rfl

/-- `ECOS_setup` with `AMD_order`. `dense0 N` is the bound of AMD for dense rows, `10 * sqrt (N)` with the default parameters, and
`imax` the largest value of its integer type -/
def ecosSetupAmd (dense0 : Nat → Int) (imax : Int) (n m p l ncones : Nat) (q : Buf Nat) (nexc : Nat) (G3 A3 : Mat3 F)
    (c h b : Buf F) : M (SetupRes F) :=
  ecosSetupM (amdCall dense0 imax) n m p l ncones q nexc G3 A3 c h b

end generic
end Ecos
