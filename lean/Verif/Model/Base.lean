import Verif.Core.Num
import Verif.Model.BB

/-!
# Constants and small helpers shared by the continuous solver
-/
namespace Ecos

variable {α σ ρ : Type}

/-- read of a scalar field that may be unwritten (`none`) -/
def get (o : Option α) : M α :=
  match o with
  | some a => .ok a
  | none => .error .uninit

/-- dereference of a pointer that may be null (`none`) -/
def deref (o : Option α) : M α :=
  match o with
  | some a => .ok a
  | none => .error .nullDeref

/-- `a[i]` for an array of structs -/
def getIdx (a : Array α) (i : Nat) : M α :=
  match a[i]? with
  | some x => .ok x
  | none => .error .oob

/-- `a[i] = v` for an array of structs -/
def setIdx (a : Array α) (i : Nat) (v : α) : M (Array α) :=
  if i < a.size then .ok (a.setIfInBounds i v) else .error .oob

/-- `for (i = 0; i < n; i++) b[off+i] = val(i)`, where `val` does not read `b` -/
def fill (b : Buf α) (off n : Nat) (val : Nat → M α) : M (Buf α) :=
  loop 0 n b fun i b => do
    let v ← val i
    wr b (off + i) v

/-- `for (i = 0; i < n; i++) b[off+i] = f(i, b[off+i])` -/
def modify (b : Buf α) (off n : Nat) (f : Nat → α → M α) : M (Buf α) :=
  loop 0 n b fun i b => do
    let o ← rd b (off + i)
    let v ← f i o
    wr b (off + i) v

/-- `for (i = 0; i < n; i++) b[idx[off+i]] = val(i)`, where `val` does not read `b` -/
def scatter (b : Buf α) (idx : Buf Nat) (off n : Nat) (val : Nat → M α) : M (Buf α) :=
  loop 0 n b fun i b => do
    let v ← val i
    let k ← rd idx (off + i)
    wr b k v

/-- `for (i = lo; i < hi; i++) { .. }` with a possible `return`/`break` (`Sum.inl`) -/
def loopE (lo hi : Nat) (s : σ) (body : Nat → σ → M (ρ ⊕ σ)) : M (ρ ⊕ σ) :=
  if lo < hi then do
    let r ← body lo s
    match r with
    | .inl r => pure (.inl r)
    | .inr s => loopE (lo + 1) hi s body
  else .ok (.inr s)
termination_by hi - lo

/-- `dst[i] = f(a[i], b[i])` where the operands may be indeterminate; the result is then
indeterminate too -/
def cell2 (f : α → α → α) (a b dst : Buf α) (i : Nat) : M (Buf α) :=
  match a[i]?, b[i]? with
  | some x, some y =>
    if i < dst.size then
      .ok (dst.setIfInBounds i (match x, y with
        | some x, some y => some (f x y)
        | _, _ => none))
    else .error .oob
  | _, _ => .error .oob

section generic
variable {F : Type} [Zero F] [One F] [Add F] [Sub F] [Mul F] [Div F] [Neg F] [OfScientific F]
  [IntCast F] [PFloat F]

/-- `ECOS_NAN`, i.e. `ECOS_INFINITY - ECOS_INFINITY` (include/glblopts.h:54) -/
def NAN [HasInf F] : F := INF - INF

/-- `GAMMA` (include/ecos.h:52) -/
def GAMMA : F := 0.99
/-- `DELTASTAT` with `STATICREG` on (include/ecos.h:53-54) -/
def DELTASTAT : F := 7e-8
/-- `IRERRFACT` (include/ecos.h:59) -/
def IRERRFACT : F := 6.0
/-- `LINSYSACC` (include/ecos.h:60) -/
def LINSYSACC : F := 1e-14
/-- `SIGMAMIN`, `SIGMAMAX` (include/ecos.h:61-62) -/
def SIGMAMIN : F := 1e-4
def SIGMAMAX : F := 1
/-- `STEPMIN`, `STEPMAX` (include/ecos.h:63-64) -/
def STEPMIN : F := 1e-6
def STEPMAX : F := 0.999
/-- `SAFEGUARD` (include/ecos.h:65) -/
def SAFEGUARD : F := 500.0
/-- `MIN_DISTANCE` (include/ecos.h:71) -/
def MIN_DISTANCE : F := 0.1

end generic
end Ecos
