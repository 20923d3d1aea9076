import Verif.Model.BBSetup
import Verif.Model.Preproc

/-!
# The mixed-integer solver with its continuous solver

Model/BB.lean has the search, with the continuous solver as a parameter; here the parameter is `ecosSolve`, and the whole of
`ECOS_BB_setup` is modelled.
-/
namespace Ecos
namespace BB

/-- the part of the continuous workspace the search does not look at, the signal handlers, and how many times the continuous solver was
called -/
structure Hid (F : Type) where
  w : Work F
  sig : Sig
  calls : Nat

section generic
variable {F : Type} [Zero F] [One F] [Add F] [Sub F] [Mul F] [Div F] [Neg F] [OfScientific F]
  [IntCast F] [PFloat F] [HasInf F]

/-- the continuous workspace: the search writes to the fields of `EW` in place (they are fields of the same `pwork`). After
`load_solution` without a stored solution `*info` is indeterminate; its counters are then 0 in the model, `ECOS_solve` writes them before
it reads them. -/
def toWork (e : EW F (Hid F) (Stats F)) : Work F :=
  { e.hid.w with n := e.n, m := e.m, p := e.p, c := e.c, h := e.h, Gequil := e.gequil, x := e.x, y := e.y, z := e.z, s := e.s,
                 kap := e.kap, tau := e.tau, info := e.info.getD {} }

/-- the same workspace, as the search sees it -/
def ofWork (w : Work F) (sig : Sig) (k : Nat) : EW F (Hid F) (Stats F) :=
  { n := w.n, p := w.p, m := w.m, c := w.c, h := w.h, gequil := w.Gequil, x := w.x, y := w.y, z := w.z, s := w.s, kap := w.kap,
    tau := w.tau, info := some w.info, hid := ⟨w, sig, k⟩ }

/-- the call `ECOS_solve(prob->ecos_prob)` (ecos_bb.c:394-402, :900). `arr k i`: a SIGINT arrives before the check of pass `i` of the
`k`-th call -/
def realEnv (arr : Nat → Nat → Bool) (rand : Nat → Nat) : Env F (Hid F) (Stats F) where
  solve := fun e => do
    let r ← ecosSolve (arr e.hid.calls) (toWork e) e.hid.sig
    pure (ofWork r.1 r.2.1 (e.hid.calls + 1), r.2.2)
  rand := rand

/-- a node record of zeros, as `calloc` leaves it -/
def zeroNode : Node F :=
  { status := 0, L := 0, U := 0, relaxation := 0, splitIdx := 0, splitVal := 0, prevSplitIdx := 0, prevSplitVal := 0,
    prevRelaxation := 0, up := 0 }

/-- `calloc` -/
def calloc {α : Type} (n : Nat) (z : α) : Buf α := Array.replicate n (some z)

/-- `get_default_ECOS_BB_settings` (ecos_bb_preproc.c:358-370, include/ecos_bb.h:39-42) -/
def bbDefault : Stgs F :=
  { maxit := 1000, absTol := 1e-6, relTol := 1e-3, intTol := 1e-4, strategy := 3, eta := 6, nodeSel := 1 }

/-- the arguments of `ECOS_BB_setup` -/
structure BBArgs (F : Type) where
  n : Nat
  m : Nat
  p : Nat
  l : Nat
  ncones : Nat
  q : Buf Nat
  nexc : Nat
  gpr : Buf F
  gjc : Buf Nat
  gir : Buf Nat
  A3 : Mat3 F
  c : Buf F
  h : Buf F
  b : Buf F
  nb : Nat
  bools : Buf Nat
  ni : Nat
  ints : Buf Nat
  stgs : Stgs F

/-- the arrays of the search around the continuous workspace (ecos_bb_preproc.c:255-307). `iter`, `dive_node_id` and `global_L` are written
by `ECOS_BB_solve` before they are read (ecos_bb.c:1137-1139) -/
def bbWork (I : BBArgs F) (w : Work F) (sig : Sig) : St F (Hid F) (Stats F) :=
  let M := I.m + 2 * (I.nb + I.ni)
  { nb := I.nb, ni := I.ni, nodes := calloc I.stgs.maxit zeroNode, boolIds := malloc (I.stgs.maxit * I.nb),
    intIds := malloc (2 * I.stgs.maxit * I.ni), boolVars := I.bools, intVars := I.ints, ecos := ofWork w sig 0,
    x := malloc I.n, y := malloc I.p, z := malloc M, s := malloc M, kap := none, tau := none, info := none, globalU := INF, globalL := 0,
    tmpBool := malloc I.nb, tmpInt := malloc (2 * I.ni), iter := 0, dive := 0, tbBool := malloc I.nb, tbInt := malloc (2 * I.ni),
    pcBinSum := calloc (2 * I.nb) 0, pcIntSum := calloc (2 * I.ni) 0, pcBinCnt := calloc (2 * I.nb) 0, pcIntCnt := calloc (2 * I.ni) 0,
    stgs := I.stgs, rng := 0 }

/-- `ECOS_BB_setup` (ecos_bb_preproc.c:155-331). If `ECOS_setup` gives a null pointer, that pointer is followed
(ecos_bb_preproc.c:296-297). `rand` was not called yet. -/
def bbSetup (amd : Nat → Buf Nat → Buf Nat → Option (Buf Nat)) (I : BBArgs F) (sig : Sig) : M (St F (Hid F) (Stats F)) := do
  let t ← socpToBB { nb := I.nb, bools := I.bools, ni := I.ni, ints := I.ints, n := I.n, m := I.m, gpr := I.gpr, gjc := I.gjc,
                     gir := I.gir, h := I.h }
  let r ← ecosSetup amd I.n (I.m + 2 * (I.nb + I.ni)) I.p (I.l + 2 * (I.nb + I.ni)) I.ncones I.q I.nexc
    ⟨some t.pr, some t.jc, some t.ir⟩ I.A3 I.c t.h I.b
  match r with
  | .ok w => pure (bbWork I w sig)
  | _ => .error .nullDeref

end generic
end BB
end Ecos
