import Verif.Model.Ecos

/-!
# Vocabulary for statements about `ECOS_solve`
-/
namespace Ecos

section generic
variable {F : Type} [Zero F] [One F] [Add F] [Sub F] [Mul F] [Div F] [Neg F] [OfScientific F]
  [IntCast F] [PFloat F] [HasInf F]

/-- the exit codes documented for `ECOS_solve` (include/ecos.h:87-95): the three verdicts at full and
reduced accuracy, and the failures -/
def Documented (c : Int) : Prop :=
  c = 0 ∨ c = 1 ∨ c = 2 ∨ c = 10 ∨ c = 11 ∨ c = 12 ∨ c = -1 ∨ c = -2 ∨ c = -3 ∨ c = -4 ∨ c = -7

/-- `AtHead arrives w sig k S`: a solve that enters the main loop with workspace `w` is in state `S`
at the beginning of pass `k` -/
inductive AtHead (arrives : Nat → Bool) (w : Work F) (sig : Sig) : Nat → LoopS F → Prop
  | start : AtHead arrives w sig 0
      { w := { w with info := { w.info with iter := 0 } }, presPrev := NAN, sig := sig }
  | next {k : Nat} {S S' : LoopS F} : AtHead arrives w sig k S → (k : Int) ≤ w.stgs.maxit →
      pass arrives k S = .ok (.inr S') → AtHead arrives w sig (k + 1) S'

/-- the pass `k` of this solve is the last one and leaves the loop with `e` -/
def Leaves (arrives : Nat → Bool) (w : Work F) (sig : Sig) (k : Nat) (e : Exit F) : Prop :=
  ∃ S, AtHead arrives w sig k S ∧ (k : Int) ≤ w.stgs.maxit ∧ pass arrives k S = .ok (.inl e)

/-- `wm` is the workspace right after residuals and statistics of pass `k` were computed: its
iterate is the `k`-th iterate of this solve, and its `info` describes that iterate -/
def Measured (arrives : Nat → Bool) (w : Work F) (sig : Sig) (k : Nat) (wm : Work F) : Prop :=
  ∃ S, AtHead arrives w sig k S ∧ (k : Int) ≤ w.stgs.maxit ∧ passHead S.w k = .ok wm

/-- the two arrays agree on their first `n` cells -/
def EqOn {α : Type} (n : Nat) (a b : Buf α) : Prop := ∀ i, i < n → a[i]? = b[i]?

/-- the two workspaces hold the same iterate -/
structure SameIterate (w w' : Work F) : Prop where
  x : EqOn w.n w.x w'.x
  y : EqOn w.p w.y w'.y
  z : EqOn w.m w.z w'.z
  s : EqOn w.m w.s w'.s
  kap : w.kap = w'.kap
  tau : w.tau = w'.tau

/-- the statistics that describe an iterate -/
structure SameStats (i i' : Stats F) : Prop where
  pcost : i.pcost = i'.pcost
  dcost : i.dcost = i'.dcost
  pres : i.pres = i'.pres
  dres : i.dres = i'.dres
  pinfres : i.pinfres = i'.pinfres
  dinfres : i.dinfres = i'.dinfres
  gap : i.gap = i'.gap
  relgap : i.relgap = i'.relgap
  mu : i.mu = i'.mu
  kapovert : i.kapovert = i'.kapovert

/-- what `info` and the iterate of `w'` say is what was measured in `wm` -/
structure Describes (w' wm : Work F) : Prop where
  iterate : SameIterate w' wm
  stats : SameStats w'.info wm.info
  cx : w'.cx = wm.cx
  bY : w'.bY = wm.bY
  hz : w'.hz = wm.hz

/-- the stored best iterate of `w` is the iterate of `wm` -/
structure BestIs (w wm : Work F) : Prop where
  x : EqOn w.n w.bestX wm.x
  y : EqOn w.p w.bestY wm.y
  z : EqOn w.m w.bestZ wm.z
  s : EqOn w.m w.bestS wm.s
  kap : w.bestKap = wm.kap
  tau : w.bestTau = wm.tau
  cx : w.bestCx = wm.cx
  bY : w.bestBy = wm.bY
  hz : w.bestHz = wm.hz
  stats : SameStats w.bestInfo wm.info

/-- the problem data, the equilibration and the settings are the same -/
structure SameData (w w' : Work F) : Prop where
  n : w'.n = w.n
  m : w'.m = w.m
  p : w'.p = w.p
  D : w'.D = w.D
  A : w'.A = w.A
  G : w'.G = w.G
  c : w'.c = w.c
  b : w'.b = w.b
  h : w'.h = w.h
  xequil : w'.xequil = w.xequil
  Aequil : w'.Aequil = w.Aequil
  Gequil : w'.Gequil = w.Gequil
  stgs : w'.stgs = w.stgs

/-- `wm` is the workspace in which the solve of `w` enters the main loop -/
def Started (w w1 : Work F) : Prop :=
  ∃ c, divBy w.c w.xequil w.n = .ok c ∧ initSolver { w with c := c } = .ok (w1, true)

/-- the primal cost of the first pass is NaN -/
def NanHead (w : Work F) : Prop := ∃ a v, passHead w 0 = .ok a ∧ a.info.pcost = some v ∧ PFloat.isNaN v = true

/-- the first pass of a solve finds NaN for the primal cost -/
def FirstNaN (w : Work F) : Prop := ∃ w1, Started w w1 ∧ NanHead w1

/-- the variables in `w'` are the iterate measured in `wm`, divided by `tau` and with the
equilibration taken out -/
structure HandedBack (wm w' : Work F) : Prop where
  x : ∀ i, i < wm.n → ∃ v e t, wm.x[i]? = some (some v) ∧ wm.xequil[i]? = some (some e) ∧
    wm.tau = some t ∧ w'.x[i]? = some (some (v / (e * t)))
  y : ∀ i, i < wm.p → ∃ v e t, wm.y[i]? = some (some v) ∧ wm.Aequil[i]? = some (some e) ∧
    wm.tau = some t ∧ w'.y[i]? = some (some (v / (e * t)))
  z : ∀ i, i < wm.m → ∃ v e t, wm.z[i]? = some (some v) ∧ wm.Gequil[i]? = some (some e) ∧
    wm.tau = some t ∧ w'.z[i]? = some (some (v / (e * t)))
  s : ∀ i, i < wm.m → ∃ v e t, wm.s[i]? = some (some v) ∧ wm.Gequil[i]? = some (some e) ∧
    wm.tau = some t ∧ w'.s[i]? = some (some (v * (e / t)))
  kap : w'.kap = wm.kap
  tau : w'.tau = wm.tau
  stats : SameStats w'.info wm.info

end generic
end Ecos
