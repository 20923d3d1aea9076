import Verif.Core.Num
import Verif.Model.Spla

/-!
# The branch and bound module (ecos_bb/ecos_bb.c)

Function by function.  The continuous solver is a parameter (`Env.solve`), as is the sequence of
values returned by `rand()` (`Env.rand`).  Printing (`MI_PRINTLEVEL`) is left out.
-/
namespace Ecos

/-- `ECOS_INFINITY` -/
abbrev INF {F : Type} [HasInf F] : F := HasInf.inf

/-- `a[i]` with a C index that may be negative -/
def rdI {α : Type} (b : Buf α) (i : Int) : M α := if i < 0 then .error .oob else rd b i.toNat

/-- `a[i] = v` with a C index that may be negative -/
def wrI {α : Type} (b : Buf α) (i : Int) (v : α) : M (Buf α) :=
  if i < 0 then .error .oob else wr b i.toNat v

/-- `dst[i] = src[i]` for a cell that may be indeterminate (copying an indeterminate `double` out of
`malloc`ed memory is not undefined by itself). -/
def cp {α : Type} (src : Buf α) (dst : Buf α) (i : Nat) : M (Buf α) :=
  match src[i]? with
  | none => .error .oob
  | some v => if i < dst.size then .ok (dst.setIfInBounds i v) else .error .oob

namespace BB

section generic
variable {F : Type} [Zero F] [One F] [Add F] [Sub F] [Mul F] [Div F] [Neg F] [OfScientific F]
  [IntCast F] [PFloat F] [HasInf F]

/-! ### Rounding helpers, include/ecos_bb.h:215-238 -/

/-- `(int) x` -/
def castInt (x : F) : M Int :=
  match PFloat.trunc x with
  | some k => .ok k
  | none => .error .castRange

/-- `abs_2` (include/ecos_bb.h:215-218) -/
def abs2 (x : F) : F := if lt x (0 : F) then -x else x

/-- `pfloat_round` (include/ecos_bb.h:220-223) -/
def pfRound (x : F) : M F :=
  if le (0 : F) x then do
    let k ← castInt (x + 0.5)
    pure ((k : Int) : F)
  else do
    let k ← castInt (x - 0.5)
    pure ((k : Int) : F)

/-- `pfloat_ceil` (include/ecos_bb.h:225-228) -/
def pfCeil (x tol : F) : M F :=
  if lt x (0 : F) then do
    let k ← castInt x
    pure ((k : Int) : F)
  else do
    let k ← castInt (x + (1 - tol))
    pure ((k : Int) : F)

/-- `pfloat_floor` (include/ecos_bb.h:230-233) -/
def pfFloor (x tol : F) : M F :=
  if lt x (0 : F) then do
    let k ← castInt (x - (1 - tol))
    pure ((k : Int) : F)
  else do
    let k ← castInt x
    pure ((k : Int) : F)

/-- `float_eqls` (include/ecos_bb.h:235-238) -/
def floatEqls (a b tol : F) : Bool := lt (abs2 (a - b)) tol

/-- `(char) x` for a `double`: undefined outside the range of `char` (taken as signed, 8 bit). -/
def castChar (x : F) : M Int := do
  let k ← castInt x
  if -128 ≤ k ∧ k ≤ 127 then pure k else .error .castRange

/-! ### Data structures, include/ecos_bb.h:95-190 -/

/-- `struct node` (include/ecos_bb.h:106-118) -/
structure Node (F : Type) where
  status : Int
  L : F
  U : F
  relaxation : F
  splitIdx : Int
  splitVal : F
  prevSplitIdx : Int
  prevSplitVal : F
  prevRelaxation : F
  up : Int

/-- `struct settings_bb` (include/ecos_bb.h:94-104) without `verbose`. -/
structure Stgs (F : Type) where
  maxit : Nat
  absTol : F
  relTol : F
  intTol : F
  /-- 0 most infeasible, 1 strong, 2 pseudocost, 3 reliability, 4 random -/
  strategy : Nat
  eta : Int
  /-- 0 breadth first, 1 dive lower, 2 dive upper -/
  nodeSel : Nat

/-- The part of `pwork` that branch and bound touches.  `W` is everything else the continuous
solver keeps between calls, `I` is the type of `stats`. -/
structure EW (F W I : Type) where
  n : Nat
  p : Nat
  m : Nat
  c : Buf F
  h : Buf F
  gequil : Buf F
  x : Buf F
  y : Buf F
  z : Buf F
  s : Buf F
  kap : Option F
  tau : Option F
  info : Option I
  hid : W

/-- `struct ecos_bb_pwork` (include/ecos_bb.h:121-182).  The pointers `A G c b h`, `ecos_stgs` and
the stored copies of `G`, `h` are not read by the search and left out here. -/
structure St (F W I : Type) where
  nb : Nat
  ni : Nat
  nodes : Buf (Node F)
  boolIds : Buf Int
  intIds : Buf F
  boolVars : Buf Nat
  intVars : Buf Nat
  ecos : EW F W I
  x : Buf F
  y : Buf F
  z : Buf F
  s : Buf F
  kap : Option F
  tau : Option F
  info : Option I
  globalU : F
  globalL : F
  tmpBool : Buf Int
  tmpInt : Buf F
  iter : Nat
  dive : Int
  tbBool : Buf Int
  tbInt : Buf F
  pcBinSum : Buf F
  pcIntSum : Buf F
  pcBinCnt : Buf Int
  pcIntCnt : Buf Int
  stgs : Stgs F
  /-- how many values of `rand()` were used -/
  rng : Nat

/-- What the search calls but does not contain. -/
structure Env (F W I : Type) where
  /-- `ECOS_solve` -/
  solve : EW F W I → M (EW F W I × Int)
  /-- successive values of `rand()` -/
  rand : Nat → Nat

def RAND_MAX : Nat := 2147483647

def MI_NOT_SOLVED : Int := 1
def MI_SOLVED_BRANCHABLE : Int := 2
def MI_SOLVED_NON_BRANCHABLE : Int := 3
def MI_ONE : Int := 1
def MI_ZERO : Int := 0
def MI_STAR : Int := -1
def MAX_FLOAT_INT : Int := 8388608

variable {W I : Type}

/-- update of `nodes[i]` -/
def setNode (bb : St F W I) (i : Int) (f : Node F → Node F) : M (St F W I) := do
  let nd ← rdI bb.nodes i
  let ns ← wrI bb.nodes i (f nd)
  pure { bb with nodes := ns }

/-! ### Branching, ecos_bb/ecos_bb.c:121-182 -/

/-- copy loops of `branch` (ecos_bb.c:147-150) -/
def copyRow {α : Type} (b : Buf α) (src dst len : Nat) : M (Buf α) :=
  loop 0 len b fun i b => do
    let v ← rd b (src + i)
    wr b (dst + i) v

/-- fields of the right child (ecos_bb.c:134-140) -/
def rightOf (nd r : Node F) : Node F :=
  { r with L := nd.L, U := nd.U, status := MI_NOT_SOLVED, prevSplitIdx := nd.splitIdx,
           prevSplitVal := nd.splitVal, prevRelaxation := nd.relaxation, up := 1 }

/-- fields of the left child, which reuses the slot of its parent (ecos_bb.c:142-145, 169) -/
def leftOf (nd : Node F) : Node F :=
  { nd with prevSplitIdx := nd.splitIdx, prevSplitVal := nd.splitVal,
            prevRelaxation := nd.relaxation, up := 0, status := MI_NOT_SOLVED }

/-- boolean split (ecos_bb.c:152-156); `row + split_idx` is one address computation as in C -/
def splitBool (bb : St F W I) (cur : Nat) (si : Int) : M (St F W I) := do
  let b ← wrI bb.boolIds ((bb.nb * cur : Nat) + si) MI_ZERO
  let b ← wrI b ((bb.nb * bb.iter : Nat) + si) MI_ONE
  pure { bb with boolIds := b }

/-- integer split (ecos_bb.c:157-168) -/
def splitInt (bb : St F W I) (cur : Nat) (si : Int) (sv : F) : M (St F W I) := do
  let fl ← pfFloor sv bb.stgs.intTol
  let b ← wrI bb.intIds ((bb.ni * cur * 2 : Nat) + (si * 2 + 1)) fl
  let ce ← pfCeil sv bb.stgs.intTol
  let b ← wrI b ((bb.ni * bb.iter * 2 : Nat) + si * 2) (-ce)
  pure { bb with intIds := b }

/-- `branch` (ecos_bb.c:121-182) -/
def branch (cur : Nat) (bb : St F W I) : M (St F W I) := do
  let nd ← rd bb.nodes cur
  let bb ← setNode bb bb.iter (rightOf nd)
  let bb ← setNode bb cur leftOf
  let bi ← copyRow bb.boolIds (bb.nb * cur) (bb.nb * bb.iter) bb.nb
  let ii ← copyRow bb.intIds (bb.ni * cur * 2) (bb.ni * bb.iter * 2) (bb.ni * 2)
  let bb := { bb with boolIds := bi, intIds := ii }
  if nd.splitIdx < bb.nb then splitBool bb cur nd.splitIdx
  else splitInt bb cur (nd.splitIdx - bb.nb) nd.splitVal

/-! ### Node selection, ecos_bb/ecos_bb.c:187-221 -/

/-- loop body of `get_next_node` (ecos_bb.c:203-209) -/
def nextStep (bb : St F W I) (i : Nat) (s : Int × F) : M (Int × F) := do
  let nd ← rd bb.nodes i
  if nd.status = MI_SOLVED_BRANCHABLE ∧ lt nd.L s.2 ∧ lt nd.L bb.globalU then pure ((i : Int), nd.L)
  else pure s

/-- the search loop of `get_next_node` (ecos_bb.c:199-211) -/
def nextScan (bb : St F W I) : M (St F W I × Int) := do
  let s ← loop 0 (bb.iter + 1) ((-1 : Int), (INF : F)) (nextStep bb)
  pure ({ bb with dive := s.1 }, s.1)

/-- `get_next_node` (ecos_bb.c:187-212) -/
def getNextNode (bb : St F W I) : M (St F W I × Int) :=
  if bb.stgs.nodeSel = 1 then do
    let nd ← rdI bb.nodes bb.dive
    if nd.status = MI_SOLVED_BRANCHABLE then pure (bb, bb.dive) else nextScan bb
  else if bb.stgs.nodeSel = 2 then do
    let nd ← rd bb.nodes bb.iter
    if nd.status = MI_SOLVED_BRANCHABLE then pure (bb, (bb.iter : Int)) else nextScan bb
  else nextScan bb

/-- loop body of `get_global_L`; `MIN(X,Y) ((X)<(Y)?(X):(Y))` (ecos_bb.c:37, 219) -/
def minStep (bb : St F W I) (i : Nat) (L : F) : M F := do
  let nd ← rd bb.nodes i
  pure (if lt L nd.L then L else nd.L)

/-- `get_global_L` (ecos_bb.c:214-221) -/
def getGlobalL (bb : St F W I) : M F := loop 0 (bb.iter + 1) (INF : F) (minStep bb)

/-! ### Imposing node bounds, ecos_bb/ecos_bb.c:287-327 -/

/-- `ecos_updateDataEntry_h` (src/ecos.c:1623-1630) -/
def updH (e : EW F W I) (idx : Nat) (v : F) : M (EW F W I) := do
  let g ← rd e.gequil idx
  let h ← wr e.h idx (v / g)
  pure { e with h := h }

/-- `updateDataEntry_h` (ecos_bb.c:1185-1188) -/
def updateDataEntryH (bb : St F W I) (idx : Nat) (v : F) : M (St F W I) := do
  let e ← updH bb.ecos (idx + 2 * bb.nb) v
  pure { bb with ecos := e }

/-- `ecos_updateDataEntry_c` (src/ecos.c:1637-1640) -/
def updC (e : EW F W I) (idx : Nat) (v : F) : M (EW F W I) := do
  let c ← wr e.c idx v
  pure { e with c := c }

/-- `updateDataEntry_c` (ecos_bb.c:1190-1193) -/
def updateDataEntryC (bb : St F W I) (idx : Nat) (v : F) : M (St F W I) := do
  let e ← updC bb.ecos idx v
  pure { bb with ecos := e }

/-- two bound rows of one variable -/
def updPair (e : EW F W I) (j : Nat) (a b : F) : M (EW F W I) := do
  let e ← updH e (2 * j) a
  updH e (2 * j + 1) b

/-- `switch` of `set_prob` (ecos_bb.c:292-312); the default case does nothing -/
def setBoolStep (bids : Buf Int) (boff : Nat) (i : Nat) (e : EW F W I) : M (EW F W I) := do
  let b ← rd bids (boff + i)
  if b = MI_ONE then updPair e i (-1) 1
  else if b = MI_ZERO then updPair e i 0 0
  else if b = MI_STAR then updPair e i 0 1
  else pure e

/-- integer bounds of `set_prob` (ecos_bb.c:315-319) -/
def setIntStep (nb : Nat) (iids : Buf F) (ioff : Nat) (i : Nat) (e : EW F W I) :
    M (EW F W I) := do
  let a ← rd iids (ioff + 2 * i)
  let b ← rd iids (ioff + (2 * i + 1))
  updPair e (i + nb) a b

/-- `set_prob` (ecos_bb.c:287-327); the two node-id pointers are a buffer and an offset -/
def setProb (bb : St F W I) (bids : Buf Int) (boff : Nat) (iids : Buf F) (ioff : Nat) :
    M (St F W I) := do
  let e ← loop 0 bb.nb bb.ecos (setBoolStep bids boff)
  let e ← loop 0 bb.ni e (setIntStep bb.nb iids ioff)
  pure { bb with ecos := e }

/-- a call `ECOS_solve(prob->ecos_prob)` -/
def callSolve (env : Env F W I) (bb : St F W I) : M (St F W I × Int) := do
  let r ← env.solve bb.ecos
  pure ({ bb with ecos := r.1 }, r.2)

/-- `eddot(prob->ecos_prob->n, prob->ecos_prob->x, prob->ecos_prob->c)` -/
def cost (bb : St F W I) : M F := eddot bb.ecos.n bb.ecos.x bb.ecos.c

/-! ### Choice of the branching variable -/

/-- variable index of candidate `i` (ecos_bb.c:233-242 and the other strategies) -/
def varIdx (bb : St F W I) (i : Nat) : M Nat :=
  if i < bb.nb then rd bb.boolVars i else rd bb.intVars (i - bb.nb)

/-- value from which the distance to 1/2 is taken (ecos_bb.c:234-243) -/
def ambig (bb : St F W I) (i : Nat) (y : F) : M F :=
  if i < bb.nb then pure (abs2 (y - 0.5))
  else do
    let fl ← pfFloor y bb.stgs.intTol
    pure (abs2 (y - fl - 0.5))

/-- loop body of `get_branch_var_most_infeasible` (ecos_bb.c:232-251) -/
def mostInfStep (node : Nat) (i : Nat) (s : St F W I × F) : M (St F W I × F) := do
  let v ← varIdx s.1 i
  let y ← rd s.1.ecos.x v
  let a ← ambig s.1 i y
  if lt a s.2 then do
    let bb ← setNode s.1 node (fun nd => { nd with splitIdx := i, splitVal := y })
    pure (bb, a)
  else pure s

/-- `get_branch_var_most_infeasible` (ecos_bb.c:227-255) -/
def mostInfeasible (bb : St F W I) (node : Nat) : M (St F W I) := do
  let s ← loop 0 (bb.nb + bb.ni) (bb, (1 : F)) (mostInfStep node)
  pure s.1

/-- the test "already an integer" (ecos_bb.c:270-271, 559-560, 702-703, 771-772) -/
def isIntegral (tol y : F) : M Bool := do
  let fl ← pfFloor y tol
  if floatEqls y fl tol then pure true
  else do
    let ce ← pfCeil y tol
    pure (floatEqls y ce tol)

/-- `get_branch_var_random` (ecos_bb.c:261-281).  The endless loop gets fuel. -/
def branchRandom (env : Env F W I) (node : Nat) : Nat → St F W I → M (St F W I)
  | 0, _ => .error .fuel
  | fuel + 1, bb =>
    if bb.nb + bb.ni = 0 then .error .oob else do
    let i := env.rand bb.rng % (bb.nb + bb.ni)
    let bb := { bb with rng := bb.rng + 1 }
    let v ← varIdx bb i
    let y ← rd bb.ecos.x v
    let bb ← setNode bb node (fun nd => { nd with splitIdx := i, splitVal := y })
    let t ← isIntegral bb.stgs.intTol y
    if t then branchRandom env node fuel bb else pure bb

/-- `is_infeasible` (ecos_bb.c:329-340) -/
def isInfeasible (code : Int) : Bool := code = 2 || code = 1 || code = 12 || code = 11

/-- `get_score` (ecos_bb.c:346-355) -/
def getScore (dn up : F) : F :=
  (if lt (0.00000001 : F) dn then dn else 0.00000001) *
  (if lt (0.00000001 : F) up then up else 0.00000001)

/-- one swap of `get_shuffled_array` (ecos_bb.c:369-375) -/
def shuffleStep (env : Env F W I) (n : Nat) (i : Nat) (s : Buf Nat × Nat) : M (Buf Nat × Nat) := do
  let j := i + env.rand s.2 / (RAND_MAX / (n - i) + 1)
  let t ← rd s.1 j
  let u ← rd s.1 i
  let b ← wr s.1 j u
  let b ← wr b i t
  pure (b, s.2 + 1)

/-- `get_shuffled_array` (ecos_bb.c:360-377); returns the array and the number of `rand` values used
so far -/
def getShuffled (env : Env F W I) (n : Nat) (rng : Nat) : M (Buf Nat × Nat) := do
  let a ← loop 0 n (malloc n : Buf Nat) (fun i b => wr b i i)
  loop 0 (n - 1) (a, rng) (shuffleStep env n)

/-- `memcpy(dst, src + off, len * sizeof(..))` between written cells -/
def memcpyRow {α : Type} (dst src : Buf α) (off len : Nat) : M (Buf α) :=
  loop 0 len dst fun i b => do
    let v ← rd src (off + i)
    wr b i v

/-- `initialize_strong_branching` (ecos_bb.c:382-392) -/
def initStrong (bb : St F W I) (node : Nat) : M (St F W I) := do
  let b ← memcpyRow bb.tbBool bb.boolIds (bb.nb * node) bb.nb
  let i ← memcpyRow bb.tbInt bb.intIds (bb.ni * node * 2) (2 * bb.ni)
  pure { bb with tbBool := b, tbInt := i }

/-- `calc_tmp_branching_problem` (ecos_bb.c:397-402): new state, relaxation, solver code -/
def calcTmp (env : Env F W I) (bb : St F W I) : M (St F W I × F × Int) := do
  let bb ← setProb bb bb.tbBool 0 bb.tbInt 0
  let r ← callSolve env bb
  let q ← cost r.1
  pure (r.1, q, r.2)

/-- "prevent to have no branching variable set" (ecos_bb.c:421-425, 447-451) -/
def setSplitIfNone (bb : St F W I) (node : Nat) (i : Nat) (v : F) : M (St F W I) :=
  setNode bb node (fun nd => if nd.splitIdx = -1 then { nd with splitIdx := i, splitVal := v } else nd)

/-- the body of the `if` of `check_infeasible_bool_var` (ecos_bb.c:413-426) -/
def fixBool (bb : St F W I) (node i : Nat) (other : Int) (v : F) : M (St F W I) := do
  let b ← wr bb.boolIds (bb.nb * node + i) other
  let t ← wr bb.tbBool i other
  setSplitIfNone { bb with boolIds := b, tbBool := t } node i v

/-- `strong_branch_bool_var` (ecos_bb.c:463-488) with `check_infeasible_bool_var` (407-429);
`none` stands for the return value 1 -/
def strongBool (env : Env F W I) (bb : St F W I) (node i : Nat) (v : F) :
    M (St F W I × Option (F × F)) := do
  let orig ← rd bb.tbBool i
  let t ← wr bb.tbBool i MI_ZERO
  let r ← calcTmp env { bb with tbBool := t }
  if isInfeasible r.2.2 || lt r.1.globalU r.2.1 then do
    let bb ← fixBool r.1 node i MI_ONE v
    pure (bb, none)
  else do
    let t ← wr r.1.tbBool i MI_ONE
    let r' ← calcTmp env { r.1 with tbBool := t }
    if isInfeasible r'.2.2 || lt r'.1.globalU r'.2.1 then do
      let bb ← fixBool r'.1 node i MI_ZERO v
      pure (bb, none)
    else do
      let t ← wr r'.1.tbBool i orig
      pure ({ r'.1 with tbBool := t }, some (r.2.1, r'.2.1))

/-- the body of the `if` of `check_infeasible_int_var` (ecos_bb.c:439-452), `slot` is 0 when the lower
bound is fixed and 1 otherwise -/
def fixInt (bb : St F W I) (node ii slot : Nat) (fixVal v : F) : M (St F W I) := do
  let b ← wr bb.intIds (bb.ni * node * 2 + (2 * ii + slot)) fixVal
  let t ← wr bb.tbInt (2 * ii + slot) fixVal
  setSplitIfNone { bb with intIds := b, tbInt := t } node (ii + bb.nb) v

/-- one side of `strong_branch_int_var` (ecos_bb.c:497-500, 507-511): store a trial bound, solve,
restore the bound -/
def tryInt (env : Env F W I) (bb : St F W I) (pos : Nat) (bound : F) : M (St F W I × F × Int) := do
  let orig ← rd bb.tbInt pos
  let t ← wr bb.tbInt pos bound
  let r ← calcTmp env { bb with tbInt := t }
  let t ← wr r.1.tbInt pos orig
  pure ({ r.1 with tbInt := t }, r.2)

/-- `strong_branch_int_var` (ecos_bb.c:492-517) with `check_infeasible_int_var` (433-455);
`ii = i - num_bool_vars` -/
def strongInt (env : Env F W I) (bb : St F W I) (node ii : Nat) (v : F) :
    M (St F W I × Option (F × F)) := do
  let fl ← pfFloor v bb.stgs.intTol
  let r ← tryInt env bb (2 * ii + 1) fl
  if isInfeasible r.2.2 || lt r.1.globalU r.2.1 then do
    let ce ← pfCeil v r.1.stgs.intTol
    let bb ← fixInt r.1 node ii 0 (-ce) v
    pure (bb, none)
  else do
    let ce ← pfCeil v r.1.stgs.intTol
    let r' ← tryInt env r.1 (2 * ii) (-ce)
    if isInfeasible r'.2.2 || lt r'.1.globalU r'.2.1 then do
      let fl ← pfFloor v r'.1.stgs.intTol
      let bb ← fixInt r'.1 node ii 1 fl v
      pure (bb, none)
    else pure (r'.1, some (r.2.1, r'.2.1))

/-- dispatch on the kind of the candidate (ecos_bb.c:565-574, 806-828) -/
def strongVar (env : Env F W I) (bb : St F W I) (node i : Nat) (v : F) :
    M (St F W I × Option (F × F)) :=
  if i < bb.nb then strongBool env bb node i v else strongInt env bb node (i - bb.nb) v

/-- keep the candidate if its score is better (ecos_bb.c:577-586, 834-839) -/
def takeScore (bb : St F W I) (best : F) (node i : Nat) (v score : F) : M (St F W I × F) :=
  if lt best score then do
    let bb ← setNode bb node (fun nd => { nd with splitIdx := i, splitVal := v })
    pure (bb, score)
  else pure (bb, best)

/-- what follows `strong_branch_*_var` in strong branching (ecos_bb.c:576-586) -/
def strongTake (q : F) (node i : Nat) (v : F) (best : F) (r : St F W I × Option (F × F)) :
    M (St F W I × F) :=
  match r.2 with
  | none => pure (r.1, best)
  | some qq => takeScore r.1 best node i v (getScore (qq.1 - q) (qq.2 - q))

/-- loop body of `get_branch_var_strong_branching` (ecos_bb.c:545-587) -/
def strongStep (env : Env F W I) (node : Nat) (xs : Buf F) (q : F) (perm : Buf Nat) (k : Nat)
    (s : St F W I × F) : M (St F W I × F) := do
  let i ← rd perm k
  let v ← varIdx s.1 i
  let y ← rd xs v
  let t ← isIntegral s.1.stgs.intTol y
  if t then pure s
  else do
    let r ← strongVar env s.1 node i y
    strongTake q node i y s.2 r

/-- `get_branch_var_strong_branching` (ecos_bb.c:522-603).  The saved and restored `maxit` settings
are never changed in between and are left out. -/
def strongBranching (env : Env F W I) (bb : St F W I) (node : Nat) : M (St F W I) := do
  let bb ← initStrong bb node
  let r ← calcTmp env bb
  let xs ← memcpyRow (malloc r.1.ecos.n) r.1.ecos.x 0 r.1.ecos.n
  let bb ← setNode r.1 node (fun nd => { nd with splitIdx := -1 })
  let p ← getShuffled env (bb.nb + bb.ni) bb.rng
  let s ← loop 0 (bb.nb + bb.ni) ({ bb with rng := p.2 }, -(INF : F)) (strongStep env node xs r.2.1 p.1)
  pure s.1

/-- accumulation loop of `avg_pseudocost` (ecos_bb.c:613-620) -/
def avgStep (sums : Buf F) (cnts : Buf Int) (up : Nat) (i : Nat) (s : F × Int) : M (F × Int) := do
  let c ← rd cnts (2 * i + up)
  if c > 0 then do
    let v ← rd sums (2 * i + up)
    pure (s.1 + v, s.2 + c)
  else pure s

/-- `avg_pseudocost` (ecos_bb.c:608-626) -/
def avgPseudo (sums : Buf F) (cnts : Buf Int) (n up : Nat) : M F := do
  let s ← loop 0 n ((0 : F), (0 : Int)) (avgStep sums cnts up)
  if s.2 > 0 then pure (s.1 / (s.2 : F)) else pure 1

/-- one of the four cases of `set_pseudocost_psi` (ecos_bb.c:635-676) -/
def psi (sums : Buf F) (cnts : Buf Int) (n i up : Nat) : M F := do
  let c ← rd cnts (2 * i + up)
  if c = 0 then avgPseudo sums cnts n up
  else do
    let v ← rd sums (2 * i + up)
    pure (v / (c : F))

/-- `set_pseudocost_psi` (ecos_bb.c:631-677): down and up values -/
def pseudoPsi (bb : St F W I) (i : Nat) : M (F × F) :=
  if i < bb.nb then do
    let d ← psi bb.pcBinSum bb.pcBinCnt bb.nb i 0
    let u ← psi bb.pcBinSum bb.pcBinCnt bb.nb i 1
    pure (d, u)
  else do
    let d ← psi bb.pcIntSum bb.pcIntCnt bb.ni (i - bb.nb) 0
    let u ← psi bb.pcIntSum bb.pcIntCnt bb.ni (i - bb.nb) 1
    pure (d, u)

/-- pseudocost score of candidate `i` with value `y` (ecos_bb.c:708-712, 778-783) -/
def pseudoScore (bb : St F W I) (i : Nat) (y : F) : M F := do
  let p ← pseudoPsi bb i
  let fl ← pfFloor y bb.stgs.intTol
  pure (getScore ((y - fl) * p.1) ((1 - (y - fl)) * p.2))

/-- loop body of `get_branch_var_pseudocost_branching` (ecos_bb.c:688-720) -/
def pseudoStep (node : Nat) (perm : Buf Nat) (k : Nat) (s : St F W I × F) : M (St F W I × F) := do
  let i ← rd perm k
  let v ← varIdx s.1 i
  let y ← rd s.1.ecos.x v
  let t ← isIntegral s.1.stgs.intTol y
  if t then pure s
  else do
    let sc ← pseudoScore s.1 i y
    takeScore s.1 s.2 node i y sc

/-- `get_branch_var_pseudocost_branching` (ecos_bb.c:681-724) -/
def pseudocostBranching (env : Env F W I) (bb : St F W I) (node : Nat) : M (St F W I) := do
  let p ← getShuffled env (bb.nb + bb.ni) bb.rng
  let s ← loop 0 (bb.nb + bb.ni) ({ bb with rng := p.2 }, -(INF : F)) (pseudoStep node p.1)
  pure s.1

/-- `is_reliable` (ecos_bb.c:729-738) -/
def isReliable (bb : St F W I) (i : Nat) : M Bool :=
  if i < bb.nb then do
    let a ← rd bb.pcBinCnt (2 * i)
    if a > bb.stgs.eta then do
      let b ← rd bb.pcBinCnt (2 * i + 1)
      pure (decide (b > bb.stgs.eta))
    else pure false
  else do
    let a ← rd bb.pcIntCnt (2 * (i - bb.nb))
    if a > bb.stgs.eta then do
      let b ← rd bb.pcIntCnt (2 * (i - bb.nb) + 1)
      pure (decide (b > bb.stgs.eta))
    else pure false

/-- `*sum += d; *cnt += 1` -/
def bump (sums : Buf F) (cnts : Buf Int) (pos : Nat) (d : F) : M (Buf F × Buf Int) := do
  let v ← rd sums pos
  let sums ← wr sums pos (v + d)
  let c ← rd cnts pos
  let cnts ← wr cnts pos (c + 1)
  pure (sums, cnts)

/-- `bump` in the pseudocost arrays of candidate `i`, `off` is 0 for down and 1 for up -/
def bumpVar (bb : St F W I) (i off : Nat) (d : F) : M (St F W I) :=
  if i < bb.nb then do
    let r ← bump bb.pcBinSum bb.pcBinCnt (2 * i + off) d
    pure { bb with pcBinSum := r.1, pcBinCnt := r.2 }
  else do
    let r ← bump bb.pcIntSum bb.pcIntCnt (2 * (i - bb.nb) + off) d
    pure { bb with pcIntSum := r.1, pcIntCnt := r.2 }

/-- pseudocost update of reliability branching (ecos_bb.c:826-831) -/
def relUpdate (bb : St F W I) (i : Nat) (cv q qd qu : F) : M (St F W I) := do
  let ce ← pfCeil cv bb.stgs.intTol
  let fl ← pfFloor cv bb.stgs.intTol
  let bb ← bumpVar bb i 0 ((qd - q) / (cv - fl))
  bumpVar bb i 1 ((qu - q) / (ce - cv))

/-- state of the loop of reliability branching: `strong` is `none` before `strong_initialized`,
afterwards it holds `q` and `x_values` -/
structure RelSt (F W I : Type) where
  bb : St F W I
  high : F
  strong : Option (F × Buf F)

/-- first use of strong branching (ecos_bb.c:787-795) -/
def relInit (env : Env F W I) (node : Nat) (s : RelSt F W I) : M (RelSt F W I × F × Buf F) :=
  match s.strong with
  | some qx => pure (s, qx)
  | none => do
    let bb ← initStrong s.bb node
    let r ← calcTmp env bb
    let xs ← memcpyRow (malloc r.1.ecos.n) r.1.ecos.x 0 r.1.ecos.n
    pure ({ s with bb := r.1, strong := some (r.2.1, xs) }, r.2.1, xs)

/-- what follows `strong_branch_*_var` in reliability branching (ecos_bb.c:808-839) -/
def relTake (q cv y : F) (node i : Nat) (s : RelSt F W I) (r : St F W I × Option (F × F)) :
    M (RelSt F W I) :=
  match r.2 with
  | none => pure { s with bb := r.1 }
  | some qq => do
    let bb ← relUpdate r.1 i cv q qq.1 qq.2
    let t ← takeScore bb s.high node i y (getScore (qq.1 - q) (qq.2 - q))
    pure { s with bb := t.1, high := t.2 }

/-- loop body of `get_branch_var_reliability_branching` (ecos_bb.c:757-841) -/
def relStep (env : Env F W I) (node : Nat) (perm : Buf Nat) (k : Nat) (s : RelSt F W I) :
    M (RelSt F W I) := do
  let i ← rd perm k
  let v ← varIdx s.bb i
  let y ← rd s.bb.ecos.x v
  let t ← isIntegral s.bb.stgs.intTol y
  if t then pure s
  else do
    let rel ← isReliable s.bb i
    if rel then do
      let sc ← pseudoScore s.bb i y
      let t ← takeScore s.bb s.high node i y sc
      pure { s with bb := t.1, high := t.2 }
    else do
      let si ← relInit env node s
      let cv ← rd si.2.2 v
      let r ← strongVar env si.1.bb node i cv
      relTake si.2.1 cv y node i si.1 r

/-- `get_branch_var_reliability_branching` (ecos_bb.c:744-849) -/
def reliability (env : Env F W I) (bb : St F W I) (node : Nat) : M (St F W I) := do
  let p ← getShuffled env (bb.nb + bb.ni) bb.rng
  let s ← loop 0 (bb.nb + bb.ni)
    ({ bb := { bb with rng := p.2 }, high := -(INF : F), strong := none } : RelSt F W I)
    (relStep env node p.1)
  pure s.bb

/-- `switch` over the branching strategies (ecos_bb.c:967-985) -/
def chooseVar (env : Env F W I) (fuel : Nat) (bb : St F W I) (node : Nat) : M (St F W I) :=
  if bb.stgs.strategy = 0 then mostInfeasible bb node
  else if bb.stgs.strategy = 1 then strongBranching env bb node
  else if bb.stgs.strategy = 2 then pseudocostBranching env bb node
  else if bb.stgs.strategy = 3 then reliability env bb node
  else if bb.stgs.strategy = 4 then branchRandom env node fuel bb
  else pure bb

/-! ### Bounds of a node, ecos_bb/ecos_bb.c:854-1064 -/

/-- element loop `dst[i] = src[i]` -/
def cpAll {α : Type} (src dst : Buf α) (n : Nat) : M (Buf α) := loop 0 n dst (fun i b => cp src b i)

/-- `store_solution` (ecos_bb.c:854-868) -/
def storeSolution (bb : St F W I) : M (St F W I) := do
  let x ← cpAll bb.ecos.x bb.x bb.ecos.n
  let y ← cpAll bb.ecos.y bb.y bb.ecos.p
  let z ← cpAll bb.ecos.z bb.z bb.ecos.m
  let s ← cpAll bb.ecos.s bb.s bb.ecos.m
  pure { bb with x := x, y := y, z := z, s := s, kap := bb.ecos.kap, tau := bb.ecos.tau,
                 info := bb.ecos.info }

/-- `load_solution` (ecos_bb.c:873-887) -/
def loadSolution (bb : St F W I) : M (St F W I) := do
  let x ← cpAll bb.x bb.ecos.x bb.ecos.n
  let y ← cpAll bb.y bb.ecos.y bb.ecos.p
  let z ← cpAll bb.z bb.ecos.z bb.ecos.m
  let s ← cpAll bb.s bb.ecos.s bb.ecos.m
  pure { bb with ecos := { bb.ecos with x := x, y := y, z := z, s := s, kap := bb.kap,
                                        tau := bb.tau, info := bb.info } }

/-- pseudocost update for a solved child (ecos_bb.c:921-947).  A negative candidate index cannot
occur after the guard. -/
def pseudoUpdate (bb : St F W I) (node : Nat) : M (St F W I) := do
  let nd ← rd bb.nodes node
  if nd.prevSplitIdx ≥ 0 then do
    let dv ← (if nd.up ≠ 0 then do
        let ce ← pfCeil nd.prevSplitVal bb.stgs.intTol
        pure (ce - nd.prevSplitVal)
      else do
        let fl ← pfFloor nd.prevSplitVal bb.stgs.intTol
        pure (nd.prevSplitVal - fl))
    bumpVar bb nd.prevSplitIdx.toNat (if nd.up ≠ 0 then 1 else 0)
      ((nd.relaxation - nd.prevRelaxation) / dv)
  else pure bb

/-- rounding of one boolean (ecos_bb.c:953-955); the flag is `branchable` before negation -/
def roundBoolStep (bb : St F W I) (i : Nat) (s : Buf Int × Bool) : M (Buf Int × Bool) := do
  let v ← rd bb.boolVars i
  let y ← rd bb.ecos.x v
  let r ← pfRound y
  let k ← castChar r
  let b ← wr s.1 i k
  pure (b, s.2 && floatEqls y ((k : Int) : F) bb.stgs.intTol)

/-- rounding of one integer variable (ecos_bb.c:957-962) -/
def roundIntStep (bb : St F W I) (i : Nat) (s : Buf F × Bool) : M (Buf F × Bool) := do
  let v ← rd bb.intVars i
  let y ← rd bb.ecos.x v
  let r ← pfRound y
  let b ← wr s.1 (2 * i + 1) r
  let b ← wr b (2 * i) (-r)
  pure (b, s.2 && floatEqls y r bb.stgs.intTol)

/-- rounding and integrality test (ecos_bb.c:949-963); the flag says that `x` is integral -/
def roundAll (bb : St F W I) : M (St F W I × Bool) := do
  let r ← loop 0 bb.nb (bb.tmpBool, true) (roundBoolStep bb)
  let t ← loop 0 bb.ni (bb.tmpInt, r.2) (roundIntStep bb)
  pure ({ bb with tmpBool := r.1, tmpInt := t.1 }, t.2)

/-- the branchable case (ecos_bb.c:965-1018): pick a split, then try the rounded point.  The flag is
`viable_rounded_sol`. -/
def tryRounded (env : Env F W I) (fuel : Nat) (bb : St F W I) (node : Nat) :
    M (St F W I × Bool) := do
  let bb ← chooseVar env fuel bb node
  let bb ← setNode bb node (fun nd => { nd with status := MI_SOLVED_BRANCHABLE })
  let bb ← setProb bb bb.tmpBool 0 bb.tmpInt 0
  let r ← callSolve env bb
  if r.2 = 0 then do
    let u ← cost r.1
    let bb ← setNode r.1 node (fun nd => { nd with U := u })
    pure (bb, true)
  else pure (r.1, false)

/-- the case of an integer solution (ecos_bb.c:1019-1023) -/
def takeIntegral (bb : St F W I) (node : Nat) : M (St F W I × Bool) := do
  let u ← cost bb
  let bb ← setNode bb node (fun nd => { nd with status := MI_SOLVED_NON_BRANCHABLE, U := u })
  pure (bb, false)

/-- new incumbent (ecos_bb.c:1025-1037) -/
def updIncumbent (bb : St F W I) (node : Nat) : M (St F W I) := do
  let nd ← rd bb.nodes node
  if lt nd.U bb.globalU then do
    let bb ← storeSolution bb
    pure { bb with globalU := nd.U }
  else pure bb

/-- end of the solved case (ecos_bb.c:1039-1049) -/
def closeNode (bb : St F W I) (node : Nat) (viable : Bool) : M (St F W I) := do
  let bb ← (if viable then setNode bb node (fun nd => { nd with U := INF }) else pure bb)
  let nd ← rd bb.nodes node
  if lt bb.globalU nd.L then
    setNode bb node (fun nd => { nd with status := MI_SOLVED_NON_BRANCHABLE })
  else pure bb

/-- the solved case after the first pruning test (ecos_bb.c:918-1050) -/
def boundsSolved (env : Env F W I) (fuel : Nat) (bb : St F W I) (node : Nat) (L : F) :
    M (St F W I) := do
  let bb ← setNode bb node (fun nd => { nd with relaxation := L })
  let bb ← pseudoUpdate bb node
  let r ← roundAll bb
  let t ← (if r.2 then takeIntegral r.1 node else tryRounded env fuel r.1 node)
  let bb ← updIncumbent t.1 node
  closeNode bb node t.2

/-- codes treated as "solved" (ecos_bb.c:906-909) -/
def accepted (code : Int) : Bool := code = 0 || code = 10 || code = -1 || code = -2

/-- `get_bounds` (ecos_bb.c:889-1064) -/
def getBounds (env : Env F W I) (fuel : Nat) (node : Nat) (bb : St F W I) : M (St F W I) := do
  let bb ← setProb bb bb.boolIds (bb.nb * node) bb.intIds (bb.ni * node * 2)
  let r ← callSolve env bb
  if accepted r.2 then do
    let L ← cost r.1
    let bb ← setNode r.1 node (fun nd => { nd with L := L })
    if lt bb.globalU L then
      setNode bb node (fun nd => { nd with status := MI_SOLVED_NON_BRANCHABLE })
    else boundsSolved env fuel bb node L
  else
    setNode r.1 node (fun nd => { nd with L := INF, U := INF, status := MI_SOLVED_NON_BRANCHABLE })

/-! ### The search, ecos_bb/ecos_bb.c:1066-1183 -/

/-- `should_continue` (ecos_bb.c:1066-1069) -/
def shouldContinue (bb : St F W I) (cur : Int) : Bool :=
  lt bb.stgs.absTol (bb.globalU - bb.globalL) &&
  lt bb.stgs.relTol (abs2 (bb.globalU / bb.globalL - 1)) &&
  decide (cur ≥ 0) && decide ((bb.iter : Int) < (bb.stgs.maxit : Int) - 1)

/-- `get_ret_code` (ecos_bb.c:1071-1105) -/
def getRetCode (bb : St F W I) : Int :=
  if (bb.iter : Int) < (bb.stgs.maxit : Int) - 1 then
    if PFloat.isInf bb.globalU then
      if le (0 : F) bb.globalU then 1 else 2
    else 0
  else
    if PFloat.isInf bb.globalU then
      if le (0 : F) bb.globalU then 11 else 12
    else 10

/-- root bounds of one integer variable (ecos_bb.c:1119-1122) -/
def rootIntStep (i : Nat) (b : Buf F) : M (Buf F) := do
  let b ← wr b (2 * i) ((MAX_FLOAT_INT : Int) : F)
  wr b (2 * i + 1) ((MAX_FLOAT_INT : Int) : F)

/-- `initialize_root` (ecos_bb.c:1107-1123) -/
def initRoot (bb : St F W I) : M (St F W I) := do
  let bb ← setNode bb 0 (fun nd =>
    { nd with status := MI_NOT_SOLVED, L := -INF, U := INF, prevSplitIdx := -1 })
  let bb := { bb with globalL := -INF, globalU := INF }
  let b ← loop 0 bb.nb bb.boolIds (fun i b => wr b i MI_STAR)
  let ii ← loop 0 bb.ni bb.intIds rootIntStep
  pure { bb with boolIds := b, intIds := ii }

/-- one pass of the main loop (ecos_bb.c:1153-1171) -/
def searchStep (env : Env F W I) (fuel : Nat) (cur : Int) (bb : St F W I) :
    M (St F W I × Int) := do
  let bb := { bb with iter := bb.iter + 1 }
  let bb ← branch cur.toNat bb
  let bb ← getBounds env fuel cur.toNat bb
  let bb ← getBounds env fuel bb.iter bb
  let gl ← getGlobalL bb
  getNextNode { bb with globalL := gl }

/-- the main `while` loop (ecos_bb.c:1144-1172).  `k` is fuel; `cur ≥ 0` inside the loop by
`shouldContinue`. -/
def search (env : Env F W I) (fuel : Nat) : Nat → Int → St F W I → M (St F W I)
  | 0, cur, bb => if shouldContinue bb cur then .error .fuel else pure bb
  | k + 1, cur, bb =>
    if shouldContinue bb cur then do
      let r ← searchStep env fuel cur bb
      search env fuel k r.2 r.1
    else pure bb

/-- `ECOS_BB_solve` (ecos_bb.c:1125-1183); `fuel` bounds the endless loop of random branching -/
def bbSolve (env : Env F W I) (fuel : Nat) (bb : St F W I) : M (St F W I × Int) := do
  let bb ← initRoot { bb with iter := 0, dive := 0 }
  let bb ← getBounds env fuel 0 bb
  let nd ← rd bb.nodes 0
  let bb := { bb with globalL := nd.L, globalU := nd.U }
  let bb ← search env fuel bb.stgs.maxit 0 bb
  let bb ← loadSolution bb
  pure (bb, getRetCode bb)

end generic
end BB
end Ecos
