/-!
# Allocation and deallocation in set-up and cleanup

Which blocks `ECOS_setup`, `ECOS_cleanup`, `ECOS_BB_setup` and `ECOS_BB_cleanup` allocate and free, in
which order and under which conditions.  A program is a list of events; every event carries the
condition under which the source executes it.

Simplifications: `malloc` always succeeds and also returns a block for size 0; AMD allocates and frees
its own memory; a local variable and the struct field it is assigned to (`P`, `Ljc`, `Lir`, `Lpr`,
`Kjc`, ..) are one pointer.
-/
namespace Ecos.Ledger

/-- fields of `pwork` (include/ecos.h:213-303) that hold pointers to allocated blocks; `self` is the
struct -/
inductive WF where
  | self | x | y | z | s | lambda | dsaffByW | dsaff | dzaff | saff | zaff | wTimesDzaff
  | bestX | bestY | bestZ | bestS | bestInfo | C | info | xequil | Aequil | Gequil | stgs | A | G
  | AtoK | GtoK | KKT | rx | ry | rz
  deriving DecidableEq, Repr

/-- pointers below `w->C` -/
inductive CF where
  | lpc | lpcW | lpcV | lpcIdx | soc | expc
  deriving DecidableEq, Repr

/-- pointers in a second-order cone -/
inductive SF where
  | q | skbar | zkbar | Didx
  deriving DecidableEq, Repr

/-- pointers in `w->KKT` other than the two matrices -/
inductive KF where
  | D | Parent | Pinv | work1 | work2 | work3 | work4 | work5 | work6 | Flag | Pattern | Lnz | RHS1 | RHS2
  | dx1 | dx2 | dy1 | dy2 | dz1 | dz2 | Sign | PK | P
  deriving DecidableEq, Repr

/-- sparse matrices whose arrays are allocated by the solver -/
inductive Mat where
  | At | Gt | KU | PKPt | L
  deriving DecidableEq, Repr

inductive MF where
  | self | jc | ir | pr
  deriving DecidableEq, Repr

/-- local variables of set-up and of the functions it calls -/
inductive Tmp where
  | xtmp | Atmp | Gtmp | AtoAt | GtoGt | AttoK | GttoK | Sign | wTransA | wTransG | wPerm1 | wPerm2
  deriving DecidableEq, Repr

/-- pointers in `ecos_bb_pwork` (include/ecos_bb.h) -/
inductive BF where
  | self | stgs | GprNew | GjcNew | GirNew | hNew | nodes | boolNodeIds | intNodeIds | tmpBool | tmpInt
  | tmpBrBool | tmpBrInt | binCnt | binSum | intCnt | intSum | x | y | z | s | info
  deriving DecidableEq, Repr

/-- a pointer variable -/
inductive Var where
  | w (f : WF)
  | cone (f : CF)
  | soc (i : Nat) (f : SF)
  | kkt (f : KF)
  | mat (M : Mat) (f : MF)
  | tmp (t : Tmp)
  | bb (f : BF)
  deriving DecidableEq, Repr

inductive Op where
  | alloc
  | null
  | free
  deriving DecidableEq, Repr

/-- what the conditions in the source ask for -/
inductive Atom where
  | lPos | socPos | excPos | hasA | nPos | pPos | mPos | nnzA | nnzG
  | keepLt1 | keepLt2 | keepLt3 | keepLt4 | ownStgs
  deriving DecidableEq, Repr

/-- `var = malloc(..)`, `var = NULL` or `free(var)`, executed if all atoms of `cond` have the given
value; `via` are the structs that are dereferenced to reach `var` -/
structure Ev where
  cond : List (Atom × Bool)
  op : Op
  var : Var
  via : List Var
  deriving DecidableEq, Repr

/-- the structs on the way to a variable -/
def chain : Var → List Var
  | .w .self => []
  | .w _ => [.w .self]
  | .cone .lpc | .cone .soc | .cone .expc => [.w .self, .w .C]
  | .cone _ => [.w .self, .w .C, .cone .lpc]
  | .soc _ _ => [.w .self, .w .C, .cone .soc]
  | .kkt _ => [.w .self, .w .KKT]
  | .mat .PKPt .self | .mat .L .self => [.w .self, .w .KKT]
  | .mat .PKPt _ => [.w .self, .w .KKT, .mat .PKPt .self]
  | .mat .L _ => [.w .self, .w .KKT, .mat .L .self]
  | .mat _ .self => []
  | .mat M _ => [.mat M .self]
  | .tmp _ => []
  | .bb .self => []
  | .bb _ => [.bb .self]

def al (v : Var) : Ev := ⟨[], .alloc, v, chain v⟩
def fr (v : Var) : Ev := ⟨[], .free, v, chain v⟩
/-- a block that is allocated before the struct that will hold it -/
def al0 (v : Var) : Ev := ⟨[], .alloc, v, []⟩
/-- `if (a) ..` -/
def ifSo (a : Atom) (l : List Ev) : List Ev := l.map fun e => { e with cond := (a, true) :: e.cond }
/-- `if (!a) ..` -/
def ifNot (a : Atom) (l : List Ev) : List Ev := l.map fun e => { e with cond := (a, false) :: e.cond }
def nul (v : Var) : Ev := ⟨[], .null, v, chain v⟩

/-- `newSparseMatrix` (splamm.c:100-107), `ecoscreateSparseMatrix` (splamm.c:113-124) -/
def newMat (M : Mat) : List Ev :=
  [al0 (.mat M .jc), al0 (.mat M .ir), al0 (.mat M .pr), al (.mat M .self)]

/-- `freeSparseMatrix` (splamm.c:130-136); the arrays are never null here -/
def freeMat (M : Mat) : List Ev :=
  [fr (.mat M .ir), fr (.mat M .jc), fr (.mat M .pr), fr (.mat M .self)]

/-- `transposeSparseMatrix` (splamm.c:65-94): returns before allocating `w` if there are no entries -/
def transpose (M : Mat) (wv : Tmp) (nnz : Atom) : List Ev :=
  newMat M ++ ifSo nnz [al (.tmp wv), fr (.tmp wv)]

/-- `permuteSparseSymmetricMatrix` (splamm.c:153-191) -/
def permute (wv : Tmp) : List Ev := [al (.tmp wv), fr (.tmp wv)]

/-- `use_ruiz_equilibration` (equil.c:216-218 and the end of the function) -/
def equil : List Ev :=
  [al (.tmp .xtmp), al (.tmp .Atmp), al (.tmp .Gtmp), fr (.tmp .xtmp), fr (.tmp .Atmp), fr (.tmp .Gtmp)]

/-- `ECOS_setup` up to the second-order cones (preproc.c:618-685) -/
def setup1 : List Ev :=
  ([.self, .x, .y, .z, .s, .lambda, .dsaffByW, .dsaff, .dzaff, .saff, .zaff, .wTimesDzaff, .bestX, .bestY,
    .bestZ, .bestS, .bestInfo, .C].map fun f => al (.w f)) ++
  [al (.cone .lpc)] ++
  ifSo .lPos [al (.cone .lpcW), al (.cone .lpcV), al (.cone .lpcIdx)] ++
  ifNot .lPos [nul (.cone .lpcW), nul (.cone .lpcV), nul (.cone .lpcIdx)] ++
  ifSo .socPos [al (.cone .soc)] ++ ifNot .socPos [nul (.cone .soc)]

/-- one second-order cone (preproc.c:693-697) -/
def setupSoc (i : Nat) : List Ev := [al (.soc i .q), al (.soc i .skbar), al (.soc i .zkbar), al (.soc i .Didx)]

/-- the exponential cones (preproc.c:711), just before the test of the dimensions -/
def setup2 : List Ev := ifSo .excPos [al (.cone .expc)] ++ ifNot .excPos [nul (.cone .expc)]

/-- from there up to the call of AMD (preproc.c:738-921) -/
def setup3 : List Ev :=
  [al (.w .info), al (.w .xequil), al (.w .Aequil), al (.w .Gequil), al (.w .stgs)] ++
  ifSo .hasA [al (.w .A)] ++ ifNot .hasA [nul (.w .A)] ++ [al (.w .G)] ++
  equil ++
  ifSo .hasA (al (.tmp .AtoAt) :: transpose .At .wTransA .nnzA) ++ ifNot .hasA [nul (.tmp .AtoAt)] ++
  (al (.tmp .GtoGt) :: transpose .Gt .wTransG .nnzG) ++
  ifSo .hasA [al (.tmp .AttoK)] ++ ifNot .hasA [nul (.tmp .AttoK)] ++
  [al (.tmp .GttoK)] ++
  -- createKKT_U (preproc.c:132-137, :430)
  [al0 (.mat .KU .pr), al0 (.mat .KU .ir), al0 (.mat .KU .jc), al (.tmp .Sign), al (.mat .KU .self)] ++
  ifSo .hasA [al (.w .AtoK)] ++ ifNot .hasA [nul (.w .AtoK)] ++ [al (.w .GtoK), al (.w .KKT)] ++
  ([.D, .Parent, .Pinv, .work1, .work2, .work3, .work4, .work5, .work6, .Flag, .Pattern, .Lnz, .RHS1, .RHS2,
    .dx1, .dx2, .dy1, .dy2, .dz1, .dz2, .Sign].map fun f => al (.kkt f)) ++
  newMat .PKPt ++ [al (.kkt .PK), al (.kkt .P)]

/-- the rest (preproc.c:945-1029) -/
def setup4 : List Ev :=
  permute .wPerm1 ++
  [al0 (.mat .L .jc), al0 (.mat .L .ir), al0 (.mat .L .pr), al (.mat .L .self)] ++
  permute .wPerm2 ++
  ifSo .nPos [al (.w .rx)] ++ ifNot .nPos [nul (.w .rx)] ++
  ifSo .pPos [al (.w .ry)] ++ ifNot .pPos [nul (.w .ry)] ++
  ifSo .mPos [al (.w .rz)] ++ ifNot .mPos [nul (.w .rz)] ++
  [fr (.tmp .Sign)] ++ ifSo .hasA (freeMat .At ++ [fr (.tmp .AtoAt), fr (.tmp .AttoK)]) ++
  freeMat .Gt ++ freeMat .KU ++ [fr (.tmp .GtoGt), fr (.tmp .GttoK)]

/-- `ECOS_cleanup` up to the second-order cones (preproc.c:456-494) -/
def cleanup1 : List Ev :=
  ([.D, .dx1, .dx2, .dy1, .dy2, .dz1, .dz2, .Flag].map fun f => fr (.kkt f)) ++ freeMat .L ++
  ([.Lnz, .Parent, .Pattern, .Sign, .Pinv, .P, .PK].map fun f => fr (.kkt f)) ++ freeMat .PKPt ++
  ([.RHS1, .RHS2, .work1, .work2, .work3, .work4, .work5, .work6].map fun f => fr (.kkt f)) ++
  [fr (.w .KKT)] ++ ifSo .hasA [fr (.w .AtoK)] ++ [fr (.w .GtoK)] ++
  ifSo .lPos [fr (.cone .lpcIdx), fr (.cone .lpcV), fr (.cone .lpcW)] ++ [fr (.cone .lpc)]

/-- one second-order cone (preproc.c:497-501) -/
def cleanupSoc (i : Nat) : List Ev :=
  [fr (.soc i .q), fr (.soc i .skbar), fr (.soc i .zkbar), fr (.soc i .Didx)]

/-- the rest of `ECOS_cleanup` (preproc.c:507-546) -/
def cleanup2 : List Ev :=
  ifSo .socPos [fr (.cone .soc)] ++ ifSo .excPos [fr (.cone .expc)] ++ [fr (.w .C)] ++
  ([.wTimesDzaff, .dsaffByW, .dzaff, .dsaff, .zaff, .saff, .info, .bestInfo, .lambda, .rx, .ry, .rz, .stgs,
    .G].map fun f => fr (.w f)) ++
  ifSo .hasA [fr (.w .A)] ++
  ([.bestZ, .bestS, .bestY, .bestX].map fun f => fr (.w f)) ++
  ifSo .keepLt4 [fr (.w .z)] ++ ifSo .keepLt3 [fr (.w .s)] ++ ifSo .keepLt2 [fr (.w .y)] ++
  ifSo .keepLt1 [fr (.w .x)] ++
  [fr (.w .xequil), fr (.w .Aequil), fr (.w .Gequil), fr (.w .self)]

/-- up to the test of the dimensions, `ncones` second-order cones -/
def setupDims (ncones : Nat) : List Ev := setup1 ++ (List.range ncones).flatMap setupSoc ++ setup2
/-- up to the call of AMD -/
def setupAmd (ncones : Nat) : List Ev := setupDims ncones ++ setup3
/-- a set-up that succeeds -/
def setup (ncones : Nat) : List Ev := setupAmd ncones ++ setup4
/-- `ECOS_cleanup` -/
def cleanup (ncones : Nat) : List Ev := cleanup1 ++ (List.range ncones).flatMap cleanupSoc ++ cleanup2

/-- `ECOS_BB_setup` before the call of `ECOS_setup` (ecos_bb_preproc.c:217-276); `ownStgs`: the caller
passed no settings -/
def bbSetup1 : List Ev :=
  [al (.bb .self)] ++ ifSo .ownStgs [al (.bb .stgs)] ++
  ([.GprNew, .GjcNew, .GirNew, .hNew, .nodes, .boolNodeIds, .intNodeIds, .tmpBool, .tmpInt, .tmpBrBool,
    .tmpBrInt, .binCnt, .binSum, .intCnt, .intSum, .x, .y, .z, .s, .info].map fun f => al (.bb f))

/-- `ECOS_BB_cleanup` after the call of `ECOS_cleanup` (ecos_bb_preproc.c:331-355) -/
def bbCleanup2 : List Ev :=
  ([.tmpBool, .tmpInt, .tmpBrBool, .tmpBrInt, .GprNew, .GjcNew, .GirNew, .hNew, .nodes, .boolNodeIds,
    .intNodeIds, .x, .y, .z, .s, .info, .binCnt, .binSum, .intCnt, .intSum].map fun f => fr (.bb f)) ++
  ifSo .ownStgs [fr (.bb .stgs)] ++ [fr (.bb .self)]

def bbSetup (ncones : Nat) : List Ev := bbSetup1 ++ setup ncones
def bbCleanup (ncones : Nat) : List Ev := cleanup ncones ++ bbCleanup2

/-! ### Execution -/

/-- what a pointer variable holds -/
inductive PS where
  | unset
  | null
  | live
  | freed
  deriving DecidableEq, Repr

abbrev Heap := Var → PS

def set (s : Heap) (v : Var) (x : PS) : Heap := fun u => if u = v then x else s u

/-- one event; `none` is an error: a struct on the way is not allocated, a block is lost by overwriting
its only pointer, an unset pointer or a block already freed is freed -/
def step (s : Heap) (e : Ev) : Option Heap :=
  if e.via.all fun u => s u = .live then
    match e.op, s e.var with
    | .alloc, .live => none
    | .alloc, _ => some (set s e.var .live)
    | .null, .live => none
    | .null, _ => some (set s e.var .null)
    | .free, .unset => none
    | .free, .null => some s
    | .free, .live => some (set s e.var .freed)
    | .free, .freed => none
  else none

def run : List Ev → Heap → Option Heap
  | [], s => some s
  | e :: l, s => (step s e).bind (run l)

/-- the shape of a call, as far as allocation depends on it -/
structure Shape where
  n : Nat
  m : Nat
  p : Nat
  l : Nat
  ncones : Nat
  nexc : Nat
  /-- all three pointers of `A` are given -/
  hasA : Bool
  nnzA : Nat
  nnzG : Nat
  /-- second argument of the cleanup -/
  keepvars : Int
  /-- `ECOS_BB_setup` was called without settings -/
  ownStgs : Bool

def Shape.val (S : Shape) : Atom → Bool
  | .lPos => 0 < S.l
  | .socPos => 0 < S.ncones
  | .excPos => 0 < S.nexc
  | .hasA => S.hasA
  | .nPos => 0 < S.n
  | .pPos => 0 < S.p
  | .mPos => 0 < S.m
  | .nnzA => 0 < S.nnzA
  | .nnzG => 0 < S.nnzG
  | .keepLt1 => S.keepvars < 1
  | .keepLt2 => S.keepvars < 2
  | .keepLt3 => S.keepvars < 3
  | .keepLt4 => S.keepvars < 4
  | .ownStgs => S.ownStgs

/-- is the event executed? -/
def active (σ : Atom → Bool) (e : Ev) : Bool := e.cond.all fun c => σ c.1 == c.2

/-- execute the events whose conditions hold, from a heap on which the solver has nothing -/
def exec (S : Shape) (prog : List Ev) : Option Heap :=
  run (prog.filter (active S.val)) fun _ => .unset

end Ecos.Ledger
