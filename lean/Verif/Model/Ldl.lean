import Verif.Model.Base

/-!
# Sparse LDL factorisation (external/ldl/src/ldl.c)

`Parent[i] == -1` is kept as an `Int`.  The `for (; Flag[i] != k; i = Parent[i])` walks take fuel;
a walk that runs into `i = -1` reads `Flag[-1]`, which is out of bounds.
-/
namespace Ecos

section generic
variable {F : Type} [Zero F] [One F] [Add F] [Sub F] [Mul F] [Div F] [Neg F] [OfScientific F]
  [IntCast F] [PFloat F]

/-- arrays written by `LDL_symbolic2` -/
structure Sym where
  parent : Buf Int
  lnz : Buf Nat
  flag : Buf Nat

/-- `for ( ; Flag[i] != k ; i = Parent[i])` of `LDL_symbolic2` (ldl.c:227-232) -/
def symWalk (k : Nat) : Nat → Int → Sym → M Sym
  | 0, _, _ => .error .fuel
  | fuel + 1, i, S => do
    let f ← rdI S.flag i
    if f = k then pure S
    else do
      let pa ← rdI S.parent i
      let parent ← (if pa = -1 then wrI S.parent i (k : Int) else pure S.parent)
      let c ← rdI S.lnz i
      let lnz ← wrI S.lnz i (c + 1)
      let flag ← wrI S.flag i k
      let nx ← rdI parent i
      symWalk k fuel nx { parent := parent, lnz := lnz, flag := flag }

/-- one pass of the outer loop of `LDL_symbolic2` (ldl.c:216-234) -/
def symStep (n : Nat) (Ap Ai : Buf Nat) (k : Nat) (S : Sym) : M Sym := do
  let parent ← wr S.parent k (-1)
  let flag ← wr S.flag k k
  let lnz ← wr S.lnz k 0
  let p2 ← rd Ap (k + 1)
  let p1 ← rd Ap k
  loop p1 p2 { parent := parent, lnz := lnz, flag := flag } fun p S => do
    let i ← rd Ai p
    symWalk k (n + 1) (i : Int) S

/-- `LDL_symbolic2` (ldl.c:203-241): returns `Lp` and the other arrays -/
def ldlSymbolic (n : Nat) (Ap Ai Lp : Buf Nat) (S : Sym) : M (Buf Nat × Sym) := do
  let S ← loop 0 n S (symStep n Ap Ai)
  let Lp ← wr Lp 0 0
  let Lp ← loop 0 n Lp fun k Lp => do
    let a ← rd Lp k
    let b ← rd S.lnz k
    wr Lp (k + 1) (a + b)
  pure (Lp, S)

/-- arrays written by `LDL_numeric2` -/
structure Num (F : Type) where
  lnz : Buf Nat
  li : Buf Nat
  lx : Buf F
  d : Buf F
  y : Buf F
  pattern : Buf Nat
  flag : Buf Nat

/-- `for (len = 0 ; Flag[i] != k ; i = Parent[i])` of `LDL_numeric2` (ldl.c:312-315) -/
def numWalk (k : Nat) (parent : Buf Int) : Nat → Int → Nat → Buf Nat × Buf Nat →
    M (Nat × Buf Nat × Buf Nat)
  | 0, _, _, _ => .error .fuel
  | fuel + 1, i, len, t => do
    let f ← rdI t.2 i
    if f = k then pure (len, t)
    else do
      let pattern ← wr t.1 len i.toNat
      let flag ← wrI t.2 i k
      let nx ← rdI parent i
      numWalk k parent fuel nx (len + 1) (pattern, flag)

/-- `while (len > 0) Pattern[--top] = Pattern[--len]` (ldl.c:316); a negative `top` is out of
bounds -/
def stackMove : Nat → Nat → Buf Nat → M (Nat × Buf Nat)
  | 0, top, pattern => pure (top, pattern)
  | len + 1, top, pattern =>
    if top = 0 then .error .oob
    else do
      let v ← rd pattern len
      let pattern ← wr pattern (top - 1) v
      stackMove len (top - 1) pattern

/-- pattern and right-hand side of row `k` (ldl.c:304-317); returns `top` -/
def numScatter (n : Nat) (Ap Ai : Buf Nat) (Ax : Buf F) (parent : Buf Int) (k : Nat) (S : Num F) :
    M (Nat × Num F) := do
  let y ← wr S.y k 0
  let flag ← wr S.flag k k
  let lnz ← wr S.lnz k 0
  let p2 ← rd Ap (k + 1)
  let p1 ← rd Ap k
  loop p1 p2 (n, { S with y := y, flag := flag, lnz := lnz }) fun p t => do
    let i ← rd Ai p
    let v ← rd Ax p
    let y ← wr t.2.y i v
    let w ← numWalk k parent (n + 1) (i : Int) 0 (t.2.pattern, t.2.flag)
    let r ← stackMove w.1 t.1 w.2.1
    pure (r.1, { t.2 with y := y, pattern := r.2, flag := w.2.2 })

/-- one column of the sparse triangular solve of row `k` (ldl.c:326-338) -/
def numElim (Lp : Buf Nat) (k t : Nat) (S : Num F) : M (Num F) := do
  let i ← rd S.pattern t
  let yi ← rd S.y i
  let y ← wr S.y i 0
  let a ← rd Lp i
  let b ← rd S.lnz i
  let y ← loop a (a + b) y fun p y => do
    let r ← rd S.li p
    let yv ← rd y r
    let l ← rd S.lx p
    wr y r (yv - l * yi)
  let di ← rd S.d i
  let l_ki := yi / di
  let dk ← rd S.d k
  let d ← wr S.d k (dk - l_ki * yi)
  let li ← wr S.li (a + b) k
  let lx ← wr S.lx (a + b) l_ki
  let lnz ← wr S.lnz i (b + 1)
  pure { S with y := y, d := d, li := li, lx := lx, lnz := lnz }

/-- `Sign[k]*D[k] <= eps ? Sign[k]*delta : D[k]` (ldl.c:341) -/
def dynReg (sign : Int) (eps delta d : F) : F :=
  if le ((sign : F) * d) eps then (sign : F) * delta else d

/-- one pass of the outer loop of `LDL_numeric2` (ldl.c:298-353) -/
def numStep (n : Nat) (Ap Ai : Buf Nat) (Ax : Buf F) (Lp : Buf Nat) (parent : Buf Int)
    (sign : Buf Int) (eps delta : F) (k : Nat) (S : Num F) : M (Num F) := do
  let t ← numScatter n Ap Ai Ax parent k S
  let yk ← rd t.2.y k
  let d ← wr t.2.d k yk
  let y ← wr t.2.y k 0
  let S ← loop t.1 n { t.2 with d := d, y := y } fun top S => numElim Lp k top S
  let sg ← rd sign k
  let dk ← rd S.d k
  let d ← wr S.d k (dynReg sg eps delta dk)
  pure { S with d := d }

/-- `LDL_numeric2` (ldl.c:266-355): returns the arrays and the return value -/
def ldlNumeric (n : Nat) (Ap Ai : Buf Nat) (Ax : Buf F) (Lp : Buf Nat) (parent : Buf Int)
    (sign : Buf Int) (eps delta : F) (S : Num F) : M (Num F × Nat) := do
  let S ← loop 0 n S (numStep n Ap Ai Ax Lp parent sign eps delta)
  pure (S, n)

/-- `LDL_lsolve2` (ldl.c:384-402): solve `Lx = b` -/
def ldlLsolve2 (n : Nat) (b : Buf F) (Lp Li : Buf Nat) (Lx : Buf F) (x : Buf F) : M (Buf F) := do
  let x ← fill x 0 n fun j => rd b j
  loop 0 n x fun j x => do
    let p2 ← rd Lp (j + 1)
    let p1 ← rd Lp j
    loop p1 p2 x fun p x => do
      let r ← rd Li p
      let xr ← rd x r
      let l ← rd Lx p
      let xj ← rd x j
      wr x r (xr - l * xj)

/-- `LDL_dsolve` (ldl.c:409-418): solve `Dx = b` in place -/
def ldlDsolve (n : Nat) (x d : Buf F) : M (Buf F) :=
  modify x 0 n fun j v => do
    let dj ← rd d j
    pure (v / dj)

/-- `LDL_ltsolve` (ldl.c:425-441): solve `L'x = b` in place, columns from the last to the first -/
def ldlLtsolve (n : Nat) (x : Buf F) (Lp Li : Buf Nat) (Lx : Buf F) : M (Buf F) :=
  loop 0 n x fun t x => do
    let j := n - 1 - t
    let p2 ← rd Lp (j + 1)
    let p1 ← rd Lp j
    loop p1 p2 x fun p x => do
      let xj ← rd x j
      let l ← rd Lx p
      let r ← rd Li p
      let xr ← rd x r
      wr x j (xj - l * xr)

end generic
end Ecos
