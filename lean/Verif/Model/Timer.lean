import Verif.Model.Ecos

/-!
# Timers (timer.c, POSIX variant) and the times `ECOS_solve` reports

`clock_gettime` is a parameter: the theorems speak about every pair of readings. `time_t` and `long` have 64 bits; an operation that leaves their range is
undefined in C and ends in `castRange` here.
-/
namespace Ecos
namespace Timer

/-- `struct timespec` -/
structure Timespec where
  sec : Int
  nsec : Int
  deriving DecidableEq, Repr

/-- the result of an operation on 64-bit signed integers -/
def i64 (v : Int) : M Int := if -9223372036854775808 ≤ v ∧ v ≤ 9223372036854775807 then pure v else .error .castRange

/-- the difference in `toc` (timer.c:94-100) -/
def elapsed (t0 t1 : Timespec) : M Timespec := do
  let d ← i64 (t1.nsec - t0.nsec)
  if d < 0 then do
    let s ← i64 (t1.sec - t0.sec)
    let s ← i64 (s - 1)
    let k ← i64 (1000000000 + t1.nsec)
    let k ← i64 (k - t0.nsec)
    pure ⟨s, k⟩
  else do
    let s ← i64 (t1.sec - t0.sec)
    let k ← i64 (t1.nsec - t0.nsec)
    pure ⟨s, k⟩

section generic
variable {F : Type} [Zero F] [One F] [Add F] [Sub F] [Mul F] [Div F] [Neg F] [OfScientific F] [IntCast F] [PFloat F]

/-- `toc` (timer.c:88-102): `t0` is what `tic` (:81-84) read, `t1` what `toc` reads -/
def toc (t0 t1 : Timespec) : M F := do
  let t ← elapsed t0 t1
  pure (((t.sec : Int) : F) + ((t.nsec : Int) : F) / ((1000000000 : Int) : F))

/-- `ECOS_solve` (ecos.c:1075-1616, as `ecosSolve`) with its timer: `t0` read at :1104, `t1` at :1602. `tsolve` is the field of that name in `*info`,
`none` while nothing was written to it: `ECOS_setup` allocates `*info` with `malloc` and writes `tsetup` only (preproc.c:738-744, :1026). -/
def ecosSolveTimed [HasInf F] (arrives : Nat → Bool) (t0 t1 : Timespec) (tsolve : Option F) (w : Work F) (sig : Sig) :
    M ((Work F × Sig × Int) × Option F) := do
  let c ← divBy w.c w.xequil w.n
  let w := { w with c := c }
  let sig := initCtrlc sig
  let o ← initSolver w
  if o.2 = false then pure ((o.1, sig, FATAL), tsolve)
  else do
    let e ← mainLoop arrives o.1 sig
    let r ← finish e
    if e.early then pure (r, tsolve)
    else do
      let t ← toc t0 t1
      pure (r, some t)

end generic
end Timer
end Ecos
