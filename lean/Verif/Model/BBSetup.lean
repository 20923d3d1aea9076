import Verif.Model.BB

/-!
# Set-up of the mixed-integer solver (ecos_bb/ecos_bb_preproc.c)

The augmentation of `G` and `h` by two bound rows per declared variable.  The allocation sizes are those
of `ECOS_BB_setup` (ecos_bb_preproc.c:236-241).
-/
namespace Ecos
namespace BB

section generic
variable {F : Type} [Zero F] [One F] [Add F] [Sub F] [Mul F] [Div F] [Neg F] [OfScientific F]
  [IntCast F] [PFloat F]

/-- `contains` (ecos_bb_preproc.c:46-55): how often `idx` occurs in the list -/
def contains (idx num : Nat) (vars : Buf Nat) : M Nat :=
  loop 0 num 0 fun i ans => do
    let v ← rd vars i
    pure (ans + if v = idx then 1 else 0)

/-- the arrays written by `socp_to_ecos_bb` and its counter `j` -/
structure Aug (F : Type) where
  pr : Buf F
  jc : Buf Nat
  ir : Buf Nat
  h : Buf F
  j : Nat

/-- the user's matrix and right-hand side and the declared variables -/
structure AugIn (F : Type) where
  nb : Nat
  bools : Buf Nat
  ni : Nat
  ints : Buf Nat
  n : Nat
  m : Nat
  gpr : Buf F
  gjc : Buf Nat
  gir : Buf Nat
  h : Buf F

/-- copy of entry `k` of column `i` behind `off` new entries (ecos_bb_preproc.c:101-105, 135-139, 145-149) -/
def augCopy (I : AugIn F) (i off k : Nat) (t : Aug F) : M (Aug F) := do
  let o ← rd t.jc i
  let s ← rd I.gjc i
  let v ← rd I.gpr (s + k)
  let pr ← wr t.pr (o + off + k) v
  let r ← rd I.gir (s + k)
  let ir ← wr t.ir (o + off + k) (r + 2 * I.nb + 2 * I.ni)
  pure { t with pr := pr, ir := ir }

/-- the whole column (ecos_bb_preproc.c:101-105) -/
def augCol (I : AugIn F) (i off : Nat) (t : Aug F) : M (Aug F) := do
  let e ← rd I.gjc (i + 1)
  let s ← rd I.gjc i
  loop 0 (e - s) t (augCopy I i off)

/-- the two new entries of a declared variable, its two right-hand sides, the shift of the following
column pointers and the copied column (ecos_bb_preproc.c:81-107 with `lo,hi = 0,1`; 111-141 with
`lo,hi = MAX_FLOAT_INT`) -/
def augBound (I : AugIn F) (i : Nat) (lo hi : F) (t : Aug F) : M (Aug F) := do
  let o ← rd t.jc i
  let pr ← wr t.pr o (-1)
  let pr ← wr pr (o + 1) 1
  let ir ← wr t.ir o (2 * t.j)
  let ir ← wr ir (o + 1) (2 * t.j + 1)
  let h ← wr t.h (2 * t.j) lo
  let h ← wr h (2 * t.j + 1) hi
  let jc ← loop (i + 1) (I.n + 1) t.jc fun k jc => do
    let v ← rd jc k
    wr jc k (v + 2)
  let t ← augCol I i 2 { t with pr := pr, ir := ir, h := h, jc := jc }
  pure { t with j := t.j + 1 }

/-- one pass of the loop over the columns (ecos_bb_preproc.c:77-151) -/
def augStep (I : AugIn F) (i : Nat) (t : Aug F) : M (Aug F) := do
  let b ← contains i I.nb I.bools
  if b ≠ 0 then augBound I i 0 1 t
  else do
    let c ← contains i I.ni I.ints
    if c ≠ 0 then augBound I i ((MAX_FLOAT_INT : Int) : F) ((MAX_FLOAT_INT : Int) : F) t
    else augCol I i 0 t

/-- `socp_to_ecos_bb` (ecos_bb_preproc.c:61-153) on the arrays allocated in `ECOS_BB_setup`
(ecos_bb_preproc.c:236-241) -/
def socpToBB (I : AugIn F) : M (Aug F) := do
  let nnz ← rd I.gjc I.n
  let N := nnz + 2 * I.nb + 2 * I.ni
  let jc ← loop 0 (I.n + 1) (malloc (I.n + 1)) fun i jc => do
    let v ← rd I.gjc i
    wr jc i v
  let t ← loop 0 I.n ⟨malloc N, jc, malloc N, malloc (I.m + 2 * I.nb + 2 * I.ni), 0⟩ (augStep I)
  let h ← loop 0 I.m t.h fun i h => do
    let v ← rd I.h i
    wr h (2 * (I.nb + I.ni) + i) v
  pure { t with h := h }

end generic
end BB
end Ecos
