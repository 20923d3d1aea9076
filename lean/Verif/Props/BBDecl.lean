import Verif.Props.BBRun

/-!
# C38: declarations that the set-up does not check
-/
namespace Ecos
namespace BB
namespace Decls

open Ecos.Run

/-- `min x + y` subject to `x, y ≥ 1/2`, with the given declarations -/
def args (bools ints : List Nat) : BBArgs Fx :=
  { n := 2, m := 2, p := 0, l := 2, ncones := 0, q := bl [], nexc := 0, gpr := bl [-1, -1], gjc := bl [0, 1, 2], gir := bl [0, 1],
    A3 := ⟨none, none, none⟩, c := bl [1, 1], h := bl [-0.5, -0.5], b := bl [], nb := bools.length, bools := bl bools, ni := ints.length,
    ints := bl ints, stgs := { bbDefault with strategy := 0 } }

/-- how the set-up ends -/
def ends (bools ints : List Nat) : Option UB :=
  match bbSetup natural (args bools ints) sg with
  | .ok _ => none
  | .error e => some e

end Decls

/-- C38 asks for distinct declared variables inside the problem, and nothing checks this: if a variable is declared twice, boolean and integer, or has an
index beyond the last one, the set-up reads right-hand sides of bound rows that nothing has written. -/
theorem C38_unchecked_violated : Decls.ends [0] [1] = none ∧ Decls.ends [0, 1] [] = none ∧ Decls.ends [] [0] = none ∧
    Decls.ends [0, 0] [] = some .uninit ∧ Decls.ends [] [1, 1] = some .uninit ∧ Decls.ends [0] [0] = some .uninit ∧
    Decls.ends [2] [] = some .uninit ∧ Decls.ends [0] [7] = some .uninit := by
  decide +kernel

end BB
end Ecos
