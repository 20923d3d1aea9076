import Verif.Core.Fx
import Verif.Model.Preproc
import Verif.Props.Driver

/-!
# Complete runs of set-up and solve, evaluated by the kernel

The number type is `Fx` (fixed point with 80 fractional bits, infinities and NaN), which makes whole
solves computable.  Everything here is about single concrete runs: they show that the hypotheses of the
theorems in `Props/Driver.lean` are met, and are witnesses for the violations.
-/
namespace Ecos.Run

/-- an array with all cells written -/
def bl {α : Type} (l : List α) : Buf α := (l.map some).toArray
/-- the natural ordering, in place of AMD -/
def natural (n : Nat) (_ _ : Buf Nat) : Option (Buf Nat) := some (bl (List.range n))
def fx (i : Int) : Fx := (i : Fx)
/-- a caller with handler 7 installed; an old handler left over from earlier; no interrupt seen -/
def sg : Sig := ⟨.user 7, .user 0, false⟩
def never (_ : Nat) : Bool := false

/-- the workspace of a set-up that succeeds -/
def theWork (r : M (SetupRes Fx)) : Option (Work Fx) :=
  match r with
  | .ok (.ok w) => some w
  | _ => none

/-- `min x` subject to `x ≥ 1` -/
def lp : M (SetupRes Fx) :=
  ecosSetup natural 1 1 0 1 0 (bl []) 0 ⟨some (bl [fx (-1)]), some (bl [0, 1]), some (bl [0])⟩
    ⟨none, none, none⟩ (bl [fx 1]) (bl [fx (-1)]) (bl [])

/-- `min x + y` subject to `‖(x, y)‖ ≤ 1` -/
def soc : M (SetupRes Fx) :=
  ecosSetup natural 2 3 0 0 1 (bl [3]) 0
    ⟨some (bl [fx (-1), fx (-1)]), some (bl [0, 1, 2]), some (bl [1, 2])⟩
    ⟨none, none, none⟩ (bl [fx 1, fx 1]) (bl [fx 1, fx 0, fx 0]) (bl [])

/-- `max x` subject to `exp x ≤ 2` -/
def expo : M (SetupRes Fx) :=
  ecosSetup natural 1 3 0 0 0 (bl []) 1 ⟨some (bl [fx (-1)]), some (bl [0, 1]), some (bl [0])⟩
    ⟨none, none, none⟩ (bl [fx (-1)]) (bl [fx 0, fx 2, fx 1]) (bl [])

def near (x : Option (Option Fx)) (v tol : Fx) : Bool :=
  match x with
  | some (some x) => lt (PFloat.fabs (x - v)) tol
  | _ => false

/-- what a run looks like from outside: solve, then test -/
def after (r : M (SetupRes Fx)) (arr : Nat → Bool) (set : Work Fx → Work Fx)
    (t : Work Fx → Sig → Int → Bool) : Bool :=
  match theWork r with
  | some w =>
    match ecosSolve arr (set w) sg with
    | .ok (w', s, c) => t w' s c
    | .error _ => false
  | none => false

theorem after_spec {r arr set t} (h : after r arr set t = true) :
    ∃ w w' s c, r = .ok (.ok w) ∧ ecosSolve arr (set w) sg = .ok (w', s, c) ∧ t w' s c = true := by
  unfold after at h
  obtain _ | (_ | _ | w0) := r <;> try cases h
  simp only [theWork] at h
  split at h
  · next w' s c he => exact ⟨w0, w', s, c, rfl, he, h⟩
  · cases h

/-- a linear program is solved: code 0, five iterations, `x` near 1, the caller's handler is back -/
theorem lp_solved : after lp never id
    (fun w s c => c == 0 && w.info.iter == 5 && near w.x[0]? 1 1e-6 && s.cur == .user 7) = true := by
  decide +kernel

/-- an exponential-cone program is solved: `x` near ln 2 -/
theorem expo_solved : after expo never id
    (fun w _ c => c == 0 && near w.x[0]? 0.693147 1e-5) = true := by
  decide +kernel

/-- the iteration limit is reached after exactly `maxit` iterations -/
theorem lp_maxit : after lp never (fun w => { w with stgs := { w.stgs with maxit := 1 } })
    (fun w s c => c == MAXIT && w.info.iter == 1 && s.cur == .user 7) = true := by
  decide +kernel

/-- an interrupt before the check of pass 2 ends the solve there -/
theorem lp_sigint : after lp (fun k => k == 2) id
    (fun w s c => c == SIGINT && w.info.iter == 2 && s.cur == .user 7) = true := by
  decide +kernel

/-- hypotheses of `C24_optimal_iterate` and `C26_returned_partial` are met by a run from set-up -/
example : ∃ (w w' : Work Fx) (s : Sig), lp = .ok (.ok w) ∧ ecosSolve never w sg = .ok (w', s, 0) := by
  obtain ⟨w, w', s, c, h1, h2, h3⟩ := after_spec lp_solved
  simp only [Bool.and_eq_true, beq_iff_eq] at h3
  exact ⟨w, w', s, h1, by rw [id, h3.1.1.1] at h2; exact h2⟩

/-- hypotheses of `C26_returned_partial` for a code other than a verdict -/
example : ∃ (w w' : Work Fx) (s : Sig), ecosSolve (fun k => k == 2) w sg = .ok (w', s, SIGINT) ∧
    0 < w'.info.iter := by
  obtain ⟨w, w', s, c, h1, h2, h3⟩ := after_spec lp_sigint
  simp only [Bool.and_eq_true, beq_iff_eq] at h3
  exact ⟨w, w', s, by rw [id, h3.1.1] at h2; exact h2, by rw [h3.1.2]; decide⟩

/-! ### Violations -/

/-- the outcome of the first solve after a successful set-up -/
def firstSolve (r : M (SetupRes Fx)) (arr : Nat → Bool) (set : Work Fx → Work Fx) :
    Option (M (Work Fx × Sig × Int)) :=
  (theWork r).map fun w => ecosSolve arr (set w) sg

def isUninit {α : Type} (r : Option (M α)) : Bool :=
  match r with
  | some (.error .uninit) => true
  | _ => false

/-- C26 is violated: with `maxit = 0` the first solve of a workspace reads the never-written best
iterate -/
theorem C26_fresh_violated :
    isUninit (firstSolve lp never fun w => { w with stgs := { w.stgs with maxit := 0 } }) = true := by
  decide +kernel

/-- C26 is violated: so does an interrupt before the first check -/
theorem C26_fresh_interrupt_violated : isUninit (firstSolve lp (fun k => k == 0) id) = true := by
  decide +kernel

/-- solve, change `h[0]`, solve again with `maxit = 0` -/
def solveUpdateSolve (r : M (SetupRes Fx)) (h0 : Fx) (t : Work Fx → Int → Bool) : Bool :=
  match theWork r with
  | some w =>
    match ecosSolve never w sg with
    | .ok (w1, s1, _) =>
      match ecosUpdateDataEntryH w1 0 h0 with
      | .ok w2 =>
        match ecosSolve never { w2 with stgs := { w2.stgs with maxit := 0 } } s1 with
        | .ok (w3, _, c) => t w3 c
        | .error _ => false
      | .error _ => false
    | .error _ => false
  | none => false

/-- C26 and C24 are violated: after `min x, x ≥ 1` was solved, the constraint is changed to `x ≥ 3` and
one more solve with `maxit = 0` answers "optimal to reduced accuracy" with the old `x` near 1 -/
theorem C26_stale_violated : solveUpdateSolve lp (fx (-3)) (fun w c => c == 10 && near w.x[0]? 1 1e-3) =
    true := by
  decide +kernel

/-- step factor `gamma = 1.01` -/
def big (w : Work Fx) : Work Fx := { w with stgs := { w.stgs with gamma := 1.01 } }

/-- C27 and C13 are violated: a run that leaves the cone (code -3) keeps the handler of ECOS installed
and leaves the caller's cost vector `c = (1, 1)` scaled -/
theorem C27_C13_outcone_violated : after soc never big
    (fun w s c => c == OUTCONE && s.cur == .ecos && !near w.c[0]? 1 0.4) = true := by
  decide +kernel

/-- solve twice -/
def twice (r : M (SetupRes Fx)) (set : Work Fx → Work Fx) (t : Work Fx → Int → Work Fx → Int → Bool) :
    Bool :=
  match theWork r with
  | some w =>
    match ecosSolve never (set w) sg with
    | .ok (w1, s1, c1) =>
      match ecosSolve never w1 s1 with
      | .ok (w2, _, c2) => t w1 c1 w2 c2
      | .error _ => false
    | .error _ => false
  | none => false

/-- C28 is violated: after a run that leaves the cone, the same call gives another `x` -/
theorem C28_outcone_violated : twice soc big
    (fun w1 c1 w2 c2 => c1 == OUTCONE && c2 == OUTCONE &&
      !near w1.x[0]? ((w2.x[0]?.join).getD 0) 0.0001) = true := by
  decide +kernel

/-- the standard central point of the exponential cone (cone.c `unitInitialization`) -/
def e0 : List Fx := [-1.051383945322714, 1.258967884768947, 0.556409619469370]

/-- the exponential line search at the central point with `tau = kappa = 1`, direction 0 except for
`tau`, which goes down by 1.5 -/
def badSearch : Option (M (Option Fx × Stats Fx)) :=
  (theWork expo).map fun w =>
    expConeLineSearch { w with s := bl e0, z := bl e0 } (bl [0, 0, 0]) (bl [0, 0, 0]) 1 1 (-1.5) 0 1

/-- C31 is violated: the full step is accepted (the result is `1 * gamma`) although `tau` at the trial
point is `1 - 1.5 < 0` -/
theorem C31_tau_violated : (match badSearch with
    | some (.ok (some a, _)) => decide (a = 1 * GAMMA)
    | _ => false) = true := by
  decide +kernel

end Ecos.Run
