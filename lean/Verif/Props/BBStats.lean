import Verif.Props.Flags
import Verif.Props.BBAnswer
import Verif.Props.BBRoot

/-!
# C69: `*info` after a mixed-integer solve
-/
set_option linter.unusedSectionVars false

namespace Ecos
namespace BB
open Ecos.Asm Augm XR

variable {amd : Nat → Buf Nat → Buf Nat → Option (Buf Nat)} {T : Pat} {S : Shape} {nb ni mx : Nat} {bv iv : Nat → Nat} {P : Dat}
  {bb : St XR (Hid XR) (Stats XR)}

/-- **C69, an answer with a point.** After a mixed-integer solve that answers "optimal" (0) or "iteration limit" (10), the statistics are all those
of one continuous solve, the one that found the point; they have been written, both infeasibility flags are down, and the counter of iterations is
at most the limit for continuous solves.

Partial: if no point was found, `*info` is not written (`C69_unwritten_violated`). -/
theorem C69_found_partial (hamd : ∀ N jc ir P, amd N jc ir = some P → ∃ pf, Holds P N pf ∧ IsPerm N pf) (hP : PatGood T S)
    (hp : 0 < nb + ni) (hm : 0 < mx) (hs : MISession amd T S nb ni bv iv mx bb P) {arr : Nat → Nat → Bool} {rand : Nat → Nat}
    (hr : ∀ k, rand k ≤ RAND_MAX) {fuel : Nat} {bb' : St XR (Hid XR) (Stats XR)} {code : Int}
    (h : bbSolve (realEnv arr rand) fuel bb = .ok (bb', code)) (hcode : code = 0 ∨ code = 10) (hn : bb'.globalU ≠ nan) :
    ∃ w0 w1 sig sig1 k kc, ecosSolve (arr k) w0 sig = .ok (w1, sig1, kc) ∧ Usable kc ∧ bb'.ecos.info = some w1.info ∧ bb'.ecos.x = w1.x ∧
      w1.info.pinf = some 0 ∧ w1.info.dinf = some 0 ∧ (w1.info.iter : Int) ≤ w0.stgs.maxit ∧ w0.stgs = bb'.ecos.hid.w.stgs := by
  obtain ⟨T', S', D, E, kc, -, -, hk, -, w0, w1, sig, sig1, k, D', -, -, hst, hsol, hsm⟩ := origin hamd hP hp hm hs hr h hcode hn
  have hf := Flags.C68_flags hsol
  have h1 : w1.info.pinf = some 0 := by
    rw [hf.pinf, if_neg]
    rcases hk with rfl | rfl | rfl | rfl <;> decide
  have h2 : w1.info.dinf = some 0 := by
    rw [hf.dinf, if_neg]
    rcases hk with rfl | rfl | rfl | rfl <;> decide
  have hi : bb'.ecos.info.getD {} = w1.info := hsm.info
  refine ⟨w0, w1, sig, sig1, k, kc, hsol, hk, ?_, hsm.x, h1, h2, (C23_iterations hsol ?_).1, hst⟩
  · cases hj : bb'.ecos.info with
    | none =>
      rw [hj] at hi
      rw [← hi] at h1
      cases h1
    | some i =>
      rw [hj] at hi
      exact congrArg some hi
  · rcases hk with rfl | rfl | rfl | rfl <;> decide

/-- C69 is violated: if the continuous solver refuses the root (with any code but 0, 10, -1 and -2), in particular if it finds it infeasible, the
answer is "infeasible" (1; 11 for a node limit of 1), and `*info` is what an earlier search stored: in a new workspace memory that was never
written, over what the continuous solver had just reported. -/
theorem C69_unwritten_violated {W I : Type} {Q : Par XR W} {env : Env XR W I} {b : St XR W I} {bad : UB → Prop}
    (K : Contract Q env (fun _ => True) (fun _ => True) bad) (h : Alloc Q b) {atol : ℝ} (ha : Q.stgs.absTol = .fin atol) (h0 : 0 ≤ atol)
    (hnew : b.info = none) (hroot : ∀ e e' code, env.solve e = .ok (e', code) → ¬ Usable code) (hret : ∀ e, ∃ r, env.solve e = .ok r) (fuel : Nat) :
    ∃ b', bbSolve env fuel b = .ok (b', if 1 < Q.stgs.maxit then 1 else 11) ∧ b'.ecos.info = none := by
  obtain ⟨e, hf, -, -, -, -, h1⟩ := C62_root_partial K h ha h0 fuel
  obtain ⟨⟨e', code⟩, he⟩ := hret e
  obtain ⟨b', h2, h3⟩ := (h1 e' code he).1 (hroot e e' code he)
  exact ⟨b', h2, h3.info.trans hnew⟩

/-- the same on an example: the continuous solver answers "primal infeasible" (1) -/
example (fuel : Nat) : ∃ b', bbSolve (Ex.told (.fin 0) 1) fuel Ex.bb = .ok (b', 1) ∧ b'.ecos.info = none :=
  C69_unwritten_violated (Ex.toldKeeps (.fin 0) 1) (Ex.start (fun _ => True) trivial).alloc (atol := 1e-6) rfl (by norm_num) rfl
    (fun e e' code h => by cases h; unfold Usable; decide) (fun e => ⟨_, rfl⟩) fuel

/-- C69 is violated, a run of the real solver: an interrupt in the second pass of the first continuous solve, and `*info` is unwritten afterwards -/
theorem C69_interrupted_violated :
    (match Real.go 3.0002 0 100 (fun k i => k == 0 && i == 1) with
      | .ok (bb, code) => code = 1 && bb.ecos.info.isNone
      | _ => false) = true := by
  decide +kernel

/-- C69 on a run that ends with a point (the limit is one iteration): the flags are down -/
example : (match Real.go 3.0002 0 1 (fun _ _ => false) with
      | .ok (bb, code) => code = 0 && (match bb.ecos.info with | some i => i.iter = 1 && i.pinf = some 0 && i.dinf = some 0 | none => false)
      | _ => false) = true := by
  decide +kernel

end BB
end Ecos
