import Verif.Lemmas.BBCount
import Verif.Props.BBSignal

/-!
# C65: how many continuous problems a mixed-integer solve solves
-/
set_option linter.unusedSectionVars false

namespace Ecos
namespace BB

section generic
variable {F : Type} [Zero F] [One F] [Add F] [Sub F] [Mul F] [Div F] [Neg F] [OfScientific F]
  [IntCast F] [PFloat F] [HasInf F] {fuel : Nat} {code : Int}

/-- **C65** for any continuous solver whose calls are counted by `μ`: with `k` passes of the search (`k` is at most the node limit minus 1) there are
at least `1 + 2 k` calls, one for each node that is bounded, and at most `(1 + 2 k) (t + 2)`: for each such node its relaxation, a rounded point, and
`t` trials to choose the variable to branch on. `t` is 0 unless the strategy is strong or reliability branching, then it is 1 plus two for each declared
variable. -/
theorem C65_calls {W I : Type} {env : Env F W I} {μ : Core F W → Nat} {b b' : St F W I} (H : Counts 1 μ env) (h : bbSolve env fuel b = .ok (b', code)) :
    b'.iter ≤ b.stgs.maxit - 1 ∧ μ b.ecos.core + (1 + 2 * b'.iter) ≤ μ b'.ecos.core ∧
      μ b'.ecos.core ≤ μ b.ecos.core + (1 + 2 * b'.iter) * (trials b.stgs.strategy (b.nb + b.ni) + 2) := by
  unfold bbSolve at h
  simp only [bind_ok, pure_ok, Prod.mk.injEq] at h
  obtain ⟨b1, h1, b2, h2, nd, -, b3, h3, b4, h4, rfl, -⟩ := h
  have k1 := initRoot_sp (μ := μ) h1
  obtain ⟨k2, l2⟩ := getBounds_sp H h2
  have k4 := loadSolution_sp (μ := μ) h4
  have k12 := k1.trans k2
  have e0 : b2.iter = 0 := k12.it
  have e1 : b2.stgs = b.stgs := k12.st
  have e2 : b2.nb = b.nb := k12.nb
  have e3 : b2.ni = b.ni := k12.ni
  have e4 : trials b1.stgs.strategy (b1.nb + b1.ni) = trials b.stgs.strategy (b.nb + b.ni) := by rw [k1.st, k1.nb, k1.ni]
  obtain ⟨r1, r2, -, -, -, r6, r7⟩ := search_sp H h3
  simp only [e0, e1, e2, e3, Nat.sub_zero] at r1 r2 r6 r7
  have q1 := k1.lo
  have q2 : μ b1.ecos.core ≤ μ b.ecos.core + 0 := k1.hi
  have q3 := k2.hi
  have q4 := k4.lo
  have q5 := k4.hi
  have q6 : μ b.ecos.core ≤ μ b1.ecos.core := k1.lo
  have q7 : b4.iter = b3.iter := k4.it
  rw [e4] at q3
  rw [q7]
  refine ⟨by omega, by omega, ?_⟩
  have : (1 + 2 * b3.iter) * (trials b.stgs.strategy (b.nb + b.ni) + 2) = (trials b.stgs.strategy (b.nb + b.ni) + 2) +
      b3.iter * (2 * (trials b.stgs.strategy (b.nb + b.ni) + 2)) := by ring
  rw [this]
  omega

variable {arr : Nat → Nat → Bool} {rand : Nat → Nat} {bb bb' : St F (Hid F) (Stats F)}

theorem realEnv_counts : Counts (F := F) 1 (fun k => k.hid.calls) (realEnv arr rand) := fun e e' c h => by
  obtain ⟨w, sig, -, rfl⟩ := realEnv_solve h
  exact ⟨le_refl _, le_refl _⟩

/-- **C65** for `ECOS_solve`: a mixed-integer solve with the node limit `N` calls it at least once and at most `(2 N - 1) (t + 2)` times, whatever the
workspace, the numbers, the interrupts and the values of `rand`. -/
theorem C65_solves (hN : 0 < bb.stgs.maxit) (h : bbSolve (realEnv arr rand) fuel bb = .ok (bb', code)) :
    bb.ecos.hid.calls < bb'.ecos.hid.calls ∧
      bb'.ecos.hid.calls ≤ bb.ecos.hid.calls + (2 * bb.stgs.maxit - 1) * (trials bb.stgs.strategy (bb.nb + bb.ni) + 2) := by
  obtain ⟨h1, h2, h3⟩ := C65_calls realEnv_counts h
  have h2 : bb.ecos.hid.calls + (1 + 2 * bb'.iter) ≤ bb'.ecos.hid.calls := h2
  refine ⟨by omega, h3.trans (Nat.add_le_add_left (Nat.mul_le_mul_right _ ?_) _)⟩
  omega

/-- the solves in a list of calls -/
def solvesIn : List (BBCall F) → Nat
  | [] => 0
  | .solve _ _ _ :: os => solvesIn os + 1
  | _ :: os => solvesIn os

/-- **C65, histories**: over any calls after a set-up with `calls = 0`, in which the strategy is never 1 or 3 and the node limit is at most `N`, the number of
continuous solves is between the number of mixed-integer solves and `2 (2 N - 1)` times that number. -/
theorem C65_history {N : Nat} (hN : 0 < N) : ∀ (os : List (BBCall F)) {bb bb' : St F (Hid F) (Stats F)},
    (bb.stgs.maxit ≤ N ∧ bb.stgs.strategy ≠ 1 ∧ bb.stgs.strategy ≠ 3) →
    (∀ s, BBCall.stgs s ∈ os → s.maxit ≤ N ∧ s.strategy ≠ 1 ∧ s.strategy ≠ 3) → bbCalls bb os = .ok bb' →
    bb.ecos.hid.calls + solvesIn os ≤ bb'.ecos.hid.calls ∧ bb'.ecos.hid.calls ≤ bb.ecos.hid.calls + solvesIn os * (2 * (2 * N - 1))
  | [], _, _, _, _, h => by
    cases h
    simp [solvesIn]
  | o :: os, bb, bb', hs, ho, h => by
    unfold bbCalls at h
    simp only [bind_ok] at h
    obtain ⟨b, h1, h2⟩ := h
    have ho' : ∀ s, BBCall.stgs s ∈ os → s.maxit ≤ N ∧ s.strategy ≠ 1 ∧ s.strategy ≠ 3 := fun s hs => ho s (List.mem_cons_of_mem _ hs)
    cases o with
    | solve arr rand fuel =>
      simp only [BBCall.run, bind_ok, pure_ok] at h1
      obtain ⟨⟨b', c⟩, h1, rfl⟩ := h1
      obtain ⟨k1, k2, k3⟩ := C65_calls realEnv_counts h1
      have hb : b'.stgs = bb.stgs := bbSolve_stgs h1
      obtain ⟨q1, q2⟩ := C65_history hN os (by rw [show (b', c).1.stgs = bb.stgs from hb]; exact hs) ho' h2
      have ht : trials bb.stgs.strategy (bb.nb + bb.ni) = 0 := by
        unfold trials
        rw [if_neg (by rintro (h | h); exacts [hs.2.1 h, hs.2.2 h])]
      rw [ht] at k3
      have q1 : b'.ecos.hid.calls + solvesIn os ≤ bb'.ecos.hid.calls := q1
      have q2 : bb'.ecos.hid.calls ≤ b'.ecos.hid.calls + solvesIn os * (2 * (2 * N - 1)) := q2
      have k3 : b'.ecos.hid.calls ≤ bb.ecos.hid.calls + (1 + 2 * b'.iter) * (0 + 2) := k3
      have k2 : bb.ecos.hid.calls + (1 + 2 * b'.iter) ≤ b'.ecos.hid.calls := k2
      have hm := hs.1
      refine ⟨?_, ?_⟩
      · show _ + (solvesIn os + 1) ≤ _
        omega
      · show _ ≤ _ + (solvesIn os + 1) * _
        rw [Nat.add_mul, Nat.one_mul]
        omega
    | entryH i v =>
      simp only [BBCall.run, updateDataEntryH, updH, bind_ok, pure_ok] at h1
      obtain ⟨_, ⟨_, -, _, -, rfl⟩, rfl⟩ := h1
      have q := fun hs => C65_history hN os hs ho' h2
      exact q hs
    | entryC i v =>
      simp only [BBCall.run, updateDataEntryC, updC, bind_ok, pure_ok] at h1
      obtain ⟨_, ⟨_, -, rfl⟩, rfl⟩ := h1
      have q := fun hs => C65_history hN os hs ho' h2
      exact q hs
    | ecosStgs s =>
      cases h1
      have q := fun hs => C65_history hN os hs ho' h2
      exact q hs
    | stgs s =>
      cases h1
      exact (C65_history hN os (bb := { bb with stgs := s }) (ho s (List.mem_cons_self ..)) ho' h2 :)

end generic

/-- The lower bound is met by a run that is interrupted at the root: one call. -/
example : (match Real.go 3.0002 0 100 (fun k i => k == 0 && i == 1) with
    | .ok (bb, _) => bb.ecos.hid.calls == 1 && bb.iter == 0
    | _ => false) = true := by
  decide +kernel

/-- the default strategy with ten declared variables and 1000 nodes: at most 45977 continuous solves -/
example : (2 * (bbDefault (F := Fx)).maxit - 1) * (trials (bbDefault (F := Fx)).strategy 10 + 2) = 45977 := by decide

end BB
end Ecos
