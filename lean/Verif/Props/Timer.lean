import Verif.Model.Timer
import Verif.Props.Equil
import Verif.Props.DriverExample

/-!
# C67: the times in `*info`
-/
set_option linter.unusedSectionVars false

namespace Ecos
namespace Timer

/-- the reading in nanoseconds -/
def Timespec.ns (t : Timespec) : Int := t.sec * 1000000000 + t.nsec

/-- a reading of a POSIX clock -/
structure Valid (t : Timespec) : Prop where
  sec : 0 ≤ t.sec ∧ t.sec ≤ 9223372036854775807
  nsec : 0 ≤ t.nsec ∧ t.nsec < 1000000000

/-- **C67, difference.** For any two readings the subtraction does not overflow and is exact, the nanoseconds are normalised, and the seconds are not
negative if the clock did not go back. -/
theorem C67_elapsed {t0 t1 : Timespec} (h0 : Valid t0) (h1 : Valid t1) :
    Ok (elapsed t0 t1) fun d => d.ns = t1.ns - t0.ns ∧ 0 ≤ d.nsec ∧ d.nsec < 1000000000 ∧ (t0.ns ≤ t1.ns → 0 ≤ d.sec) := by
  obtain ⟨⟨a1, a2⟩, a3, a4⟩ := h0
  obtain ⟨⟨b1, b2⟩, b3, b4⟩ := h1
  have hi : ∀ v : Int, -9223372036854775808 ≤ v → v ≤ 9223372036854775807 → i64 v = .ok v := fun v k1 k2 => if_pos ⟨k1, k2⟩
  unfold elapsed
  rw [hi _ (by omega) (by omega), ok_bind_eq]
  split
  · rw [hi (t1.sec - t0.sec) (by omega) (by omega), ok_bind_eq, hi (t1.sec - t0.sec - 1) (by omega) (by omega), ok_bind_eq,
      hi (1000000000 + t1.nsec) (by omega) (by omega), ok_bind_eq, hi (1000000000 + t1.nsec - t0.nsec) (by omega) (by omega), ok_bind_eq, Ok_pure]
    simp only [Timespec.ns]
    refine ⟨by omega, by omega, by omega, fun _ => by omega⟩
  · rw [hi (t1.sec - t0.sec) (by omega) (by omega), ok_bind_eq, ok_bind_eq, Ok_pure]
    simp only [Timespec.ns]
    refine ⟨by omega, by omega, by omega, fun _ => by omega⟩

/-- **C67, `toc`.** In exact arithmetic the time is the difference of the readings in seconds; so it is not negative, times of adjacent intervals add up
and the time of an interval is at least that of one inside it. -/
theorem C67_toc {t0 t1 : Timespec} (h0 : Valid t0) (h1 : Valid t1) :
    (toc t0 t1 : M ℝ) = .ok (((t1.ns - t0.ns : Int) : ℝ) / 1000000000) := by
  obtain ⟨d, hd, k1, -⟩ := (Ok.def _ _).1 (C67_elapsed h0 h1)
  unfold toc
  rw [hd, ok_bind_eq, ← k1]
  show Except.ok _ = Except.ok _
  congr 1
  simp only [Timespec.ns]
  push_cast
  rw [add_div, mul_div_cancel_right₀ _ (by norm_num)]

theorem C67_nested {t0 t1 t2 t3 : Timespec} (h0 : Valid t0) (h1 : Valid t1) (h2 : Valid t2) (h3 : Valid t3) (k1 : t0.ns ≤ t1.ns)
    (k2 : t1.ns ≤ t2.ns) (k3 : t2.ns ≤ t3.ns) :
    ∃ a b c u : ℝ, toc t0 t1 = .ok a ∧ toc t1 t2 = .ok b ∧ toc t2 t3 = .ok c ∧ toc t0 t3 = .ok u ∧ a + b + c = u ∧ 0 ≤ a ∧ 0 ≤ b ∧ 0 ≤ c := by
  have nn : ∀ {s t : Timespec}, s.ns ≤ t.ns → (0 : ℝ) ≤ ((t.ns - s.ns : Int) : ℝ) / 1000000000 := fun h =>
    div_nonneg (by exact_mod_cast sub_nonneg.2 h) (by norm_num)
  refine ⟨_, _, _, _, C67_toc h0 h1, C67_toc h1 h2, C67_toc h2 h3, C67_toc h0 h3, ?_, nn k1, nn k2, nn k3⟩
  push_cast
  ring

section generic
variable {F : Type} [Zero F] [One F] [Add F] [Sub F] [Mul F] [Div F] [Neg F] [OfScientific F] [IntCast F] [PFloat F] [HasInf F]

/-- **C67, solves.** The timer does not change what `ECOS_solve` does; `tsolve` is the time of this solve unless the code is `OUTCONE`, and then it is what
it was before the call. Missing, because false: a time after every solve (`C67_untimed_violated`). -/
theorem C67_solve_partial {arrives : Nat → Bool} {t0 t1 : Timespec} {old new : Option F} {w w' : Work F} {sig sig' : Sig} {code : Int}
    (h : ecosSolveTimed arrives t0 t1 old w sig = .ok ((w', sig', code), new)) :
    ecosSolve arrives w sig = .ok (w', sig', code) ∧
      (if code = OUTCONE then new = old else ∃ t, toc t0 t1 = .ok t ∧ new = some t) := by
  unfold ecosSolveTimed at h
  simp only [bind_ok] at h
  obtain ⟨c, hc, ⟨w1, b⟩, ho, h⟩ := h
  obtain rfl : b = true := initSolver_code ho
  simp only [Bool.true_eq_false, if_false, bind_ok] at h
  obtain ⟨e, he, r, hr, h⟩ := h
  have hs : ecosSolve arrives w sig = .ok r := by
    unfold ecosSolve
    rw [hc, ok_bind_eq]
    show (initSolver { w with c := c } >>= _) = _
    rw [ho, ok_bind_eq]
    simp only [Bool.true_eq_false, if_false]
    rw [he, ok_bind_eq]
    exact hr
  have hcode : r.2.2 = e.code := by
    unfold finish at hr
    split at hr
    · cases hr
      rfl
    · simp only [bind_ok, pure_ok] at hr
      obtain ⟨_, -, rfl⟩ := hr
      rfl
  have hl := mainLoop_cases' he
  cases hea : e.early with
  | true =>
    rw [hea] at h
    simp only [if_true, pure_ok, Prod.mk.injEq] at h
    obtain ⟨rfl, rfl⟩ := h
    refine ⟨hs, ?_⟩
    have : e.code = OUTCONE := by
      obtain ⟨k, hl⟩ | ⟨-, rfl⟩ := hl
      · exact (leaves_early hl).1 hea
      · cases hea
    rw [if_pos (hcode.trans this)]
  | false =>
    rw [hea] at h
    simp only [Bool.false_eq_true, if_false, bind_ok, pure_ok, Prod.mk.injEq] at h
    obtain ⟨t, ht, rfl, rfl⟩ := h
    refine ⟨hs, ?_⟩
    rw [if_neg]
    · exact ⟨t, ht, rfl⟩
    · intro hc1
      have hc1 : e.code = OUTCONE := hcode.symm.trans hc1
      obtain ⟨k, hl⟩ | ⟨-, rfl⟩ := hl
      · obtain ⟨-, h1⟩ | ⟨h1, -⟩ := leaves_code hl
        · rw [hc1] at h1
          rcases h1 with h1 | h1 | h1 | h1 | h1
          · have := h1.code; revert this; simp [OUTCONE]
          · have := h1.code; revert this; simp [OUTCONE, INACC]
          · simp [OUTCONE, NUMERICS] at h1
          · simp [OUTCONE, SIGINT] at h1
          · simp [OUTCONE, MAXIT] at h1
        · rw [hea] at h1; cases h1
      · simp [FATAL, OUTCONE] at hc1

end generic

/-- from 1.9 s to 3.1 s: borrow, 1.2 s -/
example : elapsed ⟨1, 900000000⟩ ⟨3, 100000000⟩ = .ok ⟨1, 200000000⟩ := by decide

/-- the time after the first solve of the second-order cone example, from 1.9 s to 3.1 s -/
def firstTime (set : Work Fx → Work Fx) : Option (Int × Option Fx) :=
  match Run.theWork Run.soc with
  | some w =>
    match ecosSolveTimed Run.never ⟨1, 900000000⟩ ⟨3, 100000000⟩ none (set w) Run.sg with
    | .ok (r, t) => some (r.2.2, t)
    | .error _ => none
  | none => none

/-- with the default settings the solve is timed -/
example : (match firstTime id with
    | some (c, some t) => c == 0 && decide (t = 1.2)
    | _ => false) = true := by
  decide +kernel

/-- C67 is violated: after a first solve that leaves the cone, `tsolve` was never written -/
theorem C67_untimed_violated : (match firstTime Run.big with
    | some (c, none) => c == OUTCONE
    | _ => false) = true := by
  decide +kernel

end Timer
end Ecos
