import Verif.Lemmas.Ldl1
import Verif.Props.DriverExample

/-!
# C68: the infeasibility flags in `*info`
-/
set_option linter.unusedSectionVars false

namespace Ecos
namespace Flags

section generic
variable {F : Type} [Zero F] [One F] [Add F] [Sub F] [Mul F] [Div F] [Neg F] [OfScientific F] [IntCast F] [PFloat F] [HasInf F]

/-- the flags that belong to an exit code: `pinf` for 1 and 11 (primal infeasible), `dinf` for 2 and 12 (unbounded) -/
structure Match (code : Int) (i : Stats F) : Prop where
  pinf : i.pinf = some (if code = 1 ∨ code = 11 then 1 else 0)
  dinf : i.dinf = some (if code = 2 ∨ code = 12 then 1 else 0)

/-- both flags are down -/
structure Down (i : Stats F) : Prop where
  pinf : i.pinf = some 0
  dinf : i.dinf = some 0

theorem Down.other {i : Stats F} (h : Down i) {c : Int} (hc : c < 0) : Match c i :=
  ⟨by rw [h.pinf, if_neg (by omega)], by rw [h.dinf, if_neg (by omega)]⟩

theorem started_down {w w1 : Work F} (h : Started w w1) : Down w1.info := by
  obtain ⟨c, -, h⟩ := h
  unfold initSolver at h
  simp only [bind_ok] at h
  obtain ⟨PKPt, -, r, -, rx, -, ry, -, rz, -, o, -, h⟩ := h
  split at h
  · simp only [pure_ok, Prod.mk.injEq, Bool.false_eq_true, and_false] at h
  · simp only [bind_ok, pure_ok, Prod.mk.injEq] at h
    obtain ⟨r1, -, rfl, -⟩ := h
    exact ⟨rfl, rfl⟩

theorem passHead_down {w w' : Work F} {k : Nat} (h : passHead w k = .ok w') (d : Down w.info) : Down w'.info := by
  unfold passHead computeResiduals updateStatistics at h
  simp only [bind_ok, pure_ok] at h
  obtain ⟨w1, ⟨r, -, cx, -, b, -, hz, -, kap, -, nx, -, ny, -, ns, -, nz, -, rfl⟩, i, -, rfl⟩ := h
  exact ⟨d.pinf, d.dinf⟩

theorem infoFr_down {i j : Stats F} (h : InfoFr i j) (d : Down i) : Down j := by
  unfold InfoFr at h
  rw [h]
  exact ⟨d.pinf, d.dinf⟩

theorem check_match {w w' : Work F} {mode c : Int} (hm : mode = 0 ∨ mode = INACC) (h : checkExitConditions w mode = .ok (w', c)) (hc : c ≠ NOTYET) :
    Match c w'.info := by
  obtain ⟨e, -, h | h | h | h⟩ := checkExit_cases h
  · exact absurd h.1 hc
  all_goals
    obtain ⟨rfl, -, rfl⟩ := h
    rcases hm with rfl | rfl <;> exact ⟨rfl, rfl⟩

theorem inaccOr_match {w w' : Work F} {d c : Int} (hd : d < 0) (h : inaccOr w d = .ok (w', c)) (dn : Down w.info) : Match c w'.info := by
  obtain ⟨rfl, rfl, -⟩ | ⟨hc, h⟩ := inaccOr_cases h
  · exact dn.other hd
  · exact check_match (.inr rfl) h hc

theorem recover_match {w w' : Work F} {d c : Int} (hd : d < 0) (h : recover w d = .ok (w', c)) (dn : Down w.info) : Match c w'.info := by
  obtain ⟨wr, hr, h⟩ := recover_cases h
  refine inaccOr_match hd h ?_
  unfold restoreBestIterate at hr
  simp only [bind_ok, pure_ok] at hr
  obtain ⟨x, -, y, -, z, -, s, -, rfl⟩ := hr
  exact ⟨dn.pinf, dn.dinf⟩

theorem recoverCmp_match {w w' : Work F} {d c : Int} (hd : d < 0) (h : recoverCmp w d = .ok (w', c)) (dn : Down w.info) : Match c w'.info := by
  obtain ⟨-, h⟩ | ⟨-, h⟩ := recoverCmp_cases h
  · exact inaccOr_match hd h dn
  · exact recover_match hd h dn

theorem head_down {arrives : Nat → Bool} {w : Work F} {sig : Sig} {k : Nat} {S : LoopS F} (h : AtHead arrives w sig k S) (d : Down w.info) :
    Down S.w.info := by
  induction h with
  | start => exact ⟨d.pinf, d.dinf⟩
  | @next k S S' _ hk hp ih =>
    obtain ⟨wm, wk, hm, -, -, -, -, hkb, ht, -⟩ := pass_inr hp
    obtain ⟨R, kap, tau, a, hfr, hu, -⟩ := passTail_inr ht
    rw [(updateVars_fr hu).2.1]
    refine infoFr_down hfr.2 ?_
    rw [(keepBest_spec hkb).2.2.2]
    exact passHead_down hm ih

theorem leaves_match {arrives : Nat → Bool} {w : Work F} {sig : Sig} {k : Nat} {e : Exit F} (h : Leaves arrives w sig k e) (d : Down w.info) :
    Match e.code e.w.info := by
  obtain ⟨S, hS, hk, hp⟩ := h
  obtain ⟨wm, hm, -, hcase⟩ := pass_inl hp
  have dm := passHead_down hm (head_down hS d)
  obtain ⟨-, h1, -⟩ | ⟨h1, h2, -⟩ | ⟨-, -, h1⟩ | ⟨-, -, wk, hkb, ht⟩ := hcase
  · exact recover_match (by decide) h1 dm
  · exact check_match (.inl rfl) h1 h2
  · obtain ⟨-, h1⟩ | ⟨-, h1⟩ | ⟨-, -, -, h1⟩ := notYet_inl h1
    · exact recover_match (by decide) h1 dm
    · exact recoverCmp_match (by split <;> decide) h1 dm
    · exact recoverCmp_match (by decide) h1 dm
  · have dk : Down wk.info := by
      rw [(keepBest_spec hkb).2.2.2]
      exact dm
    obtain ⟨w1, hfr, ⟨h1, -⟩ | ⟨h1, h2, -⟩ | ⟨h1, -⟩⟩ := passTail_inl ht
    · exact recover_match (by decide) h1 (infoFr_down hfr.2 dk)
    · rw [h1, h2]
      exact (infoFr_down hfr.2 dk).other (by decide)
    · exact recover_match (by decide) h1 (infoFr_down hfr.2 dk)

/-- **C68.** After every `ECOS_solve`, whatever the workspace, the settings and the interrupts, and whatever the solve before left in the flags:
`info->pinf` is 1 exactly if the code is 1 or 11, `info->dinf` is 1 exactly if it is 2 or 12, and otherwise they are 0. -/
theorem C68_flags {arrives : Nat → Bool} {w w' : Work F} {sig sig' : Sig} {code : Int} (h : ecosSolve arrives w sig = .ok (w', sig', code)) :
    Match code w'.info := by
  obtain ⟨w1, hw1, e, he, rfl, hend⟩ := ecosSolve_ways h
  have d := started_down hw1
  have hm : Match e.code e.w.info := by
    obtain ⟨k, hl⟩ | ⟨-, rfl⟩ := he
    · exact leaves_match hl d
    · exact Down.other (i := (Exit.skipped w1 (initCtrlc sig)).w.info) (c := FATAL) ⟨d.pinf, d.dinf⟩ (by decide)
  obtain ⟨-, -, rfl, -⟩ | ⟨-, hb, -⟩ := hend
  · exact hm
  · unfold backscale at hb
    simp only [bind_ok, pure_ok] at hb
    obtain ⟨tau, -, x, -, y, -, z, -, s, -, c, -, rfl⟩ := hb
    exact ⟨hm.pinf, hm.dinf⟩

/-- C68: two solves that end with the same code leave the same flags (C47 says when the codes are the same) -/
theorem C68_same {arrives arrives' : Nat → Bool} {v v' w w' : Work F} {sv sv' sw sw' : Sig} {code : Int}
    (h : ecosSolve arrives v sv = .ok (v', sv', code)) (h' : ecosSolve arrives' w sw = .ok (w', sw', code)) :
    v'.info.pinf = w'.info.pinf ∧ v'.info.dinf = w'.info.dinf :=
  ⟨(C68_flags h).pinf.trans (C68_flags h').pinf.symm, (C68_flags h).dinf.trans (C68_flags h').dinf.symm⟩

end generic

/-- C68 on a run: the flags before were wrong on purpose, after the solve (optimal) both are 0 -/
example : Run.after Run.lp Run.never (fun w => { w with info := { w.info with pinf := some 1, dinf := some 1 } })
    (fun w _ c => c == 0 && decide (w.info.pinf = some 0) && decide (w.info.dinf = some 0)) = true := by
  decide +kernel

/-- C68 on an unbounded problem (`min -x`, `x ≥ 1`): the code is 2 and `dinf` is raised -/
example : Run.after Run.lp Run.never (fun w => { w with c := #[some (-1)], info := { w.info with pinf := some 1 } })
    (fun w _ c => c == 2 && decide (w.info.pinf = some 0) && decide (w.info.dinf = some 1)) = true := by
  decide +kernel

end Flags
end Ecos
