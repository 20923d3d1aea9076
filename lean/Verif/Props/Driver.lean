import Verif.Lemmas.Driver4
import Verif.Lemmas.XR

/-!
# Properties of the driver `ECOS_solve`: C22, C23, C24, C26, C27, C31, C44

Except where a number type is named, everything holds for every number type `F` with arbitrary
operations, hence for IEEE doubles including rounding, infinities and NaN.  Concrete runs that meet
the hypotheses are in `Props/DriverExample.lean`.
-/
namespace Ecos

set_option linter.unusedSectionVars false

section generic
variable {F : Type} [Zero F] [One F] [Add F] [Sub F] [Mul F] [Div F] [Neg F] [OfScientific F]
  [IntCast F] [PFloat F] [HasInf F]

/-! ### C23 -/

/-- C23: whatever the numbers, the interrupts and `maxit` are, a solve returns a documented code -/
theorem C23_documented {arrives : Nat → Bool} {w w' : Work F} {sig sig' : Sig} {code : Int}
    (h : ecosSolve arrives w sig = .ok (w', sig', code)) : Documented code ∧ code ≠ NOTYET := by
  have key : Documented code := by
    unfold Documented
    obtain ⟨h, -⟩ | ⟨w1, -, -, ⟨k, e, hl, rfl, -⟩ | ⟨-, h, -⟩⟩ := ecosSolve_cases h
    · rw [h]; decide
    · obtain ⟨-, h | h | h | h | ⟨h, -⟩⟩ | ⟨-, h | h⟩ := leaves_code hl
      · have := h.code; omega
      · have := h.code; unfold INACC at this; omega
      all_goals rw [h]; decide
    · rw [h]; decide
  refine ⟨key, ?_⟩
  unfold Documented at key
  unfold NOTYET
  omega

/-- C23: the main loop is entered for at most `maxit + 1` passes: the pass counted `k` (from 0) only
runs for `k ≤ maxit` -/
theorem C23_pass_bound {arrives : Nat → Bool} {w : Work F} {sig : Sig} {k : Nat} {S : LoopS F}
    (h : AtHead arrives w sig k S) (h0 : 0 ≤ w.stgs.maxit) : (k : Int) ≤ w.stgs.maxit := by
  by_cases hk : 0 < k
  · exact no_overrun h hk
  · omega

/-- C23: the number of iterations reported never exceeds `maxit`, and `MAXIT` is only reported
after exactly `maxit` iterations -/
theorem C23_iterations {arrives : Nat → Bool} {w w' : Work F} {sig sig' : Sig} {code : Int}
    (h : ecosSolve arrives w sig = .ok (w', sig', code)) (hc : code ≠ FATAL) :
    (w'.info.iter : Int) ≤ w.stgs.maxit ∧ (code = MAXIT → (w'.info.iter : Int) = w.stgs.maxit) := by
  obtain ⟨h, -⟩ | ⟨w1, -, hs, ⟨k, e, hl, rfl, hend⟩ | ⟨-, h, -⟩⟩ := ecosSolve_cases h
  · exact absurd h hc
  · have h1 := leaves_spec hl
    have hi : w'.info.iter = k := by
      obtain ⟨-, rfl, -⟩ | ⟨-, hb, -⟩ := hend
      · exact h1.2.1
      · rw [(backscale_info hb).1]; exact h1.2.1
    have hk : (k : Int) ≤ w1.stgs.maxit := by obtain ⟨S, -, h, -⟩ := hl; exact h
    rw [hi, ← hs]
    refine ⟨hk, fun hm => ?_⟩
    obtain ⟨-, h | h | h | h | ⟨-, h⟩⟩ | ⟨-, h | h⟩ := leaves_code hl
    · have := h.code; simp only [MAXIT] at hm; omega
    · have := h.code; simp only [MAXIT, INACC] at hm this; omega
    · rw [h] at hm; exact absurd hm (by decide)
    · rw [h] at hm; exact absurd hm (by decide)
    · exact h
    · rw [h] at hm; exact absurd hm (by decide)
    · rw [h] at hm; exact absurd hm (by decide)
  · exact absurd h hc

/-! ### C24 -/

/-- the documented optimality conditions on the numbers in `info` -/
def MeetsTolerances (w : Work F) (feastol abstol reltol : F) : Prop :=
  ∃ pres dres gap relgap cx by_ hz, w.info.pres = some pres ∧ w.info.dres = some dres ∧
    w.info.gap = some gap ∧ w.info.relgap = some relgap ∧
    w.cx = some cx ∧ w.bY = some by_ ∧ w.hz = some hz ∧
    lt pres feastol = true ∧ lt dres feastol = true ∧
    (lt gap abstol = true ∨ lt relgap reltol = true) ∧
    (lt 0 (-cx) = true ∨ le (-abstol) (-by_ - hz) = true)

theorem Verdict.optimal {w' : Work F} {mode : Int} (h : Verdict w' mode mode) :
    MeetsTolerances w' (if mode = 0 then w'.stgs.feastol else w'.stgs.feastolInacc)
      (if mode = 0 then w'.stgs.abstol else w'.stgs.abstolInacc)
      (if mode = 0 then w'.stgs.reltol else w'.stgs.reltolInacc) := by
  obtain ⟨w0, h, h0⟩ := h
  obtain ⟨e, he, h | ⟨-, ho, rfl⟩ | h | h⟩ := checkExit_cases h
  · exact absurd h.1 h0
  · unfold exitIn at he
    simp only [bind_ok, pure_ok, get_ok] at he
    obtain ⟨cx, hcx, b, hb, hz, hhz, pres, hpres, dres, hdres, gap, hgap, relgap, hrelgap, pinfres, -,
      dinfres, -, tau, -, kap, -, rfl⟩ := he
    unfold isOptimal at ho
    simp only [Bool.and_eq_true, Bool.or_eq_true] at ho
    exact ⟨pres, dres, gap, relgap, cx, b, hz, hpres, hdres, hgap, hrelgap, hcx, hb, hhz, ho.1.2.1,
      ho.1.2.2, ho.2, ho.1.1⟩
  · have := h.1; simp only [DINF] at this; omega
  · have := h.1; simp only [PINF] at this; omega

/-- C24: if a solve says "optimal" (code 0) then the statistics in `info` meet the tolerances; with
code 10 they meet the reduced ones -/
theorem C24_optimal_tolerances {arrives : Nat → Bool} {w w' : Work F} {sig sig' : Sig} {code : Int}
    (h : ecosSolve arrives w sig = .ok (w', sig', code)) :
    (code = 0 → MeetsTolerances w' w'.stgs.feastol w'.stgs.abstol w'.stgs.reltol) ∧
    (code = 10 → MeetsTolerances w' w'.stgs.feastolInacc w'.stgs.abstolInacc w'.stgs.reltolInacc) ∧
    (code ≠ FATAL → w'.stgs = w.stgs) := by
  obtain ⟨h, -⟩ | ⟨w1, -, hs, ⟨k, e, hl, rfl, hend⟩ | ⟨-, h, -⟩⟩ := ecosSolve_cases h
  · rw [h]; exact ⟨fun h => absurd h (by decide), fun h => absurd h (by decide), fun h => absurd rfl h⟩
  · have hst : w'.stgs = w.stgs := by
      rw [← hs, ← (leaves_spec hl).1.stgs]
      obtain ⟨-, rfl, -⟩ | ⟨-, hb, -⟩ := hend
      · rfl
      · exact (backscale_info hb).2.1
    have tr : ∀ {ft at' rt}, MeetsTolerances e.w ft at' rt → MeetsTolerances w' ft at' rt := by
      intro ft at' rt hmt
      obtain ⟨-, rfl, -⟩ | ⟨-, hb, -⟩ := hend
      · exact hmt
      · have hi := backscale_info hb
        unfold MeetsTolerances at hmt ⊢
        rw [hi.1, hi.2.2.1, hi.2.2.2.1, hi.2.2.2.2.1]
        exact hmt
    have hst' : w'.stgs = e.w.stgs := by rw [hst, ← hs, ← (leaves_spec hl).1.stgs]
    refine ⟨fun hc => ?_, fun hc => ?_, fun _ => hst⟩
    · obtain ⟨-, h | h | h | h | ⟨h, -⟩⟩ | ⟨-, h | h⟩ := leaves_code hl
      · rw [hc] at h
        rw [hst']
        exact tr (by simpa using h.optimal)
      · have := h.code; simp only [INACC] at this; omega
      all_goals rw [h] at hc; exact absurd hc (by decide)
    · obtain ⟨-, h | h | h | h | ⟨h, -⟩⟩ | ⟨-, h | h⟩ := leaves_code hl
      · have := h.code; omega
      · rw [hc] at h
        rw [hst']
        exact tr (by simpa using h.optimal (mode := 10))
      all_goals rw [h] at hc; exact absurd hc (by decide)
  · rw [h]; exact ⟨fun h => absurd h (by decide), fun h => absurd h (by decide), fun h => absurd rfl h⟩

/-- C24, second half: with code 0 the statistics are those measured for the very iterate handed back,
in the last pass of this solve -/
theorem C24_optimal_iterate {arrives : Nat → Bool} {w w' : Work F} {sig sig' : Sig}
    (h : ecosSolve arrives w sig = .ok (w', sig', 0)) :
    ∃ w1 wm, Started w w1 ∧ Measured arrives w1 (initCtrlc sig) w'.info.iter wm ∧
      HandedBack wm w' := by
  obtain ⟨h, -⟩ | ⟨w1, hw1, hs, ⟨k, e, hl, hcode, hend⟩ | ⟨-, h, -⟩⟩ := ecosSolve_cases h
  · exact absurd h (by decide)
  · obtain ⟨he, rfl, -⟩ | ⟨-, hb, -⟩ := hend
    · obtain ⟨hf, -⟩ | ⟨-, h | h⟩ := leaves_code hl
      · simp_all
      all_goals rw [h] at hcode; exact absurd hcode (by decide)
    have h1 := leaves_spec hl
    have hi : w'.info.iter = k := by rw [(backscale_info hb).1]; exact h1.2.1
    obtain ⟨S, hS, hk, hp⟩ := hl
    obtain ⟨wm, hm, -, hcase⟩ := pass_inl hp
    have hmeas : Measured arrives w1 (initCtrlc sig) k wm := ⟨S, hS, hk, hm⟩
    have hne : ∀ {w2 d}, d = NUMERICS ∨ d = SIGINT ∨ d = MAXIT ∨ d = OUTCONE →
        ¬ recover w2 d = .ok (e.w, e.code) := by
      intro w2 d hd hr
      rw [hcode] at hr
      obtain h | h := recover_code hr
      · rw [← h] at hd; exact absurd hd (by decide)
      · have := h.code; simp only [INACC] at this; omega
    have hne' : ∀ {w2 d}, d = NUMERICS ∨ d = SIGINT ∨ d = MAXIT ∨ d = OUTCONE →
        ¬ recoverCmp w2 d = .ok (e.w, e.code) := by
      intro w2 d hd hr
      rw [hcode] at hr
      obtain h | h := recoverCmp_code hr
      · rw [← h] at hd; exact absurd hd (by decide)
      · have := h.code; simp only [INACC] at this; omega
    refine ⟨w1, wm, hw1, by rw [hi]; exact hmeas, ?_⟩
    obtain ⟨-, hr, -⟩ | ⟨hc, -, -⟩ | ⟨-, -, hn⟩ | ⟨-, -, wk, -, ht⟩ := hcase
    · exact absurd hr (hne (Or.inl rfl))
    · exact backscale_spec hb h1.1 (measured_data hmeas) (checkExit_fr hc).2.1
    · obtain ⟨-, hr⟩ | ⟨-, hr⟩ | ⟨-, -, -, hr⟩ := notYet_inl hn
      · exact absurd hr (hne (Or.inl rfl))
      · exact absurd hr (hne' (by split <;> simp))
      · exact absurd hr (hne' (Or.inl rfl))
    · obtain ⟨w2, -, ⟨hr, -⟩ | ⟨-, hr, -⟩ | ⟨hr, -⟩⟩ := passTail_inl ht
      · exact absurd hr (hne (Or.inr (Or.inr (Or.inr rfl))))
      · rw [hr] at hcode; exact absurd hcode (by decide)
      · exact absurd hr (hne (Or.inl rfl))
  · exact absurd h (by decide)

/-! ### C26 -/

/-- C26 (partial): after a return other than `OUTCONE`/`FATAL`, if the solve did not stop in pass 0 by
restoring a best iterate, the variables handed back are an iterate of this very solve and `info`
describes it.  Missing: the excluded case, in which the claim is false (see `C26_stale` and the runs in
`Props/DriverExample.lean`) -/
theorem C26_returned_partial {arrives : Nat → Bool} {w w' : Work F} {sig sig' : Sig} {code : Int}
    (h : ecosSolve arrives w sig = .ok (w', sig', code)) (h1 : code ≠ OUTCONE) (h2 : code ≠ FATAL)
    (h3 : 0 < w'.info.iter ∨ code = 0 ∨ code = 1 ∨ code = 2) :
    ∃ w1 wm j, Started w w1 ∧ j ≤ w'.info.iter ∧ Measured arrives w1 (initCtrlc sig) j wm ∧
      HandedBack wm w' := by
  obtain ⟨h, -⟩ | ⟨w1, hw1, hs, ⟨k, e, hl, hcode, hend⟩ | ⟨-, h, -⟩⟩ := ecosSolve_cases h
  · exact absurd h h2
  · obtain ⟨he, rfl, -⟩ | ⟨-, hb, -⟩ := hend
    · obtain ⟨hf, -⟩ | ⟨-, h | h⟩ := leaves_code hl
      · simp_all
      · exact absurd (hcode.symm.trans h) h1
      · exact absurd (hcode.symm.trans h) h2
    · have h5 := leaves_spec hl
      have hi : w'.info.iter = k := by rw [(backscale_info hb).1]; exact h5.2.1
      obtain ⟨j, wm, hj, hmeas, hd⟩ | ⟨h0, wm, d, hmeas, hcmp, hrec, hd⟩ := h5.2.2
      · exact ⟨w1, wm, j, hw1, by omega, hmeas, backscale_spec hb h5.1 (measured_data hmeas) hd⟩
      · exfalso
        have hcd : e.code = d ∨ Verdict e.w e.code INACC := recover_code hrec
        have hdn : d = MAXIT ∨ d = SIGINT ∨ d = NUMERICS := by
          obtain ⟨-, h⟩ | ⟨-, h⟩ | ⟨-, h⟩ := hd <;> simp [h]
        rw [hi, h0] at h3
        obtain h3 | h3 := h3
        · omega
        · rw [hcode] at hcd
          obtain h | h := hcd
          · rw [h] at h3
            unfold MAXIT SIGINT NUMERICS at hdn
            omega
          · have := h.code
            unfold INACC at this
            omega
  · exact absurd h h2

/-- C26, the excluded case: a solve that stops in pass 0 because of `maxit = 0`, an interrupt or a NaN
cost, and whose starting point does not beat the statistics left in `best_info`, hands back the content
of the best iterate left in the workspace by an earlier solve -/
theorem C26_stale {arrives : Nat → Bool} {w1 : Work F} {sig : Sig} {e : Exit F}
    (h : Leaves arrives w1 sig 0 e)
    (hno : ∀ wm, Measured arrives w1 sig 0 wm → ¬ Describes e.w wm) :
    EqOn w1.n e.w.x w1.bestX ∧ e.w.tau = w1.bestTau ∧ e.w.info.pcost = w1.bestInfo.pcost := by
  obtain ⟨hdat, -, ⟨j, wm, hj, hmeas, hd⟩ | ⟨-, wm, d, hmeas, hcmp, hrec, -⟩⟩ := leaves_spec h
  · have : j = 0 := by omega
    subst this
    exact absurd hd (hno wm hmeas)
  · obtain ⟨S, hS, -, hm⟩ := hmeas
    have hi := (atHead_inv hS)
    have h1 := passHead_fr hm
    have hS0 := hi.best0 rfl
    have hb : BestIs S.w { w1 with
        x := w1.bestX, y := w1.bestY, z := w1.bestZ, s := w1.bestS, kap := w1.bestKap, tau := w1.bestTau, cx := w1.bestCx, bY := w1.bestBy, hz := w1.bestHz,
        info := w1.bestInfo } := by
      rw [hS0]
      exact ⟨.refl _, .refl _, .refl _, .refl _, rfl, rfl, rfl, rfl, rfl, .refl _⟩
    have := recover_fr hrec (h1.2.2.2.1 _ hb)
    refine ⟨?_, this.2.1.iterate.tau, this.2.1.stats.pcost⟩
    have hx := this.2.1.iterate.x
    rw [hdat.n] at hx
    exact hx

/-! ### C27 -/

/-- C27: on every return except `OUTCONE` and `FATAL` the handler that was active before the call is
active again -/
theorem C27_handler_restored {arrives : Nat → Bool} {w w' : Work F} {sig sig' : Sig} {code : Int}
    (h : ecosSolve arrives w sig = .ok (w', sig', code)) (h1 : code ≠ OUTCONE) (h2 : code ≠ FATAL) :
    sig'.cur = sig.cur := by
  obtain ⟨h, -⟩ | ⟨w1, hw1, hs, ⟨k, e, hl, hcode, hend⟩ | ⟨-, h, -⟩⟩ := ecosSolve_cases h
  · exact absurd h h2
  · obtain ⟨he, rfl, -⟩ | ⟨-, hb, rfl⟩ := hend
    · obtain ⟨hf, -⟩ | ⟨-, h | h⟩ := leaves_code hl
      · simp_all
      · exact absurd (hcode.symm.trans h) h1
      · exact absurd (hcode.symm.trans h) h2
    · show e.sig.oact = _
      rw [(leaves_sig hl).2]
      rfl
  · exact absurd h h2

/-- C27, the other returns: after `OUTCONE`, the handler of ECOS stays installed -/
theorem C27_handler_left_violated {arrives : Nat → Bool} {w w' : Work F} {sig sig' : Sig}
    (h : ecosSolve arrives w sig = .ok (w', sig', OUTCONE)) : sig'.cur = .ecos := by
  obtain ⟨h, -⟩ | ⟨w1, hw1, hs, ⟨k, e, hl, hcode, hend⟩ | ⟨-, h, -⟩⟩ := ecosSolve_cases h
  · exact absurd h (by decide)
  · obtain ⟨he, rfl, rfl⟩ | ⟨he, hb, rfl⟩ := hend
    · rw [(leaves_sig hl).1]; rfl
    · exfalso
      obtain ⟨-, h | h | h | h | ⟨h, -⟩⟩ | ⟨h, -⟩ := leaves_code hl
      · have := h.code; rw [hcode] at this; unfold OUTCONE at this; omega
      · have := h.code; rw [hcode] at this; unfold OUTCONE INACC at this; omega
      · rw [h] at hcode; exact absurd hcode (by decide)
      · rw [h] at hcode; exact absurd hcode (by decide)
      · rw [h] at hcode; exact absurd hcode (by decide)
      · rw [he] at h; cases h
  · exact absurd h (by decide)

/-- C27: no pass is completed after an interrupt was seen: the last pass is the first one before whose
check a SIGINT arrived (if any), and its code is the interrupt code, a verdict or `NUMERICS` -/
theorem C27_interrupt_ends {arrives : Nat → Bool} {w w' : Work F} {sig sig' : Sig} {code : Int}
    (h : ecosSolve arrives w sig = .ok (w', sig', code)) (h2 : code ≠ FATAL) :
    (∀ j, j < w'.info.iter → arrives j = false) ∧
    (arrives w'.info.iter = true → code = SIGINT ∨ code = NUMERICS ∨
      code = 0 ∨ code = 1 ∨ code = 2 ∨ code = 10 ∨ code = 11 ∨ code = 12) := by
  obtain ⟨h, -⟩ | ⟨w1, hw1, hs, ⟨k, e, hl, hcode, hend⟩ | ⟨-, h, -⟩⟩ := ecosSolve_cases h
  · exact absurd h h2
  · have hi : w'.info.iter = k := by
      obtain ⟨-, rfl, -⟩ | ⟨-, hb, -⟩ := hend
      · exact (leaves_spec hl).2.1
      · rw [(backscale_info hb).1]; exact (leaves_spec hl).2.1
    rw [hi]
    have hA : ∀ {k S}, AtHead arrives w1 (initCtrlc sig) k S →
        S.sig.cur = .ecos ∧ ∀ j, j < k → arrives j = false := by
      intro k S hS
      induction hS with
      | start => exact ⟨rfl, fun j hj => by omega⟩
      | @next k S S' hS _ hp ih =>
        obtain ⟨wm, wk, -, hs, -, -, hn, -⟩ := pass_inr hp
        have hdet := (notYet_inr hn).2.1
        have hcur : S'.sig.cur = .ecos := by
          rw [hs]; unfold deliver; split
          · exact ih.1
          · exact ih.1
        refine ⟨hcur, fun j hj => ?_⟩
        by_cases hjk : j = k
        · subst hjk
          cases ha : arrives j with
          | false => rfl
          | true =>
            rw [ha] at hdet
            unfold deliver at hdet
            rw [ih.1] at hdet
            simp at hdet
        · exact ih.2 j (by omega)
    obtain ⟨S, hS, hk, hp⟩ := id hl
    refine ⟨(hA hS).2, fun ha => ?_⟩
    have hdet : (deliver S.sig (arrives k)).det = true := by
      unfold deliver; rw [ha, (hA hS).1]; simp
    have hv : ∀ {m}, m = 0 ∨ m = INACC → Verdict e.w e.code m → code = SIGINT ∨ code = NUMERICS ∨
        code = 0 ∨ code = 1 ∨ code = 2 ∨ code = 10 ∨ code = 11 ∨ code = 12 := by
      intro m hm h
      have := h.code
      rw [hcode] at this
      unfold INACC at hm
      omega
    obtain ⟨wm, hm, hsig, hcase⟩ := pass_inl hp
    obtain ⟨hb, hr, he⟩ | ⟨hc, h0, he⟩ | ⟨-, he, hn⟩ | ⟨-, hn, wk, hkb, ht⟩ := hcase
    · obtain h | h := recover_code hr
      · exact Or.inr (Or.inl (hcode.symm.trans h))
      · exact hv (Or.inr rfl) h
    · exact hv (Or.inl rfl) ⟨_, hc, h0⟩
    · obtain ⟨-, hr⟩ | ⟨-, hr⟩ | ⟨hi, -, -, hr⟩ := notYet_inl hn
      · obtain h | h := recover_code hr
        · exact Or.inr (Or.inl (hcode.symm.trans h))
        · exact hv (Or.inr rfl) h
      · rw [hdet] at hr
        obtain h | h := recoverCmp_code hr
        · exact Or.inl (hcode.symm.trans h)
        · exact hv (Or.inr rfl) h
      · rw [hdet] at hi; cases hi
    · rw [hdet] at hn
      have := (notYet_inr hn).2.1
      cases this
  · exact absurd h h2

/-- C27: `SIGINT` is only reported when an interrupt arrived while this solve was running; one that was noticed by an
earlier solve (`sig.det`) does not stop this one. -/
theorem C27_no_spurious {arrives : Nat → Bool} {w w' : Work F} {sig sig' : Sig}
    (h : ecosSolve arrives w sig = .ok (w', sig', SIGINT)) : arrives w'.info.iter = true := by
  obtain ⟨h, -⟩ | ⟨w1, hw1, hs, ⟨k, e, hl, hcode, hend⟩ | ⟨-, h, -⟩⟩ := ecosSolve_cases h
  · exact absurd h (by decide)
  · have hi : w'.info.iter = k := by
      obtain ⟨-, rfl, -⟩ | ⟨-, hb, -⟩ := hend
      · exact (leaves_spec hl).2.1
      · rw [(backscale_info hb).1]; exact (leaves_spec hl).2.1
    rw [hi]
    have hA : ∀ {k S}, AtHead arrives w1 (initCtrlc sig) k S → S.sig.det = false := by
      intro k S hS
      cases hS with
      | start => rfl
      | @next k S S' hS _ hp =>
        obtain ⟨wm, wk, -, hs, -, -, hn, -⟩ := pass_inr hp
        rw [hs]
        exact (notYet_inr hn).2.1
    obtain ⟨S, hS, hk, hp⟩ := id hl
    have hv : ∀ {m}, m = 0 ∨ m = INACC → Verdict e.w e.code m → arrives k = true := by
      intro m hm h
      have := h.code
      rw [hcode] at this
      unfold INACC at hm
      unfold SIGINT at this
      omega
    have hcs : ∀ {d : Int}, d ≠ SIGINT → e.code = d → arrives k = true := fun hd h => absurd (h.symm.trans hcode) hd
    have hdet : (deliver S.sig (arrives k)).det = true → arrives k = true := by
      unfold deliver
      cases arrives k with
      | true => exact fun _ => rfl
      | false => simp [hA hS]
    obtain ⟨wm, hm, hsig, hcase⟩ := pass_inl hp
    obtain ⟨hb, hr, he⟩ | ⟨hc, h0, he⟩ | ⟨-, he, hn⟩ | ⟨-, hn, wk, hkb, ht⟩ := hcase
    · obtain h | h := recover_code hr
      · exact hcs (by decide) h
      · exact hv (Or.inr rfl) h
    · exact hv (Or.inl rfl) ⟨_, hc, h0⟩
    · obtain ⟨-, hr⟩ | ⟨hd, hr⟩ | ⟨hi, -, -, hr⟩ := notYet_inl hn
      · obtain h | h := recover_code hr
        · exact hcs (by decide) h
        · exact hv (Or.inr rfl) h
      · cases hd' : (deliver S.sig (arrives k)).det with
        | true => exact hdet hd'
        | false =>
          rw [hd'] at hr
          obtain h | h := recoverCmp_code hr
          · exact hcs (by decide) h
          · exact hv (Or.inr rfl) h
      · obtain h | h := recoverCmp_code hr
        · exact hcs (by decide) h
        · exact hv (Or.inr rfl) h
    · obtain ⟨w1, -, ⟨hr, -⟩ | ⟨-, h, -⟩ | ⟨hr, -⟩⟩ := passTail_inl ht
      · obtain h | h := recover_code hr
        · exact hcs (by decide) h
        · exact hv (Or.inr rfl) h
      · exact hcs (by decide) h
      · obtain h | h := recover_code hr
        · exact hcs (by decide) h
        · exact hv (Or.inr rfl) h
  · exact absurd h (by decide)

end generic
end Ecos
