import Verif.Props.Driver

/-!
# C44: undefined statistics never trigger a verdict

The number type is `XR`: reals with infinities and NaN under the IEEE comparison rules.
-/
namespace Ecos

/-- not NaN -/
def Def (x : XR) : Prop := x ≠ .nan

theorem lt_def {a b : XR} (h : lt a b = true) : Def a ∧ Def b := by
  constructor <;> rintro rfl <;> simp at h

theorem le_def {a b : XR} (h : le a b = true) : Def a ∧ Def b := by
  constructor <;> rintro rfl
  · cases b <;> cases h
  · cases a <;> cases h

theorem neg_def {a : XR} (h : Def (-a)) : Def a := by
  rintro rfl; exact h rfl

theorem sub_def {a b : XR} (h : Def (a - b)) : Def a ∧ Def b := by
  constructor
  · rintro rfl; apply h; cases b <;> rfl
  · rintro rfl; apply h; cases a <;> rfl

/-- C44: an "optimal" verdict rests on defined numbers: both residuals are defined and below the
tolerance, and a gap that is defined and below its tolerance, and a defined sign condition -/
theorem C44_optimal {e : ExitIn XR} {feastol abstol reltol : XR}
    (h : isOptimal e feastol abstol reltol = true) :
    Def e.pres ∧ Def e.dres ∧ ((Def e.gap ∧ lt e.gap abstol = true) ∨
      (Def e.relgap ∧ lt e.relgap reltol = true)) ∧ (Def e.cx ∨ (Def e.by_ ∧ Def e.hz)) := by
  unfold isOptimal at h
  simp only [Bool.and_eq_true, Bool.or_eq_true] at h
  obtain ⟨⟨h1, h2, h3⟩, h4⟩ := h
  refine ⟨(lt_def h2).1, (lt_def h3).1, ?_, ?_⟩
  · obtain h | h := h4
    · exact Or.inl ⟨(lt_def h).1, h⟩
    · exact Or.inr ⟨(lt_def h).1, h⟩
  · obtain h | h := h1
    · exact Or.inl (neg_def (lt_def h).2)
    · have := sub_def (le_def h).2
      exact Or.inr ⟨neg_def this.1, this.2⟩

/-- C44: a "dual infeasible" verdict rests on defined numbers -/
theorem C44_dual_infeasible {e : ExitIn XR} {feastol : XR} (h : isDinf e feastol = true) :
    Def e.dinfres ∧ lt e.dinfres feastol = true ∧ Def e.tau ∧ Def e.kap ∧ lt e.tau e.kap = true := by
  unfold isDinf at h
  simp only [Bool.and_eq_true] at h
  exact ⟨(lt_def h.1.2).1, h.1.2, (lt_def h.2).1, (lt_def h.2).2, h.2⟩

/-- C44: a "primal infeasible" verdict rests on defined numbers -/
theorem C44_primal_infeasible {e : ExitIn XR} {feastol feastol0 : XR}
    (h : isPinf e feastol feastol0 = true) :
    Def e.pinfres ∧ Def e.tau ∧ Def e.kap ∧
      ((lt e.pinfres feastol = true ∧ lt e.tau e.kap = true) ∨
       (lt e.pinfres feastol0 = true ∧ lt e.tau feastol0 = true ∧ lt e.kap feastol0 = true)) := by
  unfold isPinf at h
  simp only [Bool.and_eq_true, Bool.or_eq_true] at h
  obtain ⟨⟨-, h1⟩, h2⟩ | ⟨⟨h1, h2⟩, h3⟩ := h
  · exact ⟨(lt_def h1).1, (lt_def h2).1, (lt_def h2).2, Or.inl ⟨h1, h2⟩⟩
  · exact ⟨(lt_def h3).1, (lt_def h1).1, (lt_def h2).1, Or.inr ⟨h3, h1, h2⟩⟩

/-- C44 for a whole solve: the code "optimal" (full or reduced accuracy) is never returned with
undefined residuals in `info` -/
theorem C44_solve {arrives : Nat → Bool} {w w' : Work XR} {sig sig' : Sig} {code : Int}
    (h : ecosSolve arrives w sig = .ok (w', sig', code)) (hc : code = 0 ∨ code = 10) :
    ∃ pres dres gap relgap, w'.info.pres = some pres ∧ w'.info.dres = some dres ∧
      w'.info.gap = some gap ∧ w'.info.relgap = some relgap ∧
      Def pres ∧ Def dres ∧ (Def gap ∨ Def relgap) := by
  have h1 := C24_optimal_tolerances h
  have key : ∀ {ft at' rt}, MeetsTolerances w' ft at' rt → ∃ pres dres gap relgap,
      w'.info.pres = some pres ∧ w'.info.dres = some dres ∧
      w'.info.gap = some gap ∧ w'.info.relgap = some relgap ∧
      Def pres ∧ Def dres ∧ (Def gap ∨ Def relgap) := by
    rintro ft at' rt ⟨pres, dres, gap, relgap, cx, b, hz, e1, e2, e3, e4, -, -, -, h2, h3, h4, -⟩
    refine ⟨pres, dres, gap, relgap, e1, e2, e3, e4, (lt_def h2).1, (lt_def h3).1, ?_⟩
    obtain h | h := h4
    · exact Or.inl (lt_def h).1
    · exact Or.inr (lt_def h).1
  obtain hc | hc := hc
  · exact key (h1.1 hc)
  · exact key (h1.2.1 hc)

theorem andM_true {a : Bool} {m : M Bool} (h : andM a m = .ok true) : a = true ∧ m = .ok true := by
  unfold andM at h
  cases a with
  | true => exact ⟨rfl, by simpa using h⟩
  | false => simp [pure_ok] at h

theorem cmpPos_true {a b : Option XR} (h : cmpPos a b = .ok true) :
    ∃ x y, a = some x ∧ b = some y ∧ lt x y = true ∧ lt 0 x = true := by
  unfold cmpPos at h
  simp only [bind_ok, get_ok] at h
  obtain ⟨x, hx, h⟩ := h
  have h1 := andM_true h
  simp only [bind_ok, get_ok] at h1
  obtain ⟨h0, y, hy, h2⟩ := h1
  have h3 := andM_true h2
  rw [pure_ok] at h3
  exact ⟨x, y, hx, hy, h3.2, h0⟩

theorem cmpLt_true {a b : Option XR} (h : cmpLt a b = .ok true) :
    ∃ x y, a = some x ∧ b = some y ∧ lt x y = true ∧ lt 0 x = true := by
  unfold cmpLt at h
  simp only [bind_ok, get_ok] at h
  obtain ⟨x, hx, h⟩ := h
  have h1 := andM_true h
  simp only [bind_ok, get_ok, pure_ok] at h1
  obtain ⟨h0, y, hy, h2⟩ := h1
  exact ⟨x, y, hx, hy, h2, h0⟩

/-- a field is written, defined, and positive -/
def Good (o : Option XR) : Prop := ∃ x, o = some x ∧ Def x ∧ lt 0 x = true

/-- C44: the comparison only prefers an iterate whose merit is defined: gap and `mu` are defined
and positive, and so are either the infeasibility residual (when kappa/tau > 1) or both residuals and
kappa/tau -/
theorem C44_compare {a b : Stats XR} (h : compareStatistics a b = .ok true) :
    Good a.gap ∧ Good a.mu ∧
      ((Good a.pinfres ∧ ∃ k, a.kapovert = some k ∧ lt 1 k = true) ∨
       (Good a.pres ∧ Good a.dres ∧ Good a.kapovert)) := by
  have gP : ∀ {x y : Option XR}, cmpPos x y = .ok true → Good x := by
    intro x y h
    obtain ⟨u, v, h1, -, h2, h3⟩ := cmpPos_true h
    exact ⟨u, h1, (lt_def h2).1, h3⟩
  have gL : ∀ {x y : Option XR}, cmpLt x y = .ok true → Good x := by
    intro x y h
    obtain ⟨u, v, h1, -, h2, h3⟩ := cmpLt_true h
    exact ⟨u, h1, (lt_def h2).1, h3⟩
  unfold compareStatistics at h
  simp only [bind_ok, get_ok] at h
  obtain ⟨pa, hpa, c, hc, h⟩ := h
  cases c with
  | true =>
    have hc' := andM_true hc
    simp only [bind_ok, get_ok, pure_ok] at hc'
    obtain ⟨-, k, hk, hk1⟩ := hc'
    simp only [if_true, bind_ok] at h
    obtain ⟨pb, -, h⟩ := h
    have hNaN : (!eqb pb (NAN : XR)) = true := by
      have : (NAN : XR) = .nan := rfl
      rw [this]
      cases pb <;> rfl
    rw [if_pos hNaN] at h
    simp only [bind_ok] at h
    obtain ⟨r1, h1, r2, h2, h3⟩ := h
    have h3' := andM_true h3
    rw [h3'.1] at h2
    have h2' := andM_true h2
    rw [h2'.1] at h1
    exact ⟨gP h1, gL h3'.2, Or.inl ⟨gL h2'.2, k, hk, hk1⟩⟩
  | false =>
    simp only [Bool.false_eq_true, if_false, bind_ok] at h
    obtain ⟨r1, h1, r2, h2, r3, h3, r4, h4, h5⟩ := h
    have h5' := andM_true h5
    rw [h5'.1] at h4
    have h4' := andM_true h4
    rw [h4'.1] at h3
    have h3' := andM_true h3
    rw [h3'.1] at h2
    have h2' := andM_true h2
    rw [h2'.1] at h1
    exact ⟨gP h1, gL h5'.2, Or.inr ⟨gL h2'.2, gL h3'.2, gL h4'.2⟩⟩

/-- a comparison that succeeds, so that the hypotheses of `C44_compare` can be met: all fields 1
against all fields 2, although the infeasibility residual is NaN on both sides -/
example :
    let f (r : ℝ) : Stats XR :=
      { gap := some (.fin r), mu := some (.fin r), pres := some (.fin r), dres := some (.fin r),
        kapovert := some (.fin (r / 2)), pinfres := some .nan }
    compareStatistics (f 1) (f 2) = .ok true := by
  have hN : (NAN : XR) = .nan := rfl
  simp [compareStatistics, get, andM, cmpPos, cmpLt, hN, bind, Except.bind, pure, Except.pure]
  norm_num

/-- numbers that lead to each verdict -/
example : isOptimal (⟨.fin 1, .fin 0, .fin 0, .fin 0, .fin 0, .nan, .fin 0, .nan, .nan, .fin 1, .fin 0⟩ :
    ExitIn XR) (.fin 1) (.fin 1) (.fin 1) = true := by
  simp [isOptimal]
example : isPinf (⟨.fin 1, .fin 0, .fin 0, .nan, .nan, .nan, .nan, .fin 0, .nan, .fin 1, .fin 2⟩ :
    ExitIn XR) (.fin 1) (.fin 1) = true := by
  have hN : (NAN : XR) = .nan := rfl
  have : eqb (XR.fin 0) XR.nan = false := rfl
  simp [isPinf, hN, this]
example : isDinf (⟨.fin 1, .fin 0, .fin 0, .nan, .nan, .nan, .nan, .nan, .fin 0, .fin 1, .fin 2⟩ :
    ExitIn XR) (.fin 1) = true := by
  have hN : (NAN : XR) = .nan := rfl
  have : eqb (XR.fin 0) XR.nan = false := rfl
  simp [isDinf, hN, this]

end Ecos
