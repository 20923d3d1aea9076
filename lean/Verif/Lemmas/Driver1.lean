import Verif.Spec.Solve
import Verif.Core.Runs

/-!
# How `ECOS_solve` ends
-/
namespace Ecos

theorem bind_ok {α β : Type} (m : M α) (f : α → M β) (b : β) :
    (m >>= f) = .ok b ↔ ∃ a, m = .ok a ∧ f a = .ok b := by
  cases m with
  | ok a => simp
  | error e => simp

theorem pure_ok {α : Type} (a b : α) : ((pure a : M α) = .ok b) ↔ a = b := by
  show (Except.ok a = Except.ok b) ↔ _
  simp

theorem loopE_runs {σ ρ : Type} {bad : UB → Prop} {lo hi : Nat} {s : σ}
    {body : Nat → σ → M (ρ ⊕ σ)} (I : Nat → σ → Prop) (E : ρ → Prop) (h0 : I lo s)
    (hstep : ∀ i s, lo ≤ i → i < hi → I i s → Runs bad (body i s) fun r =>
      match r with
      | .inl e => E e
      | .inr s => I (i + 1) s) :
    Runs bad (loopE lo hi s body) fun r =>
      match r with
      | .inl e => E e
      | .inr s => I (max lo hi) s := by
  induction hn : hi - lo generalizing lo s with
  | zero =>
    unfold loopE
    rw [if_neg (by omega), Runs_ok]
    have : max lo hi = lo := by omega
    rw [this]; exact h0
  | succ k ih =>
    have hlt : lo < hi := by omega
    unfold loopE
    rw [if_pos hlt, Runs_bind]
    refine (hstep lo s (Nat.le_refl _) hlt h0).mono ?_
    intro r hr
    cases r with
    | inl e => exact hr
    | inr s' =>
      have := ih (lo := lo + 1) hr (fun i s h1 h2 => hstep i s (by omega) h2) (by omega)
      have e : max (lo + 1) hi = max lo hi := by omega
      rw [e] at this
      exact this

set_option linter.unusedSectionVars false

section generic
variable {F : Type} [Zero F] [One F] [Add F] [Sub F] [Mul F] [Div F] [Neg F] [OfScientific F]
  [IntCast F] [PFloat F] [HasInf F]

/-- partial correctness -/
abbrev Part {α : Type} (m : M α) (Q : α → Prop) : Prop := Runs (fun _ => True) m Q

theorem Part.of {α : Type} {m : M α} {Q : α → Prop} (h : ∀ a, m = .ok a → Q a) : Part m Q := by
  cases m with
  | ok a => exact h a rfl
  | error e => trivial

theorem checkExit_cases {w w' : Work F} {mode c : Int}
    (h : checkExitConditions w mode = .ok (w', c)) :
    ∃ e, exitIn w = .ok e ∧
      ((c = NOTYET ∧ w' = w) ∨
       (c = OPTIMAL + mode ∧
          isOptimal e (if mode = 0 then w.stgs.feastol else w.stgs.feastolInacc)
            (if mode = 0 then w.stgs.abstol else w.stgs.abstolInacc)
            (if mode = 0 then w.stgs.reltol else w.stgs.reltolInacc) = true ∧
          w' = { w with info := { w.info with pinf := some 0, dinf := some 0 } }) ∨
       (c = DINF + mode ∧
          isDinf e (if mode = 0 then w.stgs.feastol else w.stgs.feastolInacc) = true ∧
          w' = { w with info := { w.info with pinf := some 0, dinf := some 1 } }) ∨
       (c = PINF + mode ∧
          isPinf e (if mode = 0 then w.stgs.feastol else w.stgs.feastolInacc) w.stgs.feastol = true ∧
          w' = { w with info := { w.info with pinf := some 1, dinf := some 0 } })) := by
  unfold checkExitConditions at h
  rw [bind_ok] at h
  obtain ⟨e, he, h⟩ := h
  refine ⟨e, he, ?_⟩
  generalize (if mode = 0 then w.stgs.feastol else w.stgs.feastolInacc) = ft at h ⊢
  generalize (if mode = 0 then w.stgs.abstol else w.stgs.abstolInacc) = at' at h ⊢
  generalize (if mode = 0 then w.stgs.reltol else w.stgs.reltolInacc) = rt at h ⊢
  split at h
  · next h1 =>
    rw [pure_ok] at h
    obtain ⟨rfl, rfl⟩ := Prod.mk.inj h
    exact Or.inr (Or.inl ⟨rfl, h1, rfl⟩)
  · split at h
    · next h1 =>
      rw [pure_ok] at h
      obtain ⟨rfl, rfl⟩ := Prod.mk.inj h
      exact Or.inr (Or.inr (Or.inl ⟨rfl, h1, rfl⟩))
    · split at h
      · next h1 =>
        rw [pure_ok] at h
        obtain ⟨rfl, rfl⟩ := Prod.mk.inj h
        exact Or.inr (Or.inr (Or.inr ⟨rfl, h1, rfl⟩))
      · rw [pure_ok] at h
        obtain ⟨rfl, rfl⟩ := Prod.mk.inj h
        exact Or.inl ⟨rfl, rfl⟩

theorem checkExit_notyet {w w' : Work F} {mode : Int} (hm : mode = 0 ∨ mode = 10)
    (h : checkExitConditions w mode = .ok (w', NOTYET)) : w' = w := by
  obtain ⟨e, _, h | h | h | h⟩ := checkExit_cases h
  · exact h.2
  all_goals
    have := h.1
    simp only [NOTYET, OPTIMAL, DINF, PINF] at this
    omega

/-- what `inaccOr` does -/
theorem inaccOr_cases {w w' : Work F} {d c : Int} (h : inaccOr w d = .ok (w', c)) :
    (c = d ∧ w' = w ∧ checkExitConditions w INACC = .ok (w, NOTYET)) ∨
    (c ≠ NOTYET ∧ checkExitConditions w INACC = .ok (w', c)) := by
  unfold inaccOr at h
  rw [bind_ok] at h
  obtain ⟨⟨w1, c1⟩, h1, h⟩ := h
  rw [pure_ok] at h
  obtain ⟨rfl, rfl⟩ := Prod.mk.inj h
  by_cases hc : c1 = NOTYET
  · subst hc
    have := checkExit_notyet (Or.inr rfl) h1
    subst this
    exact Or.inl ⟨by simp, rfl, h1⟩
  · right
    simp only [hc, if_false]
    exact ⟨hc, h1⟩

theorem recover_cases {w w' : Work F} {d c : Int} (h : recover w d = .ok (w', c)) :
    ∃ wr, restoreBestIterate w = .ok wr ∧ inaccOr wr d = .ok (w', c) := by
  unfold recover at h
  rw [bind_ok] at h
  exact h

theorem recoverCmp_cases {w w' : Work F} {d c : Int} (h : recoverCmp w d = .ok (w', c)) :
    (compareStatistics w.info w.bestInfo = .ok true ∧ inaccOr w d = .ok (w', c)) ∨
    (compareStatistics w.info w.bestInfo = .ok false ∧ recover w d = .ok (w', c)) := by
  unfold recoverCmp at h
  rw [bind_ok] at h
  obtain ⟨b, hb, h⟩ := h
  cases b with
  | true => exact Or.inl ⟨hb, by simpa using h⟩
  | false => exact Or.inr ⟨hb, by simpa using h⟩

/-- the four ways out of the tests after a failed full-precision check -/
theorem notYet_inl {w w' : Work F} {int : Bool} {c : Int}
    (h : notYet w int = .ok (.inl (w', c))) :
    (0 < w.info.iter ∧ recover w NUMERICS = .ok (w', c)) ∨
    ((int = true ∨ (w.info.iter : Int) = w.stgs.maxit) ∧
      recoverCmp w (if int then SIGINT else MAXIT) = .ok (w', c)) ∨
    (int = false ∧ (w.info.iter : Int) ≠ w.stgs.maxit ∧ (∃ v, w.info.pcost = some v ∧ PFloat.isNaN v = true) ∧
      recoverCmp w NUMERICS = .ok (w', c)) := by
  unfold notYet at h
  simp only [bind_ok] at h
  obtain ⟨st, -, pc, hpc, h⟩ := h
  split at h
  · next h1 =>
    simp only [bind_ok, pure_ok, Sum.inl.injEq] at h
    obtain ⟨r, hr, rfl⟩ := h
    refine Or.inl ⟨?_, hr⟩
    simp only [Bool.and_eq_true, decide_eq_true_eq] at h1
    exact h1.1
  · split at h
    · next h1 =>
      simp only [bind_ok, pure_ok, Sum.inl.injEq] at h
      obtain ⟨r, hr, rfl⟩ := h
      refine Or.inr (Or.inl ⟨?_, hr⟩)
      simpa using h1
    · next h1 =>
      split at h
      · next h2 =>
        simp only [bind_ok, pure_ok, Sum.inl.injEq] at h
        obtain ⟨r, hr, rfl⟩ := h
        simp only [Bool.or_eq_true, decide_eq_true_eq, not_or, Bool.not_eq_true] at h1
        refine Or.inr (Or.inr ⟨h1.1, h1.2, ⟨pc, ?_, h2⟩, hr⟩)
        unfold get at hpc
        split at hpc
        · next heq => rw [heq]; simpa using hpc
        · cases hpc
      · simp [pure_ok] at h

theorem notYet_inr {w w' : Work F} {int : Bool}
    (h : notYet w int = .ok (.inr w')) :
    w' = w ∧ int = false ∧ (w.info.iter : Int) ≠ w.stgs.maxit := by
  unfold notYet at h
  simp only [bind_ok] at h
  obtain ⟨st, -, pc, hpc, h⟩ := h
  split at h
  · simp only [bind_ok, pure_ok, reduceCtorEq, and_false, exists_false] at h
  · split at h
    · simp only [bind_ok, pure_ok, reduceCtorEq, and_false, exists_false] at h
    · next h1 =>
      split at h
      · simp only [bind_ok, pure_ok, reduceCtorEq, and_false, exists_false] at h
      · simp only [pure_ok, Sum.inr.injEq] at h
        simp only [Bool.or_eq_true, decide_eq_true_eq, not_or, Bool.not_eq_true] at h1
        exact ⟨h.symm, h1.1, h1.2⟩

/-- everything that can happen in a pass that leaves the loop -/
theorem pass_inl {arrives : Nat → Bool} {k : Nat} {S : LoopS F} {e : Exit F}
    (h : pass arrives k S = .ok (.inl e)) :
    ∃ wm, passHead S.w k = .ok wm ∧ e.sig = deliver S.sig (arrives k) ∧
      ((unreliable wm.info S.presPrev = .ok true ∧ recover wm NUMERICS = .ok (e.w, e.code) ∧
          e.early = false) ∨
       (checkExitConditions wm 0 = .ok (e.w, e.code) ∧ e.code ≠ NOTYET ∧ e.early = false) ∨
       (checkExitConditions wm 0 = .ok (wm, NOTYET) ∧ e.early = false ∧
          notYet wm (deliver S.sig (arrives k)).det = .ok (.inl (e.w, e.code))) ∨
       (checkExitConditions wm 0 = .ok (wm, NOTYET) ∧
          notYet wm (deliver S.sig (arrives k)).det = .ok (.inr wm) ∧
          ∃ wk, keepBest wm = .ok wk ∧ passTail wk = .ok (.inl (e.w, e.code, e.early)))) := by
  unfold pass at h
  simp only [bind_ok] at h
  obtain ⟨wm, hwm, b, hb, h⟩ := h
  refine ⟨wm, hwm, ?_⟩
  cases b with
  | true =>
    simp only [if_true, bind_ok, pure_ok, Sum.inl.injEq] at h
    obtain ⟨r, hr, rfl⟩ := h
    exact ⟨rfl, Or.inl ⟨hb, hr, rfl⟩⟩
  | false =>
    simp only [Bool.false_eq_true, if_false, bind_ok] at h
    obtain ⟨pr, -, ⟨w1, c1⟩, h1, h⟩ := h
    split at h
    · next hc =>
      simp only [pure_ok, Sum.inl.injEq] at h
      subst h
      exact ⟨rfl, Or.inr (Or.inl ⟨h1, hc, rfl⟩)⟩
    · next hc =>
      have hc : c1 = NOTYET := by simpa using hc
      subst hc
      have := checkExit_notyet (Or.inl rfl) h1
      subst this
      simp only [bind_ok] at h
      obtain ⟨q, hq, h⟩ := h
      cases q with
      | inl q =>
        simp only [pure_ok, Sum.inl.injEq] at h
        subst h
        exact ⟨rfl, Or.inr (Or.inr (Or.inl ⟨h1, rfl, hq⟩))⟩
      | inr w2 =>
        have h2 := (notYet_inr hq).1
        subst h2
        simp only [bind_ok] at h
        obtain ⟨wk, hk, t, ht, h⟩ := h
        cases t with
        | inl t =>
          simp only [pure_ok, Sum.inl.injEq] at h
          subst h
          exact ⟨rfl, Or.inr (Or.inr (Or.inr ⟨h1, hq, wk, hk, ht⟩))⟩
        | inr t => simp [pure_ok] at h

theorem pass_inr {arrives : Nat → Bool} {k : Nat} {S S' : LoopS F}
    (h : pass arrives k S = .ok (.inr S')) :
    ∃ wm wk, passHead S.w k = .ok wm ∧ S'.sig = deliver S.sig (arrives k) ∧
      unreliable wm.info S.presPrev = .ok false ∧
      checkExitConditions wm 0 = .ok (wm, NOTYET) ∧
      notYet wm (deliver S.sig (arrives k)).det = .ok (.inr wm) ∧
      keepBest wm = .ok wk ∧ passTail wk = .ok (.inr S'.w) ∧ wm.info.pres = some S'.presPrev := by
  unfold pass at h
  simp only [bind_ok] at h
  obtain ⟨wm, hwm, b, hb, h⟩ := h
  cases b with
  | true => simp only [if_true, bind_ok, pure_ok, reduceCtorEq, and_false, exists_false] at h
  | false =>
    simp only [Bool.false_eq_true, if_false, bind_ok] at h
    obtain ⟨pr, hpr, ⟨w1, c1⟩, h1, h⟩ := h
    split at h
    · simp [pure_ok] at h
    · next hc =>
      have hc : c1 = NOTYET := by simpa using hc
      subst hc
      have := checkExit_notyet (Or.inl rfl) h1
      subst this
      simp only [bind_ok] at h
      obtain ⟨q, hq, h⟩ := h
      cases q with
      | inl q => simp [pure_ok] at h
      | inr w2 =>
        have h2 := (notYet_inr hq).1
        subst h2
        simp only [bind_ok] at h
        obtain ⟨wk, hk, t, ht, h⟩ := h
        cases t with
        | inl t => simp [pure_ok] at h
        | inr t =>
          simp only [pure_ok, Sum.inr.injEq] at h
          subst h
          refine ⟨_, wk, hwm, rfl, hb, h1, hq, hk, ht, ?_⟩
          unfold get at hpr
          split at hpr
          · next heq => rw [heq]; simpa using hpr
          · cases hpr

/-- the main loop ends in some pass, or does nothing because `maxit < 0` -/
theorem mainLoop_cases {arrives : Nat → Bool} {w : Work F} {sig : Sig} {e : Exit F}
    (h : mainLoop arrives w sig = .ok e) :
    (∃ k, Leaves arrives w sig k e) ∨
    (w.stgs.maxit < 0 ∧
      e = { w := { w with info := { w.info with iter := 0 } }, sig := sig, code := FATAL,
            early := false }) ∨
    (∃ S, AtHead arrives w sig (w.stgs.maxit + 1).toNat S ∧ 0 ≤ w.stgs.maxit) := by
  unfold mainLoop at h
  simp only [bind_ok] at h
  obtain ⟨r, hr, h⟩ := h
  have key := loopE_runs (bad := fun _ => True) (lo := 0) (hi := (w.stgs.maxit + 1).toNat)
    (body := pass arrives)
    (s := ({ w := { w with info := { w.info with iter := 0 } }, presPrev := NAN, sig := sig } : LoopS F))
    (I := fun k S => AtHead arrives w sig k S) (E := fun e => ∃ k, Leaves arrives w sig k e)
    AtHead.start (by
      intro i s _ hi hs
      refine Part.of fun r hr => ?_
      have hle : (i : Int) ≤ w.stgs.maxit := by omega
      cases r with
      | inl e => exact ⟨i, s, hs, hle, hr⟩
      | inr s' => exact AtHead.next hs hle hr)
  have := key.out hr
  cases r with
  | inl e' =>
    simp only [pure_ok] at h
    subst h
    exact Or.inl this
  | inr S =>
    simp only [pure_ok] at h
    right
    by_cases hneg : w.stgs.maxit < 0
    · left
      refine ⟨hneg, ?_⟩
      have h0 : (w.stgs.maxit + 1).toNat = 0 := by omega
      rw [h0] at hr
      unfold loopE at hr
      simp at hr
      subst hr
      exact h.symm
    · right
      refine ⟨S, ?_, by omega⟩
      have : max 0 (w.stgs.maxit + 1).toNat = (w.stgs.maxit + 1).toNat := by omega
      simp only [this] at *
      assumption

end generic
end Ecos
