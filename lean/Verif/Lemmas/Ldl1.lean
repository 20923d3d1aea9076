import Verif.Lemmas.Driver4

/-!
# The numeric factorisation: return value and pivots
-/
namespace Ecos

set_option linter.unusedSectionVars false

section generic
variable {F : Type} [Zero F] [One F] [Add F] [Sub F] [Mul F] [Div F] [Neg F] [OfScientific F]
  [IntCast F] [PFloat F]

theorem kktFactor_code {K : Kkt F} {eps delta : F} {r : Kkt F × Nat} (h : kktFactor K eps delta = .ok r) :
    r.2 = KKT_OK := by
  unfold kktFactor ldlNumeric at h
  simp only [bind_ok, pure_ok] at h
  obtain ⟨q, ⟨S, -, rfl⟩, rfl⟩ := h
  simp

theorem wr_ne {α : Type} {b b' : Buf α} {i j : Nat} {v : α} (h : wr b i v = .ok b') (hj : j ≠ i) :
    b'[j]? = b[j]? := by
  obtain ⟨-, rfl⟩ := wr_ok_iff.1 h
  rw [Array.getElem?_setIfInBounds_ne (by omega)]

theorem wr_self {α : Type} {b b' : Buf α} {i : Nat} {v : α} (h : wr b i v = .ok b') :
    b'[i]? = some (some v) := by
  obtain ⟨h1, rfl⟩ := wr_ok_iff.1 h
  simp [h1]

/-- row `k` only writes the pivot `k` -/
theorem numElim_d {Lp : Buf Nat} {k t : Nat} {S S' : Num F} (h : numElim Lp k t S = .ok S') :
    ∀ j, j ≠ k → S'.d[j]? = S.d[j]? := by
  unfold numElim at h
  simp only [bind_ok, pure_ok] at h
  obtain ⟨i, -, yi, -, y, -, a, -, b, -, y', -, di, -, dk, -, d, hd, li, -, lx, -, lnz, -, rfl⟩ := h
  intro j hj
  exact wr_ne hd hj

theorem numScatter_d {n : Nat} {Ap Ai : Buf Nat} {Ax : Buf F} {parent : Buf Int} {k : Nat} {S : Num F}
    {r : Nat × Num F} (h : numScatter n Ap Ai Ax parent k S = .ok r) : r.2.d = S.d := by
  unfold numScatter at h
  simp only [bind_ok] at h
  obtain ⟨y, -, flag, -, lnz, -, p2, -, p1, -, h⟩ := h
  by_cases hp : p1 ≤ p2
  · exact loop_inv (I := fun _ (t : Nat × Num F) => t.2.d = S.d) hp rfl (by
      intro i t t' _ _ ht hb
      simp only [bind_ok, pure_ok] at hb
      obtain ⟨i', -, v, -, y', -, w, -, q, -, rfl⟩ := hb
      exact ht) h
  · unfold loop at h
    rw [if_neg (by omega)] at h
    simp only [Except.ok.injEq] at h
    rw [← h]

/-- the step for row `k` leaves a regularised pivot there and keeps the other ones -/
theorem numStep_d {n : Nat} {Ap Ai : Buf Nat} {Ax : Buf F} {Lp : Buf Nat} {parent : Buf Int}
    {sign : Buf Int} {eps delta : F} {k : Nat} {S S' : Num F}
    (h : numStep n Ap Ai Ax Lp parent sign eps delta k S = .ok S') :
    (∃ (s : Int) (v : F), sign[k]? = some (some s) ∧ S'.d[k]? = some (some (dynReg s eps delta v))) ∧
    ∀ j, j ≠ k → S'.d[j]? = S.d[j]? := by
  unfold numStep at h
  simp only [bind_ok, pure_ok] at h
  obtain ⟨t, ht, yk, -, d, hd, y, -, S1, hl, sg, hsg, dk, -, d', hd', rfl⟩ := h
  refine ⟨⟨sg, dk, rd_ok_iff.1 hsg, wr_self hd'⟩, fun j hj => ?_⟩
  have h1 : S1.d[j]? = d[j]? := by
    by_cases hp : t.1 ≤ n
    · exact loop_inv (I := fun _ (s : Num F) => s.d[j]? = d[j]?) hp rfl (by
        intro i s s' _ _ hs hb
        rw [← hs]
        exact numElim_d hb j hj) hl
    · unfold loop at hl
      rw [if_neg (by omega)] at hl
      simp only [Except.ok.injEq] at hl
      rw [← hl]
  rw [wr_ne hd' hj, h1, wr_ne hd hj, numScatter_d ht]

/-- all pivots of a finished factorisation went through the regularisation -/
theorem ldlNumeric_d {n : Nat} {Ap Ai : Buf Nat} {Ax : Buf F} {Lp : Buf Nat} {parent : Buf Int}
    {sign : Buf Int} {eps delta : F} {S : Num F} {r : Num F × Nat}
    (h : ldlNumeric n Ap Ai Ax Lp parent sign eps delta S = .ok r) :
    r.2 = n ∧ ∀ k, k < n → ∃ (s : Int) (v : F), sign[k]? = some (some s) ∧
      r.1.d[k]? = some (some (dynReg s eps delta v)) := by
  unfold ldlNumeric at h
  simp only [bind_ok, pure_ok] at h
  obtain ⟨S1, hl, rfl⟩ := h
  refine ⟨rfl, loop_inv (I := fun i (s : Num F) => ∀ k, k < i → ∃ (g : Int) (v : F), sign[k]? = some (some g) ∧
      s.d[k]? = some (some (dynReg g eps delta v))) (Nat.zero_le _) (fun k hk => by omega) ?_ hl⟩
  intro i s s' _ _ hs hb k hk
  obtain ⟨h1, h2⟩ := numStep_d hb
  by_cases hki : k = i
  · subst hki
    exact h1
  · rw [h2 k hki]
    exact hs k (by omega)

end generic

section driver
variable {F : Type} [Zero F] [One F] [Add F] [Sub F] [Mul F] [Div F] [Neg F] [OfScientific F]
  [IntCast F] [PFloat F] [HasInf F]

theorem initMehrotra_code {w : Work F} {r : Work F × Bool} (h : initMehrotra w = .ok r) : r.2 = true := by
  unfold initMehrotra at h
  simp only [bind_ok] at h
  obtain ⟨f, hf, h⟩ := h
  rw [if_neg (by rw [kktFactor_code hf]; simp)] at h
  simp only [bind_ok, pure_ok] at h
  obtain ⟨_, -, _, -, _, -, _, -, _, -, _, -, _, -, rfl⟩ := h
  rfl

theorem initSolver_code {w : Work F} {r : Work F × Bool} (h : initSolver w = .ok r) : r.2 = true := by
  unfold initSolver at h
  simp only [bind_ok] at h
  obtain ⟨PKPt, -, q, -, rx, -, ry, -, rz, -, o, ho, h⟩ := h
  have : o.2 = true := by
    split at ho
    · exact initMehrotra_code ho
    · simp only [bind_ok, pure_ok] at ho
      obtain ⟨_, -, rfl⟩ := ho
      rfl
  rw [this] at h
  simp only [Bool.true_eq_false, if_false, bind_ok, pure_ok] at h
  obtain ⟨_, -, rfl⟩ := h
  rfl

theorem passTail_no_fatal {w w' : Work F} (h : passTail w = .ok (.inl (w', FATAL, true))) : False := by
  unfold passTail at h
  simp only [bind_ok] at h
  obtain ⟨mu, -, u, -, h⟩ := h
  cases hu : u.2 with
  | none =>
    rw [hu] at h
    simp only [bind_ok, pure_ok, Sum.inl.injEq, Prod.mk.injEq] at h
    obtain ⟨r, -, -, h1, h2⟩ := h
    rw [h1] at h2
    simp [FATAL, OUTCONE] at h2
  | some lam =>
    rw [hu] at h
    simp only [bind_ok] at h
    obtain ⟨PKPt, -, f, hf, h⟩ := h
    rw [if_neg (by rw [kktFactor_code hf]; simp)] at h
    simp only [bind_ok] at h
    obtain ⟨kap, -, tau, -, rt, -, P, -, sa, -, R, -, st, -, h⟩ := h
    cases hs1 : st.1 with
    | none =>
      rw [hs1] at h
      simp only [bind_ok, pure_ok, Sum.inl.injEq, Prod.mk.injEq] at h
      obtain ⟨r, -, -, -, h2⟩ := h
      cases h2
    | some a =>
      rw [hs1] at h
      simp only [bind_ok, pure_ok, reduceCtorEq, and_false, exists_false] at h

/-- a `return` from inside the loop is the one for a point outside the cone -/
theorem leaves_early {arrives : Nat → Bool} {w : Work F} {sig : Sig} {k : Nat} {e : Exit F}
    (h : Leaves arrives w sig k e) : (e.early = true → e.code = OUTCONE) ∧ e.code ≠ FATAL := by
  have hc := leaves_code h
  have hF : e.early = true → e.code ≠ FATAL := by
    intro he hf
    obtain ⟨S, hS, hk, hp⟩ := h
    obtain ⟨wm, hm, hsig, hcase⟩ := pass_inl hp
    obtain ⟨-, -, h1⟩ | ⟨-, -, h1⟩ | ⟨-, h1, -⟩ | ⟨-, -, wk, -, ht⟩ := hcase
    · rw [h1] at he; cases he
    · rw [h1] at he; cases he
    · rw [h1] at he; cases he
    · rw [he, hf] at ht
      exact passTail_no_fatal ht
  refine ⟨fun he => ?_, fun hf => ?_⟩
  · obtain ⟨h1, -⟩ | ⟨-, h1 | h1⟩ := hc
    · rw [h1] at he; cases he
    · exact h1
    · exact absurd h1 (hF he)
  · obtain ⟨-, h1⟩ | ⟨he, -⟩ := hc
    · rw [hf] at h1
      rcases h1 with h1 | h1 | h1 | h1 | h1
      · obtain ⟨v, h2, h3⟩ := h1
        obtain ⟨x, -, h4 | h4 | h4 | h4⟩ := checkExit_cases h2 <;>
          have := h4.1 <;> simp [FATAL, NOTYET, OPTIMAL, PINF, DINF] at this
      · obtain ⟨v, h2, h3⟩ := h1
        obtain ⟨x, -, h4 | h4 | h4 | h4⟩ := checkExit_cases h2 <;>
          have := h4.1 <;> simp [FATAL, NOTYET, OPTIMAL, PINF, DINF, INACC] at this
      · simp [FATAL, NUMERICS] at h1
      · simp [FATAL, SIGINT] at h1
      · simp [FATAL, MAXIT] at h1
    · exact hF he hf

/-- the main loop was not entered -/
def Exit.skipped (w : Work F) (sig : Sig) : Exit F :=
  { w := { w with info := { w.info with iter := 0 } }, sig := sig, code := FATAL, early := false }

/-- the ways a solve can end, without the failures of the factorisation -/
theorem ecosSolve_ways {arrives : Nat → Bool} {w w' : Work F} {sig sig' : Sig} {code : Int}
    (h : ecosSolve arrives w sig = .ok (w', sig', code)) :
    ∃ w1, Started w w1 ∧ ∃ e, ((∃ k, Leaves arrives w1 (initCtrlc sig) k e) ∨
        (w.stgs.maxit < 0 ∧ e = Exit.skipped w1 (initCtrlc sig))) ∧ e.code = code ∧
      ((e.early = true ∧ code = OUTCONE ∧ w' = e.w ∧ sig' = e.sig) ∨
       (e.early = false ∧ backscale e.w = .ok w' ∧ sig' = removeCtrlc e.sig)) := by
  unfold ecosSolve at h
  simp only [bind_ok] at h
  obtain ⟨c, hc, ⟨w1, b⟩, ho, h⟩ := h
  obtain rfl : b = true := initSolver_code ho
  simp only [Bool.true_eq_false, if_false, bind_ok] at h
  obtain ⟨e, he, h⟩ := h
  have hs : w1.stgs = w.stgs := (initSolver_stgs ho).1.stgs
  refine ⟨w1, ⟨c, hc, ho⟩, e, ?_⟩
  have hl := (mainLoop_cases' he).imp_right fun h => (⟨hs ▸ h.1, h.2⟩ : w.stgs.maxit < 0 ∧ _)
  refine ⟨hl, ?_⟩
  unfold finish at h
  cases hea : e.early with
  | true =>
    rw [hea] at h
    simp only [if_true, pure_ok, Prod.mk.injEq] at h
    obtain ⟨rfl, rfl, rfl⟩ := h
    refine ⟨rfl, Or.inl ⟨rfl, ?_, rfl, rfl⟩⟩
    obtain ⟨k, hl⟩ | ⟨-, rfl⟩ := hl
    · exact (leaves_early hl).1 hea
    · cases hea
  | false =>
    rw [hea] at h
    simp only [Bool.false_eq_true, if_false, bind_ok, pure_ok, Prod.mk.injEq] at h
    obtain ⟨v, hv, rfl, rfl, rfl⟩ := h
    exact ⟨rfl, Or.inr ⟨rfl, hv, rfl⟩⟩

end driver
end Ecos
