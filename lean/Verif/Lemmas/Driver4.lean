import Verif.Lemmas.Driver3

/-!
# Exit codes, signals, and the end of a solve
-/
namespace Ecos

set_option linter.unusedSectionVars false

section generic
variable {F : Type} [Zero F] [One F] [Add F] [Sub F] [Mul F] [Div F] [Neg F] [OfScientific F]
  [IntCast F] [PFloat F] [HasInf F]

/-- a verdict was reached in `w0`, with full (`mode = 0`) or reduced (`mode = 10`) accuracy -/
def Verdict (w' : Work F) (c mode : Int) : Prop :=
  ∃ w0, checkExitConditions w0 mode = .ok (w', c) ∧ c ≠ NOTYET

theorem inaccOr_code {w w' : Work F} {d c : Int} (h : inaccOr w d = .ok (w', c)) :
    c = d ∨ Verdict w' c INACC := by
  obtain ⟨h, -, -⟩ | ⟨h0, h⟩ := inaccOr_cases h
  · exact Or.inl h
  · exact Or.inr ⟨w, h, h0⟩

theorem recover_code {w w' : Work F} {d c : Int} (h : recover w d = .ok (w', c)) :
    c = d ∨ Verdict w' c INACC := by
  obtain ⟨wr, -, h⟩ := recover_cases h
  exact inaccOr_code h

theorem recoverCmp_code {w w' : Work F} {d c : Int} (h : recoverCmp w d = .ok (w', c)) :
    c = d ∨ Verdict w' c INACC := by
  obtain ⟨-, h⟩ | ⟨-, h⟩ := recoverCmp_cases h
  · exact inaccOr_code h
  · exact recover_code h

theorem Verdict.code {w' : Work F} {c mode : Int} (h : Verdict w' c mode) :
    c = 0 + mode ∨ c = 1 + mode ∨ c = 2 + mode := by
  obtain ⟨w0, h, h0⟩ := h
  obtain ⟨e, -, h | h | h | h⟩ := checkExit_cases h
  · exact absurd h.1 h0
  · exact Or.inl h.1
  · exact Or.inr (Or.inr h.1)
  · exact Or.inr (Or.inl h.1)

theorem leaves_code {arrives : Nat → Bool} {w : Work F} {sig : Sig} {k : Nat} {e : Exit F}
    (h : Leaves arrives w sig k e) :
    (e.early = false ∧ (Verdict e.w e.code 0 ∨ Verdict e.w e.code INACC ∨
        e.code = NUMERICS ∨ e.code = SIGINT ∨ (e.code = MAXIT ∧ (k : Int) = w.stgs.maxit))) ∨
    (e.early = true ∧ (e.code = OUTCONE ∨ e.code = FATAL)) := by
  obtain ⟨S, hS, hk, hp⟩ := h
  have hinv := atHead_inv hS
  obtain ⟨wm, hm, hsig, hcase⟩ := pass_inl hp
  have h1 := passHead_fr hm
  have hdm : SameData w wm := hinv.data.trans h1.1
  obtain ⟨hb, hr, he⟩ | ⟨hc, h0, he⟩ | ⟨-, he, hn⟩ | ⟨-, -, wk, hkb, ht⟩ := hcase
  · obtain h | h := recover_code hr
    · exact Or.inl ⟨he, Or.inr (Or.inr (Or.inl h))⟩
    · exact Or.inl ⟨he, Or.inr (Or.inl h)⟩
  · exact Or.inl ⟨he, Or.inl ⟨_, hc, h0⟩⟩
  · refine Or.inl ⟨he, ?_⟩
    obtain ⟨-, hr⟩ | ⟨hi, hr⟩ | ⟨-, -, -, hr⟩ := notYet_inl hn
    · obtain h | h := recover_code hr
      · exact Or.inr (Or.inr (Or.inl h))
      · exact Or.inr (Or.inl h)
    · obtain h | h := recoverCmp_code hr
      · cases hdet : (deliver S.sig (arrives k)).det with
        | true => rw [hdet] at h; exact Or.inr (Or.inr (Or.inr (Or.inl (by simpa using h))))
        | false =>
          rw [hdet] at h hi
          refine Or.inr (Or.inr (Or.inr (Or.inr ⟨by simpa using h, ?_⟩)))
          rw [h1.2.1, hdm.stgs] at hi
          simpa using hi
      · exact Or.inr (Or.inl h)
    · obtain h | h := recoverCmp_code hr
      · exact Or.inr (Or.inr (Or.inl h))
      · exact Or.inr (Or.inl h)
  · obtain ⟨w1, hfr, hc⟩ := passTail_inl ht
    obtain ⟨hr, he⟩ | ⟨-, hc, he⟩ | ⟨hr, he⟩ := hc
    · obtain h | h := recover_code hr
      · exact Or.inr ⟨by rw [he, h]; rfl, Or.inl h⟩
      · refine Or.inl ⟨?_, Or.inr (Or.inl h)⟩
        rw [he]
        have := h.code
        have hne : e.code ≠ OUTCONE := by
          unfold INACC at this
          unfold OUTCONE
          omega
        simp [hne]
    · exact Or.inr ⟨he, Or.inr hc⟩
    · obtain h | h := recover_code hr
      · exact Or.inl ⟨he, Or.inr (Or.inr (Or.inl h))⟩
      · exact Or.inl ⟨he, Or.inr (Or.inl h)⟩

theorem initSolver_stgs {w w1 : Work F} {b : Bool} (h : initSolver w = .ok (w1, b)) :
    SameData w w1 ∧ (b = true → w1.bestX = w.bestX ∧ w1.bestInfo = w.bestInfo) := by
  have hM : ∀ {v v1 : Work F} {b}, initMehrotra v = .ok (v1, b) →
      SameData v v1 ∧ v1.bestX = v.bestX ∧ v1.bestInfo = v.bestInfo := by
    intro v v1 b h
    unfold initMehrotra at h
    simp only [bind_ok] at h
    obtain ⟨f, -, h⟩ := h
    split at h
    · simp only [pure_ok, Prod.mk.injEq] at h
      obtain ⟨rfl, -⟩ := h
      exact ⟨⟨rfl, rfl, rfl, rfl, rfl, rfl, rfl, rfl, rfl, rfl, rfl, rfl, rfl⟩, rfl, rfl⟩
    · simp only [bind_ok, pure_ok, Prod.mk.injEq] at h
      obtain ⟨r, -, x, -, nr, -, s, -, q, -, y, -, z, -, rfl, -⟩ := h
      exact ⟨⟨rfl, rfl, rfl, rfl, rfl, rfl, rfl, rfl, rfl, rfl, rfl, rfl, rfl⟩, rfl, rfl⟩
  have hU : ∀ {v v1 : Work F}, initUnit v = .ok v1 →
      SameData v v1 ∧ v1.bestX = v.bestX ∧ v1.bestInfo = v.bestInfo := by
    intro v v1 h
    unfold initUnit at h
    simp only [bind_ok, pure_ok] at h
    obtain ⟨t, -, y, -, x, -, rfl⟩ := h
    exact ⟨⟨rfl, rfl, rfl, rfl, rfl, rfl, rfl, rfl, rfl, rfl, rfl, rfl, rfl⟩, rfl, rfl⟩
  unfold initSolver at h
  simp only [bind_ok] at h
  obtain ⟨PKPt, -, r, -, rx, -, ry, -, rz, -, o, ho, h⟩ := h
  have ho' : SameData w o.1 ∧ o.1.bestX = w.bestX ∧ o.1.bestInfo = w.bestInfo := by
    split at ho
    · have := hM ho
      refine ⟨SameData.trans (b := _) ?_ this.1, this.2⟩
      exact ⟨rfl, rfl, rfl, rfl, rfl, rfl, rfl, rfl, rfl, rfl, rfl, rfl, rfl⟩
    · simp only [bind_ok, pure_ok] at ho
      obtain ⟨v, hv, rfl⟩ := ho
      have := hU hv
      refine ⟨SameData.trans (b := _) ?_ this.1, this.2⟩
      exact ⟨rfl, rfl, rfl, rfl, rfl, rfl, rfl, rfl, rfl, rfl, rfl, rfl, rfl⟩
  split at h
  · simp only [pure_ok, Prod.mk.injEq] at h
    obtain ⟨rfl, rfl⟩ := h
    exact ⟨ho'.1, fun _ => ho'.2⟩
  · simp only [bind_ok, pure_ok, Prod.mk.injEq] at h
    obtain ⟨r1, -, rfl, rfl⟩ := h
    exact ⟨ho'.1.trans ⟨rfl, rfl, rfl, rfl, rfl, rfl, rfl, rfl, rfl, rfl, rfl, rfl, rfl⟩, fun _ => ho'.2⟩

/-- the ways a solve can end -/
theorem ecosSolve_cases {arrives : Nat → Bool} {w w' : Work F} {sig sig' : Sig} {code : Int}
    (h : ecosSolve arrives w sig = .ok (w', sig', code)) :
    (code = FATAL ∧ sig' = initCtrlc sig) ∨
    ∃ w1, Started w w1 ∧ w1.stgs = w.stgs ∧
      ((∃ k e, Leaves arrives w1 (initCtrlc sig) k e ∧ e.code = code ∧
          ((e.early = true ∧ w' = e.w ∧ sig' = e.sig) ∨
           (e.early = false ∧ backscale e.w = .ok w' ∧ sig' = removeCtrlc e.sig))) ∨
       (w.stgs.maxit < 0 ∧ code = FATAL ∧ sig' = removeCtrlc (initCtrlc sig))) := by
  unfold ecosSolve at h
  simp only [bind_ok] at h
  obtain ⟨c, hc, ⟨w1, b⟩, ho, h⟩ := h
  cases b with
  | false =>
    simp only [if_true, pure_ok, Prod.mk.injEq] at h
    obtain ⟨-, rfl, rfl⟩ := h
    exact Or.inl ⟨rfl, rfl⟩
  | true =>
    simp only [Bool.true_eq_false, if_false, bind_ok] at h
    obtain ⟨e, he, h⟩ := h
    have hs : w1.stgs = w.stgs := (initSolver_stgs ho).1.stgs
    refine Or.inr ⟨w1, ⟨c, hc, ho⟩, hs, ?_⟩
    unfold finish at h
    obtain ⟨k, hl⟩ | ⟨hneg, rfl⟩ := mainLoop_cases' he
    · refine Or.inl ⟨k, e, hl, ?_⟩
      cases hea : e.early with
      | true =>
        rw [hea] at h
        simp only [if_true, pure_ok, Prod.mk.injEq] at h
        obtain ⟨rfl, rfl, rfl⟩ := h
        exact ⟨rfl, Or.inl ⟨rfl, rfl, rfl⟩⟩
      | false =>
        rw [hea] at h
        simp only [Bool.false_eq_true, if_false, bind_ok, pure_ok, Prod.mk.injEq] at h
        obtain ⟨v, hv, rfl, rfl, rfl⟩ := h
        exact ⟨rfl, Or.inr ⟨rfl, hv, rfl⟩⟩
    · simp only [Bool.false_eq_true, if_false, bind_ok, pure_ok, Prod.mk.injEq] at h
      obtain ⟨v, hv, rfl, rfl, rfl⟩ := h
      exact Or.inr ⟨by rw [← hs]; exact hneg, rfl, rfl⟩

/-- the active handler during a solve is the one of ECOS, and the saved one is kept -/
theorem leaves_sig {arrives : Nat → Bool} {w : Work F} {sig : Sig} {k : Nat} {e : Exit F}
    (h : Leaves arrives w sig k e) : e.sig.cur = sig.cur ∧ e.sig.oact = sig.oact := by
  have hd : ∀ (g : Sig) b, (deliver g b).cur = g.cur ∧ (deliver g b).oact = g.oact := by
    intro g b
    unfold deliver
    split <;> exact ⟨rfl, rfl⟩
  have hA : ∀ {k S}, AtHead arrives w sig k S → S.sig.cur = sig.cur ∧ S.sig.oact = sig.oact := by
    intro k S hS
    induction hS with
    | start => exact ⟨rfl, rfl⟩
    | next hS _ hp ih =>
      obtain ⟨wm, wk, -, hs, -⟩ := pass_inr hp
      rw [hs]
      exact ⟨(hd _ _).1.trans ih.1, (hd _ _).2.trans ih.2⟩
  obtain ⟨S, hS, -, hp⟩ := h
  obtain ⟨wm, -, hs, -⟩ := pass_inl hp
  rw [hs]
  exact ⟨(hd _ _).1.trans (hA hS).1, (hd _ _).2.trans (hA hS).2⟩

theorem rd_ok_iff {α : Type} {b : Buf α} {i : Nat} {v : α} : rd b i = .ok v ↔ b[i]? = some (some v) := by
  unfold rd
  split
  · next heq => rw [heq]; simp
  · next heq => rw [heq]; simp
  · next heq => rw [heq]; simp

theorem wr_ok_iff {α : Type} {b b' : Buf α} {i : Nat} {v : α} :
    wr b i v = .ok b' ↔ i < b.size ∧ b' = b.setIfInBounds i (some v) := by
  unfold wr
  split
  · next h => simp [h, eq_comm]
  · next h => simp [h]

/-- what `modify` leaves in the first `n` cells -/
theorem modify_cells {α : Type} {b b' : Buf α} {n : Nat} {f : Nat → α → M α}
    (h : modify b 0 n f = .ok b') :
    ∀ i, i < n → ∃ v v', b[i]? = some (some v) ∧ f i v = .ok v' ∧ b'[i]? = some (some v') := by
  unfold modify at h
  have := loop_inv (I := fun k c => (∀ i, i < k → ∃ v v', b[i]? = some (some v) ∧ f i v = .ok v' ∧
      c[i]? = some (some v')) ∧ (∀ i, k ≤ i → c[i]? = b[i]?))
    (Nat.zero_le _) ⟨fun i hi => by omega, fun _ _ => rfl⟩ (by
      intro i c c' _ hi hc hb
      simp only [bind_ok, Nat.zero_add] at hb
      obtain ⟨o, ho, v, hv, hw⟩ := hb
      have ho' : c[i]? = some (some o) := rd_ok_iff.mp ho
      obtain ⟨hsz, hc'⟩ := wr_ok_iff.mp hw
      subst hc'
      refine ⟨fun j hj => ?_, fun j hj => ?_⟩
      · by_cases hji : j = i
        · subst hji
          refine ⟨o, v, ?_, hv, by simp [hsz]⟩
          rw [← hc.2 j (le_refl _)]; exact ho'
        · obtain ⟨v1, v2, h1, h2, h3⟩ := hc.1 j (by omega)
          refine ⟨v1, v2, h1, h2, ?_⟩
          rw [Array.getElem?_setIfInBounds_ne (by omega)]
          exact h3
      · rw [Array.getElem?_setIfInBounds_ne (by omega)]
        exact hc.2 j (by omega)) h
  exact this.1

/-- `backscale` hands back what was measured -/
theorem backscale_spec {w w1 w' wm : Work F} (h : backscale w = .ok w') (hd : SameData w1 w)
    (hdm : SameData w1 wm) (hs : Describes w wm) : HandedBack wm w' := by
  unfold backscale at h
  simp only [bind_ok, pure_ok, get_ok] at h
  obtain ⟨tau, ht, x, hx, y, hy, z, hz, s, hsl, c, -, rfl⟩ := h
  have hn : wm.n = w.n := hdm.n.trans hd.n.symm
  have hm : wm.m = w.m := hdm.m.trans hd.m.symm
  have hp : wm.p = w.p := hdm.p.trans hd.p.symm
  have hxe : wm.xequil = w.xequil := hdm.xequil.trans hd.xequil.symm
  have hAe : wm.Aequil = w.Aequil := hdm.Aequil.trans hd.Aequil.symm
  have hGe : wm.Gequil = w.Gequil := hdm.Gequil.trans hd.Gequil.symm
  have htm : wm.tau = some tau := hs.iterate.tau.symm.trans ht
  refine ⟨fun i hi => ?_, fun i hi => ?_, fun i hi => ?_, fun i hi => ?_, hs.iterate.kap,
    hs.iterate.tau, hs.stats⟩
  · rw [hn] at hi
    obtain ⟨v, v', h1, h2, h3⟩ := modify_cells hx i hi
    simp only [bind_ok, pure_ok, rd_ok_iff] at h2
    obtain ⟨e, he, rfl⟩ := h2
    exact ⟨v, e, tau, (hs.iterate.x i hi).symm.trans h1, by rw [hxe]; exact he, htm, h3⟩
  · rw [hp] at hi
    obtain ⟨v, v', h1, h2, h3⟩ := modify_cells hy i hi
    simp only [bind_ok, pure_ok, rd_ok_iff] at h2
    obtain ⟨e, he, rfl⟩ := h2
    exact ⟨v, e, tau, (hs.iterate.y i hi).symm.trans h1, by rw [hAe]; exact he, htm, h3⟩
  · rw [hm] at hi
    obtain ⟨v, v', h1, h2, h3⟩ := modify_cells hz i hi
    simp only [bind_ok, pure_ok, rd_ok_iff] at h2
    obtain ⟨e, he, rfl⟩ := h2
    exact ⟨v, e, tau, (hs.iterate.z i hi).symm.trans h1, by rw [hGe]; exact he, htm, h3⟩
  · rw [hm] at hi
    obtain ⟨v, v', h1, h2, h3⟩ := modify_cells hsl i hi
    simp only [bind_ok, pure_ok, rd_ok_iff] at h2
    obtain ⟨e, he, rfl⟩ := h2
    exact ⟨v, e, tau, (hs.iterate.s i hi).symm.trans h1, by rw [hGe]; exact he, htm, h3⟩

theorem backscale_info {w w' : Work F} (h : backscale w = .ok w') :
    w'.info = w.info ∧ w'.stgs = w.stgs ∧ w'.cx = w.cx ∧ w'.bY = w.bY ∧ w'.hz = w.hz ∧
    w'.tau = w.tau ∧ w'.kap = w.kap := by
  unfold backscale at h
  simp only [bind_ok, pure_ok] at h
  obtain ⟨tau, -, x, -, y, -, z, -, s, -, c, -, rfl⟩ := h
  exact ⟨rfl, rfl, rfl, rfl, rfl, rfl, rfl⟩

theorem measured_data {arrives : Nat → Bool} {w wm : Work F} {sig : Sig} {k : Nat}
    (h : Measured arrives w sig k wm) : SameData w wm := by
  obtain ⟨S, hS, -, hm⟩ := h
  exact (atHead_inv hS).data.trans (passHead_fr hm).1

end generic
end Ecos
