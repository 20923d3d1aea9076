import Verif.Lemmas.Driver1

/-!
# What the parts of a pass leave alone, and what the best iterate is
-/
namespace Ecos

set_option linter.unusedSectionVars false

theorem get_ok {α : Type} {o : Option α} {a : α} : get o = .ok a ↔ o = some a := by
  unfold get
  cases o with
  | none => simp
  | some b => simp

section generic
variable {F : Type} [Zero F] [One F] [Add F] [Sub F] [Mul F] [Div F] [Neg F] [OfScientific F]
  [IntCast F] [PFloat F] [HasInf F]

/-- only step-related fields of the statistics differ -/
def InfoFr (i i' : Stats F) : Prop :=
  i' = { i with sigma := i'.sigma, step := i'.step, stepAff := i'.stepAff,
                nitref1 := i'.nitref1, nitref2 := i'.nitref2, nitref3 := i'.nitref3,
                pob := i'.pob, cb := i'.cb, cob := i'.cob, pb := i'.pb, db := i'.db,
                affBack := i'.affBack, cmbBack := i'.cmbBack, centrality := i'.centrality }

theorem InfoFr.refl (i : Stats F) : InfoFr i i := rfl

theorem InfoFr.trans {a b c : Stats F} (h1 : InfoFr a b) (h2 : InfoFr b c) : InfoFr a c := by
  unfold InfoFr at *
  rw [h2, h1]

/-- only cone scalings, the KKT system and step-related statistics differ -/
def Fr (w w' : Work F) : Prop :=
  w' = { w with C := w'.C, KKT := w'.KKT, info := w'.info } ∧ InfoFr w.info w'.info

theorem Fr.refl (w : Work F) : Fr w w := ⟨rfl, rfl⟩

theorem Fr.trans {a b c : Work F} (h1 : Fr a b) (h2 : Fr b c) : Fr a c := by
  refine ⟨?_, h1.2.trans h2.2⟩
  have e1 := h1.1
  have e2 := h2.1
  rw [e2, e1]

/-- only the counters of the exponential-cone line search differ -/
def LsFr (i i' : Stats F) : Prop :=
  i' = { i with pob := i'.pob, cb := i'.cb, cob := i'.cob, pb := i'.pb, db := i'.db,
                centrality := i'.centrality }

theorem LsFr.trans {a b c : Stats F} (h1 : LsFr a b) (h2 : LsFr b c) : LsFr a c := by
  unfold LsFr at *
  rw [h2, h1]

theorem LsFr.info {a b : Stats F} (h1 : LsFr a b) : InfoFr a b := by
  unfold LsFr InfoFr at *
  rw [h1]

theorem LsFr.sigma {a b : Stats F} (h1 : LsFr a b) : b.sigma = a.sigma := by
  unfold LsFr at *
  rw [h1]

theorem bump_fr (i : Stats F) (r : Reject) : LsFr i (bump i r) := by cases r <;> rfl

theorem expConeLineSearch_fr {w : Work F} {ds dz : Buf F} {tau kap dtau dkap alpha : F}
    {r : Option F × Stats F}
    (h : expConeLineSearch w ds dz tau kap dtau dkap alpha = .ok r) : LsFr w.info r.2 := by
  unfold expConeLineSearch at h
  simp only [bind_ok] at h
  obtain ⟨q, hq, h⟩ := h
  have key := (loopE_runs (bad := fun _ => True) (lo := 0) (hi := w.stgs.maxBk.toNat)
    (s := (alpha, lsCounters w.info))
    (I := fun _ t => LsFr w.info t.2) (E := fun t => LsFr w.info t.2)
    (by rfl) (by
      intro i t _ _ ht
      refine Part.of ?_
      intro r hr
      simp only [bind_ok] at hr
      obtain ⟨ws, -, wz, -, mu, -, q, -, hr⟩ := hr
      have hi : LsFr w.info (match q.2 with
          | some c => { t.2 with centrality := some c }
          | none => t.2) := by
        cases q.2 with
        | none => exact ht
        | some c => exact ht.trans rfl
      cases hq1 : q.1 with
      | none =>
        rw [hq1] at hr
        simp only [pure_ok] at hr
        subst hr
        exact hi
      | some rej =>
        rw [hq1] at hr
        simp only [pure_ok] at hr
        subst hr
        exact hi.trans (bump_fr _ _))).out hq
  cases q with
  | inl t =>
    simp only [pure_ok] at h
    subst h
    exact key
  | inr t =>
    simp only [pure_ok] at h
    subst h
    exact key

theorem affineDir_fr {w : Work F} {lam : Buf F} {kap tau rt : F} {P : Pred F}
    (h : affineDir w lam kap tau rt = .ok P) : Fr w P.w := by
  unfold affineDir at h
  simp only [bind_ok, pure_ok] at h
  obtain ⟨r1, -, rhs, -, r2, -, d1, -, d2, -, dz2, -, Wdz, -, dsW, -, sa, -, ds, -, ds', -, ds'', -, rfl⟩ := h
  exact ⟨rfl, rfl⟩

theorem affineStep_fr {P : Pred F} {kap tau : F} {r : F × Stats F}
    (h : affineStep P kap tau = .ok r) : InfoFr P.w.info r.2 := by
  unfold affineStep at h
  simp only [bind_ok] at h
  obtain ⟨sa, -, h⟩ := h
  split at h
  · simp only [bind_ok] at h
    obtain ⟨q, hq, h⟩ := h
    have hls := expConeLineSearch_fr hq
    have := hls.info
    cases hq1 : q.1 with
    | none =>
      rw [hq1] at h
      simp only [pure_ok] at h
      subst h
      exact (InfoFr.trans (b := { P.w.info with affBack := 0 }) rfl this).trans rfl
    | some a =>
      rw [hq1] at h
      simp only [pure_ok] at h
      subst h
      exact (InfoFr.trans (b := { P.w.info with affBack := 0 }) rfl this).trans rfl
  · simp only [pure_ok] at h
    subst h
    rfl

theorem combinedDir_fr {P : Pred F} {kap tau rt mu sigma : F} {R : Corr F}
    (h : combinedDir P kap tau rt mu sigma = .ok R) :
    Fr P.w R.w ∧ R.w.info.sigma = P.w.info.sigma ∧
      ∃ C lam ds dz a, lineSearch C lam ds dz tau R.dtau kap R.dkap = .ok a ∧
        R.w.info.step = some (a * R.w.stgs.gamma) := by
  unfold combinedDir at h
  simp only [bind_ok, pure_ok] at h
  obtain ⟨q, -, r2, -, d2, -, dx2, -, dy2, -, dz2, -, Wdz, -, dsW, -, a, ha, ds, -, ds', -, ds'', -, rfl⟩ := h
  exact ⟨⟨rfl, rfl⟩, rfl, _, _, _, _, _, ha, rfl⟩

theorem combinedStep_fr {R : Corr F} {kap tau : F} {r : Option F × Stats F}
    (h : combinedStep R kap tau = .ok r) :
    InfoFr R.w.info r.2 ∧ (∀ a, r.1 = some a → r.2.step = some a) ∧
      r.2.sigma = R.w.info.sigma := by
  unfold combinedStep at h
  simp only [bind_ok] at h
  obtain ⟨sa, hsa, h⟩ := h
  split at h
  · simp only [bind_ok] at h
    obtain ⟨q, hq, h⟩ := h
    have hls := expConeLineSearch_fr hq
    have := hls.info
    cases hq1 : q.1 with
    | none =>
      rw [hq1] at h
      simp only [pure_ok] at h
      subst h
      exact ⟨(InfoFr.trans (b := { R.w.info with cmbBack := 0 }) rfl this).trans rfl,
        fun a ha => (by cases ha), hls.sigma⟩
    | some b =>
      rw [hq1] at h
      simp only [pure_ok] at h
      subst h
      refine ⟨(InfoFr.trans (b := { R.w.info with cmbBack := 0 }) rfl this).trans rfl, fun a ha => ?_,
        hls.sigma⟩
      simp only at ha
      split at ha
      · cases ha
      · exact ha
  · simp only [pure_ok] at h
    subst h
    refine ⟨rfl, fun a ha => ?_, rfl⟩
    rw [get_ok] at hsa
    show R.w.info.step = some a
    rw [hsa]; exact ha

theorem passTail_inl {w w' : Work F} {c : Int} {early : Bool}
    (h : passTail w = .ok (.inl (w', c, early))) :
    ∃ w1, Fr w w1 ∧
      ((recover w1 OUTCONE = .ok (w', c) ∧ early = decide (c = OUTCONE)) ∨
       (w' = w1 ∧ c = FATAL ∧ early = true) ∨
       (recover w1 NUMERICS = .ok (w', c) ∧ early = false)) := by
  unfold passTail at h
  simp only [bind_ok] at h
  obtain ⟨mu, -, u, -, h⟩ := h
  cases hu : u.2 with
  | none =>
    rw [hu] at h
    simp only [bind_ok, pure_ok, Sum.inl.injEq, Prod.mk.injEq] at h
    obtain ⟨⟨r1, r2⟩, hr, rfl, rfl, rfl⟩ := h
    refine ⟨_, ?_, Or.inl ⟨hr, rfl⟩⟩
    exact ⟨rfl, rfl⟩
  | some lam =>
    rw [hu] at h
    simp only [bind_ok] at h
    obtain ⟨PKPt, -, f, -, h⟩ := h
    split at h
    · simp only [pure_ok, Sum.inl.injEq, Prod.mk.injEq] at h
      obtain ⟨rfl, rfl, rfl⟩ := h
      refine ⟨_, ?_, Or.inr (Or.inl ⟨rfl, rfl, rfl⟩)⟩
      exact ⟨rfl, rfl⟩
    · simp only [bind_ok] at h
      obtain ⟨kap, -, tau, -, rt, -, P, hP, sa, hsa, R, hR, st, hst, h⟩ := h
      have f1 := affineDir_fr hP
      have f2 := affineStep_fr hsa
      have f3 := (combinedDir_fr hR).1
      have f4 := (combinedStep_fr hst).1
      cases hs1 : st.1 with
      | none =>
        rw [hs1] at h
        simp only [bind_ok, pure_ok, Sum.inl.injEq, Prod.mk.injEq] at h
        obtain ⟨⟨r1, r2⟩, hr, rfl, rfl, rfl⟩ := h
        refine ⟨_, ?_, Or.inr (Or.inr ⟨hr, rfl⟩)⟩
        refine Fr.trans (b := R.w) (Fr.trans (b := _) ?_ f3) ⟨rfl, f4⟩
        refine Fr.trans (b := P.w) (Fr.trans (b := _) ⟨rfl, rfl⟩ f1) ⟨rfl, f2.trans rfl⟩
      | some a =>
        rw [hs1] at h
        simp only [bind_ok, pure_ok, reduceCtorEq, and_false, exists_false] at h

theorem passTail_inr {w w' : Work F} (h : passTail w = .ok (.inr w')) :
    ∃ (R : Corr F) (kap tau a : F), Fr w R.w ∧ updateVars R kap tau a = .ok w' ∧
      R.w.info.step = some a ∧ (∃ sa, R.w.info.sigma = some (centering sa)) ∧
      ∃ (R0 : Corr F) (i : Stats F) (C : Cone F) (lam ds dz : Buf F) (ls : F),
        combinedStep R0 kap tau = .ok (some a, i) ∧ R0.w.stgs = w.stgs ∧
        lineSearch C lam ds dz tau R0.dtau kap R0.dkap = .ok ls ∧
        R0.w.info.step = some (ls * R0.w.stgs.gamma) := by
  unfold passTail at h
  simp only [bind_ok] at h
  obtain ⟨mu, -, u, -, h⟩ := h
  cases hu : u.2 with
  | none =>
    rw [hu] at h
    simp only [bind_ok, pure_ok, reduceCtorEq, and_false, exists_false] at h
  | some lam =>
    rw [hu] at h
    simp only [bind_ok] at h
    obtain ⟨PKPt, -, f, -, h⟩ := h
    split at h
    · simp only [pure_ok, reduceCtorEq] at h
    · simp only [bind_ok] at h
      obtain ⟨kap, -, tau, -, rt, -, P, hP, sa, hsa, R, hR, st, hst, h⟩ := h
      have f1 := affineDir_fr hP
      have f2 := affineStep_fr hsa
      have f3 := (combinedDir_fr hR).1
      have f4 := combinedStep_fr hst
      cases hs1 : st.1 with
      | none =>
        rw [hs1] at h
        simp only [bind_ok, pure_ok, reduceCtorEq, and_false, exists_false] at h
      | some a =>
        rw [hs1] at h
        simp only [bind_ok, pure_ok, Sum.inr.injEq] at h
        obtain ⟨r, hr, rfl⟩ := h
        refine ⟨_, kap, tau, a, ?_, hr, f4.2.1 a hs1, ⟨sa.1, ?_⟩, ?_⟩
        · refine Fr.trans (b := R.w) (Fr.trans (b := _) ?_ f3) ⟨rfl, f4.1⟩
          refine Fr.trans (b := P.w) (Fr.trans (b := _) ⟨rfl, rfl⟩ f1) ⟨rfl, f2.trans rfl⟩
        · have e1 := (combinedDir_fr hR).2.1
          have e2 := f4.2.2
          show st.2.sigma = _
          rw [e2, e1]
        · obtain ⟨-, -, C, l, ds, dz, ls, h1, h2⟩ := combinedDir_fr hR
          refine ⟨R, st.2, C, l, ds, dz, ls, ?_, ?_, h1, h2⟩
          · rw [hst, ← hs1]
          · rw [f3.1]
            show P.w.stgs = _
            rw [f1.1]

end generic
end Ecos
