import Verif.Lemmas.Driver2

/-!
# The best iterate, and what a solve hands back
-/
namespace Ecos

set_option linter.unusedSectionVars false

theorem EqOn.refl {α : Type} {n : Nat} (a : Buf α) : EqOn n a a := fun _ _ => rfl
theorem EqOn.trans {α : Type} {n : Nat} {a b c : Buf α} (h1 : EqOn n a b) (h2 : EqOn n b c) :
    EqOn n a c := fun i hi => (h1 i hi).trans (h2 i hi)

theorem cpAll_eqOn {α : Type} {src dst d : Buf α} {n : Nat} (h : BB.cpAll src dst n = .ok d) :
    EqOn n d src ∧ d.size = dst.size := by
  unfold BB.cpAll at h
  have := loop_inv (I := fun k b => (∀ i, i < k → b[i]? = src[i]?) ∧ b.size = dst.size)
    (Nat.zero_le _) ⟨fun i hi => by omega, rfl⟩ (by
      intro i b b' _ hi hb hb'
      unfold cp at hb'
      split at hb'
      · cases hb'
      · next v hv =>
        split at hb'
        · next hlt =>
          simp only [Except.ok.injEq] at hb'
          subst hb'
          refine ⟨fun j hj => ?_, by simpa using hb.2⟩
          by_cases hji : j = i
          · subst hji
            simp [hlt, hv]
          · rw [Array.getElem?_setIfInBounds_ne (by omega)]
            exact hb.1 j (by omega)
        · cases hb') h
  exact this

section generic
variable {F : Type} [Zero F] [One F] [Add F] [Sub F] [Mul F] [Div F] [Neg F] [OfScientific F]
  [IntCast F] [PFloat F] [HasInf F]

theorem SameStats.refl (i : Stats F) : SameStats i i := ⟨rfl, rfl, rfl, rfl, rfl, rfl, rfl, rfl, rfl, rfl⟩
theorem SameStats.trans {a b c : Stats F} (h1 : SameStats a b) (h2 : SameStats b c) : SameStats a c :=
  ⟨h1.1.trans h2.1, h1.2.trans h2.2, h1.3.trans h2.3, h1.4.trans h2.4, h1.5.trans h2.5,
   h1.6.trans h2.6, h1.7.trans h2.7, h1.8.trans h2.8, h1.9.trans h2.9, h1.10.trans h2.10⟩

theorem SameData.refl (w : Work F) : SameData w w :=
  ⟨rfl, rfl, rfl, rfl, rfl, rfl, rfl, rfl, rfl, rfl, rfl, rfl, rfl⟩
theorem SameData.trans {a b c : Work F} (h1 : SameData a b) (h2 : SameData b c) : SameData a c :=
  ⟨h2.1.trans h1.1, h2.2.trans h1.2, h2.3.trans h1.3, h2.4.trans h1.4, h2.5.trans h1.5,
   h2.6.trans h1.6, h2.7.trans h1.7, h2.8.trans h1.8, h2.9.trans h1.9, h2.10.trans h1.10,
   h2.11.trans h1.11, h2.12.trans h1.12, h2.13.trans h1.13⟩

theorem Describes.refl (w : Work F) : Describes w w :=
  ⟨⟨.refl _, .refl _, .refl _, .refl _, rfl, rfl⟩, .refl _, rfl, rfl, rfl⟩

theorem InfoFr.stats {i i' : Stats F} (h : InfoFr i i') : SameStats i' i := by
  rw [h]; exact ⟨rfl, rfl, rfl, rfl, rfl, rfl, rfl, rfl, rfl, rfl⟩

theorem InfoFr.iter {i i' : Stats F} (h : InfoFr i i') : i'.iter = i.iter := by
  rw [h]

theorem Fr.data {w w' : Work F} (h : Fr w w') : SameData w w' := by
  rw [h.1]; exact ⟨rfl, rfl, rfl, rfl, rfl, rfl, rfl, rfl, rfl, rfl, rfl, rfl, rfl⟩

theorem Fr.describes {w w' : Work F} (h : Fr w w') : Describes w' w := by
  rw [h.1]
  exact ⟨⟨.refl _, .refl _, .refl _, .refl _, rfl, rfl⟩, h.2.stats, rfl, rfl, rfl⟩

theorem Fr.best {w w' wm : Work F} (h : Fr w w') (hb : BestIs w wm) : BestIs w' wm := by
  rw [h.1]
  exact ⟨hb.x, hb.y, hb.z, hb.s, hb.kap, hb.tau, hb.cx, hb.bY, hb.hz, hb.stats⟩

theorem Describes.trans {a b c : Work F} (hd : SameData b a) (h1 : Describes a b)
    (h2 : Describes b c) : Describes a c := by
  refine ⟨⟨h1.1.1.trans ?_, h1.1.2.trans ?_, h1.1.3.trans ?_, h1.1.4.trans ?_,
    h1.1.5.trans h2.1.5, h1.1.6.trans h2.1.6⟩, h1.2.trans h2.2, h1.3.trans h2.3, h1.4.trans h2.4,
    h1.5.trans h2.5⟩
  · rw [hd.n]; exact h2.1.1
  · rw [hd.p]; exact h2.1.2
  · rw [hd.m]; exact h2.1.3
  · rw [hd.m]; exact h2.1.4

/-- saving makes the current iterate the best one and changes nothing else -/
theorem saveIterateAsBest_spec {w w' : Work F} (h : saveIterateAsBest w = .ok w') :
    BestIs w' w ∧ SameData w w' ∧ Describes w' w ∧ w'.info = w.info ∧ w'.bestInfo.iter = w.info.iter := by
  unfold saveIterateAsBest at h
  simp only [bind_ok, pure_ok] at h
  obtain ⟨x, hx, y, hy, z, hz, s, hs, rfl⟩ := h
  refine ⟨⟨(cpAll_eqOn hx).1, (cpAll_eqOn hy).1, (cpAll_eqOn hz).1, (cpAll_eqOn hs).1,
    rfl, rfl, rfl, rfl, rfl, ⟨rfl, rfl, rfl, rfl, rfl, rfl, rfl, rfl, rfl, rfl⟩⟩,
    ⟨rfl, rfl, rfl, rfl, rfl, rfl, rfl, rfl, rfl, rfl, rfl, rfl, rfl⟩,
    ⟨⟨.refl _, .refl _, .refl _, .refl _, rfl, rfl⟩, .refl _, rfl, rfl, rfl⟩, rfl, rfl⟩

/-- restoring hands back the best iterate with its statistics -/
theorem restoreBestIterate_spec {w w' wm : Work F} (h : restoreBestIterate w = .ok w')
    (hb : BestIs w wm) : Describes w' wm := by
  unfold restoreBestIterate at h
  simp only [bind_ok, pure_ok] at h
  obtain ⟨x, hx, y, hy, z, hz, s, hs, rfl⟩ := h
  refine ⟨⟨(cpAll_eqOn hx).1.trans hb.x, (cpAll_eqOn hy).1.trans hb.y, (cpAll_eqOn hz).1.trans hb.z,
    (cpAll_eqOn hs).1.trans hb.s, hb.kap, hb.tau⟩, ?_, hb.cx, hb.bY, hb.hz⟩
  exact ⟨hb.stats.1, hb.stats.2, hb.stats.3, hb.stats.4, hb.stats.5, hb.stats.6, hb.stats.7,
    hb.stats.8, hb.stats.9, hb.stats.10⟩

theorem restoreBestIterate_data {w w' : Work F} (h : restoreBestIterate w = .ok w') :
    SameData w w' ∧ w'.info.iter = w.info.iter := by
  unfold restoreBestIterate at h
  simp only [bind_ok, pure_ok] at h
  obtain ⟨x, -, y, -, z, -, s, -, rfl⟩ := h
  exact ⟨⟨rfl, rfl, rfl, rfl, rfl, rfl, rfl, rfl, rfl, rfl, rfl, rfl, rfl⟩, rfl⟩

theorem keepBest_spec {w w' : Work F} (h : keepBest w = .ok w') :
    (BestIs w' w ∨ (0 < w.info.iter ∧ w' = w)) ∧
      SameData w w' ∧ Describes w' w ∧ w'.info = w.info := by
  unfold keepBest at h
  split at h
  · have := saveIterateAsBest_spec h
    exact ⟨Or.inl this.1, this.2.1, this.2.2.1, this.2.2.2.1⟩
  · next h0 =>
    simp only [bind_ok] at h
    obtain ⟨b, -, h⟩ := h
    cases b with
    | true =>
      rw [if_pos rfl] at h
      have := saveIterateAsBest_spec h
      exact ⟨Or.inl this.1, this.2.1, this.2.2.1, this.2.2.2.1⟩
    | false =>
      simp only [Bool.false_eq_true, if_false, pure_ok] at h
      subst h
      exact ⟨Or.inr ⟨Nat.pos_of_ne_zero h0, rfl⟩, .refl _, .refl _, rfl⟩

/-- `checkExitConditions` only sets the infeasibility flags -/
theorem checkExit_fr {w w' : Work F} {mode c : Int} (h : checkExitConditions w mode = .ok (w', c)) :
    SameData w w' ∧ Describes w' w ∧ w'.info.iter = w.info.iter := by
  obtain ⟨e, -, h | h | h | h⟩ := checkExit_cases h
  · rw [h.2]; exact ⟨.refl _, .refl _, rfl⟩
  all_goals
    rw [h.2.2]
    exact ⟨⟨rfl, rfl, rfl, rfl, rfl, rfl, rfl, rfl, rfl, rfl, rfl, rfl, rfl⟩,
      ⟨⟨.refl _, .refl _, .refl _, .refl _, rfl, rfl⟩,
       ⟨rfl, rfl, rfl, rfl, rfl, rfl, rfl, rfl, rfl, rfl⟩, rfl, rfl, rfl⟩, rfl⟩

theorem inaccOr_fr {w w' : Work F} {d c : Int} (h : inaccOr w d = .ok (w', c)) :
    SameData w w' ∧ Describes w' w ∧ w'.info.iter = w.info.iter := by
  obtain ⟨-, rfl, -⟩ | ⟨-, h⟩ := inaccOr_cases h
  · exact ⟨.refl _, .refl _, rfl⟩
  · exact checkExit_fr h

theorem recover_fr {w w' wm : Work F} {d c : Int} (h : recover w d = .ok (w', c))
    (hb : BestIs w wm) : SameData w w' ∧ Describes w' wm ∧ w'.info.iter = w.info.iter := by
  obtain ⟨wr, hr, h⟩ := recover_cases h
  have h1 := restoreBestIterate_spec hr hb
  have h2 := restoreBestIterate_data hr
  have h3 := inaccOr_fr h
  exact ⟨h2.1.trans h3.1, h3.2.1.trans h3.1 h1, h3.2.2.trans h2.2⟩

theorem recover_data {w w' : Work F} {d c : Int} (h : recover w d = .ok (w', c)) :
    SameData w w' ∧ w'.info.iter = w.info.iter := by
  obtain ⟨wr, hr, h⟩ := recover_cases h
  have h2 := restoreBestIterate_data hr
  have h3 := inaccOr_fr h
  exact ⟨h2.1.trans h3.1, h3.2.2.trans h2.2⟩

theorem recoverCmp_data {w w' : Work F} {d c : Int} (h : recoverCmp w d = .ok (w', c)) :
    SameData w w' ∧ w'.info.iter = w.info.iter := by
  obtain ⟨-, h⟩ | ⟨-, h⟩ := recoverCmp_cases h
  · have := inaccOr_fr h
    exact ⟨this.1, this.2.2⟩
  · exact recover_data h

/-- residuals and statistics leave data, iterate and best iterate alone -/
theorem passHead_fr {w w' : Work F} {k : Nat} (h : passHead w k = .ok w') :
    SameData w w' ∧ w'.info.iter = k ∧ SameIterate w' w ∧
      (∀ wm, BestIs w wm → BestIs w' wm) ∧ w'.info.step = w.info.step ∧ w'.bestInfo = w.bestInfo ∧
      w'.info.sigma = w.info.sigma := by
  unfold passHead computeResiduals updateStatistics at h
  simp only [bind_ok, pure_ok] at h
  obtain ⟨w1, ⟨r, -, cx, -, b, -, hz, -, kap, -, nx, -, ny, -, ns, -, nz, -, rfl⟩, i, -, rfl⟩ := h
  refine ⟨⟨rfl, rfl, rfl, rfl, rfl, rfl, rfl, rfl, rfl, rfl, rfl, rfl, rfl⟩, rfl,
    ⟨.refl _, .refl _, .refl _, .refl _, rfl, rfl⟩, fun wm hb => ?_, rfl, rfl, rfl⟩
  exact ⟨hb.x, hb.y, hb.z, hb.s, hb.kap, hb.tau, hb.cx, hb.bY, hb.hz, hb.stats⟩

theorem updateVars_fr {R : Corr F} {kap tau a : F} {w' : Work F}
    (h : updateVars R kap tau a = .ok w') :
    SameData R.w w' ∧ w'.info = R.w.info ∧ (∀ wm, BestIs R.w wm → BestIs w' wm) := by
  unfold updateVars at h
  simp only [bind_ok, pure_ok] at h
  obtain ⟨x, -, y, -, z, -, s, -, rfl⟩ := h
  refine ⟨⟨rfl, rfl, rfl, rfl, rfl, rfl, rfl, rfl, rfl, rfl, rfl, rfl, rfl⟩, rfl, fun wm hb => ?_⟩
  exact ⟨hb.x, hb.y, hb.z, hb.s, hb.kap, hb.tau, hb.cx, hb.bY, hb.hz, hb.stats⟩

/-- what is known at the beginning of pass `k` -/
structure HeadInv (arrives : Nat → Bool) (w : Work F) (sig : Sig) (k : Nat) (S : LoopS F) : Prop where
  data : SameData w S.w
  best : 0 < k → ∃ j wm, j < k ∧ Measured arrives w sig j wm ∧ BestIs S.w wm
  infoStep : 0 < k → ∃ (w0 : Work F), SameData w w0 ∧ passTail w0 = .ok (.inr S.w)
  best0 : k = 0 → S.w = { w with info := { w.info with iter := 0 } }

theorem atHead_inv {arrives : Nat → Bool} {w : Work F} {sig : Sig} {k : Nat} {S : LoopS F}
    (h : AtHead arrives w sig k S) : HeadInv arrives w sig k S := by
  induction h with
  | start =>
    exact ⟨⟨rfl, rfl, rfl, rfl, rfl, rfl, rfl, rfl, rfl, rfl, rfl, rfl, rfl⟩, fun h => by omega,
      fun h => by omega, fun _ => rfl⟩
  | @next k S S' hS hk hp ih =>
    obtain ⟨wm, wk, hm, hsig, -, -, -, hkb, ht, -⟩ := pass_inr hp
    obtain ⟨R, kap, tau, a, hfr, hu, -⟩ := passTail_inr ht
    have h1 := passHead_fr hm
    have h2 := keepBest_spec hkb
    have h3 := updateVars_fr hu
    have hd : SameData w S'.w := ih.data.trans (h1.1.trans (h2.2.1.trans (hfr.data.trans h3.1)))
    have hmeas : Measured arrives w sig k wm := ⟨S, hS, hk, hm⟩
    have hbest : ∃ j wj, j < k + 1 ∧ Measured arrives w sig j wj ∧ BestIs wk wj := by
      obtain hb | ⟨hpos, rfl⟩ := h2.1
      · exact ⟨k, wm, by omega, hmeas, hb⟩
      · rw [h1.2.1] at hpos
        obtain ⟨j, wj, hj, hmj, hbj⟩ := ih.best hpos
        exact ⟨j, wj, by omega, hmj, h1.2.2.2.1 _ hbj⟩
    refine ⟨hd, fun _ => ?_, fun _ => ⟨wk, ih.data.trans (h1.1.trans h2.2.1), ht⟩, fun h => by omega⟩
    obtain ⟨j, wj, hj, hmj, hbj⟩ := hbest
    exact ⟨j, wj, hj, hmj, h3.2.2 _ (hfr.best hbj)⟩

/-- how a pass leaves the loop -/
theorem leaves_spec {arrives : Nat → Bool} {w : Work F} {sig : Sig} {k : Nat} {e : Exit F}
    (h : Leaves arrives w sig k e) :
    SameData w e.w ∧ e.w.info.iter = k ∧
      ((∃ j wm, j ≤ k ∧ Measured arrives w sig j wm ∧ Describes e.w wm) ∨
       (k = 0 ∧ ∃ wm d, Measured arrives w sig 0 wm ∧
          compareStatistics wm.info w.bestInfo = .ok false ∧ recover wm d = .ok (e.w, e.code) ∧
          ((w.stgs.maxit = 0 ∧ d = MAXIT) ∨ ((deliver sig (arrives 0)).det = true ∧ d = SIGINT) ∨
            ((∃ v, wm.info.pcost = some v ∧ PFloat.isNaN v = true) ∧ d = NUMERICS)))) := by
  obtain ⟨S, hS, hk, hp⟩ := h
  have hinv := atHead_inv hS
  obtain ⟨wm, hm, hsig, hcase⟩ := pass_inl hp
  have h1 := passHead_fr hm
  have hmeas : Measured arrives w sig k wm := ⟨S, hS, hk, hm⟩
  have hdm : SameData w wm := hinv.data.trans h1.1
  have hrec : ∀ {d}, 0 < k → recover wm d = .ok (e.w, e.code) →
      SameData w e.w ∧ e.w.info.iter = k ∧
      ∃ j wm, j ≤ k ∧ Measured arrives w sig j wm ∧ Describes e.w wm := by
    intro d hpos hr
    obtain ⟨j, wj, hj, hmj, hbj⟩ := hinv.best hpos
    have := recover_fr hr (h1.2.2.2.1 _ hbj)
    exact ⟨hdm.trans this.1, this.2.2.trans h1.2.1, j, wj, by omega, hmj, this.2.1⟩
  have hcmp : ∀ {d}, recoverCmp wm d = .ok (e.w, e.code) →
      SameData w e.w ∧ e.w.info.iter = k ∧
      ((∃ j wm, j ≤ k ∧ Measured arrives w sig j wm ∧ Describes e.w wm) ∨
       (k = 0 ∧ compareStatistics wm.info w.bestInfo = .ok false ∧
        recover wm d = .ok (e.w, e.code))) := by
    intro d hr
    obtain ⟨-, hr⟩ | ⟨hc, hr⟩ := recoverCmp_cases hr
    · have := inaccOr_fr hr
      exact ⟨hdm.trans this.1, this.2.2.trans h1.2.1, Or.inl ⟨k, wm, le_refl _, hmeas, this.2.1⟩⟩
    · by_cases hpos : 0 < k
      · have := hrec hpos hr
        exact ⟨this.1, this.2.1, Or.inl this.2.2⟩
      · have h0 : k = 0 := by omega
        have := recover_data hr
        refine ⟨hdm.trans this.1, this.2.trans h1.2.1, Or.inr ⟨h0, ?_, hr⟩⟩
        have e1 : wm.bestInfo = S.w.bestInfo := h1.2.2.2.2.2.1
        rw [hinv.best0 h0] at e1
        rw [← show wm.bestInfo = w.bestInfo from e1]
        exact hc
  obtain ⟨hb, hr, -⟩ | ⟨hc, -, -⟩ | ⟨-, -, hn⟩ | ⟨-, -, wk, hkb, ht⟩ := hcase
  · have hpos : 0 < k := by
      unfold unreliable andM at hb
      split at hb
      · next h => rw [h1.2.1] at h; simpa using h
      · simp [pure_ok] at hb
    have := hrec hpos hr
    exact ⟨this.1, this.2.1, Or.inl this.2.2⟩
  · have := checkExit_fr hc
    exact ⟨hdm.trans this.1, this.2.2.trans h1.2.1, Or.inl ⟨k, wm, le_refl _, hmeas, this.2.1⟩⟩
  · obtain ⟨hpos, hr⟩ | ⟨hi, hr⟩ | ⟨hi, hm', hv, hr⟩ := notYet_inl hn
    · rw [h1.2.1] at hpos
      have := hrec hpos hr
      exact ⟨this.1, this.2.1, Or.inl this.2.2⟩
    · have h5 := hcmp hr
      refine ⟨h5.1, h5.2.1, ?_⟩
      obtain h6 | ⟨h0, h7, h8⟩ := h5.2.2
      · exact Or.inl h6
      · subst h0
        refine Or.inr ⟨rfl, wm, _, hmeas, h7, h8, ?_⟩
        have hSs : S.sig = sig := by
          cases hS with
          | start => rfl
        rw [hSs] at hi ⊢
        cases hdet : (deliver sig (arrives 0)).det with
        | true => exact Or.inr (Or.inl ⟨rfl, by simp⟩)
        | false =>
          rw [hdet, h1.2.1, hdm.stgs] at hi
          refine Or.inl ⟨?_, by simp⟩
          simpa [eq_comm] using hi
    · have h5 := hcmp hr
      refine ⟨h5.1, h5.2.1, ?_⟩
      obtain h6 | ⟨h0, h7, h8⟩ := h5.2.2
      · exact Or.inl h6
      · subst h0
        exact Or.inr ⟨rfl, wm, _, hmeas, h7, h8, Or.inr (Or.inr ⟨hv, rfl⟩)⟩
  · have h2 := keepBest_spec hkb
    have hbest : ∃ j wj, j ≤ k ∧ Measured arrives w sig j wj ∧ BestIs wk wj := by
      obtain hb | ⟨hpos, rfl⟩ := h2.1
      · exact ⟨k, wm, le_refl _, hmeas, hb⟩
      · rw [h1.2.1] at hpos
        obtain ⟨j, wj, hj, hmj, hbj⟩ := hinv.best hpos
        exact ⟨j, wj, by omega, hmj, h1.2.2.2.1 _ hbj⟩
    obtain ⟨j, wj, hj, hmj, hbj⟩ := hbest
    have hdk : SameData w wk := hdm.trans h2.2.1
    have hik : wk.info.iter = k := by rw [h2.2.2.2]; exact h1.2.1
    obtain ⟨w1, hfr, hc⟩ := passTail_inl ht
    have hi1 : w1.info.iter = k := by rw [hfr.2.iter]; exact hik
    have hrec' : ∀ {d}, recover w1 d = .ok (e.w, e.code) →
        SameData w e.w ∧ e.w.info.iter = k ∧ Describes e.w wj := by
      intro d hr
      have := recover_fr hr (hfr.best hbj)
      exact ⟨hdk.trans (hfr.data.trans this.1), this.2.2.trans hi1, this.2.1⟩
    obtain ⟨hr, -⟩ | ⟨he, -, -⟩ | ⟨hr, -⟩ := hc
    · have := hrec' hr
      exact ⟨this.1, this.2.1, Or.inl ⟨j, wj, hj, hmj, this.2.2⟩⟩
    · rw [he]
      exact ⟨hdk.trans hfr.data, hi1, Or.inl ⟨k, wm, le_refl _, hmeas,
        (hfr.describes).trans hfr.data h2.2.2.1⟩⟩
    · have := hrec' hr
      exact ⟨this.1, this.2.1, Or.inl ⟨j, wj, hj, hmj, this.2.2⟩⟩

/-- the loop never runs out of passes -/
theorem no_overrun {arrives : Nat → Bool} {w : Work F} {sig : Sig} {k : Nat} {S : LoopS F}
    (h : AtHead arrives w sig k S) (hk : 0 < k) : (k : Int) ≤ w.stgs.maxit := by
  cases h with
  | start => omega
  | @next k S hS' hS hle hp =>
    obtain ⟨wm, wk, hm, hsig, -, -, hn, -⟩ := pass_inr hp
    have h1 := passHead_fr hm
    have := (notYet_inr hn).2.2
    rw [h1.2.1, h1.1.stgs, (atHead_inv hS).data.stgs] at this
    omega

theorem mainLoop_cases' {arrives : Nat → Bool} {w : Work F} {sig : Sig} {e : Exit F}
    (h : mainLoop arrives w sig = .ok e) :
    (∃ k, Leaves arrives w sig k e) ∨
    (w.stgs.maxit < 0 ∧
      e = { w := { w with info := { w.info with iter := 0 } }, sig := sig, code := FATAL,
            early := false }) := by
  obtain h | h | ⟨S, hS, h0⟩ := mainLoop_cases h
  · exact Or.inl h
  · exact Or.inr h
  · have := no_overrun hS (by omega)
    omega

end generic
end Ecos
