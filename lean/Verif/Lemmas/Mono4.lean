import Verif.Lemmas.Mono3

/-!
# Less unwritten memory: steps of the driver
-/
namespace Ecos.Mono

open Ecos

set_option linter.unusedSectionVars false
set_option linter.unusedVariables false
set_option linter.unusedTactic false

section generic
variable {F : Type} [Zero F] [One F] [Add F] [Sub F] [Mul F] [Div F] [Neg F] [OfScientific F]
  [IntCast F] [PFloat F] [PrRel F]

@[mle] theorem muiWalk_le {ws ws' wz wz' : Buf F} {m m' : Nat} {mu mu' : F} (hws : ws ⊑ ws') (hwz : wz ⊑ wz') (hm : m = m') (hmu : mu = mu') :
    ∀ {k k' j j' : Nat} {mui mui' : F}, k = k' → j = j' → mui = mui' → muiWalk ws wz m mu k j mui ⊑ muiWalk ws' wz' m' mu' k' j' mui' := by
  subst_vars
  intro k k' j j' mui mui' hk hj hmui
  subst hk hj hmui
  induction k generalizing j mui with
  | zero => exact error_le
  | succ k ih =>
    unfold muiWalk
    mono
    all_goals exact ih

@[mle] theorem trialTest_le [HasInf F] {w w' : Work F} {ws ws' : Buf F} {wz wz' : Buf F} {mu mu' : F} {tauT tauT' : F} {kapT kapT' : F} (hw : w ⊑ w') (hws : ws ⊑ ws') (hwz : wz ⊑ wz') (hmu : mu = mu') (htauT : tauT = tauT') (hkapT : kapT = kapT') :
    LeR (@Rel.le _ (@relProd _ _ relEq relEq)) (trialTest w ws wz mu tauT kapT) (trialTest w' ws' wz' mu' tauT' kapT') := by
  subst_vars
  mnorm
  show @Rel.le (Except UB _) (@relM _ (@relProd _ _ relEq relEq)) _ _
  unfold trialTest
  mono

@[mle] theorem bump_le {i i' : Stats F} {r r' : Reject} (hi : i ⊑ i') (hr : r = r') :
    bump i r ⊑ bump i' r' := by
  subst_vars
  mnorm
  unfold bump
  cases r' <;> mono

@[mle] theorem trialMu_le {w w' : Work F} {ws ws' : Buf F} {wz wz' : Buf F} {tauT tauT' : F} {kapT kapT' : F} (hw : w ⊑ w') (hws : ws ⊑ ws') (hwz : wz ⊑ wz') (htauT : tauT = tauT') (hkapT : kapT = kapT') :
    trialMu w ws wz tauT kapT ⊑ trialMu w' ws' wz' tauT' kapT' := by
  subst_vars
  mnorm
  unfold trialMu
  mono

@[mle] theorem lsCounters_le {i i' : Stats F} (hi : i ⊑ i') :
    lsCounters i ⊑ lsCounters i' := by
  subst_vars
  mnorm
  unfold lsCounters
  mono

@[mle] theorem expConeLineSearch_le [HasInf F] {w w' : Work F} {ds ds' : Buf F} {dz dz' : Buf F} {tau tau' : F} {kap kap' : F} {dtau dtau' : F} {dkap dkap' : F} {alpha alpha' : F} (hw : w ⊑ w') (hds : ds ⊑ ds') (hdz : dz ⊑ dz') (htau : tau = tau') (hkap : kap = kap') (hdtau : dtau = dtau') (hdkap : dkap = dkap') (halpha : alpha = alpha') :
    LeR (@Rel.le _ (@relProd _ _ relEq relStats)) (expConeLineSearch w ds dz tau kap dtau dkap alpha) (expConeLineSearch w' ds' dz' tau' kap' dtau' dkap' alpha') := by
  subst_vars
  mnorm
  show @Rel.le (Except UB _) (@relM _ (@relProd _ _ relEq relStats)) _ _
  unfold expConeLineSearch
  mono

@[mle] theorem dots_le {w w' : Work F} {dx dx' : Buf F} {dy dy' : Buf F} {dz dz' : Buf F} (hw : w ⊑ w') (hdx : dx ⊑ dx') (hdy : dy ⊑ dy') (hdz : dz ⊑ dz') :
    dots w dx dy dz ⊑ dots w' dx' dy' dz' := by
  subst_vars
  mnorm
  unfold dots
  mono

@[mle] theorem axpy_le {dst dst' : Buf F} {n n' : Nat} {a a' : F} {src src' : Buf F} (hdst : dst ⊑ dst') (hn : n = n') (ha : a = a') (hsrc : src ⊑ src') :
    axpy dst n a src ⊑ axpy dst' n' a' src' := by
  subst_vars
  mnorm
  unfold axpy
  mono

@[mle] theorem cells_le {f f' : F → F → F} {a a' : Buf F} {b b' : Buf F} {dst dst' : Buf F} {m m' : Nat} (hf : f = f') (ha : a ⊑ a') (hb : b ⊑ b') (hdst : dst ⊑ dst') (hm : m = m') :
    cells f a b dst m ⊑ cells f' a' b' dst' m' := by
  subst_vars
  mnorm
  unfold cells
  mono

@[mle] theorem expDs_le {C C' : Cone F} {m m' : Nat} {ds ds' : Buf F} {dz dz' : Buf F} (hC : C ⊑ C') (hm : m = m') (hds : ds ⊑ ds') (hdz : dz ⊑ dz') :
    expDs C m ds dz ⊑ expDs C' m' ds' dz' := by
  subst_vars
  mnorm
  unfold expDs
  mono

structure PredLe (l' r' : Pred F) : Prop where
  w : l'.w ⊑ r'.w
  lam : l'.lam ⊑ r'.lam
  denom : l'.denom = r'.denom
  dtauaff : l'.dtauaff = r'.dtauaff
  dkapaff : l'.dkapaff = r'.dkapaff
  Wdz : l'.Wdz ⊑ r'.Wdz
  dsW : l'.dsW ⊑ r'.dsW
  dsaff : l'.dsaff ⊑ r'.dsaff
instance (priority := high) relPred : Rel (Pred F) := ⟨PredLe⟩
@[mle] theorem Pred_w {a b : Pred F} (h : a ⊑ b) : a.w ⊑ b.w := PredLe.w h
@[mle] theorem Pred_lam {a b : Pred F} (h : a ⊑ b) : a.lam ⊑ b.lam := PredLe.lam h
@[mle] theorem Pred_denom {a b : Pred F} (h : a ⊑ b) : a.denom = b.denom := PredLe.denom h
@[mle] theorem Pred_dtauaff {a b : Pred F} (h : a ⊑ b) : a.dtauaff = b.dtauaff := PredLe.dtauaff h
@[mle] theorem Pred_dkapaff {a b : Pred F} (h : a ⊑ b) : a.dkapaff = b.dkapaff := PredLe.dkapaff h
@[mle] theorem Pred_Wdz {a b : Pred F} (h : a ⊑ b) : a.Wdz ⊑ b.Wdz := PredLe.Wdz h
@[mle] theorem Pred_dsW {a b : Pred F} (h : a ⊑ b) : a.dsW ⊑ b.dsW := PredLe.dsW h
@[mle] theorem Pred_dsaff {a b : Pred F} (h : a ⊑ b) : a.dsaff ⊑ b.dsaff := PredLe.dsaff h
@[mle] theorem Pred_mk {a0 b0 : Work F} {a1 b1 : Buf F} {a2 b2 : F} {a3 b3 : F} {a4 b4 : F} {a5 b5 : Buf F} {a6 b6 : Buf F} {a7 b7 : Buf F} (h0 : a0 ⊑ b0) (h1 : a1 ⊑ b1) (h2 : a2 = b2) (h3 : a3 = b3) (h4 : a4 = b4) (h5 : a5 ⊑ b5) (h6 : a6 ⊑ b6) (h7 : a7 ⊑ b7) :
    (⟨a0, a1, a2, a3, a4, a5, a6, a7⟩ : Pred F) ⊑ ⟨b0, b1, b2, b3, b4, b5, b6, b7⟩ := PredLe.mk h0 h1 h2 h3 h4 h5 h6 h7

@[mle] theorem affineDir_le [HasInf F] {w w' : Work F} {lam lam' : Buf F} {kap kap' : F} {tau tau' : F} {rt rt' : F} (hw : w ⊑ w') (hlam : lam ⊑ lam') (hkap : kap = kap') (htau : tau = tau') (hrt : rt = rt') :
    affineDir w lam kap tau rt ⊑ affineDir w' lam' kap' tau' rt' := by
  subst_vars
  mnorm
  unfold affineDir
  mono

@[mle] theorem affineStep_le [HasInf F] {P P' : Pred F} {kap kap' : F} {tau tau' : F} (hP : P ⊑ P') (hkap : kap = kap') (htau : tau = tau') :
    affineStep P kap tau ⊑ affineStep P' kap' tau' := by
  subst_vars
  mnorm
  unfold affineStep
  mono

structure CorrLe (l' r' : Corr F) : Prop where
  w : l'.w ⊑ r'.w
  dtau : l'.dtau = r'.dtau
  dkap : l'.dkap = r'.dkap
  ds : l'.ds ⊑ r'.ds
instance (priority := high) relCorr : Rel (Corr F) := ⟨CorrLe⟩
@[mle] theorem Corr_w {a b : Corr F} (h : a ⊑ b) : a.w ⊑ b.w := CorrLe.w h
@[mle] theorem Corr_dtau {a b : Corr F} (h : a ⊑ b) : a.dtau = b.dtau := CorrLe.dtau h
@[mle] theorem Corr_dkap {a b : Corr F} (h : a ⊑ b) : a.dkap = b.dkap := CorrLe.dkap h
@[mle] theorem Corr_ds {a b : Corr F} (h : a ⊑ b) : a.ds ⊑ b.ds := CorrLe.ds h
@[mle] theorem Corr_mk {a0 b0 : Work F} {a1 b1 : F} {a2 b2 : F} {a3 b3 : Buf F} (h0 : a0 ⊑ b0) (h1 : a1 = b1) (h2 : a2 = b2) (h3 : a3 ⊑ b3) :
    (⟨a0, a1, a2, a3⟩ : Corr F) ⊑ ⟨b0, b1, b2, b3⟩ := CorrLe.mk h0 h1 h2 h3

@[mle] theorem expDsFinal_le {C C' : Cone F} {ds ds' : Buf F} (hC : C ⊑ C') (hds : ds ⊑ ds') :
    expDsFinal C ds ⊑ expDsFinal C' ds' := by
  subst_vars
  mnorm
  unfold expDsFinal
  mono

set_option maxHeartbeats 1000000 in
@[mle] theorem combinedDir_le [HasInf F] {P P' : Pred F} {kap kap' : F} {tau tau' : F} {rt rt' : F} {mu mu' : F} {sigma sigma' : F} (hP : P ⊑ P') (hkap : kap = kap') (htau : tau = tau') (hrt : rt = rt') (hmu : mu = mu') (hsigma : sigma = sigma') :
    combinedDir P kap tau rt mu sigma ⊑ combinedDir P' kap' tau' rt' mu' sigma' := by
  subst_vars
  mnorm
  unfold combinedDir
  mono

@[mle] theorem combinedStep_le [HasInf F] {R R' : Corr F} {kap kap' : F} {tau tau' : F} (hR : R ⊑ R') (hkap : kap = kap') (htau : tau = tau') :
    LeR (@Rel.le _ (@relProd _ _ relEq relStats)) (combinedStep R kap tau) (combinedStep R' kap' tau') := by
  subst_vars
  mnorm
  show @Rel.le (Except UB _) (@relM _ (@relProd _ _ relEq relStats)) _ _
  unfold combinedStep
  mono

@[mle] theorem updateVars_le {R R' : Corr F} {kap kap' : F} {tau tau' : F} {a a' : F} (hR : R ⊑ R') (hkap : kap = kap') (htau : tau = tau') (ha : a = a') :
    updateVars R kap tau a ⊑ updateVars R' kap' tau' a' := by
  subst_vars
  mnorm
  unfold updateVars
  mono

@[mle] theorem inaccOr_le [HasInf F] {w w' : Work F} {dflt dflt' : Int} (hw : w ⊑ w') (hdflt : dflt = dflt') :
    inaccOr w dflt ⊑ inaccOr w' dflt' := by
  subst_vars
  mnorm
  unfold inaccOr
  mono

@[mle] theorem recover_le [HasInf F] {w w' : Work F} {dflt dflt' : Int} (hw : w ⊑ w') (hdflt : dflt = dflt') :
    recover w dflt ⊑ recover w' dflt' := by
  subst_vars
  mnorm
  unfold recover
  mono

@[mle] theorem recoverCmp_le [HasInf F] {w w' : Work F} {dflt dflt' : Int} (hw : w ⊑ w') (hdflt : dflt = dflt') :
    recoverCmp w dflt ⊑ recoverCmp w' dflt' := by
  subst_vars
  mnorm
  unfold recoverCmp
  mono

@[mle] theorem keepBest_le [ItEq F] [HasInf F] {w w' : Work F} (hw : w ⊑ w') :
    keepBest w ⊑ keepBest w' := by
  subst_vars
  mnorm
  unfold keepBest
  mono

@[mle] theorem notYet_le [ItEq F] [HasInf F] {w w' : Work F} {interrupted interrupted' : Bool} (hw : w ⊑ w') (hinterrupted : interrupted = interrupted') :
    notYet w interrupted ⊑ notYet w' interrupted' := by
  subst_vars
  mnorm
  unfold notYet
  mono

@[mle] theorem unreliable_le [ItEq F] {i i' : Stats F} {presPrev presPrev' : F} (hi : i ⊑ i') (hpresPrev : presPrev = presPrev') :
    unreliable i presPrev ⊑ unreliable i' presPrev' := by
  subst_vars
  mnorm
  unfold unreliable
  mono

@[mle] theorem passHead_le [HasInf F] {w w' : Work F} {k k' : Nat} (hw : w ⊑ w') (hk : k = k') :
    passHead w k ⊑ passHead w' k' := by
  subst_vars
  mnorm
  unfold passHead
  mono

@[mle] theorem backscale_le {w w' : Work F} (hw : w ⊑ w') :
    backscale w ⊑ backscale w' := by
  subst_vars
  mnorm
  unfold backscale
  mono

end generic
end Ecos.Mono
