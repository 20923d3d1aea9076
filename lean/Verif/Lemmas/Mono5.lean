import Verif.Lemmas.Mono4

/-!
# Less unwritten memory: the main loop and the whole solve
-/
namespace Ecos.Mono

open Ecos

set_option linter.unusedSectionVars false
set_option linter.unusedVariables false
set_option linter.unusedTactic false

section generic
variable {F : Type} [Zero F] [One F] [Add F] [Sub F] [Mul F] [Div F] [Neg F] [OfScientific F]
  [IntCast F] [PFloat F] [PrRel F]

theorem passTail_le [HasInf F] {w w' : Work F} (hw : w ⊑ w')
    (hku : ∀ mu (u : Cone F × Option (Buf F)) lam (C' : Cone F), updateScalings w.C w.s w.z (malloc w.m) mu = .ok u → u.2 = some lam → u.1 ⊑ C' →
      LeR (PkOk w.KKT.PK w'.KKT.PK True) (kktUpdate w.KKT.PKPt w.KKT.PK u.1) (kktUpdate w'.KKT.PKPt w'.KKT.PK C')) :
    passTail w ⊑ passTail w' := by
  unfold passTail
  refine bind_le (by mono) fun mu mu' hmu => ?_
  refine bind_leE (by mono) fun u u' hu h => ?_
  obtain ⟨C, l⟩ := u
  obtain ⟨C', l'⟩ := u'
  obtain ⟨hC, hl⟩ := h
  dsimp only at hC hl
  cases l with
  | none =>
    cases l' with
    | none => mono
    | some _ => exact hl.elim
  | some lam =>
    cases l' with
    | none => exact hl.elim
    | some lam' =>
      have hlam : lam ⊑ lam' := hl
      refine bind_leR (hku _ _ lam C' hu rfl hC) fun P P' hP => ?_
      obtain ⟨p1, p2, p3, p4, p5, p6, p7⟩ := hP
      refine bind_le (kktFactor_le (by mono) (p7 trivial) (by mono) (by mono)) ?_
      mono

structure ExitLe (l' r' : Exit F) : Prop where
  w : l'.w ⊑ r'.w
  sig : l'.sig = r'.sig
  code : l'.code = r'.code
  early : l'.early = r'.early
instance (priority := high) relExit : Rel (Exit F) := ⟨ExitLe⟩
@[mle] theorem Exit_w {a b : Exit F} (h : a ⊑ b) : a.w ⊑ b.w := ExitLe.w h
@[mle] theorem Exit_sig {a b : Exit F} (h : a ⊑ b) : a.sig = b.sig := ExitLe.sig h
@[mle] theorem Exit_code {a b : Exit F} (h : a ⊑ b) : a.code = b.code := ExitLe.code h
@[mle] theorem Exit_early {a b : Exit F} (h : a ⊑ b) : a.early = b.early := ExitLe.early h
@[mle] theorem Exit_mk {a0 b0 : Work F} {a1 b1 : Sig} {a2 b2 : Int} {a3 b3 : Bool} (h0 : a0 ⊑ b0) (h1 : a1 = b1) (h2 : a2 = b2) (h3 : a3 = b3) :
    (⟨a0, a1, a2, a3⟩ : Exit F) ⊑ ⟨b0, b1, b2, b3⟩ := ExitLe.mk h0 h1 h2 h3

structure LoopSLe (l' r' : LoopS F) : Prop where
  w : l'.w ⊑ r'.w
  presPrev : l'.presPrev = r'.presPrev
  sig : l'.sig = r'.sig
instance (priority := high) relLoopS : Rel (LoopS F) := ⟨LoopSLe⟩
@[mle] theorem LoopS_w {a b : LoopS F} (h : a ⊑ b) : a.w ⊑ b.w := LoopSLe.w h
@[mle] theorem LoopS_presPrev {a b : LoopS F} (h : a ⊑ b) : a.presPrev = b.presPrev := LoopSLe.presPrev h
@[mle] theorem LoopS_sig {a b : LoopS F} (h : a ⊑ b) : a.sig = b.sig := LoopSLe.sig h
@[mle] theorem LoopS_mk {a0 b0 : Work F} {a1 b1 : F} {a2 b2 : Sig} (h0 : a0 ⊑ b0) (h1 : a1 = b1) (h2 : a2 = b2) :
    (⟨a0, a1, a2⟩ : LoopS F) ⊑ ⟨b0, b1, b2⟩ := LoopSLe.mk h0 h1 h2

set_option maxHeartbeats 1000000 in
theorem pass_le [HasInf F] [ItEq F] {arrives : Nat → Bool} {k : Nat} {S S' : LoopS F} (hS : S ⊑ S')
    (ht : ∀ a b r q v v', passHead S.w k = .ok a → unreliable a.info S.presPrev = .ok b → b = false → checkExitConditions a 0 = .ok r → r.2 = NOTYET →
      notYet r.1 (deliver S.sig (arrives k)).det = .ok (.inr q) → keepBest q = .ok v → v ⊑ v' → passTail v ⊑ passTail v') :
    pass arrives k S ⊑ pass arrives k S' := by
  obtain ⟨h1, h2, h3⟩ := hS
  obtain ⟨w, pp, sg⟩ := S
  obtain ⟨w', pp', sg'⟩ := S'
  dsimp only at h1 h2 h3 ht
  subst h2 h3
  unfold pass
  dsimp only
  refine bind_leE (by mono) fun a a' ha haa => ?_
  refine bind_leE (by mono) fun b b' hb hbb => ?_
  cases (hbb : b = b')
  refine ite_le rfl (fun _ => by mono) fun hbf => ?_
  refine bind_le (by mono) fun pres pres' hp => ?_
  cases (hp : pres = pres')
  refine bind_leE (by mono) fun r r' hr hrr => ?_
  obtain ⟨r1, r2⟩ := r
  obtain ⟨r1', r2'⟩ := r'
  obtain ⟨hr1, hr2⟩ := hrr
  cases (hr2 : r2 = r2')
  dsimp only at hr1
  refine ite_le rfl (fun _ => by mono) fun hny => ?_
  refine bind_leE (by mono) fun q q' hq hqq => ?_
  cases hqq with
  | inl h =>
    mnorm
    mono
  | inr h =>
    refine bind_leE (by mono) fun v v' hv hvv => ?_
    refine bind_le (ht _ _ _ _ _ _ ha hb (by simpa using hbf) hr (by simpa using hny) hq hv hvv) ?_
    mono

theorem mainLoop_le [HasInf F] [ItEq F] {arrives : Nat → Bool} {w w' : Work F} {sig : Sig} (hs : w.stgs = w'.stgs)
    (hw : { w with info := { w.info with iter := 0 } } ⊑ { w' with info := { w'.info with iter := 0 } }) (I : Nat → LoopS F → Prop)
    (h0 : I 0 { w := { w with info := { w.info with iter := 0 } }, presPrev := NAN, sig := sig })
    (hp : ∀ k S S', k < (w.stgs.maxit + 1).toNat → I k S → S ⊑ S' → pass arrives k S ⊑ pass arrives k S')
    (hI : ∀ k S T, k < (w.stgs.maxit + 1).toNat → I k S → pass arrives k S = .ok (.inr T) → I (k + 1) T) :
    mainLoop arrives w sig ⊑ mainLoop arrives w' sig := by
  unfold mainLoop
  have key : ∀ (lo hi : Nat) (S S' : LoopS F), hi ≤ (w.stgs.maxit + 1).toNat → I lo S → S ⊑ S' → loopE lo hi S (pass arrives) ⊑ loopE lo hi S' (pass arrives) := by
    intro lo hi
    induction h : hi - lo generalizing lo with
    | zero =>
      intro S S' _ _ hS
      unfold loopE
      rw [if_neg (by omega), if_neg (by omega)]
      exact pure_le (inr_le hS)
    | succ n ih =>
      intro S S' hh hIS hS
      unfold loopE
      rw [if_pos (by omega), if_pos (by omega)]
      refine bind_leE (hp lo S S' (by omega) hIS hS) fun a b ha hab => ?_
      cases hab with
      | inl h => exact pure_le (inl_le h)
      | inr h => exact ih (lo + 1) (by omega) _ _ hh (hI _ _ _ (by omega) hIS ha) h
  refine bind_le ?_ ?_
  · dsimp only
    rw [show (w'.stgs.maxit + 1).toNat = (w.stgs.maxit + 1).toNat by rw [hs]]
    exact key 0 _ _ _ le_rfl h0 ⟨hw, rfl, rfl⟩
  · mono

@[mle] theorem finish_le {e e' : Exit F} (he : e ⊑ e') :
    finish e ⊑ finish e' := by
  subst_vars
  mnorm
  unfold finish
  mono

theorem ecosSolve_le [HasInf F] {arrives : Nat → Bool} {w w' : Work F} {sig sig' : Sig} (hsig : initCtrlc sig = initCtrlc sig')
    (hc : w.c ⊑ w'.c) (hx : w.xequil ⊑ w'.xequil) (hn : w.n = w'.n)
    (hin : ∀ c c', divBy w.c w.xequil w.n = .ok c → c ⊑ c' →
      LeR (fun o o' => o.2 = true ∧ o'.2 = true ∧ mainLoop arrives o.1 (initCtrlc sig) ⊑ mainLoop arrives o'.1 (initCtrlc sig))
        (initSolver { w with c := c }) (initSolver { w' with c := c' })) :
    ecosSolve arrives w sig ⊑ ecosSolve arrives w' sig' := by
  unfold ecosSolve
  rw [← hsig]
  refine bind_leE (by mono) fun c c' hc hcc => ?_
  refine bind_leR (hin c c' hc hcc) fun o o' hoo => ?_
  obtain ⟨o1, o2⟩ := o
  obtain ⟨o1', o2'⟩ := o'
  obtain ⟨h1, h2, h3⟩ := hoo
  dsimp only at h1 h2 h3
  subst h1 h2
  dsimp only
  rw [if_neg (by simp), if_neg (by simp)]
  refine bind_le h3 ?_
  mono

end generic
end Ecos.Mono
