import Verif.Props.BB
import Verif.Props.BBExample
import Verif.Props.BBProgress

/-!
# C62: searches that end at the root
-/
set_option linter.unusedSectionVars false

namespace Ecos
namespace BB

open XR

variable {W I : Type} {P : Par XR W} {env : Env XR W I} {bb : St XR W I} {bad : UB → Prop}

/-- every declared variable can be rounded and lies within the tolerance of its rounding -/
def RoundsTo (P : Par XR W) (xf : Nat → XR) : Prop :=
  (∀ i, i < P.nb → ∃ r k, pfRound (xf (P.bv i)) = .ok r ∧ castChar r = .ok k ∧ floatEqls (xf (P.bv i)) ((k : Int) : XR) P.stgs.intTol = true) ∧
  (∀ i, i < P.ni → ∃ r, pfRound (xf (P.iv i)) = .ok r ∧ floatEqls (xf (P.iv i)) r P.stgs.intTol = true)

/-- the code that says "solved" at the root: 0, or 10 if the root is all that the node limit permits -/
def doneCode (mx : Nat) : Int := if 1 < mx then 0 else 10

/-- the code that says "no solution": 1, or 11 if the root is all that the node limit permits -/
def noneCode (mx : Nat) : Int := if 1 < mx then 1 else 11

/-- the workspace holds the solution of `e` -/
structure Shows (bb : St XR W I) (e : EW XR W I) : Prop where
  x : bb.ecos.x = e.x
  y : bb.ecos.y = e.y
  z : bb.ecos.z = e.z
  s : bb.ecos.s = e.s
  kap : bb.ecos.kap = e.kap
  tau : bb.ecos.tau = e.tau
  info : bb.ecos.info = e.info

/-- the workspace holds what had been stored in `b`, by an earlier search or nothing at all -/
structure ShowsOld (bb b : St XR W I) : Prop where
  x : bb.ecos.x = b.x
  y : bb.ecos.y = b.y
  z : bb.ecos.z = b.z
  s : bb.ecos.s = b.s
  kap : bb.ecos.kap = b.kap
  tau : bb.ecos.tau = b.tau
  info : bb.ecos.info = b.info

theorem castChar_xr {k : Int} (h1 : -128 ≤ k) (h2 : k ≤ 127) : castChar (XR.fin ((k : Int) : ℝ)) = .ok k := by
  have h3 : castInt ((k : Int) : ℝ) = .ok k := by
    by_cases h : 0 ≤ k
    · rw [castInt_nonneg (by exact_mod_cast h) (by exact_mod_cast (by omega : k < 2147483648)), Int.floor_intCast]
    · rw [castInt_neg (by exact_mod_cast (by omega : k < 0)) (by exact_mod_cast (by omega : -2147483649 < k)), Int.ceil_intCast]
  unfold castChar
  rw [castInt_fin, h3, ok_bind_eq, if_pos ⟨h1, h2⟩]
  rfl

/-- real points are integral if the declared variables are near to integers -/
theorem roundsTo {xf : Nat → XR} {x : Nat → ℝ} {tol : ℝ} (hx : ∀ i, i < P.n → xf i = .fin (x i)) (ht : P.stgs.intTol = .fin tol)
    (hb : ∀ i, i < P.nb → P.bv i < P.n ∧ |x (P.bv i)| ≤ 2 ∧ ∃ k : Int, |x (P.bv i) - k| < tol)
    (hi : ∀ i, i < P.ni → P.iv i < P.n ∧ InRange (x (P.iv i)) ∧ ∃ k : Int, |x (P.iv i) - k| < tol) : RoundsTo P xf := by
  have near : ∀ {y : ℝ} {k : Int}, |y - k| < tol → |y - (rRound y : ℝ)| < tol := fun {y k} h => by
    have := rRound_nearest y k
    rw [abs_sub_comm, abs_sub_comm (k : ℝ)] at this
    exact lt_of_le_of_lt this h
  refine ⟨fun i h => ?_, fun i h => ?_⟩
  · obtain ⟨h1, h2, k, h3⟩ := hb i h
    rw [hx _ h1, ht]
    have h4 := abs_le.1 h2
    have h5 := abs_le.1 (rRound_near (x (P.bv i)))
    have u1 : (rRound (x (P.bv i)) : ℝ) < 3 := by linarith
    have u2 : (-3 : ℝ) < (rRound (x (P.bv i)) : ℝ) := by linarith
    have v1 : rRound (x (P.bv i)) < 3 := by exact_mod_cast u1
    have v2 : -3 < rRound (x (P.bv i)) := by exact_mod_cast u2
    refine ⟨_, _, pfRound_xr ⟨by linarith, by linarith⟩, castChar_xr (by omega) (by omega), ?_⟩
    exact (floatEqls_xr _ _ _).trans (decide_eq_true (near h3))
  · obtain ⟨h1, h2, k, h3⟩ := hi i h
    rw [hx _ h1, ht]
    exact ⟨_, pfRound_xr h2, (floatEqls_xr _ _ _).trans (decide_eq_true (near h3))⟩

theorem roundAll_int {g : Gh XR} (h : Rep P bb g) {xf : Nat → XR} (hx : Holds bb.ecos.x P.n xf) (hR : RoundsTo P xf) :
    ∃ tb ti, roundAll bb = .ok ({ bb with tmpBool := tb, tmpInt := ti }, true) ∧ tb.size = P.nb ∧ ti.size = 2 * P.ni := by
  have h1 : Ok (loop 0 bb.nb (bb.tmpBool, true) (roundBoolStep bb)) fun s => s.1.size = P.nb ∧ s.2 = true := by
    rw [h.nb_eq]
    refine loop_ok (fun _ s => s.1.size = P.nb ∧ s.2 = true) (Nat.zero_le _) ⟨h.tmpB, rfl⟩ ?_ fun s hs => hs
    rintro t ⟨b, f⟩ - ht ⟨hb, hf⟩
    obtain ⟨r, k, e1, e2, e3⟩ := hR.1 t ht
    unfold roundBoolStep
    rw [h.hbv.rd ht, ok_bind_eq, hx.rd (h.bv_lt t ht), ok_bind_eq, e1, ok_bind_eq, e2, ok_bind_eq, Ok_bind]
    simp only at hb hf
    rw [wr_eq (hb ▸ ht), Ok_ok, Ok_pure, h.stgs_eq, e3, hf]
    exact ⟨by simpa using hb, rfl⟩
  obtain ⟨s1, e1, z1, f1⟩ := (Ok.def _ _).mp h1
  have h2 : Ok (loop 0 bb.ni (bb.tmpInt, s1.2) (roundIntStep bb)) fun s => s.1.size = 2 * P.ni ∧ s.2 = true := by
    rw [h.ni_eq]
    refine loop_ok (fun _ s => s.1.size = 2 * P.ni ∧ s.2 = true) (Nat.zero_le _) ⟨h.tmpI, f1⟩ ?_ fun s hs => hs
    rintro t ⟨b, f⟩ - ht ⟨hb, hf⟩
    obtain ⟨r, e1, e3⟩ := hR.2 t ht
    unfold roundIntStep
    simp only at hb hf
    rw [h.hiv.rd ht, ok_bind_eq, hx.rd (h.iv_lt t ht), ok_bind_eq, e1, ok_bind_eq, wr_eq (hb.symm ▸ (by omega : 2 * t + 1 < 2 * P.ni)),
      ok_bind_eq, wr_eq (by rw [Array.size_setIfInBounds]; exact hb.symm ▸ (by omega : 2 * t < 2 * P.ni)), ok_bind_eq, Ok_pure, h.stgs_eq, e3, hf]
    exact ⟨by simpa using hb, rfl⟩
  obtain ⟨s2, e2, z2, f2⟩ := (Ok.def _ _).mp h2
  refine ⟨s1.1, s2.1, ?_, z1, z2⟩
  unfold roundAll
  rw [e1, ok_bind_eq, e2, ok_bind_eq, f2]
  rfl

/-- nothing to search after the root -/
theorem search_stops {b : St XR W I} {atol : ℝ} (ha : b.stgs.absTol = .fin atol) (h0 : 0 ≤ atol) (hd : b.globalL = b.globalU) (fuel k : Nat) (c : Int) :
    search env fuel k c b = .ok b := by
  have hsc : shouldContinue b c = false := by
    unfold shouldContinue
    have : lt b.stgs.absTol (b.globalU - b.globalL) = false := by
      rw [ha, hd]
      cases hU : b.globalU with
      | fin r =>
        rw [XR.fin_sub, sub_self]
        exact decide_eq_false (by simpa using h0)
      | _ => rfl
    rw [this]
    rfl
  cases k with
  | zero => unfold search; rw [hsc]; rfl
  | succ k => unfold search; rw [hsc]; rfl

/-- the code after the root -/
theorem rootCode {b : St XR W I} (hi : b.iter = 0) : (b.globalU = .pinf → getRetCode b = noneCode b.stgs.maxit) ∧
    (∀ r, b.globalU = .fin r → getRetCode b = doneCode b.stgs.maxit) ∧ (b.globalU = .nan → getRetCode b = doneCode b.stgs.maxit) := by
  have hc : ((b.iter : Nat) : Int) < (b.stgs.maxit : Int) - 1 ↔ 1 < b.stgs.maxit := by rw [hi]; omega
  refine ⟨fun h => ?_, fun r h => ?_, fun h => ?_⟩
  all_goals
    unfold getRetCode
    rw [h]
    by_cases hm : 1 < b.stgs.maxit
    · rw [if_pos (hc.2 hm)]
      simp only [noneCode, doneCode, if_pos hm]
      rfl
    · rw [if_neg fun q => hm (hc.1 q)]
      simp only [noneCode, doneCode, if_neg hm]
      rfl

/-- C62: the root. The search calls the continuous solver with the booleans free in `[0, 1]` and the integers in `±8388608`. If that solve is
refused (any code but optimal, inaccurate optimal, iteration limit and numerical problems), the answer is "no solution" and the workspace shows what
had been stored by an earlier search. If it is accepted and all declared variables are integral, the answer is this point, with its objective
as bound. A fault of the solver is a fault of the search. -/
theorem C62_root_partial (K : Contract P env (fun _ => True) (fun _ => True) bad) (h : Alloc P bb) {atol : ℝ} (ha : P.stgs.absTol = .fin atol)
    (h0 : 0 ≤ atol) (fuel : Nat) : ∃ e hf, EWF P e hf ∧ HRows P hf (fun _ => -1) (fun _ => ((8388608 : Int) : XR)) ∧
      (P.nb = 0 → P.ni = 0 → e = bb.ecos) ∧ (∀ u, env.solve e = .error u → bbSolve env fuel bb = .error u) ∧
      ∀ e' code, env.solve e = .ok (e', code) →
        (¬ Usable code → ∃ bb', bbSolve env fuel bb = .ok (bb', noneCode P.stgs.maxit) ∧ ShowsOld bb' bb) ∧
        (Usable code → ∀ xf cf, Holds e'.x P.n xf → Holds e'.c P.n cf → RoundsTo P xf →
          (∀ r, dotF P.n xf cf = .fin r →
            ∃ bb', bbSolve env fuel bb = .ok (bb', doneCode P.stgs.maxit) ∧ Shows bb' e' ∧ bb'.globalU = .fin r ∧ bb'.globalL = .fin r) ∧
          (dotF P.n xf cf = .nan → ∃ bb', bbSolve env fuel bb = .ok (bb', doneCode P.stgs.maxit) ∧ ShowsOld bb' bb)) := by
  obtain ⟨nf, hn⟩ := h.nodes
  obtain ⟨b0, g0, e0, r0, hg, hb0, hj0, ns, b, ii, hbb⟩ := initRoot_rep h hn
  have hi0 : b0.iter = 0 := by rw [hbb]
  have hU0 : b0.globalU = .pinf := by rw [hbb]; rfl
  have hm := h.maxit_pos
  obtain ⟨e, hf, e1, he, hr⟩ := setProb_ok r0 (bids := b0.boolIds) (boff := P.nb * 0) (iids := b0.intIds) (ioff := P.ni * 0 * 2)
    (bf := g0.brow P 0) (jf := g0.irow P 0) (fun i hi => r0.rd_bid (Nat.zero_le _) hi) (fun i hi => r0.rd_iid (Nat.zero_le _) hi)
  have hbnd := hr.intBnd fun _ => r0.rowInt (Nat.zero_le _)
  rw [← r0.nb_eq, ← r0.ni_eq] at e1
  have hrows : HRows P hf (fun _ => -1) (fun _ => ((8388608 : Int) : XR)) :=
    ⟨fun i hi q => by simp at q, fun i hi q => by simp at q, fun i hi _ => hr.star i hi (hb0 i hi), fun i hi => by
      have := hr.int i hi
      rw [hj0 _ (by omega), hj0 _ (by omega)] at this
      exact this⟩
  refine ⟨e, hf, he, hrows, fun q1 q2 => ?_, fun u hu => ?_, fun e' code hs => ?_⟩
  · unfold setProb at e1
    rw [r0.nb_eq, r0.ni_eq, q1, q2, loop_empty _ _ (le_refl 0), ok_bind_eq, loop_empty _ _ (le_refl 0), ok_bind_eq] at e1
    have e2 : (Except.ok b0.ecos : M _) = .ok e := congrArg (Except.map St.ecos) e1
    rw [hbb] at e2
    exact (Except.ok.inj e2).symm
  · unfold bbSolve getBounds callSolve
    rw [e0, ok_bind_eq, e1, ok_bind_eq]
    simp only
    rw [hu]
    rfl
  have w : EWF P e' hf := ((K.solve e hf he hbnd).out hs).1
  have r1 : Rep P { b0 with ecos := e' } g0 := r0.ecos w
  have ecall : callSolve env { b0 with ecos := e } = .ok ({ b0 with ecos := e' }, code) := by
    unfold callSolve
    simp only
    rw [hs]
    rfl
  have old : ∀ {b' : St XR W I}, b'.x = b0.x → b'.y = b0.y → b'.z = b0.z → b'.s = b0.s → b'.kap = b0.kap → b'.tau = b0.tau → b'.info = b0.info →
      ShowsOld (loaded b') bb := fun h1 h2 h3 h4 h5 h6 h7 => by
    rw [hbb] at h1 h2 h3 h4 h5 h6 h7
    exact ⟨h1, h2, h3, h4, h5, h6, h7⟩
  -- what is left once the root has been bounded
  have rest : ∀ {b1 : St XR W I} {g1 : Gh XR}, getBounds env fuel 0 b0 = .ok b1 → Rep P b1 g1 → b1.iter = 0 → (∃ hf, EWF P b1.ecos hf) →
      (g1.node 0).L = (g1.node 0).U →
      bbSolve env fuel bb = .ok (loaded { b1 with globalL := (g1.node 0).L, globalU := (g1.node 0).U },
        getRetCode { b1 with globalL := (g1.node 0).L, globalU := (g1.node 0).U }) := by
    intro b1 g1 eb q1 q2 ⟨hf1, q3⟩ q4
    unfold bbSolve
    rw [e0, ok_bind_eq, eb, ok_bind_eq, q1.hnodes.rd hm, ok_bind_eq]
    have r3 : Rep P { b1 with globalL := (g1.node 0).L, globalU := (g1.node 0).U } g1 := { q1 with }
    have h4 := search_stops (env := env) (b := { b1 with globalL := (g1.node 0).L, globalU := (g1.node 0).U }) (by rw [r3.stgs_eq]; exact ha) h0 q4
      fuel b1.stgs.maxit 0
    simp only
    rw [h4, ok_bind_eq, loadSolution_ok r3 q3, ok_bind_eq]
    rfl
  have hmx : ∀ {b1 : St XR W I} {g1 : Gh XR}, Rep P b1 g1 → b1.stgs.maxit = P.stgs.maxit := fun q => by rw [q.stgs_eq]
  refine ⟨fun hc => ?_, fun hc xf cf hx hcf hR => ?_⟩
  · obtain ⟨ns1, e4, r2⟩ := setNode_ok r1 (k := 0) hm (fun nd => { nd with L := INF, U := INF, status := MI_SOLVED_NON_BRANCHABLE })
    have eb : getBounds env fuel 0 b0 = .ok { b0 with ecos := e', nodes := ns1 } := by
      unfold getBounds
      rw [e1, ok_bind_eq, ecall, ok_bind_eq]
      simp only
      rw [if_neg fun q => hc (accepted_iff.1 q)]
      exact e4
    have := rest eb r2 hi0 ⟨hf, w⟩ (by simp only [upd_self])
    simp only [upd_self] at this
    refine ⟨_, this.trans (congrArg _ (congrArg _ ?_)), old rfl rfl rfl rfl rfl rfl rfl⟩
    rw [(rootCode (b := { b0 with ecos := e', nodes := ns1, globalL := INF, globalU := INF }) hi0).1 rfl]
    simp only [hmx r0]
  · have hcost : cost { b0 with ecos := e' } = .ok (dotF P.n xf cf) := by
      unfold cost
      simp only
      rw [w.hn]
      exact eddot_gen hx hcf
    generalize dotF P.n xf cf = d at hcost ⊢
    obtain ⟨ns1, e4, r2⟩ := setNode_ok r1 (k := 0) hm (fun nd => { nd with L := d })
    obtain ⟨ns2, e5, r3⟩ := setNode_ok r2 (k := 0) hm (fun nd => { nd with relaxation := d })
    simp only [upd_self] at r3
    have hprev : (g0.node 0).prevSplitIdx = -1 := by rw [hg, upd_self]
    have e6 : pseudoUpdate { b0 with ecos := e', nodes := ns2 } 0 = .ok { b0 with ecos := e', nodes := ns2 } := by
      unfold pseudoUpdate
      rw [r3.hnodes.rd hm, ok_bind_eq]
      simp only [upd_self]
      rw [if_neg (by rw [hprev]; decide)]
      rfl
    obtain ⟨tb, ti, e7, z1, z2⟩ := roundAll_int r3 hx hR
    have r4 : Rep P { b0 with ecos := e', nodes := ns2, tmpBool := tb, tmpInt := ti } _ := { r3 with tmpB := z1, tmpI := z2 }
    obtain ⟨ns3, e8, r5⟩ := setNode_ok r4 (k := 0) hm (fun nd => { nd with status := MI_SOLVED_NON_BRANCHABLE, U := d })
    simp only [upd_self] at r5
    have hU0' : (b0.globalU : XR) = INF := hU0
    have bounds : ∀ {b1 : St XR W I}, (updIncumbent { b0 with ecos := e', nodes := ns3, tmpBool := tb, tmpInt := ti } 0 >>= fun q => closeNode q 0 false) =
        .ok b1 → getBounds env fuel 0 b0 = .ok b1 := fun {b1} hb1 => by
      unfold getBounds
      rw [e1, ok_bind_eq, ecall, ok_bind_eq]
      simp only
      rw [if_pos (accepted_iff.2 hc), hcost, ok_bind_eq, e4, ok_bind_eq]
      rw [if_neg (show ¬ lt b0.globalU d = true by rw [hU0', ltLaws_xr.inf_top]; decide)]
      unfold boundsSolved
      rw [e5, ok_bind_eq, e6, ok_bind_eq, e7, ok_bind_eq]
      simp only [if_true]
      unfold takeIntegral
      have hcost' : cost { b0 with ecos := e', nodes := ns2, tmpBool := tb, tmpInt := ti } = .ok d := hcost
      rw [hcost', ok_bind_eq]
      rw [e8, ok_bind_eq, pure_bind]
      exact hb1
    refine ⟨fun r hd => ?_, fun hd => ?_⟩
    · subst hd
      obtain ⟨e9, r6⟩ := storeSolution_ok r5 w
      have r7 : Rep P { stored { b0 with ecos := e', nodes := ns3, tmpBool := tb, tmpInt := ti } with globalU := .fin r } _ := { r6 with }
      have eb := bounds (b1 := { stored { b0 with ecos := e', nodes := ns3, tmpBool := tb, tmpInt := ti } with globalU := .fin r }) (by
        unfold updIncumbent
        rw [r5.hnodes.rd hm, ok_bind_eq]
        simp only [upd_self]
        rw [if_pos (show lt (.fin r) b0.globalU = true by rw [hU0]; rfl), e9, ok_bind_eq, pure_bind]
        unfold closeNode
        simp only [Bool.false_eq_true, if_false, pure_bind]
        rw [r7.hnodes.rd hm, ok_bind_eq]
        simp only [upd_self]
        rw [if_neg (by rw [ltLaws_xr.irrefl]; decide)]
        rfl)
      have := rest eb r7 hi0 ⟨hf, w⟩ (by simp only [upd_self])
      simp only [upd_self] at this
      refine ⟨_, this.trans (congrArg _ (congrArg _ ?_)), ⟨rfl, rfl, rfl, rfl, rfl, rfl, rfl⟩, rfl, rfl⟩
      rw [(rootCode (b := { stored { b0 with ecos := e', nodes := ns3, tmpBool := tb, tmpInt := ti } with globalL := .fin r, globalU := .fin r }) hi0).2.1 r rfl]
      have : (stored { b0 with ecos := e', nodes := ns3, tmpBool := tb, tmpInt := ti }).stgs.maxit = P.stgs.maxit :=
        congrArg Stgs.maxit r0.stgs_eq
      simp only [this]
    · subst hd
      have eb := bounds (b1 := { b0 with ecos := e', nodes := ns3, tmpBool := tb, tmpInt := ti }) (by
        unfold updIncumbent
        rw [r5.hnodes.rd hm, ok_bind_eq]
        simp only [upd_self]
        rw [if_neg (by rw [XR.lt_nan]; decide), pure_bind]
        unfold closeNode
        simp only [Bool.false_eq_true, if_false, pure_bind]
        rw [r5.hnodes.rd hm, ok_bind_eq]
        simp only [upd_self]
        rw [if_neg (by rw [XR.lt_nan']; decide)]
        rfl)
      have := rest eb r5 hi0 ⟨hf, w⟩ (by simp only [upd_self])
      simp only [upd_self] at this
      refine ⟨_, this.trans (congrArg _ (congrArg _ ?_)), old rfl rfl rfl rfl rfl rfl rfl⟩
      rw [(rootCode (b := { b0 with ecos := e', nodes := ns3, tmpBool := tb, tmpInt := ti, globalL := .nan, globalU := .nan }) hi0).2.2 rfl]
      simp only [hmx r0]

/-- C62 for a problem that declares no integer variable: the search is the one call of the continuous solver. -/
theorem C62_continuous_partial (K : Contract P env (fun _ => True) (fun _ => True) bad) (h : Alloc P bb) (hb : P.nb = 0) (hi : P.ni = 0) {atol : ℝ}
    (ha : P.stgs.absTol = .fin atol) (h0 : 0 ≤ atol) (fuel : Nat) :
    (∀ u, env.solve bb.ecos = .error u → bbSolve env fuel bb = .error u) ∧
    ∀ e' code, env.solve bb.ecos = .ok (e', code) →
      (¬ Usable code → ∃ bb', bbSolve env fuel bb = .ok (bb', noneCode P.stgs.maxit) ∧ ShowsOld bb' bb) ∧
      (Usable code → ∀ xf cf r, Holds e'.x P.n xf → Holds e'.c P.n cf → dotF P.n xf cf = .fin r →
        ∃ bb', bbSolve env fuel bb = .ok (bb', doneCode P.stgs.maxit) ∧ Shows bb' e' ∧ bb'.globalU = .fin r ∧ bb'.globalL = .fin r) := by
  obtain ⟨e, hf, he, -, h3, h2, h1⟩ := C62_root_partial K h ha h0 fuel
  obtain rfl := h3 hb hi
  refine ⟨h2, fun e' code hs => ⟨(h1 e' code hs).1, fun hc xf cf r hx hcf hd => ?_⟩⟩
  exact ((h1 e' code hs).2 hc xf cf hx hcf
    ⟨fun i q => absurd q (by rw [hb]; exact Nat.not_lt_zero i), fun i q => absurd q (by rw [hi]; exact Nat.not_lt_zero i)⟩).1 r hd

/-- C62 is violated for the node limit 0: there is no root record, and the search writes behind the end of the empty array -/
theorem C62_no_nodes_violated (env : Env XR W I) (fuel : Nat) (bb : St XR W I)
    (h : bb.nodes.size = 0) : bbSolve env fuel bb = .error .oob := by
  unfold bbSolve initRoot setNode
  have : rdI bb.nodes 0 = .error .oob := by simp [rdI, rd, h]
  simp only
  rw [this]
  rfl

/-- C62 is violated for the node limit 1: if the root is not integral, the answer is "no solution" (11), whether or not rounding has found an
integral point, which is then what the workspace shows. -/
theorem C62_one_node_violated (K : Contract P env (fun _ => True) (fun _ => True) bad) (hp : 0 < P.nb + P.ni) (hs1 : P.stgs.strategy ≠ 1)
    (h : Start P (fun _ => True) bb) (h1 : P.stgs.maxit = 1)
    (hfr : ∀ b i code xf, (∀ k, k < P.nb → b k = -1) → (∀ k, k < 2 * P.ni → i k = ((8388608 : Int) : XR)) → Trial P env b i code xf →
      Usable code → ¬ IntegralX P xf) {fuel : Nat} {bb' : St XR W I} {code : Int} (hr : bbSolve env fuel bb = .ok (bb', code)) : code = 11 := by
  have H : Hyp P env (fun _ => True) (fun _ => True) (fun _ => True) (fun _ => True) :=
    hyp_any' (K.weaken fun _ _ => trivial) (fun _ _ => trivial) hp fun _ _ _ _ _ _ => trivial
  obtain ⟨b0, g0, e0, r0, hi0, hd0, hU0, hn0, hS0, hb0, hj0, -⟩ := initRoot_ok H h
  unfold bbSolve at hr
  rw [e0, ok_bind_eq] at hr
  have := getBounds_ok (T := noPt P env (fun _ => True) (fun _ _ => trivial) trivial) H ltLaws_xr (fun q => absurd q hs1) fuel r0 (node := 0)
    (Nat.zero_le _) (hS0 0 h.maxit_pos) (by rw [hn0]; exact ltLaws_xr.inf_top _) trivial
  cases hg : getBounds env fuel 0 b0 with
  | error u => rw [hg] at hr; cases hr
  | ok b1 =>
    obtain ⟨g1, C⟩ := this.out hg
    have hU : (g1.node 0).U = INF := C.openU (fun c xf ht ha => hfr _ _ c xf (fun k hk => hb0 k hk) (fun k hk => hj0 k hk) ht (accepted_iff.1 ha))
      (by rw [hn0])
    rw [hg, ok_bind_eq, C.rep.hnodes.rd h.maxit_pos, ok_bind_eq] at hr
    have hm : b1.stgs.maxit = 1 := by rw [C.rep.stgs_eq, h1]
    have hi1 : b1.iter = 0 := C.iter.trans hi0
    simp only at hr
    rw [hU, hm] at hr
    have hsc : shouldContinue { b1 with globalL := (g1.node 0).L, globalU := INF } 0 = false := by
      unfold shouldContinue
      simp only [hm, hi1]
      simp
    have hse : search env fuel 1 0 { b1 with globalL := (g1.node 0).L, globalU := INF } = .ok { b1 with globalL := (g1.node 0).L, globalU := INF } := by
      unfold search
      rw [hsc]
      rfl
    obtain ⟨hf, he⟩ := C.rep.hew
    have r3 : Rep P { b1 with globalL := (g1.node 0).L, globalU := INF } g1 := { C.rep with }
    rw [hse, ok_bind_eq, loadSolution_ok r3 he, ok_bind_eq] at hr
    cases hr
    have := (rootCode (b := { b1 with globalL := (g1.node 0).L, globalU := INF }) hi1).1 rfl
    refine Eq.trans this ?_
    simp only [hm]
    rfl

/-- Violation of C62 by a run: `min x` subject to `1/2 ≤ x ≤ 3/2`, `x` integer, with an exact continuous solver and the node limit 1. The
workspace shows the optimum `x = 1`, found by rounding at the root, and the code is 11, "no solution found". -/
theorem C62_found_but_denied_violated : (match bbSolve Stuck.env 30 (Stuck.bb 0 1) with
    | .ok (b, code) => code == 11 && (match rd b.ecos.x 0 with | .ok v => v == (1 : Fx) | _ => false)
    | _ => false) = true := by
  decide +kernel

/-- Violation of C62 by a run: the continuous solver answers code 0 with a first entry 1 of `x`, integral, and a second entry that is not a number. The
search answers 0, "optimal", with nothing stored: `x` in the workspace has not been set. -/
theorem C62_nan_violated : (match bbSolve ⟨fun e => .ok ({ e with x := Run.bl [1, Fx.nan] }, 0), fun _ => 0⟩ 30
      { Stuck.bb 0 20 with ecos := { Stuck.ew with n := 2, c := Run.bl [1, 1], x := malloc 2 }, x := malloc 2 } with
    | .ok (b, code) => code == 0 && (match rd b.ecos.x 0 with | .error .uninit => true | _ => false)
    | _ => false) = true := by
  decide +kernel

namespace Ex
noncomputable section

/-- the continuous solver answers the point `v` with the code `code` -/
def told (v : XR) (code : Int) : Env XR Unit Unit := ⟨fun e => .ok ({ e with x := ofList [v] }, code), fun _ => 0⟩

theorem toldHolds (v : XR) : Holds (ofList [v]) Ex.P.n (fun _ => v) :=
  (ofList_holds [v]).congr fun i hi => by
    have : i = 0 := by simp [Ex.P] at hi; exact hi
    subst this; rfl

theorem toldKeeps (v : XR) (code : Int) : Keeps Ex.P (told v code) where
  solve := fun e hf he _ => by
    show Runs _ (Except.ok _) _
    rw [Runs_ok]
    exact ⟨{ he with sx := by rfl }, _, toldHolds v, fun _ _ => trivial, fun _ _ => trivial⟩
  solveB := fun _ _ _ _ _ _ _ _ _ => trivial
  rand := fun _ => Nat.zero_le _

/-- C62 on an example: the continuous solver answers an integer `k` -/
example (k : Int) (hk : -1000 ≤ k ∧ k ≤ 1000) (fuel : Nat) :
    ∃ bb', bbSolve (told (.fin k) 0) fuel Ex.bb = .ok (bb', 0) ∧ bb'.ecos.x = ofList [.fin k] ∧ bb'.globalU = .fin k := by
  obtain ⟨e, hf, he, -, -, -, h1⟩ := C62_root_partial (toldKeeps (.fin k) 0) (start (fun _ => True) trivial).alloc (atol := 1e-6) rfl (by norm_num) fuel
  obtain ⟨cf, hcf, hc⟩ := he.hc
  have hr : InRange (k : ℝ) := by
    obtain ⟨h1, h2⟩ := hk
    have h1 : (-1000 : ℝ) ≤ k := by exact_mod_cast h1
    have h2 : (k : ℝ) ≤ 1000 := by exact_mod_cast h2
    exact ⟨by linarith, by linarith⟩
  have := ((h1 _ _ rfl).2 (Or.inl rfl) (fun _ => .fin k) cf (toldHolds _) hc
    (roundsTo (P := Ex.P) (x := fun _ => k) (tol := 1e-4) (fun i _ => rfl) rfl (fun i q => absurd q (Nat.not_lt_zero i))
      fun i _ => ⟨Nat.one_pos, hr, k, by norm_num⟩)).1 k (by
        show (0 : XR) + .fin k * cf 0 = .fin k
        rw [hcf 0 Nat.one_pos, XR.fin_mul, XR.zero_def, XR.fin_add]
        norm_num)
  obtain ⟨bb', e1, e2, e3, -⟩ := this
  exact ⟨bb', e1, e2.x, e3⟩

/-- C62 on an example: the continuous solver finds the problem unbounded (code 2), the search answers "infeasible" -/
example (fuel : Nat) : ∃ bb', bbSolve (told (.fin 0) 2) fuel Ex.bb = .ok (bb', 1) ∧ bb'.ecos.x = malloc 1 := by
  obtain ⟨e, hf, he, -, -, -, h1⟩ := C62_root_partial (toldKeeps (.fin 0) 2) (start (fun _ => True) trivial).alloc (atol := 1e-6) rfl (by norm_num) fuel
  obtain ⟨bb', e1, e2⟩ := (h1 _ _ rfl).1 (by unfold Usable; decide)
  exact ⟨bb', e1, e2.x⟩

end
end Ex

end BB
end Ecos
