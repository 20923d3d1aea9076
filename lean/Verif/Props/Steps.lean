import Verif.Props.Driver
import Verif.Model.Preproc
import Mathlib.Tactic.NormNum
import Mathlib.Tactic.Linarith
import Mathlib.Tactic.Positivity

/-!
# Step sizes, centering and the exponential-cone line search: C22, C31
-/
namespace Ecos

set_option linter.unusedSectionVars false

section generic
variable {F : Type} [Zero F] [One F] [Add F] [Sub F] [Mul F] [Div F] [Neg F] [OfScientific F]
  [IntCast F] [PFloat F] [HasInf F]

/-- `alpha` after `j` reductions -/
def shrunk (alpha bk : F) : Nat → F
  | 0 => alpha
  | j + 1 => shrunk alpha bk j * bk

/-- every exponential cone passes the dual membership test -/
def DualTest (wz : Buf F) (fc nexc : Nat) : Prop :=
  ∀ l, l < nexc → ∃ a b c, wz[fc + 3 * l]? = some (some a) ∧ wz[fc + 3 * l + 1]? = some (some b) ∧
    wz[fc + 3 * l + 2]? = some (some c) ∧ expDualBad a b c = false

/-- every exponential cone passes the primal membership test -/
def PrimalTest (ws : Buf F) (fc nexc : Nat) : Prop :=
  ∀ l, l < nexc → ∃ a b c, ws[fc + 3 * l]? = some (some a) ∧ ws[fc + 3 * l + 1]? = some (some b) ∧
    ws[fc + 3 * l + 2]? = some (some c) ∧ expPrimalBad a b c = false

theorem evalExpDualFeas_true {b : Buf F} {off n : Nat} (h : evalExpDualFeas b off n = .ok true) :
    DualTest b off n := by
  unfold evalExpDualFeas at h
  simp only [bind_ok, pure_ok] at h
  obtain ⟨r, hr, h⟩ := h
  have key := (loopE_runs (bad := fun _ => True) (lo := 0) (hi := n) (s := ())
    (I := fun k _ => DualTest b off k) (E := fun _ => True)
    (fun l hl => by omega) (by
      intro i t _ hi ht
      refine Part.of fun r hr => ?_
      simp only [bind_ok, pure_ok, rd_ok_iff] at hr
      obtain ⟨x1, h1, x2, h2, x3, h3, rfl⟩ := hr
      cases hb : expDualBad x1 x2 x3 with
      | true => trivial
      | false =>
        intro l hl
        by_cases hli : l = i
        · subst hli; exact ⟨x1, x2, x3, h1, h2, h3, hb⟩
        · exact ht l (by omega))).out hr
  cases r with
  | inl _ => cases h
  | inr _ => simpa using key

theorem evalExpPrimalFeas_true {b : Buf F} {off n : Nat} (h : evalExpPrimalFeas b off n = .ok true) :
    PrimalTest b off n := by
  unfold evalExpPrimalFeas at h
  simp only [bind_ok, pure_ok] at h
  obtain ⟨r, hr, h⟩ := h
  have key := (loopE_runs (bad := fun _ => True) (lo := 0) (hi := n) (s := ())
    (I := fun k _ => PrimalTest b off k) (E := fun _ => True)
    (fun l hl => by omega) (by
      intro i t _ hi ht
      refine Part.of fun r hr => ?_
      simp only [bind_ok, pure_ok, rd_ok_iff] at hr
      obtain ⟨x1, h1, x2, h2, x3, h3, rfl⟩ := hr
      cases hb : expPrimalBad x1 x2 x3 with
      | true => trivial
      | false =>
        intro l hl
        by_cases hli : l = i
        · subst hli; exact ⟨x1, x2, x3, h1, h2, h3, hb⟩
        · exact ht l (by omega))).out hr
  cases r with
  | inl _ => cases h
  | inr _ => simpa using key

theorem trialTest_accept {w : Work F} {ws wz : Buf F} {mu tauT kapT : F} {c : Option F}
    (h : trialTest w ws wz mu tauT kapT = .ok (none, c)) :
    DualTest wz w.C.fexv w.C.nexc ∧ PrimalTest ws w.C.fexv w.C.nexc ∧
      ∃ v, c = some v ∧ lt v w.stgs.centrality = true := by
  unfold trialTest at h
  simp only [bind_ok] at h
  obtain ⟨df, hdf, h⟩ := h
  cases df with
  | false => simp [pure_ok] at h
  | true =>
    simp only [Bool.not_true, Bool.false_eq_true, if_false, bind_ok] at h
    obtain ⟨pf, hpf, h⟩ := h
    cases pf with
    | false => simp [pure_ok] at h
    | true =>
      simp only [Bool.not_true, Bool.false_eq_true, if_false, bind_ok] at h
      obtain ⟨mui, -, j, -, h⟩ := h
      refine ⟨evalExpDualFeas_true hdf, evalExpPrimalFeas_true hpf, ?_⟩
      split at h
      · simp only [bind_ok] at h
        obtain ⟨b, -, b2, -, h⟩ := h
        split at h
        · next hc =>
          simp only [pure_ok, Prod.mk.injEq] at h
          exact ⟨_, h.2.symm, hc⟩
        · simp [pure_ok] at h
      · simp [pure_ok] at h

/-- `r`: after `j` rejected trials the search accepted (or gave up) -/
structure LsOutcome (w : Work F) (ds dz : Buf F) (alpha : F) (r : Option F) (i : Stats F) (j : Nat) :
    Prop where
  /-- the counters add up to the number of rejected trials -/
  counters : i.pob + i.cb + i.cob + i.pb + i.db = j
  /-- no more trials than configured -/
  bound : (j : Int) ≤ max 0 w.stgs.maxBk
  /-- giving up means that all trials were rejected -/
  failed : r = none → (j : Int) = max 0 w.stgs.maxBk
  /-- an accepted step is `gamma` times a step at which the tests were passed -/
  accepted : ∀ a, r = some a → (j : Int) < w.stgs.maxBk ∧ a = shrunk alpha w.stgs.bkScale j * w.stgs.gamma ∧
    ∃ ws wz, trialPoint w.m w.s ds (shrunk alpha w.stgs.bkScale j) = .ok ws ∧
      trialPoint w.m w.z dz (shrunk alpha w.stgs.bkScale j) = .ok wz ∧
      DualTest wz w.C.fexv w.C.nexc ∧ PrimalTest ws w.C.fexv w.C.nexc

/-- C31 (partial; whatever the numbers are): at most `maxBk` trials, the counters add up, and an
accepted trial point passed the primal and dual test of every exponential cone.
Missing: positivity of `tau` and `kappa`, which the test does not ensure (`Run.C31_tau_violated` in `Props/DriverExample.lean`) -/
theorem C31_linesearch_partial {w : Work F} {ds dz : Buf F} {tau kap dtau dkap alpha : F} {r : Option F}
    {i : Stats F} (h : expConeLineSearch w ds dz tau kap dtau dkap alpha = .ok (r, i)) :
    ∃ j, LsOutcome w ds dz alpha r i j := by
  unfold expConeLineSearch at h
  simp only [bind_ok] at h
  obtain ⟨q, hq, h⟩ := h
  have key := (loopE_runs (bad := fun _ => True) (lo := 0) (hi := w.stgs.maxBk.toNat)
    (s := (alpha, lsCounters w.info))
    (I := fun j t => t.1 = shrunk alpha w.stgs.bkScale j ∧
      t.2.pob + t.2.cb + t.2.cob + t.2.pb + t.2.db = j)
    (E := fun t => ∃ j, LsOutcome w ds dz alpha (some t.1) t.2 j)
    ⟨rfl, rfl⟩ (by
      intro j t _ hj ht
      refine Part.of ?_
      intro r hr
      simp only [bind_ok] at hr
      obtain ⟨ws, hws, wz, hwz, mu, hmu, ⟨q1, q2⟩, hq, hr⟩ := hr
      cases q1 with
      | none =>
        simp only [pure_ok] at hr
        subst hr
        have hacc := trialTest_accept hq
        refine ⟨j, ?_, ?_, ?_, ?_⟩
        · cases q2 <;> exact ht.2
        · omega
        · intro h; cases h
        · intro a ha
          simp only [Option.some.injEq] at ha
          rw [ht.1] at ha hws hwz
          exact ⟨by omega, ha.symm, ws, wz, hws, hwz, hacc.1, hacc.2.1⟩
      | some rej =>
        simp only [pure_ok] at hr
        subst hr
        refine ⟨by simp only [ht.1, shrunk], ?_⟩
        have := ht.2
        cases q2 <;> cases rej <;> simp only [bump] <;> omega)).out hq
  cases q with
  | inl t =>
    simp only [pure_ok, Prod.mk.injEq] at h
    obtain ⟨rfl, rfl⟩ := h
    exact key
  | inr t =>
    simp only [pure_ok, Prod.mk.injEq] at h
    obtain ⟨rfl, rfl⟩ := h
    refine ⟨w.stgs.maxBk.toNat, ?_, by omega, fun _ => by omega, fun a ha => by cases ha⟩
    have := key.2
    simpa using this

end generic

/-! ### C22 -/

theorem centering_range (a : ℝ) : (1e-4 : ℝ) ≤ centering a ∧ centering a ≤ 1 := by
  unfold centering SIGMAMAX SIGMAMIN
  simp only [real_lt]
  split_ifs <;> constructor <;> first | (norm_num; done) | linarith

theorem saturate_range (a : ℝ) : (1e-6 : ℝ) ≤ saturate a ∧ saturate a ≤ 0.999 := by
  unfold saturate STEPMAX STEPMIN
  simp only [real_lt]
  split_ifs <;> constructor <;> first | (norm_num; done) | linarith

theorem lineSearch_range {C : Cone ℝ} {lam ds dz : Buf ℝ} {tau dtau kap dkap a : ℝ}
    (h : lineSearch C lam ds dz tau dtau kap dkap = .ok a) : (1e-6 : ℝ) ≤ a ∧ a ≤ 0.999 := by
  unfold lineSearch at h
  simp only [bind_ok, pure_ok] at h
  obtain ⟨_, -, t, -, rfl⟩ := h
  exact saturate_range _

theorem shrunk_range {a bk : ℝ} (ha : 0 ≤ a) (h0 : 0 ≤ bk) (h1 : bk ≤ 1) (j : Nat) :
    0 ≤ shrunk a bk j ∧ shrunk a bk j ≤ a := by
  induction j with
  | zero => exact ⟨ha, le_refl _⟩
  | succ j ih =>
    refine ⟨mul_nonneg ih.1 h0, ?_⟩
    calc shrunk a bk j * bk ≤ shrunk a bk j * 1 := mul_le_mul_of_nonneg_left h1 ih.1
      _ ≤ a := by rw [mul_one]; exact ih.2

/-- settings with a sensible safety factor and backtracking factor -/
structure SaneSteps (s : Settings ℝ) : Prop where
  g0 : 0 ≤ s.gamma
  g1 : s.gamma ≤ 1
  b0 : 0 ≤ s.bkScale
  b1 : s.bkScale ≤ 1

/-- C22: at the beginning of every pass but the first, the centering parameter and the step of the
previous pass are in their documented ranges (exact arithmetic, i.e. any values that are not NaN) -/
theorem C22_ranges [HasInf ℝ] {arrives : Nat → Bool} {w : Work ℝ} {sig : Sig} {k : Nat} {S : LoopS ℝ}
    (h : AtHead arrives w sig k S) (hk : 0 < k) (hs : SaneSteps w.stgs) :
    ∃ sigma step, S.w.info.sigma = some sigma ∧ S.w.info.step = some step ∧
      (1e-4 : ℝ) ≤ sigma ∧ sigma ≤ 1 ∧ 0 ≤ step ∧ step ≤ w.stgs.gamma * 0.999 := by
  obtain ⟨w0, hd, ht⟩ := (atHead_inv h).infoStep hk
  obtain ⟨R, kap, tau, a, hfr, hu, hst, ⟨sa, hsig⟩, R0, i, C, lam, ds, dz, ls, hcs, hstg, hls, hr0⟩ :=
    passTail_inr ht
  have hinfo := (updateVars_fr hu).2.1
  refine ⟨centering sa, a, by rw [hinfo, hsig], by rw [hinfo, hst], (centering_range _).1,
    (centering_range _).2, ?_⟩
  have hl := lineSearch_range hls
  have hg : R0.w.stgs.gamma = w.stgs.gamma := by rw [hstg, hd.stgs]
  have hbk : R0.w.stgs.bkScale = w.stgs.bkScale := by rw [hstg, hd.stgs]
  have h0 : 0 ≤ ls * w.stgs.gamma := mul_nonneg (by linarith [hl.1]) hs.g0
  have h1 : ls * w.stgs.gamma ≤ w.stgs.gamma * 0.999 := by
    rw [mul_comm]; exact mul_le_mul_of_nonneg_left hl.2 hs.g0
  unfold combinedStep at hcs
  rw [hr0] at hcs
  simp only [bind_ok, get_ok, Option.some.injEq, exists_eq_left'] at hcs
  split at hcs
  · simp only [bind_ok] at hcs
    obtain ⟨⟨q1, q2⟩, hq, hcs⟩ := hcs
    cases q1 with
    | none => simp [pure_ok] at hcs
    | some b =>
      simp only [pure_ok, Prod.mk.injEq] at hcs
      have hb : b = a := by
        have := hcs.1
        split at this
        · cases this
        · simpa using this
      obtain ⟨j, hj⟩ := C31_linesearch_partial hq
      have := (hj.accepted b rfl).2.1
      simp only [hg, hbk] at this
      rw [← hb, this]
      have h2 := shrunk_range h0 hs.b0 hs.b1 j
      refine ⟨mul_nonneg h2.1 hs.g0, ?_⟩
      calc _ ≤ shrunk (ls * w.stgs.gamma) w.stgs.bkScale j * 1 := mul_le_mul_of_nonneg_left hs.g1 h2.1
        _ ≤ _ := by rw [mul_one]; exact h2.2.trans h1
  · simp only [pure_ok, Prod.mk.injEq, Option.some.injEq] at hcs
    rw [← hcs.1, hg]
    exact ⟨h0, h1⟩

example : SaneSteps (defaultSettings : Settings ℝ) := by
  constructor <;> simp only [defaultSettings, GAMMA] <;> norm_num

/-- C22 with IEEE comparisons: the centering parameter is in range unless it is NaN -/
theorem C22_centering_ieee (a : XR) :
    centering a = .nan ∨ ∃ r, centering a = .fin r ∧ (1e-4 : ℝ) ≤ r ∧ r ≤ 1 := by
  obtain ⟨x, hx⟩ : ∃ x, x = (1.0 - a) * (1.0 - a) * (1.0 - a) := ⟨_, rfl⟩
  have e : centering a = (if lt (if lt (1 : XR) x then 1 else x) (1e-4 : XR) then (1e-4 : XR)
      else (if lt (1 : XR) x then 1 else x)) := by
    subst hx; rfl
  rw [e]
  clear hx e
  cases x with
  | nan => left; simp
  | fin r =>
    right
    by_cases h1 : (1 : ℝ) < r
    · simp only [XR.one_def, XR.lt_fin, XR.fin_sci, h1, decide_true, if_true]
      refine ⟨1, ?_, by norm_num, le_refl _⟩
      rw [if_neg (by norm_num)]
    · simp only [XR.one_def, XR.lt_fin, XR.fin_sci, h1, decide_false, Bool.false_eq_true, if_false]
      by_cases h2 : r < 1e-4
      · simp only [h2, decide_true, if_true]
        exact ⟨_, rfl, le_refl _, by norm_num⟩
      · simp only [h2, decide_false, Bool.false_eq_true, if_false]
        exact ⟨r, rfl, not_lt.mp h2, not_lt.mp h1⟩
  | pinf =>
    right
    refine ⟨1, ?_, by norm_num, le_refl _⟩
    simp
    norm_num
  | ninf =>
    right
    refine ⟨1e-4, ?_, le_refl _, by norm_num⟩
    simp

/-- NaN does occur: an undefined affine step gives an undefined centering parameter -/
theorem C22_nan : centering (XR.nan) = .nan := by
  have h1 : (1.0 - XR.nan) = XR.nan := rfl
  have h2 : XR.nan * XR.nan = XR.nan := rfl
  unfold centering
  simp only [h1, h2]
  simp

end Ecos
