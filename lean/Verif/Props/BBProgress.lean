import Verif.Lemmas.BBTree
import Verif.Props.BBExample
import Verif.Props.DriverExample
import Verif.Model.BBReal

/-!
# Property C56: the search makes progress

Every node that is split has a relaxed point that violates integrality, and the split excludes it from both
children, so the boxes of the nodes share out the integer points of the root box and the number of nodes is bounded by their
number, whatever `maxit` is.  Proved for most-infeasible, strong, pseudocost and random branching; the default strategy
(reliability branching) violates it.
-/
set_option linter.unusedSectionVars false
set_option linter.unusedVariables false

namespace Ecos
namespace BB

section
variable {W I : Type} {P : Par XR W} {env : Env XR W I}

/-- C56, for most-infeasible (0), strong (1), pseudocost (2) and random (4) branching: let the continuous solver return finite points that
respect the bounds of the node up to `ε`, smaller than the integrality tolerance `tol < 1/2`, and let all accepted points have
their declared integers in `a j .. b j` up to `ε`; with strong branching, let its answers depend on the bounds only.  Then the
search uses at most `2^nb · ∏ (b j - a j + 1)` nodes;
if `maxit` exceeds this number, the answer is never one of the iteration-limit codes.
Missing: reliability branching (3), where it is false, see `C56_default_strategy_violated`. -/
theorem C56_terminates_partial {c : Nat → ℝ} {tol atol ε : ℝ} {bad : UB → Prop} {a b : Nat → Int}
    (K : Contract P env (fun _ => True) (fun _ => True) bad) (hfin : Finite P env c) (hres : Respects P env ε)
    (hwi : Within P env a b ε) (hab : ∀ j, j < P.ni → -8388608 ≤ a j ∧ a j ≤ b j ∧ b j ≤ 8388608)
    (ht : P.stgs.intTol = .fin tol) (h0 : 0 ≤ ε) (h1 : ε < tol) (h2 : tol < 1 / 2)
    (ha : P.stgs.absTol = .fin atol) (hat : 0 ≤ atol)
    (hst : P.stgs.strategy = 0 ∨ P.stgs.strategy = 1 ∨ P.stgs.strategy = 2 ∨ P.stgs.strategy = 4)
    (hd : P.stgs.strategy = 1 → Deterministic P env) (hp : 0 < P.nb + P.ni) {bb : St XR W I}
    (h : Start P (fun _ => True) bb) {fuel : Nat} {bb' : St XR W I} {code : Int}
    (hr : bbSolve env fuel bb = .ok (bb', code)) :
    bb'.iter + 1 ≤ points P a b ∧ (points P a b < P.stgs.maxit → code = 0 ∨ code = 1) := by
  have H := hyp_any (Rb := fun _ => True) K hp (fun _ _ _ _ _ _ => trivial)
  have hb := bbSolve_ok H ltLaws_xr (fun h1 => strongHyp_xr (hd h1))
    (treePt h0 h1 h2 ht (by rw [ha, XR.lt_fin]; simpa using hat) (by unfold Treated Plain; omega) hab h.bv_lt h.iv_lt hfin hres hwi) fuel h
  rw [hr] at hb
  obtain ⟨bb1, g1, cur, hI, _, he⟩ := hb
  cases he
  obtain ⟨D, hD, -⟩ := hI.tree trivial
  have hcnt : bb1.iter + 1 ≤ points P a b := TreeOk.count hD
  refine ⟨hcnt, fun hV => ?_⟩
  unfold getRetCode
  rw [hI.rep.stgs_eq, if_pos (by omega)]
  rcases (hI.numU : NumX bb1.globalU) with hu | ⟨u, hu⟩
  · rw [hu]; right; rfl
  · rw [hu]; left; rfl

/-- C56 with C36: under the same conditions, if the continuous solver is also exact up to `δ` and there is a feasible integer point,
the answer is "optimal" and the reported objective is within the tolerances of that of every feasible integer point. -/
theorem C56_finds_optimum_partial {c : Nat → ℝ} {tol atol rtol ε δ : ℝ} {bad : UB → Prop} {a b : Nat → Int}
    {Feas : (Nat → ℝ) → Prop}
    (K : Contract P env (fun _ => True) (fun _ => True) bad) (hfin : Finite P env c) (hres : Respects P env ε)
    (hex : Exact P env c Feas δ)
    (hwi : Within P env a b ε) (hab : ∀ j, j < P.ni → -8388608 ≤ a j ∧ a j ≤ b j ∧ b j ≤ 8388608)
    (ht : P.stgs.intTol = .fin tol) (h0 : 0 ≤ ε) (h1 : ε < tol) (h2 : tol < 1 / 2)
    (ha : P.stgs.absTol = .fin atol) (hat : 0 ≤ atol) (hrt : P.stgs.relTol = .fin rtol)
    (hst : P.stgs.strategy = 0 ∨ P.stgs.strategy = 1 ∨ P.stgs.strategy = 2 ∨ P.stgs.strategy = 4)
    (hd : P.stgs.strategy = 1 → Deterministic P env) (hp : 0 < P.nb + P.ni) {bb : St XR W I}
    (h : Start P (fun _ => True) bb) {fuel : Nat} {bb' : St XR W I} {code : Int}
    (hr : bbSolve env fuel bb = .ok (bb', code)) (hV : points P a b < P.stgs.maxit)
    {v0 : Nat → ℝ} (hv : Feas v0) (hvi : Integer P v0) (hvc : Covered P v0) :
    code = 0 ∧ ∃ u, bb'.globalU = .fin u ∧ ∀ v, Feas v → Integer P v → Covered P v →
      u ≤ objective P.n c v + δ + atol ∨
      ∃ l, l ≤ objective P.n c v + δ ∧ |u - l| ≤ rtol * |l| := by
  have ht0 : 0 ≤ tol := by linarith
  rcases (C56_terminates_partial K hfin hres hwi hab ht h0 h1 h2 ha hat hst hd hp h hr).2 hV with rfl | rfl
  · exact ⟨rfl, C36_optimal K hfin hex ht ht0 (by linarith) ha hrt hat hd hp h hr⟩
  · exact absurd hvc (C36_infeasible K hfin hex ht ht0 (by linarith) ha hrt hd hp h hr v0 hv hvi)

end

/-! ## An example -/
namespace Prog
noncomputable section

/-- default settings with `maxit` 10 and strategy `st` -/
def stgs (st : Nat) : Stgs XR := { Ex.stgs with strategy := st }

/-- one integer variable, two bound rows and the user's rows `-x ≤ -1/2`, `x ≤ 3/2` -/
def P (st : Nat) : Par XR Unit :=
  { nb := 0, ni := 1, n := 1, p := 0, m := 4, bv := fun _ => 0, iv := fun _ => 0
    cs := fun cf => ∀ i, i < 1 → cf i = .fin 1, ok := fun _ => True
    hu := fun r => if r = 2 then .fin (-1 / 2) else .fin (3 / 2), geq := fun _ => .fin 1, stgs := stgs st }

open Classical in
/-- the exact solution of `min x, 1/2 ≤ x ≤ 3/2, -x ≤ a, x ≤ b` -/
def answer : XR → XR → ℝ × Int
  | .fin a, .fin b => (max (-a) (1 / 2), if max (-a) (1 / 2) ≤ min b (3 / 2) then 0 else 1)
  | _, _ => (1 / 2, 1)

def solve (e : EW XR Unit Unit) : M (EW XR Unit Unit × Int) := do
  let a ← rd e.h 0
  let b ← rd e.h 1
  pure ({ e with x := ofList [.fin (answer a b).1] }, (answer a b).2)

def env : Env XR Unit Unit := ⟨solve, fun _ => 0⟩

variable {st : Nat}

theorem solve_eq {e hf} (he : EWF (P st) e hf) :
    solve e = .ok ({ e with x := ofList [.fin (answer (hf 0) (hf 1)).1] }, (answer (hf 0) (hf 1)).2) := by
  unfold solve
  rw [he.hh.rd (i := 0) (by norm_num [P, stgs, Ex.stgs]), ok_bind_eq, he.hh.rd (i := 1) (by norm_num [P, stgs, Ex.stgs]), ok_bind_eq]
  rfl

theorem x_holds (r : ℝ) : Holds (ofList [XR.fin r]) (P st).n (fun _ => .fin r) :=
  (ofList_holds [XR.fin r]).congr (fun i hi => by
    have : i = 0 := by simp [P] at hi; exact hi
    subst this; rfl)

theorem keeps : Keeps (P st) env where
  solve := fun e hf he _ => by
    show Runs _ (solve e) _
    rw [solve_eq he, Runs_ok]
    exact ⟨{ he with sx := by rfl }, _, x_holds _, fun _ _ => trivial, fun _ _ => trivial⟩
  solveB := fun _ _ _ _ _ _ _ _ _ => trivial
  rand := fun _ => Nat.zero_le _

theorem trial_eq {b i code xf} (h : Trial (P st) env b i code xf) :
    code = (answer (i 0 / .fin 1) (i 1 / .fin 1)).2 ∧ xf 0 = .fin (answer (i 0 / .fin 1) (i 1 / .fin 1)).1 := by
  obtain ⟨hf, hr, e, e', he, hs, hx⟩ := h
  have h2 : env.solve e = _ := solve_eq he
  rw [h2] at hs
  cases hs
  have := (x_holds (answer (hf 0) (hf 1)).1).unique hx (i := 0) (by norm_num [P, stgs, Ex.stgs])
  obtain ⟨r1, r2⟩ := hr.int 0 (by norm_num [P, stgs, Ex.stgs])
  change hf 0 = i 0 / .fin 1 at r1
  change hf 1 = i 1 / .fin 1 at r2
  rw [← r1, ← r2]
  exact ⟨rfl, this.symm⟩

theorem finite : Finite (P st) env (fun _ => 1) where
  cost := fun _ h => h
  point := fun b i code xf h => ⟨fun _ => _, fun k hk => by
    have : k = 0 := by simp [P] at hk; exact hk
    subst this; exact (trial_eq h).2⟩

/-- the user's feasible set -/
def Feas (v : Nat → ℝ) : Prop := 1 / 2 ≤ v 0 ∧ v 0 ≤ 3 / 2

theorem exact : Exact (P st) env (fun _ => 1) Feas 0 := by
  intro b i code xf x hb htr hx v hv hrel
  obtain ⟨hc, h0⟩ := trial_eq htr
  obtain ⟨lo, hi, e1, e2, h1, h2⟩ := hrel.int 0 (by norm_num [P, stgs, Ex.stgs])
  change i 0 = _ at e1
  change i 1 = _ at e2
  change -lo ≤ v 0 at h1
  change v 0 ≤ hi at h2
  unfold Feas at hv
  rw [e1, e2, Ex.div_one, Ex.div_one] at hc h0
  rw [hx 0 (by norm_num [P, stgs, Ex.stgs])] at h0
  have hx0 : x 0 = max (-lo) (1 / 2) := (XR.fin_inj.mp h0)
  have hle : max (-lo) (1 / 2) ≤ v 0 := max_le h1 hv.1
  constructor
  · rw [hc]
    show Usable (if max (-lo) (1 / 2) ≤ min hi (3 / 2) then 0 else 1)
    rw [if_pos (le_trans hle (le_min h2 hv.2))]; exact Or.inl rfl
  · simp [objective, P, hx0]
    simpa using hle

/-- accepted points lie in the box and between the user's bounds -/
theorem accepted_box {b i code xf} {x : Nat → ℝ} (htr : Trial (P st) env b i code xf) (hacc : Usable code)
    (hx : ∀ k, k < (P st).n → xf k = XR.fin (x k)) {lo hi : ℝ} (e1 : i 0 = XR.fin lo) (e2 : i 1 = XR.fin hi) :
    -lo ≤ x 0 ∧ x 0 ≤ hi ∧ 1 / 2 ≤ x 0 ∧ x 0 ≤ 3 / 2 := by
  obtain ⟨hc, h0⟩ := trial_eq htr
  rw [e1, e2, Ex.div_one, Ex.div_one] at hc h0
  rw [hx 0 (by norm_num [P, stgs, Ex.stgs])] at h0
  have hx0 : x 0 = max (-lo) (1 / 2) := (XR.fin_inj.mp h0)
  have hle : max (-lo) (1 / 2) ≤ min hi (3 / 2) := by
    by_contra hcon
    rw [hc] at hacc
    have : (answer (.fin lo) (.fin hi)).2 = 1 := if_neg hcon
    rw [this] at hacc
    exact absurd hacc (by decide)
  rw [hx0]
  exact ⟨le_max_left _ _, hle.trans (min_le_left _ _), le_max_right _ _, hle.trans (min_le_right _ _)⟩

theorem respects : Respects (P st) env 0 := by
  intro b i code xf x htr hacc hx
  refine ⟨fun j hj => absurd hj (by simp [P]), fun j hj lo hi e1 e2 => ?_⟩
  obtain rfl : j = 0 := by simp [P] at hj; exact hj
  obtain ⟨h1, h2, _, _⟩ := accepted_box htr hacc hx e1 e2
  change -lo - 0 ≤ x 0 ∧ x 0 ≤ hi + 0
  constructor <;> linarith

theorem within : Within (P st) env (fun _ => 0) (fun _ => 2) 0 := by
  intro b i code xf x htr hacc hx hbox j hj
  obtain rfl : j = 0 := by simp [P] at hj; exact hj
  obtain ⟨lo, hi, e1, e2, _, _⟩ := hbox 0 (by norm_num [P, stgs, Ex.stgs])
  obtain ⟨_, _, h3, h4⟩ := accepted_box htr hacc hx e1 e2
  change ((0 : Int) : ℝ) - 0 ≤ x 0 ∧ x 0 ≤ ((2 : Int) : ℝ) + 0
  push_cast
  constructor <;> linarith

def ew : EW XR Unit Unit :=
  { Ex.ew with m := 4, h := ofList [.fin 0, .fin 0, .fin (-1 / 2), .fin (3 / 2)]
               gequil := ofList [.fin 1, .fin 1, .fin 1, .fin 1], z := malloc 4, s := malloc 4 }

def bb (st : Nat) : St XR Unit Unit := { Ex.bb with stgs := stgs st, ecos := ew, z := malloc 4, s := malloc 4 }

theorem start : Start (P st) (fun _ => True) (bb st) where
  nb_eq := rfl
  ni_eq := rfl
  stgs_eq := rfl
  maxit_pos := by norm_num [P, stgs, Ex.stgs]
  nodes := ⟨_, ofList_holds (List.replicate 10 Ex.node0), fun i hi => by
    have : (List.replicate 10 Ex.node0).getD i default = Ex.node0 := by
      simp only [List.getD_eq_getElem?_getD, List.getElem?_replicate]
      split <;> rfl
    rw [this]
    exact ⟨by decide, by norm_num [P, Ex.node0], by norm_num [P, Ex.node0], trivial, trivial⟩⟩
  sbool := rfl
  sint := rfl
  hbv := (Ex.start (fun _ => True) trivial).hbv
  hiv := (Ex.start (fun _ => True) trivial).hiv
  bv_lt := fun i hi => absurd hi (by simp [P])
  iv_lt := fun i hi => by simp [P]
  m_ge := by norm_num [P, stgs, Ex.stgs]
  hew := ⟨fun r => ([.fin 0, .fin 0, .fin (-1 / 2), .fin (3 / 2)] : List XR).getD r (.fin 0),
    { hn := rfl, hp := rfl, hm := rfl
      hc := ⟨fun _ => .fin 1, fun _ _ => rfl, (ofList_holds [XR.fin 1]).congr (fun i hi => by
        have : i = 0 := by simp at hi; exact hi
        subst this; rfl)⟩
      hok := trivial
      hh := ofList_holds _
      hg := (ofList_holds [XR.fin 1, .fin 1, .fin 1, .fin 1]).congr (fun i hi => by
        have : i < 4 := by simpa using hi
        rcases i with _ | _ | _ | _ | i <;> [rfl; rfl; rfl; rfl; omega])
      sx := rfl, sy := rfl, sz := rfl, ss := rfl
      huser := fun r h1 h2 => by
        have : r = 2 ∨ r = 3 := by simp [P] at h1 h2; omega
        rcases this with rfl | rfl <;> rfl
      hbnd := fun r h1 => absurd h1 (by simp [P]) }⟩
  sx := rfl
  sy := rfl
  sz := rfl
  ss := rfl
  tmpB := rfl
  tmpI := rfl
  tbB := rfl
  tbI := rfl
  pcBS := (Ex.start (fun _ => True) trivial).pcBS
  pcIS := (Ex.start (fun _ => True) trivial).pcIS
  pcBC := (Ex.start (fun _ => True) trivial).pcBC
  pcIC := (Ex.start (fun _ => True) trivial).pcIC

theorem points_eq : points (P st) (fun _ => 0) (fun _ => 2) = 3 := by
  simp [points, P]

theorem deterministic : Deterministic (P st) env := by
  intro e1 e2 hf e1' e2' k1 k2 x1 x2 h1 h2 s1 s2 hx1 hx2 i hi
  have q1 : env.solve e1 = _ := solve_eq h1
  have q2 : env.solve e2 = _ := solve_eq h2
  rw [q1] at s1
  rw [q2] at s2
  cases s1
  cases s2
  rw [← (x_holds _).unique hx1 hi, ← (x_holds _).unique hx2 hi]

/-- C56 on the example, with the four strategies: at most 3 of the 10 nodes are used, the answer is "optimal" and the objective within the tolerances of 1 -/
example (hst : st = 0 ∨ st = 1 ∨ st = 2 ∨ st = 4) (bb' : St XR Unit Unit) (code : Int) (hs : bbSolve env 5 (bb st) = .ok (bb', code)) :
    bb'.iter + 1 ≤ 3 ∧ code = 0 ∧ ∃ u, bb'.globalU = .fin u ∧ (u ≤ 1 + 1e-6 ∨ ∃ l ≤ (1 : ℝ), |u - l| ≤ 1e-3 * |l|) := by
  have h1 := C56_terminates_partial (tol := 1e-4) (atol := 1e-6) keeps finite respects within (fun j _ => by norm_num) rfl le_rfl
    (by norm_num) (by norm_num) rfl (by norm_num) hst (fun _ => deterministic) (by norm_num [P, stgs, Ex.stgs]) start hs
  rw [points_eq] at h1
  obtain ⟨h2, u, hu, hall⟩ := C56_finds_optimum_partial (tol := 1e-4) (atol := 1e-6) (rtol := 1e-3) (v0 := fun _ => 1)
    keeps finite respects exact within
    (fun j _ => by norm_num) rfl le_rfl
    (by norm_num) (by norm_num) rfl (by norm_num) rfl hst (fun _ => deterministic) (by norm_num [P, stgs, Ex.stgs]) start hs (by rw [points_eq]; norm_num [P, stgs, Ex.stgs])
    (by unfold Feas; norm_num) ⟨fun j hj => absurd hj (by simp [P]), fun j _ => ⟨1, by simp⟩⟩ (fun j _ => by norm_num)
  refine ⟨h1.1, h2, u, hu, ?_⟩
  have := hall (fun _ => 1) (by unfold Feas; norm_num)
    ⟨fun j hj => absurd hj (by simp [P]), fun j _ => ⟨1, by simp⟩⟩ (fun j _ => by norm_num)
  simpa [objective, P] using this

end
end Prog

/-! ## The default strategy -/
namespace Stuck
open Run

/-- exact solution of `min x, 1/2 ≤ x ≤ 3/2, -x ≤ a, x ≤ b`, where `a`, `b` are the first two entries of `h` -/
def solve (e : EW Fx Unit Unit) : M (EW Fx Unit Unit × Int) := do
  let a ← rd e.h 0
  let b ← rd e.h 1
  let x : Fx := if lt (-a) 0.5 then 0.5 else -a
  let u : Fx := if lt b 1.5 then b else 1.5
  pure ({ e with x := bl [x] }, if lt u x then 1 else 0)

def env : Env Fx Unit Unit := ⟨solve, fun _ => 0⟩

/-- a fresh node record (`calloc`) -/
def node0 : Node Fx :=
  { status := 0, L := 0, U := 0, relaxation := 0, splitIdx := 0, splitVal := 0
    prevSplitIdx := 0, prevSplitVal := 0, prevRelaxation := 0, up := 0 }

def ew : EW Fx Unit Unit :=
  { n := 1, p := 0, m := 4, c := bl [1], h := bl [0, 0, -0.5, 1.5], gequil := bl [1, 1, 1, 1], x := malloc 1, y := malloc 0
    z := malloc 4, s := malloc 4, kap := none, tau := none, info := none, hid := () }

/-- the state after set-up with the default settings except `maxit` and the strategy -/
def bb (strategy maxit : Nat) : St Fx Unit Unit :=
  { nb := 0, ni := 1, nodes := bl (List.replicate maxit node0), boolIds := malloc 0, intIds := malloc (2 * maxit)
    boolVars := bl [], intVars := bl [0], ecos := ew, x := malloc 1, y := malloc 0, z := malloc 4
    s := malloc 4, kap := none, tau := none, info := none, globalU := 0, globalL := 0
    tmpBool := malloc 0, tmpInt := malloc 2, iter := 0, dive := 0, tbBool := malloc 0, tbInt := malloc 2
    pcBinSum := bl [], pcIntSum := bl [0, 0], pcBinCnt := bl [], pcIntCnt := bl [0, 0]
    stgs := { bbDefault with maxit := maxit, strategy := strategy }, rng := 0 }

/-- number of nodes and code -/
def outcome (strategy maxit : Nat) : Option (Nat × Int) :=
  match bbSolve env 30 (bb strategy maxit) with
  | .ok (b, code) => some (b.iter + 1, code)
  | .error _ => none

end Stuck

/-- Violation of C56 by the default strategy (reliability branching, 3): on `min x` subject to `1/2 ≤ x ≤ 3/2`, `x` integer, with an exact
continuous solver, the other strategies find the optimum with 2 nodes; the default strategy uses up the node limit (here 20; there are 3
integer points in the sense of C56) and answers "iteration limit" (10).  When the trial solves find one side of a variable infeasible,
reliability branching fixes the bound but leaves the split of the node as it was found in memory (index 0, value 0.0 after `calloc`,
or that of the parent), and the branching on this split puts the old bound back. -/
theorem C56_default_strategy_violated : (bbDefault : Stgs Fx).strategy = 3 ∧
    Stuck.outcome 0 20 = some (2, 0) ∧ Stuck.outcome 1 20 = some (2, 0) ∧ Stuck.outcome 2 20 = some (2, 0) ∧
    Stuck.outcome 4 20 = some (2, 0) ∧ Stuck.outcome 3 20 = some (20, 10) := by
  decide +kernel

end BB
end Ecos
