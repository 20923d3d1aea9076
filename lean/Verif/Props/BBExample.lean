import Verif.Props.BB
import Verif.Props.BBSetup

/-!
# A concrete mixed-integer problem meeting the hypotheses of C33, C35–C39

`min x` subject to `x ≥ 1/2`, `x` integer, with a continuous solver that is exact, finite, respects the
bounds, and reports infeasible nodes.
-/
set_option linter.unusedSectionVars false
set_option linter.unusedVariables false

namespace Ecos
namespace BB
namespace Ex

noncomputable section

instance : Inhabited XR := ⟨.fin 0⟩

/-- default settings (ecos_bb/ecos_bb_preproc.c:358-370) with a small node limit -/
def stgs : Stgs XR :=
  { maxit := 10, absTol := .fin 1e-6, relTol := .fin 1e-3, intTol := .fin 1e-4, strategy := 0, eta := 4,
    nodeSel := 1 }

/-- one integer variable, two bound rows and the user's row `-x ≤ -1/2` -/
def P : Par XR Unit :=
  { nb := 0, ni := 1, n := 1, p := 0, m := 3, bv := fun _ => 0, iv := fun _ => 0
    cs := fun cf => ∀ i, i < 1 → cf i = .fin 1, ok := fun _ => True
    hu := fun _ => .fin (-1 / 2), geq := fun _ => .fin 1, stgs := stgs }

open Classical in
/-- the exact solution of `min x, x ≥ 1/2, -x ≤ a, x ≤ b` -/
def answer : XR → XR → ℝ × Int
  | .fin a, .fin b => (max (-a) (1 / 2), if max (-a) (1 / 2) ≤ b then 0 else 1)
  | _, _ => (1 / 2, 1)

def solve (e : EW XR Unit Unit) : M (EW XR Unit Unit × Int) := do
  let a ← rd e.h 0
  let b ← rd e.h 1
  pure ({ e with x := ofList [.fin (answer a b).1] }, (answer a b).2)

def env : Env XR Unit Unit := ⟨solve, fun _ => 0⟩

theorem solve_eq {e hf} (he : EWF P e hf) :
    solve e = .ok ({ e with x := ofList [.fin (answer (hf 0) (hf 1)).1] }, (answer (hf 0) (hf 1)).2) := by
  unfold solve
  rw [he.hh.rd (i := 0) (by decide), ok_bind_eq, he.hh.rd (i := 1) (by decide), ok_bind_eq]
  rfl

theorem x_holds (r : ℝ) : Holds (ofList [XR.fin r]) P.n (fun _ => .fin r) :=
  (ofList_holds [XR.fin r]).congr (fun i hi => by
    have : i = 0 := by simp [P] at hi; exact hi
    subst this; rfl)

theorem keeps : Keeps P env where
  solve := fun e hf he _ => by
    show Runs _ (solve e) _
    rw [solve_eq he, Runs_ok]
    exact ⟨{ he with sx := by rfl }, _, x_holds _, fun _ _ => trivial, fun _ _ => trivial⟩
  solveB := fun _ _ _ _ _ _ _ _ _ => trivial
  rand := fun _ => Nat.zero_le _

/-- what a solve of a node returns -/
theorem trial_eq {b i code xf} (h : Trial P env b i code xf) :
    code = (answer (i 0 / .fin 1) (i 1 / .fin 1)).2 ∧ xf 0 = .fin (answer (i 0 / .fin 1) (i 1 / .fin 1)).1 := by
  obtain ⟨hf, hr, e, e', he, hs, hx⟩ := h
  have h2 : env.solve e = _ := solve_eq he
  rw [h2] at hs
  cases hs
  have := (x_holds (answer (hf 0) (hf 1)).1).unique hx (i := 0) (by decide)
  obtain ⟨r1, r2⟩ := hr.int 0 (by decide)
  change hf 0 = i 0 / .fin 1 at r1
  change hf 1 = i 1 / .fin 1 at r2
  rw [← r1, ← r2]
  exact ⟨rfl, this.symm⟩

theorem finite : Finite P env (fun _ => 1) where
  cost := fun _ h => h
  point := fun b i code xf h => ⟨fun _ => _, fun k hk => by
    have : k = 0 := by simp [P] at hk; exact hk
    subst this; exact (trial_eq h).2⟩

theorem div_one (r : ℝ) : XR.fin r / XR.fin 1 = XR.fin r := by
  rw [XR.fin_div one_ne_zero, _root_.div_one]

/-- the user's feasible set -/
def Feas (v : Nat → ℝ) : Prop := 1 / 2 ≤ v 0

theorem exact : Exact P env (fun _ => 1) Feas 0 := by
  intro b i code xf x hb htr hx v hv hrel
  obtain ⟨hc, h0⟩ := trial_eq htr
  obtain ⟨lo, hi, e1, e2, h1, h2⟩ := hrel.int 0 (by decide)
  change i 0 = _ at e1
  change i 1 = _ at e2
  change -lo ≤ v 0 at h1
  change v 0 ≤ hi at h2
  unfold Feas at hv
  rw [e1, e2, div_one, div_one] at hc h0
  rw [hx 0 (by decide)] at h0
  have hx0 : x 0 = max (-lo) (1 / 2) := (XR.fin_inj.mp h0)
  have hle : max (-lo) (1 / 2) ≤ v 0 := max_le h1 hv
  constructor
  · rw [hc]
    show Usable (if max (-lo) (1 / 2) ≤ hi then 0 else 1)
    rw [if_pos (le_trans hle h2)]; exact Or.inl rfl
  · simp [objective, P, hx0] 
    simpa using hle

theorem respects : Respects P env 0 := by
  intro b i code xf x htr hacc hx
  refine ⟨fun j hj => absurd hj (by simp [P]), fun j hj lo hi e1 e2 => ?_⟩
  have : j = 0 := by simp [P] at hj; exact hj
  subst this
  obtain ⟨hc, h0⟩ := trial_eq htr
  change i 0 = _ at e1
  change i 1 = _ at e2
  rw [e1, e2, div_one, div_one] at hc h0
  rw [hx 0 (by decide)] at h0
  have hx0 : x 0 = max (-lo) (1 / 2) := (XR.fin_inj.mp h0)
  change -lo - 0 ≤ x 0 ∧ x 0 ≤ hi + 0
  rw [hx0]
  refine ⟨by simp, ?_⟩
  by_contra hcon
  rw [add_zero] at hcon
  rw [hc] at hacc
  have : (answer (.fin lo) (.fin hi)).2 = 1 := if_neg hcon
  rw [this] at hacc
  exact absurd hacc (by decide)

instance : Inhabited (Node XR) := ⟨⟨0, .fin 0, .fin 0, .fin 0, 0, .fin 0, 0, .fin 0, .fin 0, 0⟩⟩

/-- a fresh node record (`calloc`) -/
def node0 : Node XR :=
  { status := 0, L := .fin 0, U := .fin 0, relaxation := .fin 0, splitIdx := 0, splitVal := .fin 0
    prevSplitIdx := 0, prevSplitVal := .fin 0, prevRelaxation := .fin 0, up := 0 }

def ew : EW XR Unit Unit :=
  { n := 1, p := 0, m := 3, c := ofList [.fin 1], h := ofList [.fin 0, .fin 0, .fin (-1 / 2)]
    gequil := ofList [.fin 1, .fin 1, .fin 1], x := malloc 1, y := malloc 0, z := malloc 3, s := malloc 3
    kap := none, tau := none, info := none, hid := () }

/-- the state after setup -/
def bb : St XR Unit Unit :=
  { nb := 0, ni := 1, nodes := ofList (List.replicate 10 node0), boolIds := malloc 0, intIds := malloc 20
    boolVars := ofList [], intVars := ofList [0], ecos := ew, x := malloc 1, y := malloc 0, z := malloc 3
    s := malloc 3, kap := none, tau := none, info := none, globalU := .fin 0, globalL := .fin 0
    tmpBool := malloc 0, tmpInt := malloc 2, iter := 0, dive := 0, tbBool := malloc 0, tbInt := malloc 2
    pcBinSum := ofList [], pcIntSum := ofList [.fin 0, .fin 0], pcBinCnt := ofList []
    pcIntCnt := ofList [0, 0], stgs := stgs, rng := 0 }

theorem start (G : XR → Prop) (h0 : G (.fin 0)) : Start P G bb where
  nb_eq := rfl
  ni_eq := rfl
  stgs_eq := rfl
  maxit_pos := by decide
  nodes := ⟨_, ofList_holds (List.replicate 10 node0), fun i hi => by
    have : (List.replicate 10 node0).getD i default = node0 := by
      simp only [List.getD_eq_getElem?_getD, List.getElem?_replicate]
      split <;> rfl
    rw [this]
    exact ⟨by decide, by decide, by decide, h0, h0⟩⟩
  sbool := rfl
  sint := rfl
  hbv := (ofList_holds ([] : List Nat)).congr (fun i hi => absurd hi (by simp))
  hiv := (ofList_holds [0]).congr (fun i hi => by
    have : i = 0 := by simp at hi; exact hi
    subst this; rfl)
  bv_lt := fun i hi => absurd hi (by simp [P])
  iv_lt := fun i hi => by simp [P]
  m_ge := by decide
  hew := ⟨fun r => ([.fin 0, .fin 0, .fin (-1 / 2)] : List XR).getD r (.fin 0),
    { hn := rfl, hp := rfl, hm := rfl
      hc := ⟨fun _ => .fin 1, fun _ _ => rfl, (ofList_holds [XR.fin 1]).congr (fun i hi => by
        have : i = 0 := by simp at hi; exact hi
        subst this; rfl)⟩
      hok := trivial
      hh := ofList_holds _
      hg := (ofList_holds [XR.fin 1, .fin 1, .fin 1]).congr (fun i hi => by
        have : i < 3 := by simpa using hi
        rcases i with _ | _ | _ | i <;> [rfl; rfl; rfl; omega])
      sx := rfl, sy := rfl, sz := rfl, ss := rfl
      huser := fun r h1 h2 => by
        have : r = 2 := by simp [P] at h1 h2; omega
        subst this; rfl
      hbnd := fun r h1 => absurd h1 (by simp [P]) }⟩
  sx := rfl
  sy := rfl
  sz := rfl
  ss := rfl
  tmpB := rfl
  tmpI := rfl
  tbB := rfl
  tbI := rfl
  pcBS := ⟨_, ofList_holds ([] : List XR)⟩
  pcIS := ⟨_, ofList_holds [XR.fin 0, .fin 0]⟩
  pcBC := ⟨_, ofList_holds ([] : List Int)⟩
  pcIC := ⟨_, ofList_holds [(0 : Int), 0]⟩

/-- C37, C35, C36 applied to the example: if the search answers "optimal" then the objective is within
the tolerances of that of the integer point `x = 1`. -/
example (bb' : St XR Unit Unit) (hs : bbSolve env 5 bb = .ok (bb', 0)) :
    ∃ u, bb'.globalU = .fin u ∧ (u ≤ 1 + 1e-6 ∨ ∃ l ≤ (1 : ℝ), |u - l| ≤ 1e-3 * |l|) := by
  obtain ⟨u, hu, hall⟩ := C36_optimal (atol := 1e-6) (rtol := 1e-3) (tol := 1e-4) keeps finite exact rfl
    (by norm_num) (by norm_num) rfl rfl (by norm_num) (fun h => absurd h (by decide)) (by decide)
    (start _ trivial) hs
  refine ⟨u, hu, ?_⟩
  have := hall (fun _ => 1) (by unfold Feas; norm_num)
    ⟨fun j hj => absurd hj (by simp [P]), fun j _ => ⟨1, by simp⟩⟩ (fun j _ => by norm_num)
  simpa [objective, P] using this

example (bb' : St XR Unit Unit) (code : Int) (hs : bbSolve env 5 bb = .ok (bb', code))
    (hc : code = 0 ∨ code = 10) : ∃ x : Nat → ℝ, Holds bb'.ecos.x 1 (fun i => .fin (x i)) ∧
      ∃ k : Int, |x 0 - k| ≤ (1e-4 : ℝ) := by
  obtain ⟨x, h1, h2, h3, h4⟩ := C35_integral (tol := 1e-4) (ε := 0) keeps finite rfl (by norm_num) (by norm_num) respects
    (fun h => absurd h (by decide)) (by decide) (start _ trivial) hs hc
  obtain ⟨k, hk⟩ := h4 0 (by decide)
  refine ⟨x, h1, k, ?_⟩
  rw [max_eq_left (by norm_num)] at hk
  exact hk

/-- C37 on the example: whatever the fuel, the search ends within the ten nodes -/
example (fuel : Nat) : (∃ bb' code, bbSolve env fuel bb = .ok (bb', code) ∧ bb'.iter + 1 ≤ 10 ∧
      (code = 0 ∨ code = 1 ∨ code = 2 ∨ code = 10 ∨ code = 11 ∨ code = 12)) ∨
    bbSolve env fuel bb = .error .castRange := by
  rcases C37_search_bounded keeps (fun h => absurd h (by decide)) (by decide) (start _ trivial) fuel with
    h | h | ⟨h, _⟩
  · exact Or.inl h
  · exact Or.inr h
  · exact absurd h (by decide)

/-- a continuous solver that finds every node unbounded -/
def envU : Env XR Unit Unit := ⟨fun e => .ok ({ e with x := ofList [.fin 0] }, 2), fun _ => 0⟩

theorem keepsU : Keeps P envU where
  solve := fun e hf he _ => by
    show Runs _ (.ok _) _
    rw [Runs_ok]
    exact ⟨{ he with sx := by rfl }, _, x_holds _, fun _ _ => trivial, fun _ _ => trivial⟩
  solveB := fun _ _ _ _ _ _ _ _ _ => trivial
  rand := fun _ => Nat.zero_le _

/-- the answer for the unbounded problem is "infeasible" -/
example : ∃ bb', bbSolve envU 5 bb = .ok (bb', 1) :=
  C36_unbounded_reported_infeasible keepsU (fun e e' k h => by cases h; rfl) (by decide) (by decide)
    (start _ trivial) 5

/-- the root node after its relaxation gave `x = 1/2` -/
def node1 : Node XR := { node0 with splitVal := .fin (1 / 2) }

/-- search state in front of the first branching -/
def bb1 : St XR Unit Unit :=
  { bb with
    nodes := ofList (List.replicate 10 node1)
    intIds := ofList (List.replicate 20 (.fin 8388608)) }

def gh1 : Gh XR := ⟨fun _ => node1, fun _ => 0, fun _ => .fin 8388608⟩

theorem getD_replicate {α : Type} (n i : Nat) (a b : α) (hi : i < n) : (List.replicate n a).getD i b = a := by
  simp [List.getD_eq_getElem?_getD, List.getElem?_replicate, hi]

theorem branchable : Branchable P bb1 gh1 0 1e-4 where
  rep :=
    { start (fun _ => True) trivial with
      iter_lt := by decide
      hnodes := (ofList_holds (List.replicate 10 node1)).congr
        (fun i hi => getD_replicate _ _ _ _ (by simpa using hi))
      hbool := ⟨rfl, fun i hi => absurd hi (by simp [P])⟩
      hint := by
        have h := (ofList_holds (List.replicate 20 (XR.fin 8388608))).congr
          (g := fun _ => .fin 8388608) (fun i hi => getD_replicate _ _ _ _ (by simpa using hi))
        exact ⟨h.1, fun i hi _ => h.2 i hi⟩
      bids := fun k _ => Or.inr (Or.inl rfl)
      iids := fun k _ => ⟨8388608, Or.inl rfl⟩ }
  cur_le := by decide
  room := by decide
  idx := by decide
  tol_eq := rfl
  tol_nonneg := by norm_num
  tol_lt := by norm_num

/-- C33 on the example: the integer point `x = 1` of the root survives in one of the children -/
example : ∃ bb' g', branch 0 { bb1 with iter := 1 } = .ok bb' ∧ Rep P bb' g' ∧
    (InNode P (g'.brow P 0) (g'.irow P 0) (fun _ => 1) ∨ InNode P (g'.brow P 1) (g'.irow P 1) (fun _ => 1)) := by
  obtain ⟨bb', g', h1, h2, -, -, h3, -⟩ := C33_branch_covers branchable (x := 1 / 2) rfl
    ⟨by norm_num, by norm_num⟩
  refine ⟨bb', g', h1, h2, h3 _ ?_⟩
  refine ⟨fun j hj => absurd hj (by simp [P]), ⟨fun j hj => absurd hj (by simp [P]), fun j hj => absurd hj (by simp [P]),
    fun j hj => absurd hj (by simp [P]), fun j hj => ⟨8388608, 8388608, rfl, rfl, by norm_num, by norm_num⟩⟩,
    ⟨fun j hj => absurd hj (by simp [P]), fun j _ => ⟨1, by simp⟩⟩⟩

/-- the user's data of the example -/
def user : AugIn ℝ :=
  { nb := 0, bools := ofList [], ni := 1, ints := ofList [0], n := 1, m := 1, gpr := ofList [-1]
    gjc := ofList [0, 1], gir := ofList [0], h := ofList [-1 / 2] }

theorem user_ok : Augm.InOk user (fun k => k) (fun _ => 0) (fun _ => -1) (fun _ => -1 / 2) (fun _ => 0) (fun _ => 0) where
  csc := ⟨rfl, fun j _ => Nat.le_succ j, fun k hk => by decide⟩
  hjc := (ofList_holds [0, 1]).congr (fun i hi => by
    have : i < 2 := by simpa using hi
    rcases i with _ | _ | i <;> [rfl; rfl; omega])
  hir := (ofList_holds [0]).congr (fun i hi => by
    have : i = 0 := by simpa using hi
    subst this; rfl)
  hpr := (ofList_holds [(-1 : ℝ)]).congr (fun i hi => by
    have : i = 0 := by simpa using hi
    subst this; rfl)
  hh := (ofList_holds [(-1 / 2 : ℝ)]).congr (fun i hi => by
    have : i = 0 := by simpa using hi
    subst this; rfl)
  hb := (ofList_holds ([] : List Nat)).congr (fun i hi => absurd hi (by simp))
  hi := (ofList_holds [0]).congr (fun i hi => by
    have : i = 0 := by simpa using hi
    subst this; rfl)

/-- C38 on the example, for the root node (row scaling 1) -/
example : ∃ t jcO irO prO ew hf, socpToBB user = .ok t ∧ Holds t.jc 2 jcO ∧
    setProb bb1 bb1.boolIds 0 bb1.intIds 0 = .ok { bb1 with ecos := ew } ∧ Holds ew.h 3 hf ∧
    ∀ x, (∀ r, r < 2 → ∃ q, hf r = .fin q ∧ rowDot 1 jcO irO prO r x ≤ q * 1) ↔
      InRelax P (fun _ => 0) (fun _ => .fin 8388608) x := by
  obtain ⟨t, jcO, irO, prO, hO, ew, hf, h1, h2, -, -, -, -, h3, h4, -, h5⟩ :=
    C38_node_bounds_partial (P := P) (bb := bb1) (bids := bb1.boolIds) (boff := 0) (iids := bb1.intIds)
      (ioff := 0) (b := fun _ => 0) (i := fun _ => .fin 8388608) user_ok
      ⟨fun a b _ h => absurd h (by simp [user]), fun a b h h' => by simp [user] at h'; omega,
        fun a b h => absurd h (by simp [user])⟩
      ⟨rfl, rfl, rfl, rfl, rfl, rfl⟩ (fun _ => 1) (fun r _ => ⟨one_pos, rfl⟩) branchable.rep
      (fun k hk => absurd hk (by simp [P]))
      (fun k hk => branchable.rep.hint.rd (by simp [P, stgs] at hk ⊢; omega) (by simp [P] at hk ⊢; omega))
  exact ⟨t, jcO, irO, prO, ew, hf, h1, h2, h3, h4, h5⟩

/-- C39 on the example: the user's only inequality is not changed by an update of its right-hand side -/
example : ∃ h' hf', updateDataEntryH bb 0 (.fin 5) = .ok { bb with ecos := { bb.ecos with h := h' } } ∧
    Holds h' 3 hf' ∧ hf' 2 = .fin (-1 / 2) := by
  obtain ⟨hf, hE⟩ := (start (fun _ => True) trivial).hew
  obtain ⟨h', hf', h1, h2, h3, -⟩ := C39_integer_vars_violated (idx := 0) hE rfl (by decide) (by decide) (.fin 5)
  exact ⟨h', hf', h1, h2, h3.trans (hE.huser 2 (by decide) (by decide))⟩

/-- one boolean variable, one user row -/
def PB : Par XR Unit := { P with nb := 1, ni := 0 }
def bbB : St XR Unit Unit := { bb with nb := 1, ni := 0 }

/-- C39 without integer variables -/
example : ∃ h' hf', updateDataEntryH bbB 0 (.fin 5) = .ok { bbB with ecos := { bbB.ecos with h := h' } } ∧
    Holds h' 3 hf' ∧ (∃ q, hf' 2 = .fin q ∧ q * 1 = 5) := by
  obtain ⟨hf, hE⟩ := (start (fun _ => True) trivial).hew
  have hE' : EWF PB bbB.ecos hf :=
    { hE with
      hbnd := fun r hr => by
        have hr : r < 2 := hr
        have h0 : hf r = .fin 0 := by
          have := hE.hh.2 r (show r < 3 by omega)
          rcases (show r = 0 ∨ r = 1 by omega) with rfl | rfl
          · exact (Option.some.inj (Option.some.inj this)).symm
          · exact (Option.some.inj (Option.some.inj this)).symm
        refine ⟨0, .inl rfl, h0.trans ?_⟩
        show XR.fin 0 = XR.fin 0 / XR.fin 1
        rw [XR.fin_div one_ne_zero, zero_div] }
  obtain ⟨h', hf', h1, h2, h3, -⟩ := C39_update_h_partial (idx := 0) hE' rfl rfl (by decide) one_ne_zero rfl (v := 5)
  exact ⟨h', hf', h1, h2, h3⟩

end
end Ex
end BB
end Ecos
