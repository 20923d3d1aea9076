import Verif.Lemmas.BBX

/-!
# Properties C33–C37: the mixed-integer search

Numbers are `XR` (reals, infinities, NaN).  `bbSolve env fuel bb` is `ECOS_BB_solve`, with the
continuous solver and `rand` as parameters `env`; all theorems hold for every `env`, every branching
strategy and every node selection.
-/
set_option linter.unusedSectionVars false
set_option linter.unusedVariables false

namespace Ecos
namespace BB

variable {W I : Type} {P : Par XR W} {env : Env XR W I}

/-! ## C34 -/

/-- C34: for every real in machine-integer range and every tolerance in `[0,1)` the helpers return
(no undefined cast) integers `f` (floor), `c` (ceiling), `r` (round) with: no slack beyond the
tolerance; `c ≤ f + 1`; `r` is a nearest integer; and for a value at least the tolerance away from all
integers, `f = ⌊x⌋`, `c = ⌈x⌉` and they differ by one. -/
theorem C34_rounding {x tol : ℝ} (hx : -2147483647 ≤ x ∧ x ≤ 2147483646) (h0 : 0 ≤ tol) (h1 : tol < 1) :
    ∃ f c r : Int, pfFloor x tol = .ok (f : ℝ) ∧ pfCeil x tol = .ok (c : ℝ) ∧ pfRound x = .ok (r : ℝ) ∧
      (f : ℝ) ≤ x + tol ∧ x - tol ≤ c ∧ c ≤ f + 1 ∧
      (∀ k : Int, |(r : ℝ) - x| ≤ |(k : ℝ) - x|) ∧
      ((∀ k : Int, x ≠ k ∧ tol ≤ |x - k|) → f = ⌊x⌋ ∧ c = ⌈x⌉ ∧ c = f + 1) := by
  refine ⟨rFloor x tol, rCeil x tol, rRound x, pfFloor_real hx h0 h1, pfCeil_real hx h0 h1,
    pfRound_real hx, rFloor_lt h0, rCeil_gt h0, rCeil_le_rFloor h0, rRound_nearest x, fun hk => ?_⟩
  have e1 := rFloor_eq h0 h1 (fun k => (hk k).2) (fun k => (hk k).1)
  have e2 := rCeil_eq h0 h1 (fun k => (hk k).2) (fun k => (hk k).1)
  refine ⟨e1, e2, ?_⟩
  rw [e1, e2, Int.ceil_eq_iff]
  have a1 := Int.floor_le x
  have a2 := Int.lt_floor_add_one x
  have a3 : (⌊x⌋ : ℝ) ≠ x := fun h => (hk ⌊x⌋).1 h.symm
  push_cast
  exact ⟨by rw [add_sub_cancel_right]; exact lt_of_le_of_ne a1 a3, a2.le⟩

/-- the value `-2.5`, where truncation rounds the other way -/
example : ∃ f c : Int, pfFloor (-2.5 : ℝ) 1e-4 = .ok (f : ℝ) ∧ pfCeil (-2.5 : ℝ) 1e-4 = .ok (c : ℝ) ∧
    f = -3 ∧ c = -2 := by
  obtain ⟨f, c, r, h1, h2, -, -, -, -, -, h⟩ := C34_rounding (x := -2.5) (tol := 1e-4) (by norm_num)
    (by norm_num) (by norm_num)
  have hk : ∀ k : Int, (-2.5 : ℝ) ≠ (k : ℝ) ∧ (1e-4 : ℝ) ≤ |(-2.5 : ℝ) - (k : ℝ)| := by
    intro k
    rcases le_or_gt k (-3) with h | h
    · have : (k : ℝ) ≤ -3 := by exact_mod_cast h
      rw [abs_of_nonneg (by norm_num; linarith)]
      exact ⟨by intro he; norm_num at he; linarith, by norm_num; linarith⟩
    · have : (-2 : ℝ) ≤ k := by exact_mod_cast (show (-2 : Int) ≤ k by omega)
      rw [abs_of_neg (by norm_num; linarith)]
      exact ⟨by intro he; norm_num at he; linarith, by norm_num; linarith⟩
  obtain ⟨hf, hc, -⟩ := h hk
  refine ⟨f, c, h1, h2, ?_, ?_⟩
  · rw [hf, Int.floor_eq_iff]; norm_num
  · rw [hc, Int.ceil_eq_iff]; norm_num

/-- C34: `float_eqls` is `|a - b| < tol`. -/
theorem C34_float_eqls (a b tol : ℝ) : floatEqls a b tol = true ↔ |a - b| < tol := by
  rw [floatEqls_real]; simp

/-- C34: the helpers depart from floor and ceiling only at integers: for a negative integer they are
exact, and at a positive integer the value is its own floor and ceiling when the tolerance is
positive.  With tolerance 0 the ceiling helper returns `x + 1` there (a value the search never asks
for, because such `x` is not split). -/
theorem C34_ceil_of_integer_tol_zero : pfCeil (3 : ℝ) 0 = .ok 4 := by
  rw [pfCeil_real ⟨by norm_num, by norm_num⟩ (le_refl _) (by norm_num)]
  have : rCeil (3 : ℝ) 0 = 4 := by
    unfold rCeil
    rw [if_neg (by norm_num), Int.floor_eq_iff]; norm_num
  rw [this]; norm_num

/-! ## C33 -/

/-- a state whose tree arrays hold `g`, in front of a call of `branch` -/
structure Branchable (P : Par XR W) (bb : St XR W I) (g : Gh XR) (cur : Nat) (tol : ℝ) : Prop where
  rep : Rep P bb g
  cur_le : cur ≤ bb.iter
  room : bb.iter + 1 < P.stgs.maxit
  idx : 0 ≤ (g.node cur).splitIdx ∧ (g.node cur).splitIdx < P.nb + P.ni
  tol_eq : P.stgs.intTol = .fin tol
  tol_nonneg : 0 ≤ tol
  tol_lt : tol < 1

/-- the variable a node is split on -/
def splitVar (P : Par XR W) (nd : Node XR) : Nat :=
  if nd.splitIdx < P.nb then P.bv nd.splitIdx.toNat else P.iv (nd.splitIdx.toNat - P.nb)

/-- C33: branching on a node whose split value lies in machine-integer range returns, writes the two
children into the node's own slot and the next free one, and leaves the rows of all other nodes as they
were.  Every integer point of the parent is an integer point of one of the children, and the fractional
value that caused the split is cut off from both. -/
theorem C33_branch_covers {bb : St XR W I} {g : Gh XR} {cur : Nat} {tol x : ℝ}
    (h : Branchable P bb g cur tol) (hx : (g.node cur).splitVal = .fin x)
    (hr : -2147483647 ≤ x ∧ x ≤ 2147483646) :
    ∃ bb' g', branch cur { bb with iter := bb.iter + 1 } = .ok bb' ∧ Rep P bb' g' ∧
      bb'.iter = bb.iter + 1 ∧
      (∀ k, k ≤ bb.iter → k ≠ cur → (∀ i, i < P.nb → g'.brow P k i = g.brow P k i) ∧
        (∀ i, i < 2 * P.ni → g'.irow P k i = g.irow P k i)) ∧
      (∀ v, InNode P (g.brow P cur) (g.irow P cur) v →
        InNode P (g'.brow P cur) (g'.irow P cur) v ∨
        InNode P (g'.brow P (bb.iter + 1)) (g'.irow P (bb.iter + 1)) v) ∧
      (∀ v, v (splitVar P (g.node cur)) = x → (∀ k : Int, x ≠ k ∧ tol ≤ |x - k|) →
        ¬ InRelax P (g'.brow P cur) (g'.irow P cur) v ∧
        ¬ InRelax P (g'.brow P (bb.iter + 1)) (g'.irow P (bb.iter + 1)) v) := by
  have hfl := pfFloor_xr hr h.tol_nonneg h.tol_lt
  have hce := pfCeil_xr hr h.tol_nonneg h.tol_lt
  have hb := branch_ok (bad := fun _ => False) (fun _ => by rw [hx, h.tol_eq, hfl]; trivial)
    (fun _ => by rw [hx, h.tol_eq, hce]; trivial) h.rep h.cur_le h.room h.idx.1 h.idx.2
  obtain ⟨bb', e, g', B⟩ := (Ok.def _ _).mp (hb.ok_of_not_bad (fun _ h => h))
  refine ⟨bb', g', e, B.rep, B.iter, fun k hk hne => ⟨fun i hi => B.brows k i hk hne hi,
    fun i hi => B.irows k i hk hne hi⟩, fun v hv => ?_, fun v hv haway => ?_⟩
  · rcases B.rows with ⟨j, hj, _, h1, h2, h3, h4⟩ | ⟨j, fl, ce, hj, _, e1, e2, h1, h2, h3, h4⟩
    · rcases hv.splitB hj with h0 | h0
      · exact Or.inl (h0.congr h1 h2)
      · exact Or.inr (h0.congr h3 h4)
    · rw [hx, h.tol_eq] at e1 e2
      rw [hfl] at e1
      rw [hce] at e2
      cases e1; cases e2
      rcases hv.splitI hj (rCeil_le_rFloor (x := x) h.tol_nonneg) with h0 | h0
      · exact Or.inl (h0.congr h1 h2)
      · exact Or.inr (h0.congr h3 h4)
  · rcases B.rows with ⟨j, hj, hs, h1, h2, h3, h4⟩ | ⟨j, fl, ce, hj, hs, e1, e2, h1, h2, h3, h4⟩
    · have hsv : splitVar P (g.node cur) = P.bv j := by
        unfold splitVar; rw [hs, if_pos (by omega)]; rfl
      rw [hsv] at hv
      constructor
      · intro hc
        have := hc.zero j hj (by rw [h1 j hj, upd_self])
        exact (haway 0).1 (by rw [← hv, this]; simp)
      · intro hc
        have := hc.one j hj (by rw [h3 j hj, upd_self])
        exact (haway 1).1 (by rw [← hv, this]; simp)
    · have hsv : splitVar P (g.node cur) = P.iv j := by
        unfold splitVar; rw [hs, if_neg (by omega), Int.toNat_natCast, Nat.add_sub_cancel_left]
      rw [hsv] at hv
      rw [hx, h.tol_eq] at e1 e2
      rw [hfl] at e1
      rw [hce] at e2
      cases e1; cases e2
      have f1 := rFloor_eq h.tol_nonneg h.tol_lt (fun k => (haway k).2) (fun k => (haway k).1)
      have f2 := rCeil_eq h.tol_nonneg h.tol_lt (fun k => (haway k).2) (fun k => (haway k).1)
      constructor
      · intro hc
        obtain ⟨lo, hi, _, he, _, hle⟩ := hc.int j hj
        rw [h2 _ (by omega), upd_self, f1] at he
        cases he
        rw [hv] at hle
        exact (haway ⌊x⌋).1 (le_antisymm hle (Int.floor_le x))
      · intro hc
        obtain ⟨lo, hi, he, _, hle, _⟩ := hc.int j hj
        rw [h4 _ (by omega), upd_self, f2, XR.fin_neg] at he
        cases he
        rw [hv, neg_neg] at hle
        exact (haway ⌈x⌉).1 (le_antisymm (Int.le_ceil x) hle)

/-! ## C37 -/

/-- C37: whatever the continuous solver returns, with every strategy and setting (`maxit > 0`, at least
one declared variable), the search returns after at most `maxit` nodes (`iter + 1` of them) with one of
the documented codes.  It can only fail by casting a value outside the machine-integer range (bad points
from the continuous solver), or, with random branching only, by running out of the bound on the endless
`rand` loop.  In particular no access leaves the node arrays.  Strong branching needs a continuous solver
whose answer is determined by the problem. -/
theorem C37_search_bounded (K : Keeps P env) (hd : P.stgs.strategy = 1 → Deterministic P env)
    (hp : 0 < P.nb + P.ni) {bb : St XR W I} (h : Start P (fun _ => True) bb) (fuel : Nat) :
    (∃ bb' code, bbSolve env fuel bb = .ok (bb', code) ∧ bb'.iter + 1 ≤ P.stgs.maxit ∧
      (code = 0 ∨ code = 1 ∨ code = 2 ∨ code = 10 ∨ code = 11 ∨ code = 12)) ∨
    bbSolve env fuel bb = .error .castRange ∨
    (P.stgs.strategy = 4 ∧ bbSolve env fuel bb = .error .fuel) := by
  have H := hyp_any (Rb := fun _ => True) K hp (fun _ _ _ _ _ _ => trivial)
  have hb := bbSolve_ok H ltLaws_xr (fun h1 => strongHyp_xr (hd h1))
    (noPt P env (fun _ => True) (fun _ _ => trivial) trivial) fuel h
  cases hr : bbSolve env fuel bb with
  | error e =>
    rw [hr] at hb
    rcases hb with hb | rfl | ⟨h4, rfl⟩
    · exact hb.elim
    · exact Or.inr (Or.inl rfl)
    · exact Or.inr (Or.inr ⟨h4, rfl⟩)
  | ok r =>
    rw [hr] at hb
    obtain ⟨bb1, g1, cur, hI, _, rfl⟩ := hb
    refine Or.inl ⟨_, _, rfl, hI.rep.iter_lt, ?_⟩
    unfold getRetCode
    split <;> split <;> (try split) <;> simp

/-- C37: if the continuous solver returns values in machine-integer range (and within `[-127,126]` at
boolean variables of accepted solves), every strategy except random branching returns. -/
theorem C37_search_returns {tol : ℝ}
    (K : Contract P env (fun y => ∃ r, y = .fin r ∧ -2147483647 ≤ r ∧ r ≤ 2147483646)
      (fun y => ∃ r, y = .fin r ∧ -127 ≤ r ∧ r ≤ 126) (fun _ => False))
    (ht : P.stgs.intTol = .fin tol) (h0 : 0 ≤ tol) (h1 : tol < 1)
    (hd : P.stgs.strategy = 1 → Deterministic P env) (h4 : P.stgs.strategy ≠ 4)
    (hp : 0 < P.nb + P.ni) {bb : St XR W I}
    (h : Start P (fun y => ∃ r, y = .fin r ∧ -2147483647 ≤ r ∧ r ≤ 2147483646) bb) (fuel : Nat) :
    ∃ bb' code, bbSolve env fuel bb = .ok (bb', code) ∧ bb'.iter + 1 ≤ P.stgs.maxit := by
  have H : Hyp P env (fun y => ∃ r, y = .fin r ∧ -2147483647 ≤ r ∧ r ≤ 2147483646)
      (fun y => ∃ r, y = .fin r ∧ -127 ≤ r ∧ r ≤ 126) (fun _ => False) (fun _ => True) :=
    { con := K
      floor := by
        rintro y ⟨r, rfl, hr⟩; rw [ht, pfFloor_xr hr h0 h1]; trivial
      ceil := by
        rintro y ⟨r, rfl, hr⟩; rw [ht, pfCeil_xr hr h0 h1]; trivial
      round := by
        rintro y ⟨r, rfl, hr⟩; rw [pfRound_xr hr]; trivial
      roundb := by
        rintro y ⟨r, rfl, hr1, hr2⟩
        rw [pfRound_xr ⟨by linarith, by linarith⟩, Runs_ok]
        have hn := rRound_near r
        rw [abs_le] at hn
        have a1 : (-128 : ℝ) < (rRound r : ℝ) := by linarith [hn.1]
        have a2 : (rRound r : ℝ) < 127 := by linarith [hn.2]
        have b1 : (-128 : Int) < rRound r := by exact_mod_cast a1
        have b2 : rRound r < (127 : Int) := by exact_mod_cast a2
        have hc : castInt (XR.fin ((rRound r : Int) : ℝ)) = .ok (rRound r) := by
          rw [castInt_fin]
          rcases le_or_gt (0 : ℝ) ((rRound r : Int) : ℝ) with hz | hz
          · rw [castInt_nonneg hz (by linarith), Int.floor_intCast]
          · rw [castInt_neg hz (by linarith), Int.ceil_intCast]
        unfold castChar
        rw [hc, ok_bind_eq, if_pos (by omega)]
        trivial
      fuel := fun h => absurd h h4
      pos := hp }
  have hb := bbSolve_ok H ltLaws_xr (fun h1 => strongHyp_xr (hd h1))
    (T := { box := fun _ _ => False, low := fun _ => False, cut := fun _ => False, num := fun _ => True
            trial := fun h => h.elim, trialNum := fun _ _ => trivial, splitB := fun h => h.elim
            splitI := fun h => h.elim, congr := fun h => h.elim, cut_mono := fun _ h => h
            low_cut := fun h => h.elim, low_cut' := fun h => h.elim, low_self := fun h => h
            low_inf := fun h => h.elim, cut_inf := id
            low_min := fun _ _ h => by rcases h with h | h <;> exact h
            num_min := fun _ _ => trivial, num_inf := trivial
            live := False, treated := fun h => h.elim, gap := fun h => h.elim, tree := fun _ _ _ => True
            tree_root := fun h => h.elim, tree_congr := fun h => h.elim, tree_split := fun h => h.elim, tree_bound := fun h => h.elim }) fuel h
  obtain ⟨r, e, bb1, g1, cur, hI, _, rfl⟩ := (Ok.def _ _).mp (hb.ok_of_not_bad (fun _ h => h))
  exact ⟨_, _, e, hI.rep.iter_lt⟩

/-! ## C35 -/

/-- the answer is a number or `+inf`, and the incumbent belongs to it -/
theorem finite_result {c : Nat → ℝ} {Gb : XR → Prop} {Rb : Int → Prop} {bad : UB → Prop}
    (K : Contract P env (fun _ => True) Gb bad)
    (hR : ∀ y r k, Gb y → pfRound y = .ok r → castChar r = .ok k → Rb k) (hfin : Finite P env c)
    (hd : P.stgs.strategy = 1 → Deterministic P env) (hp : 0 < P.nb + P.ni) {bb : St XR W I}
    (h : Start P (fun _ => True) bb) {fuel : Nat} {bb' : St XR W I} {code : Int}
    (hr : bbSolve env fuel bb = .ok (bb', code)) :
    ∃ bb1, bb' = loaded bb1 ∧ code = getRetCode bb1 ∧ NumX bb1.globalU ∧
      (lt bb1.globalU INF = true → Incumbent P env Rb bb1 bb1.globalU) := by
  have H := hyp_any K hp hR
  have hb := bbSolve_ok H ltLaws_xr (fun h1 => strongHyp_xr (hd h1))
    (noPt P env NumX (fun htr hcf => by
      obtain ⟨x, hx⟩ := hfin.point _ _ _ _ htr
      exact Or.inr ⟨_, dotF_fin hx (hfin.cost _ hcf)⟩) (Or.inl rfl)) fuel h
  rw [hr] at hb
  obtain ⟨bb1, g1, cur, hI, _, he⟩ := hb
  cases he
  exact ⟨bb1, rfl, rfl, hI.numU, hI.inc⟩

theorem code_fin {bb : St XR W I} (hn : NumX bb.globalU) (hc : getRetCode bb = 0 ∨ getRetCode bb = 10) :
    ∃ u, bb.globalU = .fin u := by
  rcases hn with h | h
  · exfalso
    unfold getRetCode at hc
    rw [h] at hc
    have h1 : PFloat.isInf XR.pinf = true := rfl
    have h2 : le (0 : XR) XR.pinf = true := rfl
    rw [h1, h2] at hc
    split at hc <;> simp at hc
  · exact h

/-- C35: when the answer is "optimal" (0) or "iteration limit with feasible point" (10) and the
continuous solver returned finite points, then the returned point `x` together with `y`, `z`, `s`, `tau`,
`kap` and the statistics was returned by one call of the continuous solver on the user's problem plus
node bounds, the reported objective is the objective of `x`, and either the call was accepted and every
declared variable is within the tolerance of an integer, or the call ended as optimal on a problem that
fixes every declared integer to an integer (and every declared boolean to its rounding). -/
theorem C35_reported_solution {c : Nat → ℝ} {bad : UB → Prop}
    (K : Contract P env (fun _ => True) (fun _ => True) bad) (hfin : Finite P env c)
    (hd : P.stgs.strategy = 1 → Deterministic P env) (hp : 0 < P.nb + P.ni) {bb : St XR W I}
    (h : Start P (fun _ => True) bb) {fuel : Nat} {bb' : St XR W I} {code : Int}
    (hr : bbSolve env fuel bb = .ok (bb', code)) (hc : code = 0 ∨ code = 10) :
    ∃ e e' hf k x, EWF P e hf ∧ env.solve e = .ok (e', k) ∧
      bb'.ecos.x = e'.x ∧ bb'.ecos.y = e'.y ∧ bb'.ecos.z = e'.z ∧ bb'.ecos.s = e'.s ∧
      bb'.ecos.kap = e'.kap ∧ bb'.ecos.tau = e'.tau ∧ bb'.ecos.info = e'.info ∧
      Holds bb'.ecos.x P.n (fun i => .fin (x i)) ∧ bb'.globalU = .fin (objective P.n c x) ∧
      ((Usable k ∧ IntegralX P (fun i => .fin (x i)) ∧
          ∃ bid iid, HRows P hf bid iid ∧ (∀ i, i < P.nb → bid i = -1 ∨ bid i = 0 ∨ bid i = 1) ∧
            ∀ i, i < 2 * P.ni → IntVal (iid i)) ∨
        (k = 0 ∧ Fixes P (fun _ => True) hf)) := by
  obtain ⟨bb1, rfl, rfl, hn, hinc⟩ :=
    finite_result (Rb := fun _ => True) K (fun _ _ _ _ _ _ => trivial) hfin hd hp h hr
  obtain ⟨u, hu⟩ := code_fin hn hc
  obtain ⟨e, e', hf, k, xf, he, hs, hx, e1, e2, e3, e4, e5, e6, e7, ⟨cf, hcf, hU⟩, hcase⟩ := hinc (by rw [hu]; rfl)
  have hfx : ∃ x : Nat → ℝ, ∀ k, k < P.n → xf k = XR.fin (x k) := by
    rcases hcase with ⟨_, _, bid, iid, hrow, _⟩ | ⟨_, bid, iid, hrow, _⟩
    · exact hfin.point bid iid k xf ⟨hf, hrow, e, e', he, hs, hx⟩
    · exact hfin.point bid iid k xf ⟨hf, hrow, e, e', he, hs, hx⟩
  obtain ⟨x, hxe⟩ := hfx
  refine ⟨e, e', hf, k, x, he, hs, e1, e2, e3, e4, e5, e6, e7, ?_, ?_, ?_⟩
  · show Holds bb1.x _ _
    rw [e1]; exact hx.congr (fun i hi => hxe i hi)
  · show bb1.globalU = _
    rw [hU, dotF_fin hxe (hfin.cost _ hcf)]
  · rcases hcase with ⟨ha, ⟨i1, i2⟩, hrow⟩ | hcase
    · refine Or.inl ⟨accepted_iff.1 ha, ⟨fun i hi => ?_, fun i hi => ?_⟩, hrow⟩
      · show ∃ k : Int, floatEqls (XR.fin (x (P.bv i))) _ _ = true
        rw [← hxe _ (h.bv_lt i hi)]; exact i1 i hi
      · show ∃ k : Int, floatEqls (XR.fin (x (P.iv i))) _ _ = true
        rw [← hxe _ (h.iv_lt i hi)]; exact i2 i hi
    · exact Or.inr hcase

/-- C35: if moreover accepted solves respect the bounds of a node up to `ε < 1/2`, every declared boolean
of the returned point is within `max tol ε` of 0 or 1 and every declared integer within `max tol ε` of an
integer. -/
theorem C35_integral {c : Nat → ℝ} {tol ε : ℝ} {bad : UB → Prop}
    (K : Contract P env (fun _ => True) (fun _ => True) bad) (hfin : Finite P env c)
    (ht : P.stgs.intTol = .fin tol) (h1 : tol ≤ 1 / 2) (hε : ε < 1 / 2) (hres : Respects P env ε)
    (hd : P.stgs.strategy = 1 → Deterministic P env) (hp : 0 < P.nb + P.ni) {bb : St XR W I}
    (h : Start P (fun _ => True) bb) {fuel : Nat} {bb' : St XR W I} {code : Int}
    (hr : bbSolve env fuel bb = .ok (bb', code)) (hc : code = 0 ∨ code = 10) :
    ∃ x, Holds bb'.ecos.x P.n (fun i => .fin (x i)) ∧ bb'.globalU = .fin (objective P.n c x) ∧
      (∀ j, j < P.nb → ∃ k : Int, (k = 0 ∨ k = 1) ∧ |x (P.bv j) - k| ≤ max tol ε) ∧
      (∀ j, j < P.ni → ∃ k : Int, |x (P.iv j) - k| ≤ max tol ε) := by
  have hb01 : ∀ bid iid code xf, (∀ i, i < P.nb → bid i = -1 ∨ bid i = 0 ∨ bid i = 1) →
      Trial P env bid iid code xf → accepted code = true → ∀ i, i < P.nb →
      ∃ r, xf (P.bv i) = XR.fin r ∧ -ε ≤ r ∧ r ≤ 1 + ε := by
    intro bid iid code xf hbid htr hacc i hi
    obtain ⟨x, hx⟩ := hfin.point _ _ _ _ htr
    obtain ⟨q1, q2, q3⟩ := (hres bid iid code xf x htr (accepted_iff.1 hacc) hx).1 i hi
    refine ⟨x (P.bv i), hx _ (h.bv_lt i hi), ?_⟩
    rcases hbid i hi with hb | hb | hb
    · exact q3 hb
    · have := q2 hb; rw [abs_le] at this
      have : 0 ≤ ε := le_trans (abs_nonneg _) (q2 hb)
      constructor <;> linarith
    · have := q1 hb; rw [abs_le] at this
      have : 0 ≤ ε := le_trans (abs_nonneg _) (q1 hb)
      constructor <;> linarith
  have K' : Contract P env (fun _ => True) (fun y => ∃ r, y = .fin r ∧ -(1/2) < r ∧ r < 3/2) bad :=
    { solve := K.solve, rand := K.rand
      solveB := fun bid iid code xf hbid htr hacc i hi => by
        obtain ⟨r, hr, a, b⟩ := hb01 bid iid code xf hbid htr hacc i hi
        exact ⟨r, hr, by linarith, by linarith⟩ }
  obtain ⟨bb1, rfl, rfl, hn, hinc⟩ :=
    finite_result (Rb := fun k => k = 0 ∨ k = 1) K' (by
      rintro y r k ⟨q, rfl, hq1, hq2⟩ h1 h2
      obtain ⟨x, hx, rfl⟩ := pfRound_inv h1
      cases hx
      have hk := castChar_inv rfl h2
      have hn := rRound_near q
      rw [abs_le] at hn
      have b1 : (-1 : Int) < rRound q := by exact_mod_cast (show (-1 : ℝ) < (rRound q : ℝ) by linarith [hn.1])
      have b2 : rRound q < (2 : Int) := by exact_mod_cast (show (rRound q : ℝ) < 2 by linarith [hn.2])
      omega) hfin hd hp h hr
  obtain ⟨u, hu⟩ := code_fin hn hc
  obtain ⟨e, e', hf, k, xf, he, hs, hx, e1, e2, e3, e4, e5, e6, e7, ⟨cf, hcf, hU⟩, hcase⟩ := hinc (by rw [hu]; rfl)
  have main : ∀ x : Nat → ℝ, (∀ k, k < P.n → xf k = XR.fin (x k)) →
      (∀ j, j < P.nb → ∃ k : Int, (k = 0 ∨ k = 1) ∧ |x (P.bv j) - k| ≤ max tol ε) ∧
      (∀ j, j < P.ni → ∃ k : Int, |x (P.iv j) - k| ≤ max tol ε) := by
    intro x hxe
    rcases hcase with ⟨ha, ⟨i1, i2⟩, bid, iid, hrow, hbid, -⟩ | ⟨h0, bid, iid, hrow, hR, hI⟩
    · have htr : Trial P env bid iid k xf := ⟨hf, hrow, e, e', he, hs, hx⟩
      refine ⟨fun j hj => ?_, fun j hj => ?_⟩
      · obtain ⟨z, hz⟩ := i1 j hj
        rw [hxe _ (h.bv_lt j hj), ht, XR.fin_int, floatEqls_xr, decide_eq_true_eq] at hz
        obtain ⟨r, hr, a, b⟩ := hb01 bid iid k xf hbid htr ha j hj
        rw [hxe _ (h.bv_lt j hj)] at hr
        cases hr
        refine ⟨z, ?_, le_trans hz.le (le_max_left _ _)⟩
        rw [abs_lt] at hz
        have b1 : (-1 : Int) < z := by exact_mod_cast (show (-1 : ℝ) < (z : ℝ) by linarith [hz.2])
        have b2 : z < (2 : Int) := by exact_mod_cast (show (z : ℝ) < 2 by linarith [hz.1])
        omega
      · obtain ⟨z, hz⟩ := i2 j hj
        rw [hxe _ (h.iv_lt j hj), ht, XR.fin_int, floatEqls_xr, decide_eq_true_eq] at hz
        exact ⟨z, le_trans hz.le (le_max_left _ _)⟩
    · have htr : Trial P env bid iid k xf := ⟨hf, hrow, e, e', he, hs, hx⟩
      have hrs := hres bid iid k xf x htr (Or.inl h0) hxe
      refine ⟨fun j hj => ?_, fun j hj => ?_⟩
      · obtain ⟨q1, q2, q3⟩ := hrs.1 j hj
        rcases hR j hj with hb | hb
        · exact ⟨0, Or.inl rfl, by simpa using Or.inr (q2 hb)⟩
        · exact ⟨1, Or.inr rfl, by simpa using Or.inr (q1 hb)⟩
      · obtain ⟨z, hz1, hz2⟩ := hI j hj
        obtain ⟨a, b⟩ := hrs.2 j hj (-(z : ℝ)) (z : ℝ) (by rw [hz1]; rfl) (by rw [hz2]; rfl)
        refine ⟨z, le_trans ?_ (le_max_right _ _)⟩
        rw [abs_le]; constructor <;> linarith
  have hfx : ∃ x : Nat → ℝ, ∀ k, k < P.n → xf k = XR.fin (x k) := by
    rcases hcase with ⟨_, _, bid, iid, hrow, _⟩ | ⟨_, bid, iid, hrow, _⟩
    · exact hfin.point bid iid k xf ⟨hf, hrow, e, e', he, hs, hx⟩
    · exact hfin.point bid iid k xf ⟨hf, hrow, e, e', he, hs, hx⟩
  obtain ⟨x, hxe⟩ := hfx
  refine ⟨x, ?_, ?_, main x hxe⟩
  · show Holds bb1.x _ _
    rw [e1]; exact hx.congr (fun i hi => hxe i hi)
  · show bb1.globalU = _
    rw [hU, dotF_fin hxe (hfin.cost _ hcf)]

/-! ## C36 -/

theorem relgap_pinf (t : ℝ) : lt (XR.fin t) (abs2 (XR.pinf - 1)) = true := rfl
theorem relgap_ninf (t : ℝ) : lt (XR.fin t) (abs2 (XR.ninf - 1)) = true := by
  have : (XR.ninf - 1 : XR) = XR.ninf := rfl
  rw [this]
  rfl

theorem inRoot_ptOf {tol : ℝ} (ht : P.stgs.intTol = .fin tol) (h0 : 0 ≤ tol)
    (h1 : tol < 1) {c : Nat → ℝ} (hfin : Finite P env c) {Feas : (Nat → ℝ) → Prop} {δ : ℝ}
    (hex : Exact P env c Feas δ) {v : Nat → ℝ} (hv : Feas v) (hi : Integer P v) (hcov : Covered P v) :
    InRoot (ptOf P env ht h0 h1 hfin hex hv) := by
  refine ⟨fun j _ => Or.inl rfl, ⟨fun j hj he => ?_, fun j hj he => ?_, fun j hj _ => ?_, fun j hj => ?_⟩, hi⟩
  · exact absurd he (by decide)
  · exact absurd he (by decide)
  · rcases hi.bool j hj with h | h <;> rw [h] <;> norm_num
  · have := hcov j hj
    rw [abs_le] at this
    refine ⟨8388608, 8388608, ?_, ?_, this.1, this.2⟩
    · rw [XR.fin_int, MAX_FLOAT_INT]; norm_num
    · rw [XR.fin_int, MAX_FLOAT_INT]; norm_num

/-- C36: with a continuous solver that is exact up to `δ` on every node, an "optimal" answer (code 0)
reports an objective `u` such that for every feasible integer point `v` (integers within `±8388608`)
either `u` is within the absolute tolerance of `v`'s objective plus `δ`, or some lower bound `l` on it is
within the relative tolerance of `u`. -/
theorem C36_optimal {c : Nat → ℝ} {tol atol rtol δ : ℝ} {Feas : (Nat → ℝ) → Prop} {bad : UB → Prop}
    (K : Contract P env (fun _ => True) (fun _ => True) bad)
    (hfin : Finite P env c) (hex : Exact P env c Feas δ) (ht : P.stgs.intTol = .fin tol) (h0 : 0 ≤ tol)
    (h1 : tol < 1) (ha : P.stgs.absTol = .fin atol) (hr : P.stgs.relTol = .fin rtol)
    (hat : 0 ≤ atol)
    (hd : P.stgs.strategy = 1 → Deterministic P env) (hp : 0 < P.nb + P.ni) {bb : St XR W I}
    (h : Start P (fun _ => True) bb) {fuel : Nat} {bb' : St XR W I}
    (hs : bbSolve env fuel bb = .ok (bb', 0)) :
    ∃ u, bb'.globalU = .fin u ∧ ∀ v, Feas v → Integer P v → Covered P v →
      u ≤ objective P.n c v + δ + atol ∨
      ∃ l, l ≤ objective P.n c v + δ ∧ |u - l| ≤ rtol * |l| := by
  have H := hyp_any (Rb := fun _ => True) K hp (fun _ _ _ _ _ _ => trivial)
  obtain ⟨bb1, rfl, hcode, hn, -⟩ :=
    finite_result (Rb := fun _ => True) K (fun _ _ _ _ _ _ => trivial) hfin hd hp h hs
  obtain ⟨u, hu⟩ := code_fin hn (Or.inl hcode.symm)
  refine ⟨u, hu, fun v hv hvi hvc => ?_⟩
  have hb := bbSolve_ok H ltLaws_xr (fun h1 => strongHyp_xr (hd h1))
    (ptOf P env ht h0 h1 hfin hex hv) fuel h
  rw [hs] at hb
  obtain ⟨bb2, g2, cur, hI, hstop, he⟩ := hb
  have hroot := inRoot_ptOf ht h0 h1 hfin hex hv hvi hvc
  have hU2 : bb2.globalU = .fin u := by
    have := congrArg (fun r => r.1.globalU) he
    simp only [loaded] at this
    rw [← this, hu]
  have hcode2 : getRetCode bb2 = 0 := by
    have := congrArg (fun r => r.2) he
    exact this.symm
  have hcut : (ptOf P env ht h0 h1 hfin hex hv).cut bb2.globalU → u ≤ objective P.n c v + δ + atol := by
    rintro (hc | ⟨r, hc, hle⟩)
    · rw [hU2] at hc; cases hc
    · rw [hU2] at hc; cases hc; linarith
  rcases hI.gl hroot with ⟨l, hl, hle⟩ | hc
  · by_cases hneg : cur < 0
    · exact Or.inl (hcut (hI.cur_neg hneg hroot))
    · have hit : (bb2.iter : Int) < (bb2.stgs.maxit : Int) - 1 := by
        unfold getRetCode at hcode2
        split at hcode2
        · assumption
        · split at hcode2 <;> (try split at hcode2) <;> simp at hcode2
      unfold shouldContinue at hstop
      rw [hI.rep.stgs_eq, ha, hr, hU2, hl, XR.fin_sub, XR.lt_fin] at hstop
      rw [hI.rep.stgs_eq] at hit
      simp only [hit, decide_true, Bool.and_true, ge_iff_le, not_lt.mp hneg] at hstop
      by_cases hab : atol < u - l
      · right
        refine ⟨l, hle, ?_⟩
        simp only [hab, decide_true, Bool.true_and] at hstop
        by_cases hl0 : l = 0
        · subst hl0
          rw [XR.fin_div_zero] at hstop
          unfold XR.signInf at hstop
          by_cases hu0 : 0 < u
          · rw [if_pos hu0, relgap_pinf] at hstop; cases hstop
          · rcases lt_or_eq_of_le (not_lt.mp hu0) with hu1 | hu1
            · linarith
            · simp [hu1]
        · rw [XR.fin_div hl0, XR.one_def, XR.fin_sub] at hstop
          have hq : |u / l - 1| ≤ rtol := by
            unfold abs2 at hstop
            rw [XR.zero_def, XR.lt_fin] at hstop
            by_cases hz : u / l - 1 < 0
            · simp only [hz, decide_true, if_true, XR.fin_neg, XR.lt_fin, decide_eq_false_iff_not, not_lt] at hstop
              rw [abs_of_neg hz]; exact hstop
            · simp only [hz, decide_false, Bool.false_eq_true, if_false, XR.lt_fin, decide_eq_false_iff_not,
                not_lt] at hstop
              rw [abs_of_nonneg (not_lt.mp hz)]; exact hstop
          have : u - l = (u / l - 1) * l := by field_simp
          rw [this, abs_mul]
          exact mul_le_mul_of_nonneg_right hq (abs_nonneg _)
      · left; linarith [not_lt.mp hab]
  · exact Or.inl (hcut hc)

/-- C36: an "infeasible" answer (code 1) means that no feasible integer point (integers within
`±8388608`) exists. -/
theorem C36_infeasible {c : Nat → ℝ} {tol atol rtol δ : ℝ} {Feas : (Nat → ℝ) → Prop} {bad : UB → Prop}
    (K : Contract P env (fun _ => True) (fun _ => True) bad)
    (hfin : Finite P env c) (hex : Exact P env c Feas δ) (ht : P.stgs.intTol = .fin tol) (h0 : 0 ≤ tol)
    (h1 : tol < 1) (ha : P.stgs.absTol = .fin atol) (hr : P.stgs.relTol = .fin rtol)
    (hd : P.stgs.strategy = 1 → Deterministic P env) (hp : 0 < P.nb + P.ni) {bb : St XR W I}
    (h : Start P (fun _ => True) bb) {fuel : Nat} {bb' : St XR W I}
    (hs : bbSolve env fuel bb = .ok (bb', 1)) (v : Nat → ℝ) (hv : Feas v) (hvi : Integer P v) :
    ¬ Covered P v := by
  intro hvc
  have H := hyp_any (Rb := fun _ => True) K hp (fun _ _ _ _ _ _ => trivial)
  have hb := bbSolve_ok H ltLaws_xr (fun h1 => strongHyp_xr (hd h1))
    (ptOf P env ht h0 h1 hfin hex hv) fuel h
  rw [hs] at hb
  obtain ⟨bb2, g2, cur, hI, hstop, he⟩ := hb
  have hroot := inRoot_ptOf ht h0 h1 hfin hex hv hvi hvc
  have hcode2 : getRetCode bb2 = 1 := (congrArg (fun r => r.2) he).symm
  have hU2 : bb2.globalU = .pinf := by
    rcases hI.numU with hu | ⟨u, hu⟩
    · exact hu
    · exfalso
      unfold getRetCode at hcode2
      rw [hu] at hcode2
      have : PFloat.isInf (XR.fin u) = false := rfl
      rw [this] at hcode2
      split at hcode2 <;> simp at hcode2
  have hit : (bb2.iter : Int) < (bb2.stgs.maxit : Int) - 1 := by
    unfold getRetCode at hcode2
    split at hcode2
    · assumption
    · split at hcode2 <;> (try split at hcode2) <;> simp at hcode2
  have hcut : ¬ (ptOf P env ht h0 h1 hfin hex hv).cut bb2.globalU := by
    rw [hU2]; exact (ptOf P env ht h0 h1 hfin hex hv).cut_inf
  rcases hI.gl hroot with ⟨l, hl, hle⟩ | hc
  · have hneg : ¬ cur < 0 := fun hneg => hcut (hI.cur_neg hneg hroot)
    unfold shouldContinue at hstop
    rw [hI.rep.stgs_eq, ha, hr, hU2, hl, XR.pinf_sub_fin, XR.pinf_div_fin] at hstop
    rw [hI.rep.stgs_eq] at hit
    simp only [hit, decide_true, Bool.and_true, ge_iff_le, not_lt.mp hneg, XR.lt_fin_pinf, Bool.true_and] at hstop
    by_cases hl0 : l < 0
    · rw [if_pos hl0, relgap_ninf] at hstop; cases hstop
    · rw [if_neg hl0, relgap_pinf] at hstop; cases hstop
  · exact hcut hc

/-- Limit of C36, proved: an unbounded relaxation is reported as infeasible.  If the continuous solver
answers every call with "dual infeasible" (code 2, the relaxation is unbounded), the mixed-integer solver
answers "infeasible" (code 1) whenever `maxit > 1`; the documented code `MI_UNBOUNDED` (2) is not used. -/
theorem C36_unbounded_reported_infeasible (K : Keeps P env)
    (hcode : ∀ e e' k, env.solve e = .ok (e', k) → k = 2) (hp : 0 < P.nb + P.ni)
    (hm : 1 < P.stgs.maxit) {bb : St XR W I} (h : Start P (fun _ => True) bb) (fuel : Nat) :
    ∃ bb', bbSolve env fuel bb = .ok (bb', 1) := by
  have H := hyp_any (Rb := fun _ => True) K hp (fun _ _ _ _ _ _ => trivial)
  unfold bbSolve
  obtain ⟨b0, g0, e0, r0, hi0, hd0, hU0, hn0, hS0, hb0, hj0, -⟩ := initRoot_ok H h
  rw [e0, ok_bind_eq]
  obtain ⟨bb1, e1, hcs⟩ :=
    probSolve_ok K r0 (bids := b0.boolIds) (boff := P.nb * 0) (iids := b0.intIds)
      (ioff := P.ni * 0 * 2) (bf := g0.brow P 0) (jf := g0.irow P 0)
      (fun i hi => r0.rd_bid (Nat.zero_le _) hi) (fun i hi => r0.rd_iid (Nat.zero_le _) hi)
      (fun _ => r0.rowInt (Nat.zero_le _))
  rw [← r0.nb_eq, ← r0.ni_eq] at e1
  rcases hcs with ⟨u, _, hu⟩ | ⟨e', code, xf, hf, e2, ⟨e, he, e3⟩, w, hr, hx, g1, g2⟩
  · exact hu.elim
  have r1 : Rep P { b0 with ecos := e' } g0 := r0.ecos w
  have hk : code = 2 := hcode _ _ _ e3
  obtain ⟨ns, e4, r2⟩ := setNode_ok r1 (k := 0) (by omega)
    (fun nd => { nd with L := INF, U := INF, status := MI_SOLVED_NON_BRANCHABLE })
  have eb : getBounds env fuel 0 b0 = .ok { b0 with ecos := e', nodes := ns } := by
    unfold getBounds
    rw [e1, ok_bind_eq, e2, ok_bind_eq, hk]
    exact e4
  rw [eb, ok_bind_eq, r2.hnodes.rd (i := 0) (by omega), ok_bind_eq]
  simp only [upd_self]
  have hst : b0.stgs = P.stgs := r0.stgs_eq
  have hse : ∀ k, search env fuel k 0 { b0 with
      ecos := e'
      nodes := ns
      globalL := INF
      globalU := INF } = .ok { b0 with
      ecos := e'
      nodes := ns
      globalL := INF
      globalU := INF } := by
    intro k
    have hsc : shouldContinue { b0 with
      ecos := e'
      nodes := ns
      globalL := INF
      globalU := INF } 0 = false := by
      unfold shouldContinue
      have : (INF : XR) - INF = .nan := rfl
      simp only [this, XR.lt_nan', Bool.false_and]
    cases k with
    | zero => unfold search; rw [hsc]; rfl
    | succ k => unfold search; rw [hsc]; rfl
  have r3 : Rep P { b0 with
      ecos := e'
      nodes := ns
      globalL := INF
      globalU := INF } _ := { r2 with }
  rw [hse, ok_bind_eq, loadSolution_ok r3 w, ok_bind_eq]
  have key : ∀ b : St XR W I, b.iter = 0 → b.stgs = P.stgs → b.globalU = .pinf →
      ∃ bb', (pure (b, getRetCode b) : M (St XR W I × Int)) = .ok (bb', 1) := by
    intro b h1 h2 h3
    have : getRetCode b = 1 := by
      unfold getRetCode
      rw [h1, h2, h3, if_pos (by omega)]
      rfl
    exact ⟨b, by rw [this]; rfl⟩
  exact key _ hi0 hst rfl

end BB
end Ecos
