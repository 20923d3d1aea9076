import Verif.Lemmas.BB5

/-! # Branch and bound: the search loop -/
set_option linter.unusedSectionVars false
set_option linter.unusedSimpArgs false
set_option linter.unusedVariables false

namespace Ecos
namespace BB

variable {F : Type} [Zero F] [One F] [Add F] [Sub F] [Mul F] [Div F] [Neg F] [OfScientific F]
  [IntCast F] [PFloat F] [HasInf F] {W I : Type}
variable {P : Par F W} {env : Env F W I} {G Gb : F → Prop} {bad : UB → Prop} {Rb : Int → Prop}
variable {T : Pt P env G} {node : Nat} {bb bb1 bb2 bb' : St F W I} {g g1 g2 g' : Gh F}

/-- the followed point lies in the root box -/
def InRoot (T : Pt P env G) : Prop :=
  T.box (fun _ => MI_STAR) (fun _ => ((MAX_FLOAT_INT : Int) : F))

/-- Invariant of the main loop. -/
structure SInv (Rb : Int → Prop) (T : Pt P env G) (cur : Int) (bb : St F W I) (g : Gh F) : Prop where
  rep : Rep P bb g
  split : ∀ i, i < P.stgs.maxit → SplitOk P G (g.node i)
  nodeU : ∀ i, i ≤ bb.iter → lt (g.node i).U bb.globalU = false
  numU : T.num bb.globalU
  numL : ∀ i, i ≤ bb.iter → T.num (g.node i).L
  cover : InRoot T → (∃ i, i ≤ bb.iter ∧ T.box (g.brow P i) (g.irow P i) ∧ T.low (g.node i).L ∧
    ((i : Int) = cur ∨ (g.node i).status = 2)) ∨ T.cut bb.globalU
  gl : InRoot T → T.low bb.globalL ∨ T.cut bb.globalU
  cur_hi : cur ≤ bb.iter
  cur_neg : cur < 0 → InRoot T → T.cut bb.globalU
  dive : 0 ≤ cur → 0 ≤ bb.dive ∧ bb.dive ≤ bb.iter
  inc : lt bb.globalU INF = true → Incumbent P env Rb bb bb.globalU
  tree : T.live → ∃ D : Nat → Prop, T.tree bb.iter g D ∧ (∀ i, i ≤ bb.iter → (g.node i).status = 2 → D i) ∧
    (∀ c : Nat, cur = (c : Int) → shouldContinue bb cur = true → D c) ∧ ∀ i, D i → i ≤ bb.iter

theorem getGlobalL_ok (h : Rep P bb g) (hL : ∀ i, i ≤ bb.iter → T.num (g.node i).L) :
    ∃ gl, getGlobalL bb = .ok gl ∧ ∀ i, i ≤ bb.iter → T.low (g.node i).L → T.low gl := by
  have : Ok (getGlobalL bb) (fun gl => ∀ i, i ≤ bb.iter → T.low (g.node i).L → T.low gl) := by
    unfold getGlobalL
    refine loop_ok (fun t L => T.num L ∧ ∀ i, i < t → T.low (g.node i).L → T.low L) (Nat.zero_le _)
      ⟨T.num_inf, fun i hi => absurd hi (by omega)⟩ ?_ (fun s hs i hi => hs.2 i (by omega))
    rintro t L _ ht ⟨hn, hl⟩
    unfold minStep
    rw [h.hnodes.rd (by have := h.iter_lt; omega), ok_bind_eq, Ok_pure]
    have hnt := hL t (by omega)
    refine ⟨T.num_min hn hnt, fun i hi hli => ?_⟩
    by_cases hit : i = t
    · subst hit; exact T.low_min hn hnt (Or.inr hli)
    · exact T.low_min hn hnt (Or.inl (hl i (by omega) hli))
  exact (Ok.def _ _).mp this

/-- What `get_next_node` returns. -/
structure NextPost (bb : St F W I) (g : Gh F) (d : Int) (cur : Int) : Prop where
  hi : cur ≤ bb.iter
  found : 0 ≤ cur → (0 ≤ d ∧ d ≤ bb.iter) ∧ ∃ k : Nat, cur = k ∧ (g.node k).status = 2
  none : cur < 0 → ∀ i, i ≤ bb.iter → (g.node i).status = 2 → lt (g.node i).L INF = true →
    lt (g.node i).L bb.globalU = false

theorem nextScan_ok (h : Rep P bb g) :
    ∃ d cur, nextScan bb = .ok ({ bb with dive := d }, cur) ∧ NextPost bb g d cur := by
  have : Ok (loop 0 (bb.iter + 1) ((-1 : Int), (INF : F)) (nextStep bb)) (fun s =>
      NextPost bb g s.1 s.1) := by
    refine loop_ok (fun t s =>
      (s.1 = -1 ∧ s.2 = INF ∧ ∀ i, i < t → (g.node i).status = 2 → lt (g.node i).L INF = true →
        lt (g.node i).L bb.globalU = false) ∨
      (∃ k : Nat, s.1 = k ∧ k < t ∧ (g.node k).status = 2)) (Nat.zero_le _)
      (Or.inl ⟨rfl, rfl, fun i hi => absurd hi (by omega)⟩) ?_ ?_
    · intro t s _ ht hs
      unfold nextStep
      rw [h.hnodes.rd (by have := h.iter_lt; omega), ok_bind_eq, Ok_ite]
      refine ⟨fun hc => ?_, fun hc => ?_⟩
      · rw [Ok_pure]; exact Or.inr ⟨t, rfl, by omega, hc.1⟩
      · rw [Ok_pure]
        rcases hs with ⟨h1, h2, h3⟩ | ⟨k, h1, h2, h3⟩
        · refine Or.inl ⟨h1, h2, fun i hi hst hlt => ?_⟩
          by_cases hit : i = t
          · subst hit
            by_contra hcon
            exact hc ⟨hst, by rw [h2]; exact hlt, by simpa using hcon⟩
          · exact h3 i (by omega) hst hlt
        · exact Or.inr ⟨k, h1, by omega, h3⟩
    · rintro ⟨s1, s2⟩ hs
      simp only at hs
      rcases hs with ⟨h1, h2, h3⟩ | ⟨k, h1, h2, h3⟩
      · refine ⟨?_, ?_, ?_⟩
        · simp only; omega
        · intro h0; simp only at h0; omega
        · intro _ i hi; exact h3 i (by omega)
      · refine ⟨?_, ?_, ?_⟩
        · simp only; omega
        · intro h0; exact ⟨⟨h0, by simp only; omega⟩, k, h1, h3⟩
        · intro h0; simp only at h0; omega
  obtain ⟨s, e, hs⟩ := (Ok.def _ _).mp this
  refine ⟨s.1, s.1, ?_, hs⟩
  unfold nextScan
  rw [e]; rfl

theorem getNextNode_ok (h : Rep P bb g) (hd : 0 ≤ bb.dive ∧ bb.dive ≤ bb.iter) :
    ∃ d cur, getNextNode bb = .ok ({ bb with dive := d }, cur) ∧ NextPost bb g d cur := by
  unfold getNextNode
  split
  · obtain ⟨k, hk⟩ := Int.eq_ofNat_of_zero_le hd.1
    have hkm : k < P.stgs.maxit := by have := h.iter_lt; omega
    rw [hk, rdI_nat, h.hnodes.rd hkm, ok_bind_eq]
    split
    · next hc =>
      refine ⟨bb.dive, k, ?_, ⟨by omega, fun _ => ⟨hd, k, rfl, hc⟩, fun h0 => by omega⟩⟩
      rfl
    · exact nextScan_ok h
  · split
    · rw [h.hnodes.rd h.iter_lt, ok_bind_eq]
      split
      · next hc =>
        exact ⟨bb.dive, bb.iter, rfl, ⟨by omega, fun _ => ⟨hd, bb.iter, rfl, hc⟩, fun h0 => by omega⟩⟩
      · exact nextScan_ok h
    · exact nextScan_ok h

theorem SplitOk.left {nd : Node F} (h : SplitOk P G nd) : SplitOk P G (leftOf nd) :=
  ⟨h.lo, h.hi, h.hi, h.val, h.val⟩

theorem SplitOk.right {nd r : Node F} (h : SplitOk P G nd) (hr : SplitOk P G r) :
    SplitOk P G (rightOf nd r) := ⟨hr.lo, hr.hi, h.hi, hr.val, h.val⟩

theorem BPost.cutMono (h : BPost Rb T node bb g bb' g') (hc : T.cut bb.globalU) : T.cut bb'.globalU := by
  rcases h.less with h1 | h1
  · rw [h1]; exact hc
  · exact T.cut_mono h1 hc

theorem BPost.ltU (LL : LtLaws F) (h : BPost Rb T node bb g bb' g') {u : F}
    (hu : lt u bb.globalU = false) : lt u bb'.globalU = false := by
  rcases h.less with h1 | h1
  · rw [h1]; exact hu
  · by_contra hc
    have := LL.trans _ _ _ (by simpa using hc) h1
    rw [hu] at this; simp at this

/-- the tree after `get_bounds` -/
theorem BPost.tree (h : BPost Rb T node bb g bb' g') (hr : Rep P bb g) (hn : node ≤ bb.iter) (hlv : T.live) {D : Nat → Prop}
    (hD : ¬ D node) (ht : T.tree bb.iter g D) :
    ∃ D' : Nat → Prop, T.tree bb.iter g' D' ∧ (∀ i, D i → D' i) ∧ ((g'.node node).status = 2 → D' node) ∧ (∀ i, D' i → D i ∨ i = node) ∧
      (D' node ∨ ((g'.node node).U = (g'.node node).L ∨ lt bb.globalU (g'.node node).L = true)) := by
  have hne : ∀ i, D i → i ≠ node := fun i hi e => hD (e ▸ hi)
  rcases h.sel (T.treated hlv) with hs | ⟨h1, h2, h3, h4⟩
  · exact ⟨fun d => D d ∨ d = node, T.tree_bound hlv ht hn (fun j hj => hr.bids _ (hr.bpos hn hj).2) hs
      (fun d j _ hd hj => h.brows d j hd hj) (fun d j _ hd hj => h.irows d j hd hj) (fun d _ hd => h.others d hd),
      fun _ => Or.inl, fun _ => Or.inr rfl, fun _ => id, Or.inl (Or.inr rfl)⟩
  · refine ⟨D, T.tree_congr hlv ht (fun c j hc hj => ?_) (fun c j hc hj => ?_) (fun c _ hc => h.others c (hne c hc)), fun _ => id,
      fun h => by rw [h3] at h; exact absurd h (by decide), fun _ => Or.inl, Or.inr h4⟩
    · by_cases e : c = node
      · subst e; exact h1 j hj
      · exact h.brows c j e hj
    · by_cases e : c = node
      · subst e; exact h2 j hj
      · exact h.irows c j e hj

variable (H : Hyp P env G Gb bad Rb)
include H

theorem searchStep_ok (LL : LtLaws F) (SH : P.stgs.strategy = 1 → StrongHyp P env G Gb) (fuel : Nat)
    {cur : Int} (h : SInv Rb T cur bb g) (h0 : 0 ≤ cur) (hcont : shouldContinue bb cur = true)
    (hit : bb.iter + 1 < P.stgs.maxit) :
    Runs bad (searchStep env fuel cur bb) (fun r => r.1.iter = bb.iter + 1 ∧
      ∃ g', SInv Rb T r.2 r.1 g') := by
  obtain ⟨c, rfl⟩ := Int.eq_ofNat_of_zero_le h0
  have hc : c ≤ bb.iter := by have := h.cur_hi; omega
  unfold searchStep
  simp only [Int.toNat_natCast]
  rw [Runs_bind]
  have hsc := h.split c (by omega)
  refine (branch_ok (fun _ => H.floor _ hsc.val) (fun _ => H.ceil _ hsc.val) h.rep hc hit hsc.lo hsc.hi).mono ?_
  rintro bb1 ⟨g1, B⟩
  rw [Runs_bind]
  have hsc := h.split c (by omega)
  have hcne : c ≠ bb.iter + 1 := by omega
  have hU1 : ∀ i, i ≤ bb.iter + 1 → lt (g1.node i).U bb1.globalU = false := by
    intro i hi
    rw [B.gU]
    by_cases h1 : i = c
    · rw [h1, B.left]; exact h.nodeU c hc
    · by_cases h2 : i = bb.iter + 1
      · rw [h2, B.right]; exact h.nodeU c hc
      · rw [B.others i h1 h2]; exact h.nodeU i (by omega)
  have hS1 : ∀ i, i < P.stgs.maxit → SplitOk P G (g1.node i) := by
    intro i hi
    by_cases h1 : i = c
    · rw [h1, B.left]; exact hsc.left
    · by_cases h2 : i = bb.iter + 1
      · rw [h2, B.right]; exact hsc.right (h.split _ hit)
      · rw [B.others i h1 h2]; exact h.split i hi
  have hnum1 : T.num bb1.globalU := by rw [B.gU]; exact h.numU
  refine (getBounds_ok (T := T) H LL SH fuel B.rep (node := c) (by rw [B.iter]; omega)
    (hS1 c (by omega)) (hU1 c (by omega)) hnum1).mono ?_
  rintro bb2 ⟨g2, C1⟩
  rw [Runs_bind]
  have hi2 : bb2.iter = bb.iter + 1 := C1.iter.trans B.iter
  have e2 : g2.node (bb.iter + 1) = g1.node (bb.iter + 1) := C1.others _ (Ne.symm hcne)
  rw [hi2]
  refine (getBounds_ok (T := T) H LL SH fuel C1.rep (node := bb.iter + 1) (by rw [hi2])
    (by rw [e2]; exact hS1 _ hit) (by rw [e2]; exact C1.ltU LL (hU1 _ (by omega))) C1.numG).mono ?_
  rintro bb3 ⟨g3, C2⟩
  have hi3 : bb3.iter = bb.iter + 1 := C2.iter.trans hi2
  have hL3 : ∀ i, i ≤ bb3.iter → T.num (g3.node i).L := by
    intro i hi
    rw [hi3] at hi
    by_cases h2 : i = bb.iter + 1
    · rw [h2]; exact C2.numL
    · rw [C2.others i h2]
      by_cases h1 : i = c
      · rw [h1]; exact C1.numL
      · rw [C1.others i h1, B.others i h1 h2]; exact h.numL i (by omega)
  obtain ⟨gl, e4, hgl⟩ := getGlobalL_ok (T := T) C2.rep hL3
  rw [e4, ok_bind_eq]
  have r4 : Rep P { bb3 with globalL := gl } g3 := { C2.rep with }
  have hdive : bb3.dive = bb.dive := C2.dive.trans (C1.dive.trans B.dive)
  obtain ⟨d, cur', e5, N⟩ := getNextNode_ok r4 (by
    have := h.dive h0
    simp only; rw [hdive, hi3]; omega)
  rw [e5, Runs_ok]
  refine ⟨hi3, g3, ?_⟩
  have cutAll : T.cut bb.globalU → T.cut bb3.globalU := fun hcu =>
    C2.cutMono (C1.cutMono (by rw [B.gU]; exact hcu))
  have hcov : InRoot T → (∃ i, i ≤ bb3.iter ∧ T.box (g3.brow P i) (g3.irow P i) ∧ T.low (g3.node i).L ∧
      (g3.node i).status = 2) ∨ T.cut bb3.globalU := by
    intro hR
    rcases h.cover hR with ⟨i, hi, hb, hl, hst⟩ | hcu
    · by_cases hic : i = c
      · subst hic
        rcases B.cover T (h.split _ (by have := h.rep.iter_lt; omega)).val hb with h1 | h1
        · -- left child
          by_cases h3 : (g2.node i).status = 3
          · exact Or.inr (C2.cutMono (C1.closed h3 h1))
          · rcases C1.keep h1 with h2 | h2
            · refine Or.inl ⟨i, by omega, ?_, ?_, ?_⟩
              · exact T.congr h2 (fun j hj => C2.brows i j hcne hj) (fun j hj => C2.irows i j hcne hj)
              · rw [C2.others i hcne]; exact C1.low h1
              · rw [C2.others i hcne]
                rcases C1.status with h4 | h4
                · exact h4
                · exact absurd h4 h3
            · exact Or.inr (C2.cutMono (C1.cutMono h2))
        · -- right child
          have h1' : T.box (g2.brow P (bb.iter + 1)) (g2.irow P (bb.iter + 1)) :=
            T.congr h1 (fun j hj => C1.brows _ j (Ne.symm hcne) hj)
              (fun j hj => C1.irows _ j (Ne.symm hcne) hj)
          by_cases h3 : (g3.node (bb.iter + 1)).status = 3
          · exact Or.inr (C2.closed h3 h1')
          · rcases C2.keep h1' with h2 | h2
            · refine Or.inl ⟨bb.iter + 1, by omega, h2, C2.low h1', ?_⟩
              rcases C2.status with h4 | h4
              · exact h4
              · exact absurd h4 h3
            · exact Or.inr (C2.cutMono h2)
      · have hst2 : (g.node i).status = 2 := by
          rcases hst with h1 | h1
          · exact absurd (by exact_mod_cast h1) hic
          · exact h1
        have hin : i ≠ bb.iter + 1 := by omega
        have en : g3.node i = g.node i := by rw [C2.others i hin, C1.others i hic, B.others i hic hin]
        refine Or.inl ⟨i, by omega, ?_, by rw [en]; exact hl, by rw [en]; exact hst2⟩
        refine T.congr hb (fun j hj => ?_) (fun j hj => ?_)
        · rw [C2.brows i j hin hj, C1.brows i j hic hj, B.brows i j hi hic hj]
        · rw [C2.irows i j hin hj, C1.irows i j hic hj, B.irows i j hi hic hj]
    · exact Or.inr (cutAll hcu)
  have hnum3 : T.num bb3.globalU := C2.numG
  have htree3 : T.live → ∃ D : Nat → Prop, T.tree (bb.iter + 1) g3 D ∧ (∀ i, i ≤ bb.iter + 1 → (g3.node i).status = 2 → D i) ∧
      ∀ i, D i → i ≤ bb.iter + 1 := by
    intro hlv
    obtain ⟨D, d1, d2, d3, d4⟩ := h.tree hlv
    have t1 := T.tree_split hlv d1 hc (d3 c rfl hcont) B.rows (fun d j hd hdc hj => B.brows d j hd hdc hj)
      (fun d j hd hdc hj => B.irows d j hd hdc hj) (fun d hd hdc => B.others d hdc (by omega))
    rw [← B.iter] at t1
    obtain ⟨D1, a1, a2, a3, a4, -⟩ := C1.tree B.rep (by rw [B.iter]; omega) hlv (fun hx => hx.2.1 rfl) t1
    rw [← C1.iter] at a1
    obtain ⟨D2, b1, b2, b3, b4, -⟩ := C2.tree C1.rep (by rw [hi2]) hlv (fun hx => by
      rcases a4 _ hx with q | q
      · exact q.2.2 B.iter.symm
      · exact hcne q.symm) a1
    rw [hi2] at b1
    refine ⟨D2, b1, fun i hi hst => ?_, fun i hi => ?_⟩
    · by_cases h2 : i = bb.iter + 1
      · subst h2; exact b3 hst
      · rw [C2.others i h2] at hst
        refine b2 _ ?_
        by_cases h1 : i = c
        · subst h1; exact a3 hst
        · rw [C1.others i h1, B.others i h1 h2] at hst
          exact a2 _ ⟨d2 i (by omega) hst, h1, by rw [B.iter]; omega⟩
    · rcases b4 _ hi with q | q
      · rcases a4 _ q with q | q
        · have := d4 _ q.1; omega
        · omega
      · omega
  exact
    { rep := { r4 with }
      split := fun i hi => by
        by_cases h2 : i = bb.iter + 1
        · rw [h2]; exact C2.split
        · rw [C2.others i h2]
          by_cases h1 : i = c
          · rw [h1]; exact C1.split
          · rw [C1.others i h1]; exact hS1 i hi
      nodeU := fun i hi => by
        show lt (g3.node i).U bb3.globalU = false
        have hi' : i ≤ bb.iter + 1 := by rw [← hi3]; exact hi
        by_cases h2 : i = bb.iter + 1
        · rw [h2]; exact C2.nodeU
        · rw [C2.others i h2]
          by_cases h1 : i = c
          · rw [h1]; exact C2.ltU LL C1.nodeU
          · rw [C1.others i h1]; exact C2.ltU LL (C1.ltU LL (hU1 i hi'))
      numU := hnum3
      numL := hL3
      cover := fun hR => by
        rcases hcov hR with ⟨i, h1, h2, h3, h4⟩ | hcu
        · exact Or.inl ⟨i, h1, h2, h3, Or.inr h4⟩
        · exact Or.inr hcu
      gl := fun hR => by
        rcases hcov hR with ⟨i, h1, h2, h3, h4⟩ | hcu
        · exact Or.inl (hgl i h1 h3)
        · exact Or.inr hcu
      cur_hi := N.hi
      cur_neg := fun hneg hR => by
        rcases hcov hR with ⟨i, h1, h2, h3, h4⟩ | hcu
        · exact T.low_cut' h3 hnum3 (N.none hneg i h1 h4 (T.low_inf h3))
        · exact hcu
      dive := fun hc0 => (N.found hc0).1
      inc := fun hlt => by
        have hI : Incumbent P env Rb bb3 bb3.globalU := by
          refine C2.inc (fun hl2 => C1.inc (fun hl1 => ?_) hl2) hlt
          rw [B.gU] at hl1 ⊢
          exact (h.inc hl1).congr B.x B.y B.z B.s B.kap B.tau B.info
        exact hI.congr rfl rfl rfl rfl rfl rfl rfl
      tree := fun hlv => by
        show ∃ D : Nat → Prop, T.tree bb3.iter g3 D ∧ (∀ i, i ≤ bb3.iter → _) ∧ _
        obtain ⟨D, d1, d2, d3⟩ := htree3 hlv
        rw [hi3]
        refine ⟨D, d1, d2, fun k hk _ => ?_, d3⟩
        obtain ⟨-, k', hk', hst⟩ := N.found (by omega)
        obtain rfl : k = k' := by omega
        have := N.hi
        exact d2 k (by simp only at this; omega) hst }

theorem search_ok (LL : LtLaws F) (SH : P.stgs.strategy = 1 → StrongHyp P env G Gb) (fuel k : Nat)
    {cur : Int} (h : SInv Rb T cur bb g) (hk : P.stgs.maxit ≤ k + bb.iter + 1) :
    Runs bad (search env fuel k cur bb) (fun bb' => ∃ g' cur', SInv Rb T cur' bb' g' ∧
      shouldContinue bb' cur' = false) := by
  induction k generalizing bb g cur with
  | zero =>
    unfold search
    have hf : shouldContinue bb cur = false := by
      unfold shouldContinue
      rw [h.rep.stgs_eq]
      have : decide ((bb.iter : Int) < (P.stgs.maxit : Int) - 1) = false := by
        simp only [decide_eq_false_iff_not]; omega
      rw [this, Bool.and_false]
    rw [hf]
    exact ⟨g, cur, h, hf⟩
  | succ k ih =>
    unfold search
    rw [Runs_ite]
    refine ⟨fun hsc => ?_, fun hsc => ⟨g, cur, h, by simpa using hsc⟩⟩
    have hcont := hsc
    unfold shouldContinue at hsc
    simp only [Bool.and_eq_true, decide_eq_true_eq] at hsc
    rw [Runs_bind]
    have h2 := hsc.2
    rw [h.rep.stgs_eq] at h2
    refine (searchStep_ok (T := T) H LL SH fuel h hsc.1.2 hcont (by omega)).mono ?_
    rintro ⟨bb', cur'⟩ ⟨hi, g', h'⟩
    simp only at hi h'
    exact ih h' (by show _ ≤ k + bb'.iter + 1; omega)

omit H in
theorem initRoot_rep (h : Alloc P bb) {nf : Nat → Node F} (hn : Holds bb.nodes P.stgs.maxit nf) :
    ∃ bb' g, initRoot { bb with iter := 0, dive := 0 } = .ok bb' ∧ Rep P bb' g ∧
      g.node = upd nf 0 { nf 0 with status := MI_NOT_SOLVED, L := -INF, U := INF, prevSplitIdx := -1 } ∧
      (∀ i, i < P.nb → g.brow P 0 i = MI_STAR) ∧ (∀ i, i < 2 * P.ni → g.irow P 0 i = ((MAX_FLOAT_INT : Int) : F)) ∧
      ∃ ns b ii, bb' = { bb with iter := 0, dive := 0, nodes := ns, globalL := -INF, globalU := INF, boolIds := b, intIds := ii } := by
  unfold initRoot
  obtain ⟨ns, e1, h1⟩ := setNode_raw (bb := { bb with iter := 0, dive := 0 }) (k := 0) hn h.maxit_pos
    (fun nd => { nd with status := MI_NOT_SOLVED, L := -INF, U := INF, prevSplitIdx := -1 })
  rw [Nat.cast_zero] at e1
  rw [e1, ok_bind_eq]
  have hb : Ok (loop 0 bb.nb bb.boolIds (fun i b => wr b i MI_STAR)) (fun b =>
      HoldsOn b (P.stgs.maxit * P.nb) (fun k => k < P.nb) (fun _ => MI_STAR)) := by
    rw [h.nb_eq]
    refine loop_ok (fun t b => HoldsOn b (P.stgs.maxit * P.nb) (fun k => k < t) (fun _ => MI_STAR))
      (Nat.zero_le _) ⟨h.sbool, fun i _ hi => absurd hi (by omega)⟩ ?_ (fun s hs => hs)
    intro t b _ ht hb
    have htm : t < P.stgs.maxit * P.nb := by
      have := Nat.mul_le_mul_right P.nb (show 1 ≤ P.stgs.maxit from h.maxit_pos)
      omega
    refine (hb.wr htm _).mono fun b' hb' => hb'.congr fun j hj hjt => ?_
    by_cases hjt' : j = t
    · subst hjt'; exact ⟨Or.inr rfl, upd_self _ _ _⟩
    · exact ⟨Or.inl (by omega), upd_ne _ _ hjt'⟩
  obtain ⟨b, e2, h2⟩ := (Ok.def _ _).mp hb
  simp only
  rw [e2, ok_bind_eq]
  have hi : Ok (loop 0 bb.ni bb.intIds rootIntStep) (fun b =>
      HoldsOn b (2 * P.stgs.maxit * P.ni) (fun k => k < 2 * P.ni) (fun _ => ((MAX_FLOAT_INT : Int) : F))) := by
    rw [h.ni_eq]
    refine loop_ok (fun t b => HoldsOn b (2 * P.stgs.maxit * P.ni) (fun k => k < 2 * t)
      (fun _ => ((MAX_FLOAT_INT : Int) : F)))
      (Nat.zero_le _) ⟨h.sint, fun i _ hi => absurd hi (by omega)⟩ ?_ (fun s hs => hs)
    intro t b _ ht hb
    have htm : 2 * t + 1 < 2 * P.stgs.maxit * P.ni := by
      have := Nat.mul_le_mul_right P.ni (show 2 * 1 ≤ 2 * P.stgs.maxit from by have := h.maxit_pos; omega)
      omega
    unfold rootIntStep
    rw [Ok_bind]
    refine (hb.wr (show 2 * t < _ by omega) _).mono fun b1 hb1 => ?_
    refine (hb1.wr htm _).mono fun b' hb' => hb'.congr fun j hj hjt => ?_
    refine ⟨by omega, ?_⟩
    unfold upd
    split <;> [rfl; (split <;> rfl)]
  obtain ⟨ii, e3, h3⟩ := (Ok.def _ _).mp hi
  rw [e3, ok_bind_eq]
  refine ⟨_, ⟨_, fun _ => MI_STAR, fun _ => ((MAX_FLOAT_INT : Int) : F)⟩, rfl,
    { nb_eq := h.nb_eq, ni_eq := h.ni_eq, stgs_eq := h.stgs_eq, iter_lt := h.maxit_pos
      hnodes := h1
      hbool := h2.congr (fun k _ hk => ⟨by simpa using hk, rfl⟩)
      hint := h3.congr (fun k _ hk => ⟨by simp at hk; omega, rfl⟩)
      bids := fun k _ => Or.inl rfl
      iids := fun k _ => ⟨_, Or.inl rfl⟩
      hbv := h.hbv, hiv := h.hiv, bv_lt := h.bv_lt, iv_lt := h.iv_lt, m_ge := h.m_ge, hew := h.hew
      sx := h.sx, sy := h.sy, sz := h.sz, ss := h.ss, tmpB := h.tmpB, tmpI := h.tmpI, tbB := h.tbB
      tbI := h.tbI, pcBS := h.pcBS, pcIS := h.pcIS, pcBC := h.pcBC, pcIC := h.pcIC },
    rfl, fun _ _ => rfl, fun _ _ => rfl, _, _, _, rfl⟩

theorem initRoot_ok (h : Start P G bb) :
    ∃ bb' g, initRoot { bb with iter := 0, dive := 0 } = .ok bb' ∧ Rep P bb' g ∧ bb'.iter = 0 ∧
      bb'.dive = 0 ∧ bb'.globalU = INF ∧ (g.node 0).U = INF ∧
      (∀ i, i < P.stgs.maxit → SplitOk P G (g.node i)) ∧ (∀ i, i < P.nb → g.brow P 0 i = MI_STAR) ∧
      (∀ i, i < 2 * P.ni → g.irow P 0 i = ((MAX_FLOAT_INT : Int) : F)) ∧ bb'.ecos = bb.ecos ∧ bb'.globalL = -INF ∧
      (g.node 0).status = MI_NOT_SOLVED ∧ (g.node 0).L = -INF ∧ (g.node 0).prevSplitIdx = -1 := by
  obtain ⟨nf, hn, hS⟩ := h.nodes
  obtain ⟨bb', g, e, r, hg, hb, hi, ns, b, ii, rfl⟩ := initRoot_rep h.alloc hn
  refine ⟨_, g, e, r, rfl, rfl, rfl, ?_, fun i hi => ?_, hb, hi, rfl, rfl, ?_, ?_, ?_⟩
  · rw [hg, upd_self]
  · rw [hg]
    by_cases hi0 : i = 0
    · subst hi0
      rw [upd_self]
      have := hS 0 hi
      exact ⟨this.lo, this.hi, by simp only; omega, this.val, this.pval⟩
    · rw [upd_ne _ _ hi0]; exact hS i hi
  all_goals rw [hg, upd_self]

/-- the invariant of the main loop after the root has been solved -/
theorem rootInv (LL : LtLaws F) {b0 b1 : St F W I} {g0 g1 : Gh F} (r0 : Rep P b0 g0) (hi0 : b0.iter = 0) (hd0 : b0.dive = 0)
    (hU0 : b0.globalU = INF) (hn0 : (g0.node 0).U = INF) (hS0 : ∀ i, i < P.stgs.maxit → SplitOk P G (g0.node i))
    (hb0 : ∀ i, i < P.nb → g0.brow P 0 i = MI_STAR) (hj0 : ∀ i, i < 2 * P.ni → g0.irow P 0 i = ((MAX_FLOAT_INT : Int) : F))
    (C : BPost Rb T 0 b0 g0 b1 g1) :
    SInv Rb T 0 { b1 with globalL := (g1.node 0).L, globalU := (g1.node 0).U } g1 := by
  have hi1 : b1.iter = 0 := C.iter.trans hi0
  have hR : InRoot T → T.box (g0.brow P 0) (g0.irow P 0) := fun hr =>
    T.congr hr (fun j hj => hb0 j hj) (fun j hj => hj0 j hj)
  exact
    { rep := { C.rep with }
      split := fun i hi => by
        by_cases hi0 : i = 0
        · rw [hi0]; exact C.split
        · rw [C.others i hi0]; exact hS0 i hi
      nodeU := fun i hi => by
        have : i = 0 := by simp only at hi; omega
        subst this; exact LL.irrefl _
      numU := C.numU (by rw [hn0]; exact T.num_inf)
      numL := fun i hi => by
        have : i = 0 := by simp only at hi; omega
        subst this; exact C.numL
      cover := fun hr => by
        rcases C.keep (hR hr) with h1 | h1
        · exact Or.inl ⟨0, Nat.zero_le _, h1, C.low (hR hr), Or.inl rfl⟩
        · rw [hU0] at h1; exact absurd h1 T.cut_inf
      gl := fun hr => Or.inl (C.low (hR hr))
      cur_hi := by simp only; omega
      cur_neg := fun h => by omega
      dive := fun _ => by simp only; rw [C.dive, hd0, hi1]; omega
      inc := fun hlt => by
        simp only at hlt ⊢
        have hu := C.rootU hn0 hU0 hlt
        have := C.inc (fun h => by rw [hU0, LL.irrefl] at h; simp at h) (by rw [hu]; exact hlt)
        rw [hu] at this
        exact this.congr rfl rfl rfl rfl rfl rfl rfl
      tree := fun hlv => by
        have t0 := T.tree_root hlv hb0 hj0
        rw [← hi0] at t0
        obtain ⟨D, d1, -, d2, d3, d4⟩ := C.tree r0 (by omega) hlv id t0
        show ∃ D : Nat → Prop, T.tree b1.iter g1 D ∧ (∀ i, i ≤ b1.iter → _) ∧ _
        rw [hi0] at d1
        rw [hi1]
        refine ⟨D, d1, fun i hi hst => ?_, fun k hk hcont => ?_, fun i hi => ?_⟩
        · obtain rfl : i = 0 := by omega
          exact d2 hst
        · obtain rfl : k = 0 := by omega
          rcases d4 with h | h | h
          · exact h
          · exfalso
            unfold shouldContinue at hcont
            simp only [Bool.and_eq_true] at hcont
            have h1 := hcont.1.1.1
            rw [h, C.rep.stgs_eq, T.gap hlv C.numL] at h1
            simp at h1
          · rw [hU0, LL.inf_top] at h; simp at h
        · rcases d3 i hi with q | q
          · exact q.elim
          · omega }

/-- the whole search -/
theorem bbSolve_ok (LL : LtLaws F) (SH : P.stgs.strategy = 1 → StrongHyp P env G Gb) (T : Pt P env G)
    (fuel : Nat) (h : Start P G bb) :
    Runs bad (bbSolve env fuel bb) (fun r => ∃ bb' g' cur', SInv Rb T cur' bb' g' ∧
      shouldContinue bb' cur' = false ∧ r = (loaded bb', getRetCode bb')) := by
  unfold bbSolve
  obtain ⟨b0, g0, e0, r0, hi0, hd0, hU0, hn0, hS0, hb0, hj0, -⟩ := initRoot_ok H h
  rw [e0, ok_bind_eq, Runs_bind]
  refine (getBounds_ok (T := T) H LL SH fuel r0 (node := 0) (Nat.zero_le _) (hS0 0 h.maxit_pos)
    (by rw [hn0]; exact LL.inf_top _) (by rw [hU0]; exact T.num_inf)).mono ?_
  rintro b1 ⟨g1, C⟩
  rw [C.rep.hnodes.rd h.maxit_pos, ok_bind_eq, Runs_bind]
  have hi1 : b1.iter = 0 := C.iter.trans hi0
  have hinv := rootInv H LL r0 hi0 hd0 hU0 hn0 hS0 hb0 hj0 C
  refine (search_ok (T := T) H LL SH fuel _ hinv (by simp only; rw [C.rep.stgs_eq]; omega)).mono ?_
  rintro b2 ⟨g2, cur', hI, hs⟩
  obtain ⟨hf, he⟩ := hI.rep.hew
  rw [loadSolution_ok hI.rep he, ok_bind_eq, Runs_pure]
  exact ⟨b2, g2, cur', hI, hs, rfl⟩

end BB
end Ecos
