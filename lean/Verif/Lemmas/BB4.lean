import Verif.Lemmas.BB3

/-! # Branch and bound: bounds of a node -/
set_option linter.unusedSectionVars false
set_option linter.unusedSimpArgs false
set_option linter.unusedVariables false

namespace Ecos
namespace BB

variable {F : Type} [Zero F] [One F] [Add F] [Sub F] [Mul F] [Div F] [Neg F] [OfScientific F]
  [IntCast F] [PFloat F] [HasInf F] {W I : Type}
variable {P : Par F W} {env : Env F W I} {G Gb : F → Prop} {bad : UB → Prop} {Rb : Int → Prop}
variable {T : Pt P env G} {node : Nat} {bb bb1 bb2 bb' : St F W I} {g g1 g2 g' : Gh F}

theorem cpAll_ok {α : Type} {src dst : Buf α} {n : Nat} (hs : src.size = n) (hd : dst.size = n) :
    cpAll src dst n = .ok src := by
  have : Ok (cpAll src dst n) (fun b => b = src) := by
    unfold cpAll
    refine loop_ok (fun t (b : Buf α) => b.size = n ∧ ∀ i, i < t → b[i]? = src[i]?) (Nat.zero_le _)
      ⟨hd, fun i hi => absurd hi (by omega)⟩ ?_ ?_
    · rintro t b _ ht ⟨hb, hc⟩
      unfold cp
      have h1 : src[t]? = some src[t] := by simp [hs, ht]
      rw [h1]
      simp only
      rw [if_pos (by rw [hb]; exact ht), Ok_ok]
      refine ⟨by simp [hb], fun i hi => ?_⟩
      by_cases hit : i = t
      · subst hit; simp [hb, ht, hs]
      · rw [Array.getElem?_setIfInBounds_ne (Ne.symm hit)]
        exact hc i (by omega)
    · rintro b ⟨hb, hc⟩
      apply Array.ext_getElem?
      intro i
      by_cases hi : i < n
      · exact hc i hi
      · rw [Array.getElem?_eq_none (by omega), Array.getElem?_eq_none (by omega)]
  obtain ⟨b, e, rfl⟩ := (Ok.def _ _).mp this
  exact e

/-- result of `store_solution` -/
def stored (bb : St F W I) : St F W I :=
  { bb with
    x := bb.ecos.x, y := bb.ecos.y, z := bb.ecos.z, s := bb.ecos.s
    kap := bb.ecos.kap, tau := bb.ecos.tau, info := bb.ecos.info }

/-- result of `load_solution` -/
def loaded (bb : St F W I) : St F W I :=
  { bb with ecos := { bb.ecos with
                      x := bb.x, y := bb.y, z := bb.z, s := bb.s
                      kap := bb.kap, tau := bb.tau, info := bb.info } }

theorem storeSolution_ok (h : Rep P bb g) {hf} (he : EWF P bb.ecos hf) :
    storeSolution bb = .ok (stored bb) ∧
    Rep P (stored bb) g := by
  refine ⟨?_, { h with sx := he.sx, sy := he.sy, sz := he.sz, ss := he.ss }⟩
  unfold storeSolution
  rw [he.hn, he.hp, he.hm, cpAll_ok he.sx h.sx, ok_bind_eq, cpAll_ok he.sy h.sy, ok_bind_eq,
    cpAll_ok he.sz h.sz, ok_bind_eq, cpAll_ok he.ss h.ss, ok_bind_eq]
  rfl

theorem loadSolution_ok (h : Rep P bb g) {hf} (he : EWF P bb.ecos hf) :
    loadSolution bb = .ok (loaded bb) := by
  unfold loadSolution
  rw [he.hn, he.hp, he.hm, cpAll_ok h.sx he.sx, ok_bind_eq, cpAll_ok h.sy he.sy, ok_bind_eq,
    cpAll_ok h.sz he.sz, ok_bind_eq, cpAll_ok h.ss he.ss, ok_bind_eq]
  rfl

theorem pfRound_int {y r : F} (h : pfRound y = .ok r) : ∃ k : Int, r = (k : F) := by
  unfold pfRound at h
  split at h
  · cases hc : castInt (y + 0.5) with
    | error e => rw [hc] at h; simp at h
    | ok k => rw [hc, ok_bind_eq] at h; exact ⟨k, by cases h; rfl⟩
  · cases hc : castInt (y - 0.5) with
    | error e => rw [hc] at h; simp at h
    | ok k => rw [hc, ok_bind_eq] at h; exact ⟨k, by cases h; rfl⟩

theorem Incumbent.congr {U : F} (h : Incumbent P env Rb bb U) (hx : bb'.x = bb.x) (hy : bb'.y = bb.y)
    (hz : bb'.z = bb.z) (hs : bb'.s = bb.s) (hk : bb'.kap = bb.kap) (ht : bb'.tau = bb.tau)
    (hi : bb'.info = bb.info) : Incumbent P env Rb bb' U := by
  obtain ⟨e, e', hf, code, xf, h1, h2, h3, h4, h5, h6, h7, h8, h9, h10, h11⟩ := h
  exact ⟨e, e', hf, code, xf, h1, h2, h3, hx.trans h4, hy.trans h5, hz.trans h6, hs.trans h7,
    hk.trans h8, ht.trans h9, hi.trans h10, h11⟩

/-- `updIncumbent` followed by `closeNode` -/
theorem finish_ok (h : Rep P bb g) (hn : node ≤ bb.iter) {hf} (he : EWF P bb.ecos hf)
    (viable : Bool)
    (hU : lt (g.node node).U bb.globalU = true → Incumbent P env Rb (stored bb) (g.node node).U) :
    ∃ bb1 bb' nd', updIncumbent bb node = .ok bb1 ∧ closeNode bb1 node viable = .ok bb' ∧
      Rep P bb' { g with node := upd g.node node nd' } ∧ bb'.iter = bb.iter ∧ bb'.dive = bb.dive ∧
      bb'.globalU = (if lt (g.node node).U bb.globalU then (g.node node).U else bb.globalU) ∧
      (nd' = { g.node node with
                U := if viable then INF else (g.node node).U
                status := if lt bb'.globalU (g.node node).L then 3 else (g.node node).status }) ∧
      (lt (g.node node).U bb.globalU = true → Incumbent P env Rb bb' bb'.globalU) ∧
      (lt (g.node node).U bb.globalU = false → Incumbent P env Rb bb bb.globalU →
        Incumbent P env Rb bb' bb'.globalU) := by
  have hm : node < P.stgs.maxit := by have := h.iter_lt; omega
  have h1 : ∃ bb1, updIncumbent bb node = .ok bb1 ∧ Rep P bb1 g ∧ bb1.iter = bb.iter ∧
      bb1.dive = bb.dive ∧
      bb1.globalU = (if lt (g.node node).U bb.globalU then (g.node node).U else bb.globalU) ∧
      (lt (g.node node).U bb.globalU = true → Incumbent P env Rb bb1 bb1.globalU) ∧
      (lt (g.node node).U bb.globalU = false → Incumbent P env Rb bb bb.globalU →
        Incumbent P env Rb bb1 bb1.globalU) := by
    unfold updIncumbent
    rw [h.hnodes.rd hm, ok_bind_eq]
    by_cases hc : lt (g.node node).U bb.globalU = true
    · rw [if_pos hc]
      obtain ⟨e1, r1⟩ := storeSolution_ok h he
      rw [e1, ok_bind_eq]
      refine ⟨_, rfl, { r1 with }, rfl, rfl, by rw [if_pos hc], fun _ => ?_, fun h => by simp [hc] at h⟩
      exact (hU hc).congr rfl rfl rfl rfl rfl rfl rfl
    · rw [if_neg hc]
      exact ⟨bb, rfl, h, rfl, rfl, by rw [if_neg hc], fun h => absurd h hc, fun _ h => h⟩
  obtain ⟨bb1, e1, r1, a1, a2, a3, a4, a5⟩ := h1
  have hn1 : node ≤ bb1.iter := by omega
  have h2 : ∃ ns, (if viable = true then setNode bb1 (node : Int) (fun nd => { nd with U := INF }) else pure bb1) =
      .ok { bb1 with nodes := ns } ∧ Rep P { bb1 with nodes := ns }
        { g with node := upd g.node node { g.node node with U := if viable then INF else (g.node node).U } } := by
    cases viable with
    | true =>
      obtain ⟨ns, e, r⟩ := setNode_ok r1 hm (fun nd => { nd with U := INF })
      exact ⟨ns, by simpa using e, by simpa using r⟩
    | false =>
      refine ⟨bb1.nodes, rfl, ?_⟩
      have : upd g.node node (g.node node) = g.node := by
        funext j; unfold upd; split <;> simp_all
      simpa [this] using r1
  obtain ⟨ns, e2, r2⟩ := h2
  by_cases hc : lt bb1.globalU (g.node node).L = true
  · obtain ⟨ns', e3, r3⟩ := setNode_ok r2 hm (fun nd => { nd with status := MI_SOLVED_NON_BRANCHABLE })
    refine ⟨bb1, { bb1 with nodes := ns' }, _, e1, ?_, ?_, a1, a2, a3, rfl, fun h => (a4 h).congr rfl rfl rfl rfl rfl rfl rfl,
      fun h h' => (a5 h h').congr rfl rfl rfl rfl rfl rfl rfl⟩
    · unfold closeNode
      rw [e2, ok_bind_eq, r2.hnodes.rd hm, ok_bind_eq]
      simp only [upd_self, hc, if_true]
      exact e3
    · refine r3.congr ?_ rfl rfl
      simp only [upd_self]
      funext j
      unfold upd
      by_cases hj : j = node
      · simp [hj, hc, MI_SOLVED_NON_BRANCHABLE]
      · simp [hj]
  · refine ⟨bb1, { bb1 with nodes := ns }, _, e1, ?_, ?_, a1, a2, a3, rfl, fun h => (a4 h).congr rfl rfl rfl rfl rfl rfl rfl,
      fun h h' => (a5 h h').congr rfl rfl rfl rfl rfl rfl rfl⟩
    · unfold closeNode
      rw [e2, ok_bind_eq, r2.hnodes.rd hm, ok_bind_eq]
      simp only [upd_self, hc]
      rfl
    · refine r2.congr ?_ rfl rfl
      simp [hc]

/-- What `get_bounds` does. -/
structure BPost (Rb : Int → Prop) (T : Pt P env G) (node : Nat) (bb : St F W I) (g : Gh F)
    (bb' : St F W I) (g' : Gh F) : Prop where
  rep : Rep P bb' g'
  iter : bb'.iter = bb.iter
  dive : bb'.dive = bb.dive
  others : ∀ k, k ≠ node → g'.node k = g.node k
  brows : ∀ k i, k ≠ node → i < P.nb → g'.brow P k i = g.brow P k i
  irows : ∀ k i, k ≠ node → i < 2 * P.ni → g'.irow P k i = g.irow P k i
  split : SplitOk P G (g'.node node)
  keep : T.box (g.brow P node) (g.irow P node) →
    T.box (g'.brow P node) (g'.irow P node) ∨ T.cut bb.globalU
  less : bb'.globalU = bb.globalU ∨ lt bb'.globalU bb.globalU = true
  low : T.box (g.brow P node) (g.irow P node) → T.low (g'.node node).L
  numL : T.num (g'.node node).L
  numU : T.num (g.node node).U → T.num (g'.node node).U
  numG : T.num bb'.globalU
  status : (g'.node node).status = 2 ∨ (g'.node node).status = 3
  closed : (g'.node node).status = 3 → T.box (g.brow P node) (g.irow P node) → T.cut bb'.globalU
  nodeU : lt (g'.node node).U bb'.globalU = false
  rootU : (g.node node).U = INF → bb.globalU = INF → lt (g'.node node).U INF = true →
    bb'.globalU = (g'.node node).U
  openU : (∀ code xf, Trial P env (g.brow P node) (g.irow P node) code xf → accepted code = true → ¬ IntegralX P xf) →
    (g.node node).U = INF → (g'.node node).U = INF
  inc : (lt bb.globalU INF = true → Incumbent P env Rb bb bb.globalU) →
    lt bb'.globalU INF = true → Incumbent P env Rb bb' bb'.globalU
  sel : Treated P → Settled P env node g g' ∨
    ((∀ i, i < P.nb → g'.brow P node i = g.brow P node i) ∧ (∀ i, i < 2 * P.ni → g'.irow P node i = g.irow P node i) ∧
      (g'.node node).status = 3 ∧ ((g'.node node).U = (g'.node node).L ∨ lt bb.globalU (g'.node node).L = true))

variable (H : Hyp P env G Gb bad Rb)
include H

theorem NonInt.fractional (SH : StrongHyp P env G Gb) {xf : Nat → F} (hN : NonInt P xf)
    (g1 : ∀ i, i < P.nb → Gb (xf (P.bv i))) (g2 : ∀ i, i < P.ni → G (xf (P.iv i))) :
    ∃ i, i < P.nb + P.ni ∧ ∀ t, isIntegral P.stgs.intTol (xf (vr P i)) = .ok t → t = false := by
  rcases hN with ⟨i, hi, r, k, h1, h2, h3⟩ | ⟨i, hi, r, h1, h3⟩
  · refine ⟨i, by omega, fun t ht => ?_⟩
    unfold vr at ht
    rw [if_pos hi] at ht
    exact SH.fracB _ r k (g1 i hi) h1 h2 h3 t ht
  · refine ⟨i + P.nb, by omega, fun t ht => ?_⟩
    unfold vr at ht
    rw [if_neg (by omega), Nat.add_sub_cancel] at ht
    exact SH.fracI _ r (g2 i hi) h1 h3 t ht

theorem roundAll_ok (h : Rep P bb g) {xf : Nat → F} (hx : Holds bb.ecos.x P.n xf)
    (g1 : ∀ i, i < P.nb → Gb (xf (P.bv i))) (g2 : ∀ i, i < P.ni → G (xf (P.iv i))) :
    Runs bad (roundAll bb) (fun r => ∃ tb ti tf jf, r.1 = { bb with tmpBool := tb, tmpInt := ti } ∧
      Holds tb P.nb tf ∧ Holds ti (2 * P.ni) jf ∧ (∀ i, i < P.nb → Rb (tf i)) ∧
      (∀ i, i < P.ni → ∃ k : Int, jf (2 * i) = -(k : F) ∧ jf (2 * i + 1) = (k : F)) ∧
      (r.2 = true → IntegralX P xf) ∧ (r.2 = false → NonInt P xf)) := by
  unfold roundAll
  rw [Runs_bind, h.nb_eq]
  refine loop_runs (fun t s => ∃ tf, HoldsOn s.1 P.nb (fun k => k < t) tf ∧ (∀ i, i < t → Rb (tf i)) ∧
      (s.2 = true → ∀ i, i < t → ∃ k : Int, floatEqls (xf (P.bv i)) (k : F) P.stgs.intTol = true) ∧
      (s.2 = false → NonInt P xf)) (Nat.zero_le _)
    ⟨fun _ => 0, ⟨h.tmpB, fun i _ h => absurd h (by omega)⟩, fun i hi => absurd hi (by omega),
      fun _ i hi => absurd hi (by omega), fun hc => by simp at hc⟩ ?_ ?_
  · rintro t s _ ht ⟨tf, hb, hR, hT, hN⟩
    unfold roundBoolStep
    rw [h.hbv.rd ht, ok_bind_eq, hx.rd (h.bv_lt t ht), ok_bind_eq]
    have hr := H.roundb _ (g1 t ht)
    have h1 : Runs bad (pfRound (xf (P.bv t))) (fun _ => True) := hr.mono (fun _ _ => trivial)
    refine pf_ok H h1 fun r hr1 => ?_
    have hc := hr.out hr1
    have h2 : Runs bad (castChar r) (fun _ => True) := hc.mono (fun _ _ => trivial)
    refine pf_ok H h2 fun k hk => ?_
    have hRk := hc.out hk
    rw [Runs_bind]
    refine Ok.runs ((hb.wr ht k).mono fun b' hb' => ?_)
    rw [Runs_pure, h.stgs_eq]
    refine ⟨_, hb'.congr (g := upd tf t k) (fun j hj hjt => ⟨by omega, rfl⟩), fun i hi => ?_, ?_, ?_⟩
    · unfold upd; split
      · exact hRk
      · exact hR i (by omega)
    · intro hc2 i hi
      simp only [Bool.and_eq_true] at hc2
      by_cases hit : i = t
      · subst hit; exact ⟨k, hc2.2⟩
      · exact hT hc2.1 i (by omega)
    · intro hc2
      simp only [Bool.and_eq_false_iff] at hc2
      rcases hc2 with hc2 | hc2
      · exact hN hc2
      · exact Or.inl ⟨t, ht, r, k, hr1, hk, hc2⟩
  · rintro s ⟨tf, hb, hR, hT, hN⟩
    rw [Runs_bind, h.ni_eq]
    refine loop_runs (fun t u => ∃ jf, HoldsOn u.1 (2 * P.ni) (fun k => k < 2 * t) jf ∧
        (∀ i, i < t → ∃ k : Int, jf (2 * i) = -(k : F) ∧ jf (2 * i + 1) = (k : F)) ∧
        (u.2 = true → (∀ i, i < P.nb → ∃ k : Int, floatEqls (xf (P.bv i)) (k : F) P.stgs.intTol = true) ∧
          ∀ i, i < t → ∃ k : Int, floatEqls (xf (P.iv i)) (k : F) P.stgs.intTol = true) ∧
        (u.2 = false → NonInt P xf)) (Nat.zero_le _)
      ⟨fun _ => 0, ⟨h.tmpI, fun i _ h => absurd h (by omega)⟩, fun i hi => absurd hi (by omega),
        fun hc => ⟨fun i hi => hT hc i hi, fun i hi => absurd hi (by omega)⟩, hN⟩ ?_ ?_
    · rintro t u _ ht ⟨jf, hj, hK, hT2, hN2⟩
      unfold roundIntStep
      rw [h.hiv.rd ht, ok_bind_eq, hx.rd (h.iv_lt t ht), ok_bind_eq]
      refine pf_ok H (H.round _ (g2 t ht)) fun r hr1 => ?_
      rw [Runs_bind]
      refine Ok.runs ((hj.wr (show 2 * t + 1 < 2 * P.ni by omega) r).mono fun b1 hb1 => ?_)
      rw [Runs_bind]
      refine Ok.runs ((hb1.wr (show 2 * t < 2 * P.ni by omega) (-r)).mono fun b2 hb2 => ?_)
      rw [Runs_pure, h.stgs_eq]
      obtain ⟨k, rfl⟩ := pfRound_int hr1
      refine ⟨_, hb2.congr (g := upd (upd jf (2 * t + 1) (k : F)) (2 * t) (-(k : F)))
        (fun j hj hjt => ⟨by omega, rfl⟩), fun i hi => ?_, ?_, ?_⟩
      · by_cases hit : i = t
        · subst hit
          exact ⟨k, by rw [upd_self], by rw [upd_ne _ _ (by omega), upd_self]⟩
        · obtain ⟨k', h1, h2⟩ := hK i (by omega)
          refine ⟨k', ?_, ?_⟩
          · rw [upd_ne _ _ (by omega), upd_ne _ _ (by omega)]; exact h1
          · rw [upd_ne _ _ (by omega), upd_ne _ _ (by omega)]; exact h2
      · intro hc2
        simp only [Bool.and_eq_true] at hc2
        refine ⟨(hT2 hc2.1).1, fun i hi => ?_⟩
        by_cases hit : i = t
        · subst hit; exact ⟨k, hc2.2⟩
        · exact (hT2 hc2.1).2 i (by omega)
      · intro hc2
        simp only [Bool.and_eq_false_iff] at hc2
        rcases hc2 with hc2 | hc2
        · exact hN2 hc2
        · exact Or.inr ⟨t, ht, _, hr1, hc2⟩
    · rintro u ⟨jf, hj, hK, hT2, hN2⟩
      rw [Runs_pure]
      exact ⟨s.1, u.1, tf, jf, rfl, hb.full (fun i hi => hi), hj.full (fun i hi => by omega), hR, hK,
        fun hc => ⟨(hT2 hc).1, (hT2 hc).2⟩, hN2⟩

theorem pseudoUpdate_ok (h : Rep P bb g) (hn : node ≤ bb.iter) (hS : SplitOk P G (g.node node)) :
    Runs bad (pseudoUpdate bb node) (fun bb' => Rep P bb' g ∧ PcOnly bb bb') := by
  unfold pseudoUpdate
  rw [h.hnodes.rd (show node < P.stgs.maxit by have := h.iter_lt; omega), ok_bind_eq, Runs_ite]
  refine ⟨fun hp => ?_, fun _ => ⟨h, ⟨Same.refl _, rfl, rfl, rfl, rfl, rfl, rfl⟩⟩⟩
  have h1 : (g.node node).prevSplitIdx.toNat < P.nb + P.ni := by have := hS.prev; omega
  rw [h.stgs_eq]
  split
  · rw [bind_assoc]
    refine pf_ok H (H.ceil _ hS.pval) fun ce _ => ?_
    rw [pure_bind]
    obtain ⟨b, e, r, p⟩ := bumpVar_ok H h h1 (show 1 < 2 by omega)
      (((g.node node).relaxation - (g.node node).prevRelaxation) / (ce - (g.node node).prevSplitVal))
    simp only [*]
    exact ⟨r, p⟩
  · rw [bind_assoc]
    refine pf_ok H (H.floor _ hS.pval) fun fl _ => ?_
    rw [pure_bind]
    obtain ⟨b, e, r, p⟩ := bumpVar_ok H h h1 (show 0 < 2 by omega)
      (((g.node node).relaxation - (g.node node).prevRelaxation) / ((g.node node).prevSplitVal - fl))
    simp only [*]
    exact ⟨r, p⟩

theorem getBounds_ok (LL : LtLaws F) (SH : P.stgs.strategy = 1 → StrongHyp P env G Gb) (fuel : Nat)
    (h : Rep P bb g) (hn : node ≤ bb.iter) (hS : SplitOk P G (g.node node))
    (hU : lt (g.node node).U bb.globalU = false) (hnum : T.num bb.globalU) :
    Runs bad (getBounds env fuel node bb) (fun bb' => ∃ g', BPost Rb T node bb g bb' g') := by
  have hm : node < P.stgs.maxit := by have := h.iter_lt; omega
  unfold getBounds
  obtain ⟨bb1, e1, hcs⟩ :=
    probSolve_ok H.con h (bids := bb.boolIds) (boff := P.nb * node) (iids := bb.intIds)
      (ioff := P.ni * node * 2) (bf := g.brow P node) (jf := g.irow P node)
      (fun i hi => h.rd_bid hn hi) (fun i hi => h.rd_iid hn hi) (fun _ => h.rowInt hn)
  rw [← h.nb_eq, ← h.ni_eq] at e1
  rw [e1, ok_bind_eq]
  rcases hcs with ⟨u, e0, hu⟩ | ⟨e', code, xf, hf, e2, ⟨e, he, e3⟩, w, hr, hx, g1, g2⟩
  · rw [e0]; exact hu
  rw [e2, ok_bind_eq]
  have htr : Trial P env (g.brow P node) (g.irow P node) code xf := ⟨hf, hr, e, e', he, e3, hx⟩
  have r1 : Rep P { bb with ecos := e' } g := h.ecos w
  have hbids : ∀ i, i < P.nb → g.brow P node i = -1 ∨ g.brow P node i = 0 ∨ g.brow P node i = 1 :=
    fun j hj => h.bids _ (h.bpos hn hj).2
  have hiids : ∀ i, i < 2 * P.ni → IntVal (g.irow P node i) := fun j hj => h.iids _ (h.ipos hn hj).2
  simp only [Runs_ite]
  refine ⟨fun hacc => ?_, fun hacc => ?_⟩
  · have g1b := H.con.solveB _ _ _ _ hbids htr hacc
    obtain ⟨cf, hcf, hcost⟩ := cost_ok (bb := { bb with ecos := e' }) w hx rfl
    rw [hcost, ok_bind_eq]
    obtain ⟨ns, e4, r2⟩ := setNode_ok r1 hm (fun nd => { nd with L := dotF P.n xf cf })
    rw [e4, ok_bind_eq]
    simp only [Runs_ite]
    refine ⟨fun hc => ?_, fun hc => ?_⟩
    · obtain ⟨ns', e5, r3⟩ := setNode_ok r2 hm (fun nd => { nd with status := MI_SOLVED_NON_BRANCHABLE })
      rw [e5, Runs_ok]
      exact ⟨_,
        { rep := r3
          iter := rfl
          dive := rfl
          others := fun k hk => by simp [upd, hk]
          brows := fun _ _ _ _ => rfl
          irows := fun _ _ _ _ => rfl
          split := by simp only [upd_self]; exact ⟨hS.lo, hS.hi, hS.prev, hS.val, hS.pval⟩
          keep := Or.inl
          less := Or.inl rfl
          low := fun hb => by simp only [upd_self]; exact (T.trial hb htr hcf).2
          numL := by simp only [upd_self]; exact T.trialNum htr hcf
          numU := by simp only [upd_self]; exact id
          numG := hnum
          status := by simp [upd_self, MI_SOLVED_NON_BRANCHABLE]
          closed := fun _ hb => T.low_cut (T.trial hb htr hcf).2 hc
          nodeU := by simp only [upd_self]; exact hU
          rootU := fun h1 h2 h3 => by simp only [upd_self] at h3 ⊢; exact h2.trans h1.symm
          openU := fun _ h => by simp only [upd_self]; exact h
          inc := fun h1 h2 => (h1 h2).congr rfl rfl rfl rfl rfl rfl rfl
          sel := fun _ => Or.inr ⟨fun _ _ => rfl, fun _ _ => rfl, by
            simp only [upd_self]; exact ⟨rfl, Or.inr hc⟩⟩ }⟩
    · -- the solved case
      unfold boundsSolved
      obtain ⟨ns2, e5, r3⟩ := setNode_ok r2 hm (fun nd => { nd with relaxation := dotF P.n xf cf })
      rw [e5, ok_bind_eq, Runs_bind]
      have hS3 : SplitOk P G ((upd (upd g.node node { g.node node with L := dotF P.n xf cf }) node
          { g.node node with L := dotF P.n xf cf, relaxation := dotF P.n xf cf }) node) := by
        simp only [upd_self]; exact ⟨hS.lo, hS.hi, hS.prev, hS.val, hS.pval⟩
      simp only [upd_self] at r3
      refine (pseudoUpdate_ok H r3 hn hS3).mono ?_
      rintro bbp ⟨rp, pc⟩
      have hbx : Holds bbp.ecos.x P.n xf := by rw [pc.ecos]; exact hx
      rw [Runs_bind]
      refine (roundAll_ok H rp hbx g1b g2).mono ?_
      rintro ⟨bbq, flag⟩ ⟨tb, ti, tf, jf, hbq, htb, hti, hRb, hK, hT, hN⟩
      simp only at hbq hT hN
      have rq : Rep P { bbp with tmpBool := tb, tmpInt := ti } _ :=
        { rp with tmpB := htb.1, tmpI := hti.1 }
      rw [← hbq] at rq
      have hecq : bbq.ecos = e' := by rw [hbq]; exact pc.ecos
      have hgU : bbq.globalU = bb.globalU := by rw [hbq]; exact pc.same.gU
      have hitq : bbq.iter = bb.iter := by rw [hbq]; exact pc.same.iter
      have hdvq : bbq.dive = bb.dive := by rw [hbq]; exact pc.same.dive
      have hincq : ∀ {U}, Incumbent P env Rb bb U → Incumbent P env Rb bbq U := fun hI => by
        rw [hbq]
        exact hI.congr pc.same.x pc.same.y pc.same.z pc.same.s pc.same.kap pc.same.tau pc.same.info
      have wq : EWF P bbq.ecos hf := by rw [hecq]; exact w
      have hnq : node ≤ bbq.iter := by omega
      cases flag with
      | true =>
        simp only [if_true]
        unfold takeIntegral
        rw [cost_congr (bb' := { bb with ecos := e' }) hecq, hcost, ok_bind_eq]
        obtain ⟨ns3, e6, r4⟩ := setNode_ok rq hm
          (fun nd => { nd with status := MI_SOLVED_NON_BRANCHABLE, U := dotF P.n xf cf })
        rw [e6, ok_bind_eq, pure_bind]
        simp only [upd_self] at r4
        obtain ⟨b1, b2, nd', e7, e8, r5, i5, d5, u5, n5, c5, c6⟩ := finish_ok (Rb := Rb) (env := env) r4 hnq wq false
          (fun _ => by
            simp only [upd_self]
            refine ⟨e, e', hf, code, xf, he, e3, hx, ?_, ?_, ?_, ?_, ?_, ?_, ?_, ⟨cf, hcf, rfl⟩,
              Or.inl ⟨hacc, hT rfl, _, _, hr, hbids, hiids⟩⟩ <;> (simp only [stored]; rw [hecq]))
        rw [e7, ok_bind_eq, e8, Runs_ok]
        simp only [upd_self, hgU] at u5 n5 c5 c6
        exact ⟨_,
          { rep := r5
            iter := by rw [i5]; exact hitq
            dive := by rw [d5]; exact hdvq
            others := fun k hk => by simp [upd, hk]
            brows := fun _ _ _ _ => rfl
            irows := fun _ _ _ _ => rfl
            split := by simp only [upd_self, n5]; exact ⟨hS.lo, hS.hi, hS.prev, hS.val, hS.pval⟩
            keep := Or.inl
            less := by
              rw [u5]; split
              · next h => exact Or.inr h
              · exact Or.inl rfl
            low := fun hb => by simp only [upd_self, n5]; exact (T.trial hb htr hcf).2
            numL := by simp only [upd_self, n5]; exact T.trialNum htr hcf
            numU := by simp only [upd_self, n5]; exact fun _ => T.trialNum htr hcf
            numG := by
              rw [u5]; split
              · exact T.trialNum htr hcf
              · exact hnum
            status := by
              simp only [upd_self, n5, MI_SOLVED_NON_BRANCHABLE]
              right; split <;> rfl
            closed := fun _ hb => by
              rw [u5]
              have hl := (T.trial hb htr hcf).2
              split
              · exact T.low_self hl
              · next h => exact T.low_cut' hl hnum (by simpa using h)
            nodeU := by
              simp only [upd_self, n5, Bool.false_eq_true, if_false]
              rw [u5]
              split
              · exact LL.irrefl _
              · next h => simpa using h
            rootU := fun h1 h2 h3 => by
              simp only [upd_self, n5] at h3 ⊢
              rw [u5, h2, if_pos (by simpa using h3)]
              simp
            openU := fun h _ => absurd (hT rfl) (h _ _ htr hacc)
            inc := fun h1 h2 => by
              by_cases hlt : lt (dotF P.n xf cf) bb.globalU = true
              · exact c5 hlt
              · have hlt' : lt (dotF P.n xf cf) bb.globalU = false := by simpa using hlt
                rw [u5, if_neg hlt] at h2
                exact c6 hlt' ((hincq (h1 h2)).congr rfl rfl rfl rfl rfl rfl rfl)
            sel := fun _ => Or.inr ⟨fun _ _ => rfl, fun _ _ => rfl, by
              simp only [upd_self, n5, MI_SOLVED_NON_BRANCHABLE]
              exact ⟨by split <;> rfl, Or.inl rfl⟩⟩ }⟩
      | false =>
        simp only [Bool.false_eq_true, if_false]
        unfold tryRounded
        have hxo : Holds bbq.ecos.x P.n xf := by rw [hecq]; exact hx
        have hW : WOk P G ((upd (upd g.node node { g.node node with L := dotF P.n xf cf }) node
          { g.node node with L := dotF P.n xf cf, relaxation := dotF P.n xf cf }) node) := by
          simp only [upd_self]; exact ⟨by have := hS.lo; simp only; omega, hS.hi, hS.val⟩
        simp only [bind_assoc]
        rw [Runs_bind]
        refine (chooseVar_ok (T := T) H LL SH fuel rq hnq hxo g1 g2 (fun hs => ?_) hW).mono ?_
        · refine ⟨e, hf, code, xf, he, hr, by rw [hecq]; exact e3, by rw [hecq]; exact hx, ?_⟩
          exact (hN rfl).fractional H (SH hs) g1b g2
        rintro bbr ⟨gr, ⟨hst, hlo⟩, hsel⟩
        have rr := hst.rep
        have hnr : node ≤ bbr.iter := by have := hst.same.iter; omega
        obtain ⟨si, sv, hfl⟩ := hst.fields
        simp only [upd_self] at hfl hlo
        have hWr := hst.wok hW
        obtain ⟨ns4, e6, r4⟩ := setNode_ok rr hm (fun nd => { nd with status := MI_SOLVED_BRANCHABLE })
        rw [e6, ok_bind_eq]
        have htmB : bbr.tmpBool = tb := by rw [hst.tmpB, hbq]
        have htmI : bbr.tmpInt = ti := by rw [hst.tmpI, hbq]
        obtain ⟨bb5, e7, hcs5⟩ :=
          probSolve_ok H.con r4 (bids := bbr.tmpBool) (boff := 0) (iids := bbr.tmpInt) (ioff := 0)
            (bf := tf) (jf := jf) (fun i hi => by rw [Nat.zero_add, htmB]; exact htb.rd hi)
            (fun i hi => by rw [Nat.zero_add, htmI]; exact hti.rd hi)
            (fun i hi => by
              obtain ⟨k, k1, k2⟩ := hK (i / 2) (by omega)
              rcases (by omega : i = 2 * (i / 2) ∨ i = 2 * (i / 2) + 1) with e | e
              · rw [e]; exact ⟨k, .inr k1⟩
              · rw [e]; exact ⟨k, .inl k2⟩)
        simp only
        rw [e7, ok_bind_eq]
        rcases hcs5 with ⟨u, e0, hu⟩ | ⟨e5', code5, xf5, hf5, e8, ⟨es5, he5, hsol5⟩, w5, hr5, hx5, _, _⟩
        · rw [e0]; exact hu
        rw [e8, ok_bind_eq]
        have r5 := r4.ecos w5
        have hsplit : SplitOk P G (gr.node node) := by
          refine ⟨hlo hS.lo, hWr.2.1, ?_, hWr.2.2, ?_⟩
          · rw [hfl]; exact hS.prev
          · rw [hfl]; exact hS.pval
        have hgr : (gr.node node).L = dotF P.n xf cf ∧ (gr.node node).U = (g.node node).U := by
          rw [hfl]; exact ⟨rfl, rfl⟩
        have hoth : ∀ k, k ≠ node → gr.node k = g.node k := fun k hk => by
          rw [hst.others k hk]; simp [upd, hk]
        have hgUr : bbr.globalU = bb.globalU := hst.same.gU.trans hgU
        have hincr : ∀ {U}, Incumbent P env Rb bb U → Incumbent P env Rb bbr U := fun hI =>
          (hincq hI).congr hst.same.x hst.same.y hst.same.z hst.same.s hst.same.kap hst.same.tau
            hst.same.info
        -- common end
        have fin : ∀ (ns5 : Buf (Node F)) (u : F) (viable : Bool),
            Rep P { bbr with nodes := ns5, ecos := e5' }
              { gr with node := upd gr.node node { gr.node node with status := 2, U := u } } →
            (viable = true → code5 = 0 ∧ ∃ cf5, P.cs cf5 ∧ u = dotF P.n xf5 cf5) → (viable = false → u = (g.node node).U) →
            Runs bad (updIncumbent { bbr with nodes := ns5, ecos := e5' } node >>= fun b =>
              closeNode b node viable) (fun bb' => ∃ g', BPost Rb T node bb g bb' g') := by
          intro ns5 u viable r6 hv1 hv2
          obtain ⟨b1, b2, nd', e9, e10, r7, i7, d7, u7, n7, c7, c8⟩ := finish_ok (Rb := Rb)
            (env := env) r6 hnr w5 viable (fun hlt => by
              simp only [upd_self] at hlt ⊢
              cases viable with
              | false =>
                rw [hv2 rfl, hgUr] at hlt
                rw [hlt] at hU; simp at hU
              | true =>
                obtain ⟨hv, hu⟩ := hv1 rfl
                exact ⟨es5, e5', hf5, code5, xf5, he5, hsol5, hx5, rfl, rfl, rfl, rfl, rfl, rfl, rfl, hu,
                  Or.inr ⟨hv, tf, jf, hr5, hRb, hK⟩⟩)
          rw [e9, ok_bind_eq, e10, Runs_ok]
          simp only [upd_self, hgUr] at u7 n7 c7 c8
          have hless : b2.globalU = bb.globalU ∨ lt b2.globalU bb.globalU = true := by
            rw [u7]; split
            · next h => exact Or.inr h
            · exact Or.inl rfl
          exact ⟨_,
            { rep := r7
              iter := i7.trans (hst.same.iter.trans hitq)
              dive := d7.trans (hst.same.dive.trans hdvq)
              others := fun k hk => by
                simp only [upd_ne _ _ hk]; exact hoth k hk
              brows := fun k i hk hi => hst.brows k i hk hi
              irows := fun k i hk hi => hst.irows k i hk hi
              split := by
                simp only [upd_self, n7]
                exact ⟨hsplit.lo, hsplit.hi, hsplit.prev, hsplit.val, hsplit.pval⟩
              keep := fun hb => by
                have := hst.keep hb
                rw [hgU] at this
                exact this
              less := hless
              low := fun hb => by
                simp only [upd_self, n7, hgr.1]; exact (T.trial hb htr hcf).2
              numL := by simp only [upd_self, n7, hgr.1]; exact T.trialNum htr hcf
              numU := fun hnu => by
                simp only [upd_self, n7]
                cases viable with
                | true => simpa using T.num_inf
                | false => rw [hv2 rfl]; simpa using hnu
              numG := by
                rw [u7]; split
                · next hlt =>
                  cases viable with
                  | true => 
                    obtain ⟨_, cf5, hcf5, hu5⟩ := hv1 rfl
                    rw [hu5]; exact T.trialNum ⟨hf5, hr5, es5, e5', he5, hsol5, hx5⟩ hcf5
                  | false => rw [hv2 rfl, hU] at hlt; simp at hlt
                · exact hnum
              status := by
                simp only [upd_self, n7]
                split
                · right; rfl
                · left; rfl
              closed := fun hst3 hb => by
                simp only [upd_self, n7, hgr.1] at hst3
                split at hst3
                · next hlt => exact T.low_cut (T.trial hb htr hcf).2 hlt
                · simp at hst3
              nodeU := by
                simp only [upd_self, n7]
                cases viable with
                | true => simpa using LL.inf_top _
                | false =>
                  rw [hv2 rfl]
                  rw [hv2 rfl, hU] at u7
                  simp only [Bool.false_eq_true, if_false] at u7 ⊢
                  rw [u7]; exact hU
              rootU := fun h1 h2 h3 => by
                exfalso
                simp only [upd_self, n7] at h3
                cases viable with
                | true => simp [LL.irrefl] at h3
                | false => rw [hv2 rfl, h1] at h3; simp [LL.irrefl] at h3
              openU := fun _ h => by
                simp only [upd_self, n7]
                cases viable with
                | true => rfl
                | false => rw [hv2 rfl]; exact h
              inc := fun h1 h2 => by
                by_cases hlt : lt u bb.globalU = true
                · exact c7 hlt
                · have hlt' : lt u bb.globalU = false := by simpa using hlt
                  rw [u7, if_neg hlt] at h2
                  exact c8 hlt' ((hincr (h1 h2)).congr rfl rfl rfl rfl rfl rfl rfl)
              sel := fun hp => by
                refine Or.inl ⟨code, xf, htr, hacc, hN rfl, ?_⟩
                rcases hsel hp with ⟨p1, q1, q2, q3⟩ | ⟨p1, q1, q2, q3⟩
                · refine Or.inl ⟨p1, q1, q2, ?_⟩
                  simp only [upd_self, n7]; exact q3
                · refine Or.inr ⟨p1, q1, q2, ?_⟩
                  simp only [upd_self, n7]; exact q3 }⟩
        simp only
        by_cases hc0 : code5 = 0
        · obtain ⟨cf5, hcf5, hcost5⟩ := cost_ok (bb := { bbr with nodes := ns4, ecos := e5' }) w5 hx5 rfl
          rw [if_pos hc0, hcost5, ok_bind_eq]
          obtain ⟨ns5, e9, r6⟩ := setNode_ok r5 hm (fun nd => { nd with U := dotF P.n xf5 cf5 })
          rw [e9, ok_bind_eq, pure_bind]
          refine fin ns5 (dotF P.n xf5 cf5) true (r6.congr ?_ rfl rfl) (fun _ => ⟨hc0, cf5, hcf5, rfl⟩)
            (fun h => by simp at h)
          funext j
          unfold upd
          by_cases hj : j = node <;> simp [hj, MI_SOLVED_BRANCHABLE]
        · rw [if_neg hc0, pure_bind]
          refine fin ns4 (g.node node).U false (r5.congr ?_ rfl rfl) (fun h => by simp at h) (fun _ => rfl)
          rw [← hgr.2]
          rfl
  · obtain ⟨ns, e4, r2⟩ := setNode_ok r1 hm
      (fun nd => { nd with L := INF, U := INF, status := MI_SOLVED_NON_BRANCHABLE })
    rw [e4, Runs_ok]
    obtain ⟨cf, hcf, _⟩ := w.hc
    have habs : ¬ T.box (g.brow P node) (g.irow P node) := fun hb => hacc (T.trial hb htr hcf).1
    exact ⟨_,
      { rep := r2
        iter := rfl
        dive := rfl
        others := fun k hk => by simp [upd, hk]
        brows := fun _ _ _ _ => rfl
        irows := fun _ _ _ _ => rfl
        split := by simp only [upd_self]; exact ⟨hS.lo, hS.hi, hS.prev, hS.val, hS.pval⟩
        keep := Or.inl
        less := Or.inl rfl
        low := fun hb => absurd hb habs
        numL := by simp only [upd_self]; exact T.num_inf
        numU := by simp only [upd_self]; exact fun _ => T.num_inf
        numG := hnum
        status := by simp [upd_self, MI_SOLVED_NON_BRANCHABLE]
        closed := fun _ hb => absurd hb habs
        nodeU := by simp only [upd_self]; exact LL.inf_top _
        rootU := fun h1 h2 h3 => by simp [upd_self, LL.irrefl] at h3
        openU := fun _ _ => by simp only [upd_self]
        inc := fun h1 h2 => (h1 h2).congr rfl rfl rfl rfl rfl rfl rfl
        sel := fun _ => Or.inr ⟨fun _ _ => rfl, fun _ _ => rfl, by
          dsimp only; rw [upd_self]; exact ⟨rfl, Or.inl rfl⟩⟩ }⟩

end BB
end Ecos
