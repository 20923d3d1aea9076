import Verif.Lemmas.BB2
import Mathlib.Data.Fintype.EquivFin

/-! # Branch and bound: the branching strategies -/
set_option linter.unusedSectionVars false
set_option linter.unusedSimpArgs false
set_option linter.unusedVariables false

namespace Ecos
namespace BB

variable {F : Type} [Zero F] [One F] [Add F] [Sub F] [Mul F] [Div F] [Neg F] [OfScientific F]
  [IntCast F] [PFloat F] [HasInf F] {W I : Type}
variable {P : Par F W} {env : Env F W I} {G Gb : F → Prop} {bad : UB → Prop} {Rb : Int → Prop}
variable {T : Pt P env G} {node : Nat} {bb bb1 bb2 bb' : St F W I} {g g1 g2 g' : Gh F}

theorem varIdx_ok (h : Rep P bb g) {i : Nat} (hi : i < P.nb + P.ni) :
    varIdx bb i = .ok (vr P i) ∧ vr P i < P.n := by
  unfold varIdx vr
  rw [h.nb_eq]
  split
  · next hb => exact ⟨h.hbv.rd hb, h.bv_lt i hb⟩
  · next hb => exact ⟨h.hiv.rd (by omega), h.iv_lt _ (by omega)⟩

theorem vr_G {xf : Nat → F} (g1 : ∀ i, i < P.nb → G (xf (P.bv i)))
    (g2 : ∀ i, i < P.ni → G (xf (P.iv i))) {i : Nat} (hi : i < P.nb + P.ni) : G (xf (vr P i)) := by
  unfold vr
  split
  · next hb => exact g1 i hb
  · next hb => exact g2 _ (by omega)

/-- the array is a permutation of `0..n-1` -/
def PermArr (b : Buf Nat) (n : Nat) : Prop :=
  ∃ σ : Nat → Nat, Holds b n σ ∧ (∀ k, k < n → σ k < n) ∧ (∀ i, i < n → ∃ k, k < n ∧ σ k = i)

theorem shuffle_idx {R k r : Nat} (hk : 0 < k) (hr : r ≤ R) : r / (R / k + 1) < k := by
  rw [Nat.div_lt_iff_lt_mul (show 0 < R / k + 1 from Nat.succ_pos _)]
  have h1 := Nat.div_add_mod R k
  have h2 := Nat.mod_lt R hk
  have : k * (R / k + 1) = k * (R / k) + k := by ring
  omega

theorem getShuffled_ok (C : Contract P env G Gb bad) (n rng : Nat) :
    ∃ b r, getShuffled env n rng = .ok (b, r) ∧ PermArr b n := by
  unfold getShuffled
  have h1 : Ok (loop 0 n (malloc n : Buf Nat) (fun i b => wr b i i)) (fun b => Holds b n id) := by
    refine loop_ok (fun t b => HoldsOn b n (fun k => k < t) id) (Nat.zero_le _)
      ⟨by simp, fun i _ h => absurd h (by omega)⟩ ?_ (fun s hs => hs.full (fun i hi => hi))
    intro t b _ ht hb
    refine (hb.wr ht _).mono fun b' hb' => hb'.congr fun j hj hjt => ?_
    by_cases hjt' : j = t
    · subst hjt'; exact ⟨Or.inr rfl, upd_self _ _ _⟩
    · exact ⟨Or.inl (by omega), upd_ne _ _ hjt'⟩
  obtain ⟨a, e1, ha⟩ := (Ok.def _ _).mp h1
  rw [e1, ok_bind_eq]
  have h2 : Ok (loop 0 (n - 1) (a, rng) (shuffleStep env n)) (fun s => PermArr s.1 n) := by
    refine loop_ok (fun t s => PermArr s.1 n) (Nat.zero_le _)
      ⟨id, ha, fun k hk => hk, fun i hi => ⟨i, hi, rfl⟩⟩ ?_ (fun s hs => hs)
    rintro t s _ ht ⟨σ, hs, hb, hsur⟩
    unfold shuffleStep
    have hj : t + env.rand s.2 / (RAND_MAX / (n - t) + 1) < n := by
      have := shuffle_idx (R := RAND_MAX) (k := n - t) (r := env.rand s.2) (by omega) (C.rand _)
      omega
    generalize t + env.rand s.2 / (RAND_MAX / (n - t) + 1) = j at hj
    have ht' : t < n := by omega
    simp only
    rw [hs.rd hj, ok_bind_eq, hs.rd ht', ok_bind_eq, Ok_bind]
    refine (hs.wr hj _).mono fun b1 hb1 => ?_
    rw [Ok_bind]
    refine (hb1.wr ht' _).mono fun b2 hb2 => ?_
    rw [Ok_pure]
    refine ⟨_, hb2, fun k hk => ?_, fun i hi => ?_⟩
    · unfold upd; split
      · exact hb _ hj
      · split
        · exact hb _ ht'
        · exact hb _ hk
    · obtain ⟨k, hk, rfl⟩ := hsur i hi
      by_cases h1 : k = j
      · exact ⟨t, ht', by subst h1; simp⟩
      · by_cases h2 : k = t
        · refine ⟨j, hj, ?_⟩
          subst h2
          rw [upd_ne _ _ (fun h => h1 h.symm), upd_self]
        · exact ⟨k, hk, by rw [upd_ne _ _ h2, upd_ne _ _ h1]⟩
  obtain ⟨⟨b, r⟩, e2, hp⟩ := (Ok.def _ _).mp h2
  exact ⟨b, r, e2, hp⟩

/-- a `Step` that keeps a chosen split -/
def Step0 (T : Pt P env G) (node : Nat) (bb : St F W I) (g : Gh F) (bb' : St F W I)
    (g' : Gh F) : Prop :=
  Step T node bb g bb' g' ∧ (0 ≤ (g.node node).splitIdx → 0 ≤ (g'.node node).splitIdx)

theorem Step0.trans (h : Step0 T node bb g bb1 g1) (h' : Step0 T node bb1 g1 bb2 g2) :
    Step0 T node bb g bb2 g2 := ⟨h.1.trans h'.1, h'.2 ∘ h.2⟩

theorem Step0.inert (h' : Rep P bb' g) (hs : Same bb bb')
    (h1 : bb'.tmpBool = bb.tmpBool) (h2 : bb'.tmpInt = bb.tmpInt) : Step0 T node bb g bb' g :=
  ⟨Step.inert h' hs h1 h2, id⟩

theorem setSplit_ok (h : Rep P bb g) (hn : node < P.stgs.maxit) {i : Nat} (hi : i < P.nb + P.ni)
    {v : F} (hv : G v) :
    ∃ ns nd', setNode bb (node : Int) (fun nd => { nd with splitIdx := i, splitVal := v }) =
        .ok { bb with nodes := ns } ∧
      Step0 T node bb g { bb with nodes := ns } { g with node := upd g.node node nd' } ∧
      0 ≤ nd'.splitIdx ∧ nd'.splitIdx = (i : Int) ∧ nd'.splitVal = v := by
  obtain ⟨ns, e, hs⟩ := Step.setNode (T := T) h hn
    (fun nd => { nd with splitIdx := i, splitVal := v }) (fun nd => ⟨_, _, rfl⟩)
    (fun hw => ⟨by simp only; omega, by simp only; omega, hv⟩)
  refine ⟨ns, _, e, ⟨hs, fun _ => ?_⟩, ?_⟩
  · show 0 ≤ (upd g.node node _ node).splitIdx
    rw [upd_self]; simp only; omega
  · exact ⟨by simp only; omega, rfl, rfl⟩

theorem takeScore_ok (h : Rep P bb g) (hn : node < P.stgs.maxit) {i : Nat} (hi : i < P.nb + P.ni)
    {v : F} (hv : G v) (best score : F) :
    ∃ ns r2 nd', takeScore bb best node i v score = .ok ({ bb with nodes := ns }, r2) ∧
      Step0 T node bb g { bb with nodes := ns } { g with node := upd g.node node nd' } ∧
      (lt best score = true → 0 ≤ nd'.splitIdx ∧ nd'.splitIdx = (i : Int) ∧ nd'.splitVal = v) ∧
      (lt best score = false → r2 = best ∧ nd' = g.node node) := by
  unfold takeScore
  by_cases hc : lt best score = true
  · simp only [hc, if_true]
    obtain ⟨ns, nd', e, hs, h0⟩ := setSplit_ok (T := T) h hn hi hv
    rw [e]
    exact ⟨ns, score, nd', rfl, hs, fun _ => h0, by simp⟩
  · simp only [hc]
    refine ⟨bb.nodes, best, g.node node, rfl, ?_, fun h => absurd h (by simp), fun _ => ⟨rfl, rfl⟩⟩
    have : upd g.node node (g.node node) = g.node := by
      funext j; unfold upd; split <;> simp_all
    rw [this]
    exact ⟨Step.refl h, id⟩

/-- assumptions used only for strong branching -/
structure StrongHyp (P : Par F W) (env : Env F W I) (G Gb : F → Prop) : Prop where
  /-- solving the same problem twice gives the same point -/
  det : ∀ e1 e2 hf e1' e2' k1 k2 x1 x2, EWF P e1 hf → EWF P e2 hf → env.solve e1 = .ok (e1', k1) →
    env.solve e2 = .ok (e2', k2) → Holds e1'.x P.n x1 → Holds e2'.x P.n x2 → ∀ i, i < P.n → x1 i = x2 i
  score : ∀ a b : F, lt (-INF) (getScore a b) = true
  fracI : ∀ y r, G y → pfRound y = .ok r → floatEqls y r P.stgs.intTol = false →
    ∀ t, isIntegral P.stgs.intTol y = .ok t → t = false
  fracB : ∀ y r k, Gb y → pfRound y = .ok r → castChar r = .ok k →
    floatEqls y ((k : Int) : F) P.stgs.intTol = false →
    ∀ t, isIntegral P.stgs.intTol y = .ok t → t = false

theorem EWF.congr {e : EW F W I} {hf hf' : Nat → F} (h : EWF P e hf) (hm : 2 * (P.nb + P.ni) ≤ P.m)
    (hh : ∀ r, r < P.m → hf' r = hf r) : EWF P e hf' :=
  { h with hh := h.hh.congr (fun i hi => (hh i hi).symm),
           huser := fun r h1 h2 => (hh r h2).trans (h.huser r h1 h2),
           hbnd := fun r h1 => by rw [hh r (by omega)]; exact h.hbnd r h1 }

/-- bounds of a node determine the right-hand side -/
theorem HRows.unique {e e' : EW F W I} {hf hf' bf jf} (h : HRows P hf bf jf) (h' : HRows P hf' bf jf)
    (he : EWF P e hf) (he' : EWF P e' hf')
    (hb : ∀ i, i < P.nb → bf i = -1 ∨ bf i = 0 ∨ bf i = 1) : ∀ r, r < P.m → hf' r = hf r := by
  intro r hr
  by_cases h2 : 2 * (P.nb + P.ni) ≤ r
  · rw [he.huser r h2 hr, he'.huser r h2 hr]
  · have key : ∀ i a b, rowsAre P hf i a b → rowsAre P hf' i a b → (r = 2 * i ∨ r = 2 * i + 1) →
        hf' r = hf r := by
      rintro i a b ⟨a1, a2⟩ ⟨b1, b2⟩ (rfl | rfl)
      · rw [a1, b1]
      · rw [a2, b2]
    by_cases h3 : r / 2 < P.nb
    · rcases hb (r / 2) h3 with h4 | h4 | h4
      · exact key (r / 2) _ _ (h.star _ h3 h4) (h'.star _ h3 h4) (by omega)
      · exact key (r / 2) _ _ (h.zero _ h3 h4) (h'.zero _ h3 h4) (by omega)
      · exact key (r / 2) _ _ (h.one _ h3 h4) (h'.one _ h3 h4) (by omega)
    · have h5 : r / 2 - P.nb < P.ni := by omega
      exact key (r / 2 - P.nb + P.nb) _ _ (h.int _ h5) (h'.int _ h5) (by omega)

/-- where the point in the workspace comes from, and that it is fractional somewhere -/
def Fractional (P : Par F W) (env : Env F W I) (bf : Nat → Int) (jf : Nat → F) (e' : EW F W I) : Prop :=
  ∃ e hf code xf, EWF P e hf ∧ HRows P hf bf jf ∧ env.solve e = .ok (e', code) ∧ Holds e'.x P.n xf ∧
    ∃ i, i < P.nb + P.ni ∧ ∀ t, isIntegral P.stgs.intTol (xf (vr P i)) = .ok t → t = false

theorem PermArr.inj {n : Nat} {σ : Nat → Nat} (hlt : ∀ k, k < n → σ k < n) (hsur : ∀ i, i < n → ∃ k, k < n ∧ σ k = i)
    {k l : Nat} (hk : k < n) (hl : l < n) (h : σ k = σ l) : k = l := by
  have hs : Function.Surjective (fun k : Fin n => (⟨σ k.1, hlt _ k.2⟩ : Fin n)) := fun i => by
    obtain ⟨k, hk, e⟩ := hsur i.1 i.2
    exact ⟨⟨k, hk⟩, Fin.ext e⟩
  have := Finite.injective_iff_surjective.mpr hs (a₁ := ⟨k, hk⟩) (a₂ := ⟨l, hl⟩) (Fin.ext h)
  exact congrArg Fin.val this

variable (H : Hyp P env G Gb bad Rb)
include H

theorem isIntegral_runs {y : F} (hy : G y) :
    Runs bad (isIntegral P.stgs.intTol y) (fun _ => True) := by
  unfold isIntegral
  refine pf_ok H (H.floor y hy) fun fl _ => ?_
  rw [Runs_ite]
  refine ⟨fun _ => trivial, fun _ => ?_⟩
  refine pf_ok H (H.ceil y hy) fun ce _ => ?_
  trivial

theorem mostInfeasible_ok (LL : LtLaws F) (hstr : P.stgs.strategy = 0) (h : Rep P bb g) (hn : node ≤ bb.iter) {xf : Nat → F}
    (hx : Holds bb.ecos.x P.n xf) (g1 : ∀ i, i < P.nb → G (xf (P.bv i))) (g2 : ∀ i, i < P.ni → G (xf (P.iv i))) :
    Runs bad (mostInfeasible bb node) (fun bb' => ∃ g', Step0 T node bb g bb' g' ∧ Sel P xf node g g') := by
  unfold mostInfeasible
  rw [Runs_bind]
  refine loop_runs (fun t s => ∃ g', Step0 T node bb g s.1 g' ∧ s.1.ecos = bb.ecos ∧ g'.bid = g.bid ∧ g'.iid = g.iid ∧
      ((s.2 = 1 ∧ ∀ j, j < t → ∃ a', ambF P j (xf (vr P j)) = .ok a' ∧ lt a' 1 = false) ∨
       ∃ i, i < P.nb + P.ni ∧ (g'.node node).splitIdx = (i : Int) ∧ (g'.node node).splitVal = xf (vr P i) ∧
        ambF P i (xf (vr P i)) = .ok s.2 ∧ ∀ j, j < t → ∃ a', ambF P j (xf (vr P j)) = .ok a' ∧ lt a' s.2 = false)) (Nat.zero_le _)
    ⟨g, Step0.inert h (Same.refl _) rfl rfl, rfl, rfl, rfl, .inl ⟨rfl, fun j hj => absurd hj (Nat.not_lt_zero _)⟩⟩ ?_ (fun s hs => ?_)
  · rintro t s _ ht ⟨g', hs, hec, hgb, hgi, hsel⟩
    rw [h.nb_eq, h.ni_eq] at ht
    unfold mostInfStep
    have hr := hs.1.rep
    obtain ⟨e1, hlt⟩ := varIdx_ok hr ht
    have hG := vr_G g1 g2 ht
    rw [e1, ok_bind_eq, hec, hx.rd hlt, ok_bind_eq]
    have ha : Runs bad (ambig s.1 t (xf (vr P t))) (fun _ => True) := by
      unfold ambig
      rw [Runs_ite, hr.stgs_eq]
      exact ⟨fun _ => trivial, fun _ => pf_ok H (H.floor _ hG) fun _ _ => trivial⟩
    refine pf_ok H ha fun a hae => ?_
    have hae : ambF P t (xf (vr P t)) = .ok a := by
      rw [← hae]
      unfold ambF ambig
      rw [hr.stgs_eq, hr.nb_eq]
    rw [Runs_ite]
    refine ⟨fun hc => ?_, fun hc => ?_⟩
    · obtain ⟨ns, nd', e2, h2, -, k1, k2⟩ := setSplit_ok (T := T) hr (node := node)
        (by have := hr.iter_lt; have := hs.1.same.iter; omega) ht hG
      rw [e2, ok_bind_eq, Runs_pure]
      refine ⟨_, hs.trans h2, hec, hgb, hgi, .inr ⟨t, ht, by simp only [upd_self]; exact k1, by simp only [upd_self]; exact k2, hae,
        fun j hj => ?_⟩⟩
      have key : ∀ {a' : F}, lt a' s.2 = false → lt a' a = false := fun {a'} h1 => by
        by_contra h2
        rw [LL.trans a' a s.2 (by simpa using h2) hc] at h1
        simp at h1
      rcases Nat.lt_or_ge j t with hjt | hjt
      · rcases hsel with ⟨e1, e2⟩ | ⟨i, -, -, -, -, e2⟩
        · obtain ⟨a', f1, f2⟩ := e2 j hjt
          exact ⟨a', f1, key (by rw [e1]; exact f2)⟩
        · obtain ⟨a', f1, f2⟩ := e2 j hjt
          exact ⟨a', f1, key f2⟩
      · obtain rfl : j = t := by omega
        exact ⟨a, hae, LL.irrefl a⟩
    · rw [Runs_pure]
      refine ⟨g', hs, hec, hgb, hgi, ?_⟩
      have hc' : lt a s.2 = false := by simpa using hc
      rcases hsel with ⟨q1, e2⟩ | ⟨i, hi, k1, k2, k3, e2⟩
      · refine .inl ⟨q1, fun j hj => ?_⟩
        rcases Nat.lt_or_ge j t with hjt | hjt
        · exact e2 j hjt
        · obtain rfl : j = t := by omega
          exact ⟨a, hae, by rw [← q1]; exact hc'⟩
      · refine .inr ⟨i, hi, k1, k2, k3, fun j hj => ?_⟩
        rcases Nat.lt_or_ge j t with hjt | hjt
        · exact e2 j hjt
        · obtain rfl : j = t := by omega
          exact ⟨a, hae, hc'⟩
  · obtain ⟨g', hs, -, hgb, hgi, hsel⟩ := hs
    rw [h.nb_eq, h.ni_eq] at hsel
    refine ⟨g', hs, hgb, hgi, .inl ⟨hstr, ?_⟩⟩
    rcases hsel with ⟨-, e2⟩ | ⟨i, hi, k1, k2, k3, e2⟩
    · exact .inr e2
    · exact .inl ⟨i, s.2, hi, k1, k2, k3, e2⟩

theorem branchRandom_ok (hstr : P.stgs.strategy = 4) (fuel : Nat) (h : Rep P bb g) (hn : node ≤ bb.iter)
    {xf : Nat → F} (hxx : Holds bb.ecos.x P.n xf) (g1 : ∀ i, i < P.nb → G (xf (P.bv i))) (g2 : ∀ i, i < P.ni → G (xf (P.iv i))) :
    Runs bad (branchRandom env node fuel bb) (fun bb' => ∃ g', Step0 T node bb g bb' g' ∧ Sel P xf node g g') := by
  induction fuel generalizing bb g with
  | zero => unfold branchRandom; exact H.fuel hstr
  | succ k ih =>
    unfold branchRandom
    have hp := H.pos
    have hpos : ¬ (bb.nb + bb.ni = 0) := by rw [h.nb_eq, h.ni_eq]; omega
    rw [if_neg hpos]
    have hi : env.rand bb.rng % (bb.nb + bb.ni) < P.nb + P.ni := by
      rw [h.nb_eq, h.ni_eq]; exact Nat.mod_lt _ hp
    generalize env.rand bb.rng % (bb.nb + bb.ni) = i at hi
    simp only
    have h1 := h.rng (bb.rng + 1)
    obtain ⟨e1, hlt⟩ := varIdx_ok h1 hi
    have hG := vr_G g1 g2 hi
    rw [e1, ok_bind_eq, hxx.rd hlt, ok_bind_eq]
    obtain ⟨ns, nd', e2, h2, -, k1, k2⟩ := setSplit_ok (T := T) h1 (node := node)
      (by have := h.iter_lt; omega) hi hG
    rw [e2, ok_bind_eq]
    have hS : Step0 T node bb g _ _ :=
      Step0.trans (Step0.inert h1 (by constructor <;> rfl) rfl rfl) h2
    have hI := isIntegral_runs H hG
    rw [← h.stgs_eq] at hI
    refine pf_ok H hI fun t hte => ?_
    rw [h.stgs_eq] at hte
    rw [Runs_ite]
    refine ⟨fun _ => ?_, fun hc => ?_⟩
    · refine (ih h2.1.rep hn hxx).mono ?_
      rintro bb' ⟨g', hs, q1, q2, q3⟩
      exact ⟨g', hS.trans hs, q1, q2, q3⟩
    · rw [Runs_pure]
      have : t = false := by simpa using hc
      subst this
      exact ⟨_, hS, rfl, rfl, .inr (.inr ⟨hstr, i, hi, by simp only [upd_self]; exact k1, by simp only [upd_self]; exact k2, hte⟩)⟩

/-! pseudocosts -/

theorem avgPseudo_ok {sums : Buf F} {cnts : Buf Int} {n up : Nat} {sf : Nat → F} {cf : Nat → Int}
    (hs : Holds sums (2 * n) sf) (hc : Holds cnts (2 * n) cf) (hup : up < 2) :
    ∃ v, avgPseudo sums cnts n up = .ok v := by
  unfold avgPseudo
  have : Ok (loop 0 n ((0 : F), (0 : Int)) (avgStep sums cnts up)) (fun _ => True) := by
    refine loop_ok (fun _ _ => True) (Nat.zero_le _) trivial ?_ (fun _ _ => trivial)
    intro t s _ ht _
    unfold avgStep
    rw [hc.rd (show 2 * t + up < 2 * n by omega), ok_bind_eq, Ok_ite]
    refine ⟨fun _ => ?_, fun _ => trivial⟩
    rw [hs.rd (show 2 * t + up < 2 * n by omega), ok_bind_eq]; trivial
  obtain ⟨v, e, _⟩ := (Ok.def _ _).mp this
  rw [e, ok_bind_eq]
  split <;> exact ⟨_, rfl⟩

theorem psi_ok {sums : Buf F} {cnts : Buf Int} {n i up : Nat} {sf : Nat → F} {cf : Nat → Int}
    (hs : Holds sums (2 * n) sf) (hc : Holds cnts (2 * n) cf) (hup : up < 2) (hi : i < n) :
    ∃ v, psi sums cnts n i up = .ok v := by
  unfold psi
  rw [hc.rd (show 2 * i + up < 2 * n by omega), ok_bind_eq]
  split
  · exact avgPseudo_ok H hs hc hup
  · rw [hs.rd (show 2 * i + up < 2 * n by omega), ok_bind_eq]; exact ⟨_, rfl⟩

theorem pseudoScore_runs (h : Rep P bb g) {i : Nat} (hi : i < P.nb + P.ni) {y : F} (hy : G y) :
    Runs bad (pseudoScore bb i y) (fun sc => ∃ a b, sc = getScore a b) := by
  unfold pseudoScore
  have hp : ∃ p, pseudoPsi bb i = .ok p := by
    unfold pseudoPsi
    obtain ⟨_, a1⟩ := h.pcBS
    obtain ⟨_, a2⟩ := h.pcIS
    obtain ⟨_, a3⟩ := h.pcBC
    obtain ⟨_, a4⟩ := h.pcIC
    rw [h.nb_eq, h.ni_eq]
    split
    · next hb =>
      obtain ⟨d, e1⟩ := psi_ok H a1 a3 (show 0 < 2 by omega) hb
      obtain ⟨u, e2⟩ := psi_ok H a1 a3 (show 1 < 2 by omega) hb
      rw [e1, ok_bind_eq, e2, ok_bind_eq]; exact ⟨_, rfl⟩
    · next hb =>
      obtain ⟨d, e1⟩ := psi_ok H a2 a4 (show 0 < 2 by omega) (show i - P.nb < P.ni by omega)
      obtain ⟨u, e2⟩ := psi_ok H a2 a4 (show 1 < 2 by omega) (show i - P.nb < P.ni by omega)
      rw [e1, ok_bind_eq, e2, ok_bind_eq]; exact ⟨_, rfl⟩
  obtain ⟨p, e⟩ := hp
  rw [e, ok_bind_eq, h.stgs_eq]
  exact pf_ok H (H.floor y hy) fun _ _ => ⟨_, _, rfl⟩

theorem pseudocost_ok (hstr : P.stgs.strategy = 2) (h : Rep P bb g) (hn : node ≤ bb.iter) {xf : Nat → F}
    (hx : Holds bb.ecos.x P.n xf) (g1 : ∀ i, i < P.nb → G (xf (P.bv i))) (g2 : ∀ i, i < P.ni → G (xf (P.iv i))) :
    Runs bad (pseudocostBranching env bb node) (fun bb' => ∃ g', Step0 T node bb g bb' g' ∧ Sel P xf node g g') := by
  unfold pseudocostBranching
  obtain ⟨p, r, e0, σ, hσ, hlt, hsur⟩ := getShuffled_ok (P := P) H.con (bb.nb + bb.ni) bb.rng
  rw [e0, ok_bind_eq, Runs_bind]
  refine loop_runs (fun t s => ∃ g', Step0 T node bb g s.1 g' ∧ s.1.ecos = bb.ecos ∧ g'.bid = g.bid ∧ g'.iid = g.iid ∧
      ((s.2 = -(INF : F) ∧ ∀ k, k < t → isIntegral P.stgs.intTol (xf (vr P (σ k))) = .ok true ∨
          ∃ a b : F, lt (-(INF : F)) (getScore a b) = false) ∨
       ∃ i, i < P.nb + P.ni ∧ (g'.node node).splitIdx = (i : Int) ∧ (g'.node node).splitVal = xf (vr P i) ∧
        isIntegral P.stgs.intTol (xf (vr P i)) = .ok false)) (Nat.zero_le _)
    ⟨g, Step0.inert (h.rng r) (by constructor <;> rfl) rfl rfl, rfl, rfl, rfl, .inl ⟨rfl, fun k hk => absurd hk (Nat.not_lt_zero _)⟩⟩ ?_
    (fun s hs => ?_)
  · rintro t s _ ht ⟨g', hs, hec, hgb, hgi, hsel⟩
    unfold pseudoStep
    have hr := hs.1.rep
    have hi : σ t < P.nb + P.ni := by have := hlt t ht; rwa [h.nb_eq, h.ni_eq] at this
    obtain ⟨e1, hl⟩ := varIdx_ok hr hi
    have hG := vr_G g1 g2 hi
    rw [hσ.rd ht, ok_bind_eq, e1, ok_bind_eq, hec, hx.rd hl, ok_bind_eq, hr.stgs_eq]
    refine pf_ok H (isIntegral_runs H hG) fun b hbe => ?_
    rw [Runs_ite]
    refine ⟨fun hc => ⟨g', hs, hec, hgb, hgi, ?_⟩, fun hc => ?_⟩
    · rcases hsel with ⟨q1, q2⟩ | q
      · refine .inl ⟨q1, fun k hk => ?_⟩
        rcases Nat.lt_or_ge k t with hkt | hkt
        · exact q2 k hkt
        · obtain rfl : k = t := by omega
          subst hc
          exact .inl hbe
      · exact .inr q
    obtain rfl : b = false := by simpa using hc
    rw [Runs_bind]
    refine (pseudoScore_runs H hr hi hG).mono ?_
    rintro sc ⟨a, b, rfl⟩
    obtain ⟨ns, r2, nd', e2, h2, h3, h4⟩ := takeScore_ok (T := T) hr (node := node)
        (by have := hr.iter_lt; have := hs.1.same.iter; omega) hi hG s.2 (getScore a b)
    rw [e2, Runs_ok]
    refine ⟨_, hs.trans h2, hec, hgb, hgi, ?_⟩
    by_cases hlt2 : lt s.2 (getScore a b) = true
    · obtain ⟨-, k1, k2⟩ := h3 hlt2
      exact .inr ⟨σ t, hi, by simp only [upd_self]; exact k1, by simp only [upd_self]; exact k2, hbe⟩
    · have hlt2 : lt s.2 (getScore a b) = false := by simpa using hlt2
      obtain ⟨k1, k2⟩ := h4 hlt2
      rcases hsel with ⟨q1, q2⟩ | ⟨i, q1, q2, q3, q4⟩
      · refine .inl ⟨k1.trans q1, fun k hk => ?_⟩
        rcases Nat.lt_or_ge k t with hkt | hkt
        · exact q2 k hkt
        · exact .inr ⟨a, b, by rw [← q1]; exact hlt2⟩
      · exact .inr ⟨i, q1, by simp only [upd_self, k2]; exact q2, by simp only [upd_self, k2]; exact q3, q4⟩
  · obtain ⟨g', hs, -, hgb, hgi, hsel⟩ := hs
    refine ⟨g', hs, hgb, hgi, .inr (.inl ⟨hstr, ?_⟩)⟩
    rcases hsel with ⟨-, q2⟩ | ⟨i, hi, q1, q2, q3⟩
    · refine .inr fun j hj => ?_
      obtain ⟨k, hk, rfl⟩ := hsur j (by rw [h.nb_eq, h.ni_eq]; exact hj)
      exact q2 k hk
    · exact .inl ⟨i, hi, q1, q2, q3⟩

theorem bump_ok {sums : Buf F} {cnts : Buf Int} {n pos : Nat} {sf : Nat → F} {cf : Nat → Int}
    (hs : Holds sums n sf) (hc : Holds cnts n cf) (hp : pos < n) (d : F) :
    ∃ a b f k, bump sums cnts pos d = .ok (a, b) ∧ Holds a n f ∧ Holds b n k := by
  unfold bump
  obtain ⟨a, e1, h1⟩ := (Ok.def _ _).mp (hs.wr hp (sf pos + d))
  obtain ⟨b, e2, h2⟩ := (Ok.def _ _).mp (hc.wr hp (cf pos + 1))
  rw [hs.rd hp, ok_bind_eq, e1, ok_bind_eq, hc.rd hp, ok_bind_eq, e2, ok_bind_eq]
  exact ⟨a, b, _, _, rfl, h1, h2⟩

/-- the pseudocost arrays changed, nothing else -/
structure PcOnly (bb bb' : St F W I) : Prop where
  same : Same bb bb'
  tmpB : bb'.tmpBool = bb.tmpBool
  tmpI : bb'.tmpInt = bb.tmpInt
  tbB : bb'.tbBool = bb.tbBool
  tbI : bb'.tbInt = bb.tbInt
  ecos : bb'.ecos = bb.ecos
  nodes : bb'.nodes = bb.nodes

theorem bumpVar_ok (h : Rep P bb g) {i off : Nat} (hi : i < P.nb + P.ni) (ho : off < 2) (d : F) :
    ∃ bb', bumpVar bb i off d = .ok bb' ∧ Rep P bb' g ∧ PcOnly bb bb' := by
  unfold bumpVar
  obtain ⟨_, a1⟩ := h.pcBS
  obtain ⟨_, a2⟩ := h.pcIS
  obtain ⟨_, a3⟩ := h.pcBC
  obtain ⟨_, a4⟩ := h.pcIC
  split
  · next hb =>
    rw [h.nb_eq] at hb
    obtain ⟨a, b, f, k, e, hf, hk⟩ := bump_ok H a1 a3 (show 2 * i + off < 2 * P.nb by omega) d
    rw [e, ok_bind_eq]
    exact ⟨_, rfl, { h with pcBS := ⟨f, hf⟩, pcBC := ⟨k, hk⟩ }, by
      refine ⟨by constructor <;> rfl, rfl, rfl, rfl, rfl, rfl, rfl⟩⟩
  · next hb =>
    rw [h.nb_eq] at hb
    obtain ⟨a, b, f, k, e, hf, hk⟩ := bump_ok H a2 a4 (show 2 * (i - bb.nb) + off < 2 * P.ni by
      rw [h.nb_eq]; omega) d
    rw [e, ok_bind_eq]
    exact ⟨_, rfl, { h with pcIS := ⟨f, hf⟩, pcIC := ⟨k, hk⟩ }, by
      refine ⟨by constructor <;> rfl, rfl, rfl, rfl, rfl, rfl, rfl⟩⟩

theorem PcOnly.trans (h : PcOnly bb bb1) (h' : PcOnly bb1 bb2) : PcOnly bb bb2 where
  same := h.same.trans h'.same
  tmpB := h'.tmpB.trans h.tmpB
  tmpI := h'.tmpI.trans h.tmpI
  tbB := h'.tbB.trans h.tbB
  tbI := h'.tbI.trans h.tbI
  ecos := h'.ecos.trans h.ecos
  nodes := h'.nodes.trans h.nodes

theorem relUpdate_ok (h : Rep P bb g) {i : Nat} (hi : i < P.nb + P.ni) {cv : F} (hv : G cv) (q qd qu : F) :
    Runs bad (relUpdate bb i cv q qd qu) (fun bb' => Rep P bb' g ∧ PcOnly bb bb') := by
  unfold relUpdate
  rw [h.stgs_eq]
  refine pf_ok H (H.ceil cv hv) fun ce _ => ?_
  refine pf_ok H (H.floor cv hv) fun fl _ => ?_
  obtain ⟨b1, e1, r1, p1⟩ := bumpVar_ok H h hi (show 0 < 2 by omega) ((qd - q) / (cv - fl))
  rw [e1, ok_bind_eq]
  obtain ⟨b2, e2, r2, p2⟩ := bumpVar_ok H r1 hi (show 1 < 2 by omega) ((qu - q) / (ce - cv))
  rw [e2, Runs_ok]
  exact ⟨r2, p1.trans H p2⟩

theorem isReliable_ok (h : Rep P bb g) {i : Nat} (hi : i < P.nb + P.ni) :
    ∃ b, isReliable bb i = .ok b := by
  unfold isReliable
  obtain ⟨_, a3⟩ := h.pcBC
  obtain ⟨_, a4⟩ := h.pcIC
  rw [h.nb_eq]
  split
  · next hb =>
    rw [a3.rd (show 2 * i < 2 * P.nb by omega), ok_bind_eq]
    split
    · rw [a3.rd (show 2 * i + 1 < 2 * P.nb by omega), ok_bind_eq]; exact ⟨_, rfl⟩
    · exact ⟨_, rfl⟩
  · next hb =>
    rw [a4.rd (show 2 * (i - P.nb) < 2 * P.ni by omega), ok_bind_eq]
    split
    · rw [a4.rd (show 2 * (i - P.nb) + 1 < 2 * P.ni by omega), ok_bind_eq]; exact ⟨_, rfl⟩
    · exact ⟨_, rfl⟩

/-- invariant of the loop of reliability branching -/
structure RelInv (H : Hyp P env G Gb bad Rb) (T : Pt P env G) (node : Nat) (bb : St F W I) (g : Gh F)
    (s : RelSt F W I) (g' : Gh F) : Prop where
  step : Step0 T node bb g s.bb g'
  x : XOk P G s.bb.ecos
  strong : ∀ q xs, s.strong = some (q, xs) → TB P node s.bb g' ∧
    ∃ xf, Holds xs P.n xf ∧ ∀ i, i < P.nb + P.ni → G (xf (vr P i))

theorem relInit_ok {s : RelSt F W I} (hI : RelInv H T node bb g s g') (hn : node ≤ bb.iter) :
    (∃ u, relInit env node s = .error u ∧ bad u) ∨
    ∃ s1 q xs, relInit env node s = .ok (s1, q, xs) ∧ RelInv H T node bb g s1 g' ∧
      s1.strong = some (q, xs) ∧ s1.high = s.high := by
  unfold relInit
  cases hs : s.strong with
  | some qx => exact Or.inr ⟨s, qx.1, qx.2, rfl, hI, hs, rfl⟩
  | none =>
    have hr := hI.step.1.rep
    obtain ⟨b, i, e1, r1, tb1⟩ := initStrong_ok hr (node := node)
      (by have := hI.step.1.same.iter; omega)
    simp only
    rw [e1, ok_bind_eq]
    rcases calcTmp_ok H.con r1 tb1.b tb1.i (fun _ => hr.rowInt (by have := hI.step.1.same.iter; omega)) with
      ⟨u, e0, hu⟩ | ⟨e', code, xf, hf, cf, e2, hcf, htr, hrw, w, _, hx, g1, g2⟩
    · rw [e0]; exact Or.inl ⟨u, rfl, hu⟩
    rw [e2, ok_bind_eq]
    obtain ⟨xs, e3, h3⟩ := memcpy_ok (N := 0) (dst := (malloc e'.n : Buf F)) (src := e'.x) (off := 0)
      (len := e'.n) (f := xf) (by simp) (fun i hi => by
        rw [Nat.zero_add]; rw [w.hn] at hi; exact hx.rd hi)
    simp only
    rw [e3, ok_bind_eq]
    refine Or.inr ⟨_, _, _, rfl, ⟨hI.step.trans (Step0.inert (r1.ecos w) (by constructor <;> rfl) rfl rfl),
      ⟨xf, hx, g1, g2⟩, ?_⟩, rfl, rfl⟩
    intro q xs' he
    simp only [Option.some.injEq, Prod.mk.injEq] at he
    obtain ⟨_, rfl⟩ := he
    exact ⟨⟨tb1.b, tb1.i⟩, xf, by rw [w.hn] at h3; exact h3, fun i hi => vr_G g1 g2 hi⟩

theorem reliability_ok (h : Rep P bb g) (hn : node ≤ bb.iter) (hx : XOk P G bb.ecos)
    (hW : WOk P G (g.node node)) :
    Runs bad (reliability env bb node) (fun bb' => ∃ g', Step0 T node bb g bb' g') := by
  unfold reliability
  obtain ⟨p, r, e0, σ, hσ, hlt, hsur⟩ := getShuffled_ok (P := P) H.con (bb.nb + bb.ni) bb.rng
  rw [e0, ok_bind_eq, Runs_bind]
  refine loop_runs (fun t s => ∃ g', RelInv H T node bb g s g') (Nat.zero_le _)
    ⟨g, ⟨Step0.inert (h.rng r) (by constructor <;> rfl) rfl rfl, hx, fun q xs he => by simp at he⟩⟩ ?_
    (fun s hs => ?_)
  · rintro t s _ ht ⟨g', hI⟩
    unfold relStep
    have hr := hI.step.1.rep
    have hi : σ t < P.nb + P.ni := by have := hlt t ht; rwa [h.nb_eq, h.ni_eq] at this
    obtain ⟨xf, hxx, g1, g2⟩ := hI.x
    obtain ⟨e1, hl⟩ := varIdx_ok hr hi
    have hG := vr_G g1 g2 hi
    rw [hσ.rd ht, ok_bind_eq, e1, ok_bind_eq, hxx.rd hl, ok_bind_eq, hr.stgs_eq]
    refine pf_ok H (isIntegral_runs H hG) fun b _ => ?_
    rw [Runs_ite]
    refine ⟨fun _ => ⟨g', hI⟩, fun _ => ?_⟩
    obtain ⟨rel, e2⟩ := isReliable_ok H hr hi
    rw [e2, ok_bind_eq, Runs_ite]
    have hnm : ∀ {b : St F W I} {gg}, Step T node bb g b gg → node < P.stgs.maxit := fun hs => by
      have := hs.rep.iter_lt; have := hs.same.iter; omega
    refine ⟨fun _ => ?_, fun _ => ?_⟩
    · refine pf_ok H ((pseudoScore_runs H hr hi hG).mono fun _ _ => trivial) fun sc _ => ?_
      obtain ⟨ns, r2, nd', e3, h3, _⟩ := takeScore_ok (T := T) hr (node := node) (hnm hI.step.1) hi hG
        s.high sc
      rw [e3, ok_bind_eq, Runs_pure]
      refine ⟨_, ⟨hI.step.trans h3, hI.x, fun q xs he => ?_⟩⟩
      obtain ⟨tb, rest⟩ := hI.strong q xs he
      exact ⟨⟨tb.b, tb.i⟩, rest⟩
    · rcases relInit_ok H hI hn with ⟨u, e0, hu⟩ | ⟨s1, q, xs, e3, hI1, hs1, hh1⟩
      · rw [e0]; exact hu
      obtain ⟨tb, xf1, hx1, hg1⟩ := hI1.strong q xs hs1
      rw [e3, ok_bind_eq]
      simp only
      rw [hx1.rd hl, ok_bind_eq, Runs_bind]
      have hr1 := hI1.step.1.rep
      have hn1 : node ≤ s1.bb.iter := by have := hI1.step.1.same.iter; omega
      refine (strongVar_ok (T := T) H hr1 hn1 hi (hg1 _ hi) tb (hI1.step.1.wok hW)).mono ?_
      rintro ⟨bb2, o⟩ ⟨g2', hst, tb2, hk, _, hx2, _⟩
      unfold relTake
      have hS2 : Step0 T node bb g bb2 g2' := hI1.step.trans ⟨hst, hk⟩
      cases o with
      | none =>
        simp only [Runs_pure]
        refine ⟨g2', ⟨hS2, hx2, fun q' xs' he => ⟨tb2, ?_⟩⟩⟩
        exact (hI1.strong q' xs' he).2
      | some qq =>
        simp only
        rw [Runs_bind]
        refine (relUpdate_ok H hst.rep hi (hg1 _ hi) q qq.1 qq.2).mono ?_
        rintro bb3 ⟨r3, p3⟩
        have hS3 : Step0 T node bb g bb3 g2' := hS2.trans
          (Step0.inert r3 p3.same p3.tmpB p3.tmpI)
        obtain ⟨ns, r4, nd', e4, h4, _⟩ := takeScore_ok (T := T) r3 (node := node) (hnm hS3.1) hi hG
          s1.high (getScore (qq.1 - q) (qq.2 - q))
        rw [e4, ok_bind_eq, Runs_pure]
        refine ⟨_, ⟨hS3.trans h4, ?_, fun q' xs' he => ?_⟩⟩
        · show XOk P G bb3.ecos
          rw [p3.ecos]; exact hx2
        · refine ⟨⟨?_, ?_⟩, (hI1.strong q' xs' he).2⟩
          · show Holds bb3.tbBool _ _
            rw [p3.tbB]; exact tb2.b
          · show Holds bb3.tbInt _ _
            rw [p3.tbI]; exact tb2.i
  · obtain ⟨g', hI⟩ := hs
    exact ⟨g', hI.step⟩

omit H in
/-- the bounds and the split after `t` candidates of strong branching, visited in the order `σ` -/
structure StrongMid (P : Par F W) (xf : Nat → F) (node : Nat) (σ : Nat → Nat) (t : Nat) (g g' : Gh F) : Prop where
  bool : ∀ j, j < P.nb → g'.brow P node j = g.brow P node j ∨
    (isIntegral P.stgs.intTol (xf (P.bv j)) = .ok false ∧ (g'.brow P node j = 0 ∨ g'.brow P node j = 1) ∧ ∃ k, k < t ∧ σ k = j)
  int : ∀ j, j < P.ni → (g'.irow P node (2 * j) = g.irow P node (2 * j) ∧ g'.irow P node (2 * j + 1) = g.irow P node (2 * j + 1)) ∨
    (isIntegral P.stgs.intTol (xf (P.iv j)) = .ok false ∧ IntFix P (xf (P.iv j)) (g.irow P node) (g'.irow P node) j ∧
      ∃ k, k < t ∧ σ k = P.nb + j)
  split : 0 ≤ (g'.node node).splitIdx → ∃ i, i < P.nb + P.ni ∧ (g'.node node).splitIdx = (i : Int) ∧
    (g'.node node).splitVal = xf (vr P i) ∧ isIntegral P.stgs.intTol (xf (vr P i)) = .ok false

omit H in
theorem StrongMid.le {xf : Nat → F} {σ : Nat → Nat} {t : Nat} (h : StrongMid P xf node σ t g g') :
    StrongMid P xf node σ (t + 1) g g' where
  bool := fun j hj => (h.bool j hj).imp_right fun ⟨a, b, k, c, d⟩ => ⟨a, b, k, by omega, d⟩
  int := fun j hj => (h.int j hj).imp_right fun ⟨a, b, k, c, d⟩ => ⟨a, b, k, by omega, d⟩
  split := h.split

omit H in
theorem StrongMid.fix {xf : Nat → F} {σ : Nat → Nat} {t : Nat} (h : StrongMid P xf node σ t g g') (hi : σ t < P.nb + P.ni)
    (hI : isIntegral P.stgs.intTol (xf (vr P (σ t))) = .ok false) (hne : ∀ k, k < t → σ k ≠ σ t)
    (hf : Pinned P node (σ t) (xf (vr P (σ t))) g' g2) : StrongMid P xf node σ (t + 1) g g2 where
  bool := fun j hj => by
    rcases hf.bool j hj with q | ⟨rfl, q⟩
    · rw [q]; exact h.le.bool j hj
    · have : vr P (σ t) = P.bv (σ t) := by unfold vr; rw [if_pos hj]
      rw [this] at hI
      exact Or.inr ⟨hI, q, t, by omega, rfl⟩
  int := fun j hj => by
    rcases hf.int j hj with ⟨q1, q2⟩ | ⟨q1, q2⟩
    · rcases h.le.int j hj with p | ⟨p1, p2, p3⟩
      · rw [q1, q2]; exact Or.inl p
      · refine Or.inr ⟨p1, ?_, p3⟩
        unfold IntFix at p2 ⊢
        rw [q1, q2]; exact p2
    · have hv : vr P (σ t) = P.iv j := by unfold vr; rw [if_neg (by omega), ← q1, Nat.add_sub_cancel_left]
      rw [hv] at hI q2
      have hold : g'.irow P node (2 * j) = g.irow P node (2 * j) ∧ g'.irow P node (2 * j + 1) = g.irow P node (2 * j + 1) := by
        rcases h.int j hj with p | ⟨-, -, k, hk, e⟩
        · exact p
        · exact absurd (e.trans q1) (hne k hk)
      refine Or.inr ⟨hI, ?_, t, by omega, q1.symm⟩
      unfold IntFix at q2 ⊢
      rw [hold.1, hold.2] at q2; exact q2
  split := fun hc => by
    rcases hf.split with ⟨q1, q2⟩ | ⟨q1, q2⟩
    · rw [q1] at hc
      rw [q1, q2]; exact h.split hc
    · exact ⟨σ t, hi, q1, q2, hI⟩

theorem strong_ok (SH : StrongHyp P env G Gb) (h : Rep P bb g) (hn : node ≤ bb.iter)
    (hfr : Fractional P env (g.brow P node) (g.irow P node) bb.ecos)
    (hW : WOk P G (g.node node)) {xf0 : Nat → F} (hx0 : Holds bb.ecos.x P.n xf0) :
    Runs bad (strongBranching env bb node) (fun bb' => ∃ g', Step T node bb g bb' g' ∧
      0 ≤ (g'.node node).splitIdx ∧ StrongBy P xf0 node g g') := by
  unfold strongBranching
  obtain ⟨b, i, e1, r1, tb1⟩ := initStrong_ok h hn
  rw [e1, ok_bind_eq]
  rcases calcTmp_ok H.con r1 tb1.b tb1.i (fun _ => h.rowInt hn) with
    ⟨u, e0, hu⟩ | ⟨e', code, xf, hf, cf, e2, hcf, htr, hrw, w, ⟨es, hes, hsol⟩, hx, g1, g2⟩
  · rw [e0]; exact hu
  rw [e2, ok_bind_eq]
  obtain ⟨xs, e3, h3⟩ := memcpy_ok (N := 0) (dst := (malloc e'.n : Buf F)) (src := e'.x) (off := 0)
      (len := e'.n) (f := xf) (by simp) (fun i hi => by
        rw [Nat.zero_add]; rw [w.hn] at hi; exact hx.rd hi)
  simp only
  rw [e3, ok_bind_eq]
  rw [w.hn] at h3
  have r2 := r1.ecos w
  have hnm : ∀ {b : St F W I} {gg}, Step T node bb g b gg → node < P.stgs.maxit := fun hs => by
      have := hs.rep.iter_lt; have := hs.same.iter; omega
  obtain ⟨ns, e4, h4⟩ := Step.setNode (T := T) r2 (node := node) (by have := h.iter_lt; omega)
    (fun nd => { nd with splitIdx := -1 }) (fun nd => ⟨_, _, rfl⟩)
    (fun hw => ⟨by simp, by have := H.pos; simp only; omega, hw.2.2⟩)
  rw [e4, ok_bind_eq]
  simp only
  obtain ⟨p, r, e0, σ, hσ, hlt, hsur⟩ := getShuffled_ok (P := P) H.con (bb.nb + bb.ni) bb.rng
  rw [e0, ok_bind_eq, Runs_bind]
  have hS0 := (Step.inert (T := T) (node := node) (bb := bb) r2 (by constructor <;> rfl) rfl rfl).trans h4
  have hxe : ∀ i, i < P.n → xf i = xf0 i := by
    obtain ⟨e0', hf0, code0, xf1, he0, hr0, hsol0, hx1, -⟩ := hfr
    have hbb : ∀ j, j < P.nb → g.brow P node j = -1 ∨ g.brow P node j = 0 ∨ g.brow P node j = 1 :=
      fun j hj => h.bids _ (h.bpos hn hj).2
    have hu := HRows.unique hrw hr0 hes he0 hbb
    exact SH.det es e0' hf e' bb.ecos code code0 xf xf0 hes
      (he0.congr h.m_ge (fun r hr => (hu r hr).symm)) hsol hsol0 hx hx0
  refine loop_runs (fun t s => ∃ g', Step T node bb g s.1 g' ∧ TB P node s.1 g' ∧
    (0 ≤ (g'.node node).splitIdx ∨ (s.2 = -INF ∧
      ∀ k, k < t → isIntegral P.stgs.intTol (xf (vr P (σ k))) = .ok true)) ∧ StrongMid P xf node σ t g g') (Nat.zero_le _)
    ⟨_, hS0.trans (Step.inert (h4.rep.rng r) (by constructor <;> rfl) rfl rfl), ⟨tb1.b, tb1.i⟩,
      Or.inr ⟨rfl, fun k hk => absurd hk (by omega)⟩, ⟨fun _ _ => Or.inl rfl, fun _ _ => Or.inl ⟨rfl, rfl⟩, fun hc => by
        simp only [upd_self] at hc; omega⟩⟩ ?_ (fun s hs => ?_)
  · rintro t s _ ht ⟨g', hs, tb, hd, hmid⟩
    unfold strongStep
    have hr := hs.rep
    have hi : σ t < P.nb + P.ni := by have := hlt t ht; rwa [h.nb_eq, h.ni_eq] at this
    obtain ⟨e5, hl⟩ := varIdx_ok hr hi
    have hG := vr_G g1 g2 hi
    rw [hσ.rd ht, ok_bind_eq, e5, ok_bind_eq, h3.rd hl, ok_bind_eq, hr.stgs_eq]
    refine pf_ok H (isIntegral_runs H hG) fun b hb => ?_
    rw [Runs_ite]
    refine ⟨fun hbt => ⟨g', hs, tb, ?_, hmid.le⟩, fun hbf => ?_⟩
    · rcases hd with hd | ⟨hd1, hd2⟩
      · exact Or.inl hd
      · refine Or.inr ⟨hd1, fun k hk => ?_⟩
        by_cases hkt : k = t
        · subst hkt; rw [hb, hbt]
        · exact hd2 k (by omega)
    · rw [Runs_bind]
      have hn1 : node ≤ s.1.iter := by have := hs.same.iter; omega
      refine (strongVar_ok (T := T) H hr hn1 hi hG tb (hs.wok hW)).mono ?_
      rintro ⟨bb2, o⟩ ⟨g2', hst, tb2, hk, hnone, hx2, hfx⟩
      have hb' : isIntegral P.stgs.intTol (xf (vr P (σ t))) = .ok false := by rw [hb]; simp_all
      have hmid2 := hmid.fix hi hb' (fun k hk hkt => absurd (PermArr.inj hlt hsur (by omega) ht hkt) (by omega)) hfx
      unfold strongTake
      cases o with
      | none =>
        simp only [Runs_pure]
        exact ⟨g2', hs.trans hst, tb2, Or.inl (hnone rfl), hmid2⟩
      | some qq =>
        simp only
        obtain ⟨ns', r4, nd', e6, h6, h7, h8⟩ := takeScore_ok (T := T) hst.rep (node := node)
          (hnm (hs.trans hst)) hi hG s.2 (getScore (qq.1 - dotF P.n xf cf) (qq.2 - dotF P.n xf cf))
        rw [e6, Runs_ok]
        refine ⟨_, (hs.trans hst).trans h6.1, ⟨tb2.b, tb2.i⟩, Or.inl ?_, ⟨hmid2.bool, hmid2.int, fun hc => ?_⟩⟩
        · rcases hd with hd | ⟨hd1, _⟩
          · exact h6.2 (hk hd)
          · show 0 ≤ (upd g2'.node node nd' node).splitIdx
            rw [upd_self]
            refine (h7 ?_).1
            rw [hd1]; exact SH.score _ _
        · simp only [upd_self] at hc ⊢
          by_cases hbest : lt s.2 (getScore (qq.1 - dotF P.n xf cf) (qq.2 - dotF P.n xf cf)) = true
          · obtain ⟨-, k1, k2⟩ := h7 hbest
            exact ⟨σ t, hi, k1, k2, hb'⟩
          · obtain ⟨-, k2⟩ := h8 (by simpa using hbest)
            rw [k2] at hc ⊢
            exact hmid2.split hc
  · obtain ⟨g', hs, tb, hd, hmid⟩ := hs
    have h0 : 0 ≤ (g'.node node).splitIdx := by
      rcases hd with hd | ⟨_, hd⟩
      · exact hd
      · exfalso
        obtain ⟨e0', hf0, code0, xf1, he0, hr0, hsol0, hx1, i0, hi0, hfrac⟩ := hfr
        obtain ⟨k, hk, hki⟩ := hsur i0 (by rw [h.nb_eq, h.ni_eq]; exact hi0)
        have h1 := hd k hk
        have hv := (varIdx_ok h hi0).2
        rw [hki, hxe _ hv, hx0.unique hx1 hv] at h1
        have := hfrac true h1
        simp at this
    refine ⟨g', hs, h0, ⟨fun j hj => ?_, fun j hj => ?_, ?_⟩⟩
    · rcases hmid.bool j hj with q | ⟨q1, q2, -⟩
      · exact Or.inl q
      · rw [hxe _ (h.bv_lt j hj)] at q1
        exact Or.inr ⟨q1, q2⟩
    · rcases hmid.int j hj with q | ⟨q1, q2, -⟩
      · exact Or.inl q
      · rw [hxe _ (h.iv_lt j hj)] at q1 q2
        exact Or.inr ⟨q1, q2⟩
    · obtain ⟨i, hi, q1, q2, q3⟩ := hmid.split h0
      rw [hxe _ (varIdx_ok h hi).2] at q2 q3
      exact ⟨i, hi, q1, q2, q3⟩

/-- all strategies -/
theorem chooseVar_ok (LL : LtLaws F) (SH : P.stgs.strategy = 1 → StrongHyp P env G Gb) (fuel : Nat) (h : Rep P bb g)
    (hn : node ≤ bb.iter) {xf : Nat → F} (hx : Holds bb.ecos.x P.n xf) (g1 : ∀ i, i < P.nb → G (xf (P.bv i)))
    (g2 : ∀ i, i < P.ni → G (xf (P.iv i))) (hfr : P.stgs.strategy = 1 → Fractional P env (g.brow P node) (g.irow P node) bb.ecos)
    (hW : WOk P G (g.node node)) :
    Runs bad (chooseVar env fuel bb node) (fun bb' => ∃ g', Step0 T node bb g bb' g' ∧ (Treated P → Chosen P xf node g g')) := by
  unfold chooseVar
  rw [h.stgs_eq]
  simp only [Runs_ite]
  refine ⟨fun h0 => ?_, fun n0 => ⟨fun h1 => ?_, fun _ => ⟨fun h2 => ?_, fun n2 => ⟨fun h3 => ?_, fun _ =>
    ⟨fun h4 => ?_, fun n4 => ?_⟩⟩⟩⟩⟩
  · refine (mostInfeasible_ok (T := T) H LL h0 h hn hx g1 g2).mono ?_
    rintro bb' ⟨g', hs, hl⟩
    exact ⟨g', hs, fun _ => Or.inl ⟨Or.inl h0, hl⟩⟩
  · refine (strong_ok (T := T) H (SH h1) h hn (hfr h1) hW hx).mono ?_
    rintro bb' ⟨g', hs, h0, hb⟩
    exact ⟨g', ⟨hs, fun _ => h0⟩, fun _ => Or.inr ⟨h1, hb⟩⟩
  · refine (pseudocost_ok (T := T) H h2 h hn hx g1 g2).mono ?_
    rintro bb' ⟨g', hs, hl⟩
    exact ⟨g', hs, fun _ => Or.inl ⟨Or.inr (Or.inl h2), hl⟩⟩
  · refine (reliability_ok (T := T) H h hn ⟨xf, hx, g1, g2⟩ hW).mono ?_
    rintro bb' ⟨g', hs⟩
    exact ⟨g', hs, fun hp => by unfold Treated Plain at hp; omega⟩
  · refine (branchRandom_ok (T := T) H h4 fuel h hn hx g1 g2).mono ?_
    rintro bb' ⟨g', hs, hl⟩
    exact ⟨g', hs, fun _ => Or.inl ⟨Or.inr (Or.inr h4), hl⟩⟩
  · exact ⟨g, Step0.inert h (Same.refl _) rfl rfl, fun hp => by unfold Treated Plain at hp; omega⟩

end BB
end Ecos
