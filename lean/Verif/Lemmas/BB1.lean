import Verif.Spec.BB

/-! # Branch and bound: memory effects of the small functions -/
set_option linter.unusedSectionVars false
set_option linter.unusedSimpArgs false
set_option linter.unusedVariables false

namespace Ecos
namespace BB

variable {F : Type} [Zero F] [One F] [Add F] [Sub F] [Mul F] [Div F] [Neg F] [OfScientific F]
  [IntCast F] [PFloat F] [HasInf F] {W I : Type}

@[simp] theorem rdI_nat {α : Type} (b : Buf α) (i : Nat) : rdI b (i : Int) = rd b i := by
  simp [rdI]

@[simp] theorem wrI_nat {α : Type} (b : Buf α) (i : Nat) (v : α) : wrI b (i : Int) v = wr b i v := by
  simp [wrI]

/-- fields that only the main loop and `updIncumbent` change -/
structure Same (bb bb' : St F W I) : Prop where
  iter : bb'.iter = bb.iter
  dive : bb'.dive = bb.dive
  gU : bb'.globalU = bb.globalU
  gL : bb'.globalL = bb.globalL
  x : bb'.x = bb.x
  y : bb'.y = bb.y
  z : bb'.z = bb.z
  s : bb'.s = bb.s
  kap : bb'.kap = bb.kap
  tau : bb'.tau = bb.tau
  info : bb'.info = bb.info

theorem Same.refl (bb : St F W I) : Same bb bb := by constructor <;> rfl
theorem Same.trans {a b c : St F W I} (h : Same a b) (h' : Same b c) : Same a c where
  iter := h'.iter.trans h.iter
  dive := h'.dive.trans h.dive
  gU := h'.gU.trans h.gU
  gL := h'.gL.trans h.gL
  x := h'.x.trans h.x
  y := h'.y.trans h.y
  z := h'.z.trans h.z
  s := h'.s.trans h.s
  kap := h'.kap.trans h.kap
  tau := h'.tau.trans h.tau
  info := h'.info.trans h.info

variable {P : Par F W} {bb bb' : St F W I} {g : Gh F}

theorem setNode_ok (h : Rep P bb g) {k : Nat} (hk : k < P.stgs.maxit) (f : Node F → Node F) :
    ∃ ns, setNode bb (k : Int) f = .ok { bb with nodes := ns } ∧
      Rep P { bb with nodes := ns } { g with node := upd g.node k (f (g.node k)) } := by
  unfold setNode
  rw [rdI_nat, h.hnodes.rd hk, ok_bind_eq, wrI_nat]
  obtain ⟨ns, e, hn⟩ := (Ok.def _ _).mp (h.hnodes.wr hk (f (g.node k)))
  rw [e]
  exact ⟨ns, rfl, { h with hnodes := hn }⟩

theorem setNode_runs {bad} (h : Rep P bb g) {k : Nat} (hk : k < P.stgs.maxit) (f : Node F → Node F)
    {Q : St F W I → Prop}
    (hQ : ∀ ns, Rep P { bb with nodes := ns } { g with node := upd g.node k (f (g.node k)) } →
      Q { bb with nodes := ns }) : Runs bad (setNode bb (k : Int) f) Q := by
  obtain ⟨ns, e, hr⟩ := setNode_ok h hk f
  rw [e]; exact hQ ns hr

theorem Rep.ecos (h : Rep P bb g) {e : EW F W I} {hf} (he : EWF P e hf) :
    Rep P { bb with ecos := e } g := { h with hew := ⟨hf, he⟩ }

theorem Rep.rng (h : Rep P bb g) (r : Nat) : Rep P { bb with rng := r } g := { h with }

theorem Rep.congr (h : Rep P bb g) {g' : Gh F} (hn : g'.node = g.node) (hb : g'.bid = g.bid)
    (hi : g'.iid = g.iid) : Rep P bb g' := by
  cases g; cases g'; simp_all

/-- rows of different nodes do not overlap -/
theorem row_lt {w k i K : Nat} (hi : i < w) (hk : k < K) : w * k + i < w * K := by
  have : w * (k + 1) ≤ w * K := Nat.mul_le_mul_left _ (by omega)
  rw [Nat.mul_add] at this; omega

theorem row_ne {w k k' i i' : Nat} (hi : i < w) (hi' : i' < w) (hk : k ≠ k') :
    w * k + i ≠ w * k' + i' := by
  rcases Nat.lt_or_gt_of_ne hk with h | h
  · have := row_lt (w := w) hi h; omega
  · have := row_lt (w := w) hi' h; omega

theorem row2_lt {w k i K : Nat} (hi : i < 2 * w) (hk : k < K) : w * k * 2 + i < w * K * 2 := by
  have := row_lt (w := 2 * w) hi hk
  have e1 : 2 * w * k = w * k * 2 := by ring_nf
  have e2 : 2 * w * K = w * K * 2 := by ring_nf
  omega

theorem row2_ne {w k k' i i' : Nat} (hi : i < 2 * w) (hi' : i' < 2 * w) (hk : k ≠ k') :
    w * k * 2 + i ≠ w * k' * 2 + i' := by
  have := row_ne (w := 2 * w) hi hi' hk
  have e1 : 2 * w * k = w * k * 2 := by ring_nf
  have e2 : 2 * w * k' = w * k' * 2 := by ring_nf
  omega

theorem Rep.bpos (h : Rep P bb g) {k i : Nat} (hk : k ≤ bb.iter) (hi : i < P.nb) :
    P.nb * k + i < P.stgs.maxit * P.nb ∧ P.nb * k + i < P.nb * (bb.iter + 1) := by
  have h1 := row_lt (w := P.nb) hi (show k < bb.iter + 1 by omega)
  have h2 := row_lt (w := P.nb) hi (show k < P.stgs.maxit by have := h.iter_lt; omega)
  rw [Nat.mul_comm P.stgs.maxit]; exact ⟨h2, h1⟩

theorem Rep.ipos (h : Rep P bb g) {k i : Nat} (hk : k ≤ bb.iter) (hi : i < 2 * P.ni) :
    P.ni * k * 2 + i < 2 * P.stgs.maxit * P.ni ∧ P.ni * k * 2 + i < P.ni * (bb.iter + 1) * 2 := by
  have h1 := row2_lt hi (show k < bb.iter + 1 by omega)
  have h2 := row2_lt hi (show k < P.stgs.maxit by have := h.iter_lt; omega)
  have : 2 * P.stgs.maxit * P.ni = P.ni * P.stgs.maxit * 2 := by ring_nf
  rw [this]; exact ⟨h2, h1⟩

theorem Rep.rd_bid (h : Rep P bb g) {k i : Nat} (hk : k ≤ bb.iter) (hi : i < P.nb) :
    rd bb.boolIds (P.nb * k + i) = .ok (g.brow P k i) :=
  h.hbool.rd (h.bpos hk hi).1 (h.bpos hk hi).2

theorem Rep.rd_iid (h : Rep P bb g) {k i : Nat} (hk : k ≤ bb.iter) (hi : i < 2 * P.ni) :
    rd bb.intIds (P.ni * k * 2 + i) = .ok (g.irow P k i) :=
  h.hint.rd (h.ipos hk hi).1 (h.ipos hk hi).2

theorem Rep.wr_bid (h : Rep P bb g) {k i : Nat} (hk : k ≤ bb.iter) (hi : i < P.nb) {v : Int}
    (hv : v = -1 ∨ v = 0 ∨ v = 1) :
    ∃ b, wr bb.boolIds (P.nb * k + i) v = .ok b ∧
      Rep P { bb with boolIds := b } { g with bid := upd g.bid (P.nb * k + i) v } := by
  obtain ⟨b, e, hb⟩ := (Ok.def _ _).mp (h.hbool.wr (h.bpos hk hi).1 v)
  refine ⟨b, e, { h with hbool := ?_, bids := ?_ }⟩
  · exact hb.congr (fun j _ hj => ⟨Or.inl hj, rfl⟩)
  · intro j hj
    show upd g.bid _ v j = _ ∨ upd g.bid _ v j = _ ∨ upd g.bid _ v j = _
    unfold upd
    split
    · exact hv
    · exact h.bids j hj

theorem Rep.wr_iid (h : Rep P bb g) {k i : Nat} (hk : k ≤ bb.iter) (hi : i < 2 * P.ni) {v : F} (hv : IntVal v) :
    ∃ b, wr bb.intIds (P.ni * k * 2 + i) v = .ok b ∧
      Rep P { bb with intIds := b } { g with iid := upd g.iid (P.ni * k * 2 + i) v } := by
  obtain ⟨b, e, hb⟩ := (Ok.def _ _).mp (h.hint.wr (h.ipos hk hi).1 v)
  refine ⟨b, e, { h with hint := hb.congr (fun j _ hj => ⟨Or.inl hj, rfl⟩), iids := ?_ }⟩
  intro j hj
  show IntVal (upd g.iid _ v j)
  unfold upd
  split
  · exact hv
  · exact h.iids j hj

/-- the integer bounds of a node are integers -/
theorem Rep.rowInt (h : Rep P bb g) {k : Nat} (hk : k ≤ bb.iter) {i : Nat} (hi : i < 2 * P.ni) : IntVal (g.irow P k i) :=
  h.iids _ (h.ipos hk hi).2

theorem cast_int {m : M Int} {r : F} (h : (m >>= fun k => (pure ((k : Int) : F) : M F)) = .ok r) : ∃ k : Int, r = (k : F) := by
  cases m with
  | error e => cases h
  | ok k => cases h; exact ⟨k, rfl⟩

theorem pfFloor_int {x tol r : F} (h : pfFloor x tol = .ok r) : IntVal r := by
  unfold pfFloor at h
  split at h
  all_goals
    obtain ⟨k, h⟩ := cast_int h
    exact ⟨k, .inl h⟩

theorem pfCeil_int {x tol r : F} (h : pfCeil x tol = .ok r) : IntVal (-r) := by
  unfold pfCeil at h
  split at h
  all_goals
    obtain ⟨k, h⟩ := cast_int h
    exact ⟨k, .inr (by rw [h])⟩

/-- effect of a cell write on the rows -/
theorem brow_upd {k k' i j : Nat} (hi : i < P.nb) (hj : j < P.nb) (v : Int) :
    ({ g with bid := upd g.bid (P.nb * k + i) v } : Gh F).brow P k' j =
      if k' = k ∧ j = i then v else g.brow P k' j := by
  unfold Gh.brow upd
  simp only
  by_cases hk : k' = k
  · subst hk; by_cases hji : j = i
    · simp [hji]
    · simp [hji]
  · rw [if_neg (row_ne hj hi hk)]; simp [hk]

theorem irow_upd {k k' i j : Nat} (hi : i < 2 * P.ni) (hj : j < 2 * P.ni) (v : F) :
    ({ g with iid := upd g.iid (P.ni * k * 2 + i) v } : Gh F).irow P k' j =
      if k' = k ∧ j = i then v else g.irow P k' j := by
  unfold Gh.irow upd
  simp only
  by_cases hk : k' = k
  · subst hk; by_cases hji : j = i
    · simp [hji]
    · simp [hji]
  · rw [if_neg (row2_ne hj hi hk)]; simp [hk]

/-! ### `set_prob` and the solver -/

theorem updH_ok {e : EW F W I} {hf} (he : EWF P e hf) {r : Nat} (hr : r < 2 * (P.nb + P.ni))
    (hm : 2 * (P.nb + P.ni) ≤ P.m) {v : F} (hv : r < 2 * P.nb → BoolBnd v) :
    ∃ h', updH e r v = .ok { e with h := h' } ∧
      EWF P { e with h := h' } (upd hf r (v / P.geq r)) := by
  unfold updH
  rw [he.hg.rd (show r < P.m by omega), ok_bind_eq]
  obtain ⟨h', e1, hh⟩ := (Ok.def _ _).mp (he.hh.wr (show r < P.m by omega) (v / P.geq r))
  rw [e1]
  refine ⟨h', rfl, { he with hh := hh, huser := ?_, hbnd := ?_ }⟩
  · intro j hj hjm
    rw [upd_ne _ _ (by omega)]
    exact he.huser j hj hjm
  · intro j hj
    by_cases hjr : j = r
    · subst hjr
      exact ⟨v, hv hj, upd_self _ _ _⟩
    · rw [upd_ne _ _ hjr]
      exact he.hbnd j hj

theorem updPair_ok {e : EW F W I} {hf} (he : EWF P e hf) {j : Nat} (hj : j < P.nb + P.ni)
    (hm : 2 * (P.nb + P.ni) ≤ P.m) {a b : F} (hv : j < P.nb → BoolBnd a ∧ BoolBnd b) :
    ∃ h', updPair e j a b = .ok { e with h := h' } ∧
      ∃ hf', EWF P { e with h := h' } hf' ∧ rowsAre P hf' j a b ∧
        ∀ i, i ≠ j → ∀ a b, rowsAre P hf i a b → rowsAre P hf' i a b := by
  unfold updPair
  obtain ⟨h1, e1, w1⟩ := updH_ok he (r := 2 * j) (by omega) hm (v := a) (fun h => (hv (by omega)).1)
  rw [e1, ok_bind_eq]
  obtain ⟨h2, e2, w2⟩ := updH_ok w1 (r := 2 * j + 1) (by omega) hm (v := b) (fun h => (hv (by omega)).2)
  rw [e2]
  refine ⟨h2, rfl, _, w2, ⟨?_, ?_⟩, ?_⟩
  · rw [upd_ne _ _ (by omega), upd_self]
  · rw [upd_self]
  · intro i hi a b hab
    refine ⟨?_, ?_⟩
    · rw [upd_ne _ _ (by omega), upd_ne _ _ (by omega)]; exact hab.1
    · rw [upd_ne _ _ (by omega), upd_ne _ _ (by omega)]; exact hab.2

/-- `set_prob` imposes the bounds given by the two arrays. -/
theorem setProb_ok (h : Rep P bb g) {bids : Buf Int} {boff : Nat} {bf : Nat → Int} {iids : Buf F}
    {ioff : Nat} {jf : Nat → F}
    (hb : ∀ i, i < P.nb → rd bids (boff + i) = .ok (bf i))
    (hi : ∀ i, i < 2 * P.ni → rd iids (ioff + i) = .ok (jf i)) :
    ∃ e hf, setProb bb bids boff iids ioff = .ok { bb with ecos := e } ∧ EWF P e hf ∧
      HRows P hf bf jf := by
  unfold setProb
  have hm := h.m_ge
  have h1 : Ok (loop 0 bb.nb bb.ecos (setBoolStep bids boff)) (fun e => ∃ hf, EWF P e hf ∧
      ∀ i, i < P.nb → (bf i = 1 → rowsAre P hf i (-1) 1) ∧ (bf i = 0 → rowsAre P hf i 0 0) ∧
        (bf i = -1 → rowsAre P hf i 0 1)) := by
    rw [h.nb_eq]
    refine loop_ok (fun t e => ∃ hf, EWF P e hf ∧
      ∀ i, i < t → (bf i = 1 → rowsAre P hf i (-1) 1) ∧ (bf i = 0 → rowsAre P hf i 0 0) ∧
        (bf i = -1 → rowsAre P hf i 0 1)) (Nat.zero_le _) ?_ ?_ (fun s hs => hs)
    · obtain ⟨hf, he⟩ := h.hew
      exact ⟨hf, he, fun i hi => absurd hi (by omega)⟩
    · rintro t e _ ht ⟨hf, he, hrow⟩
      unfold setBoolStep
      rw [hb t ht, ok_bind_eq]
      have key : ∀ a b : F, BoolBnd a → BoolBnd b → (∀ hf', rowsAre P hf' t a b → (bf t = 1 → rowsAre P hf' t (-1) 1) ∧
          (bf t = 0 → rowsAre P hf' t 0 0) ∧ (bf t = -1 → rowsAre P hf' t 0 1)) →
          Ok (updPair e t a b) (fun e => ∃ hf, EWF P e hf ∧
            ∀ i, i < t + 1 → (bf i = 1 → rowsAre P hf i (-1) 1) ∧ (bf i = 0 → rowsAre P hf i 0 0) ∧
              (bf i = -1 → rowsAre P hf i 0 1)) := by
        intro a b ha hb hab
        obtain ⟨h', e1, hf', w, hr, hk⟩ := updPair_ok he (j := t) (by omega) hm (a := a) (b := b) fun _ => ⟨ha, hb⟩
        rw [e1, Ok_ok]
        refine ⟨hf', w, fun i hi => ?_⟩
        by_cases hit : i = t
        · subst hit; exact hab _ hr
        · have := hrow i (by omega)
          exact ⟨fun h => hk i hit _ _ (this.1 h), fun h => hk i hit _ _ (this.2.1 h),
            fun h => hk i hit _ _ (this.2.2 h)⟩
      simp only [Ok_ite]
      refine ⟨fun (hv : bf t = 1) => key _ _ (.inr (.inr (.inl rfl))) (.inr (.inl rfl)) (fun hf' hr => ⟨fun _ => hr, fun h => by omega, fun h => by omega⟩),
        fun (v1 : ¬ bf t = 1) => ⟨fun (hv : bf t = 0) => key _ _ (.inl rfl) (.inl rfl) (fun hf' hr => ⟨fun h => by omega, fun _ => hr, fun h => by omega⟩),
        fun (v2 : ¬ bf t = 0) => ⟨fun (hv : bf t = -1) => key _ _ (.inl rfl) (.inr (.inl rfl)) (fun hf' hr => ⟨fun h => by omega, fun h => by omega, fun _ => hr⟩),
        fun (v3 : ¬ bf t = -1) => ?_⟩⟩⟩
      rw [Ok_pure]
      refine ⟨hf, he, fun i hi => ?_⟩
      by_cases hit : i = t
      · subst hit; exact ⟨fun h => absurd h v1, fun h => absurd h v2, fun h => absurd h v3⟩
      · exact hrow i (by omega)
  obtain ⟨e, e1, hf, he, hrow⟩ := (Ok.def _ _).mp h1
  rw [e1, ok_bind_eq, h.ni_eq, h.nb_eq]
  have h2 : Ok (loop 0 P.ni e (setIntStep P.nb iids ioff)) (fun e => ∃ hf, EWF P e hf ∧
      (∀ i, i < P.nb → (bf i = 1 → rowsAre P hf i (-1) 1) ∧ (bf i = 0 → rowsAre P hf i 0 0) ∧
        (bf i = -1 → rowsAre P hf i 0 1)) ∧
      ∀ i, i < P.ni → rowsAre P hf (i + P.nb) (jf (2 * i)) (jf (2 * i + 1))) := by
    refine loop_ok (fun t e => ∃ hf, EWF P e hf ∧
      (∀ i, i < P.nb → (bf i = 1 → rowsAre P hf i (-1) 1) ∧ (bf i = 0 → rowsAre P hf i 0 0) ∧
        (bf i = -1 → rowsAre P hf i 0 1)) ∧
      ∀ i, i < t → rowsAre P hf (i + P.nb) (jf (2 * i)) (jf (2 * i + 1))) (Nat.zero_le _) ?_ ?_
      (fun s hs => hs)
    · exact ⟨hf, he, hrow, fun i hi => absurd hi (by omega)⟩
    · rintro t e _ ht ⟨hf, he, hrow, hrow2⟩
      unfold setIntStep
      rw [hi (2 * t) (by omega), ok_bind_eq, hi (2 * t + 1) (by omega), ok_bind_eq]
      obtain ⟨h', e1, hf', w, hr, hk⟩ := updPair_ok he (j := t + P.nb) (by omega) hm
        (a := jf (2 * t)) (b := jf (2 * t + 1)) (fun h => absurd h (by omega))
      rw [e1, Ok_ok]
      refine ⟨hf', w, fun i hi => ?_, fun i hi => ?_⟩
      · have := hrow i hi
        have hne : i ≠ t + P.nb := by omega
        exact ⟨fun h => hk i hne _ _ (this.1 h), fun h => hk i hne _ _ (this.2.1 h),
            fun h => hk i hne _ _ (this.2.2 h)⟩
      · by_cases hit : i = t
        · subst hit; exact hr
        · exact hk _ (by omega) _ _ (hrow2 i (by omega))
  obtain ⟨e', e2, hf', he', hr1, hr2⟩ := (Ok.def _ _).mp h2
  rw [e2, ok_bind_eq]
  exact ⟨e', hf', rfl, he', ⟨fun i hi h => (hr1 i hi).1 h, fun i hi h => (hr1 i hi).2.1 h,
    fun i hi h => (hr1 i hi).2.2 h, hr2⟩⟩

theorem eddot_gen {x y : Buf F} {n : Nat} {f g : Nat → F} (hx : Holds x n f) (hy : Holds y n g) :
    eddot n x y = .ok (dotF n f g) := by
  have : Ok (eddot n x y) (fun z => z = dotF n f g) := by
    unfold eddot
    refine loop_ok (fun t z => z = dotF t f g) (Nat.zero_le _) rfl ?_ (fun s hs => hs)
    intro i s _ hi hs
    simp only [Ok_bind, hx.rd hi, hy.rd hi, Ok_ok, Ok_pure]
    rw [hs]; rfl
  obtain ⟨z, e, rfl⟩ := (Ok.def _ _).mp this
  exact e

theorem cost_ok {e : EW F W I} {hf xf} (he : EWF P e hf) (hx : Holds e.x P.n xf)
    (heq : bb.ecos = e) : ∃ cf, P.cs cf ∧ cost bb = .ok (dotF P.n xf cf) := by
  obtain ⟨cf, h1, h2⟩ := he.hc
  refine ⟨cf, h1, ?_⟩
  unfold cost
  rw [heq, he.hn]
  exact eddot_gen hx h2

theorem cost_congr {bb bb' : St F W I} (h : bb.ecos = bb'.ecos) : cost bb = cost bb' := by
  unfold cost; rw [h]

variable {env : Env F W I} {G Gb : F → Prop} {bad : UB → Prop}

/-- a call of the solver -/
theorem callSolve_ok (C : Contract P env G Gb bad) {hf} (he : EWF P bb.ecos hf) (hi : IntBnd P hf) :
    (∃ u, callSolve env bb = .error u ∧ bad u) ∨
    ∃ e' code xf, callSolve env bb = .ok ({ bb with ecos := e' }, code) ∧
      env.solve bb.ecos = .ok (e', code) ∧ EWF P e' hf ∧
      Holds e'.x P.n xf ∧ (∀ i, i < P.nb → G (xf (P.bv i))) ∧ (∀ i, i < P.ni → G (xf (P.iv i))) := by
  have h := C.solve _ _ he hi
  unfold callSolve
  cases hr : env.solve bb.ecos with
  | error u => exact Or.inl ⟨u, rfl, h.err hr⟩
  | ok r =>
    obtain ⟨w, xf, hx, g1, g2⟩ := h.out hr
    exact Or.inr ⟨r.1, r.2, xf, rfl, rfl, w, hx, g1, g2⟩

/-- integer bounds on the integer variables -/
theorem HRows.intBnd {hf : Nat → F} {bid : Nat → Int} {iid : Nat → F} (h : HRows P hf bid iid) (hi : ∀ i, i < 2 * P.ni → IntVal (iid i)) :
    IntBnd P hf := by
  intro r h1 h2
  obtain ⟨q1, q2⟩ := h.int (r / 2 - P.nb) (by omega)
  rcases (by omega : r = 2 * (r / 2 - P.nb + P.nb) ∨ r = 2 * (r / 2 - P.nb + P.nb) + 1) with e | e
  · rw [← e] at q1
    exact ⟨_, hi _ (by omega), q1⟩
  · rw [← e] at q2
    exact ⟨_, hi _ (by omega), q2⟩

/-- `set_prob` followed by `ECOS_solve` -/
theorem probSolve_ok (C : Contract P env G Gb bad) (h : Rep P bb g) {bids : Buf Int} {boff : Nat}
    {bf : Nat → Int} {iids : Buf F} {ioff : Nat} {jf : Nat → F}
    (hb : ∀ i, i < P.nb → rd bids (boff + i) = .ok (bf i))
    (hi : ∀ i, i < 2 * P.ni → rd iids (ioff + i) = .ok (jf i)) (hiv : ∀ i, i < 2 * P.ni → IntVal (jf i)) :
    ∃ bb1, setProb bb bids boff iids ioff = .ok bb1 ∧ ((∃ u, callSolve env bb1 = .error u ∧ bad u) ∨
      ∃ e' code xf hf, callSolve env bb1 = .ok ({ bb with ecos := e' }, code) ∧
      (∃ e, EWF P e hf ∧ env.solve e = .ok (e', code)) ∧ EWF P e' hf ∧ HRows P hf bf jf ∧
      Holds e'.x P.n xf ∧ (∀ i, i < P.nb → G (xf (P.bv i))) ∧ (∀ i, i < P.ni → G (xf (P.iv i)))) := by
  obtain ⟨e, hf, e1, he, hr⟩ := setProb_ok h hb hi
  refine ⟨_, e1, ?_⟩
  rcases callSolve_ok C (bb := { bb with ecos := e }) he (hr.intBnd hiv) with h | ⟨e', code, xf, e2, e3, w, hx, g1, g2⟩
  · exact Or.inl h
  · exact Or.inr ⟨e', code, xf, hf, e2, ⟨e, he, e3⟩, w, hr, hx, g1, g2⟩

end BB
end Ecos
