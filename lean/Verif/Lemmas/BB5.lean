import Verif.Lemmas.BB4

/-! # Branch and bound: branching and the search loop -/
set_option linter.unusedSectionVars false
set_option linter.unusedSimpArgs false
set_option linter.unusedVariables false

namespace Ecos
namespace BB

variable {F : Type} [Zero F] [One F] [Add F] [Sub F] [Mul F] [Div F] [Neg F] [OfScientific F]
  [IntCast F] [PFloat F] [HasInf F] {W I : Type}
variable {P : Par F W} {env : Env F W I} {G Gb : F → Prop} {bad : UB → Prop} {Rb : Int → Prop}
variable {T : Pt P env G} {node cur : Nat} {bb bb1 bb2 bb' : St F W I} {g g1 g2 g' : Gh F}

theorem setNode_raw {N k : Nat} {nf : Nat → Node F} (h : Holds bb.nodes N nf) (hk : k < N)
    (f : Node F → Node F) :
    ∃ ns, setNode bb (k : Int) f = .ok { bb with nodes := ns } ∧ Holds ns N (upd nf k (f (nf k))) := by
  unfold setNode
  rw [rdI_nat, h.rd hk, ok_bind_eq, wrI_nat]
  obtain ⟨ns, e, hn⟩ := (Ok.def _ _).mp (h.wr hk (f (nf k)))
  rw [e]
  exact ⟨ns, rfl, hn⟩

theorem copyRow_ok {α : Type} {b : Buf α} {N src dst len : Nat} {f : Nat → α}
    (hb : HoldsOn b N (fun k => k < dst) f) (hsrc : src + len ≤ dst) (hdst : dst + len ≤ N) :
    ∃ b', copyRow b src dst len = .ok b' ∧ HoldsOn b' N (fun k => k < dst + len)
      (fun k => if dst ≤ k then f (src + (k - dst)) else f k) := by
  have : Ok (copyRow b src dst len) (fun b' => HoldsOn b' N (fun k => k < dst + len)
      (fun k => if dst ≤ k then f (src + (k - dst)) else f k)) := by
    unfold copyRow
    refine loop_ok (fun t b' => HoldsOn b' N (fun k => k < dst + t)
      (fun k => if dst ≤ k then f (src + (k - dst)) else f k)) (Nat.zero_le _) ?_ ?_ (fun s hs => hs)
    · refine hb.congr (fun i hi hd => ⟨by omega, ?_⟩)
      rw [if_neg (by omega)]
    · intro t b' _ ht hb'
      rw [hb'.rd (show src + t < N by omega) (by omega), ok_bind_eq, if_neg (by omega)]
      refine (hb'.wr (show dst + t < N by omega) _).mono fun b2 hb2 => hb2.congr fun j hj hjt => ?_
      by_cases hjt' : j = dst + t
      · subst hjt'
        refine ⟨Or.inr rfl, ?_⟩
        rw [upd_self, if_pos (by omega), Nat.add_sub_cancel_left]
      · exact ⟨Or.inl (by omega), upd_ne _ _ hjt'⟩
  exact (Ok.def _ _).mp this

/-- What `branch` does. -/
structure BrPost (P : Par F W) (cur : Nat) (bb : St F W I) (g : Gh F) (bb' : St F W I)
    (g' : Gh F) : Prop where
  rep : Rep P bb' g'
  iter : bb'.iter = bb.iter + 1
  dive : bb'.dive = bb.dive
  gU : bb'.globalU = bb.globalU
  gL : bb'.globalL = bb.globalL
  ecos : bb'.ecos = bb.ecos
  x : bb'.x = bb.x
  y : bb'.y = bb.y
  z : bb'.z = bb.z
  s : bb'.s = bb.s
  kap : bb'.kap = bb.kap
  tau : bb'.tau = bb.tau
  info : bb'.info = bb.info
  others : ∀ k, k ≠ cur → k ≠ bb.iter + 1 → g'.node k = g.node k
  left : g'.node cur = leftOf (g.node cur)
  right : g'.node (bb.iter + 1) = rightOf (g.node cur) (g.node (bb.iter + 1))
  brows : ∀ k i, k ≤ bb.iter → k ≠ cur → i < P.nb → g'.brow P k i = g.brow P k i
  irows : ∀ k i, k ≤ bb.iter → k ≠ cur → i < 2 * P.ni → g'.irow P k i = g.irow P k i
  rows : Children P cur (bb.iter + 1) g g'

theorem BrPost.cover {cur : Nat} {bb bb' : St F W I} {g g' : Gh F} (h : BrPost P cur bb g bb' g')
    (T : Pt P env G) (hv : G (g.node cur).splitVal) (hbox : T.box (g.brow P cur) (g.irow P cur)) :
    T.box (g'.brow P cur) (g'.irow P cur) ∨
    T.box (g'.brow P (bb.iter + 1)) (g'.irow P (bb.iter + 1)) := by
  rcases h.rows with ⟨j, hj, _, h1, h2, h3, h4⟩ | ⟨j, fl, ce, hj, _, hfl, hce, h1, h2, h3, h4⟩
  · rcases T.splitB hbox hj with h0 | h0
    · exact Or.inl (T.congr h0 h1 h2)
    · exact Or.inr (T.congr h0 h3 h4)
  · rcases T.splitI hbox hj hv hfl hce with h0 | h0
    · exact Or.inl (T.congr h0 h1 h2)
    · exact Or.inr (T.congr h0 h3 h4)

theorem branch_ok (Hf : (P.nb : Int) ≤ (g.node cur).splitIdx → Runs bad (pfFloor (g.node cur).splitVal P.stgs.intTol) (fun _ => True))
    (Hc : (P.nb : Int) ≤ (g.node cur).splitIdx → Runs bad (pfCeil (g.node cur).splitVal P.stgs.intTol) (fun _ => True))
    (h : Rep P bb g) (hcur : cur ≤ bb.iter) (hit : bb.iter + 1 < P.stgs.maxit)
    (hlo : 0 ≤ (g.node cur).splitIdx) (hhi : (g.node cur).splitIdx < P.nb + P.ni) :
    Runs bad (branch cur { bb with iter := bb.iter + 1 }) (fun bb' => ∃ g', BrPost P cur bb g bb' g') := by
  unfold branch
  have hcm : cur < P.stgs.maxit := by omega
  simp only
  rw [h.hnodes.rd hcm, ok_bind_eq]
  obtain ⟨n1, e1, h1⟩ := setNode_raw (bb := { bb with iter := bb.iter + 1 }) h.hnodes hit
    (rightOf (g.node cur))
  rw [e1, ok_bind_eq]
  obtain ⟨n2, e2, h2⟩ := setNode_raw (bb := { bb with iter := bb.iter + 1, nodes := n1 }) h1 hcm leftOf
  rw [e2, ok_bind_eq]
  simp only
  have hne : cur ≠ bb.iter + 1 := by omega
  rw [upd_ne _ _ hne] at h2
  have hbs : P.nb * (bb.iter + 1) + P.nb ≤ P.stgs.maxit * P.nb := by
    have := Nat.mul_le_mul_left P.nb (show bb.iter + 2 ≤ P.stgs.maxit by omega)
    rw [Nat.mul_comm P.stgs.maxit]
    have e : P.nb * (bb.iter + 2) = P.nb * (bb.iter + 1) + P.nb := by ring
    omega
  have hbc : P.nb * cur + P.nb ≤ P.nb * (bb.iter + 1) := by
    have := Nat.mul_le_mul_left P.nb (show cur + 1 ≤ bb.iter + 1 by omega)
    have e : P.nb * (cur + 1) = P.nb * cur + P.nb := by ring
    omega
  obtain ⟨b3, e3, h3⟩ := copyRow_ok h.hbool hbc hbs
  rw [h.nb_eq, e3, ok_bind_eq]
  have his : P.ni * (bb.iter + 1) * 2 + P.ni * 2 ≤ 2 * P.stgs.maxit * P.ni := by
    have := Nat.mul_le_mul_left P.ni (show bb.iter + 2 ≤ P.stgs.maxit by omega)
    have e : P.ni * (bb.iter + 2) = P.ni * (bb.iter + 1) + P.ni := by ring
    have e' : 2 * P.stgs.maxit * P.ni = P.ni * P.stgs.maxit * 2 := by ring
    omega
  have hic : P.ni * cur * 2 + P.ni * 2 ≤ P.ni * (bb.iter + 1) * 2 := by
    have := Nat.mul_le_mul_left P.ni (show cur + 1 ≤ bb.iter + 1 by omega)
    have e : P.ni * (cur + 1) = P.ni * cur + P.ni := by ring
    omega
  obtain ⟨b4, e4, h4⟩ := copyRow_ok h.hint hic his
  rw [h.ni_eq, e4, ok_bind_eq]
  have r2 : Rep P { bb with nb := P.nb, ni := P.ni, iter := bb.iter + 1, nodes := n2, boolIds := b3, intIds := b4 }
      ⟨upd (upd g.node (bb.iter + 1) (rightOf (g.node cur) (g.node (bb.iter + 1)))) cur (leftOf (g.node cur)),
        (fun k => if P.nb * (bb.iter + 1) ≤ k then g.bid (P.nb * cur + (k - P.nb * (bb.iter + 1))) else g.bid k),
        (fun k => if P.ni * (bb.iter + 1) * 2 ≤ k then g.iid (P.ni * cur * 2 + (k - P.ni * (bb.iter + 1) * 2)) else g.iid k)⟩ :=
    { h with
      nb_eq := rfl
      ni_eq := rfl
      iter_lt := hit
      hnodes := h2
      hbool := h3.congr (fun k hk hk' => ⟨by
        have e : P.nb * (bb.iter + 1 + 1) = P.nb * (bb.iter + 1) + P.nb := by ring
        simp only at hk'; omega, rfl⟩)
      hint := h4.congr (fun k hk hk' => ⟨by
        have e : P.ni * (bb.iter + 1 + 1) * 2 = P.ni * (bb.iter + 1) * 2 + P.ni * 2 := by ring
        simp only at hk'; omega, rfl⟩)
      bids := fun k hk => by
        simp only at hk ⊢
        have e : P.nb * (bb.iter + 1 + 1) = P.nb * (bb.iter + 1) + P.nb := by ring
        split
        · exact h.bids _ (by omega)
        · exact h.bids _ (by omega)
      iids := fun k hk => by
        simp only at hk ⊢
        have e : P.ni * (bb.iter + 1 + 1) * 2 = P.ni * (bb.iter + 1) * 2 + P.ni * 2 := by ring
        split
        · exact h.iids _ (by omega)
        · exact h.iids _ (by omega) }
  generalize hg2 : (⟨upd (upd g.node (bb.iter + 1) (rightOf (g.node cur) (g.node (bb.iter + 1)))) cur (leftOf (g.node cur)),
        (fun k => if P.nb * (bb.iter + 1) ≤ k then g.bid (P.nb * cur + (k - P.nb * (bb.iter + 1))) else g.bid k),
        (fun k => if P.ni * (bb.iter + 1) * 2 ≤ k then g.iid (P.ni * cur * 2 + (k - P.ni * (bb.iter + 1) * 2)) else g.iid k)⟩ : Gh F) = gg at r2
  have browOld : ∀ k i, k ≤ bb.iter → i < P.nb → gg.brow P k i = g.brow P k i := by
    intro k i hk hi
    rw [← hg2]
    show (if _ then _ else _) = _
    rw [if_neg (by have := row_lt (w := P.nb) hi (show k < bb.iter + 1 by omega); omega)]
    rfl
  have browNew : ∀ i, i < P.nb → gg.brow P (bb.iter + 1) i = g.brow P cur i := by
    intro i hi
    rw [← hg2]
    show (if _ then _ else _) = _
    rw [if_pos (by omega), Nat.add_sub_cancel_left]
    rfl
  have irowOld : ∀ k i, k ≤ bb.iter → i < 2 * P.ni → gg.irow P k i = g.irow P k i := by
    intro k i hk hi
    rw [← hg2]
    show (if _ then _ else _) = _
    rw [if_neg (by have := row2_lt (w := P.ni) hi (show k < bb.iter + 1 by omega); omega)]
    rfl
  have irowNew : ∀ i, i < 2 * P.ni → gg.irow P (bb.iter + 1) i = g.irow P cur i := by
    intro i hi
    rw [← hg2]
    show (if _ then _ else _) = _
    rw [if_pos (by omega), Nat.add_sub_cancel_left]
    rfl
  have nOth : ∀ k, k ≠ cur → k ≠ bb.iter + 1 → gg.node k = g.node k := by
    intro k h1 h2; rw [← hg2]; simp only [upd_ne _ _ h1, upd_ne _ _ h2]
  have nL : gg.node cur = leftOf (g.node cur) := by rw [← hg2]; simp only [upd_self]
  have nR : gg.node (bb.iter + 1) = rightOf (g.node cur) (g.node (bb.iter + 1)) := by
    rw [← hg2]; simp only [upd_ne _ _ (Ne.symm hne), upd_self]
  obtain ⟨k, hk⟩ := Int.eq_ofNat_of_zero_le hlo
  have hkhi : k < P.nb + P.ni := by omega
  simp only [Runs_ite]
  refine ⟨fun hb => ?_, fun hb => ?_⟩
  · rw [hk] at hb ⊢
    have hkb : k < P.nb := by omega
    unfold splitBool
    obtain ⟨b5, e5, r5⟩ := r2.wr_bid (k := cur) (i := k) (by simp only; omega) hkb (v := MI_ZERO) (Or.inr (Or.inl rfl))
    obtain ⟨b6, e6, r6⟩ := r5.wr_bid (k := bb.iter + 1) (i := k) (by simp only; omega) hkb (v := MI_ONE) (Or.inr (Or.inr rfl))
    simp only at e5 e6
    rw [← Nat.cast_add, wrI_nat, e5, ok_bind_eq, ← Nat.cast_add, wrI_nat, e6, ok_bind_eq, Runs_pure]
    exact ⟨_, {
      rep := r6
      iter := rfl, dive := rfl, gU := rfl, gL := rfl, ecos := rfl, x := rfl, y := rfl, z := rfl, s := rfl, kap := rfl, tau := rfl
      info := rfl
      others := nOth
      left := nL
      right := nR
      brows := fun k' i hk1 hk2 hi => by
        rw [brow_upd (g := { gg with bid := upd gg.bid (P.nb * cur + k) MI_ZERO }) hkb hi,
          if_neg (by omega), brow_upd hkb hi, if_neg (by omega)]
        exact browOld k' i hk1 hi
      irows := fun k' i hk1 hk2 hi => irowOld k' i hk1 hi
      rows := by
        refine Or.inl ⟨k, hkb, hk, fun j hj => ?_, fun j hj => irowOld cur j hcur hj, fun j hj => ?_,
          fun j hj => irowNew j hj⟩
        · rw [brow_upd (g := { gg with bid := upd gg.bid (P.nb * cur + k) MI_ZERO }) hkb hj,
            if_neg (by omega), brow_upd hkb hj]
          unfold upd
          by_cases hjk : j = k
          · simp [hjk, MI_ZERO]
          · simp [hjk]; exact browOld cur j hcur hj
        · rw [brow_upd (g := { gg with bid := upd gg.bid (P.nb * cur + k) MI_ZERO }) hkb hj]
          unfold upd
          by_cases hjk : j = k
          · simp [hjk, MI_ONE]
          · rw [if_neg (by omega), if_neg hjk]
            have := brow_upd (P := P) (g := gg) (k := cur) (k' := bb.iter + 1) hkb hj MI_ZERO
            unfold upd at this
            rw [this, if_neg (by omega)]
            exact browNew j hj }⟩
  · rw [hk] at hb ⊢
    have hkb : P.nb ≤ k := by omega
    obtain ⟨t, rfl⟩ := Nat.exists_eq_add_of_le hkb
    have ht : t < P.ni := by omega
    unfold splitInt
    simp only
    rw [h.stgs_eq]
    refine Runs.bindEq (Hf (by omega)) fun fl hfl => ?_
    have r2' : Rep P { bb with nb := P.nb, ni := P.ni, iter := bb.iter + 1, nodes := n2, boolIds := b3, intIds := b4, stgs := P.stgs } gg :=
      { r2 with stgs_eq := rfl }
    obtain ⟨b5, e5, r5⟩ := r2'.wr_iid (k := cur) (i := 2 * t + 1) (by simp only; omega) (by omega) (pfFloor_int hfl)
    have c1 : ((P.ni * cur * 2 : Nat) : Int) + (((P.nb + t : Nat) : Int) - (P.nb : Nat)) * 2 + 1 =
      ((P.ni * cur * 2 + (2 * t + 1) : Nat) : Int) := by push_cast; ring
    have c1' : ((P.ni * cur * 2 : Nat) : Int) + ((((P.nb + t : Nat) : Int) - (P.nb : Nat)) * 2 + 1) =
      ((P.ni * cur * 2 + (2 * t + 1) : Nat) : Int) := by push_cast; ring
    have c2 : ((P.ni * (bb.iter + 1) * 2 : Nat) : Int) + (((P.nb + t : Nat) : Int) - (P.nb : Nat)) * 2 =
      ((P.ni * (bb.iter + 1) * 2 + 2 * t : Nat) : Int) := by push_cast; ring
    simp only at e5
    rw [c1', wrI_nat, e5, ok_bind_eq]
    refine Runs.bindEq (Hc (by omega)) fun ce hce => ?_
    obtain ⟨b6, e6, r6⟩ := r5.wr_iid (k := bb.iter + 1) (i := 2 * t) (by simp only; omega) (by omega) (pfCeil_int hce)
    simp only at e6
    rw [c2, wrI_nat, e6, ok_bind_eq, Runs_pure]
    have hp1 : 2 * t + 1 < 2 * P.ni := by omega
    have hp2 : 2 * t < 2 * P.ni := by omega
    refine ⟨_, {
      rep := r6
      iter := rfl, dive := rfl, gU := rfl, gL := rfl, ecos := rfl, x := rfl, y := rfl, z := rfl, s := rfl, kap := rfl, tau := rfl
      info := rfl
      others := nOth
      left := nL
      right := nR
      brows := fun k' i hk1 hk2 hi => browOld k' i hk1 hi
      irows := fun k' i hk1 hk2 hi => by
        rw [irow_upd (g := { gg with iid := upd gg.iid (P.ni * cur * 2 + (2 * t + 1)) fl }) hp2 hi,
          if_neg (by omega), irow_upd hp1 hi, if_neg (by omega)]
        exact irowOld k' i hk1 hi
      rows := by
        refine Or.inr ⟨t, fl, ce, ht, hk, hfl, hce, fun j hj => browOld cur j hcur hj, fun j hj => ?_,
          fun j hj => browNew j hj, fun j hj => ?_⟩
        · rw [irow_upd (g := { gg with iid := upd gg.iid (P.ni * cur * 2 + (2 * t + 1)) fl }) hp2 hj,
            if_neg (by omega), irow_upd hp1 hj]
          unfold upd
          by_cases hjk : j = 2 * t + 1
          · simp [hjk]
          · simp [hjk]; exact irowOld cur j hcur hj
        · rw [irow_upd (g := { gg with iid := upd gg.iid (P.ni * cur * 2 + (2 * t + 1)) fl }) hp2 hj]
          unfold upd
          by_cases hjk : j = 2 * t
          · simp [hjk]
          · rw [if_neg (by omega), if_neg hjk]
            have := irow_upd (P := P) (g := gg) (k := cur) (k' := bb.iter + 1) hp1 hj fl
            unfold upd at this
            rw [this, if_neg (by omega)]
            exact irowNew j hj }⟩

end BB
end Ecos
