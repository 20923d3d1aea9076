import Verif.Lemmas.Amd26
import Verif.Lemmas.KktPat
import Verif.Lemmas.EqSame
import Verif.Model.SetupAmd

/-!
# AMD on the KKT matrix
-/
namespace Ecos.Amd

variable {n : Int} {jc ir : Int → Int}

theorem adj_idx (h : PatOk n jc ir) {x y : Int} (ha : Adj n jc ir x y) : Idx n x ∧ Idx n y := by
  obtain ⟨-, c, p, h1, h2, ⟨rfl, rfl⟩ | ⟨rfl, rfl⟩⟩ := ha
  · exact ⟨h1, (h.2 _ h1).2 p h2⟩
  · exact ⟨(h.2 _ h1).2 p h2, h1⟩

open Classical in
theorem sum_dg_card : ∑ x ∈ ix n, dg n (Adj n jc ir) x =
    (((ix n ×ˢ ix n).filter fun q => Adj n jc ir q.1 q.2).card : Int) := by
  unfold dg
  rw [← Nat.cast_sum]
  congr 1
  rw [Finset.card_filter, Finset.sum_product]
  exact Finset.sum_congr rfl fun x _ => Finset.card_filter _ _

open Classical in
/-- the column of a position -/
noncomputable def colAt (n : Int) (jc : Int → Int) (p : Int) : Int :=
  if h : ∃ c, Idx n c ∧ InC jc c p then h.choose else 0

theorem colAt_eq (h : PatOk n jc ir) {c p : Int} (h1 : Idx n c) (h2 : InC jc c p) : colAt n jc p = c := by
  have hx : ∃ c, Idx n c ∧ InC jc c p := ⟨c, h1, h2⟩
  have e : colAt n jc p = hx.choose := dif_pos hx
  rw [e]
  exact h.uniq hx.choose_spec.1 h1 hx.choose_spec.2 h2

theorem exists_colAt (h : PatOk n jc ir) (hn : 0 ≤ n) {p : Int} (h0 : 0 ≤ p) (h1 : p < jc n) : ∃ c, Idx n c ∧ InC jc c p := by
  have : ∀ m : Nat, (m : Int) ≤ n → p < jc m → ∃ c, Idx n c ∧ InC jc c p := by
    intro m
    induction m with
    | zero => intro _ q; rw [Nat.cast_zero, h.1] at q; omega
    | succ m ih =>
      intro hm q
      by_cases hq : p < jc m
      · exact ih (by push_cast at hm; omega) hq
      · exact ⟨m, ⟨by omega, by push_cast at hm; omega⟩, by omega, by push_cast at q; exact q⟩
  have := this n.toNat (by omega)
  rw [show (n.toNat : Int) = n by omega] at this
  exact this h1

/-- and at least one for an entry that is not on the diagonal, if there are no duplicates -/
theorem le_sum_dg (h : PatOk n jc ir) (hs : PatInc n jc ir) (hn : 0 ≤ n) : jc n - n ≤ ∑ x ∈ ix n, dg n (Adj n jc ir) x := by
  classical
  have hM := h.mat hn hs
  rw [sum_dg_card]
  let D := (Finset.Ico 0 (jc n)).filter fun p => ir p = colAt n jc p
  let E := (Finset.Ico 0 (jc n)).filter fun p => ¬ ir p = colAt n jc p
  have hDE : D.card + E.card = (jc n).toNat := by
    have := Finset.card_filter_add_card_filter_not (s := Finset.Ico 0 (jc n)) (p := fun p => ir p = colAt n jc p)
    rw [Int.card_Ico, sub_zero] at this
    exact this
  have hin : ∀ p q, p ∈ Finset.Ico 0 (jc n) → q ∈ Finset.Ico 0 (jc n) → colAt n jc p = colAt n jc q → ir p = ir q → p = q := by
    intro p q hp hq e1 e2
    have hp := Finset.mem_Ico.1 hp
    have hq := Finset.mem_Ico.1 hq
    obtain ⟨c, c1, c2⟩ := exists_colAt h hn hp.1 hp.2
    obtain ⟨d, d1, d2⟩ := exists_colAt h hn hq.1 hq.2
    rw [colAt_eq h c1 c2, colAt_eq h d1 d2] at e1
    subst e1
    rcases lt_trichotomy p q with hlt | heq | hlt
    · have := hM.sort c c1 p q c2 d2 hlt; omega
    · exact heq
    · have := hM.sort c c1 q p d2 c2 hlt; omega
  have hD : D.card ≤ n.toNat := by
    have : D.card ≤ (ix n).card := by
      refine Finset.card_le_card_of_injOn (colAt n jc) (fun p hp => ?_) fun p hp q hq e => ?_
      · have hp := Finset.mem_Ico.1 (Finset.mem_filter.1 hp).1
        obtain ⟨c, c1, c2⟩ := exists_colAt h hn hp.1 hp.2
        rw [colAt_eq h c1 c2]
        exact Finset.mem_coe.2 (Finset.mem_Ico.2 c1)
      · have hp := Finset.mem_filter.1 hp
        have hq := Finset.mem_filter.1 hq
        exact hin p q hp.1 hq.1 e (by rw [hp.2, hq.2, e])
    rwa [Int.card_Ico, sub_zero] at this
  have hE : E.card ≤ ((ix n ×ˢ ix n).filter fun q => Adj n jc ir q.1 q.2).card := by
    refine Finset.card_le_card_of_injOn (fun p => (colAt n jc p, ir p)) (fun p hp => ?_) fun p hp q hq e => ?_
    · have hp := Finset.mem_filter.1 hp
      have hp1 := Finset.mem_Ico.1 hp.1
      obtain ⟨c, c1, c2⟩ := exists_colAt h hn hp1.1 hp1.2
      have hr := (h.2 c c1).2 p c2
      have hne := hp.2
      rw [colAt_eq h c1 c2] at hne
      refine Finset.mem_coe.2 (Finset.mem_filter.2 ⟨Finset.mem_product.2 ⟨?_, ?_⟩, ?_⟩)
      · dsimp only
        rw [colAt_eq h c1 c2]
        exact Finset.mem_Ico.2 c1
      · exact Finset.mem_Ico.2 hr
      · dsimp only
        rw [colAt_eq h c1 c2]
        exact ⟨fun e => hne e.symm, c, p, c1, c2, Or.inl ⟨rfl, rfl⟩⟩
    · have hp := Finset.mem_filter.1 hp
      have hq := Finset.mem_filter.1 hq
      exact hin p q hp.1 hq.1 (Prod.mk.inj e).1 (Prod.mk.inj e).2
  omega

/-- the graph of `A + A'` has at most two edges for an entry -/
theorem sum_dg_le (h : PatOk n jc ir) (hn : 0 ≤ n) : ∑ x ∈ ix n, dg n (Adj n jc ir) x ≤ 2 * jc n := by
  classical
  have hnz : 0 ≤ jc n := by
    have := h.le (c := 0) (d := n) (le_refl _) (le_refl _) hn
    rw [h.1] at this
    exact this
  let f : Int × Bool → Int × Int := fun q => if q.2 then (colAt n jc q.1, ir q.1) else (ir q.1, colAt n jc q.1)
  have e2 : ((ix n ×ˢ ix n).filter fun q => Adj n jc ir q.1 q.2) ⊆ (Finset.Ico 0 (jc n) ×ˢ (Finset.univ : Finset Bool)).image f := by
    rintro ⟨x, y⟩ hq
    obtain ⟨-, hne, c, p, h1, h2, h3⟩ := Finset.mem_filter.1 hq
    have hp : p ∈ Finset.Ico 0 (jc n) := by
      have a1 := h.le (c := 0) (d := c) (le_refl _) (by omega) h1.1
      have a2 := h.le (c := c + 1) (d := n) (by omega) (le_refl _) (by omega)
      rw [h.1] at a1
      have := h2.1
      have := h2.2
      exact Finset.mem_Ico.2 ⟨by omega, by omega⟩
    rcases h3 with ⟨h3, h4⟩ | ⟨h3, h4⟩
    · refine Finset.mem_image.2 ⟨(p, true), Finset.mem_product.2 ⟨hp, Finset.mem_univ _⟩, ?_⟩
      show (colAt n jc p, ir p) = (x, y)
      dsimp only at h3 h4
      rw [colAt_eq h h1 h2, h3, h4]
    · refine Finset.mem_image.2 ⟨(p, false), Finset.mem_product.2 ⟨hp, Finset.mem_univ _⟩, ?_⟩
      show (ir p, colAt n jc p) = (x, y)
      dsimp only at h3 h4
      rw [colAt_eq h h1 h2, h3, h4]
  have e3 := (Finset.card_le_card e2).trans Finset.card_image_le
  rw [Finset.card_product, Int.card_Ico, Finset.card_univ, Fintype.card_bool] at e3
  rw [sum_dg_card]
  omega

/-- a bound for the workspace -/
theorem need_le (h : PatOk n jc ir) (hn : 0 ≤ n) : need n jc ir ≤ 2 * jc n + 2 * jc n / 5 + 7 * n := by
  have := sum_dg_le h hn
  unfold need slenOf
  omega

end Ecos.Amd

namespace Ecos

open Asm

/-! ### Arrays -/

theorem toI_size (b : Buf Nat) : (toI b).size = b.size := by simp [toI]

theorem rdI_toI {b : Buf Nat} {N : Nat} {f : Nat → Nat} (h : Holds b N f) {i : Int} (h0 : 0 ≤ i) (h1 : i < N) :
    rdI (toI b) i = .ok (f i.toNat : Int) := by
  have h2 := h.2 i.toNat (by omega)
  have h3 : (toI b)[i.toNat]? = some (some (f i.toNat : Int)) := by
    unfold toI
    rw [Array.getElem?_map, h2]
    rfl
  unfold rdI
  rw [if_neg (by omega)]
  simp [rd, h3]

/-- what AMD's result is as an array of `ECOS` -/
theorem toN_perm {P : Buf Int} {N : Nat} {p : Int → Int} (h : Amd.Cells P N p) (hp : Amd.PermI N p) :
    ∃ pf, Holds (toN P) N pf ∧ IsPerm N pf := by
  refine ⟨fun i => (p i).toNat, ⟨?_, fun i hi => ?_⟩, fun i hi => ?_, fun i j hi hj e => ?_⟩
  · unfold toN
    rw [Array.size_map, h.1]
    rfl
  · unfold toN
    have := h.2 i ⟨by omega, by omega⟩
    rw [Int.toNat_natCast] at this
    rw [Array.getElem?_map, this]
    rfl
  · have h1 := hp.1 i ⟨by omega, by omega⟩
    have h2 := h1.1
    have h3 := h1.2
    omega
  · have h1 := hp.1 i ⟨by omega, by omega⟩
    have h2 := hp.1 j ⟨by omega, by omega⟩
    have := hp.2 i j ⟨by omega, by omega⟩ ⟨by omega, by omega⟩ (by
      have := h1.1
      have := h2.1
      omega)
    omega

variable {dense0 : Nat → Int} {imax : Int}

/-- whatever it is given: if the ordering routine returns an array, that is a permutation -/
theorem amdCall_perm {N : Nat} {jc ir P : Buf Nat} (h : amdCall dense0 imax N jc ir = .ok (some P)) : ∃ pf, Holds P N pf ∧ IsPerm N pf := by
  unfold amdCall at h
  rw [bind_ok] at h
  obtain ⟨⟨st, Q⟩, hr, h⟩ := h
  cases st <;> simp only [pure_ok] at h <;> cases h
  obtain ⟨p, h1, h2⟩ := Amd.order_sound (by omega) (by simp [malloc]) hr (Or.inl rfl)
  exact toN_perm h1 h2

theorem amdOrder_perm (N : Nat) (jc ir P : Buf Nat) (h : amdOrder dense0 imax N jc ir = some P) : ∃ pf, Holds P N pf ∧ IsPerm N pf := by
  unfold amdOrder at h
  split at h
  · rename_i r hr
    rw [h] at hr
    exact amdCall_perm hr
  · cases h

/-- arrays of indices as AMD sees them -/
def liftI (f : Nat → Nat) : Int → Int := fun i => (f i.toNat : Int)

theorem patOk_lift {N : Nat} {jc ir : Nat → Nat} (h : CscOk N N jc ir) : Amd.PatOk N (liftI jc) (liftI ir) := by
  refine ⟨by simp [liftI, h.zero], fun c hc => ⟨?_, fun p hp => ?_⟩⟩
  · have := h.mono c.toNat (by omega)
    unfold liftI
    rw [show (c + 1).toNat = c.toNat + 1 by omega]
    omega
  · have h1 := hp.1
    have h2 := hp.2
    unfold liftI at h1 h2 ⊢
    rw [show (c + 1).toNat = c.toNat + 1 by omega] at h2
    have h3 := h.mono' (i := c.toNat + 1) (j := N) (by omega) le_rfl
    have := h.rows p.toNat (by omega)
    exact ⟨by omega, by omega⟩

theorem patInc_lift {N : Nat} {jc ir : Nat → Nat} : Amd.PatInc N (liftI jc) (liftI ir) ↔
    ∀ c, c < N → ∀ p, jc c ≤ p → p + 1 < jc (c + 1) → ir p < ir (p + 1) := by
  constructor
  · intro h c hc p h1 h2
    have := h c ⟨by omega, by omega⟩ p ⟨by simp [liftI, h1], by
      unfold liftI
      rw [show ((c : Int) + 1).toNat = c + 1 by omega]
      omega⟩ ⟨by
      unfold liftI
      rw [Int.toNat_natCast]
      omega, by
      unfold liftI
      rw [show ((c : Int) + 1).toNat = c + 1 by omega]
      omega⟩
    unfold liftI at this
    rw [show ((p : Int) + 1).toNat = p + 1 by omega, Int.toNat_natCast] at this
    omega
  · intro h c hc p hp1 hp2
    have h1 := hp1.1
    have h2 := hp2.2
    unfold liftI at h1 h2 ⊢
    rw [show (c + 1).toNat = c.toNat + 1 by omega] at h2
    have := h c.toNat (by omega) p.toNat (by omega) (by omega)
    rw [show (p + 1).toNat = p.toNat + 1 by omega]
    omega

/-- the ordering of a matrix given by arrays: no undefined behaviour, and it succeeds exactly if the columns are sorted without
duplicates and the workspace is not too large -/
theorem amdCall_ok {N : Nat} {bj bi : Buf Nat} {jc ir : Nat → Nat} (hj : Holds bj (N + 1) jc) (hi : Holds bi (jc N) ir) (ok : CscOk N N jc ir) :
    Ok (amdCall dense0 imax N bj bi) fun o =>
      (o = none ↔ N ≠ 0 ∧ ¬ ((∀ c, c < N → ∀ p, jc c ≤ p → p + 1 < jc (c + 1) → ir p < ir (p + 1)) ∧
        Amd.need N (liftI jc) (liftI ir) < imax)) := by
  unfold amdCall
  have := Amd.order_ok (dense0 := dense0 N) (imax := imax) (n := N) (Ap := toI bj) (Ai := toI bi) (jc := liftI jc) (ir := liftI ir)
    (N := jc N) (P := malloc N) (by omega) (fun c c0 c1 => rdI_toI hj c0 (by omega)) (fun p p0 p1 => rdI_toI hi p0 p1)
    (fun c c0 c1 => by
      have := ok.mono' (i := c.toNat) (j := N) (by omega) le_rfl
      unfold liftI
      omega) (by simp [malloc])
  have hpat := patOk_lift ok
  refine this.bind ?_
  rintro ⟨st, P⟩ h
  rw [← patInc_lift]
  dsimp only at h ⊢
  rcases h with ⟨h1, h2, rfl⟩ | ⟨h1, h2, h3, rfl⟩ | ⟨-, h2, -⟩
  · exact (h2 hpat).elim
  · dsimp only
    rw [Ok_pure]
    exact iff_of_true rfl ⟨by omega, fun q => by have := q.2; omega⟩
  · rcases h2 with ⟨h3, rfl⟩ | ⟨h3, h4, h5⟩
    · dsimp only
      rw [Ok_pure]
      exact iff_of_false (by simp) fun q => q.1 (by omega)
    · rcases h5 with ⟨rfl, h6⟩ | ⟨-, ⟨rfl, h6⟩ | ⟨rfl, h6⟩⟩
      · exact (h6 hpat).elim
      · dsimp only
        rw [Ok_pure]
        exact iff_of_false (by simp) fun q => q.2 ⟨h6, h4⟩
      · dsimp only
        rw [Ok_pure]
        exact iff_of_true rfl ⟨by omega, fun q => h6 q.1⟩

namespace Asm
section generic
variable {F : Type} [Zero F] [One F] [Add F] [Sub F] [Mul F] [Div F] [Neg F] [OfScientific F]
  [IntCast F] [PFloat F]
variable {T : Pat} {S : Shape} {a g : Nat → F}

/-- sorted columns, by positions -/
theorem PatGood.sorted_iff (hP : PatGood T S) :
    (∀ c, c < (partsOf T S a g).N → ∀ p, (partsOf T S a g).off c ≤ p → p + 1 < (partsOf T S a g).off (c + 1) →
      (partsOf T S a g).ir p < (partsOf T S a g).ir (p + 1)) ↔ PatNoDup T := by
  rw [← hP.inc_iff (a := a) (g := g)]
  refine forall_congr' fun c => forall_congr' fun hc => ?_
  constructor
  · intro h t ht
    have := h ((partsOf T S a g).off c + t) (by omega) (by rw [Parts.off_succ]; omega)
    rwa [Parts.ir_at _ hc (by omega), Nat.add_assoc, Parts.ir_at _ hc ht] at this
  · intro h p h1 h2
    rw [Parts.off_succ] at h2
    obtain ⟨t, rfl⟩ : ∃ t, p = (partsOf T S a g).off c + t := ⟨p - (partsOf T S a g).off c, by omega⟩
    rw [Parts.ir_at _ hc (by omega), Nat.add_assoc, Parts.ir_at _ hc (by omega)]
    exact h t (by omega)

/-- the workspace AMD asks for the KKT matrix; it does not depend on the values -/
noncomputable def amdNeed (P : Parts F) : Int := Amd.need P.N (liftI P.off) (liftI P.ir)

/-- the call of the ordering routine in `ECOS_setup` -/
theorem amdCall_kkt (hP : PatGood T S) {K : SpMat F} (hK : Rep K (partsOf T S a g).N (partsOf T S a g).N (partsOf T S a g).off
    (partsOf T S a g).ir (partsOf T S a g).pr) :
    Ok (amdCall dense0 imax K.n K.jc K.ir) fun o =>
      (o = none ↔ (partsOf T S a g).N ≠ 0 ∧ ¬ (PatNoDup T ∧ amdNeed (partsOf T S a g) < imax)) := by
  rw [hK.n_eq]
  refine (amdCall_ok (dense0 := dense0) (imax := imax) hK.hjc hK.hir hK.ok).mono fun o ho => ?_
  rw [ho, hP.sorted_iff]
  rfl

theorem amdNeed_same (a g a' g' : Nat → F) : amdNeed (partsOf T S a' g') = amdNeed (partsOf T S a g) := by
  unfold amdNeed
  rw [off_same a g, ir_same a g]
  rfl

theorem amdNeed_le (hP : PatGood T S) : amdNeed (partsOf T S a g) ≤
    2 * (partsOf T S a g).off (partsOf T S a g).N + 2 * (partsOf T S a g).off (partsOf T S a g).N / 5 + 7 * (partsOf T S a g).N := by
  have := Amd.need_le (patOk_lift ((partsOf T S a g).csc hP.parts)) (by omega)
  unfold amdNeed
  unfold liftI at this ⊢
  rw [Int.toNat_natCast] at this
  exact this

/-- `ECOS_setup` with AMD is `ECOS_setup` with the ordering as a function, and it returns a null pointer exactly if the ordering does not
succeed -/
theorem ecosSetupAmd_core {G3 A3 : Mat3 F} {qb : Buf Nat} {cb hb bb : Buf F} {a0 g0 c0 h0 b0 : Nat → F} (hP : PatGood T S)
    (hin : Given T S G3 A3 qb cb hb bb a0 g0 c0 h0 b0) (a g : Nat → F) (himax : 0 < imax) :
    ecosSetupAmd dense0 imax T.n T.m T.p S.l S.ns qb S.ne G3 A3 cb hb bb =
      ecosSetup (amdOrder dense0 imax) T.n T.m T.p S.l S.ns qb S.ne G3 A3 cb hb bb ∧
    ((∃ A G b h, ecosSetupAmd dense0 imax T.n T.m T.p S.l S.ns qb S.ne G3 A3 cb hb bb = .ok (.amd A G b h)) ↔
      ¬ (PatNoDup T ∧ amdNeed (partsOf T S a g) < imax)) := by
  unfold ecosSetupAmd ecosSetupM ecosSetup
  obtain ⟨soc, es, hs1, hs2⟩ := (Ok.def _ _).1 (newSocs_spec (F := F) hin.q)
  rw [es, ok_bind_eq, ok_bind_eq]
  have hf : soc.2 + S.l = S.fexv := by rw [hs2]; exact sum_q S
  have hm : ¬ (soc.2 + S.l + 3 * S.ne ≠ T.m) := by rw [hf, ← hP.m]; exact fun h => h rfl
  rw [if_neg hm, if_neg hm]
  obtain ⟨A, eA, hA⟩ := (Ok.def _ _).1 (setupA_ok hP hin.A)
  obtain ⟨G, eG, hG⟩ := (Ok.def _ _).1 (setupG_ok hP hin.G)
  rw [eA, ok_bind_eq, ok_bind_eq, eG, ok_bind_eq, ok_bind_eq, hf]
  obtain ⟨r, er, a', g', x, y, z, -, -, -, -, -, -, -, -, -, -, -, -, u1, -⟩ :=
    (Ok.def _ _).1 (setupPre_ok hP (newCone hP.pos hs1) hA hG hin.b hin.h eqTrue)
  unfold freshCone at er
  rw [er, ok_bind_eq, ok_bind_eq]
  obtain ⟨o, eo, ho⟩ := (Ok.def _ _).1 (amdCall_kkt (dense0 := dense0) (imax := imax) hP u1)
  have e2 : amdOrder dense0 imax r.U.K.n r.U.K.jc r.U.K.ir = o := by unfold amdOrder; rw [eo]
  rw [eo, ok_bind_eq, e2]
  refine ⟨rfl, ?_⟩
  have hnone : o = none ↔ ¬ (PatNoDup T ∧ amdNeed (partsOf T S a g) < imax) := by
    rw [ho, amdNeed_same a g]
    refine ⟨fun h => h.2, fun h => ⟨fun h0 => h ?_, h⟩⟩
    have hN : (partsOf T S a' g').N = T.n + T.p + S.x.m := rfl
    have hn : T.n = 0 := by omega
    refine ⟨⟨fun _ c hc => by omega, fun c hc => by omega⟩, ?_⟩
    unfold amdNeed
    rw [show (partsOf T S a g).N = 0 from h0]
    unfold Amd.need Amd.slenOf
    simpa using himax
  rw [← hnone]
  cases o with
  | none =>
    refine iff_of_true ?_ rfl
    exact ⟨_, _, _, _, rfl⟩
  | some P =>
    refine iff_of_false ?_ (by simp)
    rintro ⟨A', G', b', h', e⟩
    dsimp only at e
    rw [bind_ok] at e
    obtain ⟨K, -, e⟩ := e
    rw [pure_ok] at e
    cases e

end generic
end Asm
end Ecos
