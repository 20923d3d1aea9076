import Verif.Lemmas.Upd2

/-!
# The workspace between calls, and `ECOS_updateData`
-/
namespace Ecos.Asm

open Ecos Finset Ecos.Fact

set_option linter.unusedSectionVars false

theorem count_congr' {p q : Nat → Prop} [DecidablePred p] [DecidablePred q] {n : Nat} (h : ∀ k, k < n → (p k ↔ q k)) :
    Nat.count p n = Nat.count q n := by
  induction n with
  | zero => simp
  | succ n ih =>
    rw [Nat.count_succ, Nat.count_succ, ih fun k hk => h k (by omega)]
    congr 1
    by_cases hp : p n
    · rw [if_pos hp, if_pos ((h n (by omega)).1 hp)]
    · rw [if_neg hp, if_neg fun hq => hp ((h n (by omega)).2 hq)]

theorem csStart_congr {κ κ' : Nat → Nat} {N : Nat} (h : ∀ k, k < N → κ k = κ' k) (r : Nat) : csStart κ N r = csStart κ' N r :=
  count_congr' fun k hk => by rw [h k hk]

theorem csPos_congr {κ κ' : Nat → Nat} {N k : Nat} (h : ∀ k, k < N → κ k = κ' k) (hk : k < N) : csPos κ N k = csPos κ' N k := by
  unfold csPos
  rw [h k hk, csStart_congr h]
  congr 1
  exact count_congr' fun i hi => by rw [h i (by omega)]

section generic
variable {F : Type} [Zero F] [One F] [Add F] [Sub F] [Mul F] [Div F] [Neg F] [OfScientific F]
  [IntCast F] [PFloat F] {T : Pat} {S : Shape}

section made
variable {P : Parts F} (hP : P.Ok) {K : Kkt F} {π ai q : Nat → Nat} {ax : Nat → F} {sg : Nat → Int}

include hP in
theorem Parts.key_lt {π : Nat → Nat} (hπ : IsPerm P.N π) {k : Nat} (hk : k < P.off P.N) : P.key π k < P.N := by
  unfold Parts.key permKey permCol
  have h1 := hπ.lt _ ((P.csc hP).rows k hk)
  have h2 := hπ.lt _ (colOf_lt (P.csc hP) hk)
  split <;> assumption

include hP in
theorem Parts.ap_top {π : Nat → Nat} (hπ : IsPerm P.N π) : P.ap π P.N = P.off P.N :=
  csStart_top fun _ hk => P.key_lt hP hπ hk

theorem Parts.pk_perm (P : Parts F) (π : Nat → Nat) : IsPerm (P.off P.N) (P.pk π) :=
  ⟨fun _ hk => csPos_lt_N hk, fun _ _ hk hk' h => csPos_inj hk hk' h⟩

include hP in
theorem KMade.kv (h : KMade K P π ai q ax sg) : KV K.PKPt.pr (P.off P.N) (P.pk π) fun k => ax (P.pk π k) := by
  have := h.rep.hpr
  rw [P.ap_top hP h.perm] at this
  exact ⟨this.size, fun x hx => this.2 _ ((P.pk_perm π).lt x hx)⟩

include hP in
/-- other numbers in the matrix -/
theorem KMade.put (h : KMade K P π ai q ax sg) {b : Buf F} {f : Nat → F} (hb : KV b (P.off P.N) (P.pk π) f) :
    ∃ ax', KMade { K with PKPt := { K.PKPt with pr := b } } P π ai q ax' sg ∧ ∀ k, k < P.off P.N → ax' (P.pk π k) = f k := by
  have e := P.ap_top hP h.perm
  have hh : Holds b (P.ap π P.N) fun i => f (csInv (P.key π) (P.off P.N) i) := by
    rw [e]
    refine ⟨hb.size, fun i hi => ?_⟩
    obtain ⟨h1, h2⟩ := csInv_spec (κ := P.key π) hi
    have := hb.at_ _ h1
    unfold Parts.pk at this
    rw [h2] at this
    exact this
  refine ⟨fun i => f (csInv (P.key π) (P.off P.N) i), ⟨h.pinv, h.perm, ⟨h.ok.n, h.ok.pat, h.ok.tree, h.ok.jc, h.ok.ir, hh.2, h.ok.lp, h.ok.lir,
    h.ok.lpr, h.ok.par, h.ok.sign⟩, ⟨h.rep.m_eq, h.rep.n_eq, h.rep.nnz_eq, h.rep.hjc, h.rep.hir, hh, h.rep.ok⟩, h.pk, h.ai_eq, h.sign,
    h.d, h.r1, h.r2, h.x1, h.x2, h.y1, h.y2, h.z1, h.z2, h.mem.of rfl rfl h.mem.lnz rfl rfl rfl rfl rfl⟩, fun k hk => ?_⟩
  unfold Parts.pk
  beta_reduce
  rw [csInv_pos hk]

/-- two structs for the same pattern and the same permutation -/
theorem KMade.same {K' : Kkt F} {π' ai' q' : Nat → Nat} {ax' : Nat → F} {sg' : Nat → Int} (hP : P.Ok) (h : KMade K P π ai q ax sg)
    (h' : KMade K' P π' ai' q' ax' sg') (e : ∀ i, i < P.N → π i = π' i) :
    K.PK = K'.PK ∧ (∀ b, ({ K.PKPt with pr := b } : SpMat F) = { K'.PKPt with pr := b }) ∧ ∀ k, k < P.off P.N → P.pk π k = P.pk π' k := by
  have hkey : ∀ k, k < P.off P.N → P.key π k = P.key π' k := by
    intro k hk
    unfold Parts.key permKey
    rw [e _ ((P.csc hP).rows k hk), e _ (colOf_lt (P.csc hP) hk)]
  have hpk : ∀ k, k < P.off P.N → P.pk π k = P.pk π' k := fun k hk => csPos_congr hkey hk
  have hap : P.ap π = P.ap π' := funext fun r => csStart_congr hkey r
  refine ⟨(h.pk.congr hpk).same h'.pk, fun b => ?_, hpk⟩
  have hai : ∀ i, i < P.ap π P.N → ai i = ai' i := by
    intro i hi
    rw [P.ap_top hP h.perm] at hi
    obtain ⟨k, hk, rfl⟩ := csPos_surj (κ := P.key π) hi
    have e1 := h.ai_eq k hk
    have e2 := h'.ai_eq k hk
    have e3 := hpk k hk
    unfold Parts.pk at e1 e2 e3
    rw [e1, e3, e2, e _ ((P.csc hP).rows k hk), e _ (colOf_lt (P.csc hP) hk)]
  have j := h.rep.hjc
  have j' := h'.rep.hjc
  have i := h.rep.hir.congr hai
  have i' := h'.rep.hir
  have n := h.rep.nnz_eq
  rw [hap] at j i n
  dsimp only
  rw [j.same j', i.same i', n, h'.rep.nnz_eq, h.rep.m_eq, h'.rep.m_eq, h.rep.n_eq, h'.rep.n_eq]

end made

theorem KMade.re {K : Kkt F} {a g a' g' : Nat → F} {π ai q : Nat → Nat} {ax : Nat → F} {sg : Nat → Int}
    (h : KMade K (partsOf T S a g) π ai q ax sg) : KMade K (partsOf T S a' g') π ai q ax sg := by
  have hN : (partsOf T S a' g').N = (partsOf T S a g).N := rfl
  refine ⟨h.pinv, h.perm, ?_, ?_, ?_, ?_, h.sign, h.d, h.r1, h.r2, h.x1, h.x2, h.y1, h.y2, h.z1, h.z2, ?_⟩
  · rw [ap_same a g]; exact h.ok
  · rw [ap_same a g]; exact h.rep
  · rw [pk_same a g, off_same a g]; exact h.pk
  · rw [pk_same a g, off_same a g, ir_same a g]; exact h.ai_eq
  · rw [ap_same a g]; exact h.mem

theorem Ordered.re {amd : Nat → Buf Nat → Buf Nat → Option (Buf Nat)} {a g a' g' : Nat → F} {π : Nat → Nat}
    (h : Ordered amd (partsOf T S a g) π) : Ordered amd (partsOf T S a' g') π := by
  unfold Ordered
  rw [off_same a g, ir_same a g]
  exact h

/-- the same ordering gives the same permutation -/
theorem Ordered.same {amd : Nat → Buf Nat → Buf Nat → Option (Buf Nat)}
    (hamd : ∀ N jc ir P, amd N jc ir = some P → ∃ pf, Holds P N pf ∧ IsPerm N pf) {P : Parts F} {π π' : Nat → Nat} {jc ir : Buf Nat}
    (hj : Holds jc (P.N + 1) P.off) (hi : Holds ir (P.off P.N) P.ir) (h : Ordered amd P π) (h' : Ordered amd P π') :
    ∀ i, i < P.N → π i = π' i := by
  obtain ⟨b, pf, e1, e2, e3⟩ := h jc ir hj hi
  obtain ⟨b', pf', e1', e2', e3'⟩ := h' jc ir hj hi
  rw [e1] at e1'
  cases e1'
  obtain ⟨pf2, g1, g2⟩ := hamd _ _ _ _ e1
  intro i hi
  obtain ⟨k, hk, rfl⟩ := g2.surj hi
  rw [← e2.unique g1 hk, e3 k hk]
  have := e3' k hk
  rw [← e2.unique e2' hk] at this
  exact this.symm

/-- what every call leaves in the workspace: sizes, problem data, index maps, and a KKT matrix that has the right values outside
the (3,3) block -/
structure Live (amd : Nat → Buf Nat → Buf Nat → Option (Buf Nat)) (w : Work F) (T : Pat) (S : Shape) (a g c b h x y z : Nat → F)
    (π ai q : Nat → Nat) (ax : Nat → F) (sg : Nat → Int) : Prop where
  sz : Sizes w T S
  data : DataIs w T S (partsOf T S a g) a g c b h x y z
  cone : ConeWF w.C S (partsOf T S a g).ix
  made : KMade w.KKT (partsOf T S a g) π ai q ax sg
  ord : Ordered amd (partsOf T S a g) π
  val : Agree (partsOf T S a g) (fun k => ax ((partsOf T S a g).pk π k)) (partsOf T S a g).pr

/-- some problem data make the workspace `Live` -/
def LiveW (amd : Nat → Buf Nat → Buf Nat → Option (Buf Nat)) (T : Pat) (S : Shape) (w : Work F) : Prop :=
  ∃ a g c b h x y z π ai q ax sg, Live amd w T S a g c b h x y z π ai q ax sg

/-- new matrices, vectors and equilibration: `ECOS_updateData` -/
theorem updateData_ok {amd : Nat → Buf Nat → Buf Nat → Option (Buf Nat)} {w : Work F} {a g c b h x y z : Nat → F} {π ai q : Nat → Nat}
    {ax : Nat → F} {sg : Nat → Int} (hP : PatGood T S) (hw : Live amd w T S a g c b h x y z π ai q ax sg) {t : Apart}
    (ht : t.G = true → T.hasA = true) {Gpr Apr vc vh vb : Buf F} {a1 g1 c1 h1 b1 : Nat → F} (hG : Holds Gpr (T.jcG T.n) g1)
    (hA : T.hasA = true → Holds Apr (T.jcA T.n) a1) (hc : Holds vc T.n c1) (hh : Holds vh T.m h1) (hb : Holds vb T.p b1)
    {PO P0 P1 : F → Prop} {R : F → F → F → F → Prop} (hR : EqPred PO P0 P1 R)
    (oa : ∀ k, T.hasA → k < T.jcA T.n → PO (a1 k) := by intros; trivial) (og : ∀ k, k < T.jcG T.n → PO (g1 k) := by intros; trivial) :
    Ok (ecosUpdateData w t Gpr Apr vc vh vb) fun r => ∃ a2 g2 x2 y2 z2 ax2,
      Live amd r.1 T S a2 g2 c1 (fun i => b1 i / y2 i) (fun i => h1 i / z2 i) x2 y2 z2 π ai q ax2 sg ∧
      EqRun T S a1 g1 b1 h1 (r.1.eqs, r.1.b, r.1.h) ∧
      (∀ i, i < T.n → P1 (x2 i)) ∧ (∀ i, i < T.p → P1 (y2 i)) ∧ (∀ i, i < T.m → P1 (z2 i)) ∧ Uniform S z2 ∧
      (∀ k, T.hasA → k < T.jcA T.n → R (a1 k) (y2 (T.irA k)) (x2 (colOf T.n T.jcA k)) (a2 k)) ∧
      (∀ k, k < T.jcG T.n → R (g1 k) (z2 (T.irG k)) (x2 (colOf T.n T.jcG k)) (g2 k)) ∧
      r.1.C = w.C ∧ r.1.stgs = w.stgs ∧ r.1.KKT.PK = w.KKT.PK := by
  unfold ecosUpdateData
  have hd := hw.data
  refine Ok.bind (P := fun _ => True) ?_ fun old _ => ?_
  · unfold updateUnset
    refine Ok.bind (P := fun _ => True) ?_ fun ap _ => ?_
    · unfold allApart andM
      cases htG : t.G with
      | false => simp
      | true =>
        have hA' := hd.A
        unfold RepA at hA'
        rw [if_pos (ht htG)] at hA'
        obtain ⟨M, hM, -⟩ := hA'
        rw [hM]
        simp only [deref, if_true, ok_bind_eq]
        rw [Ok_pure]; trivial
    · split
      · refine Ok.bind (unsetEquilibration_ok (e := w.eqs) ⟨hd.A, hd.G⟩ hd.xe hd.ye hd.ze hd.b hd.h) fun r _ => ?_
        rw [Ok_pure]
        trivial
      · rw [Ok_pure]
        trivial
  -- the new matrices
  have hA1 : RepA (w.A.map fun A => { A with pr := Apr }) T a1 := by
    have hA' := hd.A
    unfold RepA at hA' ⊢
    split at hA'
    · rename_i hh
      rw [if_pos hh]
      obtain ⟨M, hM, hr⟩ := hA'
      rw [hM]
      exact ⟨_, rfl, hr.m_eq, hr.n_eq, hr.nnz_eq, hr.hjc, hr.hir, hA hh, hr.ok⟩
    · rename_i hh
      rw [if_neg hh, hA'.1]
      exact ⟨rfl, hA'.2⟩
  have hG1 : Rep { w.G with pr := Gpr } T.m T.n T.jcG T.irG g1 :=
    ⟨hd.G.m_eq, hd.G.n_eq, hd.G.nnz_eq, hd.G.hjc, hd.G.hir, hG, hd.G.ok⟩
  have hb1 : Holds (if w.A.isSome then vb else w.b) T.p b1 := by
    have hA' := hd.A
    unfold RepA at hA'
    split at hA'
    · obtain ⟨M, hM, hr⟩ := hA'
      rw [hM]
      exact hb
    · rw [hA'.1]
      have h0 := hd.b
      rw [hA'.2] at h0 ⊢
      exact h0.congr fun i hi => by omega
  refine Ok.bind (setEquilibration_ok hw.cone.is hP.m hR (e := (setPointers w Gpr Apr vc vh vb).eqs) ⟨hA1, hG1⟩ hd.xe.size hd.ye.size hd.ze.size
    hb1 hh oa og).self ?_
  rintro e ⟨⟨a2, g2, x2, y2, z2, e1, e2, e3, e4, e5, e6, e7, e8, e9, e10, e11, e12⟩, erun⟩
  have hTo := hP.parts (a := a) (g := g)
  have kv0 := hw.made.kv hTo
  have hPK := hw.made.pk
  have hperm := (partsOf T S a g).pk_perm π
  -- values of `A`
  classical
  refine Ok.bind (P := fun pr => KV pr ((partsOf T S a g).off (partsOf T S a g).N) ((partsOf T S a g).pk π) fun x =>
    if ∃ k, k < T.nA ∧ posA (partsOf T S a g) T k = x then (partsOf T S a2 g2).pr x else ax ((partsOf T S a g).pk π x)) ?_ fun pr1 hpr1 => ?_
  · have hA' := e1.A
    unfold RepA at hA'
    split at hA'
    · rename_i hh
      obtain ⟨M, hM, hr⟩ := hA'
      obtain ⟨mp, hmp, hmp2⟩ := hd.mA hh
      rw [hM]
      simp only
      rw [show (setPointers w Gpr Apr vc vh vb).AtoK = some mp from hmp]
      simp only [deref, ok_bind_eq]
      rw [hr.nnz_eq, ← PatGood.nA_of hh]
      refine pushK_ok hPK hperm hmp2 (by rw [PatGood.nA_of hh]; exact hr.hpr) (fun k hk => (posA_facts hP hk).1) (fun k hk => ?_) kv0
      rw [← posA_same a g a2 g2]
      exact (posA_facts hP hk).2
    · rename_i hh
      rw [hA'.1]
      simp only
      rw [Ok_pure]
      refine kv0.congr fun x _ => ?_
      rw [if_neg]
      rintro ⟨k, hk, -⟩
      rw [PatGood.nA_none (by simpa using hh)] at hk
      omega
  have hnG : e.1.G.nnz = T.nG := e1.G.nnz_eq
  rw [hnG]
  refine Ok.bind (pushK_ok (tgt := (partsOf T S a2 g2).pr) hPK hperm hd.mG e1.G.hpr (fun k hk => (posG_facts hP hk).1) (fun k hk => by
    rw [← posG_same a g a2 g2]
    exact (posG_facts hP hk).2) hpr1) fun pr2 hpr2 => ?_
  rw [Ok_pure]
  obtain ⟨ax2, hk2, hax2⟩ := hw.made.put hTo hpr2
  refine ⟨a2, g2, x2, y2, z2, ax2, ⟨⟨hw.sz.n, hw.sz.m, hw.sz.p, hw.sz.D, hw.sz.x, hw.sz.y, hw.sz.z, hw.sz.s, hw.sz.bx, hw.sz.b_y, hw.sz.bz,
    hw.sz.bs, hw.sz.rx, hw.sz.ry, hw.sz.rz⟩, ⟨e1.A, e1.G, hc, e11, e12, e2, e3, e4, e8, ?_, ?_⟩, ?_, hk2.re, hw.ord.re, ?_⟩, ?_, e5, e6, e7, e8, e9,
    e10, rfl, rfl, rfl⟩
  · rw [posA_same a g]; exact hd.mA
  · rw [posG_same a g]; exact hd.mG
  · rw [ix_same a g]; exact hw.cone
  · intro i hi hv
    rw [off_same a g] at hi
    have hi' : i < (partsOf T S a g).off (partsOf T S a g).N := hi
    beta_reduce
    rw [pk_same a g, hax2 i hi']
    by_cases q1 : ∃ k, k < T.nG ∧ posG (partsOf T S a g) T k = i
    · rw [if_pos q1]
    · rw [if_neg q1]
      by_cases q2 : ∃ k, k < T.nA ∧ posA (partsOf T S a g) T k = i
      · rw [if_pos q2]
      · rw [if_neg q2]
        have hv' : ¬ (partsOf T S a g).isV i := by
          unfold Parts.isV at hv ⊢
          rw [off_same a g] at hv
          exact hv
        rcases cover (a := a) (g := g) hP hi' with q3 | q3 | q3 | q3
        · exact absurd q3 hv'
        · exact absurd q3 q2
        · exact absurd q3 q1
        · rw [q3 a2 g2]
          exact hw.val i hi' hv'
  · intro C' e' b' h' hC' he' hx' hy' hz' hb' hh'
    exact (setEquilibration_same hC' hw.cone.is he' ⟨hA1, hG1⟩ hx' hd.xe.size hy' hd.ye.size hz' hd.ze.size hb' hb1 hh' hh).trans erun

end generic
end Ecos.Asm
