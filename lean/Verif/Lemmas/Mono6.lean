import Verif.Lemmas.Mono5
import Verif.Props.Update

/-!
# Less unwritten memory: a workspace without history

`blank w` is `w` with everything a solve computes taken out.  Every workspace with the same problem data and settings is above it.
-/
namespace Ecos.Mono

open Ecos Finset Ecos.Fact Ecos.Asm Ecos.Dir

set_option linter.unusedSectionVars false

section generic
variable {F : Type} [Zero F] [One F] [Add F] [Sub F] [Mul F] [Div F] [Neg F] [OfScientific F]
  [IntCast F] [PFloat F] {T : Pat} {S : Shape} {amd : Nat → Buf Nat → Buf Nat → Option (Buf Nat)}

/-! ### Values of the KKT matrix -/

/-- the numbers of two KKT matrices agree outside the (3,3) block -/
def PrIs (T : Pat) (S : Shape) (b : Buf F) (PK : Buf Nat) (b' : Buf F) (PK' : Buf Nat) : Prop :=
  ∃ π f f', Holds PK ((partsOf (F := F) T S 0 0).off (partsOf (F := F) T S 0 0).N) ((partsOf (F := F) T S 0 0).pk π) ∧
    Holds PK' ((partsOf (F := F) T S 0 0).off (partsOf (F := F) T S 0 0).N) ((partsOf (F := F) T S 0 0).pk π) ∧
    KV b ((partsOf (F := F) T S 0 0).off (partsOf (F := F) T S 0 0).N) ((partsOf (F := F) T S 0 0).pk π) f ∧
    KV b' ((partsOf (F := F) T S 0 0).off (partsOf (F := F) T S 0 0).N) ((partsOf (F := F) T S 0 0).pk π) f' ∧
    Agree (partsOf (F := F) T S 0 0) f f'

theorem kv_eq {pr pr' : Buf F} {M : Nat} {pk pk' : Nat → Nat} {f f' : Nat → F} (hp : IsPerm M pk) (e : ∀ k, k < M → pk k = pk' k) (h1 : KV pr M pk f)
    (h2 : KV pr' M pk' f') (hf : ∀ k, k < M → f k = f' k) : pr = pr' := by
  refine Array.ext_getElem? fun i => ?_
  by_cases hi : i < M
  · obtain ⟨k, hk, rfl⟩ := hp.surj hi
    rw [h1.at_ k hk, e k hk, h2.at_ k hk, hf k hk]
  · rw [Array.getElem?_eq_none (by rw [h1.size]; omega), Array.getElem?_eq_none (by rw [h2.size]; omega)]

theorem kv_le {pr pr' : Buf F} {M : Nat} {pk : Nat → Nat} {f : Nat → F} (hp : IsPerm M pk) (h : KV pr M pk f) (hl : pr ⊑ pr') : pr' = pr := by
  have h2 : KV pr' M pk f := ⟨hl.1.symm.trans h.size, fun x hx => hl.2 _ _ (h.at_ x hx)⟩
  exact (kv_eq hp (fun _ _ => rfl) h h2 fun _ _ => rfl).symm

theorem holds_le {α : Type} {b b' : Buf α} {n : Nat} {f : Nat → α} (h : Holds b n f) (hl : b ⊑ b') : b = b' := by
  have h2 : Holds b' n f := ⟨hl.1.symm.trans h.size, fun x hx => hl.2 _ _ (h.2 x hx)⟩
  exact h.same h2

theorem sp_refl (K : SpMat F) : K ⊑ K := ⟨buf_refl _, buf_refl _, buf_refl _, rfl, rfl, rfl⟩

section rel
variable [PrRel F] (hpr : ∀ b PK b' PK', PrRel.pr (F := F) b PK b' PK' ↔ PrIs T S b PK b' PK') (hP : PatGood T S)
include hpr hP

/-- the (3,3) block is overwritten: the matrices are the same afterwards -/
theorem kktUpdate_rel {K K' : SpMat F} {PK PK' : Buf Nat} {C C' : Cone F} (hjc : K.jc ⊑ K'.jc) (hir : K.ir ⊑ K'.ir) (hn : K.n = K'.n)
    (hm : K.m = K'.m) (hnnz : K.nnz = K'.nnz) (h : PrRel.pr K.pr PK K'.pr PK') (hC : ConeWF C S (partsOf (F := F) T S 0 0).ix) {W : ConeV F}
    (hW : ScalHolds C S W) (hCC : C ⊑ C') : LeR (PkOk PK PK' True) (kktUpdate K PK C) (kktUpdate K' PK' C') := by
  obtain ⟨π, f, f', h1, h2, h3, h4, h5⟩ := (hpr _ _ _ _).1 h
  have hT := hP.parts (F := F) (a := 0) (g := 0)
  have hp := (partsOf (F := F) T S 0 0).pk_perm π
  obtain ⟨K1, e1, b1, rfl, k1⟩ := (Ok.def _ _).1 (kktUpdate_ok hT h1 hp hC hW h3)
  obtain ⟨K2, e2, b2, rfl, k2⟩ := (Ok.def _ _).1 (kktUpdate_ok hT h2 hp hC hW h4)
  have hb : b1 = b2 := kv_eq hp (fun _ _ => rfl) k1 k2 fun k hk => h5.withV _ hk
  subst hb
  obtain ⟨K3, e3, l3⟩ := kktUpdate_le (sp_refl K') (buf_refl PK') hCC _ e2
  rw [e1]
  intro a ea
  cases ea
  refine ⟨K3, e3, ?_⟩
  have hb3 : K3.pr = b1 := kv_le hp k2 l3.pr
  refine ⟨?_, ?_, hn.trans l3.n, hm.trans l3.m, hnnz.trans l3.nnz, (hpr _ _ _ _).2 ⟨π, _, _, h1, h2, k1, by rw [hb3]; exact k1, fun _ _ _ => rfl⟩,
    fun _ => by rw [hb3]; exact buf_refl _⟩
  · exact ⟨hjc.1.trans l3.jc.1, fun i v h => l3.jc.2 i v (hjc.2 i v h)⟩
  · exact ⟨hir.1.trans l3.ir.1, fun i v h => l3.ir.2 i v (hir.2 i v h)⟩

theorem kktInit_rel {K K' : SpMat F} {PK PK' : Buf Nat} {C C' : Cone F} (hjc : K.jc ⊑ K'.jc) (hir : K.ir ⊑ K'.ir) (hn : K.n = K'.n)
    (hm : K.m = K'.m) (hnnz : K.nnz = K'.nnz) (h : PrRel.pr K.pr PK K'.pr PK') (hC : ConeWF C S (partsOf (F := F) T S 0 0).ix) (hCC : C ⊑ C') :
    LeR (PkOk PK PK' (C.nexc = 0)) (kktInit K PK C) (kktInit K' PK' C') := by
  obtain ⟨π, f, f', h1, h2, h3, h4, h5⟩ := (hpr _ _ _ _).1 h
  have hT := hP.parts (F := F) (a := 0) (g := 0)
  have hp := (partsOf (F := F) T S 0 0).pk_perm π
  obtain ⟨K1, e1, b1, rfl, k1⟩ := (Ok.def _ _).1 (kktInit_ok hT h1 hp hC h3)
  obtain ⟨K2, e2, b2, rfl, k2⟩ := (Ok.def _ _).1 (kktInit_ok hT h2 hp hC h4)
  obtain ⟨K3, e3, l3⟩ := kktInit_le (sp_refl K') (buf_refl PK') hCC _ e2
  rw [e1]
  intro a ea
  cases ea
  refine ⟨K3, e3, ?_⟩
  have hb3 : K3.pr = b2 := kv_le hp k2 l3.pr
  refine ⟨?_, ?_, hn.trans l3.n, hm.trans l3.m, hnnz.trans l3.nnz, (hpr _ _ _ _).2 ⟨π, _, _, h1, h2, k1, by rw [hb3]; exact k2, fun x hx hv => ?_⟩,
    fun h0 => ?_⟩
  · exact ⟨hjc.1.trans l3.jc.1, fun i v h => l3.jc.2 i v (hjc.2 i v h)⟩
  · exact ⟨hir.1.trans l3.ir.1, fun i v h => l3.ir.2 i v (hir.2 i v h)⟩
  · beta_reduce
    split
    · exact h5.withV _ hx
    · exact h5 x hx hv
  · have h0' : S.ne = 0 := by rw [← hC.is.nexc]; exact h0
    have hN : (partsOf (F := F) T S 0 0).n + (partsOf (F := F) T S 0 0).p + (partsOf (F := F) T S 0 0).S.x.fexv = (partsOf (F := F) T S 0 0).N := by
      show _ = T.n + T.p + S.x.m
      have : S.x.m = S.x.fexv + 3 * S.ne := rfl
      rw [this, h0']
      rfl
    have hb : b1 = b2 := kv_eq hp (fun _ _ => rfl) k1 k2 fun k hk => by
      rw [hN, if_pos hk, if_pos hk]
      exact h5.withV _ hk
    rw [hb3, hb]
    exact buf_refl _

end rel

/-! ### Taking out what a solve computes -/

theorem msz {α : Type} {n : Nat} : (malloc n : Buf α).size = n := malloc_size n

def blankSoc (c : SoCone F) : SoCone F :=
  { c with
    skbar := malloc c.skbar.size, zkbar := malloc c.zkbar.size, q := malloc c.q.size, a := none, d1 := none, w := none, eta := none,
    etaSq := none, u0 := none, u1 := none, v1 := none }

def blankExp (c : ExpCone F) : ExpCone F := { c with v := malloc c.v.size, g := malloc c.g.size }

def blankCone (C : Cone F) : Cone F :=
  { C with
    lpc := { C.lpc with w := malloc C.lpc.w.size, v := malloc C.lpc.v.size }
    soc := C.soc.map blankSoc, expc := C.expc.map blankExp }

def blankKkt (K : Kkt F) : Kkt F :=
  { K with
    L := { K.L with ir := malloc K.L.ir.size, pr := malloc K.L.pr.size }
    D := malloc K.D.size, RHS1 := malloc K.RHS1.size, RHS2 := malloc K.RHS2.size, dx1 := malloc K.dx1.size, dx2 := malloc K.dx2.size,
    dy1 := malloc K.dy1.size, dy2 := malloc K.dy2.size, dz1 := malloc K.dz1.size, dz2 := malloc K.dz2.size, Lnz := malloc K.Lnz.size }

/-- the workspace without iterates, scalings, factor, right-hand sides, directions, residuals and statistics -/
def blank (w : Work F) : Work F :=
  { w with
    x := malloc w.x.size, y := malloc w.y.size, z := malloc w.z.size, s := malloc w.s.size, kap := none, tau := none,
    bestX := malloc w.bestX.size, bestY := malloc w.bestY.size, bestZ := malloc w.bestZ.size, bestS := malloc w.bestS.size,
    bestKap := none, bestTau := none, bestCx := none, bestBy := none, bestHz := none, bestInfo := {},
    C := blankCone w.C, resx0 := none, resy0 := none, resz0 := none, rx := malloc w.rx.size,
    ry := if w.p = 0 then none else w.ry.map fun r => malloc r.size, rz := malloc w.rz.size, rt := none, hresx := none, hresy := none, hresz := none,
    nx := none, ny := none, nz := none, ns := none, cx := none, bY := none, hz := none, KKT := blankKkt w.KKT, info := {} }

theorem map_at {α β : Type} {f : α → β} {A : Array α} {k : Nat} {c : β} (h : (A.map f)[k]? = some c) : ∃ c0, A[k]? = some c0 ∧ c = f c0 := by
  rw [Array.getElem?_map] at h
  cases hh : A[k]? with
  | none => rw [hh] at h; cases h
  | some c0 => rw [hh] at h; cases h; exact ⟨c0, rfl, rfl⟩

theorem blankCone_wf {C : Cone F} {X : ConeIx} (h : ConeWF C S X) : ConeWF (blankCone C) S X := by
  refine ⟨⟨h.is.l, h.is.nsoc, fun k hk => ?_, h.is.pos, h.is.nexc, h.is.fexv, ?_, ?_⟩, ?_, ?_, h.lk, fun k c hk hc => ?_, fun k c hk hc => ?_⟩
  · obtain ⟨c, hc, hp⟩ := h.is.soc k hk
    refine ⟨blankSoc c, ?_, hp⟩
    show (C.soc.map blankSoc)[k]? = _
    rw [Array.getElem?_map, hc]
    rfl
  · exact (Array.size_map).trans h.is.nsize
  · exact (Array.size_map).trans h.is.esize
  · exact msz.trans h.lw
  · exact msz.trans h.lv
  · obtain ⟨c0, e, rfl⟩ := map_at hc
    have k0 := h.swf k c0 hk e
    exact ⟨k0.sz, msz.trans k0.sk, msz.trans k0.zk, msz.trans k0.q, k0.di⟩
  · obtain ⟨c0, e, rfl⟩ := map_at hc
    have k0 := h.ewf k c0 hk e
    exact ⟨k0.cs, msz.trans k0.v, msz.trans k0.g⟩

theorem ole_none {α : Type} (o : Option α) : (none : Option α) ⊑ o := fun _ h => by cases h

theorem blankCone_le {C C' : Cone F} {X : ConeIx} (h : ConeWF C S X) (h' : ConeWF C' S X) : blankCone C ⊑ C' := by
  refine ⟨⟨?_, ?_, ?_, ?_⟩, ⟨?_, fun i x y hx hy => ?_⟩, h.is.nsoc.trans h'.is.nsoc.symm, ⟨?_, fun i x y hx hy => ?_⟩, h.is.nexc.trans h'.is.nexc.symm,
    h.is.fexv.trans h'.is.fexv.symm⟩
  · exact h.is.l.trans h'.is.l.symm
  · exact malloc_any (h.lw.trans h'.lw.symm)
  · exact malloc_any (h.lv.trans h'.lv.symm)
  · show C.lpc.kktIdx ⊑ C'.lpc.kktIdx
    rw [h.lk.same h'.lk]
    exact buf_refl _
  · exact (Array.size_map).trans (h.is.nsize.trans h'.is.nsize.symm)
  · obtain ⟨c0, e, rfl⟩ := map_at hx
    have hi : i < S.ns := by
      have := (Array.getElem?_eq_some_iff.1 e).1
      rw [h.is.nsize] at this
      exact this
    have k := h.swf i c0 hi e
    have k' := h'.swf i y hi hy
    refine ⟨k.sz.trans k'.sz.symm, malloc_any (k.sk.trans k'.sk.symm), malloc_any (k.zk.trans k'.zk.symm), ole_none _, ole_none _, ole_none _, ole_none _,
      ole_none _, malloc_any (k.q.trans k'.q.symm), ?_, ole_none _, ole_none _, ole_none _⟩
    show c0.Didx ⊑ y.Didx
    rw [k.di.same k'.di]
    exact buf_refl _
  · exact (Array.size_map).trans (h.is.esize.trans h'.is.esize.symm)
  · obtain ⟨c0, e, rfl⟩ := map_at hx
    have hi : i < S.ne := by
      have := (Array.getElem?_eq_some_iff.1 e).1
      rw [h.is.esize] at this
      exact this
    have k := h.ewf i c0 hi e
    have k' := h'.ewf i y hi hy
    refine ⟨?_, malloc_any (k.v.trans k'.v.symm), malloc_any (k.g.trans k'.g.symm)⟩
    show c0.colstart ⊑ y.colstart
    rw [k.cs.same k'.cs]
    exact buf_refl _

theorem blank_live [HasInf F] {w : Work F} {a g c b h x y z : Nat → F} {π ai q : Nat → Nat} {ax : Nat → F} {sg : Nat → Int}
    (hl : Live amd w T S a g c b h x y z π ai q ax sg) : Live amd (blank w) T S a g c b h x y z π ai q ax sg := by
  have hs := hl.sz
  have hd := hl.data
  have hm := hl.made
  refine ⟨⟨hs.n, hs.m, hs.p, hs.D, msz.trans hs.x, msz.trans hs.y, msz.trans hs.z, msz.trans hs.s,
    msz.trans hs.bx, msz.trans hs.b_y, msz.trans hs.bz, msz.trans hs.bs, msz.trans hs.rx, fun h0 => ?_,
    msz.trans hs.rz⟩,
    ⟨hd.A, hd.G, hd.c, hd.b, hd.h, hd.xe, hd.ye, hd.ze, hd.ua, hd.mA, hd.mG⟩, blankCone_wf hl.cone, ?_, hl.ord, hl.val⟩
  · obtain ⟨r, e, hr⟩ := hs.ry h0
    refine ⟨malloc r.size, ?_, msz.trans hr⟩
    show (if w.p = 0 then none else w.ry.map fun r => malloc r.size) = _
    rw [if_neg (by rw [hs.p]; omega), e]
    rfl
  · have ho := hm.ok
    exact made_of hm rfl rfl rfl ⟨ho.n, ho.pat, ho.tree, ho.jc, ho.ir, ho.pr, ho.lp, le_of_le_of_eq ho.lir msz.symm,
      le_of_le_of_eq ho.lpr msz.symm, ho.par, ho.sign⟩ (msz.trans hm.d) (msz.trans hm.r1) (msz.trans hm.r2)
      (msz.trans hm.x1) (msz.trans hm.x2) (msz.trans hm.y1) (msz.trans hm.y2) (msz.trans hm.z1)
      (msz.trans hm.z2) msz msz (msz.trans hm.mem.lnz) rfl rfl rfl

/-- what two workspaces have in common when they hold the same problem -/
structure Twin (w w' : Work F) : Prop where
  A : w.A = w'.A
  G : w.G = w'.G
  c : w.c = w'.c
  b : w.b = w'.b
  h : w.h = w'.h
  xe : w.xequil = w'.xequil
  ye : w.Aequil = w'.Aequil
  ze : w.Gequil = w'.Gequil
  stgs : w.stgs = w'.stgs

theorem kkt_twin [HasInf F] (hamd : ∀ N jc ir P, amd N jc ir = some P → ∃ pf, Holds P N pf ∧ IsPerm N pf) (hP : PatGood T S) {w w' : Work F}
    {a g c b h x y z : Nat → F} {π ai q : Nat → Nat} {ax : Nat → F} {sg : Nat → Int} {a' g' c' b' h' x' y' z' : Nat → F}
    {π' ai' q' : Nat → Nat} {ax' : Nat → F} {sg' : Nat → Int}
    (hw : Live amd w T S a g c b h x y z π ai q ax sg) (hw' : Live amd w' T S a' g' c' b' h' x' y' z' π' ai' q' ax' sg')
    (eA : w.A = w'.A) (eG : w.G = w'.G) :
    w.KKT.PK = w'.KKT.PK ∧ w.KKT.Pinv = w'.KKT.Pinv ∧ (∀ b, ({ w.KKT.PKPt with pr := b } : SpMat F) = { w'.KKT.PKPt with pr := b }) ∧
    PrIs T S w.KKT.PKPt.pr w.KKT.PK w'.KKT.PKPt.pr w'.KKT.PK ∧ w.KKT.L.jc = w'.KKT.L.jc ∧ w.KKT.Parent = w'.KKT.Parent ∧
    w.KKT.Sign = w'.KKT.Sign ∧ w.KKT.L.ir.size = w'.KKT.L.ir.size ∧ w.KKT.L.pr.size = w'.KKT.L.pr.size := by
  have hT := hP.parts (a := a) (g := g)
  have hm := hw.made
  have hm' := hw'.made.re (a' := a) (g' := g)
  have hord := hw.ord.same hamd (jc := (Array.range ((partsOf T S a g).N + 1)).map fun i => some ((partsOf T S a g).off i))
    (ir := (Array.range ((partsOf T S a g).off (partsOf T S a g).N)).map fun i => some ((partsOf T S a g).ir i))
    ⟨by simp, fun i hi => by simp [hi]⟩ ⟨by simp, fun i hi => by simp [hi]⟩ (hw'.ord.re (a' := a) (g' := g))
  obtain ⟨e1, e2, e3⟩ := hm.same hT hm' hord
  have hkv := hm.kv hT
  have hkv' := hm'.kv hT
  have hag : Agree (partsOf T S a g) (fun k => ax ((partsOf T S a g).pk π k)) fun k => ax' ((partsOf T S a g).pk π' k) := by
    intro i hi hv
    rw [hw.val i hi hv]
    have hv' : ¬ (partsOf T S a' g').isV i := by
      unfold Parts.isV at hv ⊢
      rw [off_same a g]
      exact hv
    have := hw'.val i (by rw [off_same a g]; exact hi) hv'
    rw [pk_same a g] at this
    rw [this]
    refine pr_agree hP (RepA.val (A := w'.A) (by rw [← eA]; exact hw.data.A) hw'.data.A) (fun k hk => ?_) i hi hv
    have h3 := hw.data.G
    rw [eG] at h3
    exact h3.hpr.unique hw'.data.G.hpr hk
  have ejc : w.KKT.PKPt.jc = w'.KKT.PKPt.jc := (by have h0 := congrArg SpMat.jc (e2 #[]); exact h0)
  have eir : w.KKT.PKPt.ir = w'.KKT.PKPt.ir := (by have h0 := congrArg SpMat.ir (e2 #[]); exact h0)
  obtain ⟨S1, s1, s2⟩ := hm.mem.sym
  obtain ⟨S2, s3, s4⟩ := hm'.mem.sym
  rw [ejc, eir, s3] at s1
  obtain ⟨ejl0, eS⟩ := Prod.ext_iff.1 (Except.ok.inj s1)
  have ejl : w'.KKT.L.jc = w.KKT.L.jc := ejl0
  have eS : S2 = S1 := eS
  subst eS
  have hjc := hm.ok.lp
  have hjc' := hm'.ok.lp
  rw [ejl] at hjc'
  have hlp := hjc.unique hjc' (i := (partsOf T S a g).N) (by omega)
  refine ⟨e1, (hm.pinv.congr hord).same hm'.pinv, e2, ?_, ejl.symm, s2.symm.trans s4, ?_, ?_, ?_⟩
  · refine ⟨π, fun k => ax ((partsOf T S a g).pk π k), fun k => ax' ((partsOf T S a g).pk π' k), ?_⟩
    rw [off_same a g 0 0, pk_same a g 0 0]
    refine ⟨hm.pk, by rw [← e1]; exact hm.pk, hkv, ⟨hkv'.size, fun k hk => ?_⟩, fun k hk hv => hag k (by rw [← off_same a g 0 0]; exact hk) ?_⟩
    · rw [show (partsOf T S a g).pk π k = (partsOf T S a g).pk π' k from e3 k hk]
      exact hkv'.at_ k hk
    · unfold Parts.isV at hv ⊢
      rw [off_same a g] at hv
      exact hv
  · refine Array.ext_getElem? fun i => ?_
    by_cases hi : i < (partsOf T S a g).N
    · obtain ⟨k, hk, rfl⟩ := hm.perm.surj hi
      rw [hm.ok.sign _ hi, hm.sign k hk]
      rw [hord k hk] at hi ⊢
      rw [hm'.ok.sign _ hi, hm'.sign k hk]
    · rw [Array.getElem?_eq_none (by rw [hm.mem.sgn]; omega), Array.getElem?_eq_none (by rw [hm'.mem.sgn]; omega)]
  · rw [hm.mem.lir, hm'.mem.lir]
    exact hlp
  · rw [hm.mem.lpr, hm'.mem.lpr]
    exact hlp

/-- the relation for the starting point: nothing is asked of the iteration counters -/
@[reducible] def prT (T : Pat) (S : Shape) : PrRel F := ⟨PrIs T S, fun _ _ => True, fun _ => trivial⟩

/-- the relation for the main loop: the iteration counters are the same -/
@[reducible] def prE (T : Pat) (S : Shape) : PrRel F := ⟨PrIs T S, Eq, fun _ => rfl⟩

theorem stats_blank [PrRel F] (i : Stats F) (h : PrRel.it F 0 i.iter) : ({} : Stats F) ⊑ i :=
  ⟨ole_none _, ole_none _, ole_none _, ole_none _, ole_none _, ole_none _, ole_none _, ole_none _, ole_none _, ole_none _, ole_none _, ole_none _,
    ole_none _, ole_none _, ole_none _, h, ole_none _⟩

theorem blank_le [HasInf F] (hamd : ∀ N jc ir P, amd N jc ir = some P → ∃ pf, Holds P N pf ∧ IsPerm N pf) (hP : PatGood T S) {w w' : Work F}
    (hl : LiveW amd T S w) (hl' : LiveW amd T S w') (ht : Twin w w') : letI : PrRel F := prT T S; blank w ⊑ w' := by
  letI : PrRel F := prT T S
  obtain ⟨a, g, c, b, h, x, y, z, π, ai, q, ax, sg, hl⟩ := hl
  obtain ⟨a', g', c', b', h', x', y', z', π', ai', q', ax', sg', hl'⟩ := hl'
  obtain ⟨k1, k2, k3, k4, k5, k6, k7, k8, k9⟩ := kkt_twin hamd hP hl hl' ht.A ht.G
  have s := hl.sz
  have s' := hl'.sz
  have m := hl.made
  have m' := hl'.made
  have hA : w.A ⊑ w'.A := by
    rw [ht.A]
    cases w'.A with
    | none => exact noneSp_le
    | some A => exact someSp_le (sp_refl A)
  have hCx : ConeWF w'.C S (partsOf T S a g).ix := by rw [← ix_same a g]; exact hl'.cone
  have hK : blankKkt w.KKT ⊑ w'.KKT := by
    refine ⟨?_, ?_, (by have h0 := congrArg SpMat.n (k3 #[]); exact h0), (by have h0 := congrArg SpMat.m (k3 #[]); exact h0), (by have h0 := congrArg SpMat.nnz (k3 #[]); exact h0), k4, ?_, malloc_any k8, malloc_any k9,
      malloc_any (m.d.trans m'.d.symm), malloc_any (m.r1.trans m'.r1.symm), malloc_any (m.r2.trans m'.r2.symm), malloc_any (m.x1.trans m'.x1.symm),
      malloc_any (m.x2.trans m'.x2.symm), malloc_any (m.y1.trans m'.y1.symm), malloc_any (m.y2.trans m'.y2.symm), malloc_any (m.z1.trans m'.z1.symm),
      malloc_any (m.z2.trans m'.z2.symm), ?_, ?_, ?_, ?_, malloc_any (m.mem.lnz.trans m'.mem.lnz.symm)⟩
    · show w.KKT.PKPt.jc ⊑ _
      rw [show w.KKT.PKPt.jc = w'.KKT.PKPt.jc from (by have h0 := congrArg SpMat.jc (k3 #[]); exact h0)]
      exact buf_refl _
    · show w.KKT.PKPt.ir ⊑ _
      rw [show w.KKT.PKPt.ir = w'.KKT.PKPt.ir from (by have h0 := congrArg SpMat.ir (k3 #[]); exact h0)]
      exact buf_refl _
    · show w.KKT.L.jc ⊑ _
      rw [k5]
      exact buf_refl _
    · show w.KKT.Pinv ⊑ _
      rw [k2]
      exact buf_refl _
    · show w.KKT.PK ⊑ _
      rw [k1]
      exact buf_refl _
    · show w.KKT.Parent ⊑ _
      rw [k6]
      exact buf_refl _
    · show w.KKT.Sign ⊑ _
      rw [k7]
      exact buf_refl _
  refine ⟨s.n.trans s'.n.symm, s.m.trans s'.m.symm, s.p.trans s'.p.symm, s.D.trans s'.D.symm, malloc_any (s.x.trans s'.x.symm),
    malloc_any (s.y.trans s'.y.symm), malloc_any (s.z.trans s'.z.symm), malloc_any (s.s.trans s'.s.symm), ole_none _, ole_none _,
    malloc_any (s.bx.trans s'.bx.symm), malloc_any (s.b_y.trans s'.b_y.symm), malloc_any (s.bz.trans s'.bz.symm), malloc_any (s.bs.trans s'.bs.symm),
    ole_none _, ole_none _, ole_none _, ole_none _, ole_none _, stats_blank _ trivial, blankCone_le hl.cone hCx, hA, ?_, ?_, ?_, ?_, ?_, ?_, ?_,
    ole_none _, ole_none _, ole_none _, malloc_any (s.rx.trans s'.rx.symm), ?_, malloc_any (s.rz.trans s'.rz.symm), ole_none _, ole_none _, ole_none _,
    ole_none _, ole_none _, ole_none _, ole_none _, ole_none _, ole_none _, ole_none _, ole_none _, hK, stats_blank _ trivial, ht.stgs⟩
  · show w.G ⊑ w'.G
    rw [ht.G]; exact sp_refl _
  · show w.c ⊑ w'.c
    rw [ht.c]; exact buf_refl _
  · show w.b ⊑ w'.b
    rw [ht.b]; exact buf_refl _
  · show w.h ⊑ w'.h
    rw [ht.h]; exact buf_refl _
  · show w.xequil ⊑ w'.xequil
    rw [ht.xe]; exact buf_refl _
  · show w.Aequil ⊑ w'.Aequil
    rw [ht.ye]; exact buf_refl _
  · show w.Gequil ⊑ w'.Gequil
    rw [ht.ze]; exact buf_refl _
  · intro r e
    have e : (if w.p = 0 then none else w.ry.map fun r => malloc r.size) = some r := e
    split at e
    · cases e
    · rename_i hp
      rw [s.p] at hp
      obtain ⟨r0, e0, h0⟩ := s.ry (by omega)
      obtain ⟨r1, e1, h1⟩ := s'.ry (by omega)
      rw [e0] at e
      cases e
      exact ⟨r1, e1, malloc_any (h0.trans h1.symm)⟩

end generic
end Ecos.Mono
