import Verif.Lemmas.Mono1

/-!
# Less unwritten memory: the KKT system
-/
namespace Ecos.Mono

open Ecos

set_option linter.unusedSectionVars false
set_option linter.unusedVariables false
set_option linter.unusedTactic false

/-- what is asked of the values of the two KKT matrices (with the maps into them), and of the two iteration counters -/
class PrRel (F : Type) where
  pr : Buf F → Buf Nat → Buf F → Buf Nat → Prop
  it : Nat → Nat → Prop
  refl : ∀ k, it k k

@[mle] theorem append_le {α : Type} {a a' b b' : Array (Option α)} (ha : a ⊑ a') (hb : b ⊑ b') : a ++ b ⊑ a' ++ b' := by
  refine ⟨by simp [ha.1, hb.1], fun i v h => ?_⟩
  rw [Array.getElem?_append] at h ⊢
  rw [← ha.1]
  split at h
  · rename_i hi
    rw [if_pos hi]
    exact ha.2 i v h
  · rename_i hi
    rw [if_neg hi]
    exact hb.2 _ v h

section generic
variable {F : Type} [Zero F] [One F] [Add F] [Sub F] [Mul F] [Div F] [Neg F] [OfScientific F]
  [IntCast F] [PFloat F] [PrRel F]

structure KktLe (l' r' : Kkt F) : Prop where
  jc : l'.PKPt.jc ⊑ r'.PKPt.jc
  ir : l'.PKPt.ir ⊑ r'.PKPt.ir
  n : l'.PKPt.n = r'.PKPt.n
  m : l'.PKPt.m = r'.PKPt.m
  nnz : l'.PKPt.nnz = r'.PKPt.nnz
  pr : PrRel.pr l'.PKPt.pr l'.PK r'.PKPt.pr r'.PK
  Ljc : l'.L.jc ⊑ r'.L.jc
  Lir : l'.L.ir ⊑ r'.L.ir
  Lpr : l'.L.pr ⊑ r'.L.pr
  D : l'.D ⊑ r'.D
  RHS1 : l'.RHS1 ⊑ r'.RHS1
  RHS2 : l'.RHS2 ⊑ r'.RHS2
  dx1 : l'.dx1 ⊑ r'.dx1
  dx2 : l'.dx2 ⊑ r'.dx2
  dy1 : l'.dy1 ⊑ r'.dy1
  dy2 : l'.dy2 ⊑ r'.dy2
  dz1 : l'.dz1 ⊑ r'.dz1
  dz2 : l'.dz2 ⊑ r'.dz2
  Pinv : l'.Pinv ⊑ r'.Pinv
  PK : l'.PK ⊑ r'.PK
  Parent : l'.Parent ⊑ r'.Parent
  Sign : l'.Sign ⊑ r'.Sign
  Lnz : l'.Lnz ⊑ r'.Lnz
instance (priority := high) relKkt : Rel (Kkt F) := ⟨KktLe⟩
@[mle] theorem Kkt_D {a b : Kkt F} (h : a ⊑ b) : a.D ⊑ b.D := KktLe.D h
@[mle] theorem Kkt_RHS1 {a b : Kkt F} (h : a ⊑ b) : a.RHS1 ⊑ b.RHS1 := KktLe.RHS1 h
@[mle] theorem Kkt_RHS2 {a b : Kkt F} (h : a ⊑ b) : a.RHS2 ⊑ b.RHS2 := KktLe.RHS2 h
@[mle] theorem Kkt_dx1 {a b : Kkt F} (h : a ⊑ b) : a.dx1 ⊑ b.dx1 := KktLe.dx1 h
@[mle] theorem Kkt_dx2 {a b : Kkt F} (h : a ⊑ b) : a.dx2 ⊑ b.dx2 := KktLe.dx2 h
@[mle] theorem Kkt_dy1 {a b : Kkt F} (h : a ⊑ b) : a.dy1 ⊑ b.dy1 := KktLe.dy1 h
@[mle] theorem Kkt_dy2 {a b : Kkt F} (h : a ⊑ b) : a.dy2 ⊑ b.dy2 := KktLe.dy2 h
@[mle] theorem Kkt_dz1 {a b : Kkt F} (h : a ⊑ b) : a.dz1 ⊑ b.dz1 := KktLe.dz1 h
@[mle] theorem Kkt_dz2 {a b : Kkt F} (h : a ⊑ b) : a.dz2 ⊑ b.dz2 := KktLe.dz2 h
@[mle] theorem Kkt_Pinv {a b : Kkt F} (h : a ⊑ b) : a.Pinv ⊑ b.Pinv := KktLe.Pinv h
@[mle] theorem Kkt_PK {a b : Kkt F} (h : a ⊑ b) : a.PK ⊑ b.PK := KktLe.PK h
@[mle] theorem Kkt_Parent {a b : Kkt F} (h : a ⊑ b) : a.Parent ⊑ b.Parent := KktLe.Parent h
@[mle] theorem Kkt_Sign {a b : Kkt F} (h : a ⊑ b) : a.Sign ⊑ b.Sign := KktLe.Sign h
@[mle] theorem Kkt_Lnz {a b : Kkt F} (h : a ⊑ b) : a.Lnz ⊑ b.Lnz := KktLe.Lnz h
@[mle] theorem Kkt_jc_hi {a b : Kkt F} (h : a ⊑ b) : a.PKPt.jc ⊑ b.PKPt.jc := KktLe.jc h
@[mle] theorem Kkt_ir_hi {a b : Kkt F} (h : a ⊑ b) : a.PKPt.ir ⊑ b.PKPt.ir := KktLe.ir h
@[mle] theorem Kkt_n_hi {a b : Kkt F} (h : a ⊑ b) : a.PKPt.n = b.PKPt.n := KktLe.n h
@[mle] theorem Kkt_m_hi {a b : Kkt F} (h : a ⊑ b) : a.PKPt.m = b.PKPt.m := KktLe.m h
@[mle] theorem Kkt_nnz_hi {a b : Kkt F} (h : a ⊑ b) : a.PKPt.nnz = b.PKPt.nnz := KktLe.nnz h
@[mle] theorem Kkt_Ljc_hi {a b : Kkt F} (h : a ⊑ b) : a.L.jc ⊑ b.L.jc := KktLe.Ljc h
@[mle] theorem Kkt_Lir_hi {a b : Kkt F} (h : a ⊑ b) : a.L.ir ⊑ b.L.ir := KktLe.Lir h
@[mle] theorem Kkt_Lpr_hi {a b : Kkt F} (h : a ⊑ b) : a.L.pr ⊑ b.L.pr := KktLe.Lpr h
@[mle] theorem Kkt_pr {a b : Kkt F} (h : a ⊑ b) : PrRel.pr a.PKPt.pr a.PK b.PKPt.pr b.PK := KktLe.pr h
@[mle] theorem Kkt_mk {a b l r : SpMat F} {a0 b0 : Buf F} {a1 b1 : Buf F} {a2 b2 : Buf F} {a3 b3 : Buf F} {a4 b4 : Buf F} {a5 b5 : Buf F} {a6 b6 : Buf F} {a7 b7 : Buf F} {a8 b8 : Buf F} {a9 b9 : Buf Nat} {a10 b10 : Buf Nat} {a11 b11 : Buf Int} {a12 b12 : Buf Int} {a13 b13 : Buf Nat}
    (g0 : a.jc ⊑ b.jc) (g1 : a.ir ⊑ b.ir) (g2 : a.n = b.n) (g3 : a.m = b.m) (g4 : a.nnz = b.nnz) (g5 : PrRel.pr a.pr a10 b.pr b10) (g6 : l.jc ⊑ r.jc) (g7 : l.ir ⊑ r.ir) (g8 : l.pr ⊑ r.pr) (h0 : a0 ⊑ b0) (h1 : a1 ⊑ b1) (h2 : a2 ⊑ b2) (h3 : a3 ⊑ b3) (h4 : a4 ⊑ b4) (h5 : a5 ⊑ b5) (h6 : a6 ⊑ b6) (h7 : a7 ⊑ b7) (h8 : a8 ⊑ b8) (h9 : a9 ⊑ b9) (h10 : a10 ⊑ b10) (h11 : a11 ⊑ b11) (h12 : a12 ⊑ b12) (h13 : a13 ⊑ b13) :
    (⟨a, l, a0, a1, a2, a3, a4, a5, a6, a7, a8, a9, a10, a11, a12, a13⟩ : Kkt F) ⊑ ⟨b, r, b0, b1, b2, b3, b4, b5, b6, b7, b8, b9, b10, b11, b12, b13⟩ := KktLe.mk g0 g1 g2 g3 g4 g5 g6 g7 g8 h0 h1 h2 h3 h4 h5 h6 h7 h8 h9 h10 h11 h12 h13

@[mle] theorem bufSize_le {α : Type} {a b : Array (Option α)} (h : a ⊑ b) : Array.size a = Array.size b := h.1

@[mle] theorem Kkt_scratch_le {K K' : Kkt F} (hK : K ⊑ K') :
    Kkt.scratch K ⊑ Kkt.scratch K' := by
  subst_vars
  mnorm
  unfold Kkt.scratch
  mono

/-- the factorisation reads the values -/
theorem kktFactor_le {K K' : Kkt F} {eps eps' delta delta' : F} (hK : K ⊑ K') (hp : K.PKPt.pr ⊑ K'.PKPt.pr) (he : eps = eps') (hd : delta = delta') :
    kktFactor K eps delta ⊑ kktFactor K' eps' delta' := by
  subst_vars
  unfold kktFactor
  mono

@[mle] theorem triSolve_le {K K' : Kkt F} {b b' : Buf F} (hK : K ⊑ K') (hb : b ⊑ b') :
    triSolve K b ⊑ triSolve K' b' := by
  subst_vars
  mnorm
  unfold triSolve
  mono

structure ArgsLe (l' r' : SolveArgs F) : Prop where
  K : l'.K ⊑ r'.K
  A : l'.A ⊑ r'.A
  G : l'.G ⊑ r'.G
  Pb : l'.Pb ⊑ r'.Pb
  n : l'.n = r'.n
  p : l'.p = r'.p
  m : l'.m = r'.m
  C : l'.C ⊑ r'.C
  isinit : l'.isinit = r'.isinit
instance (priority := high) relArgs : Rel (SolveArgs F) := ⟨ArgsLe⟩
@[mle] theorem Args_K {a b : SolveArgs F} (h : a ⊑ b) : a.K ⊑ b.K := ArgsLe.K h
@[mle] theorem Args_A {a b : SolveArgs F} (h : a ⊑ b) : a.A ⊑ b.A := ArgsLe.A h
@[mle] theorem Args_G {a b : SolveArgs F} (h : a ⊑ b) : a.G ⊑ b.G := ArgsLe.G h
@[mle] theorem Args_Pb {a b : SolveArgs F} (h : a ⊑ b) : a.Pb ⊑ b.Pb := ArgsLe.Pb h
@[mle] theorem Args_n {a b : SolveArgs F} (h : a ⊑ b) : a.n = b.n := ArgsLe.n h
@[mle] theorem Args_p {a b : SolveArgs F} (h : a ⊑ b) : a.p = b.p := ArgsLe.p h
@[mle] theorem Args_m {a b : SolveArgs F} (h : a ⊑ b) : a.m = b.m := ArgsLe.m h
@[mle] theorem Args_C {a b : SolveArgs F} (h : a ⊑ b) : a.C ⊑ b.C := ArgsLe.C h
@[mle] theorem Args_isinit {a b : SolveArgs F} (h : a ⊑ b) : a.isinit = b.isinit := ArgsLe.isinit h
@[mle] theorem Args_mk {a0 b0 : Kkt F} {a1 b1 : Option (SpMat F)} {a2 b2 : SpMat F} {a3 b3 : Buf F} {a4 b4 : Nat} {a5 b5 : Nat} {a6 b6 : Nat} {a7 b7 : Cone F} {a8 b8 : Int} (h0 : a0 ⊑ b0) (h1 : a1 ⊑ b1) (h2 : a2 ⊑ b2) (h3 : a3 ⊑ b3) (h4 : a4 = b4) (h5 : a5 = b5) (h6 : a6 = b6) (h7 : a7 ⊑ b7) (h8 : a8 = b8) :
    (⟨a0, a1, a2, a3, a4, a5, a6, a7, a8⟩ : SolveArgs F) ⊑ ⟨b0, b1, b2, b3, b4, b5, b6, b7, b8⟩ := ArgsLe.mk h0 h1 h2 h3 h4 h5 h6 h7 h8

@[mle] theorem Args_mt {a b : SolveArgs F} (h : a ⊑ b) : a.mt = b.mt := by
  unfold SolveArgs.mt
  mono

@[mle] theorem resX_le {a a' : SolveArgs F} {dx dx' : Buf F} {dy dy' : Buf F} {dz dz' : Buf F} (ha : a ⊑ a') (hdx : dx ⊑ dx') (hdy : dy ⊑ dy') (hdz : dz ⊑ dz') :
    resX a dx dy dz ⊑ resX a' dx' dy' dz' := by
  subst_vars
  unfold resX
  refine bind_le (by mono) fun e e' he => ?_
  refine bind_le ?_ fun e e' he => ?_
  · have hA := Args_A ha
    revert hA
    cases a.A <;> cases a'.A <;> intro hA
    · mono
    · exact hA.elim
    · exact hA.elim
    · rename_i A A'
      have hA : A ⊑ A' := hA
      mono
  · mono

@[mle] theorem resY_le {a a' : SolveArgs F} {dx dx' : Buf F} {dy dy' : Buf F} (ha : a ⊑ a') (hdx : dx ⊑ dx') (hdy : dy ⊑ dy') :
    resY a dx dy ⊑ resY a' dx' dy' := by
  subst_vars
  mnorm
  unfold resY
  mono

@[mle] theorem ezPlus_le {a a' : SolveArgs F} {Gdx Gdx' : Buf F} {dz dz' : Buf F} {k k' : Nat} {j j' : Nat} (ha : a ⊑ a') (hGdx : Gdx ⊑ Gdx') (hdz : dz ⊑ dz') (hk : k = k') (hj : j = j') :
    ezPlus a Gdx dz k j ⊑ ezPlus a' Gdx' dz' k' j' := by
  subst_vars
  mnorm
  unfold ezPlus
  mono

@[mle] theorem ezMinus_le {a a' : SolveArgs F} {Gdx Gdx' : Buf F} {dz dz' : Buf F} {k k' : Nat} {j j' : Nat} (ha : a ⊑ a') (hGdx : Gdx ⊑ Gdx') (hdz : dz ⊑ dz') (hk : k = k') (hj : j = j') :
    ezMinus a Gdx dz k j ⊑ ezMinus a' Gdx' dz' k' j' := by
  subst_vars
  mnorm
  unfold ezMinus
  mono

@[mle] theorem resZlin_le {a a' : SolveArgs F} {dx dx' : Buf F} {dz dz' : Buf F} (ha : a ⊑ a') (hdx : dx ⊑ dx') (hdz : dz ⊑ dz') :
    resZlin a dx dz ⊑ resZlin a' dx' dz' := by
  subst_vars
  mnorm
  unfold resZlin
  mono

@[mle] theorem resZ_le {a a' : SolveArgs F} {Px Px' : Buf F} {dx dx' : Buf F} {dz dz' : Buf F} (ha : a ⊑ a') (hPx : Px ⊑ Px') (hdx : dx ⊑ dx') (hdz : dz ⊑ dz') :
    resZ a Px dx dz ⊑ resZ a' Px' dx' dz' := by
  subst_vars
  mnorm
  unfold resZ
  mono

@[mle] theorem residual_le {a a' : SolveArgs F} {Px Px' : Buf F} {dx dx' : Buf F} {dy dy' : Buf F} {dz dz' : Buf F} (ha : a ⊑ a') (hPx : Px ⊑ Px') (hdx : dx ⊑ dx') (hdy : dy ⊑ dy') (hdz : dz ⊑ dz') :
    residual a Px dx dy dz ⊑ residual a' Px' dx' dy' dz' := by
  subst_vars
  mnorm
  unfold residual
  mono

structure RefLe (l' r' : RefS F) : Prop where
  Px : l'.Px ⊑ r'.Px
  dPx : l'.dPx ⊑ r'.dPx
  dx : l'.dx ⊑ r'.dx
  dy : l'.dy ⊑ r'.dy
  dz : l'.dz ⊑ r'.dz
  prev : l'.prev = r'.prev
instance (priority := high) relRef : Rel (RefS F) := ⟨RefLe⟩
@[mle] theorem Ref_Px {a b : RefS F} (h : a ⊑ b) : a.Px ⊑ b.Px := RefLe.Px h
@[mle] theorem Ref_dPx {a b : RefS F} (h : a ⊑ b) : a.dPx ⊑ b.dPx := RefLe.dPx h
@[mle] theorem Ref_dx {a b : RefS F} (h : a ⊑ b) : a.dx ⊑ b.dx := RefLe.dx h
@[mle] theorem Ref_dy {a b : RefS F} (h : a ⊑ b) : a.dy ⊑ b.dy := RefLe.dy h
@[mle] theorem Ref_dz {a b : RefS F} (h : a ⊑ b) : a.dz ⊑ b.dz := RefLe.dz h
@[mle] theorem Ref_prev {a b : RefS F} (h : a ⊑ b) : a.prev = b.prev := RefLe.prev h
@[mle] theorem Ref_mk {a0 b0 : Buf F} {a1 b1 : Buf F} {a2 b2 : Buf F} {a3 b3 : Buf F} {a4 b4 : Buf F} {a5 b5 : F} (h0 : a0 ⊑ b0) (h1 : a1 ⊑ b1) (h2 : a2 ⊑ b2) (h3 : a3 ⊑ b3) (h4 : a4 ⊑ b4) (h5 : a5 = b5) :
    (⟨a0, a1, a2, a3, a4, a5⟩ : RefS F) ⊑ ⟨b0, b1, b2, b3, b4, b5⟩ := RefLe.mk h0 h1 h2 h3 h4 h5

@[mle] theorem refineStep_le {a a' : SolveArgs F} {nitref nitref' : Int} {thr thr' : F} {kIt kIt' : Nat} {s s' : RefS F} (ha : a ⊑ a') (hnitref : nitref = nitref') (hthr : thr = thr') (hkIt : kIt = kIt') (hs : s ⊑ s') :
    refineStep a nitref thr kIt s ⊑ refineStep a' nitref' thr' kIt' s' := by
  subst_vars
  mnorm
  unfold refineStep
  mono

@[mle] theorem kktSolve_le [HasInf F] {a a' : SolveArgs F} {dx dx' : Buf F} {dy dy' : Buf F} {dz dz' : Buf F} {nitref nitref' : Int} (ha : a ⊑ a') (hdx : dx ⊑ dx') (hdy : dy ⊑ dy') (hdz : dz ⊑ dz') (hnitref : nitref = nitref') :
    kktSolve a dx dy dz nitref ⊑ kktSolve a' dx' dy' dz' nitref' := by
  subst_vars
  mnorm
  unfold kktSolve
  mono

@[mle] theorem setPK_le {P P' : Buf Nat} {pr pr' : Buf F} {k k' : Nat} {v v' : F} (hP : P ⊑ P') (hpr : pr ⊑ pr') (hk : k = k') (hv : v = v') :
    setPK P pr k v ⊑ setPK P' pr' k' v' := by
  subst_vars
  mnorm
  unfold setPK
  mono

@[mle] theorem setSoc_le {P P' : Buf Nat} {soc soc' : SoCone F} {pr pr' : Buf F} {D0 D0' : F} {Dk Dk' : F} {v v' : Nat → M F} {vd vd' : F} {u0 u0' : F} {u u' : Nat → M F} {ud ud' : F} (hP : P ⊑ P') (hsoc : soc ⊑ soc') (hpr : pr ⊑ pr') (hD0 : D0 = D0') (hDk : Dk = Dk') (hv : ∀ u0 : Nat, v u0 ⊑ v' u0) (hvd : vd = vd') (hu0 : u0 = u0') (hu : ∀ u0 : Nat, u u0 ⊑ u' u0) (hud : ud = ud') :
    setSoc P soc pr D0 Dk v vd u0 u ud ⊑ setSoc P' soc' pr' D0' Dk' v' vd' u0' u' ud' := by
  subst_vars
  mnorm
  unfold setSoc
  mono

@[mle] theorem kktUpdateSoc_le {P P' : Buf Nat} {soc soc' : SoCone F} {pr pr' : Buf F} (hP : P ⊑ P') (hsoc : soc ⊑ soc') (hpr : pr ⊑ pr') :
    kktUpdateSoc P soc pr ⊑ kktUpdateSoc P' soc' pr' := by
  subst_vars
  mnorm
  unfold kktUpdateSoc
  mono

@[mle] theorem kktUpdateExp_le {P P' : Buf Nat} {e e' : ExpCone F} {pr pr' : Buf F} (hP : P ⊑ P') (he : e ⊑ e') (hpr : pr ⊑ pr') :
    kktUpdateExp P e pr ⊑ kktUpdateExp P' e' pr' := by
  subst_vars
  mnorm
  unfold kktUpdateExp
  mono

@[mle] theorem kktUpdate_le {PKPt PKPt' : SpMat F} {P P' : Buf Nat} {C C' : Cone F} (hPKPt : PKPt ⊑ PKPt') (hP : P ⊑ P') (hC : C ⊑ C') :
    kktUpdate PKPt P C ⊑ kktUpdate PKPt' P' C' := by
  subst_vars
  mnorm
  unfold kktUpdate
  mono

@[mle] theorem kktInit_le {PKPt PKPt' : SpMat F} {P P' : Buf Nat} {C C' : Cone F} (hPKPt : PKPt ⊑ PKPt') (hP : P ⊑ P') (hC : C ⊑ C') :
    kktInit PKPt P C ⊑ kktInit PKPt' P' C' := by
  subst_vars
  mnorm
  unfold kktInit
  mono

end generic
end Ecos.Mono
