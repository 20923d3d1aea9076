import Verif.Lemmas.Mono0

/-!
# Less unwritten memory: sparse kernels, factorisation, cones
-/
namespace Ecos.Mono

open Ecos

set_option linter.unusedSectionVars false
set_option linter.unusedVariables false
set_option linter.unusedTactic false

section generic
variable {F : Type} [Zero F] [One F] [Add F] [Sub F] [Mul F] [Div F] [Neg F] [OfScientific F]
  [IntCast F] [PFloat F]
variable {σ : Type} [Rel σ]

@[mle] theorem getIdxA_le {α : Type} [Rel α] {a a' : Array α} {i i' : Nat} (h : a ⊑ a') (hi : i = i') : getIdx a i ⊑ getIdx a' i' := hi ▸ getIdx_le h
@[mle] theorem setIdxA_le {α : Type} [Rel α] {a a' : Array α} {i i' : Nat} {x x' : α} (h : a ⊑ a') (hi : i = i') (hx : x ⊑ x') :
    setIdx a i x ⊑ setIdx a' i' x' := hi ▸ setIdx_le h hx

@[mle] theorem noneP_le {α : Type} : (none : Option (Array (Option α))) ⊑ none := trivial
@[mle] theorem noneO_le {α : Type} : @Rel.le _ relOpt (none : Option α) none := fun _ h => h
@[mle] theorem someP_le {α : Type} {a b : Array (Option α)} (h : a ⊑ b) : some a ⊑ some b := h

@[mle] theorem rdI_le {α : Type} {b b' : Buf α} {i i' : Int} (hb : b ⊑ b') (hi : i = i') : @Rel.le (Except UB α) (@relM _ relEq) (rdI b i) (rdI b' i') := by
  subst_vars
  unfold rdI
  mono

@[mle] theorem wrI_le {α : Type} {b b' : Buf α} {i i' : Int} {v v' : α} (hb : b ⊑ b') (hi : i = i') (hv : v = v') : wrI b i v ⊑ wrI b' i' v' := by
  subst_vars
  unfold wrI
  mono

/-! ### Sparse kernels -/

structure SpLe (l' r' : SpMat F) : Prop where
  jc : l'.jc ⊑ r'.jc
  ir : l'.ir ⊑ r'.ir
  pr : l'.pr ⊑ r'.pr
  n : l'.n = r'.n
  m : l'.m = r'.m
  nnz : l'.nnz = r'.nnz
instance (priority := high) relSp : Rel (SpMat F) := ⟨SpLe⟩
@[mle] theorem Sp_jc {a b : SpMat F} (h : a ⊑ b) : a.jc ⊑ b.jc := SpLe.jc h
@[mle] theorem Sp_ir {a b : SpMat F} (h : a ⊑ b) : a.ir ⊑ b.ir := SpLe.ir h
@[mle] theorem Sp_pr {a b : SpMat F} (h : a ⊑ b) : a.pr ⊑ b.pr := SpLe.pr h
@[mle] theorem Sp_n {a b : SpMat F} (h : a ⊑ b) : a.n = b.n := SpLe.n h
@[mle] theorem Sp_m {a b : SpMat F} (h : a ⊑ b) : a.m = b.m := SpLe.m h
@[mle] theorem Sp_nnz {a b : SpMat F} (h : a ⊑ b) : a.nnz = b.nnz := SpLe.nnz h
@[mle] theorem Sp_mk {a0 b0 : Buf Nat} {a1 b1 : Buf Nat} {a2 b2 : Buf F} {a3 b3 : Nat} {a4 b4 : Nat} {a5 b5 : Nat} (h0 : a0 ⊑ b0) (h1 : a1 ⊑ b1) (h2 : a2 ⊑ b2) (h3 : a3 = b3) (h4 : a4 = b4) (h5 : a5 = b5) :
    (⟨a0, a1, a2, a3, a4, a5⟩ : SpMat F) ⊑ ⟨b0, b1, b2, b3, b4, b5⟩ := SpLe.mk h0 h1 h2 h3 h4 h5

instance (priority := high) relSpP : Rel (Option (SpMat F)) := ⟨PLe⟩
@[mle] theorem noneSp_le : (none : Option (SpMat F)) ⊑ none := trivial
@[mle] theorem someSp_le {a b : SpMat F} (h : a ⊑ b) : some a ⊑ some b := h
@[mle] theorem derefSp_le {A A' : Option (SpMat F)} (h : A ⊑ A') : deref A ⊑ deref A' := deref_le h

@[mle] theorem fillZero_le {y y' : Buf F} {n n' : Nat} (hy : y ⊑ y') (hn : n = n') :
    fillZero y n ⊑ fillZero y' n' := by
  subst_vars
  unfold fillZero
  mono

@[mle] theorem initVec_le {y y' : Buf F} {n n' : Nat} {newVector newVector' : Int} (hy : y ⊑ y') (hn : n = n') (hnewVector : newVector = newVector') :
    initVec y n newVector ⊑ initVec y' n' newVector' := by
  subst_vars
  unfold initVec
  mono

@[mle] theorem mvAcc_le {A A' : SpMat F} {x x' : Buf F} {y y' : Buf F} {a a' : Int} (hA : A ⊑ A') (hx : x ⊑ x') (hy : y ⊑ y') (ha : a = a') :
    mvAcc A x y a ⊑ mvAcc A' x' y' a' := by
  subst_vars
  unfold mvAcc
  mono

@[mle] theorem sparseMV_le {A A' : SpMat F} {x x' : Buf F} {y y' : Buf F} {a a' : Int} {newVector newVector' : Int} (hA : A ⊑ A') (hx : x ⊑ x') (hy : y ⊑ y') (ha : a = a') (hnewVector : newVector = newVector') :
    sparseMV A x y a newVector ⊑ sparseMV A' x' y' a' newVector' := by
  subst_vars
  unfold sparseMV
  mono

@[mle] theorem skipProd_le {A A' : SpMat F} {x x' : Buf F} {i i' : Nat} {j j' : Nat} {k k' : Nat} (hA : A ⊑ A') (hx : x ⊑ x') (hi : i = i') (hj : j = j') (hk : k = k') :
    skipProd A x i j k ⊑ skipProd A' x' i' j' k' := by
  subst_vars
  unfold skipProd
  mono

@[mle] theorem mtvAcc_le {A A' : SpMat F} {x x' : Buf F} {y y' : Buf F} {skipDiagonal skipDiagonal' : Int} (hA : A ⊑ A') (hx : x ⊑ x') (hy : y ⊑ y') (hskipDiagonal : skipDiagonal = skipDiagonal') :
    mtvAcc A x y skipDiagonal ⊑ mtvAcc A' x' y' skipDiagonal' := by
  subst_vars
  unfold mtvAcc
  mono

@[mle] theorem sparseMtVm_le {A A' : SpMat F} {x x' : Buf F} {y y' : Buf F} {newVector newVector' : Int} {skipDiagonal skipDiagonal' : Int} (hA : A ⊑ A') (hx : x ⊑ x') (hy : y ⊑ y') (hnewVector : newVector = newVector') (hskipDiagonal : skipDiagonal = skipDiagonal') :
    sparseMtVm A x y newVector skipDiagonal ⊑ sparseMtVm A' x' y' newVector' skipDiagonal' := by
  subst_vars
  unfold sparseMtVm
  mono

@[mle] theorem vadd_le {n n' : Nat} {x x' : Buf F} {y y' : Buf F} (hn : n = n') (hx : x ⊑ x') (hy : y ⊑ y') :
    vadd n x y ⊑ vadd n' x' y' := by
  subst_vars
  unfold vadd
  mono

@[mle] theorem vsubscale_le {n n' : Nat} {a a' : F} {x x' : Buf F} {y y' : Buf F} (hn : n = n') (ha : a = a') (hx : x ⊑ x') (hy : y ⊑ y') :
    vsubscale n a x y ⊑ vsubscale n' a' x' y' := by
  subst_vars
  unfold vsubscale
  mono

@[mle] theorem norm2_le {v v' : Buf F} {n n' : Nat} (hv : v ⊑ v') (hn : n = n') :
    norm2 v n ⊑ norm2 v' n' := by
  subst_vars
  unfold norm2
  mono

@[mle] theorem norminf_le {v v' : Buf F} {n n' : Nat} (hv : v ⊑ v') (hn : n = n') :
    norminf v n ⊑ norminf v' n' := by
  subst_vars
  unfold norminf
  mono

@[mle] theorem eddot_le {n n' : Nat} {x x' : Buf F} {y y' : Buf F} (hn : n = n') (hx : x ⊑ x') (hy : y ⊑ y') :
    eddot n x y ⊑ eddot n' x' y' := by
  subst_vars
  unfold eddot
  mono

/-! ### Factorisation -/

structure SymLe (l' r' : Sym) : Prop where
  parent : l'.parent ⊑ r'.parent
  lnz : l'.lnz ⊑ r'.lnz
  flag : l'.flag ⊑ r'.flag
instance (priority := high) relSym : Rel (Sym) := ⟨SymLe⟩
@[mle] theorem Sym_parent {a b : Sym} (h : a ⊑ b) : a.parent ⊑ b.parent := SymLe.parent h
@[mle] theorem Sym_lnz {a b : Sym} (h : a ⊑ b) : a.lnz ⊑ b.lnz := SymLe.lnz h
@[mle] theorem Sym_flag {a b : Sym} (h : a ⊑ b) : a.flag ⊑ b.flag := SymLe.flag h
@[mle] theorem Sym_mk {a0 b0 : Buf Int} {a1 b1 : Buf Nat} {a2 b2 : Buf Nat} (h0 : a0 ⊑ b0) (h1 : a1 ⊑ b1) (h2 : a2 ⊑ b2) :
    (⟨a0, a1, a2⟩ : Sym) ⊑ ⟨b0, b1, b2⟩ := SymLe.mk h0 h1 h2

@[mle] theorem symWalk_le {k k' fuel fuel' : Nat} {i i' : Int} {S S' : Sym} (hk : k = k') (hf : fuel = fuel') (hi : i = i') (hS : S ⊑ S') :
    symWalk k fuel i S ⊑ symWalk k' fuel' i' S' := by
  subst_vars
  induction fuel' generalizing i' S S' with
  | zero => exact error_le
  | succ n ih =>
    unfold symWalk
    mono
    exact ih (by mono)

@[mle] theorem symStep_le {n n' : Nat} {Ap Ap' : Buf Nat} {Ai Ai' : Buf Nat} {k k' : Nat} {S S' : Sym} (hn : n = n') (hAp : Ap ⊑ Ap') (hAi : Ai ⊑ Ai') (hk : k = k') (hS : S ⊑ S') :
    symStep n Ap Ai k S ⊑ symStep n' Ap' Ai' k' S' := by
  subst_vars
  unfold symStep
  mono

@[mle] theorem ldlSymbolic_le {n n' : Nat} {Ap Ap' : Buf Nat} {Ai Ai' : Buf Nat} {Lp Lp' : Buf Nat} {S S' : Sym} (hn : n = n') (hAp : Ap ⊑ Ap') (hAi : Ai ⊑ Ai') (hLp : Lp ⊑ Lp') (hS : S ⊑ S') :
    ldlSymbolic n Ap Ai Lp S ⊑ ldlSymbolic n' Ap' Ai' Lp' S' := by
  subst_vars
  unfold ldlSymbolic
  mono

structure NumLe (l' r' : Num F) : Prop where
  lnz : l'.lnz ⊑ r'.lnz
  li : l'.li ⊑ r'.li
  lx : l'.lx ⊑ r'.lx
  d : l'.d ⊑ r'.d
  y : l'.y ⊑ r'.y
  pattern : l'.pattern ⊑ r'.pattern
  flag : l'.flag ⊑ r'.flag
instance (priority := high) relNum : Rel (Num F) := ⟨NumLe⟩
@[mle] theorem Num_lnz {a b : Num F} (h : a ⊑ b) : a.lnz ⊑ b.lnz := NumLe.lnz h
@[mle] theorem Num_li {a b : Num F} (h : a ⊑ b) : a.li ⊑ b.li := NumLe.li h
@[mle] theorem Num_lx {a b : Num F} (h : a ⊑ b) : a.lx ⊑ b.lx := NumLe.lx h
@[mle] theorem Num_d {a b : Num F} (h : a ⊑ b) : a.d ⊑ b.d := NumLe.d h
@[mle] theorem Num_y {a b : Num F} (h : a ⊑ b) : a.y ⊑ b.y := NumLe.y h
@[mle] theorem Num_pattern {a b : Num F} (h : a ⊑ b) : a.pattern ⊑ b.pattern := NumLe.pattern h
@[mle] theorem Num_flag {a b : Num F} (h : a ⊑ b) : a.flag ⊑ b.flag := NumLe.flag h
@[mle] theorem Num_mk {a0 b0 : Buf Nat} {a1 b1 : Buf Nat} {a2 b2 : Buf F} {a3 b3 : Buf F} {a4 b4 : Buf F} {a5 b5 : Buf Nat} {a6 b6 : Buf Nat} (h0 : a0 ⊑ b0) (h1 : a1 ⊑ b1) (h2 : a2 ⊑ b2) (h3 : a3 ⊑ b3) (h4 : a4 ⊑ b4) (h5 : a5 ⊑ b5) (h6 : a6 ⊑ b6) :
    (⟨a0, a1, a2, a3, a4, a5, a6⟩ : Num F) ⊑ ⟨b0, b1, b2, b3, b4, b5, b6⟩ := NumLe.mk h0 h1 h2 h3 h4 h5 h6

@[mle] theorem numWalk_le {k k' : Nat} {p p' : Buf Int} {fuel fuel' : Nat} {i i' : Int} {len len' : Nat} {t t' : Buf Nat × Buf Nat} (hk : k = k') (hp : p ⊑ p')
    (hf : fuel = fuel') (hi : i = i') (hl : len = len') (ht : t ⊑ t') : numWalk k p fuel i len t ⊑ numWalk k' p' fuel' i' len' t' := by
  subst_vars
  induction fuel' generalizing i' len' t t' with
  | zero => exact error_le
  | succ n ih =>
    unfold numWalk
    have h1 := ht.1
    have h2 := ht.2
    mono
    exact ih (by mono)

@[mle] theorem stackMove_le {len len' top top' : Nat} {t t' : Buf Nat} (hl : len = len') (hp : top = top') (ht : t ⊑ t') :
    stackMove len top t ⊑ stackMove len' top' t' := by
  subst_vars
  induction len' generalizing top' t t' with
  | zero => unfold stackMove; mono
  | succ n ih =>
    unfold stackMove
    mono
    exact ih (by assumption)

@[mle] theorem numScatter_le {n n' : Nat} {Ap Ap' : Buf Nat} {Ai Ai' : Buf Nat} {Ax Ax' : Buf F} {parent parent' : Buf Int} {k k' : Nat} {S S' : Num F} (hn : n = n') (hAp : Ap ⊑ Ap') (hAi : Ai ⊑ Ai') (hAx : Ax ⊑ Ax') (hparent : parent ⊑ parent') (hk : k = k') (hS : S ⊑ S') :
    numScatter n Ap Ai Ax parent k S ⊑ numScatter n' Ap' Ai' Ax' parent' k' S' := by
  subst_vars
  unfold numScatter
  mono

@[mle] theorem numElim_le {Lp Lp' : Buf Nat} {k k' : Nat} {t t' : Nat} {S S' : Num F} (hLp : Lp ⊑ Lp') (hk : k = k') (ht : t = t') (hS : S ⊑ S') :
    numElim Lp k t S ⊑ numElim Lp' k' t' S' := by
  subst_vars
  unfold numElim
  mono

@[mle] theorem numStep_le {n n' : Nat} {Ap Ap' : Buf Nat} {Ai Ai' : Buf Nat} {Ax Ax' : Buf F} {Lp Lp' : Buf Nat} {parent parent' : Buf Int} {sign sign' : Buf Int} {eps eps' : F} {delta delta' : F} {k k' : Nat} {S S' : Num F} (hn : n = n') (hAp : Ap ⊑ Ap') (hAi : Ai ⊑ Ai') (hAx : Ax ⊑ Ax') (hLp : Lp ⊑ Lp') (hparent : parent ⊑ parent') (hsign : sign ⊑ sign') (heps : eps = eps') (hdelta : delta = delta') (hk : k = k') (hS : S ⊑ S') :
    numStep n Ap Ai Ax Lp parent sign eps delta k S ⊑ numStep n' Ap' Ai' Ax' Lp' parent' sign' eps' delta' k' S' := by
  subst_vars
  unfold numStep
  mono

@[mle] theorem ldlNumeric_le {n n' : Nat} {Ap Ap' : Buf Nat} {Ai Ai' : Buf Nat} {Ax Ax' : Buf F} {Lp Lp' : Buf Nat} {parent parent' : Buf Int} {sign sign' : Buf Int} {eps eps' : F} {delta delta' : F} {S S' : Num F} (hn : n = n') (hAp : Ap ⊑ Ap') (hAi : Ai ⊑ Ai') (hAx : Ax ⊑ Ax') (hLp : Lp ⊑ Lp') (hparent : parent ⊑ parent') (hsign : sign ⊑ sign') (heps : eps = eps') (hdelta : delta = delta') (hS : S ⊑ S') :
    ldlNumeric n Ap Ai Ax Lp parent sign eps delta S ⊑ ldlNumeric n' Ap' Ai' Ax' Lp' parent' sign' eps' delta' S' := by
  subst_vars
  unfold ldlNumeric
  mono

@[mle] theorem ldlLsolve2_le {n n' : Nat} {b b' : Buf F} {Lp Lp' : Buf Nat} {Li Li' : Buf Nat} {Lx Lx' : Buf F} {x x' : Buf F} (hn : n = n') (hb : b ⊑ b') (hLp : Lp ⊑ Lp') (hLi : Li ⊑ Li') (hLx : Lx ⊑ Lx') (hx : x ⊑ x') :
    ldlLsolve2 n b Lp Li Lx x ⊑ ldlLsolve2 n' b' Lp' Li' Lx' x' := by
  subst_vars
  unfold ldlLsolve2
  mono

@[mle] theorem ldlDsolve_le {n n' : Nat} {x x' : Buf F} {d d' : Buf F} (hn : n = n') (hx : x ⊑ x') (hd : d ⊑ d') :
    ldlDsolve n x d ⊑ ldlDsolve n' x' d' := by
  subst_vars
  unfold ldlDsolve
  mono

@[mle] theorem ldlLtsolve_le {n n' : Nat} {x x' : Buf F} {Lp Lp' : Buf Nat} {Li Li' : Buf Nat} {Lx Lx' : Buf F} (hn : n = n') (hx : x ⊑ x') (hLp : Lp ⊑ Lp') (hLi : Li ⊑ Li') (hLx : Lx ⊑ Lx') :
    ldlLtsolve n x Lp Li Lx ⊑ ldlLtsolve n' x' Lp' Li' Lx' := by
  subst_vars
  unfold ldlLtsolve
  mono

/-! ### Exponential cones -/

structure ExpLe (l' r' : ExpCone F) : Prop where
  colstart : l'.colstart ⊑ r'.colstart
  v : l'.v ⊑ r'.v
  g : l'.g ⊑ r'.g
instance (priority := high) relExp : Rel (ExpCone F) := ⟨ExpLe⟩
@[mle] theorem Exp_colstart {a b : ExpCone F} (h : a ⊑ b) : a.colstart ⊑ b.colstart := ExpLe.colstart h
@[mle] theorem Exp_v {a b : ExpCone F} (h : a ⊑ b) : a.v ⊑ b.v := ExpLe.v h
@[mle] theorem Exp_g {a b : ExpCone F} (h : a ⊑ b) : a.g ⊑ b.g := ExpLe.g h
@[mle] theorem Exp_mk {a0 b0 : Buf Nat} {a1 b1 : Buf F} {a2 b2 : Buf F} (h0 : a0 ⊑ b0) (h1 : a1 ⊑ b1) (h2 : a2 ⊑ b2) :
    (⟨a0, a1, a2⟩ : ExpCone F) ⊑ ⟨b0, b1, b2⟩ := ExpLe.mk h0 h1 h2

@[mle] theorem evalExpHessian_le {b b' : Buf F} {off off' : Nat} {v v' : Buf F} {mu mu' : F} (hb : b ⊑ b') (hoff : off = off') (hv : v ⊑ v') (hmu : mu = mu') :
    evalExpHessian b off v mu ⊑ evalExpHessian b' off' v' mu' := by
  subst_vars
  unfold evalExpHessian
  mono

@[mle] theorem evalExpGradient_le {b b' : Buf F} {off off' : Nat} {g g' : Buf F} (hb : b ⊑ b') (hoff : off = off') (hg : g ⊑ g') :
    evalExpGradient b off g ⊑ evalExpGradient b' off' g' := by
  subst_vars
  unfold evalExpGradient
  mono

@[mle] theorem evalBarrierValue_le {siter siter' : Buf F} {ziter ziter' : Buf F} {fc fc' : Nat} {nexc nexc' : Nat} (hsiter : siter ⊑ siter') (hziter : ziter ⊑ ziter') (hfc : fc = fc') (hnexc : nexc = nexc') :
    evalBarrierValue siter ziter fc nexc ⊑ evalBarrierValue siter' ziter' fc' nexc' := by
  subst_vars
  unfold evalBarrierValue
  mono

@[mle] theorem scaleExp1_le {e e' : ExpCone F} {x x' : Buf F} {k k' : Nat} {y y' : Buf F} (he : e ⊑ e') (hx : x ⊑ x') (hk : k = k') (hy : y ⊑ y') :
    scaleExp1 e x k y ⊑ scaleExp1 e' x' k' y' := by
  subst_vars
  unfold scaleExp1
  mono

@[mle] theorem scaleToAddExpcone_le {y y' : Buf F} {x x' : Buf F} {expc expc' : Array (ExpCone F)} {nexc nexc' : Nat} {fc fc' : Nat} (hy : y ⊑ y') (hx : x ⊑ x') (hexpc : expc ⊑ expc') (hnexc : nexc = nexc') (hfc : fc = fc') :
    scaleToAddExpcone y x expc nexc fc ⊑ scaleToAddExpcone y' x' expc' nexc' fc' := by
  subst_vars
  unfold scaleToAddExpcone
  mono

@[mle] theorem evalExpPrimalFeas_le {b b' : Buf F} {off off' : Nat} {nexc nexc' : Nat} (hb : b ⊑ b') (hoff : off = off') (hnexc : nexc = nexc') :
    evalExpPrimalFeas b off nexc ⊑ evalExpPrimalFeas b' off' nexc' := by
  subst_vars
  unfold evalExpPrimalFeas
  mono

@[mle] theorem evalExpDualFeas_le {b b' : Buf F} {off off' : Nat} {nexc nexc' : Nat} (hb : b ⊑ b') (hoff : off = off') (hnexc : nexc = nexc') :
    evalExpDualFeas b off nexc ⊑ evalExpDualFeas b' off' nexc' := by
  subst_vars
  unfold evalExpDualFeas
  mono

/-! ### Cones -/

structure LpLe (l' r' : LpCone F) : Prop where
  p : l'.p = r'.p
  w : l'.w ⊑ r'.w
  v : l'.v ⊑ r'.v
  kktIdx : l'.kktIdx ⊑ r'.kktIdx
instance (priority := high) relLp : Rel (LpCone F) := ⟨LpLe⟩
@[mle] theorem Lp_p {a b : LpCone F} (h : a ⊑ b) : a.p = b.p := LpLe.p h
@[mle] theorem Lp_w {a b : LpCone F} (h : a ⊑ b) : a.w ⊑ b.w := LpLe.w h
@[mle] theorem Lp_v {a b : LpCone F} (h : a ⊑ b) : a.v ⊑ b.v := LpLe.v h
@[mle] theorem Lp_kktIdx {a b : LpCone F} (h : a ⊑ b) : a.kktIdx ⊑ b.kktIdx := LpLe.kktIdx h
@[mle] theorem Lp_mk {a0 b0 : Nat} {a1 b1 : Buf F} {a2 b2 : Buf F} {a3 b3 : Buf Nat} (h0 : a0 = b0) (h1 : a1 ⊑ b1) (h2 : a2 ⊑ b2) (h3 : a3 ⊑ b3) :
    (⟨a0, a1, a2, a3⟩ : LpCone F) ⊑ ⟨b0, b1, b2, b3⟩ := LpLe.mk h0 h1 h2 h3

structure SocLe (l' r' : SoCone F) : Prop where
  p : l'.p = r'.p
  skbar : l'.skbar ⊑ r'.skbar
  zkbar : l'.zkbar ⊑ r'.zkbar
  a : l'.a ⊑ r'.a
  d1 : l'.d1 ⊑ r'.d1
  w : l'.w ⊑ r'.w
  eta : l'.eta ⊑ r'.eta
  etaSq : l'.etaSq ⊑ r'.etaSq
  q : l'.q ⊑ r'.q
  Didx : l'.Didx ⊑ r'.Didx
  u0 : l'.u0 ⊑ r'.u0
  u1 : l'.u1 ⊑ r'.u1
  v1 : l'.v1 ⊑ r'.v1
instance (priority := high) relSoc : Rel (SoCone F) := ⟨SocLe⟩
@[mle] theorem Soc_p {a b : SoCone F} (h : a ⊑ b) : a.p = b.p := SocLe.p h
@[mle] theorem Soc_skbar {a b : SoCone F} (h : a ⊑ b) : a.skbar ⊑ b.skbar := SocLe.skbar h
@[mle] theorem Soc_zkbar {a b : SoCone F} (h : a ⊑ b) : a.zkbar ⊑ b.zkbar := SocLe.zkbar h
@[mle] theorem Soc_a {a b : SoCone F} (h : a ⊑ b) : a.a ⊑ b.a := SocLe.a h
@[mle] theorem Soc_d1 {a b : SoCone F} (h : a ⊑ b) : a.d1 ⊑ b.d1 := SocLe.d1 h
@[mle] theorem Soc_w {a b : SoCone F} (h : a ⊑ b) : a.w ⊑ b.w := SocLe.w h
@[mle] theorem Soc_eta {a b : SoCone F} (h : a ⊑ b) : a.eta ⊑ b.eta := SocLe.eta h
@[mle] theorem Soc_etaSq {a b : SoCone F} (h : a ⊑ b) : a.etaSq ⊑ b.etaSq := SocLe.etaSq h
@[mle] theorem Soc_q {a b : SoCone F} (h : a ⊑ b) : a.q ⊑ b.q := SocLe.q h
@[mle] theorem Soc_Didx {a b : SoCone F} (h : a ⊑ b) : a.Didx ⊑ b.Didx := SocLe.Didx h
@[mle] theorem Soc_u0 {a b : SoCone F} (h : a ⊑ b) : a.u0 ⊑ b.u0 := SocLe.u0 h
@[mle] theorem Soc_u1 {a b : SoCone F} (h : a ⊑ b) : a.u1 ⊑ b.u1 := SocLe.u1 h
@[mle] theorem Soc_v1 {a b : SoCone F} (h : a ⊑ b) : a.v1 ⊑ b.v1 := SocLe.v1 h
@[mle] theorem Soc_mk {a0 b0 : Nat} {a1 b1 : Buf F} {a2 b2 : Buf F} {a3 b3 : Option F} {a4 b4 : Option F} {a5 b5 : Option F} {a6 b6 : Option F} {a7 b7 : Option F} {a8 b8 : Buf F} {a9 b9 : Buf Nat} {a10 b10 : Option F} {a11 b11 : Option F} {a12 b12 : Option F} (h0 : a0 = b0) (h1 : a1 ⊑ b1) (h2 : a2 ⊑ b2) (h3 : a3 ⊑ b3) (h4 : a4 ⊑ b4) (h5 : a5 ⊑ b5) (h6 : a6 ⊑ b6) (h7 : a7 ⊑ b7) (h8 : a8 ⊑ b8) (h9 : a9 ⊑ b9) (h10 : a10 ⊑ b10) (h11 : a11 ⊑ b11) (h12 : a12 ⊑ b12) :
    (⟨a0, a1, a2, a3, a4, a5, a6, a7, a8, a9, a10, a11, a12⟩ : SoCone F) ⊑ ⟨b0, b1, b2, b3, b4, b5, b6, b7, b8, b9, b10, b11, b12⟩ := SocLe.mk h0 h1 h2 h3 h4 h5 h6 h7 h8 h9 h10 h11 h12

structure ConeLe (l' r' : Cone F) : Prop where
  lpc : l'.lpc ⊑ r'.lpc
  soc : l'.soc ⊑ r'.soc
  nsoc : l'.nsoc = r'.nsoc
  expc : l'.expc ⊑ r'.expc
  nexc : l'.nexc = r'.nexc
  fexv : l'.fexv = r'.fexv
instance (priority := high) relCone : Rel (Cone F) := ⟨ConeLe⟩
@[mle] theorem Cone_lpc {a b : Cone F} (h : a ⊑ b) : a.lpc ⊑ b.lpc := ConeLe.lpc h
@[mle] theorem Cone_soc {a b : Cone F} (h : a ⊑ b) : a.soc ⊑ b.soc := ConeLe.soc h
@[mle] theorem Cone_nsoc {a b : Cone F} (h : a ⊑ b) : a.nsoc = b.nsoc := ConeLe.nsoc h
@[mle] theorem Cone_expc {a b : Cone F} (h : a ⊑ b) : a.expc ⊑ b.expc := ConeLe.expc h
@[mle] theorem Cone_nexc {a b : Cone F} (h : a ⊑ b) : a.nexc = b.nexc := ConeLe.nexc h
@[mle] theorem Cone_fexv {a b : Cone F} (h : a ⊑ b) : a.fexv = b.fexv := ConeLe.fexv h
@[mle] theorem Cone_mk {a0 b0 : LpCone F} {a1 b1 : Array (SoCone F)} {a2 b2 : Nat} {a3 b3 : Array (ExpCone F)} {a4 b4 : Nat} {a5 b5 : Nat} (h0 : a0 ⊑ b0) (h1 : a1 ⊑ b1) (h2 : a2 = b2) (h3 : a3 ⊑ b3) (h4 : a4 = b4) (h5 : a5 = b5) :
    (⟨a0, a1, a2, a3, a4, a5⟩ : Cone F) ⊑ ⟨b0, b1, b2, b3, b4, b5⟩ := ConeLe.mk h0 h1 h2 h3 h4 h5

@[mle] theorem forSoc_le {C C' : Cone F} {start start' : Nat} {extra extra' : Nat} {s s' : σ} {body body' : Nat → SoCone F → Nat → σ → M σ} (hC : C ⊑ C') (hstart : start = start') (hextra : extra = extra') (hs : s ⊑ s') (hbody : ∀ u0 : Nat, ∀ u1 u1' : SoCone F, u1 ⊑ u1' → ∀ u2 : Nat, ∀ u3 u3' : σ, u3 ⊑ u3' → body u0 u1 u2 u3 ⊑ body' u0 u1' u2 u3') :
    forSoc C start extra s body ⊑ forSoc C' start' extra' s' body' := by
  subst_vars
  unfold forSoc
  mono

@[mle] theorem socres_le {b b' : Buf F} {k k' : Nat} {p p' : Nat} (hb : b ⊑ b') (hk : k = k') (hp : p = p') :
    socres b k p ⊑ socres b' k' p' := by
  subst_vars
  unfold socres
  mono

@[mle] theorem coneRes_le {r r' : Buf F} {k k' : Nat} {p p' : Nat} (hr : r ⊑ r') (hk : k = k') (hp : p = p') :
    coneRes r k p ⊑ coneRes r' k' p' := by
  subst_vars
  unfold coneRes
  mono

@[mle] theorem maxRes_le {C C' : Cone F} {r r' : Buf F} (hC : C ⊑ C') (hr : r ⊑ r') :
    maxRes C r ⊑ maxRes C' r' := by
  subst_vars
  unfold maxRes
  mono

@[mle] theorem bring2cone_le {C C' : Cone F} {r r' : Buf F} {s s' : Buf F} (hC : C ⊑ C') (hr : r ⊑ r') (hs : s ⊑ s') :
    bring2cone C r s ⊑ bring2cone C' r' s' := by
  subst_vars
  unfold bring2cone
  mono

@[mle] theorem unitInit1_le {C C' : Cone F} {s s' : Buf F} {scaling scaling' : F} (hC : C ⊑ C') (hs : s ⊑ s') (hscaling : scaling = scaling') :
    unitInit1 C s scaling ⊑ unitInit1 C' s' scaling' := by
  subst_vars
  unfold unitInit1
  mono

@[mle] theorem unitInitialization_le {C C' : Cone F} {s s' : Buf F} {z z' : Buf F} {scaling scaling' : F} (hC : C ⊑ C') (hs : s ⊑ s') (hz : z ⊑ z') (hscaling : scaling = scaling') :
    unitInitialization C s z scaling ⊑ unitInitialization C' s' z' scaling' := by
  subst_vars
  unfold unitInitialization
  mono

@[mle] theorem ntOneOver2Gamma_le {skbar skbar' : Buf F} {zkbar zkbar' : Buf F} {p p' : Nat} (hskbar : skbar ⊑ skbar') (hzkbar : zkbar ⊑ zkbar') (hp : p = p') :
    ntOneOver2Gamma skbar zkbar p ⊑ ntOneOver2Gamma skbar' zkbar' p' := by
  subst_vars
  unfold ntOneOver2Gamma
  mono

@[mle] theorem ntQ_le {skbar skbar' : Buf F} {zkbar zkbar' : Buf F} {q q' : Buf F} {p p' : Nat} {h h' : F} (hskbar : skbar ⊑ skbar') (hzkbar : zkbar ⊑ zkbar') (hq : q ⊑ q') (hp : p = p') (hh : h = h') :
    ntQ skbar zkbar q p h ⊑ ntQ skbar' zkbar' q' p' h' := by
  subst_vars
  unfold ntQ
  mono

@[mle] theorem socScaling_le {soc soc' : SoCone F} {s s' : Buf F} {z z' : Buf F} {k k' : Nat} (hsoc : soc ⊑ soc') (hs : s ⊑ s') (hz : z ⊑ z') (hk : k = k') :
    socScaling soc s z k ⊑ socScaling soc' s' z' k' := by
  subst_vars
  unfold socScaling
  mono

@[mle] theorem socScalings_le {C C' : Cone F} {s s' : Buf F} {z z' : Buf F} (hC : C ⊑ C') (hs : s ⊑ s') (hz : z ⊑ z') :
    socScalings C s z ⊑ socScalings C' s' z' := by
  subst_vars
  unfold socScalings
  mono

@[mle] theorem expScalings_le {C C' : Cone F} {z z' : Buf F} {mu mu' : F} (hC : C ⊑ C') (hz : z ⊑ z') (hmu : mu = mu') :
    expScalings C z mu ⊑ expScalings C' z' mu' := by
  subst_vars
  unfold expScalings
  mono

@[mle] theorem lpScalings_le {L L' : LpCone F} {s s' : Buf F} {z z' : Buf F} (hL : L ⊑ L') (hs : s ⊑ s') (hz : z ⊑ z') :
    lpScalings L s z ⊑ lpScalings L' s' z' := by
  subst_vars
  unfold lpScalings
  mono

@[mle] theorem scaleSoc_le {soc soc' : SoCone F} {z z' : Buf F} {k k' : Nat} {lam lam' : Buf F} (hsoc : soc ⊑ soc') (hz : z ⊑ z') (hk : k = k') (hlam : lam ⊑ lam') :
    scaleSoc soc z k lam ⊑ scaleSoc soc' z' k' lam' := by
  subst_vars
  unfold scaleSoc
  mono

@[mle] theorem scale_le {z z' : Buf F} {C C' : Cone F} {lam lam' : Buf F} (hz : z ⊑ z') (hC : C ⊑ C') (hlam : lam ⊑ lam') :
    scale z C lam ⊑ scale z' C' lam' := by
  subst_vars
  unfold scale
  mono

@[mle] theorem updateScalings_le {C C' : Cone F} {s s' : Buf F} {z z' : Buf F} {lam lam' : Buf F} {mu mu' : F} (hC : C ⊑ C') (hs : s ⊑ s') (hz : z ⊑ z') (hlam : lam ⊑ lam') (hmu : mu = mu') :
    updateScalings C s z lam mu ⊑ updateScalings C' s' z' lam' mu' := by
  subst_vars
  unfold updateScalings
  mono

@[mle] theorem evalSymmetricBarrierValue_le [HasInf F] {siter siter' : Buf F} {ziter ziter' : Buf F} {tauIter tauIter' : F} {kapIter kapIter' : F} {C C' : Cone F} {D D' : F} (hsiter : siter ⊑ siter') (hziter : ziter ⊑ ziter') (htauIter : tauIter = tauIter') (hkapIter : kapIter = kapIter') (hC : C ⊑ C') (hD : D = D') :
    evalSymmetricBarrierValue siter ziter tauIter kapIter C D ⊑ evalSymmetricBarrierValue siter' ziter' tauIter' kapIter' C' D' := by
  subst_vars
  unfold evalSymmetricBarrierValue
  mono

@[mle] theorem scale2addSoc_le {soc soc' : SoCone F} {x x' : Buf F} {k k' : Nat} {y y' : Buf F} (hsoc : soc ⊑ soc') (hx : x ⊑ x') (hk : k = k') (hy : y ⊑ y') :
    scale2addSoc soc x k y ⊑ scale2addSoc soc' x' k' y' := by
  subst_vars
  unfold scale2addSoc
  mono

@[mle] theorem scale2add_le {x x' : Buf F} {y y' : Buf F} {C C' : Cone F} (hx : x ⊑ x') (hy : y ⊑ y') (hC : C ⊑ C') :
    scale2add x y C ⊑ scale2add x' y' C' := by
  subst_vars
  unfold scale2add
  mono

@[mle] theorem unscaleSoc_le {soc soc' : SoCone F} {lam lam' : Buf F} {k k' : Nat} {z z' : Buf F} (hsoc : soc ⊑ soc') (hlam : lam ⊑ lam') (hk : k = k') (hz : z ⊑ z') :
    unscaleSoc soc lam k z ⊑ unscaleSoc soc' lam' k' z' := by
  subst_vars
  unfold unscaleSoc
  mono

@[mle] theorem unscale_le {lam lam' : Buf F} {C C' : Cone F} {z z' : Buf F} (hlam : lam ⊑ lam') (hC : C ⊑ C') (hz : z ⊑ z') :
    unscale lam C z ⊑ unscale lam' C' z' := by
  subst_vars
  unfold unscale
  mono

@[mle] theorem eddotOff_le {n n' : Nat} {x x' : Buf F} {kx kx' : Nat} {y y' : Buf F} {ky ky' : Nat} (hn : n = n') (hx : x ⊑ x') (hkx : kx = kx') (hy : y ⊑ y') (hky : ky = ky') :
    eddotOff n x kx y ky ⊑ eddotOff n' x' kx' y' ky' := by
  subst_vars
  unfold eddotOff
  mono

@[mle] theorem conicProductSoc_le {soc soc' : SoCone F} {u u' : Buf F} {v v' : Buf F} {k k' : Nat} {t t' : Buf F × F} (hsoc : soc ⊑ soc') (hu : u ⊑ u') (hv : v ⊑ v') (hk : k = k') (ht : t ⊑ t') :
    conicProductSoc soc u v k t ⊑ conicProductSoc soc' u' v' k' t' := by
  subst_vars
  unfold conicProductSoc
  mono

@[mle] theorem conicProduct_le {u u' : Buf F} {v v' : Buf F} {C C' : Cone F} {w w' : Buf F} (hu : u ⊑ u') (hv : v ⊑ v') (hC : C ⊑ C') (hw : w ⊑ w') :
    conicProduct u v C w ⊑ conicProduct u' v' C' w' := by
  subst_vars
  unfold conicProduct
  mono

@[mle] theorem conicDivisionSoc_le {soc soc' : SoCone F} {u u' : Buf F} {w w' : Buf F} {k k' : Nat} {v v' : Buf F} (hsoc : soc ⊑ soc') (hu : u ⊑ u') (hw : w ⊑ w') (hk : k = k') (hv : v ⊑ v') :
    conicDivisionSoc soc u w k v ⊑ conicDivisionSoc soc' u' w' k' v' := by
  subst_vars
  unfold conicDivisionSoc
  mono

@[mle] theorem conicDivision_le {u u' : Buf F} {w w' : Buf F} {C C' : Cone F} {v v' : Buf F} (hu : u ⊑ u') (hw : w ⊑ w') (hC : C ⊑ C') (hv : v ⊑ v') :
    conicDivision u w C v ⊑ conicDivision u' w' C' v' := by
  subst_vars
  unfold conicDivision
  mono

@[mle] theorem gather_le {dst dst' : Buf F} {off off' : Nat} {Px Px' : Buf F} {Pinv Pinv' : Buf Nat} {src src' : Nat} {n n' : Nat} (hdst : dst ⊑ dst') (hoff : off = off') (hPx : Px ⊑ Px') (hPinv : Pinv ⊑ Pinv') (hsrc : src = src') (hn : n = n') :
    gather dst off Px Pinv src n ⊑ gather dst' off' Px' Pinv' src' n' := by
  subst_vars
  unfold gather
  mono

@[mle] theorem unstretch_le {n n' : Nat} {p p' : Nat} {C C' : Cone F} {Pinv Pinv' : Buf Nat} {Px Px' : Buf F} {dx dx' : Buf F} {dy dy' : Buf F} {dz dz' : Buf F} (hn : n = n') (hp : p = p') (hC : C ⊑ C') (hPinv : Pinv ⊑ Pinv') (hPx : Px ⊑ Px') (hdx : dx ⊑ dx') (hdy : dy ⊑ dy') (hdz : dz ⊑ dz') :
    unstretch n p C Pinv Px dx dy dz ⊑ unstretch n' p' C' Pinv' Px' dx' dy' dz' := by
  subst_vars
  unfold unstretch
  mono

end generic
end Ecos.Mono
