import Verif.Lemmas.Dir4

/-!
# One pass of the main loop from the scalings to the update of the variables
-/
namespace Ecos.Dir

open Ecos Finset Ecos.Fact Ecos.Asm

set_option linter.unusedSectionVars false

section generic
variable {F : Type} [Zero F] [One F] [Add F] [Sub F] [Mul F] [Div F] [Neg F] [OfScientific F]
  [IntCast F] [PFloat F] [HasInf F] {T : Pat} {S : Shape} {amd : Nat → Buf Nat → Buf Nat → Option (Buf Nat)}

/-- the first right-hand side is `(-c, b, h)` -/
def Rhs1 (w : Work F) (T : Pat) (S : Shape) (N : Nat) (π : Nat → Nat) (c b h : Nat → F) : Prop :=
  ∃ r, Holds w.KKT.RHS1 N r ∧ (∀ i, i < T.n → r (π i) = -c i) ∧ (∀ i, i < T.p → r (π (T.n + i)) = b i) ∧
    ∀ i, i < S.x.m → r (π (T.n + T.p + i)) = stretchF S h i

theorem made_of {K K' : Kkt F} {P : Parts F} {π ai q : Nat → Nat} {ax : Nat → F} {sg : Nat → Int} (h : KMade K P π ai q ax sg)
    (e1 : K'.Pinv = K.Pinv) (e2 : K'.PKPt = K.PKPt) (e3 : K'.PK = K.PK) (ok : KktOk K' P.N (P.ap π) ai ax q sg) (d : K'.D.size = P.N)
    (r1 : K'.RHS1.size = P.N) (r2 : K'.RHS2.size = P.N) (x1 : K'.dx1.size = P.n) (x2 : K'.dx2.size = P.n) (y1 : K'.dy1.size = P.p)
    (y2 : K'.dy2.size = P.p) (z1 : K'.dz1.size = P.S.m) (z2 : K'.dz2.size = P.S.m)
    (m1 : K'.L.ir.size = K.L.ir.size) (m2 : K'.L.pr.size = K.L.pr.size) (m3 : K'.Lnz.size = P.N) (m4 : K'.Sign = K.Sign) (m5 : K'.L.jc = K.L.jc)
    (m6 : K'.Parent = K.Parent) : KMade K' P π ai q ax sg :=
  ⟨by rw [e1]; exact h.pinv, h.perm, ok, by rw [e2]; exact h.rep, by rw [e3]; exact h.pk, h.ai_eq, h.sign, d, r1, r2, x1, x2, y1, y2, z1, z2,
    h.mem.of m1 m2 m3 m4 (by rw [e2]) (by rw [e2]) m5 m6⟩

/-- cone data and matrix of before, other numbers in the (3,3) block -/
theorem live_put (hP : PatGood T S) {w : Work F} {a g c b h x y z : Nat → F} {π ai q : Nat → Nat} {ax : Nat → F} {sg : Nat → Int}
    (hl : Live amd w T S a g c b h x y z π ai q ax sg) {C : Cone F} (hC : ConeWF C S (partsOf T S a g).ix) {pr : Buf F} {f : Nat → F}
    (hpr : KV pr ((partsOf T S a g).off (partsOf T S a g).N) ((partsOf T S a g).pk π) f)
    (hf : ∀ i, i < (partsOf T S a g).off (partsOf T S a g).N → ¬ (partsOf T S a g).isV i → f i = ax ((partsOf T S a g).pk π i)) :
    ∃ ax', Live amd { w with C := C, KKT := { w.KKT with PKPt := { w.KKT.PKPt with pr := pr } } } T S a g c b h x y z π ai q ax' sg := by
  obtain ⟨ax', hk, hax⟩ := hl.made.put hP.parts hpr
  refine ⟨ax', ⟨hl.sz.n, hl.sz.m, hl.sz.p, hl.sz.D, hl.sz.x, hl.sz.y, hl.sz.z, hl.sz.s, hl.sz.bx,
      hl.sz.b_y, hl.sz.bz, hl.sz.bs, hl.sz.rx, hl.sz.ry, hl.sz.rz⟩, ⟨hl.data.A, hl.data.G, hl.data.c, hl.data.b, hl.data.h, hl.data.xe, hl.data.ye,
      hl.data.ze, hl.data.ua, hl.data.mA, hl.data.mG⟩, hC, hk, hl.ord, fun i hi hv => ?_⟩
  exact (hax i hi).trans ((hf i hi hv).trans (hl.val i hi hv))

theorem affineStep_ok {P : Pred F} (hm : P.w.m = S.m) (hC : ConeIs P.w.C S) {s z fs fz : Nat → F}
    (hws : Holds P.w.s S.m s) (hwz : Holds P.w.z S.m z) (hs : Holds P.dsaff S.m fs) (hz : Holds P.w.KKT.dz2 S.m fz)
    (hsa : ∃ v, P.w.info.stepAff = some v) (kap tau : F) : Ok (affineStep P kap tau) fun _ => True := by
  obtain ⟨v, hv⟩ := hsa
  unfold affineStep
  rw [hv]
  simp only [get, ok_bind_eq]
  split
  · rename_i hn
    refine Ok.bind (expConeLineSearch_ok (w := { P.w with info := { P.w.info with affBack := 0 } }) hm hC (by rw [← hC.nexc]; exact hn) hws hwz hs hz
      tau kap _ _ _) fun r _ => ?_
    split <;> simp
  · simp

theorem combinedStep_ok {R : Corr F} (hm : R.w.m = S.m) (hC : ConeIs R.w.C S) {s z fs fz : Nat → F}
    (hws : Holds R.w.s S.m s) (hwz : Holds R.w.z S.m z) (hs : Holds R.ds S.m fs) (hz : Holds R.w.KKT.dz2 S.m fz)
    (hsa : ∃ v, R.w.info.step = some v) (kap tau : F) : Ok (combinedStep R kap tau) fun _ => True := by
  obtain ⟨v, hv⟩ := hsa
  unfold combinedStep
  rw [hv]
  simp only [get, ok_bind_eq]
  split
  · rename_i hn
    refine Ok.bind (expConeLineSearch_ok (w := { R.w with info := { R.w.info with cmbBack := 0 } }) hm hC (by rw [← hC.nexc]; exact hn) hws hwz hs hz
      tau kap _ _ _) fun r _ => ?_
    split <;> simp
  · simp

/-- how the step length `st` was chosen: the line search on the scaled directions, times `gamma`, and what `combinedStep` makes of it -/
structure Chosen (S : Shape) (lam dsW dzW s z ds dz : Nat → F) (kap tau dkap dtau st : F) (w' : Work F) (R : Corr F) : Prop where
  line : R.w.info.step = some (lineF S lam dsW dzW tau dtau kap dkap * w'.stgs.gamma)
  run : ∃ i, combinedStep R kap tau = .ok (some st, i)
  cone : ConeIs R.w.C S
  m : R.w.m = S.m
  stgs : R.w.stgs = w'.stgs
  s : Holds R.w.s S.m s
  z : Holds R.w.z S.m z
  ds : Holds R.ds S.m ds
  dz : Holds R.w.KKT.dz2 S.m dz
  dtau : R.dtau = dtau
  dkap : R.dkap = dkap

/-- what one pass did to reach the next iterate -/
structure Moved (T : Pat) (S : Shape) (N : Nat) (π : Nat → Nat) (V : ConeV F) (c b h x y z s rx ry rz : Nat → F)
    (kap tau rt mu sigma st : F) (f1x f1y f1z a2x a2y a2z e2x e2y e2z u ds : Nat → F)
    (dtau dkap dkaff dtaff : F) (w' : Work F) : Prop where
  scal : IsScaling S s z mu V
  sig : w'.info.sigma = some sigma
  step : w'.info.step = some st
  hx : Holds w'.x T.n fun i => x i + st * (e2x i + dtau * f1x i)
  hy : Holds w'.y T.p fun i => y i + st * (e2y i + dtau * f1y i)
  hz : Holds w'.z T.m fun i => z i + st * (e2z i + dtau * f1z i)
  hs : Holds w'.s T.m fun i => s i + st * ds i
  hkap : w'.kap = some (kap + st * dkap)
  htau : w'.tau = some (tau + st * dtau)
  x1 : Holds w'.KKT.dx1 T.n f1x
  y1 : Holds w'.KKT.dy1 T.p f1y
  z1 : Holds w'.KKT.dz1 T.m f1z
  x2 : Holds w'.KKT.dx2 T.n fun i => e2x i + dtau * f1x i
  y2 : Holds w'.KKT.dy2 T.p fun i => e2y i + dtau * f1y i
  z2 : Holds w'.KKT.dz2 T.m fun i => e2z i + dtau * f1z i
  r2 : ∃ f g, Holds w'.KKT.RHS2 N f ∧ (∀ i, i < T.n → f (π i) = rx i * (1.0 - sigma)) ∧ (∀ i, i < T.p → f (π (T.n + i)) = -ry i * (1.0 - sigma)) ∧
    (∀ i, i < S.x.m → f (π (T.n + T.p + i)) = stretchF S g i) ∧
    (∀ i, i < S.fexv → g i = (-(1.0 - sigma)) * rz i + wF S V u i) ∧ ∃ w0, SysOf w0 w' ∧ SolvedBy w0 T S N f e2x e2y e2z
  s1 : ∃ w0 f, SysOf w0 w' ∧ Holds w'.KKT.RHS1 N f ∧ SolvedBy w0 T S N f f1x f1y f1z
  sa : ∃ w0 f, SysOf w0 w' ∧ SolvedBy w0 T S N f a2x a2y a2z ∧ (∀ i, i < T.n → f (π i) = rx i) ∧ (∀ i, i < T.p → f (π (T.n + i)) = -ry i) ∧
    ∀ i, i < S.x.m → f (π (T.n + T.p + i)) = stretchF S (fun i => s i - rz i) i
  ueq : u = divF S (wF S V z) (compF S (wF S V z) (fun i => -wF S V (fun i => a2z i + dtaff * f1z i) i - wF S V z i)
    (wF S V fun i => a2z i + dtaff * f1z i) (sigma * mu))
  dta : dtaff = (rt - kap + BB.dotF T.n c a2x + BB.dotF T.p b a2y + BB.dotF T.m h a2z) /
    (kap / tau - BB.dotF T.n c f1x - BB.dotF T.p b f1y - BB.dotF T.m h f1z)
  dt : dtau = ((1 - sigma) * rt - (kap * tau + dkaff * dtaff - sigma * mu) / tau + BB.dotF T.n c e2x + BB.dotF T.p b e2y + BB.dotF T.m h e2z) /
    (kap / tau - BB.dotF T.n c f1x - BB.dotF T.p b f1y - BB.dotF T.m h f1z)
  dk : dkap = (-((kap * tau + dkaff * dtaff - sigma * mu) + kap * dtau)) / tau
  hdk : dkaff = (-kap) - kap / tau * dtaff
  dsW : ∀ i, i < S.fexv → ds i = wF S V (fun i => -(u i + wF S V (fun i => e2z i + dtau * f1z i) i)) i
  ls : ∃ R, Chosen S (wF S V z) (fun i => -(u i + wF S V (fun i => e2z i + dtau * f1z i) i)) (wF S V fun i => e2z i + dtau * f1z i) s z ds
    (fun i => e2z i + dtau * f1z i) kap tau dkap dtau st w' R

/-- what is unchanged by a pass -/
structure Same (w w' : Work F) : Prop where
  A : w'.A = w.A
  G : w'.G = w.G
  c : w'.c = w.c
  b : w'.b = w.b
  h : w'.h = w.h
  stgs : w'.stgs = w.stgs
  iter : w'.info.iter = w.info.iter
  rx0 : w'.resx0 = w.resx0
  ry0 : w'.resy0 = w.resy0
  rz0 : w'.resz0 = w.resz0

theorem passTail_ok (hP : PatGood T S) {w : Work F} {a g c b h xe ye ze : Nat → F} {π ai q : Nat → Nat} {ax : Nat → F} {sg : Nat → Int}
    (hl : Live amd w T S a g c b h xe ye ze π ai q ax sg) (h1 : Rhs1 w T S (partsOf T S a g).N π c b h)
    {x y z s rx ry rz : Nat → F} (hx : Holds w.x T.n x) (hy : Holds w.y T.p y) (hz : Holds w.z T.m z) (hs : Holds w.s T.m s)
    (hrx : Holds w.rx T.n rx) (hry : 0 < T.p → ∃ r, w.ry = some r ∧ Holds r T.p ry) (hrz : Holds w.rz T.m rz)
    {kap tau rt mu : F} (hkap : w.kap = some kap) (htau : w.tau = some tau) (hrt : w.rt = some rt) (hmu : w.info.mu = some mu)
    (hB : Best w T) :
    Ok (passTail w) fun r => match r with
      | .inl e => LiveW amd T S e.1 ∧ Full e.1 T ∧ StatI e.1.info
      | .inr w' => (∃ ax', Live amd w' T S a g c b h xe ye ze π ai q ax' sg) ∧ Rhs1 w' T S (partsOf T S a g).N π c b h ∧ Best w' T ∧ Same w w' ∧
          ∃ V sigma st f1x f1y f1z a2x a2y a2z e2x e2y e2z u ds dtau dkap dkaff dtaff,
            Moved T S (partsOf T S a g).N π V c b h x y z s rx ry rz kap tau rt mu sigma st
              f1x f1y f1z a2x a2y a2z e2x e2y e2z u ds dtau dkap dkaff dtaff w' := by
  have hsz := hl.sz
  have hmS : T.m = S.m := hP.m.symm
  have hdim : (partsOf T S a g).N = T.n + T.p + S.x.m := rfl
  have hfe : S.m = S.fexv + 3 * S.ne := rfl
  have hT := hP.parts (a := a) (g := g)
  unfold passTail
  have gmu : get w.info.mu = .ok mu := by rw [hmu]; rfl
  have gkap : get w.kap = .ok kap := by rw [hkap]; rfl
  have gtau : get w.tau = .ok tau := by rw [htau]; rfl
  have grt : get w.rt = .ok rt := by rw [hrt]; rfl
  rw [gmu, ok_bind_eq]
  have hz' : Has w.z 0 S.m z := by rw [← hmS]; exact hz.has0
  have hs' : Has w.s 0 S.m s := by rw [← hmS]; exact hs.has0
  refine Ok.bind (updateScalings_ok hl.cone hs' hz' (lam := malloc w.m) (by rw [malloc_size, hsz.m, hmS]; omega) mu) fun u0 hu => ?_
  obtain ⟨hC, ⟨hu2, -⟩ | ⟨l, V, hu2, hV, hsc, hlz, -, hl1, hl2⟩⟩ := hu
  · rw [hu2]
    simp only
    have hsz' : Sizes { w with C := u0.1 } T S :=
      ⟨hsz.n, hsz.m, hsz.p, hsz.D, hsz.x, hsz.y, hsz.z, hsz.s, hsz.bx, hsz.b_y, hsz.bz, hsz.bs, hsz.rx, hsz.ry, hsz.rz⟩
    have hB' : Best { w with C := u0.1 } T := ⟨hB.x, hB.y, hB.z, hB.s, hB.kap, hB.tau, hB.cx, hB.b_y, hB.hz, hB.stats⟩
    refine Ok.bind ((recover_runs (Cd := False) hsz' (.inr hB') OUTCONE).ok_of_not_bad fun e h => h.2) fun r hr => ?_
    rw [Ok_pure]
    obtain ⟨k1, k2, k3⟩ := hr
    refine ⟨liveW_keep ⟨a, g, c, b, h, xe, ye, ze, π, ai, q, ax, sg, ?_⟩ k1 k2, k3.resolve_left id⟩
    exact ⟨hsz', ⟨hl.data.A, hl.data.G, hl.data.c, hl.data.b, hl.data.h, hl.data.xe, hl.data.ye, hl.data.ze, hl.data.ua, hl.data.mA, hl.data.mG⟩,
      hC, hl.made, hl.ord, hl.val⟩
  · rw [hu2]
    simp only
    refine Ok.bind (kktUpdate_ok hT hl.made.pk ((partsOf T S a g).pk_perm π) hC hV (hl.made.kv hT)) fun K hK => ?_
    obtain ⟨pr, rfl, hkv⟩ := hK
    obtain ⟨ax', hl'⟩ := live_put hP hl hC hkv fun i hi hv => withV_agree _ _ _ i hi hv
    refine Ok.bind (kktFactor_ok (eps := w.stgs.eps) (delta := w.stgs.delta) hl'.made.ok).self fun f hf => ?_
    obtain ⟨⟨f1, f2, ⟨lf, df, f3⟩, f4⟩, f5⟩ := hf
    obtain ⟨fs1, fs2, fs3⟩ := kktFactor_size f5
    rw [if_neg (by rw [f1]; simp)]
    rw [gkap, ok_bind_eq, gtau, ok_bind_eq, grt, ok_bind_eq]
    have hm' := hl'.made
    have ePinv : f.1.Pinv = w.KKT.Pinv := by rw [f4]
    have ePK : f.1.PK = w.KKT.PK := by rw [f4]
    have ePt : f.1.PKPt = { w.KKT.PKPt with pr := pr } := by rw [f4]
    have er1 : f.1.RHS1 = w.KKT.RHS1 := by rw [f4]
    have er2 : f.1.RHS2 = w.KKT.RHS2 := by rw [f4]
    have ex1 : f.1.dx1 = w.KKT.dx1 := by rw [f4]
    have ex2 : f.1.dx2 = w.KKT.dx2 := by rw [f4]
    have ey1 : f.1.dy1 = w.KKT.dy1 := by rw [f4]
    have ey2 : f.1.dy2 = w.KKT.dy2 := by rw [f4]
    have ez1 : f.1.dz1 = w.KKT.dz1 := by rw [f4]
    have ez2 : f.1.dz2 = w.KKT.dz2 := by rw [f4]
    have hFac : Fac { w with C := u0.1, KKT := f.1 } T S (partsOf T S a g).ix (partsOf T S a g).N π V a g c b h x y z s rx ry rz
        ((partsOf T S a g).ap π) ai q ax' sg w.stgs.eps w.stgs.delta lf df := by
      have hm := hl.made
      refine ⟨hsz.n, hsz.p, hsz.m, hmS, hdim, hC, hV, by rw [ePinv]; exact hm.pinv, hm.perm, f2, f3, hl.data.A, hl.data.G, hl.data.c, hl.data.b,
        hl.data.h, hx, hy, hz, hs, hrx, hry, hrz, ?_, by rw [er2]; exact hm.r2, by rw [ex1]; exact hm.x1, by rw [ex2]; exact hm.x2,
        by rw [ey1]; exact hm.y1, by rw [ey2]; exact hm.y2, by rw [ez1]; exact hm.z1, by rw [ez2]; exact hm.z2⟩
      obtain ⟨r, hr, -⟩ := h1
      rw [er1]
      exact ⟨r, hr⟩
    have hlam : Has l 0 S.fexv (wF S V z) := glue_has hl1 hl2
    have hls : l.size = S.m := by rw [hlz, malloc_size, hsz.m, hmS]
    refine Ok.bind (affineDir_ok hFac hls hlam kap tau rt) fun P hA => ?_
    obtain ⟨f1x, f1y, f1z, a2x, a2y, a2z, dza, hA⟩ := hA
    have hAw := hA.eq
    obtain ⟨fds, hfds⟩ := hA.dsaff
    have eAm : P.w.m = S.m := by rw [hAw]; exact hsz.m.trans hmS
    have eAs : Holds P.w.s S.m s := by rw [hAw, ← hmS]; exact hs
    have eAz : Holds P.w.z S.m z := by rw [hAw, ← hmS]; exact hz
    have eAC : P.w.C = u0.1 := by rw [hAw]
    refine Ok.bind (affineStep_ok eAm (by rw [eAC]; exact hC.is) eAs eAz hfds hA.z2 hA.sa kap tau).self fun sa hsa => ?_
    have hsa := affineStep_fr hsa.2
    refine Ok.bind (combinedDir_ok hFac hlam hA _ mu (centering sa.1)) fun R hR => ?_
    obtain ⟨e2x, e2y, e2z, u, ds, hR⟩ := hR
    have hRw := hR.eq
    have eRm : R.w.m = S.m := by rw [hRw]; exact eAm
    have eRs : Holds R.w.s S.m s := by rw [hRw]; exact eAs
    have eRz : Holds R.w.z S.m z := by rw [hRw]; exact eAz
    refine Ok.bind (combinedStep_ok eRm hR.cone.is eRs eRz hR.dsH hR.z2 ⟨_, hR.step⟩ kap tau).self fun st hst => ?_
    have hrun := hst.2
    have hst := combinedStep_fr hst.2
    -- the workspace now
    have eK : R.w.KKT = { f.1 with RHS2 := R.w.KKT.RHS2, dx1 := P.w.KKT.dx1, dy1 := P.w.KKT.dy1, dz1 := P.w.KKT.dz1,
                                   dx2 := R.w.KKT.dx2, dy2 := R.w.KKT.dy2, dz2 := R.w.KKT.dz2 } := by
      rw [hRw]
      dsimp only
      rw [hAw]
    have eAi := congrArg Work.info hAw
    have eRi := congrArg Work.info hRw
    dsimp only at eAi eRi
    have hmade : KMade R.w.KKT (partsOf T S a g) π ai q ax' sg := by
      obtain ⟨r2f, -, hr2, -⟩ := hR.r2
      refine made_of hm' (by rw [eK]; exact ePinv) (by rw [eK]; exact ePt) (by rw [eK]; exact ePK) ?_ ?_ ?_ hr2.size ?_ ?_ ?_ ?_ ?_ ?_ ?_ ?_ ?_ ?_ ?_ ?_
      · rw [eK]
        exact ⟨f2.n, f2.pat, f2.tree, f2.jc, f2.ir, f2.pr, f2.lp, f2.lir, f2.lpr, f2.par, f2.sign⟩
      · rw [eK]; exact f3.d.size
      · rw [eK]; show f.1.RHS1.size = _; rw [er1]; exact hl.made.r1
      · rw [eK]; exact hA.x1.size
      · exact hR.x2.size
      · rw [eK]; exact hA.y1.size
      · exact hR.y2.size
      · rw [eK]; exact hA.z1.size
      · exact hR.z2.size
      · rw [eK]; exact fs1
      · rw [eK]; exact fs2
      · rw [eK]; exact fs3.trans hm'.rep.n_eq
      · rw [eK]; show f.1.Sign = _; rw [f4]
      · rw [eK]; show f.1.L.jc = _; rw [f4]
      · rw [eK]; show f.1.Parent = _; rw [f4]
    have hsys : ∀ {i' : Stats F} {x' y' z' s' : Buf F} {k' t' : Option F} (w0 : Work F), SysOf w0 { w with C := u0.1, KKT := f.1 } →
        SysOf w0 { R.w with info := i', x := x', y := y', z := z', s := s', kap := k', tau := t' } := by
      intro i' x' y' z' s' k' t' w0 k
      refine ⟨k.A.trans ?_, k.G.trans ?_, k.K.trans ?_, k.P.trans ?_, k.lpc.trans (hR.lpc.trans ?_).symm, k.soc.trans (hR.soc.trans ?_).symm⟩
      · dsimp only; rw [hRw]; dsimp only; rw [hAw]
      · dsimp only; rw [hRw]; dsimp only; rw [hAw]
      · dsimp only; rw [eK]
      · dsimp only; rw [eK]
      · dsimp only; rw [hAw]
      · dsimp only; rw [hAw]
    have hRlive : ∀ i', Live amd { R.w with info := i' } T S a g c b h xe ye ze π ai q ax' sg := by
      intro i'
      refine ⟨?_, ?_, hR.cone, hmade, hl.ord, hl'.val⟩
      · rw [hRw]; dsimp only; rw [hAw]
        exact ⟨hsz.n, hsz.m, hsz.p, hsz.D, hsz.x, hsz.y, hsz.z, hsz.s, hsz.bx, hsz.b_y, hsz.bz, hsz.bs, hsz.rx, hsz.ry, hsz.rz⟩
      · rw [hRw]; dsimp only; rw [hAw]
        exact ⟨hl.data.A, hl.data.G, hl.data.c, hl.data.b, hl.data.h, hl.data.xe, hl.data.ye, hl.data.ze, hl.data.ua, hl.data.mA, hl.data.mG⟩
    have hRbest : ∀ i', Best { R.w with info := i' } T := by
      intro i'
      rw [hRw]; dsimp only; rw [hAw]
      exact ⟨hB.x, hB.y, hB.z, hB.s, hB.kap, hB.tau, hB.cx, hB.b_y, hB.hz, hB.stats⟩
    cases hc : st.1 with
    | none =>
      simp only
      refine Ok.bind ((recover_runs (Cd := False) (hRlive st.2).sz (.inr (hRbest st.2)) NUMERICS).ok_of_not_bad fun e h => h.2) fun r hr => ?_
      rw [Ok_pure]
      obtain ⟨k1, k2, k3⟩ := hr
      exact ⟨liveW_keep ⟨a, g, c, b, h, xe, ye, ze, π, ai, q, ax', sg, hRlive st.2⟩ k1 k2, k3.resolve_left id⟩
    | some al =>
      simp only
      unfold updateVars
      dsimp only
      have hLR := hRlive st.2
      have eRx : R.w.x = w.x := by rw [hRw]; dsimp only; rw [hAw]
      have eRy : R.w.y = w.y := by rw [hRw]; dsimp only; rw [hAw]
      have eRzz : R.w.z = w.z := by rw [hRw]; dsimp only; rw [hAw]
      have eRss : R.w.s = w.s := by rw [hRw]; dsimp only; rw [hAw]
      have eRn : R.w.n = T.n := hLR.sz.n
      have eRp : R.w.p = T.p := hLR.sz.p
      have eRmT : R.w.m = T.m := hLR.sz.m
      have z2T := hR.z2
      have dsT := hR.dsH
      rw [← hmS] at z2T dsT
      refine Ok.bind (P := fun w' => ∃ x' y' z' s', w' = { R.w with info := st.2, x := x', y := y', z := z', s := s', kap := some (kap + al * R.dkap), tau := some (tau + al * R.dtau) } ∧ Holds x' T.n (fun i => x i + al * (e2x i + R.dtau * f1x i)) ∧
          Holds y' T.p (fun i => y i + al * (e2y i + R.dtau * f1y i)) ∧ Holds z' T.m (fun i => z i + al * (e2z i + R.dtau * f1z i)) ∧
          Holds s' T.m fun i => s i + al * ds i) ?_ fun w' hw' => ?_
      · refine Ok.bind (P := fun x' => Holds x' T.n _) (by rw [eRx, eRn]; exact axpy_ok hx hR.x2 al) fun x' hx' => ?_
        refine Ok.bind (P := fun y' => Holds y' T.p _) (by rw [eRy, eRp]; exact axpy_ok hy hR.y2 al) fun y' hy' => ?_
        refine Ok.bind (P := fun z' => Holds z' T.m _) (by rw [eRzz, eRmT]; exact axpy_ok hz z2T al) fun z' hz' => ?_
        refine Ok.bind (P := fun s' => Holds s' T.m _) (by rw [eRss, eRmT]; exact axpy_ok hs dsT al) fun s' hs' => ?_
        rw [Ok_pure]
        exact ⟨x', y', z', s', rfl, hx', hy', hz', hs'⟩
      · rw [Ok_pure]
        obtain ⟨x', y', z', s', rfl, hx', hy', hz', hs'⟩ := hw'
        have z1T := hA.z1
        rw [← hmS] at z1T
        have hq := hLR.sz
        have hbb := hRbest st.2
        refine ⟨⟨ax', ⟨hq.n, hq.m, hq.p, hq.D, hx'.size, hy'.size, hz'.size, hs'.size, hq.bx, hq.b_y, hq.bz, hq.bs, hq.rx, hq.ry, hq.rz⟩,
          ⟨hLR.data.A, hLR.data.G, hLR.data.c, hLR.data.b, hLR.data.h, hLR.data.xe, hLR.data.ye, hLR.data.ze, hLR.data.ua, hLR.data.mA, hLR.data.mG⟩,
          hLR.cone, hLR.made, hLR.ord, hLR.val⟩, ?_, ⟨hbb.x, hbb.y, hbb.z, hbb.s, hbb.kap, hbb.tau, hbb.cx, hbb.b_y, hbb.hz, hbb.stats⟩, ?_,
          V, centering sa.1, al, f1x, f1y, f1z, a2x, a2y, a2z, e2x, e2y, e2z, u, ds, R.dtau, R.dkap, P.dkapaff, P.dtauaff,
          hsc, ?_, hst.2.1 al hc, hx', hy', hz', hs', rfl, rfl, ?_, ?_, ?_, hR.x2, hR.y2, z2T, ?_, ?_, ?_, ?_, ?_, ?_, hR.dk, hA.dk, hR.dsW, R, ?_, ?_, hR.cone.is, eRm, rfl, eRs, eRz, hR.dsH, hR.z2, rfl, rfl⟩
        · obtain ⟨r, hr⟩ := h1
          refine ⟨r, ?_, hr.2⟩
          show Holds R.w.KKT.RHS1 _ r
          rw [eK]
          show Holds f.1.RHS1 _ r
          rw [er1]
          exact hr.1
        · have e1 : st.2.iter = w.info.iter := by
            have := congrArg Stats.iter hst.1
            dsimp only at this
            rw [this, eRi]
            dsimp only
            have := congrArg Stats.iter hsa
            dsimp only at this
            rw [this, eAi]
          refine ⟨?_, ?_, ?_, ?_, ?_, ?_, e1, ?_, ?_, ?_⟩ <;> dsimp only <;> rw [hRw] <;> dsimp only <;> rw [hAw]
        · show st.2.sigma = _
          rw [hst.2.2, eRi]
        · show Holds R.w.KKT.dx1 _ _
          rw [eK]; exact hA.x1
        · show Holds R.w.KKT.dy1 _ _
          rw [eK]; exact hA.y1
        · show Holds R.w.KKT.dz1 _ _
          rw [eK]; exact z1T
        · obtain ⟨fr, gr, k1, k2, k3, k4, k5, w0, k6, k7⟩ := hR.r2
          exact ⟨fr, gr, k1, k2, k3, k4, k5, w0, hsys w0 k6, k7⟩
        · obtain ⟨fr, k1, k2⟩ := hA.s1
          refine ⟨_, fr, hsys _ ⟨rfl, rfl, rfl, rfl, rfl, rfl⟩, ?_, k2⟩
          show Holds R.w.KKT.RHS1 _ _
          rw [eK]; exact k1
        · obtain ⟨w0, fr, k1, k2⟩ := hA.sa2
          exact ⟨w0, fr, hsys _ k1, k2⟩
        · have := hR.ueq
          rwa [hA.za] at this
        · have := hA.dt
          rwa [hA.den] at this
        · have := hR.dt
          rw [this]
          show _ / P.denom = _
          rw [hA.den]
        · rw [hR.step]
          show _ = some (_ * R.w.stgs.gamma)
          rw [hRw]
        · exact ⟨st.2, by rw [hrun, ← hc]⟩

end generic
end Ecos.Dir
