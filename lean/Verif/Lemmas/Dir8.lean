import Verif.Lemmas.Dir7
import Verif.Lemmas.Newton

/-!
# One pass of the main loop is a predictor-corrector step
-/
namespace Ecos.Dir

open Ecos Finset Ecos.Fact Ecos.Asm

set_option linter.unusedSectionVars false

/-! ### Division by `λ` -/

theorem socProd_div {p : Nat} (hp : 0 < p) {l d : Nat → ℝ} (h0 : EPS ≤ l 0) (h1 : EPS ≤ l 0 * l 0 - tailSq p l)
    (j : Nat) (_hj : j < p) : socProdF p l (socDivF p l d) j = d j := by
  have e := real_EPS_pos
  have hl0 : l 0 ≠ 0 := by linarith
  have hr : l 0 * l 0 - tailSq p l ≠ 0 := by linarith
  obtain ⟨ρ, hρ⟩ : ∃ ρ, ρ = l 0 * l 0 - tailSq p l := ⟨_, rfl⟩
  have ht : tailSq p l = l 0 * l 0 - ρ := by rw [hρ]; ring
  obtain ⟨ζ, hζ⟩ : ∃ ζ, ζ = ∑ i ∈ range (p - 1), l (i + 1) * d (i + 1) := ⟨_, rfl⟩
  have e0 : socDivF p l d 0 = (l 0 * d 0 - ζ) / ρ := by
    unfold socDivF
    rw [if_pos rfl, divRhoF_real, ← hρ, real_safediv (by rw [hρ]; exact h1), divZetaF_real, ← hζ]
  have ej : ∀ j, j ≠ 0 → socDivF p l d j = (ζ / l 0 - d 0) / ρ * l j + d j / l 0 := by
    intro j hj
    unfold socDivF
    rw [if_neg hj, divRhoF_real, ← hρ, real_safediv (by rw [hρ]; exact h1), divZetaF_real, ← hζ, real_safediv h0, real_safediv h0]
  rw [← hρ] at hr
  unfold socProdF
  split
  · rename_i hj
    subst hj
    rw [dotN_real, sum_split p hp, e0]
    have : ∑ i ∈ range (p - 1), l (i + 1) * socDivF p l d (i + 1) = (ζ / l 0 - d 0) / ρ * tailSq p l + ζ / l 0 := by
      have hz : ζ / l 0 = ∑ i ∈ range (p - 1), l (i + 1) * d (i + 1) / l 0 := by rw [hζ, sum_div]
      generalize ζ / l 0 = ζ' at *
      rw [hz]
      generalize hr : ((∑ i ∈ range (p - 1), l (i + 1) * d (i + 1) / l 0) - d 0) / ρ = r
      unfold tailSq
      rw [mul_sum, ← sum_add_distrib]
      refine sum_congr rfl fun i _ => ?_
      rw [ej _ (by omega), hz, hr]
      ring
    rw [this, ht]
    field_simp
    ring
  · rename_i hj
    rw [e0, ej j hj]
    field_simp
    ring

theorem prodF_is {S : Shape} (hq : ∀ k, k < S.ns → 0 < S.q k) (x y : Nat → ℝ) : IsProduct S x y (prodF S x y) := by
  refine ⟨fun i hi => glue_lp S _ _ _ hi, fun k hk => ?_, fun k hk j h0 hj => ?_⟩
  · unfold prodF
    rw [glue_block S _ _ _ hk (hq k hk)]
    unfold socProdF
    rw [if_pos rfl, dotN_real]
  · unfold prodF
    rw [glue_block S _ _ _ hk hj]
    unfold socProdF
    rw [if_neg (by omega)]

theorem isProduct_unique {S : Shape} {x y q q' : Nat → ℝ} (h : IsProduct S x y q) (h' : IsProduct S x y q')
    {i : Nat} (hi : i < S.fexv) : q i = q' i := by
  refine rows_ext (S := S) (fun i hi => by rw [h.lp i hi, h'.lp i hi]) (fun k j hk hj => ?_) hi
  by_cases h0 : j = 0
  · rw [h0, h.head k hk, h'.head k hk]
  · rw [h.tail k hk j (by omega) hj, h'.tail k hk j (by omega) hj]

theorem row_of_lp {S : Shape} {i : Nat} (h : i < S.l) : i < S.fexv := by
  have := S.l_le S.ns
  unfold Shape.fexv
  omega

theorem row_of_soc {S : Shape} {k j : Nat} (hk : k < S.ns) (hj : j < S.q k) : S.start k + j < S.fexv := by
  have := S.start_le hk
  omega

/-- the quotient times `λ` is the dividend -/
theorem divF_comp {S : Shape} (hq : ∀ k, k < S.ns → 0 < S.q k) {l a b : Nat → ℝ} {t : ℝ} (hf : AboveFloors S l) {q1 q2 e : Nat → ℝ}
    (h1 : IsProduct S l l q1) (h2 : IsProduct S a b q2) (he : IsIdentity S e) :
    IsProduct S l (divF S l (compF S l a b t)) fun i => q1 i + q2 i - t * e i := by
  have g1 : ∀ i, i < S.fexv → prodF S l l i = q1 i := fun i hi => isProduct_unique (prodF_is hq l l) h1 hi
  have g2 : ∀ i, i < S.fexv → prodF S a b i = q2 i := fun i hi => isProduct_unique (prodF_is hq a b) h2 hi
  have hc : ∀ k j, k < S.ns → j < S.q k → S.block (compF S l a b t) k j = S.block (fun i => q1 i + q2 i - t * e i) k j := by
    intro k j hk hj
    unfold compF centerF
    rw [glue_block S _ _ _ hk hj]
    unfold Shape.block
    have a0 := g1 _ (row_of_soc hk (hq k hk))
    have b0 := g2 _ (row_of_soc hk (hq k hk))
    have aj := g1 _ (row_of_soc hk hj)
    have bj := g2 _ (row_of_soc hk hj)
    rw [Nat.add_zero] at a0 b0
    have i0 := (he.soc k hk).1
    unfold Shape.block at i0
    rw [Nat.add_zero] at i0
    split
    · rename_i h0
      subst h0
      show _ = q1 (S.start k + 0) + q2 (S.start k + 0) - t * e (S.start k + 0)
      rw [Nat.add_zero, a0, b0, i0]
      ring
    · rename_i h0
      have ij := (he.soc k hk).2 j (by omega) hj
      unfold Shape.block at ij
      show _ = q1 (S.start k + j) + q2 (S.start k + j) - t * e (S.start k + j)
      rw [aj, bj, ij]
      ring
  have hd : ∀ k j, k < S.ns → j < S.q k → S.block (divF S l (compF S l a b t)) k j = socDivF (S.q k) (S.block l k) (S.block (compF S l a b t) k) j :=
    fun k j hk hj => glue_block S _ _ _ hk hj
  refine ⟨fun i hi => ?_, fun k hk => ?_, fun k hk j h0 hj => ?_⟩
  · have e1 : divF S l (compF S l a b t) i = safedivPos (compF S l a b t i) (l i) := glue_lp S _ _ _ hi
    have e2 : compF S l a b t i = prodF S l l i + (prodF S a b i - t) := by
      unfold compF centerF
      exact glue_lp S _ _ _ hi
    have hl := hf.lp i hi
    have hne : l i ≠ 0 := by have := real_EPS_pos; linarith
    rw [e1, real_safediv hl, e2, g1 i (row_of_lp hi), g2 i (row_of_lp hi), he.lp i hi]
    field_simp
    ring
  · rw [← hc k 0 hk (hq k hk)]
    have := socProd_div (hq k hk) (d := S.block (compF S l a b t) k) (hf.soc k hk).1 (hf.soc k hk).2 0 (hq k hk)
    rw [← this]
    unfold socProdF
    rw [if_pos rfl, dotN_real]
    refine sum_congr rfl fun i hi => ?_
    rw [hd k i hk (mem_range.1 hi)]
  · rw [← hc k j hk hj]
    have := socProd_div (hq k hk) (d := S.block (compF S l a b t) k) (hf.soc k hk).1 (hf.soc k hk).2 j hj
    rw [← this, hd k j hk hj, hd k 0 hk (hq k hk)]
    unfold socProdF
    rw [if_neg (by omega)]

/-- for iterates above the floors the scaling takes `z` to `W⁻¹ s` -/
theorem wF_sq {S : Shape} (hq : ∀ k, k < S.ns → 0 < S.q k) {s z : Nat → ℝ} {mu : ℝ} {V : ConeV ℝ} (h : IsScaling S s z mu V) (hg : Scaling.Good S s z)
    {i : Nat} (hi : i < S.fexv) : wF S V (wF S V z) i = s i := by
  refine rows_ext (S := S) (f := wF S V (wF S V z)) (g := s) (fun i hi => ?_) (fun k j hk hj => ?_) hi
  · rw [wF_lp _ hi, wF_lp _ hi, h.lw i hi, real_safediv (hg.fl.lp i hi).1]
    have h1 := hg.is.lp i hi
    have h2 := hg.iz.lp i hi
    show Real.sqrt _ * (Real.sqrt _ * _) = _
    rw [← mul_assoc, Real.mul_self_sqrt (div_nonneg h1.le h2.le)]
    field_simp
  · obtain ⟨V', hV, h1, h2, h3⟩ := ntF_real (hq k hk) (hg.is.soc k hk) (hg.iz.soc k hk) (hg.fl.soc k hk)
    rw [h.soc k hk] at hV
    obtain rfl := Option.some.inj hV
    rw [wF_block _ hk hj, scaleF_congr (hq k hk) (fun j hj => (wF_block z hk hj).trans (h3 j hj)) j hj, h1.scale_unscale h2]

/-! ### The pass -/

theorem dotF_real (n : Nat) (f g : Nat → ℝ) : BB.dotF n f g = ∑ i ∈ range n, f i * g i := by
  induction n with
  | zero => rfl
  | succ n ih => rw [sum_range_succ, ← ih]; rfl

theorem holdsD_eq {b : Buf ℝ} {n : Nat} {f : Nat → ℝ} (h : HoldsD (fun x a : ℝ => x = a) b n f) : Holds b n f := by
  refine ⟨h.1, fun i hi => ?_⟩
  obtain ⟨v, h1, rfl⟩ := h.2 i hi
  exact h1

theorem repA_eq {T : Pat} {A : Option (SpMat ℝ)} {a : Nat → ℝ} (hA : RepA A T a) : RepAD (fun x a : ℝ => x = a) A T a := by
  unfold RepA at hA
  unfold RepAD
  split at hA
  · rename_i hh
    rw [if_pos hh]
    obtain ⟨M, e, hM⟩ := hA
    exact ⟨M, e, hM.den fun _ _ => rfl⟩
  · rename_i hh
    rw [if_neg hh]
    exact hA

variable [HasInf ℝ] {T : Pat} {S : Shape} {amd : Nat → Buf Nat → Buf Nat → Option (Buf Nat)}

/-- `kkt_solve` was called for the linear system of `w` with the right-hand side `r` and returned `d` -/
def Called (w : Work ℝ) (T : Pat) (S : Shape) (r d : Dir3) : Prop :=
  ∃ (w0 : Work ℝ) (N : Nat) (π : Nat → Nat) (f g : Nat → ℝ), SysOf w0 w ∧ Holds w.KKT.Pinv N π ∧ SolvedBy w0 T S N f d.x d.y d.z ∧
    (∀ j, j < T.n → f (π j) = r.x j) ∧ (∀ i, i < T.p → f (π (T.n + i)) = r.y i) ∧
    (∀ i, i < S.x.m → f (π (T.n + T.p + i)) = stretchF S g i) ∧ ∀ i, i < S.fexv → g i = r.z i

theorem probIs_of {w : Work ℝ} {a g c b h xe ye ze : Nat → ℝ} {π ai q : Nat → Nat} {ax : Nat → ℝ} {sg : Nat → Int}
    (hl : Live amd w T S a g c b h xe ye ze π ai q ax sg) : ProbIs (fun x a : ℝ => x = a) w T ⟨a, g, c, b, h⟩ :=
  ⟨hl.sz.n, hl.sz.m, hl.sz.p, repA_eq hl.data.A, hl.data.G.den fun _ _ => rfl, hl.data.c.den fun _ _ => rfl, hl.data.b.den fun _ _ => rfl,
    hl.data.h.den fun _ _ => rfl⟩

/-- what one pass did to reach the next iterate, over the reals -/
theorem pass_moved (hP : PatGood T S) {arrives : Nat → Bool} {k : Nat} {L L' : LoopS ℝ} (hG : Go amd L.w T S)
    (hB : Best L.w T ∨ k = 0) (hp : pass arrives k L = .ok (.inr L')) :
    ∃ a g c b h xe ye ze π ai q ax sg, ∃ (P : Dat) (v : Iter) (mu : ℝ), P = ⟨a, g, c, b, h⟩ ∧
      ProbIs (fun x a : ℝ => x = a) L.w T P ∧ IterIs (fun x a : ℝ => x = a) L.w T v ∧
      mu = compl T v / ((S.l + S.ns + 3 * S.ne : Nat) + 1) ∧
      Live amd L'.w T S a g c b h xe ye ze π ai q ax sg ∧ Rhs1 L'.w T S (partsOf T S a g).N π c b h ∧
      ∃ V sigma st f1x f1y f1z a2x a2y a2z e2x e2y e2z u ds dtau dkap dkaff dtaff,
        Moved T S (partsOf T S a g).N π V c b h v.x v.y v.z v.s (lresX P T v) (lresY P T v) (lresZ P T v) v.kap v.tau (lresT P T v) mu sigma st
          f1x f1y f1z a2x a2y a2z e2x e2y e2z u ds dtau dkap dkaff dtaff L'.w := by
  obtain ⟨wm, wk, e1, -, -, -, -, e2, e3, -⟩ := pass_inr hp
  obtain ⟨hH, hit, -, hbw⟩ := (passHead_ok hG k).elim e1
  obtain ⟨hkb1, hkb2, a1, a2, a3, a4, a5, a6, a7, a8, a9, a10, hwk⟩ := (keepBest_ok hH.go.sz hH.stat hH.prods hH.go.full fun h0 => by
    rw [hit] at h0
    exact hbw (hB.resolve_right (by omega))).elim e2
  obtain ⟨fx, hx⟩ := hG.full.x
  obtain ⟨fy, hy⟩ := hG.full.y
  obtain ⟨fz, hz⟩ := hG.full.z
  obtain ⟨fs, hs⟩ := hG.full.s
  obtain ⟨kap, hkap⟩ := hG.full.kap
  obtain ⟨tau, htau⟩ := hG.full.tau
  obtain ⟨r0, hr0⟩ := hG.rx0
  obtain ⟨r1, hr1⟩ := hG.ry0
  obtain ⟨r2, hr2⟩ := hG.rz0
  have hsz := hG.sz
  obtain ⟨a, g, c, b, h, xe, ye, ze, π, ai, q, ax, sg, hl, hrhs⟩ := hG.live
  obtain ⟨P, hPd⟩ : ∃ P : Dat, P = ⟨a, g, c, b, h⟩ := ⟨_, rfl⟩
  obtain ⟨v, hv⟩ : ∃ v : Iter, v = ⟨fx, fy, fz, fs, kap, tau⟩ := ⟨_, rfl⟩
  have hPL : ProbIs (fun x a : ℝ => x = a) L.w T P := by rw [hPd]; exact probIs_of hl
  have hIL : IterIs (fun x a : ℝ => x = a) L.w T v := by
    rw [hv]
    exact ⟨hx.den fun _ _ => rfl, hy.den fun _ _ => rfl, hz.den fun _ _ => rfl, hs.den fun _ _ => rfl, ⟨kap, hkap, rfl⟩, ⟨tau, htau, rfl⟩⟩
  have hh := (passHeadD denReal hPL hIL ⟨hsz.rx, hsz.ry, hsz.rz⟩ (r0 := (r0, r1, r2)) ⟨r0, hr0, rfl⟩ ⟨r1, hr1, rfl⟩ ⟨r2, hr2, rfl⟩ k).elim e1
  obtain ⟨i, o, hst, ho, -, hmu, -, -, -, -, -, -, -, -, hR, -, hI, -⟩ := hh
  obtain ⟨hK, -⟩ := passHead_eq (T := T) (S := S) e1
  have hmu' : o.mu = compl T v / ((S.l + S.ns + 3 * S.ne : Nat) + 1) := by
    rw [ho]
    show (i.gap + i.kap * i.tau) / _ = _
    rw [hst.gap, hst.kap, hst.tau, hsz.D]
    unfold compl ip
    push_cast
    rfl
  have hlk : Live amd wk T S a g c b h xe ye ze π ai q ax sg := by
    refine live_keep (live_keep hl hK hH.go.sz) ?_ hkb2
    rw [hwk]
    exact ⟨rfl, rfl, rfl, rfl, rfl, rfl, rfl, rfl, rfl, rfl, rfl, rfl, rfl⟩
  have hrk : Rhs1 wk T S (partsOf T S a g).N π c b h := by
    unfold Rhs1
    have : wk.KKT = L.w.KKT := by rw [hwk]; exact hK.K
    rw [this]
    exact hrhs
  obtain ⟨tk, htk, rfl⟩ := hI.kap
  obtain ⟨tt, htt, rfl⟩ := hI.tau
  obtain ⟨rt, hrt, hrt'⟩ := hR.rt
  have hm := (passTail_ok hP hlk hrk (x := v.x) (y := v.y) (z := v.z) (s := v.s) (rx := lresX P T v) (ry := lresY P T v) (rz := lresZ P T v)
    (by rw [hwk]; exact holdsD_eq hI.x) (by rw [hwk]; exact holdsD_eq hI.y) (by rw [hwk]; exact holdsD_eq hI.z) (by rw [hwk]; exact holdsD_eq hI.s)
    (by rw [hwk]; exact holdsD_eq hR.rx)
    (fun hp => by
      obtain ⟨r, h1, h2⟩ := hR.ry hp
      exact ⟨r, by rw [hwk]; exact h1, holdsD_eq h2⟩)
    (by rw [hwk]; exact holdsD_eq hR.rz) (by rw [hwk]; exact htk) (by rw [hwk]; exact htt) (by rw [hwk]; exact hrt) (by rw [hwk]; exact hmu) hkb1).elim e3
  simp only at hm
  obtain ⟨⟨ax', hl'⟩, hr', -, -, V, sigma, st, f1x, f1y, f1z, a2x, a2y, a2z, e2x, e2y, e2z, u, ds, dtau, dkap, dkaff, dtaff, hM⟩ := hm
  rw [show rt = lresT P T v from hrt'] at hM
  exact ⟨a, g, c, b, h, xe, ye, ze, π, ai, q, ax', sg, P, v, o.mu, hPd, hPL, hIL, hmu', hl', hr', V, sigma, st, f1x, f1y, f1z, a2x, a2y, a2z, e2x, e2y, e2z,
    u, ds, dtau, dkap, dkaff, dtaff, hM⟩

/-- what one pass does, over the reals -/
theorem pass_step (hP : PatGood T S) (hne : S.ne = 0) {arrives : Nat → Bool} {k : Nat} {L L' : LoopS ℝ} (hG : Go amd L.w T S)
    (hB : Best L.w T ∨ k = 0) (hp : pass arrives k L = .ok (.inr L')) :
    ∃ (P : Dat) (v v' : Iter) (V : ConeV ℝ) (d1 da d2 : Dir3) (u : Nat → ℝ) (N : StepNum),
      ProbIs (fun x a : ℝ => x = a) L.w T P ∧ IterIs (fun x a : ℝ => x = a) L.w T v ∧
      ProbIs (fun x a : ℝ => x = a) L'.w T P ∧ IterIs (fun x a : ℝ => x = a) L'.w T v' ∧
      L'.w.info.sigma = some N.sigma ∧ L'.w.info.step = some N.step ∧ IsScaling S v.s v.z N.mu V ∧
      Called L'.w T S (rhs1 P) d1 ∧ Called L'.w T S (rhsA P T v) da ∧ Called L'.w T S (rhs2 P T v (wF S V) N.sigma u) d2 ∧
      Holds L'.w.KKT.dx1 T.n d1.x ∧ Holds L'.w.KKT.dy1 T.p d1.y ∧ Holds L'.w.KKT.dz1 T.m d1.z ∧
      Holds L'.w.KKT.dx2 T.n (d2.along N.dtau d1).x ∧ Holds L'.w.KKT.dy2 T.p (d2.along N.dtau d1).y ∧ Holds L'.w.KKT.dz2 T.m (d2.along N.dtau d1).z ∧
      PcStep T S P (wF S V) v v' d1 da d2 u N := by
  have hmf : T.m = S.fexv := by
    have : S.m = S.fexv + 3 * S.ne := rfl
    rw [← hP.m, this]; omega
  have hq : ∀ k, k < S.ns → 0 < S.q k := by
    obtain ⟨a, g, c, b, h, xe, ye, ze, π, ai, q, ax, sg, hl, -⟩ := hG.live
    exact hl.cone.is.pos
  obtain ⟨a, g, c, b, h, xe, ye, ze, π, ai, q, ax, sg, P, v, mu, hPd, hPL, hIL, hmu', hl', hr', V, sigma, st, f1x, f1y, f1z, a2x, a2y, a2z, e2x, e2y, e2z,
    u, ds, dtau, dkap, dkaff, dtaff, hM⟩ := pass_moved hP hG hB hp
  rw [hne, mul_zero, add_zero] at hmu'
  have hpinv := hl'.made.pinv
  have hdotP : ∀ d : Dir3, P.chb.dot T d = BB.dotF T.n c d.x + BB.dotF T.p b d.y + BB.dotF T.m h d.z := by
    intro d
    rw [dotF_real, dotF_real, dotF_real, hPd]
    rfl
  refine ⟨P, v, ⟨fun j => v.x j + st * (e2x j + dtau * f1x j), fun j => v.y j + st * (e2y j + dtau * f1y j),
    fun j => v.z j + st * (e2z j + dtau * f1z j), fun j => v.s j + st * ds j, v.kap + st * dkap, v.tau + st * dtau⟩, V, ⟨f1x, f1y, f1z⟩, ⟨a2x, a2y, a2z⟩,
    ⟨e2x, e2y, e2z⟩, u, ⟨mu, sigma, st, dtaff, dkaff, dtau, dkap⟩, hPL, hIL, ?_, ⟨hM.hx.den fun _ _ => rfl, hM.hy.den fun _ _ => rfl,
    hM.hz.den fun _ _ => rfl, hM.hs.den fun _ _ => rfl, ⟨_, hM.hkap, rfl⟩, ⟨_, hM.htau, rfl⟩⟩, hM.sig, hM.step, hM.scal, ?_, ?_, ?_, hM.x1, hM.y1, hM.z1,
    hM.x2, hM.y2, hM.z2, ?_⟩
  · rw [hPd]; exact probIs_of hl'
  · obtain ⟨w0, f, s1, s2, s3⟩ := hM.s1
    obtain ⟨r, t1, t2, t3, t4⟩ := hr'
    have : ∀ i, i < (partsOf T S a g).N → f i = r i := fun i hi => by
      have := (s2.2 i hi).symm.trans (t1.2 i hi)
      injection this with this
      injection this
    have hdim : (partsOf T S a g).N = T.n + T.p + S.x.m := rfl
    have hperm := hl'.made.perm
    refine ⟨w0, _, π, f, h, s1, hpinv, s3, fun j hj => ?_, fun j hj => ?_, fun j hj => ?_, fun j hj => by rw [hPd]; rfl⟩
    · rw [this _ (hperm.lt _ (by omega)), t2 j hj, hPd]; rfl
    · rw [this _ (hperm.lt _ (by omega)), t3 j hj, hPd]; rfl
    · rw [this _ (hperm.lt _ (by omega)), t4 j hj]
  · obtain ⟨w0, f, s1, s2, s3, s4, s5⟩ := hM.sa
    exact ⟨w0, _, π, f, _, s1, hpinv, s2, s3, s4, s5, fun j hj => rfl⟩
  · obtain ⟨f, gg, s0, s1, s2, s3, s4, w0, s5, s6⟩ := hM.r2
    refine ⟨w0, _, π, f, gg, s5, hpinv, s6, fun j hj => ?_, fun j hj => ?_, s3, fun j hj => ?_⟩
    · rw [s1 j hj]
      show lresX P T v j * (1.0 - sigma) = (1 - sigma) * lresX P T v j
      norm_num
      ring
    · rw [s2 j hj]
      show -lresY P T v j * (1.0 - sigma) = -((1 - sigma) * lresY P T v j)
      norm_num
      ring
    · rw [s4 j hj]
      show (-(1.0 - sigma)) * lresZ P T v j + wF S V u j = -((1 - sigma) * lresZ P T v j) + wF S V u j
      norm_num
      ring
  · refine ⟨fun _ _ => rfl, fun _ _ => rfl, fun _ _ => rfl, fun j hj => ?_, rfl, rfl, fun hf q1 q2 e h1 h2 he => ?_, ?_, hM.hdk, ?_, hM.dk, hmu'⟩
    · show v.s j + st * ds j = _
      rw [hM.dsW j (by omega)]
      rfl
    · rw [hM.ueq]
      exact divF_comp hq hf h1 h2 he
    · simp only
      by_cases hd : v.kap / v.tau - P.chb.dot T ⟨f1x, f1y, f1z⟩ = 0
      · exact .inr hd
      · left
        have h1 := hM.dta
        have h2 := hdotP ⟨f1x, f1y, f1z⟩
        have h3 := hdotP ⟨a2x, a2y, a2z⟩
        simp only at h1 h2 h3
        rw [h3]
        rw [h2] at hd ⊢
        rw [h1]
        rw [show v.kap / v.tau - (BB.dotF T.n c f1x + BB.dotF T.p b f1y + BB.dotF T.m h f1z) =
          v.kap / v.tau - BB.dotF T.n c f1x - BB.dotF T.p b f1y - BB.dotF T.m h f1z by ring] at hd ⊢
        rw [div_mul_cancel₀ _ hd]
        ring
    · simp only
      by_cases hd : v.kap / v.tau - P.chb.dot T ⟨f1x, f1y, f1z⟩ = 0
      · exact .inr hd
      · left
        have h1 := hM.dt
        have h2 := hdotP ⟨f1x, f1y, f1z⟩
        have h3 := hdotP ⟨e2x, e2y, e2z⟩
        simp only at h1 h2 h3
        rw [h3]
        rw [h2] at hd ⊢
        rw [h1]
        rw [show v.kap / v.tau - (BB.dotF T.n c f1x + BB.dotF T.p b f1y + BB.dotF T.m h f1z) =
          v.kap / v.tau - BB.dotF T.n c f1x - BB.dotF T.p b f1y - BB.dotF T.m h f1z by ring] at hd ⊢
        rw [div_mul_cancel₀ _ hd]
        ring

end Ecos.Dir
