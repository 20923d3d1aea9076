import Verif.Spec.Newton
import Verif.Lemmas.Glue

/-!
# What a predictor-corrector step does to residuals and complementarity
-/
namespace Ecos

open Finset

variable {T : Pat} {S : Shape} {P : Dat} {W : (Nat → ℝ) → Nat → ℝ} {v v' : Iter} {d1 da d2 : Dir3} {u : Nat → ℝ} {N : StepNum}

theorem sum_move (k : Nat) (a f g h f' : Nat → ℝ) (st t : ℝ) (e : ∀ i, i < k → f' i = f i + st * (g i + t * h i)) :
    ∑ i ∈ range k, a i * f' i = ∑ i ∈ range k, a i * f i + st * (∑ i ∈ range k, a i * g i + t * ∑ i ∈ range k, a i * h i) := by
  have : ∀ i ∈ range k, a i * f' i = a i * f i + (st * (a i * g i) + st * t * (a i * h i)) := fun i hi => by
    rw [e i (mem_range.1 hi)]; ring
  rw [sum_congr rfl this, sum_add_distrib, sum_add_distrib, ← mul_sum, ← mul_sum]
  ring

theorem sum_along (k : Nat) (a g h : Nat → ℝ) (t : ℝ) :
    ∑ i ∈ range k, a i * (g i + t * h i) = ∑ i ∈ range k, a i * g i + t * ∑ i ∈ range k, a i * h i := by
  rw [mul_sum, ← sum_add_distrib]
  exact sum_congr rfl fun i _ => by ring

/-- the residuals after the step; `kktErr` is what the linear solves left over -/
theorem PcStep.resX (h : PcStep T S P W v v' d1 da d2 u N) {j : Nat} (_hj : j < T.n) :
    lresX P T v' j = (1 - N.step * (1 - N.sigma)) * lresX P T v j +
      N.step * ((kktErr T P W d2 (rhs2 P T v W N.sigma u)).x j + N.dtau * (kktErr T P W d1 (rhs1 P)).x j) := by
  have e1 := sum_move T.p (fun i => P.A T i j) _ _ _ _ _ _ h.y
  have e2 := sum_move T.m (fun i => P.G T i j) _ _ _ _ _ _ h.z
  unfold kktErr rhs2 rhs1
  simp only
  unfold lresX
  rw [e1, e2, h.tau]
  ring

theorem PcStep.resY (h : PcStep T S P W v v' d1 da d2 u N) {i : Nat} (_hi : i < T.p) :
    lresY P T v' i = (1 - N.step * (1 - N.sigma)) * lresY P T v i -
      N.step * ((kktErr T P W d2 (rhs2 P T v W N.sigma u)).y i + N.dtau * (kktErr T P W d1 (rhs1 P)).y i) := by
  have e1 := sum_move T.n (fun j => P.A T i j) _ _ _ _ _ _ h.x
  unfold kktErr rhs2 rhs1
  simp only
  unfold lresY
  rw [e1, h.tau]
  ring

theorem SymMap.neg_add (hW : SymMap S W) (x y : Nat → ℝ) {i : Nat} (hi : i < S.fexv) : W (fun i => -(x i + y i)) i = -W x i - W y i := by
  have := hW.lin x y (-1) (-1) i hi
  rw [show (fun i => -(x i + y i)) = fun i => -1 * x i + -1 * y i by funext i; ring, this]
  ring

theorem SymMap.add_mul (hW : SymMap S W) (x y : Nat → ℝ) (t : ℝ) {i : Nat} (hi : i < S.fexv) : W (fun i => x i + t * y i) i = W x i + t * W y i := by
  have := hW.lin x y 1 t i hi
  rw [show (fun i => x i + t * y i) = fun i => 1 * x i + t * y i by funext i; ring, this]
  ring

theorem SymMap.sq_add_mul (hW : SymMap S W) (x y : Nat → ℝ) (t : ℝ) {i : Nat} (hi : i < S.fexv) :
    W (W fun i => x i + t * y i) i = W (W x) i + t * W (W y) i := by
  rw [hW.ext _ _ (fun i hi => hW.add_mul x y t hi) i hi, hW.add_mul _ _ _ hi]

theorem PcStep.resZ (h : PcStep T S P W v v' d1 da d2 u N) (hW : SymMap S W) (hm : T.m = S.fexv) {i : Nat} (hi : i < T.m) :
    lresZ P T v' i = (1 - N.step * (1 - N.sigma)) * lresZ P T v i -
      N.step * ((kktErr T P W d2 (rhs2 P T v W N.sigma u)).z i + N.dtau * (kktErr T P W d1 (rhs1 P)).z i) := by
  have e1 := sum_move T.n (fun j => P.G T i j) _ _ _ _ _ _ h.x
  have e2 : W (fun i => -(u i + W (d2.along N.dtau d1).z i)) i = -W u i - (W (W d2.z) i + N.dtau * W (W d1.z) i) := by
    rw [hW.neg_add _ _ (by omega)]
    congr 1
    exact hW.sq_add_mul d2.z d1.z N.dtau (by omega)
  unfold kktErr rhs2 rhs1
  simp only
  unfold lresZ
  rw [e1, h.s i hi, e2, h.tau]
  ring

theorem chb_along (P : Dat) (d e : Dir3) (t : ℝ) : P.chb.dot T (d.along t e) = P.chb.dot T d + t * P.chb.dot T e := by
  unfold Dir3.dot Dir3.along
  simp only
  rw [sum_along, sum_along, sum_along]
  ring

/-- the equation for `kap` and `tau` -/
theorem PcStep.dirT (h : PcStep T S P W v v' d1 da d2 u N) (ht : v.tau ≠ 0) (hd : v.kap / v.tau - P.chb.dot T d1 ≠ 0) :
    N.dkap + P.chb.dot T (d2.along N.dtau d1) = -(1 - N.sigma) * lresT P T v := by
  have e := h.dtau.resolve_right hd
  have e2 : N.dkap = -(v.kap * v.tau + N.dkapA * N.dtauA - N.sigma * N.mu) / v.tau - v.kap / v.tau * N.dtau := by
    rw [h.dkap]; field_simp; ring
  rw [chb_along, e2]
  have e3 : -(v.kap * v.tau + N.dkapA * N.dtauA - N.sigma * N.mu) / v.tau =
    -((v.kap * v.tau + N.dkapA * N.dtauA - N.sigma * N.mu) / v.tau) := by rw [neg_div]
  rw [e3]
  linarith

theorem PcStep.resT (h : PcStep T S P W v v' d1 da d2 u N) (ht : v.tau ≠ 0) (hd : v.kap / v.tau - P.chb.dot T d1 ≠ 0) :
    lresT P T v' = (1 - N.step * (1 - N.sigma)) * lresT P T v := by
  have e := h.dirT ht hd
  have e1 := sum_move T.n P.c _ _ _ _ _ _ h.x
  have e2 := sum_move T.p P.b _ _ _ _ _ _ h.y
  have e3 := sum_move T.m P.h _ _ _ _ _ _ h.z
  rw [chb_along] at e
  unfold Dir3.dot Dat.chb at e
  simp only at e
  have : lresT P T v' = lresT P T v + N.step * (-(1 - N.sigma) * lresT P T v) := by
    rw [← e]
    unfold lresT
    rw [e1, e2, e3, h.kap]
    ring
  rw [this]
  ring

/-! ### Exact solves -/

/-- transposition -/
theorem sum_comm2 (n k : Nat) (M : Nat → Nat → ℝ) (x y : Nat → ℝ) :
    ∑ j ∈ range n, x j * ∑ i ∈ range k, M i j * y i = ∑ i ∈ range k, y i * ∑ j ∈ range n, M i j * x j := by
  simp only [mul_sum]
  rw [sum_comm]
  exact sum_congr rfl fun i _ => sum_congr rfl fun j _ => by ring

/-- with an exact first solve the denominator of `dtau` is `kap/tau + ‖W dz1‖²` -/
theorem KktSolved.denom (h : KktSolved T P W d1 (rhs1 P)) (hW : SymMap S W) (hm : T.m = S.fexv) :
    P.chb.dot T d1 = -∑ i ∈ range T.m, W d1.z i * W d1.z i := by
  have ex : ∑ j ∈ range T.n, P.c j * d1.x j = -(∑ j ∈ range T.n, d1.x j * ∑ i ∈ range T.p, P.A T i j * d1.y i +
      ∑ j ∈ range T.n, d1.x j * ∑ i ∈ range T.m, P.G T i j * d1.z i) := by
    rw [← sum_add_distrib, ← sum_neg_distrib]
    refine sum_congr rfl fun j hj => ?_
    have := h.x j (mem_range.1 hj)
    simp only [rhs1] at this
    linear_combination (d1.x j) * this
  have ey : ∑ i ∈ range T.p, P.b i * d1.y i = ∑ i ∈ range T.p, d1.y i * ∑ j ∈ range T.n, P.A T i j * d1.x j := by
    refine sum_congr rfl fun j hj => ?_
    have := h.y j (mem_range.1 hj)
    simp only [rhs1] at this
    rw [this]; ring
  have ez : ∑ i ∈ range T.m, P.h i * d1.z i = ∑ i ∈ range T.m, d1.z i * ∑ j ∈ range T.n, P.G T i j * d1.x j - ∑ i ∈ range T.m, d1.z i * W (W d1.z) i := by
    rw [← sum_sub_distrib]
    refine sum_congr rfl fun j hj => ?_
    have := h.z j (mem_range.1 hj)
    simp only [rhs1] at this
    rw [← this]; ring
  have es : ∑ i ∈ range T.m, d1.z i * W (W d1.z) i = ∑ i ∈ range T.m, W d1.z i * W d1.z i := by
    rw [hm]; exact hW.symm (W d1.z) d1.z
  unfold Dir3.dot Dat.chb
  simp only
  rw [ex, ey, ez, es, sum_comm2 T.n T.p, sum_comm2 T.n T.m]
  ring

theorem KktSolved.denom_pos (h : KktSolved T P W d1 (rhs1 P)) (hW : SymMap S W) (hm : T.m = S.fexv) {kap tau : ℝ} (hk : 0 < kap) (ht : 0 < tau) :
    0 < kap / tau - P.chb.dot T d1 := by
  rw [h.denom hW hm]
  have := div_pos hk ht
  have := sum_nonneg fun i (_ : i ∈ range T.m) => mul_self_nonneg (W d1.z i)
  linarith

theorem KktSolved.err {d r : Dir3} (h : KktSolved T P W d r) :
    (∀ j, j < T.n → (kktErr T P W d r).x j = 0) ∧ (∀ i, i < T.p → (kktErr T P W d r).y i = 0) ∧ ∀ i, i < T.m → (kktErr T P W d r).z i = 0 :=
  ⟨fun j hj => sub_eq_zero.2 (h.x j hj).symm, fun j hj => sub_eq_zero.2 (h.y j hj).symm, fun j hj => sub_eq_zero.2 (h.z j hj).symm⟩

/-- a direction that reduces all residuals by the factor `1 - θ` -/
structure NewtonDir (T : Pat) (P : Dat) (v : Iter) (θ : ℝ) (d : Dir3) (ds : Nat → ℝ) (dtau dkap : ℝ) : Prop where
  x : ∀ j, j < T.n → ∑ i ∈ range T.p, P.A T i j * d.y i + ∑ i ∈ range T.m, P.G T i j * d.z i + dtau * P.c j = θ * lresX P T v j
  y : ∀ i, i < T.p → ∑ j ∈ range T.n, P.A T i j * d.x j - dtau * P.b i = -θ * lresY P T v i
  z : ∀ i, i < T.m → ∑ j ∈ range T.n, P.G T i j * d.x j + ds i - dtau * P.h i = -θ * lresZ P T v i
  t : dkap + P.chb.dot T d = -θ * lresT P T v

/-- the second-order term of such a direction -/
theorem NewtonDir.orth {θ : ℝ} {d : Dir3} {ds : Nat → ℝ} {dtau dkap : ℝ} (h : NewtonDir T P v θ d ds dtau dkap) :
    ∑ i ∈ range T.m, ds i * d.z i + dkap * dtau = -θ * ((lres P T v).dot T d + lresT P T v * dtau) := by
  have ex : ∑ j ∈ range T.n, d.x j * ∑ i ∈ range T.p, P.A T i j * d.y i + ∑ j ∈ range T.n, d.x j * ∑ i ∈ range T.m, P.G T i j * d.z i +
      dtau * ∑ j ∈ range T.n, P.c j * d.x j = θ * ∑ j ∈ range T.n, lresX P T v j * d.x j := by
    rw [mul_sum, mul_sum, ← sum_add_distrib, ← sum_add_distrib]
    refine sum_congr rfl fun j hj => ?_
    linear_combination (d.x j) * h.x j (mem_range.1 hj)
  have ey : ∑ i ∈ range T.p, d.y i * ∑ j ∈ range T.n, P.A T i j * d.x j - dtau * ∑ i ∈ range T.p, P.b i * d.y i =
      -θ * ∑ j ∈ range T.p, lresY P T v j * d.y j := by
    rw [mul_sum, mul_sum, ← sum_sub_distrib]
    refine sum_congr rfl fun j hj => ?_
    linear_combination (d.y j) * h.y j (mem_range.1 hj)
  have ez : ∑ i ∈ range T.m, d.z i * ∑ j ∈ range T.n, P.G T i j * d.x j + ∑ i ∈ range T.m, ds i * d.z i - dtau * ∑ i ∈ range T.m, P.h i * d.z i =
      -θ * ∑ j ∈ range T.m, lresZ P T v j * d.z j := by
    rw [mul_sum, mul_sum, ← sum_add_distrib, ← sum_sub_distrib]
    refine sum_congr rfl fun j hj => ?_
    linear_combination (d.z j) * h.z j (mem_range.1 hj)
  rw [sum_comm2 T.n T.p, sum_comm2 T.n T.m] at ex
  have et := h.t
  unfold Dir3.dot Dat.chb at et
  simp only at et
  unfold lres Dir3.dot
  simp only
  linear_combination ez - ex + ey + dtau * et

/-- the combined direction of `s` -/
noncomputable def dirS (W : (Nat → ℝ) → Nat → ℝ) (u dz : Nat → ℝ) : Nat → ℝ := W fun i => -(u i + W dz i)

theorem PcStep.newton (h : PcStep T S P W v v' d1 da d2 u N) (hW : SymMap S W) (hm : T.m = S.fexv) (h1 : KktSolved T P W d1 (rhs1 P))
    (h2 : KktSolved T P W d2 (rhs2 P T v W N.sigma u)) (hk : 0 < v.kap) (ht : 0 < v.tau) :
    NewtonDir T P v (1 - N.sigma) (d2.along N.dtau d1) (dirS W u (d2.along N.dtau d1).z) N.dtau N.dkap := by
  refine ⟨fun j hj => ?_, fun i hi => ?_, fun i hi => ?_, h.dirT ht.ne' (h1.denom_pos hW hm hk ht).ne'⟩
  · have a := h1.x j hj
    have b := h2.x j hj
    simp only [rhs1, rhs2] at a b
    unfold Dir3.along
    simp only
    rw [sum_along, sum_along]
    linear_combination b + N.dtau * a
  · have a := h1.y i hi
    have b := h2.y i hi
    simp only [rhs1, rhs2] at a b
    unfold Dir3.along
    simp only
    rw [sum_along]
    linear_combination b + N.dtau * a
  · have a := h1.z i hi
    have b := h2.z i hi
    simp only [rhs1, rhs2] at a b
    have e2 : dirS W u (d2.along N.dtau d1).z i = -W u i - (W (W d2.z) i + N.dtau * W (W d1.z) i) := by
      unfold dirS
      rw [hW.neg_add _ _ (by omega)]
      congr 1
      exact hW.sq_add_mul d2.z d1.z N.dtau (by omega)
    rw [e2]
    unfold Dir3.along
    simp only
    rw [sum_along]
    linear_combination b + N.dtau * a

/-- the predictor direction -/
theorem PcStep.newtonA (h : PcStep T S P W v v' d1 da d2 u N) (hW : SymMap S W) (hm : T.m = S.fexv) (h1 : KktSolved T P W d1 (rhs1 P))
    (ha : KktSolved T P W da (rhsA P T v)) (hk : 0 < v.kap) (ht : 0 < v.tau) :
    NewtonDir T P v 1 (da.along N.dtauA d1) (fun i => -W (W (da.along N.dtauA d1).z) i - v.s i) N.dtauA N.dkapA := by
  have hd := (h1.denom_pos hW hm hk ht).ne'
  refine ⟨fun j hj => ?_, fun i hi => ?_, fun i hi => ?_, ?_⟩
  · have a := h1.x j hj
    have b := ha.x j hj
    simp only [rhs1, rhsA] at a b
    unfold Dir3.along
    simp only
    rw [sum_along, sum_along]
    linear_combination b + N.dtauA * a
  · have a := h1.y i hi
    have b := ha.y i hi
    simp only [rhs1, rhsA] at a b
    unfold Dir3.along
    simp only
    rw [sum_along]
    linear_combination b + N.dtauA * a
  · have a := h1.z i hi
    have b := ha.z i hi
    simp only [rhs1, rhsA] at a b
    have e2 : W (W (da.along N.dtauA d1).z) i = W (W da.z) i + N.dtauA * W (W d1.z) i := hW.sq_add_mul da.z d1.z N.dtauA (by omega)
    rw [e2]
    unfold Dir3.along
    simp only
    rw [sum_along]
    linear_combination b + N.dtauA * a
  · have e := h.dtauA.resolve_right hd
    rw [chb_along, h.dkapA]
    linarith

/-! ### Complementarity -/

theorem exists_product (hq : ∀ k, k < S.ns → 0 < S.q k) (x y : Nat → ℝ) : ∃ q, IsProduct S x y q := by
  refine ⟨glue S (fun i => x i * y i) (fun k j => if j = 0 then ∑ i ∈ range (S.q k), S.block x k i * S.block y k i else
    S.block x k 0 * S.block y k j + S.block y k 0 * S.block x k j) fun _ _ => 0, fun i hi => glue_lp S _ _ _ hi, fun k hk => ?_, fun k hk j h0 hj => ?_⟩
  · rw [glue_block S _ _ _ hk (hq k hk), if_pos rfl]
  · rw [glue_block S _ _ _ hk hj, if_neg (by omega)]

theorem exists_identity (hq : ∀ k, k < S.ns → 0 < S.q k) : ∃ e, IsIdentity S e := by
  refine ⟨glue S (fun _ => 1) (fun _ j => if j = 0 then 1 else 0) fun _ _ => 0, fun i hi => glue_lp S _ _ _ hi, fun k hk => ⟨?_, fun j h0 hj => ?_⟩⟩
  · rw [glue_block S _ _ _ hk (hq k hk), if_pos rfl]
  · rw [glue_block S _ _ _ hk hj, if_neg (by omega)]

/-- the trace of a product is the inner product -/
theorem IsProduct.trace {x y q : Nat → ℝ} (h : IsProduct S x y q) :
    ∑ i ∈ range S.fexv, x i * y i = ∑ i ∈ range S.l, q i + ∑ k ∈ range S.ns, S.block q k 0 := by
  rw [S.sum_rows]
  congr 1
  · exact sum_congr rfl fun i hi => (h.lp i (mem_range.1 hi)).symm
  · refine sum_congr rfl fun k hk => ?_
    rw [h.head k (mem_range.1 hk)]
    rfl

/-- `s'z + z'ds` of the combined direction -/
theorem PcStep.first (h : PcStep T S P W v v' d1 da d2 u N) (hW : SymMap S W) (hm : T.m = S.fexv) (hq : ∀ k, k < S.ns → 0 < S.q k)
    (hs : ∀ i, i < T.m → W (W v.z) i = v.s i) (hf : AboveFloors S (W v.z)) :
    ∑ i ∈ range T.m, W v.z i * u i = ∑ i ∈ range T.m, v.s i * v.z i +
      ∑ i ∈ range T.m, (-W (W (da.along N.dtauA d1).z) i - v.s i) * (da.along N.dtauA d1).z i - N.sigma * N.mu * (S.l + S.ns : Nat) := by
  obtain ⟨q1, h1⟩ := exists_product hq (W v.z) (W v.z)
  obtain ⟨q2, h2⟩ := exists_product hq (fun i => -W (da.along N.dtauA d1).z i - W v.z i) (W (da.along N.dtauA d1).z)
  obtain ⟨e, he⟩ := exists_identity hq
  have hc := h.comp hf q1 q2 e h1 h2 he
  have t1 := h1.trace
  have t2 := h2.trace
  have t3 := hc.trace
  generalize (da.along N.dtauA d1).z = dza at *
  have e1 : ∑ i ∈ range T.m, v.s i * v.z i = ∑ i ∈ range S.fexv, W v.z i * W v.z i := by
    rw [hm, ← hW.symm (W v.z) v.z]
    refine sum_congr rfl fun i hi => ?_
    rw [← hs i (by rw [hm]; exact mem_range.1 hi)]; ring
  have e2 : ∑ i ∈ range T.m, (-W (W dza) i - v.s i) * dza i = ∑ i ∈ range S.fexv, (-W dza i - W v.z i) * W dza i := by
    have a := hW.symm (W dza) dza
    have b := hW.symm (W v.z) dza
    have c : ∑ i ∈ range S.fexv, (-W dza i - W v.z i) * W dza i = -∑ i ∈ range S.fexv, W dza i * W dza i - ∑ i ∈ range S.fexv, W dza i * W v.z i := by
      rw [← sum_neg_distrib, ← sum_sub_distrib]
      exact sum_congr rfl fun i _ => by ring
    rw [c, ← a, ← b, hm, ← sum_neg_distrib, ← sum_sub_distrib]
    refine sum_congr rfl fun i hi => ?_
    rw [hs i (by rw [hm]; exact mem_range.1 hi)]; ring
  have e3 : ∑ i ∈ range S.l, e i = S.l := by
    rw [sum_congr rfl fun i hi => he.lp i (mem_range.1 hi)]; simp
  have e4 : ∑ k ∈ range S.ns, S.block e k 0 = S.ns := by
    rw [sum_congr rfl fun i hi => (he.soc i (mem_range.1 hi)).1]; simp
  rw [e1, e2, t1, t2, hm, t3]
  have s1 : ∑ i ∈ range S.l, (q1 i + q2 i - N.sigma * N.mu * e i) = ∑ i ∈ range S.l, q1 i + ∑ i ∈ range S.l, q2 i - N.sigma * N.mu * S.l := by
    rw [sum_sub_distrib, sum_add_distrib, ← mul_sum, e3]
  have s2 : ∑ k ∈ range S.ns, S.block (fun i => q1 i + q2 i - N.sigma * N.mu * e i) k 0 =
      ∑ k ∈ range S.ns, S.block q1 k 0 + ∑ k ∈ range S.ns, S.block q2 k 0 - N.sigma * N.mu * S.ns := by
    rw [← e4, mul_sum, ← sum_add_distrib, ← sum_sub_distrib]
    rfl
  rw [s1, s2]
  push_cast
  ring

/-- complementarity after the step -/
theorem PcStep.compl (h : PcStep T S P W v v' d1 da d2 u N) (hW : SymMap S W) (hm : T.m = S.fexv) (hq : ∀ k, k < S.ns → 0 < S.q k)
    (hs : ∀ i, i < T.m → W (W v.z) i = v.s i) (hf : AboveFloors S (W v.z)) (ht : v.tau ≠ 0) :
    Ecos.compl T v' = (1 - N.step * (1 - N.sigma)) * Ecos.compl T v -
      N.step * (∑ i ∈ range T.m, (-W (W (da.along N.dtauA d1).z) i - v.s i) * (da.along N.dtauA d1).z i + N.dkapA * N.dtauA) +
      N.step ^ 2 * (∑ i ∈ range T.m, dirS W u (d2.along N.dtau d1).z i * (d2.along N.dtau d1).z i + N.dkap * N.dtau) := by
  have hfst := h.first hW hm hq hs hf
  generalize (da.along N.dtauA d1).z = dza at *
  have hz := h.z
  have hss := h.s
  generalize (d2.along N.dtau d1).z = dz at *
  generalize ∑ i ∈ range T.m, (-W (W dza) i - v.s i) * dza i = q at *
  have e1 : ∑ i ∈ range T.m, v'.s i * v'.z i = ∑ i ∈ range T.m, v.s i * v.z i + N.step * (∑ i ∈ range T.m, v.s i * dz i + ∑ i ∈ range T.m, v.z i * dirS W u dz i) +
      N.step ^ 2 * ∑ i ∈ range T.m, dirS W u dz i * dz i := by
    rw [mul_add, mul_sum, mul_sum, mul_sum, ← sum_add_distrib, ← sum_add_distrib, ← sum_add_distrib]
    refine sum_congr rfl fun i hi => ?_
    rw [hz i (mem_range.1 hi), hss i (mem_range.1 hi)]
    show _ * _ = v.s i * v.z i + (N.step * (v.s i * dz i) + N.step * (v.z i * dirS W u dz i)) + N.step ^ 2 * (dirS W u dz i * dz i)
    unfold dirS
    ring
  have e2 : ∑ i ∈ range T.m, v.z i * dirS W u dz i = -∑ i ∈ range T.m, W v.z i * u i - ∑ i ∈ range T.m, W v.z i * W dz i := by
    unfold dirS
    rw [hm, hW.symm, ← sum_neg_distrib, ← sum_sub_distrib]
    exact sum_congr rfl fun i _ => by ring
  have e3 : ∑ i ∈ range T.m, v.s i * dz i = ∑ i ∈ range T.m, W v.z i * W dz i := by
    have := hW.symm (W v.z) dz
    rw [hm]
    calc _ = ∑ i ∈ range S.fexv, dz i * W (W v.z) i := sum_congr rfl fun i hi => by
            rw [hs i (by rw [hm]; exact mem_range.1 hi)]; ring
      _ = _ := this
      _ = _ := sum_congr rfl fun i _ => by ring
  have hmu : N.mu * ((S.l + S.ns : Nat) + 1) = ∑ i ∈ range T.m, v.s i * v.z i + v.kap * v.tau := by
    rw [h.mu]
    have : (((S.l + S.ns : Nat) : ℝ) + 1) ≠ 0 := by positivity
    field_simp
    rfl
  have hk : N.dkap * v.tau = -(v.kap * v.tau + N.dkapA * N.dtauA - N.sigma * N.mu + v.kap * N.dtau) := by
    rw [h.dkap]; field_simp
  unfold Ecos.compl
  rw [e1, e2, e3, h.kap, h.tau, hfst]
  linear_combination N.step * hk + N.step * N.sigma * hmu

end Ecos
