import Verif.Lemmas.Exp3
import Verif.Lemmas.Glue

/-!
# C30: derivatives of the exponential cone barrier; C32: the starting point
-/
namespace Ecos.Exp

open Finset

theorem dpsi_eq (u v w : ℝ) : dpsi u v w = bR (u, v, w) := by
  unfold dpsi bR bL
  simp only
  ring

/-- the dual part of the barrier value computed by the code is the barrier -/
theorem dualBarrier_eq (u v w : ℝ) : dualBarrier u v w = barrier (u, v, w) := rfl

/-- `evalBarrierValue` adds, over the cones, the barrier of the dual point and the primal expression -/
theorem C30_barrier_value {sb zb : Buf ℝ} {fc n : Nat} {s z : Nat → ℝ} (hs : Has sb fc (3 * n) s)
    (hz : Has zb fc (3 * n) z) :
    evalBarrierValue sb zb fc n = .ok
      (∑ j ∈ range n, primalBarrier (s (3 * j)) (s (3 * j + 1)) (s (3 * j + 2)) +
       ∑ j ∈ range n, barrier (z (3 * j), z (3 * j + 1), z (3 * j + 2))) := by
  have : Ok (evalBarrierValue sb zb fc n) (· = ∑ j ∈ range n, primalBarrier (s (3 * j)) (s (3 * j + 1)) (s (3 * j + 2)) +
       ∑ j ∈ range n, barrier (z (3 * j), z (3 * j + 1), z (3 * j + 2))) := by
    unfold evalBarrierValue
    refine Ok.bind (P := fun t => t.1 = ∑ j ∈ range n, primalBarrier (s (3 * j)) (s (3 * j + 1)) (s (3 * j + 2)) ∧
       t.2 = ∑ j ∈ range n, barrier (z (3 * j), z (3 * j + 1), z (3 * j + 2))) ?_ ?_
    · refine loop_ok (fun k (t : ℝ × ℝ) => t.1 = ∑ j ∈ range k, primalBarrier (s (3 * j)) (s (3 * j + 1)) (s (3 * j + 2)) ∧
         t.2 = ∑ j ∈ range k, barrier (z (3 * j), z (3 * j + 1), z (3 * j + 2))) (by omega) (by simp) ?_ (fun _ h => h)
      rintro k ⟨a, b⟩ - hk ⟨h1, h2⟩
      have e0 := hs.rd (j := 3 * k) (by omega)
      have e1 := hs.rd (j := 3 * k + 1) (by omega)
      have e2 := hs.rd (j := 3 * k + 2) (by omega)
      have f0 := hz.rd (j := 3 * k) (by omega)
      have f1 := hz.rd (j := 3 * k + 1) (by omega)
      have f2 := hz.rd (j := 3 * k + 2) (by omega)
      rw [← Nat.add_assoc] at e1 e2 f1 f2
      rw [f0, ok_bind_eq, f1, ok_bind_eq, f2, ok_bind_eq, e0, ok_bind_eq, e1, ok_bind_eq, e2, ok_bind_eq, Ok_pure]
      simp only at h1 h2 ⊢
      rw [sum_range_succ, sum_range_succ, h1, h2, dualBarrier_eq]
      exact ⟨rfl, rfl⟩
    · rintro t ⟨h1, h2⟩
      rw [Ok_pure, h1, h2]
  obtain ⟨r, hr, rfl⟩ := (Ok.def _ _).1 this
  exact hr

/-- **C30, gradient.**  At every strictly feasible dual point the gradient routine writes the derivative of
the barrier, and its inner product with the point is -3. -/
theorem C30_gradient {zb gb : Buf ℝ} {off : Nat} {z : Nat → ℝ} (hz : Has zb off 3 z) (hg : gb.size = 3)
    (hd : IntExpDual (z 0) (z 1) (z 2)) :
    ∃ gb' g, evalExpGradient zb off gb = .ok gb' ∧ Holds gb' 3 g ∧
      HasFDerivAt barrier (lin g) (z 0, z 1, z 2) ∧ g 0 * z 0 + g 1 * z 1 + g 2 * z 2 = -3 := by
  obtain ⟨hu, hv, hr⟩ := intDual_iff.1 hd
  rw [dpsi_eq] at hr
  obtain ⟨gb', h1, h2⟩ := (Ok.def _ _).1 (evalExpGradient_ok hz hg)
  refine ⟨gb', _, h1, h2, grad_barrier hu hv hr, ?_⟩
  have hw : z 2 = bR (z 0, z 1, z 2) + z 0 * bL (z 0, z 1, z 2) + z 0 := by unfold bR; simp; ring
  have hR : expR (z 0) (z 1) (z 2) = bR (z 0, z 1, z 2) := rfl
  have hL : expL (z 0) (z 1) = bL (z 0, z 1, z 2) := rfl
  have a1 := hu.ne
  have a2 := hr.ne'
  have a3 := hv.ne'
  simp only [gradF, expGrad, hR, hL]
  norm_num
  generalize bR (z 0, z 1, z 2) = r at *
  generalize bL (z 0, z 1, z 2) = l at *
  rw [hw]
  field_simp
  ring

/-- **C30, Hessian.**  The six numbers written for `mu` are `mu` times those of a symmetric matrix which
is the derivative of the gradient (as written by the gradient routine, at all points), maps the point to
minus the gradient, and is positive definite. -/
theorem C30_hessian {zb vb : Buf ℝ} {off : Nat} {z : Nat → ℝ} (hz : Has zb off 3 z) (hv : vb.size = 6)
    (hd : IntExpDual (z 0) (z 1) (z 2)) (mu : ℝ) :
    ∃ vb' h, evalExpHessian zb off vb mu = .ok vb' ∧ Holds vb' 6 (fun i => mu * h i) ∧
      (∀ i, i < 3 → HasFDerivAt (fun p : ℝ × ℝ × ℝ => gradF p.1 p.2.1 p.2.2 i) (lin (symRow h i))
        (z 0, z 1, z 2)) ∧
      (∀ i, i < 3 → lin (symRow h i) (z 0, z 1, z 2) = -gradF (z 0) (z 1) (z 2) i) ∧
      ∀ d : ℝ × ℝ × ℝ, d ≠ 0 → 0 < d.1 * lin (symRow h 0) d + d.2.1 * lin (symRow h 1) d
        + d.2.2 * lin (symRow h 2) d := by
  obtain ⟨hu, hv', hr⟩ := intDual_iff.1 hd
  rw [dpsi_eq] at hr
  obtain ⟨vb', h1, h2⟩ := (Ok.def _ _).1 (evalExpHessian_ok hz hv mu)
  refine ⟨vb', hessF (z 0) (z 1) (z 2) 1, h1, ?_, fun i hi => hess_barrier hu hv' hr i hi, ?_, ?_⟩
  · refine ⟨h2.1, fun i hi => ?_⟩
    rw [h2.2 i hi]
    have : i = 0 ∨ i = 1 ∨ i = 2 ∨ i = 3 ∨ i = 4 ∨ i = 5 := by omega
    rcases this with rfl | rfl | rfl | rfl | rfl | rfl <;> simp [hessF, expHess]
  · intro i hi
    have hw : z 2 = bR (z 0, z 1, z 2) + z 0 * bL (z 0, z 1, z 2) + z 0 := by unfold bR; simp; ring
    have hR : expR (z 0) (z 1) (z 2) = bR (z 0, z 1, z 2) := rfl
    have hL : expL (z 0) (z 1) = bL (z 0, z 1, z 2) := rfl
    have a1 := hu.ne
    have a2 := hr.ne'
    have a3 := hv'.ne'
    have : i = 0 ∨ i = 1 ∨ i = 2 := by omega
    generalize bR (z 0, z 1, z 2) = r at *
    generalize bL (z 0, z 1, z 2) = l at *
    rcases this with rfl | rfl | rfl
    all_goals
      simp only [symRow_0, symRow_1, symRow_2, lin_co, hessF, expHess, gradF, expGrad, hR, hL]
      norm_num
      rw [hw]
      field_simp
      ring
  · rintro ⟨a, b, c⟩ hne
    have hw : z 2 = bR (z 0, z 1, z 2) + z 0 * bL (z 0, z 1, z 2) + z 0 := by unfold bR; simp; ring
    have hR : expR (z 0) (z 1) (z 2) = bR (z 0, z 1, z 2) := rfl
    have hL : expL (z 0) (z 1) = bL (z 0, z 1, z 2) := rfl
    have a1 := hu.ne
    have a2 := hr.ne'
    have a3 := hv'.ne'
    generalize bR (z 0, z 1, z 2) = r at *
    generalize bL (z 0, z 1, z 2) = l at *
    have key : a * lin (symRow (hessF (z 0) (z 1) (z 2) 1) 0) (a, b, c)
        + b * lin (symRow (hessF (z 0) (z 1) (z 2) 1) 1) (a, b, c)
        + c * lin (symRow (hessF (z 0) (z 1) (z 2) 1) 2) (a, b, c) =
        -(z 0) / r * (a / z 0 - b / z 1) ^ 2 + ((-l * a - z 0 / z 1 * b + c) / r) ^ 2 + (a / z 0) ^ 2 + (b / z 1) ^ 2 := by
      simp only [symRow_0, symRow_1, symRow_2, lin_co, hessF, expHess, hR, hL]
      norm_num
      rw [hw]
      field_simp
      ring
    show 0 < a * lin (symRow (hessF (z 0) (z 1) (z 2) 1) 0) (a, b, c)
        + b * lin (symRow (hessF (z 0) (z 1) (z 2) 1) 1) (a, b, c)
        + c * lin (symRow (hessF (z 0) (z 1) (z 2) 1) 2) (a, b, c)
    rw [key]
    have p1 : 0 ≤ -(z 0) / r * (a / z 0 - b / z 1) ^ 2 :=
      mul_nonneg (div_nonneg (by linarith) hr.le) (sq_nonneg _)
    have p2 := sq_nonneg ((-l * a - z 0 / z 1 * b + c) / r)
    have p3 := sq_nonneg (a / z 0)
    have p4 := sq_nonneg (b / z 1)
    by_cases ha : a = 0
    · by_cases hb : b = 0
      · have hc : c ≠ 0 := by
          rintro rfl
          exact hne (by rw [ha, hb]; rfl)
        have : 0 < ((-l * a - z 0 / z 1 * b + c) / r) ^ 2 := by
          rw [ha, hb]
          have : (-l * 0 - z 0 / z 1 * 0 + c) / r ≠ 0 := by
            simpa using ⟨hc, a2⟩
          positivity
        linarith
      · have : 0 < (b / z 1) ^ 2 := by
          have := div_ne_zero hb a3
          positivity
        linarith
    · have : 0 < (a / z 0) ^ 2 := by
        have := div_ne_zero ha a1
        positivity
      linarith

/-- one block of the product routine -/
theorem product1 {e : ExpCone ℝ} {h x y : Nat → ℝ} {mu : ℝ} {xb yb : Buf ℝ} {k : Nat}
    (hv : Holds e.v 6 fun i => mu * h i) (hx : Has xb k 3 x) (hy : Has yb k 3 y) :
    Ok (scaleExp1 e xb k yb) fun r =>
      Seg yb r k 3 fun i => y i + mu * lin (symRow h i) (x 0, x 1, x 2) := by
  refine (scaleExp1_ok hv hx hy).mono fun r hr => hr.congr fun i hi => ?_
  have : i = 0 ∨ i = 1 ∨ i = 2 := by omega
  rcases this with rfl | rfl | rfl <;> simp [expandE, lin_co] <;> ring

/-- **C30, product.**  When the cones store `mu` times symmetric matrices `h l` (as written by the Hessian
routine, `C30_hessian`), the product routine adds `mu * h l * x_l` to every block and changes nothing
else. -/
theorem C30_product {expc : Array (ExpCone ℝ)} {h : Nat → Nat → ℝ} {x y : Nat → ℝ} {mu : ℝ} {xb yb : Buf ℝ}
    {n fc : Nat} (hv : ∀ l, l < n → ∃ e, expc[l]? = some e ∧ Holds e.v 6 fun i => mu * h l i)
    (hx : Has xb fc (3 * n) x) (hy : Has yb fc (3 * n) y) :
    Ok (scaleToAddExpcone yb xb expc n fc) fun r => r.size = yb.size ∧
      (∀ j, j < fc ∨ fc + 3 * n ≤ j → r[j]? = yb[j]?) ∧
      ∀ l, l < n → Has r (fc + 3 * l) 3 fun i =>
        y (3 * l + i) + mu * lin (symRow (h l) i) (x (3 * l), x (3 * l + 1), x (3 * l + 2)) := by
  unfold scaleToAddExpcone
  refine loop_ok (fun k (r : Buf ℝ) => r.size = yb.size ∧
    (∀ j, j < fc ∨ fc + 3 * k ≤ j → r[j]? = yb[j]?) ∧
      ∀ l, l < k → Has r (fc + 3 * l) 3 fun i =>
        y (3 * l + i) + mu * lin (symRow (h l) i) (x (3 * l), x (3 * l + 1), x (3 * l + 2))) (by omega)
    ⟨rfl, fun _ _ => rfl, fun l hl => by omega⟩ ?_ (fun _ h => h)
  rintro k r - hk ⟨h1, h2, h3⟩
  obtain ⟨e, he, hev⟩ := hv k hk
  rw [getIdx_some he, ok_bind_eq]
  have hxk : Has xb (fc + 3 * k) 3 fun j => x (3 * k + j) := hx.sub (by omega)
  have hyk : Has r (fc + 3 * k) 3 fun j => y (3 * k + j) := by
    intro j hj
    rw [h2 _ (by omega)]
    exact hy.sub (o' := 3 * k) (k' := 3) (by omega) j hj
  refine (product1 hev hxk hyk).mono fun r' h => ⟨h.size.trans h1, fun j hj => ?_, fun l hl => ?_⟩
  · rw [h.outside j (by omega), h2 j (by omega)]
  · by_cases hlk : l = k
    · subst hlk
      exact h.inside
    · exact h.has (h3 l (by omega)) (by omega)

/-- the point (-1, 1, 1) is strictly dual feasible -/
theorem point_int : IntExpDual (-1) 1 1 := intDual_of_psi (by norm_num) (by norm_num) (by unfold dpsi; norm_num)

/-- at (-1, 1, 1) the residual is 2 and the gradient (1, -3/2, -1/2) -/
example : ∃ gb g, evalExpGradient (F := ℝ) #[some (-1), some 1, some 1] 0 #[none, none, none] = .ok gb ∧
    Holds gb 3 g ∧ HasFDerivAt barrier (lin g) (-1, 1, 1) := by
  have hz : Has (#[some (-1), some 1, some 1] : Buf ℝ) 0 3 (co (-1) 1 1) := by
    intro i hi
    have : i = 0 ∨ i = 1 ∨ i = 2 := by omega
    rcases this with rfl | rfl | rfl <;> rfl
  obtain ⟨gb, g, h1, h2, h3, -⟩ := C30_gradient (gb := #[none, none, none]) hz rfl point_int
  exact ⟨gb, g, h1, h2, h3⟩

/-! ### C32 -/

/-- **C32.**  For every list of cones and every positive scaling the starting point lies strictly inside
the linear and second-order cones, the exponential cones and the dual exponential cones; nothing behind
the rows of the cones is changed. -/
theorem C32_initial {C : Cone ℝ} {S : Shape} (hC : ConeIs C S) {s z : Buf ℝ} (hs : s.size = S.m)
    (hz : z.size = S.m) {t : ℝ} (ht : 0 < t) :
    ∃ s' z' f, unitInitialization C s z t = .ok (s', z') ∧ Holds s' S.m f ∧ Holds z' S.m f ∧ IntSym S f ∧
      ∀ l, l < S.ne → IntExp (S.eblock f l 0) (S.eblock f l 1) (S.eblock f l 2) ∧
        IntExpDual (S.eblock f l 0) (S.eblock f l 1) (S.eblock f l 2) := by
  obtain ⟨s', e1, z1, -, l1, q1, x1⟩ := (Ok.def _ _).1 (unitInit1_ok hC (s := s) (by omega) t)
  obtain ⟨z', e2, z2, -, l2, q2, x2⟩ := (Ok.def _ _).1 (unitInit1_ok hC (s := z) (by omega) t)
  refine ⟨s', z', glue S (fun _ => t) (fun _ => unitF t) (fun _ => rayF t), ?_,
    (glue_hasE l1 q1 x1).holds (by omega), (glue_hasE l2 q2 x2).holds (by omega), ⟨?_, ?_⟩, ?_⟩
  · unfold unitInitialization
    rw [e1, ok_bind_eq, e2, ok_bind_eq]
    rfl
  · intro i hi
    rw [glue_lp _ _ _ _ hi]
    exact ht
  · intro k hk
    have hp := hC.pos k hk
    unfold IntSoc
    rw [glue_block _ _ _ _ hk hp, tailSq_congr (v := unitF t) fun j hj => glue_block _ _ _ _ hk hj]
    unfold tailSq unitF
    simpa using ht
  · intro l hl
    rw [glue_exp _ _ _ _ (by omega), glue_exp _ _ _ _ (by omega), glue_exp _ _ _ _ (by omega)]
    exact ⟨ray_int ht, ray_dual ht⟩

/-- a second-order cone of dimension 2 -/
def mixedSoc : SoCone ℝ :=
  { p := 2, skbar := #[none, none], zkbar := #[none, none], q := #[none], Didx := #[none, none], a := none,
    w := none, eta := none, etaSq := none, d1 := none, u0 := none, u1 := none, v1 := none }

/-- one linear row, a second-order cone and two exponential cones -/
def mixedCone : Cone ℝ :=
  { lpc := { p := 1, w := #[], v := #[], kktIdx := #[] }, soc := #[mixedSoc], nsoc := 1,
    expc := #[⟨#[], #[], #[]⟩, ⟨#[], #[], #[]⟩], nexc := 2, fexv := 3 }

def mixedShape : Shape := { l := 1, ns := 1, q := fun _ => 2, ne := 2 }

theorem mixedIs : ConeIs mixedCone mixedShape := by
  refine ⟨rfl, rfl, fun k hk => ?_, fun k hk => by simp [mixedShape], rfl, rfl, rfl, rfl⟩
  obtain rfl : k = 0 := by
    have : k < 1 := hk
    omega
  exact ⟨_, rfl, rfl⟩

example : ∃ s' z' f, unitInitialization mixedCone (malloc 9) (malloc 9) 1 = .ok (s', z') ∧
    Holds s' 9 f ∧ Holds z' 9 f ∧ IntSym mixedShape f := by
  obtain ⟨s', z', f, h1, h2, h3, h4, -⟩ := C32_initial mixedIs (s := malloc 9) (z := malloc 9)
    (by simp [malloc]; rfl) (by simp [malloc]; rfl) one_pos
  exact ⟨s', z', f, h1, h2, h3, h4⟩

end Ecos.Exp
