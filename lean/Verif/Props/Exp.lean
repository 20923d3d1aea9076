import Verif.Lemmas.Exp1

/-!
# C29: the membership tests of the exponential cone

The tests are run with IEEE-like extended reals (`XR`), so that logarithms and quotients at the corner
points are what a processor would deliver.
-/
namespace Ecos.Exp

open XR

/-- what one primal test decides -/
theorem primalBad_iff (x y z : ℝ) : expPrimalBad (fin x) (fin y) (fin z) = false ↔
    (0 < z ∧ z * Real.exp (x / z) ≤ y) ∨ (z = 0 ∧ 0 ≤ y) := by
  unfold expPrimalBad
  simp only [zero_def, lt_fin, Bool.or_eq_false_iff, decide_eq_false_iff_not, not_lt]
  rcases lt_trichotomy z 0 with hz | hz | hz
  · constructor
    · rintro ⟨-, h⟩
      linarith
    · rintro (⟨h, -⟩ | ⟨h, -⟩) <;> linarith
  · subst hz
    have : lt (fin 0 * PFloat.log (fin y / fin 0) - fin x) (fin 0) = false := by
      rw [fin_div_zero]
      unfold signInf
      split
      · show lt (signInf 0 - fin x) _ = false
        unfold signInf
        simp
        rfl
      · split
        · rfl
        · rfl
    rw [this]
    simp
  · rcases lt_trichotomy y 0 with hy | hy | hy
    · have h0 : 0 < z * Real.exp (x / z) := mul_pos hz (Real.exp_pos _)
      constructor
      · rintro ⟨⟨-, h⟩, -⟩
        linarith
      · rintro (⟨-, h⟩ | ⟨h, -⟩) <;> linarith
    · subst hy
      have h0 : 0 < z * Real.exp (x / z) := mul_pos hz (Real.exp_pos _)
      have : lt (fin z * PFloat.log (fin 0 / fin z) - fin x) (fin 0) = true := by
        rw [fin_div hz.ne', zero_div]
        have : (PFloat.log (fin 0) : XR) = ninf := by
          show (if (0 : ℝ) < 0 then nan else if (0 : ℝ) = 0 then ninf else fin (Real.log 0)) = ninf
          simp
        rw [this]
        have : fin z * ninf = ninf := by
          show signInf (-z) = ninf
          unfold signInf
          rw [if_neg (by linarith), if_pos (by linarith)]
        rw [this]
        rfl
      rw [this]
      constructor
      · rintro ⟨⟨h, -⟩, -⟩
        exact absurd h (by simp)
      · rintro (⟨-, h⟩ | ⟨h, -⟩) <;> linarith
    · have hq := div_pos hy hz
      have e : (PFloat.log (fin y / fin z) : XR) = fin (Real.log (y / z)) := by
        rw [fin_div hz.ne']
        show (if y / z < 0 then nan else if y / z = 0 then ninf else fin (Real.log (y / z))) = _
        rw [if_neg (by linarith), if_neg hq.ne']
      rw [e, fin_mul, fin_sub, lt_fin, decide_eq_false_iff_not, not_lt, exp_psi hy hz]
      constructor
      · rintro ⟨⟨h, -⟩, -⟩
        exact Or.inl ⟨hz, h⟩
      · rintro (⟨-, h⟩ | ⟨h, -⟩)
        · exact ⟨⟨h, hy.le⟩, hz.le⟩
        · linarith

/-- what one dual test decides -/
theorem dualBad_iff (u v w : ℝ) : expDualBad (fin u) (fin v) (fin w) = false ↔
    (u < 0 ∧ 0 < v ∧ 0 ≤ dpsi u v w) ∨ (u = 0 ∧ 0 ≤ v) := by
  unfold expDualBad
  simp only [zero_def, lt_fin, fin_neg, Bool.or_eq_false_iff, decide_eq_false_iff_not, not_lt]
  rcases lt_trichotomy u 0 with hu | hu | hu
  · rcases lt_trichotomy v 0 with hv | hv | hv
    · constructor
      · rintro ⟨⟨-, h⟩, -⟩
        linarith
      · rintro (⟨-, h, -⟩ | ⟨h, -⟩) <;> linarith
    · subst hv
      have : lt (fin (-u) - fin u * PFloat.log (fin (-0) / fin u) + fin w) (fin 0) = true := by
        rw [fin_div hu.ne, neg_zero, zero_div]
        have : (PFloat.log (fin 0) : XR) = ninf := by
          show (if (0 : ℝ) < 0 then nan else if (0 : ℝ) = 0 then ninf else fin (Real.log 0)) = ninf
          simp
        rw [this]
        have : fin u * ninf = pinf := by
          show signInf (-u) = pinf
          unfold signInf
          rw [if_pos (by linarith)]
        rw [this]
        rfl
      rw [this]
      constructor
      · rintro ⟨-, h⟩
        exact absurd h (by simp)
      · rintro (⟨-, h, -⟩ | ⟨h, -⟩) <;> linarith
    · have hq : 0 < -v / u := div_pos_of_neg_of_neg (by linarith) hu
      have e : (PFloat.log (fin (-v) / fin u) : XR) = fin (Real.log (-v / u)) := by
        rw [fin_div hu.ne]
        show (if -v / u < 0 then nan else if -v / u = 0 then ninf else fin (Real.log (-v / u))) = _
        rw [if_neg (by linarith), if_neg hq.ne']
      rw [e, fin_mul, fin_sub, fin_add, lt_fin, decide_eq_false_iff_not, not_lt]
      constructor
      · rintro ⟨-, h⟩
        exact Or.inl ⟨hu, hv, h⟩
      · rintro (⟨-, -, h⟩ | ⟨h, -⟩)
        · exact ⟨⟨hu.le, hv.le⟩, h⟩
        · linarith
  · subst hu
    have : lt (fin (-0) - fin 0 * PFloat.log (fin (-v) / fin 0) + fin w) (fin 0) = false := by
      rw [fin_div_zero]
      unfold signInf
      split
      · show lt (_ - signInf 0 + fin w) _ = false
        unfold signInf
        simp
        rfl
      · split
        · rfl
        · rfl
    rw [this]
    simp
  · constructor
    · rintro ⟨⟨h, -⟩, -⟩
      linarith
    · rintro (⟨h, -⟩ | ⟨h, -⟩) <;> linarith

/-- **C29, primal test.**  For any number of cones with finite entries the test runs and accepts exactly
when each cone holds a point with positive third component satisfying the defining inequality (so a point
of the exponential cone), or a point with third component zero and nonnegative second component. -/
theorem C29_primal {b : Buf XR} {off n : Nat} {x : Nat → ℝ} (h : Has b off (3 * n) fun i => fin (x i)) :
    ∃ r, evalExpPrimalFeas b off n = .ok r ∧
      (r = true ↔ ∀ j, j < n → (0 < x (3 * j + 2) ∧ InExp (x (3 * j)) (x (3 * j + 1)) (x (3 * j + 2))) ∨
        (x (3 * j + 2) = 0 ∧ 0 ≤ x (3 * j + 1))) := by
  obtain ⟨r, hr, hi⟩ := (Ok.def _ _).1 (evalExpPrimalFeas_ok h)
  refine ⟨r, hr, hi.trans (forall_congr' fun j => imp_congr_right fun _ => ?_)⟩
  rw [primalBad_iff]
  unfold InExp
  constructor
  · rintro (h | h)
    · exact Or.inl ⟨h.1, Or.inl h⟩
    · exact Or.inr h
  · rintro (⟨h0, h | h⟩ | h)
    · exact Or.inl h
    · linarith [h.1]
    · exact Or.inr h

/-- **C29, dual test.**  It accepts exactly when each cone holds a point of the dual cone with negative
first component, or a point with first component zero and nonnegative second component. -/
theorem C29_dual {b : Buf XR} {off n : Nat} {z : Nat → ℝ} (h : Has b off (3 * n) fun i => fin (z i)) :
    ∃ r, evalExpDualFeas b off n = .ok r ∧
      (r = true ↔ ∀ j, j < n → (z (3 * j) < 0 ∧ InExpDual (z (3 * j)) (z (3 * j + 1)) (z (3 * j + 2))) ∨
        (z (3 * j) = 0 ∧ 0 ≤ z (3 * j + 1))) := by
  obtain ⟨r, hr, hi⟩ := (Ok.def _ _).1 (evalExpDualFeas_ok h)
  refine ⟨r, hr, hi.trans (forall_congr' fun j => imp_congr_right fun _ => ?_)⟩
  rw [dualBad_iff]
  refine or_congr_left' fun _ => ?_
  constructor
  · rintro ⟨h1, h2, h3⟩
    exact ⟨h1, dual_of_psi h1 h2 h3⟩
  · rintro ⟨h1, h2⟩
    have hv : 0 < z (3 * j + 1) := dual_pos h1 h2
    exact ⟨h1, hv, psi_of_dual h1 hv h2⟩

/-- **C29, pairs.**  If both tests accept and no cone has a zero third primal or zero first dual component,
the inner product of every block is nonnegative. -/
theorem C29_pair {bs bz : Buf XR} {os oz n : Nat} {s z : Nat → ℝ}
    (hs : Has bs os (3 * n) fun i => fin (s i)) (hz : Has bz oz (3 * n) fun i => fin (z i))
    (as : evalExpPrimalFeas bs os n = .ok true) (az : evalExpDualFeas bz oz n = .ok true)
    (j : Nat) (hj : j < n) (h0 : s (3 * j + 2) ≠ 0 ∨ s (3 * j) ≤ 0) (h1 : z (3 * j) ≠ 0 ∨ 0 ≤ z (3 * j + 2)) :
    0 ≤ s (3 * j) * z (3 * j) + s (3 * j + 1) * z (3 * j + 1) + s (3 * j + 2) * z (3 * j + 2) := by
  obtain ⟨r, hr, hi⟩ := C29_primal hs
  rw [as] at hr
  obtain rfl := Except.ok.inj hr
  obtain ⟨r, hr, hi'⟩ := C29_dual hz
  rw [az] at hr
  obtain rfl := Except.ok.inj hr
  have p := hi.1 rfl j hj
  have d := hi'.1 rfl j hj
  have hp : InExp (s (3 * j)) (s (3 * j + 1)) (s (3 * j + 2)) := by
    rcases p with p | ⟨p, q⟩
    · exact p.2
    · exact Or.inr ⟨p, h0.resolve_left (by simp [p]), q⟩
  rcases d with d | ⟨d, e⟩
  · have := d.2 _ _ _ hp
    linarith [mul_comm (s (3 * j)) (z (3 * j)), mul_comm (s (3 * j + 1)) (z (3 * j + 1)),
      mul_comm (s (3 * j + 2)) (z (3 * j + 2))]
  · rw [d, mul_zero, zero_add]
    have w0 := h1.resolve_left (by simp [d])
    rcases hp with ⟨hz, hm⟩ | ⟨hz, -, hy⟩
    · have : 0 ≤ s (3 * j + 1) := (mul_pos hz (Real.exp_pos _)).le.trans hm
      exact add_nonneg (mul_nonneg this e) (mul_nonneg hz.le w0)
    · exact add_nonneg (mul_nonneg hy e) (mul_nonneg hz.ge w0)

/-- three cells -/
def cells (a b c : ℝ) : Buf XR := #[some (fin a), some (fin b), some (fin c)]

def coords (a b c : ℝ) : Nat → ℝ := fun i => if i = 0 then a else if i = 1 then b else c

theorem cells_has (a b c : ℝ) : Has (cells a b c) 0 (3 * 1) fun i => fin (coords a b c i) := by
  intro i hi
  have : i = 0 ∨ i = 1 ∨ i = 2 := by omega
  rcases this with rfl | rfl | rfl <;> rfl

/-- **C29 is violated at the boundary (primal).**  (5, 1, 0) is accepted and is not in the cone. -/
theorem C29_primal_violated : evalExpPrimalFeas (cells 5 1 0) 0 1 = .ok true ∧ ¬ InExp 5 1 0 := by
  obtain ⟨r, hr, hi⟩ := C29_primal (cells_has 5 1 0)
  constructor
  · rw [hr, hi.2]
    intro j hj
    obtain rfl : j = 0 := by omega
    right
    simp [coords]
  · rintro (⟨h, -⟩ | ⟨-, h, -⟩) <;> linarith

/-- **C29 is violated at the boundary (dual).**  (0, 1, -5) is accepted and is not in the dual cone. -/
theorem C29_dual_violated : evalExpDualFeas (cells 0 1 (-5)) 0 1 = .ok true ∧ ¬ InExpDual 0 1 (-5) := by
  obtain ⟨r, hr, hi⟩ := C29_dual (cells_has 0 1 (-5))
  constructor
  · rw [hr, hi.2]
    intro j hj
    obtain rfl : j = 0 := by omega
    right
    simp [coords]
  · intro h
    have := h 0 1 1 (Or.inl ⟨one_pos, by simp⟩)
    norm_num at this

/-- **C29 is violated for pairs.**  (5, 1, 0) and (-1, 1, -1) are both accepted; their inner product
is -4. -/
theorem C29_pair_violated : evalExpPrimalFeas (cells 5 1 0) 0 1 = .ok true ∧
    evalExpDualFeas (cells (-1) 1 (-1)) 0 1 = .ok true ∧ (5 * (-1) + 1 * 1 + 0 * (-1) : ℝ) < 0 := by
  refine ⟨C29_primal_violated.1, ?_, by norm_num⟩
  obtain ⟨r, hr, hi⟩ := C29_dual (cells_has (-1) 1 (-1))
  rw [hr, hi.2]
  intro j hj
  obtain rfl : j = 0 := by omega
  left
  refine ⟨by simp [coords], ?_⟩
  show InExpDual (-1) 1 (-1)
  exact dual_of_psi (by norm_num) (by norm_num) (by unfold dpsi; norm_num)

/-- a point inside is accepted, the same point moved outside is not -/
example : evalExpPrimalFeas (cells 0 2 1) 0 1 = .ok true ∧ evalExpPrimalFeas (cells 0 0.5 1) 0 1 = .ok false := by
  obtain ⟨r, hr, hi⟩ := C29_primal (cells_has 0 2 1)
  obtain ⟨r', hr', hi'⟩ := C29_primal (cells_has 0 0.5 1)
  constructor
  · rw [hr, hi.2]
    intro j hj
    obtain rfl : j = 0 := by omega
    left
    refine ⟨by simp [coords], Or.inl ⟨by simp [coords], ?_⟩⟩
    simp [coords]
  · rw [hr']
    congr 1
    by_contra hne
    have := hi'.1 (by simpa using hne) 0 (by omega)
    simp [coords, InExp] at this
    norm_num at this

end Ecos.Exp
