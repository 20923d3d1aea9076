import Verif.Model.Ecos
import Verif.Lemmas.Scal2

/-!
# The line search
-/
namespace Ecos

open Finset

set_option linter.unusedSectionVars false

section generic
variable {F : Type} [Zero F] [One F] [Add F] [Sub F] [Mul F] [Div F] [Neg F] [OfScientific F]
  [IntCast F] [PFloat F]

/-- the smallest ratios of the linear rows -/
def lsMinF (l : Nat) (lam ds dz : Nat → F) : F × F :=
  itr (l - 1) (ds 0 / lam 0, dz 0 / lam 0) fun i t =>
    (fminTo t.1 (ds (i + 1) / lam (i + 1)), fminTo t.2 (dz (i + 1) / lam (i + 1)))

/-- value of `lsLp` -/
def lsLpF (l : Nat) (lam ds dz : Nat → F) : F :=
  if l > 0 then
    (if lt (-(lsMinF l lam ds dz).1) (-(lsMinF l lam ds dz).2) then
      (if lt (lsMinF l lam ds dz).2 0 then 1.0 / (-(lsMinF l lam ds dz).2) else 1.0 / EPS)
    else (if lt (lsMinF l lam ds dz).1 0 then 1.0 / (-(lsMinF l lam ds dz).1) else 1.0 / EPS))
  else 10.0

theorem lsLp_eq {C : Cone F} {S : Shape} (hC : ConeIs C S) {lamb dsb dzb : Buf F} {lam ds dz : Nat → F}
    (h1 : Has lamb 0 S.fexv lam) (h2 : Has dsb 0 S.fexv ds) (h3 : Has dzb 0 S.fexv dz) :
    lsLp C lamb dsb dzb = .ok (lsLpF S.l lam ds dz) := by
  have hl : S.l ≤ S.fexv := S.l_le _
  unfold lsLp lsLpF
  rw [hC.l]
  by_cases h : S.l > 0
  · rw [if_pos h, if_pos h]
    have e0 : ∀ i, i < S.l → rd lamb i = .ok (lam i) := fun i hi => by
      have := h1.rd (j := i) (by omega); rwa [Nat.zero_add] at this
    have e1 : ∀ i, i < S.l → rd dsb i = .ok (ds i) := fun i hi => by
      have := h2.rd (j := i) (by omega); rwa [Nat.zero_add] at this
    have e2 : ∀ i, i < S.l → rd dzb i = .ok (dz i) := fun i hi => by
      have := h3.rd (j := i) (by omega); rwa [Nat.zero_add] at this
    rw [e0 0 h, ok_bind_eq, e1 0 h, ok_bind_eq, e2 0 h, ok_bind_eq]
    rw [loop_itr (n := S.l - 1) (f := fun i t =>
      (fminTo t.1 (ds (i + 1) / lam (i + 1)), fminTo t.2 (dz (i + 1) / lam (i + 1)))) (by omega), ok_bind_eq]
    · change (if lt (-(lsMinF S.l lam ds dz).1) (-(lsMinF S.l lam ds dz).2) then _ else _) = _
      split <;> rfl
    · intro i s hi
      rw [Nat.add_comm 1 i, e0 _ (by omega), ok_bind_eq, e1 _ (by omega), ok_bind_eq, e2 _ (by omega), ok_bind_eq]
      rfl
  · rw [if_neg h, if_neg h]; rfl

/-- `lkbar' J d` -/
def lsProdF (p : Nat) (lb d : Nat → F) : F :=
  itr (p - 1) (lb 0 * d 0) fun j acc => acc - lb (j + 1) * d (j + 1)

theorem lsProd_eq {lbb db : Buf F} {k p : Nat} {lb d : Nat → F} (hp : 0 < p) (h1 : Has lbb 0 p lb)
    (h2 : Has db k p d) : lsProd lbb db k p = .ok (lsProdF p lb d) := by
  unfold lsProd lsProdF
  rw [h1.rd0 hp, ok_bind_eq, h2.rd0 hp, ok_bind_eq]
  refine loop_itr (by omega) fun i s hi => ?_
  have e := h1.rd (j := i + 1) (by omega)
  rw [Nat.zero_add] at e
  rw [Nat.add_comm 1 i, e, ok_bind_eq, h2.rd (by omega), ok_bind_eq]
  rfl

/-- value of `lsNorm` -/
def lsNormF (p : Nat) (lb d : Nat → F) (inv : F) : F :=
  PFloat.sqrt (itr (p - 1) 0 fun j acc =>
    acc + (inv * (d (j + 1) - (lsProdF p lb d + d 0) / (lb 0 + 1) * lb (j + 1))) *
      (inv * (d (j + 1) - (lsProdF p lb d + d 0) / (lb 0 + 1) * lb (j + 1)))) - inv * lsProdF p lb d

theorem lsNorm_eq {lbb db : Buf F} {k p : Nat} {lb d : Nat → F} {inv : F} (hp : 0 < p) (h1 : Has lbb 0 p lb)
    (h2 : Has db k p d) : lsNorm lbb db k p inv = .ok (lsNormF p lb d inv) := by
  unfold lsNorm lsNormF
  rw [lsProd_eq hp h1 h2, ok_bind_eq]
  simp only []
  rw [h2.rd0 hp, ok_bind_eq, h1.rd0 hp, ok_bind_eq]
  rw [loop_itr (n := p - 1) (f := fun j acc =>
    acc + (inv * (d (j + 1) - (lsProdF p lb d + d 0) / (lb 0 + 1) * lb (j + 1))) *
      (inv * (d (j + 1) - (lsProdF p lb d + d 0) / (lb 0 + 1) * lb (j + 1)))) (by omega), ok_bind_eq]
  · rfl
  · intro i s hi
    have e := h1.rd (j := i + 1) (by omega)
    rw [Nat.zero_add] at e
    rw [Nat.add_comm 1 i, h2.rd (by omega), ok_bind_eq, e, ok_bind_eq]
    rfl

/-- `lknorm2` -/
def lsLknorm2F (p : Nat) (u : Nat → F) : F :=
  u 0 * u 0 - dotN (p - 1) (fun j => u (1 + j)) fun j => u (1 + j)

theorem lsLknorm2_eq {b : Buf F} {k p : Nat} {u : Nat → F} (hp : 0 < p) (h : Has b k p u) :
    lsLknorm2 b k p = .ok (lsLknorm2F p u) := by
  unfold lsLknorm2 lsLknorm2F
  have hs : Has b (k + 1) (p - 1) fun j => u (1 + j) := h.sub (by omega)
  rw [h.rd0 hp, ok_bind_eq, eddotOff_eq hs hs, ok_bind_eq]
  rfl

/-- the normalised `lambda` of a cone -/
def lsBarF (p : Nat) (u : Nat → F) : Nat → F := fun j => u j / PFloat.sqrt (lsLknorm2F p u)

/-- the bound on the step from one second-order cone, applied to `alpha` -/
def lsSocF (p : Nat) (u ds dz : Nat → F) (alpha : F) : F :=
  lsUpd alpha (conicStep (lsNormF p (lsBarF p u) ds (1.0 / PFloat.sqrt (lsLknorm2F p u)))
    (lsNormF p (lsBarF p u) dz (1.0 / PFloat.sqrt (lsLknorm2F p u))))

/-- one second-order cone at row `k`; the state is `(alpha, cone_start)` -/
def lsStepF (p : Nat) (lam ds dz : Nat → F) (t : F × Nat) : F × Nat :=
  if le (lsLknorm2F p fun j => lam (t.2 + j)) 0.0 then t
  else (lsSocF p (fun j => lam (t.2 + j)) (fun j => ds (t.2 + j)) (fun j => dz (t.2 + j)) t.1, t.2 + p)

theorem lsSoc_eq {soc : SoCone F} {lamb dsb dzb : Buf F} {lam ds dz : Nat → F} {p n : Nat} {t : F × Nat}
    (hq : soc.p = p) (hp : 0 < p) (hn : t.2 + p ≤ n)
    (h1 : Has lamb 0 n lam) (h2 : Has dsb 0 n ds) (h3 : Has dzb 0 n dz) :
    lsSoc soc lamb dsb dzb t = .ok (lsStepF p lam ds dz t) := by
  have k1 : Has lamb t.2 p fun j => lam (t.2 + j) := by simpa using h1.sub (o' := t.2) (k' := p) hn
  have k2 : Has dsb t.2 p fun j => ds (t.2 + j) := by simpa using h2.sub (o' := t.2) (k' := p) hn
  have k3 : Has dzb t.2 p fun j => dz (t.2 + j) := by simpa using h3.sub (o' := t.2) (k' := p) hn
  unfold lsSoc lsStepF
  rw [hq, lsLknorm2_eq hp k1, ok_bind_eq]
  split
  · rfl
  · have hf := fill_ok (b := (malloc p : Buf F)) (off := 0) (k := p)
      (val := fun j => do let l ← rd lamb (t.2 + j); pure (l / PFloat.sqrt (lsLknorm2F p fun j => lam (t.2 + j))))
      (g := lsBarF p fun j => lam (t.2 + j)) (by simp) (fun j hj => by rw [k1.rd hj]; rfl)
    obtain ⟨lb, e, hs⟩ := (Ok.def _ _).1 hf
    simp only []
    rw [e, ok_bind_eq, lsNorm_eq hp hs.inside k2, ok_bind_eq, lsNorm_eq hp hs.inside k3, ok_bind_eq]
    rfl

/-- the step before saturation and the final `cone_start` -/
def lsIterF (S : Shape) (lam ds dz : Nat → F) (alpha : F) (n : Nat) : F × Nat :=
  itr n (alpha, S.l) fun k t => lsStepF (S.q k) lam ds dz t

/-- the step allowed by the linear rows, `tau` and `kap` -/
def lsFirstF (S : Shape) (lam ds dz : Nat → F) (tau dtau kap dkap : F) : F :=
  lsTauKap (lsTauKap (lsLpF S.l lam ds dz) ((-tau) / dtau)) ((-kap) / dkap)

/-- value of `lineSearch` -/
def lineF (S : Shape) (lam ds dz : Nat → F) (tau dtau kap dkap : F) : F :=
  saturate (lsIterF S lam ds dz (lsFirstF S lam ds dz tau dtau kap dkap) S.ns).1

theorem lineSearch_eq {C : Cone F} {S : Shape} (hC : ConeIs C S) {lamb dsb dzb : Buf F} {lam ds dz : Nat → F}
    (h1 : Has lamb 0 S.fexv lam) (h2 : Has dsb 0 S.fexv ds) (h3 : Has dzb 0 S.fexv dz) (tau dtau kap dkap : F) :
    lineSearch C lamb dsb dzb tau dtau kap dkap = .ok (lineF S lam ds dz tau dtau kap dkap) := by
  unfold lineSearch
  rw [lsLp_eq hC h1 h2 h3, ok_bind_eq]
  simp only []
  have hloop : Ok (loop 0 C.nsoc (lsFirstF S lam ds dz tau dtau kap dkap, C.lpc.p) fun i t => do
      let soc ← getIdx C.soc i
      lsSoc soc lamb dsb dzb t) fun t => t = lsIterF S lam ds dz (lsFirstF S lam ds dz tau dtau kap dkap) S.ns := by
    rw [hC.nsoc, hC.l]
    refine (loop_ok (fun k t => t = lsIterF S lam ds dz (lsFirstF S lam ds dz tau dtau kap dkap) k ∧
      t.2 ≤ S.start k) (by omega) ⟨rfl, by simp⟩ ?_ (fun t h => h.1))
    rintro k t _ hk ⟨h4, h5⟩
    obtain ⟨soc, hs, hq⟩ := hC.soc k hk
    have := S.start_le hk
    rw [getIdx_some hs, ok_bind_eq, lsSoc_eq hq (hC.pos k hk) (by omega) h1 h2 h3, Ok_ok]
    refine ⟨by rw [h4]; rfl, ?_⟩
    rw [S.start_succ]
    unfold lsStepF
    split
    · omega
    · simp only; omega
  obtain ⟨t, e, rfl⟩ := (Ok.def _ _).1 hloop
  unfold lsFirstF at e
  rw [e, ok_bind_eq]
  rfl

end generic

/-! ### Over the reals -/

/-- `t` in `[0, c]` is allowed by a bound `a` exactly if `P t`, and `t < a` gives the strict form -/
structure Bounds (c : ℝ) (P Q : ℝ → Prop) (a : ℝ) : Prop where
  pos : 0 < a
  iff : ∀ t, 0 ≤ t → t ≤ c → (t ≤ a ↔ P t)
  strict : ∀ t, 0 ≤ t → t < a → Q t

theorem lsMin_real (l : Nat) (lam ds dz : Nat → ℝ) (hl : 0 < l) :
    ((∀ i, i < l → (lsMinF l lam ds dz).1 ≤ ds i / lam i) ∧ ∃ i, i < l ∧ (lsMinF l lam ds dz).1 = ds i / lam i) ∧
    ((∀ i, i < l → (lsMinF l lam ds dz).2 ≤ dz i / lam i) ∧ ∃ i, i < l ∧ (lsMinF l lam ds dz).2 = dz i / lam i) := by
  have hmin : ∀ m x : ℝ, fminTo m x = min m x := by
    intro m x
    unfold fminTo
    by_cases h : x < m
    · simp [h, min_eq_right h.le]
    · simp [h, min_eq_left (not_lt.1 h)]
  have : ∀ n, let t : ℝ × ℝ := itr n (ds 0 / lam 0, dz 0 / lam 0) fun i t =>
      (fminTo t.1 (ds (i + 1) / lam (i + 1)), fminTo t.2 (dz (i + 1) / lam (i + 1)))
      ((∀ i, i < n + 1 → t.1 ≤ ds i / lam i) ∧ ∃ i, i < n + 1 ∧ t.1 = ds i / lam i) ∧
      ((∀ i, i < n + 1 → t.2 ≤ dz i / lam i) ∧ ∃ i, i < n + 1 ∧ t.2 = dz i / lam i) := by
    intro n
    refine itr_inv (fun n (t : ℝ × ℝ) => ((∀ i, i < n + 1 → t.1 ≤ ds i / lam i) ∧ ∃ i, i < n + 1 ∧ t.1 = ds i / lam i) ∧
      ((∀ i, i < n + 1 → t.2 ≤ dz i / lam i) ∧ ∃ i, i < n + 1 ∧ t.2 = dz i / lam i)) ?_ ?_
    · refine ⟨⟨fun i hi => ?_, 0, by omega, rfl⟩, fun i hi => ?_, 0, by omega, rfl⟩
      · rw [show i = 0 by omega]
      · rw [show i = 0 by omega]
    · rintro k t _ ⟨⟨h1, i1, hi1, e1⟩, h2, i2, hi2, e2⟩
      simp only [hmin]
      refine ⟨⟨fun i hi => ?_, ?_⟩, fun i hi => ?_, ?_⟩
      · by_cases hik : i = k + 1
        · subst hik; exact min_le_right _ _
        · exact (min_le_left _ _).trans (h1 i (by omega))
      · rcases min_choice t.1 (ds (k + 1) / lam (k + 1)) with h | h
        · exact ⟨i1, by omega, by rw [h, e1]⟩
        · exact ⟨k + 1, by omega, h⟩
      · by_cases hik : i = k + 1
        · subst hik; exact min_le_right _ _
        · exact (min_le_left _ _).trans (h2 i (by omega))
      · rcases min_choice t.2 (dz (k + 1) / lam (k + 1)) with h | h
        · exact ⟨i2, by omega, by rw [h, e2]⟩
        · exact ⟨k + 1, by omega, h⟩
  have h := this (l - 1)
  rw [show l - 1 + 1 = l by omega] at h
  exact h

/-- the step allowed by the linear rows -/
theorem lsLpF_real (l : Nat) (lam ds dz : Nat → ℝ) (hlam : ∀ i, i < l → 0 < lam i) :
    Bounds 10 (fun t => ∀ i, i < l → 0 ≤ lam i + t * ds i ∧ 0 ≤ lam i + t * dz i)
      (fun t => ∀ i, i < l → 0 < lam i + t * ds i ∧ 0 < lam i + t * dz i) (lsLpF l lam ds dz) := by
  unfold lsLpF
  by_cases hl : l > 0
  · rw [if_pos hl]
    obtain ⟨⟨h1, i1, hi1, e1⟩, h2, i2, hi2, e2⟩ := lsMin_real l lam ds dz hl
    obtain ⟨r, hr⟩ : ∃ r, r = (lsMinF l lam ds dz).1 := ⟨_, rfl⟩
    obtain ⟨s, hs⟩ : ∃ s, s = (lsMinF l lam ds dz).2 := ⟨_, rfl⟩
    rw [← hr] at h1 e1 ⊢
    rw [← hs] at h2 e2 ⊢
    have ha : (if lt (-r) (-s) then (if lt s 0 then (1.0 : ℝ) / (-s) else 1.0 / EPS)
        else (if lt r 0 then (1.0 : ℝ) / (-r) else 1.0 / EPS)) = if min r s < 0 then 1 / (-(min r s)) else 1 / EPS := by
      by_cases h : s < r
      · rw [min_eq_right h.le, if_pos (by simpa using h)]
        by_cases h0 : s < 0
        · simp [h0]; norm_num
        · simp [h0]; norm_num
      · rw [min_eq_left (not_lt.1 h), if_neg (by simpa using h)]
        by_cases h0 : r < 0
        · simp [h0]; norm_num
        · simp [h0]; norm_num
    rw [ha]
    obtain ⟨μ, hμ⟩ : ∃ μ, μ = min r s := ⟨_, rfl⟩
    rw [← hμ]
    have g1 : ∀ i, i < l → μ * lam i ≤ ds i := fun i hi => by
      rw [← le_div_iff₀ (hlam i hi)]
      exact (hμ ▸ min_le_left r s).trans (h1 i hi)
    have g2 : ∀ i, i < l → μ * lam i ≤ dz i := fun i hi => by
      rw [← le_div_iff₀ (hlam i hi)]
      exact (hμ ▸ min_le_right r s).trans (h2 i hi)
    have g3 : (∃ i, i < l ∧ μ * lam i = ds i) ∨ ∃ i, i < l ∧ μ * lam i = dz i := by
      rcases min_choice r s with h | h
      · left
        refine ⟨i1, hi1, ?_⟩
        rw [hμ, h, e1, div_mul_cancel₀ _ (hlam i1 hi1).ne']
      · right
        refine ⟨i2, hi2, ?_⟩
        rw [hμ, h, e2, div_mul_cancel₀ _ (hlam i2 hi2).ne']
    by_cases h0 : μ < 0
    · rw [if_pos h0]
      have hp : 0 < -μ := by linarith
      refine ⟨by positivity, fun t ht _ => ?_, fun t ht hta i hi => ?_⟩
      · rw [le_div_iff₀ hp]
        constructor
        · intro h i hi
          have := hlam i hi
          have a1 := mul_le_mul_of_nonneg_left (g1 i hi) ht
          have a2 := mul_le_mul_of_nonneg_left (g2 i hi) ht
          have : 0 ≤ (1 - t * (-μ)) * lam i := mul_nonneg (by linarith) this.le
          constructor <;> nlinarith
        · intro h
          by_contra hc
          rcases g3 with ⟨i, hi, e⟩ | ⟨i, hi, e⟩
          · have h3 := (h i hi).1
            rw [← e] at h3
            have : 0 < (t * (-μ) - 1) * lam i := mul_pos (by linarith) (hlam i hi)
            nlinarith
          · have h3 := (h i hi).2
            rw [← e] at h3
            have : 0 < (t * (-μ) - 1) * lam i := mul_pos (by linarith) (hlam i hi)
            nlinarith
      · rw [lt_div_iff₀ hp] at hta
        have := hlam i hi
        have a1 := mul_le_mul_of_nonneg_left (g1 i hi) ht
        have a2 := mul_le_mul_of_nonneg_left (g2 i hi) ht
        have : 0 < (1 - t * (-μ)) * lam i := mul_pos (by linarith) this
        constructor <;> nlinarith
    · rw [if_neg h0]
      have h0' := not_lt.1 h0
      have key : ∀ t, 0 ≤ t → ∀ i, i < l → 0 < lam i + t * ds i ∧ 0 < lam i + t * dz i := by
        intro t ht i hi
        have a0 := hlam i hi
        have b1 : 0 ≤ ds i := (mul_nonneg h0' a0.le).trans (g1 i hi)
        have b2 : 0 ≤ dz i := (mul_nonneg h0' a0.le).trans (g2 i hi)
        have := mul_nonneg ht b1
        have := mul_nonneg ht b2
        constructor <;> linarith
      have hE : (10 : ℝ) ≤ 1 / EPS := by unfold EPS; norm_num
      refine ⟨by linarith, fun t ht htc => ⟨fun _ i hi => ?_, fun _ => by linarith⟩, fun t ht _ => key t ht⟩
      have := key t ht i hi
      exact ⟨this.1.le, this.2.le⟩
  · rw [if_neg hl]
    refine ⟨by norm_num, fun t ht htc => ⟨fun _ i hi => by omega, fun _ => by norm_num; linarith⟩,
      fun t _ _ i hi => by omega⟩

/-- an upper bound from `tau` or `kap` -/
theorem lsTauKap_real {c a tau d : ℝ} {P Q : ℝ → Prop} (h : Bounds c P Q a) (ht : 0 < tau) :
    Bounds c (fun t => P t ∧ 0 ≤ tau + t * d) (fun t => Q t ∧ 0 < tau + t * d) (lsTauKap a ((-tau) / d)) := by
  have ha := h.pos
  unfold lsTauKap
  simp only [Bool.and_eq_true, real_lt]
  rcases lt_or_ge d 0 with hd | hd
  · have hx : 0 < (-tau) / d := div_pos_of_neg_of_neg (by linarith) hd
    have hx' : ∀ t, t ≤ (-tau) / d ↔ 0 ≤ tau + t * d := fun t => by
      rw [le_div_iff_of_neg hd]; constructor <;> intro h <;> linarith
    have hx'' : ∀ t, t < (-tau) / d ↔ 0 < tau + t * d := fun t => by
      rw [lt_div_iff_of_neg hd]; constructor <;> intro h <;> linarith
    by_cases hlt : (-tau) / d < a
    · rw [if_pos ⟨hx, hlt⟩]
      refine ⟨hx, fun t h0 hc => ?_, fun t h0 hl => ⟨h.strict t h0 (by linarith), (hx'' t).1 hl⟩⟩
      rw [hx' t]
      exact ⟨fun hh => ⟨(h.iff t h0 hc).1 (by have := (hx' t).2 hh; linarith), hh⟩, fun hh => hh.2⟩
    · rw [if_neg (fun hh => hlt hh.2)]
      have hlt' := not_lt.1 hlt
      refine ⟨ha, fun t h0 hc => ?_, fun t h0 hl => ⟨h.strict t h0 hl, (hx'' t).1 (by linarith)⟩⟩
      rw [h.iff t h0 hc]
      refine ⟨fun hh => ⟨hh, (hx' t).1 ?_⟩, fun hh => hh.1⟩
      have := (h.iff t h0 hc).2 hh
      linarith
  · have hx : ¬ 0 < (-tau) / d := by
      rw [not_lt]
      exact div_nonpos_of_nonpos_of_nonneg (by linarith) hd
    rw [if_neg (fun hh => hx hh.1)]
    have key : ∀ t, 0 ≤ t → 0 < tau + t * d := fun t h0 => by
      have := mul_nonneg h0 hd
      linarith
    exact ⟨ha, fun t h0 hc => by rw [h.iff t h0 hc]; exact ⟨fun hh => ⟨hh, (key t h0).le⟩, fun hh => hh.1⟩,
      fun t h0 hl => ⟨h.strict t h0 hl, key t h0⟩⟩

theorem inSoc_iff {p : Nat} {u : Nat → ℝ} : InSoc p u ↔ 0 ≤ u 0 ∧ tailSq p u ≤ u 0 * u 0 := by
  unfold InSoc
  constructor
  · intro h
    have h0 : 0 ≤ u 0 := (Real.sqrt_nonneg _).trans h
    refine ⟨h0, ?_⟩
    have := (Real.sqrt_le_left h0).1 h
    rwa [pow_two] at this
  · rintro ⟨h0, h⟩
    exact Real.sqrt_le_iff.2 ⟨h0, by rwa [pow_two]⟩

/-- scaling maps the cone to itself -/
theorem NT.scale_mem {p : Nat} {V : SocV ℝ} (h : NT p V) {x : Nat → ℝ} (hx : InSoc p x) :
    InSoc p (scaleF p V x) := by
  have ha := h.a
  have he := h.etaPos
  rw [inSoc_iff] at hx ⊢
  obtain ⟨hx0, hx1⟩ := hx
  constructor
  · rw [h.scale_eq, if_pos rfl]
    refine mul_nonneg he.le ?_
    have h1 := tdot_cs p V.Q x
    rw [← tdot_self, h.w'] at h1
    have h2 : tdot p V.Q x ^ 2 ≤ (V.a * x 0) ^ 2 := by
      refine h1.trans ?_
      have h3 : (V.a * V.a - 1) * tailSq p x ≤ (V.a * V.a - 1) * (x 0 * x 0) :=
        mul_le_mul_of_nonneg_left hx1 (by nlinarith)
      nlinarith [mul_self_nonneg (x 0)]
    have := abs_le_of_sq_le_sq h2 (mul_nonneg (by linarith) hx0)
    have := (abs_le.1 this).1
    linarith
  · have h1 := h.scale_det x
    have : 0 ≤ V.eta * V.eta * (x 0 * x 0 - tailSq p x) := mul_nonneg (mul_self_nonneg _) (by linarith)
    linarith

/-- every hyperbolic unit vector is the point of a scaling -/
theorem NT.ofPoint {p : Nat} {a eta : ℝ} {q : Nat → ℝ} (ha : 1 ≤ a) (he : 0 < eta)
    (hw : ∑ i ∈ range (p - 1), q i * q i = a * a - 1) :
    ∃ V : SocV ℝ, NT p V ∧ V.a = a ∧ V.eta = eta ∧ V.q = q := by
  obtain ⟨d1, u0, u1, v1, -, h1, h2, h3, h4, h5⟩ := socDerived_real ha
  exact ⟨{ a := a, d1 := d1, w := a * a - 1, eta := eta, etaSq := eta * eta, q := q, u0 := u0, u1 := u1, v1 := v1 }, ⟨ha, hw, he, rfl, h1, h2, h3, h4, h5⟩, rfl, rfl, rfl⟩

/-- the direction seen from the normalised point -/
noncomputable def rhoR (p : Nat) (u d : Nat → ℝ) : Nat → ℝ := fun j =>
  let N := Real.sqrt (u 0 * u 0 - tailSq p u)
  if j = 0 then (u 0 / N * d 0 - tdot p (fun i => u i / N) d) / N
  else (d j + (-(d 0) + tdot p (fun i => u i / N) d / (1 + u 0 / N)) * (u j / N)) / N

theorem lsLknorm2F_real (p : Nat) (u : Nat → ℝ) : lsLknorm2F p u = u 0 * u 0 - tailSq p u := by
  unfold lsLknorm2F tailSq
  rw [dotN_real]
  congr 1
  exact sum_congr rfl fun i _ => by rw [Nat.add_comm]

theorem lsNormF_real {p : Nat} {u d : Nat → ℝ} (h0 : 0 < u 0) (h : tailSq p u < u 0 * u 0) :
    lsNormF p (lsBarF p u) d (1.0 / PFloat.sqrt (lsLknorm2F p u)) =
      Real.sqrt (tailSq p (rhoR p u d)) - rhoR p u d 0 := by
  have hN : 0 < Real.sqrt (u 0 * u 0 - tailSq p u) := Real.sqrt_pos.2 (by linarith)
  unfold lsNormF lsBarF
  rw [lsLknorm2F_real, real_sqrt, real_sqrt]
  obtain ⟨N, hNe⟩ : ∃ N, N = Real.sqrt (u 0 * u 0 - tailSq p u) := ⟨_, rfl⟩
  rw [← hNe] at hN ⊢
  have e1 : (1.0 : ℝ) / N = 1 / N := by norm_num
  have hprod : lsProdF p (fun j => u j / N) d = u 0 / N * d 0 - tdot p (fun i => u i / N) d := by
    unfold lsProdF tdot
    rw [itr_sub]
  have hr0 : rhoR p u d 0 = (u 0 / N * d 0 - tdot p (fun i => u i / N) d) / N := by
    unfold rhoR; simp only [if_true, ← hNe]
  rw [e1, hprod, itr_sum, zero_add, hr0]
  congr 1
  · congr 1
    unfold tailSq
    refine sum_congr rfl fun i _ => ?_
    have : rhoR p u d (i + 1) = 1 / N * (d (i + 1) - (u 0 / N * d 0 - tdot p (fun i => u i / N) d + d 0) / (u 0 / N + 1) *
        (u (i + 1) / N)) := by
      unfold rhoR
      simp only [Nat.succ_ne_zero, if_false, ← hNe]
      have : u 0 / N + 1 ≠ 0 := by positivity
      have : 1 + u 0 / N ≠ 0 := by positivity
      obtain ⟨a, ha⟩ : ∃ a, a = u 0 / N := ⟨_, rfl⟩
      obtain ⟨ζ, hζ⟩ : ∃ ζ, ζ = tdot p (fun i => u i / N) d := ⟨_, rfl⟩
      rw [← ha] at this
      rw [← ha, ← hζ]
      have h2 : a + 1 ≠ 0 := by rwa [add_comm] at this
      field_simp
      ring
    rw [this]
  · ring

/-- moving from `u` along `d` stays in the cone exactly if moving from the identity along `rhoR` does -/
theorem rhoR_mem {p : Nat} {u d : Nat → ℝ} (h0 : 0 < u 0) (h : tailSq p u < u 0 * u 0) {t : ℝ} (ht : 0 ≤ t) :
    (InSoc p (fun j => u j + t * d j) ↔ t * (Real.sqrt (tailSq p (rhoR p u d)) - rhoR p u d 0) ≤ 1) ∧
    (t * (Real.sqrt (tailSq p (rhoR p u d)) - rhoR p u d 0) < 1 → IntSoc p (fun j => u j + t * d j)) := by
  obtain ⟨N, hNe⟩ : ∃ N, N = Real.sqrt (u 0 * u 0 - tailSq p u) := ⟨_, rfl⟩
  have hN : 0 < N := hNe ▸ Real.sqrt_pos.2 (by linarith)
  have hNN : N * N = u 0 * u 0 - tailSq p u := by rw [hNe, Real.mul_self_sqrt (by linarith)]
  have ha : 1 ≤ u 0 / N := by
    rw [le_div_iff₀ hN, one_mul]
    have := tailSq_nonneg p u
    nlinarith
  have hsum : ∀ e : ℝ, e * e = 1 → ∑ i ∈ range (p - 1), e * (u (i + 1) / N) * (e * (u (i + 1) / N)) =
      u 0 / N * (u 0 / N) - 1 := by
    intro e he
    have : ∑ i ∈ range (p - 1), e * (u (i + 1) / N) * (e * (u (i + 1) / N)) = tailSq p u / (N * N) := by
      unfold tailSq
      rw [sum_div]
      refine sum_congr rfl fun i _ => ?_
      rw [show e * (u (i + 1) / N) * (e * (u (i + 1) / N)) = (e * e) * (u (i + 1) / N * (u (i + 1) / N)) by ring, he,
        one_mul, div_mul_div_comm]
    rw [this, show tailSq p u = u 0 * u 0 - N * N by linarith]
    field_simp
  obtain ⟨V, hV, va, ve, vq⟩ := NT.ofPoint (p := p) (eta := N) (q := fun i => u (i + 1) / N) ha hN
    (by simpa using hsum 1 (by norm_num))
  obtain ⟨V', hV', va', ve', vq'⟩ := NT.ofPoint (p := p) (eta := 1 / N) (q := fun i => -(u (i + 1) / N)) ha
    (by positivity) (by simpa using hsum (-1) (by norm_num))
  -- the point `e + t rho`
  obtain ⟨E, hE⟩ : ∃ E : Nat → ℝ, E = fun j => (if j = 0 then 1 else 0) + t * rhoR p u d j := ⟨_, rfl⟩
  have hQ : ∀ j, 0 < j → V.Q j = u j / N := fun j hj => by
    unfold SocV.Q; rw [vq]; simp only; rw [show j - 1 + 1 = j by omega]
  have hQ' : ∀ j, 0 < j → V'.Q j = -(u j / N) := fun j hj => by
    unfold SocV.Q; rw [vq']; simp only; rw [show j - 1 + 1 = j by omega]
  have hζ : ∀ x, tdot p V.Q x = tdot p (fun i => u i / N) x := fun x =>
    tdot_congr (fun j h0 _ => hQ j h0) fun _ _ _ => rfl
  have hζ' : ∀ x, tdot p V'.Q x = -tdot p (fun i => u i / N) x := fun x => by
    rw [tdot_congr (x' := fun i => -(u i / N)) (fun j h0 _ => hQ' j h0) (fun _ _ _ => rfl)]
    unfold tdot
    rw [← sum_neg_distrib]
    exact sum_congr rfl fun _ _ => by ring
  have hself : tdot p (fun i => u i / N) (fun i => u i / N) = u 0 / N * (u 0 / N) - 1 := by
    rw [← hζ, tdot_comm, ← hζ, hV.w', va]
  obtain ⟨a, hae⟩ : ∃ a, a = u 0 / N := ⟨_, rfl⟩
  rw [← hae] at ha hself va va'
  have hu0 : u 0 = N * a := by rw [hae]; field_simp
  have huj : ∀ j, u j = N * (u j / N) := fun j => by field_simp
  have hUtd : tdot p (fun i => u i / N) u = N * (a * a - 1) := by
    rw [← hself]
    unfold tdot
    rw [mul_sum]
    exact sum_congr rfl fun i _ => by rw [huj (i + 1)]; field_simp
  have h1a : 1 + a ≠ 0 := by linarith
  -- both directions of the change of variables
  have back : ∀ j, scaleF p V' (fun j => u j + t * d j) j = E j := by
    intro j
    have e1 := hV'.scale_lin u d 1 t j
    have : (fun i => 1 * u i + t * d i) = fun j => u j + t * d j := by funext i; ring
    rw [this] at e1
    rw [e1, hV'.scale_eq, hV'.scale_eq, va', ve', hζ', hζ', hUtd, hE]
    unfold rhoR
    simp only [← hNe, ← hae]
    by_cases hj : j = 0
    · subst hj
      simp only [if_true]
      rw [hu0]
      field_simp
      ring
    · simp only [hj, if_false]
      rw [hQ' j (by omega), hu0]
      obtain ⟨v, hv⟩ : ∃ v, v = u j / N := ⟨_, rfl⟩
      rw [huj j, ← hv, show N * v / N = v by field_simp]
      field_simp
      ring
  have hEd : ∀ x : Nat → ℝ, tdot p x (rhoR p u d) =
      (tdot p x d + (-(d 0) + tdot p (fun i => u i / N) d / (1 + a)) * tdot p x (fun i => u i / N)) / N := by
    intro x
    have : tdot p x (rhoR p u d) = tdot p x (fun j => (1 / N) * d j +
        ((1 / N) * (-(d 0) + tdot p (fun i => u i / N) d / (1 + a))) * (u j / N)) := by
      refine tdot_congr (fun _ _ _ => rfl) fun j hj _ => ?_
      unfold rhoR
      simp only [← hNe, ← hae]
      rw [if_neg (by omega)]
      ring
    rw [this, tdot_lin]
    ring
  have fwd : ∀ j, scaleF p V E j = u j + t * d j := by
    intro j
    have e1 := hV.scale_lin (fun j => if j = 0 then 1 else 0) (rhoR p u d) 1 t j
    have : (fun i => 1 * (if i = 0 then (1 : ℝ) else 0) + t * rhoR p u d i) = E := by rw [hE]; funext i; ring
    rw [this] at e1
    have hz0 : tdot p (fun i => u i / N) (fun j => if j = 0 then (1 : ℝ) else 0) = 0 := by
      unfold tdot
      refine sum_eq_zero fun i _ => ?_
      simp
    rw [e1, hV.scale_eq, hV.scale_eq, va, ve, hζ, hζ, hz0, hEd, hself]
    have hr0 : rhoR p u d 0 = (a * d 0 - tdot p (fun i => u i / N) d) / N := by
      unfold rhoR; simp only [if_true, ← hNe, ← hae]
    by_cases hj : j = 0
    · subst hj
      simp only [if_true]
      rw [hr0, hu0]
      field_simp
      ring
    · simp only [hj, if_false, if_true]
      have hrj : rhoR p u d j = (d j + (-(d 0) + tdot p (fun i => u i / N) d / (1 + a)) * (u j / N)) / N := by
        unfold rhoR; simp only [hj, if_false, ← hNe, ← hae]
      rw [hQ j (by omega), hr0, hrj]
      obtain ⟨v, hv⟩ : ∃ v, v = u j / N := ⟨_, rfl⟩
      rw [huj j, ← hv, show N * v / N = v by field_simp]
      field_simp
      ring
  have cg : ∀ {x y : Nat → ℝ}, (∀ j, x j = y j) → x = y := fun h => funext h
  have htail : Real.sqrt (tailSq p E) = t * Real.sqrt (tailSq p (rhoR p u d)) := by
    have : tailSq p E = t * t * tailSq p (rhoR p u d) := by
      unfold tailSq
      rw [mul_sum, hE]
      refine sum_congr rfl fun i _ => ?_
      simp only [Nat.succ_ne_zero, if_false]
      ring
    rw [this, Real.sqrt_mul (mul_self_nonneg t), Real.sqrt_mul_self ht]
  have hE0 : E 0 = 1 + t * rhoR p u d 0 := by rw [hE]; simp
  have hEiff : InSoc p E ↔ t * (Real.sqrt (tailSq p (rhoR p u d)) - rhoR p u d 0) ≤ 1 := by
    unfold InSoc
    rw [htail, hE0]
    constructor <;> intro h <;> linarith
  refine ⟨?_, fun hlt => ?_⟩
  · rw [← hEiff]
    constructor
    · intro hm
      have := hV'.scale_mem hm
      rwa [cg back] at this
    · intro hm
      have := hV.scale_mem hm
      rwa [cg fwd] at this
  · have : IntSoc p E := by
      unfold IntSoc
      rw [htail, hE0]
      linarith
    have := hV.scale_int this
    rwa [cg fwd] at this

/-- the bound from one second-order cone -/
theorem lsSocF_real {p : Nat} {u ds dz : Nat → ℝ} (hu : IntSoc p u) {c a : ℝ} {P Q : ℝ → Prop} (h : Bounds c P Q a) :
    Bounds c (fun t => P t ∧ InSoc p (fun j => u j + t * ds j) ∧ InSoc p (fun j => u j + t * dz j))
      (fun t => Q t ∧ IntSoc p (fun j => u j + t * ds j) ∧ IntSoc p (fun j => u j + t * dz j))
      (lsSocF p u ds dz a) := by
  have ha := h.pos
  unfold lsSocF
  rw [lsNormF_real hu.pos hu.det, lsNormF_real hu.pos hu.det]
  have m1 := fun t ht => rhoR_mem (d := ds) hu.pos hu.det (t := t) ht
  have m2 := fun t ht => rhoR_mem (d := dz) hu.pos hu.det (t := t) ht
  obtain ⟨r, hr⟩ : ∃ r, r = Real.sqrt (tailSq p (rhoR p u ds)) - rhoR p u ds 0 := ⟨_, rfl⟩
  obtain ⟨s, hs⟩ : ∃ s, s = Real.sqrt (tailSq p (rhoR p u dz)) - rhoR p u dz 0 := ⟨_, rfl⟩
  rw [← hr] at m1 ⊢
  rw [← hs] at m2 ⊢
  have hc : conicStep r s = max (max 0 r) s := by
    unfold conicStep
    simp only [real_lt]
    by_cases h1 : 0 < r
    · rw [if_pos h1, max_eq_right h1.le]
      by_cases h2 : r < s
      · rw [if_pos h2, max_eq_right h2.le]
      · rw [if_neg h2, max_eq_left (not_lt.1 h2)]
    · rw [if_neg h1, max_eq_left (not_lt.1 h1)]
      by_cases h2 : 0 < s
      · rw [if_pos h2, max_eq_right h2.le]
      · rw [if_neg h2, max_eq_left (not_lt.1 h2)]
  rw [hc]
  obtain ⟨k, hk⟩ : ∃ k, k = max (max 0 r) s := ⟨_, rfl⟩
  rw [← hk]
  have k0 : 0 ≤ k := hk ▸ (le_max_left 0 r).trans (le_max_left _ _)
  have k1 : r ≤ k := hk ▸ (le_max_right 0 r).trans (le_max_left _ _)
  have k2 : s ≤ k := hk ▸ le_max_right _ _
  have k3 : k = 0 ∨ k = r ∨ k = s := by
    rcases max_choice (max 0 r) s with h | h
    · rcases max_choice 0 r with h' | h'
      · left; rw [hk, h, h']
      · right; left; rw [hk, h, h']
    · right; right; rw [hk, h]
  have iff1 : ∀ t, 0 ≤ t → (t * k ≤ 1 ↔ t * r ≤ 1 ∧ t * s ≤ 1) := by
    intro t ht
    constructor
    · intro h
      exact ⟨(mul_le_mul_of_nonneg_left k1 ht).trans h, (mul_le_mul_of_nonneg_left k2 ht).trans h⟩
    · rintro ⟨h1, h2⟩
      rcases k3 with h | h | h <;> rw [h]
      · simp
      · exact h1
      · exact h2
  unfold lsUpd
  by_cases hk0 : k = 0
  · have : (!eqb k (0 : ℝ)) = false := by simp [hk0]
    rw [this, if_neg (by simp)]
    refine ⟨ha, fun t ht htc => ?_, fun t ht hta => ?_⟩
    · rw [h.iff t ht htc, (m1 t ht).1, (m2 t ht).1]
      have := (iff1 t ht).1 (by rw [hk0]; simp)
      exact ⟨fun hh => ⟨hh, this⟩, fun hh => hh.1⟩
    · refine ⟨h.strict t ht hta, (m1 t ht).2 ?_, (m2 t ht).2 ?_⟩
      · have := mul_le_mul_of_nonneg_left k1 ht
        rw [hk0] at this
        linarith
      · have := mul_le_mul_of_nonneg_left k2 ht
        rw [hk0] at this
        linarith
  · have hkp : 0 < k := lt_of_le_of_ne k0 (Ne.symm hk0)
    have : (!eqb k (0 : ℝ)) = true := by simp [hk0]
    rw [this, if_pos rfl]
    have e1 : (1.0 : ℝ) / k = 1 / k := by norm_num
    rw [e1]
    have hmin : (if lt (1 / k) a then 1 / k else a) = min a (1 / k) := by
      by_cases hh : 1 / k < a
      · rw [if_pos (by simpa using hh), min_eq_right hh.le]
      · rw [if_neg (by simpa using hh), min_eq_left (not_lt.1 hh)]
    rw [hmin]
    refine ⟨lt_min ha (by positivity), fun t ht htc => ?_, fun t ht hta => ?_⟩
    · rw [le_min_iff, h.iff t ht htc, le_div_iff₀ hkp, iff1 t ht, (m1 t ht).1, (m2 t ht).1]
    · rw [lt_min_iff, lt_div_iff₀ hkp] at hta
      refine ⟨h.strict t ht hta.1, (m1 t ht).2 ?_, (m2 t ht).2 ?_⟩
      · exact (mul_le_mul_of_nonneg_left k1 ht).trans_lt hta.2
      · exact (mul_le_mul_of_nonneg_left k2 ht).trans_lt hta.2

end Ecos
