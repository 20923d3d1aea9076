import Verif.Lemmas.Exp1

/-!
# `unitInitialization`
-/
namespace Ecos

set_option linter.unusedSectionVars false

section generic
variable {F : Type} [Zero F] [One F] [Add F] [Sub F] [Mul F] [Div F] [Neg F] [OfScientific F]
  [IntCast F] [PFloat F]

/-- the central ray of one exponential cone -/
def rayF (t : F) : Nat → F := fun j => if j = 0 then t * RAY0 else if j = 1 then t * RAY1 else t * RAY2

/-- the scaled unit vector of a second-order cone -/
def unitF (t : F) : Nat → F := fun j => if j = 0 then t else 0

theorem unitInit1_ok {C : Cone F} {S : Shape} (hC : ConeIs C S) {s : Buf F} (hs : S.m ≤ s.size) (t : F) :
    Ok (unitInit1 C s t) fun s' => s'.size = s.size ∧ (∀ j, S.m ≤ j → s'[j]? = s[j]?) ∧
      Has s' 0 S.l (fun _ => t) ∧
      (∀ k, k < S.ns → Has s' (S.start k) (S.q k) (unitF t)) ∧
      ∀ l, l < S.ne → Has s' (S.fexv + 3 * l) 3 (rayF t) := by
  have hl : S.l ≤ S.fexv := S.l_le _
  have hm : S.m = S.fexv + 3 * S.ne := rfl
  unfold unitInit1
  refine Ok.bind (fill_ok (g := fun _ => t) (by rw [hC.l]; omega) (fun _ _ => rfl)) fun s1 h1 => ?_
  rw [hC.l] at h1
  refine Ok.bind (forSoc_blocks hC (g := fun k => unitF t) ?_) ?_
  · intro k soc b1 hk _ hq hb1 _
    have hle := S.start_le hk
    have hpos := hC.pos k hk
    refine Ok.bind (wr_seg (by rw [hb1, h1.size]; omega)) fun b2 h2 => ?_
    refine (fill_ok (g := fun j => 0) (by rw [h2.size, hb1, h1.size, hq]; omega) (fun _ _ => rfl)).mono
      fun b3 h3 => ?_
    have := h2.append h3
    rw [hq, show 1 + (S.q k - 1) = S.q k by omega] at this
    refine this.congr fun j hj => ?_
    unfold unitF
    by_cases hj0 : j = 0
    · subst hj0; simp
    · rw [if_neg (by omega), if_neg hj0]
  · rintro ⟨s2, o⟩ ⟨h2, ho⟩
    simp only at h2 ho ⊢
    subst ho
    rw [hC.nexc]
    refine loop_ok (fun l s' => s'.size = s2.size ∧
      (∀ j, j < S.fexv ∨ S.fexv + 3 * l ≤ j → s'[j]? = s2[j]?) ∧
      ∀ i, i < l → Has s' (S.fexv + 3 * i) 3 (rayF t)) (by omega)
      ⟨rfl, fun _ _ => rfl, fun i hi => by omega⟩ ?_ ?_
    · rintro l s3 - hl3 ⟨hz, ho, hi⟩
      have hsz : s3.size = s.size := by rw [hz, h2.size, h1.size]
      refine Ok.bind (wr_seg (by omega)) fun b1 w1 => ?_
      refine Ok.bind (wr_seg (by rw [w1.size]; omega)) fun b2 w2 => ?_
      refine (wr_seg (by rw [w2.size, w1.size]; omega)).mono fun b3 w3 => ?_
      have w := (w1.append w2).append w3
      refine ⟨by rw [w.size, hz], fun j hj => ?_, fun i hil => ?_⟩
      · rw [w.outside j (by omega), ho j (by omega)]
      · by_cases hile : i = l
        · subst hile
          refine w.inside.congr fun j hj => ?_
          have : j = 0 ∨ j = 1 ∨ j = 2 := by omega
          rcases this with rfl | rfl | rfl <;> simp [rayF]
        · exact w.has (hi i (by omega)) (by omega)
    · rintro s3 ⟨hz, ho, hi⟩
      refine ⟨by rw [hz, h2.size, h1.size], fun j hj => ?_, fun j hj => ?_, fun k hk j hj => ?_, hi⟩
      · rw [ho j (by omega), h2.outside j (by omega), h1.outside j (by omega)]
      · rw [ho _ (by omega), h2.outside _ (by omega)]
        exact h1.inside j hj
      · have := S.start_le hk
        rw [ho _ (by omega)]
        exact h2.inside k hk j hj

end generic

theorem ray_int {t : ℝ} (ht : 0 < t) : IntExp (t * RAY0) (t * RAY1) (t * RAY2) := by
  have h2 : 0 < t * (RAY2 : ℝ) := mul_pos ht (by unfold RAY2; norm_num)
  refine ⟨h2, ?_⟩
  have h0 : t * (RAY0 : ℝ) < 0 := mul_neg_of_pos_of_neg ht (by unfold RAY0; norm_num)
  have h1 : Real.exp (t * RAY0 / (t * RAY2)) < 1 := by
    rw [Real.exp_lt_one_iff]
    exact div_neg_of_neg_of_pos h0 h2
  calc t * (RAY2 : ℝ) * Real.exp (t * RAY0 / (t * RAY2)) < t * RAY2 * 1 := mul_lt_mul_of_pos_left h1 h2
    _ = t * RAY2 := mul_one _
    _ < t * RAY1 := mul_lt_mul_of_pos_left (by unfold RAY2 RAY1; norm_num) ht

theorem ray_dual {t : ℝ} (ht : 0 < t) : IntExpDual (t * RAY0) (t * RAY1) (t * RAY2) := by
  have h0 : t * (RAY0 : ℝ) < 0 := mul_neg_of_pos_of_neg ht (by unfold RAY0; norm_num)
  have h1 : 0 < t * (RAY1 : ℝ) := mul_pos ht (by unfold RAY1; norm_num)
  have h2 : 0 < t * (RAY2 : ℝ) := mul_pos ht (by unfold RAY2; norm_num)
  refine intDual_of_psi h0 h1 ?_
  unfold dpsi
  have e : -(t * (RAY1 : ℝ)) / (t * RAY0) = -RAY1 / RAY0 := by
    have : (RAY0 : ℝ) ≠ 0 := by unfold RAY0; norm_num
    field_simp
  have hl : 0 < Real.log (-(t * (RAY1 : ℝ)) / (t * RAY0)) := by
    rw [e]
    refine Real.log_pos ?_
    unfold RAY1 RAY0
    norm_num
  have := mul_neg_of_neg_of_pos h0 hl
  linarith

end Ecos
