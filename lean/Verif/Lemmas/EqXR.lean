import Verif.Lemmas.XR
import Verif.Props.Stats
import Verif.Props.Update

/-!
# Equilibration of finite data among infinities and NaN
-/
namespace Ecos.Asm

open XR Ecos.StatProps

/-- with finite data all maxima, factors and scaled values are finite -/
theorem eqXR : EqPred (fun o : XR => ∃ r, o = fin r) (fun a => ∃ r : ℝ, 0 ≤ r ∧ a = fin r) (fun a => ∃ r : ℝ, 0 < r ∧ a = fin r)
    (fun o r c v => ∃ o' r' c' : ℝ, o = fin o' ∧ r = fin r' ∧ c = fin c' ∧ v = fin (o' / (r' * c'))) := by
  refine ⟨⟨0, le_rfl, rfl⟩, ?_, ?_, ?_, ⟨1.0, by norm_num, rfl⟩, ?_, ?_, ?_⟩
  · rintro _ _ _ _ ⟨o, r, c, rfl, rfl, rfl, rfl⟩ _ ⟨b, hb, rfl⟩
    exact ⟨max |o / (r * c)| b, le_max_of_le_right hb, fmax_fin _ _⟩
  · rintro _ _ ⟨a, ha, rfl⟩ ⟨b, hb, rfl⟩
    exact ⟨a + b, add_nonneg ha hb, rfl⟩
  · rintro _ ⟨a, ha, rfl⟩
    unfold sqrtOrOne
    have hf : PFloat.fabs (fin a) = fin |a| := rfl
    rw [hf, fin_sci, lt_fin]
    split
    · exact ⟨1.0, by norm_num, rfl⟩
    · rename_i hlt
      have h1 : ¬ |a| < 1e-6 := by simpa using hlt
      rw [abs_of_nonneg ha] at h1
      have h0 : 0 < a := lt_of_lt_of_le (by norm_num) (not_lt.1 h1)
      exact ⟨Real.sqrt a, Real.sqrt_pos.2 h0, denXR.sqrt rfl ha⟩
  · rintro _ _ ⟨a, ha, rfl⟩ ⟨b, hb, rfl⟩
    exact ⟨a * b, mul_pos ha hb, rfl⟩
  · rintro _ ⟨o, rfl⟩
    exact ⟨o, 1.0, 1.0, rfl, rfl, rfl, by congr 1; norm_num⟩
  · rintro _ _ _ _ _ _ - - ⟨a, ha, rfl⟩ ⟨b, hb, rfl⟩ ⟨o, r, c, rfl, rfl, rfl, rfl⟩
    refine ⟨o, r * a, c * b, rfl, rfl, rfl, ?_⟩
    rw [fin_div ha.ne', fin_div hb.ne', fin_inj]
    rw [div_div, div_div]
    congr 1
    ring

end Ecos.Asm
