import Verif.Lemmas.Dir8
import Verif.Props.Line
import Verif.Props.Steps

/-!
# The iterate stays strictly inside the linear and second-order cones
-/
namespace Ecos

open Finset

/-- only interior points are scaled to interior points -/
theorem NT.int_of_scale {p : Nat} {V : SocV ℝ} (h : NT p V) {x : Nat → ℝ} (hx : IntSoc p (scaleF p V x)) : IntSoc p x := by
  have ha := h.a
  have he := h.etaPos
  have hdet := h.scale_det x
  refine intSoc_of ?_ ?_
  · obtain ⟨V', hV', e1, e2, e3⟩ := NT.ofPoint (p := p) (a := V.a) (eta := 1 / V.eta) (q := fun i => -V.q i) ha (by positivity)
      (by rw [← h.w]; exact sum_congr rfl fun i _ => by ring)
    have h1 := hV'.scale_int hx
    have h2 : 0 < scaleF p V' (scaleF p V x) 0 := lt_of_le_of_lt (Real.sqrt_nonneg _) h1
    rw [hV'.scale_eq, if_pos rfl, e1, e2] at h2
    have hQ : tdot p V'.Q (scaleF p V x) = -tdot p V.Q (scaleF p V x) := by
      unfold tdot SocV.Q
      rw [← sum_neg_distrib]
      refine sum_congr rfl fun i _ => ?_
      rw [e3]
      simp
    rw [hQ, h.tdot_scale, h.w', h.scale_eq, if_pos rfl] at h2
    have h3 : (1 + V.a) ≠ 0 := by linarith
    have h4 : 1 / V.eta * (V.a * (V.eta * (V.a * x 0 + tdot p V.Q x)) + -(V.eta * (tdot p V.Q x + (x 0 + tdot p V.Q x / (1 + V.a)) * (V.a * V.a - 1)))) = x 0 := by
      field_simp
      ring
    rwa [h4] at h2
  · have h1 := hx.det
    have h2 : 0 < V.eta * V.eta := by positivity
    have h3 : 0 < V.eta * V.eta * (x 0 * x 0 - tailSq p x) := by rw [← hdet]; linarith
    have h4 := (mul_pos_iff_of_pos_left h2).1 h3
    linarith

namespace Dir

open Ecos.Fact Ecos.BB Ecos.Asm Ecos.Line

variable {S : Shape} {V : ConeV ℝ}

theorem intSoc_congr {p : Nat} (hp : 0 < p) {x y : Nat → ℝ} (h : ∀ j, j < p → x j = y j) (hx : IntSoc p x) : IntSoc p y := by
  unfold IntSoc at hx ⊢
  rw [← tailSq_congr h, ← h 0 hp]
  exact hx

theorem intSym_congr (hq : ∀ k, k < S.ns → 0 < S.q k) {x y : Nat → ℝ} (h : ∀ i, i < S.fexv → x i = y i) (hx : IntSym S x) : IntSym S y :=
  ⟨fun i hi => by rw [← h i (row_of_lp hi)]; exact hx.lp i hi, fun k hk => intSoc_congr (hq k hk) (fun j hj => h _ (row_of_soc hk hj)) (hx.soc k hk)⟩

/-- what the floors give for the scaling of `s`, `z` -/
theorem scal_nt (hq : ∀ k, k < S.ns → 0 < S.q k) {s z : Nat → ℝ} {mu : ℝ} (h : IsScaling S s z mu V) (hg : Scaling.Good S s z) :
    (∀ i, i < S.l → 0 < V.lw i) ∧ ∀ k, k < S.ns → NT (S.q k) (V.V k) := by
  constructor
  · intro i hi
    have f := hg.fl.lp i hi
    have b := h.lw i hi
    rw [real_safediv f.1] at b
    have := real_EPS_pos
    have h2 := f.2
    rw [b]
    show 0 < Real.sqrt _
    linarith
  · intro k hk
    obtain ⟨V', hV, h1, -, -⟩ := ntF_real (hq k hk) (hg.is.soc k hk) (hg.iz.soc k hk) (hg.fl.soc k hk)
    rw [h.soc k hk] at hV
    obtain rfl := Option.some.inj hV
    exact h1

theorem wF_int (hq : ∀ k, k < S.ns → 0 < S.q k) (hl : ∀ i, i < S.l → 0 < V.lw i) (hn : ∀ k, k < S.ns → NT (S.q k) (V.V k)) {x : Nat → ℝ} :
    IntSym S (wF S V x) ↔ IntSym S x := by
  constructor
  · intro h
    refine ⟨fun i hi => ?_, fun k hk => ?_⟩
    · have := h.lp i hi
      rw [wF_lp _ hi] at this
      exact (mul_pos_iff_of_pos_left (hl i hi)).1 this
    · exact (hn k hk).int_of_scale (intSoc_congr (hq k hk) (fun j hj => wF_block x hk hj) (h.soc k hk))
  · intro h
    refine ⟨fun i hi => ?_, fun k hk => ?_⟩
    · rw [wF_lp _ hi]
      exact mul_pos (hl i hi) (h.lp i hi)
    · exact intSoc_congr (hq k hk) (fun j hj => (wF_block x hk hj).symm) ((hn k hk).scale_int (h.soc k hk))

/-- a step along directions that are scaled with the iterate stays inside if the line search in scaled coordinates says so -/
theorem step_inside (hq : ∀ k, k < S.ns → 0 < S.q k) {s z : Nat → ℝ} {mu : ℝ} (h : IsScaling S s z mu V) (hg : Scaling.Good S s z)
    {dsW dz ds : Nat → ℝ} (hds : ∀ i, i < S.fexv → ds i = wF S V dsW i) {tau kap dtau dkap t : ℝ}
    (hs : StaysInside S (wF S V z) dsW (wF S V dz) tau dtau kap dkap t) :
    IntSym S (fun i => s i + t * ds i) ∧ IntSym S (fun i => z i + t * dz i) ∧ 0 < tau + t * dtau ∧ 0 < kap + t * dkap := by
  obtain ⟨hl, hn⟩ := scal_nt hq h hg
  have hsm := symMap (V := V) hq
  refine ⟨?_, ?_, hs.tau, hs.kap⟩
  · refine intSym_congr hq (fun i hi => ?_) ((wF_int hq hl hn).2 hs.s)
    rw [hsm.add_mul _ _ _ hi, wF_sq hq h hg hi, hds i hi]
  · refine (wF_int hq hl hn).1 (intSym_congr hq (fun i hi => ?_) hs.z)
    rw [hsm.add_mul _ _ _ hi]

section
variable [HasInf ℝ]

/-- the step length is at most `gamma` times what the line search found; without exponential cones it is exactly that -/
theorem Chosen.le {lam dsW dzW s z ds dz : Nat → ℝ} {kap tau dkap dtau st : ℝ} {w' : Work ℝ} {R : Corr ℝ}
    (h : Chosen S lam dsW dzW s z ds dz kap tau dkap dtau st w' R) (hs : SaneSteps w'.stgs)
    (h0 : 0 ≤ lineF S lam dsW dzW tau dtau kap dkap) :
    0 ≤ st ∧ st ≤ lineF S lam dsW dzW tau dtau kap dkap * w'.stgs.gamma ∧
      (S.ne = 0 → st = lineF S lam dsW dzW tau dtau kap dkap * w'.stgs.gamma) := by
  obtain ⟨i, hr⟩ := h.run
  have hge : 0 ≤ lineF S lam dsW dzW tau dtau kap dkap * w'.stgs.gamma := mul_nonneg h0 hs.g0
  unfold combinedStep at hr
  rw [h.line] at hr
  simp only [get, ok_bind_eq] at hr
  split at hr
  · next hn =>
    have hne : S.ne ≠ 0 := by rw [h.cone.nexc] at hn; omega
    simp only [bind_ok] at hr
    obtain ⟨⟨r1, r2⟩, e1, hr⟩ := hr
    obtain ⟨j, ho⟩ := C31_linesearch_partial e1
    cases r1 with
    | none => simp [pure_ok] at hr
    | some a =>
      simp only [pure_ok, Prod.mk.injEq] at hr
      obtain ⟨hr, -⟩ := hr
      split at hr
      · cases hr
      · injection hr with hr
        subst hr
        obtain ⟨-, ha, -⟩ := ho.accepted a rfl
        simp only [h.stgs] at ha
        have h2 := shrunk_range hge hs.b0 hs.b1 j
        rw [ha]
        refine ⟨mul_nonneg h2.1 hs.g0, ?_, fun h => absurd h hne⟩
        calc _ ≤ shrunk (lineF S lam dsW dzW tau dtau kap dkap * w'.stgs.gamma) w'.stgs.bkScale j * 1 := mul_le_mul_of_nonneg_left hs.g1 h2.1
          _ ≤ _ := by rw [mul_one]; exact h2.2
  · simp only [pure_ok, Prod.mk.injEq, Option.some.injEq] at hr
    rw [← hr.1]
    exact ⟨hge, le_refl _, fun _ => rfl⟩

/-- one pass from an interior point above the floors: the next iterate is interior if the step is longer than the smallest one -/
theorem Moved.inside {T : Pat} {N : Nat} {π : Nat → Nat} {c b h x y z s rx ry rz : Nat → ℝ} {kap tau rt mu sigma st : ℝ}
    {f1x f1y f1z a2x a2y a2z e2x e2y e2z u ds : Nat → ℝ} {dtau dkap dkaff dtaff : ℝ} {w' : Work ℝ}
    (hM : Moved T S N π V c b h x y z s rx ry rz kap tau rt mu sigma st f1x f1y f1z a2x a2y a2z e2x e2y e2z u ds dtau dkap dkaff dtaff w')
    (hq : ∀ k, k < S.ns → 0 < S.q k) (hg : Scaling.Good S s z) (ht : 0 < tau) (hk : 0 < kap) (hs : SaneSteps w'.stgs) (hg1 : w'.stgs.gamma < 1) :
    0 ≤ st ∧ (S.ne = 0 → STEPMIN * w'.stgs.gamma ≤ st) ∧ (STEPMIN * w'.stgs.gamma < st →
      IntSym S (fun i => s i + st * ds i) ∧ IntSym S (fun i => z i + st * (e2z i + dtau * f1z i)) ∧ 0 < tau + st * dtau ∧ 0 < kap + st * dkap) := by
  obtain ⟨hl, hn⟩ := scal_nt hq hM.scal hg
  have hlam : IntSym S (wF S V z) := (wF_int hq hl hn).2 hg.iz
  obtain ⟨R, hc⟩ := hM.ls
  obtain ⟨p1, p2, p3, -⟩ := lineF_spec (ds := fun i => -(u i + wF S V (fun i => e2z i + dtau * f1z i) i)) (dz := wF S V fun i => e2z i + dtau * f1z i)
    (dtau := dtau) (dkap := dkap) hlam ht hk
  have hm0 : (0 : ℝ) < STEPMIN := by unfold STEPMIN; norm_num
  obtain ⟨q1, q2, q3⟩ := hc.le hs (hm0.le.trans p1)
  refine ⟨q1, fun h0 => ?_, fun hlt => ?_⟩
  · rw [q3 h0]
    exact mul_le_mul_of_nonneg_right p1 hs.g0
  · have h1 := lt_of_mul_lt_mul_right (hlt.trans_le q2) hs.g0
    have h2 := (p3 (.inl h1)).2 st q1 (q2.trans_lt (by nlinarith))
    exact step_inside hq hM.scal hg (fun i hi => hM.dsW i hi) h2

end

end Dir
end Ecos
