import Verif.Lemmas.Cone1

/-!
# Values computed by `conicProduct`, `conicDivision`
-/
namespace Ecos

open Finset

set_option linter.unusedSectionVars false

section generic
variable {F : Type} [Zero F] [One F] [Add F] [Sub F] [Mul F] [Div F] [Neg F] [OfScientific F]
  [IntCast F] [PFloat F]

/-- value of `eddot` -/
def dotN (n : Nat) (f g : Nat → F) : F := itr n 0 fun i z => z + f i * g i

theorem eddotOff_eq {x y : Buf F} {kx ky n : Nat} {f g : Nat → F} (hx : Has x kx n f) (hy : Has y ky n g) :
    eddotOff n x kx y ky = .ok (dotN n f g) := by
  unfold eddotOff
  refine loop_itr (n := n) (by omega) fun i s hi => ?_
  rw [Nat.zero_add, hx.rd hi, ok_bind_eq, hy.rd hi]
  rfl

/-- value of `conicProduct` on a second-order cone -/
def socProdF (p : Nat) (u v : Nat → F) : Nat → F :=
  fun j => if j = 0 then dotN p u v else u 0 * v j + v 0 * u j

theorem seg_cons {α : Type} {b b1 b2 : Buf α} {off p : Nat} {v : α} {g G : Nat → α} (hp : 0 < p)
    (h1 : Seg b b1 off 1 fun _ => v) (h2 : Seg b1 b2 (off + 1) (p - 1) g) (hv : v = G 0)
    (hg : ∀ j, j < p - 1 → g j = G (j + 1)) : Seg b b2 off p G := by
  have := h1.append h2
  rw [show 1 + (p - 1) = p by omega] at this
  refine this.congr fun j hj => ?_
  by_cases hj0 : j = 0
  · subst hj0; simp [hv]
  · rw [if_neg (by omega), hg _ (by omega), show j - 1 + 1 = j by omega]

theorem conicProductSoc_ok {soc : SoCone F} {ub vb wb : Buf F} {k p : Nat} {u v : Nat → F} {acc : F}
    (hp : soc.p = p) (hpos : 0 < p) (hu : Has ub k p u) (hv : Has vb k p v) (hs : k + p ≤ wb.size) :
    Ok (conicProductSoc soc ub vb k (wb, acc)) fun t =>
      Seg wb t.1 k p (socProdF p u v) ∧ t.2 = acc + cabs (dotN p u v) := by
  unfold conicProductSoc
  rw [hu.rd0 hpos, ok_bind_eq, hv.rd0 hpos, ok_bind_eq, hp, eddotOff_eq hu hv, ok_bind_eq]
  refine Ok.bind (wr_seg (by simp only; omega)) fun b1 h1 => ?_
  refine Ok.bind (fill_ok (g := fun j => u 0 * v (j + 1) + v 0 * u (j + 1))
    (by rw [h1.size]; simp only; omega) ?_) fun b2 h2 => ?_
  · intro j hj
    rw [show k + 1 + j = k + (j + 1) by omega, hv.rd (by omega), ok_bind_eq, hu.rd (by omega), ok_bind_eq]
    rfl
  · rw [Ok_pure]
    exact ⟨seg_cons hpos h1 h2 rfl fun j hj => rfl, rfl⟩

/-- value of `conicProduct` -/
theorem conicProduct_ok {C : Cone F} {S : Shape} (hC : ConeIs C S) {ub vb wb : Buf F} {u v : Nat → F}
    (hu : Has ub 0 S.fexv u) (hv : Has vb 0 S.fexv v) (hs : S.fexv ≤ wb.size) :
    Ok (conicProduct ub vb C wb) fun t => t.1.size = wb.size ∧ (∀ j, S.fexv ≤ j → t.1[j]? = wb[j]?) ∧
      Has t.1 0 S.l (fun i => u i * v i) ∧
      (∀ k, k < S.ns → Has t.1 (S.start k) (S.q k) (socProdF (S.q k) (S.block u k) (S.block v k))) ∧
      t.2 = itr S.ns (itr S.l 0 fun i a => a + cabs (u i * v i)) fun k a =>
        a + cabs (dotN (S.q k) (S.block u k) (S.block v k)) := by
  have hl : S.l ≤ S.fexv := S.l_le _
  unfold conicProduct
  refine Ok.bind (P := fun t => Seg wb t.1 0 S.l (fun i => u i * v i) ∧
    t.2 = itr S.l 0 fun i a => a + cabs (u i * v i)) ?_ ?_
  · refine loop_ok (fun n t => Seg wb t.1 0 n (fun i => u i * v i) ∧
      t.2 = itr n 0 fun i a => a + cabs (u i * v i)) (by omega) ⟨Seg.refl0 _ _ _, rfl⟩ ?_ ?_
    · rintro i ⟨b, a⟩ _ hi ⟨h1, h2⟩
      rw [hC.l] at hi
      simp only at h1 h2
      have e1 := hu.rd (j := i) (by omega)
      have e2 := hv.rd (j := i) (by omega)
      rw [Nat.zero_add] at e1 e2
      rw [e1, ok_bind_eq, e2, ok_bind_eq]
      refine Ok.bind (wr_seg (by simp only; rw [h1.size]; omega)) fun b2 h3 => ?_
      rw [Ok_pure]
      refine ⟨?_, by rw [itr_succ, ← h2]⟩
      have h3' : Seg b b2 (0 + i) 1 fun _ => u i * v i := by rw [Nat.zero_add]; exact h3
      refine (h1.append h3').congr fun j hj => ?_
      split
      · rfl
      · rw [show j = i by omega]
    · rw [hC.l]; exact fun _ h => h
  · rintro ⟨b1, a1⟩ ⟨h1, h2⟩
    simp only at h1 h2
    refine Ok.bind (forSoc_ok0 hC (fun k t => t.1.size = wb.size ∧
      (∀ i, i < k → Has t.1 (S.start i) (S.q i) (socProdF (S.q i) (S.block u i) (S.block v i))) ∧
      (∀ j, j < S.l ∨ S.start k ≤ j → t.1[j]? = b1[j]?) ∧
      t.2 = itr k a1 fun k a => a + cabs (dotN (S.q k) (S.block u k) (S.block v k)))
      ⟨h1.size, fun i hi => by omega, fun _ _ => rfl, rfl⟩ ?_) ?_
    · rintro k soc ⟨b, a⟩ hk _ hq ⟨h3, h4, h5, h6⟩
      simp only at h3 h4 h5 h6
      have hle := S.start_le hk
      refine (conicProductSoc_ok hq (hC.pos k hk) (hu.block hk) (hv.block hk) (by omega)).mono ?_
      rintro t ⟨h7, h8⟩
      refine ⟨h7.size.trans h3, fun i hi => ?_, fun j hj => ?_, by rw [h8, itr_succ, ← h6]⟩
      · by_cases hik : i = k
        · subst hik; exact h7.inside
        · exact h7.has (h4 i (by omega)) (Or.inl (S.disj (by omega)))
      · have := S.l_le k
        rw [S.start_succ] at hj
        rw [h7.outside j (by omega)]
        exact h5 j (by omega)
    · rintro ⟨t, n⟩ ⟨⟨h3, h4, h5, h6⟩, -⟩
      simp only at h3 h4 h5 h6
      rw [Ok_pure]
      refine ⟨h3, fun j hj => ?_, fun j hj => ?_, h4, by rw [h6, h2]⟩
      · simp only; rw [h5 j (Or.inr hj), h1.outside j (by omega)]
      · simp only; rw [h5 (0 + j) (by omega)]; exact h1.inside j hj

/-- `rho` and `zeta` of `conicDivision` -/
def divRhoF (p : Nat) (u : Nat → F) : F := itr (p - 1) (u 0 * u 0) fun j r => r - u (j + 1) * u (j + 1)
def divZetaF (p : Nat) (u w : Nat → F) : F := itr (p - 1) 0 fun j z => z + u (j + 1) * w (j + 1)

/-- value of `conicDivision` on a second-order cone -/
def socDivF (p : Nat) (u w : Nat → F) : Nat → F := fun j =>
  if j = 0 then safedivPos (u 0 * w 0 - divZetaF p u w) (divRhoF p u)
  else safedivPos (safedivPos (divZetaF p u w) (u 0) - w 0) (divRhoF p u) * u j + safedivPos (w j) (u 0)

theorem conicDivisionSoc_ok {soc : SoCone F} {ub wb vb : Buf F} {k p : Nat} {u w : Nat → F}
    (hp : soc.p = p) (hpos : 0 < p) (hu : Has ub k p u) (hw : Has wb k p w) (hs : k + p ≤ vb.size) :
    Ok (conicDivisionSoc soc ub wb k vb) fun v => Seg vb v k p (socDivF p u w) := by
  unfold conicDivisionSoc
  rw [hu.rd0 hpos, ok_bind_eq, hw.rd0 hpos, ok_bind_eq, hp]
  rw [loop_itr (n := p - 1) (f := fun j t => (t.1 - u (j + 1) * u (j + 1), t.2 + u (j + 1) * w (j + 1))) (by omega),
    ok_bind_eq]
  · have e : itr (p - 1) (u 0 * u 0, (0 : F)) (fun j t => (t.1 - u (j + 1) * u (j + 1), t.2 + u (j + 1) * w (j + 1))) =
        (divRhoF p u, divZetaF p u w) := by
      refine itr_inv (fun n t => t = (itr n (u 0 * u 0) fun j r => r - u (j + 1) * u (j + 1),
        itr n 0 fun j z => z + u (j + 1) * w (j + 1))) rfl ?_
      rintro i _ _ rfl
      rfl
    rw [e]
    refine Ok.bind (wr_seg (by omega)) fun b1 h1 => ?_
    refine (fill_ok (g := fun j => safedivPos (safedivPos (divZetaF p u w) (u 0) - w 0) (divRhoF p u) * u (j + 1)
      + safedivPos (w (j + 1)) (u 0)) (by rw [h1.size]; omega) ?_).mono fun b2 h2 => ?_
    · intro j hj
      rw [show k + 1 + j = k + (j + 1) by omega, hu.rd (by omega), ok_bind_eq, hw.rd (by omega), ok_bind_eq]
      rfl
    · exact seg_cons hpos h1 h2 rfl fun j hj => rfl
  · rintro i ⟨a, b⟩ hi
    rw [show k + (1 + i) = k + (i + 1) by omega, hu.rd (by omega), ok_bind_eq, hw.rd (by omega)]
    rfl

theorem conicDivision_ok {C : Cone F} {S : Shape} (hC : ConeIs C S) {ub wb vb : Buf F} {u w : Nat → F}
    (hu : Has ub 0 S.fexv u) (hw : Has wb 0 S.fexv w) (hs : S.fexv ≤ vb.size) :
    Ok (conicDivision ub wb C vb) fun v => v.size = vb.size ∧ (∀ j, S.fexv ≤ j → v[j]? = vb[j]?) ∧
      Has v 0 S.l (fun i => safedivPos (w i) (u i)) ∧
      ∀ k, k < S.ns → Has v (S.start k) (S.q k) (socDivF (S.q k) (S.block u k) (S.block w k)) := by
  have hl : S.l ≤ S.fexv := S.l_le _
  unfold conicDivision
  refine Ok.bind (fill_ok (g := fun i => safedivPos (w i) (u i)) (by rw [hC.l]; omega) ?_) fun b1 h1 => ?_
  · intro i hi
    rw [hC.l] at hi
    have e1 := hu.rd (j := i) (by omega)
    have e2 := hw.rd (j := i) (by omega)
    rw [Nat.zero_add] at e1 e2
    rw [e2, ok_bind_eq, e1]
    rfl
  rw [hC.l] at h1
  refine Ok.bind (forSoc_blocks hC (g := fun k => socDivF (S.q k) (S.block u k) (S.block w k)) ?_) ?_
  · intro k soc b2 hk _ hq hb _
    have hle := S.start_le hk
    exact conicDivisionSoc_ok hq (hC.pos k hk) (hu.block hk) (hw.block hk) (by rw [hb, h1.size]; omega)
  · rintro ⟨t, n⟩ ⟨h2, -⟩
    rw [Ok_pure]
    refine ⟨h2.size.trans h1.size, fun j hj => ?_, fun j hj => ?_, h2.inside⟩
    · simp only; rw [h2.outside j (Or.inr hj), h1.outside j (by omega)]
    · simp only; rw [h2.outside (0 + j) (by omega)]; exact h1.inside j hj

end generic

/-! ### Over the reals -/

theorem dotN_real (n : Nat) (f g : Nat → ℝ) : dotN n f g = ∑ i ∈ range n, f i * g i := by
  unfold dotN; rw [itr_sum]; ring

theorem divRhoF_real (p : Nat) (u : Nat → ℝ) : divRhoF p u = u 0 * u 0 - tailSq p u := by
  unfold divRhoF tailSq; rw [itr_sub]

theorem divZetaF_real (p : Nat) (u w : Nat → ℝ) :
    divZetaF p u w = ∑ i ∈ range (p - 1), u (i + 1) * w (i + 1) := by
  unfold divZetaF; rw [itr_sum]; ring

theorem sum_split (p : Nat) (hp : 0 < p) (f : Nat → ℝ) :
    ∑ i ∈ range p, f i = f 0 + ∑ i ∈ range (p - 1), f (i + 1) := by
  obtain ⟨n, rfl⟩ : ∃ n, p = n + 1 := ⟨p - 1, by omega⟩
  rw [sum_range_succ']
  simp [add_comm]

/-- dividing the product by its first factor gives the second one -/
theorem socDiv_prod {p : Nat} (hp : 0 < p) {u w : Nat → ℝ} (h0 : EPS ≤ u 0) (h1 : EPS ≤ u 0 * u 0 - tailSq p u)
    (j : Nat) (hj : j < p) : socDivF p u (socProdF p u w) j = w j := by
  have e := real_EPS_pos
  have hu0 : u 0 ≠ 0 := by linarith
  have hr : u 0 * u 0 - tailSq p u ≠ 0 := by linarith
  have hz : divZetaF p u (socProdF p u w) =
      u 0 * (∑ i ∈ range (p - 1), u (i + 1) * w (i + 1)) + w 0 * tailSq p u := by
    rw [divZetaF_real]
    unfold tailSq
    rw [mul_sum, mul_sum, ← sum_add_distrib]
    refine sum_congr rfl fun i _ => ?_
    simp only [socProdF]
    rw [if_neg (by omega)]
    ring
  have hp0 : socProdF p u w 0 = u 0 * w 0 + ∑ i ∈ range (p - 1), u (i + 1) * w (i + 1) := by
    simp only [socProdF, if_true]
    rw [dotN_real, sum_split p hp]
  obtain ⟨ρ, hρ⟩ : ∃ ρ, ρ = u 0 * u 0 - tailSq p u := ⟨_, rfl⟩
  have ht : tailSq p u = u 0 * u 0 - ρ := by rw [hρ]; ring
  unfold socDivF
  rw [hz, hp0, divRhoF_real, ← hρ]
  rw [← hρ] at h1 hr
  by_cases hj0 : j = 0
  · subst hj0
    rw [if_pos rfl, real_safediv h1, ht]
    field_simp
    ring
  · rw [if_neg hj0, real_safediv h0, real_safediv h1, real_safediv h0, ht]
    simp only [socProdF]
    rw [if_neg hj0]
    field_simp
    ring

end Ecos
