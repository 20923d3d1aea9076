import Verif.Lemmas.Line
import Verif.Props.Cones

/-!
# C21: the line search keeps the iterate in the cone and the step in range
-/
namespace Ecos
namespace Line

open Finset

/-- moving by `t` keeps both scaled vectors in the cone and `tau`, `kap` nonnegative -/
structure Stays (S : Shape) (lam ds dz : Nat → ℝ) (tau dtau kap dkap t : ℝ) : Prop where
  s : InSym S fun i => lam i + t * ds i
  z : InSym S fun i => lam i + t * dz i
  tau : 0 ≤ tau + t * dtau
  kap : 0 ≤ kap + t * dkap

/-- moving by `t` keeps both scaled vectors strictly inside the cone and `tau`, `kap` positive -/
structure StaysInside (S : Shape) (lam ds dz : Nat → ℝ) (tau dtau kap dkap t : ℝ) : Prop where
  s : IntSym S fun i => lam i + t * ds i
  z : IntSym S fun i => lam i + t * dz i
  tau : 0 < tau + t * dtau
  kap : 0 < kap + t * dkap

theorem lsIter_bounds {S : Shape} {lam ds dz : Nat → ℝ} (hlam : IntSym S lam) {c a : ℝ} {P Q : ℝ → Prop}
    (h : Bounds c P Q a) (n : Nat) (hn : n ≤ S.ns) :
    (lsIterF S lam ds dz a n).2 = S.start n ∧
    Bounds c (fun t => P t ∧ ∀ k, k < n → InSoc (S.q k) (S.block (fun i => lam i + t * ds i) k) ∧
        InSoc (S.q k) (S.block (fun i => lam i + t * dz i) k))
      (fun t => Q t ∧ ∀ k, k < n → IntSoc (S.q k) (S.block (fun i => lam i + t * ds i) k) ∧
        IntSoc (S.q k) (S.block (fun i => lam i + t * dz i) k)) (lsIterF S lam ds dz a n).1 := by
  induction n with
  | zero =>
    refine ⟨by simp [lsIterF], ?_⟩
    refine ⟨h.pos, fun t h0 hc => ?_, fun t h0 hl => ⟨h.strict t h0 hl, fun k hk => by omega⟩⟩
    rw [show (lsIterF S lam ds dz a 0).1 = a from rfl, h.iff t h0 hc]
    exact ⟨fun hh => ⟨hh, fun k hk => by omega⟩, fun hh => hh.1⟩
  | succ n ih =>
    obtain ⟨e, hb⟩ := ih (by omega)
    have hi := hlam.soc n (by omega)
    have hstep : lsIterF S lam ds dz a (n + 1) = lsStepF (S.q n) lam ds dz (lsIterF S lam ds dz a n) := rfl
    have hdet : ¬ (le (lsLknorm2F (S.q n) fun j => lam ((lsIterF S lam ds dz a n).2 + j)) (0.0 : ℝ)) = true := by
      rw [real_le, lsLknorm2F_real, e, not_le]
      have := hi.det
      unfold Shape.block at this
      simp only [Nat.add_zero] at this
      norm_num
      exact this
    rw [hstep]
    unfold lsStepF
    rw [if_neg hdet]
    refine ⟨by simp only; rw [e, S.start_succ], ?_⟩
    simp only
    rw [e]
    have := lsSocF_real (ds := S.block ds n) (dz := S.block dz n) hi hb
    refine ⟨this.pos, fun t h0 hc => ?_, fun t h0 hl => ?_⟩
    · refine (this.iff t h0 hc).trans ⟨fun hh => ⟨hh.1.1, fun k hk => ?_⟩, fun hh =>
        ⟨⟨hh.1, fun k hk => hh.2 k (by omega)⟩, hh.2 n (by omega)⟩⟩
      by_cases hkn : k = n
      · subst hkn; exact hh.2
      · exact hh.1.2 k (by omega)
    · have hh := this.strict t h0 hl
      refine ⟨hh.1.1, fun k hk => ?_⟩
      by_cases hkn : k = n
      · subst hkn; exact hh.2
      · exact hh.1.2 k (by omega)

theorem line_bounds {S : Shape} {lam ds dz : Nat → ℝ} (hlam : IntSym S lam) {tau dtau kap dkap : ℝ} (ht : 0 < tau)
    (hk : 0 < kap) :
    Bounds 10 (Stays S lam ds dz tau dtau kap dkap) (StaysInside S lam ds dz tau dtau kap dkap)
      (lsIterF S lam ds dz (lsFirstF S lam ds dz tau dtau kap dkap) S.ns).1 := by
  have h1 := lsLpF_real S.l lam ds dz hlam.lp
  have h2 := lsTauKap_real (d := dtau) h1 ht
  have h3 := lsTauKap_real (d := dkap) h2 hk
  have h4 := (lsIter_bounds hlam (ds := ds) (dz := dz) h3 S.ns le_rfl).2
  refine ⟨h4.pos, fun t h0 hc => ?_, fun t h0 hl => ?_⟩
  · refine (h4.iff t h0 hc).trans ⟨fun ⟨⟨⟨a, b⟩, c⟩, d⟩ => ⟨⟨fun i hi => (a i hi).1, fun k hk => (d k hk).1⟩,
      ⟨fun i hi => (a i hi).2, fun k hk => (d k hk).2⟩, b, c⟩, fun h => ⟨⟨⟨fun i hi => ⟨h.s.lp i hi, h.z.lp i hi⟩,
      h.tau⟩, h.kap⟩, fun k hk => ⟨h.s.soc k hk, h.z.soc k hk⟩⟩⟩
  · obtain ⟨⟨⟨a, b⟩, c⟩, d⟩ := h4.strict t h0 hl
    exact ⟨⟨fun i hi => (a i hi).1, fun k hk => (d k hk).1⟩, ⟨fun i hi => (a i hi).2, fun k hk => (d k hk).2⟩, b, c⟩

theorem lineF_spec {S : Shape} {lam ds dz : Nat → ℝ} (hlam : IntSym S lam) {tau dtau kap dkap : ℝ} (ht : 0 < tau) (hk : 0 < kap) :
    STEPMIN ≤ lineF S lam ds dz tau dtau kap dkap ∧ lineF S lam ds dz tau dtau kap dkap ≤ STEPMAX ∧
      ((STEPMIN < lineF S lam ds dz tau dtau kap dkap ∨ Stays S lam ds dz tau dtau kap dkap STEPMIN) →
        (∀ t, 0 ≤ t → t ≤ lineF S lam ds dz tau dtau kap dkap → Stays S lam ds dz tau dtau kap dkap t) ∧
        (∀ t, 0 ≤ t → t < lineF S lam ds dz tau dtau kap dkap → StaysInside S lam ds dz tau dtau kap dkap t)) ∧
      (∀ t, lineF S lam ds dz tau dtau kap dkap < t → t ≤ STEPMAX → ¬ Stays S lam ds dz tau dtau kap dkap t) := by
  have hb := line_bounds (ds := ds) (dz := dz) (dtau := dtau) (dkap := dkap) hlam ht hk
  unfold lineF
  obtain ⟨b, hbe⟩ : ∃ b, b = (lsIterF S lam ds dz (lsFirstF S lam ds dz tau dtau kap dkap) S.ns).1 := ⟨_, rfl⟩
  rw [← hbe] at hb ⊢
  have hmm : (STEPMIN : ℝ) ≤ STEPMAX := by unfold STEPMIN STEPMAX; norm_num
  have hM : (STEPMAX : ℝ) ≤ 10 := by unfold STEPMAX; norm_num
  have hm0 : (0 : ℝ) < STEPMIN := by unfold STEPMIN; norm_num
  have hs : saturate b = max STEPMIN (min b STEPMAX) := by
    unfold saturate
    simp only [real_lt]
    by_cases h : STEPMAX < b
    · rw [if_pos h, min_eq_right h.le, max_eq_right hmm, if_neg (not_lt.2 hmm)]
    · rw [if_neg h, min_eq_left (not_lt.1 h)]
      by_cases h' : b < STEPMIN
      · rw [if_pos h', max_eq_left h'.le]
      · rw [if_neg h', max_eq_right (not_lt.1 h')]
  rw [hs]
  refine ⟨le_max_left _ _, max_le hmm (min_le_right _ _), fun hcase => ?_, fun t hat htM hst => ?_⟩
  · have hle : max STEPMIN (min b STEPMAX) ≤ b := by
      rcases hcase with h | h
      · rcases lt_max_iff.1 h with h' | h'
        · exact absurd h' (lt_irrefl _)
        · exact max_le (h'.le.trans (min_le_left _ _)) (min_le_left _ _)
      · have := (hb.iff STEPMIN hm0.le (by linarith)).2 h
        exact max_le this (min_le_left _ _)
    have hle2 : max STEPMIN (min b STEPMAX) ≤ STEPMAX := max_le hmm (min_le_right _ _)
    refine ⟨fun t h0 hta => (hb.iff t h0 (by linarith)).1 (hta.trans hle), fun t h0 hta => hb.strict t h0
      (lt_of_lt_of_le hta hle)⟩
  · obtain ⟨h4, h5⟩ := max_lt_iff.1 hat
    have := (hb.iff t (by linarith) (by linarith)).2 hst
    rcases min_lt_iff.1 h5 with h | h <;> linarith

/-- **C21.**  From a scaled point `lam` strictly inside the product cone, with `tau` and `kap` positive, the
line search returns a step `a` in `[STEPMIN, STEPMAX]`.
* A step up to `a` (when `a` was not raised to `STEPMIN`) stays in the cones;
* a smaller step, as after the multiplication by the safety factor, stays strictly inside;
* the step is not shorter than necessary: any longer step up to `STEPMAX` leaves one of the cones. -/
theorem C21_linesearch {C : Cone ℝ} {S : Shape} (hC : ConeIs C S) {lamb dsb dzb : Buf ℝ} {lam ds dz : Nat → ℝ}
    (h1 : Has lamb 0 S.fexv lam) (h2 : Has dsb 0 S.fexv ds) (h3 : Has dzb 0 S.fexv dz) (hlam : IntSym S lam)
    {tau dtau kap dkap : ℝ} (ht : 0 < tau) (hk : 0 < kap) :
    ∃ a, lineSearch C lamb dsb dzb tau dtau kap dkap = .ok a ∧ STEPMIN ≤ a ∧ a ≤ STEPMAX ∧
      ((STEPMIN < a ∨ Stays S lam ds dz tau dtau kap dkap STEPMIN) →
        (∀ t, 0 ≤ t → t ≤ a → Stays S lam ds dz tau dtau kap dkap t) ∧
        (∀ t, 0 ≤ t → t < a → StaysInside S lam ds dz tau dtau kap dkap t)) ∧
      (∀ t, a < t → t ≤ STEPMAX → ¬ Stays S lam ds dz tau dtau kap dkap t) := by
  exact ⟨_, lineSearch_eq hC h1 h2 h3 tau dtau kap dkap, lineF_spec hlam ht hk⟩

/-- a second-order cone of dimension 2 -/
def soc2 : SoCone ℝ :=
  { p := 2, skbar := #[none, none], zkbar := #[none, none], q := #[none], Didx := #[none, none], a := none,
    w := none, eta := none, etaSq := none, d1 := none, u0 := none, u1 := none, v1 := none }

/-- two of them -/
def cone22 : Cone ℝ :=
  { lpc := { p := 0, w := #[], v := #[], kktIdx := #[] }, soc := #[soc2, soc2], nsoc := 2, expc := #[], nexc := 0,
    fexv := 4 }

/-- Defect: with a first block on the boundary of its cone, `continue` (ecos.c:1000-1001) also skips
`cone_start += ..`, the second cone is looked at in the rows of the first one, and a step that leaves the
second cone is accepted.  (For scalings computed in exact arithmetic `lam` is interior, see
`C17_scaling_point`.) -/
theorem C21_skipped_cone_violated :
    ∃ (C : Cone ℝ) (S : Shape) (lam ds dz : Nat → ℝ) (lamb dsb dzb : Buf ℝ) (a : ℝ), ConeIs C S ∧
      Has lamb 0 S.fexv lam ∧ Has dsb 0 S.fexv ds ∧ Has dzb 0 S.fexv dz ∧ InSym S lam ∧
      IntSoc (S.q 1) (S.block lam 1) ∧
      lineSearch C lamb dsb dzb 1 0 1 0 = .ok a ∧ a = STEPMAX ∧
      ¬ InSoc (S.q 1) (S.block (fun i => lam i + a * ds i) 1) := by
  let S : Shape := { l := 0, ns := 2, q := fun _ => 2, ne := 0 }
  have hf : S.fexv = 4 := by simp [S, Shape.fexv, Shape.start]
  have hst : S.start 1 = 2 := by simp [S, Shape.start]
  let lam : Nat → ℝ := fun i => if i = 0 then 1 else if i = 1 then 1 else if i = 2 then 1 else 0
  let ds : Nat → ℝ := fun i => if i = 2 then -2 else 0
  have hC : ConeIs cone22 S := by
    refine ⟨rfl, rfl, fun k hk => ⟨soc2, ?_, rfl⟩, fun k hk => by simp [S], rfl, hf.symm, rfl, rfl⟩
    have : k = 0 ∨ k = 1 := by simp only [S] at hk; omega
    rcases this with rfl | rfl <;> rfl
  have hh : ∀ v : Nat → ℝ, Has (#[some (v 0), some (v 1), some (v 2), some (v 3)] : Buf ℝ) 0 S.fexv v := by
    intro v j hj
    rw [hf] at hj
    match j with
    | 0 => rfl
    | 1 => rfl
    | 2 => rfl
    | 3 => rfl
    | j + 4 => omega
  have e := lineSearch_eq hC (hh lam) (hh ds) (hh fun _ => 0) 1 0 1 0
  have hd : ∀ t : ℝ × Nat, t.2 = 0 → lsStepF 2 lam ds (fun _ => 0) t = t := by
    intro t h
    unfold lsStepF
    rw [if_pos]
    rw [lsLknorm2F_real, h]
    simp [tailSq, lam]
    norm_num
  have hval : lineF S lam ds (fun _ => 0) 1 0 1 0 = STEPMAX := by
    unfold lineF lsIterF
    simp only [S, itr_succ, itr_zero]
    rw [hd (_, 0) rfl, hd (_, 0) rfl]
    unfold lsFirstF lsLpF lsTauKap saturate STEPMAX STEPMIN
    norm_num
  rw [hval] at e
  refine ⟨_, S, lam, ds, fun _ => 0, _, _, _, STEPMAX, hC, hh lam, hh ds, hh _, ⟨fun i hi => by simp [S] at hi, ?_⟩, ?_, e,
    rfl, ?_⟩
  · intro k hk
    rw [inSoc_iff]
    have : k = 0 ∨ k = 1 := by simp only [S] at hk; omega
    rcases this with rfl | rfl
    · simp [tailSq, Shape.block, S, lam]
    · simp [tailSq, Shape.block, hst, lam, S]
  · refine intSoc_of ?_ ?_
    · simp [Shape.block, hst, lam]
    · simp [tailSq, Shape.block, hst, lam, S]
  · rw [inSoc_iff]
    rintro ⟨h, -⟩
    simp only [Shape.block, hst, lam, ds] at h
    unfold STEPMAX at h
    norm_num at h

/-! ### A case: one linear row and a cone of dimension 3, a direction that leaves it -/

example : ∃ a, lineSearch (Cones.exCone ℝ) #[some 1, some 2, some 0, some 1] #[some (-2), some 1, some 0, some 0]
      #[some 1, some (-1), some 1, some 0] 1 (-1) 1 1 = .ok a ∧ STEPMIN ≤ a ∧ a ≤ (1 / 2 : ℝ) := by
  have hlam : IntSym Cones.exShape (fun i : Nat => if i = 0 then (1 : ℝ) else if i = 1 then 2 else if i = 2 then 0 else 1) := by
    refine ⟨fun i hi => ?_, fun k hk => ?_⟩
    · have : i = 0 := by simp only [Cones.exShape] at hi; omega
      subst this; norm_num
    · have : k = 0 := by simp only [Cones.exShape] at hk; omega
      subst this
      refine intSoc_of ?_ ?_
      · simp [Shape.block, Cones.exShape]
      · simp only [tailSq, Shape.block, Cones.exShape]
        norm_num [sum_range_succ]
  obtain ⟨a, h1, h2, h3, h4, h5⟩ := C21_linesearch (Cones.exCone_is ℝ)
    (Cones.ex_has fun i => if i = 0 then 1 else if i = 1 then 2 else if i = 2 then 0 else 1)
    (Cones.ex_has fun i => if i = 0 then -2 else if i = 1 then 1 else if i = 2 then 0 else 0)
    (Cones.ex_has fun i => if i = 0 then 1 else if i = 1 then -1 else if i = 2 then 1 else 0) hlam
    (tau := 1) (dtau := -1) (kap := 1) (dkap := 1) one_pos one_pos
  simp only [if_true] at h1
  norm_num at h1
  refine ⟨a, h1, h2, ?_⟩
  by_contra hc
  have hc' := not_le.1 hc
  have hm : (STEPMIN : ℝ) < 1 / 2 := by unfold STEPMIN; norm_num
  have := ((h4 (Or.inl (by linarith))).1 a (by linarith) le_rfl).s.lp 0 (by simp [Cones.exShape])
  simp only [if_true] at this
  linarith

end Line
end Ecos
