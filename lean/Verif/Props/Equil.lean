import Mathlib.Algebra.BigOperators.Field
import Verif.Spec.Scale
import Verif.Lemmas.Ldl1
import Verif.Props.Cones
import Verif.Props.Sparse

/-!
# Equilibration: C12, C13, C14, C15
-/
namespace Ecos.Equil

set_option linter.unusedSectionVars false

open Finset Ecos

/-! ### C12 -/

variable {C : Cone ℝ} {S : Shape} {T : Pat}

/-- C12: for all matrices (zero rows and columns included) and all cone layouts, all factors found by
set-up are positive, and equal on the rows of one cone.  The scaled data is the data divided by the
factors. -/
theorem C12_factors (hC : ConeIs C S) (hm : S.m = T.m) {e : EqS ℝ} {P : Dat} (he : EqIs e T P.a P.g)
    (hx : e.xe.size = T.n) (hy : e.Ae.size = T.p) (hz : e.Ge.size = T.m) {b h : Buf ℝ}
    (hb : Holds b T.p P.b) (hh : Holds h T.m P.h) :
    Ok (setEquilibration C e b h) fun r => ∃ (E : Fac) (P' : Dat), E.Ok S T ∧
      ScaledBy T P { P' with c := fun j => P.c j / E.x j } E ∧
      Holds r.1.xe T.n E.x ∧ Holds r.1.Ae T.p E.A ∧ Holds r.1.Ge T.m E.G ∧
      EqIs r.1 T P'.a P'.g ∧ Holds r.2.1 T.p P'.b ∧ Holds r.2.2 T.m P'.h := by
  refine (setEquilibration_ok hC hm eqReal he hx hy hz hb hh).mono ?_
  rintro r ⟨a, g, x, y, z, h1, h2, h3, h4, p1, p2, p3, u, ra, rg, h5, h6⟩
  exact ⟨⟨x, y, z⟩, ⟨a, g, P.c, _, _⟩, ⟨p1, p2, p3, u.soc, u.exp⟩,
    ⟨fun hA k hk => ra k hA hk, rg, fun _ _ => rfl, fun _ _ => rfl, fun _ _ => rfl⟩, h2, h3, h4, h1, h5, h6⟩

theorem tailSq_smul (p : Nat) (t : ℝ) (u : Nat → ℝ) : tailSq p (fun j => t * u j) = t ^ 2 * tailSq p u := by
  unfold tailSq
  rw [mul_sum]
  exact sum_congr rfl fun i _ => by ring

theorem inSoc_smul {p : Nat} {t : ℝ} (ht : 0 < t) (u : Nat → ℝ) : InSoc p (fun j => t * u j) ↔ InSoc p u := by
  unfold InSoc
  rw [tailSq_smul, Real.sqrt_mul (sq_nonneg t), Real.sqrt_sq ht.le]
  exact mul_le_mul_iff_right₀ ht

theorem inSoc_congr {p : Nat} {u v : Nat → ℝ} (h0 : 0 < p) (h : ∀ j, j < p → u j = v j) : InSoc p u ↔ InSoc p v := by
  unfold InSoc
  rw [tailSq_congr h, h 0 h0]

theorem inExp_smul {t : ℝ} (ht : 0 < t) (x y z : ℝ) : InExp (t * x) (t * y) (t * z) ↔ InExp x y z := by
  unfold InExp
  rw [mul_div_mul_left _ _ ht.ne', mul_assoc, mul_le_mul_iff_right₀ ht, mul_pos_iff_of_pos_left ht,
    mul_nonneg_iff_of_pos_left ht, mul_eq_zero, mul_nonpos_iff]
  constructor
  · rintro (h | ⟨h1, h2, h3⟩)
    · exact Or.inl h
    · exact Or.inr ⟨h1.resolve_left ht.ne', by rcases h2 with h2 | h2; exacts [h2.2, by linarith [h2.1]], h3⟩
  · rintro (h | ⟨h1, h2, h3⟩)
    · exact Or.inl h
    · exact Or.inr ⟨Or.inr h1, Or.inl ⟨ht.le, h2⟩, h3⟩

theorem inExpDual_smul {t : ℝ} (ht : 0 < t) (x y z : ℝ) : InExpDual (t * x) (t * y) (t * z) ↔ InExpDual x y z := by
  unfold InExpDual
  refine forall_congr' fun a => forall_congr' fun b => forall_congr' fun c => imp_congr_right fun _ => ?_
  rw [show t * x * a + t * y * b + t * z * c = t * (x * a + y * b + z * c) by ring, mul_nonneg_iff_of_pos_left ht]

/-- every row of a cone lies below `m` -/
theorem start_lt {k : Nat} (hk : k < S.ns) {j : Nat} (hj : j < S.q k) : S.start k + j < S.m := by
  have h1 := S.start_le hk
  have h2 : S.m = S.fexv + 3 * S.ne := rfl
  omega

theorem inSym_scale {E : Fac} (hE : E.Ok S T) (hm : S.m = T.m) (hq : ∀ k, k < S.ns → 0 < S.q k) (v : Nat → ℝ) :
    InSym S (fun i => E.G i * v i) ↔ InSym S v := by
  have hlm : S.l ≤ S.m := by
    have h1 : S.l ≤ S.fexv := S.l_le _
    have h2 : S.m = S.fexv + 3 * S.ne := rfl
    omega
  have h1 : (∀ i, i < S.l → 0 ≤ E.G i * v i) ↔ (∀ i, i < S.l → 0 ≤ v i) :=
    forall_congr' fun i => imp_congr_right fun hi => mul_nonneg_iff_of_pos_left (hE.G i (by omega))
  have h2 : (∀ k, k < S.ns → InSoc (S.q k) (S.block (fun i => E.G i * v i) k)) ↔
      (∀ k, k < S.ns → InSoc (S.q k) (S.block v k)) :=
    forall_congr' fun k => imp_congr_right fun hk => by
      have hp : 0 < E.G (S.start k) := hE.G _ (by rw [← hm]; exact start_lt hk (j := 0) (hq k hk))
      rw [← inSoc_smul hp (S.block v k)]
      refine inSoc_congr (hq k hk) fun j hj => ?_
      simp only [Shape.block]
      rw [hE.soc k hk j hj]
  exact ⟨fun h => ⟨h1.1 h.lp, h2.1 h.soc⟩, fun h => ⟨h1.2 h.lp, h2.2 h.soc⟩⟩

theorem exp_pos {E : Fac} (hE : E.Ok S T) (hm : S.m = T.m) {l : Nat} (hl : l < S.ne) : 0 < E.G (S.fexv + 3 * l) := by
  have h2 : S.m = S.fexv + 3 * S.ne := rfl
  exact hE.G _ (by omega)

/-- C12: hence scaling maps the cone onto itself -/
theorem C12_cone {E : Fac} (hE : E.Ok S T) (hm : S.m = T.m) (hq : ∀ k, k < S.ns → 0 < S.q k) (v : Nat → ℝ) :
    InK S (fun i => E.G i * v i) ↔ InK S v := by
  have h3 : (∀ l, l < S.ne → InExp (E.G (S.fexv + 3 * l) * v (S.fexv + 3 * l))
        (E.G (S.fexv + 3 * l + 1) * v (S.fexv + 3 * l + 1)) (E.G (S.fexv + 3 * l + 2) * v (S.fexv + 3 * l + 2))) ↔
      (∀ l, l < S.ne → InExp (v (S.fexv + 3 * l)) (v (S.fexv + 3 * l + 1)) (v (S.fexv + 3 * l + 2))) :=
    forall_congr' fun l => imp_congr_right fun hl => by
      rw [hE.exp l hl 1 (by omega), hE.exp l hl 2 (by omega), inExp_smul (exp_pos hE hm hl)]
  have h1 := inSym_scale hE hm hq v
  exact ⟨fun h => ⟨h1.1 h.sym, h3.1 h.exp⟩, fun h => ⟨h1.2 h.sym, h3.2 h.exp⟩⟩

/-- C12: and the dual cone onto itself -/
theorem C12_dual_cone {E : Fac} (hE : E.Ok S T) (hm : S.m = T.m) (hq : ∀ k, k < S.ns → 0 < S.q k) (v : Nat → ℝ) :
    InKDual S (fun i => E.G i * v i) ↔ InKDual S v := by
  have h3 : (∀ l, l < S.ne → InExpDual (E.G (S.fexv + 3 * l) * v (S.fexv + 3 * l))
        (E.G (S.fexv + 3 * l + 1) * v (S.fexv + 3 * l + 1)) (E.G (S.fexv + 3 * l + 2) * v (S.fexv + 3 * l + 2))) ↔
      (∀ l, l < S.ne → InExpDual (v (S.fexv + 3 * l)) (v (S.fexv + 3 * l + 1)) (v (S.fexv + 3 * l + 2))) :=
    forall_congr' fun l => imp_congr_right fun hl => by
      rw [hE.exp l hl 1 (by omega), hE.exp l hl 2 (by omega), inExpDual_smul (exp_pos hE hm hl)]
  have h1 := inSym_scale hE hm hq v
  exact ⟨fun h => ⟨h1.1 h.sym, h3.1 h.exp⟩, fun h => ⟨h1.2 h.sym, h3.2 h.exp⟩⟩

/-! ### C13 -/

/-- C13: equilibration followed by its inverse gives back `A`, `G`, `b` and `h` -/
theorem C13_round_trip (hC : ConeIs C S) (hm : S.m = T.m) {e : EqS ℝ} {P : Dat} (he : EqIs e T P.a P.g)
    (hx : e.xe.size = T.n) (hy : e.Ae.size = T.p) (hz : e.Ge.size = T.m) {b h : Buf ℝ}
    (hb : Holds b T.p P.b) (hh : Holds h T.m P.h) :
    Ok (do let r ← setEquilibration C e b h; unsetEquilibration r.1 r.2.1 r.2.2) fun q =>
      RepA q.1 T P.a ∧ Rep q.2.1 T.m T.n T.jcG T.irG P.g ∧ Holds q.2.2.1 T.p P.b ∧ Holds q.2.2.2 T.m P.h := by
  refine Ok.bind (C12_factors hC hm he hx hy hz hb hh) ?_
  rintro r ⟨E, P', hE, hS, h2, h3, h4, h1, h5, h6⟩
  refine (unsetEquilibration_ok h1 h2 h3 h4 h5 h6).mono ?_
  rintro q ⟨q1, q2, q3, q4⟩
  have hG : ∀ k, k < T.jcG T.n → P'.g k * (E.G (T.irG k) * E.x (colOf T.n T.jcG k)) = P.g k := by
    intro k hk
    have a1 := hE.G _ (h1.G.ok.rows k hk)
    obtain ⟨j, hj, hj1, hj2⟩ := h1.G.ok.exists_col hk
    have a2 := hE.x j hj
    have := hS.g k hk
    rw [colOf_eq h1.G.ok hj hj1 hj2] at this ⊢
    rw [show P'.g k = _ from this, div_mul_cancel₀ _ (mul_pos a1 a2).ne']
  refine ⟨?_, ⟨q2.m_eq, q2.n_eq, q2.nnz_eq, q2.hjc, q2.hir, q2.hpr.congr hG, q2.ok⟩,
    q3.congr fun i hi => ?_, q4.congr fun i hi => ?_⟩
  · unfold RepA at q1 ⊢
    split
    · rename_i hA
      rw [if_pos hA] at q1
      obtain ⟨M, hM, q1⟩ := q1
      refine ⟨M, hM, ⟨q1.m_eq, q1.n_eq, q1.nnz_eq, q1.hjc, q1.hir, q1.hpr.congr fun k hk => ?_, q1.ok⟩⟩
      have a1 := hE.A _ (q1.ok.rows k hk)
      obtain ⟨j, hj, hj1, hj2⟩ := q1.ok.exists_col hk
      have a2 := hE.x j hj
      have := hS.a hA k hk
      rw [colOf_eq q1.ok hj hj1 hj2] at this ⊢
      rw [show P'.a k = _ from this, div_mul_cancel₀ _ (mul_pos a1 a2).ne']
    · rename_i hA
      rw [if_neg hA] at q1
      exact q1
  · rw [show P'.b i = _ from hS.b i hi, div_mul_cancel₀ _ (hE.A i hi).ne']
  · rw [show P'.h i = _ from hS.h i hi, div_mul_cancel₀ _ (hE.G i hi).ne']

section solve
variable {F : Type} [Zero F] [One F] [Add F] [Sub F] [Mul F] [Div F] [Neg F] [OfScientific F]
  [IntCast F] [PFloat F] [HasInf F]

theorem started_data {w w1 : Work F} (h : Started w w1) :
    ∃ c, divBy w.c w.xequil w.n = .ok c ∧ SameData { w with c := c } w1 := by
  obtain ⟨c, h1, h2⟩ := h
  exact ⟨c, h1, (initSolver_stgs h2).1⟩

theorem backscale_data {w w' : Work F} (h : backscale w = .ok w') :
    ∃ c, mulBy w.c w.xequil w.n = .ok c ∧ SameData { w with c := c } w' := by
  unfold backscale at h
  simp only [bind_ok, pure_ok] at h
  obtain ⟨tau, -, x, -, y, -, z, -, s, -, c, hc, rfl⟩ := h
  exact ⟨c, hc, ⟨rfl, rfl, rfl, rfl, rfl, rfl, rfl, rfl, rfl, rfl, rfl, rfl, rfl⟩⟩

/-- C13: whatever a solve does and returns, it leaves `A`, `G`, `b`, `h`, the factors and the settings as they
were; and unless it returns "outside of the cone" it multiplies back what it divided out of `c` -/
theorem C13_solve_data {arrives : Nat → Bool} {w w' : Work F} {sig sig' : Sig} {code : Int}
    (h : ecosSolve arrives w sig = .ok (w', sig', code)) :
    ∃ c, divBy w.c w.xequil w.n = .ok c ∧
      (if code = OUTCONE then SameData { w with c := c } w'
       else ∃ c', mulBy c w.xequil w.n = .ok c' ∧ SameData { w with c := c' } w') := by
  obtain ⟨w1, hw1, e, he, hcode, hend⟩ := ecosSolve_ways h
  obtain ⟨c, hc, hd⟩ := started_data hw1
  have hd2 : SameData w1 e.w := by
    obtain ⟨k, hl⟩ | ⟨-, rfl⟩ := he
    · exact (leaves_spec hl).1
    · exact ⟨rfl, rfl, rfl, rfl, rfl, rfl, rfl, rfl, rfl, rfl, rfl, rfl, rfl⟩
  have hd3 := hd.trans hd2
  refine ⟨c, hc, ?_⟩
  obtain ⟨he1, hc1, rfl, -⟩ | ⟨he1, hb, -⟩ := hend
  · rw [if_pos hc1]
    exact hd3
  · rw [if_neg]
    · obtain ⟨c', h1, h2⟩ := backscale_data hb
      rw [hd3.c, hd3.xequil, hd3.n] at h1
      refine ⟨c', h1, ?_⟩
      exact ⟨h2.n.trans hd3.n, h2.m.trans hd3.m, h2.p.trans hd3.p, h2.D.trans hd3.D, h2.A.trans hd3.A,
        h2.G.trans hd3.G, h2.c, h2.b.trans hd3.b, h2.h.trans hd3.h, h2.xequil.trans hd3.xequil,
        h2.Aequil.trans hd3.Aequil, h2.Gequil.trans hd3.Gequil, h2.stgs.trans hd3.stgs⟩
    · intro hc1
      obtain ⟨k, hl⟩ | ⟨-, rfl⟩ := he
      · obtain ⟨-, h1⟩ | ⟨h1, -⟩ := leaves_code hl
        · rw [hcode, hc1] at h1
          rcases h1 with h1 | h1 | h1 | h1 | h1
          · have := h1.code; revert this; simp [OUTCONE]
          · have := h1.code; revert this; simp [OUTCONE, INACC]
          · simp [OUTCONE, NUMERICS] at h1
          · simp [OUTCONE, SIGINT] at h1
          · simp [OUTCONE, MAXIT] at h1
        · rw [he1] at h1; cases h1
      · rw [hc1] at hcode
        simp [Exit.skipped, FATAL, OUTCONE] at hcode

end solve

/-- C13: in exact arithmetic `c` holds its original values after every solve that does not return
"outside of the cone".  Missing: that return, after which the claim is false (see
`Run.C27_C13_outcone_violated`) -/
theorem C13_c_restored_partial [HasInf ℝ] {arrives : Nat → Bool} {w w' : Work ℝ} {sig sig' : Sig} {code : Int}
    (h : ecosSolve arrives w sig = .ok (w', sig', code)) (hcode : code ≠ OUTCONE) {c x : Nat → ℝ}
    (hc : Holds w.c w.n c) (hx : Holds w.xequil w.n x) (h0 : ∀ j, j < w.n → x j ≠ 0) :
    Holds w'.c w'.n c ∧ w'.A = w.A ∧ w'.G = w.G ∧ w'.b = w.b ∧ w'.h = w.h := by
  obtain ⟨c1, h1, h2⟩ := C13_solve_data h
  rw [if_neg hcode] at h2
  obtain ⟨c2, h2, h3⟩ := h2
  obtain ⟨c1', e1, k1⟩ := (Ok.def _ _).1 (divBy_ok hc hx)
  rw [h1] at e1
  cases e1
  obtain ⟨c2', e2, k2⟩ := (Ok.def _ _).1 (mulBy_ok k1 hx)
  rw [h2] at e2
  cases e2
  refine ⟨?_, h3.A, h3.G, h3.b, h3.h⟩
  rw [h3.c, h3.n]
  exact k2.congr fun j hj => div_mul_cancel₀ _ (h0 j hj)

/-- several solves after one another, whose codes all satisfy `good` -/
inductive SolveSeq [HasInf ℝ] (good : Int → Prop) : Work ℝ → Work ℝ → Prop
  | none (w) : SolveSeq good w w
  | more {w w1 w2 : Work ℝ} {arrives : Nat → Bool} {sig sig' : Sig} {code : Int} : SolveSeq good w w1 →
      ecosSolve arrives w1 sig = .ok (w2, sig', code) → good code → SolveSeq good w w2

/-- C13: set-up, any number of solves, clean-up: `A`, `G`, `b` and `h` are given back unchanged whatever the
solves return; so is `c` if no solve returns "outside of the cone" -/
theorem C13_given_back_partial [HasInf ℝ] (hC : ConeIs C S) (hm : S.m = T.m) {e : EqS ℝ} {P : Dat}
    (he : EqIs e T P.a P.g) (hx : e.xe.size = T.n) (hy : e.Ae.size = T.p) (hz : e.Ge.size = T.m) {b h : Buf ℝ}
    (hb : Holds b T.p P.b) (hh : Holds h T.m P.h) {r : EqS ℝ × Buf ℝ × Buf ℝ} {w w' : Work ℝ}
    (hset : setEquilibration C e b h = .ok r) (hr : w.eqs = r.1) (hwb : w.b = r.2.1) (hwh : w.h = r.2.2)
    (hn : w.n = T.n) (hc : Holds w.c T.n P.c) {good : Int → Prop} (hruns : SolveSeq good w w') :
    ((∀ c, good c → c ≠ OUTCONE) → Holds w'.c T.n P.c) ∧ Ok (unsetEquilibration w'.eqs w'.b w'.h) fun q =>
      RepA q.1 T P.a ∧ Rep q.2.1 T.m T.n T.jcG T.irG P.g ∧ Holds q.2.2.1 T.p P.b ∧ Holds q.2.2.2 T.m P.h := by
  have h1 := C13_round_trip hC hm he hx hy hz hb hh
  rw [hset, ok_bind_eq] at h1
  obtain ⟨r', e2, E, P', hE, -, k1, -⟩ := (Ok.def _ _).1 (C12_factors hC hm he hx hy hz hb hh)
  rw [hset] at e2
  cases e2
  rw [← hr] at k1
  have key : ((∀ c, good c → c ≠ OUTCONE) → Holds w'.c T.n P.c) ∧ w'.n = T.n ∧ w'.eqs = w.eqs ∧ w'.b = w.b ∧
      w'.h = w.h := by
    induction hruns with
    | none => exact ⟨fun _ => hc, hn, rfl, rfl, rfl⟩
    | @more w1 w2 arrives sig sig' code hrun hsol hcode ih =>
      obtain ⟨i1, i2, i3, i4, i5⟩ := ih
      have hxe : w1.xequil = w.xequil := congrArg EqS.xe i3
      have hAe : w1.Aequil = w.Aequil := congrArg EqS.Ae i3
      have hGe : w1.Gequil = w.Gequil := congrArg EqS.Ge i3
      have hk : Holds w1.xequil w1.n E.x := by rw [hxe, i2]; exact k1
      obtain ⟨cc, h3⟩ : ∃ c, SameData { w1 with c := c } w2 := by
        obtain ⟨c1, h1, h2⟩ := C13_solve_data hsol
        split at h2
        · exact ⟨_, h2⟩
        · obtain ⟨c2, -, h3⟩ := h2
          exact ⟨_, h3⟩
      have hn2 : w2.n = T.n := h3.n.trans i2
      refine ⟨fun hg => ?_, hn2, ?_, h3.b.trans i4, h3.h.trans i5⟩
      · rw [← hn2]
        exact (C13_c_restored_partial hsol (hg _ hcode) (by rw [i2]; exact i1 hg) hk
          (fun j hj => (hE.x j (by rw [← i2]; exact hj)).ne')).1
      · rw [← i3]
        unfold Work.eqs
        rw [h3.A, h3.G, h3.xequil, h3.Aequil, h3.Gequil]
  refine ⟨key.1, ?_⟩
  rw [key.2.2.1, key.2.2.2.1, key.2.2.2.2, hr, hwb, hwh]
  exact h1

/-! ### C14 -/

theorem dense_scale {m n : Nat} {jc ir : Nat → Nat} (ok : CscOk m n jc ir) {pr pr' r x : Nat → ℝ}
    (h : ∀ k, k < jc n → pr' k = pr k / (r (ir k) * x (colOf n jc k))) {i j : Nat} (hj : j < n) :
    dense jc ir pr' i j = dense jc ir pr i j / (r i * x j) := by
  unfold dense
  rw [Finset.sum_div]
  refine sum_congr rfl fun k hk => ?_
  rw [mem_Ico] at hk
  have hkn : k < jc n := lt_of_lt_of_le hk.2 (ok.le_top (by omega))
  split
  · rename_i hi
    rw [h k hkn, colOf_eq ok hj hk.1 hk.2, hi]
  · simp

/-- the patterns are well formed -/
structure PatOk (T : Pat) : Prop where
  A : T.hasA → CscOk T.p T.n T.jcA T.irA
  noA : ¬ T.hasA → T.p = 0
  G : CscOk T.m T.n T.jcG T.irG

theorem scaled_A {P P' : Dat} {E : Fac} (hT : PatOk T) (h : ScaledBy T P P' E) {i j : Nat} (hi : i < T.p)
    (hj : j < T.n) : P'.A T i j = P.A T i j / (E.A i * E.x j) := by
  have hA : T.hasA := by
    by_contra hA
    have := hT.noA hA
    omega
  exact dense_scale (hT.A hA) (h.a hA) hj

theorem scaled_G {P P' : Dat} {E : Fac} (hT : PatOk T) (h : ScaledBy T P P' E) (i : Nat) {j : Nat}
    (hj : j < T.n) : P'.G T i j = P.G T i j / (E.G i * E.x j) := dense_scale hT.G h.g hj

/-- C14: if the internal iterate solves the scaled problem then the variables in the user's units solve the
user's problem -/
theorem C14_solution {P P' : Dat} {E : Fac} {v : Iter} (hT : PatOk T) (hE : E.Ok S T) (hm : S.m = T.m)
    (hq : ∀ k, k < S.ns → 0 < S.q k) (hP : ScaledBy T P P' E) (ht : 0 < v.tau) (h : Solves S T P' v) :
    Solves S T P (v.user E) := by
  have hm' : ∀ i, i < T.m → E.G i ≠ 0 := fun i hi => (hE.G i hi).ne'
  have hx' : ∀ i, i < T.n → E.x i ≠ 0 := fun i hi => (hE.x i hi).ne'
  have hA' : ∀ i, i < T.p → E.A i ≠ 0 := fun i hi => (hE.A i hi).ne'
  have ht' := ht.ne'
  have hK : ∀ t : ℝ, 0 < t → Fac.Ok { E with G := fun i => E.G i * t } S T := fun t ht =>
    ⟨hE.x, hE.A, fun i hi => mul_pos (hE.G i hi) ht, fun k hk j hj => by show E.G _ * t = E.G _ * t; rw [hE.soc k hk j hj],
      fun l hl j hj => by show E.G _ * t = E.G _ * t; rw [hE.exp l hl j hj]⟩
  refine ⟨fun j hj => ?_, fun i hi => ?_, fun i hi => ?_, ?_, ?_⟩
  · have h1 := h.dual j hj
    have e1 : ∑ i ∈ range T.p, P.A T i j * (v.user E).y i =
        E.x j / v.tau * ∑ i ∈ range T.p, P'.A T i j * v.y i := by
      rw [mul_sum]
      refine sum_congr rfl fun i hi => ?_
      have hi := mem_range.1 hi
      rw [scaled_A hT hP hi hj]
      have := hA' i hi
      have := hx' j hj
      simp only [Iter.user]
      field_simp
    have e2 : ∑ i ∈ range T.m, P.G T i j * (v.user E).z i =
        E.x j / v.tau * ∑ i ∈ range T.m, P'.G T i j * v.z i := by
      rw [mul_sum]
      refine sum_congr rfl fun i hi => ?_
      have hi := mem_range.1 hi
      rw [scaled_G hT hP i hj]
      have := hm' i hi
      have := hx' j hj
      simp only [Iter.user]
      field_simp
    have e3 : (v.user E).tau * P.c j = E.x j / v.tau * (v.tau * P'.c j) := by
      rw [hP.c j hj]
      have := hx' j hj
      simp only [Iter.user]
      field_simp
    rw [e1, e2, e3, ← mul_add, ← mul_add, h1, mul_zero]
  · have h1 := h.eq i hi
    have e1 : ∑ j ∈ range T.n, P.A T i j * (v.user E).x j = E.A i / v.tau * ∑ j ∈ range T.n, P'.A T i j * v.x j := by
      rw [mul_sum]
      refine sum_congr rfl fun j hj => ?_
      have hj := mem_range.1 hj
      rw [scaled_A hT hP hi hj]
      have := hA' i hi
      have := hx' j hj
      simp only [Iter.user]
      field_simp
    rw [e1, h1, hP.b i hi]
    have := hA' i hi
    simp only [Iter.user]
    field_simp
  · have h1 := h.ineq i hi
    have e1 : ∑ j ∈ range T.n, P.G T i j * (v.user E).x j = E.G i / v.tau * ∑ j ∈ range T.n, P'.G T i j * v.x j := by
      rw [mul_sum]
      refine sum_congr rfl fun j hj => ?_
      have hj := mem_range.1 hj
      rw [scaled_G hT hP i hj]
      have := hm' i hi
      have := hx' j hj
      simp only [Iter.user]
      field_simp
    have e2 : (v.user E).s i = E.G i / v.tau * v.s i := by
      simp only [Iter.user]; ring
    rw [e1, e2, ← mul_add, h1, hP.h i hi]
    have := hm' i hi
    simp only [Iter.user]
    field_simp
  · have := (C12_cone (hK v.tau⁻¹ (inv_pos.2 ht)) hm hq v.s).2 h.s
    convert this using 2 with i
    simp only [Iter.user]
    ring
  · refine (C12_dual_cone (hK v.tau ht) hm hq (v.user E).z).1 ?_
    have hz := h.z
    have hfe : S.m = S.fexv + 3 * S.ne := rfl
    have hcell : ∀ i, i < S.m → (E.G i * v.tau) * (v.user E).z i = v.z i := fun i hi => by
      have := hm' i (by rw [← hm]; exact hi)
      simp only [Iter.user]
      field_simp
    refine ⟨⟨fun i hi => ?_, fun k hk => ?_⟩, fun l hl => ?_⟩
    · have h1 : S.l ≤ S.fexv := S.l_le _
      show 0 ≤ (E.G i * v.tau) * (v.user E).z i
      rw [hcell i (by omega)]
      exact hz.sym.lp i hi
    · refine (inSoc_congr (hq k hk) fun j hj => ?_).1 (hz.sym.soc k hk)
      simp only [Shape.block]
      exact (hcell _ (start_lt hk hj)).symm
    · show InExpDual ((E.G _ * v.tau) * (v.user E).z _) ((E.G _ * v.tau) * (v.user E).z _)
        ((E.G _ * v.tau) * (v.user E).z _)
      rw [hcell _ (by omega), hcell _ (by omega), hcell _ (by omega)]
      exact hz.exp l hl

/-- C14: the objective values of the internal iterate, divided by `tau`, are those of the variables in the user's
units -/
theorem C14_objective {P P' : Dat} {E : Fac} {v : Iter} (hE : E.Ok S T) (hP : ScaledBy T P P' E) (ht : 0 < v.tau) :
    ip T.n P'.c v.x / v.tau = ip T.n P.c (v.user E).x ∧
    (-(ip T.m P'.h v.z + ip T.p P'.b v.y)) / v.tau = - ip T.p P.b (v.user E).y - ip T.m P.h (v.user E).z := by
  have ht' := ht.ne'
  have e1 : ip T.n P'.c v.x = v.tau * ip T.n P.c (v.user E).x := by
    unfold ip
    rw [mul_sum]
    refine sum_congr rfl fun j hj => ?_
    have hj := mem_range.1 hj
    rw [hP.c j hj]
    have := (hE.x j hj).ne'
    simp only [Iter.user]
    field_simp
  have e2 : ip T.m P'.h v.z = v.tau * ip T.m P.h (v.user E).z := by
    unfold ip
    rw [mul_sum]
    refine sum_congr rfl fun j hj => ?_
    have hj := mem_range.1 hj
    rw [hP.h j hj]
    have := (hE.G j hj).ne'
    simp only [Iter.user]
    field_simp
  have e3 : ip T.p P'.b v.y = v.tau * ip T.p P.b (v.user E).y := by
    unfold ip
    rw [mul_sum]
    refine sum_congr rfl fun j hj => ?_
    have hj := mem_range.1 hj
    rw [hP.b j hj]
    have := (hE.A j hj).ne'
    simp only [Iter.user]
    field_simp
  rw [e1, e2, e3]
  constructor
  · field_simp
  · field_simp
    ring

theorem passHead_costs [HasInf ℝ] {w w' : Work ℝ} {k : Nat} (h : passHead w k = .ok w') :
    ∃ cx b hz tau, eddot w.n w.c w.x = .ok cx ∧ (if w.p > 0 then eddot w.p w.b w.y else pure 0.0) = .ok b ∧
      eddot w.m w.h w.z = .ok hz ∧ w.tau = some tau ∧ w'.info.pcost = some (cx / tau) ∧
      w'.info.dcost = some ((-(hz + b)) / tau) ∧ w'.x = w.x ∧ w'.y = w.y ∧ w'.z = w.z ∧ w'.s = w.s ∧
      w'.tau = w.tau ∧ SameData w w' := by
  unfold passHead computeResiduals updateStatistics statIn at h
  simp only [bind_ok, pure_ok, get_ok] at h
  obtain ⟨w1, ⟨r, -, cx, h1, b, h2, hz, h3, kap, -, nx, -, ny, -, ns, -, nz, -, rfl⟩, i,
    ⟨gap, -, kap', -, tau, h4, cx', h5, b', h6, hz', h7, _, -, _, -, _, -, _, -, _, -, _, -, _, -, _, -, _, -, _, -,
      _, -, _, -, _, -, rfl⟩, rfl⟩ := h
  cases h5
  cases h6
  cases h7
  exact ⟨cx, b, hz, tau, h1, h2, h3, h4, rfl, rfl, rfl, rfl, rfl, rfl, rfl,
    ⟨rfl, rfl, rfl, rfl, rfl, rfl, rfl, rfl, rfl, rfl, rfl, rfl, rfl⟩⟩

/-- C14 for a solve: if what a solve hands back stems from the iterate `v` measured in `wm` (see
`C26_returned_partial`), then the variables are those of `v` in the user's units, the reported objectives are the
objectives of these variables for the user's data, and if `v` solves the scaled problem then these variables solve
the user's problem -/
theorem C14_returned [HasInf ℝ] {arrives : Nat → Bool} {w1 wm w' : Work ℝ} {sig : Sig} {k : Nat}
    (hmeas : Measured arrives w1 sig k wm) (hback : HandedBack wm w') {P P' : Dat} {E : Fac} {v : Iter}
    (hT : PatOk T) (hE : E.Ok S T) (hm : S.m = T.m) (hq : ∀ k, k < S.ns → 0 < S.q k) (hP : ScaledBy T P P' E)
    (hprob : ProbIs (· = ·) wm T P') (hit : IterIs (· = ·) wm T v) (hxe : Holds wm.xequil T.n E.x)
    (hAe : Holds wm.Aequil T.p E.A) (hGe : Holds wm.Gequil T.m E.G) (ht : 0 < v.tau) :
    (∀ j, j < T.n → w'.x[j]? = some (some ((v.user E).x j))) ∧
    (∀ i, i < T.p → w'.y[i]? = some (some ((v.user E).y i))) ∧
    (∀ i, i < T.m → w'.z[i]? = some (some ((v.user E).z i))) ∧
    (∀ i, i < T.m → w'.s[i]? = some (some ((v.user E).s i))) ∧
    w'.info.pcost = some (ip T.n P.c (v.user E).x) ∧
    w'.info.dcost = some (- ip T.p P.b (v.user E).y - ip T.m P.h (v.user E).z) ∧
    (Solves S T P' v → Solves S T P (v.user E)) := by
  have hcell : ∀ {b : Buf ℝ} {n : Nat} {f : Nat → ℝ} {i : Nat} {u : ℝ}, HoldsD (· = ·) b n f → i < n →
      b[i]? = some (some u) → u = f i := by
    intro b n f i u hb hi hu
    obtain ⟨u', h1, h2⟩ := hb.2 i hi
    rw [hu] at h1
    cases h1
    exact h2
  have hcell' : ∀ {b : Buf ℝ} {n : Nat} {f : Nat → ℝ} {i : Nat} {u : ℝ}, Holds b n f → i < n →
      b[i]? = some (some u) → u = f i := by
    intro b n f i u hb hi hu
    have h1 := hb.2 i hi
    rw [hu] at h1
    cases h1
    rfl
  have htau : ∀ {t : ℝ}, wm.tau = some t → t = v.tau := by
    intro t h
    obtain ⟨u, h1, h2⟩ := hit.tau
    rw [h] at h1
    cases h1
    exact h2
  refine ⟨fun j hj => ?_, fun i hi => ?_, fun i hi => ?_, fun i hi => ?_, ?_⟩
  · obtain ⟨u, e, t, h1, h2, h3, h4⟩ := hback.x j (by rw [hprob.n]; exact hj)
    rw [h4, hcell hit.x hj h1, hcell' hxe hj h2, htau h3]
    rfl
  · obtain ⟨u, e, t, h1, h2, h3, h4⟩ := hback.y i (by rw [hprob.p]; exact hi)
    rw [h4, hcell hit.y hi h1, hcell' hAe hi h2, htau h3]
    rfl
  · obtain ⟨u, e, t, h1, h2, h3, h4⟩ := hback.z i (by rw [hprob.m]; exact hi)
    rw [h4, hcell hit.z hi h1, hcell' hGe hi h2, htau h3]
    rfl
  · obtain ⟨u, e, t, h1, h2, h3, h4⟩ := hback.s i (by rw [hprob.m]; exact hi)
    rw [h4, hcell hit.s hi h1, hcell' hGe hi h2, htau h3]
    rfl
  · obtain ⟨St, -, -, hpass⟩ := hmeas
    obtain ⟨cx, b, hz, tau, h1, h2, h3, h4, h5, h6, e1, e2, e3, e4, e5, hd⟩ := passHead_costs hpass
    have hip : ∀ {n : Nat} {x y : Buf ℝ} {f g : Nat → ℝ} {r : ℝ}, HoldsD (· = ·) x n f → HoldsD (· = ·) y n g →
        eddot n x y = .ok r → r = ip n f g := by
      intro n x y f g r hx hy hr
      obtain ⟨r', h1, h2⟩ := (Ok.def _ _).1 (eddotD denReal hx hy)
      rw [hr] at h1
      cases h1
      exact h2
    rw [← hd.n, ← hd.c, ← e1, hprob.n] at h1
    rw [← hd.p, ← hd.b, ← e2, hprob.p] at h2
    rw [← hd.m, ← hd.h, ← e3, hprob.m] at h3
    have k1 := hip hprob.c hit.x h1
    have k3 := hip hprob.h hit.z h3
    have k2 : b = ip T.p P'.b v.y := by
      split at h2
      · exact hip hprob.b hit.y h2
      · simp only [pure_ok] at h2
        have hp0 : T.p = 0 := by omega
        rw [← h2]
        simp only [ip, hp0, range_zero, sum_empty]
        norm_num
    have k4 := htau (e5.trans h4)
    have hobj := C14_objective hE hP ht
    refine ⟨?_, ?_, C14_solution hT hE hm hq hP ht⟩
    · rw [hback.stats.pcost, h5, k1, k4, hobj.1]
    · rw [hback.stats.dcost, h6, k2, k3, k4, hobj.2]

/-! ### C15 -/

section updates

/-- the right-hand side in the user's units is `u` -/
def UserH (w : Work ℝ) (m : Nat) (e u : Nat → ℝ) : Prop :=
  Holds w.Gequil m e ∧ (∀ i, i < m → 0 < e i) ∧ ∃ f, Holds w.h m f ∧ ∀ i, i < m → f i * e i = u i

/-- the costs in the user's units are `u` (between solves they are kept in these units) -/
def UserC (w : Work ℝ) (n : Nat) (u : Nat → ℝ) : Prop := Holds w.c n u

/-- C15: updating entry `idx` of `h` changes exactly that entry of the user's right-hand side, and no other part of
the workspace -/
theorem C15_h {w : Work ℝ} {m : Nat} {e u : Nat → ℝ} (hw : UserH w m e u) {idx : Nat} (hi : idx < m) (value : ℝ) :
    Ok (ecosUpdateDataEntryH w idx value) fun w' =>
      UserH w' m e (fun i => if i = idx then value else u i) ∧ w' = { w with h := w'.h } := by
  obtain ⟨he, hp, f, hf, hu⟩ := hw
  unfold ecosUpdateDataEntryH
  rw [he.rd hi, ok_bind_eq]
  refine Ok.bind (hf.wr hi _) fun h' hh => ?_
  rw [Ok_pure]
  refine ⟨⟨he, hp, _, hh, fun i hi' => ?_⟩, rfl⟩
  by_cases h : i = idx
  · subst h
    show _ = if i = i then value else u i
    rw [upd_self, if_pos rfl, div_mul_cancel₀ _ (hp i hi).ne']
  · show _ = if i = idx then value else u i
    rw [upd_ne _ _ h, if_neg h]
    exact hu i hi'

/-- C15: updating entry `idx` of `c` changes exactly that entry -/
theorem C15_c {w : Work ℝ} {n : Nat} {u : Nat → ℝ} (hw : UserC w n u) {idx : Nat} (hi : idx < n) (value : ℝ) :
    Ok (ecosUpdateDataEntryC w idx value) fun w' =>
      UserC w' n (fun i => if i = idx then value else u i) ∧ w' = { w with c := w'.c } := by
  unfold ecosUpdateDataEntryC
  refine Ok.bind (Holds.wr hw hi _) fun c' hc => ?_
  rw [Ok_pure]
  refine ⟨hc.congr fun i _ => ?_, rfl⟩
  by_cases h : i = idx
  · subst h; rw [upd_self, if_pos rfl]
  · rw [upd_ne _ _ h, if_neg h]

/-- one update call -/
inductive Upd where
  | h (idx : Nat) (value : ℝ)
  | c (idx : Nat) (value : ℝ)

/-- its execution -/
noncomputable def Upd.run (w : Work ℝ) : Upd → M (Work ℝ)
  | .h i v => ecosUpdateDataEntryH w i v
  | .c i v => ecosUpdateDataEntryC w i v

/-- its effect on the user's data -/
noncomputable def Upd.apply (d : (Nat → ℝ) × (Nat → ℝ)) : Upd → (Nat → ℝ) × (Nat → ℝ)
  | .h i v => (fun j => if j = i then v else d.1 j, d.2)
  | .c i v => (d.1, fun j => if j = i then v else d.2 j)

/-- the index is in range -/
def Upd.InRange (m n : Nat) : Upd → Prop
  | .h i _ => i < m
  | .c i _ => i < n

/-- C15: every sequence of update calls has exactly the effect of the same assignments on the user's arrays -/
theorem C15_sequence {m n : Nat} {e : Nat → ℝ} (us : List Upd) : ∀ {w : Work ℝ} {d : (Nat → ℝ) × (Nat → ℝ)},
    UserH w m e d.1 → UserC w n d.2 → (∀ u ∈ us, u.InRange m n) →
    Ok (us.foldlM Upd.run w) fun w' =>
      UserH w' m e (us.foldl Upd.apply d).1 ∧ UserC w' n (us.foldl Upd.apply d).2 ∧
      w' = { w with h := w'.h, c := w'.c } := by
  induction us with
  | nil =>
    intro w d h1 h2 _
    rw [List.foldlM_nil, Ok_pure]
    exact ⟨h1, h2, rfl⟩
  | cons u us ih =>
    intro w d h1 h2 hr
    rw [List.foldlM_cons, List.foldl_cons]
    have hu := hr u List.mem_cons_self
    have hrest : ∀ v ∈ us, v.InRange m n := fun v hv => hr v (List.mem_cons_of_mem _ hv)
    cases u with
    | h i v =>
      refine Ok.bind (C15_h h1 hu v) fun w1 hw1 => ?_
      have h2' : UserC w1 n d.2 := by rw [hw1.2]; exact h2
      refine (ih (d := Upd.apply d (.h i v)) hw1.1 h2' hrest).mono fun w' hw' => ⟨hw'.1, hw'.2.1, ?_⟩
      rw [hw'.2.2, hw1.2]
    | c i v =>
      refine Ok.bind (C15_c h2 hu v) fun w1 hw1 => ?_
      have h1' : UserH w1 m e d.1 := by rw [hw1.2]; exact h1
      refine (ih (d := Upd.apply d (.c i v)) h1' hw1.1 hrest).mono fun w' hw' => ⟨hw'.1, hw'.2.1, ?_⟩
      rw [hw'.2.2, hw1.2]

end updates

/-! ### Concrete cases

One linear row and one second-order cone of dimension 3; a matrix with an empty row and an empty column. -/

open Cones

/-- `[[2,0],[-3,0],[0,0],[1,0]]` -/
def exPat : Pat :=
  { n := 2, m := 4, p := 0, hasA := false, jcA := fun _ => 0, irA := fun _ => 0,
    jcG := fun i => [0, 3, 3].getD i 0, irG := fun i => [0, 1, 3].getD i 0 }

noncomputable def exG : SpMat ℝ :=
  { jc := ofList [0, 3, 3], ir := ofList [0, 1, 3], pr := ofList [2, -3, 1], n := 2, m := 4, nnz := 3 }

noncomputable def exDat : Dat :=
  { a := fun _ => 0, g := fun i => ([2, -3, 1] : List ℝ).getD i 0, c := fun i => ([1, 0] : List ℝ).getD i 0,
    b := fun _ => 0, h := fun i => ([5, 2, 0, 1] : List ℝ).getD i 0 }

noncomputable def exEq : EqS ℝ := { A := none, G := exG, xe := malloc 2, Ae := malloc 0, Ge := malloc 4 }

theorem exEq_is : EqIs exEq exPat exDat.a exDat.g where
  A := by
    unfold RepA
    rw [if_neg (by decide)]
    exact ⟨rfl, rfl⟩
  G :=
    { m_eq := rfl
      n_eq := rfl
      nnz_eq := rfl
      hjc := ofList_holds [0, 3, 3]
      hir := ofList_holds [0, 1, 3]
      hpr := ofList_holds ([2, -3, 1] : List ℝ)
      ok := ⟨rfl, by decide, by decide⟩ }

theorem ex_m : exShape.m = exPat.m := by
  unfold Shape.m
  rw [ex_fexv]
  rfl

/-- hypotheses of C12 and C13 are met -/
example : Ok (do let r ← setEquilibration (exCone ℝ) exEq (ofList []) (ofList [5, 2, 0, 1])
                 unsetEquilibration r.1 r.2.1 r.2.2) fun q =>
    Holds q.2.2.2 4 exDat.h := by
  refine (C13_round_trip (exCone_is ℝ) ex_m exEq_is (by simp [exEq, malloc, exPat]) (by simp [exEq, malloc, exPat])
    (by simp [exEq, malloc, exPat]) (b := ofList []) (h := ofList [5, 2, 0, 1]) ⟨rfl, fun i hi => by cases hi⟩
    (ofList_holds ([5, 2, 0, 1] : List ℝ))).mono fun q hq => hq.2.2.2

/-- factors that are not all equal, and scaled data -/
noncomputable def exFac : Fac := { x := fun _ => 2, A := fun _ => 1, G := fun i => if i = 0 then 4 else 8 }

noncomputable def exDat' : Dat :=
  { a := exDat.a, g := fun k => exDat.g k / (exFac.G (exPat.irG k) * exFac.x (colOf exPat.n exPat.jcG k)),
    c := fun j => exDat.c j / 2, b := exDat.b, h := fun i => exDat.h i / exFac.G i }

/-- hypotheses of `C14_objective` are met -/
example : ip 2 exDat'.c (fun _ => 6) / 3 =
    ip 2 exDat.c (Iter.user { x := fun _ => 6, y := fun _ => 0, z := fun _ => 0, s := fun _ => 0, kap := 0, tau := 3 }
      exFac).x := by
  refine (C14_objective (S := exShape) (T := exPat) (P := exDat) (P' := exDat') (E := exFac) (v :=
    { x := fun _ => 6, y := fun _ => 0, z := fun _ => 0, s := fun _ => 0, kap := 0, tau := 3 }) ⟨?_, ?_, ?_, ?_, ?_⟩
    ⟨?_, ?_, ?_, ?_, ?_⟩ (by norm_num)).1
  · intro j _; simp [exFac]
  · intro j _; simp [exFac]
  · intro j _; simp only [exFac]; split <;> norm_num
  · intro k _ j _
    simp [exFac, exShape, Shape.start]
  · intro l hl
    cases hl
  · intro h; cases h
  · intro k _; rfl
  · intro j _; rfl
  · intro i hi; cases hi
  · intro i _; rfl

/-- two updates of `h` with factors 2: the second overwrites the first, in the user's units -/
example (w : Work ℝ) (hg : w.Gequil = ofList [2, 2]) (hh : w.h = ofList [1, 5]) (hc : w.c = ofList [3]) :
    Ok ([Upd.h 1 7, .c 0 4, .h 1 8].foldlM Upd.run w) fun w' => ∃ u, UserH w' 2 (fun _ => 2) u ∧ u 0 = 2 ∧ u 1 = 8 := by
  refine (C15_sequence (m := 2) (n := 1) (e := fun _ => 2) [Upd.h 1 7, .c 0 4, .h 1 8] (w := w)
    (d := (fun i => ([2, 10] : List ℝ).getD i 0, fun i => ([3] : List ℝ).getD i 0)) ⟨?_, fun _ _ => two_pos, _,
      by rw [hh]; exact ofList_holds ([1, 5] : List ℝ), ?_⟩ ?_ ?_).mono fun w' h => ⟨_, h.1, ?_, ?_⟩
  · rw [hg]
    refine (ofList_holds ([2, 2] : List ℝ)).congr fun i hi => ?_
    match i with
    | 0 => rfl
    | 1 => rfl
    | i + 2 => simp at hi
  · intro i hi
    match i with
    | 0 => norm_num
    | 1 => norm_num
    | i + 2 => omega
  · unfold UserC
    rw [hc]
    exact ofList_holds ([3] : List ℝ)
  · intro u hu
    simp only [List.mem_cons, List.not_mem_nil, or_false] at hu
    rcases hu with rfl | rfl | rfl <;> simp [Upd.InRange]
  · norm_num [Upd.apply]
  · norm_num [Upd.apply]

end Ecos.Equil
