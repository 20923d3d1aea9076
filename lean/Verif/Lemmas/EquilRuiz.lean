import Verif.Lemmas.EquilAlt

/-!
# Exact kernel specifications for the Ruiz equilibration
-/
namespace Ecos

set_option linter.unusedSectionVars false

section generic
variable {F : Type} [Zero F] [One F] [Add F] [Sub F] [Mul F] [Div F] [Neg F] [OfScientific F]
  [IntCast F] [PFloat F]

/-- collect the largest absolute value among the first `K` values, each in the cell `key k` -/
def accMax (key : Nat → Nat) (pr : Nat → F) (f : Nat → F) : Nat → Nat → F
  | 0 => f
  | K + 1 => upd (accMax key pr f K) (key K) (fmax (PFloat.fabs (pr K)) (accMax key pr f K (key K)))

section
variable {A : SpMat F} {m n : Nat} {jc ir : Nat → Nat} {pr : Nat → F}

theorem maxRows_acc (hA : Rep A m n jc ir pr) {E : Buf F} {f : Nat → F} (hE : Holds E m f) :
    Ok (maxRows E A) fun E' => Holds E' m (accMax ir pr f (jc n)) := by
  unfold maxRows walk
  rw [hA.n_eq]
  refine walk_ok hA.ok hA.hjc (fun k E' => Holds E' m (accMax ir pr f k)) hE ?_ (fun _ h => h)
  rintro j k s - - - hk h1
  have hr := hA.ok.rows k hk
  rw [hA.hir.rd hk, ok_bind_eq, hA.hpr.rd hk, ok_bind_eq, h1.rd hr, ok_bind_eq]
  exact h1.wr hr _

theorem maxCols_acc (hA : Rep A m n jc ir pr) {E : Buf F} {f : Nat → F} (hE : Holds E n f) :
    Ok (maxCols E A) fun E' => Holds E' n (accMax (colOf n jc) pr f (jc n)) := by
  unfold maxCols walk
  rw [hA.n_eq]
  refine walk_ok hA.ok hA.hjc (fun k E' => Holds E' n (accMax (colOf n jc) pr f k)) hE ?_ (fun _ h => h)
  rintro j k s hj h2 h3 hk h1
  rw [hA.hpr.rd hk, ok_bind_eq, h1.rd hj, ok_bind_eq]
  have hw := h1.wr hj (fmax (PFloat.fabs (pr k)) (accMax (colOf n jc) pr f k j))
  refine hw.mono fun E' h => ?_
  show Holds E' n (upd _ (colOf n jc k) _)
  rw [colOf_eq hA.ok hj h2 h3]
  exact h

end

theorem collapseGroup_sum {E : Buf F} {f : Nat → F} {ind p : Nat} (hE : Has E ind p fun i => f (ind + i)) (hs : ind + p ≤ E.size) :
    Ok (collapseGroup E ind p) fun E' => Seg E E' ind p fun _ => segSum f ind p := by
  unfold collapseGroup
  refine Ok.bind (P := fun t => t = segSum f ind p) (loop_ok (fun k t => t = segSum f ind k) (by omega) rfl ?_ (fun _ h => h)) fun t ht => ?_
  · rintro i t - hi rfl
    rw [hE.rd hi, ok_bind_eq, Ok_pure]
    rfl
  · rw [ht]
    exact fill_ok (g := fun _ => segSum f ind p) hs (fun _ _ => rfl)

/-- `f'` is `f` with the total over each cone -/
structure Totalled (S : Shape) (f f' : Nat → F) : Prop where
  lp : ∀ i, i < S.l → f' i = f i
  soc : ∀ k, k < S.ns → ∀ j, j < S.q k → f' (S.start k + j) = segSum f (S.start k) (S.q k)
  exp : ∀ l, l < S.ne → ∀ j, j < 3 → f' (S.fexv + 3 * l + j) = segSum f (S.fexv + 3 * l) 3

theorem collapseCones_sum {C : Cone F} {S : Shape} (hC : ConeIs C S) {E : Buf F} {f : Nat → F} (hE : Holds E S.m f) :
    Ok (collapseCones C E) fun E' => ∃ f', Holds E' S.m f' ∧ Totalled S f f' := by
  have hl : S.l ≤ S.fexv := S.l_le _
  have hm : S.m = S.fexv + 3 * S.ne := rfl
  unfold collapseCones
  refine Ok.bind (forSoc_ok0 hC (fun k E' => ∃ f', Holds E' S.m f' ∧ (∀ i, i < S.l → f' i = f i) ∧
    (∀ i, S.start k ≤ i → i < S.m → f' i = f i) ∧
    ∀ k', k' < k → ∀ j, j < S.q k' → f' (S.start k' + j) = segSum f (S.start k') (S.q k'))
    ⟨f, hE, fun _ _ => rfl, fun _ _ _ => rfl, fun k' hk' => by omega⟩ ?_) ?_
  · rintro k soc s hk - hq ⟨f', h1, h2, h3, h4⟩
    have hle := S.start_le hk
    have hlk : S.l ≤ S.start k := S.l_le _
    have hsucc : S.start (k + 1) = S.start k + S.q k := S.start_succ k
    rw [hq]
    refine (collapseGroup_sum (f := f') (h1.has (off := S.start k) (k := S.q k) (by omega)) (by rw [h1.size]; omega)).mono ?_
    intro E' hs
    refine ⟨_, seg_holds h1 hs, fun i hi => ?_, fun i hi him => ?_, fun k' hk' j hj => ?_⟩
    · unfold segC
      rw [if_neg (by omega)]
      exact h2 i hi
    · unfold segC
      rw [if_neg (by omega)]
      exact h3 i (by omega) him
    · unfold segC
      by_cases hkk : k' = k
      · subst hkk
        rw [if_pos (by omega), segSum_congr fun j hj => h3 _ (by omega) (by omega)]
      · have := S.disj (show k' < k by omega)
        rw [if_neg (by omega)]
        exact h4 k' (by omega) j hj
  · rintro ⟨E1, o⟩ ⟨⟨f1, h1, h2, h3, h4⟩, ho⟩
    simp only at h1 ho ⊢
    subst ho
    rw [hC.nexc]
    have hfe : S.start S.ns = S.fexv := rfl
    rw [hfe] at h3
    refine loop_ok (fun l E' => ∃ f', Holds E' S.m f' ∧ (∀ i, i < S.l → f' i = f i) ∧
      (∀ k', k' < S.ns → ∀ j, j < S.q k' → f' (S.start k' + j) = segSum f (S.start k') (S.q k')) ∧
      (∀ i, S.fexv + 3 * l ≤ i → i < S.m → f' i = f i) ∧
      ∀ l', l' < l → ∀ j, j < 3 → f' (S.fexv + 3 * l' + j) = segSum f (S.fexv + 3 * l') 3) (by omega)
      ⟨f1, h1, h2, h4, h3, fun l' hl' => by omega⟩ ?_ ?_
    · rintro l s - hl' ⟨f', g1, g2, g3, g4, g5⟩
      refine (collapseGroup_sum (f := f') (g1.has (off := S.fexv + 3 * l) (k := 3) (by omega)) (by rw [g1.size]; omega)).mono ?_
      intro E' hs
      refine ⟨_, seg_holds g1 hs, fun i hi => ?_, fun k' hk' j hj => ?_, fun i hi him => ?_, fun l' hl' j hj => ?_⟩
      · unfold segC
        rw [if_neg (by omega)]
        exact g2 i hi
      · have := S.start_le hk'
        unfold segC
        rw [if_neg (by omega)]
        exact g3 k' hk' j hj
      · unfold segC
        rw [if_neg (by omega)]
        exact g4 i (by omega) him
      · unfold segC
        by_cases hll : l' = l
        · subst hll
          rw [if_pos (by omega), segSum_congr fun j hj => g4 _ (by omega) (by omega)]
        · rw [if_neg (by omega)]
          exact g5 l' (by omega) j hj
    · rintro s ⟨f', g1, g2, g3, g4, g5⟩
      exact ⟨f', g1, g2, g3, g5⟩

variable {C : Cone F} {S : Shape} {T : Pat}

/-- the factors of one pass -/
structure RuizRes (S : Shape) (T : Pat) (a g x y z : Nat → F) : Prop where
  A : T.hasA → ∀ i, i < T.p → y i = sqrtOrOne (accMax T.irA a (fun _ => 0) (T.jcA T.n) i)
  G : ∃ f, Totalled S (accMax T.irG g (fun _ => 0) (T.jcG T.n)) f ∧ ∀ i, i < T.m → z i = sqrtOrOne (f i)
  x : ∀ j, j < T.n → x j = sqrtOrOne (accMax (colOf T.n T.jcG) g
    (if T.hasA then accMax (colOf T.n T.jcA) a (fun _ => 0) (T.jcA T.n) else fun _ => 0) (T.jcG T.n) j)

theorem ruizFactors_res (hC : ConeIs C S) (hm : S.m = T.m) {e : EqS F} {a g : Nat → F} (he : EqIs e T a g) :
    Ok (ruizFactors C e) fun t => ∃ x y z, RuizRes S T a g x y z ∧ Holds t.1 T.n x ∧ Holds t.2.1 T.p y ∧ Holds t.2.2 T.m z := by
  unfold ruizFactors
  rw [he.cols, he.rowsA, he.rowsG]
  refine Ok.bind (fill_holds (g := fun _ => 0) (by simp) (fun _ _ => rfl)) fun xe0 hx0 => ?_
  refine Ok.bind (fill_holds (g := fun _ => 0) (by simp) (fun _ _ => rfl)) fun ye0 hy0 => ?_
  refine Ok.bind (fill_holds (g := fun _ => 0) (by simp) (fun _ _ => rfl)) fun ze0 hz0 => ?_
  refine Ok.bind (onA_cases (Q := fun E => Holds E T.n
    (if T.hasA then accMax (colOf T.n T.jcA) a (fun _ => 0) (T.jcA T.n) else fun _ => 0)) he.A
    (fun hA => by rw [if_neg hA]; exact hx0) fun hA M hM => by rw [if_pos hA]; exact maxCols_acc hM hx0) fun xe1 hx1 => ?_
  refine Ok.bind (P := fun E => Holds E T.n (accMax (colOf T.n T.jcG) g
    (if T.hasA then accMax (colOf T.n T.jcA) a (fun _ => 0) (T.jcA T.n) else fun _ => 0) (T.jcG T.n)))
    ?_ fun xe2 hx2 => ?_
  · split
    · exact maxCols_acc he.G hx1
    · rename_i h0
      rw [Ok_pure]
      have := he.G
      rw [show T.m = 0 by omega] at this
      rw [this.empty]
      exact hx1
  refine Ok.bind (onA_cases (Q := fun E => ∃ f, Holds E T.p f ∧ (T.hasA → f = accMax T.irA a (fun _ => 0) (T.jcA T.n))) he.A
    (fun hA => ⟨_, hy0, fun h => absurd h hA⟩) fun _ M hM => (maxRows_acc hM hy0).mono fun E' h => ⟨_, h, fun _ => rfl⟩) ?_
  rintro ye1 ⟨y1, hy1, ey1⟩
  refine Ok.bind (P := fun E => Holds E T.m (accMax T.irG g (fun _ => 0) (T.jcG T.n))) ?_ fun ze1 hz1 => ?_
  · split
    · exact maxRows_acc he.G hz0
    · rename_i h0
      rw [Ok_pure]
      exact hz0.congr fun i hi => by omega
  rw [← hm] at hz1
  refine Ok.bind (collapseCones_sum hC hz1) ?_
  rintro ze2 ⟨z2, hz2, az⟩
  rw [hm] at hz2
  refine Ok.bind (modify_holds (g := fun j => sqrtOrOne (accMax (colOf T.n T.jcG) g
    (if T.hasA then accMax (colOf T.n T.jcA) a (fun _ => 0) (T.jcA T.n) else fun _ => 0) (T.jcG T.n) j)) hx2 (fun _ _ => rfl)) fun xe3 hx3 => ?_
  refine Ok.bind (modify_holds (g := fun i => sqrtOrOne (y1 i)) hy1 (fun _ _ => rfl)) fun ye3 hy3 => ?_
  refine Ok.bind (modify_holds (g := fun i => sqrtOrOne (z2 i)) hz2 (fun _ _ => rfl)) fun ze3 hz3 => ?_
  rw [Ok_pure]
  exact ⟨_, _, _, ⟨fun hA i hi => by rw [ey1 hA], ⟨z2, az, fun _ _ => rfl⟩, fun _ _ => rfl⟩, hx3, hy3, hz3⟩

/-- one pass: the values are divided by the factors, the factors are multiplied to those of earlier passes -/
theorem ruizPass_res (hC : ConeIs C S) (hm : S.m = T.m) {e : EqS F} {a g x y z : Nat → F} (hE : EqIs e T a g) (hx : Holds e.xe T.n x)
    (hy : Holds e.Ae T.p y) (hz : Holds e.Ge T.m z) :
    Ok (ruizPass C e) fun e' => ∃ x' y' z', RuizRes S T a g x' y' z' ∧
      EqIs e' T (fun k => a k / y' (T.irA k) / x' (colOf T.n T.jcA k)) (fun k => g k / z' (T.irG k) / x' (colOf T.n T.jcG k)) ∧
      Holds e'.xe T.n (fun i => x i * x' i) ∧ Holds e'.Ae T.p (fun i => y i * y' i) ∧ Holds e'.Ge T.m (fun i => z i * z' i) := by
  unfold ruizPass
  refine Ok.bind (ruizFactors_res hC hm hE) ?_
  rintro t ⟨x', y', z', hr, hx', hy', hz'⟩
  rw [hE.cols, hE.rowsA, hE.rowsG]
  refine Ok.bind (mapA_ok hE.A fun M hM => equilibrateRows_ok hM hy') fun A1 hA1 => ?_
  refine Ok.bind (P := fun G => Rep G T.m T.n T.jcG T.irG fun k => g k / z' (T.irG k)) ?_ fun G1 hG1 => ?_
  · split
    · exact equilibrateRows_ok hE.G hz'
    · rename_i h0
      rw [Ok_pure]
      have := hE.G
      rw [show T.m = 0 by omega] at this ⊢
      exact this.noEntries
  refine Ok.bind (mapA_ok hA1 fun M hM => equilibrateCols_ok hM hx') fun A2 hA2 => ?_
  refine Ok.bind (P := fun G => Rep G T.m T.n T.jcG T.irG fun k => g k / z' (T.irG k) / x' (colOf T.n T.jcG k)) ?_
    fun G2 hG2 => ?_
  · split
    · exact equilibrateCols_ok hG1 hx'
    · rename_i h0
      rw [Ok_pure]
      have := hG1
      rw [show T.m = 0 by omega] at this ⊢
      exact this.noEntries
  refine Ok.bind (mulBy_ok hx hx') fun x2 hx2 => ?_
  refine Ok.bind (mulBy_ok hy hy') fun y2 hy2 => ?_
  refine Ok.bind (mulBy_ok hz hz') fun z2 hz2 => ?_
  rw [Ok_pure]
  exact ⟨x', y', z', hr, ⟨hA2, hG2⟩, hx2, hy2, hz2⟩

/-- product of the factors of the first passes -/
def passProd (x : Nat → Nat → F) : Nat → Nat → F
  | 0 => fun _ => 1.0
  | i + 1 => fun k => passProd x i k * x i k

theorem passProd_congr {x x' : Nat → Nat → F} {N : Nat} (h : ∀ i, i < N → x i = x' i) : passProd x N = passProd x' N := by
  induction N with
  | zero => rfl
  | succ N ih =>
    funext k
    rw [passProd, passProd, ih fun i hi => h i (by omega), h N (by omega)]

/-- `N` passes: `x i`, `y i`, `z i` are the factors of pass `i`, which finds the values `a i`, `g i` -/
structure Passes (S : Shape) (T : Pat) (N : Nat) (x y z a g : Nat → Nat → F) : Prop where
  res : ∀ i, i < N → RuizRes S T (a i) (g i) (x i) (y i) (z i)
  a : ∀ i, i < N → a (i + 1) = fun k => a i k / y i (T.irA k) / x i (colOf T.n T.jcA k)
  g : ∀ i, i < N → g (i + 1) = fun k => g i k / z i (T.irG k) / x i (colOf T.n T.jcG k)

/-- one more -/
theorem Passes.succ {N : Nat} {x y z a g : Nat → Nat → F} (h : Passes S T N x y z a g) {x' y' z' : Nat → F}
    (hr : RuizRes S T (a N) (g N) x' y' z') :
    Passes S T (N + 1) (upd x N x') (upd y N y') (upd z N z') (upd a (N + 1) fun k => a N k / y' (T.irA k) / x' (colOf T.n T.jcA k))
      (upd g (N + 1) fun k => g N k / z' (T.irG k) / x' (colOf T.n T.jcG k)) := by
  refine ⟨fun i hi => ?_, fun i hi => ?_, fun i hi => ?_⟩ <;> rcases (by omega : i < N ∨ i = N) with hlt | rfl
  · rw [upd_ne _ _ (by omega), upd_ne _ _ (by omega), upd_ne _ _ (by omega), upd_ne _ _ (by omega), upd_ne _ _ (by omega)]
    exact h.res i hlt
  · rw [upd_ne _ _ (by omega), upd_ne _ _ (by omega), upd_self, upd_self, upd_self]
    exact hr
  · rw [upd_ne _ _ (by omega), upd_ne _ _ (by omega), upd_ne _ _ (by omega), upd_ne _ _ (by omega)]
    exact h.a i hlt
  · rw [upd_self, upd_self, upd_self, upd_ne _ _ (by omega)]
  · rw [upd_ne _ _ (by omega), upd_ne _ _ (by omega), upd_ne _ _ (by omega), upd_ne _ _ (by omega)]
    exact h.g i hlt
  · rw [upd_self, upd_self, upd_self, upd_ne _ _ (by omega)]

/-- `set_equilibration`, pass by pass -/
theorem setEquilibration_res (hC : ConeIs C S) (hm : S.m = T.m) {e : EqS F} {a0 g0 : Nat → F} (he : EqIs e T a0 g0) (hx : e.xe.size = T.n)
    (hy : e.Ae.size = T.p) (hz : e.Ge.size = T.m) {b h : Buf F} {bf hf : Nat → F} (hb : Holds b T.p bf) (hh : Holds h T.m hf) :
    Ok (setEquilibration C e b h) fun r => ∃ x y z a g : Nat → Nat → F, Passes S T EQUIL_ITERS x y z a g ∧ a 0 = a0 ∧ g 0 = g0 ∧
      EqIs r.1 T (a EQUIL_ITERS) (g EQUIL_ITERS) ∧ Holds r.1.xe T.n (passProd x EQUIL_ITERS) ∧
      Holds r.1.Ae T.p (passProd y EQUIL_ITERS) ∧ Holds r.1.Ge T.m (passProd z EQUIL_ITERS) ∧
      Holds r.2.1 T.p (fun i => bf i / passProd y EQUIL_ITERS i) ∧ Holds r.2.2 T.m (fun i => hf i / passProd z EQUIL_ITERS i) := by
  unfold setEquilibration
  rw [he.cols, he.rowsA, he.rowsG]
  refine Ok.bind (fill_holds (g := fun _ => (1.0 : F)) hx (fun _ _ => rfl)) fun xe hxe => ?_
  refine Ok.bind (fill_holds (g := fun _ => (1.0 : F)) hy (fun _ _ => rfl)) fun ye hye => ?_
  refine Ok.bind (fill_holds (g := fun _ => (1.0 : F)) hz (fun _ _ => rfl)) fun ze hze => ?_
  refine Ok.bind (loop_ok (fun N e' => ∃ x y z a g : Nat → Nat → F, Passes S T N x y z a g ∧ a 0 = a0 ∧ g 0 = g0 ∧
      EqIs e' T (a N) (g N) ∧ Holds e'.xe T.n (passProd x N) ∧ Holds e'.Ae T.p (passProd y N) ∧ Holds e'.Ge T.m (passProd z N))
    (Nat.zero_le _) ?_ ?_ (fun _ h => h)) ?_
  · exact ⟨fun _ _ => 0, fun _ _ => 0, fun _ _ => 0, fun _ => a0, fun _ => g0, ⟨fun i hi => by omega, fun i hi => by omega, fun i hi => by omega⟩,
      rfl, rfl, ⟨he.A, he.G⟩, hxe, hye, hze⟩
  · rintro N e' - - ⟨x, y, z, a, g, hp, ha, hg, hE, kx, ky, kz⟩
    refine (ruizPass_res hC hm hE kx ky kz).mono ?_
    rintro e3 ⟨x', y', z', hr, q, qx, qy, qz⟩
    refine ⟨_, _, _, _, _, hp.succ hr, ?_, ?_, ?_, ?_, ?_, ?_⟩
    · rw [upd_ne _ _ (by omega)]
      exact ha
    · rw [upd_ne _ _ (by omega)]
      exact hg
    · rw [upd_self, upd_self]
      exact q
    · refine qx.congr fun i _ => ?_
      rw [passProd, upd_self, passProd_congr (x' := x) fun i hi => upd_ne _ _ (by omega)]
    · refine qy.congr fun i _ => ?_
      rw [passProd, upd_self, passProd_congr (x' := y) fun i hi => upd_ne _ _ (by omega)]
    · refine qz.congr fun i _ => ?_
      rw [passProd, upd_self, passProd_congr (x' := z) fun i hi => upd_ne _ _ (by omega)]
  · rintro e' ⟨x, y, z, a, g, hp, ha, hg, hE, kx, ky, kz⟩
    rw [hE.rowsA, hE.rowsG]
    refine Ok.bind (divBy_ok hb ky) fun b' hb' => ?_
    refine Ok.bind (divBy_ok hh kz) fun h' hh' => ?_
    rw [Ok_pure]
    exact ⟨x, y, z, a, g, hp, ha, hg, hE, kx, ky, kz, hb', hh'⟩

end generic
end Ecos
