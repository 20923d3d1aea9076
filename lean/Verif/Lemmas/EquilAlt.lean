import Verif.Lemmas.Equil2
import Verif.Model.EquilAlt

/-!
# Kernel specifications for the alternating norm equilibration
-/
namespace Ecos

set_option linter.unusedSectionVars false

open Finset

section generic
variable {F : Type} [Zero F] [One F] [Add F] [Sub F] [Mul F] [Div F] [Neg F] [OfScientific F]
  [IntCast F] [PFloat F]

/-- add the squares of the first `K` values, each to the cell `key k` -/
def accSq (key : Nat → Nat) (pr : Nat → F) (f : Nat → F) : Nat → Nat → F
  | 0 => f
  | K + 1 => upd (accSq key pr f K) (key K) (accSq key pr f K (key K) + pr K * pr K)

/-- sum of `p` values from `ind` on, in order -/
def segSum (f : Nat → F) (ind : Nat) : Nat → F
  | 0 => 0
  | p + 1 => segSum f ind p + f (ind + p)

theorem segSum_congr {f g : Nat → F} {ind p : Nat} (h : ∀ j, j < p → f (ind + j) = g (ind + j)) : segSum f ind p = segSum g ind p := by
  induction p with
  | zero => rfl
  | succ p ih => rw [segSum, segSum, ih fun j hj => h j (by omega), h p (by omega)]

section
variable {A : SpMat F} {m n : Nat} {jc ir : Nat → Nat} {pr : Nat → F}

theorem sumSqRows_ok (hA : Rep A m n jc ir pr) {E : Buf F} {f : Nat → F} (hE : Holds E m f) :
    Ok (sumSqRows E A) fun E' => Holds E' m (accSq ir pr f (jc n)) := by
  unfold sumSqRows walk
  rw [hA.n_eq]
  refine walk_ok hA.ok hA.hjc (fun k E' => Holds E' m (accSq ir pr f k)) hE ?_ (fun _ h => h)
  rintro j k s - - - hk h1
  have hr := hA.ok.rows k hk
  rw [hA.hir.rd hk, ok_bind_eq, hA.hpr.rd hk, ok_bind_eq, h1.rd hr, ok_bind_eq]
  exact h1.wr hr _

theorem sumSqCols_ok (hA : Rep A m n jc ir pr) {E : Buf F} {f : Nat → F} (hE : Holds E n f) :
    Ok (sumSqCols E A) fun E' => Holds E' n (accSq (colOf n jc) pr f (jc n)) := by
  unfold sumSqCols walk
  rw [hA.n_eq]
  refine walk_ok hA.ok hA.hjc (fun k E' => Holds E' n (accSq (colOf n jc) pr f k)) hE ?_ (fun _ h => h)
  rintro j k s hj h2 h3 hk h1
  rw [hA.hpr.rd hk, ok_bind_eq, h1.rd hj, ok_bind_eq]
  have hw := h1.wr hj (accSq (colOf n jc) pr f k j + pr k * pr k)
  refine hw.mono fun E' h => ?_
  show Holds E' n (upd _ (colOf n jc k) _)
  rw [colOf_eq hA.ok hj h2 h3]
  exact h

end

theorem averageGroup_ok {E : Buf F} {f : Nat → F} {ind p : Nat} (hE : Has E ind p fun i => f (ind + i)) (hs : ind + p ≤ E.size) (d : F) :
    Ok (averageGroup E ind p d) fun E' => Seg E E' ind p fun _ => segSum f ind p / d := by
  unfold averageGroup
  refine Ok.bind (P := fun t => t = segSum f ind p) (loop_ok (fun k t => t = segSum f ind k) (by omega) rfl ?_ (fun _ h => h)) fun t ht => ?_
  · rintro i t - hi rfl
    rw [hE.rd hi, ok_bind_eq, Ok_pure]
    rfl
  · rw [ht]
    exact fill_ok (g := fun _ => segSum f ind p / d) hs (fun _ _ => rfl)

/-- `f'` is `f` with the mean over each cone -/
structure Averaged (S : Shape) (f f' : Nat → F) : Prop where
  lp : ∀ i, i < S.l → f' i = f i
  soc : ∀ k, k < S.ns → ∀ j, j < S.q k → f' (S.start k + j) = segSum f (S.start k) (S.q k) / ((S.q k : Int) : F)
  exp : ∀ l, l < S.ne → ∀ j, j < 3 → f' (S.fexv + 3 * l + j) = segSum f (S.fexv + 3 * l) 3 / 3.0

theorem averageCones_ok {C : Cone F} {S : Shape} (hC : ConeIs C S) {E : Buf F} {f : Nat → F} (hE : Holds E S.m f) :
    Ok (averageCones C E) fun E' => ∃ f', Holds E' S.m f' ∧ Averaged S f f' := by
  have hl : S.l ≤ S.fexv := S.l_le _
  have hm : S.m = S.fexv + 3 * S.ne := rfl
  unfold averageCones
  refine Ok.bind (forSoc_ok0 hC (fun k E' => ∃ f', Holds E' S.m f' ∧ (∀ i, i < S.l → f' i = f i) ∧
    (∀ i, S.start k ≤ i → i < S.m → f' i = f i) ∧
    ∀ k', k' < k → ∀ j, j < S.q k' → f' (S.start k' + j) = segSum f (S.start k') (S.q k') / ((S.q k' : Int) : F))
    ⟨f, hE, fun _ _ => rfl, fun _ _ _ => rfl, fun k' hk' => by omega⟩ ?_) ?_
  · rintro k soc s hk - hq ⟨f', h1, h2, h3, h4⟩
    have hle := S.start_le hk
    have hlk : S.l ≤ S.start k := S.l_le _
    have hsucc : S.start (k + 1) = S.start k + S.q k := S.start_succ k
    rw [hq]
    refine (averageGroup_ok (f := f') (h1.has (off := S.start k) (k := S.q k) (by omega)) (by rw [h1.size]; omega) _).mono ?_
    intro E' hs
    refine ⟨_, seg_holds h1 hs, fun i hi => ?_, fun i hi him => ?_, fun k' hk' j hj => ?_⟩
    · unfold segC
      rw [if_neg (by omega)]
      exact h2 i hi
    · unfold segC
      rw [if_neg (by omega)]
      exact h3 i (by omega) him
    · unfold segC
      by_cases hkk : k' = k
      · subst hkk
        rw [if_pos (by omega), segSum_congr fun j hj => h3 _ (by omega) (by omega)]
      · have := S.disj (show k' < k by omega)
        rw [if_neg (by omega)]
        exact h4 k' (by omega) j hj
  · rintro ⟨E1, o⟩ ⟨⟨f1, h1, h2, h3, h4⟩, ho⟩
    simp only at h1 ho ⊢
    subst ho
    rw [hC.nexc]
    have hfe : S.start S.ns = S.fexv := rfl
    rw [hfe] at h3
    refine loop_ok (fun l E' => ∃ f', Holds E' S.m f' ∧ (∀ i, i < S.l → f' i = f i) ∧
      (∀ k', k' < S.ns → ∀ j, j < S.q k' → f' (S.start k' + j) = segSum f (S.start k') (S.q k') / ((S.q k' : Int) : F)) ∧
      (∀ i, S.fexv + 3 * l ≤ i → i < S.m → f' i = f i) ∧
      ∀ l', l' < l → ∀ j, j < 3 → f' (S.fexv + 3 * l' + j) = segSum f (S.fexv + 3 * l') 3 / 3.0) (by omega)
      ⟨f1, h1, h2, h4, h3, fun l' hl' => by omega⟩ ?_ ?_
    · rintro l s - hl' ⟨f', g1, g2, g3, g4, g5⟩
      refine (averageGroup_ok (f := f') (g1.has (off := S.fexv + 3 * l) (k := 3) (by omega)) (by rw [g1.size]; omega) _).mono ?_
      intro E' hs
      refine ⟨_, seg_holds g1 hs, fun i hi => ?_, fun k' hk' j hj => ?_, fun i hi him => ?_, fun l' hl' j hj => ?_⟩
      · unfold segC
        rw [if_neg (by omega)]
        exact g2 i hi
      · have := S.start_le hk'
        unfold segC
        rw [if_neg (by omega)]
        exact g3 k' hk' j hj
      · unfold segC
        rw [if_neg (by omega)]
        exact g4 i (by omega) him
      · unfold segC
        by_cases hll : l' = l
        · subst hll
          rw [if_pos (by omega), segSum_congr fun j hj => g4 _ (by omega) (by omega)]
        · rw [if_neg (by omega)]
          exact g5 l' (by omega) j hj
    · rintro s ⟨f', g1, g2, g3, g4, g5⟩
      exact ⟨f', g1, g2, g3, g5⟩

variable {C : Cone F} {S : Shape} {T : Pat}

theorem onA_cases {σ : Type} {A : Option (SpMat F)} {T : Pat} {a : Nat → F} (hA : RepA A T a) {s : σ}
    {f : σ → SpMat F → M σ} {Q : σ → Prop} (hs : ¬ T.hasA → Q s)
    (hf : T.hasA → ∀ M, Rep M T.p T.n T.jcA T.irA a → Ok (f s M) Q) : Ok (onA A s f) Q := by
  unfold RepA at hA
  split at hA
  · rename_i hh
    obtain ⟨M, rfl, h⟩ := hA
    exact hf hh M h
  · rename_i hh
    rw [hA.1]
    show Ok (pure s) Q
    rw [Ok_pure]
    exact hs hh

/-- what `use_alternating_norm_equilibration` computes -/
structure AltRes (S : Shape) (T : Pat) (a g x y z : Nat → F) : Prop where
  A : T.hasA → ∀ i, i < T.p → y i = sqrtOrOne (accSq T.irA a (fun _ => 0) (T.jcA T.n) i)
  G : ∃ f, Averaged S (accSq T.irG g (fun _ => 0) (T.jcG T.n)) f ∧ ∀ i, i < T.m → z i = sqrtOrOne (f i)
  x : ∀ j, j < T.n → x j = sqrtOrOne (accSq (colOf T.n T.jcG) (fun k => g k / z (T.irG k))
    (if T.hasA then accSq (colOf T.n T.jcA) (fun k => a k / y (T.irA k)) (fun _ => 0) (T.jcA T.n) else fun _ => 0) (T.jcG T.n) j)

theorem altEquilibration_ok (hC : ConeIs C S) (hm : S.m = T.m) {e : EqS F} {a g : Nat → F} (he : EqIs e T a g) (hx : e.xe.size = T.n)
    (hy : e.Ae.size = T.p) (hz : e.Ge.size = T.m) {b h : Buf F} {bf hf : Nat → F} (hb : Holds b T.p bf) (hh : Holds h T.m hf) :
    Ok (altEquilibration C e b h) fun r => ∃ x y z, AltRes S T a g x y z ∧
      EqIs r.1 T (fun k => a k / y (T.irA k) / x (colOf T.n T.jcA k)) (fun k => g k / z (T.irG k) / x (colOf T.n T.jcG k)) ∧
      Holds r.1.xe T.n x ∧ Holds r.1.Ae T.p y ∧ Holds r.1.Ge T.m z ∧
      Holds r.2.1 T.p (fun i => bf i / y i) ∧ Holds r.2.2 T.m (fun i => hf i / z i) := by
  unfold altEquilibration
  rw [he.cols, he.rowsA, he.rowsG]
  refine Ok.bind (fill_holds (g := fun _ => 0) hx (fun _ _ => rfl)) fun xe0 hx0 => ?_
  refine Ok.bind (fill_holds (g := fun _ => 0) hy (fun _ _ => rfl)) fun ye0 hy0 => ?_
  refine Ok.bind (fill_holds (g := fun _ => 0) hz (fun _ _ => rfl)) fun ze0 hz0 => ?_
  refine Ok.bind (onA_cases (Q := fun E => ∃ f, Holds E T.p f ∧ (T.hasA → f = accSq T.irA a (fun _ => 0) (T.jcA T.n))) he.A
    (fun hA => ⟨_, hy0, fun h => absurd h hA⟩) fun _ M hM => (sumSqRows_ok hM hy0).mono fun E' h => ⟨_, h, fun _ => rfl⟩) ?_
  rintro ye1 ⟨y1, hy1, ey1⟩
  refine Ok.bind (P := fun E => Holds E T.m (accSq T.irG g (fun _ => 0) (T.jcG T.n))) ?_ fun ze1 hz1 => ?_
  · split
    · exact sumSqRows_ok he.G hz0
    · rename_i h0
      rw [Ok_pure]
      exact hz0.congr fun i hi => by omega
  rw [← hm] at hz1
  refine Ok.bind (averageCones_ok hC hz1) ?_
  rintro ze2 ⟨z2, hz2, az⟩
  rw [hm] at hz2
  refine Ok.bind (modify_holds (g := fun i => sqrtOrOne (y1 i)) hy1 (fun _ _ => rfl)) fun ye3 hy3 => ?_
  refine Ok.bind (modify_holds (g := fun i => sqrtOrOne (z2 i)) hz2 (fun _ _ => rfl)) fun ze3 hz3 => ?_
  refine Ok.bind (mapA_ok he.A fun M hM => equilibrateRows_ok hM hy3) fun A1 hA1 => ?_
  refine Ok.bind (P := fun G => Rep G T.m T.n T.jcG T.irG fun k => g k / sqrtOrOne (z2 (T.irG k))) ?_ fun G1 hG1 => ?_
  · split
    · exact equilibrateRows_ok he.G hz3
    · rename_i h0
      rw [Ok_pure]
      have := he.G
      rw [show T.m = 0 by omega] at this ⊢
      exact this.noEntries
  refine Ok.bind (onA_cases (Q := fun E => Holds E T.n
    (if T.hasA then accSq (colOf T.n T.jcA) (fun k => a k / sqrtOrOne (y1 (T.irA k))) (fun _ => 0) (T.jcA T.n) else fun _ => 0)) hA1
    (fun hA => by rw [if_neg hA]; exact hx0) fun hA M hM => by rw [if_pos hA]; exact sumSqCols_ok hM hx0) fun xe1 hx1 => ?_
  refine Ok.bind (P := fun E => Holds E T.n (accSq (colOf T.n T.jcG) (fun k => g k / sqrtOrOne (z2 (T.irG k)))
    (if T.hasA then accSq (colOf T.n T.jcA) (fun k => a k / sqrtOrOne (y1 (T.irA k))) (fun _ => 0) (T.jcA T.n) else fun _ => 0) (T.jcG T.n)))
    ?_ fun xe2 hx2 => ?_
  · split
    · exact sumSqCols_ok hG1 hx1
    · rename_i h0
      rw [Ok_pure]
      have := hG1
      rw [show T.m = 0 by omega] at this
      rw [this.empty]
      exact hx1
  refine Ok.bind (modify_holds (g := fun j => sqrtOrOne (accSq (colOf T.n T.jcG) (fun k => g k / sqrtOrOne (z2 (T.irG k)))
    (if T.hasA then accSq (colOf T.n T.jcA) (fun k => a k / sqrtOrOne (y1 (T.irA k))) (fun _ => 0) (T.jcA T.n) else fun _ => 0) (T.jcG T.n) j))
    hx2 (fun _ _ => rfl)) fun xe3 hx3 => ?_
  refine Ok.bind (mapA_ok hA1 fun M hM => equilibrateCols_ok hM hx3) fun A2 hA2 => ?_
  refine Ok.bind (P := fun G => Rep G T.m T.n T.jcG T.irG fun k => g k / sqrtOrOne (z2 (T.irG k)) / sqrtOrOne (accSq (colOf T.n T.jcG)
    (fun k => g k / sqrtOrOne (z2 (T.irG k))) (if T.hasA then accSq (colOf T.n T.jcA) (fun k => a k / sqrtOrOne (y1 (T.irA k))) (fun _ => 0)
      (T.jcA T.n) else fun _ => 0) (T.jcG T.n) (colOf T.n T.jcG k))) ?_ fun G2 hG2 => ?_
  · split
    · exact equilibrateCols_ok hG1 hx3
    · rename_i h0
      rw [Ok_pure]
      have := hG1
      rw [show T.m = 0 by omega] at this ⊢
      exact this.noEntries
  refine Ok.bind (divBy_ok hb hy3) fun b' hb' => ?_
  refine Ok.bind (divBy_ok hh hz3) fun h' hh' => ?_
  rw [Ok_pure]
  exact ⟨_, _, _, ⟨fun hA i hi => by rw [ey1 hA], ⟨z2, az, fun _ _ => rfl⟩, fun _ _ => rfl⟩, ⟨hA2, hG2⟩, hx3, hy3, hz3, hb', hh'⟩

/-- `set_equilibration` without an algorithm -/
theorem noEquilibration_ok {e : EqS F} {a g : Nat → F} (he : EqIs e T a g) (hx : e.xe.size = T.n) (hy : e.Ae.size = T.p)
    (hz : e.Ge.size = T.m) (b h : Buf F) :
    Ok (noEquilibration e b h) fun r => EqIs r.1 T a g ∧ Holds r.1.xe T.n (fun _ => 1.0) ∧ Holds r.1.Ae T.p (fun _ => 1.0) ∧
      Holds r.1.Ge T.m (fun _ => 1.0) ∧ r.2 = (b, h) := by
  unfold noEquilibration
  rw [he.cols, he.rowsA, he.rowsG]
  refine Ok.bind (fill_holds (g := fun _ => 1.0) hx (fun _ _ => rfl)) fun xe0 hx0 => ?_
  refine Ok.bind (fill_holds (g := fun _ => 1.0) hy (fun _ _ => rfl)) fun ye0 hy0 => ?_
  refine Ok.bind (fill_holds (g := fun _ => 1.0) hz (fun _ _ => rfl)) fun ze0 hz0 => ?_
  rw [Ok_pure]
  exact ⟨⟨he.A, he.G⟩, hx0, hy0, hz0, rfl⟩

end generic
end Ecos
