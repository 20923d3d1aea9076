import Verif.Lemmas.Spla
import Verif.Lemmas.Scal1
import Verif.Model.Equil

/-!
# Kernel specifications for equil.c

The results are stated for predicates `P0` (on the maxima) and `P1` (on the factors) and a relation `R`
(between an original entry, its two factors and its current value) which are preserved by the operations
of the code.  With trivial predicates this is memory safety for every number type; over the reals it
gives positivity and the exact relation.
-/
namespace Ecos

set_option linter.unusedSectionVars false

open Finset

section generic
variable {F : Type} [Zero F] [One F] [Add F] [Sub F] [Mul F] [Div F] [Neg F] [OfScientific F]
  [IntCast F] [PFloat F]

/-- what is asked of the predicates -/
structure EqPred (PO P0 P1 : F → Prop) (R : F → F → F → F → Prop) : Prop where
  zero : P0 0
  max : ∀ o r c a, R o r c a → ∀ b, P0 b → P0 (fmax (PFloat.fabs a) b)
  add : ∀ a b, P0 a → P0 b → P0 (a + b)
  sqrt : ∀ a, P0 a → P1 (sqrtOrOne a)
  one : P1 1.0
  mul : ∀ a b, P1 a → P1 b → P1 (a * b)
  init : ∀ o, PO o → R o 1.0 1.0 o
  step : ∀ o r c v a b, P1 r → P1 c → P1 a → P1 b → R o r c v → R o (r * a) (c * b) (v / a / b)

section
variable {A : SpMat F} {m n : Nat} {jc ir : Nat → Nat} {pr : Nat → F}

theorem maxRows_ok (hA : Rep A m n jc ir pr) {E : Buf F} {f : Nat → F} (hE : Holds E m f) {P0 : F → Prop}
    (hmax : ∀ k, k < jc n → ∀ b, P0 b → P0 (fmax (PFloat.fabs (pr k)) b)) (h0 : ∀ i, i < m → P0 (f i)) :
    Ok (maxRows E A) fun E' => ∃ f', Holds E' m f' ∧ ∀ i, i < m → P0 (f' i) := by
  unfold maxRows walk
  rw [hA.n_eq]
  refine walk_ok hA.ok hA.hjc (fun _ E' => ∃ f', Holds E' m f' ∧ ∀ i, i < m → P0 (f' i)) ⟨f, hE, h0⟩ ?_
    (fun _ h => h)
  rintro j k s - - - hk ⟨f', h1, h2⟩
  have hr := hA.ok.rows k hk
  rw [hA.hir.rd hk, ok_bind_eq, hA.hpr.rd hk, ok_bind_eq, h1.rd hr, ok_bind_eq]
  refine (h1.wr hr _).mono fun E' h => ⟨_, h, fun i hi => ?_⟩
  by_cases hir : i = ir k
  · rw [hir, upd_self]
    exact hmax _ hk _ (h2 _ hr)
  · rw [upd_ne _ _ hir]
    exact h2 i hi

theorem maxCols_ok (hA : Rep A m n jc ir pr) {E : Buf F} {f : Nat → F} (hE : Holds E n f) {P0 : F → Prop}
    (hmax : ∀ k, k < jc n → ∀ b, P0 b → P0 (fmax (PFloat.fabs (pr k)) b)) (h0 : ∀ i, i < n → P0 (f i)) :
    Ok (maxCols E A) fun E' => ∃ f', Holds E' n f' ∧ ∀ i, i < n → P0 (f' i) := by
  unfold maxCols walk
  rw [hA.n_eq]
  refine walk_ok hA.ok hA.hjc (fun _ E' => ∃ f', Holds E' n f' ∧ ∀ i, i < n → P0 (f' i)) ⟨f, hE, h0⟩ ?_
    (fun _ h => h)
  rintro j k s hj - - hk ⟨f', h1, h2⟩
  rw [hA.hpr.rd hk, ok_bind_eq, h1.rd hj, ok_bind_eq]
  refine (h1.wr hj _).mono fun E' h => ⟨_, h, fun i hi => ?_⟩
  by_cases hir : i = j
  · rw [hir, upd_self]
    exact hmax _ hk _ (h2 _ hj)
  · rw [upd_ne _ _ hir]
    exact h2 i hi

theorem walkPr_ok (hA : Rep A m n jc ir pr) {body : Nat → Nat → Buf F → M (Buf F)} {g : Nat → F}
    (hb : ∀ j k b, j < n → jc j ≤ k → k < jc (j + 1) → k < jc n →
      Holds b (jc n) (fun i => if i < k then g i else pr i) →
      Ok (body j k b) fun b' => Holds b' (jc n) (upd (fun i => if i < k then g i else pr i) k (g k))) :
    Ok (walk A A.pr body) fun b' => Holds b' (jc n) g := by
  unfold walk
  rw [hA.n_eq]
  refine walk_ok hA.ok hA.hjc (fun k b => Holds b (jc n) fun i => if i < k then g i else pr i) (by simpa using hA.hpr) ?_ ?_
  · intro j k b hj h1 h2 hk hh
    refine (hb j k b hj h1 h2 hk hh).mono fun b' h' => h'.congr fun i hi => ?_
    unfold upd
    by_cases hik : i = k
    · rw [if_pos hik, if_pos (by omega), hik]
    · rw [if_neg hik]
      show (if i < k then g i else pr i) = _
      by_cases hlt : i < k
      · rw [if_pos hlt, if_pos (by omega)]
      · rw [if_neg hlt, if_neg (by omega)]
  · intro b h
    exact h.congr fun i hi => by rw [if_pos hi]

theorem Rep.withPr (hA : Rep A m n jc ir pr) {b : Buf F} {g : Nat → F} (h : Holds b (jc n) g) :
    Rep { A with pr := b } m n jc ir g :=
  ⟨hA.m_eq, hA.n_eq, hA.nnz_eq, hA.hjc, hA.hir, h, hA.ok⟩

theorem equilibrateRows_ok (hA : Rep A m n jc ir pr) {E : Buf F} {e : Nat → F} (hE : Holds E m e) :
    Ok (equilibrateRows E A) fun A' => Rep A' m n jc ir fun k => pr k / e (ir k) := by
  unfold equilibrateRows
  refine Ok.bind (walkPr_ok hA (g := fun k => pr k / e (ir k)) ?_) fun b hb => by
    rw [Ok_pure]; exact hA.withPr hb
  intro j k b hj _ _ hk h
  rw [hA.hir.rd hk, ok_bind_eq, h.rd hk, ok_bind_eq, hE.rd (hA.ok.rows k hk), ok_bind_eq, if_neg (by omega)]
  exact h.wr hk _

theorem equilibrateCols_ok (hA : Rep A m n jc ir pr) {E : Buf F} {e : Nat → F} (hE : Holds E n e) :
    Ok (equilibrateCols E A) fun A' => Rep A' m n jc ir fun k => pr k / e (colOf n jc k) := by
  unfold equilibrateCols
  refine Ok.bind (walkPr_ok hA (g := fun k => pr k / e (colOf n jc k)) ?_) fun b hb => by
    rw [Ok_pure]; exact hA.withPr hb
  intro j k b hj h1 h2 hk h
  rw [h.rd hk, ok_bind_eq, hE.rd hj, ok_bind_eq, if_neg (by omega), colOf_eq hA.ok hj h1 h2]
  exact h.wr hk _

theorem restoreMat_ok (hA : Rep A m n jc ir pr) {D E : Buf F} {d e : Nat → F} (hD : Holds D m d)
    (hE : Holds E n e) :
    Ok (restoreMat D E A) fun A' => Rep A' m n jc ir fun k => pr k * (d (ir k) * e (colOf n jc k)) := by
  unfold restoreMat
  refine Ok.bind (walkPr_ok hA (g := fun k => pr k * (d (ir k) * e (colOf n jc k))) ?_) fun b hb => by
    rw [Ok_pure]; exact hA.withPr hb
  intro j k b hj h1 h2 hk h
  rw [hA.hir.rd hk, ok_bind_eq, h.rd hk, ok_bind_eq, hD.rd (hA.ok.rows k hk), ok_bind_eq, hE.rd hj, ok_bind_eq,
    if_neg (by omega), colOf_eq hA.ok hj h1 h2]
  exact h.wr hk _

end

/-! ### Collapsing the cones -/

theorem collapseGroup_ok {E : Buf F} {f : Nat → F} {ind p : Nat} (hE : Has E ind p f) (hs : ind + p ≤ E.size)
    {P0 : F → Prop} (hz : P0 0) (hadd : ∀ a b, P0 a → P0 b → P0 (a + b)) (h0 : ∀ i, i < p → P0 (f i)) :
    Ok (collapseGroup E ind p) fun E' => ∃ t, P0 t ∧ Seg E E' ind p fun _ => t := by
  unfold collapseGroup
  refine Ok.bind (P := P0) (loop_ok (fun _ t => P0 t) (by omega) hz ?_ (fun _ h => h)) fun t ht => ?_
  · intro i t _ hi h
    rw [hE.rd hi, ok_bind_eq, Ok_pure]
    exact hadd _ _ h (h0 i hi)
  · exact (fill_ok (g := fun _ => t) hs (fun _ _ => rfl)).mono fun E' h => ⟨t, ht, h⟩

/-- all rows of one cone have the same value -/
structure Uniform (S : Shape) (f : Nat → F) : Prop where
  soc : ∀ k, k < S.ns → ∀ j, j < S.q k → f (S.start k + j) = f (S.start k)
  exp : ∀ l, l < S.ne → ∀ j, j < 3 → f (S.fexv + 3 * l + j) = f (S.fexv + 3 * l)

/-- the values of `f`, changed on a segment to a constant -/
def segC (f : Nat → F) (off k : Nat) (t : F) : Nat → F := fun i => if off ≤ i ∧ i < off + k then t else f i

theorem seg_holds {E E' : Buf F} {n off k : Nat} {f : Nat → F} {t : F} (hE : Holds E n f)
    (h : Seg E E' off k fun _ => t) : Holds E' n (segC f off k t) := by
  refine ⟨by rw [h.size, hE.size], fun i hi => ?_⟩
  unfold segC
  by_cases hin : off ≤ i ∧ i < off + k
  · rw [if_pos hin]
    have := h.inside (i - off) (by omega)
    rwa [show off + (i - off) = i by omega] at this
  · rw [if_neg hin, h.outside i (by omega)]
    exact hE.2 i hi

theorem collapseCones_ok {C : Cone F} {S : Shape} (hC : ConeIs C S) {E : Buf F} {f : Nat → F}
    (hE : Holds E S.m f) {P0 : F → Prop} (hz : P0 0) (hadd : ∀ a b, P0 a → P0 b → P0 (a + b))
    (h0 : ∀ i, i < S.m → P0 (f i)) :
    Ok (collapseCones C E) fun E' => ∃ f', Holds E' S.m f' ∧ (∀ i, i < S.m → P0 (f' i)) ∧ Uniform S f' := by
  have hl : S.l ≤ S.fexv := S.l_le _
  have hm : S.m = S.fexv + 3 * S.ne := rfl
  unfold collapseCones
  refine Ok.bind (forSoc_ok0 hC (fun k E' => ∃ f', Holds E' S.m f' ∧ (∀ i, i < S.m → P0 (f' i)) ∧
    ∀ k', k' < k → ∀ j, j < S.q k' → f' (S.start k' + j) = f' (S.start k'))
    ⟨f, hE, h0, fun k' hk' => by omega⟩ ?_) ?_
  · rintro k soc s hk - hq ⟨f', h1, h2, h3⟩
    have hle := S.start_le hk
    rw [hq]
    refine (collapseGroup_ok (P0 := P0) (h1.has (off := S.start k) (k := S.q k) (by omega))
      (by rw [h1.size]; omega) hz hadd fun i hi => h2 _ (by omega)).mono ?_
    rintro E' ⟨t, ht, hs⟩
    refine ⟨_, seg_holds h1 hs, fun i hi => ?_, fun k' hk' j hj => ?_⟩
    · unfold segC
      split
      · exact ht
      · exact h2 i hi
    · unfold segC
      by_cases hkk : k' = k
      · subst hkk
        rw [if_pos (by omega), if_pos (by omega)]
      · have := S.disj (show k' < k by omega)
        rw [if_neg (by omega), if_neg (by omega)]
        exact h3 k' (by omega) j hj
  · rintro ⟨E1, o⟩ ⟨⟨f1, h1, h2, h3⟩, ho⟩
    simp only at h1 ho ⊢
    subst ho
    rw [hC.nexc]
    refine loop_ok (fun l E' => ∃ f', Holds E' S.m f' ∧ (∀ i, i < S.m → P0 (f' i)) ∧
      (∀ k', k' < S.ns → ∀ j, j < S.q k' → f' (S.start k' + j) = f' (S.start k')) ∧
      ∀ l', l' < l → ∀ j, j < 3 → f' (S.fexv + 3 * l' + j) = f' (S.fexv + 3 * l')) (by omega)
      ⟨f1, h1, h2, h3, fun l' hl' => by omega⟩ ?_ ?_
    · rintro l s - hl ⟨f', g1, g2, g3, g4⟩
      refine (collapseGroup_ok (P0 := P0) (g1.has (off := S.fexv + 3 * l) (k := 3) (by omega))
        (by rw [g1.size]; omega) hz hadd fun i hi => g2 _ (by omega)).mono ?_
      rintro E' ⟨t, ht, hs⟩
      refine ⟨_, seg_holds g1 hs, fun i hi => ?_, fun k' hk' j hj => ?_, fun l' hl' j hj => ?_⟩
      · unfold segC
        split
        · exact ht
        · exact g2 i hi
      · have := S.start_le hk'
        unfold segC
        rw [if_neg (by omega), if_neg (by omega)]
        exact g3 k' hk' j hj
      · unfold segC
        by_cases hll : l' = l
        · subst hll
          rw [if_pos (by omega), if_pos (by omega)]
        · rw [if_neg (by omega), if_neg (by omega)]
          exact g4 l' (by omega) j hj
    · rintro s ⟨f', g1, g2, g3, g4⟩
      exact ⟨f', g1, g2, g3, g4⟩

theorem Uniform.map {S : Shape} {f : Nat → F} (h : Uniform S f) (g : F → F) : Uniform S fun i => g (f i) :=
  ⟨fun k hk j hj => by rw [h.soc k hk j hj], fun l hl j hj => by rw [h.exp l hl j hj]⟩

theorem Uniform.mul {S : Shape} {f g : Nat → F} (h : Uniform S f) (h' : Uniform S g) :
    Uniform S fun i => f i * g i :=
  ⟨fun k hk j hj => by rw [h.soc k hk j hj, h'.soc k hk j hj],
    fun l hl j hj => by rw [h.exp l hl j hj, h'.exp l hl j hj]⟩

theorem modify_holds {b : Buf F} {n : Nat} {o g : Nat → F} {f : Nat → F → M F} (hb : Holds b n o)
    (hv : ∀ i, i < n → f i (o i) = .ok (g i)) : Ok (modify b 0 n f) fun b' => Holds b' n g :=
  (modify_ok hb.has0 (by rw [hb.size]; omega) hv).mono fun _ h => h.holds hb.size

theorem fill_holds {b : Buf F} {n : Nat} {g : Nat → F} {v : Nat → M F} (hb : b.size = n)
    (hv : ∀ i, i < n → v i = .ok (g i)) : Ok (fill b 0 n v) fun b' => Holds b' n g :=
  (fill_ok (by omega) hv).mono fun _ h => h.holds hb

theorem mulBy_ok {a b : Buf F} {n : Nat} {f g : Nat → F} (ha : Holds a n f) (hb : Holds b n g) :
    Ok (mulBy a b n) fun r => Holds r n fun i => f i * g i :=
  modify_holds ha fun i hi => by rw [hb.rd hi, ok_bind_eq]; rfl

theorem divBy_ok {a b : Buf F} {n : Nat} {f g : Nat → F} (ha : Holds a n f) (hb : Holds b n g) :
    Ok (divBy a b n) fun r => Holds r n fun i => f i / g i :=
  modify_holds ha fun i hi => by rw [hb.rd hi, ok_bind_eq]; rfl

end generic
end Ecos
