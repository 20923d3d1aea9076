import Verif.Lemmas.Asm3
import Verif.Lemmas.EqSame
import Verif.Lemmas.Equil2

/-!
# From the matrices of the problem to the KKT matrix
-/
namespace Ecos

open Finset

set_option linter.unusedSectionVars false

/-- the item at a position after the counting sort -/
noncomputable def csInv (κ : Nat → Nat) (N : Nat) : Nat → Nat :=
  (exists_inv (N := N) (Q := csPos κ N) (fun _ hq => csPos_surj hq) (fun _ _ hk hk' h => csPos_inj hk hk' h)).choose

theorem csInv_spec {κ : Nat → Nat} {N q : Nat} (h : q < N) : csInv κ N q < N ∧ csPos κ N (csInv κ N q) = q :=
  (exists_inv (N := N) (Q := csPos κ N) (fun _ hq => csPos_surj hq) (fun _ _ hk hk' h => csPos_inj hk hk' h)).choose_spec.1 q h

theorem csInv_pos {κ : Nat → Nat} {N k : Nat} (h : k < N) : csInv κ N (csPos κ N k) = k :=
  (exists_inv (N := N) (Q := csPos κ N) (fun _ hq => csPos_surj hq) (fun _ _ hk hk' h => csPos_inj hk hk' h)).choose_spec.2 k h
    (csPos_lt_N h)

section generic
variable {F : Type} [Zero F] [One F] [Add F] [Sub F] [Mul F] [Div F] [Neg F] [OfScientific F]
  [IntCast F] [PFloat F]

/-- the transpose, with rows and values given as functions of the pattern and the values; a matrix without entries must have
no rows -/
theorem transpose_rep' {A : SpMat F} {m n : Nat} {jc ir : Nat → Nat} {pr : Nat → F}
    (hA : Rep A m n jc ir pr) {T : Buf Nat} (hT : T.size = jc n) (hnz : jc n = 0 → m = 0) :
    Ok (transposeSparseMatrix A T) fun r =>
      Rep r.1 n m (csStart ir (jc n)) (fun q => colOf n jc (csInv ir (jc n) q)) (fun q => pr (csInv ir (jc n) q)) ∧
      Holds r.2 (jc n) (csPos ir (jc n)) := by
  by_cases h0 : jc n = 0
  · have hm := hnz h0
    subst hm
    unfold transposeSparseMatrix
    rw [hA.m_eq, hA.n_eq, hA.nnz_eq]
    refine Ok.bind (newSparseMatrix_ok n 0 (jc n)) ?_
    rintro B ⟨hBm, hBn, hBz, hBjc, hBir, hBpr, -⟩
    rw [if_pos h0, Ok_pure]
    rw [h0] at hT hBz hBjc hBir hBpr ⊢
    have e : csStart ir 0 0 = 0 := csStart_zero
    refine ⟨⟨hBm, hBn, by rw [hBz, e], ⟨hBjc.1, fun i hi => ?_⟩, ⟨by rw [hBir, e], fun i hi => ?_⟩, ⟨by rw [hBpr, e], fun i hi => ?_⟩,
      ⟨e, fun j hj => by omega, fun k hk => ?_⟩⟩, ⟨hT, fun i hi => by omega⟩⟩
    · rw [show i = 0 by omega, e]; exact hBjc.2 0 (by omega) rfl
    · rw [e] at hi; omega
    · rw [e] at hi; omega
    · rw [e] at hk; omega
  · refine (transpose_rep hA hT h0).mono ?_
    rintro r ⟨ir', pr', h1, h2, h3, h4⟩
    have htop : csStart ir (jc n) m = jc n := csStart_top hA.ok.rows
    have key : ∀ q, q < jc n → ir' q = colOf n jc (csInv ir (jc n) q) ∧ pr' q = pr (csInv ir (jc n) q) := by
      intro q hq
      obtain ⟨a, b⟩ := csInv_spec (κ := ir) hq
      have x := h3 _ a
      have y := h4 _ a
      rw [b] at x y
      exact ⟨x, y⟩
    refine ⟨⟨h1.m_eq, h1.n_eq, h1.nnz_eq, h1.hjc, h1.hir.congr fun q hq => (key q (by omega)).1,
      h1.hpr.congr fun q hq => (key q (by omega)).2, h1.ok.zero, h1.ok.mono, fun q hq => ?_⟩, h2⟩
    rw [htop] at hq
    exact colOf_lt hA.ok (csInv_spec hq).1

end generic

namespace Asm

section generic
variable {F : Type} [Zero F] [One F] [Add F] [Sub F] [Mul F] [Div F] [Neg F] [OfScientific F]
  [IntCast F] [PFloat F]

/-- number of entries of `A` -/
def _root_.Ecos.Pat.nA (T : Pat) : Nat := if T.hasA then T.jcA T.n else 0
/-- number of entries of `G` -/
def _root_.Ecos.Pat.nG (T : Pat) : Nat := T.jcG T.n

/-- the parts of the KKT matrix for matrices with the given pattern and values -/
noncomputable def partsOf (T : Pat) (S : Shape) (a g : Nat → F) : Parts F where
  n := T.n
  p := T.p
  S := S
  jA := csStart T.irA T.nA
  iA := fun q => colOf T.n T.jcA (csInv T.irA T.nA q)
  jG := csStart T.irG T.nG
  iG := fun q => colOf T.n T.jcG (csInv T.irG T.nG q)
  a := fun q => a (csInv T.irA T.nA q)
  g := fun q => g (csInv T.irG T.nG q)

/-- the pattern is that of a problem with cones `S`, and no matrix with rows is without entries -/
structure PatGood (T : Pat) (S : Shape) : Prop where
  m : S.m = T.m
  a : T.hasA → CscOk T.p T.n T.jcA T.irA
  noA : T.hasA = false → T.p = 0
  g : CscOk T.m T.n T.jcG T.irG
  na : T.hasA → T.jcA T.n = 0 → T.p = 0
  ng : T.jcG T.n = 0 → T.m = 0
  pos : ∀ k, k < S.ns → 0 < S.q k

theorem csc_transpose {m n : Nat} {jc ir : Nat → Nat} (h : CscOk m n jc ir) : CscOk n m (csStart ir (jc n)) fun q => colOf n jc (csInv ir (jc n) q) :=
  ⟨csStart_zero, fun _ _ => csStart_mono (by omega), fun q hq => by
    rw [csStart_top h.rows] at hq
    exact colOf_lt h (csInv_spec hq).1⟩

variable {T : Pat} {S : Shape} {a g : Nat → F}

theorem PatGood.nA_of (hA : T.hasA) : T.nA = T.jcA T.n := if_pos hA
theorem PatGood.nA_none (hA : T.hasA = false) : T.nA = 0 := by unfold Pat.nA; rw [hA]; rfl

theorem PatGood.top_A (h : PatGood T S) : csStart T.irA T.nA T.p = T.nA := by
  cases hA : T.hasA with
  | true => rw [PatGood.nA_of hA]; exact csStart_top (h.a hA).rows
  | false => rw [PatGood.nA_none hA]; exact Nat.le_zero.1 (csStart_le _)

theorem PatGood.top_G (h : PatGood T S) : csStart T.irG T.nG T.m = T.nG := csStart_top h.g.rows

theorem PatGood.parts (h : PatGood T S) : (partsOf T S a g).Ok := by
  refine ⟨?_, ?_, h.pos⟩
  · show CscOk T.n T.p (csStart T.irA T.nA) _
    cases hA : T.hasA with
    | true =>
      show CscOk T.n T.p (csStart T.irA T.nA) fun q => colOf T.n T.jcA (csInv T.irA T.nA q)
      rw [PatGood.nA_of hA]
      exact csc_transpose (h.a hA)
    | false =>
      refine ⟨csStart_zero, fun _ _ => csStart_mono (by omega), fun q hq => ?_⟩
      have := csStart_le (κ := T.irA) (N := T.nA) T.p
      rw [PatGood.nA_none hA] at hq this
      omega
  · show CscOk T.n S.m (csStart T.irG T.nG) fun q => colOf T.n T.jcG (csInv T.irG T.nG q)
    rw [h.m]
    exact csc_transpose h.g

/-- where the entries of `A` and `G` go -/
noncomputable def posA (P : Parts F) (T : Pat) (k : Nat) : Nat := P.off (T.n + T.irA k) + (csPos T.irA T.nA k - csStart T.irA T.nA (T.irA k))
noncomputable def posG (P : Parts F) (T : Pat) (k : Nat) : Nat := P.off (P.gto (T.irG k)) + (csPos T.irG T.nG k - csStart T.irG T.nG (T.irG k))

theorem composeMap_ok {P : Parts F} {outer inner : Buf Nat} {κ cf : Nat → Nat} {N m : Nat} (hi : Holds inner N (csPos κ N))
    (ho : MapTo P outer (csStart κ N) m m cf) (hκ : ∀ k, k < N → κ k < m) :
    Ok (composeMap N outer inner) fun b => Holds b N fun k => P.off (cf (κ k)) + (csPos κ N k - csStart κ N (κ k)) := by
  unfold composeMap
  refine (fill_ok (g := fun k => P.off (cf (κ k)) + (csPos κ N k - csStart κ N (κ k))) (by rw [malloc_size]; omega) fun k hk => ?_).mono
    fun b hb => hb.holds (malloc_size _)
  have h1 := csPos_ge (κ := κ) (N := N) k
  have h2 := csPos_lt (κ := κ) hk
  have := ho.at_ (κ k) (hκ k hk) (csPos κ N k - csStart κ N (κ k)) (by omega)
  rw [show csStart κ N (κ k) + (csPos κ N k - csStart κ N (κ k)) = csPos κ N k by omega] at this
  rw [hi.rd hk, ok_bind_eq]
  simp [rd, this]

theorem setupPre_ok {C : Cone F} {A : Option (SpMat F)} {G : SpMat F} {b h : Buf F} {a0 g0 bf hf : Nat → F} (hP : PatGood T S)
    (hC : ConeNew C S) (hA : RepA A T a0) (hG : Rep G T.m T.n T.jcG T.irG g0) (hb : Holds b T.p bf) (hh : Holds h T.m hf)
    {PO P0 P1 : F → Prop} {R : F → F → F → F → Prop} (hR : EqPred PO P0 P1 R)
    (oa : ∀ k, T.hasA → k < T.jcA T.n → PO (a0 k) := by intros; trivial) (og : ∀ k, k < T.jcG T.n → PO (g0 k) := by intros; trivial) :
    Ok (setupPre C A G T.n T.m T.p b h) fun r => ∃ a g x y z, EqIs r.e T a g ∧ Holds r.e.xe T.n x ∧ Holds r.e.Ae T.p y ∧
      Holds r.e.Ge T.m z ∧
      (∀ i, i < T.n → P1 (x i)) ∧ (∀ i, i < T.p → P1 (y i)) ∧ (∀ i, i < T.m → P1 (z i)) ∧ Uniform S z ∧
      (∀ k, T.hasA → k < T.jcA T.n → R (a0 k) (y (T.irA k)) (x (colOf T.n T.jcA k)) (a k)) ∧
      (∀ k, k < T.jcG T.n → R (g0 k) (z (T.irG k)) (x (colOf T.n T.jcG k)) (g k)) ∧
      Holds r.b T.p (fun i => bf i / y i) ∧ Holds r.h T.m (fun i => hf i / z i) ∧
      Rep r.U.K (partsOf T S a g).N (partsOf T S a g).N (partsOf T S a g).off (partsOf T S a g).ir (partsOf T S a g).pr ∧
      Holds r.U.Sign (partsOf T S a g).N (signs T.n T.p S) ∧ ConeWF r.U.C S (partsOf T S a g).ix ∧
      (T.hasA → ∃ m, r.AtoK = some m ∧ Holds m T.nA (posA (partsOf T S a g) T)) ∧ Holds r.GtoK T.nG (posG (partsOf T S a g) T) ∧
      EqRun T S a0 g0 bf hf (r.e, r.b, r.h) := by
  unfold setupPre
  refine Ok.bind (setEquilibration_ok hC.is hP.m hR (e := ⟨A, G, malloc T.n, malloc T.p, malloc T.m⟩) ⟨hA, hG⟩ (malloc_size _)
    (malloc_size _) (malloc_size _) hb hh oa og).self ?_
  rintro e ⟨⟨a, g, x, y, z, e1, e2, e3, e4, e5, e6, e7, e8, e9, e10, e11, e12⟩, erun⟩
  have hPo := hP.parts (a := a) (g := g)
  -- transposes
  refine Ok.bind (P := fun At => AtIs (partsOf T S a g) (At.map fun t => t.1) ∧
    (∀ t, At = some t → T.hasA ∧ Holds t.2 T.nA (csPos T.irA T.nA)) ∧ (T.hasA → At ≠ none)) ?_ ?_
  · have hA' := e1.A
    unfold RepA at hA'
    unfold setupAt
    split at hA'
    · rename_i hh
      obtain ⟨M, hM, hMr⟩ := hA'
      rw [hM]
      simp only
      rw [hMr.nnz_eq]
      refine Ok.bind (transpose_rep' hMr (malloc_size _) (hP.na hh)) ?_
      rintro t ⟨t1, t2⟩
      rw [Ok_pure]
      refine ⟨?_, fun t' ht' => ?_, fun _ => by simp⟩
      · show Rep t.1 T.n T.p (csStart T.irA T.nA) (fun q => colOf T.n T.jcA (csInv T.irA T.nA q)) (fun q => a (csInv T.irA T.nA q))
        rw [PatGood.nA_of hh]
        exact t1
      · cases ht'
        exact ⟨hh, by rw [PatGood.nA_of hh]; exact t2⟩
    · rename_i hh
      rw [hA'.1]
      simp only
      rw [Ok_pure]
      refine ⟨⟨hA'.2, csStart_zero⟩, fun t ht => by simp at ht, fun h => absurd h hh⟩
  rintro At ⟨hAt1, hAt2, hAt3⟩
  have hG' := e1.G
  rw [hG'.nnz_eq]
  refine Ok.bind (transpose_rep' hG' (malloc_size _) hP.ng) ?_
  rintro Gt ⟨hGt1, hGt2⟩
  have hnA : matNnz e.1.A = T.nA := by
    have hA' := e1.A
    unfold RepA at hA'
    split at hA'
    · rename_i hh
      obtain ⟨M, hM, hMr⟩ := hA'
      rw [hM, PatGood.nA_of hh]
      exact hMr.nnz_eq
    · rename_i hh
      rw [hA'.1, PatGood.nA_none (by simpa using hh)]
      rfl
  rw [hnA]
  refine Ok.bind (createKKT_ok (T := partsOf T S a g) (by
      show Rep Gt.1 T.n S.m _ _ _
      rw [hP.m]
      exact hGt1) hAt1 hPo hC (by
      rw [malloc_size]
      exact hP.top_A.symm) (by
      rw [malloc_size]
      show _ = csStart T.irG T.nG S.m
      rw [hP.m]
      exact hP.top_G.symm)) ?_
  rintro U ⟨u1, u2, u3, u4, u5⟩
  refine Ok.bind (P := fun m => T.hasA → ∃ b, m = some b ∧ Holds b T.nA (posA (partsOf T S a g) T)) ?_ ?_
  · cases At with
    | none =>
      simp only
      rw [Ok_pure]
      exact fun h => absurd rfl (hAt3 h)
    | some t =>
      simp only
      obtain ⟨hh, ht⟩ := hAt2 t rfl
      refine Ok.bind (composeMap_ok ht u3 fun k hk => ?_) fun m hm => ?_
      · rw [PatGood.nA_of hh] at hk
        exact (hP.a hh).rows k hk
      · rw [Ok_pure]
        exact fun _ => ⟨m, rfl, hm⟩
  intro mA hmA
  have hfin : Ok (composeMap (T.jcG T.n) U.GttoK Gt.2) fun m => Holds m T.nG (posG (partsOf T S a g) T) := by
    refine composeMap_ok hGt2 u4 fun k hk => ?_
    show _ < S.m
    rw [hP.m]
    exact hP.g.rows k hk
  refine Ok.bind hfin fun mG hmG => ?_
  rw [Ok_pure]
  exact ⟨a, g, x, y, z, e1, e2, e3, e4, e5, e6, e7, e8, e9, e10, e11, e12, u1, u2, u5, hmA, hmG, fun C' e' b' h' hC' he' hx' hy' hz' hb' hh' =>
    (setEquilibration_same hC' hC.is he' ⟨hA, hG⟩ hx' (malloc_size _) hy' (malloc_size _) hz' (malloc_size _) hb' hb hh' hh).trans erun⟩

end generic
end Asm
end Ecos
