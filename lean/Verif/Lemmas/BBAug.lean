import Verif.Model.BBSetup
import Verif.Core.Runs
import Verif.Spec.Matrix
import Mathlib.Data.Finset.Card

/-!
# The augmented matrix of the mixed-integer solver: loop invariants
-/
set_option linter.all false

namespace Ecos
namespace BB
namespace Augm

open Finset

section generic
variable {F : Type} [Zero F] [One F] [Add F] [Sub F] [Mul F] [Div F] [Neg F] [OfScientific F]
  [IntCast F] [PFloat F]

/-- `i` occurs in the list `vs` of length `k` -/
def Mem (k : Nat) (vs : Nat → Nat) (i : Nat) : Prop := ∃ t, t < k ∧ vs t = i

variable (nb ni : Nat) (bv iv : Nat → Nat)

/-- `i` is a declared variable -/
def Decl (i : Nat) : Prop := Mem nb bv i ∨ Mem ni iv i

open Classical in
/-- number of declared variables below `i` -/
noncomputable def rank (i : Nat) : Nat := ((range i).filter (Decl nb ni bv iv)).card

open Classical in
/-- number of entries added to column `i` -/
noncomputable def off (i : Nat) : Nat := if Decl nb ni bv iv i then 2 else 0

theorem rank_succ_decl {i : Nat} (h : Decl nb ni bv iv i) : rank nb ni bv iv (i + 1) = rank nb ni bv iv i + 1 := by
  unfold rank
  rw [range_add_one, filter_insert, if_pos h, card_insert_of_notMem]
  simp

theorem rank_succ_not {i : Nat} (h : ¬ Decl nb ni bv iv i) : rank nb ni bv iv (i + 1) = rank nb ni bv iv i := by
  unfold rank
  rw [range_add_one, filter_insert, if_neg h]

theorem rank_le (i : Nat) : rank nb ni bv iv i ≤ nb + ni := by
  classical
  unfold rank
  have : (range i).filter (Decl nb ni bv iv) ⊆ (range nb).image bv ∪ (range ni).image iv := by
    intro k hk
    rw [mem_filter] at hk
    rw [mem_union, mem_image, mem_image]
    rcases hk.2 with ⟨t, ht, e⟩ | ⟨t, ht, e⟩
    · exact Or.inl ⟨t, mem_range.mpr ht, e⟩
    · exact Or.inr ⟨t, mem_range.mpr ht, e⟩
  refine (card_le_card this).trans ((card_union_le _ _).trans ?_)
  have h1 := card_image_le (s := range nb) (f := bv)
  have h2 := card_image_le (s := range ni) (f := iv)
  rw [card_range] at h1 h2
  omega

theorem rank_mono {i j : Nat} (h : i ≤ j) : rank nb ni bv iv i ≤ rank nb ni bv iv j := by
  classical
  unfold rank
  exact card_le_card (filter_subset_filter _ (range_subset_range.mpr h))

/-- a declared column still has room for its two rows -/
theorem rank_lt {i : Nat} (h : Decl nb ni bv iv i) : rank nb ni bv iv i < nb + ni := by
  have := rank_le nb ni bv iv (i + 1)
  rw [rank_succ_decl nb ni bv iv h] at this
  omega

theorem contains_ok {vars : Buf Nat} {num : Nat} {vs : Nat → Nat} (h : Holds vars num vs) (idx : Nat) :
    Ok (contains idx num vars) (fun r => r ≠ 0 ↔ Mem num vs idx) := by
  unfold contains
  refine loop_ok (fun t ans => ans ≠ 0 ↔ Mem t vs idx) (Nat.zero_le _) ?_ ?_ (fun s hs => hs)
  · simp [Mem]
  · intro i ans _ hi hI
    rw [h.rd hi, ok_bind_eq, Ok_pure]
    by_cases he : vs i = idx
    · rw [if_pos he]
      exact ⟨fun _ => ⟨i, by omega, he⟩, fun _ => by omega⟩
    · rw [if_neg he, Nat.add_zero, hI]
      constructor
      · rintro ⟨t, ht, e⟩; exact ⟨t, by omega, e⟩
      · rintro ⟨t, ht, e⟩
        have : t ≠ i := fun h => he (h ▸ e)
        exact ⟨t, by omega, e⟩

/-- inputs of the augmentation, as functions -/
structure InOk (I : AugIn F) (jc ir : Nat → Nat) (pr : Nat → F) (hu : Nat → F) (bv iv : Nat → Nat) : Prop where
  csc : CscOk I.m I.n jc ir
  hjc : Holds I.gjc (I.n + 1) jc
  hir : Holds I.gir (jc I.n) ir
  hpr : Holds I.gpr (jc I.n) pr
  hh : Holds I.h I.m hu
  hb : Holds I.bools I.nb bv
  hi : Holds I.ints I.ni iv

variable {I : AugIn F} {jc ir : Nat → Nat} {pr hu : Nat → F} {bv iv}

/-- column `i` of the new matrix: the two bound entries if the variable is declared, then the user's
entries, shifted down -/
structure ColOk (I : AugIn F) (jc ir : Nat → Nat) (pr : Nat → F) (bv iv : Nat → Nat) (jcO irO : Nat → Nat)
    (prO : Nat → F) (i : Nat) : Prop where
  bnd : Decl I.nb I.ni bv iv i → prO (jcO i) = -1 ∧ prO (jcO i + 1) = 1 ∧
    irO (jcO i) = 2 * rank I.nb I.ni bv iv i ∧ irO (jcO i + 1) = 2 * rank I.nb I.ni bv iv i + 1
  user : ∀ k, k < jc (i + 1) - jc i →
    prO (jcO i + off I.nb I.ni bv iv i + k) = pr (jc i + k) ∧
    irO (jcO i + off I.nb I.ni bv iv i + k) = ir (jc i + k) + 2 * I.nb + 2 * I.ni

/-- right-hand sides of the bound rows of declared variable `i` -/
def HOk (I : AugIn F) (bv iv : Nat → Nat) (hO : Nat → F) (i : Nat) : Prop :=
  (Mem I.nb bv i → hO (2 * rank I.nb I.ni bv iv i) = 0 ∧ hO (2 * rank I.nb I.ni bv iv i + 1) = 1) ∧
  (¬ Mem I.nb bv i → Mem I.ni iv i → hO (2 * rank I.nb I.ni bv iv i) = ((MAX_FLOAT_INT : Int) : F) ∧
    hO (2 * rank I.nb I.ni bv iv i + 1) = ((MAX_FLOAT_INT : Int) : F))

/-- column pointers of the new matrix -/
noncomputable def jcN (I : AugIn F) (jc : Nat → Nat) (bv iv : Nat → Nat) (i : Nat) : Nat :=
  jc i + 2 * rank I.nb I.ni bv iv i

theorem jcN_succ (hin : InOk I jc ir pr hu bv iv) {i : Nat} (hi : i < I.n) :
    jcN I jc bv iv (i + 1) = jcN I jc bv iv i + off I.nb I.ni bv iv i + (jc (i + 1) - jc i) := by
  have := hin.csc.mono i hi
  unfold jcN off
  by_cases h : Decl I.nb I.ni bv iv i
  · rw [rank_succ_decl _ _ _ _ h, if_pos h]; omega
  · rw [rank_succ_not _ _ _ _ h, if_neg h]; omega

theorem jcN_mono (hin : InOk I jc ir pr hu bv iv) {i j : Nat} (hij : i ≤ j) (hj : j ≤ I.n) :
    jcN I jc bv iv i ≤ jcN I jc bv iv j := by
  have := hin.csc.mono' hij hj
  have := rank_mono I.nb I.ni bv iv hij
  unfold jcN; omega

theorem jcN_top (hin : InOk I jc ir pr hu bv iv) : jcN I jc bv iv I.n ≤ jc I.n + 2 * I.nb + 2 * I.ni := by
  have := rank_le I.nb I.ni bv iv I.n
  unfold jcN; omega

/-- loop invariant over the columns -/
structure Inv (I : AugIn F) (jc ir : Nat → Nat) (pr : Nat → F) (bv iv : Nat → Nat) (i : Nat) (t : Aug F)
    (irO : Nat → Nat) (prO hO : Nat → F) : Prop where
  j_eq : t.j = rank I.nb I.ni bv iv i
  hjc : Holds t.jc (I.n + 1) (fun k => jc k + 2 * rank I.nb I.ni bv iv (min k i))
  hir : HoldsOn t.ir (jc I.n + 2 * I.nb + 2 * I.ni) (fun q => q < jcN I jc bv iv i) irO
  hpr : HoldsOn t.pr (jc I.n + 2 * I.nb + 2 * I.ni) (fun q => q < jcN I jc bv iv i) prO
  hh : HoldsOn t.h (I.m + 2 * I.nb + 2 * I.ni) (fun r => r < 2 * rank I.nb I.ni bv iv i) hO
  cols : ∀ i', i' < i → ColOk I jc ir pr bv iv (jcN I jc bv iv) irO prO i'
  rhs : ∀ i', i' < i → HOk I bv iv hO i'

/-- a column is not touched by writes beyond its end -/
theorem ColOk.congr (hin : InOk I jc ir pr hu bv iv) {i : Nat} (hi : i < I.n) {irO irO' : Nat → Nat} {prO prO' : Nat → F}
    (h : ColOk I jc ir pr bv iv (jcN I jc bv iv) irO prO i)
    (h1 : ∀ q, q < jcN I jc bv iv (i + 1) → irO' q = irO q)
    (h2 : ∀ q, q < jcN I jc bv iv (i + 1) → prO' q = prO q) :
    ColOk I jc ir pr bv iv (jcN I jc bv iv) irO' prO' i := by
  have hs := jcN_succ hin hi
  constructor
  · intro hd
    have ho : off I.nb I.ni bv iv i = 2 := if_pos hd
    rw [ho] at hs
    rw [h1 _ (by omega), h1 _ (by omega), h2 _ (by omega), h2 _ (by omega)]
    exact h.bnd hd
  · intro k hk
    rw [h1 _ (by omega), h2 _ (by omega)]
    exact h.user k hk

theorem HOk.congr {hO hO' : Nat → F} {i : Nat} (h : HOk I bv iv hO i)
    (h1 : ∀ q, q < 2 * rank I.nb I.ni bv iv (i + 1) → hO' q = hO q) : HOk I bv iv hO' i := by
  constructor
  · intro hm
    rw [rank_succ_decl _ _ _ _ (Or.inl hm)] at h1
    rw [h1 _ (by omega), h1 _ (by omega)]
    exact h.1 hm
  · intro hn hm
    rw [rank_succ_decl _ _ _ _ (Or.inr hm)] at h1
    rw [h1 _ (by omega), h1 _ (by omega)]
    exact h.2 hn hm

/-- copying the user's column -/
theorem augCol_ok (hin : InOk I jc ir pr hu bv iv) {i : Nat} (hi : i < I.n) {t : Aug F} {o of : Nat}
    (ho : rd t.jc i = .ok o) {irO : Nat → Nat} {prO : Nat → F}
    (hir : HoldsOn t.ir (jc I.n + 2 * I.nb + 2 * I.ni) (fun q => q < o + of) irO)
    (hpr : HoldsOn t.pr (jc I.n + 2 * I.nb + 2 * I.ni) (fun q => q < o + of) prO)
    (hroom : o + of + (jc (i + 1) - jc i) ≤ jc I.n + 2 * I.nb + 2 * I.ni) :
    Ok (augCol I i of t) (fun t' => t'.j = t.j ∧ t'.jc = t.jc ∧ t'.h = t.h ∧ ∃ irO' prO',
      HoldsOn t'.ir (jc I.n + 2 * I.nb + 2 * I.ni) (fun q => q < o + of + (jc (i + 1) - jc i)) irO' ∧
      HoldsOn t'.pr (jc I.n + 2 * I.nb + 2 * I.ni) (fun q => q < o + of + (jc (i + 1) - jc i)) prO' ∧
      (∀ q, q < o + of → irO' q = irO q ∧ prO' q = prO q) ∧
      (∀ k, k < jc (i + 1) - jc i → prO' (o + of + k) = pr (jc i + k) ∧
        irO' (o + of + k) = ir (jc i + k) + 2 * I.nb + 2 * I.ni)) := by
  have hm := hin.csc.mono i hi
  have ht := hin.csc.le_top (show i + 1 ≤ I.n by omega)
  unfold augCol
  rw [hin.hjc.rd (by omega), ok_bind_eq, hin.hjc.rd (by omega), ok_bind_eq]
  refine loop_ok (fun c t' => t'.j = t.j ∧ t'.jc = t.jc ∧ t'.h = t.h ∧ ∃ irO' prO',
      HoldsOn t'.ir (jc I.n + 2 * I.nb + 2 * I.ni) (fun q => q < o + of + c) irO' ∧
      HoldsOn t'.pr (jc I.n + 2 * I.nb + 2 * I.ni) (fun q => q < o + of + c) prO' ∧
      (∀ q, q < o + of → irO' q = irO q ∧ prO' q = prO q) ∧
      (∀ k, k < c → prO' (o + of + k) = pr (jc i + k) ∧
        irO' (o + of + k) = ir (jc i + k) + 2 * I.nb + 2 * I.ni)) (Nat.zero_le _) ?_ ?_ (fun s hs => hs)
  · exact ⟨rfl, rfl, rfl, irO, prO, hir, hpr, fun _ _ => ⟨rfl, rfl⟩, fun k hk => absurd hk (by omega)⟩
  · rintro c t' - hc ⟨e1, e2, e3, f, g, h1, h2, h3, h4⟩
    unfold augCopy
    rw [e2, ho, ok_bind_eq, hin.hjc.rd (by omega), ok_bind_eq, hin.hpr.rd (by omega), ok_bind_eq, Ok_bind]
    refine (h2.wr (i := o + of + c) (by omega) _).mono ?_
    intro pr' hp
    rw [hin.hir.rd (by omega), ok_bind_eq, Ok_bind]
    refine (h1.wr (i := o + of + c) (by omega) _).mono ?_
    intro ir' hr
    rw [Ok_pure]
    refine ⟨e1, rfl, e3, _, _, hr.congr (fun q _ hq => ⟨by omega, rfl⟩), hp.congr (fun q _ hq => ⟨by omega, rfl⟩),
      fun q hq => ?_, fun k hk => ?_⟩
    · rw [upd_ne _ _ (by omega), upd_ne _ _ (by omega)]; exact h3 q hq
    · by_cases hkc : k = c
      · subst hkc; rw [upd_self, upd_self]; exact ⟨rfl, rfl⟩
      · rw [upd_ne _ _ (by omega), upd_ne _ _ (by omega)]; exact h4 k (by omega)

/-- the shift of the later column pointers -/
theorem shift_ok {b : Buf Nat} {n i : Nat} {f : Nat → Nat} (h : Holds b (n + 1) f) (hi : i < n) :
    Ok (loop (i + 1) (n + 1) b fun k jc => do
      let v ← rd jc k
      wr jc k (v + 2)) (fun b' => Holds b' (n + 1) (fun k => if i < k then f k + 2 else f k)) := by
  refine loop_ok (fun t b' => Holds b' (n + 1) (fun k => if i < k ∧ k < t then f k + 2 else f k)) (by omega) ?_ ?_ ?_
  · exact h.congr (fun k _ => by rw [if_neg (by omega)])
  · intro t b' h1 h2 hb
    rw [hb.rd h2, ok_bind_eq]
    refine (hb.wr h2 _).mono fun b'' hb' => hb'.congr fun k hk => ?_
    by_cases hkt : k = t
    · subst hkt
      rw [upd_self, if_neg (by omega), if_pos (by omega)]
    · rw [upd_ne _ _ hkt]
      by_cases h3 : i < k ∧ k < t
      · rw [if_pos h3, if_pos (by omega)]
      · rw [if_neg h3, if_neg (by omega)]
  · intro b' hb
    exact hb.congr fun k hk => by
      by_cases h3 : i < k
      · rw [if_pos ⟨h3, hk⟩, if_pos h3]
      · rw [if_neg (by omega), if_neg h3]

theorem augBound_ok (hin : InOk I jc ir pr hu bv iv) {i : Nat} (hi : i < I.n) {t : Aug F} {irO : Nat → Nat}
    {prO hO : Nat → F} (h : Inv I jc ir pr bv iv i t irO prO hO) (hd : Decl I.nb I.ni bv iv i) {lo hi' : F}
    (hlh : ∀ hO : Nat → F, hO (2 * rank I.nb I.ni bv iv i) = lo → hO (2 * rank I.nb I.ni bv iv i + 1) = hi' → HOk I bv iv hO i) :
    Ok (augBound I i lo hi' t) (fun t' => ∃ irO prO hO, Inv I jc ir pr bv iv (i + 1) t' irO prO hO) := by
  have hs := jcN_succ hin hi
  have hof : off I.nb I.ni bv iv i = 2 := if_pos hd
  rw [hof] at hs
  have hle := jcN_mono hin (show i + 1 ≤ I.n by omega) (le_refl _)
  have htop := jcN_top hin
  have hrk := rank_lt _ _ _ _ hd
  have hr1 := rank_succ_decl _ _ _ _ hd
  have hjn : jc i + 2 * rank I.nb I.ni bv iv i = jcN I jc bv iv i := rfl
  unfold augBound
  rw [h.hjc.rd (by omega), ok_bind_eq, Nat.min_self, hjn, Ok_bind]
  refine (h.hpr.wr (i := jcN I jc bv iv i) (by omega) _).mono fun p1 hp1 => ?_
  rw [Ok_bind]
  refine (hp1.wr (i := jcN I jc bv iv i + 1) (by omega) _).mono fun p2 hp2 => ?_
  rw [Ok_bind]
  refine (h.hir.wr (i := jcN I jc bv iv i) (by omega) _).mono fun r1 hr1' => ?_
  rw [Ok_bind]
  refine (hr1'.wr (i := jcN I jc bv iv i + 1) (by omega) _).mono fun r2 hr2 => ?_
  rw [Ok_bind, h.j_eq]
  refine (h.hh.wr (i := 2 * rank I.nb I.ni bv iv i) (by omega) _).mono fun h1 hh1 => ?_
  rw [Ok_bind]
  refine (hh1.wr (i := 2 * rank I.nb I.ni bv iv i + 1) (by omega) _).mono fun h2 hh2 => ?_
  rw [Ok_bind]
  refine (shift_ok h.hjc hi).mono fun c hc => ?_
  rw [Ok_bind]
  refine (augCol_ok hin hi (of := 2) (o := jcN I jc bv iv i) (t := { pr := p2, ir := r2, h := h2, jc := c, j := rank I.nb I.ni bv iv i }) ?_
    (hr2.congr (Q := fun q => q < jcN I jc bv iv i + 2) (fun q _ hq => ⟨by omega, rfl⟩))
    (hp2.congr (Q := fun q => q < jcN I jc bv iv i + 2) (fun q _ hq => ⟨by omega, rfl⟩)) (by omega)).mono ?_
  · show rd c i = _
    rw [hc.rd (by omega), if_neg (by omega), Nat.min_self]; rfl
  · rintro t' ⟨e1, e2, e3, f, g, k1, k2, k3, k4⟩
    rw [Ok_pure]
    have hfold : ∀ q, q < jcN I jc bv iv i → f q = irO q ∧ g q = prO q := by
      intro q hq
      obtain ⟨a1, a2⟩ := k3 q (by omega)
      rw [a1, a2, upd_ne _ _ (by omega), upd_ne _ _ (by omega), upd_ne _ _ (by omega), upd_ne _ _ (by omega)]
      exact ⟨rfl, rfl⟩
    refine ⟨f, g, upd (upd hO (2 * rank I.nb I.ni bv iv i) lo) (2 * rank I.nb I.ni bv iv i + 1) hi', { j_eq := ?_, hjc := ?_, hir := ?_, hpr := ?_, hh := ?_, cols := ?_, rhs := ?_ }⟩
    · show t'.j + 1 = _
      rw [e1, hr1]
    · show Holds t'.jc _ _
      rw [e2]
      refine hc.congr fun k hk => ?_
      by_cases hik : i < k
      · rw [if_pos hik, Nat.min_eq_right (by omega), Nat.min_eq_right (by omega), hr1]; omega
      · rw [if_neg hik, Nat.min_eq_left (by omega), Nat.min_eq_left (by omega)]
    · exact k1.congr fun q _ hq => ⟨by omega, rfl⟩
    · exact k2.congr fun q _ hq => ⟨by omega, rfl⟩
    · show HoldsOn t'.h _ _ _
      rw [e3]
      exact hh2.congr (fun q _ hq => ⟨by omega, rfl⟩)
    · intro i' hi'
      by_cases hc' : i' = i
      · subst hc'
        refine ⟨fun _ => ?_, fun k hk => ?_⟩
        · obtain ⟨a1, a2⟩ := k3 (jcN I jc bv iv i') (by omega)
          obtain ⟨b1, b2⟩ := k3 (jcN I jc bv iv i' + 1) (by omega)
          rw [a1, a2, b1, b2]
          refine ⟨?_, ?_, ?_, ?_⟩ <;> simp [upd, h.j_eq]
        · rw [hof]; exact k4 k hk
      · have hlt : jcN I jc bv iv (i' + 1) ≤ jcN I jc bv iv i := jcN_mono hin (by omega) (by omega)
        exact (h.cols i' (by omega)).congr hin (by omega) (fun q hq => (hfold q (by omega)).1)
          (fun q hq => (hfold q (by omega)).2)
    · intro i' hi'
      by_cases hc' : i' = i
      · subst hc'
        exact hlh _ (by simp [upd]) (by simp [upd])
      · have := rank_mono I.nb I.ni bv iv (show i' + 1 ≤ i by omega)
        exact (h.rhs i' (by omega)).congr (fun q hq => by
          rw [upd_ne _ _ (by omega), upd_ne _ _ (by omega)])

theorem augStep_ok (hin : InOk I jc ir pr hu bv iv) {i : Nat} (hi : i < I.n) {t : Aug F} {irO : Nat → Nat}
    {prO hO : Nat → F} (h : Inv I jc ir pr bv iv i t irO prO hO) :
    Ok (augStep I i t) (fun t' => ∃ irO prO hO, Inv I jc ir pr bv iv (i + 1) t' irO prO hO) := by
  unfold augStep
  rw [Ok_bind]
  refine (contains_ok hin.hb i).mono fun b hb => ?_
  rw [Ok_ite]
  refine ⟨fun h0 => ?_, fun h0 => ?_⟩
  · have hm := hb.mp h0
    exact augBound_ok hin hi h (Or.inl hm) (fun hO e1 e2 => ⟨fun _ => ⟨e1, e2⟩, fun hn => absurd hm hn⟩)
  · have hm := fun hm => h0 (hb.mpr hm)
    rw [Ok_bind]
    refine (contains_ok hin.hi i).mono fun c hc => ?_
    rw [Ok_ite]
    refine ⟨fun h1 => ?_, fun h1 => ?_⟩
    · have hm' := hc.mp h1
      exact augBound_ok hin hi h (Or.inr hm') (fun hO e1 e2 => ⟨fun hn => absurd hn hm, fun _ _ => ⟨e1, e2⟩⟩)
    · have hm' := fun hm' => h1 (hc.mpr hm')
      have hd : ¬ Decl I.nb I.ni bv iv i := fun hd => hd.elim hm hm'
      have hs := jcN_succ hin hi
      have hof : off I.nb I.ni bv iv i = 0 := if_neg hd
      rw [hof] at hs
      have hle := jcN_mono hin (show i + 1 ≤ I.n by omega) (le_refl _)
      have htop := jcN_top hin
      have hr1 := rank_succ_not _ _ _ _ hd
      refine (augCol_ok hin hi (of := 0) (o := jcN I jc bv iv i) ?_ h.hir h.hpr (by omega)).mono ?_
      · rw [h.hjc.rd (by omega), Nat.min_self]; rfl
      rintro t' ⟨e1, e2, e3, f, g, k1, k2, k3, k4⟩
      refine ⟨f, g, hO, { j_eq := ?_, hjc := ?_, hir := ?_, hpr := ?_, hh := ?_, cols := ?_, rhs := ?_ }⟩
      · rw [e1, hr1, h.j_eq]
      · rw [e2]
        refine h.hjc.congr fun k hk => ?_
        by_cases hik : i < k
        · rw [Nat.min_eq_right (by omega), Nat.min_eq_right (by omega), hr1]
        · rw [Nat.min_eq_left (by omega), Nat.min_eq_left (by omega)]
      · exact k1.congr fun q _ hq => ⟨by omega, rfl⟩
      · exact k2.congr fun q _ hq => ⟨by omega, rfl⟩
      · rw [e3, hr1]; exact h.hh
      · intro i' hi'
        by_cases hc' : i' = i
        · subst hc'
          refine ⟨fun hd' => absurd hd' hd, fun k hk => ?_⟩
          rw [hof]; exact k4 k hk
        · have hlt : jcN I jc bv iv (i' + 1) ≤ jcN I jc bv iv i := jcN_mono hin (by omega) (by omega)
          exact (h.cols i' (by omega)).congr hin (by omega) (fun q hq => (k3 q (by omega)).1)
            (fun q hq => (k3 q (by omega)).2)
      · intro i' hi'
        by_cases hc' : i' = i
        · subst hc'
          exact ⟨fun h' => absurd h' hm, fun _ h' => absurd h' hm'⟩
        · exact h.rhs i' (by omega)

/-- the result of the augmentation -/
structure OutOk (I : AugIn F) (jc ir : Nat → Nat) (pr hu : Nat → F) (bv iv : Nat → Nat) (t : Aug F)
    (irO : Nat → Nat) (prO hO : Nat → F) : Prop where
  hjc : Holds t.jc (I.n + 1) (jcN I jc bv iv)
  hir : HoldsOn t.ir (jc I.n + 2 * I.nb + 2 * I.ni) (fun q => q < jcN I jc bv iv I.n) irO
  hpr : HoldsOn t.pr (jc I.n + 2 * I.nb + 2 * I.ni) (fun q => q < jcN I jc bv iv I.n) prO
  hh : HoldsOn t.h (I.m + 2 * I.nb + 2 * I.ni)
    (fun r => r < 2 * rank I.nb I.ni bv iv I.n ∨ 2 * (I.nb + I.ni) ≤ r) hO
  cols : ∀ i, i < I.n → ColOk I jc ir pr bv iv (jcN I jc bv iv) irO prO i
  rhs : ∀ i, i < I.n → HOk I bv iv hO i
  user : ∀ r, r < I.m → hO (2 * (I.nb + I.ni) + r) = hu r

theorem socpToBB_ok (hin : InOk I jc ir pr hu bv iv) :
    Ok (socpToBB I) (fun t => ∃ irO prO hO, OutOk I jc ir pr hu bv iv t irO prO hO) := by
  unfold socpToBB
  rw [hin.hjc.rd (by omega), ok_bind_eq, Ok_bind]
  have h1 : Ok (loop 0 (I.n + 1) (malloc (I.n + 1)) fun i jc => do
      let v ← rd I.gjc i
      wr jc i v) (fun b => Holds b (I.n + 1) jc) := by
    refine loop_ok (fun t b => HoldsOn b (I.n + 1) (fun k => k < t) jc) (Nat.zero_le _) ?_ ?_ ?_
    · exact (malloc_holdsOn _ jc).congr (fun i _ h => absurd h (by omega))
    · intro t b _ ht hb
      rw [hin.hjc.rd ht, ok_bind_eq]
      refine (hb.wr ht _).mono fun b' hb' => hb'.congr fun k hk hkt => ⟨by omega, ?_⟩
      by_cases h : k = t
      · subst h; rw [upd_self]
      · rw [upd_ne _ _ h]
    · intro b hb; exact hb.full (fun i hi => hi)
  refine h1.mono fun b hb => ?_
  rw [Ok_bind]
  have h2 : Ok (loop 0 I.n ⟨malloc (jc I.n + 2 * I.nb + 2 * I.ni), b, malloc (jc I.n + 2 * I.nb + 2 * I.ni),
      malloc (I.m + 2 * I.nb + 2 * I.ni), 0⟩ (augStep I))
      (fun t => ∃ irO prO hO, Inv I jc ir pr bv iv I.n t irO prO hO) := by
    refine loop_ok (fun i t => ∃ irO prO hO, Inv I jc ir pr bv iv i t irO prO hO) (Nat.zero_le _) ?_ ?_
      (fun s hs => hs)
    · have hr : rank I.nb I.ni bv iv 0 = 0 := by simp [rank]
      have hj : jcN I jc bv iv 0 = 0 := by simp [jcN, hr, hin.csc.zero]
      refine ⟨fun _ => 0, fun _ => 0, fun _ => 0, { j_eq := hr.symm, hjc := ?_, hir := ?_, hpr := ?_, hh := ?_, cols := ?_, rhs := ?_ }⟩
      · exact hb.congr fun k _ => by rw [Nat.min_zero, hr]; rfl
      · exact (malloc_holdsOn _ (fun _ => 0)).congr (fun i _ h => by rw [hj] at h; omega)
      · exact (malloc_holdsOn _ (fun _ => 0)).congr (fun i _ h => by rw [hj] at h; omega)
      · exact (malloc_holdsOn _ (fun _ => 0)).congr (fun i _ h => by rw [hr] at h; omega)
      · intro i' h; omega
      · intro i' h; omega
    · rintro i t - hi ⟨f, g, h, hI⟩
      exact augStep_ok hin hi hI
  refine h2.mono ?_
  rintro t ⟨f, g, hO, hI⟩
  rw [Ok_bind]
  have h3 : Ok (loop 0 I.m t.h fun i h => do
      let v ← rd I.h i
      wr h (2 * (I.nb + I.ni) + i) v) (fun b => ∃ hO', HoldsOn b (I.m + 2 * I.nb + 2 * I.ni)
        (fun r => r < 2 * rank I.nb I.ni bv iv I.n ∨ 2 * (I.nb + I.ni) ≤ r) hO' ∧
        (∀ q, q < 2 * (I.nb + I.ni) → hO' q = hO q) ∧ ∀ r, r < I.m → hO' (2 * (I.nb + I.ni) + r) = hu r) := by
    refine loop_ok (fun c b => ∃ hO', HoldsOn b (I.m + 2 * I.nb + 2 * I.ni)
        (fun r => r < 2 * rank I.nb I.ni bv iv I.n ∨ (2 * (I.nb + I.ni) ≤ r ∧ r < 2 * (I.nb + I.ni) + c)) hO' ∧
        (∀ q, q < 2 * (I.nb + I.ni) → hO' q = hO q) ∧ ∀ r, r < c → hO' (2 * (I.nb + I.ni) + r) = hu r)
        (Nat.zero_le _) ?_ ?_ ?_
    · exact ⟨hO, hI.hh.congr (fun r _ h => ⟨by omega, rfl⟩), fun _ _ => rfl, fun r hr => absurd hr (by omega)⟩
    · rintro c b - hc ⟨hO', k1, k2, k3⟩
      rw [hin.hh.rd hc, ok_bind_eq]
      refine (k1.wr (i := 2 * (I.nb + I.ni) + c) (by omega) _).mono fun b' hb' => ?_
      refine ⟨_, hb'.congr (fun r _ h => ⟨by omega, rfl⟩), fun q hq => ?_, fun r hr => ?_⟩
      · rw [upd_ne _ _ (by omega)]; exact k2 q hq
      · by_cases h : r = c
        · subst h; rw [upd_self]
        · rw [upd_ne _ _ (by omega)]; exact k3 r (by omega)
    · rintro b ⟨hO', k1, k2, k3⟩
      exact ⟨hO', k1.congr (fun r hr h => ⟨by omega, rfl⟩), k2, k3⟩
  refine h3.mono ?_
  rintro b ⟨hO', k1, k2, k3⟩
  rw [Ok_pure]
  refine ⟨f, g, hO', { hjc := ?_, hir := hI.hir, hpr := hI.hpr, hh := k1, cols := hI.cols, rhs := ?_, user := k3 }⟩
  · refine hI.hjc.congr fun k hk => ?_
    rw [Nat.min_eq_left (by omega)]; rfl
  · intro i hi
    have := rank_le I.nb I.ni bv iv (i + 1)
    exact (hI.rhs i hi).congr (fun q hq => k2 q (by omega))

end generic
end Augm
end BB
end Ecos
