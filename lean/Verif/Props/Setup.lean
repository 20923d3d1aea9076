import Verif.Lemmas.Driver4
import Verif.Model.Preproc
import Mathlib.Algebra.BigOperators.Group.Finset.Basic
import Mathlib.Algebra.BigOperators.Intervals

/-!
# C41: inconsistent dimensions are rejected
-/
namespace Ecos

set_option linter.unusedSectionVars false
open Finset

section generic
variable {F : Type} [Zero F] [One F] [Add F] [Sub F] [Mul F] [Div F] [Neg F] [OfScientific F]
  [IntCast F] [PFloat F]

theorem newSocs_spec {ncones : Nat} {q : Buf Nat} {f : Nat → Nat} (hq : Holds q ncones f) :
    Ok (newSocs (F := F) ncones q) fun t =>
      t.1.toList = (List.range ncones).map (fun i => newSoc (f i)) ∧ t.2 = ∑ i ∈ range ncones, f i := by
  unfold newSocs
  refine loop_ok (fun k t => t.1.toList = (List.range k).map (fun i => newSoc (f i)) ∧
    t.2 = ∑ i ∈ range k, f i) (Nat.zero_le _) (by simp) ?_ (fun _ h => h)
  intro i t _ hi ht
  simp only [hq.rd hi, ok_bind_eq, Ok_pure]
  refine ⟨?_, ?_⟩
  · simp [ht.1, List.range_succ]
  · simp only [sum_range_succ, ht.2]

/-- C41: if the cone sizes `q[0..ncones)`, `l` and `3 * nexc` do not add up to `m`, set-up returns the
null pointer, having read nothing but `q` (the result does not depend on any other array, which may even
be null or unwritten) and written to none of the caller's arrays (`dims` carries no array, while the other
two outcomes carry the changed ones).  If it gets past that point, or succeeds, the sizes add up. -/
theorem C41_dims (amd : Nat → Buf Nat → Buf Nat → Option (Buf Nat)) {n m p l ncones nexc : Nat} {q : Buf Nat}
    {f : Nat → Nat} (hq : Holds q ncones f) (G3 A3 : Mat3 F) (c h b : Buf F) :
    (∑ i ∈ range ncones, f i + l + 3 * nexc ≠ m →
      ecosSetup amd n m p l ncones q nexc G3 A3 c h b = .ok .dims) ∧
    (∀ r, ecosSetup amd n m p l ncones q nexc G3 A3 c h b = .ok r → r ≠ .dims →
      ∑ i ∈ range ncones, f i + l + 3 * nexc = m) := by
  obtain ⟨t, ht, -, h2⟩ := (Ok.def _ _).1 (newSocs_spec (F := F) hq)
  constructor
  · intro hne
    unfold ecosSetup
    simp only [ht]
    show (if t.2 + l + 3 * nexc ≠ m then _ else _) = _
    rw [h2, if_pos hne]
    rfl
  · intro r hr hd
    by_contra hne
    unfold ecosSetup at hr
    simp only [ht] at hr
    change (if t.2 + l + 3 * nexc ≠ m then pure SetupRes.dims else _) = _ at hr
    rw [h2, if_pos hne, pure_ok] at hr
    exact hd hr.symm

/-- C41, success: the workspace returned is for the dimensions given, and its cones are the cones
given -/
theorem C41_success (amd : Nat → Buf Nat → Buf Nat → Option (Buf Nat)) {n m p l ncones nexc : Nat} {q : Buf Nat}
    {f : Nat → Nat} (hq : Holds q ncones f) {G3 A3 : Mat3 F} {c h b : Buf F} {w : Work F}
    (hr : ecosSetup amd n m p l ncones q nexc G3 A3 c h b = .ok (.ok w)) :
    w.n = n ∧ w.m = m ∧ w.p = p ∧ w.D = l + ncones + 3 * nexc ∧
      ∑ i ∈ range ncones, f i + l + 3 * nexc = m := by
  refine ⟨?_, ?_, ?_, ?_, (C41_dims amd hq G3 A3 c h b).2 _ hr (by simp)⟩
  all_goals
    unfold ecosSetup at hr
    simp only [bind_ok] at hr
    obtain ⟨soc, -, hr⟩ := hr
    split at hr
    · simp [pure_ok] at hr
    · simp only [bind_ok] at hr
      obtain ⟨A, -, G, -, R, -, hr⟩ := hr
      split at hr
      · simp [pure_ok] at hr
      · simp only [bind_ok, pure_ok] at hr
        obtain ⟨K, -, hr⟩ := hr
        cases hr
        rfl

end generic

/-- sizes that do not add up (two second-order cones of sizes 3 and 2, `m = 7`, `l = 1`), and sizes that do -/
example : Holds (#[some 3, some 2] : Buf Nat) 2 (fun i => if i = 0 then 3 else 2) ∧
    ∑ i ∈ range 2, (if i = 0 then 3 else 2) + 1 + 3 * 0 ≠ 7 ∧
    ∑ i ∈ range 2, (if i = 0 then 3 else 2) + 1 + 3 * 0 = 6 := by
  refine ⟨⟨rfl, fun i hi => ?_⟩, by decide, by decide⟩
  obtain rfl | rfl : i = 0 ∨ i = 1 := by omega
  all_goals rfl

end Ecos
