import Verif.Lemmas.Ldl4
import Verif.Lemmas.Permute
import Mathlib.Tactic.Ring
import Mathlib.Tactic.FieldSimp
import Mathlib.Algebra.BigOperators.Ring.Finset

/-!
# The factorisation over the reals: `L D L' = K + R`
-/
namespace Ecos.Fact

open Ecos Finset

set_option linter.unusedSectionVars false

open Classical in
theorem red_sum {n : Nat} {V : Nat → Nat → Prop} {lf : Nat → Nat → ℝ} {u : Nat → ℝ} {a : ℝ} {i : Nat} {d : List Nat}
    (hd : d.Nodup) (hn : ∀ j ∈ d, j < n) :
    red V lf u a i d = a - ∑ m ∈ range n, if m ∈ d ∧ V i m then lf i m * u m else 0 := by
  induction d using List.reverseRecOn with
  | nil => simp [red]
  | append_singleton d j ih =>
    have hj : j ∉ d := fun h => List.disjoint_of_nodup_append hd h (by simp)
    have e := ih (List.Nodup.of_append_left hd) fun j hj => hn j (by simp [hj])
    have hsplit : ∑ m ∈ range n, (if m ∈ d ++ [j] ∧ V i m then lf i m * u m else 0) =
        ∑ m ∈ range n, (if m ∈ d ∧ V i m then lf i m * u m else 0) +
          (if V i j then lf i j * u j else 0) := by
      have : (if V i j then lf i j * u j else 0) =
          ∑ m ∈ range n, if m = j then (if V i m then lf i m * u m else 0) else 0 := by
        rw [sum_ite_eq' (range n) j, if_pos (mem_range.2 (hn j (by simp)))]
      rw [this, ← sum_add_distrib]
      refine sum_congr rfl fun m _ => ?_
      by_cases hm : m = j
      · subst hm; simp [hj]
      · simp [hm]
    rw [hsplit]
    by_cases hV : V i j
    · rw [red_snoc_pos hV, e, if_pos hV]; ring
    · rw [red_snoc_neg hV, e, if_neg hV]; ring

open Classical in
theorem piv_sum {n : Nat} {lf u : Nat → ℝ} {a : ℝ} {d : List Nat} (hd : d.Nodup) (hn : ∀ j ∈ d, j < n) :
    piv lf u a d = a - ∑ m ∈ range n, if m ∈ d then lf m * u m else 0 := by
  induction d using List.reverseRecOn with
  | nil => simp [piv]
  | append_singleton d j ih =>
    have hj : j ∉ d := fun h => List.disjoint_of_nodup_append hd h (by simp)
    have e := ih (List.Nodup.of_append_left hd) fun j hj => hn j (by simp [hj])
    have hsplit : ∑ m ∈ range n, (if m ∈ d ++ [j] then lf m * u m else 0) =
        ∑ m ∈ range n, (if m ∈ d then lf m * u m else 0) + lf j * u j := by
      have : lf j * u j = ∑ m ∈ range n, if m = j then lf m * u m else 0 := by
        rw [sum_ite_eq' (range n) j, if_pos (mem_range.2 (hn j (by simp)))]
      rw [this, ← sum_add_distrib]
      refine sum_congr rfl fun m _ => ?_
      by_cases hm : m = j
      · subst hm; simp [hj]
      · simp [hm]
    rw [hsplit, piv_snoc, e]; ring

open Classical in
/-- the unit lower triangular matrix with the entries `lf` on the pattern `V` -/
noncomputable def lmat (V : Nat → Nat → Prop) (lf : Nat → Nat → ℝ) (i j : Nat) : ℝ :=
  if i = j then 1 else if V i j then lf i j else 0

/-- no column stores an index twice -/
def NoDup (n : Nat) (ap ai : Nat → Nat) : Prop :=
  ∀ k, k < n → ∀ p p', ap k ≤ p → p < ap (k + 1) → ap k ≤ p' → p' < ap (k + 1) → ai p = ai p' → p = p'

theorem ent_dense {n : Nat} {ap ai : Nat → Nat} {ax : Nat → ℝ} (h : CscOk n n ap ai) (hn : NoDup n ap ai) {k : Nat}
    (hk : k < n) (i : Nat) : ent ap ai ax k i = dense ap ai ax i k := by
  have hm := h.mono k hk
  have key : ∀ t, ap k + t ≤ ap (k + 1) →
      colVal ap ai ax k t i = ∑ p ∈ Ico (ap k) (ap k + t), if ai p = i then ax p else 0 := by
    intro t
    induction t with
    | zero => intro _; simp [colVal]
    | succ t ih =>
      intro ht
      rw [show ap k + (t + 1) = ap k + t + 1 by omega, sum_Ico_succ_top (by omega)]
      unfold colVal
      by_cases hi : ai (ap k + t) = i
      · rw [if_pos hi, ← hi, upd_self, sum_eq_zero, zero_add]
        intro p hp
        rw [mem_Ico] at hp
        rw [if_neg]
        intro e
        have := hn k hk p (ap k + t) hp.1 (by omega) (by omega) (by omega) e
        omega
      · rw [upd_ne _ _ (Ne.symm hi), if_neg hi, add_zero]
        exact ih (by omega)
  unfold ent dense
  rw [key _ (by omega), show ap k + (ap (k + 1) - ap k) = ap (k + 1) by omega]

variable {n : Nat} {ap ai q : Nat → Nat} {ax : Nat → ℝ} {sg : Nat → Int} {eps delta : ℝ} {lf : Nat → Nat → ℝ} {df : Nat → ℝ}

theorem row_reach (hT : Tree n n ap ai q) {r j : Nat} (hr : r < n) (h : Row ap ai q r j) : Reach q j r := by
  obtain ⟨h1, p, h2, h3, h4⟩ := h
  exact h4.linear hT.inc (hT.col r hr p h2 h3) (by omega)

/-- the row patterns are closed: rows sharing a column are linked -/
theorem row_closed (hT : Tree n n ap ai q) {k r j : Nat} (hr : r < k) (hk : k < n) (h1 : Row ap ai q k j)
    (h2 : Row ap ai q r j) : Row ap ai q k r := by
  obtain ⟨-, p, p1, p2, p3⟩ := h1
  exact ⟨hr, p, p1, p2, p3.trans (row_reach hT (by omega) h2)⟩

theorem dynReg_ne {s : Int} (hs : s = 1 ∨ s = -1) (he : 0 ≤ eps) (hd : 0 < delta) (v : ℝ) :
    0 < (s : ℝ) * dynReg s eps delta v := by
  unfold dynReg
  split
  · rcases hs with rfl | rfl <;> simp [hd]
  · next h =>
    simp only [real_le, not_le] at h
    linarith

/-- the strictly lower part of `L D L'` is that of the matrix -/
theorem ldl_lower (hU : UpperPat n ap ai) (hT : Tree n n ap ai q)
    (hrow : ∀ r, r < n → RowEq (Row ap ai q) q (ent ap ai ax) sg eps delta lf df r) (hdf : ∀ i, i < n → df i ≠ 0)
    {k i : Nat} (hk : k < n) (hi : i < k) :
    ∑ m ∈ range n, lmat (Row ap ai q) lf k m * df m * lmat (Row ap ai q) lf i m = ent ap ai ax k i := by
  classical
  obtain ⟨ord, u, h1, h2, h3, h4, -⟩ := hrow k hk
  have hu : ∀ j, Row ap ai q k j → lf k j * df j = u j := by
    intro j hj
    have hjk := hj.1
    rw [h4 j ((h2 j).2 hj), div_mul_cancel₀ _ (hdf j (by omega))]
  by_cases hV : Row ap ai q k i
  · obtain ⟨d, t, hdt⟩ := List.append_of_mem ((h2 i).2 hV)
    have e := h3 d i t hdt
    have hnd := h1.nodup
    rw [hdt] at hnd
    have hid : i ∉ d := fun h => List.disjoint_of_nodup_append hnd h (by simp)
    rw [red_sum (n := n) (List.Nodup.of_append_left hnd) (fun j hj => by
      have := h1.lt (x := j) (by rw [hdt]; simp [hj]); omega)] at e
    have hsum : ∑ m ∈ range n, lmat (Row ap ai q) lf k m * df m * lmat (Row ap ai q) lf i m =
        ∑ m ∈ range n, ((if m ∈ d ∧ Row ap ai q i m then lf i m * u m else 0) + if m = i then u m else 0) := by
      refine sum_congr rfl fun m hm => ?_
      rw [mem_range] at hm
      unfold lmat
      by_cases hmi : m = i
      · subst hmi
        rw [if_neg (by omega), if_pos hV, if_pos rfl, if_neg (fun h => hid h.1), if_pos rfl, hu m hV]
        ring
      · have hmi' : ¬ i = m := fun e => hmi e.symm
        rw [if_neg hmi', if_neg hmi]
        by_cases hVi : Row ap ai q i m
        · have hmk : k ≠ m := by have := hVi.1; omega
          rw [if_neg hmk, if_pos hVi]
          by_cases hVk : Row ap ai q k m
          · have hmd : m ∈ d := by
              refine (hdt ▸ h1).before hT.inc (by rw [← hdt]; exact (h2 m).2 hVk) (row_reach hT (by omega) hVi) hmi
            rw [if_pos hVk, if_pos ⟨hmd, hVi⟩, hu m hVk]
            ring
          · rw [if_neg hVk, if_neg]
            · ring
            · rintro ⟨h, -⟩
              exact hVk ((h2 m).1 (by rw [hdt]; simp [h]))
        · have hVi' : ¬ (m ∈ d ∧ Row ap ai q i m) := fun h => hVi h.2
          rw [if_neg hVi, if_neg hVi']
          ring
    rw [hsum, sum_add_distrib, sum_ite_eq' (range n) i, if_pos (mem_range.2 (by omega)), e]
    ring
  · have hz : ent ap ai ax k i = 0 := by
      refine colVal_zero _ fun p p1 p2 e => hV ⟨hi, p, p1, ?_, by rw [e]; exact .refl _⟩
      have := hU.csc.mono k hk
      omega
    rw [hz]
    refine sum_eq_zero fun m hm => ?_
    unfold lmat
    by_cases hmk : k = m
    · subst hmk
      have : ¬ Row ap ai q i k := fun h => by have := h.1; omega
      rw [if_neg (by omega : i ≠ k), if_neg this, mul_zero]
    · rw [if_neg hmk]
      by_cases hVk : Row ap ai q k m
      · have hmi : i ≠ m := fun e => hV (e ▸ hVk)
        have : ¬ Row ap ai q i m := fun h => hV (row_closed hT hi hk hVk h)
        rw [if_neg hmi, if_neg this, mul_zero]
      · rw [if_neg hVk]; ring

/-- the diagonal of `L D L'` differs from that of the matrix by the change of the pivot -/
theorem ldl_diag
    (hrow : ∀ r, r < n → RowEq (Row ap ai q) q (ent ap ai ax) sg eps delta lf df r) (hdf : ∀ i, i < n → df i ≠ 0)
    {k : Nat} (hk : k < n) :
    ∃ v, df k = dynReg (sg k) eps delta v ∧
      ∑ m ∈ range n, lmat (Row ap ai q) lf k m * df m * lmat (Row ap ai q) lf k m = ent ap ai ax k k + (df k - v) := by
  classical
  obtain ⟨ord, u, h1, h2, -, h4, h5⟩ := hrow k hk
  refine ⟨_, h5, ?_⟩
  have hu : ∀ j, Row ap ai q k j → lf k j * df j = u j := by
    intro j hj
    have hjk := hj.1
    rw [h4 j ((h2 j).2 hj), div_mul_cancel₀ _ (hdf j (by omega))]
  rw [piv_sum (n := n) h1.nodup fun j hj => by have := h1.lt hj; omega]
  have hsum : ∑ m ∈ range n, lmat (Row ap ai q) lf k m * df m * lmat (Row ap ai q) lf k m =
      ∑ m ∈ range n, ((if m ∈ ord then lf k m * u m else 0) + if m = k then df m else 0) := by
    refine sum_congr rfl fun m _ => ?_
    unfold lmat
    by_cases hmk : k = m
    · subst hmk
      have : k ∉ ord := fun h => by have := h1.lt h; omega
      rw [if_pos rfl, if_neg this, if_pos rfl]; ring
    · have hmk' : ¬ m = k := fun e => hmk e.symm
      rw [if_neg hmk, if_neg hmk']
      by_cases hV : Row ap ai q k m
      · rw [if_pos hV, if_pos ((h2 m).2 hV), ← hu m hV]; ring
      · rw [if_neg hV, if_neg (fun h => hV ((h2 m).1 h))]; ring
  rw [hsum, sum_add_distrib, sum_ite_eq' (range n) k, if_pos (mem_range.2 hk)]
  ring

/-! ### The stored factor as compressed columns -/

theorem lpOf_csc {V : Nat → Nat → Prop} (hV : ∀ r j, V r j → j < r) {F : Type} [Zero F] {li : Buf Nat} {lx : Buf F} {lf : Nat → Nat → F}
    (h : Store n V li lx (fun v => (rows V n v).length) lf) :
    ∃ (lir : Nat → Nat) (lxv : Nat → F), CscOk n n (lpOf V n) lir ∧
      (∀ j, j < n → ∀ p, lpOf V n j ≤ p → p < lpOf V n (j + 1) → j < lir p) ∧
      Has' li (lpOf V n n) lir ∧ Has' lx (lpOf V n n) lxv ∧
      ∀ i t (ht : t < (rows V n i).length), i < n →
        lir (lpOf V n i + t) = (rows V n i)[t] ∧ lxv (lpOf V n i + t) = lf (rows V n i)[t] i := by
  classical
  obtain ⟨-, -, h⟩ := h
  have hcsc0 : ∀ (g : Nat → Nat), (∀ p, p < lpOf V n n → g p < n) → CscOk n n (lpOf V n) g := fun g hg =>
    ⟨rfl, fun j _ => lpOf_mono (by omega), hg⟩
  have hcol : ∀ p, p < lpOf V n n → ∃ i t, i < n ∧ t < (rows V n i).length ∧ p = lpOf V n i + t := by
    intro p hp
    obtain ⟨j, h1, h2, h3⟩ := (⟨rfl, fun j _ => lpOf_mono (by omega), fun k hk => hk⟩ :
      CscOk (lpOf V n n) n (lpOf V n) id).exists_col hp
    exact ⟨j, p - lpOf V n j, h1, by unfold lpOf at h3; omega, by omega⟩
  have hget : ∀ i t (ht : t < (rows V n i).length), i < n →
      li[lpOf V n i + t]? = some (some (rows V n i)[t]) ∧ lx[lpOf V n i + t]? = some (some (lf (rows V n i)[t] i)) := by
    intro i t ht hi
    obtain ⟨-, h2⟩ := h i hi
    obtain ⟨h3, h4⟩ := h2 t ht
    have hg : (rows V n i)[t]? = some (rows V n i)[t] := by simp [ht]
    rw [hg] at h3 h4
    exact ⟨h3, h4⟩
  refine ⟨fun p => (li[p]?.getD none).getD 0, fun p => (lx[p]?.getD none).getD 0, hcsc0 _ fun p hp => ?_, fun j hj p p1 p2 => ?_,
    fun p hp => ?_, fun p hp => ?_, fun i t ht hi => ?_⟩
  · obtain ⟨i, t, hi, ht, rfl⟩ := hcol p hp
    rw [(hget i t ht hi).1]
    exact (mem_rows.1 (List.getElem_mem ht)).1
  · have ht : p - lpOf V n j < (rows V n j).length := by unfold lpOf at p2; omega
    have := (hget j _ ht hj).1
    rw [show lpOf V n j + (p - lpOf V n j) = p by omega] at this
    beta_reduce
    rw [this]
    exact hV _ _ (mem_rows.1 (List.getElem_mem ht)).2
  · obtain ⟨i, t, hi, ht, rfl⟩ := hcol p hp
    beta_reduce
    rw [(hget i t ht hi).1]; rfl
  · obtain ⟨i, t, hi, ht, rfl⟩ := hcol p hp
    beta_reduce
    rw [(hget i t ht hi).2]; rfl
  · beta_reduce
    rw [(hget i t ht hi).1, (hget i t ht hi).2]
    exact ⟨rfl, rfl⟩

open Classical in
theorem store_dense {V : Nat → Nat → Prop} {lir : Nat → Nat} {lxv : Nat → ℝ} {lf : Nat → Nat → ℝ}
    (h : ∀ i t (ht : t < (rows V n i).length), i < n →
        lir (lpOf V n i + t) = (rows V n i)[t] ∧ lxv (lpOf V n i + t) = lf (rows V n i)[t] i)
    {i j : Nat} (hi : i < n) (hj : j < n) :
    dense (lpOf V n) lir lxv i j = if V i j then lf i j else 0 := by
  unfold dense
  rw [show lpOf V n (j + 1) = lpOf V n j + (rows V n j).length from rfl, sum_Ico_eq_sum_range, Nat.add_sub_cancel_left]
  by_cases hV : V i j
  · rw [if_pos hV]
    obtain ⟨t, ht, e⟩ := List.getElem_of_mem (mem_rows.2 ⟨hi, hV⟩ : i ∈ rows V n j)
    rw [sum_eq_single t]
    · obtain ⟨h1, h2⟩ := h j t ht hj
      rw [h1, h2, e, if_pos rfl]
    · intro s hs hst
      rw [mem_range] at hs
      rw [(h j s hs hj).1, if_neg]
      intro e'
      exact hst ((rows_nodup n j).getElem_inj_iff.1 (e'.trans e.symm))
    · intro hs
      exact absurd (mem_range.2 ht) hs
  · rw [if_neg hV]
    refine sum_eq_zero fun s hs => ?_
    rw [mem_range] at hs
    rw [(h j s hs hj).1, if_neg]
    intro e
    exact hV (e ▸ (mem_rows.1 (List.getElem_mem hs)).2)

end Ecos.Fact
