import Mathlib.Data.Finset.Max
import Verif.Lemmas.Amd0

/-!
# AMD: the degree lists

`P` is the set of variables in the lists.  The rank `rk` grows towards the head of a list, so that
every list of a variable has a head.
-/
namespace Ecos.Amd

open Function (update)

/-- `head`, `next`, `last` are doubly linked lists of the variables in `P`, one list per degree -/
structure DL (n : Int) (P : Int → Prop) (head next last deg : Int → Int) (rk : Int → Nat) : Prop where
  idx : ∀ i, P i → Idx n i ∧ Idx n (deg i)
  last0 : ∀ i, P i → last i = -1 → head (deg i) = i
  last1 : ∀ i, P i → last i ≠ -1 → P (last i) ∧ deg (last i) = deg i ∧ next (last i) = i ∧
    rk i < rk (last i)
  next1 : ∀ i, P i → next i ≠ -1 → P (next i) ∧ deg (next i) = deg i ∧ last (next i) = i
  head1 : ∀ d, Idx n d → head d ≠ -1 → P (head d) ∧ deg (head d) = d ∧ last (head d) = -1

namespace DL
variable {n : Int} {P Q : Int → Prop} {head next last deg head' next' last' deg' : Int → Int}
  {rk : Int → Nat}

theorem congr (h : DL n P head next last deg rk) (hP : ∀ i, Q i ↔ P i)
    (h1 : ∀ d, Idx n d → head' d = head d) (h2 : ∀ i, P i → next' i = next i)
    (h3 : ∀ i, P i → last' i = last i) (h4 : ∀ i, P i → deg' i = deg i) :
    DL n Q head' next' last' deg' rk where
  idx i hi := by
    rw [hP] at hi
    rw [h4 i hi]; exact h.idx i hi
  last0 i hi hl := by
    rw [hP] at hi
    rw [h4 i hi, h1 _ (h.idx i hi).2]
    exact h.last0 i hi (by rwa [h3 i hi] at hl)
  last1 i hi hl := by
    rw [hP] at hi
    rw [h3 i hi] at hl ⊢
    obtain ⟨a, b, c, d⟩ := h.last1 i hi hl
    rw [hP, h4 i hi, h4 _ a, h2 _ a]
    exact ⟨a, b, c, d⟩
  next1 i hi hl := by
    rw [hP] at hi
    rw [h2 i hi] at hl ⊢
    obtain ⟨a, b, c⟩ := h.next1 i hi hl
    rw [hP, h4 i hi, h4 _ a, h3 _ a]
    exact ⟨a, b, c⟩
  head1 d hd hl := by
    rw [h1 d hd] at hl ⊢
    obtain ⟨a, b, c⟩ := h.head1 d hd hl
    rw [hP, h4 _ a, h3 _ a]
    exact ⟨a, b, c⟩

/-- the list of a variable is not empty -/
theorem head_ne (h : DL n P head next last deg rk) {i : Int} (hi : P i) : head (deg i) ≠ -1 := by
  classical
  let S : Finset Int := (ix n).filter fun j => P j ∧ deg j = deg i
  have hmem : ∀ j, j ∈ S ↔ (P j ∧ deg j = deg i) := by
    intro j
    simp only [S, Finset.mem_filter, Finset.mem_Ico]
    exact ⟨fun q => q.2, fun q => ⟨(h.idx j q.1).1, q⟩⟩
  obtain ⟨m, hm, hmax⟩ := S.exists_max_image rk ⟨i, (hmem i).2 ⟨hi, rfl⟩⟩
  obtain ⟨hPm, hdm⟩ := (hmem m).1 hm
  by_cases hl : last m = -1
  · have := h.last0 m hPm hl
    rw [hdm] at this
    rw [this]
    have := (h.idx m hPm).1
    omega
  · obtain ⟨a, b, _, d⟩ := h.last1 m hPm hl
    have := hmax (last m) ((hmem _).2 ⟨a, by rw [b, hdm]⟩)
    omega

/-- a variable leaves its list -/
theorem remove (h : DL n P head next last deg rk) {i : Int} (hi : P i) :
    DL n (fun j => P j ∧ j ≠ i)
      (if last i = -1 then update head (deg i) (next i) else head)
      (if last i = -1 then next else update next (last i) (next i))
      (if next i = -1 then last else update last (next i) (last i)) deg rk := by
  have hI := (h.idx i hi).1
  have self_last : last i ≠ i := fun e => by
    have := (h.last1 i hi (by omega)).2.2.2
    rw [e] at this; omega
  have self_next : next i ≠ i := fun e => by
    have := (h.next1 i hi (by omega)).2.2
    rw [e] at this; exact self_last this
  have nx : ∀ j, P j → j ≠ i → next j = i → last i = j := by
    intro j hj hji e
    have := (h.next1 j hj (by omega)).2.2
    rwa [e] at this
  have la : ∀ j, P j → j ≠ i → last j = i → next i = j := by
    intro j hj hji e
    have := (h.last1 j hj (by omega)).2.2.1
    rwa [e] at this
  constructor
  · exact fun j hj => h.idx j hj.1
  · rintro j ⟨hj, hji⟩ hl
    by_cases hn : next i = -1
    · rw [if_pos hn] at hl
      have := h.last0 j hj hl
      by_cases hl' : last i = -1
      · rw [if_pos hl']
        have hne : deg j ≠ deg i := fun e => by
          have h2 := h.last0 i hi hl'
          rw [← e] at h2; omega
        rw [Function.update_of_ne hne]; exact this
      · rw [if_neg hl']; exact this
    · rw [if_neg hn] at hl
      obtain ⟨a, b, c⟩ := h.next1 i hi hn
      by_cases hjn : j = next i
      · subst hjn
        rw [Function.update_self] at hl
        rw [if_pos hl, b, Function.update_self]
      · rw [Function.update_of_ne hjn] at hl
        have := h.last0 j hj hl
        by_cases hl' : last i = -1
        · rw [if_pos hl']
          have hne : deg j ≠ deg i := fun e => by
            have h2 := h.last0 i hi hl'
            rw [← e] at h2; omega
          rw [Function.update_of_ne hne]; exact this
        · rw [if_neg hl']; exact this
  · rintro j ⟨hj, hji⟩ hl
    by_cases hjn : next i ≠ -1 ∧ j = next i
    · obtain ⟨hn, rfl⟩ := hjn
      simp only [if_neg hn, Function.update_self] at hl ⊢
      obtain ⟨a, b, c⟩ := h.next1 i hi hn
      obtain ⟨a', b', c', d'⟩ := h.last1 i hi hl
      have := (h.last1 _ hj (by rw [c]; omega)).2.2.2
      rw [c] at this
      refine ⟨⟨a', self_last⟩, by rw [b', b], ?_, by omega⟩
      rw [if_neg hl, Function.update_self]
    · have e : (if next i = -1 then last else update last (next i) (last i)) j = last j := by
        split
        · rfl
        · rw [Function.update_of_ne]
          intro q; exact hjn ⟨by assumption, q⟩
      rw [e] at hl ⊢
      obtain ⟨a, b, c, d⟩ := h.last1 j hj hl
      have hne : last j ≠ i := fun q => by
        have := la j hj hji q
        exact hjn ⟨by have := (h.idx j hj).1; omega, this.symm⟩
      refine ⟨⟨a, hne⟩, b, ?_, d⟩
      split
      · exact c
      · rw [Function.update_of_ne]
        · exact c
        · intro q
          rename_i hl'
          have h2 := (h.last1 i hi hl').2.2.1
          rw [← q, c] at h2
          exact hji h2
  · rintro j ⟨hj, hji⟩ hl
    by_cases hjl : last i ≠ -1 ∧ j = last i
    · obtain ⟨hn, rfl⟩ := hjl
      simp only [if_neg hn, Function.update_self] at hl ⊢
      obtain ⟨a, b, c⟩ := h.next1 i hi hl
      obtain ⟨a', b', c', d'⟩ := h.last1 i hi hn
      refine ⟨⟨a, self_next⟩, by rw [b', b], ?_⟩
      rw [if_neg hl, Function.update_self]
    · have e : (if last i = -1 then next else update next (last i) (next i)) j = next j := by
        split
        · rfl
        · rw [Function.update_of_ne]
          intro q; exact hjl ⟨by assumption, q⟩
      rw [e] at hl ⊢
      obtain ⟨a, b, c⟩ := h.next1 j hj hl
      have hne : next j ≠ i := fun q => by
        have := nx j hj hji q
        exact hjl ⟨by have := (h.idx j hj).1; omega, this.symm⟩
      refine ⟨⟨a, hne⟩, b, ?_⟩
      split
      · exact c
      · rw [Function.update_of_ne]
        · exact c
        · intro q
          rename_i hl'
          have h2 := (h.next1 i hi hl').2.2
          rw [← q, c] at h2
          exact hji h2
  · intro d hd hh
    by_cases hl : last i = -1
    · rw [if_pos hl] at hh ⊢
      by_cases hdd : d = deg i
      · subst hdd
        rw [Function.update_self] at hh ⊢
        obtain ⟨a, b, c⟩ := h.next1 i hi hh
        refine ⟨⟨a, self_next⟩, b, ?_⟩
        rw [if_neg hh, Function.update_self, hl]
      · rw [Function.update_of_ne hdd] at hh ⊢
        obtain ⟨a, b, c⟩ := h.head1 d hd hh
        refine ⟨⟨a, fun q => hdd (by rw [← b, q])⟩, b, ?_⟩
        split
        · exact c
        · rw [Function.update_of_ne]
          · exact c
          · intro q
            rename_i hn
            have := (h.next1 i hi hn).2.1
            rw [← q, b] at this
            exact hdd this
    · rw [if_neg hl] at hh ⊢
      obtain ⟨a, b, c⟩ := h.head1 d hd hh
      refine ⟨⟨a, fun q => hl (by rw [← q]; exact c)⟩, b, ?_⟩
      split
      · exact c
      · rw [Function.update_of_ne]
        · exact c
        · intro q
          rename_i hn
          have := (h.next1 i hi hn).2.2
          rw [← q, c] at this
          omega

/-- a variable enters the list of degree `d` at its head -/
theorem push (h : DL n P head next last deg rk) {i d : Int} (hi : ¬ P i) (hI : Idx n i)
    (hd : Idx n d) :
    ∃ rk', DL n (fun j => P j ∨ j = i) (update head d i) (update next i (head d))
      (update (if head d = -1 then last else update last (head d) i) i (-1)) (update deg i d) rk' := by
  classical
  obtain ⟨B, hB⟩ : ∃ B : Nat, ∀ j, P j → rk j < B := by
    refine ⟨(ix n).sup rk + 1, fun j hj => ?_⟩
    have : rk j ≤ (ix n).sup rk := Finset.le_sup (f := rk) (Finset.mem_Ico.2 (h.idx j hj).1)
    omega
  have ne : ∀ j, P j → j ≠ i := fun j hj q => hi (q ▸ hj)
  refine ⟨update rk i B, ?_, ?_, ?_, ?_, ?_⟩
  · rintro j (hj | rfl)
    · rw [Function.update_of_ne (ne j hj)]; exact h.idx j hj
    · rw [Function.update_self]; exact ⟨hI, hd⟩
  · rintro j (hj | rfl) hl
    · rw [Function.update_of_ne (ne j hj)] at hl ⊢
      by_cases hh : head d = -1
      · rw [if_pos hh] at hl
        have := h.last0 j hj hl
        rw [Function.update_of_ne]
        · exact this
        · intro q
          rw [q, hh] at this
          have := (h.idx j hj).1
          omega
      · rw [if_neg hh] at hl
        by_cases q : j = head d
        · rw [q, Function.update_self] at hl; omega
        · rw [Function.update_of_ne q] at hl
          have := h.last0 j hj hl
          rw [Function.update_of_ne]
          · exact this
          · intro q2
            rw [q2] at this; exact q this.symm
    · rw [Function.update_self, Function.update_self]
  · rintro j (hj | rfl) hl
    · rw [Function.update_of_ne (ne j hj)] at hl ⊢
      rw [Function.update_of_ne (ne j hj), Function.update_of_ne (ne j hj)]
      by_cases hh : head d = -1
      · rw [if_pos hh] at hl ⊢
        obtain ⟨a, b, c, e⟩ := h.last1 j hj hl
        rw [Function.update_of_ne (ne _ a), Function.update_of_ne (ne _ a), Function.update_of_ne (ne _ a)]
        exact ⟨Or.inl a, b, c, e⟩
      · rw [if_neg hh] at hl ⊢
        by_cases q : j = head d
        · have q' := q
          subst q'
          rw [Function.update_self, Function.update_self, Function.update_self, Function.update_self]
          exact ⟨Or.inr rfl, (h.head1 d hd hh).2.1.symm, rfl, hB _ hj⟩
        · rw [Function.update_of_ne q] at hl ⊢
          obtain ⟨a, b, c, e⟩ := h.last1 j hj hl
          rw [Function.update_of_ne (ne _ a), Function.update_of_ne (ne _ a), Function.update_of_ne (ne _ a)]
          exact ⟨Or.inl a, b, c, e⟩
    · rw [Function.update_self] at hl; omega
  · rintro j (hj | rfl) hl
    · rw [Function.update_of_ne (ne j hj)] at hl ⊢
      rw [Function.update_of_ne (ne j hj)]
      obtain ⟨a, b, c⟩ := h.next1 j hj hl
      rw [Function.update_of_ne (ne _ a), Function.update_of_ne (ne _ a)]
      refine ⟨Or.inl a, b, ?_⟩
      split
      · exact c
      · rename_i hh
        rw [Function.update_of_ne]
        · exact c
        · intro q
          have := (h.head1 d hd hh).2.2
          rw [← q, c] at this
          have := (h.idx j hj).1
          omega
    · rw [Function.update_self] at hl ⊢
      rw [Function.update_self]
      obtain ⟨a, b, c⟩ := h.head1 d hd hl
      rw [Function.update_of_ne (ne _ a), Function.update_of_ne (ne _ a), if_neg hl, Function.update_self]
      exact ⟨Or.inl a, b, rfl⟩
  · intro d' hd' hh
    by_cases q : d' = d
    · subst q
      rw [Function.update_self, Function.update_self, Function.update_self]
      exact ⟨Or.inr rfl, rfl, rfl⟩
    · rw [Function.update_of_ne q] at hh ⊢
      obtain ⟨a, b, c⟩ := h.head1 d' hd' hh
      rw [Function.update_of_ne (ne _ a), Function.update_of_ne (ne _ a)]
      refine ⟨Or.inl a, b, ?_⟩
      split
      · exact c
      · rename_i hh2
        rw [Function.update_of_ne]
        · exact c
        · intro q2
          have := (h.head1 d hd hh2).2.1
          rw [← q2, b] at this
          exact q this

end DL
end Ecos.Amd
