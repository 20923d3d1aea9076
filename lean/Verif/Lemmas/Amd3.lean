import Verif.Lemmas.Amd1
import Verif.Lemmas.Amd2

/-!
# AMD: operations on the degree lists
-/
namespace Ecos.Amd

open Function (update)

variable {n L : Int} {s : St} {a : Ab} {P : Int → Prop} {rk : Int → Nat}

theorem removeDeg_ok (h : Rep n L s a) (hd : DL n P a.head a.next a.last a.degree rk) {i : Int}
    (hi : P i) :
    Ok (removeDeg i s) (fun s' => ∃ head next last,
      Rep n L s' { a with head := head, next := next, last := last } ∧
      DL n (fun j => P j ∧ j ≠ i) head next last a.degree rk) := by
  obtain ⟨hI, hD⟩ := hd.idx i hi
  have hrem := hd.remove hi
  unfold removeDeg
  refine Ok_rd (h.rLast hI) ?_
  refine Ok_rd (h.rNext hI) ?_
  rw [Ok_bind]
  have step : Ok (if a.next i ≠ EMPTY then s.wLast (a.next i) (a.last i) else pure s) (fun s =>
      Rep n L s { a with last := if a.next i = -1 then a.last else update a.last (a.next i) (a.last i) }) := by
    by_cases hn : a.next i = -1
    · rw [if_neg (by rw [EMPTY_eq]; omega), if_pos hn]; exact h
    · rw [if_pos (by rw [EMPTY_eq]; omega), if_neg hn]
      exact h.wLast _ (hd.idx _ (hd.next1 i hi hn).1).1
  refine step.mono fun s h => ?_
  by_cases hl : a.last i = -1
  · rw [if_neg (by rw [EMPTY_eq]; omega)]
    refine Ok_rd (h.rDegree hI) ?_
    dsimp only
    refine (h.wHead _ hD).mono fun s h => ?_
    simp only [hl, if_true] at hrem
    rw [hl] at h
    exact ⟨_, _, _, h, hrem⟩
  · rw [if_pos (by rw [EMPTY_eq]; omega)]
    refine (h.wNext _ (hd.idx _ (hd.last1 i hi hl).1).1).mono fun s h => ?_
    simp only [hl, if_false] at hrem
    exact ⟨_, _, _, h, hrem⟩

theorem takePivot_ok (h : Rep n L s a) (hd : DL n P a.head a.next a.last a.degree rk) {i : Int}
    (hi : P i) (hl : a.last i = -1) :
    Ok (takePivot (a.degree i) i s) (fun s' => ∃ head next last,
      Rep n L s' { a with head := head, next := next, last := last } ∧
      DL n (fun j => P j ∧ j ≠ i) head next last a.degree rk) := by
  obtain ⟨hI, hD⟩ := hd.idx i hi
  have hrem := hd.remove hi
  simp only [hl, if_true] at hrem
  unfold takePivot
  refine Ok_rd (h.rNext hI) ?_
  rw [Ok_bind]
  have step : Ok (if a.next i ≠ EMPTY then s.wLast (a.next i) EMPTY else pure s) (fun s =>
      Rep n L s { a with last := if a.next i = -1 then a.last else update a.last (a.next i) (-1) }) := by
    by_cases hn : a.next i = -1
    · rw [if_neg (by rw [EMPTY_eq]; omega), if_pos hn]; exact h
    · rw [if_pos (by rw [EMPTY_eq]; omega), if_neg hn]
      exact h.wLast _ (hd.idx _ (hd.next1 i hi hn).1).1
  refine step.mono fun s h => ?_
  refine (h.wHead _ hD).mono fun s h => ?_
  exact ⟨_, _, _, h, hrem⟩

theorem findPivot_ok (h : Rep n L s a) (hd : DL n P a.head a.next a.last a.degree rk)
    {mindeg : Int} (h0 : 0 ≤ mindeg) {i : Int} (hi : P i) (hall : ∀ j, P j → mindeg ≤ a.degree j) :
    Ok (findPivot n mindeg s) (fun r => P r.2 ∧ a.degree r.2 = r.1 ∧ a.last r.2 = -1 ∧
      0 ≤ r.1 ∧ ∀ j, P j → r.1 ≤ a.degree j) := by
  obtain ⟨hI, hD⟩ := hd.idx i hi
  have hmi := hall i hi
  unfold findPivot
  rw [Ok_bind]
  refine loopE_ok (fun k _ => ∀ d, 0 ≤ d → d < mindeg + k → a.head d = -1 ∨ d < mindeg)
    (Nat.zero_le _) ?_ ?_ ?_
  · intro d d0 d1; right; simpa using d1
  · intro k _ _ hk hI
    have hidx : Idx n (mindeg + k) := by omega
    refine Ok_rd (h.rHead hidx) ?_
    have low : ∀ j, P j → mindeg + k ≤ a.degree j := by
      intro j hj
      by_contra hc
      have hdj := (hd.idx j hj).2
      rcases hI (a.degree j) hdj.1 (by omega) with q | q
      · exact hd.head_ne hj q
      · have := hall j hj; omega
    split
    · rename_i hne
      rw [EMPTY_eq] at hne
      rw [Ok_pure]
      dsimp only
      rw [Ok_pure]
      obtain ⟨q1, q2, q3⟩ := hd.head1 _ hidx hne
      exact ⟨q1, q2, q3, hidx.1, low⟩
    · rename_i hne
      rw [EMPTY_eq, not_not] at hne
      rw [Ok_pure]
      dsimp only
      intro d d0 d1
      by_cases q : d = mindeg + k
      · left; rw [q]; exact hne
      · exact hI d d0 (by push_cast at d1; omega)
  · intro _ hI
    dsimp only
    exfalso
    rcases hI (a.degree i) hD.1 (by omega) with q | q
    · exact hd.head_ne hi q
    · omega

end Ecos.Amd
