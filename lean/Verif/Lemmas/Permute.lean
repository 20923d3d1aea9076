import Verif.Lemmas.Splamm

/-!
# Symmetric permutation, inverse permutation, copies
-/
set_option linter.unusedSectionVars false
set_option linter.unusedSimpArgs false

namespace Ecos

open Finset

variable {F : Type}

/-- `p` restricted to `0..n-1` is a permutation -/
structure IsPerm (n : Nat) (p : Nat → Nat) : Prop where
  lt : ∀ i, i < n → p i < n
  inj : ∀ i j, i < n → j < n → p i = p j → i = j

theorem IsPerm.surj {n : Nat} {p : Nat → Nat} (h : IsPerm n p) {q : Nat} (hq : q < n) :
    ∃ k, k < n ∧ p k = q := by
  have := Finset.surjOn_of_injOn_of_card_le p (s := range n) (t := range n)
    (fun a ha => by simp at ha ⊢; exact h.lt a ha)
    (fun a ha b hb e => h.inj a b (by simpa using ha) (by simpa using hb) e) le_rfl
  obtain ⟨k, hk, e⟩ := this (by simpa using hq : q ∈ (range n : Finset Nat))
  exact ⟨k, by simpa using hk, e⟩

/-- `pinv` computes the inverse permutation. -/
theorem pinv_ok {n : Nat} {p pin : Buf Nat} {pf : Nat → Nat} (hp : Holds p n pf) (hperm : IsPerm n pf)
    (hpin : pin.size = n) :
    Ok (pinv n p pin) (fun r => ∃ π, Holds r n π ∧ IsPerm n π ∧ (∀ i, i < n → π (pf i) = i) ∧
      (∀ i, i < n → pf (π i) = i)) := by
  unfold pinv
  refine loop_ok (fun t b => Cells b n t pf id) (Nat.zero_le _) (cells_zero hpin _ _) ?_ ?_
  · intro i b _ hi hb
    rw [Ok_bind, hp.rd hi, Ok_ok]
    exact hb.wr hi hperm.inj (hperm.lt i hi) rfl
  · intro b hb
    obtain ⟨R, hR1, hR2⟩ := exists_inv (N := n) (Q := pf) (fun q hq => hperm.surj hq) hperm.inj
    refine ⟨R, hb.holds (fun q hq => hperm.surj hq) R (fun k hk => hR2 k hk (hperm.lt k hk)),
      ⟨fun i hi => (hR1 i hi).1, fun i j hi hj e => ?_⟩, fun i hi => hR2 i hi (hperm.lt i hi),
      fun i hi => (hR1 i hi).2⟩
    rw [← (hR1 i hi).2, ← (hR1 j hj).2, e]

/-- `A` stores only entries on or above the diagonal -/
def Upper (n : Nat) (jc ir : Nat → Nat) : Prop :=
  ∀ j, j < n → ∀ k, jc j ≤ k → k < jc (j + 1) → ir k ≤ j

/-- target column of entry `k` under the permutation `π` -/
def permKey (n : Nat) (jc ir π : Nat → Nat) (k : Nat) : Nat := permCol (π (ir k)) (π (colOf n jc k))

theorem permute_mem {A C : SpMat F} {n : Nat} {jc ir : Nat → Nat} {pr : Nat → F} {π : Nat → Nat}
    {pin : Buf Nat} {P : Nat → Prop} {cj : Nat → Nat} {PK : Option (Buf Nat)}
    (hA : Rep A n n jc ir pr) (hup : Upper n jc ir) (hpin : Holds pin n π) (hπ : IsPerm n π)
    (hCm : C.m = n) (hCn : C.n = n) (hCz : C.nnz = jc n)
    (hCjc : HoldsOn C.jc (n + 1) P cj) (hPn : P n) (hcj : cj n = jc n)
    (hCir : C.ir.size = jc n) (hCpr : C.pr.size = jc n) (hPK : ∀ b, PK = some b → b.size = jc n) :
    Ok (permuteSparseSymmetricMatrix A pin C PK) (fun r =>
      r.1.m = n ∧ r.1.n = n ∧ r.1.nnz = jc n ∧
      Holds r.1.jc (n + 1) (csStart (permKey n jc ir π) (jc n)) ∧
      Cells r.1.ir (jc n) (jc n) (csPos (permKey n jc ir π) (jc n))
        (fun k => permRow (π (ir k)) (π (colOf n jc k))) ∧
      Cells r.1.pr (jc n) (jc n) (csPos (permKey n jc ir π) (jc n)) pr ∧
      (∀ b, PK = some b → ∃ b', r.2 = some b' ∧ Holds b' (jc n) (csPos (permKey n jc ir π) (jc n))) ∧
      (PK = none → r.2 = none)) := by
  have hkey : ∀ k, k < jc n → permKey n jc ir π k < n := by
    intro k hk
    obtain ⟨j, hj, hj1, hj2⟩ := hA.ok.exists_col hk
    unfold permKey permCol
    rw [colOf_eq hA.ok hj hj1 hj2]
    have h1 := hπ.lt _ (hA.ok.rows k hk)
    have h2 := hπ.lt _ hj
    split <;> assumption
  unfold permuteSparseSymmetricMatrix
  rw [Ok_bind, hA.n_eq]
  refine zeroLoop_ok.mono fun w hw => ?_
  rw [Ok_bind]
  refine walk_ok hA.ok hA.hjc
    (fun t w => Holds w n (fun r => Nat.count (fun k' => permKey n jc ir π k' = r) t))
    (by simpa using hw) ?_ ?_
  · intro j k w hj h1 h2 hk hw
    unfold permCount
    have hr := hA.ok.rows k hk
    simp only [Ok_bind, hpin.rd hj, hA.hir.rd hk, Ok_ok]
    rw [if_neg (by have := hup j hj k h1 h2; omega)]
    rw [Ok_bind, hpin.rd hr, Ok_ok]
    have e : permCol (π (ir k)) (π j) = permKey n jc ir π k := by
      unfold permKey; rw [colOf_eq hA.ok hj h1 h2]
    rw [e]
    exact count_step hw (hkey k hk)
  intro w hw
  rw [Ok_bind]
  refine (splaCumsum_ok hCjc hw (by omega) le_rfl).mono ?_
  rintro ⟨jcb, w⟩ ⟨hjcb, hw⟩
  simp only at hjcb hw
  have hjcb' : Holds jcb (n + 1) (csStart (permKey n jc ir π) (jc n)) := by
    have : HoldsOn jcb (n + 1) (fun _ => True) (csStart (permKey n jc ir π) (jc n)) := by
      refine hjcb.congr fun i hi _ => ?_
      by_cases h : i < n
      · simp [h, sum_count_eq_csStart]
      · have : i = n := by omega
        subst this
        simp [csStart_top hkey, hPn, hcj]
    exact holds_iff.mpr this
  have hw0 : Holds w n (fun r => posAt (permKey n jc ir π) (jc n) 0 r) := by
    refine hw.congr fun i hi => ?_
    simp [hi, sum_count_eq_csStart, posAt]
  rw [Ok_bind]
  refine walk_ok hA.ok hA.hjc
    (I := fun t (r : Scat F) =>
      r.A.m = n ∧ r.A.n = n ∧ r.A.nnz = jc n ∧ r.A.jc = jcb ∧
      Cells r.A.ir (jc n) t (csPos (permKey n jc ir π) (jc n))
        (fun k => permRow (π (ir k)) (π (colOf n jc k))) ∧
      Cells r.A.pr (jc n) t (csPos (permKey n jc ir π) (jc n)) pr ∧
      ((∀ b, PK = some b → ∃ b', r.map = some b' ∧
        HoldsOn b' (jc n) (fun k => k < t) (csPos (permKey n jc ir π) (jc n))) ∧
        (PK = none → r.map = none)) ∧
      Holds r.w n (fun r => posAt (permKey n jc ir π) (jc n) t r)) ?_ ?_ ?_
  · refine ⟨hCm, hCn, hCz, rfl, cells_zero hCir _ _, cells_zero hCpr _ _, ⟨?_, fun h => h⟩, hw0⟩
    intro b hb
    exact ⟨b, hb, hPK b hb, fun i _ h => absurd h (by omega)⟩
  · rintro j k ⟨B', T', w'⟩ hj h1 h2 hk ⟨e1, e2, e3, e4, c1, c2, ⟨c3, c3'⟩, c4⟩
    simp only at e1 e2 e3 e4 c1 c2 c3 c3' c4
    have hr := hA.ok.rows k hk
    have hq := csPos_lt_N (κ := permKey n jc ir π) hk
    have hinj : ∀ a b, a < jc n → b < jc n →
        csPos (permKey n jc ir π) (jc n) a = csPos (permKey n jc ir π) (jc n) b → a = b :=
      fun a b ha hb h => csPos_inj ha hb h
    have e : permCol (π (ir k)) (π j) = permKey n jc ir π k := by
      unfold permKey; rw [colOf_eq hA.ok hj h1 h2]
    unfold permStep
    simp only [Ok_bind, hpin.rd hj, hA.hir.rd hk, Ok_ok]
    rw [if_neg (by have := hup j hj k h1 h2; omega)]
    simp only [Ok_bind, hpin.rd hr, Ok_ok, e, c4.rd (hkey k hk), posAt_self]
    refine (posAt_step c4 (hkey k hk)).mono fun w'' hw'' => ?_
    refine (c1.wr hk hinj hq (by rw [colOf_eq hA.ok hj h1 h2])).mono fun ir' hir' => ?_
    simp only [hA.hpr.rd hk, Ok_ok]
    refine (c2.wr hk hinj hq rfl).mono fun pr' hpr' => ?_
    cases hPKc : PK with
    | none =>
      rw [c3' hPKc]
      simp only [wrOpt, Ok_pure]
      refine ⟨e1, e2, e3, e4, hir', hpr', ⟨?_, ?_⟩, hw''⟩
      · intro b hb; simp at hb
      · intro _; trivial
    | some b =>
      obtain ⟨b', eb, hb'⟩ := c3 b hPKc
      rw [eb]
      refine (wrOpt_ok hb' hk rfl).mono fun T'' hT'' => ?_
      simp only [Ok_pure]
      refine ⟨e1, e2, e3, e4, hir', hpr', ⟨fun _ _ => hT'', ?_⟩, hw''⟩
      intro h; simp at h
  · rintro ⟨B', T', w'⟩ ⟨e1, e2, e3, e4, c1, c2, ⟨c3, c3'⟩, c4⟩
    simp only at e1 e2 e3 e4 c1 c2 c3 c3' c4
    simp only [Ok_pure]
    refine ⟨e1, e2, e3, by rw [e4]; exact hjcb', c1, c2, fun b hb => ?_, c3'⟩
    obtain ⟨b', eb, hb'⟩ := c3 b hb
    exact ⟨b', eb, hb'.full fun i hi => hi⟩

/-- Functional specification of `permuteSparseSymmetricMatrix` for every number type. -/
theorem permute_rep {A C : SpMat F} {n : Nat} {jc ir : Nat → Nat} {pr : Nat → F} {π : Nat → Nat}
    {pin : Buf Nat} {P : Nat → Prop} {cj : Nat → Nat} {PK : Option (Buf Nat)}
    (hA : Rep A n n jc ir pr) (hup : Upper n jc ir) (hpin : Holds pin n π) (hπ : IsPerm n π)
    (hCm : C.m = n) (hCn : C.n = n) (hCz : C.nnz = jc n)
    (hCjc : HoldsOn C.jc (n + 1) P cj) (hPn : P n) (hcj : cj n = jc n)
    (hCir : C.ir.size = jc n) (hCpr : C.pr.size = jc n) (hPK : ∀ b, PK = some b → b.size = jc n) :
    Ok (permuteSparseSymmetricMatrix A pin C PK) (fun r => ∃ (ir' : Nat → Nat) (pr' : Nat → F),
      Rep r.1 n n (csStart (permKey n jc ir π) (jc n)) ir' pr' ∧
      (∀ b, PK = some b → ∃ b', r.2 = some b' ∧ Holds b' (jc n) (csPos (permKey n jc ir π) (jc n))) ∧
      (PK = none → r.2 = none) ∧
      (∀ k, k < jc n → ir' (csPos (permKey n jc ir π) (jc n) k) =
        permRow (π (ir k)) (π (colOf n jc k))) ∧
      (∀ k, k < jc n → pr' (csPos (permKey n jc ir π) (jc n) k) = pr k)) := by
  have hkey : ∀ k, k < jc n → permKey n jc ir π k < n := by
    intro k hk
    obtain ⟨j, hj, hj1, hj2⟩ := hA.ok.exists_col hk
    unfold permKey permCol
    rw [colOf_eq hA.ok hj hj1 hj2]
    have h1 := hπ.lt _ (hA.ok.rows k hk)
    have h2 := hπ.lt _ hj
    split <;> assumption
  refine (permute_mem hA hup hpin hπ hCm hCn hCz hCjc hPn hcj hCir hCpr hPK).mono ?_
  rintro ⟨B, T'⟩ ⟨e1, e2, e3, h1, h2, h3, h4, h5⟩
  generalize hκ : permKey n jc ir π = κ at *
  obtain ⟨R, hR1, hR2⟩ := exists_inv (N := jc n) (Q := csPos κ (jc n))
    (fun q hq => csPos_surj hq) (fun k k' hk hk' h => csPos_inj hk hk' h)
  have hi : ∀ k, k < jc n → (fun q => permRow (π (ir (R q))) (π (colOf n jc (R q))))
      (csPos κ (jc n) k) = permRow (π (ir k)) (π (colOf n jc k)) := by
    intro k hk; simp only; rw [hR2 k hk (csPos_lt_N hk)]
  have hp : ∀ k, k < jc n → pr (R (csPos κ (jc n) k)) = pr k := by
    intro k hk; rw [hR2 k hk (csPos_lt_N hk)]
  have htop : csStart κ (jc n) n = jc n := csStart_top hkey
  refine ⟨fun q => permRow (π (ir (R q))) (π (colOf n jc (R q))), fun q => pr (R q), ⟨e1, e2, by rw [e3, htop], h1, ?_, ?_, ?_⟩, h4, h5, hi, hp⟩
  · rw [htop]; exact h2.holds (fun q hq => csPos_surj hq) _ hi
  · rw [htop]; exact h3.holds (fun q hq => csPos_surj hq) _ hp
  · refine ⟨csStart_zero, fun j _ => csStart_mono (by omega), fun q hq => ?_⟩
    rw [htop] at hq
    obtain ⟨j, hj, hj1, hj2⟩ := hA.ok.exists_col (hR1 q hq).1
    rw [colOf_eq hA.ok hj hj1 hj2]
    have h1 := hπ.lt _ (hA.ok.rows _ (hR1 q hq).1)
    have h2 := hπ.lt _ hj
    unfold permRow; split <;> assumption

/-- the symmetric matrix whose upper triangle is stored -/
noncomputable def symDense (jc ir : Nat → Nat) (pr : Nat → ℝ) (i j : Nat) : ℝ :=
  if i ≤ j then dense jc ir pr i j else dense jc ir pr j i

/-- the result of the permutation is upper triangular -/
theorem permute_upper {n : Nat} {jc ir π ir' : Nat → Nat} (h : CscOk n n jc ir)
    (hi : ∀ k, k < jc n → ir' (csPos (permKey n jc ir π) (jc n) k) =
        permRow (π (ir k)) (π (colOf n jc k))) :
    Upper n (csStart (permKey n jc ir π) (jc n)) ir' := by
  intro c _ q h1 h2
  have hle := csStart_le (κ := permKey n jc ir π) (N := jc n) (c + 1)
  obtain ⟨k, hk, rfl⟩ := csPos_surj (κ := permKey n jc ir π) (show q < jc n by omega)
  have e := (csPos_mem_iff hk).mp ⟨h1, h2⟩
  rw [hi k hk, ← e]
  unfold permRow permKey permCol
  split <;> split <;> omega

theorem permute_dense {n : Nat} {jc ir π : Nat → Nat} {pr : Nat → ℝ} (h : CscOk n n jc ir)
    (hup : Upper n jc ir) (hπ : IsPerm n π) {ir' : Nat → Nat} {pr' : Nat → ℝ}
    (hi : ∀ k, k < jc n → ir' (csPos (permKey n jc ir π) (jc n) k) =
        permRow (π (ir k)) (π (colOf n jc k)))
    (hp : ∀ k, k < jc n → pr' (csPos (permKey n jc ir π) (jc n) k) = pr k)
    {a b : Nat} (ha : a < n) (hb : b < n) :
    symDense (csStart (permKey n jc ir π) (jc n)) ir' pr' (π a) (π b) = symDense jc ir pr a b := by
  -- both sides are the sum of the stored values at the unordered position {a, b}
  have key : ∀ a b, a ≤ b → a < n → b < n →
      dense (csStart (permKey n jc ir π) (jc n)) ir' pr' (permRow (π a) (π b)) (permCol (π a) (π b)) =
        dense jc ir pr a b := by
    intro a b hab ha hb
    unfold dense
    rw [sum_segment, sum_filter]
    have : ∀ k ∈ range (jc n), (if permKey n jc ir π k = permCol (π a) (π b) then
        (if ir' (csPos (permKey n jc ir π) (jc n) k) = permRow (π a) (π b)
          then pr' (csPos (permKey n jc ir π) (jc n) k) else 0) else 0) =
        (fun j' k => if j' = b then (if ir k = a then pr k else 0) else 0) (colOf n jc k) k := by
      intro k hk
      rw [mem_range] at hk
      obtain ⟨j, hj, hj1, hj2⟩ := h.exists_col hk
      have hr := h.rows k hk
      have hu := hup j hj k hj1 hj2
      rw [hi k hk, hp k hk]
      unfold permKey
      simp only [colOf_eq h hj hj1 hj2]
      by_cases hc : ir k = a ∧ j = b
      · obtain ⟨rfl, rfl⟩ := hc; simp
      · have hne : ¬ (permCol (π (ir k)) (π j) = permCol (π a) (π b) ∧
            permRow (π (ir k)) (π j) = permRow (π a) (π b)) := by
          rintro ⟨h1, h2⟩
          have hset : (π (ir k) = π a ∧ π j = π b) ∨ (π (ir k) = π b ∧ π j = π a) := by
            unfold permCol at h1; unfold permRow at h2
            split at h1 <;> split at h1 <;> split at h2 <;> split at h2 <;> omega
          rcases hset with ⟨x, y⟩ | ⟨x, y⟩
          · exact hc ⟨hπ.inj _ _ hr ha x, hπ.inj _ _ hj hb y⟩
          · have e1 := hπ.inj _ _ hr hb x
            have e2 := hπ.inj _ _ hj ha y
            exact hc ⟨by omega, by omega⟩
        have hL : ∀ x : ℝ, (if permCol (π (ir k)) (π j) = permCol (π a) (π b) then
            (if permRow (π (ir k)) (π j) = permRow (π a) (π b) then x else 0) else 0) = 0 := by
          intro x
          by_cases h1 : permCol (π (ir k)) (π j) = permCol (π a) (π b)
          · rw [if_pos h1, if_neg fun h2 => hne ⟨h1, h2⟩]
          · rw [if_neg h1]
        rw [hL]
        by_cases h3 : j = b
        · rw [if_pos h3, if_neg fun h4 => hc ⟨h4, h3⟩]
        · rw [if_neg h3]
    rw [sum_congr rfl this,
      sum_cols h (fun j' k => if j' = b then (if ir k = a then pr k else 0) else 0), sum_eq_single b]
    · simp
    · intro c _ hcb; simp [hcb]
    · intro hcb; exact absurd (mem_range.mpr hb) hcb
  unfold symDense
  by_cases hab : a ≤ b
  · rw [if_pos hab, ← key a b hab ha hb]
    by_cases hc : π a ≤ π b
    · rw [if_pos hc]
      congr 1
      · unfold permRow; split <;> omega
      · unfold permCol; split <;> omega
    · rw [if_neg hc]
      congr 1
      · unfold permRow; split <;> omega
      · unfold permCol; split <;> omega
  · rw [if_neg hab, ← key b a (by omega) hb ha]
    by_cases hc : π a ≤ π b
    · rw [if_pos hc]
      congr 1
      · unfold permRow; split <;> omega
      · unfold permCol; split <;> omega
    · rw [if_neg hc]
      congr 1
      · unfold permRow; split <;> omega
      · unfold permCol; split <;> omega

end Ecos
