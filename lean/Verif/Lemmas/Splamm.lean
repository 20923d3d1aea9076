import Verif.Lemmas.CountSort
import Verif.Lemmas.Spla

/-!
# Kernel specifications for splamm.c
-/
set_option linter.unusedSectionVars false
set_option linter.unusedSimpArgs false

namespace Ecos

open Finset

variable {F : Type}

/-- Scattered writes: the first `K` items have been stored, item `k` in cell `Q k`. -/
def Cells {α : Type} (b : Buf α) (n K : Nat) (Q : Nat → Nat) (g : Nat → α) : Prop :=
  b.size = n ∧ ∀ k, k < K → b[Q k]? = some (some (g k))

theorem Cells.wr {α : Type} {b : Buf α} {n K N : Nat} {Q : Nat → Nat} {g : Nat → α}
    (h : Cells b n K Q g) (hK : K < N) (hinj : ∀ k k', k < N → k' < N → Q k = Q k' → k = k')
    (hq : Q K < n) {v : α} (hv : v = g K) : Ok (wr b (Q K) v) (fun b' => Cells b' n (K + 1) Q g) := by
  have hs : Q K < b.size := by rw [h.1]; exact hq
  rw [wr_eq hs, Ok_ok]
  refine ⟨by simp [h.1], fun k hk => ?_⟩
  by_cases hkK : k = K
  · subst hkK; simp [hs, hv]
  · have hne : Q K ≠ Q k := fun e => hkK (hinj _ _ hK (by omega) e).symm
    rw [Array.getElem?_setIfInBounds_ne hne]
    exact h.2 k (by omega)

/-- scattered writes through a bijection fill the buffer -/
theorem Cells.holds {α : Type} {b : Buf α} {N : Nat} {Q : Nat → Nat} {g : Nat → α}
    (h : Cells b N N Q g) (hsurj : ∀ q, q < N → ∃ k, k < N ∧ Q k = q)
    (f : Nat → α) (hf : ∀ k, k < N → f (Q k) = g k) : Holds b N f := by
  refine ⟨h.1, fun q hq => ?_⟩
  obtain ⟨k, hk, rfl⟩ := hsurj q hq
  rw [h.2 k hk, hf k hk]

theorem cells_zero {α : Type} {b : Buf α} {n : Nat} (hb : b.size = n) (Q : Nat → Nat) (g : Nat → α) :
    Cells b n 0 Q g := ⟨hb, fun k hk => absurd hk (by omega)⟩

/-- `spla_cumsum`: prefix sums. -/
theorem splaCumsum_ok {p w : Buf Nat} {m np nw : Nat} {pf wf : Nat → Nat} {P : Nat → Prop}
    (hp : HoldsOn p np P pf) (hw : Holds w nw wf) (h1 : m ≤ np) (h2 : m ≤ nw) :
    Ok (splaCumsum p w m) (fun r =>
      HoldsOn r.1 np (fun i => i < m ∨ P i) (fun i => if i < m then ∑ t ∈ range i, wf t else pf i) ∧
      Holds r.2 nw (fun i => if i < m then ∑ t ∈ range i, wf t else wf i)) := by
  unfold splaCumsum
  rw [Ok_bind]
  refine loop_ok (fun t (r : Nat × Buf Nat × Buf Nat) => r.1 = ∑ i ∈ range t, wf i ∧
    HoldsOn r.2.1 np (fun i => i < t ∨ P i) (fun i => if i < t then ∑ t ∈ range i, wf t else pf i) ∧
    Holds r.2.2 nw (fun i => if i < t then ∑ t ∈ range i, wf t else wf i)) (Nat.zero_le _) ?_ ?_ ?_
  · refine ⟨by simp, hp.congr fun i _ hq => by simpa using hq, by simpa using hw⟩
  · rintro i ⟨c, p, w⟩ _ hi ⟨hc, hp, hw⟩
    simp only at hc hp hw
    unfold cumsumStep
    simp only [Ok_bind]
    refine (hp.wr (show i < np by omega) c).mono fun p' hp' => ?_
    have hpi := hp'.rd (show i < np by omega) (Or.inr rfl)
    rw [hw.rd (show i < nw by omega), Ok_ok, hpi, Ok_ok]
    refine (hw.wr (show i < nw by omega) _).mono fun w' hw' => ?_
    simp only [Ok_pure]
    refine ⟨?_, hp'.congr fun j _ hq => ?_, hw'.congr fun j _ => ?_⟩
    · rw [sum_range_succ, hc]; simp
    · rcases lt_trichotomy j i with h | h | h
      · simp [upd, h, show j ≠ i by omega, show j < i + 1 by omega]
      · subst h; simp [upd, hc]
      · have h3 : ¬ j < i + 1 := by omega
        simp only [h3, false_or] at hq
        simp [upd, h3, hq, show j ≠ i by omega, show ¬ j < i by omega]
    · rcases lt_trichotomy j i with h | h | h
      · simp [upd, h, show j ≠ i by omega, show j < i + 1 by omega]
      · subst h; simp [upd, hc]
      · simp [upd, show ¬ j < i + 1 by omega, show j ≠ i by omega, show ¬ j < i by omega]
  · rintro ⟨c, p, w⟩ ⟨_, hp, hw⟩
    exact ⟨hp, hw⟩

theorem sum_count_eq_csStart (κ : Nat → Nat) (N i : Nat) :
    ∑ t ∈ range i, Nat.count (fun k => κ k = t) N = csStart κ N i := by
  induction i with
  | zero => simp [csStart_zero]
  | succ i ih => rw [sum_range_succ, ih, csStart_succ]

theorem newSparseMatrix_ok (m n nnz : Nat) :
    Ok (newSparseMatrix (F := F) m n nnz) (fun A => A.m = m ∧ A.n = n ∧ A.nnz = nnz ∧
      HoldsOn A.jc (n + 1) (fun i => i = n) (fun _ => nnz) ∧ A.ir.size = nnz ∧ A.pr.size = nnz ∧
      (∀ i, i < n → A.jc[i]? = some none)) := by
  unfold newSparseMatrix ecoscreateSparseMatrix
  simp only [Ok_bind]
  rw [wr_eq (by simp), Ok_ok]
  have hsz : (Array.setIfInBounds (malloc (n + 1) : Buf Nat) n (some nnz)).size = n + 1 := by simp
  rw [if_neg (by rw [hsz]; omega), wr_eq (by rw [hsz]; omega), ok_bind_eq, Ok_pure]
  refine ⟨rfl, rfl, rfl, ⟨by simp, ?_⟩, by simp, by simp, ?_⟩
  · rintro i hi rfl
    simp [Array.getElem?_setIfInBounds]
  · intro i hi
    simp only
    rw [Array.getElem?_setIfInBounds_ne (by omega), Array.getElem?_setIfInBounds_ne (by omega)]
    simp [malloc, show i < n + 1 by omega]

/-- counting loop over all items -/
theorem count_step {κ : Nat → Nat} {w : Buf Nat} {m k : Nat}
    (hw : Holds w m (fun r => Nat.count (fun k' => κ k' = r) k)) (hk : κ k < m) :
    Ok (do let c ← rd w (κ k); wr w (κ k) (c + 1))
      (fun w' => Holds w' m (fun r => Nat.count (fun k' => κ k' = r) (k + 1))) := by
  rw [Ok_bind, hw.rd hk, Ok_ok]
  refine (hw.wr hk _).mono fun w' hw' => hw'.congr fun r _ => ?_
  rw [Nat.count_succ]
  unfold upd
  by_cases h : r = κ k
  · subst h; simp
  · simp [h, Ne.symm h]

theorem zeroLoop_ok {m : Nat} :
    Ok (loop 0 m (malloc m : Buf Nat) fun i w => wr w i 0) (fun w => Holds w m (fun _ => 0)) := by
  refine loop_ok (fun t w => HoldsOn w m (fun i => i < t) (fun _ => 0)) (Nat.zero_le _) ?_ ?_ ?_
  · exact (malloc_holdsOn m (fun _ => 0)).congr fun i _ h => absurd h (by omega)
  · intro i s _ hi hs
    refine (hs.wr hi 0).mono fun w hw => hw.congr fun j _ hq => ?_
    refine ⟨?_, ?_⟩
    · rcases Nat.lt_succ_iff_lt_or_eq.mp hq with h | h
      · exact Or.inl h
      · exact Or.inr h
    · unfold upd; split <;> rfl
  · intro s hs; exact hs.full fun i hi => hi

/-- position counters during the scatter phase -/
def posAt (κ : Nat → Nat) (N t r : Nat) : Nat := csStart κ N r + Nat.count (fun k' => κ k' = r) t

theorem posAt_self (κ : Nat → Nat) (N k : Nat) : posAt κ N k (κ k) = csPos κ N k := rfl

theorem posAt_step {κ : Nat → Nat} {w : Buf Nat} {m k N : Nat}
    (hw : Holds w m (fun r => posAt κ N k r)) (hk : κ k < m) :
    Ok (wr w (κ k) (csPos κ N k + 1)) (fun w' => Holds w' m (fun r => posAt κ N (k + 1) r)) := by
  refine (hw.wr hk _).mono fun w' hw' => hw'.congr fun r _ => ?_
  unfold posAt
  rw [Nat.count_succ]
  unfold upd
  by_cases h : r = κ k
  · subst h; simp [csPos]; omega
  · simp [h, Ne.symm h]

theorem wrOpt_ok {b : Buf Nat} {n t : Nat} {f : Nat → Nat} (h : HoldsOn b n (fun k => k < t) f)
    (ht : t < n) {v : Nat} (hv : v = f t) :
    Ok (wrOpt (some b) t v) (fun r => ∃ b', r = some b' ∧ HoldsOn b' n (fun k => k < t + 1) f) := by
  unfold wrOpt
  simp only [Ok_bind]
  refine (h.wr ht v).mono fun b' hb' => ?_
  refine ⟨b', rfl, hb'.congr fun i hi hlt => ?_⟩
  rcases Nat.lt_succ_iff_lt_or_eq.mp hlt with h | h
  · exact ⟨Or.inl h, by simp [upd, show i ≠ t by omega]⟩
  · subst h; exact ⟨Or.inr rfl, by simp [hv]⟩

/-- Memory-level specification of `transposeSparseMatrix` for matrices with at least one entry,
for every number type. -/
theorem transpose_mem {A : SpMat F} {m n : Nat} {jc ir : Nat → Nat} {pr : Nat → F}
    (hA : Rep A m n jc ir pr) {T : Buf Nat} (hT : T.size = jc n) (hnz : jc n ≠ 0) :
    Ok (transposeSparseMatrix A T) (fun r =>
      r.1.m = n ∧ r.1.n = m ∧ r.1.nnz = jc n ∧
      Holds r.1.jc (m + 1) (csStart ir (jc n)) ∧
      Cells r.1.ir (jc n) (jc n) (csPos ir (jc n)) (colOf n jc) ∧
      Cells r.1.pr (jc n) (jc n) (csPos ir (jc n)) pr ∧
      Holds r.2 (jc n) (csPos ir (jc n))) := by
  unfold transposeSparseMatrix transposeFill
  rw [Ok_bind, hA.m_eq, hA.n_eq, hA.nnz_eq]
  refine (newSparseMatrix_ok n m (jc n)).mono ?_
  rintro B ⟨hBm, hBn, hBz, hBjc, hBir, hBpr, _⟩
  rw [if_neg hnz, Ok_bind, Ok_bind]
  refine zeroLoop_ok.mono fun w hw => ?_
  rw [Ok_bind]
  refine loop_ok (fun t w => Holds w m (fun r => Nat.count (fun k' => ir k' = r) t))
    (Nat.zero_le _) (by simpa using hw) ?_ ?_
  · intro k w _ hk hw
    unfold countRow
    rw [Ok_bind, hA.hir.rd hk, Ok_ok]
    exact count_step hw (hA.ok.rows k hk)
  intro w hw
  rw [Ok_bind]
  refine (splaCumsum_ok hBjc hw (by omega) le_rfl).mono ?_
  rintro ⟨jcb, w⟩ ⟨hjcb, hw⟩
  simp only at hjcb hw
  have hjcb' : Holds jcb (m + 1) (csStart ir (jc n)) := by
    have : HoldsOn jcb (m + 1) (fun _ => True) (csStart ir (jc n)) := by
      refine hjcb.congr fun i hi _ => ?_
      by_cases h : i < m
      · simp [h, sum_count_eq_csStart]
      · have : i = m := by omega
        subst this
        simp [csStart_top hA.ok.rows]
    exact holds_iff.mpr this
  have hw0 : Holds w m (fun r => posAt ir (jc n) 0 r) := by
    refine hw.congr fun i hi => ?_
    simp [hi, sum_count_eq_csStart, posAt]
  refine walk_ok hA.ok hA.hjc
    (I := fun t (r : Scat F) =>
      r.A.m = n ∧ r.A.n = m ∧ r.A.nnz = jc n ∧ r.A.jc = jcb ∧
      Cells r.A.ir (jc n) t (csPos ir (jc n)) (colOf n jc) ∧
      Cells r.A.pr (jc n) t (csPos ir (jc n)) pr ∧
      (∃ b, r.map = some b ∧ HoldsOn b (jc n) (fun k => k < t) (csPos ir (jc n))) ∧
      Holds r.w m (fun r => posAt ir (jc n) t r)) ?_ ?_ ?_
  · exact ⟨hBm, hBn, hBz, rfl, cells_zero hBir _ _, cells_zero hBpr _ _,
      ⟨T, rfl, hT, fun i _ h => absurd h (by omega)⟩, hw0⟩
  · rintro j k ⟨B', T', w'⟩ hj h1 h2 hk ⟨e1, e2, e3, e4, c1, c2, ⟨b, e5, c3⟩, c4⟩
    simp only at e1 e2 e3 e4 c1 c2 e5 c3 c4
    subst e5
    have hr := hA.ok.rows k hk
    have hq := csPos_lt_N (κ := ir) hk
    have hinj : ∀ a b, a < jc n → b < jc n → csPos ir (jc n) a = csPos ir (jc n) b → a = b :=
      fun a b ha hb h => csPos_inj ha hb h
    unfold transposeStep
    simp only [Ok_bind, hA.hir.rd hk, c4.rd hr, Ok_ok, posAt_self]
    refine (posAt_step c4 hr).mono fun w'' hw'' => ?_
    refine (c1.wr hk hinj hq (colOf_eq hA.ok hj h1 h2).symm).mono fun ir' hir' => ?_
    simp only [hA.hpr.rd hk, Ok_ok]
    refine (c2.wr hk hinj hq rfl).mono fun pr' hpr' => ?_
    refine (wrOpt_ok c3 hk rfl).mono fun T'' hT'' => ?_
    simp only [Ok_pure]
    exact ⟨e1, e2, e3, e4, hir', hpr', hT'', hw''⟩
  · rintro ⟨B', T', w'⟩ ⟨e1, e2, e3, e4, c1, c2, ⟨b, e5, c3⟩, c4⟩
    simp only at e1 e2 e3 e4 c1 c2 e5 c3 c4
    subst e5
    simp only [Ok_pure]
    exact ⟨e1, e2, e3, by rw [e4]; exact hjcb', c1, c2, c3.full fun i hi => hi⟩

/-- the inverse of the counting-sort permutation -/
theorem exists_inv {N : Nat} {Q : Nat → Nat} (hsurj : ∀ q, q < N → ∃ k, k < N ∧ Q k = q)
    (hinj : ∀ k k', k < N → k' < N → Q k = Q k' → k = k') :
    ∃ R : Nat → Nat, (∀ q, q < N → R q < N ∧ Q (R q) = q) ∧ (∀ k, k < N → Q k < N → R (Q k) = k) := by
  classical
  refine ⟨fun q => if h : q < N then (hsurj q h).choose else 0, ?_, ?_⟩
  · intro q hq
    simp only [hq, dif_pos]
    exact (hsurj q hq).choose_spec
  · intro k hk hq
    simp only [hq, dif_pos]
    exact hinj _ _ (hsurj _ hq).choose_spec.1 hk (hsurj _ hq).choose_spec.2

/-- Functional specification of `transposeSparseMatrix` for every number type. -/
theorem transpose_rep {A : SpMat F} {m n : Nat} {jc ir : Nat → Nat} {pr : Nat → F}
    (hA : Rep A m n jc ir pr) {T : Buf Nat} (hT : T.size = jc n) (hnz : jc n ≠ 0) :
    Ok (transposeSparseMatrix A T) (fun r => ∃ (ir' : Nat → Nat) (pr' : Nat → F),
      Rep r.1 n m (csStart ir (jc n)) ir' pr' ∧
      Holds r.2 (jc n) (csPos ir (jc n)) ∧
      (∀ k, k < jc n → ir' (csPos ir (jc n) k) = colOf n jc k) ∧
      (∀ k, k < jc n → pr' (csPos ir (jc n) k) = pr k)) := by
  refine (transpose_mem hA hT hnz).mono ?_
  rintro ⟨B, T'⟩ ⟨e1, e2, e3, h1, h2, h3, h4⟩
  obtain ⟨R, hR1, hR2⟩ := exists_inv (N := jc n) (Q := csPos ir (jc n))
    (fun q hq => csPos_surj hq) (fun k k' hk hk' h => csPos_inj hk hk' h)
  have hi : ∀ k, k < jc n → colOf n jc (R (csPos ir (jc n) k)) = colOf n jc k := by
    intro k hk; rw [hR2 k hk (csPos_lt_N hk)]
  have hp : ∀ k, k < jc n → pr (R (csPos ir (jc n) k)) = pr k := by
    intro k hk; rw [hR2 k hk (csPos_lt_N hk)]
  have htop : csStart ir (jc n) m = jc n := csStart_top hA.ok.rows
  refine ⟨fun q => colOf n jc (R q), fun q => pr (R q), ⟨e1, e2, by rw [e3, htop], h1, ?_, ?_, ?_⟩,
    h4, hi, hp⟩
  · rw [htop]; exact h2.holds (fun q hq => csPos_surj hq) _ hi
  · rw [htop]; exact h3.holds (fun q hq => csPos_surj hq) _ hp
  · refine ⟨csStart_zero, fun j _ => csStart_mono (by omega), fun q hq => ?_⟩
    rw [htop] at hq
    obtain ⟨j, hj, hj1, hj2⟩ := hA.ok.exists_col (hR1 q hq).1
    rw [colOf_eq hA.ok hj hj1 hj2]; exact hj

theorem transpose_dense {m n : Nat} {jc ir : Nat → Nat} {pr : Nat → ℝ} (h : CscOk m n jc ir)
    {ir' : Nat → Nat} {pr' : Nat → ℝ}
    (hi : ∀ k, k < jc n → ir' (csPos ir (jc n) k) = colOf n jc k)
    (hp : ∀ k, k < jc n → pr' (csPos ir (jc n) k) = pr k) {i j : Nat} (hj : j < n) :
    dense (csStart ir (jc n)) ir' pr' j i = dense jc ir pr i j := by
  unfold dense
  rw [sum_segment, sum_filter]
  have : ∀ k ∈ range (jc n), (if ir k = i then
      (if ir' (csPos ir (jc n) k) = j then pr' (csPos ir (jc n) k) else 0) else 0) =
      (fun j' k => if j' = j then (if ir k = i then pr k else 0) else 0) (colOf n jc k) k := by
    intro k hk
    rw [mem_range] at hk
    rw [hi k hk, hp k hk]
    by_cases h1 : ir k = i <;> by_cases h2 : colOf n jc k = j <;> simp [h1, h2]
  rw [sum_congr rfl this,
    sum_cols h (fun j' k => if j' = j then (if ir k = i then pr k else 0) else 0), sum_eq_single j]
  · simp
  · intro b _ hb; simp [hb]
  · intro hb; exact absurd (mem_range.mpr hj) hb

theorem colOf_mono {m n : Nat} {jc ir : Nat → Nat} (h : CscOk m n jc ir) {k k' : Nat}
    (hkk : k ≤ k') (hk' : k' < jc n) : colOf n jc k ≤ colOf n jc k' := by
  obtain ⟨j, hj, hj1, hj2⟩ := h.exists_col (show k < jc n by omega)
  obtain ⟨j', hj', hj1', hj2'⟩ := h.exists_col hk'
  rw [colOf_eq h hj hj1 hj2, colOf_eq h hj' hj1' hj2']
  by_contra hc
  have := h.mono' (show j' + 1 ≤ j by omega) (by omega)
  omega

/-- rows are sorted inside each column of the transpose -/
theorem transpose_sorted {m n : Nat} {jc ir : Nat → Nat} (h : CscOk m n jc ir) {ir' : Nat → Nat}
    (hi : ∀ k, k < jc n → ir' (csPos ir (jc n) k) = colOf n jc k) {r q q' : Nat}
    (h1 : csStart ir (jc n) r ≤ q) (hqq : q < q') (h2 : q' < csStart ir (jc n) (r + 1)) :
    ir' q ≤ ir' q' := by
  have hle := csStart_le (κ := ir) (N := jc n) (r + 1)
  obtain ⟨k, hk, rfl⟩ := csPos_surj (κ := ir) (show q < jc n by omega)
  obtain ⟨k', hk', rfl⟩ := csPos_surj (κ := ir) (show q' < jc n by omega)
  have e1 := (csPos_mem_iff (κ := ir) (r := r) hk).mp ⟨h1, by omega⟩
  have e2 := (csPos_mem_iff (κ := ir) (r := r) hk').mp ⟨by omega, h2⟩
  rw [hi k hk, hi k' hk']
  refine colOf_mono h ?_ hk'
  by_contra hc
  have := csPos_lt_csPos_of_same (N := jc n) (e2.trans e1.symm) (show k' < k by omega)
  omega

end Ecos
