import Verif.Lemmas.Ldl5
import Verif.Lemmas.Vec

/-!
# Triangular solves

For a strictly lower triangular matrix in compressed columns; the unit diagonal is not stored.
First the values computed, for any arithmetic, then the equations they satisfy over the reals.
-/
namespace Ecos.Fact

open Ecos Finset

set_option linter.unusedSectionVars false

/-- strictly lower triangular -/
def Lower (n : Nat) (jc ir : Nat → Nat) : Prop :=
  ∀ j, j < n → ∀ p, jc j ≤ p → p < jc (j + 1) → j < ir p

section generic
variable {F : Type} [Zero F] [One F] [Add F] [Sub F] [Mul F] [Div F] [Neg F] [OfScientific F]
  [IntCast F] [PFloat F]

/-- column `j` of the forward solve -/
def lsCol (jc ir : Nat → Nat) (lx : Nat → F) (j : Nat) (x : Nat → F) : Nat → F :=
  itr (jc (j + 1) - jc j) x fun t x => upd x (ir (jc j + t)) (x (ir (jc j + t)) - lx (jc j + t) * x j)

/-- column `j` of the backward solve -/
def ltCol (jc ir : Nat → Nat) (lx : Nat → F) (j : Nat) (x : Nat → F) : Nat → F :=
  itr (jc (j + 1) - jc j) x fun t x => upd x j (x j - lx (jc j + t) * x (ir (jc j + t)))

variable {n : Nat} {jc ir : Nat → Nat} {lx : Nat → F} {Lp Li : Buf Nat} {Lx : Buf F}

theorem ldlLsolve2_ok (hc : CscOk n n jc ir) (hLp : Holds Lp (n + 1) jc) (hLi : Has' Li (jc n) ir)
    (hLx : Has' Lx (jc n) lx) {b x : Buf F} {bf : Nat → F} (hb : Holds b n bf) (hx : x.size = n) :
    Ok (ldlLsolve2 n b Lp Li Lx x) fun r => Holds r n (itr n bf (lsCol jc ir lx)) := by
  unfold ldlLsolve2
  refine Ok.bind (P := fun x => Holds x n bf) ((fill_ok (g := bf) (by omega) fun j hj => by
      rw [hb.rd hj]).mono fun x' h => h.holds hx) fun x' hx' => ?_
  refine loop_ok (I := fun j x => Holds x n (itr j bf (lsCol jc ir lx))) (Nat.zero_le _) hx' ?_ fun _ h => h
  intro j x1 _ hj hx1
  rw [hLp.rd (by omega), ok_bind_eq, hLp.rd (by omega), ok_bind_eq, itr_succ]
  have hm := hc.mono j hj
  refine loop_ok (I := fun p x => Holds x n (itr (p - jc j) (itr j bf (lsCol jc ir lx)) fun t x =>
      upd x (ir (jc j + t)) (x (ir (jc j + t)) - lx (jc j + t) * x j))) hm (by simpa using hx1) ?_ fun _ h => h
  intro p x2 h1 h2 hx2
  have hpn : p < jc n := Nat.lt_of_lt_of_le h2 (hc.le_top (by omega))
  have hr := hc.rows p hpn
  rw [hLi.rd hpn, ok_bind_eq, hx2.rd hr, ok_bind_eq, hLx.rd hpn, ok_bind_eq, hx2.rd hj, ok_bind_eq]
  rw [show p + 1 - jc j = (p - jc j) + 1 by omega, itr_succ, show jc j + (p - jc j) = p by omega]
  exact hx2.wr hr _

theorem ldlDsolve_ok {x d : Buf F} {xf df : Nat → F} (hx : Holds x n xf) (hd : Holds d n df) :
    Ok (ldlDsolve n x d) fun r => Holds r n (fun i => xf i / df i) := by
  unfold ldlDsolve
  refine (modify_ok (o := xf) (g := fun i => xf i / df i) hx.has0 (by rw [hx.size]; omega) fun j hj => ?_).mono fun r h => h.holds hx.size
  rw [hd.rd (by omega)]
  rfl

theorem ldlLtsolve_ok (hc : CscOk n n jc ir) (hLp : Holds Lp (n + 1) jc) (hLi : Has' Li (jc n) ir)
    (hLx : Has' Lx (jc n) lx) {x : Buf F} {xf : Nat → F} (hx : Holds x n xf) :
    Ok (ldlLtsolve n x Lp Li Lx) fun r => Holds r n (itr n xf fun t x => ltCol jc ir lx (n - 1 - t) x) := by
  unfold ldlLtsolve
  refine loop_ok (I := fun t x => Holds x n (itr t xf fun t x => ltCol jc ir lx (n - 1 - t) x)) (Nat.zero_le _) hx ?_ fun _ h => h
  intro t x1 _ ht hx1
  have hj : n - 1 - t < n := by omega
  rw [itr_succ]
  simp only
  generalize n - 1 - t = j at hj
  rw [hLp.rd (by omega), ok_bind_eq, hLp.rd (by omega), ok_bind_eq]
  have hm := hc.mono j hj
  refine loop_ok (I := fun p x => Holds x n (itr (p - jc j) (itr t xf fun t x => ltCol jc ir lx (n - 1 - t) x) fun t x =>
      upd x j (x j - lx (jc j + t) * x (ir (jc j + t))))) hm (by simpa using hx1) ?_ fun _ h => h
  intro p x2 h1 h2 hx2
  have hpn : p < jc n := Nat.lt_of_lt_of_le h2 (hc.le_top (by omega))
  have hr := hc.rows p hpn
  rw [hx2.rd hj, ok_bind_eq, hLx.rd hpn, ok_bind_eq, hLi.rd hpn, ok_bind_eq, hx2.rd hr, ok_bind_eq]
  rw [show p + 1 - jc j = (p - jc j) + 1 by omega, itr_succ, show jc j + (p - jc j) = p by omega]
  exact hx2.wr hj _

end generic

variable {n : Nat} {jc ir : Nat → Nat} {lx : Nat → ℝ}

theorem lsCol_eq (hl : Lower n jc ir) (hc : CscOk n n jc ir) {j : Nat} (hj : j < n) (x : Nat → ℝ) (i : Nat) :
    lsCol jc ir lx j x i = x i - dense jc ir lx i j * x j := by
  have hm := hc.mono j hj
  have key : ∀ t, jc j + t ≤ jc (j + 1) → ∀ i,
      itr t x (fun t x => upd x (ir (jc j + t)) (x (ir (jc j + t)) - lx (jc j + t) * x j)) i =
        x i - (∑ p ∈ Ico (jc j) (jc j + t), if ir p = i then lx p else 0) * x j := by
    intro t
    induction t with
    | zero => intro _ i; simp
    | succ t ih =>
      intro ht i
      have ih' := ih (by omega)
      rw [itr_succ, show jc j + (t + 1) = jc j + t + 1 by omega, sum_Ico_succ_top (by omega)]
      have hxj : itr t x (fun t x => upd x (ir (jc j + t)) (x (ir (jc j + t)) - lx (jc j + t) * x j)) j = x j := by
        rw [ih' j, sum_eq_zero, zero_mul, sub_zero]
        intro p hp
        rw [mem_Ico] at hp
        have := hl j hj p hp.1 (by omega)
        rw [if_neg (by omega)]
      by_cases hi : ir (jc j + t) = i
      · rw [if_pos hi, hi, upd_self, ih' i, hxj]; ring
      · rw [upd_ne _ _ (Ne.symm hi), if_neg hi, ih' i]; ring
  unfold lsCol dense
  rw [key _ (by omega) i, show jc j + (jc (j + 1) - jc j) = jc (j + 1) by omega]

theorem dense_lower (hl : Lower n jc ir) {i j : Nat} (hj : j < n) (hij : i ≤ j) : dense jc ir lx i j = 0 := by
  unfold dense
  refine sum_eq_zero fun p hp => ?_
  rw [mem_Ico] at hp
  have := hl j hj p hp.1 hp.2
  rw [if_neg (by omega)]

/-- forward substitution: `x + L x = b` -/
theorem lsolve_eq (hl : Lower n jc ir) (hc : CscOk n n jc ir) (b : Nat → ℝ) {i : Nat} (hi : i < n) :
    itr n b (lsCol jc ir lx) i + ∑ j ∈ range n, dense jc ir lx i j * itr n b (lsCol jc ir lx) j = b i := by
  -- value of entry `i` after `k` columns
  have hstab : ∀ k, k ≤ n → ∀ i, i < n → i ≤ k → itr n b (lsCol jc ir lx) i = itr k b (lsCol jc ir lx) i := by
    intro k hk i hin hik
    obtain ⟨t, rfl⟩ : ∃ t, n = k + t := ⟨n - k, by omega⟩
    have : ∀ s, s ≤ t → itr (k + s) b (lsCol jc ir lx) i = itr k b (lsCol jc ir lx) i := by
      intro s
      induction s with
      | zero => intro _; rfl
      | succ s ih =>
        intro hs
        rw [show k + (s + 1) = (k + s) + 1 by omega, itr_succ, lsCol_eq hl hc (by omega), dense_lower hl (by omega) (by omega),
          ih (by omega)]
        ring
    exact this t le_rfl
  have hval : ∀ k, k ≤ n → ∀ i, itr k b (lsCol jc ir lx) i =
      b i - ∑ j ∈ range k, dense jc ir lx i j * itr n b (lsCol jc ir lx) j := by
    intro k
    induction k with
    | zero => intro _ i; simp
    | succ k ih =>
      intro hk i
      rw [itr_succ, lsCol_eq hl hc (by omega), sum_range_succ, ih (by omega), hstab k (by omega) k (by omega) le_rfl]
      ring
  have := hval n le_rfl i
  linarith

theorem ltCol_ne {j : Nat} (x : Nat → ℝ) {i : Nat} (hi : i ≠ j) : ltCol jc ir lx j x i = x i := by
  unfold ltCol
  generalize jc (j + 1) - jc j = t
  induction t with
  | zero => rfl
  | succ t ih => rw [itr_succ, upd_ne _ _ hi, ih]

theorem ltCol_self (hl : Lower n jc ir) (hc : CscOk n n jc ir) {j : Nat} (hj : j < n) (x : Nat → ℝ) :
    ltCol jc ir lx j x j = x j - ∑ p ∈ Ico (jc j) (jc (j + 1)), lx p * x (ir p) := by
  have hm := hc.mono j hj
  have hne : ∀ t i, i ≠ j → itr t x (fun t x => upd x j (x j - lx (jc j + t) * x (ir (jc j + t)))) i = x i := by
    intro t i hi
    induction t with
    | zero => rfl
    | succ t ih => rw [itr_succ, upd_ne _ _ hi, ih]
  have key : ∀ t, jc j + t ≤ jc (j + 1) →
      itr t x (fun t x => upd x j (x j - lx (jc j + t) * x (ir (jc j + t)))) j =
        x j - ∑ p ∈ Ico (jc j) (jc j + t), lx p * x (ir p) := by
    intro t
    induction t with
    | zero => intro _; simp
    | succ t ih =>
      intro ht
      have hr := hl j hj (jc j + t) (by omega) (by omega)
      rw [itr_succ, upd_self, ih (by omega), hne t _ (by omega), show jc j + (t + 1) = jc j + t + 1 by omega,
        sum_Ico_succ_top (by omega)]
      ring
  unfold ltCol
  rw [key _ (by omega), show jc j + (jc (j + 1) - jc j) = jc (j + 1) by omega]

theorem dense_tmul (hc : CscOk n n jc ir) {j : Nat} (hj : j < n) (x : Nat → ℝ) :
    ∑ p ∈ Ico (jc j) (jc (j + 1)), lx p * x (ir p) = ∑ i ∈ range n, dense jc ir lx i j * x i := by
  unfold dense
  simp only [sum_mul]
  rw [sum_comm]
  refine sum_congr rfl fun p hp => ?_
  rw [mem_Ico] at hp
  have hr := hc.rows p (lt_of_lt_of_le hp.2 (hc.le_top (by omega)))
  rw [sum_eq_single (ir p)]
  · rw [if_pos rfl]
  · intro i _ hi
    rw [if_neg (fun e => hi e.symm), zero_mul]
  · intro h
    exact absurd (mem_range.2 hr) h

/-- backward substitution: `x + L' x = b` -/
theorem ltsolve_eq (hl : Lower n jc ir) (hc : CscOk n n jc ir) (b : Nat → ℝ) {j : Nat} (hj : j < n) :
    itr n b (fun t x => ltCol jc ir lx (n - 1 - t) x) j +
      ∑ i ∈ range n, dense jc ir lx i j * itr n b (fun t x => ltCol jc ir lx (n - 1 - t) x) i = b j := by
  set X := itr n b (fun t x => ltCol jc ir lx (n - 1 - t) x) with hX
  -- entries above the current column are final, the others untouched
  have hhi : ∀ t, t ≤ n → ∀ i, i < n → n - t ≤ i → X i = itr t b (fun t x => ltCol jc ir lx (n - 1 - t) x) i := by
    intro t ht i hi hit
    obtain ⟨s, hs⟩ : ∃ s, n = t + s := ⟨n - t, by omega⟩
    have : ∀ r, r ≤ s → itr (t + r) b (fun t x => ltCol jc ir lx (n - 1 - t) x) i =
        itr t b (fun t x => ltCol jc ir lx (n - 1 - t) x) i := by
      intro r
      induction r with
      | zero => intro _; rfl
      | succ r ih =>
        intro hr
        rw [show t + (r + 1) = (t + r) + 1 by omega, itr_succ, ltCol_ne _ (by omega), ih (by omega)]
    rw [hX]
    conv_lhs => rw [hs]
    rw [← hs]
    have := this s le_rfl
    rw [← hs] at this
    exact this
  have hlo : ∀ t, t ≤ n → ∀ i, i < n - t → itr t b (fun t x => ltCol jc ir lx (n - 1 - t) x) i = b i := by
    intro t
    induction t with
    | zero => intro _ i _; rfl
    | succ t ih =>
      intro ht i hi
      rw [itr_succ, ltCol_ne _ (by omega), ih (by omega) i (by omega)]
  have h1 : X j = itr (n - 1 - j + 1) b (fun t x => ltCol jc ir lx (n - 1 - t) x) j := hhi _ (by omega) j hj (by omega)
  rw [itr_succ, show n - 1 - (n - 1 - j) = j by omega, ltCol_self hl hc hj, hlo _ (by omega) j (by omega)] at h1
  have h2 : ∑ p ∈ Ico (jc j) (jc (j + 1)), lx p * itr (n - 1 - j) b (fun t x => ltCol jc ir lx (n - 1 - t) x) (ir p) =
      ∑ p ∈ Ico (jc j) (jc (j + 1)), lx p * X (ir p) := by
    refine sum_congr rfl fun p hp => ?_
    rw [mem_Ico] at hp
    have hr := hc.rows p (lt_of_lt_of_le hp.2 (hc.le_top (by omega)))
    have := hl j hj p hp.1 hp.2
    rw [hhi (n - 1 - j) (by omega) (ir p) hr (by omega)]
  rw [h2, dense_tmul hc hj] at h1
  linarith

end Ecos.Fact
