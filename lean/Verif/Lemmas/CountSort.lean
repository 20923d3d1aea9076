import Mathlib.Data.Nat.Count
import Mathlib.Data.Finset.Card
import Mathlib.Data.Fintype.Card
import Mathlib.Algebra.BigOperators.Intervals
import Verif.Core.Mem

/-!
# Counting sort: the arithmetic behind transposition and symmetric permutation
-/
namespace Ecos

/-- first position of key `r` after a counting sort of `N` items with keys `κ` -/
def csStart (κ : Nat → Nat) (N r : Nat) : Nat := Nat.count (fun k => κ k < r) N

/-- position of item `k` after the counting sort -/
def csPos (κ : Nat → Nat) (N k : Nat) : Nat := csStart κ N (κ k) + Nat.count (fun k' => κ k' = κ k) k

variable {κ : Nat → Nat} {N : Nat}

theorem csStart_zero : csStart κ N 0 = 0 := by
  simp [csStart]

theorem csStart_succ (r : Nat) :
    csStart κ N (r + 1) = csStart κ N r + Nat.count (fun k => κ k = r) N := by
  unfold csStart
  induction N with
  | zero => simp
  | succ n ih =>
    rw [Nat.count_succ, Nat.count_succ, Nat.count_succ, ih]
    by_cases h1 : κ n < r
    · have h2 : κ n < r + 1 := by omega
      have h3 : κ n ≠ r := by omega
      simp [h1, h2, h3]; omega
    · by_cases h3 : κ n = r
      · have h2 : κ n < r + 1 := by omega
        simp [h3]; omega
      · have h2 : ¬ κ n < r + 1 := by omega
        simp [h1, h2, h3]

theorem csStart_mono {r s : Nat} (h : r ≤ s) : csStart κ N r ≤ csStart κ N s := by
  unfold csStart
  exact Nat.count_mono_left (fun k hk => by omega)

theorem csStart_le (r : Nat) : csStart κ N r ≤ N := by
  unfold csStart; exact Nat.count_le _

theorem csStart_top {m : Nat} (h : ∀ k, k < N → κ k < m) : csStart κ N m = N := by
  unfold csStart
  rw [Nat.count_iff_forall]
  intro k hk; exact h k hk

theorem csPos_ge (k : Nat) : csStart κ N (κ k) ≤ csPos κ N k := Nat.le_add_right _ _

theorem count_lt_of_lt {k : Nat} (hk : k < N) :
    Nat.count (fun k' => κ k' = κ k) k < Nat.count (fun k' => κ k' = κ k) N := by
  have h1 : Nat.count (fun k' => κ k' = κ k) (k + 1) = Nat.count (fun k' => κ k' = κ k) k + 1 := by
    rw [Nat.count_succ]; simp
  have h2 := Nat.count_monotone (fun k' => κ k' = κ k) (show k + 1 ≤ N by omega)
  omega

theorem csPos_lt {k : Nat} (hk : k < N) : csPos κ N k < csStart κ N (κ k + 1) := by
  rw [csStart_succ]
  have := count_lt_of_lt (κ := κ) hk
  unfold csPos
  omega

theorem csPos_lt_N {k : Nat} (hk : k < N) : csPos κ N k < N :=
  lt_of_lt_of_le (csPos_lt hk) (csStart_le _)

theorem csPos_lt_csPos_of_key {k k' : Nat} (hk : k < N) (h : κ k < κ k') :
    csPos κ N k < csPos κ N k' :=
  lt_of_lt_of_le (csPos_lt hk) (le_trans (csStart_mono h) (csPos_ge _))

theorem csPos_lt_csPos_of_same {k k' : Nat} (h : κ k = κ k') (hkk : k < k') :
    csPos κ N k < csPos κ N k' := by
  unfold csPos
  rw [h]
  have := count_lt_of_lt (κ := κ) hkk
  rw [h] at this
  omega

theorem csPos_inj {k k' : Nat} (hk : k < N) (hk' : k' < N) (h : csPos κ N k = csPos κ N k') :
    k = k' := by
  rcases lt_trichotomy (κ k) (κ k') with h1 | h1 | h1
  · have := csPos_lt_csPos_of_key hk h1; omega
  · rcases lt_trichotomy k k' with h2 | h2 | h2
    · have := csPos_lt_csPos_of_same (N := N) h1 h2; omega
    · exact h2
    · have := csPos_lt_csPos_of_same (N := N) h1.symm h2; omega
  · have := csPos_lt_csPos_of_key hk' h1; omega

/-- the positions are a permutation of `0..N-1` -/
theorem csPos_surj {q : Nat} (hq : q < N) : ∃ k, k < N ∧ csPos κ N k = q := by
  have hinj : Set.InjOn (csPos κ N) (Finset.range N) := by
    intro a ha b hb h
    exact csPos_inj (by simpa using ha) (by simpa using hb) h
  have hmaps : ∀ a ∈ Finset.range N, csPos κ N a ∈ Finset.range N := by
    intro a ha; simp at ha ⊢; exact csPos_lt_N ha
  have := Finset.surjOn_of_injOn_of_card_le (csPos κ N) hmaps hinj le_rfl
  obtain ⟨k, hk, e⟩ := this (by simpa using hq : q ∈ (Finset.range N : Finset Nat))
  exact ⟨k, by simpa using hk, e⟩

/-- `csPos k` lies in the segment of key `r` iff `κ k = r` -/
theorem csPos_mem_iff {k r : Nat} (hk : k < N) :
    (csStart κ N r ≤ csPos κ N k ∧ csPos κ N k < csStart κ N (r + 1)) ↔ κ k = r := by
  constructor
  · rintro ⟨h1, h2⟩
    rcases lt_trichotomy (κ k) r with h | h | h
    · have := lt_of_lt_of_le (csPos_lt (κ := κ) hk) (csStart_mono (show κ k + 1 ≤ r from h))
      omega
    · exact h
    · have := le_trans (csStart_mono (κ := κ) (N := N) (show r + 1 ≤ κ k from h)) (csPos_ge k)
      omega
  · rintro rfl
    exact ⟨csPos_ge k, csPos_lt hk⟩

/-- sums over a segment are sums over the items with that key -/
theorem sum_segment {β : Type} [AddCommMonoid β] (g : Nat → β) (r : Nat) :
    ∑ q ∈ Finset.Ico (csStart κ N r) (csStart κ N (r + 1)), g q =
      ∑ k ∈ (Finset.range N).filter (fun k => κ k = r), g (csPos κ N k) := by
  symm
  refine Finset.sum_bij (fun k _ => csPos κ N k) ?_ ?_ ?_ ?_
  · intro k hk
    simp only [Finset.mem_filter, Finset.mem_range] at hk
    have := (csPos_mem_iff (κ := κ) (r := r) hk.1).mpr hk.2
    simpa using this
  · intro a ha b hb h
    simp only [Finset.mem_filter, Finset.mem_range] at ha hb
    exact csPos_inj ha.1 hb.1 h
  · intro q hq
    simp only [Finset.mem_Ico] at hq
    obtain ⟨k, hk, e⟩ := csPos_surj (κ := κ) (lt_of_lt_of_le hq.2 (csStart_le _))
    refine ⟨k, ?_, e⟩
    simp only [Finset.mem_filter, Finset.mem_range]
    exact ⟨hk, (csPos_mem_iff hk).mp (by rw [e]; exact hq)⟩
  · intro k _; rfl

end Ecos
