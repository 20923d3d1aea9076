import Verif.Lemmas.Scal3

/-!
# Vectors made of blocks
-/
namespace Ecos

open Finset

open Classical in
/-- the vector with linear rows `f`, second-order blocks `g`, exponential blocks `e` -/
noncomputable def glue {α : Type} (S : Shape) (f : Nat → α) (g : Nat → Nat → α) (e : Nat → Nat → α) : Nat → α :=
  fun i => if i < S.l then f i
    else if h : ∃ k, k < S.ns ∧ S.start k ≤ i ∧ i < S.start k + S.q k then g h.choose (i - S.start h.choose)
    else e ((i - S.fexv) / 3) ((i - S.fexv) % 3)

theorem glue_lp {α : Type} (S : Shape) (f : Nat → α) (g e : Nat → Nat → α) {i : Nat} (h : i < S.l) :
    glue S f g e i = f i := by unfold glue; rw [if_pos h]

theorem glue_block {α : Type} (S : Shape) (f : Nat → α) (g e : Nat → Nat → α) {k j : Nat} (hk : k < S.ns)
    (hj : j < S.q k) : S.block (glue S f g e) k j = g k j := by
  unfold Shape.block glue
  have hl := S.l_le k
  rw [if_neg (by omega)]
  have h : ∃ k', k' < S.ns ∧ S.start k' ≤ S.start k + j ∧ S.start k + j < S.start k' + S.q k' :=
    ⟨k, hk, by omega, by omega⟩
  rw [dif_pos h]
  have hc := h.choose_spec
  have : h.choose = k := S.row_unique hc.2.1 hc.2.2 (by omega) (by omega)
  rw [this, Nat.add_sub_cancel_left]

theorem glue_exp {α : Type} (S : Shape) (f : Nat → α) (g e : Nat → Nat → α) {l j : Nat} (hj : j < 3) :
    S.eblock (glue S f g e) l j = e l j := by
  unfold Shape.eblock glue
  have hl : S.l ≤ S.fexv := S.l_le _
  rw [if_neg (by omega), dif_neg]
  · rw [show S.fexv + 3 * l + j - S.fexv = 3 * l + j by omega, show (3 * l + j) / 3 = l by omega,
      show (3 * l + j) % 3 = j by omega]
  · rintro ⟨k, hk, h1, h2⟩
    have := S.start_le hk
    omega

theorem glue_has {α : Type} {S : Shape} {b : Buf α} {f : Nat → α} {g e : Nat → Nat → α} (hl : Has b 0 S.l f)
    (hq : ∀ k, k < S.ns → Has b (S.start k) (S.q k) (g k)) : Has b 0 S.fexv (glue S f g e) := by
  intro i hi
  rw [Nat.zero_add]
  rcases S.row_cases hi with h | ⟨k, hk, ha, hb⟩
  · have := hl i h
    rw [Nat.zero_add] at this
    rw [this, glue_lp S f g e h]
  · have := hq k hk (i - S.start k) (by omega)
    rw [← glue_block S f g e hk (by omega)] at this
    unfold Shape.block at this
    rwa [show S.start k + (i - S.start k) = i by omega] at this

theorem glue_hasE {α : Type} {S : Shape} {b : Buf α} {f : Nat → α} {g e : Nat → Nat → α} (hl : Has b 0 S.l f)
    (hq : ∀ k, k < S.ns → Has b (S.start k) (S.q k) (g k))
    (he : ∀ l, l < S.ne → Has b (S.fexv + 3 * l) 3 (e l)) : Has b 0 S.m (glue S f g e) := by
  intro i hi
  by_cases h : i < S.fexv
  · exact glue_has hl hq i h
  · have hm : S.m = S.fexv + 3 * S.ne := rfl
    have := he ((i - S.fexv) / 3) (by omega) ((i - S.fexv) % 3) (by omega)
    rw [show S.fexv + 3 * ((i - S.fexv) / 3) + (i - S.fexv) % 3 = i by omega,
      ← glue_exp S f g e (by omega)] at this
    unfold Shape.eblock at this
    rw [show S.fexv + 3 * ((i - S.fexv) / 3) + (i - S.fexv) % 3 = i by omega] at this
    rw [Nat.zero_add]
    exact this

theorem Shape.m_cases (S : Shape) {i : Nat} (h : i < S.m) :
    i < S.l ∨ (∃ k j, k < S.ns ∧ j < S.q k ∧ i = S.start k + j) ∨
      ∃ l j, l < S.ne ∧ j < 3 ∧ i = S.fexv + 3 * l + j := by
  by_cases hf : i < S.fexv
  · rcases S.row_cases hf with h | ⟨k, hk, ha, hb⟩
    · exact Or.inl h
    · exact Or.inr (Or.inl ⟨k, i - S.start k, hk, by omega, by omega⟩)
  · have hm : S.m = S.fexv + 3 * S.ne := rfl
    exact Or.inr (Or.inr ⟨(i - S.fexv) / 3, (i - S.fexv) % 3, by omega, by omega, by omega⟩)

/-- a sum over the symmetric rows, cone by cone -/
theorem Shape.sum_rows (S : Shape) (f : Nat → ℝ) : ∑ i ∈ range S.fexv, f i =
    ∑ i ∈ range S.l, f i + ∑ k ∈ range S.ns, ∑ j ∈ range (S.q k), S.block f k j := by
  have : ∀ n, ∑ i ∈ range (S.start n), f i =
      ∑ i ∈ range S.l, f i + ∑ k ∈ range n, ∑ j ∈ range (S.q k), S.block f k j := by
    intro n
    induction n with
    | zero => simp
    | succ n ih =>
      rw [S.start_succ, sum_range_add, ih, sum_range_succ, add_assoc]
      rfl
  exact this S.ns

end Ecos
