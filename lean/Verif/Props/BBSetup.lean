import Verif.Lemmas.BBAug
import Verif.Lemmas.BBX
import Mathlib.Tactic.Linarith

/-!
# C38, C39: node bounds and updates of the right-hand side
-/
set_option linter.unusedSectionVars false
set_option linter.unusedVariables false

namespace Ecos
namespace BB

open Finset Augm

/-- row `r` of a compressed-column matrix with `n` columns, applied to `x` -/
noncomputable def rowDot (n : Nat) (jc ir : Nat → Nat) (pr : Nat → ℝ) (r : Nat) (x : Nat → ℝ) : ℝ :=
  ∑ j ∈ range n, dense jc ir pr r j * x j

section
variable {I : AugIn ℝ} {jc ir : Nat → Nat} {pr hu : Nat → ℝ} {bv iv : Nat → Nat}

theorem sum_shift {a b : Nat} (f : Nat → ℝ) : ∑ k ∈ Ico a (a + b), f k = ∑ k ∈ range b, f (a + k) := by
  rw [sum_Ico_eq_sum_range]; simp

/-- one column of the augmented matrix -/
theorem dense_col' {jcO irO : Nat → Nat} {prO : Nat → ℝ} {i : Nat}
    (hs : jcO (i + 1) = jcO i + off I.nb I.ni bv iv i + (jc (i + 1) - jc i)) (h : ColOk I jc ir pr bv iv jcO irO prO i) (r : Nat) :
    (r < 2 * (I.nb + I.ni) → ¬ Decl I.nb I.ni bv iv i → dense jcO irO prO r i = 0) ∧
    (r < 2 * (I.nb + I.ni) → Decl I.nb I.ni bv iv i → dense jcO irO prO r i =
      (if 2 * rank I.nb I.ni bv iv i = r then -1 else 0) + (if 2 * rank I.nb I.ni bv iv i + 1 = r then 1 else 0)) ∧
    dense jcO irO prO (2 * (I.nb + I.ni) + r) i = dense jc ir pr r i := by
  -- the user's entries
  have huser : ∀ r', ∑ k ∈ range (jc (i + 1) - jc i),
      (if irO (jcO i + off I.nb I.ni bv iv i + k) = r' then
        prO (jcO i + off I.nb I.ni bv iv i + k) else 0)
      = ∑ k ∈ range (jc (i + 1) - jc i), (if ir (jc i + k) + 2 * I.nb + 2 * I.ni = r' then pr (jc i + k) else 0) := by
    intro r'
    refine sum_congr rfl fun k hk => ?_
    obtain ⟨e1, e2⟩ := h.user k (mem_range.mp hk)
    rw [e1, e2]
  have hsmall : ∀ r', r' < 2 * (I.nb + I.ni) → ∑ k ∈ range (jc (i + 1) - jc i),
      (if ir (jc i + k) + 2 * I.nb + 2 * I.ni = r' then pr (jc i + k) else 0) = 0 := by
    intro r' hr'
    refine sum_eq_zero fun k _ => if_neg (by omega)
  have hbig : ∑ k ∈ range (jc (i + 1) - jc i),
      (if ir (jc i + k) + 2 * I.nb + 2 * I.ni = 2 * (I.nb + I.ni) + r then pr (jc i + k) else 0) = dense jc ir pr r i := by
    unfold dense
    rw [sum_Ico_eq_sum_range]
    refine sum_congr rfl fun k _ => ?_
    by_cases hc : ir (jc i + k) = r
    · rw [if_pos hc, if_pos (by omega)]
    · rw [if_neg hc, if_neg (by omega)]
  by_cases hd : Decl I.nb I.ni bv iv i
  · have ho : off I.nb I.ni bv iv i = 2 := if_pos hd
    have hrk := rank_lt _ _ _ _ hd
    obtain ⟨b1, b2, b3, b4⟩ := h.bnd hd
    have hall : ∀ r', dense jcO irO prO r' i =
        (if 2 * rank I.nb I.ni bv iv i = r' then -1 else 0) + (if 2 * rank I.nb I.ni bv iv i + 1 = r' then 1 else 0) +
        ∑ k ∈ range (jc (i + 1) - jc i), (if ir (jc i + k) + 2 * I.nb + 2 * I.ni = r' then pr (jc i + k) else 0) := by
      intro r'
      unfold dense
      rw [hs, ho, add_assoc, sum_shift, sum_range_add, sum_range_succ, sum_range_succ, sum_range_zero, zero_add,
        ← huser r', ho, Nat.add_zero, b1, b2, b3, b4]
      simp only [Nat.add_assoc]
    refine ⟨fun _ hn => absurd hd hn, fun hr _ => ?_, ?_⟩
    · rw [hall, hsmall r hr, add_zero]
    · rw [hall, hbig, if_neg (by omega), if_neg (by omega)]; ring
  · have ho : off I.nb I.ni bv iv i = 0 := if_neg hd
    have hall : ∀ r', dense jcO irO prO r' i =
        ∑ k ∈ range (jc (i + 1) - jc i), (if ir (jc i + k) + 2 * I.nb + 2 * I.ni = r' then pr (jc i + k) else 0) := by
      intro r'
      unfold dense
      rw [hs, ho, Nat.add_zero, sum_shift, ← huser r', ho]
      simp only [Nat.add_zero]
    refine ⟨fun hr _ => ?_, fun _ hd' => absurd hd' hd, ?_⟩
    · rw [hall, hsmall r hr]
    · rw [hall, hbig]

theorem dense_col (hin : InOk I jc ir pr hu bv iv) {irO : Nat → Nat} {prO : Nat → ℝ} {i : Nat} (hi : i < I.n)
    (h : ColOk I jc ir pr bv iv (jcN I jc bv iv) irO prO i) (r : Nat) :
    (r < 2 * (I.nb + I.ni) → ¬ Decl I.nb I.ni bv iv i → dense (jcN I jc bv iv) irO prO r i = 0) ∧
    (r < 2 * (I.nb + I.ni) → Decl I.nb I.ni bv iv i → dense (jcN I jc bv iv) irO prO r i =
      (if 2 * rank I.nb I.ni bv iv i = r then -1 else 0) + (if 2 * rank I.nb I.ni bv iv i + 1 = r then 1 else 0)) ∧
    dense (jcN I jc bv iv) irO prO (2 * (I.nb + I.ni) + r) i = dense jc ir pr r i :=
  dense_col' (jcN_succ hin hi) h r

theorem rank_strict {nb ni : Nat} {bv iv : Nat → Nat} {i j : Nat} (hi : Decl nb ni bv iv i) (hij : i < j) :
    rank nb ni bv iv i < rank nb ni bv iv j := by
  have := rank_mono nb ni bv iv (show i + 1 ≤ j from hij)
  rw [rank_succ_decl _ _ _ _ hi] at this
  omega

theorem rank_inj {nb ni : Nat} {bv iv : Nat → Nat} {i j : Nat} (hi : Decl nb ni bv iv i) (hj : Decl nb ni bv iv j)
    (h : rank nb ni bv iv i = rank nb ni bv iv j) : i = j := by
  rcases lt_trichotomy i j with h1 | h1 | h1
  · have := rank_strict hi h1; omega
  · exact h1
  · have := rank_strict hj h1; omega

/-- C38, for arbitrary lists: setting up the mixed-integer solver runs without undefined behaviour, keeps
the user's rows and right-hand sides behind the bound rows, and gives every declared variable two bound
rows saying `-x ≤ .` and `x ≤ .`: those of the declared variables *in column order*. -/
theorem C38_augmented (hin : InOk I jc ir pr hu bv iv) :
    ∃ t jcO irO prO hO, socpToBB I = .ok t ∧ Holds t.jc (I.n + 1) jcO ∧
      HoldsOn t.ir (jc I.n + 2 * I.nb + 2 * I.ni) (fun q => q < jcO I.n) irO ∧
      HoldsOn t.pr (jc I.n + 2 * I.nb + 2 * I.ni) (fun q => q < jcO I.n) prO ∧
      HoldsOn t.h (I.m + 2 * I.nb + 2 * I.ni)
        (fun r => r < 2 * rank I.nb I.ni bv iv I.n ∨ 2 * (I.nb + I.ni) ≤ r) hO ∧
      (∀ i, i < I.n → Decl I.nb I.ni bv iv i → ∀ x,
        rowDot I.n jcO irO prO (2 * rank I.nb I.ni bv iv i) x = - x i ∧
        rowDot I.n jcO irO prO (2 * rank I.nb I.ni bv iv i + 1) x = x i) ∧
      (∀ r, r < I.m → hO (2 * (I.nb + I.ni) + r) = hu r ∧
        ∀ x, rowDot I.n jcO irO prO (2 * (I.nb + I.ni) + r) x = rowDot I.n jc ir pr r x) ∧
      (∀ i, i < I.n → HOk I bv iv hO i) := by
  obtain ⟨t, e, irO, prO, hO, h⟩ := (Ok.def _ _).mp (socpToBB_ok hin)
  refine ⟨t, _, irO, prO, hO, e, h.hjc, h.hir, h.hpr, h.hh, fun i hi hd x => ?_, fun r hr => ⟨h.user r hr, fun x => ?_⟩,
    h.rhs⟩
  · have hrk := rank_lt _ _ _ _ hd
    have hcol : ∀ r, r < 2 * (I.nb + I.ni) → ∀ j, j ∈ range I.n → j ≠ i →
        (r = 2 * rank I.nb I.ni bv iv i ∨ r = 2 * rank I.nb I.ni bv iv i + 1) →
        dense (jcN I jc bv iv) irO prO r j * x j = 0 := by
      intro r hr j hj hne hor
      have hj := mem_range.mp hj
      have H := dense_col hin hj (h.cols j hj) r
      by_cases hdj : Decl I.nb I.ni bv iv j
      · have hne' : rank I.nb I.ni bv iv j ≠ rank I.nb I.ni bv iv i := fun e => hne (rank_inj hdj hd e)
        rw [H.2.1 hr hdj, if_neg (by omega), if_neg (by omega)]; ring
      · rw [H.1 hr hdj]; ring
    constructor
    · unfold rowDot
      rw [sum_eq_single i (fun j hj hne => hcol _ (by omega) j hj hne (Or.inl rfl))
        (fun hn => absurd (mem_range.mpr hi) hn), (dense_col hin hi (h.cols i hi) _).2.1 (by omega) hd,
        if_pos rfl, if_neg (by omega)]
      ring
    · unfold rowDot
      rw [sum_eq_single i (fun j hj hne => hcol _ (by omega) j hj hne (Or.inr rfl))
        (fun hn => absurd (mem_range.mpr hi) hn), (dense_col hin hi (h.cols i hi) _).2.1 (by omega) hd,
        if_neg (by omega), if_pos rfl]
      ring
  · unfold rowDot
    refine sum_congr rfl fun j hj => ?_
    have hj := mem_range.mp hj
    rw [(dense_col hin hj (h.cols j hj) r).2.2]

/-- The declared lists are increasing and every boolean comes before every integer variable. -/
structure Sorted (nb ni : Nat) (bv iv : Nat → Nat) : Prop where
  bools : ∀ a b, a < b → b < nb → bv a < bv b
  ints : ∀ a b, a < b → b < ni → iv a < iv b
  sep : ∀ a b, a < nb → b < ni → bv a < iv b

theorem rank_bool {nb ni : Nat} {bv iv : Nat → Nat} (hs : Sorted nb ni bv iv) {k : Nat} (hk : k < nb) :
    rank nb ni bv iv (bv k) = k := by
  classical
  unfold rank
  have : (range (bv k)).filter (Decl nb ni bv iv) = (range k).image bv := by
    ext i
    rw [mem_filter, mem_range, mem_image]
    constructor
    · rintro ⟨hi, ⟨t, ht, e⟩ | ⟨t, ht, e⟩⟩
      · refine ⟨t, ?_, e⟩
        rw [mem_range]
        by_contra hcon
        rcases Nat.lt_or_ge k t with h1 | h1
        · have := hs.bools k t h1 ht; omega
        · have : t = k := by omega
          subst this; omega
      · have := hs.sep k t hk ht; omega
    · rintro ⟨t, ht, e⟩
      have ht := mem_range.mp ht
      exact ⟨e ▸ hs.bools t k ht hk, Or.inl ⟨t, by omega, e⟩⟩
  rw [this, card_image_of_injOn, card_range]
  intro a ha b hb hab
  have ha := mem_range.mp ha
  have hb := mem_range.mp hb
  rcases lt_trichotomy a b with h1 | h1 | h1
  · have := hs.bools a b h1 (by omega); omega
  · exact h1
  · have := hs.bools b a h1 (by omega); omega

theorem rank_int {nb ni : Nat} {bv iv : Nat → Nat} (hs : Sorted nb ni bv iv) {k : Nat} (hk : k < ni) :
    rank nb ni bv iv (iv k) = nb + k := by
  classical
  unfold rank
  have : (range (iv k)).filter (Decl nb ni bv iv) = (range nb).image bv ∪ (range k).image iv := by
    ext i
    rw [mem_filter, mem_range, mem_union, mem_image, mem_image]
    constructor
    · rintro ⟨hi, ⟨t, ht, e⟩ | ⟨t, ht, e⟩⟩
      · exact Or.inl ⟨t, mem_range.mpr ht, e⟩
      · refine Or.inr ⟨t, ?_, e⟩
        rw [mem_range]
        by_contra hcon
        rcases Nat.lt_or_ge k t with h1 | h1
        · have := hs.ints k t h1 ht; omega
        · have : t = k := by omega
          subst this; omega
    · rintro (⟨t, ht, e⟩ | ⟨t, ht, e⟩)
      · have ht := mem_range.mp ht
        exact ⟨e ▸ hs.sep t k ht hk, Or.inl ⟨t, ht, e⟩⟩
      · have ht := mem_range.mp ht
        exact ⟨e ▸ hs.ints t k ht hk, Or.inr ⟨t, by omega, e⟩⟩
  rw [this, card_union_of_disjoint, card_image_of_injOn, card_image_of_injOn, card_range, card_range]
  · intro a ha b hb hab
    have ha := mem_range.mp ha
    have hb := mem_range.mp hb
    rcases lt_trichotomy a b with h1 | h1 | h1
    · have := hs.ints a b h1 (by omega); omega
    · exact h1
    · have := hs.ints b a h1 (by omega); omega
  · intro a ha b hb hab
    have ha := mem_range.mp ha
    have hb := mem_range.mp hb
    rcases lt_trichotomy a b with h1 | h1 | h1
    · have := hs.bools a b h1 (by omega); omega
    · exact h1
    · have := hs.bools b a h1 (by omega); omega
  · rw [disjoint_left]
    intro i h1 h2
    obtain ⟨a, ha, e1⟩ := mem_image.mp h1
    obtain ⟨b, hb, e2⟩ := mem_image.mp h2
    have := hs.sep a b (mem_range.mp ha) (lt_trans (mem_range.mp hb) hk)
    omega

theorem ninf_div_fin (a : ℝ) : XR.ninf / XR.fin a = if a < 0 then XR.pinf else XR.ninf := rfl
theorem nan_div_fin (a : ℝ) : XR.nan / XR.fin a = XR.nan := rfl

variable {W J : Type} {P : Par XR W} {bb : St XR W J} {g : Gh XR}

/-- C38 for increasing lists with the booleans first (`_partial`: for other orders see
`C38_order_violated`): when a node's bounds are installed, the continuous problem consists of the user's
rows with the user's right-hand sides (in user units: stored value times row scaling), and of bound rows
that hold for a point exactly when it satisfies the bounds of that node on the declared variables. -/
theorem C38_node_bounds_partial (hin : InOk I jc ir pr hu bv iv) (hs : Sorted I.nb I.ni bv iv)
    (hP : P.nb = I.nb ∧ P.ni = I.ni ∧ P.n = I.n ∧ P.m = I.m + 2 * (I.nb + I.ni) ∧ P.bv = bv ∧ P.iv = iv)
    (e : Nat → ℝ) (hgeq : ∀ r, r < P.m → 0 < e r ∧ P.geq r = .fin (e r)) (hrep : Rep P bb g)
    {bids : Buf Int} {boff : Nat} {b : Nat → Int} {iids : Buf XR} {ioff : Nat} {i : Nat → XR}
    (hb : ∀ k, k < P.nb → rd bids (boff + k) = .ok (b k) ∧ (b k = -1 ∨ b k = 0 ∨ b k = 1))
    (hi : ∀ k, k < 2 * P.ni → rd iids (ioff + k) = .ok (i k)) :
    ∃ t jcO irO prO hO ew hf, socpToBB I = .ok t ∧ Holds t.jc (I.n + 1) jcO ∧
      Holds t.ir (jcO I.n) irO ∧ Holds t.pr (jcO I.n) prO ∧ Holds t.h P.m hO ∧
      (∀ r, r < I.m → hO (2 * (I.nb + I.ni) + r) = hu r ∧
        ∀ x, rowDot I.n jcO irO prO (2 * (I.nb + I.ni) + r) x = rowDot I.n jc ir pr r x) ∧
      setProb bb bids boff iids ioff = .ok { bb with ecos := ew } ∧ Holds ew.h P.m hf ∧
      (∀ r, 2 * (I.nb + I.ni) ≤ r → r < P.m → hf r = P.hu r) ∧
      (∀ x, (∀ r, r < 2 * (I.nb + I.ni) → ∃ q, hf r = .fin q ∧ rowDot I.n jcO irO prO r x ≤ q * e r) ↔
        InRelax P b i x) := by
  obtain ⟨t, jcO, irO, prO, hO, e1, h1, h2, h3, h4, h5, h6, h7⟩ := C38_augmented hin
  obtain ⟨p1, p2, p3, p4, p5, p6⟩ := hP
  obtain ⟨ew, hf, s1, s2, s3⟩ := setProb_ok hrep (fun k hk => (hb k hk).1) hi
  have hdb : ∀ k, k < I.nb → Decl I.nb I.ni bv iv (bv k) := fun k hk => Or.inl ⟨k, hk, rfl⟩
  have hdi : ∀ k, k < I.ni → Decl I.nb I.ni bv iv (iv k) := fun k hk => Or.inr ⟨k, hk, rfl⟩
  have hbn : ∀ k, k < I.nb → bv k < I.n := fun k hk => by
    have := hrep.bv_lt k (by omega); rw [p5, p3] at this; exact this
  have hin' : ∀ k, k < I.ni → iv k < I.n := fun k hk => by
    have := hrep.iv_lt k (by omega); rw [p6, p3] at this; exact this
  have hrn : rank I.nb I.ni bv iv I.n = I.nb + I.ni := by
    have hle := rank_le I.nb I.ni bv iv I.n
    rcases Nat.eq_zero_or_pos I.ni with h0 | h0
    · rcases Nat.eq_zero_or_pos I.nb with h0' | h0'
      · omega
      · have a1 := rank_strict (hdb (I.nb - 1) (by omega)) (hbn (I.nb - 1) (by omega))
        rw [rank_bool hs (by omega)] at a1
        omega
    · have a1 := rank_strict (hdi (I.ni - 1) (by omega)) (hin' (I.ni - 1) (by omega))
      rw [rank_int hs (by omega)] at a1
      omega
  have hjn : jcO I.n = jc I.n + 2 * I.nb + 2 * I.ni := by
    obtain ⟨t', e', f', g', k', h'⟩ := (Ok.def _ _).mp (socpToBB_ok hin)
    rw [e1] at e'; cases e'
    have := h1.unique h'.hjc (i := I.n) (by omega)
    rw [this, jcN, hrn]; omega
  refine ⟨t, jcO, irO, prO, hO, ew, hf, e1, h1, ?_, ?_, ?_, h6, s1, s2.hh, ?_, fun x => ?_⟩
  · rw [hjn] at h2 ⊢; exact h2.full (fun _ h => h)
  · rw [hjn] at h3 ⊢; exact h3.full (fun _ h => h)
  · rw [p4]
    have : I.m + 2 * (I.nb + I.ni) = I.m + 2 * I.nb + 2 * I.ni := by omega
    rw [this]
    exact h4.full (fun r _ => by rw [hrn]; omega)
  · intro r hr1 hr2
    exact s2.huser r (by omega) hr2
  · have hrow : ∀ k, k < I.nb → rowDot I.n jcO irO prO (2 * k) x = - x (bv k) ∧
        rowDot I.n jcO irO prO (2 * k + 1) x = x (bv k) := fun k hk => by
      have := h5 (bv k) (hbn k hk) (hdb k hk) x
      rw [rank_bool hs hk] at this; exact this
    have hrowi : ∀ k, k < I.ni → rowDot I.n jcO irO prO (2 * (k + I.nb)) x = - x (iv k) ∧
        rowDot I.n jcO irO prO (2 * (k + I.nb) + 1) x = x (iv k) := fun k hk => by
      have := h5 (iv k) (hin' k hk) (hdi k hk) x
      rw [rank_int hs hk, Nat.add_comm I.nb k] at this; exact this
    have hq : ∀ r (a : ℝ), r < P.m → hf r = .fin a / P.geq r → hf r = .fin (a / e r) ∧ a / e r * e r = a := by
      intro r a hr hh
      obtain ⟨hp, hg⟩ := hgeq r hr
      rw [hg, XR.fin_div hp.ne'] at hh
      exact ⟨hh, div_mul_cancel₀ _ hp.ne'⟩
    have key : ∀ k a c, k < I.nb + I.ni → rowsAre P hf k (.fin a) (.fin c) → ∀ y,
        rowDot I.n jcO irO prO (2 * k) x = - y → rowDot I.n jcO irO prO (2 * k + 1) x = y →
        (((∃ q, hf (2 * k) = .fin q ∧ rowDot I.n jcO irO prO (2 * k) x ≤ q * e (2 * k)) ∧
          (∃ q, hf (2 * k + 1) = .fin q ∧ rowDot I.n jcO irO prO (2 * k + 1) x ≤ q * e (2 * k + 1))) ↔
        (-a ≤ y ∧ y ≤ c)) := by
      intro k a c hk ha y hy1 hy2
      obtain ⟨q1, q2⟩ := hq _ _ (by omega) ha.1
      obtain ⟨q3, q4⟩ := hq _ _ (by omega) ha.2
      rw [q1, q3, hy1, hy2]
      constructor
      · rintro ⟨⟨q, e1, l1⟩, ⟨q', e2, l2⟩⟩
        rw [← XR.fin_inj.mp e1, q2] at l1
        rw [← XR.fin_inj.mp e2, q4] at l2
        exact ⟨by linarith, l2⟩
      · rintro ⟨l1, l2⟩
        exact ⟨⟨_, rfl, by rw [q2]; linarith⟩, ⟨_, rfl, by rw [q4]; exact l2⟩⟩
    have n1 : (-1 : XR) = .fin (-1) := rfl
    have n0 : (0 : XR) = .fin 0 := rfl
    have n1' : (1 : XR) = .fin 1 := rfl
    constructor
    · intro hall
      have hpair := fun k (hk : k < I.nb + I.ni) => And.intro (hall (2 * k) (by omega)) (hall (2 * k + 1) (by omega))
      constructor
      · intro j hj hbj
        rw [p5]
        have hr := s3.one j hj hbj
        rw [n1, n1'] at hr
        have := (key j _ _ (by omega) hr _ (hrow j (by omega)).1 (hrow j (by omega)).2).mp (hpair j (by omega))
        linarith [this.1, this.2]
      · intro j hj hbj
        rw [p5]
        have hr := s3.zero j hj hbj
        rw [n0] at hr
        have := (key j _ _ (by omega) hr _ (hrow j (by omega)).1 (hrow j (by omega)).2).mp (hpair j (by omega))
        linarith [this.1, this.2]
      · intro j hj hbj
        rw [p5]
        have hr := s3.star j hj hbj
        rw [n0, n1'] at hr
        have := (key j _ _ (by omega) hr _ (hrow j (by omega)).1 (hrow j (by omega)).2).mp (hpair j (by omega))
        exact ⟨by linarith [this.1], this.2⟩
      · intro j hj
        rw [p6]
        have hr := s3.int j hj
        obtain ⟨⟨q1, f1, -⟩, ⟨q2, f2, -⟩⟩ := hpair (j + I.nb) (by omega)
        rw [p1] at hr
        have g1 := hgeq (2 * (j + I.nb)) (by omega)
        have g2 := hgeq (2 * (j + I.nb) + 1) (by omega)
        have h1 := hr.1
        have h2 := hr.2
        rw [f1, g1.2] at h1
        rw [f2, g2.2] at h2
        obtain ⟨lo, hlo⟩ : ∃ lo, i (2 * j) = .fin lo := by
          cases hc : i (2 * j) with
          | fin r => exact ⟨r, rfl⟩
          | pinf => rw [hc, XR.pinf_div_fin, if_neg (not_lt.mpr g1.1.le)] at h1; cases h1
          | ninf => rw [hc, ninf_div_fin, if_neg (not_lt.mpr g1.1.le)] at h1; cases h1
          | nan => rw [hc, nan_div_fin] at h1; cases h1
        obtain ⟨hi', hhi⟩ : ∃ hi', i (2 * j + 1) = .fin hi' := by
          cases hc : i (2 * j + 1) with
          | fin r => exact ⟨r, rfl⟩
          | pinf => rw [hc, XR.pinf_div_fin, if_neg (not_lt.mpr g2.1.le)] at h2; cases h2
          | ninf => rw [hc, ninf_div_fin, if_neg (not_lt.mpr g2.1.le)] at h2; cases h2
          | nan => rw [hc, nan_div_fin] at h2; cases h2
        rw [hlo, hhi] at hr
        have := (key (j + I.nb) _ _ (by omega) hr _ (hrowi j (by omega)).1 (hrowi j (by omega)).2).mp
          (hpair (j + I.nb) (by omega))
        exact ⟨lo, hi', hlo, hhi, this.1, this.2⟩
    · intro hrel
      have hpair : ∀ k, k < I.nb + I.ni →
          (∃ q, hf (2 * k) = .fin q ∧ rowDot I.n jcO irO prO (2 * k) x ≤ q * e (2 * k)) ∧
          (∃ q, hf (2 * k + 1) = .fin q ∧ rowDot I.n jcO irO prO (2 * k + 1) x ≤ q * e (2 * k + 1)) := by
        intro k hk
        by_cases hkb : k < I.nb
        · rcases (hb k (by omega)).2 with hc | hc | hc
          · have hr := s3.star k (by omega) hc
            rw [n0, n1'] at hr
            have hv := hrel.star k (by omega) hc
            rw [p5] at hv
            exact (key k _ _ hk hr _ (hrow k hkb).1 (hrow k hkb).2).mpr ⟨by linarith [hv.1], hv.2⟩
          · have hr := s3.zero k (by omega) hc
            rw [n0] at hr
            have hv := hrel.zero k (by omega) hc
            rw [p5] at hv
            exact (key k _ _ hk hr _ (hrow k hkb).1 (hrow k hkb).2).mpr ⟨by linarith, by linarith⟩
          · have hr := s3.one k (by omega) hc
            rw [n1, n1'] at hr
            have hv := hrel.one k (by omega) hc
            rw [p5] at hv
            exact (key k _ _ hk hr _ (hrow k hkb).1 (hrow k hkb).2).mpr ⟨by linarith, by linarith⟩
        · have hk' : k - I.nb + I.nb = k := by omega
          have hr := s3.int (k - I.nb) (by omega)
          obtain ⟨lo, hi', q1, q2, q3, q4⟩ := hrel.int (k - I.nb) (by omega)
          rw [p6] at q3 q4
          rw [q1, q2, p1, hk'] at hr
          have hy := hrowi (k - I.nb) (by omega)
          rw [hk'] at hy
          exact (key k _ _ hk hr _ hy.1 hy.2).mpr ⟨q3, q4⟩
      intro r hr
      rcases Nat.even_or_odd' r with ⟨k, rfl | rfl⟩
      · exact (hpair k (by omega)).1
      · exact (hpair k (by omega)).2

end

/-! ### Lists in another order -/

/-- two variables without constraints, variable 1 boolean, variable 0 integer -/
def swapped : AugIn ℝ :=
  { nb := 1, bools := ofList [1], ni := 1, ints := ofList [0], n := 2, m := 0, gpr := ofList []
    gjc := ofList [0, 0, 0], gir := ofList [], h := ofList [] }

instance : Inhabited ℝ := ⟨0⟩

theorem swapped_ok : InOk swapped (fun _ => 0) (fun _ => 0) (fun _ => 0) (fun _ => 0) (fun _ => 1) (fun _ => 0) where
  csc := ⟨rfl, fun _ _ => le_refl _, fun k hk => absurd hk (by omega)⟩
  hjc := (ofList_holds [0, 0, 0]).congr (fun i hi => by
    have : i < 3 := by simpa using hi
    rcases i with _ | _ | _ | i <;> [rfl; rfl; rfl; omega])
  hir := (ofList_holds ([] : List Nat)).congr (fun i hi => absurd hi (by simp))
  hpr := (ofList_holds ([] : List ℝ)).congr (fun i hi => absurd hi (by simp))
  hh := (ofList_holds ([] : List ℝ)).congr (fun i hi => absurd hi (by simp))
  hb := (ofList_holds [1]).congr (fun i hi => by
    have : i = 0 := by simpa using hi
    subst this; rfl)
  hi := (ofList_holds [0]).congr (fun i hi => by
    have : i = 0 := by simpa using hi
    subst this; rfl)

/-- C38 fails when an integer variable precedes a boolean one: the rows 0 and 1, into which the bounds of
the first boolean (here variable 1) are written (`HRows`), constrain the integer variable 0; a point with
`x 1 = 7` meets rows 0 and 1 with right-hand sides 0 and 1 of a free boolean. -/
theorem C38_order_violated : ∃ t jcO irO prO, socpToBB swapped = .ok t ∧ Holds t.jc 3 jcO ∧
    Holds t.ir 4 irO ∧ Holds t.pr 4 prO ∧
    (∀ x, rowDot 2 jcO irO prO 0 x = - x 0 ∧ rowDot 2 jcO irO prO 1 x = x 0) ∧
    ∃ x : Nat → ℝ, (rowDot 2 jcO irO prO 0 x ≤ 0 ∧ rowDot 2 jcO irO prO 1 x ≤ 1) ∧ x 1 = 7 := by
  obtain ⟨t, e, irO, prO, hO, h⟩ := (Ok.def _ _).mp (socpToBB_ok swapped_ok)
  obtain ⟨t', jcO', irO', prO', hO', e1, h1, h2, h3, h4, h5, -⟩ := C38_augmented swapped_ok
  have d0 : Decl 1 1 (fun _ => 1) (fun _ => 0) 0 := Or.inr ⟨0, by omega, rfl⟩
  have d1 : Decl 1 1 (fun _ => 1) (fun _ => 0) 1 := Or.inl ⟨0, by omega, rfl⟩
  have r0 : rank 1 1 (fun _ => 1) (fun _ => 0) 0 = 0 := by simp [rank]
  have r1 : rank 1 1 (fun _ => 1) (fun _ => 0) 1 = 1 := by rw [rank_succ_decl _ _ _ _ d0, r0]
  have r2 : rank 1 1 (fun _ => 1) (fun _ => 0) 2 = 2 := by rw [rank_succ_decl _ _ _ _ d1, r1]
  have hjn : jcO' 2 = 4 := by
    rw [e] at e1; cases e1
    have := h1.unique h.hjc (i := 2) (by decide)
    rw [this]
    show 0 + 2 * rank 1 1 (fun _ => 1) (fun _ => 0) 2 = 4
    rw [r2]
  have hrow : ∀ x, rowDot 2 jcO' irO' prO' 0 x = - x 0 ∧ rowDot 2 jcO' irO' prO' 1 x = x 0 := by
    intro x
    have := h5 0 (by decide) d0 x
    change rowDot 2 jcO' irO' prO' (2 * rank 1 1 (fun _ => 1) (fun _ => 0) 0) x = _ ∧
      rowDot 2 jcO' irO' prO' (2 * rank 1 1 (fun _ => 1) (fun _ => 0) 0 + 1) x = _ at this
    rw [r0] at this
    exact this
  refine ⟨t', jcO', irO', prO', e1, h1, ?_, ?_, hrow, fun i => if i = 1 then 7 else 0, ?_, by simp⟩
  · exact HoldsOn.full h2 (fun i hi => by
      show i < jcO' 2
      rw [hjn]; exact hi)
  · exact HoldsOn.full h3 (fun i hi => by
      show i < jcO' 2
      rw [hjn]; exact hi)
  · rw [(hrow _).1, (hrow _).2]
    norm_num

/-! ### C39 -/

section
variable {W J : Type} {P : Par XR W} {bb : St XR W J} {hf : Nat → XR}

/-- C39 for problems without integer variables (`_partial`: with integer variables see
`C39_integer_vars_violated`): updating entry `idx` of `h` through the mixed-integer interface makes the
right-hand side of the user's `idx`-th inequality (in user units: stored value times row scaling) equal
to `v`, and changes nothing else. -/
theorem C39_update_h_partial (hE : EWF P bb.ecos hf) (hnb : bb.nb = P.nb) (hni : P.ni = 0) {idx : Nat}
    (hidx : 2 * (P.nb + P.ni) + idx < P.m) {e v : ℝ} (he : e ≠ 0) (hg : P.geq (2 * (P.nb + P.ni) + idx) = .fin e) :
    ∃ h' hf', updateDataEntryH bb idx (.fin v) = .ok { bb with ecos := { bb.ecos with h := h' } } ∧
      Holds h' P.m hf' ∧ (∃ q, hf' (2 * (P.nb + P.ni) + idx) = .fin q ∧ q * e = v) ∧
      (∀ r, r < P.m → r ≠ 2 * (P.nb + P.ni) + idx → hf' r = hf r) := by
  rw [hni, Nat.add_zero] at *
  unfold updateDataEntryH updH
  have hix : idx + 2 * bb.nb = 2 * P.nb + idx := by rw [hnb]; omega
  rw [hix, hE.hg.rd hidx, ok_bind_eq]
  obtain ⟨h', e1, e2⟩ := (Ok.def _ _).mp (hE.hh.wr hidx (.fin v / P.geq (2 * P.nb + idx)))
  rw [e1]
  refine ⟨h', _, rfl, e2, ⟨v / e, ?_, div_mul_cancel₀ _ he⟩, fun r _ hne => upd_ne _ _ hne⟩
  rw [upd_self, hg, XR.fin_div he]

/-- C39 fails as soon as there are integer variables: the entry that changes lies `2 * num_int_vars` rows
too high.  The user's inequality keeps its right-hand side, and another row is overwritten: a bound row of
an integer variable for `idx < 2 * num_int_vars`, another inequality of the user beyond. -/
theorem C39_integer_vars_violated (hE : EWF P bb.ecos hf) (hnb : bb.nb = P.nb) (hni : 0 < P.ni) {idx : Nat}
    (hidx : 2 * (P.nb + P.ni) + idx < P.m) (v : XR) :
    ∃ h' hf', updateDataEntryH bb idx v = .ok { bb with ecos := { bb.ecos with h := h' } } ∧
      Holds h' P.m hf' ∧ hf' (2 * (P.nb + P.ni) + idx) = hf (2 * (P.nb + P.ni) + idx) ∧
      hf' (2 * P.nb + idx) = v / P.geq (2 * P.nb + idx) := by
  unfold updateDataEntryH updH
  have hix : idx + 2 * bb.nb = 2 * P.nb + idx := by rw [hnb]; omega
  have hlt : 2 * P.nb + idx < P.m := by omega
  rw [hix, hE.hg.rd hlt, ok_bind_eq]
  obtain ⟨h', e1, e2⟩ := (Ok.def _ _).mp (hE.hh.wr hlt (v / P.geq (2 * P.nb + idx)))
  rw [e1]
  refine ⟨h', _, rfl, e2, ?_, upd_self _ _ _⟩
  rw [upd_ne _ _ (by omega)]

end
end BB
end Ecos
