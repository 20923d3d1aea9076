import Verif.Lemmas.BBX
import Mathlib.Algebra.Order.BigOperators.Ring.Finset
import Mathlib.Tactic.Positivity

/-! # Size of the search tree: every split divides the integer points of a node's box -/
set_option linter.all false

namespace Ecos
namespace BB
open Finset

variable {W I : Type} {P : Par XR W} {env : Env XR W I}

/-- `x` is at distance at least `tol` from every integer -/
def Away (tol x : ℝ) : Prop := ∀ k : Int, tol ≤ |x - k|

theorem Away.between {tol x : ℝ} (h : Away tol x) : (⌊x⌋ : ℝ) + tol ≤ x ∧ x ≤ ⌊x⌋ + 1 - tol := by
  have h1 := h ⌊x⌋
  have h2 := h (⌊x⌋ + 1)
  have h3 := Int.floor_le x
  have h4 := Int.lt_floor_add_one x
  rw [abs_of_nonneg (by linarith)] at h1
  push_cast at h2
  rw [abs_of_nonpos (by linarith)] at h2
  constructor <;> linarith

theorem away_of {tol x : ℝ} {n : Int} (h1 : (n : ℝ) + tol ≤ x) (h2 : x ≤ n + 1 - tol) : Away tol x := by
  intro k
  rcases le_or_gt k n with h | h
  · have : (k : ℝ) ≤ n := by exact_mod_cast h
    exact le_trans (by linarith) (le_abs_self _)
  · have : (n : ℝ) + 1 ≤ k := by exact_mod_cast h
    exact le_trans (by linarith) (neg_le_abs _)

theorem Away.floors {tol x : ℝ} (h : Away tol x) (h0 : 0 < tol) (h1 : tol < 1) :
    rFloor x tol = ⌊x⌋ ∧ rCeil x tol = ⌊x⌋ + 1 := by
  have hne : ∀ k : Int, x ≠ k := fun k hk => by have := h k; rw [hk, sub_self, abs_zero] at this; linarith
  refine ⟨rFloor_eq h0.le h1 h hne, ?_⟩
  rw [rCeil_eq h0.le h1 h hne, Int.ceil_eq_iff]
  have := h.between
  push_cast
  constructor <;> linarith

theorem isIntegral_away {tol : ℝ} (h0 : 0 < tol) (h1 : tol ≤ 1 / 2) {x : ℝ}
    (h : isIntegral (XR.fin tol) (XR.fin x) = .ok false) : Away tol x := by
  unfold isIntegral at h
  obtain ⟨fl, h2, h⟩ := bind_ok_inv h
  obtain ⟨x', e, rfl⟩ := pfFloor_inv h0.le (by linarith) h2
  cases e
  rw [floatEqls_xr] at h
  by_cases c1 : |x - (rFloor x tol : ℝ)| < tol
  · simp [c1] at h
    cases h
  · simp only [c1, decide_false, Bool.false_eq_true, if_false] at h
    obtain ⟨ce, h3, h⟩ := bind_ok_inv h
    obtain ⟨x', e, rfl⟩ := pfCeil_inv h0.le (by linarith) h3
    cases e
    rw [floatEqls_xr] at h
    have c2 : ¬ |x - (rCeil x tol : ℝ)| < tol := by
      intro c; simp [c] at h; cases h
    push Not at c1 c2
    unfold rFloor at c1
    unfold rCeil at c2
    by_cases hx : x < 0
    · rw [if_pos hx] at c1 c2
      have a1 := Int.le_ceil x
      have a2 := Int.ceil_lt_add_one x
      rw [abs_of_nonpos (by linarith)] at c2
      have hc : ⌈x - (1 - tol)⌉ = ⌈x⌉ - 1 := by
        rw [Int.ceil_eq_iff]; push_cast; constructor <;> linarith
      rw [hc] at c1
      push_cast at c1
      rw [abs_of_nonneg (by linarith)] at c1
      exact away_of (n := ⌈x⌉ - 1) (by push_cast; linarith) (by push_cast; linarith)
    · rw [if_neg hx] at c1 c2
      have a1 := Int.floor_le x
      have a2 := Int.lt_floor_add_one x
      rw [abs_of_nonneg (by linarith)] at c1
      have hc : ⌊x + (1 - tol)⌋ = ⌊x⌋ + 1 := by
        rw [Int.floor_eq_iff]; push_cast; constructor <;> linarith
      rw [hc] at c2
      push_cast at c2
      rw [abs_of_nonpos (by linarith)] at c2
      exact away_of (n := ⌊x⌋) (by linarith) (by linarith)

theorem vr_lt {i : Nat} (hb : ∀ i, i < P.nb → P.bv i < P.n) (hv : ∀ i, i < P.ni → P.iv i < P.n) (hi : i < P.nb + P.ni) :
    vr P i < P.n := by
  unfold vr; split
  · exact hb _ (by assumption)
  · exact hv _ (by omega)

theorem NonInt.away {tol : ℝ} (ht : P.stgs.intTol = .fin tol) {xf : Nat → XR} {x : Nat → ℝ}
    (hx : ∀ k, k < P.n → xf k = .fin (x k)) (hb : ∀ i, i < P.nb → P.bv i < P.n) (hv : ∀ i, i < P.ni → P.iv i < P.n)
    (h : NonInt P xf) : ∃ j, j < P.nb + P.ni ∧ Away tol (x (vr P j)) := by
  have key : ∀ {y r : XR} {z : ℝ}, pfRound y = .ok r → y = .fin z → floatEqls y r P.stgs.intTol = false → Away tol z := by
    intro y r z h1 h2 h3 k
    obtain ⟨x', e, rfl⟩ := pfRound_inv h1
    rw [h2] at e; cases e
    rw [h2, ht, floatEqls_xr] at h3
    simp only [decide_eq_false_iff_not, not_lt] at h3
    refine h3.trans ?_
    rw [abs_sub_comm, abs_sub_comm z]
    exact rRound_nearest z k
  rcases h with ⟨i, hi, r, k, h1, h2, h3⟩ | ⟨i, hi, r, h1, h3⟩
  · refine ⟨i, by omega, ?_⟩
    unfold vr; rw [if_pos hi]
    have e := hx _ (hb i hi)
    obtain ⟨x', e', rfl⟩ := pfRound_inv h1
    have hk := castChar_inv rfl h2
    refine key h1 e ?_
    rw [hk] at h3; exact h3
  · refine ⟨i + P.nb, by omega, ?_⟩
    unfold vr; rw [if_neg (by omega), Nat.add_sub_cancel]
    exact key h1 (hx _ (hv i hi)) h3

theorem abs2_fin (x : ℝ) : abs2 (XR.fin x) = XR.fin |x| := by
  unfold abs2
  rw [XR.zero_def, XR.lt_fin]
  split
  · next h =>
    simp only [decide_eq_true_eq] at h
    rw [XR.fin_neg, abs_of_neg h]
  · next h =>
    simp only [decide_eq_true_eq, not_lt] at h
    rw [abs_of_nonneg h]

theorem ambF_fin {tol : ℝ} (h0 : 0 < tol) (h1 : tol < 1) (ht : P.stgs.intTol = .fin tol) {i : Nat} {y : ℝ} {a : XR}
    (h : ambF P i (.fin y) = .ok a) :
    ∃ n : Int, a = .fin |y - n - 1 / 2| ∧ (i < P.nb → n = 0) ∧ (P.nb ≤ i → n = rFloor y tol) := by
  unfold ambF at h
  split at h
  · next hi =>
    cases h
    rw [XR.fin_sci, XR.fin_sub, abs2_fin]
    exact ⟨0, by norm_num, fun _ => rfl, fun h => by omega⟩
  · next hi =>
    obtain ⟨fl, h2, h⟩ := bind_ok_inv h
    rw [ht] at h2
    obtain ⟨x', e, rfl⟩ := pfFloor_inv h0.le h1 h2
    cases e
    cases h
    rw [XR.fin_sci, XR.fin_sub, XR.fin_sub, abs2_fin]
    exact ⟨rFloor y tol, by norm_num, fun h => by omega, fun _ => rfl⟩

/-- the chosen candidate is not integral -/
theorem chosen_away {tol : ℝ} (h0 : 0 < tol) (h1 : tol < 1 / 2) (ht : P.stgs.intTol = .fin tol) {xf : Nat → XR} {x : Nat → ℝ}
    (hx : ∀ k, k < P.n → xf k = .fin (x k)) (hb : ∀ i, i < P.nb → P.bv i < P.n) (hv : ∀ i, i < P.ni → P.iv i < P.n)
    (hbox : ∀ j, j < P.nb → Away tol (x (P.bv j)) → 0 ≤ x (P.bv j) ∧ x (P.bv j) ≤ 1)
    (hN : NonInt P xf) {si : Int} {sv : XR} (hS : SplitBy P xf si sv) :
    ∃ i, i < P.nb + P.ni ∧ si = (i : Int) ∧ sv = .fin (x (vr P i)) ∧ Away tol (x (vr P i)) := by
  obtain ⟨j, hj, hA⟩ := hN.away ht hx hb hv
  have hxv : ∀ {i}, i < P.nb + P.ni → xf (vr P i) = .fin (x (vr P i)) := fun hi => hx _ (vr_lt hb hv hi)
  -- ambiguity of a non-integral candidate
  have hamb : ∀ {a}, ambF P j (xf (vr P j)) = .ok a → ∃ r, a = .fin r ∧ r ≤ 1 / 2 - tol := by
    intro a ha
    rw [hxv hj] at ha
    obtain ⟨n, rfl, n1, n2⟩ := ambF_fin h0 (by linarith) ht ha
    refine ⟨_, rfl, ?_⟩
    have hbt := hA.between
    have hn : n = ⌊x (vr P j)⌋ := by
      by_cases hjb : j < P.nb
      · rw [n1 hjb]
        have hvr : vr P j = P.bv j := by unfold vr; rw [if_pos hjb]
        rw [hvr] at hA hbt ⊢
        obtain ⟨b1, b2⟩ := hbox j hjb hA
        symm
        rw [Int.floor_eq_iff]
        refine ⟨by simpa using b1, ?_⟩
        rcases lt_or_eq_of_le b2 with h | h
        · simpa using h
        · have := hA 1
          rw [h] at this
          simp at this; linarith
      · rw [n2 (by omega)]; exact (hA.floors h0 (by linarith)).1
    rw [hn, abs_le]
    constructor <;> linarith
  rcases hS with ⟨-, h | h⟩ | ⟨-, h | h⟩ | ⟨-, h⟩
  · obtain ⟨i, a, hi, e1, e2, ha, hmin⟩ := h
    refine ⟨i, hi, e1, by rw [e2, hxv hi], ?_⟩
    obtain ⟨a', ha', hlt⟩ := hmin j hj
    obtain ⟨r, rfl, hr⟩ := hamb ha'
    rw [hxv hi] at ha
    obtain ⟨n, rfl, -, -⟩ := ambF_fin h0 (by linarith) ht ha
    rw [XR.lt_fin] at hlt
    simp only [decide_eq_false_iff_not, not_lt] at hlt
    have := hlt.trans hr
    rw [abs_le] at this
    exact away_of (n := n) (by linarith) (by linarith)
  · exfalso
    obtain ⟨a', ha', hlt⟩ := h j hj
    obtain ⟨r, rfl, hr⟩ := hamb ha'
    rw [XR.one_def, XR.lt_fin] at hlt
    simp only [decide_eq_false_iff_not, not_lt] at hlt
    linarith
  · obtain ⟨i, hi, e1, e2, e3⟩ := h
    refine ⟨i, hi, e1, by rw [e2, hxv hi], ?_⟩
    rw [hxv hi, ht] at e3
    exact isIntegral_away h0 h1.le e3
  · exfalso
    rcases h j hj with h | ⟨a, b, h⟩
    · rw [hxv hj, ht] at h
      unfold isIntegral at h
      obtain ⟨fl, h2, h⟩ := bind_ok_inv h
      obtain ⟨k, rfl⟩ := isInt_pf (Or.inl h2)
      have hne : ∀ k : Int, floatEqls (XR.fin (x (vr P j))) (XR.fin (k : ℝ)) (XR.fin tol) = false := fun k => by
        rw [floatEqls_xr]; simp only [decide_eq_false_iff_not, not_lt]; exact hA k
      rw [hne] at h
      simp only [Bool.false_eq_true, if_false] at h
      obtain ⟨ce, h3, h⟩ := bind_ok_inv h
      obtain ⟨k, rfl⟩ := isInt_pf (Or.inr h3)
      rw [hne] at h
      cases h
    · rw [score_xr] at h; simp at h
  · obtain ⟨i, hi, e1, e2, e3⟩ := h
    refine ⟨i, hi, e1, by rw [e2, hxv hi], ?_⟩
    rw [hxv hi, ht] at e3
    exact isIntegral_away h0 h1.le e3

/-- number of integer points of a box: `b j = -1` is a free boolean, integers range over `lo j .. hi j` -/
def vol (nb ni : Nat) (b : Nat → Int) (lo hi : Nat → Int) : Nat :=
  (∏ j ∈ range nb, if b j = -1 then 2 else 1) * ∏ j ∈ range ni, (hi j - lo j + 1).toNat

theorem vol_pos {nb ni : Nat} {b lo hi : Nat → Int} (h : ∀ j, j < ni → lo j ≤ hi j) : 1 ≤ vol nb ni b lo hi := by
  refine Nat.one_le_iff_ne_zero.mpr (Nat.mul_ne_zero ?_ ?_)
  · exact prod_ne_zero_iff.mpr fun j _ => by split <;> omega
  · exact prod_ne_zero_iff.mpr fun j hj => by have := h j (mem_range.mp hj); omega

theorem vol_congr {nb ni : Nat} {b b' lo lo' hi hi' : Nat → Int} (h1 : ∀ j, j < nb → b j = b' j)
    (h2 : ∀ j, j < ni → lo j = lo' j) (h3 : ∀ j, j < ni → hi j = hi' j) : vol nb ni b lo hi = vol nb ni b' lo' hi' := by
  unfold vol
  congr 1
  · exact prod_congr rfl fun j hj => by rw [h1 j (mem_range.mp hj)]
  · exact prod_congr rfl fun j hj => by rw [h2 j (mem_range.mp hj), h3 j (mem_range.mp hj)]

theorem vol_bool {nb ni : Nat} {b lo hi : Nat → Int} {j : Nat} (hj : j < nb) (hb : b j = -1) :
    vol nb ni (upd b j 0) lo hi + vol nb ni (upd b j 1) lo hi = vol nb ni b lo hi := by
  unfold vol
  have hm := mem_range.mpr hj
  have key : ∀ b' : Nat → Int, (∀ i, i ≠ j → b' i = b i) → (∏ i ∈ range nb, if b' i = -1 then 2 else 1) =
      (if b' j = -1 then 2 else 1) * ∏ i ∈ (range nb).erase j, if b i = -1 then 2 else 1 := fun b' h => by
    rw [← mul_prod_erase _ _ hm]
    congr 1
    exact prod_congr rfl fun i hi => by rw [h i (ne_of_mem_erase hi)]
  rw [key (upd b j 0) (fun i hi => upd_ne _ _ hi), key (upd b j 1) (fun i hi => upd_ne _ _ hi), key b (fun _ _ => rfl), hb,
    upd_self, upd_self]
  simp only [if_true]
  norm_num
  ring

theorem vol_int {nb ni : Nat} {b lo hi : Nat → Int} {j : Nat} (hj : j < ni) {t : Int} (h1 : lo j ≤ t) (h2 : t + 1 ≤ hi j) :
    vol nb ni b lo (upd hi j t) + vol nb ni b (upd lo j (t + 1)) hi = vol nb ni b lo hi := by
  unfold vol
  have hm := mem_range.mpr hj
  have key : ∀ lo' hi' : Nat → Int, (∀ i, i ≠ j → lo' i = lo i) → (∀ i, i ≠ j → hi' i = hi i) →
      (∏ i ∈ range ni, (hi' i - lo' i + 1).toNat) =
      (hi' j - lo' j + 1).toNat * ∏ i ∈ (range ni).erase j, (hi i - lo i + 1).toNat := fun lo' hi' h h' => by
    rw [← mul_prod_erase _ _ hm]
    congr 1
    exact prod_congr rfl fun i hi => by rw [h i (ne_of_mem_erase hi), h' i (ne_of_mem_erase hi)]
  rw [key lo (upd hi j t) (fun _ _ => rfl) (fun i hi => upd_ne _ _ hi),
    key (upd lo j (t + 1)) hi (fun i hi => upd_ne _ _ hi) (fun _ _ => rfl), key lo hi (fun _ _ => rfl) (fun _ _ => rfl),
    upd_self, upd_self]
  have : (t - lo j + 1).toNat + (hi j - (t + 1) + 1).toNat = (hi j - lo j + 1).toNat := by omega
  rw [← this]; ring

theorem vol_mono {nb ni : Nat} {b b' lo lo' hi hi' : Nat → Int} (h1 : ∀ j, j < nb → b' j = -1 → b j = -1)
    (h2 : ∀ j, j < ni → lo j ≤ lo' j) (h3 : ∀ j, j < ni → hi' j ≤ hi j) : vol nb ni b' lo' hi' ≤ vol nb ni b lo hi := by
  unfold vol
  refine Nat.mul_le_mul (prod_le_prod' fun j hj => ?_) (prod_le_prod' fun j hj => ?_)
  · have := h1 j (mem_range.mp hj)
    split
    · next h => rw [if_pos (this h)]
    · split <;> omega
  · have := h2 j (mem_range.mp hj)
    have := h3 j (mem_range.mp hj)
    omega

/-- integer points of a box that lie between `a` and `b` -/
def cvol (P : Par XR W) (a b : Nat → Int) (bf lo hi : Nat → Int) : Nat :=
  vol P.nb P.ni bf (fun j => max (lo j) (a j)) (fun j => min (hi j) (b j))

/-- Share of node `c` in the integer points: its box has bounds `lo`, `hi`; if its split is chosen (`d`), its share is enough for both
children, even if one of them is empty. -/
structure NodeFit (P : Par XR W) (tol : ℝ) (a b : Nat → Int) (g : Gh XR) (c : Nat) (d : Prop) (lo hi : Nat → Int) (w : Nat) : Prop where
  row : ∀ j, j < P.ni → g.irow P c (2 * j) = .fin (-(lo j : ℝ)) ∧ g.irow P c (2 * j + 1) = .fin (hi j : ℝ) ∧
    -8388608 ≤ lo j ∧ hi j ≤ 8388608
  one : 1 ≤ w
  box : cvol P a b (g.brow P c) lo hi ≤ w
  split : d →
    (∃ j, j < P.nb ∧ (g.node c).splitIdx = (j : Int) ∧
      max 1 (cvol P a b (upd (g.brow P c) j 0) lo hi) + max 1 (cvol P a b (upd (g.brow P c) j 1) lo hi) ≤ w) ∨
    (∃ j y, j < P.ni ∧ (g.node c).splitIdx = ((P.nb + j : Nat) : Int) ∧ (g.node c).splitVal = .fin y ∧ Away tol y ∧
      -8388608 ≤ ⌊y⌋ ∧ ⌊y⌋ ≤ 8388608 ∧
      max 1 (cvol P a b (g.brow P c) lo (upd hi j ⌊y⌋)) + max 1 (cvol P a b (g.brow P c) (upd lo j (⌊y⌋ + 1)) hi) ≤ w)

/-- The shares of the nodes are at most `points P a b` together. -/
def TreeOk (P : Par XR W) (tol : ℝ) (a b : Nat → Int) (k : Nat) (g : Gh XR) (D : Nat → Prop) : Prop :=
  ∃ (lo hi : Nat → Nat → Int) (w : Nat → Nat), (∀ c, c ≤ k → NodeFit P tol a b g c (D c) (lo c) (hi c) (w c)) ∧
    ∑ c ∈ range (k + 1), w c ≤ points P a b

theorem TreeOk.count {tol : ℝ} {a b : Nat → Int} {k : Nat} {g : Gh XR} {D : Nat → Prop} (h : TreeOk P tol a b k g D) :
    k + 1 ≤ points P a b := by
  obtain ⟨lo, hi, w, h1, h2⟩ := h
  refine le_trans ?_ h2
  calc k + 1 = ∑ c ∈ range (k + 1), 1 := by simp
    _ ≤ _ := sum_le_sum fun c hc => (h1 c (by have := mem_range.mp hc; omega)).one

theorem sum_two {k c : Nat} (hc : c ≤ k) (f f' : Nat → Nat) (h : ∀ d, d ≤ k → d ≠ c → f' d = f d)
    (h2 : f' c + f' (k + 1) ≤ f c) : ∑ d ∈ range (k + 2), f' d ≤ ∑ d ∈ range (k + 1), f d := by
  rw [sum_range_succ]
  have hm : c ∈ range (k + 1) := mem_range.mpr (by omega)
  rw [← add_sum_erase _ f' hm, ← add_sum_erase _ f hm,
    sum_congr rfl (fun d hd => h d (by have := mem_range.mp (mem_of_mem_erase hd); omega) (ne_of_mem_erase hd))]
  linarith

section
variable {tol ε : ℝ} {c0 : Nat → ℝ} {a b : Nat → Int}

theorem cvol_congr {bf bf' lo hi : Nat → Int} (h : ∀ j, j < P.nb → bf j = bf' j) : cvol P a b bf lo hi = cvol P a b bf' lo hi :=
  vol_congr h (fun _ _ => rfl) (fun _ _ => rfl)

theorem NodeFit.congr {g g' : Gh XR} {c : Nat} {d d' : Prop} {lo hi : Nat → Int} {w : Nat} (h : NodeFit P tol a b g c d lo hi w)
    (hb : ∀ j, j < P.nb → g'.brow P c j = g.brow P c j) (hi' : ∀ j, j < 2 * P.ni → g'.irow P c j = g.irow P c j)
    (hd : d' → d) (hn : d' → g'.node c = g.node c) : NodeFit P tol a b g' c d' lo hi w where
  row := fun j hj => by rw [hi' _ (by omega), hi' _ (by omega)]; exact h.row j hj
  one := h.one
  box := by rw [cvol_congr hb]; exact h.box
  split := fun hd' => by
    rw [hn hd']
    have hu : ∀ j v t, t < P.nb → upd (g'.brow P c) j v t = upd (g.brow P c) j v t := fun j v t ht => by
      unfold upd; split
      · rfl
      · exact hb t ht
    rcases h.split (hd hd') with ⟨j, hj, e, q⟩ | ⟨j, y, hj, e, e1, e2, e3, e4, q⟩
    · refine Or.inl ⟨j, hj, e, ?_⟩
      rw [cvol_congr (hu j 0), cvol_congr (hu j 1)]; exact q
    · refine Or.inr ⟨j, y, hj, e, e1, e2, e3, e4, ?_⟩
      rw [cvol_congr hb, cvol_congr hb]; exact q

theorem treeOk_root (hab : ∀ j, j < P.ni → -8388608 ≤ a j ∧ a j ≤ b j ∧ b j ≤ 8388608) {g : Gh XR}
    (hb : ∀ i, i < P.nb → g.brow P 0 i = MI_STAR) (hi : ∀ i, i < 2 * P.ni → g.irow P 0 i = ((MAX_FLOAT_INT : Int) : XR)) :
    TreeOk P tol a b 0 g (fun _ => False) := by
  have hv : cvol P a b (g.brow P 0) (fun _ => -8388608) (fun _ => 8388608) = points P a b := by
    unfold cvol
    rw [vol_congr (b' := fun _ => -1) (lo' := a) (hi' := b) (fun j hj => hb j hj)
      (fun j hj => by have := hab j hj; beta_reduce; omega) (fun j hj => by have := hab j hj; beta_reduce; omega)]
    unfold vol points
    simp
  refine ⟨fun _ _ => -8388608, fun _ _ => 8388608, fun _ => points P a b, fun c hc => ⟨fun j hj => ?_, ?_, ?_, fun h => h.elim⟩, ?_⟩
  · obtain rfl : c = 0 := by omega
    have e : ((MAX_FLOAT_INT : Int) : XR) = .fin 8388608 := by
      show XR.fin ((MAX_FLOAT_INT : Int) : ℝ) = _
      norm_num [MAX_FLOAT_INT]
    rw [hi _ (by omega), hi _ (by omega), e]
    exact ⟨by norm_num, by norm_num, by norm_num, by norm_num⟩
  · rw [← hv]
    exact vol_pos fun j hj => by have := hab j hj; beta_reduce; omega
  · obtain rfl : c = 0 := by omega
    exact hv.le
  · simp

theorem treeOk_congr {k : Nat} {g g' : Gh XR} {D : Nat → Prop} (h : TreeOk P tol a b k g D)
    (hb : ∀ c j, c ≤ k → j < P.nb → g'.brow P c j = g.brow P c j)
    (hi : ∀ c j, c ≤ k → j < 2 * P.ni → g'.irow P c j = g.irow P c j)
    (hn : ∀ c, c ≤ k → D c → g'.node c = g.node c) : TreeOk P tol a b k g' D := by
  obtain ⟨lo, hi', w, h1, h2⟩ := h
  exact ⟨lo, hi', w, fun c hc => (h1 c hc).congr (fun j hj => hb c j hc hj) (fun j hj => hi c j hc hj) id (hn c hc), h2⟩

theorem treeOk_split (ht0 : 0 < tol) (h2 : tol < 1 / 2) (ht : P.stgs.intTol = .fin tol)
    {k c : Nat} {g g' : Gh XR} {D : Nat → Prop} (h : TreeOk P tol a b k g D) (hc : c ≤ k) (hDc : D c)
    (hC : Children P c (k + 1) g g')
    (hob : ∀ d j, d ≤ k → d ≠ c → j < P.nb → g'.brow P d j = g.brow P d j)
    (hoi : ∀ d j, d ≤ k → d ≠ c → j < 2 * P.ni → g'.irow P d j = g.irow P d j)
    (hon : ∀ d, d ≤ k → d ≠ c → g'.node d = g.node d) :
    TreeOk P tol a b (k + 1) g' (fun d => D d ∧ d ≠ c ∧ d ≠ k + 1) := by
  obtain ⟨lo, hi, w, hfit, hsum⟩ := h
  have hf := hfit c hc
  have hck : c ≠ k + 1 := by omega
  -- the shares of the children and their boxes
  obtain ⟨lA, hA, lB, hB, wA, wB, hw, fA, fB⟩ : ∃ lA hA lB hB wA wB, wA + wB ≤ w c ∧
      NodeFit P tol a b g' c False lA hA wA ∧ NodeFit P tol a b g' (k + 1) False lB hB wB := by
    rcases hC with ⟨j, hj, hs, p1, p2, p3, p4⟩ | ⟨j, fl, ce, hj, hs, hfl, hce, p1, p2, p3, p4⟩
    · rcases hf.split hDc with ⟨j', hj', e, q⟩ | ⟨j', y, hj', e, -⟩
      · obtain rfl : j = j' := by omega
        refine ⟨lo c, hi c, lo c, hi c, _, _, q, ⟨fun s hs' => ?_, le_max_left _ _, ?_, fun h => h.elim⟩,
          ⟨fun s hs' => ?_, le_max_left _ _, ?_, fun h => h.elim⟩⟩
        · rw [p2 _ (by omega), p2 _ (by omega)]; exact hf.row s hs'
        · rw [cvol_congr p1]; exact le_max_right _ _
        · rw [p4 _ (by omega), p4 _ (by omega)]; exact hf.row s hs'
        · rw [cvol_congr p3]; exact le_max_right _ _
      · omega
    · rcases hf.split hDc with ⟨j', hj', e, q⟩ | ⟨j', y, hj', e, e1, hAw, e3, e4, q⟩
      · omega
      · obtain rfl : j = j' := by omega
        obtain ⟨f1, f2⟩ := hAw.floors ht0 (by linarith)
        rw [e1, ht] at hfl hce
        obtain ⟨y', hy, rfl⟩ := pfFloor_inv ht0.le (by linarith) hfl
        cases hy
        obtain ⟨y', hy, rfl⟩ := pfCeil_inv ht0.le (by linarith) hce
        cases hy
        rw [f1] at p2
        rw [f2] at p4
        generalize ⌊y⌋ = t at *
        refine ⟨lo c, upd (hi c) j t, upd (lo c) j (t + 1), hi c, _, _, q, ⟨fun s hs' => ?_, le_max_left _ _, ?_, fun h => h.elim⟩,
          ⟨fun s hs' => ?_, le_max_left _ _, ?_, fun h => h.elim⟩⟩
        · rw [p2 _ (by omega), p2 _ (by omega), upd_ne _ _ (show 2 * s ≠ 2 * j + 1 by omega)]
          obtain ⟨q1, q2, q3, q4⟩ := hf.row s hs'
          by_cases hsj : s = j
          · subst hsj
            rw [upd_self, upd_self]
            exact ⟨q1, rfl, q3, e4⟩
          · rw [upd_ne _ _ (show 2 * s + 1 ≠ 2 * j + 1 by omega), upd_ne _ _ hsj]
            exact ⟨q1, q2, q3, q4⟩
        · rw [cvol_congr p1]; exact le_max_right _ _
        · rw [p4 _ (by omega), p4 _ (by omega), upd_ne _ _ (show 2 * s + 1 ≠ 2 * j by omega)]
          obtain ⟨q1, q2, q3, q4⟩ := hf.row s hs'
          by_cases hsj : s = j
          · subst hsj
            rw [upd_self, upd_self, XR.fin_neg]
            exact ⟨by push_cast; rfl, q2, by omega, q4⟩
          · rw [upd_ne _ _ (show 2 * s ≠ 2 * j by omega), upd_ne _ _ hsj]
            exact ⟨q1, q2, q3, q4⟩
        · rw [cvol_congr p3]; exact le_max_right _ _
  refine ⟨fun d => if d = k + 1 then lB else if d = c then lA else lo d, fun d => if d = k + 1 then hB else if d = c then hA else hi d,
    fun d => if d = k + 1 then wB else if d = c then wA else w d, fun d hd => ?_, (sum_two hc w _ (fun d hd hdc => ?_) ?_).trans hsum⟩
  · by_cases h1 : d = k + 1
    · subst h1
      simp only [if_true]
      exact fB.congr (fun _ _ => rfl) (fun _ _ => rfl) (fun h => h.2.2 rfl) (fun _ => rfl)
    · by_cases h2 : d = c
      · subst h2
        simp only [hck, if_false, if_true]
        exact fA.congr (fun _ _ => rfl) (fun _ _ => rfl) (fun h => h.2.1 rfl) (fun _ => rfl)
      · simp only [h1, h2, if_false]
        exact (hfit d (by omega)).congr (fun j hj => hob d j (by omega) h2 hj) (fun j hj => hoi d j (by omega) h2 hj) (fun h => h.1)
          (fun _ => hon d (by omega) h2)
  · have : d ≠ k + 1 := by omega
    simp only [this, hdc, if_false]
  · simp only [hck, if_false, if_true]
    exact hw

/-- what the choice at a node says about the point, for the followed strategies -/
theorem chosen_narrow (h0 : 0 ≤ ε) (h1 : ε < tol) (h2 : tol < 1 / 2) (ht : P.stgs.intTol = .fin tol)
    (hb : ∀ i, i < P.nb → P.bv i < P.n) (hv : ∀ i, i < P.ni → P.iv i < P.n) {xf : Nat → XR} {x : Nat → ℝ}
    (hx : ∀ k, k < P.n → xf k = .fin (x k))
    (hbox : ∀ j, j < P.nb → Away tol (x (P.bv j)) → 0 ≤ x (P.bv j) ∧ x (P.bv j) ≤ 1) (hN : NonInt P xf)
    {c : Nat} {g g' : Gh XR} (hc : Chosen P xf c g g') {lo hi : Nat → Int}
    (hrow : ∀ j, j < P.ni → g.irow P c (2 * j) = .fin (-(lo j : ℝ)) ∧ g.irow P c (2 * j + 1) = .fin (hi j : ℝ)) :
    (∃ i, i < P.nb + P.ni ∧ (g'.node c).splitIdx = (i : Int) ∧ (g'.node c).splitVal = .fin (x (vr P i)) ∧ Away tol (x (vr P i))) ∧
    (∀ j, j < P.nb → g'.brow P c j = -1 → g.brow P c j = -1) ∧
    (∀ j, j < P.ni → ∃ l u : Int, g'.irow P c (2 * j) = .fin (-(l : ℝ)) ∧ g'.irow P c (2 * j + 1) = .fin (u : ℝ) ∧
      ((l = lo j ∧ u = hi j) ∨ (Away tol (x (P.iv j)) ∧
        ((l = ⌊x (P.iv j)⌋ + 1 ∧ u = hi j) ∨ (l = lo j ∧ u = ⌊x (P.iv j)⌋))))) := by
  have ht0 : 0 < tol := by linarith
  rcases hc with ⟨-, q1, q2, q3⟩ | ⟨-, q1, q2, i, hi', e1, e2, e3⟩
  · have hbr : ∀ j, g'.brow P c j = g.brow P c j := fun j => by simp only [Gh.brow, q1]
    have hir : ∀ j, g'.irow P c j = g.irow P c j := fun j => by simp only [Gh.irow, q2]
    refine ⟨chosen_away ht0 h2 ht hx hb hv hbox hN q3, fun j _ h => by rw [← hbr]; exact h, fun j hj => ⟨lo j, hi j, ?_, ?_, Or.inl ⟨rfl, rfl⟩⟩⟩
    · rw [hir]; exact (hrow j hj).1
    · rw [hir]; exact (hrow j hj).2
  · refine ⟨⟨i, hi', e1, ?_, ?_⟩, fun j hj h => ?_, fun j hj => ?_⟩
    · rw [e2, hx _ (vr_lt hb hv hi')]
    · rw [hx _ (vr_lt hb hv hi'), ht] at e3
      exact isIntegral_away ht0 h2.le e3
    · rcases q1 j hj with p | ⟨-, p | p⟩
      · rw [← p]; exact h
      · omega
      · omega
    · rcases q2 j hj with ⟨p1, p2⟩ | ⟨p1, p2⟩
      · exact ⟨lo j, hi j, by rw [p1]; exact (hrow j hj).1, by rw [p2]; exact (hrow j hj).2, Or.inl ⟨rfl, rfl⟩⟩
      · rw [hx _ (hv j hj), ht] at p1
        have hA := isIntegral_away ht0 h2.le p1
        obtain ⟨f1, f2⟩ := hA.floors ht0 (by linarith)
        rcases p2 with ⟨ce, hce, r1, r2⟩ | ⟨fl, hfl, r1, r2⟩
        · rw [hx _ (hv j hj), ht] at hce
          obtain ⟨y, hy, rfl⟩ := pfCeil_inv ht0.le (by linarith) hce
          cases hy
          refine ⟨⌊x (P.iv j)⌋ + 1, hi j, ?_, by rw [r2]; exact (hrow j hj).2, Or.inr ⟨hA, Or.inl ⟨rfl, rfl⟩⟩⟩
          rw [r1, f2, XR.fin_neg]
        · rw [hx _ (hv j hj), ht] at hfl
          obtain ⟨y, hy, rfl⟩ := pfFloor_inv ht0.le (by linarith) hfl
          cases hy
          refine ⟨lo j, ⌊x (P.iv j)⌋, by rw [r2]; exact (hrow j hj).1, ?_, Or.inr ⟨hA, Or.inr ⟨rfl, rfl⟩⟩⟩
          rw [r1, f1]

theorem treeOk_bound (h0 : 0 ≤ ε) (h1 : ε < tol) (h2 : tol < 1 / 2) (ht : P.stgs.intTol = .fin tol)
    (hb : ∀ i, i < P.nb → P.bv i < P.n) (hv : ∀ i, i < P.ni → P.iv i < P.n)
    (hfin : Finite P env c0) (hres : Respects P env ε) (hwi : Within P env a b ε)
    {k c : Nat} {g g' : Gh XR} {D : Nat → Prop} (h : TreeOk P tol a b k g D) (hc : c ≤ k)
    (hid : ∀ j, j < P.nb → g.brow P c j = -1 ∨ g.brow P c j = 0 ∨ g.brow P c j = 1)
    (hch : Settled P env c g g')
    (hob : ∀ d j, d ≤ k → d ≠ c → j < P.nb → g'.brow P d j = g.brow P d j)
    (hoi : ∀ d j, d ≤ k → d ≠ c → j < 2 * P.ni → g'.irow P d j = g.irow P d j)
    (hon : ∀ d, d ≤ k → d ≠ c → g'.node d = g.node d) : TreeOk P tol a b k g' (fun d => D d ∨ d = c) := by
  have ht0 : 0 < tol := by linarith
  obtain ⟨lo, hi, w, hfit, hsum⟩ := h
  have hf := hfit c hc
  obtain ⟨code, xf, htr, hacc, hN, hS⟩ := hch
  rw [accepted_iff] at hacc
  obtain ⟨x, hx⟩ := hfin.point _ _ _ _ htr
  obtain ⟨rb, ri⟩ := hres _ _ _ _ x htr hacc hx
  have wi := hwi _ _ _ _ x htr hacc hx (fun j hj => by
    obtain ⟨e1, e2, e3, e4⟩ := hf.row j hj
    refine ⟨_, _, e1, e2, ?_, ?_⟩
    · have : -(lo c j) ≤ 8388608 := by omega
      have : ((-(lo c j) : Int) : ℝ) ≤ ((8388608 : Int) : ℝ) := by exact_mod_cast this
      push_cast at this; linarith
    · exact_mod_cast e4)
  have hfree : ∀ j, j < P.nb → Away tol (x (P.bv j)) → g.brow P c j = -1 := by
    intro j hj hA
    obtain ⟨r1, r2, -⟩ := rb j hj
    rcases hid j hj with h | h | h
    · exact h
    · have := hA 0; have := r2 h; simp at *; linarith
    · have := hA 1; have := r1 h; simp at *; linarith
  obtain ⟨⟨i, hi', e1, e2, hA⟩, hbr, hir⟩ := chosen_narrow h0 h1 h2 ht hb hv hx (fun j hj hA => by
    obtain ⟨-, -, r3⟩ := rb j hj
    obtain ⟨r4, r5⟩ := r3 (hfree j hj hA)
    constructor
    · by_contra hneg
      push Not at hneg
      have := hA 0
      rw [Int.cast_zero, sub_zero, abs_of_neg hneg] at this
      linarith
    · by_contra hneg
      push Not at hneg
      have := hA 1
      rw [Int.cast_one, abs_of_pos (by linarith)] at this
      linarith) hN hS (fun j hj => ⟨(hf.row j hj).1, (hf.row j hj).2.1⟩)
  choose! L U hL hU hLU using hir
  -- the point lies between the clipped bounds
  have hne : ∀ j, j < P.ni → max (lo c j) (a j) ≤ min (hi c j) (b j) := by
    intro j hj
    obtain ⟨q1, q2, -⟩ := hf.row j hj
    obtain ⟨r1, r2⟩ := ri j hj _ _ q1 q2
    obtain ⟨r3, r4⟩ := wi j hj
    have key : ∀ l u : Int, (l : ℝ) - ε ≤ x (P.iv j) → x (P.iv j) ≤ u + ε → l ≤ u := fun l u p q => by
      have : (l : ℝ) < (u + 1 : Int) := by push_cast; linarith
      have : l < u + 1 := by exact_mod_cast this
      omega
    have k1 := key (lo c j) (hi c j) (by linarith) (by linarith)
    have k2 := key (lo c j) (b j) (by linarith) (by linarith)
    have k3 := key (a j) (hi c j) (by linarith) (by linarith)
    have k4 := key (a j) (b j) (by linarith) (by linarith)
    omega
  have hin : ∀ j, j < P.ni → Away tol (x (P.iv j)) →
      max (lo c j) (a j) ≤ ⌊x (P.iv j)⌋ ∧ ⌊x (P.iv j)⌋ + 1 ≤ min (hi c j) (b j) := by
    intro j hj hA
    obtain ⟨t1, t2⟩ := hA.between
    obtain ⟨q1, q2, -⟩ := hf.row j hj
    obtain ⟨r1, r2⟩ := ri j hj _ _ q1 q2
    obtain ⟨r3, r4⟩ := wi j hj
    generalize ⌊x (P.iv j)⌋ = t at *
    have hlow : ∀ l : Int, (l : ℝ) - ε ≤ x (P.iv j) → l ≤ t := fun l hl => by
      have : (l : ℝ) < (t + 1 : Int) := by push_cast; linarith
      have : l < t + 1 := by exact_mod_cast this
      omega
    have hupp : ∀ l : Int, x (P.iv j) ≤ l + ε → t + 1 ≤ l := fun l hl => by
      have : (t : ℝ) < (l : Int) := by linarith
      have : t < l := by exact_mod_cast this
      omega
    have l1 := hlow (lo c j) (by linarith)
    have l2 := hlow (a j) (by linarith)
    have u1 := hupp (hi c j) (by linarith)
    have u2 := hupp (b j) (by linarith)
    omega
  -- the tightened box
  have htight : ∀ j, j < P.ni → lo c j ≤ L j ∧ U j ≤ hi c j ∧ max (L j) (a j) ≤ min (U j) (b j) := by
    intro j hj
    rcases hLU j hj with ⟨q1, q2⟩ | ⟨hA, ⟨q1, q2⟩ | ⟨q1, q2⟩⟩
    · have := hne j hj; omega
    · have := hin j hj hA; omega
    · have := hin j hj hA; omega
  have hbox' : cvol P a b (g'.brow P c) L U ≤ cvol P a b (g.brow P c) (lo c) (hi c) :=
    vol_mono hbr (fun j hj => by have := htight j hj; omega) (fun j hj => by have := htight j hj; omega)
  have hfit' : NodeFit P tol a b g' c (D c ∨ c = c) L U (w c) := by
    refine ⟨fun j hj => ?_, hf.one, hbox'.trans hf.box, fun _ => ?_⟩
    · have := hf.row j hj
      have := htight j hj
      exact ⟨hL j hj, hU j hj, by omega, by omega⟩
    by_cases hib : i < P.nb
    · -- a boolean
      have hvr : vr P i = P.bv i := by unfold vr; rw [if_pos hib]
      rw [hvr] at hA
      have hst := hfree i hib hA
      refine Or.inl ⟨i, hib, e1, le_trans ?_ hf.box⟩
      have hp : ∀ v, 1 ≤ cvol P a b (upd (g'.brow P c) i v) L U := fun v => vol_pos fun j hj => (htight j hj).2.2
      rw [max_eq_right (hp 0), max_eq_right (hp 1)]
      have hs := vol_bool (ni := P.ni) (b := upd (g'.brow P c) i (-1)) (lo := fun j => max (L j) (a j)) (hi := fun j => min (U j) (b j)) hib
        (upd_self _ _ _)
      have hu : ∀ v, cvol P a b (upd (g'.brow P c) i v) L U = vol P.nb P.ni (upd (upd (g'.brow P c) i (-1)) i v)
          (fun j => max (L j) (a j)) (fun j => min (U j) (b j)) := fun v =>
        vol_congr (fun j _ => by unfold upd; split <;> rfl) (fun _ _ => rfl) (fun _ _ => rfl)
      rw [hu, hu, hs]
      refine vol_mono (fun j hj hj' => ?_) (fun j hj => by have := htight j hj; omega) (fun j hj => by have := htight j hj; omega)
      by_cases hji : j = i
      · subst hji; exact hst
      · rw [upd_ne _ _ hji] at hj'; exact hbr j hj hj'
    · -- an integer
      obtain ⟨j, rfl⟩ : ∃ j, i = P.nb + j := ⟨i - P.nb, by omega⟩
      have hj : j < P.ni := by omega
      have hvr : vr P (P.nb + j) = P.iv j := by unfold vr; rw [if_neg (by omega), Nat.add_sub_cancel_left]
      rw [hvr] at hA e2
      have hij := hin j hj hA
      have hrj := hf.row j hj
      refine Or.inr ⟨j, _, hj, e1, e2, hA, by omega, by omega, le_trans ?_ hf.box⟩
      generalize ⌊x (P.iv j)⌋ = t at hij ⊢
      set LO : Nat → Int := upd (fun s => max (L s) (a s)) j (max (lo c j) (a j)) with hLO
      set HI : Nat → Int := upd (fun s => min (U s) (b s)) j (min (hi c j) (b j)) with hHI
      have hs := vol_int (nb := P.nb) (b := g'.brow P c) (lo := LO) (hi := HI) (t := t) hj (by rw [hLO, upd_self]; omega)
        (by rw [hHI, upd_self]; omega)
      have hm : vol P.nb P.ni (g'.brow P c) LO HI ≤ cvol P a b (g.brow P c) (lo c) (hi c) := by
        refine vol_mono hbr (fun s hs' => ?_) (fun s hs' => ?_)
        · by_cases hsj : s = j
          · subst hsj; rw [hLO, upd_self]
          · rw [hLO, upd_ne _ _ hsj]; have := htight s hs'; omega
        · by_cases hsj : s = j
          · subst hsj; rw [hHI, upd_self]
          · rw [hHI, upd_ne _ _ hsj]; have := htight s hs'; omega
      rw [← hs] at hm
      refine le_trans (Nat.add_le_add (max_le ?_ ?_) (max_le ?_ ?_)) hm
      · refine vol_pos fun s hs' => ?_
        by_cases hsj : s = j
        · subst hsj; rw [hLO, upd_self, upd_self]; omega
        · rw [hLO, hHI, upd_ne _ _ hsj, upd_ne _ _ hsj, upd_ne _ _ hsj]; exact (htight s hs').2.2
      · refine vol_mono (fun _ _ h => h) (fun s hs' => ?_) (fun s hs' => ?_)
        · by_cases hsj : s = j
          · subst hsj; rw [hLO, upd_self]; have := htight s hs'; omega
          · rw [hLO, upd_ne _ _ hsj]
        · by_cases hsj : s = j
          · subst hsj; rw [upd_self, upd_self]; omega
          · rw [hHI, upd_ne _ _ hsj, upd_ne _ _ hsj, upd_ne _ _ hsj]
      · refine vol_pos fun s hs' => ?_
        by_cases hsj : s = j
        · subst hsj; rw [hHI, upd_self, upd_self]; omega
        · rw [hLO, hHI, upd_ne _ _ hsj, upd_ne _ _ hsj, upd_ne _ _ hsj]; exact (htight s hs').2.2
      · refine vol_mono (fun _ _ h => h) (fun s hs' => ?_) (fun s hs' => ?_)
        · by_cases hsj : s = j
          · subst hsj; rw [upd_self, upd_self]; omega
          · rw [hLO, upd_ne _ _ hsj, upd_ne _ _ hsj, upd_ne _ _ hsj]
        · by_cases hsj : s = j
          · subst hsj; rw [hHI, upd_self]; have := htight s hs'; omega
          · rw [hHI, upd_ne _ _ hsj]
  refine ⟨fun d => if d = c then L else lo d, fun d => if d = c then U else hi d, w, fun d hd => ?_, hsum⟩
  by_cases hdc : d = c
  · subst hdc
    simp only [if_true]
    exact hfit'.congr (fun _ _ => rfl) (fun _ _ => rfl) (fun _ => Or.inr rfl) (fun _ => rfl)
  · simp only [hdc, if_false]
    exact (hfit d hd).congr (fun j hj => hob d j hd hdc hj) (fun j hj => hoi d j hd hdc hj) (fun h => h.resolve_right id) (fun _ => hon d hd hdc)

/-- the instance that follows the size of the tree -/
noncomputable def treePt (h0 : 0 ≤ ε) (h1 : ε < tol) (h2 : tol < 1 / 2) (ht : P.stgs.intTol = .fin tol)
    (hat : lt P.stgs.absTol (.fin 0) = false) (hp : Treated P)
    (hab : ∀ j, j < P.ni → -8388608 ≤ a j ∧ a j ≤ b j ∧ b j ≤ 8388608)
    (hb : ∀ i, i < P.nb → P.bv i < P.n) (hv : ∀ i, i < P.ni → P.iv i < P.n)
    (hfin : Finite P env c0) (hres : Respects P env ε) (hwi : Within P env a b ε) : Pt P env (fun _ => True) :=
  { noPt P env NumX (fun htr hcf => by
      obtain ⟨x, hx⟩ := hfin.point _ _ _ _ htr
      exact Or.inr ⟨_, dotF_fin hx (hfin.cost _ hcf)⟩) (Or.inl rfl) with
    live := True
    treated := fun _ => hp
    gap := fun {y} _ hy => by
      rcases hy with rfl | ⟨r, rfl⟩
      · cases P.stgs.absTol <;> rfl
      · rw [XR.fin_sub, sub_self]; exact hat
    tree := fun k g D => TreeOk P tol a b k g D
    tree_root := fun _ h1 h2 => treeOk_root hab h1 h2
    tree_congr := fun _ h h1 h2 h3 => treeOk_congr h h1 h2 h3
    tree_split := fun _ h hc hD hC h3 h4 h5 => treeOk_split (by linarith) h2 ht h hc hD hC h3 h4 h5
    tree_bound := fun _ h hc hid hs h3 h4 h5 => treeOk_bound h0 h1 h2 ht hb hv hfin hres hwi h hc hid hs h3 h4 h5 }

end
end BB
end Ecos
