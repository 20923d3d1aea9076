import Verif.Lemmas.BBGen
import Verif.Lemmas.Round
import Verif.Spec.MI

/-! # Branch and bound over the extended reals -/
set_option linter.all false

namespace Ecos
namespace BB

variable {W I : Type} {P : Par XR W} {env : Env XR W I}

theorem ltLaws_xr : LtLaws XR where
  irrefl := XR.lt_irrefl
  trans := fun {a b c} => XR.lt_trans a b c
  inf_top := XR.lt_pinf

theorem castInt_real_inv {r : ℝ} {k : Int} (h : castInt r = .ok k) :
    k = if 0 ≤ r then ⌊r⌋ else ⌈r⌉ := by
  unfold castInt at h
  split at h
  · next k' hk =>
    cases h
    have hk' : (if -2147483648 ≤ (if 0 ≤ r then ⌊r⌋ else ⌈r⌉) ∧ (if 0 ≤ r then ⌊r⌋ else ⌈r⌉) ≤ 2147483647
        then some (if 0 ≤ r then ⌊r⌋ else ⌈r⌉) else none) = some k := by
      simpa [PFloat.trunc] using hk
    generalize (if 0 ≤ r then ⌊r⌋ else ⌈r⌉) = t at hk'
    split at hk'
    · exact (Option.some.inj hk').symm
    · cases hk'
  · simp at h

theorem castInt_xr_inv {y : XR} {k : Int} (h : castInt y = .ok k) :
    ∃ r, y = XR.fin r ∧ k = if 0 ≤ r then ⌊r⌋ else ⌈r⌉ := by
  cases y with
  | fin r => rw [castInt_fin] at h; exact ⟨r, rfl, castInt_real_inv h⟩
  | pinf => simp [castInt, PFloat.trunc] at h
  | ninf => simp [castInt, PFloat.trunc] at h
  | nan => simp [castInt, PFloat.trunc] at h

theorem sub_fin_inv {a : XR} {b r : ℝ} (h : a - XR.fin b = XR.fin r) : ∃ x, a = XR.fin x ∧ r = x - b := by
  cases a with
  | fin x => rw [XR.fin_sub] at h; cases h; exact ⟨x, rfl, rfl⟩
  | pinf => exact absurd h (by intro h; cases h)
  | ninf => exact absurd h (by intro h; cases h)
  | nan => exact absurd h (by intro h; cases h)

theorem add_fin_inv {a : XR} {b r : ℝ} (h : a + XR.fin b = XR.fin r) : ∃ x, a = XR.fin x ∧ r = x + b := by
  cases a with
  | fin x => rw [XR.fin_add] at h; cases h; exact ⟨x, rfl, rfl⟩
  | pinf => exact absurd h (by intro h; cases h)
  | ninf => exact absurd h (by intro h; cases h)
  | nan => exact absurd h (by intro h; cases h)

theorem bind_ok_inv {α β : Type} {m : M α} {f : α → M β} {b : β} (h : (m >>= f) = .ok b) :
    ∃ a, m = .ok a ∧ f a = .ok b := by
  cases m with
  | error e => cases h
  | ok a => exact ⟨a, rfl, h⟩

theorem pfFloor_inv {y fl : XR} {tol : ℝ} (h0 : 0 ≤ tol) (h1 : tol < 1)
    (h : pfFloor y (XR.fin tol) = .ok fl) : ∃ x, y = XR.fin x ∧ fl = XR.fin ((rFloor x tol : Int) : ℝ) := by
  unfold pfFloor at h
  split at h
  · next hl =>
    obtain ⟨k, hk, hf⟩ := bind_ok_inv h
    obtain ⟨r, hr, hk'⟩ := castInt_xr_inv hk
    rw [XR.one_def, XR.fin_sub] at hr
    obtain ⟨x, rfl, rfl⟩ := sub_fin_inv hr
    refine ⟨x, rfl, ?_⟩
    simp only [XR.zero_def, XR.lt_fin, decide_eq_true_eq] at hl
    cases hf
    rw [hk', rFloor, if_pos hl, if_neg (by linarith)]; rfl
  · next hl =>
    obtain ⟨k, hk, hf⟩ := bind_ok_inv h
    obtain ⟨x, rfl, hk'⟩ := castInt_xr_inv hk
    refine ⟨x, rfl, ?_⟩
    simp only [XR.zero_def, XR.lt_fin, decide_eq_true_eq] at hl
    cases hf
    rw [hk', rFloor, if_neg hl, if_pos (by linarith)]; rfl

theorem pfCeil_inv {y fl : XR} {tol : ℝ} (h0 : 0 ≤ tol) (h1 : tol < 1)
    (h : pfCeil y (XR.fin tol) = .ok fl) : ∃ x, y = XR.fin x ∧ fl = XR.fin ((rCeil x tol : Int) : ℝ) := by
  unfold pfCeil at h
  split at h
  · next hl =>
    obtain ⟨k, hk, hf⟩ := bind_ok_inv h
    obtain ⟨x, rfl, hk'⟩ := castInt_xr_inv hk
    refine ⟨x, rfl, ?_⟩
    simp only [XR.zero_def, XR.lt_fin, decide_eq_true_eq] at hl
    cases hf
    rw [hk', rCeil, if_pos hl, if_neg (by linarith)]; rfl
  · next hl =>
    obtain ⟨k, hk, hf⟩ := bind_ok_inv h
    obtain ⟨r, hr, hk'⟩ := castInt_xr_inv hk
    rw [XR.one_def, XR.fin_sub] at hr
    obtain ⟨x, rfl, rfl⟩ := add_fin_inv hr
    refine ⟨x, rfl, ?_⟩
    simp only [XR.zero_def, XR.lt_fin, decide_eq_true_eq] at hl
    cases hf
    rw [hk', rCeil, if_neg hl, if_pos (by linarith)]; rfl

theorem pfRound_inv {y r : XR} (h : pfRound y = .ok r) :
    ∃ x, y = XR.fin x ∧ r = XR.fin ((rRound x : Int) : ℝ) := by
  unfold pfRound at h
  split at h
  · next hl =>
    obtain ⟨k, hk, hf⟩ := bind_ok_inv h
    obtain ⟨r, hr, hk'⟩ := castInt_xr_inv hk
    rw [XR.fin_sci] at hr
    obtain ⟨x, rfl, rfl⟩ := add_fin_inv hr
    refine ⟨x, rfl, ?_⟩
    simp only [XR.zero_def, XR.le_fin, decide_eq_true_eq] at hl
    cases hf
    rw [hk', rRound, if_pos hl, if_pos (by norm_num; linarith)]; rfl
  · next hl =>
    obtain ⟨k, hk, hf⟩ := bind_ok_inv h
    obtain ⟨r, hr, hk'⟩ := castInt_xr_inv hk
    rw [XR.fin_sci] at hr
    obtain ⟨x, rfl, rfl⟩ := sub_fin_inv hr
    refine ⟨x, rfl, ?_⟩
    simp only [XR.zero_def, XR.le_fin, decide_eq_true_eq] at hl
    cases hf
    rw [hk', rRound, if_neg hl, if_neg (by norm_num; linarith)]; rfl

theorem castChar_inv {r : ℝ} {k j : Int} (hr : r = (j : ℝ)) (h : castChar (XR.fin r) = .ok k) : k = j := by
  unfold castChar at h
  obtain ⟨i, hi, h'⟩ := bind_ok_inv h
  obtain ⟨r', h1, h2⟩ := castInt_xr_inv hi
  cases h1
  subst hr
  split at h'
  · cases h'; rw [h2]; split <;> simp
  · cases h'

theorem floatEqls_ge {a t : XR} {k : Int} {x : ℝ} (ha : a = XR.fin x) (h : floatEqls a (XR.fin (rRound x : ℝ)) t = false) :
    floatEqls a (XR.fin (k : ℝ)) t = false := by
  subst ha
  cases t with
  | fin t =>
    rw [floatEqls_xr] at h ⊢
    simp only [decide_eq_false_iff_not, not_lt] at h ⊢
    have := rRound_nearest x k
    rw [abs_sub_comm, abs_sub_comm (k : ℝ)] at this
    linarith
  | pinf =>
    exfalso
    unfold floatEqls abs2 at h
    simp only [XR.fin_sub, XR.zero_def, XR.lt_fin] at h
    split at h <;> simp at h
  | ninf => unfold floatEqls; simp
  | nan => unfold floatEqls; simp

theorem isInt_pf {y t z : XR} (h : pfFloor y t = .ok z ∨ pfCeil y t = .ok z) : ∃ k : Int, z = XR.fin (k : ℝ) := by
  unfold pfFloor pfCeil at h
  rcases h with h | h <;> (split at h <;> (obtain ⟨k, _, hf⟩ := bind_ok_inv h; cases hf; exact ⟨k, rfl⟩))

/-- a value that is not within the tolerance of its rounding is not "already an integer" -/
theorem frac_of_round {y r t : XR} (h : pfRound y = .ok r) (hf : floatEqls y r t = false) (b : Bool)
    (hb : isIntegral t y = .ok b) : b = false := by
  obtain ⟨x, rfl, rfl⟩ := pfRound_inv h
  unfold isIntegral at hb
  obtain ⟨fl, h1, hb⟩ := bind_ok_inv hb
  obtain ⟨k, rfl⟩ := isInt_pf (Or.inl h1)
  rw [floatEqls_ge rfl hf] at hb
  simp only [Bool.false_eq_true, if_false] at hb
  obtain ⟨ce, h2, hb⟩ := bind_ok_inv hb
  obtain ⟨k', rfl⟩ := isInt_pf (Or.inr h2)
  rw [floatEqls_ge rfl hf] at hb
  cases hb; rfl

theorem score_xr (a b : XR) : lt (-(INF : XR)) (getScore a b) = true := by
  have key : ∀ a : XR, (if lt (0.00000001 : XR) a then a else 0.00000001) = XR.pinf ∨
      ∃ r, 0 < r ∧ (if lt (0.00000001 : XR) a then a else 0.00000001) = XR.fin r := by
    intro a
    cases a with
    | fin r =>
      rw [XR.fin_sci, XR.lt_fin]
      by_cases h : (0.00000001 : ℝ) < r
      · right; exact ⟨r, lt_trans (by norm_num) h, by simp [h]⟩
      · right; exact ⟨0.00000001, by norm_num, by simp [h]⟩
    | pinf => left; rfl
    | ninf => right; exact ⟨0.00000001, by norm_num, rfl⟩
    | nan => right; exact ⟨0.00000001, by norm_num, rfl⟩
  unfold getScore
  have hs : ∀ r : ℝ, 0 < r → XR.signInf r = XR.pinf := fun r hr => by simp [XR.signInf, hr]
  rcases key a with h1 | ⟨r, h0, h1⟩ <;> rcases key b with h2 | ⟨r', h0', h2⟩ <;> rw [h1, h2]
  · rfl
  · show lt XR.ninf (XR.signInf r') = true
    rw [hs _ h0']; rfl
  · show lt XR.ninf (XR.signInf r) = true
    rw [hs _ h0]; rfl
  · rfl

theorem strongHyp_xr {G Gb : XR → Prop} (hd : Deterministic P env) : StrongHyp P env G Gb where
  det := hd
  score := score_xr
  fracI := fun y r _ h1 h2 t ht => frac_of_round h1 h2 t ht
  fracB := fun y r k _ h1 hk h2 t ht => by
    obtain ⟨x, rfl, rfl⟩ := pfRound_inv h1
    have := castChar_inv rfl hk
    subst this
    exact frac_of_round h1 h2 t ht

theorem dotF_fin {n : Nat} {f g : Nat → XR} {x c : Nat → ℝ} (hf : ∀ i, i < n → f i = XR.fin (x i))
    (hg : ∀ i, i < n → g i = XR.fin (c i)) : dotF n f g = XR.fin (objective n c x) := by
  induction n with
  | zero => rfl
  | succ k ih =>
    unfold dotF objective
    rw [ih (fun i hi => hf i (by omega)) (fun i hi => hg i (by omega)), hf k (by omega), hg k (by omega),
      XR.fin_mul, XR.fin_add, Finset.sum_range_succ]
    rfl

/-- a number or `+inf` -/
def NumX (y : XR) : Prop := y = .pinf ∨ ∃ r, y = .fin r

/-! ### a followed integer point -/

theorem InNode.splitB {b : Nat → Int} {i : Nat → XR} {v : Nat → ℝ} {j : Nat} (h : InNode P b i v)
    (hj : j < P.nb) : InNode P (upd b j 0) i v ∨ InNode P (upd b j 1) i v := by
  have mk : ∀ a : Int, (a = 0 ∨ a = 1) → v (P.bv j) = (a : ℝ) → InNode P (upd b j a) i v := by
    intro a ha hv
    refine ⟨fun k hk => ?_, ⟨fun k hk he => ?_, fun k hk he => ?_, fun k hk he => ?_, h.rel.int⟩, h.integer⟩
    · unfold upd; split
      · rcases ha with rfl | rfl <;> simp
      · exact h.ids k hk
    all_goals
      unfold upd at he
      split at he
      · next hkj => subst hkj; rcases ha with rfl | rfl <;> simp_all
      · first | exact h.rel.one k hk he | exact h.rel.zero k hk he | exact h.rel.star k hk he
  rcases h.integer.bool j hj with hv | hv
  · exact Or.inl (mk 0 (Or.inl rfl) (by simpa using hv))
  · exact Or.inr (mk 1 (Or.inr rfl) (by simpa using hv))

theorem InNode.splitI {b : Nat → Int} {i : Nat → XR} {v : Nat → ℝ} {j : Nat} (h : InNode P b i v)
    (hj : j < P.ni) {fl ce : Int} (hc : ce ≤ fl + 1) :
    InNode P b (upd i (2 * j + 1) (.fin (fl : ℝ))) v ∨ InNode P b (upd i (2 * j) (.fin (-(ce : ℝ)))) v := by
  obtain ⟨k, hk⟩ := h.integer.int j hj
  by_cases hkf : k ≤ fl
  · left
    refine ⟨h.ids, ⟨h.rel.one, h.rel.zero, h.rel.star, fun j' hj' => ?_⟩, h.integer⟩
    obtain ⟨lo, hi, e1, e2, h1, h2⟩ := h.rel.int j' hj'
    rw [upd_ne _ _ (by omega)]
    by_cases hjj : j' = j
    · subst hjj
      refine ⟨lo, fl, e1, upd_self _ _ _, h1, ?_⟩
      rw [hk]; exact_mod_cast hkf
    · exact ⟨lo, hi, e1, by rw [upd_ne _ _ (by omega)]; exact e2, h1, h2⟩
  · right
    refine ⟨h.ids, ⟨h.rel.one, h.rel.zero, h.rel.star, fun j' hj' => ?_⟩, h.integer⟩
    obtain ⟨lo, hi, e1, e2, h1, h2⟩ := h.rel.int j' hj'
    rw [upd_ne _ _ (show 2 * j' + 1 ≠ 2 * j by omega)]
    by_cases hjj : j' = j
    · subst hjj
      refine ⟨-(ce : ℝ), hi, upd_self _ _ _, e2, ?_, h2⟩
      rw [hk, neg_neg]; exact_mod_cast (by omega : ce ≤ k)
    · exact ⟨lo, hi, by rw [upd_ne _ _ (by omega)]; exact e1, e2, h1, h2⟩

theorem InNode.congr {b b' : Nat → Int} {i i' : Nat → XR} {v : Nat → ℝ} (h : InNode P b i v)
    (hb : ∀ j, j < P.nb → b' j = b j) (hi : ∀ j, j < 2 * P.ni → i' j = i j) : InNode P b' i' v where
  ids := fun j hj => by rw [hb j hj]; exact h.ids j hj
  rel :=
    { one := fun j hj he => h.rel.one j hj (by rw [← hb j hj]; exact he)
      zero := fun j hj he => h.rel.zero j hj (by rw [← hb j hj]; exact he)
      star := fun j hj he => h.rel.star j hj (by rw [← hb j hj]; exact he)
      int := fun j hj => by
        rw [hi _ (by omega), hi _ (by omega)]; exact h.rel.int j hj }
  integer := h.integer

theorem NumX.min {a b : XR} (ha : NumX a) (hb : NumX b) : NumX (if lt a b then a else b) := by
  split <;> assumption

/-- the integer point `v` of the user's feasible set -/
noncomputable def ptOf (P : Par XR W) (env : Env XR W I) {tol : ℝ} (ht : P.stgs.intTol = .fin tol) (h0 : 0 ≤ tol)
    (h1 : tol < 1) {c : Nat → ℝ} (hfin : Finite P env c) {Feas : (Nat → ℝ) → Prop} {δ : ℝ}
    (hex : Exact P env c Feas δ) {v : Nat → ℝ} (hv : Feas v) : Pt P env (fun _ => True) where
  box := fun b i => InNode P b i v
  low := fun y => ∃ r, y = .fin r ∧ r ≤ objective P.n c v + δ
  cut := fun y => y = .ninf ∨ ∃ r, y = .fin r ∧ r ≤ objective P.n c v + δ
  num := NumX
  trial := fun {b i code xf cf} hb htr hcf => by
    obtain ⟨x, hx⟩ := hfin.point _ _ _ _ htr
    obtain ⟨ha, hc⟩ := hex b i code xf x hb.ids htr hx v hv hb.rel
    rw [← accepted_iff] at ha
    exact ⟨ha, _, dotF_fin hx (hfin.cost cf hcf), hc⟩
  trialNum := fun htr hcf => by
    obtain ⟨x, hx⟩ := hfin.point _ _ _ _ htr
    exact Or.inr ⟨_, dotF_fin hx (hfin.cost _ hcf)⟩
  splitB := fun h hj => h.splitB hj
  splitI := fun {b i j y fl ce} h hj _ hfl hce => by
    rw [ht] at hfl hce
    obtain ⟨x, rfl, rfl⟩ := pfFloor_inv h0 h1 hfl
    obtain ⟨x', hx', rfl⟩ := pfCeil_inv h0 h1 hce
    cases hx'
    rw [XR.fin_neg]
    exact h.splitI hj (rCeil_le_rFloor h0)
  congr := fun h hb hi => h.congr hb hi
  cut_mono := fun {U U'} hlt hc => by
    rcases hc with rfl | ⟨r, rfl, hr⟩
    · simp at hlt
    · cases U' with
      | fin a => right; refine ⟨a, rfl, ?_⟩; simp at hlt; linarith
      | pinf => simp at hlt
      | ninf => left; rfl
      | nan => simp at hlt
  low_cut := fun {L U} hl hlt => by
    obtain ⟨r, rfl, hr⟩ := hl
    cases U with
    | fin a => right; refine ⟨a, rfl, ?_⟩; simp at hlt; linarith
    | pinf => simp at hlt
    | ninf => left; rfl
    | nan => simp at hlt
  low_cut' := fun {L U} hl hn hlt => by
    obtain ⟨r, rfl, hr⟩ := hl
    rcases hn with rfl | ⟨a, rfl⟩
    · simp at hlt
    · right; refine ⟨a, rfl, ?_⟩; simp at hlt; linarith
  low_self := fun h => Or.inr h
  low_inf := fun {L} h => by obtain ⟨r, rfl, _⟩ := h; rfl
  cut_inf := fun h => by rcases h with h | ⟨r, h, _⟩ <;> cases h
  low_min := fun {a b} ha hb h => by
    rcases h with ⟨r, rfl, hr⟩ | ⟨r, rfl, hr⟩
    · rcases hb with rfl | ⟨q, rfl⟩
      · exact ⟨r, rfl, hr⟩
      · by_cases hrq : r < q
        · simp [hrq]; exact hr
        · simp [hrq]; linarith
    · rcases ha with rfl | ⟨q, rfl⟩
      · exact ⟨r, rfl, hr⟩
      · by_cases hrq : q < r
        · simp [hrq]; linarith
        · simp [hrq]; exact hr
  num_min := fun ha hb => ha.min hb
  num_inf := Or.inl rfl
  live := False
  treated := fun h => h.elim
  gap := fun h => h.elim
  tree := fun _ _ _ => True
  tree_root := fun h => h.elim
  tree_congr := fun h => h.elim
  tree_split := fun h => h.elim
  tree_bound := fun h => h.elim

end BB
end Ecos
