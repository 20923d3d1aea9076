import Verif.Model.Ldl
import Verif.Spec.Matrix
import Verif.Core.Runs

/-!
# Elimination trees and the symbolic factorisation

`q i` is the parent of node `i`; roots have a "parent" outside `0..n-1`, which the program writes
as `-1`.  Parents are larger than their children, and `Reach q i j` says that `j` is `i` or an
ancestor of `i`.
-/
namespace Ecos.Fact

open Ecos

set_option linter.unusedSectionVars false

/-- `j` is `i` itself or an ancestor of `i` -/
inductive Reach (q : Nat → Nat) : Nat → Nat → Prop
  | refl (i : Nat) : Reach q i i
  | up {i j : Nat} (h : Reach q (q i) j) : Reach q i j

namespace Reach
variable {q q' : Nat → Nat} {i j k n : Nat}

theorem le (hq : ∀ i, i < q i) (h : Reach q i j) : i ≤ j := by
  induction h with
  | refl => exact Nat.le_refl _
  | @up i j _ ih => have := hq i; omega

theorem trans (h : Reach q i j) (h' : Reach q j k) : Reach q i k := by
  induction h with
  | refl => exact h'
  | up _ ih => exact up (ih h')

theorem split (h : Reach q i j) : i = j ∨ Reach q (q i) j := by
  cases h with
  | refl => exact Or.inl rfl
  | up h => exact Or.inr h

theorem next (h : Reach q i j) (hne : i ≠ j) : Reach q (q i) j := h.split.resolve_left hne

theorem one : Reach q i (q i) := up (refl _)

theorem snoc (h : Reach q i j) : Reach q i (q j) := h.trans one

theorem linear (hq : ∀ i, i < q i) (h : Reach q i j) (h' : Reach q i k) (hjk : j ≤ k) : Reach q j k := by
  induction h with
  | refl => exact h'
  | @up i j h ih =>
    rcases h'.split with rfl | h'
    · have := h.le hq
      have := hq i
      omega
    · exact ih h' hjk

/-- giving parents to roots keeps the reachability of nodes inside the tree -/
theorem mono_root (hq : ∀ i, i < q i) (hqq : ∀ v, q v < n → q' v = q v) (hj : j < n) (h : Reach q i j) :
    Reach q' i j := by
  induction h with
  | refl => exact refl _
  | @up i j h ih =>
    have := h.le hq
    refine up ?_
    rw [hqq i (by omega)]
    exact ih hj

/-- and adds no reachability below the new parent -/
theorem back (hq : ∀ i, i < q' i) (hqq : ∀ v, q' v = q v ∨ k ≤ q' v) (hj : j < k) (h : Reach q' i j) :
    Reach q i j := by
  induction h with
  | refl => exact refl _
  | @up i j h ih =>
    have := h.le hq
    refine up ?_
    rw [← (hqq i).resolve_right (by omega)]
    exact ih hj

end Reach

/-- how the program writes the parent `x` -/
def enc (n x : Nat) : Int := if x < n then (x : Int) else -1

theorem enc_lt {n x : Nat} (h : x < n) : enc n x = (x : Int) := if_pos h
theorem enc_ge {n x : Nat} (h : n ≤ x) : enc n x = -1 := if_neg (by omega)
theorem enc_root {n x : Nat} : enc n x = -1 ↔ n ≤ x := by
  unfold enc; split <;> omega

@[simp] theorem rdI_nat {α : Type} (b : Buf α) (i : Nat) : rdI b (i : Int) = rd b i := by
  simp [rdI]

@[simp] theorem wrI_nat {α : Type} (b : Buf α) (i : Nat) (v : α) : wrI b (i : Int) v = wr b i v := by
  simp [wrI]

/-- the first `k` cells hold `g` (the buffer may be longer) -/
def Has' {α : Type} (b : Buf α) (k : Nat) (g : Nat → α) : Prop := ∀ j, j < k → b[j]? = some (some (g j))

theorem Has'.rd {α : Type} {b : Buf α} {k : Nat} {g : Nat → α} (h : Has' b k g) {j : Nat} (hj : j < k) :
    rd b j = .ok (g j) := by
  simp [Ecos.rd, h j hj]

/-- the walk from `i` marks exactly the ancestors of `i`, hangs the old root of `i` below `k`, and
counts one more entry for each newly marked node -/
theorem symWalk_ok {n k : Nat} (hk : k < n) :
    ∀ (fuel i : Nat) (S : Sym) (q c f : Nat → Nat), i ≤ k → k - i < fuel → (∀ v, v < q v) →
      (∀ v, v < k → q v ≤ k ∨ n ≤ q v) →
      HoldsOn S.parent n (· ≤ k) (fun v => enc n (q v)) → HoldsOn S.lnz n (· ≤ k) c →
      HoldsOn S.flag n (· ≤ k) f → f k = k →
      (∀ v, i ≤ v → v < k → f v = k → q v ≤ k ∧ f (q v) = k) →
      Ok (symWalk k fuel (i : Int) S) fun S' => ∃ q' c' f' : Nat → Nat,
        (∀ v, v < q' v) ∧ HoldsOn S'.parent n (· ≤ k) (fun v => enc n (q' v)) ∧
        HoldsOn S'.lnz n (· ≤ k) c' ∧ HoldsOn S'.flag n (· ≤ k) f' ∧
        (∀ v, q' v = q v ∨ (v < k ∧ n ≤ q v ∧ q' v = k)) ∧ (∀ v, v < i → q' v = q v) ∧
        (∀ v, v ≤ k → (f' v = k ↔ f v = k ∨ Reach q' i v)) ∧ Reach q' i k ∧
        (∀ v, f' v = f v ∨ f' v = k) ∧
        (∀ v, v ≤ k → (f v = k → c' v = c v) ∧ (f v ≠ k → f' v = k → c' v = c v + 1) ∧
          (f' v ≠ k → c' v = c v)) := by
  intro fuel
  induction fuel with
  | zero => intro i S q c f _ h; omega
  | succ fuel ih =>
    intro i S q c f hi hfuel hq hqk hp hl hf hfk hcl
    -- reachability along marked nodes
    have hmark : ∀ d v, k - v = d → i ≤ v → v ≤ k → f v = k → Reach q v k ∧ ∀ w, w ≤ k → Reach q v w → f w = k := by
      intro d
      induction d using Nat.strong_induction_on with
      | _ d ihd =>
        intro v hd hiv hvk hfv
        by_cases hv : v = k
        · subst hv
          refine ⟨.refl _, fun w hw hr => ?_⟩
          have := hr.le hq
          have : w = v := by omega
          rw [this]; exact hfk
        · obtain ⟨h1, h2⟩ := hcl v hiv (by omega) hfv
          have := hq v
          obtain ⟨h3, h4⟩ := ihd (k - q v) (by omega) (q v) rfl (by omega) h1 h2
          refine ⟨.up h3, fun w hw hr => ?_⟩
          rcases hr.split with rfl | hr
          · exact hfv
          · exact h4 w hw hr
    unfold symWalk
    rw [rdI_nat, hf.rd (by omega : i < n) hi, ok_bind_eq]
    by_cases hfi : f i = k
    · rw [if_pos hfi, Ok_pure]
      obtain ⟨h1, h2⟩ := hmark _ i rfl (Nat.le_refl _) hi hfi
      refine ⟨q, c, f, hq, hp, hl, hf, fun v => Or.inl rfl, fun v _ => rfl, fun v hv => ⟨Or.inl, fun h => ?_⟩,
        h1, fun v => Or.inl rfl, fun v _ => ⟨fun _ => rfl, fun h h' => absurd h' h, fun _ => rfl⟩⟩
      rcases h with h | h
      · exact h
      · exact h2 v hv h
    · rw [if_neg hfi, rdI_nat, hp.rd (by omega : i < n) hi, ok_bind_eq]
      have hik : i < k := by
        rcases Nat.lt_or_eq_of_le hi with h | h
        · exact h
        · exact absurd (h ▸ hfk) hfi
      -- the parent after the step
      obtain ⟨q1, hq1i, hq1, hq1q, hq1ne, hq1k⟩ : ∃ q1 : Nat → Nat, q1 i ≤ k ∧ (∀ v, v < q1 v) ∧
          (∀ v, q1 v = q v ∨ (v < k ∧ n ≤ q v ∧ q1 v = k)) ∧ (∀ v, v ≠ i → q1 v = q v) ∧
          q1 = (if enc n (q i) = -1 then upd q i k else q) := by
        by_cases hr : enc n (q i) = -1
        · refine ⟨upd q i k, by rw [upd_self], fun v => ?_, fun v => ?_, fun v hv => upd_ne _ _ hv, by rw [if_pos hr]⟩
          · by_cases hv : v = i
            · subst hv; rw [upd_self]; exact hik
            · rw [upd_ne _ _ hv]; exact hq v
          · by_cases hv : v = i
            · subst hv; rw [upd_self]; exact Or.inr ⟨hik, enc_root.1 hr, rfl⟩
            · rw [upd_ne _ _ hv]; exact Or.inl rfl
        · refine ⟨q, ?_, hq, fun v => Or.inl rfl, fun v _ => rfl, by rw [if_neg hr]⟩
          rcases hqk i hik with h | h
          · exact h
          · exact absurd (enc_root.2 h) hr
      have hpar : Ok (if enc n (q i) = -1 then wrI S.parent (i : Int) (k : Int) else pure S.parent)
          (fun P => HoldsOn P n (· ≤ k) (fun v => enc n (q1 v))) := by
        by_cases hr : enc n (q i) = -1
        · rw [if_pos hr] at hq1k
          rw [if_pos hr, wrI_nat]
          refine (hp.wr (by omega : i < n) (k : Int)).mono fun P hP => hP.congr fun v _ hv => ⟨Or.inl hv, ?_⟩
          rw [hq1k]
          by_cases hvi : v = i
          · subst hvi; rw [upd_self, upd_self, enc_lt hk]
          · rw [upd_ne _ _ hvi, upd_ne _ _ hvi]
        · rw [if_neg hr] at hq1k
          rw [if_neg hr, Ok_pure, hq1k]
          exact hp
      refine Ok.bind hpar fun P hP => ?_
      rw [rdI_nat, hl.rd (by omega : i < n) hi, ok_bind_eq, wrI_nat]
      refine Ok.bind (hl.wr (by omega : i < n) (c i + 1)) fun lz hlz => ?_
      rw [wrI_nat]
      refine Ok.bind (hf.wr (by omega : i < n) k) fun fl hfl => ?_
      rw [rdI_nat, hP.rd (by omega : i < n) hi, ok_bind_eq, enc_lt (by omega : q1 i < n)]
      have hlz' : HoldsOn lz n (· ≤ k) (upd c i (c i + 1)) := hlz.congr fun v _ hv => ⟨Or.inl hv, rfl⟩
      have hfl' : HoldsOn fl n (· ≤ k) (upd f i k) := hfl.congr fun v _ hv => ⟨Or.inl hv, rfl⟩
      have hii := hq1 i
      refine (ih (q1 i) ⟨P, lz, fl⟩ q1 (upd c i (c i + 1)) (upd f i k) hq1i (by omega) hq1
        (fun v hv => ?_) hP hlz' hfl' (by rw [upd_ne _ _ (by omega)]; exact hfk) (fun v h1 h2 h3 => ?_)).mono ?_
      · rcases hq1q v with h | h
        · rw [h]; exact hqk v hv
        · exact Or.inl (by omega)
      · have hvi : v ≠ i := by omega
        rw [upd_ne _ _ hvi] at h3
        obtain ⟨h4, h5⟩ := hcl v (by omega) h2 h3
        rw [hq1ne v hvi]
        refine ⟨h4, ?_⟩
        by_cases h6 : q v = i
        · rw [h6, upd_self]
        · rw [upd_ne _ _ h6]; exact h5
      · rintro S' ⟨q', c', f', g1, g2, g3, g4, g5, g6, g7, g8, g9, g10⟩
        have hqi : q' i = q1 i := g6 i hii
        refine ⟨q', c', f', g1, g2, g3, g4, fun v => ?_, fun v hv => ?_, fun v hv => ?_, ?_, fun v => ?_, fun v hv => ?_⟩
        · rcases g5 v with h | h
          · rw [h]; exact hq1q v
          · by_cases hvi : v = i
            · subst hvi
              omega
            · rw [hq1ne v hvi] at h
              exact Or.inr h
        · rw [g6 v (by omega), hq1ne v (by omega)]
        · rw [g7 v hv]
          by_cases hvi : v = i
          · subst hvi
            rw [upd_self]
            exact ⟨fun _ => Or.inr (.refl _), fun _ => Or.inl rfl⟩
          · rw [upd_ne _ _ hvi]
            refine or_congr_right ⟨fun h => .up (by rw [hqi]; exact h), fun h => ?_⟩
            rw [← hqi]
            exact h.next (fun h => hvi h.symm)
        · exact .up (by rw [hqi]; exact g8)
        · by_cases hvi : v = i
          · subst hvi
            right
            rcases g9 v with h | h
            · rw [h, upd_self]
            · exact h
          · have := g9 v
            rwa [upd_ne _ _ hvi] at this
        · obtain ⟨h1, h2, h3⟩ := g10 v hv
          by_cases hvi : v = i
          · subst hvi
            simp only [upd_self, true_implies] at h1
            have h4 := h1
            refine ⟨fun h => absurd h hfi, fun _ _ => h4, fun h => absurd ?_ h⟩
            rcases g9 v with h | h
            · rw [h, upd_self]
            · exact h
          · simp only [upd_ne _ _ hvi] at h1 h2 h3
            exact ⟨h1, h2, h3⟩

/-- the pattern is the upper triangle of a symmetric `n` by `n` matrix -/
structure UpperPat (n : Nat) (ap ai : Nat → Nat) : Prop where
  csc : CscOk n n ap ai
  up : ∀ k, k < n → ∀ p, ap k ≤ p → p < ap (k + 1) → ai p ≤ k

/-- the pattern of row `k` of the factor: ancestors, below `k`, of the entries of column `k` -/
def Row (ap ai q : Nat → Nat) (k j : Nat) : Prop :=
  j < k ∧ ∃ p, ap k ≤ p ∧ p < ap (k + 1) ∧ Reach q (ai p) j

/-- `q` is the elimination tree of the leading `k` columns -/
structure Tree (n k : Nat) (ap ai q : Nat → Nat) : Prop where
  inc : ∀ v, v < q v
  root : ∀ v, q v < k ∨ n ≤ q v
  col : ∀ r, r < k → ∀ p, ap r ≤ p → p < ap (r + 1) → Reach q (ai p) r

open Classical in
/-- the rows below `k` with an entry in column `i`, in increasing order -/
noncomputable def rows (V : Nat → Nat → Prop) (k i : Nat) : List Nat :=
  (List.range k).filter fun r => decide (V r i)

theorem rows_succ_pos {V : Nat → Nat → Prop} {k i : Nat} (h : V k i) : rows V (k + 1) i = rows V k i ++ [k] := by
  simp [rows, List.range_succ, h]

theorem rows_succ_neg {V : Nat → Nat → Prop} {k i : Nat} (h : ¬ V k i) : rows V (k + 1) i = rows V k i := by
  simp [rows, List.range_succ, h]

theorem mem_rows {V : Nat → Nat → Prop} {k i r : Nat} : r ∈ rows V k i ↔ r < k ∧ V r i := by
  simp [rows]

theorem rows_congr {V W : Nat → Nat → Prop} {k i : Nat} (h : ∀ r, r < k → (V r i ↔ W r i)) :
    rows V k i = rows W k i := by
  unfold rows
  refine List.filter_congr fun r hr => ?_
  rw [List.mem_range] at hr
  simp [h r hr]

theorem rows_nil {V : Nat → Nat → Prop} {k i : Nat} (h : ∀ r, r < k → ¬ V r i) : rows V k i = [] := by
  unfold rows
  rw [List.filter_eq_nil_iff]
  intro r hr
  simpa using h r (List.mem_range.1 hr)

theorem row_congr {n k : Nat} {ap ai q q' : Nat → Nat} (hq : ∀ v, v < q v) (hq' : ∀ v, v < q' v)
    (hqq : ∀ v, q' v = q v ∨ (v < k ∧ n ≤ q v ∧ q' v = k)) (hk : k ≤ n) {r i : Nat} (hr : r ≤ k) :
    Row ap ai q r i ↔ Row ap ai q' r i := by
  have key : ∀ j, i < k → (Reach q j i ↔ Reach q' j i) := fun j hi =>
    ⟨fun h => h.mono_root hq (n := n) (fun v hv => (hqq v).resolve_right (by omega)) (by omega),
      fun h => h.back (k := k) hq' (fun v => (hqq v).imp id fun h => by omega) hi⟩
  unfold Row
  refine and_congr_right fun hi => exists_congr fun p => and_congr_right fun _ => and_congr_right fun _ => ?_
  exact key _ (by omega)

/-- what is known after the columns before `k` -/
def SymInv (n : Nat) (ap ai : Nat → Nat) (k : Nat) (S : Sym) : Prop :=
  ∃ q f : Nat → Nat, Tree n k ap ai q ∧ HoldsOn S.parent n (· < k) (fun v => enc n (q v)) ∧
    HoldsOn S.lnz n (· < k) (fun v => (rows (Row ap ai q) k v).length) ∧
    HoldsOn S.flag n (· < k) f ∧ ∀ v, v < k → f v < k

theorem symStep_ok {n : Nat} {ap ai : Nat → Nat} {Ap Ai : Buf Nat} (hU : UpperPat n ap ai)
    (hAp : Holds Ap (n + 1) ap) (hAi : Has' Ai (ap n) ai) {k : Nat} (hk : k < n) {S : Sym}
    (hS : SymInv n ap ai k S) : Ok (symStep n Ap Ai k S) (SymInv n ap ai (k + 1)) := by
  obtain ⟨q, f, hT, hp, hl, hf, hfk⟩ := hS
  have hrk : n ≤ q k := (hT.root k).resolve_left (by have := hT.inc k; omega)
  unfold symStep
  refine Ok.bind (hp.wr hk (-1)) fun P hP => ?_
  refine Ok.bind (hf.wr hk k) fun fl hfl => ?_
  refine Ok.bind (hl.wr hk 0) fun lz hlz => ?_
  rw [hAp.rd (by omega), ok_bind_eq, hAp.rd (by omega), ok_bind_eq]
  have hP' : HoldsOn P n (· ≤ k) (fun v => enc n (q v)) := hP.congr fun v _ hv => by
    by_cases h : v = k
    · subst h; exact ⟨Or.inr rfl, by rw [upd_self, enc_ge hrk]⟩
    · exact ⟨Or.inl (by omega), upd_ne _ _ h⟩
  have hlz' : HoldsOn lz n (· ≤ k) (fun v => (rows (Row ap ai q) k v).length) := hlz.congr fun v _ hv => by
    by_cases h : v = k
    · subst h
      refine ⟨Or.inr rfl, ?_⟩
      rw [upd_self, rows_nil]
      · rfl
      · rintro r hr ⟨h1, -⟩
        omega
    · exact ⟨Or.inl (by omega), upd_ne _ _ h⟩
  have hfl' : HoldsOn fl n (· ≤ k) (upd f k k) := hfl.congr fun v _ hv => by
    by_cases h : v = k
    · exact ⟨Or.inr h, rfl⟩
    · exact ⟨Or.inl (by omega), rfl⟩
  refine loop_ok (I := fun p (S : Sym) => ∃ q' c f' : Nat → Nat, (∀ v, v < q' v) ∧
      HoldsOn S.parent n (· ≤ k) (fun v => enc n (q' v)) ∧ HoldsOn S.lnz n (· ≤ k) c ∧
      HoldsOn S.flag n (· ≤ k) f' ∧ (∀ v, q' v = q v ∨ (v < k ∧ n ≤ q v ∧ q' v = k)) ∧
      (∀ v, v ≤ k → f' v ≤ k) ∧
      (∀ v, v ≤ k → (f' v = k ↔ v = k ∨ ∃ p', ap k ≤ p' ∧ p' < p ∧ Reach q' (ai p') v)) ∧
      (∀ p', ap k ≤ p' → p' < p → Reach q' (ai p') k) ∧
      (∀ v, v ≤ k → c v = (rows (Row ap ai q) k v).length + if v < k ∧ f' v = k then 1 else 0))
    (hU.csc.mono k hk) ?_ ?_ ?_
  · refine ⟨q, _, upd f k k, hT.inc, hP', hlz', hfl', fun v => Or.inl rfl, fun v hv => ?_, fun v hv => ?_,
      fun p' _ _ => by omega, fun v hv => ?_⟩
    · by_cases h : v = k
      · subst h; rw [upd_self]
      · rw [upd_ne _ _ h]; have := hfk v (by omega); omega
    · by_cases h : v = k
      · subst h; rw [upd_self]; simp
      · rw [upd_ne _ _ h]
        have := hfk v (by omega)
        constructor
        · intro h'; omega
        · rintro (h' | ⟨p', h1, h2, -⟩) <;> omega
    · by_cases h : v = k
      · rw [if_neg (by omega)]; rfl
      · have := hfk v (by omega)
        rw [if_neg (by rw [upd_ne _ _ h]; omega)]; rfl
  · rintro p S' hp1 hp2 ⟨q', c, f', h1, h2, h3, h4, h5, h6, h7, h8, h9⟩
    have hpn : p < ap n := Nat.lt_of_lt_of_le hp2 (hU.csc.le_top (by omega))
    rw [hAi.rd hpn, ok_bind_eq]
    have hai := hU.up k hk p hp1 hp2
    refine (symWalk_ok hk (n + 1) (ai p) S' q' c f' hai (by omega) h1 (fun v hv => ?_) h2 h3 h4
      ((h7 k (Nat.le_refl _)).2 (Or.inl rfl)) (fun v _ hv hfv => ?_)).mono ?_
    · rcases h5 v with h | h
      · rw [h]; rcases hT.root v with h | h
        · exact Or.inl (by omega)
        · exact Or.inr h
      · exact Or.inl (by omega)
    · rcases (h7 v (by omega)).1 hfv with h | ⟨p', g1, g2, g3⟩
      · omega
      · have g4 := (g3.linear h1 (h8 p' g1 g2) (by omega)).next (by omega)
        have g5 := g4.le h1
        exact ⟨g5, (h7 _ g5).2 (Or.inr ⟨p', g1, g2, g3.snoc⟩)⟩
    · rintro S'' ⟨q2, c2, f2, g1, g2, g3, g4, g5, g6, g7, g8, g9, g10⟩
      -- reachability seen from the new tree
      have hmono : ∀ j, Reach q' j k → Reach q2 j k := fun j h =>
        h.mono_root h1 (n := n) (fun v hv => (g5 v).resolve_right (by omega)) hk
      have hiff : ∀ j v, v ≤ k → Reach q' j k → (Reach q' j v ↔ Reach q2 j v) := fun j v hv hj => by
        by_cases hvk : v = k
        · subst hvk; exact ⟨fun _ => hmono j hj, fun _ => hj⟩
        · exact ⟨fun h => h.mono_root h1 (n := n) (fun v hv => (g5 v).resolve_right (by omega)) (by omega),
            fun h => h.back (k := k) g1 (fun v => (g5 v).imp id fun h => by omega) (by omega)⟩
      refine ⟨q2, c2, f2, g1, g2, g3, g4, fun v => ?_, fun v hv => ?_, fun v hv => ?_, fun p' e1 e2 => ?_, fun v hv => ?_⟩
      · rcases g5 v with h | h
        · rw [h]; exact h5 v
        · rcases h5 v with h' | h'
          · rw [h'] at h; exact Or.inr h
          · omega
      · rcases g9 v with h | h
        · rw [h]; exact h6 v hv
        · omega
      · rw [g7 v hv, h7 v hv]
        constructor
        · rintro ((h | ⟨p', e1, e2, e3⟩) | h)
          · exact Or.inl h
          · exact Or.inr ⟨p', e1, by omega, (hiff _ v hv (h8 p' e1 e2)).1 e3⟩
          · exact Or.inr ⟨p, hp1, by omega, h⟩
        · rintro (h | ⟨p', e1, e2, e3⟩)
          · exact Or.inl (Or.inl h)
          · by_cases hpp : p' = p
            · subst hpp; exact Or.inr e3
            · exact Or.inl (Or.inr ⟨p', e1, by omega, (hiff _ v hv (h8 p' e1 (by omega))).2 e3⟩)
      · by_cases hpp : p' = p
        · subst hpp; exact g8
        · exact hmono _ (h8 p' e1 (by omega))
      · obtain ⟨e1, e2, e3⟩ := g10 v hv
        have e4 := h9 v hv
        by_cases hvk : v = k
        · subst hvk
          have := (h7 v hv).2 (Or.inl rfl)
          rw [e1 this, e4, if_neg (by omega), if_neg (by omega)]
        · by_cases hv1 : f' v = k
          · rw [e1 hv1, e4, if_pos ⟨by omega, hv1⟩, if_pos ⟨by omega, (g7 v hv).2 (Or.inl hv1)⟩]
          · rw [if_neg (fun h => hv1 h.2)] at e4
            by_cases hv2 : f2 v = k
            · rw [e2 hv1 hv2, e4, if_pos ⟨by omega, hv2⟩]
            · rw [e3 hv2, e4, if_neg (fun h => hv2 h.2)]
  · rintro S' ⟨q', c, f', h1, h2, h3, h4, h5, h6, h7, h8, h9⟩
    have hV : ∀ r v, r ≤ k → (Row ap ai q r v ↔ Row ap ai q' r v) := fun r v hr =>
      row_congr hT.inc h1 h5 (by omega) hr
    refine ⟨q', f', ⟨h1, fun v => ?_, fun r hr p e1 e2 => ?_⟩, h2.congr fun v _ hv => ⟨Nat.lt_succ_iff.1 hv, rfl⟩,
      h3.congr fun v _ hv => ⟨Nat.lt_succ_iff.1 hv, ?_⟩, h4.congr fun v _ hv => ⟨Nat.lt_succ_iff.1 hv, rfl⟩,
      fun v hv => Nat.lt_succ_iff.2 (h6 v (Nat.lt_succ_iff.1 hv))⟩
    · rcases h5 v with h | h
      · rw [h]; rcases hT.root v with h | h
        · exact Or.inl (by omega)
        · exact Or.inr h
      · exact Or.inl (by omega)
    · by_cases hrk : r = k
      · subst hrk; exact h8 p e1 e2
      · exact (hT.col r (by omega) p e1 e2).mono_root hT.inc (n := n)
          (fun v hv => (h5 v).resolve_right (by omega)) (by omega)
    · have hv' : v ≤ k := Nat.lt_succ_iff.1 hv
      rw [h9 v hv', rows_congr (W := Row ap ai q') (fun r hr => hV r v (by omega))]
      by_cases hvk : v < k ∧ f' v = k
      · rw [if_pos hvk, rows_succ_pos, List.length_append]
        · rfl
        · obtain ⟨p', e1, e2, e3⟩ := ((h7 v hv').1 hvk.2).resolve_left (by omega)
          exact ⟨hvk.1, p', e1, e2, e3⟩
      · rw [if_neg hvk, rows_succ_neg]
        · rfl
        · rintro ⟨e0, p', e1, e2, e3⟩
          exact hvk ⟨e0, (h7 v hv').2 (Or.inr ⟨p', e1, e2, e3⟩)⟩

/-- start of column `i` in the factor -/
noncomputable def lpOf (V : Nat → Nat → Prop) (n : Nat) : Nat → Nat
  | 0 => 0
  | i + 1 => lpOf V n i + (rows V n i).length

/-- The symbolic phase finds the elimination tree of the pattern, and the column counts it returns
are the numbers of entries of the rows reached in that tree. -/
theorem ldlSymbolic_ok {n : Nat} {ap ai : Nat → Nat} {Ap Ai Lp : Buf Nat} {S : Sym} (hU : UpperPat n ap ai)
    (hAp : Holds Ap (n + 1) ap) (hAi : Has' Ai (ap n) ai) (hLp : Lp.size = n + 1) (h1 : S.parent.size = n)
    (h2 : S.lnz.size = n) (h3 : S.flag.size = n) :
    Ok (ldlSymbolic n Ap Ai Lp S) fun r => ∃ q : Nat → Nat, Tree n n ap ai q ∧
      Holds r.1 (n + 1) (lpOf (Row ap ai q) n) ∧ Holds r.2.parent n (fun v => enc n (q v)) ∧
      Holds r.2.lnz n (fun v => (rows (Row ap ai q) n v).length) := by
  unfold ldlSymbolic
  refine Ok.bind (P := SymInv n ap ai n) (loop_ok (I := SymInv n ap ai) (Nat.zero_le _) ?_
    (fun k S _ hk hS => symStep_ok hU hAp hAi hk hS) fun S hS => hS) ?_
  · exact ⟨fun v => n + v + 1, fun _ => 0, ⟨fun v => by omega, fun v => Or.inr (by omega), fun r hr => by omega⟩,
      ⟨h1, fun v _ hv => absurd hv (Nat.not_lt_zero _)⟩, ⟨h2, fun v _ hv => absurd hv (Nat.not_lt_zero _)⟩,
      ⟨h3, fun v _ hv => absurd hv (Nat.not_lt_zero _)⟩, fun v hv => by omega⟩
  · rintro S' ⟨q, f, hT, e1, e2, e3, -⟩
    have e2' := e2.full fun v hv => hv
    have hLp0 : HoldsOn Lp (n + 1) (fun _ => False) (lpOf (Row ap ai q) n) := ⟨hLp, fun _ _ h => h.elim⟩
    refine Ok.bind (hLp0.wr (by omega : 0 < n + 1) 0) fun L0 hL0 => ?_
    refine Ok.bind (P := fun L => Holds L (n + 1) (lpOf (Row ap ai q) n)) (loop_ok
      (I := fun k L => HoldsOn L (n + 1) (· ≤ k) (lpOf (Row ap ai q) n)) (Nat.zero_le _) ?_ ?_ ?_) ?_
    · refine hL0.congr fun v _ hv => ?_
      have : v = 0 := Nat.le_zero.1 hv
      subst this
      exact ⟨Or.inr rfl, by rw [upd_self]; rfl⟩
    · intro k L _ hk hL
      rw [hL.rd (by omega) (Nat.le_refl _), ok_bind_eq, e2'.rd hk, ok_bind_eq]
      refine (hL.wr (by omega : k + 1 < n + 1) _).mono fun L' hL' => hL'.congr fun v _ hv => ?_
      by_cases hvk : v = k + 1
      · subst hvk; exact ⟨Or.inr rfl, by rw [upd_self]; rfl⟩
      · exact ⟨Or.inl (by omega), upd_ne _ _ hvk⟩
    · intro L hL
      exact hL.full fun v hv => by omega
    · intro L hL
      rw [Ok_pure]
      exact ⟨q, hT, hL, e1.full fun v hv => hv, e2'⟩

end Ecos.Fact
