import Verif.Lemmas.Ldl2
import Verif.Lemmas.Ldl1
import Mathlib.Data.List.Perm.Subperm
import Mathlib.Data.List.Range

/-!
# The numeric factorisation, for any arithmetic

What `LDL_numeric2` computes, as a recurrence on numbers; no property of the arithmetic is used.
-/
namespace Ecos.Fact

open Ecos

set_option linter.unusedSectionVars false

/-! ### The stack of a row -/

/-- a list of nodes below `k`, every node before its parent -/
def Topo (q : Nat → Nat) (k : Nat) : List Nat → Prop
  | [] => True
  | x :: l => x < k ∧ x ∉ l ∧ (q x = k ∨ q x ∈ l) ∧ Topo q k l

namespace Topo
variable {q : Nat → Nat} {k : Nat} {l : List Nat}

theorem lt (h : Topo q k l) {x : Nat} (hx : x ∈ l) : x < k := by
  induction l with
  | nil => simp at hx
  | cons a l ih =>
    rcases List.mem_cons.1 hx with rfl | hx
    · exact h.1
    · exact ih h.2.2.2 hx

theorem nodup (h : Topo q k l) : l.Nodup := by
  induction l with
  | nil => simp
  | cons a l ih => exact List.nodup_cons.2 ⟨h.2.1, ih h.2.2.2⟩

theorem length_le (h : Topo q k l) : l.length ≤ k := by
  have h1 : l ⊆ List.range k := fun x hx => List.mem_range.2 (h.lt hx)
  have := (h.nodup.subperm h1).length_le
  simpa using this

theorem next (h : Topo q k l) {x : Nat} (hx : x ∈ l) : q x = k ∨ q x ∈ l := by
  induction l with
  | nil => simp at hx
  | cons a l ih =>
    rcases List.mem_cons.1 hx with rfl | hx
    · exact h.2.2.1.imp id fun h => List.mem_cons_of_mem _ h
    · exact (ih h.2.2.2 hx).imp id fun h => List.mem_cons_of_mem _ h

theorem mem (hq : ∀ i, i < q i) (h : Topo q k l) {j v : Nat} (hj : j ∈ l) (hr : Reach q j v) (hv : v < k) :
    v ∈ l := by
  induction hr with
  | refl => exact hj
  | @up j v hr ih =>
    rcases h.next hj with h1 | h1
    · have := hr.le hq
      omega
    · exact ih h1 hv

theorem right {d t : List Nat} (h : Topo q k (d ++ t)) : Topo q k t := by
  induction d with
  | nil => exact h
  | cons a d ih => exact ih h.2.2.2

/-- descendants come first -/
theorem before (hq : ∀ i, i < q i) {d t : List Nat} {i j : Nat} (h : Topo q k (d ++ i :: t))
    (hj : j ∈ d ++ i :: t) (hr : Reach q j i) (hne : j ≠ i) : j ∈ d := by
  rcases List.mem_append.1 hj with hj | hj
  · exact hj
  · rcases List.mem_cons.1 hj with hj | hj
    · exact absurd hj hne
    · have h1 := h.right
      exact absurd (h1.2.2.2.mem hq hj hr h1.1) h1.2.1

end Topo

/-- the nodes met by the walk from `i` to the first marked node -/
inductive Path (f q : Nat → Nat) (k : Nat) : Nat → List Nat → Prop
  | stop {i : Nat} (h : f i = k) : Path f q k i []
  | step {i : Nat} {L : List Nat} (h : f i ≠ k) (hL : Path f q k (q i) L) : Path f q k i (i :: L)

theorem Path.congr {f g q : Nat → Nat} {k i : Nat} {L : List Nat} (hq : ∀ i, i < q i)
    (h : Path f q k i L) (hfg : ∀ v, i ≤ v → f v = g v) : Path g q k i L := by
  induction h with
  | @stop i h => exact .stop (by rw [← hfg i (Nat.le_refl _)]; exact h)
  | @step i L h _ ih =>
    exact .step (by rw [← hfg i (Nat.le_refl _)]; exact h) (ih fun v hv => hfg v (by have := hq i; omega))

theorem Path.topo {f q : Nat → Nat} {k i : Nat} {L ord : List Nat} (hq : ∀ i, i < q i)
    (h : Path f q k i L) (hf : ∀ v, v ≤ k → (f v = k ↔ v = k ∨ v ∈ ord)) (hord : Topo q k ord)
    (hr : Reach q i k) :
    Topo q k (L ++ ord) ∧ ∀ v, v ∈ L ++ ord ↔ v ∈ ord ∨ (v < k ∧ Reach q i v) := by
  induction h with
  | @stop i h =>
    refine ⟨hord, fun v => ⟨Or.inl, ?_⟩⟩
    rintro (h1 | ⟨h1, h2⟩)
    · exact h1
    · rcases (hf i (hr.le hq)).1 h with rfl | h3
      · have := h2.le hq
        omega
      · exact hord.mem hq h3 h2 h1
  | @step i L h _ ih =>
    have hik := hr.le hq
    have hne : i ≠ k := fun e => h ((hf i hik).2 (Or.inl e))
    have hno : i ∉ ord := fun e => h ((hf i hik).2 (Or.inr e))
    have hr' := hr.next hne
    obtain ⟨h1, h2⟩ := ih hr'
    have hqk := hr'.le hq
    have hqi := hq i
    refine ⟨⟨by omega, fun e => ?_, ?_, h1⟩, fun v => ?_⟩
    · rcases (h2 i).1 e with e | ⟨-, e⟩
      · exact hno e
      · have := e.le hq
        omega
    · by_cases e : q i = k
      · exact Or.inl e
      · exact Or.inr ((h2 _).2 (Or.inr ⟨by omega, .refl _⟩))
    · rw [List.cons_append, List.mem_cons, h2 v]
      constructor
      · rintro (rfl | e | ⟨e1, e2⟩)
        · exact Or.inr ⟨by omega, .refl _⟩
        · exact Or.inl e
        · exact Or.inr ⟨e1, .up e2⟩
      · rintro (e | ⟨e1, e2⟩)
        · exact Or.inr (Or.inl e)
        · rcases e2.split with rfl | e2
          · exact Or.inl rfl
          · exact Or.inr (Or.inr ⟨e1, e2⟩)

theorem numWalk_ok {n k : Nat} {q : Nat → Nat} {parent : Buf Int} (hk : k < n) (hq : ∀ i, i < q i)
    (hpar : Holds parent n (fun v => enc n (q v))) :
    ∀ (fuel i len : Nat) (pattern flag : Buf Nat) (f : Nat → Nat), k - i < fuel → len ≤ i → Reach q i k →
      pattern.size = n → HoldsOn flag n (· ≤ k) f → f k = k →
      Ok (numWalk k parent fuel (i : Int) len (pattern, flag)) fun w => ∃ L : List Nat, Path f q k i L ∧
        w.1 = len + L.length ∧ w.2.1.size = n ∧
        (∀ t, t < len ∨ len + L.length ≤ t → w.2.1[t]? = pattern[t]?) ∧
        (∀ t, t < L.length → w.2.1[len + t]? = some (L[t]?)) ∧
        HoldsOn w.2.2 n (· ≤ k) (fun v => if v ∈ L then k else f v) := by
  intro fuel
  induction fuel with
  | zero => intro i len pattern flag f h; omega
  | succ fuel ih =>
    intro i len pattern flag f hfuel hlen hr hps hf hfk
    have hik := hr.le hq
    unfold numWalk
    rw [rdI_nat, hf.rd (by omega : i < n) hik, ok_bind_eq]
    by_cases hfi : f i = k
    · rw [if_pos hfi, Ok_pure]
      exact ⟨[], .stop hfi, rfl, hps, fun _ _ => rfl, fun t ht => absurd ht (Nat.not_lt_zero _), hf.congr fun v _ hv => ⟨hv, by simp⟩⟩
    · rw [if_neg hfi]
      have hne : i ≠ k := fun e => hfi (e ▸ hfk)
      have hr' := hr.next hne
      have hqi := hq i
      have hqk := hr'.le hq
      have hw := wr_eq (b := pattern) (i := len) (v := (i : Int).toNat) (by omega)
      rw [hw, ok_bind_eq, wrI_nat]
      refine Ok.bind (hf.wr (by omega : i < n) k) fun fl hfl => ?_
      rw [rdI_nat, hpar.rd (by omega : i < n), ok_bind_eq, enc_lt (by omega : q i < n)]
      have hfl' : HoldsOn fl n (· ≤ k) (upd f i k) := hfl.congr fun v _ hv => ⟨Or.inl hv, rfl⟩
      refine (ih (q i) (len + 1) _ fl (upd f i k) (by omega) (by omega) hr' (by simpa using hps) hfl'
        (by rw [upd_ne _ _ (Ne.symm hne)]; exact hfk)).mono ?_
      rintro w ⟨L, g1, g2, g3, g4, g5, g6⟩
      refine ⟨i :: L, .step hfi (g1.congr hq fun v hv => upd_ne _ _ (by omega)), by rw [g2, List.length_cons]; omega, g3,
        fun t ht => ?_, fun t ht => ?_, g6.congr fun v _ hv => ⟨hv, ?_⟩⟩
      · rw [List.length_cons] at ht
        rw [g4 t (by omega), wr_ne hw (by omega)]
      · rcases t with _ | t
        · rw [Nat.add_zero, g4 len (Or.inl (by omega)), wr_self hw]
          simp
        · rw [List.length_cons] at ht
          have := g5 t (by omega)
          rw [show len + (t + 1) = len + 1 + t by omega, this]
          simp
      · by_cases h1 : v ∈ L
        · rw [if_pos h1, if_pos (List.mem_cons_of_mem _ h1)]
        · rw [if_neg h1]
          by_cases h2 : v = i
          · subst h2
            rw [upd_self, if_pos List.mem_cons_self]
          · rw [upd_ne _ _ h2, if_neg]
            simp [h1, h2]

theorem stackMove_ok {L : List Nat} :
    ∀ (len top : Nat) (pattern : Buf Nat), len ≤ top → top ≤ pattern.size → len ≤ L.length →
      (∀ t, t < len → pattern[t]? = some (L[t]?)) →
      Ok (stackMove len top pattern) fun r => r.1 = top - len ∧ r.2.size = pattern.size ∧
        (∀ t, top ≤ t → r.2[t]? = pattern[t]?) ∧ ∀ t, t < len → r.2[top - len + t]? = some (L[t]?) := by
  intro len
  induction len with
  | zero =>
    intro top pattern _ _ _ _
    unfold stackMove
    rw [Ok_pure]
    exact ⟨rfl, rfl, fun _ _ => rfl, fun t ht => by omega⟩
  | succ len ih =>
    intro top pattern h1 h2 h3 h4
    unfold stackMove
    rw [if_neg (by omega)]
    have hl : L[len]? = some (L[len]'(by omega)) := by simp
    have hr : rd pattern len = .ok (L[len]'(by omega)) := by
      rw [rd_ok_iff, h4 len (by omega), hl]
    rw [hr, ok_bind_eq]
    have hw := wr_eq (b := pattern) (i := top - 1) (v := (L[len]'(by omega))) (by omega)
    rw [hw, ok_bind_eq]
    refine (ih (top - 1) _ (by omega) (by simp; omega) (by omega) (fun t ht => ?_)).mono ?_
    · rw [wr_ne hw (by omega), h4 t (by omega)]
    · rintro r ⟨g1, g2, g3, g4⟩
      refine ⟨by omega, by simpa using g2, fun t ht => ?_, fun t ht => ?_⟩
      · rw [g3 t (by omega), wr_ne hw (by omega)]
      · by_cases e : t = len
        · subst e
          rw [show top - (t + 1) + t = top - 1 by omega, g3 _ (Nat.le_refl _), wr_self hw, hl]
        · have := g4 t (by omega)
          rw [show top - (len + 1) + t = top - 1 - len + t by omega, this]

/-- the list `l` lies in `b` from cell `top` to the end -/
def Stack (n : Nat) (b : Buf Nat) (top : Nat) (l : List Nat) : Prop :=
  b.size = n ∧ top + l.length = n ∧ ∀ t, t < l.length → b[top + t]? = some (l[t]?)

section generic
variable {F : Type} [Zero F] [One F] [Add F] [Sub F] [Mul F] [Div F] [Neg F] [OfScientific F]
  [IntCast F] [PFloat F]

/-- column `k` of the matrix, as scattered by the program up to entry `p` -/
def colVal (ap ai : Nat → Nat) (ax : Nat → F) (k : Nat) : Nat → Nat → F
  | 0 => fun _ => 0
  | t + 1 => upd (colVal ap ai ax k t) (ai (ap k + t)) (ax (ap k + t))

/-- the entry of the matrix at row `i` of column `k` (the last one, if there are several) -/
def ent (ap ai : Nat → Nat) (ax : Nat → F) (k i : Nat) : F :=
  colVal ap ai ax k (ap (k + 1) - ap k) i

theorem colVal_zero {ap ai : Nat → Nat} {ax : Nat → F} {k i : Nat} :
    ∀ t, (∀ p, ap k ≤ p → p < ap k + t → ai p ≠ i) → colVal ap ai ax k t i = 0
  | 0, _ => rfl
  | t + 1, h => by
    unfold colVal
    rw [upd_ne _ _ (Ne.symm (h _ (by omega) (by omega)))]
    exact colVal_zero t fun p h1 h2 => h p h1 (by omega)

theorem numScatter_ok {n k : Nat} {ap ai q : Nat → Nat} {ax : Nat → F} {Ap Ai : Buf Nat} {Ax : Buf F}
    {parent : Buf Int} (hU : UpperPat n ap ai) (hT : Tree n n ap ai q)
    (hAp : Holds Ap (n + 1) ap) (hAi : Has' Ai (ap n) ai) (hAx : Has' Ax (ap n) ax)
    (hpar : Holds parent n (fun v => enc n (q v))) (hk : k < n) {S : Num F} {f c : Nat → Nat}
    (hy : HoldsOn S.y n (· < k) (fun _ => (0 : F))) (hl : HoldsOn S.lnz n (· < k) c)
    (hp : S.pattern.size = n) (hf : HoldsOn S.flag n (· < k) f) (hfk : ∀ v, v < k → f v < k) :
    Ok (numScatter n Ap Ai Ax parent k S) fun r => ∃ (ord : List Nat) (f' : Nat → Nat),
      Topo q k ord ∧ (∀ v, v ∈ ord ↔ Row ap ai q k v) ∧ Stack n r.2.pattern r.1 ord ∧
      HoldsOn r.2.y n (· ≤ k) (ent ap ai ax k) ∧ HoldsOn r.2.lnz n (· ≤ k) (upd c k 0) ∧
      HoldsOn r.2.flag n (· ≤ k) f' ∧ (∀ v, v ≤ k → f' v ≤ k) ∧ r.2.li = S.li ∧ r.2.lx = S.lx ∧ r.2.d = S.d := by
  unfold numScatter
  refine Ok.bind (hy.wr hk 0) fun y hy' => ?_
  refine Ok.bind (hf.wr hk k) fun fl hfl => ?_
  refine Ok.bind (hl.wr hk 0) fun lz hlz => ?_
  rw [hAp.rd (by omega), ok_bind_eq, hAp.rd (by omega), ok_bind_eq]
  have hmono := hU.csc.mono k hk
  refine loop_ok (I := fun p (t : Nat × Num F) => ∃ (ord : List Nat) (f' : Nat → Nat),
      Topo q k ord ∧ (∀ v, v ∈ ord ↔ v < k ∧ ∃ p', ap k ≤ p' ∧ p' < p ∧ Reach q (ai p') v) ∧
      Stack n t.2.pattern t.1 ord ∧ HoldsOn t.2.y n (· ≤ k) (colVal ap ai ax k (p - ap k)) ∧
      HoldsOn t.2.lnz n (· ≤ k) (upd c k 0) ∧ HoldsOn t.2.flag n (· ≤ k) f' ∧ (∀ v, v ≤ k → f' v ≤ k) ∧
      (∀ v, v ≤ k → (f' v = k ↔ v = k ∨ v ∈ ord)) ∧ t.2.li = S.li ∧ t.2.lx = S.lx ∧ t.2.d = S.d)
    hmono ?_ ?_ ?_
  · refine ⟨[], upd f k k, trivial, fun v => ?_, ⟨hp, rfl, fun t ht => absurd ht (Nat.not_lt_zero _)⟩, ?_, ?_, ?_, fun v hv => ?_, fun v hv => ?_, rfl, rfl, rfl⟩
    · simp only [List.not_mem_nil, false_iff, not_and, not_exists]
      intro _ p' h1 h2; omega
    · refine hy'.congr fun v _ hv => ?_
      rw [Nat.sub_self]
      by_cases h : v = k
      · subst h; exact ⟨Or.inr rfl, by rw [upd_self]; rfl⟩
      · exact ⟨Or.inl (by omega), by rw [upd_ne _ _ h]; rfl⟩
    · refine hlz.congr fun v _ hv => ⟨?_, rfl⟩
      by_cases h : v = k
      · exact Or.inr h
      · exact Or.inl (by omega)
    · refine hfl.congr fun v _ hv => ⟨?_, rfl⟩
      by_cases h : v = k
      · exact Or.inr h
      · exact Or.inl (by omega)
    · by_cases h : v = k
      · subst h; rw [upd_self]
      · rw [upd_ne _ _ h]; have := hfk v (by omega); omega
    · by_cases h : v = k
      · subst h; rw [upd_self]; simp
      · rw [upd_ne _ _ h]
        have := hfk v (by omega)
        simp only [List.not_mem_nil, or_false]
        omega
  · rintro p ⟨top, S'⟩ hp1 hp2 ⟨ord, f', h1, h2, ⟨h3a, h3b, h3c⟩, h4, h5, h6, h7, h8, h9, h10, h11⟩
    have hpn : p < ap n := Nat.lt_of_lt_of_le hp2 (hU.csc.le_top (by omega))
    simp only at h3a h3b h3c h4 h5 h6 h9 h10 h11
    rw [hAi.rd hpn, ok_bind_eq, hAx.rd hpn, ok_bind_eq]
    have hai := hU.up k hk p hp1 hp2
    have hr := hT.col k hk p hp1 hp2
    refine Ok.bind (h4.wr (by omega : ai p < n) (ax p)) fun y2 hy2 => ?_
    refine Ok.bind (numWalk_ok hk hT.inc hpar (n + 1) (ai p) 0 S'.pattern S'.flag f' (by omega) (Nat.zero_le _) hr h3a h6
      ((h8 k (Nat.le_refl _)).2 (Or.inl rfl))) ?_
    rintro ⟨wl, wp, wf⟩ ⟨L, g1, g2, g3, g4, g5, g6⟩
    simp only [Nat.zero_add] at g2 g3 g4 g5 g6
    obtain ⟨g7, g8⟩ := g1.topo hT.inc h8 h1 hr
    have hlen := g7.length_le
    rw [List.length_append] at hlen
    subst g2
    refine Ok.bind (stackMove_ok (L := L) L.length top wp (by omega) (by omega) (Nat.le_refl _) g5) ?_
    rintro ⟨top', pat'⟩ ⟨e1, e2, e3, e4⟩
    simp only at e1 e2 e3 e4
    rw [Ok_pure]
    refine ⟨L ++ ord, _, g7, fun v => ?_, ⟨by simp only; omega, by rw [List.length_append]; simp only; omega, fun t ht => ?_⟩, ?_, h5, g6, fun v hv => ?_, fun v hv => ?_, h9, h10, h11⟩
    · rw [g8 v, h2 v]
      constructor
      · rintro (⟨e1, p', e2, e3, e4⟩ | ⟨e1, e2⟩)
        · exact ⟨e1, p', e2, by omega, e4⟩
        · exact ⟨e1, p, hp1, by omega, e2⟩
      · rintro ⟨e1, p', e2, e3, e4⟩
        by_cases e : p' = p
        · subst e; exact Or.inr ⟨e1, e4⟩
        · exact Or.inl ⟨e1, p', e2, by omega, e4⟩
    · simp only
      rw [List.length_append] at ht
      subst e1
      by_cases e : t < L.length
      · rw [e4 t e, List.getElem?_append_left e]
      · rw [List.getElem?_append_right (by omega), e3 _ (by omega), g4 _ (Or.inr (by omega)),
          ← h3c (t - L.length) (by omega)]
        congr 1; omega
    · simp only
      rw [show p + 1 - ap k = (p - ap k) + 1 by omega]
      unfold colVal
      rw [show ap k + (p - ap k) = p by omega]
      exact hy2.congr fun v _ hv => ⟨Or.inl hv, rfl⟩
    · by_cases e : v ∈ L
      · rw [if_pos e]
      · rw [if_neg e]; exact h7 v hv
    · by_cases e : v ∈ L
      · rw [if_pos e]; simp [e]
      · rw [if_neg e, h8 v hv]; simp [e]
  · rintro ⟨top, S'⟩ ⟨ord, f', h1, h2, h3, h4, h5, h6, h7, -, h9, h10, h11⟩
    exact ⟨ord, f', h1, h2, h3, h4, h5, h6, h7, h9, h10, h11⟩

end generic

end Ecos.Fact
