import Verif.Spec.Cone

/-!
# Values computed by the cone routines: residuals, `bring2cone`, `unitInitialization`
-/
namespace Ecos

open Finset

set_option linter.unusedSectionVars false

/-- linear rows and blocks together -/
theorem Blocks.global {α : Type} {S : Shape} {b b' : Buf α} {f : Nat → α} (h : Blocks S b b' (S.block f))
    (hl : Has b 0 S.l f) : Has b' 0 S.fexv f := by
  intro i hi
  rw [Nat.zero_add]
  rcases S.row_cases hi with h1 | ⟨k, hk, h2, h3⟩
  · rw [h.outside i (Or.inl h1)]
    have := hl i h1
    rwa [Nat.zero_add] at this
  · have := h.inside k hk (i - S.start k) (by omega)
    rw [show S.start k + (i - S.start k) = i by omega] at this
    rw [this, Shape.block, show S.start k + (i - S.start k) = i by omega]

theorem Has.block {α : Type} {S : Shape} {b : Buf α} {f : Nat → α} (h : Has b 0 S.fexv f) {k : Nat}
    (hk : k < S.ns) : Has b (S.start k) (S.q k) (S.block f k) := by
  have := h.sub (o' := S.start k) (k' := S.q k) (S.start_le hk)
  rwa [Nat.zero_add] at this

section generic
variable {F : Type} [Zero F] [One F] [Add F] [Sub F] [Mul F] [Div F] [Neg F] [OfScientific F]
  [IntCast F] [PFloat F]

/-! ### Residuals -/

/-- value of `socres` -/
def socresF (p : Nat) (u : Nat → F) : F := itr (p - 1) (u 0 * u 0) fun i r => r - u (i + 1) * u (i + 1)

theorem socres_eq {b : Buf F} {k p : Nat} {u : Nat → F} (h : Has b k p u) (hp : 0 < p) :
    socres b k p = .ok (socresF p u) := by
  unfold socres
  rw [h.rd0 hp, ok_bind_eq]
  refine loop_itr (n := p - 1) (by omega) fun i s hi => ?_
  rw [show k + (1 + i) = k + (i + 1) by omega, h.rd (by omega)]
  rfl

/-- value of `coneRes` -/
def coneResF (p : Nat) (u : Nat → F) : F :=
  u 0 - PFloat.sqrt (itr (p - 1) 0 fun i r => r + u (i + 1) * u (i + 1))

theorem coneRes_eq {b : Buf F} {k p : Nat} {u : Nat → F} (h : Has b k p u) (hp : 0 < p) :
    coneRes b k p = .ok (coneResF p u) := by
  unfold coneRes
  rw [h.rd0 hp, ok_bind_eq, loop_itr (n := p - 1) (f := fun i r => r + u (i + 1) * u (i + 1)) (by omega)]
  · rfl
  · intro i s hi
    rw [show k + (1 + i) = k + (i + 1) by omega, h.rd (by omega)]
    rfl

/-- value of `maxRes` -/
def maxResF (S : Shape) (r : Nat → F) : F :=
  itr S.ns (itr S.l (-(GAMMA : F)) fun i a => raise a (r i)) fun k a => raise a (coneResF (S.q k) (S.block r k))

theorem maxRes_eq {C : Cone F} {S : Shape} (hC : ConeIs C S) {b : Buf F} {r : Nat → F}
    (h : Has b 0 S.fexv r) : maxRes C b = .ok (maxResF S r) := by
  have hl : S.l ≤ S.fexv := S.l_le _
  unfold maxRes
  rw [hC.l, loop_itr (n := S.l) (f := fun i a => raise a (r i)) (by omega), ok_bind_eq]
  · have := forSoc_ok0 hC (s := itr S.l (-(GAMMA : F)) fun i a => raise a (r i))
      (body := fun _ soc k alpha => do
        let c ← coneRes b k soc.p
        pure (raise alpha c))
      (fun k a => a = itr k (itr S.l (-(GAMMA : F)) fun i a => raise a (r i)) fun k a =>
        raise a (coneResF (S.q k) (S.block r k))) rfl
      (by
        rintro k soc a hk _ hq rfl
        rw [hq, coneRes_eq (h.block hk) (hC.pos k hk)]
        rfl)
    rw [hC.l] at this
    obtain ⟨t, ht, ht2, -⟩ := (Ok.def _ _).1 this
    rw [ht, ok_bind_eq, ht2]
    rfl
  · intro i s hi
    rw [h.rd (by omega)]
    rfl

/-- value of `bring2cone` on a second-order cone -/
def shiftF (a : F) (u : Nat → F) : Nat → F := fun j => if j = 0 then u 0 + a else u j

theorem bring2cone_eq {C : Cone F} {S : Shape} (hC : ConeIs C S) {b s : Buf F} {r : Nat → F}
    (h : Has b 0 S.fexv r) (hs : S.fexv ≤ s.size) :
    Ok (bring2cone C b s) fun s' => s'.size = s.size ∧ (∀ j, S.fexv ≤ j → s'[j]? = s[j]?) ∧
      Has s' 0 S.l (fun i => r i + (maxResF S r + 1)) ∧
      ∀ k, k < S.ns → Has s' (S.start k) (S.q k) (shiftF (maxResF S r + 1) (S.block r k)) := by
  have hl : S.l ≤ S.fexv := S.l_le _
  unfold bring2cone
  rw [maxRes_eq hC h, ok_bind_eq]
  refine Ok.bind (fill_ok (g := fun i => r i + (maxResF S r + 1)) (by rw [hC.l]; omega) ?_) fun s1 h1 => ?_
  · intro i hi
    rw [hC.l] at hi
    have := h.rd (j := i) (by omega)
    rw [Nat.zero_add] at this
    rw [this]
    rfl
  rw [hC.l] at h1
  refine Ok.bind (forSoc_blocks hC (g := fun k => shiftF (maxResF S r + 1) (S.block r k)) ?_) ?_
  · intro k soc b1 hk _ hq hb1 _
    have hle := S.start_le hk
    have hpos := hC.pos k hk
    have hb := h.block hk
    rw [hb.rd0 hpos, ok_bind_eq]
    refine Ok.bind (wr_seg (by rw [hb1, h1.size]; omega)) fun b2 h2 => ?_
    refine (fill_ok (g := fun j => S.block r k (j + 1)) (by rw [h2.size, hb1, h1.size, hq]; omega) ?_).mono
      fun b3 h3 => ?_
    · intro j hj
      rw [show S.start k + 1 + j = S.start k + (j + 1) by omega, hb.rd (by omega)]
    · have := h2.append h3
      rw [hq, show 1 + (S.q k - 1) = S.q k by omega] at this
      refine this.congr fun j hj => ?_
      unfold shiftF
      by_cases hj0 : j = 0
      · subst hj0; simp [Shape.block]
      · rw [if_neg (by omega), if_neg hj0, show j - 1 + 1 = j by omega]
  · rintro t ⟨h2, -⟩
    rw [Ok_pure]
    refine ⟨h2.size.trans h1.size, fun j hj => ?_, fun j hj => ?_, h2.inside⟩
    · rw [h2.outside j (Or.inr hj), h1.outside j (by omega)]
    · rw [h2.outside (0 + j) (by omega)]
      exact h1.inside j hj

end generic

/-! ### Over the reals -/

theorem coneResF_real (p : Nat) (u : Nat → ℝ) : coneResF p u = u 0 - Real.sqrt (tailSq p u) := by
  unfold coneResF tailSq
  rw [itr_sum]
  simp

theorem socresF_real (p : Nat) (u : Nat → ℝ) : socresF p u = u 0 * u 0 - tailSq p u := by
  unfold socresF tailSq
  rw [itr_sub]

theorem raise_real (a x : ℝ) : a ≤ raise a x ∧ 0 < x ∨ a ≤ raise a x ∧ -x ≤ raise a x := by
  unfold raise
  by_cases hx : x ≤ 0
  · right
    by_cases ha : a < -x
    · simp [hx, ha, ha.le]
    · simp [ha]
      rw [not_lt] at ha
      exact ha
  · left
    simp [hx]
    exact not_le.1 hx

theorem itr_raise (n : Nat) (a : ℝ) (g : Nat → ℝ) :
    a ≤ itr n a (fun i b => raise b (g i)) ∧
    ∀ i, i < n → 0 < g i ∨ -(g i) ≤ itr n a (fun i b => raise b (g i)) := by
  induction n with
  | zero => exact ⟨le_rfl, fun i hi => by omega⟩
  | succ n ih =>
    rw [itr_succ]
    obtain ⟨h1, h2⟩ := ih
    have h3 := raise_real (itr n a fun i b => raise b (g i)) (g n)
    have h4 : itr n a (fun i b => raise b (g i)) ≤ raise (itr n a fun i b => raise b (g i)) (g n) := by
      rcases h3 with h | h <;> exact h.1
    refine ⟨le_trans h1 h4, fun i hi => ?_⟩
    by_cases hin : i = n
    · subst hin
      rcases h3 with h | h
      · exact Or.inl h.2
      · exact Or.inr h.2
    · rcases h2 i (by omega) with h | h
      · exact Or.inl h
      · exact Or.inr (le_trans h h4)

theorem maxResF_real (S : Shape) (r : Nat → ℝ) :
    -0.99 ≤ maxResF S r ∧ (∀ i, i < S.l → 0 < r i ∨ -(r i) ≤ maxResF S r) ∧
    ∀ k, k < S.ns → 0 < coneResF (S.q k) (S.block r k) ∨ -(coneResF (S.q k) (S.block r k)) ≤ maxResF S r := by
  unfold maxResF
  obtain ⟨h1, h2⟩ := itr_raise S.l (-(GAMMA : ℝ)) r
  obtain ⟨h3, h4⟩ := itr_raise S.ns (itr S.l (-(GAMMA : ℝ)) fun i a => raise a (r i))
    (fun k => coneResF (S.q k) (S.block r k))
  refine ⟨?_, fun i hi => ?_, h4⟩
  · have : -(GAMMA : ℝ) = -0.99 := by unfold GAMMA; norm_num
    rw [this] at h1 h3
    rw [this]
    exact le_trans h1 h3
  · rcases h2 i hi with h | h
    · exact Or.inl h
    · exact Or.inr (le_trans h h3)

end Ecos
