import Verif.Lemmas.Dir1

/-!
# Exponential cones within one pass: directions and line search (memory)
-/
namespace Ecos.Dir

open Ecos Finset Ecos.Fact Ecos.Asm

set_option linter.unusedSectionVars false

section generic
variable {F : Type} [Zero F] [One F] [Add F] [Sub F] [Mul F] [Div F] [Neg F] [OfScientific F]
  [IntCast F] [PFloat F] {C : Cone F} {S : Shape}

/-- the rows of the exponential cones are written -/
def ExpFull (S : Shape) (b : Buf F) : Prop := ∃ e, Has b S.fexv (3 * S.ne) e

theorem Has.getF {b : Buf F} {off k : Nat} {f : Nat → F} (h : Has b off k f) : ∀ j, j < k → ∃ v, b[off + j]? = some (some v) :=
  fun j hj => ⟨_, h j hj⟩

theorem has_of_cells {b : Buf F} {off k : Nat} (h : ∀ j, j < k → ∃ v, b[off + j]? = some (some v)) : ∃ f, Has b off k f := by
  classical
  refine ⟨fun j => if hj : j < k then (h j hj).choose else 0, fun j hj => ?_⟩
  beta_reduce
  rw [dif_pos hj]
  exact (h j hj).choose_spec

theorem holds_of_two {b : Buf F} {f : Nat → F} (hs : b.size = S.m) (h1 : Has b 0 S.fexv f) (h2 : ExpFull S b) :
    ∃ g, Holds b S.m g ∧ ∀ i, i < S.fexv → g i = f i := by
  obtain ⟨e, he⟩ := h2
  have hm : S.m = S.fexv + 3 * S.ne := rfl
  refine ⟨fun i => if i < S.fexv then f i else e (i - S.fexv), ⟨hs, fun i hi => ?_⟩, fun i hi => if_pos hi⟩
  beta_reduce
  by_cases c : i < S.fexv
  · rw [if_pos c]
    have := h1 i c
    rwa [Nat.zero_add] at this
  · rw [if_neg c]
    have := he (i - S.fexv) (by omega)
    rwa [show S.fexv + (i - S.fexv) = i by omega] at this

theorem expDs_ok (hC : ConeIs C S) {V : ConeV F} (hV : ScalHolds C S V) {ds dz : Buf F} {z : Nat → F} (hs : ds.size = S.m)
    (hz : Holds dz S.m z) :
    Ok (expDs C S.m ds dz) fun r => r.size = S.m ∧ (∀ j, j < S.fexv → r[j]? = ds[j]?) ∧ ExpFull S r := by
  have hm : S.m = S.fexv + 3 * S.ne := rfl
  unfold expDs
  rw [hC.fexv]
  refine Ok.bind (fill_ok (g := fun _ => 0.0) (by omega) fun _ _ => rfl) fun b1 h1 => ?_
  unfold scaleToAddExpcone
  rw [hC.nexc]
  refine (loop_ok (fun n r => r.size = S.m ∧ (∀ j, j < S.fexv → r[j]? = ds[j]?) ∧ ∀ j, j < 3 * S.ne → ∃ v, r[S.fexv + j]? = some (some v))
    (Nat.zero_le _) ⟨by rw [h1.size, hs], fun j hj => h1.outside j (by omega), fun j hj => ⟨_, h1.inside j (by omega)⟩⟩ ?_ fun _ h => h).mono
    fun r hr => ⟨hr.1, hr.2.1, has_of_cells hr.2.2⟩
  rintro l r _ hl ⟨r1, r2, r3⟩
  obtain ⟨e, he⟩ : ∃ e, C.expc[l]? = some e := ⟨_, Array.getElem?_eq_getElem (by rw [hC.esize]; exact hl)⟩
  rw [getIdx_some he, ok_bind_eq]
  obtain ⟨y, hy⟩ := has_of_cells (b := r) (off := S.fexv + 3 * l) (k := 3) fun j hj => by
    have := r3 (3 * l + j) (by omega)
    rwa [← Nat.add_assoc] at this
  refine (scaleExp1_ok (hV.ev l e hl he) (hz.has (by omega)) hy).mono fun r' h => ⟨h.size.trans r1, fun j hj => ?_, fun j hj => ?_⟩
  · rw [h.outside j (by omega), r2 j hj]
  · by_cases c : 3 * l ≤ j ∧ j < 3 * l + 3
    · have := h.inside (j - 3 * l) (by omega)
      rw [show S.fexv + 3 * l + (j - 3 * l) = S.fexv + j by omega] at this
      exact ⟨_, this⟩
    · rw [h.outside _ (by omega)]
      exact r3 j hj

theorem expDsFinal_ok (hC : ConeIs C S) {V : ConeV F} (hV : ScalHolds C S V) {ds : Buf F} (hs : ds.size = S.m) (he : ExpFull S ds) :
    Ok (expDsFinal C ds) fun r => r.size = S.m ∧ (∀ j, j < S.fexv → r[j]? = ds[j]?) ∧ ExpFull S r := by
  have hm : S.m = S.fexv + 3 * S.ne := rfl
  unfold expDsFinal
  rw [hC.nexc]
  obtain ⟨e0, he0⟩ := he
  refine (loop_ok (fun n r => r.size = S.m ∧ (∀ j, j < S.fexv → r[j]? = ds[j]?) ∧ ∀ j, j < 3 * S.ne → ∃ v, r[S.fexv + j]? = some (some v))
    (Nat.zero_le _) ⟨hs, fun j hj => rfl, fun j hj => ⟨_, he0 j (by omega)⟩⟩ ?_ fun _ h => h).mono
    fun r hr => ⟨hr.1, hr.2.1, has_of_cells hr.2.2⟩
  rintro l r _ hl ⟨r1, r2, r3⟩
  obtain ⟨e, he⟩ : ∃ e, C.expc[l]? = some e := ⟨_, Array.getElem?_eq_getElem (by rw [hC.esize]; exact hl)⟩
  rw [getIdx_some he, ok_bind_eq, hC.fexv]
  obtain ⟨y, hy⟩ := has_of_cells (b := r) (off := S.fexv + 3 * l) (k := 3) fun j hj => by
    have := r3 (3 * l + j) (by omega)
    rwa [← Nat.add_assoc] at this
  refine (modify_ok (g := fun i => (-y i) - V.eg l i) hy (by omega) fun i hi => ?_).mono fun r' h => ⟨h.size.trans r1, fun j hj => ?_, fun j hj => ?_⟩
  · rw [(hV.eg l e hl he).rd hi]
    rfl
  · rw [h.outside j (by omega), r2 j hj]
  · by_cases c : 3 * l ≤ j ∧ j < 3 * l + 3
    · have := h.inside (j - 3 * l) (by omega)
      rw [show S.fexv + 3 * l + (j - 3 * l) = S.fexv + j by omega] at this
      exact ⟨_, this⟩
    · rw [h.outside _ (by omega)]
      exact r3 j hj

/-- the affine direction of the exponential rows (ecos.c:1419-1424) -/
theorem negSub_ok {ds sb : Buf F} {s : Nat → F} (hs : ds.size = S.m) (he : ExpFull S ds) (hsb : Holds sb S.m s) :
    Ok (modify ds S.fexv (S.m - S.fexv) fun i v => do
      let s ← rd sb (S.fexv + i)
      pure ((-v) - s)) fun r => r.size = S.m ∧ (∀ j, j < S.fexv → r[j]? = ds[j]?) ∧ ExpFull S r := by
  have hm : S.m = S.fexv + 3 * S.ne := rfl
  obtain ⟨e, he⟩ := he
  refine (modify_ok (o := e) (g := fun i => (-e i) - s (S.fexv + i)) (fun j hj => he j (by omega)) (by omega) fun i hi => ?_).mono
    fun r h => ⟨h.size.trans hs, fun j hj => h.outside j (by omega), _, fun j hj => h.inside j (by omega)⟩
  rw [hsb.rd (by omega)]
  rfl

/-- `RHS_combined` overwrites the gradients of the exponential cones and nothing else -/
theorem expCentering_ok {X : ConeIx} (hC : ConeWF C S X) {V : ConeV F} (hV : ScalHolds C S V) {sb : Buf F} {s : Nat → F}
    (hs : Holds sb S.m s) (t : F) :
    Ok (expCentering C sb t) fun r => ConeWF r S X ∧ r.lpc = C.lpc ∧ r.soc = C.soc ∧
      ∃ V', ScalHolds r S V' ∧ V'.lw = V.lw ∧ V'.lv = V.lv ∧ V'.V = V.V ∧ V'.ev = V.ev := by
  have hm : S.m = S.fexv + 3 * S.ne := rfl
  unfold expCentering
  rw [hC.is.nexc]
  refine loop_ok (fun _ (r : Cone F) => ConeWF r S X ∧ r.lpc = C.lpc ∧ r.soc = C.soc ∧
      ∃ V', ScalHolds r S V' ∧ V'.lw = V.lw ∧ V'.lv = V.lv ∧ V'.V = V.V ∧ V'.ev = V.ev)
    (Nat.zero_le _) ⟨hC, rfl, rfl, V, hV, rfl, rfl, rfl, rfl⟩ ?_ fun _ h => h
  rintro l r _ hl ⟨r1, r2, r3, V', r4, r5, r6, r7, r8⟩
  have hlt : l < r.expc.size := by rw [r1.is.esize]; exact hl
  obtain ⟨e, he⟩ : ∃ e, r.expc[l]? = some e := ⟨_, Array.getElem?_eq_getElem hlt⟩
  rw [getIdx_some he, ok_bind_eq]
  have hg := r4.eg l e hl he
  refine Ok.bind (modify_ok (g := fun i => s (S.fexv + 3 * l + i) + t * V'.eg l i) hg.has0 (by rw [hg.size]) fun i hi => ?_) fun g h => ?_
  · rw [r1.is.fexv, hs.rd (by omega)]
    rfl
  have hg' := h.holds hg.size
  refine Ok.bind (setIdx_ok hlt) ?_
  rintro a ⟨a1, a2, a3⟩
  rw [Ok_pure]
  have hi := r1.is
  have hcase : ∀ k c, a[k]? = some c → (k = l ∧ c = { e with g := g }) ∨ (k ≠ l ∧ r.expc[k]? = some c) := by
    intro k c hc
    by_cases e : k = l
    · subst e
      rw [a2] at hc
      injection hc with hc
      exact Or.inl ⟨rfl, hc.symm⟩
    · exact Or.inr ⟨e, by rw [← a3 k e]; exact hc⟩
  refine ⟨⟨⟨hi.l, hi.nsoc, hi.soc, hi.pos, hi.nexc, hi.fexv, hi.nsize, by show a.size = _; rw [a1, hi.esize]⟩, r1.lw, r1.lv, r1.lk, r1.swf, ?_⟩, r2, r3,
    { V' with eg := fun k => if k = l then fun i => s (S.fexv + 3 * l + i) + t * V'.eg l i else V'.eg k }, ⟨r4.lw, r4.lv, r4.soc, ?_, ?_⟩, r5, r6, r7, r8⟩
  · intro k c hk hc
    rcases hcase k c hc with ⟨rfl, rfl⟩ | ⟨-, hc'⟩
    · have := r1.ewf k e hk he
      exact ⟨this.cs, this.v, hg'.size⟩
    · exact r1.ewf k c hk hc'
  · intro k c hk hc
    rcases hcase k c hc with ⟨rfl, rfl⟩ | ⟨-, hc'⟩
    · exact r4.ev k e hk he
    · exact r4.ev k c hk hc'
  · intro k c hk hc
    rcases hcase k c hc with ⟨rfl, rfl⟩ | ⟨hne, hc'⟩
    · simp only [if_true]
      exact hg'
    · simp only [if_neg hne]
      exact r4.eg k c hk hc'

/-! ### The line search for exponential cones -/

theorem feas_ok {body : F → F → F → Bool} {b : Buf F} {f : Nat → F} {n off : Nat} (h : Has b off (3 * n) f) :
    Ok (loopE 0 n () fun j _ => do
      let x1 ← rd b (off + 3 * j)
      let x2 ← rd b (off + 3 * j + 1)
      let x3 ← rd b (off + 3 * j + 2)
      pure (if body x1 x2 x3 then Sum.inl () else Sum.inr () : Unit ⊕ Unit)) fun _ => True := by
  refine loopE_ok (fun _ _ => True) (fun _ => True) (Nat.zero_le _) trivial ?_ (fun _ _ => trivial) fun _ _ => trivial
  intro j _ _ hj _
  rw [h.rd (by omega), ok_bind_eq, show off + 3 * j + 1 = off + (3 * j + 1) by omega, h.rd (by omega), ok_bind_eq,
    show off + 3 * j + 2 = off + (3 * j + 2) by omega, h.rd (by omega), ok_bind_eq, Ok_pure]
  split
  · exact Or.inl ⟨_, rfl, trivial⟩
  · exact Or.inr ⟨_, rfl, trivial⟩

theorem muOf_ok {ws wz : Buf F} {n j : Nat} {s z : Nat → F} (hs : Holds ws n s) (hz : Holds wz n z) (hj : j + 2 < n) :
    Ok (muOf ws wz j) fun _ => True := by
  unfold muOf
  rw [hs.rd (by omega), ok_bind_eq, hz.rd (by omega), ok_bind_eq, hs.rd (by omega), ok_bind_eq, hz.rd (by omega), ok_bind_eq,
    hs.rd (by omega), ok_bind_eq, hz.rd (by omega), ok_bind_eq, Ok_pure]
  trivial

theorem muiWalk_ok {ws wz : Buf F} {s z : Nat → F} (hs : Holds ws S.m s) (hz : Holds wz S.m z) (mu : F) :
    ∀ (fuel j : Nat) (mui : F), S.m < j + fuel → (∃ l, l ≤ S.ne ∧ j = S.fexv + 3 * l) → Ok (muiWalk ws wz S.m mu fuel j mui) fun _ => True := by
  have hm : S.m = S.fexv + 3 * S.ne := rfl
  intro fuel
  induction fuel with
  | zero =>
    rintro j mui h1 ⟨l, hl, hj⟩
    omega
  | succ n ih =>
    rintro j mui h1 ⟨l, hl, hj⟩
    unfold muiWalk
    split
    · rename_i hc
      simp only [Bool.and_eq_true, decide_eq_true_eq] at hc
      have hn : l + 1 ≤ S.ne := by omega
      simp only
      split
      · refine Ok.bind (muOf_ok hs hz (by omega)) fun _ _ => ?_
        exact ih _ _ (by omega) ⟨l + 1, hn, by omega⟩
      · exact ih _ _ (by omega) ⟨l + 1, hn, by omega⟩
    · rw [Ok_pure]
      trivial

theorem primalFeas_ok {b : Buf F} {f : Nat → F} {n off : Nat} (h : Has b off (3 * n) f) :
    Ok (evalExpPrimalFeas b off n) fun _ => True :=
  Ok.bind (feas_ok (body := expPrimalBad) h) fun _ _ => by rw [Ok_pure]; trivial

theorem dualFeas_ok {b : Buf F} {f : Nat → F} {n off : Nat} (h : Has b off (3 * n) f) :
    Ok (evalExpDualFeas b off n) fun _ => True :=
  Ok.bind (feas_ok (body := expDualBad) h) fun _ _ => by rw [Ok_pure]; trivial

theorem barrier_ok {b1 b2 : Buf F} {f g : Nat → F} {n off : Nat} (h : Has b1 off (3 * n) f) (h2 : Has b2 off (3 * n) g) :
    Ok (evalBarrierValue b1 b2 off n) fun _ => True := by
  unfold evalBarrierValue
  refine Ok.bind (loop_ok (fun _ _ => True) (Nat.zero_le _) trivial ?_ fun _ h => h) fun _ _ => by rw [Ok_pure]; trivial
  intro j t _ hj _
  rw [h2.rd (by omega), ok_bind_eq, show off + 3 * j + 1 = off + (3 * j + 1) by omega, h2.rd (by omega), ok_bind_eq,
    show off + 3 * j + 2 = off + (3 * j + 2) by omega, h2.rd (by omega), ok_bind_eq, h.rd (by omega), ok_bind_eq, h.rd (by omega), ok_bind_eq,
    h.rd (by omega), ok_bind_eq, Ok_pure]
  trivial

theorem symBarrier_ok [HasInf F] (hC : ConeIs C S) {b1 b2 : Buf F} {f g : Nat → F} (h : Holds b1 S.m f) (h2 : Holds b2 S.m g) (t k d : F) :
    Ok (evalSymmetricBarrierValue b1 b2 t k C d) fun _ => True := by
  have hm : S.m = S.fexv + 3 * S.ne := rfl
  have hl : S.l ≤ S.fexv := S.l_le S.ns
  unfold evalSymmetricBarrierValue
  refine Ok.bind (loop_ok (fun _ _ => True) (Nat.zero_le _) trivial ?_ fun _ h => h) fun _ _ => ?_
  · intro j t _ hj _
    rw [hC.l] at hj
    rw [h.rd (by omega), ok_bind_eq, h2.rd (by omega), ok_bind_eq, Ok_pure]
    trivial
  · refine Ok.bind (forSoc_ok0 hC (fun _ _ => True) trivial ?_) fun _ _ => by rw [Ok_pure]; trivial
    intro k soc s hk hs hq _
    have hle : S.start k + S.q k ≤ S.fexv := S.start_le hk
    have hp := hC.pos k hk
    rw [hq, socres_eq (h.has (by omega)) hp, ok_bind_eq, socres_eq (h2.has (by omega)) hp, ok_bind_eq, Ok_pure]
    trivial

theorem trialPoint_ok {n : Nat} {v dv : Buf F} {f g : Nat → F} (h : Holds v n f) (h2 : Holds dv n g) (a : F) :
    Ok (trialPoint n v dv a) fun r => Holds r n fun i => f i + a * g i := by
  unfold trialPoint
  refine (fill_ok (g := fun i => f i + a * g i) (by simp [malloc]) fun i hi => ?_).mono fun r hr => hr.holds (by simp [malloc])
  rw [h.rd (by omega), ok_bind_eq, h2.rd (by omega), ok_bind_eq]
  rfl

theorem trialTest_ok [HasInf F] {w : Work F} (hm : w.m = S.m) (hC : ConeIs w.C S) (hne : 0 < S.ne) {ws wz : Buf F} {s z : Nat → F}
    (hs : Holds ws S.m s) (hz : Holds wz S.m z) (mu t k : F) : Ok (trialTest w ws wz mu t k) fun _ => True := by
  have hS : S.m = S.fexv + 3 * S.ne := rfl
  unfold trialTest
  rw [hC.fexv, hC.nexc, hm]
  refine Ok.bind (dualFeas_ok (hz.has (by omega))) fun d _ => ?_
  split
  · rw [Ok_pure]; trivial
  refine Ok.bind (primalFeas_ok (hs.has (by omega))) fun d _ => ?_
  split
  · rw [Ok_pure]; trivial
  refine Ok.bind (muOf_ok hs hz (by omega)) fun mui _ => ?_
  refine Ok.bind (muiWalk_ok hs hz mu _ _ _ (by omega) ⟨0, by omega, by omega⟩) fun j _ => ?_
  split
  · refine Ok.bind (barrier_ok (hs.has (by omega)) (hz.has (by omega))) fun _ _ => ?_
    refine Ok.bind (symBarrier_ok hC hs hz _ _ _) fun _ _ => ?_
    simp only
    split <;> (rw [Ok_pure]; trivial)
  · rw [Ok_pure]; trivial

theorem expConeLineSearch_ok [HasInf F] {w : Work F} (hm : w.m = S.m) (hC : ConeIs w.C S) (hne : 0 < S.ne) {ds dz : Buf F} {s z fs fz : Nat → F}
    (hws : Holds w.s S.m s) (hwz : Holds w.z S.m z) (hs : Holds ds S.m fs) (hz : Holds dz S.m fz) (tau kap dtau dkap alpha : F) :
    Ok (expConeLineSearch w ds dz tau kap dtau dkap alpha) fun _ => True := by
  unfold expConeLineSearch
  refine Ok.bind (P := fun _ => True) (loopE_ok (fun _ _ => True) (fun _ => True) (Nat.zero_le _) trivial ?_ (fun _ _ => trivial) fun _ _ => trivial) fun r _ => ?_
  · intro _ t _ _ _
    rw [hm]
    refine Ok.bind (trialPoint_ok hws hs t.1) fun ws h1 => ?_
    refine Ok.bind (trialPoint_ok hwz hz t.1) fun wz h2 => ?_
    refine Ok.bind (P := fun _ => True) ?_ fun mu _ => ?_
    · unfold trialMu
      rw [hm]
      refine Ok.bind (loop_ok (fun _ _ => True) (Nat.zero_le _) trivial ?_ fun _ h => h) fun _ _ => by rw [Ok_pure]; trivial
      intro j t _ hj _
      rw [h1.rd (by omega), ok_bind_eq, h2.rd (by omega), ok_bind_eq, Ok_pure]
      trivial
    · refine Ok.bind (trialTest_ok hm hC hne h1 h2 _ _ _) fun q _ => ?_
      simp only
      split
      · rw [Ok_pure]; exact Or.inl ⟨_, rfl, trivial⟩
      · rw [Ok_pure]; exact Or.inr ⟨_, rfl, trivial⟩
  · split <;> (rw [Ok_pure]; trivial)

end generic
end Ecos.Dir
