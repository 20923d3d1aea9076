import Verif.Lemmas.Equil2

/-!
# Equilibration depends on the problem only

Arrays that hold the same values are equal, so the result of `set_equilibration` is a function of the pattern, the values and the
cone sizes.
-/
namespace Ecos

open Finset

set_option linter.unusedSectionVars false

theorem Holds.same {α : Type} {b b' : Buf α} {n : Nat} {f : Nat → α} (h : Holds b n f) (h' : Holds b' n f) : b = b' := by
  refine Array.ext_getElem? fun i => ?_
  by_cases hi : i < n
  · rw [h.2 i hi, h'.2 i hi]
  · rw [Array.getElem?_eq_none (by rw [h.size]; omega), Array.getElem?_eq_none (by rw [h'.size]; omega)]

theorem Rep.unique {F : Type} {A B : SpMat F} {m n : Nat} {jc ir : Nat → Nat} {pr : Nat → F} (h : Rep A m n jc ir pr)
    (h' : Rep B m n jc ir pr) : A = B := by
  have e1 := h.hjc.same h'.hjc
  have e2 := h.hir.same h'.hir
  have e3 := h.hpr.same h'.hpr
  have e4 := h.m_eq.trans h'.m_eq.symm
  have e5 := h.n_eq.trans h'.n_eq.symm
  have e6 := h.nnz_eq.trans h'.nnz_eq.symm
  cases A
  cases B
  simp only at e1 e2 e3 e4 e5 e6
  subst e1 e2 e3 e4 e5 e6
  rfl

theorem Ok.self {α : Type} {m : M α} {Q : α → Prop} (h : Ok m Q) : Ok m fun r => Q r ∧ m = .ok r := by
  obtain ⟨r, e, hr⟩ := (Ok.def _ _).1 h
  rw [e, Ok_ok]
  exact ⟨hr, rfl⟩

section generic
variable {F : Type} [Zero F] [One F] [Add F] [Sub F] [Mul F] [Div F] [Neg F] [OfScientific F]
  [IntCast F] [PFloat F]

theorem RepA.unique {A B : Option (SpMat F)} {T : Pat} {a : Nat → F} (h : RepA A T a) (h' : RepA B T a) : A = B := by
  unfold RepA at h h'
  split at h
  · rename_i hA
    rw [if_pos hA] at h'
    obtain ⟨M, rfl, hM⟩ := h
    obtain ⟨M', rfl, hM'⟩ := h'
    rw [hM.unique hM']
  · rename_i hA
    rw [if_neg hA] at h'
    rw [h.1, h'.1]

theorem forSoc_congr {C C' : Cone F} {S : Shape} (hC : ConeIs C S) (hC' : ConeIs C' S) {σ : Type} (start extra : Nat) (s : σ)
    (body : Nat → Nat → Nat → σ → M σ) :
    forSoc C start extra s (fun l soc k s => body l soc.p k s) = forSoc C' start extra s fun l soc k s => body l soc.p k s := by
  unfold forSoc
  rw [hC.nsoc, hC'.nsoc]
  have key : ∀ (f g : Nat → σ × Nat → M (σ × Nat)) (d lo : Nat) (s : σ × Nat), (∀ i t, i < lo + d → f i t = g i t) →
      loop lo (lo + d) s f = loop lo (lo + d) s g := by
    intro f g d
    induction d with
    | zero => intro lo s _; rw [loop_empty _ _ (by omega), loop_empty _ _ (by omega)]
    | succ d ih =>
      intro lo s hfg
      rw [loop, loop, if_pos (by omega), if_pos (by omega), hfg lo s (by omega)]
      congr 1
      funext t
      have := ih (lo + 1) t fun i t hi => hfg i t (by omega)
      rw [show lo + 1 + d = lo + (d + 1) by omega] at this
      exact this
  have := key (fun l t => do
      let soc ← getIdx C.soc l
      let s ← body l soc.p t.2 t.1
      pure (s, t.2 + soc.p + extra)) (fun l t => do
      let soc ← getIdx C'.soc l
      let s ← body l soc.p t.2 t.1
      pure (s, t.2 + soc.p + extra)) S.ns 0 (s, start) fun i t hi => by
    obtain ⟨c, hc, hp⟩ := hC.soc i (by omega)
    obtain ⟨c', hc', hp'⟩ := hC'.soc i (by omega)
    simp only [getIdx_some hc, getIdx_some hc', ok_bind_eq, hp, hp']
  rw [Nat.zero_add] at this
  exact this

variable {C C' : Cone F} {S : Shape} {T : Pat}

theorem collapseCones_congr (hC : ConeIs C S) (hC' : ConeIs C' S) (E : Buf F) : collapseCones C E = collapseCones C' E := by
  unfold collapseCones
  rw [hC.l, hC'.l, hC.nexc, hC'.nexc, forSoc_congr hC hC' S.l 0 E fun _ p k E => collapseGroup E k p]

theorem ruizPass_congr (hC : ConeIs C S) (hC' : ConeIs C' S) (e : EqS F) : ruizPass C e = ruizPass C' e := by
  unfold ruizPass ruizFactors
  simp only [collapseCones_congr hC hC']

/-- the result of `set_equilibration` for a problem: pattern, cone sizes, values of `A`, `G`, `b`, `h` -/
def EqRun (T : Pat) (S : Shape) (a g bf hf : Nat → F) (r : EqS F × Buf F × Buf F) : Prop :=
  ∀ (C : Cone F) (e : EqS F) (b h : Buf F), ConeIs C S → EqIs e T a g → e.xe.size = T.n → e.Ae.size = T.p → e.Ge.size = T.m →
    Holds b T.p bf → Holds h T.m hf → setEquilibration C e b h = .ok r

theorem setEquilibration_same {e e' : EqS F} {a g bf hf : Nat → F} {b b' h h' : Buf F} (hC : ConeIs C S) (hC' : ConeIs C' S)
    (he : EqIs e T a g) (he' : EqIs e' T a g) (hx : e.xe.size = T.n) (hx' : e'.xe.size = T.n) (hy : e.Ae.size = T.p)
    (hy' : e'.Ae.size = T.p) (hz : e.Ge.size = T.m) (hz' : e'.Ge.size = T.m) (hb : Holds b T.p bf) (hb' : Holds b' T.p bf)
    (hh : Holds h T.m hf) (hh' : Holds h' T.m hf) : setEquilibration C e b h = setEquilibration C' e' b' h' := by
  have eA := he.A.unique he'.A
  have eG := he.G.unique he'.G
  have eb := hb.same hb'
  have eh := hh.same hh'
  subst eb eh
  have fx : ∀ {k : Nat} {x x' : Buf F}, x.size = k → x'.size = k →
      fill x 0 k (fun _ => pure (1.0 : F)) = fill x' 0 k fun _ => pure (1.0 : F) := by
    intro k x x' h1 h2
    obtain ⟨y, ey, hy⟩ := (Ok.def _ _).1 (fill_holds (g := fun _ => (1.0 : F)) (b := x) h1 (fun _ _ => rfl))
    obtain ⟨y', ey', hy'⟩ := (Ok.def _ _).1 (fill_holds (g := fun _ => (1.0 : F)) (b := x') h2 (fun _ _ => rfl))
    exact ey.trans ((congrArg Except.ok (hy.same hy')).trans ey'.symm)
  unfold setEquilibration
  rw [he.cols, he'.cols, he.rowsA, he'.rowsA, he.rowsG, he'.rowsG, fx hx hx', fx hy hy', fx hz hz', eA, eG]
  simp only [ruizPass_congr hC hC']

end generic
end Ecos
