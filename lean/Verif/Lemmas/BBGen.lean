import Verif.Lemmas.BB6

/-! # Branch and bound with arbitrary arithmetic -/
set_option linter.all false

namespace Ecos
namespace BB

variable {F : Type} [Zero F] [One F] [Add F] [Sub F] [Mul F] [Div F] [Neg F] [OfScientific F]
  [IntCast F] [PFloat F] [HasInf F] {W I : Type} {P : Par F W} {env : Env F W I}

/-- the helpers fail only by a cast out of range -/
def CastOnly (e : UB) : Prop := e = .castRange

theorem castInt_runs (y : F) : Runs CastOnly (castInt y) (fun _ => True) := by
  unfold castInt
  split
  · trivial
  · exact rfl

theorem pfFloor_runs (y t : F) : Runs CastOnly (pfFloor y t) (fun _ => True) := by
  unfold pfFloor
  split <;> (rw [Runs_bind]; exact (castInt_runs _).mono fun _ _ => trivial)

theorem pfCeil_runs (y t : F) : Runs CastOnly (pfCeil y t) (fun _ => True) := by
  unfold pfCeil
  split <;> (rw [Runs_bind]; exact (castInt_runs _).mono fun _ _ => trivial)

theorem pfRound_runs (y : F) : Runs CastOnly (pfRound y) (fun _ => True) := by
  unfold pfRound
  split <;> (rw [Runs_bind]; exact (castInt_runs _).mono fun _ _ => trivial)

theorem castChar_runs (y : F) : Runs CastOnly (castChar y) (fun _ => True) := by
  unfold castChar
  rw [Runs_bind]
  refine (castInt_runs _).mono fun k _ => ?_
  split
  · trivial
  · exact rfl

/-- permitted failures when nothing is known about the values -/
def BadX (P : Par F W) (e : UB) : Prop := e = .castRange ∨ (P.stgs.strategy = 4 ∧ e = .fuel)

theorem Contract.weaken {G Gb : F → Prop} {bad bad' : UB → Prop} (K : Contract P env G Gb bad)
    (h : ∀ e, bad e → bad' e) : Contract P env G Gb bad' where
  solve := fun e hf he hi => (K.solve e hf he hi).weaken h
  solveB := K.solveB
  rand := K.rand

theorem hyp_any' {Gb : F → Prop} {Rb : Int → Prop} {bad : UB → Prop} (K : Contract P env (fun _ => True) Gb bad)
    (hbad : ∀ e, BadX P e → bad e) (hp : 0 < P.nb + P.ni)
    (hR : ∀ y r k, Gb y → pfRound y = .ok r → castChar r = .ok k → Rb k) :
    Hyp P env (fun _ => True) Gb bad Rb where
  con := K
  floor := fun y _ => (pfFloor_runs _ _).weaken (fun e he => hbad e (Or.inl he))
  ceil := fun y _ => (pfCeil_runs _ _).weaken (fun e he => hbad e (Or.inl he))
  round := fun y _ => (pfRound_runs _).weaken (fun e he => hbad e (Or.inl he))
  roundb := fun y hy => by
    have h1 := (pfRound_runs y).weaken (bad' := bad) (fun e he => hbad e (Or.inl he))
    cases hr : pfRound y with
    | error e => rw [hr] at h1; exact h1
    | ok r =>
      have h2 := (castChar_runs r).weaken (bad' := bad) (fun e he => hbad e (Or.inl he))
      rw [Runs_ok]
      cases hk : castChar r with
      | error e => rw [hk] at h2; exact h2
      | ok k => exact hR y r k hy hr hk
  fuel := fun h => hbad _ (Or.inr ⟨h, rfl⟩)
  pos := hp

/-- with a solver that fails as in `bad` only -/
theorem hyp_any {Gb : F → Prop} {Rb : Int → Prop} {bad : UB → Prop} (K : Contract P env (fun _ => True) Gb bad)
    (hp : 0 < P.nb + P.ni) (hR : ∀ y r k, Gb y → pfRound y = .ok r → castChar r = .ok k → Rb k) :
    Hyp P env (fun _ => True) Gb (fun e => bad e ∨ BadX P e) Rb :=
  hyp_any' (K.weaken fun _ h => Or.inl h) (fun _ h => Or.inr h) hp hR

/-- follow no point at all -/
def noPt (P : Par F W) (env : Env F W I) (num : F → Prop)
    (h1 : ∀ {b i code xf cf}, Trial P env b i code xf → P.cs cf → num (dotF P.n xf cf))
    (h2 : num INF) : Pt P env (fun _ => True) where
  box := fun _ _ => False
  low := fun _ => False
  cut := fun _ => False
  num := num
  trial := fun h => h.elim
  trialNum := h1
  splitB := fun h => h.elim
  splitI := fun h => h.elim
  congr := fun h => h.elim
  cut_mono := fun _ h => h
  low_cut := fun h => h.elim
  low_cut' := fun h => h.elim
  low_self := fun h => h
  low_inf := fun h => h.elim
  cut_inf := id
  low_min := fun _ _ h => by rcases h with h | h <;> exact h
  num_min := fun ha hb => by split <;> assumption
  num_inf := h2
  live := False
  treated := fun h => h.elim
  gap := fun h => h.elim
  tree := fun _ _ _ => True
  tree_root := fun h => h.elim
  tree_congr := fun h => h.elim
  tree_split := fun h => h.elim
  tree_bound := fun h => h.elim

end BB
end Ecos
