import Verif.Core.Mem

/-!
# Runs that may end in a permitted failure

`Runs bad m Q`: the computation `m` ends normally in a state satisfying `Q`, or in one of the
failures permitted by `bad`.  `bad = fun _ => False` is `Ok`, `bad = fun _ => True` is partial
correctness.
-/
namespace Ecos

variable {α β σ : Type}

def Runs (bad : UB → Prop) (m : M α) (Q : α → Prop) : Prop :=
  match m with
  | .ok a => Q a
  | .error e => bad e

variable {bad : UB → Prop}

@[simp] theorem Runs_ok (a : α) (Q : α → Prop) : Runs bad (.ok a : M α) Q ↔ Q a := Iff.rfl
@[simp] theorem Runs_pure (a : α) (Q : α → Prop) : Runs bad (pure a : M α) Q ↔ Q a := Iff.rfl
@[simp] theorem Runs_error (e : UB) (Q : α → Prop) : Runs bad (.error e : M α) Q ↔ bad e := Iff.rfl

@[simp] theorem Runs_bind (m : M α) (f : α → M β) (Q : β → Prop) :
    Runs bad (m >>= f) Q ↔ Runs bad m (fun a => Runs bad (f a) Q) := by
  cases m <;> rfl

theorem Runs.mono {m : M α} {P Q : α → Prop} (h : Runs bad m P) (hPQ : ∀ a, P a → Q a) :
    Runs bad m Q := by
  cases m with
  | ok a => exact hPQ a h
  | error e => exact h

theorem Runs.bind {m : M α} {f : α → M β} {P : α → Prop} {Q : β → Prop}
    (h : Runs bad m P) (hf : ∀ a, P a → Runs bad (f a) Q) : Runs bad (m >>= f) Q := by
  rw [Runs_bind]; exact h.mono hf

theorem Ok.runs {m : M α} {Q : α → Prop} (h : Ok m Q) : Runs bad m Q := by
  cases m with
  | ok a => exact h
  | error e => exact h.elim

theorem Runs.out {m : M α} {Q : α → Prop} (h : Runs bad m Q) {a : α} (e : m = .ok a) : Q a := by
  subst e; exact h

theorem Runs.err {m : M α} {Q : α → Prop} (h : Runs bad m Q) {u : UB} (e : m = .error u) : bad u := by
  subst e; exact h

theorem Runs.ok_of_not_bad {m : M α} {Q : α → Prop} (h : Runs bad m Q) (hb : ∀ e, ¬ bad e) :
    Ok m Q := by
  cases m with
  | ok a => exact h
  | error e => exact (hb e h).elim

theorem Runs.bindEq {m : M α} {f : α → M β} {P : α → Prop} {Q : β → Prop} (h : Runs bad m P)
    (hf : ∀ a, m = .ok a → Runs bad (f a) Q) : Runs bad (m >>= f) Q := by
  cases m with
  | ok a => exact hf a rfl
  | error e => exact h

theorem Runs.weaken {bad bad' : UB → Prop} {m : M α} {Q : α → Prop} (h : Runs bad m Q)
    (hb : ∀ e, bad e → bad' e) : Runs bad' m Q := by
  cases m with
  | ok a => exact h
  | error e => exact hb e h

theorem Runs_ite (c : Prop) [Decidable c] (m m' : M α) (Q : α → Prop) :
    Runs bad (if c then m else m') Q ↔ (c → Runs bad m Q) ∧ (¬ c → Runs bad m' Q) := by
  split <;> simp [*]

theorem Ok_ite (c : Prop) [Decidable c] (m m' : M α) (Q : α → Prop) :
    Ok (if c then m else m') Q ↔ (c → Ok m Q) ∧ (¬ c → Ok m' Q) := by
  by_cases h : c <;> simp [h]

/-- Invariant rule for `loop`. -/
theorem loop_runs {lo hi : Nat} {s : σ} {body : Nat → σ → M σ} {Q : σ → Prop}
    (I : Nat → σ → Prop) (hle : lo ≤ hi) (h0 : I lo s)
    (hstep : ∀ i s, lo ≤ i → i < hi → I i s → Runs bad (body i s) (I (i + 1)))
    (hfin : ∀ s, I hi s → Q s) : Runs bad (loop lo hi s body) Q := by
  induction hn : hi - lo generalizing lo s with
  | zero =>
    have : lo = hi := by omega
    subst this
    unfold loop
    simp only [Nat.lt_irrefl, if_false, Runs_ok]
    exact hfin _ h0
  | succ k ih =>
    have hlt : lo < hi := by omega
    unfold loop
    rw [if_pos hlt, Runs_bind]
    refine (hstep lo s (Nat.le_refl _) hlt h0).mono ?_
    intro s' hs'
    exact ih (by omega) hs' (fun i s hi1 hi2 => hstep i s (by omega) hi2) (by omega)

end Ecos
