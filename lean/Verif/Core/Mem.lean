/-!
# Memory, undefined behaviour, loops

The C code of ECOS works on raw arrays.  Here a C array is a `Buf`: an array of cells, where
`none` is a cell that was allocated but never written.  Every access is checked, and each
kind of undefined behaviour is a separate outcome of the monad `M`.
-/
namespace Ecos

/-- The ways in which a run of the C code can leave defined behaviour. -/
inductive UB where
  /-- access outside an array -/
  | oob
  /-- read of a cell that was never written -/
  | uninit
  /-- dereference of a null pointer -/
  | nullDeref
  /-- float-to-int conversion out of the range of the integer type -/
  | castRange
  /-- a `while` loop did not finish within the fuel given to it by the model -/
  | fuel
  deriving DecidableEq, Repr, Inhabited

/-- A computation that ends normally or in undefined behaviour. -/
abbrev M := Except UB

/-- A C array; `none` marks cells that were never written. -/
abbrev Buf (α : Type) := Array (Option α)

variable {α β σ : Type}

/-- `malloc(n * sizeof(..))`: `n` cells, none of them written. -/
def malloc (n : Nat) : Buf α := Array.replicate n none

/-- `a[i]` as an rvalue. -/
def rd (b : Buf α) (i : Nat) : M α :=
  match b[i]? with
  | none => .error .oob
  | some none => .error .uninit
  | some (some v) => .ok v

/-- `a[i] = v`. -/
def wr (b : Buf α) (i : Nat) (v : α) : M (Buf α) :=
  if i < b.size then .ok (b.setIfInBounds i (some v)) else .error .oob

/-- `for (i = lo; i < hi; i++) s = body(i, s)`. -/
def loop (lo hi : Nat) (s : σ) (body : Nat → σ → M σ) : M σ :=
  if lo < hi then do
    let s ← body lo s
    loop (lo + 1) hi s body
  else .ok s
termination_by hi - lo

/-- `Ok m Q`: the computation `m` ends without undefined behaviour and its result satisfies `Q`. -/
def Ok (m : M α) (Q : α → Prop) : Prop :=
  match m with
  | .ok a => Q a
  | .error _ => False

theorem Ok.def (m : M α) (Q : α → Prop) : Ok m Q ↔ ∃ a, m = .ok a ∧ Q a := by
  unfold Ok
  cases m <;> simp

@[simp] theorem Ok_ok (a : α) (Q : α → Prop) : Ok (.ok a : M α) Q ↔ Q a := Iff.rfl
@[simp] theorem Ok_pure (a : α) (Q : α → Prop) : Ok (pure a : M α) Q ↔ Q a := Iff.rfl
@[simp] theorem Ok_error (e : UB) (Q : α → Prop) : Ok (.error e : M α) Q ↔ False := Iff.rfl
@[simp] theorem Ok_throw (e : UB) (Q : α → Prop) : Ok (throw e : M α) Q ↔ False := Iff.rfl

@[simp] theorem Ok_bind (m : M α) (f : α → M β) (Q : β → Prop) :
    Ok (m >>= f) Q ↔ Ok m (fun a => Ok (f a) Q) := by
  cases m <;> rfl

theorem Ok_map (m : M α) (f : α → β) (Q : β → Prop) :
    Ok (f <$> m) Q ↔ Ok m (fun a => Q (f a)) := by
  cases m <;> rfl

@[simp] theorem ok_bind_eq (a : α) (f : α → M β) : ((Except.ok a : M α) >>= f) = f a := rfl
@[simp] theorem error_bind_eq (e : UB) (f : α → M β) :
    ((Except.error e : M α) >>= f) = .error e := rfl

theorem Ok.mono {m : M α} {P Q : α → Prop} (h : Ok m P) (hPQ : ∀ a, P a → Q a) : Ok m Q := by
  cases m with
  | ok a => exact hPQ a h
  | error e => exact h

theorem Ok.and {m : M α} {P Q : α → Prop} (h : Ok m P) (h' : Ok m Q) :
    Ok m (fun a => P a ∧ Q a) := by
  cases m with
  | ok a => exact ⟨h, h'⟩
  | error e => exact h

theorem Ok.bind {m : M α} {f : α → M β} {P : α → Prop} {Q : β → Prop}
    (h : Ok m P) (hf : ∀ a, P a → Ok (f a) Q) : Ok (m >>= f) Q := by
  rw [Ok_bind]; exact h.mono hf

/-- partial-correctness reading: if the run ends normally, the result satisfies `Q` -/
theorem Ok.out {m : M α} {Q : α → Prop} (h : Ok m Q) {a : α} (e : m = .ok a) : Q a := by
  subst e; exact h

/-- Invariant rule for `loop`. -/
theorem loop_ok {lo hi : Nat} {s : σ} {body : Nat → σ → M σ} {Q : σ → Prop}
    (I : Nat → σ → Prop) (hle : lo ≤ hi) (h0 : I lo s)
    (hstep : ∀ i s, lo ≤ i → i < hi → I i s → Ok (body i s) (I (i + 1)))
    (hfin : ∀ s, I hi s → Q s) : Ok (loop lo hi s body) Q := by
  induction hn : hi - lo generalizing lo s with
  | zero =>
    have : lo = hi := by omega
    subst this
    unfold loop
    simp only [Nat.lt_irrefl, if_false, Ok_ok]
    exact hfin _ h0
  | succ k ih =>
    have hlt : lo < hi := by omega
    unfold loop
    rw [if_pos hlt, Ok_bind]
    refine (hstep lo s (Nat.le_refl _) hlt h0).mono ?_
    intro s' hs'
    exact ih (by omega) hs' (fun i s hi1 hi2 => hstep i s (by omega) hi2) (by omega)

/-- A loop whose range is empty does nothing. -/
theorem loop_empty {lo hi : Nat} (s : σ) (body : Nat → σ → M σ) (h : hi ≤ lo) :
    loop lo hi s body = .ok s := by
  unfold loop; rw [if_neg (by omega)]

/-- Partial-correctness invariant rule: nothing is said about runs ending in UB. -/
theorem loop_inv {lo hi : Nat} {s t : σ} {body : Nat → σ → M σ}
    (I : Nat → σ → Prop) (hle : lo ≤ hi) (h0 : I lo s)
    (hstep : ∀ i s s', lo ≤ i → i < hi → I i s → body i s = .ok s' → I (i + 1) s')
    (e : loop lo hi s body = .ok t) : I hi t := by
  induction hn : hi - lo generalizing lo s with
  | zero =>
    have : lo = hi := by omega
    subst this
    unfold loop at e
    simp at e
    subst e; exact h0
  | succ k ih =>
    have hlt : lo < hi := by omega
    unfold loop at e
    rw [if_pos hlt] at e
    cases hb : body lo s with
    | error u => rw [hb] at e; simp at e
    | ok s' =>
      rw [hb] at e
      exact ih (by omega) (hstep _ _ _ (Nat.le_refl _) hlt h0 hb)
        (fun i s s' h1 h2 => hstep i s s' (by omega) h2) e (by omega)

/-! ### Contents of buffers -/

/-- `b` has `n` cells, and the cells selected by `P` hold the values of `f`. -/
def HoldsOn (b : Buf α) (n : Nat) (P : Nat → Prop) (f : Nat → α) : Prop :=
  b.size = n ∧ ∀ i, i < n → P i → b[i]? = some (some (f i))

/-- `b` has `n` cells, all written, and cell `i` holds `f i`. -/
def Holds (b : Buf α) (n : Nat) (f : Nat → α) : Prop :=
  b.size = n ∧ ∀ i, i < n → b[i]? = some (some (f i))

/-- functional update -/
def upd (f : Nat → α) (i : Nat) (v : α) : Nat → α := fun j => if j = i then v else f j

@[simp] theorem upd_self (f : Nat → α) (i : Nat) (v : α) : upd f i v i = v := by simp [upd]
theorem upd_ne (f : Nat → α) {i j : Nat} (v : α) (h : j ≠ i) : upd f i v j = f j := by simp [upd, h]

theorem holds_iff {b : Buf α} {n : Nat} {f : Nat → α} :
    Holds b n f ↔ HoldsOn b n (fun _ => True) f := by
  simp [Holds, HoldsOn]

theorem Holds.on {b : Buf α} {n : Nat} {f : Nat → α} (h : Holds b n f) (P : Nat → Prop) :
    HoldsOn b n P f := ⟨h.1, fun i hi _ => h.2 i hi⟩

theorem HoldsOn.full {b : Buf α} {n : Nat} {P : Nat → Prop} {f : Nat → α}
    (h : HoldsOn b n P f) (hP : ∀ i, i < n → P i) : Holds b n f :=
  ⟨h.1, fun i hi => h.2 i hi (hP i hi)⟩

theorem HoldsOn.congr {b : Buf α} {n : Nat} {P Q : Nat → Prop} {f g : Nat → α}
    (h : HoldsOn b n P f) (hPQ : ∀ i, i < n → Q i → P i ∧ f i = g i) : HoldsOn b n Q g := by
  refine ⟨h.1, fun i hi hq => ?_⟩
  obtain ⟨hp, hfg⟩ := hPQ i hi hq
  rw [h.2 i hi hp, hfg]

theorem Holds.congr {b : Buf α} {n : Nat} {f g : Nat → α}
    (h : Holds b n f) (hfg : ∀ i, i < n → f i = g i) : Holds b n g :=
  ⟨h.1, fun i hi => by rw [h.2 i hi, hfg i hi]⟩

theorem Holds.size {b : Buf α} {n : Nat} {f : Nat → α} (h : Holds b n f) : b.size = n := h.1
theorem HoldsOn.size {b : Buf α} {n : Nat} {P} {f : Nat → α} (h : HoldsOn b n P f) :
    b.size = n := h.1

theorem Holds.rd {b : Buf α} {n : Nat} {f : Nat → α} (h : Holds b n f) {i : Nat} (hi : i < n) :
    rd b i = .ok (f i) := by
  simp [Ecos.rd, h.2 i hi]

theorem HoldsOn.rd {b : Buf α} {n : Nat} {P} {f : Nat → α} (h : HoldsOn b n P f) {i : Nat}
    (hi : i < n) (hp : P i) : rd b i = .ok (f i) := by
  simp [Ecos.rd, h.2 i hi hp]

/-- Values agree when two descriptions hold of the same buffer. -/
theorem Holds.unique {b : Buf α} {n : Nat} {f g : Nat → α} (h : Holds b n f) (h' : Holds b n g)
    {i : Nat} (hi : i < n) : f i = g i := by
  have := h.2 i hi
  rw [h'.2 i hi] at this
  simpa using this.symm

theorem malloc_holdsOn (n : Nat) (f : Nat → α) : HoldsOn (malloc n) n (fun _ => False) f := by
  refine ⟨by simp [malloc], fun i _ h => h.elim⟩

@[simp] theorem malloc_size (n : Nat) : (malloc n : Buf α).size = n := by simp [malloc]

theorem wr_eq {b : Buf α} {i : Nat} {v : α} (h : i < b.size) :
    wr b i v = .ok (b.setIfInBounds i (some v)) := by simp [wr, h]

theorem HoldsOn.wr {b : Buf α} {n : Nat} {P : Nat → Prop} {f : Nat → α} (h : HoldsOn b n P f)
    {i : Nat} (hi : i < n) (v : α) :
    Ok (wr b i v) (fun b' => HoldsOn b' n (fun j => P j ∨ j = i) (upd f i v)) := by
  have hs : i < b.size := by rw [h.1]; exact hi
  rw [wr_eq hs, Ok_ok]
  refine ⟨by simp [h.1], fun j hj hp => ?_⟩
  by_cases hij : j = i
  · subst hij; simp [hs]
  · have hpj : P j := by
      rcases hp with hp | hp
      · exact hp
      · exact absurd hp hij
    rw [upd_ne _ _ hij]
    have := h.2 j hj hpj
    rw [Array.getElem?_setIfInBounds_ne (Ne.symm hij)]
    exact this

theorem Holds.wr {b : Buf α} {n : Nat} {f : Nat → α} (h : Holds b n f)
    {i : Nat} (hi : i < n) (v : α) :
    Ok (wr b i v) (fun b' => Holds b' n (upd f i v)) := by
  rw [holds_iff] at h
  refine (h.wr hi v).mono fun b' hb => ?_
  exact hb.full (fun _ _ => Or.inl trivial)

/-- A buffer with exactly the values of a list. -/
def ofList (l : List α) : Buf α := (l.map some).toArray

theorem ofList_holds [Inhabited α] (l : List α) :
    Holds (ofList l) l.length (fun i => l.getD i default) := by
  refine ⟨by simp [ofList], fun i hi => ?_⟩
  simp [ofList, hi]

end Ecos
