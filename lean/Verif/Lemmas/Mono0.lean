import Verif.Model.Ecos
import Verif.Lemmas.MonoAttr
import Mathlib.Tactic.ApplyWith
import Mathlib.Tactic.Convert
import Lean.Elab.Tactic.SolveByElim

/-!
# Runs on memory with fewer unwritten cells

`a ⊑ b`: wherever `a` has a value, `b` has the same one; `b` may have values where `a` has none.  A run on `a` that reads nothing
unwritten is repeated by the run on `b`.
-/
namespace Ecos.Mono

open Ecos Lean Elab Tactic Meta

/-- the relation of a type -/
class Rel (α : Type) where
  le : α → α → Prop

infix:50 " ⊑ " => Rel.le

variable {α β σ ρ : Type}

/-- equality, unless something else is said -/
instance (priority := low) relEq : Rel α := ⟨Eq⟩

/-- arrays: same size, written cells are the same -/
def BLe (b b' : Buf α) : Prop := b.size = b'.size ∧ ∀ (i : Nat) v, b[i]? = some (some v) → b'[i]? = some (some v)
instance (priority := high) relBuf : Rel (Array (Option α)) := ⟨BLe⟩

/-- scalars that may be unwritten -/
def OLe (o o' : Option α) : Prop := ∀ v, o = some v → o' = some v
instance relOpt : Rel (Option α) := ⟨OLe⟩

/-- pointers that may be null -/
def PLe [Rel α] (o o' : Option α) : Prop :=
  match o, o' with
  | none, none => True
  | some a, some b => a ⊑ b
  | _, _ => False
instance (priority := high) relPtr : Rel (Option (Array (Option α))) := ⟨PLe⟩

/-- arrays of structs -/
def ALe [Rel α] (a a' : Array α) : Prop := a.size = a'.size ∧ ∀ (i : Nat) x y, a[i]? = some x → a'[i]? = some y → x ⊑ y
instance relArr [Rel α] : Rel (Array α) := ⟨ALe⟩

instance relProd [Rel α] [Rel β] : Rel (α × β) := ⟨fun a b => a.1 ⊑ b.1 ∧ a.2 ⊑ b.2⟩

inductive SLe [Rel α] [Rel β] : α ⊕ β → α ⊕ β → Prop
  | inl {a b : α} (h : a ⊑ b) : SLe (.inl a) (.inl b)
  | inr {a b : β} (h : a ⊑ b) : SLe (.inr a) (.inr b)
instance relSum [Rel α] [Rel β] : Rel (α ⊕ β) := ⟨SLe⟩

/-- related runs: if the first ends normally, so does the second, with a related result -/
def LeR (R : α → β → Prop) (m : M α) (m' : M β) : Prop := ∀ a, m = .ok a → ∃ b, m' = .ok b ∧ R a b
instance relM [Rel α] : Rel (Except UB α) := ⟨LeR Rel.le⟩

theorem LeR.mono {R R' : α → β → Prop} {m : M α} {m' : M β} (h : LeR R m m') (k : ∀ a b, R a b → R' a b) : LeR R' m m' :=
  fun a e => by obtain ⟨b, e', r⟩ := h a e; exact ⟨b, e', k a b r⟩

theorem LeR.bind {γ δ : Type} {R : α → β → Prop} {Q : γ → δ → Prop} {m : M α} {m' : M β} {f : α → M γ} {f' : β → M δ} (h : LeR R m m')
    (k : ∀ a b, R a b → LeR Q (f a) (f' b)) : LeR Q (m >>= f) (m' >>= f') := by
  intro c e
  cases hm : m with
  | error _ => rw [hm] at e; cases e
  | ok a =>
    obtain ⟨b, e', r⟩ := h a hm
    rw [hm] at e
    rw [e']
    exact k a b r c e

theorem LeR.pure {R : α → β → Prop} {a : α} {b : β} (h : R a b) : LeR R (Pure.pure a : M α) (Pure.pure b) := by
  intro c e
  cases e
  exact ⟨b, rfl, h⟩

theorem LeR.error {R : α → β → Prop} {e : UB} {m' : M β} : LeR R (.error e) m' := by
  intro c e
  cases e

theorem bind_le [Rel α] [Rel β] {m m' : M α} {f f' : α → M β} (h : m ⊑ m') (k : ∀ a b, a ⊑ b → f a ⊑ f' b) : (m >>= f) ⊑ (m' >>= f') :=
  LeR.bind h k

theorem bind_leR [Rel β] {R : α → α → Prop} {m m' : M α} {f f' : α → M β} (h : LeR R m m') (k : ∀ a b, R a b → f a ⊑ f' b) : (m >>= f) ⊑ (m' >>= f') :=
  LeR.bind h k

/-- the second part may use what the first part of the first run returned -/
theorem bind_leE [Rel α] [Rel β] {m m' : M α} {f f' : α → M β} (h : m ⊑ m') (k : ∀ a b, m = .ok a → a ⊑ b → f a ⊑ f' b) : (m >>= f) ⊑ (m' >>= f') := by
  intro c e
  cases hm : m with
  | error _ => rw [hm] at e; cases e
  | ok a =>
    obtain ⟨b, e', r⟩ := h a hm
    rw [hm] at e
    rw [e']
    exact k a b hm r c e

theorem pure_le [Rel α] {a b : α} (h : a ⊑ b) : (Pure.pure a : M α) ⊑ Pure.pure b := LeR.pure h
theorem ok_le [Rel α] {a b : α} (h : a ⊑ b) : (Except.ok a : M α) ⊑ Except.ok b := LeR.pure h
theorem error_le [Rel α] {e : UB} {m : M α} : (Except.error e : M α) ⊑ m := LeR.error

theorem ite_le [Rel α] {c c' : Prop} [Decidable c] [Decidable c'] {a b a' b' : α} (hc : c = c') (h1 : c → a ⊑ a') (h2 : ¬ c → b ⊑ b') :
    (if c then a else b) ⊑ (if c' then a' else b') := by
  subst hc
  by_cases h : c
  · rw [if_pos h, if_pos h]; exact h1 h
  · rw [if_neg h, if_neg h]; exact h2 h

theorem rel_refl {a : α} : @Rel.le α relEq a a := rfl
theorem rel_eq {a b : α} (h : @Rel.le α relEq a b) : a = b := h

/-! ### Memory -/

@[mle] theorem rd_le {b b' : Buf α} {i i' : Nat} (hb : b ⊑ b') (hi : i = i') : @Rel.le (Except UB α) (@relM _ relEq) (rd b i) (rd b' i') := by
  subst hi
  intro v e
  refine ⟨v, ?_, rfl⟩
  unfold rd at e ⊢
  cases h : b[i]? with
  | none => rw [h] at e; cases e
  | some o =>
    cases o with
    | none => rw [h] at e; cases e
    | some v' =>
      rw [h] at e
      cases e
      rw [hb.2 i _ h]

theorem set_le {b b' : Buf α} {i : Nat} {o o' : Option α} (hb : b ⊑ b') (ho : o ⊑ o') : b.setIfInBounds i o ⊑ b'.setIfInBounds i o' := by
  refine ⟨by simpa using hb.1, fun j v h => ?_⟩
  rw [Array.getElem?_setIfInBounds] at h ⊢
  by_cases hij : i = j
  · rw [if_pos hij] at h ⊢
    by_cases hl : i < b.size
    · have hl' : i < b'.size := Nat.lt_of_lt_of_le hl hb.1.le
      rw [if_pos (hij ▸ hl)] at h
      rw [if_pos (hij ▸ hl')]
      rw [ho v (by simpa using h)]
    · rw [if_neg (hij ▸ hl)] at h
      cases h
  · rw [if_neg hij] at h ⊢
    exact hb.2 j v h

theorem guard_le [Rel β] {c c' : Prop} [Decidable c] [Decidable c'] {m m' : M β} {e : M β} {u : UB} (h : c → c') (k : m ⊑ m') :
    (if c then m else .error u) ⊑ (if c' then m' else e) := by
  by_cases hc : c
  · rw [if_pos hc, if_pos (h hc)]; exact k
  · rw [if_neg hc]; exact error_le

@[mle] theorem wr_le {b b' : Buf α} {i i' : Nat} {v v' : α} (hb : b ⊑ b') (hi : i = i') (hv : v = v') : wr b i v ⊑ wr b' i' v' := by
  subst hi hv
  unfold wr
  exact guard_le (fun h => Nat.lt_of_lt_of_le h hb.1.le) (ok_le (set_le hb fun _ h => h))

@[mle] theorem get_le {o o' : Option α} (h : o ⊑ o') : @Rel.le (Except UB α) (@relM _ relEq) (get o) (get o') := by
  intro v e
  cases o with
  | none => cases e
  | some u =>
    cases e
    rw [h v rfl]
    exact ⟨v, rfl, rfl⟩

theorem deref_le [Rel α] {o o' : Option α} (h : PLe o o') : deref o ⊑ deref o' := by
  match o, o', h with
  | none, none, _ => exact error_le
  | some a, some b, h => exact ok_le h

@[mle] theorem derefBuf_le {o o' : Option (Array (Option α))} (h : o ⊑ o') : deref o ⊑ deref o' := deref_le h

@[mle] theorem malloc_le {n n' : Nat} (h : n = n') : (malloc n : Buf α) ⊑ malloc n' := by
  subst h
  exact ⟨rfl, fun _ _ h => h⟩

theorem buf_refl (b : Buf α) : b ⊑ b := ⟨rfl, fun _ _ h => h⟩

theorem malloc_any {n : Nat} {b : Buf α} (h : n = b.size) : (malloc n : Buf α) ⊑ b := by
  refine ⟨by simpa using h, fun i v hi => ?_⟩
  unfold malloc at hi
  rw [Array.getElem?_replicate] at hi
  split at hi
  · cases hi
  · cases hi

@[mle] theorem some_le {a b : α} (h : a = b) : (some a : Option α) ⊑ some b := by
  subst h
  exact fun _ h => h

theorem getIdx_le [Rel α] {a a' : Array α} {i : Nat} (h : ALe a a') : getIdx a i ⊑ getIdx a' i := by
  unfold getIdx
  by_cases hi : i < a.size
  · have hi' : i < a'.size := h.1 ▸ hi
    rw [Array.getElem?_eq_getElem hi, Array.getElem?_eq_getElem hi']
    exact ok_le (h.2 i _ _ (Array.getElem?_eq_getElem hi) (Array.getElem?_eq_getElem hi'))
  · rw [Array.getElem?_eq_none (by omega)]
    exact error_le

theorem setIdx_le [Rel α] {a a' : Array α} {i : Nat} {x x' : α} (h : ALe a a') (hx : x ⊑ x') : LeR ALe (setIdx a i x) (setIdx a' i x') := by
  unfold setIdx
  rw [← h.1]
  by_cases hi : i < a.size
  · rw [if_pos hi, if_pos hi]
    refine LeR.pure (R := ALe) ⟨by simp [h.1], fun j u v hu hv => ?_⟩
    rw [Array.getElem?_setIfInBounds] at hu hv
    by_cases hij : i = j
    · subst hij
      rw [if_pos rfl, if_pos hi] at hu
      rw [if_pos rfl, if_pos (h.1 ▸ hi)] at hv
      cases hu; cases hv
      exact hx
    · rw [if_neg hij] at hu hv
      exact h.2 j u v hu hv
  · rw [if_neg hi]
    exact LeR.error

/-! ### Loops -/

theorem loopR {R : σ → σ → Prop} {body body' : Nat → σ → M σ} {lo hi : Nat} : ∀ {s s' : σ}, R s s' →
    (∀ i s s', lo ≤ i → i < hi → R s s' → LeR R (body i s) (body' i s')) → LeR R (loop lo hi s body) (loop lo hi s' body') := by
  induction h : hi - lo generalizing lo with
  | zero =>
    intro s s' hs _
    unfold loop
    rw [if_neg (by omega), if_neg (by omega)]
    exact LeR.pure (R := R) hs
  | succ n ih =>
    intro s s' hs hb
    unfold loop
    rw [if_pos (by omega), if_pos (by omega)]
    refine LeR.bind (hb lo s s' (Nat.le_refl _) (by omega) hs) fun a b hab => ih (by omega) hab fun i s s' h1 h2 => hb i s s' (by omega) h2

@[mle] theorem loop_le [Rel σ] {body body' : Nat → σ → M σ} {lo hi lo' hi' : Nat} {s s' : σ} (h1 : lo = lo') (h2 : hi = hi') (hs : s ⊑ s')
    (hb : ∀ i, ∀ s s', s ⊑ s' → body i s ⊑ body' i s') : loop lo hi s body ⊑ loop lo' hi' s' body' := by
  subst h1 h2
  exact loopR hs fun i s s' _ _ h => hb i s s' h

theorem loopER {R : σ → σ → Prop} {Q : ρ → ρ → Prop} {body body' : Nat → σ → M (ρ ⊕ σ)} {lo hi : Nat} : ∀ {s s' : σ}, R s s' →
    (∀ i s s', lo ≤ i → i < hi → R s s' → LeR (Sum.LiftRel Q R) (body i s) (body' i s')) →
    LeR (Sum.LiftRel Q R) (loopE lo hi s body) (loopE lo hi s' body') := by
  induction h : hi - lo generalizing lo with
  | zero =>
    intro s s' hs _
    unfold loopE
    rw [if_neg (by omega), if_neg (by omega)]
    exact LeR.pure (R := Sum.LiftRel Q R) (.inr hs)
  | succ n ih =>
    intro s s' hs hb
    unfold loopE
    rw [if_pos (by omega), if_pos (by omega)]
    refine LeR.bind (hb lo s s' (Nat.le_refl _) (by omega) hs) fun a b hab => ?_
    cases hab with
    | inl h => exact LeR.pure (R := Sum.LiftRel Q R) (.inl h)
    | inr h => exact ih (by omega) h fun i s s' h1 h2 => hb i s s' (by omega) h2

@[mle] theorem loopE_le [Rel σ] [Rel ρ] {body body' : Nat → σ → M (ρ ⊕ σ)} {lo hi lo' hi' : Nat} {s s' : σ} (h1 : lo = lo') (h2 : hi = hi')
    (hs : s ⊑ s') (hb : ∀ i, ∀ s s', s ⊑ s' → body i s ⊑ body' i s') : loopE lo hi s body ⊑ loopE lo' hi' s' body' := by
  subst h1 h2
  refine (loopER (R := Rel.le) (Q := Rel.le) hs fun i s s' _ _ h => (hb i s s' h).mono ?_).mono ?_
  · intro a b h
    cases h with
    | inl h => exact .inl h
    | inr h => exact .inr h
  · intro a b h
    cases h with
    | inl h => exact .inl h
    | inr h => exact .inr h

@[mle] theorem inl_le [Rel α] [Rel β] {a b : α} (h : a ⊑ b) : (Sum.inl a : α ⊕ β) ⊑ .inl b := .inl h
@[mle] theorem inr_le [Rel α] [Rel β] {a b : β} (h : a ⊑ b) : (Sum.inr a : α ⊕ β) ⊑ .inr b := .inr h

/-- the value of a function of the index -/
abbrev ValLe (v v' : Nat → M α) : Prop := ∀ i, @Rel.le (Except UB α) (@relM _ relEq) (v i) (v' i)

@[mle] theorem fill_le {b b' : Buf α} {off off' n n' : Nat} {val val' : Nat → M α} (hb : b ⊑ b') (h1 : off = off') (h2 : n = n')
    (hv : ∀ i, @Rel.le (Except UB α) (@relM _ relEq) (val i) (val' i)) : fill b off n val ⊑ fill b' off' n' val' := by
  subst h1 h2
  unfold fill
  exact loop_le rfl rfl hb fun i b b' hb => bind_le (hv i) fun u v h => wr_le hb rfl h

@[mle] theorem modify_le {b b' : Buf α} {off off' n n' : Nat} {f f' : Nat → α → M α} (hb : b ⊑ b') (h1 : off = off') (h2 : n = n')
    (hv : ∀ i v, @Rel.le (Except UB α) (@relM _ relEq) (f i v) (f' i v)) : modify b off n f ⊑ modify b' off' n' f' := by
  subst h1 h2
  unfold modify
  refine loop_le rfl rfl hb fun i b b' hb => bind_le (rd_le hb rfl) fun u v h => ?_
  cases rel_eq h
  exact bind_le (hv i u) fun u v h => wr_le hb rfl h

@[mle] theorem scatter_le {b b' : Buf α} {idx idx' : Buf Nat} {off off' n n' : Nat} {val val' : Nat → M α} (hb : b ⊑ b') (hi : idx ⊑ idx')
    (h1 : off = off') (h2 : n = n')
    (hv : ∀ i, @Rel.le (Except UB α) (@relM _ relEq) (val i) (val' i)) : scatter b idx off n val ⊑ scatter b' idx' off' n' val' := by
  subst h1 h2
  unfold scatter
  exact loop_le rfl rfl hb fun i b b' hb => bind_le (hv i) fun u v h => bind_le (rd_le hi rfl) fun k l hk => wr_le hb hk h

@[mle] theorem cell2_le {f : α → α → α} {a a' b b' dst dst' : Buf α} {i : Nat} (ha : a ⊑ a') (hb : b ⊑ b') (hd : dst ⊑ dst') :
    cell2 f a b dst i ⊑ cell2 f a' b' dst' i := by
  unfold cell2
  have key : ∀ {a a' : Buf α}, a ⊑ a' → (a[i]? = none) ∨ ∃ x y, a[i]? = some x ∧ a'[i]? = some y ∧ x ⊑ y := by
    intro a a' ha
    by_cases hi : i < a.size
    · have hi' : i < a'.size := Nat.lt_of_lt_of_le hi ha.1.le
      refine .inr ⟨_, _, Array.getElem?_eq_getElem hi, Array.getElem?_eq_getElem hi', fun v hv => ?_⟩
      have := ha.2 i v (by rw [Array.getElem?_eq_getElem hi, hv])
      rw [Array.getElem?_eq_getElem hi'] at this
      simpa using this
    · exact .inl (Array.getElem?_eq_none (by omega))
  rcases key ha with h | ⟨x, x', hx, hx', hxx⟩
  · rw [h]; exact error_le
  rcases key hb with h | ⟨y, y', hy, hy', hyy⟩
  · rw [hx, h]; exact error_le
  rw [hx, hx', hy, hy']
  refine guard_le (fun h => Nat.lt_of_lt_of_le h hd.1.le) (ok_le (set_le hd ?_))
  intro v hv
  match x, y, hv with
  | some x, some y, hv =>
    rw [hxx x rfl, hyy y rfl]
    exact hv

/-! ### The tactic -/

/-- a projection of a constructor application -/
def unfoldProj? (e : Expr) : MetaM (Option Expr) := do
  let .const f _ := e.getAppFn | return none
  let some info ← getProjectionFnInfo? f | return none
  if info.fromClass then return none
  let some x := e.getAppArgs[info.numParams]? | return none
  let x ← if x.isLet || x.isMData then whnfCore x else pure x
  let .const c _ := x.getAppFn | return none
  let some (.ctorInfo ci) := (← getEnv).find? c | return none
  let some v := x.getAppArgs[ci.numParams + info.i]? | return none
  return some (mkAppN v e.getAppArgs[info.numParams + 1:])

/-- split up hypotheses `a ⊑ b` about pairs and sums, substitute equalities -/
partial def mnormCore (g : MVarId) : MetaM (List MVarId) := do
  g.withContext do
    for d in ← getLCtx do
      if d.isImplementationDetail then continue
      let ty ← instantiateMVars d.type
      if ty.isHeadBetaTarget then
        return ← mnormCore (← g.changeLocalDecl d.fvarId ty.headBeta)
      unless ty.isAppOfArity ``Rel.le 4 do continue
      let inst := ty.getArg! 1
      let a := ty.getArg! 2
      let b := ty.getArg! 3
      if inst.isAppOf ``relEq then
        unless a.isFVar || b.isFVar do continue
        let g' ← g.assert `heq (← mkEq a b) (← mkAppM ``rel_eq #[d.toExpr])
        let g' ← g'.tryClear d.fvarId
        let (h, g') ← g'.intro1
        if let some g' ← (try some <$> Lean.Meta.subst g' h catch _ => pure none) then
          return ← mnormCore g'
        else continue
      if inst.isAppOf ``relProd then
        unless a.isFVar && b.isFVar do continue
        let #[s1] ← g.cases a.fvarId! | continue
        let b' := s1.subst.get b.fvarId!
        let d' := s1.subst.get d.fvarId
        let #[s2] ← s1.mvarId.cases b'.fvarId! | continue
        let d'' := s2.subst.get d'.fvarId!
        let r3 ← s2.mvarId.withContext do
          let t ← whnf (← inferType d'')
          let t ← Core.betaReduce t
          let g ← s2.mvarId.assert `hpair t d''
          let g ← g.tryClear d''.fvarId!
          let (h, g) ← g.intro1
          g.cases h
        let #[s3] := r3 | continue
        let g ← s3.mvarId.withContext do
          let mut g := s3.mvarId
          for x in s3.fields do
            let t ← inferType x
            let t' ← dsimpProj t
            g ← g.changeLocalDecl x.fvarId! t'
          pure g
        return ← mnormCore g
      if inst.isAppOf ``relSum then
        unless a.isFVar && b.isFVar do continue
        let t ← whnf ty
        let g ← g.assert `hsum t d.toExpr
        let g ← g.tryClear d.fvarId
        let (h, g) ← g.intro1
        let r ← g.cases h
        return (← r.toList.mapM fun s => mnormCore s.mvarId).flatten
    return [g]
where
  dsimpProj (e : Expr) : MetaM Expr := Meta.transform e (post := fun e => do
    if let some e' ← unfoldProj? e then return .visit e' else return .continue)

elab "mnorm" : tactic => do
  let g ← getMainGoal
  replaceMainGoal (← mnormCore g)

/-- the function applied in the left-hand side of a goal or a rule -/
def headOf (t : Expr) : Option Name :=
  let t := t.consumeMData
  let e? := if t.isAppOfArity ``Rel.le 4 then some (t.getArg! 2) else if t.isAppOfArity ``Eq 3 then some (t.getArg! 1)
    else if t.isAppOfArity ``LeR 5 then some (t.getArg! 3) else none
  match e? with
  | none => t.getAppFn.constName?
  | some e => e.getAppFn.constName?

/-- the rules for a given function: related results, equal results or (`LeR`) results in a given relation -/
def rulesFor (n : Name) (kind : Name) : MetaM (Array Name) := do
  let all ← labelled `mle
  let rs ← all.filterM fun r => do
    let info ← getConstInfo r
    let t := info.type.getForallBody.consumeMData
    let k := if t.isAppOf ``Eq then ``Eq else if t.isAppOf ``LeR then ``LeR else ``Rel.le
    return headOf t == some n && k == kind
  return rs.filter (fun r => r.toString.endsWith "_hi") ++ rs.filter fun r => !r.toString.endsWith "_hi"

/-- one step -/
partial def mstepCore (g : MVarId) : MetaM (List MVarId) := g.withContext do
  let t := (← instantiateMVars (← g.getType)).consumeMData
  if t.isForall then
    let (_, g) ← g.intro1
    return ← mnormCore g
  if ← withTransparency .instances g.assumptionCore then return []
  if t.isAppOfArity ``And 2 then
    return ← g.constructor
  if t.isAppOfArity ``Eq 3 then
    if let some gs ← (try withReducible g.refl; pure (some []) catch _ => pure none) then return gs
    if let some gs ← (try some <$> byRule g t true catch _ => pure none) then return gs
    return ← g.congrN (depth := 1)
  unless t.isAppOfArity ``Rel.le 4 do return ← byRule g t false
  let inst := t.getArg! 1
  let a := t.getArg! 2
  let b := t.getArg! 3
  let a' ← red a
  let b' ← red b
  if a' != a || b' != b then
    let t' := mkApp4 t.getAppFn (t.getArg! 0) inst a' b'
    return [← g.change t']
  if inst.isAppOf ``relEq then
    if let some gs ← (try pure (some (← withReducible (g.apply (← mkConstWithFreshMVarLevels ``rel_refl)))) catch _ => pure none) then return gs
    if let some gs ← (try some <$> byRule g t false catch _ => pure none) then return gs
    return [← g.change (← mkEq a b)]
  if inst.isAppOf ``relProd && a.isAppOf ``Prod.mk && b.isAppOf ``Prod.mk then
    let g ← g.change (mkAnd (mkApp4 t.getAppFn (a.getArg! 0) (inst.getArg! 2) (a.getArg! 2) (b.getArg! 2))
      (mkApp4 t.getAppFn (a.getArg! 1) (inst.getArg! 3) (a.getArg! 3) (b.getArg! 3)))
    return ← g.constructor
  let base := [(``Bind.bind, ``bind_le), (``Pure.pure, ``pure_le), (``Except.ok, ``ok_le), (``Except.error, ``error_le), (``ite, ``ite_le)]
  if let some n := a.getAppFn.constName? then
    if n == ``Bind.bind then
      if let some f := (a.getArg! 4).getAppFn.constName? then
        for r in ← rulesFor f ``LeR do
          let gs ← g.apply (← mkConstWithFreshMVarLevels ``bind_leR) { synthAssignedInstances := false }
          for g' in gs do
            let t' := (← instantiateMVars (← g'.getType)).consumeMData
            if t'.isAppOf ``LeR then
              let gs' ← withTransparency .instances (g'.apply (← mkConstWithFreshMVarLevels r) { synthAssignedInstances := false })
              return gs' ++ (← gs.filterM fun x => return x != g' && !(← x.isAssigned))
    if let some (_, r) := base.find? fun x => x.1 == n then
      return ← g.apply (← mkConstWithFreshMVarLevels r) { synthAssignedInstances := false }
  if let some app ← matchMatcherApp? a then
    for d in app.discrs do
      let d' ← red d
      if d' != d then
        let t' := t.replace fun e => if e == d then some d' else none
        return [← g.change t']
      if d.isFVar then
        let r ← g.cases d.fvarId!
        return (← r.toList.mapM fun s => mnormCore s.mvarId).flatten
      else
        let (xs, g) ← g.generalize #[{ expr := d }]
        let r ← g.cases xs[0]!
        return r.toList.map fun s => s.mvarId
  byRule g t false
where
  red (a : Expr) : MetaM Expr := do
    let a ← whnfCore a
    match ← unfoldProj? a with
    | some a' => red a'
    | none => pure a
  byRule (g : MVarId) (t : Expr) (isEq : Bool) : MetaM (List MVarId) := do
    if t.isAppOfArity ``Rel.le 4 && (t.getArg! 2).getAppFn.isFVar then
      for d in ← getLCtx do
        unless d.type.isForall do continue
        if let some gs ← (try pure (some (← withTransparency .instances (g.apply d.toExpr))) catch _ => pure none) then
          return gs
    let some n := headOf t | throwError "mstep: no head in{indentExpr t}"
    for r in ← rulesFor n (if isEq then ``Eq else ``Rel.le) do
      if let some gs ← (try pure (some (← withTransparency .instances (g.apply (← mkConstWithFreshMVarLevels r) { synthAssignedInstances := false }))) catch _ => pure none) then
        return gs
    throwError "mstep: no rule for{indentExpr t}"

elab "mstep" : tactic => do
  let g ← getMainGoal
  replaceMainGoal (← mstepCore g)

/-- all steps -/
macro "mono" : tactic => `(tactic| repeat' mstep)

end Ecos.Mono
