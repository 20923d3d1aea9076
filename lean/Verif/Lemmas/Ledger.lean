import Verif.Model.Ledger

/-!
# A run is determined by the runs of the families of its variables
-/
namespace Ecos.Ledger

/-- the variable and the structs on the way to it -/
def fam (v u : Var) : Bool := u = v ∨ u ∈ chain v

theorem chain_trans' (v : Var) : ∀ u ∈ chain v, ∀ t ∈ chain u, t ∈ chain v := by
  cases v with
  | w f => cases f <;> decide
  | cone f => cases f <;> decide
  | soc i f =>
    show ∀ u ∈ [Var.w .self, .w .C, .cone .soc], ∀ t ∈ chain u, t ∈ [Var.w .self, .w .C, .cone .soc]
    decide
  | kkt f => cases f <;> decide
  | mat M f => cases M <;> cases f <;> decide
  | tmp t => cases t <;> decide
  | bb f => cases f <;> decide

theorem chain_trans {v u t : Var} (h : u ∈ chain v) (h' : t ∈ chain u) : t ∈ chain v :=
  chain_trans' v u h t h'

theorem fam_refl (v : Var) : fam v v = true := by simp [fam]

theorem fam_chain {v u t : Var} (h : fam v u = true) (h' : t ∈ chain u) : fam v t = true := by
  simp only [fam, decide_eq_true_eq] at h ⊢
  obtain rfl | h := h
  · exact Or.inr h'
  · exact Or.inr (chain_trans h h')

/-- all events dereference only structs on the way to their variable -/
def WellPathed (l : List Ev) : Prop := ∀ e ∈ l, ∀ u ∈ e.via, u ∈ chain e.var

def Agree (F : Var → Bool) (s t : Heap) : Prop := ∀ u, F u = true → s u = t u

theorem step_agree {F : Var → Bool} {s t s' : Heap} {e : Ev} (h : Agree F s t) (hv : F e.var = true)
    (hc : ∀ u ∈ e.via, F u = true) (hs : step s e = some s') : ∃ t', step t e = some t' ∧ Agree F s' t' := by
  unfold step at hs ⊢
  have hall : (e.via.all fun u => decide (t u = .live)) = e.via.all fun u => decide (s u = .live) := by
    rw [Bool.eq_iff_iff]
    simp only [List.all_eq_true, decide_eq_true_eq]
    constructor
    · intro H u hu; rw [h u (hc u hu)]; exact H u hu
    · intro H u hu; rw [← h u (hc u hu)]; exact H u hu
  rw [hall, ← h _ hv]
  have hset : ∀ x, Agree F (set s e.var x) (set t e.var x) := by
    intro x u hu
    unfold set
    split
    · rfl
    · exact h u hu
  split at hs
  · next hl =>
    rw [if_pos hl]
    split at hs <;> simp only [Option.some.injEq, reduceCtorEq] at hs <;> subst hs
    · exact ⟨_, rfl, hset _⟩
    · exact ⟨_, rfl, hset _⟩
    · exact ⟨_, rfl, h⟩
    · exact ⟨_, rfl, hset _⟩
  · simp at hs

theorem step_other {s s' : Heap} {e : Ev} {u : Var} (hs : step s e = some s') (hu : u ≠ e.var) : s' u = s u := by
  unfold step at hs
  split at hs
  · split at hs <;> simp only [Option.some.injEq, reduceCtorEq] at hs <;> subst hs <;> simp [set, hu]
  · simp at hs

theorem Agree.symm {F : Var → Bool} {s t : Heap} (h : Agree F s t) : Agree F t s := fun u hu => (h u hu).symm
theorem Agree.trans {F : Var → Bool} {s t r : Heap} (h : Agree F s t) (h' : Agree F t r) : Agree F s r :=
  fun u hu => (h u hu).trans (h' u hu)

theorem run_filter {F : Var → Bool} (hF : ∀ v u, F v = true → u ∈ chain v → F u = true) {l : List Ev} :
    ∀ {s t s' : Heap}, WellPathed l → Agree F s t → run l s = some s' →
      ∃ t', run (l.filter fun e => F e.var) t = some t' ∧ Agree F s' t' := by
  induction l with
  | nil =>
    intro s t s' _ h hr
    simp only [run, Option.some.injEq] at hr
    subst hr
    exact ⟨t, rfl, h⟩
  | cons e l ih =>
    intro s t s' hw h hr
    simp only [run, Option.bind_eq_some_iff] at hr
    obtain ⟨s1, h1, hr⟩ := hr
    have hw' : WellPathed l := fun e he => hw e (List.mem_cons_of_mem _ he)
    by_cases hv : F e.var = true
    · obtain ⟨t1, ht1, ha⟩ := step_agree h hv (fun u hu => hF _ _ hv (hw e (List.mem_cons_self ..) u hu)) h1
      obtain ⟨t', ht', ha'⟩ := ih hw' ha hr
      refine ⟨t', ?_, ha'⟩
      rw [List.filter_cons_of_pos (by simpa using hv)]
      simp only [run, ht1, Option.bind_some]
      exact ht'
    · have ha : Agree F s1 t := by
        intro u hu
        rw [step_other h1 (by rintro rfl; exact hv hu)]
        exact h u hu
      obtain ⟨t', ht', ha'⟩ := ih hw' ha hr
      exact ⟨t', by rw [List.filter_cons_of_neg (by simpa using hv)]; exact ht', ha'⟩

theorem run_agree {F : Var → Bool} (hF : ∀ v u, F v = true → u ∈ chain v → F u = true) {l : List Ev}
    (hall : ∀ e ∈ l, F e.var = true) {s t s' : Heap} (hw : WellPathed l) (h : Agree F s t)
    (hr : run l s = some s') : ∃ t', run l t = some t' ∧ Agree F s' t' := by
  have := run_filter hF hw h hr
  rwa [List.filter_eq_self.2 (by simpa using hall)] at this

/-- if no family shows an error, the run shows none -/
theorem run_of_families {l : List Ev} : ∀ {s : Heap}, WellPathed l →
    (∀ v, (run (l.filter fun e => fam v e.var) s).isSome) → (run l s).isSome := by
  induction l with
  | nil => intro s _ _; rfl
  | cons e l ih =>
    intro s hw h
    have hw' : WellPathed l := fun e he => hw e (List.mem_cons_of_mem _ he)
    have h1 := h e.var
    rw [List.filter_cons_of_pos (by simp [fam_refl])] at h1
    obtain ⟨s2, h2⟩ := Option.isSome_iff_exists.1 h1
    simp only [run, Option.bind_eq_some_iff] at h2
    obtain ⟨s1, hs1, -⟩ := h2
    simp only [run, hs1, Option.bind_some]
    refine ih hw' fun v => ?_
    by_cases hv : fam v e.var = true
    · have h3 := h v
      rw [List.filter_cons_of_pos (by simpa using hv)] at h3
      simpa only [run, hs1, Option.bind_some] using h3
    · have h3 := h v
      rw [List.filter_cons_of_neg (by simpa using hv)] at h3
      obtain ⟨s3, h3⟩ := Option.isSome_iff_exists.1 h3
      have ha : Agree (fam v) s s1 := by
        intro u hu
        exact (step_other hs1 (by rintro rfl; exact hv hu)).symm
      obtain ⟨t', ht', -⟩ := run_agree (F := fam v) (fun a b => fam_chain) (by
        intro e' he'
        simpa using (List.mem_filter.1 he').2) (fun e' he' => hw' e' (List.mem_filter.1 he').1) ha h3
      rw [ht']; rfl

/-- and the final state of a variable is the one its family shows -/
theorem run_final {l : List Ev} (hw : WellPathed l) {s s' : Heap} (hr : run l s = some s') (v : Var) :
    ∃ t', run (l.filter fun e => fam v e.var) s = some t' ∧ t' v = s' v := by
  obtain ⟨t', h1, h2⟩ := run_filter (F := fam v) (fun a b => fam_chain) hw (fun _ _ => rfl) hr
  exact ⟨t', h1, (h2 v (fam_refl v)).symm⟩

/-! ### Only finitely many assignments matter -/

def atomsOf (l : List Ev) : List Atom := (l.flatMap fun e => e.cond.map Prod.fst).eraseDups

def assignments : List Atom → List (Atom → Bool)
  | [] => [fun _ => false]
  | a :: as => (assignments as).flatMap fun σ => [fun b => if b = a then true else σ b, fun b => if b = a then false else σ b]

theorem assignments_cover (as : List Atom) (σ : Atom → Bool) :
    ∃ τ ∈ assignments as, ∀ a ∈ as, σ a = τ a := by
  induction as with
  | nil => exact ⟨_, List.mem_singleton_self _, fun a ha => by cases ha⟩
  | cons a as ih =>
    obtain ⟨τ, hτ, h⟩ := ih
    refine ⟨fun b => if b = a then σ a else τ b, ?_, ?_⟩
    · simp only [assignments, List.mem_flatMap]
      refine ⟨τ, hτ, ?_⟩
      cases σ a <;> simp
    · intro b hb
      by_cases hba : b = a
      · subst hba; simp
      · simp only [hba, if_false]
        exact h b (by simpa [hba] using hb)

theorem active_congr {σ τ : Atom → Bool} {l : List Ev} (h : ∀ a ∈ atomsOf l, σ a = τ a) :
    l.filter (active σ) = l.filter (active τ) := by
  refine List.filter_congr fun e he => ?_
  unfold active
  rw [Bool.eq_iff_iff]
  simp only [List.all_eq_true]
  have : ∀ c ∈ e.cond, σ c.1 = τ c.1 := fun c hc => h _ (by
    unfold atomsOf
    rw [List.mem_eraseDups, List.mem_flatMap]
    exact ⟨e, he, List.mem_map_of_mem hc⟩)
  constructor
  · intro H c hc; rw [← this c hc]; exact H c hc
  · intro H c hc; rw [this c hc]; exact H c hc

end Ecos.Ledger
