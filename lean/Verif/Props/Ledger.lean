import Verif.Lemmas.Ledger
import Verif.Lemmas.Spla
import Verif.Model.Preproc

/-!
# C40: cleanup frees everything exactly once; C41: inconsistent dimensions are rejected
-/
namespace Ecos.Ledger

/-! ### The shape of the programs -/

/-- a program with two loops over the second-order cones -/
def prog (a b c : List Ev) (nc : Nat) : List Ev :=
  a ++ (List.range nc).flatMap setupSoc ++ b ++ (List.range nc).flatMap cleanupSoc ++ c

def mid : List Ev := setup2 ++ setup3 ++ setup4 ++ cleanup1

theorem ecos_prog (nc : Nat) : setup nc ++ cleanup nc = prog setup1 mid cleanup2 nc := by
  simp [prog, mid, setup, setupAmd, setupDims, cleanup]

theorem bb_prog (nc : Nat) :
    bbSetup nc ++ bbCleanup nc = prog (bbSetup1 ++ setup1) mid (cleanup2 ++ bbCleanup2) nc := by
  simp [prog, mid, bbSetup, bbCleanup, setup, setupAmd, setupDims, cleanup]

/-- the solution vectors that the caller keeps -/
def kept (σ : Atom → Bool) : Var → Bool
  | .w .x => !σ .keepLt1
  | .w .y => !σ .keepLt2
  | .w .s => !σ .keepLt3
  | .w .z => !σ .keepLt4
  | _ => false

def isSoc : Var → Bool
  | .soc _ _ => true
  | _ => false

def allW : List WF := [.self, .x, .y, .z, .s, .lambda, .dsaffByW, .dsaff, .dzaff, .saff, .zaff, .wTimesDzaff,
  .bestX, .bestY, .bestZ, .bestS, .bestInfo, .C, .info, .xequil, .Aequil, .Gequil, .stgs, .A, .G,
  .AtoK, .GtoK, .KKT, .rx, .ry, .rz]
def allC : List CF := [.lpc, .lpcW, .lpcV, .lpcIdx, .soc, .expc]
def allK : List KF := [.D, .Parent, .Pinv, .work1, .work2, .work3, .work4, .work5, .work6, .Flag, .Pattern,
  .Lnz, .RHS1, .RHS2, .dx1, .dx2, .dy1, .dy2, .dz1, .dz2, .Sign, .PK, .P]
def allM : List Var := [Mat.At, .Gt, .KU, .PKPt, .L].flatMap fun M => [MF.self, .jc, .ir, .pr].map fun f => .mat M f
def allT : List Tmp := [.xtmp, .Atmp, .Gtmp, .AtoAt, .GtoGt, .AttoK, .GttoK, .Sign, .wTransA, .wTransG,
  .wPerm1, .wPerm2]
def allB : List BF := [.self, .stgs, .GprNew, .GjcNew, .GirNew, .hNew, .nodes, .boolNodeIds, .intNodeIds,
  .tmpBool, .tmpInt, .tmpBrBool, .tmpBrInt, .binCnt, .binSum, .intCnt, .intSum, .x, .y, .z, .s, .info]
def allVars : List Var := allW.map .w ++ allC.map .cone ++ allK.map .kkt ++ allM ++ allT.map .tmp ++ allB.map .bb

theorem allVars_complete (v : Var) (h : isSoc v = false) : v ∈ allVars := by
  cases v with
  | w f => cases f <;> decide
  | cone f => cases f <;> decide
  | soc i f => cases h
  | kkt f => cases f <;> decide
  | mat M f => cases M <;> cases f <;> decide
  | tmp t => cases t <;> decide
  | bb f => cases f <;> decide

/-- the run of the family of `v` under `σ` has no error and leaves `v` allocated iff it is kept -/
def good (σ : Atom → Bool) (v : Var) (l : List Ev) : Bool :=
  match run ((l.filter fun e => fam v e.var).filter (active σ)) (fun _ => .unset) with
  | some s => decide (s v = .live) == kept σ v
  | none => false

/-- all families, all assignments of the conditions that occur -/
def check (l : List Ev) : Bool :=
  allVars.all fun v => (assignments (.keepLt1 :: .keepLt2 :: .keepLt3 :: .keepLt4 ::
    atomsOf (l.filter fun e => fam v e.var))).all fun σ => good σ v l

def noSoc (l : List Ev) : Bool := l.all fun e => !isSoc e.var
def pathed (l : List Ev) : Bool := l.all fun e => e.via.all fun u => decide (u ∈ chain e.var)

/-- the three structs above a second-order cone -/
def above (u : Var) : Bool := decide (u ∈ [Var.w .self, .w .C, .cone .soc])

def headEvs : List Ev := [al (.w .self), al (.w .C)] ++ ifSo .socPos [al (.cone .soc)] ++ ifNot .socPos [nul (.cone .soc)]
def tailEvs : List Ev := ifSo .socPos [fr (.cone .soc)] ++ [fr (.w .C), fr (.w .self)]

/-- everything that is checked by computation about the three loop-free parts -/
structure Parts (a b c : List Ev) : Prop where
  check : check (a ++ b ++ c) = true
  noSoc : noSoc (a ++ b ++ c) = true
  pathed : pathed (a ++ b ++ c) = true
  ha : a.filter (fun e => above e.var) = headEvs
  hb : b.filter (fun e => above e.var) = []
  hc : c.filter (fun e => above e.var) = tailEvs

theorem ecos_parts : Parts setup1 mid cleanup2 := by
  constructor <;> decide +kernel

theorem bb_parts : Parts (bbSetup1 ++ setup1) mid (cleanup2 ++ bbCleanup2) := by
  constructor <;> decide +kernel

/-! ### From the parts to the whole -/

theorem soc_pathed (i : Nat) : ∀ e ∈ setupSoc i ++ cleanupSoc i, ∀ u ∈ e.via, u ∈ chain e.var := by
  intro e he
  simp only [setupSoc, cleanupSoc, al, fr, List.mem_append, List.mem_cons, List.not_mem_nil, or_false] at he
  rcases he with (rfl | rfl | rfl | rfl) | (rfl | rfl | rfl | rfl) <;> exact fun u hu => hu

theorem prog_pathed {a b c : List Ev} (h : Parts a b c) (nc : Nat) : WellPathed (prog a b c nc) := by
  have h1 := h.pathed
  simp only [pathed, List.all_eq_true, decide_eq_true_eq, List.mem_append] at h1
  intro e he
  simp only [prog, List.mem_append, List.mem_flatMap] at he
  rcases he with (((he | ⟨i, -, he⟩) | he) | ⟨i, -, he⟩) | he
  · exact h1 e (Or.inl (Or.inl he))
  · exact soc_pathed i e (List.mem_append_left _ he)
  · exact h1 e (Or.inl (Or.inr he))
  · exact soc_pathed i e (List.mem_append_right _ he)
  · exact h1 e (Or.inr he)

theorem fam_soc_of_not {v : Var} (hv : isSoc v = false) (i : Nat) (f : SF) : fam v (.soc i f) = false := by
  simp only [fam, decide_eq_false_iff_not, not_or]
  constructor
  · rintro rfl; cases hv
  · cases v with
    | w f => cases f <;> simp [chain]
    | cone f => cases f <;> simp [chain]
    | soc i f => cases hv
    | kkt f => simp [chain]
    | mat M f => cases M <;> cases f <;> simp [chain]
    | tmp t => simp [chain]
    | bb f => cases f <;> simp [chain]

theorem filter_glob {a b c : List Ev} {v : Var} (hv : isSoc v = false) (nc : Nat) :
    (prog a b c nc).filter (fun e => fam v e.var) = (a ++ b ++ c).filter (fun e => fam v e.var) := by
  have h1 : ((List.range nc).flatMap setupSoc).filter (fun e => fam v e.var) = [] := by
    rw [List.filter_eq_nil_iff]
    intro e he
    simp only [List.mem_flatMap, setupSoc, al, List.mem_cons, List.not_mem_nil, or_false] at he
    obtain ⟨i, -, rfl | rfl | rfl | rfl⟩ := he <;> simp [fam_soc_of_not hv]
  have h2 : ((List.range nc).flatMap cleanupSoc).filter (fun e => fam v e.var) = [] := by
    rw [List.filter_eq_nil_iff]
    intro e he
    simp only [List.mem_flatMap, cleanupSoc, fr, List.mem_cons, List.not_mem_nil, or_false] at he
    obtain ⟨i, -, rfl | rfl | rfl | rfl⟩ := he <;> simp [fam_soc_of_not hv]
  simp [prog, h1, h2]

theorem glob_good {a b c : List Ev} (h : Parts a b c) (σ : Atom → Bool) {v : Var} (hv : isSoc v = false)
    (nc : Nat) : good σ v (prog a b c nc) = true := by
  have h1 := h.check
  simp only [check, List.all_eq_true] at h1
  obtain ⟨τ, hτ, hc⟩ := assignments_cover (.keepLt1 :: .keepLt2 :: .keepLt3 :: .keepLt4 ::
    atomsOf ((a ++ b ++ c).filter fun e => fam v e.var)) σ
  have h2 := h1 v (allVars_complete v hv) τ hτ
  have h3 : kept σ v = kept τ v := by
    have k1 := hc .keepLt1 (by simp)
    have k2 := hc .keepLt2 (by simp)
    have k3 := hc .keepLt3 (by simp)
    have k4 := hc .keepLt4 (by simp)
    unfold kept
    split <;> simp [k1, k2, k3, k4]
  unfold good at h2 ⊢
  rw [filter_glob hv, h3, active_congr (σ := σ) (τ := τ) (fun x hx => hc x (by
    repeat apply List.mem_cons_of_mem
    exact hx))]
  exact h2

theorem flatMap_range_one {g : Nat → List Ev} {p : Ev → Bool} {i : Nat} {l : List Ev}
    (h1 : (g i).filter p = l) (h2 : ∀ j, j ≠ i → (g j).filter p = []) (nc : Nat) :
    ((List.range nc).flatMap g).filter p = if i < nc then l else [] := by
  induction nc with
  | zero => simp
  | succ n ih =>
    rw [List.range_succ, List.flatMap_append, List.filter_append, ih]
    simp only [List.flatMap_cons, List.flatMap_nil, List.append_nil]
    by_cases hi : i = n
    · subst hi; simp [h1]
    · rw [h2 n (Ne.symm hi)]
      by_cases hlt : i < n
      · rw [if_pos hlt, if_pos (by omega)]; simp
      · rw [if_neg hlt, if_neg (by omega)]; simp

theorem soc_filter {a b c : List Ev} (h : Parts a b c) (i : Nat) (f : SF) (nc : Nat) :
    (prog a b c nc).filter (fun e => fam (.soc i f) e.var) =
      headEvs ++ (if i < nc then [al (.soc i f)] else []) ++ (if i < nc then [fr (.soc i f)] else []) ++
        tailEvs := by
  have hns := h.noSoc
  simp only [noSoc, List.all_eq_true, List.mem_append, Bool.not_eq_eq_eq_not, Bool.not_true] at hns
  have key : ∀ l : List Ev, (∀ e ∈ l, isSoc e.var = false) →
      l.filter (fun e => fam (.soc i f) e.var) = l.filter (fun e => above e.var) := by
    intro l hl
    refine List.filter_congr fun e he => ?_
    have := hl e he
    have hne : e.var ≠ .soc i f := by intro h; rw [h] at this; cases this
    simp [fam, above, chain, hne]
  have ha := key a fun e he => hns e (Or.inl (Or.inl he))
  have hb := key b fun e he => hns e (Or.inl (Or.inr he))
  have hc := key c fun e he => hns e (Or.inr he)
  have hs1 : (setupSoc i).filter (fun e => fam (.soc i f) e.var) = [al (.soc i f)] := by
    cases f <;> simp [setupSoc, fam, al, chain]
  have hs2 : ∀ j, j ≠ i → (setupSoc j).filter (fun e => fam (.soc i f) e.var) = [] := by
    intro j hj
    simp [setupSoc, fam, al, chain, hj]
  have hf1 : (cleanupSoc i).filter (fun e => fam (.soc i f) e.var) = [fr (.soc i f)] := by
    cases f <;> simp [cleanupSoc, fam, fr, chain]
  have hf2 : ∀ j, j ≠ i → (cleanupSoc j).filter (fun e => fam (.soc i f) e.var) = [] := by
    intro j hj
    simp [cleanupSoc, fam, fr, chain, hj]
  unfold prog
  simp only [List.filter_append, ha, hb, hc, h.ha, h.hb, h.hc, flatMap_range_one hs1 hs2,
    flatMap_range_one hf1 hf2, List.append_nil]

theorem soc_good {a b c : List Ev} (h : Parts a b c) (σ : Atom → Bool) (i : Nat) (f : SF) (nc : Nat)
    (hσ : σ .socPos = decide (0 < nc)) : good σ (.soc i f) (prog a b c nc) = true := by
  unfold good
  rw [soc_filter h]
  by_cases hi : i < nc
  · have hp : σ .socPos = true := by rw [hσ]; simp; omega
    simp [hi, headEvs, tailEvs, ifSo, ifNot, al, fr, nul, active, hp, List.filter_cons, run, step, set, chain, kept]
  · cases hp : σ .socPos <;>
      simp [hi, headEvs, tailEvs, ifSo, ifNot, al, fr, nul, active, hp, List.filter_cons, run, step, set, chain, kept]

theorem all_good {a b c : List Ev} (h : Parts a b c) (S : Shape) (v : Var) :
    good S.val v (prog a b c S.ncones) = true := by
  cases hv : isSoc v
  · exact glob_good h _ hv _
  · cases v <;> cases hv
    exact soc_good h _ _ _ _ rfl

theorem exec_parts {a b c : List Ev} (h : Parts a b c) (S : Shape) :
    ∃ s, exec S (prog a b c S.ncones) = some s ∧ ∀ v, s v = .live ↔ kept S.val v = true := by
  have hw : WellPathed ((prog a b c S.ncones).filter (active S.val)) :=
    fun e he => prog_pathed h S.ncones e (List.mem_filter.1 he).1
  have hcomm : ∀ v, ((prog a b c S.ncones).filter (active S.val)).filter (fun e => fam v e.var) =
      ((prog a b c S.ncones).filter fun e => fam v e.var).filter (active S.val) := by
    intro v
    rw [List.filter_filter, List.filter_filter]
    exact List.filter_congr fun e _ => Bool.and_comm _ _
  have hg : ∀ v, ∃ t, run (((prog a b c S.ncones).filter (active S.val)).filter fun e => fam v e.var)
      (fun _ => .unset) = some t ∧ (t v = .live ↔ kept S.val v = true) := by
    intro v
    have := all_good h S v
    rw [hcomm]
    unfold good at this
    split at this
    · next s hs =>
      refine ⟨s, hs, ?_⟩
      rw [beq_iff_eq] at this
      rw [← this]
      simp
    · cases this
  obtain ⟨s, hs⟩ := Option.isSome_iff_exists.1 (run_of_families hw (s := fun _ => .unset) fun v => by
    obtain ⟨t, ht, -⟩ := hg v
    rw [ht]; rfl)
  refine ⟨s, hs, fun v => ?_⟩
  obtain ⟨t, ht, he⟩ := run_final hw hs v
  obtain ⟨t', ht', hk⟩ := hg v
  rw [ht] at ht'
  cases ht'
  rw [← he]
  exact hk

/-! ### The properties -/

/-- the pointers the caller keeps: the first `keepvars` of `x`, `y`, `s`, `z` -/
def Kept (S : Shape) (v : Var) : Prop :=
  (v = .w .x ∧ 1 ≤ S.keepvars) ∨ (v = .w .y ∧ 2 ≤ S.keepvars) ∨ (v = .w .s ∧ 3 ≤ S.keepvars) ∨
    (v = .w .z ∧ 4 ≤ S.keepvars)

theorem kept_iff (S : Shape) (v : Var) : kept S.val v = true ↔ Kept S v := by
  unfold Kept
  cases v with
  | w f => cases f <;> simp [kept, Shape.val]
  | _ => simp [kept]

/-- C40 (the part that holds): for every problem shape and every `keepvars`, a successful set-up
followed by cleanup runs without touching an unallocated struct, losing a block, freeing an unset pointer
or freeing twice, and what is still allocated at the end is exactly what the caller asked to keep.
Missing: failed set-ups, which leak (`C40_dims_leak_violated`, `C40_amd_leak_violated`) -/
theorem C40_cleanup_partial (S : Shape) :
    ∃ s, exec S (setup S.ncones ++ cleanup S.ncones) = some s ∧ ∀ v, s v = .live ↔ Kept S v := by
  rw [ecos_prog]
  obtain ⟨s, h1, h2⟩ := exec_parts ecos_parts S
  exact ⟨s, h1, fun v => (h2 v).trans (kept_iff S v)⟩

/-- C45: the same for the mixed-integer solver -/
theorem C45_bb_cleanup (S : Shape) :
    ∃ s, exec S (bbSetup S.ncones ++ bbCleanup S.ncones) = some s ∧ ∀ v, s v = .live ↔ Kept S v := by
  rw [bb_prog]
  obtain ⟨s, h1, h2⟩ := exec_parts bb_parts S
  exact ⟨s, h1, fun v => (h2 v).trans (kept_iff S v)⟩

theorem run_live {l : List Ev} {v : Var} (hl : ∀ e ∈ l, e.var = v → e.op ≠ .free) :
    ∀ {s s' : Heap}, run l s = some s' → s v = .live → s' v = .live := by
  induction l with
  | nil => intro s s' h hs; simp only [run, Option.some.injEq] at h; rwa [← h]
  | cons e l ih =>
    intro s s' h hs
    simp only [run, Option.bind_eq_some_iff] at h
    obtain ⟨s1, h1, h⟩ := h
    refine ih (fun e he => hl e (List.mem_cons_of_mem _ he)) h ?_
    by_cases hv : e.var = v
    · have hop := hl e (List.mem_cons_self ..) hv
      unfold step at h1
      rw [hv, hs] at h1
      split at h1
      · cases ho : e.op <;> rw [ho] at h1 hop <;> simp at h1
        exact absurd rfl hop
      · cases h1
    · rw [step_other h1 (Ne.symm hv)]; exact hs

theorem range_nofree (nc : Nat) : ∀ e ∈ (List.range nc).flatMap setupSoc, e.op ≠ .free := by
  intro e he
  simp only [List.mem_flatMap, setupSoc, al, List.mem_cons, List.not_mem_nil, or_false] at he
  obtain ⟨i, -, rfl | rfl | rfl | rfl⟩ := he <;> simp

theorem live_self {S : Shape} {l : List Ev} (hl : ∀ e ∈ l, e.var = .w .self → e.op ≠ .free) {s : Heap}
    (h : exec S (al (.w .self) :: l) = some s) : s (.w .self) = .live := by
  unfold exec at h
  rw [List.filter_cons_of_pos (by simp [active, al])] at h
  simp only [run, Option.bind_eq_some_iff] at h
  obtain ⟨s1, h1, h⟩ := h
  refine run_live (fun e he => hl e (List.mem_filter.1 he).1) h ?_
  simp [step, al, chain, set] at h1
  rw [← h1]; rfl

/-- C40 is violated by every set-up that rejects the dimensions: the workspace struct is still
allocated, and the caller gets no pointer to it -/
theorem C40_dims_leak_violated {S : Shape} {s : Heap} (h : exec S (setupDims S.ncones) = some s) :
    s (.w .self) = .live := by
  have hs : setupDims S.ncones = al (.w .self) :: (setup1.tail ++ (List.range S.ncones).flatMap setupSoc ++ setup2) := by
    simp [setupDims, setup1]
  rw [hs] at h
  refine live_self ?_ h
  intro e he hv
  simp only [List.mem_append] at he
  obtain (he | he) | he := he
  · have : ∀ e ∈ setup1.tail, e.op ≠ .free := by decide +kernel
    exact this e he
  · exact range_nofree _ e he
  · have : ∀ e ∈ setup2, e.op ≠ .free := by decide +kernel
    exact this e he

/-- C40 is violated by every set-up in which AMD fails -/
theorem C40_amd_leak_violated {S : Shape} {s : Heap} (h : exec S (setupAmd S.ncones) = some s) :
    s (.w .self) = .live := by
  have hs : setupAmd S.ncones = al (.w .self) :: (setup1.tail ++ (List.range S.ncones).flatMap setupSoc ++ (setup2 ++ setup3)) := by
    simp [setupAmd, setupDims, setup1]
  rw [hs] at h
  refine live_self ?_ h
  intro e he hv
  simp only [List.mem_append] at he
  obtain (he | he) | he := he
  · have : ∀ e ∈ setup1.tail, e.op ≠ .free := by decide +kernel
    exact this e he
  · exact range_nofree _ e he
  · have : ∀ e ∈ setup2 ++ setup3, e.var = .w .self → e.op ≠ .free := by decide +kernel
    exact this e (by simpa using he) hv

/-- a shape: two variables, one equality, one bound, two second-order cones and one exponential cone; the
caller keeps `x` and `y` -/
def shape1 : Shape := ⟨2, 10, 1, 1, 2, 1, true, 2, 7, 2, true⟩

/-- both failing set-ups run up to their `return NULL`, so the hypotheses above are met -/
example : (exec shape1 (setupDims 2)).isSome ∧ (exec shape1 (setupAmd 2)).isSome := by decide +kernel
/-- the run really allocates: after set-up `x` and a second-order cone array are allocated, after cleanup
the first is kept, the second freed -/
example : (match exec shape1 (setup 2) with
    | some s => s (.w .x) == .live && s (.soc 1 .q) == .live && s (.tmp .Sign) == .freed
    | none => false) = true ∧ (match exec shape1 (setup 2 ++ cleanup 2) with
    | some s => s (.w .x) == .live && s (.w .z) == .freed && s (.soc 1 .q) == .freed
    | none => false) = true := by
  decide +kernel

end Ecos.Ledger
