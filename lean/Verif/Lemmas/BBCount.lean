import Verif.Model.BB
import Verif.Core.Runs
import Verif.Lemmas.Driver1

/-!
# How many calls of the continuous solver a mixed-integer solve makes

`μ` counts the calls in the part of the continuous workspace the search does not write to (`Core`). Nothing is assumed about the workspace.
-/
set_option linter.unusedSectionVars false

namespace Ecos
namespace BB

/-- the part of the continuous workspace the search does not write to -/
structure Core (F W : Type) where
  n : Nat
  p : Nat
  m : Nat
  c : Buf F
  gequil : Buf F
  hid : W

def EW.core {F W I : Type} (e : EW F W I) : Core F W := ⟨e.n, e.p, e.m, e.c, e.gequil, e.hid⟩

variable {F : Type} [Zero F] [One F] [Add F] [Sub F] [Mul F] [Div F] [Neg F] [OfScientific F]
  [IntCast F] [PFloat F] [HasInf F] {W I : Type} {env : Env F W I} {μ : Core F W → Nat} {d : Nat}

/-- what a finished loop keeps -/
theorem loop_keep {σ : Type} {n : Nat} {s r : σ} {body : Nat → σ → M σ} (J : Nat → σ → Prop) (h0 : J 0 s)
    (hstep : ∀ i s s', i < n → J i s → body i s = .ok s' → J (i + 1) s') (h : loop 0 n s body = .ok r) : J n r :=
  (loop_runs (bad := fun _ => True) J (Nat.zero_le _) h0 (fun i s _ hi hJ => by
    cases hb : body i s with
    | error _ => trivial
    | ok s' => exact hstep i s s' hi hJ hb) fun _ h => h).out h

/-- from `a` to `b` at most `k` calls were made, and the sizes, the settings and the number of nodes are as before -/
structure Sp (μ : Core F W → Nat) (k : Nat) (a b : St F W I) : Prop where
  lo : μ a.ecos.core ≤ μ b.ecos.core
  hi : μ b.ecos.core ≤ μ a.ecos.core + k
  nb : b.nb = a.nb
  ni : b.ni = a.ni
  st : b.stgs = a.stgs
  it : b.iter = a.iter

theorem Sp.refl (a : St F W I) : Sp μ 0 a a := ⟨le_refl _, le_refl _, rfl, rfl, rfl, rfl⟩

theorem Sp.trans {j k : Nat} {a b c : St F W I} (h1 : Sp μ j a b) (h2 : Sp μ k b c) : Sp μ (j + k) a c :=
  ⟨h1.lo.trans h2.lo, by have := h1.hi; have := h2.hi; omega, h2.nb.trans h1.nb, h2.ni.trans h1.ni, h2.st.trans h1.st, h2.it.trans h1.it⟩

theorem Sp.mono {j k : Nat} {a b : St F W I} (h : Sp μ j a b) (hk : j ≤ k) : Sp μ k a b :=
  ⟨h.lo, by have := h.hi; omega, h.nb, h.ni, h.st, h.it⟩

/-- every call adds between `d` and 1; with `d = 1` the calls are counted -/
def Counts (d : Nat) (μ : Core F W → Nat) (env : Env F W I) : Prop :=
  ∀ e e' c, env.solve e = .ok (e', c) → μ e.core + d ≤ μ e'.core ∧ μ e'.core ≤ μ e.core + 1

theorem setNode_sp {a b : St F W I} {i : Int} {f : Node F → Node F} (h : setNode a i f = .ok b) : Sp μ 0 a b := by
  unfold setNode at h
  simp only [bind_ok, pure_ok] at h
  obtain ⟨_, -, _, -, rfl⟩ := h
  exact ⟨le_refl _, le_refl _, rfl, rfl, rfl, rfl⟩

theorem branch_sp {a b : St F W I} {cur : Nat} (h : branch cur a = .ok b) : Sp μ 0 a b := by
  unfold branch at h
  simp only [bind_ok] at h
  obtain ⟨nd, -, a1, h1, a2, h2, bi, -, ii, -, h⟩ := h
  have k := (setNode_sp (μ := μ) h1).trans (setNode_sp h2)
  refine k.trans (k := 0) ?_
  split at h
  · unfold splitBool at h
    simp only [bind_ok, pure_ok] at h
    obtain ⟨_, -, _, -, rfl⟩ := h
    exact ⟨le_refl _, le_refl _, rfl, rfl, rfl, rfl⟩
  · unfold splitInt at h
    simp only [bind_ok, pure_ok] at h
    obtain ⟨_, -, _, -, _, -, _, -, rfl⟩ := h
    exact ⟨le_refl _, le_refl _, rfl, rfl, rfl, rfl⟩

theorem nextScan_sp {a b : St F W I} {c : Int} (h : nextScan a = .ok (b, c)) : Sp μ 0 a b := by
  unfold nextScan at h
  simp only [bind_ok, pure_ok, Prod.mk.injEq] at h
  obtain ⟨_, -, rfl, -⟩ := h
  exact ⟨le_refl _, le_refl _, rfl, rfl, rfl, rfl⟩

theorem getNextNode_sp {a b : St F W I} {c : Int} (h : getNextNode a = .ok (b, c)) : Sp μ 0 a b := by
  unfold getNextNode at h
  split at h
  · simp only [bind_ok] at h
    obtain ⟨_, -, h⟩ := h
    split at h
    · simp only [pure_ok, Prod.mk.injEq] at h
      obtain ⟨rfl, -⟩ := h
      exact .refl _
    · exact nextScan_sp h
  · split at h
    · simp only [bind_ok] at h
      obtain ⟨_, -, h⟩ := h
      split at h
      · simp only [pure_ok, Prod.mk.injEq] at h
        obtain ⟨rfl, -⟩ := h
        exact .refl _
      · exact nextScan_sp h
    · exact nextScan_sp h

theorem updPair_core {e e' : EW F W I} {j : Nat} {x y : F} (h : updPair e j x y = .ok e') : e'.core = e.core := by
  unfold updPair updH at h
  simp only [bind_ok, pure_ok] at h
  obtain ⟨_, ⟨_, -, _, -, rfl⟩, _, -, _, -, rfl⟩ := h
  rfl

theorem setProb_sp {a b : St F W I} {bids : Buf Int} {boff : Nat} {iids : Buf F} {ioff : Nat} (h : setProb a bids boff iids ioff = .ok b) :
    Sp μ 0 a b := by
  unfold setProb at h
  simp only [bind_ok, pure_ok] at h
  obtain ⟨e1, h1, e2, h2, rfl⟩ := h
  have k1 : e1.core = a.ecos.core := loop_keep (fun _ e => e.core = a.ecos.core) rfl (fun i s s' _ hs hb => by
    unfold setBoolStep at hb
    simp only [bind_ok] at hb
    obtain ⟨_, -, hb⟩ := hb
    split at hb
    · exact (updPair_core hb).trans hs
    · split at hb
      · exact (updPair_core hb).trans hs
      · split at hb
        · exact (updPair_core hb).trans hs
        · cases hb
          exact hs) h1
  have k2 : e2.core = a.ecos.core := loop_keep (fun _ e => e.core = a.ecos.core) k1 (fun i s s' _ hs hb => by
    unfold setIntStep at hb
    simp only [bind_ok] at hb
    obtain ⟨_, -, _, -, hb⟩ := hb
    exact (updPair_core hb).trans hs) h2
  exact ⟨by rw [k2], by rw [k2]; exact le_refl _, rfl, rfl, rfl, rfl⟩

theorem callSolve_sp (H : Counts d μ env) {a b : St F W I} {c : Int} (h : callSolve env a = .ok (b, c)) :
    Sp μ 1 a b ∧ μ a.ecos.core + d ≤ μ b.ecos.core := by
  unfold callSolve at h
  simp only [bind_ok, pure_ok, Prod.mk.injEq] at h
  obtain ⟨⟨e, c'⟩, h1, rfl, rfl⟩ := h
  obtain ⟨q1, q2⟩ := H _ _ _ h1
  exact ⟨⟨by show _ ≤ μ e.core; omega, q2, rfl, rfl, rfl, rfl⟩, q1⟩

theorem takeScore_sp {a b : St F W I} {best : F} {node i : Nat} {v sc r : F} (h : takeScore a best node i v sc = .ok (b, r)) : Sp μ 0 a b := by
  unfold takeScore at h
  split at h
  · simp only [bind_ok, pure_ok, Prod.mk.injEq] at h
    obtain ⟨_, h1, rfl, -⟩ := h
    exact setNode_sp h1
  · simp only [pure_ok, Prod.mk.injEq] at h
    obtain ⟨rfl, -⟩ := h
    exact .refl _

theorem mostInfeasible_sp {a b : St F W I} {node : Nat} (h : mostInfeasible a node = .ok b) : Sp μ 0 a b := by
  unfold mostInfeasible at h
  simp only [bind_ok, pure_ok] at h
  obtain ⟨s, h, rfl⟩ := h
  refine loop_keep (fun _ s => Sp μ 0 a s.1) (.refl a) (fun i s s' _ hs hb => ?_) h
  unfold mostInfStep at hb
  simp only [bind_ok] at hb
  obtain ⟨_, -, _, -, _, -, hb⟩ := hb
  split at hb
  · simp only [bind_ok, pure_ok] at hb
    obtain ⟨_, h1, rfl⟩ := hb
    exact hs.trans (setNode_sp h1)
  · cases hb
    exact hs

theorem branchRandom_sp {node : Nat} : ∀ {fuel : Nat} {a b : St F W I}, branchRandom env node fuel a = .ok b → Sp μ 0 a b
  | 0, a, b, h => by cases h
  | fuel + 1, a, b, h => by
    unfold branchRandom at h
    split at h
    · cases h
    · simp only [bind_ok] at h
      obtain ⟨_, -, _, -, a1, h1, t, -, h⟩ := h
      have k1 := setNode_sp (μ := μ) h1
      have k : Sp μ 0 a a1 := ⟨k1.lo, k1.hi, k1.nb, k1.ni, k1.st, k1.it⟩
      split at h
      · exact k.trans (branchRandom_sp h)
      · cases h
        exact k

theorem initStrong_sp {a b : St F W I} {node : Nat} (h : initStrong a node = .ok b) : Sp μ 0 a b := by
  unfold initStrong at h
  simp only [bind_ok, pure_ok] at h
  obtain ⟨_, -, _, -, rfl⟩ := h
  exact ⟨le_refl _, le_refl _, rfl, rfl, rfl, rfl⟩

theorem calcTmp_sp (H : Counts d μ env) {a b : St F W I} {r : F × Int} (h : calcTmp env a = .ok (b, r)) : Sp μ 1 a b := by
  unfold calcTmp at h
  simp only [bind_ok, pure_ok, Prod.mk.injEq] at h
  obtain ⟨a1, h1, ⟨a2, c⟩, h2, _, -, rfl, -⟩ := h
  exact ((setProb_sp h1).trans (callSolve_sp H h2).1).mono (by omega)

theorem fixBool_sp {a b : St F W I} {node i : Nat} {o : Int} {v : F} (h : fixBool a node i o v = .ok b) : Sp μ 0 a b := by
  unfold fixBool setSplitIfNone at h
  simp only [bind_ok] at h
  obtain ⟨_, -, _, -, h⟩ := h
  obtain ⟨k1, k2, k3, k4, k5, k6⟩ := setNode_sp (μ := μ) h
  exact ⟨k1, k2, k3, k4, k5, k6⟩

theorem fixInt_sp {a b : St F W I} {node i s : Nat} {o v : F} (h : fixInt a node i s o v = .ok b) : Sp μ 0 a b := by
  unfold fixInt setSplitIfNone at h
  simp only [bind_ok] at h
  obtain ⟨_, -, _, -, h⟩ := h
  obtain ⟨k1, k2, k3, k4, k5, k6⟩ := setNode_sp (μ := μ) h
  exact ⟨k1, k2, k3, k4, k5, k6⟩

/-- a change of the trial bounds only -/
theorem sp_tb {k : Nat} {a b : St F W I} {t : Buf Int} (h : Sp μ k { a with tbBool := t } b) : Sp μ k a b := ⟨h.lo, h.hi, h.nb, h.ni, h.st, h.it⟩
theorem sp_ti {k : Nat} {a b : St F W I} {t : Buf F} (h : Sp μ k { a with tbInt := t } b) : Sp μ k a b := ⟨h.lo, h.hi, h.nb, h.ni, h.st, h.it⟩

theorem strongBool_sp (H : Counts d μ env) {a b : St F W I} {node i : Nat} {v : F} {r : Option (F × F)}
    (h : strongBool env a node i v = .ok (b, r)) : Sp μ 2 a b := by
  unfold strongBool at h
  simp only [bind_ok] at h
  obtain ⟨_, -, _, -, ⟨a1, r1⟩, h1, h⟩ := h
  have k1 := sp_tb (calcTmp_sp H h1)
  split at h
  · simp only [bind_ok, pure_ok, Prod.mk.injEq] at h
    obtain ⟨_, h2, rfl, -⟩ := h
    exact (k1.trans (fixBool_sp h2)).mono (by omega)
  · simp only [bind_ok] at h
    obtain ⟨_, -, ⟨a2, r2⟩, h2, h⟩ := h
    have k2 := k1.trans (sp_tb (calcTmp_sp H h2))
    split at h
    · simp only [bind_ok, pure_ok, Prod.mk.injEq] at h
      obtain ⟨_, h2, rfl, -⟩ := h
      exact (k2.trans (fixBool_sp h2)).mono (by omega)
    · simp only [bind_ok, pure_ok, Prod.mk.injEq] at h
      obtain ⟨_, -, rfl, -⟩ := h
      exact ⟨k2.lo, k2.hi, k2.nb, k2.ni, k2.st, k2.it⟩

theorem tryInt_sp (H : Counts d μ env) {a b : St F W I} {pos : Nat} {v : F} {r : F × Int} (h : tryInt env a pos v = .ok (b, r)) : Sp μ 1 a b := by
  unfold tryInt at h
  simp only [bind_ok, pure_ok, Prod.mk.injEq] at h
  obtain ⟨_, -, _, -, ⟨a1, r1⟩, h1, _, -, rfl, -⟩ := h
  have k := sp_ti (calcTmp_sp H h1)
  exact ⟨k.lo, k.hi, k.nb, k.ni, k.st, k.it⟩

theorem strongInt_sp (H : Counts d μ env) {a b : St F W I} {node i : Nat} {v : F} {r : Option (F × F)}
    (h : strongInt env a node i v = .ok (b, r)) : Sp μ 2 a b := by
  unfold strongInt at h
  simp only [bind_ok] at h
  obtain ⟨_, -, ⟨a1, r1⟩, h1, h⟩ := h
  have k1 := tryInt_sp H h1
  split at h
  · simp only [bind_ok, pure_ok, Prod.mk.injEq] at h
    obtain ⟨_, -, _, h2, rfl, -⟩ := h
    exact (k1.trans (fixInt_sp h2)).mono (by omega)
  · simp only [bind_ok] at h
    obtain ⟨_, -, ⟨a2, r2⟩, h2, h⟩ := h
    have k2 := k1.trans (tryInt_sp H h2)
    split at h
    · simp only [bind_ok, pure_ok, Prod.mk.injEq] at h
      obtain ⟨_, -, _, h2, rfl, -⟩ := h
      exact (k2.trans (fixInt_sp h2)).mono (by omega)
    · simp only [pure_ok, Prod.mk.injEq] at h
      obtain ⟨rfl, -⟩ := h
      exact k2

theorem strongVar_sp (H : Counts d μ env) {a b : St F W I} {node i : Nat} {v : F} {r : Option (F × F)}
    (h : strongVar env a node i v = .ok (b, r)) : Sp μ 2 a b := by
  unfold strongVar at h
  split at h
  · exact strongBool_sp H h
  · exact strongInt_sp H h

theorem strongBranching_sp (H : Counts d μ env) {a b : St F W I} {node : Nat} (h : strongBranching env a node = .ok b) :
    Sp μ (1 + 2 * (a.nb + a.ni)) a b := by
  unfold strongBranching at h
  simp only [bind_ok, pure_ok] at h
  obtain ⟨a1, h1, ⟨a2, r⟩, h2, xs, -, a3, h3, p, -, s, h, rfl⟩ := h
  have k := ((initStrong_sp (μ := μ) h1).trans (calcTmp_sp H h2)).trans (setNode_sp h3)
  have hn : a3.nb + a3.ni = a.nb + a.ni := by rw [k.nb, k.ni]
  have q := loop_keep (fun i s => Sp μ (2 * i) a3 s.1) ⟨le_refl _, le_refl _, rfl, rfl, rfl, rfl⟩ (fun i s s' _ hs hb => ?_) h
  · rw [hn] at q
    exact (k.trans q).mono (by omega)
  · unfold strongStep at hb
    simp only [bind_ok] at hb
    obtain ⟨_, -, _, -, _, -, t, -, hb⟩ := hb
    split at hb
    · cases hb
      exact hs.mono (by omega)
    · simp only [bind_ok] at hb
      obtain ⟨⟨a4, o⟩, h4, hb⟩ := hb
      have k4 := hs.trans (strongVar_sp H h4)
      unfold strongTake at hb
      split at hb
      · cases hb
        exact k4.mono (by omega)
      · exact (k4.trans (takeScore_sp (r := s'.2) hb)).mono (by omega)

theorem pseudocost_sp {a b : St F W I} {node : Nat} (h : pseudocostBranching env a node = .ok b) : Sp μ 0 a b := by
  unfold pseudocostBranching at h
  simp only [bind_ok, pure_ok] at h
  obtain ⟨p, -, s, h, rfl⟩ := h
  refine loop_keep (fun i s => Sp μ 0 a s.1) ⟨le_refl _, le_refl _, rfl, rfl, rfl, rfl⟩ (fun i s s' _ hs hb => ?_) h
  unfold pseudoStep at hb
  simp only [bind_ok] at hb
  obtain ⟨_, -, _, -, _, -, t, -, hb⟩ := hb
  split at hb
  · cases hb
    exact hs
  · simp only [bind_ok] at hb
    obtain ⟨_, -, hb⟩ := hb
    exact hs.trans (takeScore_sp (r := s'.2) hb)

theorem bumpVar_sp {a b : St F W I} {i off : Nat} {d : F} (h : bumpVar a i off d = .ok b) : Sp μ 0 a b := by
  unfold bumpVar at h
  split at h
  · simp only [bind_ok, pure_ok] at h
    obtain ⟨_, -, rfl⟩ := h
    exact ⟨le_refl _, le_refl _, rfl, rfl, rfl, rfl⟩
  · simp only [bind_ok, pure_ok] at h
    obtain ⟨_, -, rfl⟩ := h
    exact ⟨le_refl _, le_refl _, rfl, rfl, rfl, rfl⟩

theorem relUpdate_sp {a b : St F W I} {i : Nat} {cv q qd qu : F} (h : relUpdate a i cv q qd qu = .ok b) : Sp μ 0 a b := by
  unfold relUpdate at h
  simp only [bind_ok] at h
  obtain ⟨_, -, _, -, _, h1, h⟩ := h
  exact (bumpVar_sp h1).trans (bumpVar_sp h)

theorem relTake_sp {q cv y : F} {node i : Nat} {s s' : RelSt F W I} {r : St F W I × Option (F × F)} (h : relTake q cv y node i s r = .ok s') :
    Sp μ 0 r.1 s'.bb ∧ s'.strong = s.strong := by
  unfold relTake at h
  split at h
  · cases h
    exact ⟨.refl _, rfl⟩
  · simp only [bind_ok, pure_ok] at h
    obtain ⟨_, h1, ⟨t, _⟩, h2, rfl⟩ := h
    exact ⟨(relUpdate_sp h1).trans (takeScore_sp h2), rfl⟩

theorem relInit_sp (H : Counts d μ env) {node : Nat} {s s' : RelSt F W I} {r : F × Buf F} (h : relInit env node s = .ok (s', r)) :
    (s.strong.isSome → Sp μ 0 s.bb s'.bb) ∧ Sp μ 1 s.bb s'.bb ∧ s'.strong.isSome := by
  unfold relInit at h
  split at h
  · next hs =>
    simp only [pure_ok, Prod.mk.injEq] at h
    obtain ⟨rfl, -⟩ := h
    exact ⟨fun _ => .refl _, (Sp.refl _).mono (by omega), by rw [hs]; rfl⟩
  · next hs =>
    simp only [bind_ok, pure_ok, Prod.mk.injEq] at h
    obtain ⟨_, h1, ⟨a, _⟩, h2, _, -, rfl, -⟩ := h
    refine ⟨fun h => ?_, ((initStrong_sp h1).trans (calcTmp_sp H h2)).mono (by omega), rfl⟩
    rw [hs] at h
    cases h

theorem reliability_sp (H : Counts d μ env) {a b : St F W I} {node : Nat} (h : reliability env a node = .ok b) :
    Sp μ (1 + 2 * (a.nb + a.ni)) a b := by
  unfold reliability at h
  simp only [bind_ok, pure_ok] at h
  obtain ⟨p, -, s, h, rfl⟩ := h
  have q := loop_keep (fun i s => Sp μ (1 + 2 * i) a s.bb ∧ (s.strong.isSome = false → Sp μ (2 * i) a s.bb))
    ⟨⟨le_refl _, Nat.le_add_right _ _, rfl, rfl, rfl, rfl⟩, fun _ => ⟨le_refl _, le_refl _, rfl, rfl, rfl, rfl⟩⟩ (fun i s s' _ hs hb => ?_) h
  · exact q.1
  · unfold relStep at hb
    simp only [bind_ok] at hb
    obtain ⟨_, -, _, -, _, -, t, -, hb⟩ := hb
    split at hb
    · cases hb
      exact ⟨hs.1.mono (by omega), fun h => (hs.2 h).mono (by omega)⟩
    · simp only [bind_ok] at hb
      obtain ⟨rel, -, hb⟩ := hb
      split at hb
      · simp only [bind_ok, pure_ok] at hb
        obtain ⟨_, -, ⟨t1, _⟩, h1, rfl⟩ := hb
        exact ⟨(hs.1.trans (takeScore_sp h1)).mono (by omega), fun h => ((hs.2 h).trans (takeScore_sp h1)).mono (by omega)⟩
      · simp only [bind_ok] at hb
        obtain ⟨⟨s1, r1⟩, h1, _, -, ⟨a2, o⟩, h2, hb⟩ := hb
        obtain ⟨k1, k2, k3⟩ := relInit_sp H h1
        obtain ⟨k4, k5⟩ := relTake_sp (μ := μ) hb
        have k6 := (strongVar_sp H h2).trans k4
        have hsome : s'.strong.isSome = true := by rw [k5]; exact k3
        refine ⟨?_, fun h => ?_⟩
        · cases hq : s.strong.isSome with
          | true => exact ((hs.1.trans (k1 hq)).trans k6).mono (by omega)
          | false => exact (((hs.2 hq).trans k2).trans k6).mono (by omega)
        · rw [hsome] at h
          cases h

/-- calls for the choice of the variable to branch on -/
def trials (strategy nv : Nat) : Nat := if strategy = 1 ∨ strategy = 3 then 1 + 2 * nv else 0

theorem chooseVar_sp (H : Counts d μ env) {fuel : Nat} {a b : St F W I} {node : Nat} (h : chooseVar env fuel a node = .ok b) :
    Sp μ (trials a.stgs.strategy (a.nb + a.ni)) a b := by
  unfold chooseVar at h
  unfold trials
  split at h
  · exact (mostInfeasible_sp h).mono (Nat.zero_le _)
  · split at h
    · next h1 => rw [if_pos (.inl h1)]; exact strongBranching_sp H h
    · split at h
      · exact (pseudocost_sp h).mono (Nat.zero_le _)
      · split at h
        · next h3 => rw [if_pos (.inr h3)]; exact reliability_sp H h
        · split at h
          · exact (branchRandom_sp h).mono (Nat.zero_le _)
          · cases h
            exact (Sp.refl _).mono (Nat.zero_le _)

theorem pseudoUpdate_sp {a b : St F W I} {node : Nat} (h : pseudoUpdate a node = .ok b) : Sp μ 0 a b := by
  unfold pseudoUpdate at h
  simp only [bind_ok] at h
  obtain ⟨_, -, h⟩ := h
  split at h
  · simp only [bind_ok] at h
    obtain ⟨_, -, h⟩ := h
    exact bumpVar_sp h
  · cases h
    exact .refl _

theorem roundAll_sp {a b : St F W I} {r : Bool} (h : roundAll a = .ok (b, r)) : Sp μ 0 a b := by
  unfold roundAll at h
  simp only [bind_ok, pure_ok, Prod.mk.injEq] at h
  obtain ⟨_, -, _, -, rfl, -⟩ := h
  exact ⟨le_refl _, le_refl _, rfl, rfl, rfl, rfl⟩

theorem tryRounded_sp (H : Counts d μ env) {fuel : Nat} {a b : St F W I} {node : Nat} {r : Bool} (h : tryRounded env fuel a node = .ok (b, r)) :
    Sp μ (trials a.stgs.strategy (a.nb + a.ni) + 1) a b := by
  unfold tryRounded at h
  simp only [bind_ok] at h
  obtain ⟨a1, h1, a2, h2, a3, h3, ⟨a4, c⟩, h4, h⟩ := h
  have k := (((chooseVar_sp H h1).trans (setNode_sp h2)).trans (setProb_sp h3)).trans (callSolve_sp H h4).1
  split at h
  · simp only [bind_ok, pure_ok, Prod.mk.injEq] at h
    obtain ⟨_, -, _, h5, rfl, -⟩ := h
    exact (k.trans (setNode_sp h5)).mono (by omega)
  · simp only [pure_ok, Prod.mk.injEq] at h
    obtain ⟨rfl, -⟩ := h
    exact k.mono (by omega)

theorem takeIntegral_sp {a b : St F W I} {node : Nat} {r : Bool} (h : takeIntegral a node = .ok (b, r)) : Sp μ 0 a b := by
  unfold takeIntegral at h
  simp only [bind_ok, pure_ok, Prod.mk.injEq] at h
  obtain ⟨_, -, _, h1, rfl, -⟩ := h
  exact setNode_sp h1

theorem updIncumbent_sp {a b : St F W I} {node : Nat} (h : updIncumbent a node = .ok b) : Sp μ 0 a b := by
  unfold updIncumbent at h
  simp only [bind_ok] at h
  obtain ⟨_, -, h⟩ := h
  split at h
  · unfold storeSolution at h
    simp only [bind_ok, pure_ok] at h
    obtain ⟨_, ⟨_, -, _, -, _, -, _, -, rfl⟩, rfl⟩ := h
    exact ⟨le_refl _, le_refl _, rfl, rfl, rfl, rfl⟩
  · cases h
    exact .refl _

theorem closeNode_sp {a b : St F W I} {node : Nat} {v : Bool} (h : closeNode a node v = .ok b) : Sp μ 0 a b := by
  unfold closeNode at h
  simp only [bind_ok] at h
  obtain ⟨a1, h1, _, -, h⟩ := h
  have k1 : Sp μ 0 a a1 := by
    split at h1
    · exact setNode_sp h1
    · cases h1
      exact .refl _
  split at h
  · exact k1.trans (setNode_sp h)
  · cases h
    exact k1

theorem boundsSolved_sp (H : Counts d μ env) {fuel : Nat} {a b : St F W I} {node : Nat} {L : F} (h : boundsSolved env fuel a node L = .ok b) :
    Sp μ (trials a.stgs.strategy (a.nb + a.ni) + 1) a b := by
  unfold boundsSolved at h
  simp only [bind_ok] at h
  obtain ⟨a1, h1, a2, h2, ⟨a3, i⟩, h3, ⟨a4, v⟩, h4, a5, h5, h⟩ := h
  have k := ((setNode_sp (μ := μ) h1).trans (pseudoUpdate_sp h2)).trans (roundAll_sp h3)
  have k4 : Sp μ (trials a3.stgs.strategy (a3.nb + a3.ni) + 1) a3 a4 := by
    split at h4
    · exact (takeIntegral_sp h4).mono (Nat.zero_le _)
    · exact tryRounded_sp H h4
  rw [k.st, k.nb, k.ni] at k4
  exact (((k.trans k4).trans (updIncumbent_sp h5)).trans (closeNode_sp h)).mono (by omega)

/-- a node costs one call for its relaxation, one for the rounded point, and those for the choice of the variable -/
theorem getBounds_sp (H : Counts d μ env) {fuel : Nat} {a b : St F W I} {node : Nat} (h : getBounds env fuel node a = .ok b) :
    Sp μ (trials a.stgs.strategy (a.nb + a.ni) + 2) a b ∧ μ a.ecos.core + d ≤ μ b.ecos.core := by
  unfold getBounds at h
  simp only [bind_ok] at h
  obtain ⟨a1, h1, ⟨a2, c⟩, h2, h⟩ := h
  have k1 := setProb_sp (μ := μ) h1
  obtain ⟨k2, e2⟩ := callSolve_sp H h2
  have k := k1.trans k2
  have := k1.lo
  split at h
  · simp only [bind_ok] at h
    obtain ⟨_, -, a3, h3, h⟩ := h
    have k3 := k.trans (setNode_sp h3)
    have l3 := (setNode_sp (μ := μ) h3).lo
    split at h
    · have l4 := (setNode_sp (μ := μ) h).lo
      exact ⟨(k3.trans (setNode_sp h)).mono (by omega), by omega⟩
    · have k4 := boundsSolved_sp H h
      rw [k3.st, k3.nb, k3.ni] at k4
      have l4 := k4.lo
      exact ⟨(k3.trans k4).mono (by omega), by omega⟩
  · have l3 : μ a2.ecos.core ≤ _ := (setNode_sp (μ := μ) h).lo
    exact ⟨(k.trans (setNode_sp h)).mono (by omega), by omega⟩

theorem initRoot_sp {a b : St F W I} (h : initRoot a = .ok b) : Sp μ 0 a b := by
  unfold initRoot at h
  simp only [bind_ok, pure_ok] at h
  obtain ⟨a1, h1, _, -, _, -, rfl⟩ := h
  have k := setNode_sp (μ := μ) h1
  exact ⟨k.lo, k.hi, k.nb, k.ni, k.st, k.it⟩

theorem loadSolution_sp {a b : St F W I} (h : loadSolution a = .ok b) : Sp μ 0 a b := by
  unfold loadSolution at h
  simp only [bind_ok, pure_ok] at h
  obtain ⟨_, -, _, -, _, -, _, -, rfl⟩ := h
  exact ⟨le_refl _, le_refl _, rfl, rfl, rfl, rfl⟩

/-- one pass of the search: one node more, and the calls for two nodes -/
theorem searchStep_sp (H : Counts d μ env) {fuel : Nat} {cur c : Int} {a b : St F W I} (h : searchStep env fuel cur a = .ok (b, c)) :
    Sp μ (2 * (trials a.stgs.strategy (a.nb + a.ni) + 2)) { a with iter := a.iter + 1 } b ∧ μ a.ecos.core + 2 * d ≤ μ b.ecos.core := by
  unfold searchStep at h
  simp only [bind_ok] at h
  obtain ⟨a1, h1, a2, h2, a3, h3, gl, -, h⟩ := h
  have k1 := branch_sp (μ := μ) h1
  obtain ⟨k2, l2⟩ := getBounds_sp H h2
  obtain ⟨k3, l3⟩ := getBounds_sp H h3
  have k4 := getNextNode_sp (μ := μ) h
  have k4' : Sp μ 0 a3 b := ⟨k4.lo, k4.hi, k4.nb, k4.ni, k4.st, k4.it⟩
  rw [k2.st, k2.nb, k2.ni] at k3
  have k12 := k1.trans k2
  have e : trials a1.stgs.strategy (a1.nb + a1.ni) = trials a.stgs.strategy (a.nb + a.ni) := by rw [k1.st, k1.nb, k1.ni]
  rw [e] at k3 k2
  have l1 : μ a.ecos.core ≤ μ a1.ecos.core := k1.lo
  have l4 := k4'.lo
  exact ⟨(((k1.trans k2).trans k3).trans k4').mono (by omega), by omega⟩

theorem search_sp (H : Counts d μ env) {fuel : Nat} : ∀ {k : Nat} {cur : Int} {a b : St F W I}, search env fuel k cur a = .ok b →
    a.iter ≤ b.iter ∧ (b.iter = a.iter ∨ (b.iter : Int) ≤ (a.stgs.maxit : Int) - 1) ∧ b.stgs = a.stgs ∧ b.nb = a.nb ∧ b.ni = a.ni ∧
      μ a.ecos.core + (b.iter - a.iter) * (2 * d) ≤ μ b.ecos.core ∧
      μ b.ecos.core ≤ μ a.ecos.core + (b.iter - a.iter) * (2 * (trials a.stgs.strategy (a.nb + a.ni) + 2))
  | 0, cur, a, b, h => by
    unfold search at h
    split at h
    · cases h
    · cases h
      simp
  | k + 1, cur, a, b, h => by
    unfold search at h
    split at h
    · next hc =>
      simp only [bind_ok] at h
      obtain ⟨⟨a1, c⟩, h1, h2⟩ := h
      obtain ⟨q, l⟩ := searchStep_sp H h1
      have hlt : (a.iter : Int) < (a.stgs.maxit : Int) - 1 := by
        unfold shouldContinue at hc
        simp only [Bool.and_eq_true, decide_eq_true_eq] at hc
        exact hc.2
      have e1 : a1.iter = a.iter + 1 := q.it
      have e2 : a1.stgs = a.stgs := q.st
      have e3 : a1.nb = a.nb := q.nb
      have e4 : a1.ni = a.ni := q.ni
      have hq : μ a1.ecos.core ≤ μ a.ecos.core + 2 * (trials a.stgs.strategy (a.nb + a.ni) + 2) := q.hi
      have h2 : search env fuel k c a1 = .ok b := h2
      obtain ⟨r1, r2, r3, r4, r5, r6, r7⟩ := search_sp H h2
      rw [e2, e3, e4] at r7
      rw [e2] at r2 r3
      refine ⟨by omega, .inr ?_, r3, r4.trans e3, r5.trans e4, ?_, ?_⟩
      · rcases r2 with r2 | r2 <;> omega
      · have : b.iter - a.iter = (b.iter - a1.iter) + 1 := by omega
        rw [this, Nat.add_mul, Nat.one_mul]
        omega
      · have : b.iter - a.iter = (b.iter - a1.iter) + 1 := by omega
        rw [this, Nat.add_mul, Nat.one_mul]
        omega
    · cases h
      simp

/-- a solve keeps the settings -/
theorem bbSolve_stgs {fuel : Nat} {a b : St F W I} {c : Int} (h : bbSolve env fuel a = .ok (b, c)) : b.stgs = a.stgs := by
  have H : Counts 0 (fun _ => 0) env := fun _ _ _ _ => ⟨le_refl _, by simp⟩
  unfold bbSolve at h
  simp only [bind_ok, pure_ok, Prod.mk.injEq] at h
  obtain ⟨b1, h1, b2, h2, nd, -, b3, h3, b4, h4, rfl, -⟩ := h
  obtain ⟨-, -, r, -⟩ := search_sp H h3
  exact (loadSolution_sp (μ := fun _ => 0) h4).st.trans (r.trans (((getBounds_sp H h2).1.st).trans (initRoot_sp (μ := fun _ => 0) h1).st))

/-- a mixed-integer solve keeps what every continuous solve keeps of the state the search does not write to -/
theorem bbSolve_keeps {Q : Core F W → Prop} (hQ : ∀ e e' c, env.solve e = .ok (e', c) → Q e.core → Q e'.core) {fuel : Nat} {a b : St F W I} {c : Int}
    (h : bbSolve env fuel a = .ok (b, c)) (q : Q a.ecos.core) : Q b.ecos.core := by
  classical
  have H : Counts 0 (fun u => if Q u then 1 else 0) env := fun e e' c h => by
    have := hQ e e' c h
    show (if Q e.core then 1 else 0) + 0 ≤ (if Q e'.core then 1 else 0) ∧ (if Q e'.core then 1 else 0) ≤ (if Q e.core then 1 else 0) + 1
    split_ifs <;> simp_all
  unfold bbSolve at h
  simp only [bind_ok, pure_ok, Prod.mk.injEq] at h
  obtain ⟨b1, h1, b2, h2, nd, -, b3, h3, b4, h4, rfl, -⟩ := h
  have k1 := (initRoot_sp (μ := fun u => if Q u then 1 else 0) h1).lo
  have k2 := (getBounds_sp H h2).1.lo
  obtain ⟨-, -, -, -, -, k3, -⟩ := search_sp H h3
  have k4 := (loadSolution_sp (μ := fun u => if Q u then 1 else 0) h4).lo
  have k : (if Q a.ecos.core then 1 else 0) ≤ (if Q b4.ecos.core then 1 else 0) :=
    k1.trans (k2.trans ((Nat.le_add_right _ _).trans (k3.trans k4)))
  rw [if_pos q] at k
  by_contra hn
  rw [if_neg hn] at k
  omega

end BB
end Ecos
