import Verif.Props.BBSafe
import Verif.Props.AmdSetup
import Verif.Props.DriverExample
import Verif.Props.Inner

/-!
# C55 with AMD, and concrete runs
-/
set_option linter.unusedSectionVars false

namespace Ecos
namespace BB

open Ecos.Asm Finset Augm

section generic
variable {F : Type} [Zero F] [One F] [Add F] [Sub F] [Mul F] [Div F] [Neg F] [OfScientific F]
  [IntCast F] [PFloat F] [HasInf F] {T : Pat} {S : Shape} {dense0 : Nat → Int} {imax : Int} {A : BBArgs F}
  {a0 g0 c0 h0 b0 : Nat → F} {bv iv : Nat → Nat}

/-- a declared column has a smaller rank than there are declared variables -/
theorem Declared.rank_lt {n nb ni : Nat} (h : Declared n nb ni bv iv) {i : Nat} (hi : i < n) (hd : Decl nb ni bv iv i) :
    Augm.rank nb ni bv iv i < nb + ni := by
  classical
  rw [← h.rank]
  unfold Augm.rank
  refine card_lt_card ⟨fun j hj => ?_, fun hs => ?_⟩
  · rw [mem_filter, mem_range] at hj ⊢
    exact ⟨by omega, hj.2⟩
  · have := hs (mem_filter.2 ⟨mem_range.2 hi, hd⟩)
    rw [mem_filter, mem_range] at this
    omega

/-- the augmentation adds no duplicates and removes none -/
theorem aug_noDup (hP : PatGood T S) (hA : BBGiven T S A a0 g0 c0 h0 b0 bv iv) {t : Aug F} {irO : Nat → Nat} {prO hO : Nat → F}
    (h : OutOk A.aug T.jcG T.irG g0 h0 bv iv t irO prO hO) (hin : InOk A.aug T.jcG T.irG g0 h0 bv iv) :
    PatNoDup (A.pat T bv iv irO) ↔ PatNoDup T := by
  refine and_congr Iff.rfl ?_
  have hn : A.aug.n = T.n := hA.n
  have key : ∀ c, c < T.n → ((∀ k l, jcN A.aug T.jcG bv iv c ≤ k → k < l → l < jcN A.aug T.jcG bv iv (c + 1) → irO k ≠ irO l) ↔
      ∀ k l, T.jcG c ≤ k → k < l → l < T.jcG (c + 1) → T.irG k ≠ T.irG l) := by
    intro c hc
    have hs := jcN_succ hin (i := c) (by omega)
    have hcol := h.cols c (by omega)
    have hmono : T.jcG c ≤ T.jcG (c + 1) := hP.g.mono c hc
    constructor
    · intro H k l h1 h2 h3 e
      obtain ⟨-, r1⟩ := hcol.user (k - T.jcG c) (by omega)
      obtain ⟨-, r2⟩ := hcol.user (l - T.jcG c) (by omega)
      rw [show T.jcG c + (k - T.jcG c) = k by omega] at r1
      rw [show T.jcG c + (l - T.jcG c) = l by omega] at r2
      rw [e, ← r2] at r1
      exact H _ _ (by omega) (by omega) (by omega) r1
    · intro H k l h1 h2 h3 e
      by_cases hl : l < jcN A.aug T.jcG bv iv c + off A.aug.nb A.aug.ni bv iv c
      · have hd : Decl A.aug.nb A.aug.ni bv iv c := by
          by_contra hd
          rw [off, if_neg hd] at hl
          omega
        obtain ⟨-, -, q1, q2⟩ := hcol.bnd hd
        rw [off, if_pos hd] at hl
        have ek : k = jcN A.aug T.jcG bv iv c := by omega
        have el : l = jcN A.aug T.jcG bv iv c + 1 := by omega
        rw [ek, el, q1, q2] at e
        omega
      · obtain ⟨l', rfl⟩ : ∃ l', l = jcN A.aug T.jcG bv iv c + off A.aug.nb A.aug.ni bv iv c + l' := ⟨_, (Nat.add_sub_of_le (by omega)).symm⟩
        have hl' : l' < T.jcG (c + 1) - T.jcG c := by omega
        obtain ⟨-, r2⟩ := hcol.user l' hl'
        by_cases hk : k < jcN A.aug T.jcG bv iv c + off A.aug.nb A.aug.ni bv iv c
        · have hd : Decl A.aug.nb A.aug.ni bv iv c := by
            by_contra hd
            rw [off, if_neg hd] at hk
            omega
          obtain ⟨-, -, q1, q2⟩ := hcol.bnd hd
          rw [off, if_pos hd] at hk
          have hr : rank A.aug.nb A.aug.ni bv iv c < A.aug.nb + A.aug.ni := Declared.rank_lt hA.decl hc hd
          rcases (show k = jcN A.aug T.jcG bv iv c ∨ k = jcN A.aug T.jcG bv iv c + 1 by omega) with rfl | rfl
          · rw [q1, r2] at e
            omega
          · rw [q2, r2] at e
            omega
        · obtain ⟨k', rfl⟩ : ∃ k', k = jcN A.aug T.jcG bv iv c + off A.aug.nb A.aug.ni bv iv c + k' :=
            ⟨_, (Nat.add_sub_of_le (by omega)).symm⟩
          obtain ⟨-, r1⟩ := hcol.user k' (by omega)
          rw [r1, r2] at e
          exact H (T.jcG c + k') (T.jcG c + l') (by omega) (by omega) (by omega) (by omega)
  exact forall_congr' fun c => forall_congr' fun hc => key c hc

/-- the KKT matrix of the augmented problem has four more entries and two more rows for each declared variable -/
theorem aug_size (hA : BBGiven T S A a0 g0 c0 h0 b0 bv iv) (irO : Nat → Nat) :
    nnzK (A.pat T bv iv irO) (A.shape S) = nnzK T S + 4 * (A.nb + A.ni) ∧ dimK (A.pat T bv iv irO) (A.shape S) = dimK T S + 2 * (A.nb + A.ni) := by
  have hr : rank A.nb A.ni bv iv T.n = A.nb + A.ni := hA.decl.rank
  constructor
  · have e : (A.pat T bv iv irO).nG = T.nG + 2 * (A.nb + A.ni) := by
      show T.jcG T.n + 2 * rank A.nb A.ni bv iv T.n = T.jcG T.n + _
      rw [hr]
    unfold nnzK
    rw [e]
    show T.n + T.p + T.nA + _ + (S.l + 2 * (A.nb + A.ni)) + _ + _ = _
    show _ + ∑ i ∈ range S.ns, (3 * S.q i + 1) + 6 * S.ne = _
    omega
  · show T.n + T.p + (T.m + 2 * (A.nb + A.ni)) + 2 * S.ns = _
    unfold dimK
    omega

/-- **C55, set-up with AMD succeeds** for every consistent problem without duplicate entries, unless it is so large that indices come near
the end of the integer type -/
theorem C55_setup_succeeds (hP : PatGood T S) (hA : BBGiven T S A a0 g0 c0 h0 b0 bv iv) (hd : PatNoDup T)
    (hs : 2 * ((nnzK T S + 4 * (A.nb + A.ni) : Nat) : Int) + 2 * (nnzK T S + 4 * (A.nb + A.ni) : Nat) / 5 +
      7 * (dimK T S + 2 * (A.nb + A.ni) : Nat) < imax) (sig : Sig) (hp : 0 < A.nb + A.ni) (hm : 0 < A.stgs.maxit) (h1 : A.stgs.strategy ≠ 1) :
    Ok (bbSetup (amdOrder dense0 imax) A sig) fun bb => ∃ T' S', PatGood T' S' ∧ T'.n = T.n ∧ T'.m = T.m + 2 * (A.nb + A.ni) ∧
      Ready (amdOrder dense0 imax) T' S' A.nb A.ni bv iv A.stgs.maxit bb := by
  obtain ⟨t, irO, prO, hO, h, hin, hgood, hG, e⟩ := bbSetup_eq (amd := amdOrder dense0 imax) hP hA sig
  obtain ⟨s1, s2⟩ := aug_size hA irO
  rw [← s1, ← s2] at hs
  obtain ⟨w, hw, -⟩ := C54_succeeds (F := F) (dense0 := dense0) (imax := imax) hgood ((aug_noDup hP hA h hin).2 hd) hs hG
  rw [(ecosSetupAmd_core (dense0 := dense0) (imax := imax) hgood hG (fun _ => 0) (fun _ => 0) (by omega)).1] at hw
  have hR := C55_setup (amd := amdOrder dense0 imax) amdOrder_perm hP hA sig hp hm h1
  rw [e, hw, ok_bind_eq] at hR ⊢
  refine (Ok_pure _ _).2 ?_
  obtain ⟨T', S', q1, q2, q3, -, -, q4⟩ := (Runs_pure _ _).1 hR
  exact ⟨T', S', q1, q2, q3, q4⟩

/-- **C55, duplicates crash the set-up** if a column of `A` or `G` holds a row twice, `ECOS_BB_setup` follows a null pointer -/
theorem C55_duplicates_crash (hP : PatGood T S) (hA : BBGiven T S A a0 g0 c0 h0 b0 bv iv) (hd : ¬ PatNoDup T) (himax : 0 < imax)
    (sig : Sig) : bbSetup (amdOrder dense0 imax) A sig = .error .nullDeref := by
  obtain ⟨t, irO, prO, hO, h, hin, hgood, hG, e⟩ := bbSetup_eq (amd := amdOrder dense0 imax) hP hA sig
  obtain ⟨B, G, b, hh, hw, -⟩ := C54_duplicates (F := F) (dense0 := dense0) (imax := imax) hgood
    (fun q => hd ((aug_noDup hP hA h hin).1 q)) himax hG
  rw [(ecosSetupAmd_core (dense0 := dense0) (imax := imax) hgood hG (fun _ => 0) (fun _ => 0) himax).1] at hw
  rw [e, hw, ok_bind_eq]

end generic

/-! ### Concrete runs -/
namespace Real

open Ecos.Run

/-- the comparison of `Fx` satisfies the laws -/
theorem ltLaws_fx : LtLaws Fx where
  irrefl := fun a => by cases a <;> simp [lt, Fx.ltB]
  trans := fun a b c h1 h2 => by
    have h1 : Fx.ltB a b = true := h1
    have h2 : Fx.ltB b c = true := h2
    show Fx.ltB a c = true
    cases a <;> cases b <;> cases c <;> simp_all [Fx.ltB]
    omega
  inf_top := fun a => by cases a <;> rfl

/-- `min x` subject to `x ≥ lo`, `x` integer; the node limit is 4 -/
def args (lo : Fx) (strategy : Nat) : BBArgs Fx :=
  { n := 1, m := 1, p := 0, l := 1, ncones := 0, q := bl [], nexc := 0, gpr := bl [-1], gjc := bl [0, 1], gir := bl [0],
    A3 := ⟨none, none, none⟩, c := bl [1], h := bl [-lo], b := bl [], nb := 0, bools := bl [], ni := 1, ints := bl [0],
    stgs := { bbDefault with maxit := 4, strategy := strategy } }

theorem given (lo : Fx) (st : Nat) : BBGiven Dir.exT Dir.exS (args lo st) (fun _ => 0) (fun _ => -1) (fun _ => 1) (fun _ => -lo) (fun _ => 0)
    (fun _ => 0) fun _ => 0 where
  n := rfl
  m := rfl
  p := rfl
  l := rfl
  ncones := rfl
  nexc := rfl
  data :=
    { q := ⟨rfl, fun i hi => absurd hi (Nat.not_lt_zero _)⟩
      A := by rw [if_neg (by decide)]; exact .inl rfl
      G := ⟨_, _, _, rfl, ⟨rfl, fun i hi => by
        have : i < 2 := hi
        interval_cases i <;> rfl⟩, ⟨rfl, fun i hi => by
        have : i < 1 := hi
        interval_cases i; rfl⟩, ⟨rfl, fun i hi => by
        have : i < 1 := hi
        interval_cases i; rfl⟩⟩
      c := ⟨rfl, fun i hi => by
        have : i < 1 := hi
        interval_cases i; rfl⟩
      h := ⟨rfl, fun i hi => by
        have : i < 1 := hi
        interval_cases i; rfl⟩
      b := ⟨rfl, fun i hi => absurd hi (Nat.not_lt_zero _)⟩ }
  bools := ⟨rfl, fun i hi => absurd hi (Nat.not_lt_zero _)⟩
  ints := ⟨rfl, fun i hi => by
    have : i < 1 := hi
    interval_cases i; rfl⟩
  decl := ⟨fun i hi => absurd hi (Nat.not_lt_zero _), fun i _ => by decide, fun i j hi => absurd hi (Nat.not_lt_zero _),
    fun i j hi hj _ => by
      have hi : i < 1 := hi
      have hj : j < 1 := hj
      omega,
    fun i j hi => absurd hi (Nat.not_lt_zero _)⟩

theorem exNoDup : PatNoDup Dir.exT :=
  ⟨fun h => absurd h (by decide), fun c hc k l h1 h2 h3 => by
    have h1 : c ≤ k := h1
    have h3 : l < c + 1 := h3
    omega⟩

/-- C55 on the example, with AMD: set-up succeeds, and any solves, with interrupts after the first pass only, and changes of the data stay
inside the arrays -/
example (lo v : Fx) (rand : Nat → Nat) (hr : ∀ k, rand k ≤ RAND_MAX) (sig : Sig) :
    ∃ bb, bbSetup (amdOrder (fun _ => 40) 2147483647) (args lo 0) sig = .ok bb ∧
      Runs (fun e => e = .uninit ∨ e = .castRange ∨ e = .fuel)
        (bbCalls bb [.solve (fun _ i => i = 3) rand 10, .entryH 0 v, .entryC 0 v, .solve (fun _ _ => false) rand 10]) fun _ => True := by
  obtain ⟨bb, hb, T', S', q1, q2, q3, q4⟩ := (Ok.def _ _).1 (C55_setup_succeeds (dense0 := fun _ => 40) (imax := 2147483647)
    Dir.exGoodL (given lo 0) exNoDup (by simp [nnzK, dimK, Dir.exT, Dir.exS, Pat.nA, Pat.nG, args]) sig Nat.zero_lt_one (show 0 < 4 by omega) (show (0 : Nat) ≠ 1 by omega))
  refine ⟨bb, hb, (C55_history q1 ltLaws_fx Nat.zero_lt_one _ q4 ?_).mono fun _ _ => trivial⟩
  intro o ho
  simp only [List.mem_cons, List.not_mem_nil, or_false] at ho
  rcases ho with rfl | rfl | rfl | rfl
  · exact hr
  · show 0 < T'.m - 2 * (0 + 1)
    rw [q3]
    exact (by decide : 0 < 1 + 2 * (0 + 1) - 2 * (0 + 1))
  · show 0 < T'.n
    rw [q2]
    decide
  · exact hr

/-- set-up, the given limit on the passes of the continuous solver, and one mixed-integer solve -/
def go (lo : Fx) (strategy maxit : Nat) (arr : Nat → Nat → Bool) : M (St Fx (Hid Fx) (Stats Fx) × Int) := do
  let bb ← bbSetup natural (args lo strategy) sg
  let bb ← (BBCall.ecosStgs { bb.ecos.hid.w.stgs with maxit := maxit }).run bb
  bbSolve (realEnv arr fun _ => 0) 10 bb

end Real

/-- Strong branching (strategy 1) is not memory safe: it solves the node again, and when this solve is interrupted it may return an integral
point, so that no variable is selected and the index -1 is used. (`min x`, `x ≥ 3.0002`, `x` integer; an interrupt in the second pass of
the second continuous solve; with strategy 0 the same run ends well.) -/
theorem C55_strong_branching_violated :
    (match Real.go 3.0002 1 3 (fun k i => k == 1 && i == 1) with | .error .oob => true | _ => false) = true ∧
    (match Real.go 3.0002 0 3 (fun k i => k == 1 && i == 1) with | .ok _ => true | _ => false) = true := by
  decide +kernel

end BB
end Ecos
