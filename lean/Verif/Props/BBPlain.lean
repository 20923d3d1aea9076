import Verif.Props.BBRoot
import Verif.Props.BBRun

/-!
# C63: the mixed-integer solver on a problem without integer variables
-/
set_option linter.unusedSectionVars false

namespace Ecos
namespace BB

open Ecos.Asm Augm

variable {amd : Nat → Buf Nat → Buf Nat → Option (Buf Nat)} {T : Pat} {S : Shape} {bv iv : Nat → Nat}

section generic
variable {F : Type} [Zero F] [One F] [Add F] [Sub F] [Mul F] [Div F] [Neg F] [OfScientific F]
  [IntCast F] [PFloat F] [HasInf F] {A : BBArgs F} {a0 g0 c0 h0 b0 : Nat → F}

theorem holds_eq {α : Type} {a b : Buf α} {n : Nat} {f g : Nat → α} (ha : Holds a n f) (hb : Holds b n g) (h : ∀ i, i < n → f i = g i) :
    a = b := by
  refine Array.ext_getElem? fun i => ?_
  by_cases hi : i < n
  · rw [ha.2 i hi, hb.2 i hi, h i hi]
  · rw [Array.getElem?_eq_none (by rw [ha.1]; omega), Array.getElem?_eq_none (by rw [hb.1]; omega)]

theorem decl_none (i : Nat) : ¬ Decl 0 0 bv iv i := by
  rintro (⟨k, hk, -⟩ | ⟨k, hk, -⟩) <;> exact absurd hk (Nat.not_lt_zero k)

theorem rank_none (i : Nat) : Augm.rank 0 0 bv iv i = 0 := by
  induction i with
  | zero => simp [Augm.rank]
  | succ i ih => rw [rank_succ_not _ _ _ _ (decl_none i), ih]

/-- without declared variables the augmented problem is the user's, array by array -/
theorem aug_none (hP : PatGood T S) (hA : BBGiven T S A a0 g0 c0 h0 b0 bv iv) (hb : A.nb = 0) (hi : A.ni = 0) {t : Aug F} {irO : Nat → Nat}
    {prO hO : Nat → F} (h : OutOk A.aug T.jcG T.irG g0 h0 bv iv t irO prO hO) (hin : InOk A.aug T.jcG T.irG g0 h0 bv iv) :
    t.jc = A.gjc ∧ t.ir = A.gir ∧ t.pr = A.gpr ∧ t.h = A.h := by
  obtain ⟨pr, jc, ir, e, hjc, hir, hpr⟩ := hA.data.G
  cases e
  have hn : A.aug.n = T.n := hA.n
  have hm : A.aug.m = T.m := hA.m
  have hb : A.aug.nb = 0 := hb
  have hi : A.aug.ni = 0 := hi
  have hjN : ∀ i, jcN A.aug T.jcG bv iv i = T.jcG i := fun i => by
    unfold jcN
    rw [hb, hi, rank_none]
    rfl
  have ent : ∀ k, k < T.jcG T.n → prO k = g0 k ∧ irO k = T.irG k := fun k hk => by
    have hcs := hin.csc
    rw [hn] at hcs
    obtain ⟨c, c1, c2, c3⟩ := hcs.exists_col hk
    have := (h.cols c (by rw [hn]; exact c1)).user (k - T.jcG c) (by omega)
    rw [hjN, hb, hi, show off 0 0 bv iv c = 0 from if_neg (decl_none c), show T.jcG c + 0 + (k - T.jcG c) = k by omega,
      show T.jcG c + (k - T.jcG c) = k by omega] at this
    exact this
  refine ⟨?_, ?_, ?_, ?_⟩
  · refine holds_eq h.hjc (by rw [hn]; exact hjc) fun i _ => hjN i
  · refine holds_eq (h.hir.full fun i hq => ?_) (by rw [hn, hb, hi]; exact hir) fun i hq => ?_
    · rw [hjN]; rw [hb, hi] at hq; exact hq
    · rw [hn, hb, hi] at hq; exact (ent i hq).2
  · refine holds_eq (h.hpr.full fun i hq => ?_) (by rw [hn, hb, hi]; exact hpr) fun i hq => ?_
    · rw [hjN]; rw [hb, hi] at hq; exact hq
    · rw [hn, hb, hi] at hq; exact (ent i hq).1
  · refine holds_eq (h.hh.full fun i _ => .inr (by rw [hb, hi]; omega)) (by rw [hm, hb, hi]; exact hA.data.h) fun i hq => ?_
    rw [hm, hb, hi] at hq
    have := h.user i (by rw [hm]; exact hq)
    rw [hb, hi, show 2 * (0 + 0) + i = i by omega] at this
    exact this

/-- C63, set-up: the workspace of the mixed-integer solver holds the very workspace that `ECOS_setup` makes of the user's arrays; where
`ECOS_setup` gives a null pointer, the set-up crashes. -/
theorem C63_setup (hP : PatGood T S) (hA : BBGiven T S A a0 g0 c0 h0 b0 bv iv) (hb : A.nb = 0) (hi : A.ni = 0) (sig : Sig) :
    bbSetup amd A sig = (do
      let r ← ecosSetup amd A.n A.m A.p A.l A.ncones A.q A.nexc ⟨some A.gpr, some A.gjc, some A.gir⟩ A.A3 A.c A.h A.b
      match r with
      | .ok w => pure (bbWork A w sig)
      | _ => .error .nullDeref) := by
  obtain ⟨t, irO, prO, hO, h, hin, -, -, e⟩ := bbSetup_eq (amd := amd) hP hA sig
  obtain ⟨h1, h2, h3, h4⟩ := aug_none hP hA hb hi h hin
  rw [e, h1, h2, h3, h4, hA.n, hA.m, hA.p, hA.l, hA.ncones, hA.nexc]
  have e1 : (A.pat T bv iv irO).m = T.m := by
    show T.m + 2 * (A.nb + A.ni) = T.m
    omega
  have e2 : (A.shape S).l = S.l := by
    show S.l + 2 * (A.nb + A.ni) = S.l
    omega
  rw [e1, e2]
  rfl

end generic

variable {A : BBArgs XR} {a0 g0 c0 h0 b0 : Nat → XR}

/-- C63: on a problem without declared variables `ECOS_BB_setup` and `ECOS_BB_solve` do what `ECOS_setup` and `ECOS_solve` do on the same
arrays. If `ECOS_solve` answers optimal, inaccurate optimal, iteration limit or numerical problems, the answer is 0 and all of `x`, `y`, `z`, `s`, `kap`,
`tau`, `info` are those of `ECOS_solve`; for all other answers of `ECOS_solve` it is 1. (10 and 11 with the node limit 1.) -/
theorem C63_plain (hamd : ∀ N jc ir P, amd N jc ir = some P → ∃ pf, Holds P N pf ∧ IsPerm N pf) (hP : PatGood T S)
    (hA : BBGiven T S A a0 g0 c0 h0 b0 bv iv) (hb : A.nb = 0) (hi : A.ni = 0) (hm : 0 < A.stgs.maxit) {atol : ℝ}
    (ha : A.stgs.absTol = .fin atol) (h0 : 0 ≤ atol) {w : Work XR}
    (hw : ecosSetup amd A.n A.m A.p A.l A.ncones A.q A.nexc ⟨some A.gpr, some A.gjc, some A.gir⟩ A.A3 A.c A.h A.b = .ok (.ok w))
    (sig : Sig) {arr : Nat → Nat → Bool} {rand : Nat → Nat} (hr : ∀ k, rand k ≤ RAND_MAX) (fuel : Nat) :
    ∃ bb, bbSetup amd A sig = .ok bb ∧
      (∀ u, ecosSolve (arr 0) w sig = .error u → bbSolve (realEnv arr rand) fuel bb = .error u) ∧
      ∀ w' sig' code, ecosSolve (arr 0) w sig = .ok (w', sig', code) →
        (¬ Usable code → ∃ bb', bbSolve (realEnv arr rand) fuel bb = .ok (bb', noneCode A.stgs.maxit)) ∧
        (Usable code → ∀ xf cf r, Holds w'.x A.n xf → Holds w'.c A.n cf → dotF A.n xf cf = .fin r →
          ∃ bb', bbSolve (realEnv arr rand) fuel bb = .ok (bb', doneCode A.stgs.maxit) ∧ bb'.ecos.x = w'.x ∧ bb'.ecos.y = w'.y ∧ bb'.ecos.z = w'.z ∧
            bb'.ecos.s = w'.s ∧ bb'.ecos.kap = w'.kap ∧ bb'.ecos.tau = w'.tau ∧ bb'.ecos.info = some w'.info ∧ bb'.globalU = .fin r) := by
  have e : bbSetup amd A sig = .ok (bbWork A w sig) := by
    rw [C63_setup hP hA hb hi sig, hw]
    rfl
  refine ⟨_, e, ?_⟩
  obtain ⟨t, irO, prO, hO, w0, hM⟩ := (bbSetup_made hamd hP hA sig).out e
  obtain ⟨z, hz, hS⟩ := hM.alloc hamd hA (cs := fun _ => True) trivial hm
  have K := real_contract (amd := amd) (nb := A.nb) (ni := A.ni) (bv := bv) (iv := iv) (hu := fun r => hO r / z r) (stgs := A.stgs) (arr := arr)
    hM.good hz costOk_true hr
  obtain ⟨h1, h2⟩ := C62_continuous_partial K hS hb hi ha h0 fuel
  have hsol : ∀ {q}, ecosSolve (arr 0) w sig = q → (realEnv arr rand).solve (bbWork A w sig).ecos = (do
      let r ← q
      pure (ofWork r.1 r.2.1 1, r.2.2)) := fun {q} hq => by
    rw [← hq]
    rfl
  refine ⟨fun u hu => h1 u (by rw [hsol hu]; rfl), fun w' sig' code hs => ?_⟩
  obtain ⟨h3, h4⟩ := h2 (ofWork w' sig' 1) code (by rw [hsol hs]; rfl)
  refine ⟨fun hc => ?_, fun hc xf cf r hx hcf hd => ?_⟩
  · obtain ⟨bb', q1, -⟩ := h3 hc
    exact ⟨bb', q1⟩
  · rw [hA.n] at hx hcf hd
    obtain ⟨bb', q1, q2, q3, -⟩ := h4 hc xf cf r hx hcf hd
    exact ⟨bb', q1, q2.x, q2.y, q2.z, q2.s, q2.kap, q2.tau, q2.info, q3⟩

/-! ### Examples -/
namespace Plain

open Ecos.Run

/-- `min x` subject to `x ≥ lo`, without integer variables -/
def args {F : Type} [Zero F] [One F] [Neg F] (lo : F) (stgs : Stgs F) : BBArgs F :=
  { n := 1, m := 1, p := 0, l := 1, ncones := 0, q := bl [], nexc := 0, gpr := bl [-1], gjc := bl [0, 1], gir := bl [0],
    A3 := ⟨none, none, none⟩, c := bl [1], h := bl [-lo], b := bl [], nb := 0, bools := bl [], ni := 0, ints := bl [], stgs := stgs }

theorem given {F : Type} [Zero F] [One F] [Neg F] (lo : F) (stgs : Stgs F) : BBGiven Dir.exT Dir.exS (args lo stgs) (fun _ => 0) (fun _ => -1)
    (fun _ => 1) (fun _ => -lo) (fun _ => 0) (fun _ => 0) fun _ => 0 where
  n := rfl
  m := rfl
  p := rfl
  l := rfl
  ncones := rfl
  nexc := rfl
  data :=
    { q := ⟨rfl, fun i hi => absurd hi (Nat.not_lt_zero _)⟩
      A := by rw [if_neg (by decide)]; exact .inl rfl
      G := ⟨_, _, _, rfl, ⟨rfl, fun i hi => by
        have : i < 2 := hi
        interval_cases i <;> rfl⟩, ⟨rfl, fun i hi => by
        have : i < 1 := hi
        interval_cases i; rfl⟩, ⟨rfl, fun i hi => by
        have : i < 1 := hi
        interval_cases i; rfl⟩⟩
      c := ⟨rfl, fun i hi => by
        have : i < 1 := hi
        interval_cases i; rfl⟩
      h := ⟨rfl, fun i hi => by
        have : i < 1 := hi
        interval_cases i; rfl⟩
      b := ⟨rfl, fun i hi => absurd hi (Nat.not_lt_zero _)⟩ }
  bools := ⟨rfl, fun i hi => absurd hi (Nat.not_lt_zero _)⟩
  ints := ⟨rfl, fun i hi => absurd hi (Nat.not_lt_zero _)⟩
  decl := ⟨fun i hi => absurd hi (Nat.not_lt_zero _), fun i hi => absurd hi (Nat.not_lt_zero _), fun i j hi => absurd hi (Nat.not_lt_zero _),
    fun i j hi => absurd hi (Nat.not_lt_zero _), fun i j hi => absurd hi (Nat.not_lt_zero _)⟩

theorem natural_perm (N : Nat) (jc ir P : Buf Nat) (h : natural N jc ir = some P) : ∃ pf, Holds P N pf ∧ IsPerm N pf := by
  cases h
  refine ⟨fun i => i, ⟨by simp [bl], fun i hi => by simp [bl, hi]⟩, fun _ h => h, fun _ _ _ _ h => h⟩

/-- C63 on the example: the hypotheses can be met, and an interrupted continuous solve (-4) is answered 1 -/
example (lo : ℝ) (sig : Sig) (arr : Nat → Nat → Bool) : ∃ w bb,
    ecosSetup natural 1 1 0 1 0 (bl []) 0 ⟨some (bl [-1]), some (bl [0, 1]), some (bl [0])⟩ ⟨none, none, none⟩ (bl [1]) (bl [-(XR.fin lo)]) (bl []) =
      .ok (.ok w) ∧ bbSetup natural (args (XR.fin lo) Ex.stgs) sig = .ok bb ∧
    ∀ w' sig', ecosSolve (arr 0) w sig = .ok (w', sig', -4) → ∃ bb', bbSolve (realEnv arr fun _ => 0) 5 bb = .ok (bb', 1) := by
  have hA := given (XR.fin lo) Ex.stgs
  obtain ⟨r, hr, _, _, _, _, _, -, -, -, -, -, -, h⟩ := (Ok.def _ _).1 (ecosSetup_ok natural_perm Dir.exGoodL hA.data eqTrue)
  cases r with
  | dims => exact h.elim
  | amd => exact absurd hr (setup_not_amd fun N jc ir => ⟨_, rfl⟩)
  | ok w =>
    obtain ⟨bb, h1, -, h2⟩ := C63_plain natural_perm Dir.exGoodL hA rfl rfl (show 0 < 10 by omega) (atol := 1e-6) rfl (by norm_num) hr sig (arr := arr)
      (rand := fun _ => 0) (fun _ => Nat.zero_le _) 5
    exact ⟨w, bb, hr, h1, fun w' sig' hs => (h2 w' sig' _ hs).1 (by unfold Usable; decide)⟩

/-- C63 on a run: `min x`, `x ≥ 3`, both solvers -/
example : (match ecosSetup natural 1 1 0 1 0 (bl []) 0 ⟨some (bl [-1]), some (bl [0, 1]), some (bl [0])⟩ ⟨none, none, none⟩ (bl [1])
      (bl [-(3.0 : Fx)]) (bl []), bbSetup natural (args (3.0 : Fx) bbDefault) sg with
    | .ok (.ok w), .ok bb =>
      (match ecosSolve (fun _ => false) w sg, bbSolve (realEnv (fun _ _ => false) fun _ => 0) 5 bb with
      | .ok (w', _, code), .ok (bb', code') => code == 0 && code' == 0 && bb'.ecos.x == w'.x && bb'.ecos.z == w'.z
      | _, _ => false)
    | _, _ => false) = true := by
  decide +kernel

end Plain

end BB
end Ecos
