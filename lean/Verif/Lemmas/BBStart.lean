import Verif.Lemmas.BBReal
import Verif.Lemmas.BBAug
import Verif.Props.Safe

/-! # The state before a mixed-integer solve: after set-up, and after a solve -/
set_option linter.unusedSectionVars false

namespace Ecos
namespace BB

open Ecos.Asm Finset Augm

variable {F : Type} [Zero F] [One F] [Add F] [Sub F] [Mul F] [Div F] [Neg F] [OfScientific F]
  [IntCast F] [PFloat F] [HasInf F]

/-- a search leaves a state from which another one can start -/
theorem start_again {W I : Type} {P : Par F W} {env : Env F W I} {G : F → Prop} {Rb : Int → Prop} {T : Pt P env G} {cur : Int}
    {bb : St F W I} {g : Gh F} (h : SInv Rb T cur bb g) (h0 : 0 < P.stgs.maxit) : Start P G (loaded bb) := by
  have r := h.rep
  obtain ⟨hf, he⟩ := r.hew
  exact ⟨r.nb_eq, r.ni_eq, r.stgs_eq, h0, ⟨_, r.hnodes, h.split⟩, r.hbool.1, r.hint.1, r.hbv, r.hiv, r.bv_lt, r.iv_lt, r.m_ge,
    ⟨hf, ⟨he.hn, he.hp, he.hm, he.hc, he.hh, he.hg, r.sx, r.sy, r.sz, r.ss, he.huser, he.hbnd, he.hok⟩⟩,
    r.sx, r.sy, r.sz, r.ss, r.tmpB, r.tmpI, r.tbB, r.tbI, r.pcBS, r.pcIS, r.pcBC, r.pcIC⟩

theorem calloc_holds {α : Type} (n : Nat) (v : α) : Holds (calloc n v) n fun _ => v := by
  refine ⟨Array.size_replicate, fun i hi => ?_⟩
  simp [calloc, hi]

/-! ### The augmented pattern -/

/-- the declared variables are variables, and no two are the same -/
structure Declared (n nb ni : Nat) (bv iv : Nat → Nat) : Prop where
  b : ∀ i, i < nb → bv i < n
  i : ∀ i, i < ni → iv i < n
  bb : ∀ i j, i < nb → j < nb → bv i = bv j → i = j
  ii : ∀ i j, i < ni → j < ni → iv i = iv j → i = j
  bi : ∀ i j, i < nb → j < ni → bv i ≠ iv j

theorem Declared.rank {n nb ni : Nat} {bv iv : Nat → Nat} (h : Declared n nb ni bv iv) : rank nb ni bv iv n = nb + ni := by
  classical
  unfold Augm.rank
  have : (range n).filter (Decl nb ni bv iv) = (range nb).image bv ∪ (range ni).image iv := by
    ext k
    rw [mem_filter, mem_union, mem_image, mem_image, mem_range]
    constructor
    · rintro ⟨-, ⟨t, ht, e⟩ | ⟨t, ht, e⟩⟩
      · exact Or.inl ⟨t, mem_range.mpr ht, e⟩
      · exact Or.inr ⟨t, mem_range.mpr ht, e⟩
    · rintro (⟨t, ht, rfl⟩ | ⟨t, ht, rfl⟩)
      · exact ⟨h.b t (mem_range.mp ht), .inl ⟨t, mem_range.mp ht, rfl⟩⟩
      · exact ⟨h.i t (mem_range.mp ht), .inr ⟨t, mem_range.mp ht, rfl⟩⟩
  rw [this, card_union_of_disjoint, card_image_of_injOn, card_image_of_injOn, card_range, card_range]
  · intro i hi j hj e
    exact h.ii i j (mem_range.mp (mem_coe.mp hi)) (mem_range.mp (mem_coe.mp hj)) e
  · intro i hi j hj e
    exact h.bb i j (mem_range.mp (mem_coe.mp hi)) (mem_range.mp (mem_coe.mp hj)) e
  · rw [disjoint_left]
    rintro k h1 h2
    obtain ⟨i, hi, rfl⟩ := mem_image.mp h1
    obtain ⟨j, hj, e⟩ := mem_image.mp h2
    exact h.bi i j (mem_range.mp hi) (mem_range.mp hj) e.symm

variable {I : AugIn F} {jc ir : Nat → Nat} {pr hu : Nat → F} {bv iv : Nat → Nat}

theorem col_find {jc : Nat → Nat} : ∀ {n q : Nat}, jc 0 ≤ q → q < jc n → ∃ i, i < n ∧ jc i ≤ q ∧ q < jc (i + 1)
  | 0, q, h0, h => by omega
  | n + 1, q, h0, h => by
    by_cases hq : q < jc n
    · obtain ⟨i, hi, h1, h2⟩ := col_find h0 hq
      exact ⟨i, by omega, h1, h2⟩
    · exact ⟨n, by omega, by omega, h⟩

theorem aug_csc (hin : InOk I jc ir pr hu bv iv) {t : Aug F} {irO : Nat → Nat} {prO hO : Nat → F} (h : OutOk I jc ir pr hu bv iv t irO prO hO) :
    CscOk (I.m + 2 * (I.nb + I.ni)) I.n (jcN I jc bv iv) irO := by
  refine ⟨?_, fun j hj => jcN_mono hin (by omega) (by omega), fun q hq => ?_⟩
  · unfold jcN Augm.rank
    rw [hin.csc.zero]
    simp
  · have h0 : jcN I jc bv iv 0 = 0 := by
      unfold jcN Augm.rank
      rw [hin.csc.zero]
      simp
    obtain ⟨i, hi, h1, h2⟩ := col_find (by omega) hq
    have hs := jcN_succ hin hi
    have hc := h.cols i hi
    by_cases hq2 : q < jcN I jc bv iv i + off I.nb I.ni bv iv i
    · by_cases hd : Decl I.nb I.ni bv iv i
      · have ho : off I.nb I.ni bv iv i = 2 := if_pos hd
        obtain ⟨-, -, b3, b4⟩ := hc.bnd hd
        have hrk := rank_lt _ _ _ _ hd
        rcases (by omega : q = jcN I jc bv iv i ∨ q = jcN I jc bv iv i + 1) with rfl | rfl <;> omega
      · have ho : off I.nb I.ni bv iv i = 0 := if_neg hd
        omega
    · obtain ⟨k, rfl⟩ : ∃ k, q = jcN I jc bv iv i + off I.nb I.ni bv iv i + k := ⟨q - (jcN I jc bv iv i + off I.nb I.ni bv iv i), by omega⟩
      have hk : k < jc (i + 1) - jc i := by omega
      have hu := (hc.user k hk).2
      have hr := hin.csc.rows (jc i + k) (by
        have := hin.csc.le_top (show i + 1 ≤ I.n by omega)
        omega)
      omega

/-- the pattern of the continuous problem of the search: two rows for each declared variable, in front -/
noncomputable def augPat (T : Pat) (J : AugIn F) (bv iv : Nat → Nat) (irO : Nat → Nat) : Pat :=
  { T with m := T.m + 2 * (J.nb + J.ni), jcG := jcN J T.jcG bv iv, irG := irO }

/-- and its cones -/
def augShape (S : Shape) (k : Nat) : Shape := { S with l := S.l + 2 * k }

theorem augShape_m (S : Shape) (k : Nat) : (augShape S k).m = S.m + 2 * k := by
  unfold Shape.m Shape.fexv Shape.start augShape
  dsimp only
  omega

theorem aug_good {T : Pat} {S : Shape} (hP : PatGood T S) (hn : I.n = T.n) (hm : I.m = T.m) (hin : InOk I T.jcG T.irG pr hu bv iv)
    {t : Aug F} {irO : Nat → Nat} {prO hO : Nat → F} (h : OutOk I T.jcG T.irG pr hu bv iv t irO prO hO)
    (hd : Declared I.n I.nb I.ni bv iv) : PatGood (augPat T I bv iv irO) (augShape S (I.nb + I.ni)) := by
  refine ⟨?_, hP.a, hP.noA, ?_, hP.na, ?_, hP.pos⟩
  · show (augShape S (I.nb + I.ni)).m = T.m + 2 * (I.nb + I.ni)
    rw [augShape_m, hP.m]
  · have := aug_csc hin h
    rw [hm, hn] at this
    exact this
  · intro h0
    have h0 : T.jcG T.n + 2 * rank I.nb I.ni bv iv T.n = 0 := h0
    rw [hn] at hd
    rw [hd.rank] at h0
    have := hP.ng (by omega)
    show T.m + 2 * (I.nb + I.ni) = 0
    omega

/-! ### Set-up -/

/-- the arrays the caller hands to `ECOS_BB_setup` hold a problem with the given pattern and declared variables -/
structure BBGiven (T : Pat) (S : Shape) (A : BBArgs F) (a0 g0 c0 h0 b0 : Nat → F) (bv iv : Nat → Nat) : Prop where
  n : A.n = T.n
  m : A.m = T.m
  p : A.p = T.p
  l : A.l = S.l
  ncones : A.ncones = S.ns
  nexc : A.nexc = S.ne
  data : Given T S ⟨some A.gpr, some A.gjc, some A.gir⟩ A.A3 A.q A.c A.h A.b a0 g0 c0 h0 b0
  bools : Holds A.bools A.nb bv
  ints : Holds A.ints A.ni iv
  decl : Declared T.n A.nb A.ni bv iv

/-- the arguments of `socp_to_ecos_bb` -/
def BBArgs.aug (A : BBArgs F) : AugIn F :=
  { nb := A.nb, bools := A.bools, ni := A.ni, ints := A.ints, n := A.n, m := A.m, gpr := A.gpr, gjc := A.gjc, gir := A.gir, h := A.h }

/-- the pattern and the cones of the continuous problem -/
noncomputable def BBArgs.pat (A : BBArgs F) (T : Pat) (bv iv : Nat → Nat) (irO : Nat → Nat) : Pat := augPat T A.aug bv iv irO
def BBArgs.shape (A : BBArgs F) (S : Shape) : Shape := augShape S (A.nb + A.ni)

/-- what `ECOS_BB_setup` made: the augmented problem, the workspace of the continuous solver, the arrays of the search -/
structure Made (amd : Nat → Buf Nat → Buf Nat → Option (Buf Nat)) (T : Pat) (S : Shape) (A : BBArgs F) (sig : Sig)
    (a0 g0 c0 h0 b0 : Nat → F) (bv iv : Nat → Nat) (t : Aug F) (irO : Nat → Nat) (prO hO : Nat → F) (w : Work F)
    (bb : St F (Hid F) (Stats F)) : Prop where
  out : OutOk A.aug T.jcG T.irG g0 h0 bv iv t irO prO hO
  good : PatGood (A.pat T bv iv irO) (A.shape S)
  given : Given (A.pat T bv iv irO) (A.shape S) ⟨some t.pr, some t.jc, some t.ir⟩ A.A3 A.q A.c t.h A.b a0 prO c0 hO b0
  setup : ecosSetup amd (A.pat T bv iv irO).n (A.pat T bv iv irO).m (A.pat T bv iv irO).p (A.shape S).l (A.shape S).ns A.q (A.shape S).ne
    ⟨some t.pr, some t.jc, some t.ir⟩ A.A3 A.c t.h A.b = .ok (.ok w)
  eq : bb = bbWork A w sig

variable {amd : Nat → Buf Nat → Buf Nat → Option (Buf Nat)} {T : Pat} {S : Shape} {A : BBArgs F} {a0 g0 c0 h0 b0 : Nat → F}

/-- set-up is the augmentation, then `ECOS_setup` of the augmented problem -/
theorem bbSetup_eq (hP : PatGood T S) (hA : BBGiven T S A a0 g0 c0 h0 b0 bv iv) (sig : Sig) :
    ∃ t irO prO hO, OutOk A.aug T.jcG T.irG g0 h0 bv iv t irO prO hO ∧ InOk A.aug T.jcG T.irG g0 h0 bv iv ∧
      PatGood (A.pat T bv iv irO) (A.shape S) ∧
      Given (A.pat T bv iv irO) (A.shape S) ⟨some t.pr, some t.jc, some t.ir⟩ A.A3 A.q A.c t.h A.b a0 prO c0 hO b0 ∧
      bbSetup amd A sig = (do
        let r ← ecosSetup amd (A.pat T bv iv irO).n (A.pat T bv iv irO).m (A.pat T bv iv irO).p (A.shape S).l (A.shape S).ns A.q (A.shape S).ne
          ⟨some t.pr, some t.jc, some t.ir⟩ A.A3 A.c t.h A.b
        match r with
        | .ok w => pure (bbWork A w sig)
        | _ => .error .nullDeref) := by
  obtain ⟨gpr, gjc, gir, e, gj, gi, gp⟩ := hA.data.G
  cases e
  have hin : InOk A.aug T.jcG T.irG g0 h0 bv iv := by
    refine ⟨?_, ?_, ?_, ?_, ?_, hA.bools, hA.ints⟩
    · show CscOk A.m A.n _ _
      rw [hA.m, hA.n]
      exact hP.g
    · show Holds A.gjc (A.n + 1) _
      rw [hA.n]
      exact gj
    · show Holds A.gir (T.jcG A.n) _
      rw [hA.n]
      exact gi
    · show Holds A.gpr (T.jcG A.n) _
      rw [hA.n]
      exact gp
    · show Holds A.h A.m _
      rw [hA.m]
      exact hA.data.h
  have hn : A.aug.n = T.n := hA.n
  have hd : Declared A.aug.n A.aug.nb A.aug.ni bv iv := by
    rw [hn]
    exact hA.decl
  unfold bbSetup
  obtain ⟨t, et, irO, prO, hO, h⟩ := (Ok.def _ _).mp (socpToBB_ok hin)
  have et : socpToBB { nb := A.nb, bools := A.bools, ni := A.ni, ints := A.ints, n := A.n, m := A.m, gpr := A.gpr, gjc := A.gjc,
                       gir := A.gir, h := A.h } = .ok t := et
  rw [et, ok_bind_eq]
  have hgood := aug_good hP hn hA.m hin h hd
  have hrank : rank A.nb A.ni bv iv A.n = A.nb + A.ni := hd.rank
  have htop : jcN A.aug T.jcG bv iv A.n = T.jcG A.n + 2 * A.nb + 2 * A.ni := by
    show T.jcG A.n + 2 * rank A.nb A.ni bv iv A.n = _
    omega
  have hG : Given (A.pat T bv iv irO) (A.shape S) ⟨some t.pr, some t.jc, some t.ir⟩ A.A3 A.q A.c t.h A.b a0 prO c0 hO b0 := by
    refine ⟨hA.data.q, hA.data.A, ⟨t.pr, t.jc, t.ir, rfl, ?_, ?_, ?_⟩, hA.data.c, ?_, hA.data.b⟩
    · show Holds t.jc (T.n + 1) _
      rw [← hA.n]
      exact h.hjc
    · show Holds t.ir (jcN A.aug T.jcG bv iv T.n) irO
      rw [← hA.n, htop]
      exact h.hir.full fun i hi => by
        show i < jcN A.aug T.jcG bv iv A.n
        rw [htop]
        exact hi
    · show Holds t.pr (jcN A.aug T.jcG bv iv T.n) prO
      rw [← hA.n, htop]
      exact h.hpr.full fun i hi => by
        show i < jcN A.aug T.jcG bv iv A.n
        rw [htop]
        exact hi
    · show Holds t.h (T.m + 2 * (A.nb + A.ni)) hO
      rw [← hA.m, show A.m + 2 * (A.nb + A.ni) = A.m + 2 * A.nb + 2 * A.ni by omega]
      refine h.hh.full fun i hi => ?_
      show i < 2 * rank A.nb A.ni bv iv A.n ∨ 2 * (A.nb + A.ni) ≤ i
      omega
  refine ⟨t, irO, prO, hO, h, hin, hgood, hG, ?_⟩
  rw [hA.n, hA.m, hA.p, hA.l, hA.ncones, hA.nexc]
  rfl

theorem bbSetup_made (hamd : ∀ N jc ir P, amd N jc ir = some P → ∃ pf, Holds P N pf ∧ IsPerm N pf) (hP : PatGood T S)
    (hA : BBGiven T S A a0 g0 c0 h0 b0 bv iv) (sig : Sig) :
    Runs (fun e => e = .nullDeref ∧ ∃ N jc ir, amd N jc ir = none) (bbSetup amd A sig)
      fun bb => ∃ t irO prO hO w, Made amd T S A sig a0 g0 c0 h0 b0 bv iv t irO prO hO w bb := by
  obtain ⟨t, irO, prO, hO, h, -, hgood, hG, e⟩ := bbSetup_eq (amd := amd) hP hA sig
  rw [e]
  obtain ⟨r, hr, a, g, x, y, z, -, -, -, -, -, -, hr'⟩ := (Ok.def _ _).1 (ecosSetup_ok hamd hgood hG eqTrue)
  rw [hr, ok_bind_eq]
  cases r with
  | dims => exact hr'.elim
  | amd =>
    refine (Runs_error _ _).2 ⟨rfl, ?_⟩
    by_contra hne
    refine setup_not_amd (fun N jc ir => ?_) hr
    rcases ha : amd N jc ir with _ | P
    · exact absurd ⟨N, jc, ir, ha⟩ hne
    · exact ⟨P, rfl⟩
  | ok w => exact ⟨t, irO, prO, hO, w, h, hgood, hG, hr, rfl⟩

theorem rank_find {nb ni : Nat} {bv iv : Nat → Nat} :
    ∀ {n k : Nat}, k < rank nb ni bv iv n → ∃ i, i < n ∧ Decl nb ni bv iv i ∧ rank nb ni bv iv i = k
  | 0, k, h => by simp [Augm.rank] at h
  | n + 1, k, h => by
    by_cases hk : k < rank nb ni bv iv n
    · obtain ⟨i, h1, h2⟩ := rank_find hk
      exact ⟨i, by omega, h2⟩
    · by_cases hd : Decl nb ni bv iv n
      · rw [rank_succ_decl _ _ _ _ hd] at h
        exact ⟨n, by omega, hd, by omega⟩
      · rw [rank_succ_not _ _ _ _ hd] at h
        omega

/-- the bound rows hold bounds after set-up -/
theorem aug_bnd (hd : Declared I.n I.nb I.ni bv iv) {t : Aug F} {irO : Nat → Nat} {prO hO : Nat → F}
    (h : OutOk I jc ir pr hu bv iv t irO prO hO) {r : Nat} (hr : r < 2 * (I.nb + I.ni)) : BoolBnd (hO r) := by
  obtain ⟨i, hi, hdi, hri⟩ := rank_find (nb := I.nb) (ni := I.ni) (bv := bv) (iv := iv) (n := I.n) (k := r / 2) (by rw [hd.rank]; omega)
  obtain ⟨h1, h2⟩ := h.rhs i hi
  have e : r = 2 * rank I.nb I.ni bv iv i ∨ r = 2 * rank I.nb I.ni bv iv i + 1 := by omega
  by_cases hm : Mem I.nb bv i
  · obtain ⟨q1, q2⟩ := h1 hm
    rcases e with e | e
    · exact .inl (by rw [e]; exact q1)
    · exact .inr (.inl (by rw [e]; exact q2))
  · obtain ⟨q1, q2⟩ := h2 hm (hdi.resolve_left hm)
    rcases e with e | e
    · exact .inr (.inr (.inr (by rw [e]; exact q1)))
    · exact .inr (.inr (.inr (by rw [e]; exact q2)))

/-- a fresh workspace has its arrays -/
theorem Made.alloc {sig : Sig} {t : Aug F} {irO : Nat → Nat} {prO hO : Nat → F} {w : Work F} {bb : St F (Hid F) (Stats F)}
    (hamd : ∀ N jc ir P, amd N jc ir = some P → ∃ pf, Holds P N pf ∧ IsPerm N pf)
    (hM : Made amd T S A sig a0 g0 c0 h0 b0 bv iv t irO prO hO w bb) (hA : BBGiven T S A a0 g0 c0 h0 b0 bv iv)
    {cs : (Nat → F) → Prop} (hc : cs c0) (hm : 0 < A.stgs.maxit) :
    ∃ z, Holds w.Gequil (A.pat T bv iv irO).m z ∧
      Alloc (realPar amd (A.pat T bv iv irO) (A.shape S) w cs A.nb A.ni bv iv (fun r => hO r / z r) z A.stgs) bb := by
  have hR : Reach amd (A.pat T bv iv irO) (A.shape S) w := .setup hM.given hM.setup
  obtain ⟨a, g, x, y, z, -, -, -, -, -, -, hr⟩ := (ecosSetup_ok hamd hM.good hM.given eqTrue).elim hM.setup
  have hs := hr.1
  have hd := hr.2.1
  cases hM.eq
  have hmm : A.m + 2 * (A.nb + A.ni) = (A.pat T bv iv irO).m := by rw [hA.m]; rfl
  have hdc : Declared A.aug.n A.aug.nb A.aug.ni bv iv := by
    rw [show A.aug.n = T.n from hA.n]
    exact hA.decl
  refine ⟨z, hd.ze, rfl, rfl, rfl, hm, ⟨_, calloc_holds _ _⟩, by simp [bbWork, malloc, realPar],
    by simp [bbWork, malloc, realPar], hA.bools, hA.ints, hA.decl.b, hA.decl.i, ?_,
    ⟨_, hs.n, hs.p, hs.m, ⟨c0, hc, hd.c⟩, hd.h, hd.ze, hs.x, hs.y, hs.z, hs.s, fun _ _ _ => rfl,
      fun r h => ⟨hO r, aug_bnd hdc hM.out (show r < 2 * (A.nb + A.ni) from Nat.lt_of_lt_of_le h (by
        show 2 * A.nb ≤ 2 * (A.nb + A.ni)
        omega)), rfl⟩, hR.live hamd hM.good,
      rfl, rfl, rfl, rfl, rfl, rfl, rfl⟩,
    ?_, ?_, ?_, ?_, ?_, ?_, ?_, ?_, ⟨_, calloc_holds _ _⟩, ⟨_, calloc_holds _ _⟩, ⟨_, calloc_holds _ _⟩, ⟨_, calloc_holds _ _⟩⟩
  · show 2 * (A.nb + A.ni) ≤ (A.pat T bv iv irO).m
    omega
  · simp [bbWork, malloc, realPar, hA.n]; rfl
  · simp [bbWork, malloc, realPar, hA.p]; rfl
  · simp [bbWork, malloc, realPar, hmm]
  · simp [bbWork, malloc, realPar, hmm]
  all_goals simp [bbWork, malloc, realPar]

/-- a fresh workspace is ready for a search -/
theorem Made.start {sig : Sig} {t : Aug F} {irO : Nat → Nat} {prO hO : Nat → F} {w : Work F} {bb : St F (Hid F) (Stats F)}
    (hamd : ∀ N jc ir P, amd N jc ir = some P → ∃ pf, Holds P N pf ∧ IsPerm N pf)
    (hM : Made amd T S A sig a0 g0 c0 h0 b0 bv iv t irO prO hO w bb) (hA : BBGiven T S A a0 g0 c0 h0 b0 bv iv)
    {cs : (Nat → F) → Prop} (hc : cs c0) (hp : 0 < A.nb + A.ni) (hm : 0 < A.stgs.maxit) :
    ∃ z, Holds w.Gequil (A.pat T bv iv irO).m z ∧
      Start (realPar amd (A.pat T bv iv irO) (A.shape S) w cs A.nb A.ni bv iv (fun r => hO r / z r) z A.stgs) (fun _ => True) bb := by
  obtain ⟨z, hz, h⟩ := hM.alloc hamd hA hc hm
  refine ⟨z, hz, { h with nodes := ⟨fun _ => zeroNode, ?_, fun i _ => ⟨le_refl _, ?_, ?_, trivial, trivial⟩⟩ }⟩
  · cases hM.eq
    exact calloc_holds _ _
  · show (0 : Int) < (A.nb : Int) + A.ni
    omega
  · show (0 : Int) < (A.nb : Int) + A.ni
    omega

end BB
end Ecos
