import Verif.Lemmas.Kkt4
import Verif.Props.Fact

/-!
# Property C11: iterative refinement
-/
namespace Ecos.Fact

open Ecos Finset

set_option linter.unusedSectionVars false

/-! ### Maxima of absolute values -/

theorem absmaxF_real (z a : ℝ) : absmaxF z a = max z |a| := by
  unfold absmaxF
  simp only [real_lt]
  rcases le_total 0 a with h | h
  · rw [abs_of_nonneg h]
    by_cases h1 : z < a
    · simp only [h1, if_true]
      rw [if_neg (by linarith), max_eq_right h1.le]
    · simp only [h1, if_false]
      rw [if_neg (by linarith), max_eq_left (not_lt.1 h1)]
  · rw [abs_of_nonpos h]
    by_cases h1 : z < a
    · simp only [h1, if_true]
      by_cases h2 : a < -a
      · rw [if_pos h2, max_eq_right (by linarith)]
      · have : a = 0 := by linarith
        subst this
        simp only [neg_zero, lt_irrefl, if_false]
        rw [max_eq_right h1.le]
    · simp only [h1, if_false]
      by_cases h2 : z < -a
      · rw [if_pos h2, max_eq_right h2.le]
      · rw [if_neg h2, max_eq_left (not_lt.1 h2)]

/-- `z` is the largest absolute value among the first `n` entries -/
def IsMaxAbs (n : Nat) (f : Nat → ℝ) (z : ℝ) : Prop :=
  (∀ i, i < n → |f i| ≤ z) ∧ 0 ≤ z ∧ (z = 0 ∨ ∃ i, i < n ∧ z = |f i|)

theorem normF_real (n : Nat) (f : Nat → ℝ) : IsMaxAbs n f (normF n f) := by
  unfold normF
  induction n with
  | zero => exact ⟨fun i hi => by omega, le_rfl, Or.inl rfl⟩
  | succ n ih =>
    rw [itr_succ, absmaxF_real]
    obtain ⟨h1, h2, h3⟩ := ih
    refine ⟨fun i hi => ?_, le_trans h2 (le_max_left _ _), ?_⟩
    · by_cases e : i = n
      · subst e; exact le_max_right _ _
      · exact le_trans (h1 i (by omega)) (le_max_left _ _)
    · rcases le_total (itr n 0 fun i z => absmaxF z (f i)) |f n| with h | h
      · exact Or.inr ⟨n, by omega, max_eq_right h⟩
      · rw [max_eq_left h]
        exact h3.imp_right fun ⟨i, hi, e⟩ => ⟨i, by omega, e⟩

theorem fmax_real (x y : ℝ) : fmax x y = max x y := real_fmax x y

theorem IsMaxAbs.pair {n k : Nat} {f g F : Nat → ℝ} {u v : ℝ} (hf : IsMaxAbs n f u) (hg : IsMaxAbs k g v) {N : Nat}
    (h1 : ∀ i, i < n → ∃ j, j < N ∧ F j = f i) (h2 : ∀ i, i < k → ∃ j, j < N ∧ F j = g i)
    (h3 : ∀ j, j < N → (∃ i, i < n ∧ F j = f i) ∨ ∃ i, i < k ∧ F j = g i) : IsMaxAbs N F (max u v) := by
  refine ⟨fun j hj => ?_, le_trans hf.2.1 (le_max_left _ _), ?_⟩
  · rcases h3 j hj with ⟨i, hi, e⟩ | ⟨i, hi, e⟩
    · rw [e]; exact le_trans (hf.1 i hi) (le_max_left _ _)
    · rw [e]; exact le_trans (hg.1 i hi) (le_max_right _ _)
  · rcases le_total u v with h | h
    · rw [max_eq_right h]
      refine hg.2.2.imp_right ?_
      rintro ⟨i, hi, e⟩
      obtain ⟨j, hj, e'⟩ := h2 i hi
      exact ⟨j, hj, by rw [e, e']⟩
    · rw [max_eq_left h]
      refine hf.2.2.imp_right ?_
      rintro ⟨i, hi, e⟩
      obtain ⟨j, hj, e'⟩ := h1 i hi
      exact ⟨j, hj, by rw [e, e']⟩

theorem nerrF_real (n p k : Nat) (x y z : Nat → ℝ) : IsMaxAbs (n + p + k) (three n p x y z) (nerrF n p k x y z) := by
  have hx := normF_real n x
  have hy := normF_real p y
  have hz := normF_real k z
  unfold nerrF
  simp only [fmax_real]
  have e1 : ∀ i, i < n → three n p x y z i = x i := fun i hi => by unfold three; rw [if_pos hi]
  have e2 : ∀ i, i < p → three n p x y z (n + i) = y i := fun i hi => by
    unfold three; rw [if_neg (by omega), if_pos (by omega), Nat.add_sub_cancel_left]
  have e3 : ∀ i, three n p x y z (n + p + i) = z i := fun i => by
    unfold three; rw [if_neg (by omega), if_neg (by omega), Nat.sub_sub, Nat.add_sub_cancel_left]
  have hxz : IsMaxAbs (n + k) (fun i => if i < n then x i else z (i - n)) (max (normF n x) (normF k z)) := by
    refine hx.pair hz (fun i hi => ⟨i, by omega, if_pos hi⟩) (fun i hi => ⟨n + i, by omega, ?_⟩) fun j hj => ?_
    · rw [if_neg (by omega), Nat.add_sub_cancel_left]
    · by_cases h : j < n
      · exact Or.inl ⟨j, h, if_pos h⟩
      · exact Or.inr ⟨j - n, by omega, if_neg h⟩
  by_cases hp : p > 0
  · rw [if_pos hp]
    refine hxz.pair hy (fun i hi => ?_) (fun i hi => ⟨n + i, by omega, e2 i hi⟩) fun j hj => ?_
    · by_cases h : i < n
      · exact ⟨i, by omega, by rw [e1 i h, if_pos h]⟩
      · exact ⟨n + p + (i - n), by omega, by rw [e3, if_neg h]⟩
    · by_cases h : j < n
      · exact Or.inl ⟨j, by omega, by rw [e1 j h, if_pos h]⟩
      · by_cases h' : j < n + p
        · refine Or.inr ⟨j - n, by omega, ?_⟩
          have := e2 (j - n) (by omega)
          rwa [show n + (j - n) = j by omega] at this
        · refine Or.inl ⟨j - p, by omega, ?_⟩
          rw [if_neg (by omega)]
          have := e3 (j - n - p)
          rw [show n + p + (j - n - p) = j by omega] at this
          rw [this, show j - n - p = j - p - n by omega]
  · rw [if_neg hp]
    obtain rfl : p = 0 := by omega
    have : three n 0 x y z = fun i => if i < n then x i else z (i - n) := by
      funext i
      unfold three
      by_cases h : i < n
      · rw [if_pos h, if_pos h]
      · rw [if_neg h, if_neg h, if_neg (by omega), Nat.sub_zero]
    rw [this]
    exact hxz

/-! ### The residual of the expanded system -/

/-- residual `b - K x` of the expanded KKT system, in the coordinates of the problem: variables, equality
multipliers, expanded cone multipliers.  The rows of the cones contain the cone block `V`, or the identity in the
first solves of a run (`isinit ≠ 0`). -/
noncomputable def sysRes (isinit : Int) (S : Shape) (T : Pat) (P : Dat) (V : ConeV ℝ) (b x : Nat → ℝ) : Nat → ℝ :=
  three T.n T.p
    (fun i => b i - DELTASTAT * x i - (∑ k ∈ range T.p, P.A T k i * x (T.n + k)) -
      ∑ k ∈ range T.m, P.G T k i * shrink S (fun i => x (T.n + T.p + i)) k)
    (fun i => b (T.n + i) + DELTASTAT * x (T.n + i) - ∑ j ∈ range T.n, P.A T i j * x j)
    (ezF isinit S V (fun i => b (T.n + T.p + i)) (fun i => x (T.n + T.p + i)) fun i => ∑ j ∈ range T.n, P.G T i j * x j)

theorem three_congr {α : Type} {n p k : Nat} {x y z x' y' z' : Nat → α} (h1 : ∀ i, i < n → x i = x' i)
    (h2 : ∀ i, i < p → y i = y' i) (h3 : ∀ i, i < k → z i = z' i) {i : Nat} (hi : i < n + p + k) :
    three n p x y z i = three n p x' y' z' i := by
  unfold three
  split
  · exact h1 _ (by assumption)
  · split
    · exact h2 _ (by omega)
    · exact h3 _ (by omega)

theorem IsMaxAbs.congr {n : Nat} {f g : Nat → ℝ} {z : ℝ} (h : IsMaxAbs n f z) (e : ∀ i, i < n → f i = g i) : IsMaxAbs n g z :=
  ⟨fun i hi => by rw [← e i hi]; exact h.1 i hi, h.2.1, h.2.2.imp_right fun ⟨i, hi, e'⟩ => ⟨i, hi, by rw [e', e i hi]⟩⟩

theorem ezF_congr {i0 : Int} {S : Shape} {V : ConeV ℝ} {b x g g' : Nat → ℝ} (h : ∀ i, i < S.m → g i = g' i) {i : Nat}
    (hi : i < S.x.m) : ezF i0 S V b x g i = ezF i0 S V b x g' i := by
  have hm : S.m = S.fexv + 3 * S.ne := rfl
  have hlin : ∀ i, i < S.x.m → ezlinF S b x g i = ezlinF S b x g' i := by
    intro i hi
    have hl : S.l ≤ S.fexv := S.l_le _
    unfold ezlinF
    rcases S.x.m_cases hi with h1 | ⟨k, j, hk, hj, rfl⟩ | ⟨l, j, hl', hj, rfl⟩
    · have h1' : i < S.l := h1
      rw [glue_lp S.x _ _ _ h1, glue_lp S.x _ _ _ h1, h i (by omega)]
    · have hk' : k < S.ns := hk
      have hle := S.start_le hk'
      have := glue_block S.x (fun i => b i - g i + DELTASTAT * x i) (fun k j => if j < S.q k - 1 then S.x.block b k j - S.block g k j + DELTASTAT * S.x.block x k j
        else if j < S.q k then S.x.block b k j - S.block g k j - DELTASTAT * S.x.block x k j else 0)
        (fun l j => S.x.eblock b l j - S.eblock g l j + DELTASTAT * S.x.eblock x l j) hk hj
      unfold Shape.block at this
      rw [show glue S.x _ _ _ (S.x.start k + j) = _ from glue_block S.x _ _ _ hk hj, show glue S.x _ _ _ (S.x.start k + j) = _ from glue_block S.x _ _ _ hk hj]
      by_cases hj' : j < S.q k
      · have : S.block g k j = S.block g' k j := h _ (by omega)
        rw [this]
      · rw [if_neg (by omega), if_neg hj', if_neg (by omega), if_neg hj']
    · have hl'' : l < S.ne := hl'
      rw [show glue S.x _ _ _ (S.x.fexv + 3 * l + j) = _ from glue_exp S.x _ _ _ hj, show glue S.x _ _ _ (S.x.fexv + 3 * l + j) = _ from glue_exp S.x _ _ _ hj]
      have : S.eblock g l j = S.eblock g' l j := h _ (by omega)
      rw [this]
  unfold ezF
  split
  · unfold addVF
    have hmx : S.x.m = S.x.fexv + 3 * S.ne := rfl
    have hlx : S.l ≤ S.x.fexv := S.x.l_le _
    rcases S.x.m_cases hi with h1 | ⟨k, j, hk, hj, rfl⟩ | ⟨l, j, hl', hj, rfl⟩
    · rw [glue_lp S.x _ _ _ h1, glue_lp S.x _ _ _ h1, hlin i hi]
    · have hle := S.x.start_le hk
      have hb : ∀ j, j < S.q k + 2 → S.x.block (ezlinF S b x g) k j = S.x.block (ezlinF S b x g') k j := fun j hj =>
        hlin _ (by have : S.x.q k = S.q k + 2 := rfl; omega)
      rw [show glue S.x _ _ _ (S.x.start k + j) = _ from glue_block S.x _ _ _ hk hj, show glue S.x _ _ _ (S.x.start k + j) = _ from glue_block S.x _ _ _ hk hj]
      have hj' : j < S.q k + 2 := hj
      unfold expandF
      rw [hb 0 (by omega), hb j hj', hb (S.q k) (by omega), hb (S.q k + 1) (by omega)]
    · have hl'' : l < S.ne := hl'
      have hb : ∀ j, j < 3 → S.x.eblock (ezlinF S b x g) l j = S.x.eblock (ezlinF S b x g') l j := fun j hj =>
        hlin _ (by omega)
      rw [show glue S.x _ _ _ (S.x.fexv + 3 * l + j) = _ from glue_exp S.x _ _ _ hj, show glue S.x _ _ _ (S.x.fexv + 3 * l + j) = _ from glue_exp S.x _ _ _ hj]
      unfold expandE
      rw [hb 0 (by omega), hb 1 (by omega), hb 2 (by omega)]
  · beta_reduce; rw [hlin i hi]

section generic
variable {F : Type} [Zero F] [One F] [Add F] [Sub F] [Mul F] [Div F] [Neg F] [OfScientific F]
  [IntCast F] [PFloat F]

theorem SysIs.mem {D : F → ℝ → Prop} {a : SolveArgs F} {S : Shape} {T : Pat} {P : Dat} {N : Nat} {π : Nat → Nat} {b : Nat → F}
    {V : ConeV F} (h : SysIs D a S T P N π b V) : SysIs (fun _ _ => True) a S T P N π b V := by
  have hm : ∀ {B : Buf F} {n : Nat} {f : Nat → ℝ}, HoldsD D B n f → HoldsD (fun _ _ => True) B n f := fun h =>
    ⟨h.1, fun i hi => (h.2 i hi).imp fun v hv => ⟨hv.1, trivial⟩⟩
  have hr : ∀ {A : SpMat F} {m n : Nat} {jc ir : Nat → Nat} {pr : Nat → ℝ}, RepD D A m n jc ir pr →
      RepD (fun _ _ => True) A m n jc ir pr := fun h => ⟨h.1, h.2, h.3, h.4, h.5, hm h.6, h.7⟩
  refine ⟨h.n, h.p, h.m, h.mS, h.dim, h.cone, h.kn, h.pinv, h.perm, ?_, hr h.G, h.Pb, h.scal⟩
  have := h.A
  unfold RepAD at this ⊢
  split
  · rename_i hA
    rw [if_pos hA] at this
    exact this.imp fun M hM => ⟨hM.1, hr hM.2⟩
  · rename_i hA
    rw [if_neg hA] at this
    exact this

/-- C11: `kkt_solve` reports at most the configured number of refinement steps, for any arithmetic; it neither
leaves its arrays nor reads anything unwritten. -/
theorem C11_bounded [HasInf F] {a : SolveArgs F} {S : Shape} {T : Pat} {P : Dat} {N : Nat} {π : Nat → Nat}
    {b : Nat → F} {V : ConeV F} (h : SysIs (fun _ _ => True) a S T P N π b V) {ap ai q : Nat → Nat} {ax : Nat → F}
    {sg : Nat → Int} {eps delta : F} {lf : Nat → Nat → F} {df : Nat → F} (hK : KktOk a.K N ap ai ax q sg)
    (hF : Factored a.K N ap ai ax q sg eps delta lf df) {dx dy dz : Buf F} (h1 : dx.size = T.n) (h2 : dy.size = T.p)
    (h3 : dz.size = T.m) (nitref : Int) :
    ∃ dx' dy' dz' k, kktSolve a dx dy dz nitref = .ok (dx', dy', dz', k) ∧ (k : Int) ≤ max 0 nitref := by
  obtain ⟨ρ, res, hρ⟩ := residual_fun h
  obtain ⟨Px0, x0, -, -, hk⟩ := refine_ok h hK hF h1 h2 (h.mS ▸ h3) nitref hρ (fun _ _ => True) (fun _ _ _ _ _ => trivial) fun _ => trivial
  obtain ⟨⟨dx', dy', dz', k⟩, e1, e2, -⟩ := (Ok.def _ _).1 hk
  simp only at e2
  exact ⟨dx', dy', dz', k, e1, by omega⟩

end generic

/-- C11: the residual of the solution returned by `kkt_solve` is not larger, in the maximum norm, than the residual of
the unrefined solution `x0` of the factored system. -/
theorem C11_not_worse [HasInf ℝ] {a : SolveArgs ℝ} {S : Shape} {T : Pat} {P : Dat} {N : Nat} {π : Nat → Nat}
    {b : Nat → ℝ} {V : ConeV ℝ} (h : SysIs (fun x a => x = a) a S T P N π b V) {ap ai q : Nat → Nat} {ax : Nat → ℝ}
    {sg : Nat → Int} {eps delta : ℝ} {lf : Nat → Nat → ℝ} {df : Nat → ℝ} (hK : KktOk a.K N ap ai ax q sg)
    (hF : Factored a.K N ap ai ax q sg eps delta lf df) {dx dy dz : Buf ℝ} (h1 : dx.size = T.n) (h2 : dy.size = T.p)
    (h3 : dz.size = T.m) (nitref : Int) :
    ∃ (Px0 dx' dy' dz' : Buf ℝ) (k : Nat) (x0 x : Nat → ℝ), triSolve a.K a.Pb = .ok Px0 ∧
      (∀ i, i < N → Px0[π i]? = some (some (x0 i))) ∧
      kktSolve a dx dy dz nitref = .ok (dx', dy', dz', k) ∧ (k : Int) ≤ max 0 nitref ∧
      Holds dx' T.n x ∧ Holds dy' T.p (fun i => x (T.n + i)) ∧
      Holds dz' T.m (shrink S fun i => x (T.n + T.p + i)) ∧
      ∀ i, i < N → ∃ j, j < N ∧ |sysRes a.isinit S T P V (fun i => b (π i)) x i| ≤
        |sysRes a.isinit S T P V (fun i => b (π i)) x0 j| := by
  obtain ⟨ρ, res, hρ⟩ := residual_fun h.mem
  have hmax : ∀ x : Nat → ℝ, IsMaxAbs N (sysRes a.isinit S T P V (fun i => b (π i)) fun i => x (π i)) (ρ x) := by
    intro x
    have hmk : ∀ (n : Nat) (f : Nat → ℝ), ∃ B : Buf ℝ, Holds B n f := fun n f =>
      ⟨Array.ofFn fun i : Fin n => some (f i), by simp, fun i hi => by simp [hi]⟩
    obtain ⟨P0, hP0⟩ := hmk N x
    obtain ⟨ux, uy, uz, e, -, u2, u3, u4, u5, -⟩ := hρ x P0 (malloc T.n) (malloc T.p) (malloc S.m) hP0 (by simp) (by simp) (by simp)
    obtain ⟨⟨e', r⟩, g1, ex, ey, g, g2, g3, g4, -, g5⟩ := (Ok.def _ _).1 (residual_ok denReal rfl h (br := b) (xr := x)
      (fun _ _ => rfl) (fun _ _ => rfl) hP0 u2 u3 u4)
    rw [g1] at u5
    injection u5 with u5
    simp only [Prod.mk.injEq] at u5 g5
    rw [← u5.2, g5, h.dim]
    refine (nerrF_real _ _ _ _ _ _).congr fun i hi => three_congr g2 g3 (fun i hi => ezF_congr (fun i hi => g4 i (h.mS ▸ hi)) hi) hi
  obtain ⟨Px0, x0, t1, t2, hk⟩ := refine_ok h.mem hK hF h1 h2 (h.mS ▸ h3) nitref hρ (fun x0 x => ρ x ≤ ρ x0)
    (fun x0 x x' hx hlt => le_trans (by simpa using hlt) hx) fun _ => le_rfl
  obtain ⟨⟨dx', dy', dz', k⟩, e1, e2, x, e3, e4, e5, e6⟩ := (Ok.def _ _).1 hk
  simp only at e2 e3 e4 e5
  have hle : ρ x ≤ ρ x0 := by
    rcases e6 with h | ⟨x', d, h, e⟩
    · exact h
    · have : x = x' := by
        rw [e]; funext i; ring
      rw [this]; exact h
  refine ⟨Px0, dx', dy', dz', k, fun i => x0 (π i), fun i => x (π i), t1, fun i hi => t2.2 _ (h.perm.lt _ hi), e1, by omega, e3, e4, h.mS ▸ e5, fun i hi => ?_⟩
  obtain ⟨a1, -, -⟩ := hmax x
  obtain ⟨-, a2, a3⟩ := hmax x0
  rcases a3 with a3 | ⟨j, hj, a3⟩
  · exact ⟨i, hi, le_trans (a1 i hi) (le_trans (le_trans hle a3.le) (abs_nonneg _))⟩
  · exact ⟨j, hj, le_trans (a1 i hi) (le_trans hle a3.le)⟩

/-! ### A concrete system: `min x` subject to one inequality, first solve of a run -/

def exShape1 : Shape := { l := 1, ns := 0, q := fun _ => 0, ne := 0 }

def exCone1 : Cone ℝ :=
  { lpc := { p := 1, w := malloc 1, v := malloc 1, kktIdx := malloc 1 }, soc := #[], nsoc := 0, expc := #[], nexc := 0,
    fexv := 1 }

def exPat1 : Pat :=
  { n := 1, m := 1, p := 0, hasA := false, jcA := fun _ => 0, irA := fun _ => 0, jcG := fun i => [0, 1].getD i default,
    irG := fun i => [0].getD i default }

def exDat1 : Dat :=
  { a := fun _ => 0, g := fun i => ([1] : List ℝ).getD i default, c := fun _ => 0, b := fun _ => 0, h := fun _ => 0 }

def exArgs1 (K : Kkt ℝ) : SolveArgs ℝ :=
  { K := K, A := none, G := { jc := ofList [0, 1], ir := ofList [0], pr := ofList [1], n := 1, m := 1, nnz := 1 },
    Pb := ofList [1, 2], n := 1, p := 0, m := 1, C := exCone1, isinit := 1 }

theorem ex_fexv1 : exShape1.fexv = 1 := rfl

theorem ex_cone1 : ConeIs exCone1 exShape1 where
  l := rfl
  nsoc := rfl
  soc := fun k hk => by cases hk
  pos := fun k hk => by cases hk
  nexc := rfl
  fexv := rfl
  nsize := rfl
  esize := rfl

/-- hypotheses of `C11_not_worse` are met: the matrix `exU` is set up, factored and solved with -/
example [HasInf ℝ] (V : ConeV ℝ) : ∃ (K K' : Kkt ℝ) (π : Nat → Nat) (b : Nat → ℝ) (ap ai q : Nat → Nat) (ax : Nat → ℝ) (sg : Nat → Int)
    (lf : Nat → Nat → ℝ) (df : Nat → ℝ), setupKkt exU (ofList [1, 0]) 1 1 0 = .ok K ∧
      kktFactor K 0 1 = .ok (K', KKT_OK) ∧
      SysIs (fun x a => x = a) (exArgs1 K') exShape1 exPat1 exDat1 2 π b V ∧ KktOk K' 2 ap ai ax q sg ∧
      Factored K' 2 ap ai ax q sg 0 1 lf df := by
  obtain ⟨K, h1, π, ai, q, ax, sg', hpin, hπ, hπ1, hπ2, hK, -⟩ :=
    (Ok.def _ _).1 (setupKkt_ok (U := exU) (P := ofList [1, 0]) (n := 1) (m := 1) (p := 0) (N := 2)
    (pf := fun i => [1, 0].getD i default) (sg := fun i => [1, -1].getD i default)
    (pr := fun i => [0, 1, 0].getD i default)
    ⟨rfl, rfl, rfl, ofList_holds [0, 1, 3], ofList_holds [0, 0, 1], ofList_holds ([0, 1, 0] : List ℝ), ex_csc⟩
    ex_upper (ofList_holds [1, -1]).has' (ofList_holds [1, 0]) ⟨by decide, fun i j hi hj =>
      (by decide : ∀ i, i < 2 → ∀ j, j < 2 → [1, 0].getD i default = [1, 0].getD j default → i = j) i hi j hj⟩)
  obtain ⟨⟨K', c⟩, f1, f2, f3, ⟨lf, df, f4⟩, f5⟩ := (Ok.def _ _).1 (kktFactor_ok (eps := 0) (delta := 1) hK)
  simp only at f2 f3 f4 f5
  subst f2
  refine ⟨K, K', π, fun i => ([1, 2] : List ℝ).getD i default, _, _, _, _, _, _, _, h1, f1, ?_, f3, f4⟩
  refine ⟨rfl, rfl, rfl, rfl, rfl, ex_cone1, f3.n, ?_, hπ, ?_, ?_, ofList_holds ([1, 2] : List ℝ), fun h => by cases h⟩
  · show Holds K'.Pinv 2 π
    rw [f5]
    exact hpin
  · unfold RepAD exPat1 exArgs1
    simp
  · refine ⟨rfl, rfl, rfl, ofList_holds [0, 1], ofList_holds [0], ⟨rfl, ?_⟩, ⟨rfl, by decide, by decide⟩⟩
    intro i hi
    exact ⟨_, (ofList_holds ([1] : List ℝ)).2 i hi, rfl⟩

end Ecos.Fact
