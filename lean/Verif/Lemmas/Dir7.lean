import Verif.Lemmas.Dir6
import Verif.Lemmas.Driver3
import Verif.Spec.Newton
import Verif.Props.Scaling

/-!
# One iteration in exact arithmetic
-/
namespace Ecos.Dir

open Ecos Finset Ecos.Fact Ecos.Asm

set_option linter.unusedSectionVars false

section generic
variable {F : Type} [Zero F] [One F] [Add F] [Sub F] [Mul F] [Div F] [Neg F] [OfScientific F]
  [IntCast F] [PFloat F] [HasInf F] {T : Pat} {S : Shape} {amd : Nat → Buf Nat → Buf Nat → Option (Buf Nat)}

/-- the workspace at the head of every pass of a solve is in order -/
theorem atHead_go (hP : PatGood T S) {arrives : Nat → Bool} {w w1 : Work F} {sig : Sig} (hl : LiveW amd T S w) (hst : Started w w1)
    (hdet : sig.det = false) {k : Nat} {L : LoopS F} (h : AtHead arrives w1 sig k L) :
    Go amd L.w T S ∧ (Best L.w T ∨ (k = 0 ∧ L.sig.det = false)) := by
  induction h with
  | start =>
    obtain ⟨c1, hc, hi⟩ := hst
    obtain ⟨a, g, c, b, h, xe, ye, ze, π, ai, q, ax, sg, hl⟩ := hl
    have hd := hl.data
    have hs := hl.sz
    have hc1 : Holds c1 T.n fun i => c i / xe i := by
      rw [hs.n] at hc
      exact (divBy_ok hd.c hd.xe).elim hc
    have hl1 : LiveW amd T S { w with c := c1 } := ⟨a, g, _, b, h, xe, ye, ze, π, ai, q, ax, sg,
      ⟨hs.n, hs.m, hs.p, hs.D, hs.x, hs.y, hs.z, hs.s, hs.bx, hs.b_y, hs.bz, hs.bs, hs.rx, hs.ry, hs.rz⟩,
      ⟨hd.A, hd.G, hc1, hd.b, hd.h, hd.xe, hd.ye, hd.ze, hd.ua, hd.mA, hd.mG⟩, hl.cone, hl.made, hl.ord, hl.val⟩
    obtain ⟨-, hG, -⟩ := (initSolver_ok hP hl1).elim hi
    exact ⟨hG.keep ⟨rfl, rfl, rfl, rfl, rfl, rfl, rfl, rfl, rfl, rfl, rfl, rfl, rfl⟩ (sizes_info hG.sz _) (full_info hG.full _) rfl rfl rfl rfl,
      .inr ⟨rfl, hdet⟩⟩
  | next _ _ hp ih =>
    obtain ⟨h1, h2, -⟩ := (pass_runs (Cd := True) hP ih.1 ih.2 fun _ _ => .inl trivial).out hp
    exact ⟨h1, .inl h2⟩

end generic

/-! ### The scaling is a symmetric linear map, also below the floors -/

theorem safediv_mul (x y : ℝ) : safedivPos x y = x * safedivPos 1 y := by
  unfold safedivPos
  split <;> ring

theorem scaleF_eq (p : Nat) (V : SocV ℝ) (x : Nat → ℝ) (j : Nat) : scaleF p V x j =
    if j = 0 then V.eta * (V.a * x 0 + tdot p V.Q x) else V.eta * (x j + (x 0 + tdot p V.Q x * safedivPos 1 (1 + V.a)) * V.Q j) := by
  unfold scaleF
  rw [zetaF_real, safediv_mul (tdot p V.Q x)]
  rfl

theorem scaleF_lin (p : Nat) (V : SocV ℝ) (x y : Nat → ℝ) (c d : ℝ) (j : Nat) :
    scaleF p V (fun i => c * x i + d * y i) j = c * scaleF p V x j + d * scaleF p V y j := by
  have h : tdot p V.Q (fun i => c * x i + d * y i) = c * tdot p V.Q x + d * tdot p V.Q y := by
    unfold tdot
    rw [mul_sum, mul_sum, ← sum_add_distrib]
    exact sum_congr rfl fun i _ => by ring
  rw [scaleF_eq, scaleF_eq, scaleF_eq, h]
  split <;> ring

theorem sum_tdot {p : Nat} (hp : 0 < p) (x y : Nat → ℝ) : ∑ i ∈ range p, x i * y i = x 0 * y 0 + tdot p x y := by
  obtain ⟨m, rfl⟩ : ∃ m, p = m + 1 := ⟨p - 1, by omega⟩
  rw [sum_range_succ']
  unfold tdot
  rw [Nat.add_sub_cancel]
  ring

theorem tdot_scaleF (p : Nat) (V : SocV ℝ) (x y : Nat → ℝ) : tdot p y (scaleF p V x) =
    V.eta * (tdot p y x + (x 0 + tdot p V.Q x * safedivPos 1 (1 + V.a)) * tdot p y V.Q) := by
  have e : ∀ r : ℝ, V.eta * (tdot p y x + r * tdot p y V.Q) = ∑ i ∈ range (p - 1), V.eta * (y (i + 1) * x (i + 1) + r * (y (i + 1) * V.Q (i + 1))) := by
    intro r
    unfold tdot
    rw [← mul_sum, sum_add_distrib, mul_sum]
  rw [e]
  show ∑ i ∈ range (p - 1), _ = _
  refine sum_congr rfl fun i _ => ?_
  rw [scaleF_eq, if_neg (by omega)]
  ring

theorem scaleF_symm {p : Nat} (hp : 0 < p) (V : SocV ℝ) (x y : Nat → ℝ) :
    ∑ j ∈ range p, y j * scaleF p V x j = ∑ j ∈ range p, scaleF p V y j * x j := by
  have e : ∑ j ∈ range p, scaleF p V y j * x j = ∑ j ∈ range p, x j * scaleF p V y j := sum_congr rfl fun _ _ => mul_comm _ _
  rw [e, sum_tdot hp, sum_tdot hp, tdot_scaleF, tdot_scaleF, scaleF_eq, scaleF_eq, if_pos rfl, if_pos rfl, tdot_comm p x y, tdot_comm p y V.Q,
    tdot_comm p x V.Q]
  ring

section
variable {S : Shape} {V : ConeV ℝ}

theorem wF_lp (x : Nat → ℝ) {i : Nat} (hi : i < S.l) : wF S V x i = V.lw i * x i := glue_lp S _ _ _ hi

theorem wF_block (x : Nat → ℝ) {k j : Nat} (hk : k < S.ns) (hj : j < S.q k) :
    S.block (wF S V x) k j = scaleF (S.q k) (V.V k) (S.block x k) j := glue_block S _ _ _ hk hj

theorem rows_ext {f g : Nat → ℝ} (h1 : ∀ i, i < S.l → f i = g i)
    (h2 : ∀ k j, k < S.ns → j < S.q k → S.block f k j = S.block g k j) {i : Nat} (hi : i < S.fexv) : f i = g i := by
  rcases S.row_cases hi with h | ⟨k, hk, ha, hb⟩
  · exact h1 i h
  · have := h2 k (i - S.start k) hk (by omega)
    unfold Shape.block at this
    rwa [show S.start k + (i - S.start k) = i by omega] at this

theorem wF_lin (x y : Nat → ℝ) (c d : ℝ) {i : Nat} (hi : i < S.fexv) :
    wF S V (fun i => c * x i + d * y i) i = c * wF S V x i + d * wF S V y i := by
  refine rows_ext (f := wF S V fun i => c * x i + d * y i) (g := fun i => c * wF S V x i + d * wF S V y i) (fun i hi => ?_) (fun k j hk hj => ?_) hi
  · rw [wF_lp _ hi, wF_lp _ hi, wF_lp _ hi]; ring
  · rw [wF_block _ hk hj]
    have e1 : S.block (fun i => c * x i + d * y i) k = fun i => c * S.block x k i + d * S.block y k i := rfl
    rw [e1, scaleF_lin, ← wF_block x hk hj, ← wF_block y hk hj]
    rfl

theorem wF_ext (hq : ∀ k, k < S.ns → 0 < S.q k) {x y : Nat → ℝ} (h : ∀ i, i < S.fexv → x i = y i) {i : Nat} (hi : i < S.fexv) :
    wF S V x i = wF S V y i := by
  refine rows_ext (f := wF S V x) (g := wF S V y) (fun i hi => ?_) (fun k j hk hj => ?_) hi
  · rw [wF_lp _ hi, wF_lp _ hi, h i (by have := S.l_le S.ns; unfold Shape.fexv; omega)]
  · rw [wF_block _ hk hj, wF_block _ hk hj]
    refine scaleF_congr (hq k hk) (fun j hj => ?_) j hj
    have := S.start_le hk
    exact h _ (by omega)

theorem wF_symm (hq : ∀ k, k < S.ns → 0 < S.q k) (x y : Nat → ℝ) :
    ∑ i ∈ range S.fexv, y i * wF S V x i = ∑ i ∈ range S.fexv, wF S V y i * x i := by
  rw [S.sum_rows, S.sum_rows]
  congr 1
  · refine sum_congr rfl fun i hi => ?_
    rw [mem_range] at hi
    rw [wF_lp _ hi, wF_lp _ hi]; ring
  · refine sum_congr rfl fun k hk => ?_
    rw [mem_range] at hk
    calc _ = ∑ j ∈ range (S.q k), S.block y k j * scaleF (S.q k) (V.V k) (S.block x k) j := by
          refine sum_congr rfl fun j hj => ?_
          rw [mem_range] at hj
          rw [← wF_block x hk hj]; rfl
      _ = _ := scaleF_symm (hq k hk) _ _ _
      _ = _ := by
          refine sum_congr rfl fun j hj => ?_
          rw [mem_range] at hj
          rw [← wF_block y hk hj]; rfl

theorem symMap (hq : ∀ k, k < S.ns → 0 < S.q k) : SymMap S (wF S V) := ⟨fun _ _ h _ hi => wF_ext hq h hi, fun x y c d _ hi => wF_lin x y c d hi, wF_symm hq⟩

end

end Ecos.Dir
