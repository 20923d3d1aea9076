import Mathlib.Analysis.Real.Sqrt
import Verif.Lemmas.Glue
import Verif.Props.Nan
import Verif.Props.Equil

/-!
# Statistics and certificates: C43, C25
-/
namespace Ecos.StatProps

set_option linter.unusedSectionVars false

open Finset XR

/-! ### C43: the numbers in `info` -/

/-- the program number is this real number -/
abbrev IsFin (x : XR) (a : ℝ) : Prop := x = fin a

/-- the documented relative gap -/
noncomputable def relgapOf (gap pcost dcost : ℝ) : XR :=
  if pcost < 0 then fin (gap / -pcost) else if 0 < dcost then fin (gap / dcost) else nan

/-- the documented statistics of the iterate `v` of the problem `P`; `r` are the scales of the residuals of the dual
equation, the equality and the conic constraints; `D` is the degree of the cone -/
structure Documented (i : Stats XR) (T : Pat) (P : Dat) (v : Iter) (r : ℝ × ℝ × ℝ) (D : Nat) (reltol : ℝ) : Prop where
  pcost : i.pcost = some (fin (ip T.n P.c v.x / v.tau))
  dcost : i.dcost = some (fin (-(ip T.m P.h v.z + ip T.p P.b v.y) / v.tau))
  gap : i.gap = some (fin (ip T.m v.s v.z))
  mu : i.mu = some (fin ((ip T.m v.s v.z + v.kap * v.tau) / ((D : ℝ) + 1)))
  kapovert : i.kapovert = some (fin (v.kap / v.tau))
  relgap : i.relgap = some (relgapOf (ip T.m v.s v.z) (ip T.n P.c v.x / v.tau)
    (-(ip T.m P.h v.z + ip T.p P.b v.y) / v.tau))
  pres : i.pres = some (fin (max
    (nrm T.p (fun k => eqL P T v k - v.tau * P.b k) / max (r.2.1 + nrm T.n v.x) 1)
    (nrm T.m (fun k => ineqL P T v k - v.tau * P.h k) / max (r.2.2 + nrm T.n v.x + nrm T.m v.s) 1) / v.tau))
  dres : i.dres = some (fin (nrm T.n (fun j => adj P T v j + v.tau * P.c j) /
    max (r.1 + nrm T.p v.y + nrm T.m v.z) 1 / v.tau))
  pinfres : i.pinfres = some (if (ip T.m P.h v.z + ip T.p P.b v.y) / max (nrm T.p v.y + nrm T.m v.z) 1 < -reltol
    then fin (nrm T.n (adj P T v) / max (nrm T.p v.y + nrm T.m v.z) 1) else nan)
  dinfres : i.dinfres = some (if ip T.n P.c v.x / max (nrm T.n v.x) 1 < -reltol
    then fin (max (nrm T.p (eqL P T v) / max (nrm T.n v.x) 1)
      (nrm T.m (ineqL P T v) / max (nrm T.n v.x + nrm T.m v.s) 1)) else nan)

theorem fmax_fin (a b : ℝ) : fmax (fin a) (fin b) = fin (max a b) := by
  unfold fmax
  rw [lt_fin]
  by_cases h : a < b
  · rw [if_pos (by simpa using h), max_eq_right h.le]
  · rw [if_neg (by simpa using h), max_eq_left (not_lt.1 h)]

theorem nan_def : (NAN : XR) = nan := rfl

theorem max_one_ne (a : ℝ) : max a 1 ≠ 0 := (lt_of_lt_of_le one_pos (le_max_right a 1)).ne'

theorem relGap_fin {gap pcost dcost : ℝ} : relGap (fin gap) (fin pcost) (fin dcost) = relgapOf gap pcost dcost := by
  unfold relGap relgapOf
  simp only [zero_def, lt_fin, decide_eq_true_eq, fin_neg, nan_def]
  split
  · rename_i h
    rw [fin_div (by linarith)]
  · split
    · rename_i h
      rw [fin_div h.ne']
    · rfl

/-- C43: for all problems with finite data and all finite iterates with `tau ≠ 0`, at the beginning of any pass, the
numbers computed by the pass are the documented ones -/
theorem C43_formulas {w : Work XR} {T : Pat} {P : Dat} {v : Iter} (hP : ProbIs IsFin w T P)
    (hI : IterIs IsFin w T v) (hR : ResBuf w T) {r : ℝ × ℝ × ℝ} (h0 : w.resx0 = some (fin r.1))
    (h1 : w.resy0 = some (fin r.2.1)) (h2 : w.resz0 = some (fin r.2.2)) (ht : v.tau ≠ 0) {reltol : ℝ}
    (hrt : w.stgs.reltol = fin reltol) (k : Nat) :
    Ok (passHead w k) fun w' => Documented w'.info T P v r w.D reltol := by
  refine (passHeadD denXR hP hI hR (r0 := r) ⟨_, h0, rfl⟩ ⟨_, h1, rfl⟩ ⟨_, h2, rfl⟩ k).mono ?_
  rintro w' ⟨i, o, hi, rfl, e1, e2, e3, e4, e5, e6, e7, e8, e9, e10, -⟩
  have hD : (((w.D + 1 : Nat) : Int) : XR) = fin ((w.D : ℝ) + 1) := by
    rw [fin_int]
    push_cast
    rfl
  have hD0 : (w.D : ℝ) + 1 ≠ 0 := by positivity
  have m1 := max_one_ne
  constructor
  · rw [e4]; simp only [statFormulas, hi.cx, hi.tau, fin_div ht]
  · rw [e5]; simp only [statFormulas, hi.hz, hi.by_, hi.tau, fin_add, fin_neg, fin_div ht]
  · rw [e1]; simp only [statFormulas, hi.gap]
  · rw [e2]; simp only [statFormulas, hi.gap, hi.kap, hi.tau, fin_mul, fin_add, hD, fin_div hD0]
  · rw [e3]; simp only [statFormulas, hi.kap, hi.tau, fin_div ht]
  · rw [e6]
    simp only [statFormulas, hi.gap, hi.cx, hi.hz, hi.by_, hi.tau, fin_add, fin_neg, fin_div ht, relGap_fin]
  · rw [e7]
    simp only [statFormulas, hi.nry, hi.nrz, hi.resy0, hi.resz0, hi.nx, hi.ns, hi.tau, fin_add, one_def, fmax_fin,
      fin_div (m1 _)]
    split
    · simp only [fmax_fin, fin_div ht]
    · rename_i hp
      have hp0 : T.p = 0 := by omega
      have hz : (0.0 : XR) = fin 0 := by rw [fin_sci]; norm_num
      rw [hz, fmax_fin, fin_div ht]
      simp [hp0, nrm]
  · rw [e8]
    simp only [statFormulas, hi.nrx, hi.resx0, hi.ny, hi.nz, hi.tau, fin_add, one_def, fmax_fin,
      fin_div (m1 _), fin_div ht]
  · rw [e9]
    simp only [statFormulas, hi.hz, hi.by_, hi.hresx, hi.ny, hi.nz, fin_add, one_def, fmax_fin,
      fin_div (m1 _), hrt, fin_neg, lt_fin, decide_eq_true_eq, nan_def]
  · rw [e10]
    simp only [statFormulas, hi.cx, hi.nx, hi.ns, hi.hresy, hi.hresz, fin_add, one_def, fmax_fin,
      fin_div (m1 _), hrt, fin_neg, lt_fin, decide_eq_true_eq, nan_def]

/-- exchange of sums: `y'(Ax) = x'(A'y)` -/
theorem exchange (m n : Nat) (M : Nat → Nat → ℝ) (x y : Nat → ℝ) :
    ∑ i ∈ range m, (∑ j ∈ range n, M i j * x j) * y i = ∑ j ∈ range n, (∑ i ∈ range m, M i j * y i) * x j := by
  simp_rw [sum_mul]
  rw [sum_comm]
  refine sum_congr rfl fun j _ => sum_congr rfl fun i _ => by ring

theorem pairing (P : Dat) (T : Pat) (x y z : Nat → ℝ) :
    ∑ j ∈ range T.n, (∑ i ∈ range T.p, P.A T i j * y i + ∑ i ∈ range T.m, P.G T i j * z i) * x j =
      ∑ i ∈ range T.p, (∑ j ∈ range T.n, P.A T i j * x j) * y i +
      ∑ i ∈ range T.m, (∑ j ∈ range T.n, P.G T i j * x j) * z i := by
  have h1 := exchange T.p T.n (P.A T) x y
  have h2 := exchange T.m T.n (P.G T) x z
  rw [h1, h2, ← sum_add_distrib]
  refine sum_congr rfl fun j _ => ?_
  ring

/-- all residuals are zero -/
structure NoResidual (T : Pat) (P : Dat) (v : Iter) : Prop where
  dual : ∀ j, j < T.n → adj P T v j + v.tau * P.c j = 0
  eq : ∀ k, k < T.p → eqL P T v k = v.tau * P.b k
  ineq : ∀ k, k < T.m → ineqL P T v k = v.tau * P.h k

/-- the gap and the objectives: for every iterate with zero residuals `s'z = tau (c'x + b'y + h'z)` -/
theorem gap_zero_residuals {T : Pat} {P : Dat} {v : Iter} (h : NoResidual T P v) :
    ip T.m v.s v.z = v.tau * (ip T.n P.c v.x + ip T.p P.b v.y + ip T.m P.h v.z) := by
  have e1 : ∑ j ∈ range T.n, adj P T v j * v.x j = -(v.tau * ip T.n P.c v.x) := by
    unfold ip
    rw [mul_sum, ← sum_neg_distrib]
    refine sum_congr rfl fun j hj => ?_
    have := h.dual j (mem_range.1 hj)
    linear_combination v.x j * this
  have e2 : ∑ k ∈ range T.p, eqL P T v k * v.y k = v.tau * ip T.p P.b v.y := by
    unfold ip
    rw [mul_sum]
    refine sum_congr rfl fun k hk => ?_
    rw [h.eq k (mem_range.1 hk)]
    ring
  have e3 : ∑ k ∈ range T.m, ineqL P T v k * v.z k = v.tau * ip T.m P.h v.z := by
    unfold ip
    rw [mul_sum]
    refine sum_congr rfl fun k hk => ?_
    rw [h.ineq k (mem_range.1 hk)]
    ring
  have e4 : ∑ k ∈ range T.m, ineqL P T v k * v.z k =
      ∑ k ∈ range T.m, (∑ j ∈ range T.n, P.G T k j * v.x j) * v.z k + ip T.m v.s v.z := by
    unfold ip
    rw [← sum_add_distrib]
    refine sum_congr rfl fun k _ => ?_
    unfold ineqL
    ring
  have e5 : ∑ j ∈ range T.n, adj P T v j * v.x j =
      ∑ k ∈ range T.p, eqL P T v k * v.y k + ∑ k ∈ range T.m, (∑ j ∈ range T.n, P.G T k j * v.x j) * v.z k :=
    pairing P T v.x v.y v.z
  linarith

/-- C43: with zero residuals the reported gap is `tau²` times the difference of the reported objectives; so it is
that difference for `tau = 1`, that is for the variables handed back -/
theorem C43_gap {i : Stats XR} {T : Pat} {P : Dat} {v : Iter} {r : ℝ × ℝ × ℝ} {D : Nat} {reltol : ℝ}
    (h : Documented i T P v r D reltol) (h0 : NoResidual T P v) (ht : v.tau ≠ 0) :
    ∃ gap pcost dcost, i.gap = some (fin gap) ∧ i.pcost = some (fin pcost) ∧ i.dcost = some (fin dcost) ∧
      gap = v.tau ^ 2 * (pcost - dcost) := by
  refine ⟨_, _, _, h.gap, h.pcost, h.dcost, ?_⟩
  rw [gap_zero_residuals h0]
  field_simp
  ring

/-- `min x` subject to `x ≥ 1` (as `-x + s = -1`) -/
def oneVar : Pat :=
  { n := 1, m := 1, p := 0, hasA := false, jcA := fun _ => 0, irA := fun _ => 0, jcG := fun i => i, irG := fun _ => 0 }

def oneVarDat : Dat := { a := fun _ => 0, g := fun _ => -1, c := fun _ => 1, b := fun _ => 0, h := fun _ => -1 }

/-- the point `x = 2`, `s = 1`, `z = 1` in homogeneous coordinates with factor `t` -/
def oneVarIter (t : ℝ) : Iter :=
  { x := fun _ => 2 * t, y := fun _ => 0, z := fun _ => t, s := fun _ => t, kap := 0, tau := t }

theorem oneVar_noResidual (t : ℝ) : NoResidual oneVar oneVarDat (oneVarIter t) := by
  have hG : ∀ i j, oneVarDat.G oneVar i j = if i = 0 then -1 else 0 := by
    intro i j
    show dense (fun i => i) (fun _ => 0) (fun _ => -1) i j = _
    unfold dense
    by_cases h : i = 0
    · subst h; simp
    · have h' : ¬ 0 = i := fun e => h e.symm
      simp [h, h']
  refine ⟨fun j hj => ?_, fun k hk => (by cases hk), fun k hk => ?_⟩
  · simp [adj, oneVarIter, oneVarDat, oneVar, hG] at *
  · have : k = 0 := by simpa [oneVar] using hk
    subst this
    simp only [ineqL, hG]
    simp [oneVarIter, oneVarDat, oneVar]
    ring

/-- C43 is violated in the wording "the gap is the difference of the objectives": zero residuals, `tau = 2`, gap 4,
objectives 2 and 1 -/
theorem C43_gap_tau_violated : NoResidual oneVar oneVarDat (oneVarIter 2) ∧
    ∀ (i : Stats XR) (r : ℝ × ℝ × ℝ) (D : Nat) (reltol : ℝ), Documented i oneVar oneVarDat (oneVarIter 2) r D reltol →
      i.gap = some (fin 4) ∧ i.pcost = some (fin 2) ∧ i.dcost = some (fin 1) := by
  refine ⟨oneVar_noResidual 2, fun i r D reltol h => ⟨?_, ?_, ?_⟩⟩
  · rw [h.gap]; norm_num [ip, oneVar, oneVarIter]
  · rw [h.pcost]; norm_num [ip, oneVar, oneVarIter, oneVarDat]
  · rw [h.dcost]; norm_num [ip, oneVar, oneVarIter, oneVarDat]

/-! ### The scales of the residuals -/

section scales
variable {F : Type} [Zero F] [One F] [Add F] [Sub F] [Mul F] [Div F] [Neg F] [OfScientific F]
  [IntCast F] [PFloat F] [HasInf F]

/-- the scales are the same -/
def SameScale (w w' : Work F) : Prop := w'.resx0 = w.resx0 ∧ w'.resy0 = w.resy0 ∧ w'.resz0 = w.resz0

theorem SameScale.trans {a b c : Work F} (h1 : SameScale a b) (h2 : SameScale b c) : SameScale a c :=
  ⟨h2.1.trans h1.1, h2.2.1.trans h1.2.1, h2.2.2.trans h1.2.2⟩

theorem passHead_scale {w w' : Work F} {k : Nat} (h : passHead w k = .ok w') : SameScale w w' := by
  unfold passHead computeResiduals updateStatistics at h
  simp only [bind_ok, pure_ok] at h
  obtain ⟨w1, ⟨r, -, cx, -, b, -, hz, -, kap, -, nx, -, ny, -, ns, -, nz, -, rfl⟩, i, -, rfl⟩ := h
  exact ⟨rfl, rfl, rfl⟩

theorem saveIterateAsBest_scale {w w' : Work F} (h : saveIterateAsBest w = .ok w') : SameScale w w' := by
  unfold saveIterateAsBest at h
  simp only [bind_ok, pure_ok] at h
  obtain ⟨x, hx, y, hy, z, hz, s, hs, rfl⟩ := h
  exact ⟨rfl, rfl, rfl⟩

theorem keepBest_scale {w w' : Work F} (h : keepBest w = .ok w') : SameScale w w' := by
  unfold keepBest at h
  split at h
  · exact saveIterateAsBest_scale h
  · simp only [bind_ok] at h
    obtain ⟨b, -, h⟩ := h
    cases b with
    | true =>
      rw [if_pos rfl] at h
      exact saveIterateAsBest_scale h
    | false =>
      simp only [Bool.false_eq_true, if_false, pure_ok] at h
      subst h
      exact ⟨rfl, rfl, rfl⟩

theorem updateVars_scale {R : Corr F} {kap tau a : F} {w' : Work F} (h : updateVars R kap tau a = .ok w') :
    SameScale R.w w' := by
  unfold updateVars at h
  simp only [bind_ok, pure_ok] at h
  obtain ⟨x, -, y, -, z, -, s, -, rfl⟩ := h
  exact ⟨rfl, rfl, rfl⟩

theorem Fr.scale {w w' : Work F} (h : Fr w w') : SameScale w w' := by
  rw [h.1]; exact ⟨rfl, rfl, rfl⟩

theorem atHead_scale {arrives : Nat → Bool} {w : Work F} {sig : Sig} {k : Nat} {S : LoopS F}
    (h : AtHead arrives w sig k S) : SameScale w S.w := by
  induction h with
  | start => exact ⟨rfl, rfl, rfl⟩
  | @next k S S' hS hk hp ih =>
    obtain ⟨wm, wk, hm, hsig, -, -, -, hkb, ht, -⟩ := pass_inr hp
    obtain ⟨R, kap, tau, a, hfr, hu, -⟩ := passTail_inr ht
    exact ih.trans ((passHead_scale hm).trans ((keepBest_scale hkb).trans
      ((Fr.scale hfr).trans (updateVars_scale hu))))

theorem initSolver_scale {w w1 : Work F} {b : Bool} (h : initSolver w = .ok (w1, b)) :
    ∃ rx ry rz, resScale w.c w.n = .ok rx ∧ resScale w.b w.p = .ok ry ∧ resScale w.h w.m = .ok rz ∧
      w1.resx0 = some rx ∧ w1.resy0 = some ry ∧ w1.resz0 = some rz := by
  have hM : ∀ {v v1 : Work F} {b}, initMehrotra v = .ok (v1, b) → SameScale v v1 := by
    intro v v1 b h
    unfold initMehrotra at h
    simp only [bind_ok] at h
    obtain ⟨f, -, h⟩ := h
    split at h
    · simp only [pure_ok, Prod.mk.injEq] at h
      obtain ⟨rfl, -⟩ := h
      exact ⟨rfl, rfl, rfl⟩
    · simp only [bind_ok, pure_ok, Prod.mk.injEq] at h
      obtain ⟨r, -, x, -, nr, -, s, -, q, -, y, -, z, -, rfl, -⟩ := h
      exact ⟨rfl, rfl, rfl⟩
  have hU : ∀ {v v1 : Work F}, initUnit v = .ok v1 → SameScale v v1 := by
    intro v v1 h
    unfold initUnit at h
    simp only [bind_ok, pure_ok] at h
    obtain ⟨t, -, y, -, x, -, rfl⟩ := h
    exact ⟨rfl, rfl, rfl⟩
  unfold initSolver at h
  simp only [bind_ok] at h
  obtain ⟨PKPt, -, r, -, rx, hrx, ry, hry, rz, hrz, o, ho, h⟩ := h
  refine ⟨rx, ry, rz, hrx, hry, hrz, ?_⟩
  have ho' : o.1.resx0 = some rx ∧ o.1.resy0 = some ry ∧ o.1.resz0 = some rz := by
    split at ho
    · exact hM ho
    · simp only [bind_ok, pure_ok] at ho
      obtain ⟨v, hv, rfl⟩ := ho
      exact hU hv
  split at h
  · simp only [pure_ok, Prod.mk.injEq] at h
    obtain ⟨rfl, rfl⟩ := h
    exact ho'
  · simp only [bind_ok, pure_ok, Prod.mk.injEq] at h
    obtain ⟨r1, -, rfl, rfl⟩ := h
    exact ho'

end scales

theorem resScale_fin {v : Buf XR} {n : Nat} {f : Nat → ℝ} (hv : HoldsD IsFin v n f) {x : XR}
    (h : resScale v n = .ok x) : x = fin (max 1 (nrm n f)) := by
  obtain ⟨y, h1, h2⟩ := (Ok.def _ _).1 (norm2D denXR hv)
  unfold resScale at h
  rw [h1, ok_bind_eq, h2, one_def, fmax_fin] at h
  exact (Except.ok.inj h).symm

/-- C43 for a whole solve: in every pass of every solve the residuals are measured against `max(1, ‖c‖)`,
`max(1, ‖b‖)` and `max(1, ‖h‖)` of the (scaled) data -/
theorem C43_solve {arrives : Nat → Bool} {w w1 : Work XR} {sig : Sig} {k : Nat} {S : LoopS XR}
    (hstart : Started w w1) (hhead : AtHead arrives w1 sig k S) {T : Pat} {P : Dat} {v : Iter}
    (hP : ProbIs IsFin S.w T P) (hI : IterIs IsFin S.w T v) (hR : ResBuf S.w T) (ht : v.tau ≠ 0) {reltol : ℝ}
    (hrt : w.stgs.reltol = fin reltol) :
    Ok (passHead S.w k) fun w' => Documented w'.info T P v (max 1 (nrm T.n P.c), max 1 (nrm T.p P.b), max 1 (nrm T.m P.h))
      w.D reltol := by
  obtain ⟨c, hc, hinit⟩ := hstart
  obtain ⟨rx, ry, rz, h1, h2, h3, e1, e2, e3⟩ := initSolver_scale hinit
  have hd0 := (initSolver_stgs hinit).1
  have hd := (hd0.trans (atHead_inv hhead).data)
  have hs := atHead_scale hhead
  have hrt' : S.w.stgs.reltol = fin reltol := by rw [hd.stgs]; exact hrt
  rw [← hd.c, ← hd.n, hP.n] at h1
  rw [← hd.b, ← hd.p, hP.p] at h2
  rw [← hd.h, ← hd.m, hP.m] at h3
  have k1 := resScale_fin hP.c h1
  have k2 := resScale_fin hP.b h2
  have k3 := resScale_fin hP.h h3
  have := C43_formulas hP hI hR (r := (max 1 (nrm T.n P.c), max 1 (nrm T.p P.b), max 1 (nrm T.m P.h)))
    (by rw [hs.1, e1, k1]) (by rw [hs.2.1, e2, k2]) (by rw [hs.2.2, e3, k3]) ht hrt' k
  rw [hd.D] at this
  exact this

/-! ### C25: certificates of infeasibility -/

theorem nrm_nonneg (n : Nat) (f : Nat → ℝ) : 0 ≤ nrm n f := Real.sqrt_nonneg _

theorem ip_le (n : Nat) (f g : Nat → ℝ) : ip n f g ≤ nrm n f * nrm n g := by
  have := Real.sum_mul_le_sqrt_mul_sqrt (range n) f g
  exact this

theorem ip_ge (n : Nat) (f g : Nat → ℝ) : -(nrm n f * nrm n g) ≤ ip n f g := by
  have h := ip_le n (fun i => - f i) g
  rw [nrm_neg] at h
  have : ip n (fun i => - f i) g = - ip n f g := by
    unfold ip
    rw [← sum_neg_distrib]
    exact sum_congr rfl fun i _ => by ring
  linarith

theorem soc_pair {q : Nat} (hq : 0 < q) {u w : Nat → ℝ} (hu : InSoc q u) (hw : InSoc q w) :
    0 ≤ ∑ j ∈ range q, u j * w j := by
  obtain ⟨q, rfl⟩ : ∃ q', q = q' + 1 := ⟨q - 1, by omega⟩
  rw [sum_range_succ']
  have h := ip_ge q (fun i => u (i + 1)) (fun i => w (i + 1))
  have e : ∀ v : Nat → ℝ, nrm q (fun i => v (i + 1)) = Real.sqrt (tailSq (q + 1) v) := by
    intro v
    unfold nrm tailSq
    simp only [Nat.add_sub_cancel, pow_two]
  rw [e, e] at h
  unfold InSoc at hu hw
  have h1 := mul_le_mul hu hw (Real.sqrt_nonneg _) ((Real.sqrt_nonneg _).trans hu)
  unfold ip at h
  linarith

theorem sum_triples (n : Nat) (f : Nat → ℝ) :
    ∑ i ∈ range (3 * n), f i = ∑ l ∈ range n, (f (3 * l) + f (3 * l + 1) + f (3 * l + 2)) := by
  induction n with
  | zero => simp
  | succ n ih =>
    rw [show 3 * (n + 1) = 3 * n + 1 + 1 + 1 by ring, sum_range_succ, sum_range_succ, sum_range_succ,
      sum_range_succ, ih]
    ring

/-- a point of the cone and a point of the dual cone have nonnegative inner product -/
theorem pair_nonneg {S : Shape} (hq : ∀ k, k < S.ns → 0 < S.q k) {s z : Nat → ℝ} (hs : InK S s)
    (hz : InKDual S z) : 0 ≤ ip S.m s z := by
  unfold ip
  have hm : S.m = S.fexv + 3 * S.ne := rfl
  rw [hm, sum_range_add, S.sum_rows, sum_triples]
  refine add_nonneg (add_nonneg (sum_nonneg fun i hi => ?_) (sum_nonneg fun k hk => ?_)) (sum_nonneg fun l hl => ?_)
  · have hi := mem_range.1 hi
    exact mul_nonneg (hs.sym.lp i hi) (hz.sym.lp i hi)
  · have hk := mem_range.1 hk
    exact soc_pair (hq k hk) (hs.sym.soc k hk) (hz.sym.soc k hk)
  · have hl := mem_range.1 hl
    have := hz.exp l hl _ _ _ (hs.exp l hl)
    have e1 : S.fexv + (3 * l + 1) = S.fexv + 3 * l + 1 := by ring
    have e2 : S.fexv + (3 * l + 2) = S.fexv + 3 * l + 2 := by ring
    rw [e1, e2]
    linarith [mul_comm (s (S.fexv + 3 * l)) (z (S.fexv + 3 * l)),
      mul_comm (s (S.fexv + 3 * l + 1)) (z (S.fexv + 3 * l + 1)),
      mul_comm (s (S.fexv + 3 * l + 2)) (z (S.fexv + 3 * l + 2))]

/-- `x`, `s` satisfy the constraints of the problem -/
structure Feasible (S : Shape) (T : Pat) (P : Dat) (x s : Nat → ℝ) : Prop where
  eq : ∀ i, i < T.p → ∑ j ∈ range T.n, P.A T i j * x j = P.b i
  ineq : ∀ i, i < T.m → ∑ j ∈ range T.n, P.G T i j * x j + s i = P.h i
  s : InK S s

/-- `y`, `z` satisfy the constraints of the dual problem -/
structure DualFeasible (S : Shape) (T : Pat) (P : Dat) (y z : Nat → ℝ) : Prop where
  eq : ∀ j, j < T.n → ∑ i ∈ range T.p, P.A T i j * y i + ∑ i ∈ range T.m, P.G T i j * z i + P.c j = 0
  z : InKDual S z

/-- the certificate of primal infeasibility: `h'z + b'y` negative, `A'y + G'z` small -/
structure PrimalCert (T : Pat) (P : Dat) (v : Iter) (reltol tol : ℝ) : Prop where
  neg : ip T.m P.h v.z + ip T.p P.b v.y < -(reltol * max (nrm T.p v.y + nrm T.m v.z) 1)
  small : nrm T.n (adj P T v) < tol * max (nrm T.p v.y + nrm T.m v.z) 1

/-- the certificate of dual infeasibility: `c'x` negative, `Ax` and `Gx + s` small -/
structure DualCert (T : Pat) (P : Dat) (v : Iter) (reltol tol : ℝ) : Prop where
  neg : ip T.n P.c v.x < -(reltol * max (nrm T.n v.x) 1)
  smallA : nrm T.p (eqL P T v) < tol * max (nrm T.n v.x) 1
  smallG : nrm T.m (ineqL P T v) < tol * max (nrm T.n v.x + nrm T.m v.s) 1

/-- C25, exact arithmetic: with a certificate of primal infeasibility every feasible point is larger than
`reltol / tol` -/
theorem C25_primal_bound {S : Shape} {T : Pat} {P : Dat} {v : Iter} {reltol tol : ℝ}
    (hq : ∀ k, k < S.ns → 0 < S.q k) (hm : S.m = T.m) (hc : PrimalCert T P v reltol tol) (hz : InKDual S v.z)
    {x s : Nat → ℝ} (hx : Feasible S T P x s) : reltol / tol < nrm T.n x := by
  have hM : 0 < max (nrm T.p v.y + nrm T.m v.z) 1 := lt_of_lt_of_le one_pos (le_max_right _ _)
  have htol : 0 < tol := by
    have := (nrm_nonneg T.n (adj P T v)).trans_lt hc.small
    exact (pos_iff_pos_of_mul_pos this).2 hM
  have hpair := pair_nonneg hq hx.s hz
  rw [hm] at hpair
  have e1 := pairing P T x v.y v.z
  have e2 : ∑ i ∈ range T.p, (∑ j ∈ range T.n, P.A T i j * x j) * v.y i = ip T.p P.b v.y :=
    sum_congr rfl fun i hi => by rw [hx.eq i (mem_range.1 hi)]
  have e3 : ∑ i ∈ range T.m, (∑ j ∈ range T.n, P.G T i j * x j) * v.z i = ip T.m P.h v.z - ip T.m s v.z := by
    unfold ip
    rw [← sum_sub_distrib]
    refine sum_congr rfl fun i hi => ?_
    have := hx.ineq i (mem_range.1 hi)
    linear_combination v.z i * this
  have e4 := ip_ge T.n (adj P T v) x
  have e5 : ip T.n (adj P T v) x = ∑ j ∈ range T.n,
    (∑ i ∈ range T.p, P.A T i j * v.y i + ∑ i ∈ range T.m, P.G T i j * v.z i) * x j := rfl
  have e6 : nrm T.n (adj P T v) * nrm T.n x ≤ tol * max (nrm T.p v.y + nrm T.m v.z) 1 * nrm T.n x :=
    mul_le_mul_of_nonneg_right hc.small.le (nrm_nonneg _ _)
  have e7 := hc.neg
  rw [div_lt_iff₀ htol]
  have : reltol * max (nrm T.p v.y + nrm T.m v.z) 1 <
      (nrm T.n x * tol) * max (nrm T.p v.y + nrm T.m v.z) 1 := by
    nlinarith
  exact lt_of_mul_lt_mul_right this hM.le

/-- C25, exact arithmetic: with a certificate of dual infeasibility every dual feasible point is large -/
theorem C25_dual_bound {S : Shape} {T : Pat} {P : Dat} {v : Iter} {reltol tol : ℝ}
    (hq : ∀ k, k < S.ns → 0 < S.q k) (hm : S.m = T.m) (hc : DualCert T P v reltol tol) (hs : InK S v.s)
    {y z : Nat → ℝ} (hy : DualFeasible S T P y z) :
    reltol / tol < nrm T.p y + nrm T.m z * (max (nrm T.n v.x + nrm T.m v.s) 1 / max (nrm T.n v.x) 1) := by
  have hM : 0 < max (nrm T.n v.x) 1 := lt_of_lt_of_le one_pos (le_max_right _ _)
  have htol : 0 < tol := by
    have := (nrm_nonneg T.p (eqL P T v)).trans_lt hc.smallA
    exact (pos_iff_pos_of_mul_pos this).2 hM
  have hpair := pair_nonneg hq hs hy.z
  rw [hm] at hpair
  have e1 := pairing P T v.x y z
  have e2 : ∑ j ∈ range T.n, (∑ i ∈ range T.p, P.A T i j * y i + ∑ i ∈ range T.m, P.G T i j * z i) * v.x j =
      - ip T.n P.c v.x := by
    unfold ip
    rw [← sum_neg_distrib]
    refine sum_congr rfl fun j hj => ?_
    have := hy.eq j (mem_range.1 hj)
    linear_combination v.x j * this
  have e3 : ∑ i ∈ range T.m, (∑ j ∈ range T.n, P.G T i j * v.x j) * z i = ip T.m (ineqL P T v) z - ip T.m v.s z := by
    unfold ip
    rw [← sum_sub_distrib]
    refine sum_congr rfl fun i _ => ?_
    unfold ineqL
    ring
  have e4 := ip_le T.p (eqL P T v) y
  have e4' : ip T.p (eqL P T v) y = ∑ i ∈ range T.p, (∑ j ∈ range T.n, P.A T i j * v.x j) * y i := rfl
  have e5 := ip_le T.m (ineqL P T v) z
  have e6 : nrm T.p (eqL P T v) * nrm T.p y ≤ tol * max (nrm T.n v.x) 1 * nrm T.p y :=
    mul_le_mul_of_nonneg_right hc.smallA.le (nrm_nonneg _ _)
  have e7 : nrm T.m (ineqL P T v) * nrm T.m z ≤ tol * max (nrm T.n v.x + nrm T.m v.s) 1 * nrm T.m z :=
    mul_le_mul_of_nonneg_right hc.smallG.le (nrm_nonneg _ _)
  have e8 := hc.neg
  rw [div_lt_iff₀ htol]
  have : reltol * max (nrm T.n v.x) 1 <
      ((nrm T.p y + nrm T.m z * (max (nrm T.n v.x + nrm T.m v.s) 1 / max (nrm T.n v.x) 1)) * tol) *
        max (nrm T.n v.x) 1 := by
    have : ((nrm T.p y + nrm T.m z * (max (nrm T.n v.x + nrm T.m v.s) 1 / max (nrm T.n v.x) 1)) * tol) *
        max (nrm T.n v.x) 1 = tol * max (nrm T.n v.x) 1 * nrm T.p y +
          tol * max (nrm T.n v.x + nrm T.m v.s) 1 * nrm T.m z := by
      field_simp
    rw [this]
    linarith
  exact lt_of_mul_lt_mul_right this hM.le

/-- a point of the user's problem in scaled units -/
theorem feasible_scaled {S : Shape} {T : Pat} {P P' : Dat} {E : Fac} (hT : Equil.PatOk T) (hE : E.Ok S T)
    (hm : S.m = T.m) (hq : ∀ k, k < S.ns → 0 < S.q k) (hP : ScaledBy T P P' E) {x s : Nat → ℝ}
    (h : Feasible S T P x s) : Feasible S T P' (fun j => E.x j * x j) (fun i => (E.G i)⁻¹ * s i) := by
  refine ⟨fun i hi => ?_, fun i hi => ?_, ?_⟩
  · rw [hP.b i hi, ← h.eq i hi, Finset.sum_div]
    refine sum_congr rfl fun j hj => ?_
    have hj := mem_range.1 hj
    rw [Equil.scaled_A hT hP hi hj]
    have := (hE.A i hi).ne'
    have := (hE.x j hj).ne'
    field_simp
  · rw [hP.h i hi, ← h.ineq i hi, add_div, Finset.sum_div]
    congr 1
    · refine sum_congr rfl fun j hj => ?_
      have hj := mem_range.1 hj
      rw [Equil.scaled_G hT hP i hj]
      have := (hE.G i hi).ne'
      have := (hE.x j hj).ne'
      field_simp
    · rw [div_eq_inv_mul]
  · have hE' : Fac.Ok { E with G := fun i => (E.G i)⁻¹ } S T :=
      ⟨hE.x, hE.A, fun i hi => inv_pos.2 (hE.G i hi),
        fun k hk j hj => by show (E.G _)⁻¹ = (E.G _)⁻¹; rw [hE.soc k hk j hj],
        fun l hl j hj => by show (E.G _)⁻¹ = (E.G _)⁻¹; rw [hE.exp l hl j hj]⟩
    exact (Equil.C12_cone hE' hm hq s).2 h.s

/-- C25 in the user's units: the variables handed back have `h'z + b'y < 0`, and every feasible point of the user's
problem is larger than an explicit bound -/
theorem C25_primal_user {S : Shape} {T : Pat} {P P' : Dat} {E : Fac} {v : Iter} {reltol tol : ℝ} (hT : Equil.PatOk T)
    (hE : E.Ok S T) (hm : S.m = T.m) (hq : ∀ k, k < S.ns → 0 < S.q k) (hP : ScaledBy T P P' E) (ht : 0 < v.tau)
    (hr : 0 ≤ reltol) (hc : PrimalCert T P' v reltol tol) (hz : InKDual S v.z) :
    ip T.m P.h (v.user E).z + ip T.p P.b (v.user E).y < 0 ∧
    ∀ x s, Feasible S T P x s → reltol / tol < nrm T.n (fun j => E.x j * x j) := by
  refine ⟨?_, fun x s h => C25_primal_bound hq hm hc hz (feasible_scaled hT hE hm hq hP h)⟩
  have h1 := (Equil.C14_objective hE hP ht).2
  have hM : 0 < max (nrm T.p v.y + nrm T.m v.z) 1 := lt_of_lt_of_le one_pos (le_max_right _ _)
  have h2 : 0 < -(ip T.m P'.h v.z + ip T.p P'.b v.y) := by
    have := hc.neg
    have := mul_nonneg hr hM.le
    linarith
  have h3 := div_pos h2 ht
  linarith

/-- C25 in the user's units, dual: the variables handed back have `c'x < 0` -/
theorem C25_dual_user {S : Shape} {T : Pat} {P P' : Dat} {E : Fac} {v : Iter} {reltol tol : ℝ}
    (hE : E.Ok S T) (hP : ScaledBy T P P' E) (ht : 0 < v.tau) (hr : 0 ≤ reltol)
    (hc : DualCert T P' v reltol tol) : ip T.n P.c (v.user E).x < 0 := by
  rw [← (Equil.C14_objective hE hP ht).1]
  have hM : 0 < max (nrm T.n v.x) 1 := lt_of_lt_of_le one_pos (le_max_right _ _)
  refine div_neg_of_neg_of_pos ?_ ht
  have := hc.neg
  have := mul_nonneg hr hM.le
  linarith

section verdicts
variable {F : Type} [Zero F] [One F] [Add F] [Sub F] [Mul F] [Div F] [Neg F] [OfScientific F]
  [IntCast F] [PFloat F] [HasInf F]

/-- the test for primal infeasibility on the numbers in `info` -/
def PinfTest (w : Work F) (tol : F) : Prop :=
  ∃ p tau kap, w.info.pinfres = some p ∧ w.tau = some tau ∧ w.kap = some kap ∧
    ((lt p tol = true ∧ lt tau kap = true) ∨
      (lt p w.stgs.feastol = true ∧ lt tau w.stgs.feastol = true ∧ lt kap w.stgs.feastol = true))

/-- the test for dual infeasibility -/
def DinfTest (w : Work F) (tol : F) : Prop :=
  ∃ d tau kap, w.info.dinfres = some d ∧ w.tau = some tau ∧ w.kap = some kap ∧ lt d tol = true ∧
    lt tau kap = true

theorem verdict_test {w' : Work F} {c mode : Int} (h : Verdict w' c mode) :
    (c = 1 + mode → PinfTest w' (if mode = 0 then w'.stgs.feastol else w'.stgs.feastolInacc)) ∧
    (c = 2 + mode → DinfTest w' (if mode = 0 then w'.stgs.feastol else w'.stgs.feastolInacc)) := by
  obtain ⟨w0, h, h0⟩ := h
  obtain ⟨e, he, h | ⟨hc, -⟩ | ⟨hc, ho, rfl⟩ | ⟨hc, ho, rfl⟩⟩ := checkExit_cases h
  · exact absurd h.1 h0
  · simp only [OPTIMAL] at hc
    exact ⟨fun h => by omega, fun h => by omega⟩
  all_goals
    unfold exitIn at he
    simp only [bind_ok, pure_ok, get_ok] at he
    obtain ⟨cx, hcx, b, hb, hz, hhz, pres, hpres, dres, hdres, gap, hgap, relgap, hrelgap, pinfres, hpinf,
      dinfres, hdinf, tau, htau, kap, hkap, rfl⟩ := he
  · simp only [DINF] at hc
    refine ⟨fun h => by omega, fun _ => ?_⟩
    unfold isDinf at ho
    simp only [Bool.and_eq_true] at ho
    exact ⟨dinfres, tau, kap, hdinf, htau, hkap, ho.1.2, ho.2⟩
  · simp only [PINF] at hc
    refine ⟨fun _ => ?_, fun h => by omega⟩
    unfold isPinf at ho
    simp only [Bool.and_eq_true, Bool.or_eq_true] at ho
    refine ⟨pinfres, tau, kap, hpinf, htau, hkap, ?_⟩
    obtain ⟨⟨-, h1⟩, h2⟩ | ⟨⟨h1, h2⟩, h3⟩ := ho
    · exact Or.inl ⟨h1, h2⟩
    · exact Or.inr ⟨h3, h1, h2⟩

theorem backscale_keeps {w w' : Work F} (h : backscale w = .ok w') :
    w'.info = w.info ∧ w'.tau = w.tau ∧ w'.kap = w.kap ∧ w'.stgs = w.stgs := by
  unfold backscale at h
  simp only [bind_ok, pure_ok] at h
  obtain ⟨tau, -, x, -, y, -, z, -, s, -, c, hc, rfl⟩ := h
  exact ⟨rfl, rfl, rfl, rfl⟩

/-- C25: the infeasibility codes are only returned when the numbers in `info` pass the documented tests -/
theorem C25_tests {arrives : Nat → Bool} {w w' : Work F} {sig sig' : Sig} {code : Int}
    (h : ecosSolve arrives w sig = .ok (w', sig', code)) :
    (code = 1 → PinfTest w' w.stgs.feastol) ∧ (code = 11 → PinfTest w' w.stgs.feastolInacc) ∧
    (code = 2 → DinfTest w' w.stgs.feastol) ∧ (code = 12 → DinfTest w' w.stgs.feastolInacc) := by
  by_cases hc : code = 1 ∨ code = 11 ∨ code = 2 ∨ code = 12
  swap
  · refine ⟨fun h => ?_, fun h => ?_, fun h => ?_, fun h => ?_⟩ <;> exact absurd (by simp [h]) hc
  have hst := (C24_optimal_tolerances h).2.2 (by rcases hc with rfl | rfl | rfl | rfl <;> decide)
  obtain ⟨h, -⟩ | ⟨w1, -, hs, ⟨k, e, hl, rfl, hend⟩ | ⟨-, h, -⟩⟩ := ecosSolve_cases h
  · rw [h] at hc; exact absurd hc (by decide)
  · have trP : ∀ {t}, PinfTest e.w t → PinfTest w' t := by
      intro t ht
      obtain ⟨-, rfl, -⟩ | ⟨-, hb, -⟩ := hend
      · exact ht
      · obtain ⟨h1, h2, h3, h4⟩ := backscale_keeps hb
        unfold PinfTest at ht ⊢
        rw [h1, h2, h3, h4]
        exact ht
    have trD : ∀ {t}, DinfTest e.w t → DinfTest w' t := by
      intro t ht
      obtain ⟨-, rfl, -⟩ | ⟨-, hb, -⟩ := hend
      · exact ht
      · obtain ⟨h1, h2, h3, h4⟩ := backscale_keeps hb
        unfold DinfTest at ht ⊢
        rw [h1, h2, h3]
        exact ht
    have hst' : w.stgs = e.w.stgs := by rw [← hs, ← (leaves_spec hl).1.stgs]
    rw [hst']
    obtain ⟨-, h | h | h | h | ⟨h, -⟩⟩ | ⟨-, h | h⟩ := leaves_code hl
    · have hcode := h.code
      have := verdict_test h
      simp only [if_true] at this
      exact ⟨fun hc => trP (this.1 (by omega)), fun hc => by omega, fun hc => trD (this.2 (by omega)),
        fun hc => by omega⟩
    · have hcode := h.code
      have := verdict_test h
      simp only [INACC] at hcode
      rw [if_neg (by decide)] at this
      simp only [INACC] at this
      exact ⟨fun hc => by omega, fun hc => trP (this.1 (by omega)), fun hc => by omega,
        fun hc => trD (this.2 (by omega))⟩
    all_goals rw [h] at hc; exact absurd hc (by decide)
  · rw [h] at hc; exact absurd hc (by decide)

end verdicts

theorem lt_fin_elim {x : XR} {b : ℝ} (h : lt x (fin b) = true) (hx : x ≠ ninf) : ∃ a, x = fin a ∧ a < b := by
  cases x with
  | fin a => exact ⟨a, rfl, by simpa using h⟩
  | pinf => simp at h
  | ninf => exact absurd rfl hx
  | nan => simp at h

/-- the tolerance used for a code: full or reduced accuracy (never below the full one) -/
noncomputable def tolFor (code : Int) (feastol feastolInacc : ℝ) : ℝ :=
  if code < 10 then feastol else max feastol feastolInacc

/-- C25 for a whole solve: with the code "primal infeasible" (1, or 11 for reduced accuracy) the variables handed back
are an iterate of this solve, and (for finite data and iterate) this iterate carries the certificate; likewise for
"dual infeasible" (2 and 12) -/
theorem C25_solve {arrives : Nat → Bool} {w w' : Work XR} {sig sig' : Sig} {code : Int}
    (h : ecosSolve arrives w sig = .ok (w', sig', code))
    (hcode : code = 1 ∨ code = 2 ∨ ((code = 11 ∨ code = 12) ∧ 0 < w'.info.iter)) :
    ∃ w1 k S wm, Started w w1 ∧ AtHead arrives w1 (initCtrlc sig) k S ∧ passHead S.w k = .ok wm ∧ HandedBack wm w' ∧
      ∀ T P v reltol feastol feastolInacc, ProbIs IsFin S.w T P → IterIs IsFin S.w T v → ResBuf S.w T → v.tau ≠ 0 →
        w.stgs.reltol = fin reltol → w.stgs.feastol = fin feastol → w.stgs.feastolInacc = fin feastolInacc →
        (code = 1 ∨ code = 11 → PrimalCert T P v reltol (tolFor code feastol feastolInacc)) ∧
        (code = 2 ∨ code = 12 → DualCert T P v reltol (tolFor code feastol feastolInacc)) := by
  obtain ⟨w1, wm, k, hst, hk, ⟨S, hS, hkm, hpass⟩, hback⟩ := C26_returned_partial h
    (by rcases hcode with rfl | rfl | ⟨rfl | rfl, -⟩ <;> decide)
    (by rcases hcode with rfl | rfl | ⟨rfl | rfl, -⟩ <;> decide)
    (by rcases hcode with rfl | rfl | ⟨-, h⟩
        · exact Or.inr (by simp)
        · exact Or.inr (by simp)
        · exact Or.inl h)
  refine ⟨w1, k, S, wm, hst, hS, hpass, hback, ?_⟩
  intro T P v reltol feastol feastolInacc hP hI hR ht hrt hft hfi
  obtain ⟨wm', e1, hdoc⟩ := (Ok.def _ _).1 (C43_solve hst hS hP hI hR ht hrt)
  rw [hpass] at e1
  cases e1
  have htests := C25_tests h
  have hstg := (C24_optimal_tolerances h).2.2
    (by rcases hcode with rfl | rfl | ⟨rfl | rfl, -⟩ <;> decide)
  have hM : ∀ a : ℝ, 0 < max a 1 := fun a => lt_of_lt_of_le one_pos (le_max_right _ _)
  have hP' : ∀ {p : XR} {t : ℝ}, wm.info.pinfres = some p → lt p (fin t) = true → PrimalCert T P v reltol t := by
    intro p t hp hlt
    rw [hdoc.pinfres] at hp
    cases hp
    split at hlt
    · rename_i hneg
      simp only [lt_fin, decide_eq_true_eq] at hlt
      refine ⟨?_, (div_lt_iff₀ (hM _)).1 hlt⟩
      have := (div_lt_iff₀ (hM _)).1 hneg
      linarith
    · simp at hlt
  have hD' : ∀ {p : XR} {t : ℝ}, wm.info.dinfres = some p → lt p (fin t) = true → DualCert T P v reltol t := by
    intro p t hp hlt
    rw [hdoc.dinfres] at hp
    cases hp
    split at hlt
    · rename_i hneg
      simp only [lt_fin, decide_eq_true_eq, max_lt_iff] at hlt
      refine ⟨?_, (div_lt_iff₀ (hM _)).1 hlt.1, (div_lt_iff₀ (hM _)).1 hlt.2⟩
      have := (div_lt_iff₀ (hM _)).1 hneg
      linarith
    · simp at hlt
  have hlift : ∀ {t t' : ℝ}, t ≤ t' → PrimalCert T P v reltol t → PrimalCert T P v reltol t' := fun ht hc =>
    ⟨hc.neg, hc.small.trans_le (mul_le_mul_of_nonneg_right ht (hM _).le)⟩
  have hliftD : ∀ {t t' : ℝ}, t ≤ t' → DualCert T P v reltol t → DualCert T P v reltol t' := fun ht hc =>
    ⟨hc.neg, hc.smallA.trans_le (mul_le_mul_of_nonneg_right ht (hM _).le),
      hc.smallG.trans_le (mul_le_mul_of_nonneg_right ht (hM _).le)⟩
  constructor
  · rintro (rfl | rfl)
    · obtain ⟨p, tau, kap, h1, -, -, h2⟩ := htests.1 rfl
      rw [hstg, hft] at h2
      rw [hback.stats.pinfres] at h1
      rw [tolFor, if_pos (by decide)]
      obtain ⟨h2, -⟩ | ⟨h2, -⟩ := h2
      · exact hP' h1 h2
      · exact hP' h1 h2
    · obtain ⟨p, tau, kap, h1, -, -, h2⟩ := htests.2.1 rfl
      rw [hstg, hft, hfi] at h2
      rw [hback.stats.pinfres] at h1
      rw [tolFor, if_neg (by decide)]
      obtain ⟨h2, -⟩ | ⟨h2, -⟩ := h2
      · exact hlift (le_max_right _ _) (hP' h1 h2)
      · exact hlift (le_max_left _ _) (hP' h1 h2)
  · rintro (rfl | rfl)
    · obtain ⟨p, tau, kap, h1, -, -, h2, -⟩ := htests.2.2.1 rfl
      rw [hft] at h2
      rw [hback.stats.dinfres] at h1
      rw [tolFor, if_pos (by decide)]
      exact hD' h1 h2
    · obtain ⟨p, tau, kap, h1, -, -, h2, -⟩ := htests.2.2.2 rfl
      rw [hfi] at h2
      rw [hback.stats.dinfres] at h1
      rw [tolFor, if_neg (by decide)]
      exact hliftD (le_max_right _ _) (hD' h1 h2)

/-! ### Concrete cases -/

/-- a workspace with the problem `oneVar` and the iterate `oneVarIter 2` has the documented statistics: the gap is 4 -/
example (w : Work XR) (hn : w.n = 1) (hm : w.m = 1) (hp : w.p = 0) (hA : w.A = none)
    (hG : w.G = { jc := ofList [0, 1], ir := ofList [0], pr := ofList [fin (-1)], n := 1, m := 1, nnz := 1 })
    (hc : w.c = ofList [fin 1]) (hb : w.b = ofList []) (hh : w.h = ofList [fin (-1)])
    (hx : w.x = ofList [fin 4]) (hy : w.y = ofList []) (hz : w.z = ofList [fin 2]) (hs : w.s = ofList [fin 2])
    (hk : w.kap = some (fin 0)) (ht : w.tau = some (fin 2)) (h1 : w.rx.size = 1) (h3 : w.rz.size = 1)
    (h4 : w.resx0 = some (fin 1)) (h5 : w.resy0 = some (fin 1)) (h6 : w.resz0 = some (fin 1))
    (h7 : w.stgs.reltol = fin 0.5) :
    Ok (passHead w 3) fun w' => w'.info.gap = some (fin 4) ∧ w'.info.pcost = some (fin 2) := by
  have one : ∀ {b : Buf XR} {a : ℝ}, b = ofList [fin a] → HoldsD IsFin b 1 (fun _ => a) := by
    rintro b a rfl
    exact ⟨rfl, fun i hi => by
      obtain rfl : i = 0 := by omega
      exact ⟨_, rfl, rfl⟩⟩
  have zero : ∀ {b : Buf XR} {f : Nat → ℝ}, b = ofList [] → HoldsD IsFin b 0 f := by
    rintro b f rfl
    exact ⟨rfl, fun i hi => by cases hi⟩
  refine (C43_formulas (T := oneVar) (P := oneVarDat) (v := oneVarIter 2) (r := (1, 1, 1)) (reltol := 0.5)
    ⟨hn, hm, hp, ?_, ?_, one hc, zero hb, one hh⟩
    ⟨?_, zero hy, one hz, one hs, ⟨_, hk, rfl⟩, ⟨_, ht, rfl⟩⟩ ⟨h1, ?_, h3⟩ h4 h5 h6 ?_ h7 3).mono
    fun w' h => ⟨?_, ?_⟩
  · unfold RepAD
    rw [if_neg (by decide)]
    exact ⟨hA, rfl⟩
  · rw [hG]
    exact
      { m_eq := rfl
        n_eq := rfl
        nnz_eq := rfl
        hjc := (ofList_holds [0, 1]).congr fun i hi => by
          match i with
          | 0 => rfl
          | 1 => rfl
          | i + 2 => simp at hi
        hir := (ofList_holds [0]).congr fun i hi => by
          obtain rfl : i = 0 := by simpa using hi
          rfl
        hpr := one rfl
        ok := ⟨rfl, fun j _ => Nat.le_succ j, fun k _ => Nat.one_pos⟩ }
  · rw [show (oneVarIter 2).x = fun _ => (4 : ℝ) from by funext i; norm_num [oneVarIter]]
    exact one hx
  · intro h
    cases h
  · norm_num [oneVarIter]
  · rw [h.gap]; norm_num [ip, oneVar, oneVarIter]
  · rw [h.pcost]; norm_num [ip, oneVar, oneVarIter, oneVarDat]

/-- `x ≤ -1` and `-x ≤ -1` -/
def emptyPat : Pat :=
  { n := 1, m := 2, p := 0, hasA := false, jcA := fun _ => 0, irA := fun _ => 0, jcG := fun i => 2 * i,
    irG := fun i => i }
noncomputable def emptyDat : Dat :=
  { a := fun _ => 0, g := fun i => if i = 0 then 1 else -1, c := fun _ => 0, b := fun _ => 0, h := fun _ => -1 }
noncomputable def emptyIter : Iter :=
  { x := fun _ => 0, y := fun _ => 0, z := fun _ => 1, s := fun _ => 0, kap := 1, tau := 1e-9 }

/-- `z = (1, 1)` is a certificate -/
example : PrimalCert emptyPat emptyDat emptyIter 1e-8 1e-8 := by
  refine ⟨?_, ?_⟩
  · have h2 : Real.sqrt 2 ≤ 2 := by
      rw [Real.sqrt_le_left (by norm_num)]
      norm_num
    have : max (0 + Real.sqrt 2) 1 ≤ 2 := by
      rw [zero_add]
      exact max_le h2 (by norm_num)
    simp [ip, nrm, sum_range_succ, emptyPat, emptyDat, emptyIter]
    norm_num at this ⊢
    nlinarith
  · have h0 : ∀ a : ℝ, 0 < 1e-8 * max a 1 := fun a =>
      mul_pos (by norm_num) (lt_of_lt_of_le one_pos (le_max_right _ _))
    refine lt_of_le_of_lt (le_of_eq ?_) (h0 _)
    simp [emptyPat, emptyDat, emptyIter, nrm, adj, Dat.A, Dat.G, dense, sum_range_succ, Finset.sum_Ico_eq_sum_range]

end Ecos.StatProps
