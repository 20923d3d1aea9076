import Verif.Props.Amd
import Verif.Props.EndToEnd
import Verif.Props.Repeat

/-!
# Set-up with AMD, from the caller's arrays to the answer (C54)

The theorems about the workspace (C46 – C49) take the ordering routine as a parameter and ask of it that what it returns is a permutation.
Here the routine is `AMD_order`, and the theorems hold without any such condition.
-/
namespace Ecos.Asm

open Finset Ecos.Fact Ecos.StatProps XR

set_option linter.unusedSectionVars false

/-- number of rows of the KKT matrix -/
def dimK (T : Pat) (S : Shape) : Nat := T.n + T.p + T.m + 2 * S.ns

/-- number of entries of its upper triangle -/
def nnzK (T : Pat) (S : Shape) : Nat := T.n + T.p + T.nA + T.nG + S.l + ∑ i ∈ range S.ns, (3 * S.q i + 1) + 6 * S.ne

section generic
variable {F : Type} [Zero F] [One F] [Add F] [Sub F] [Mul F] [Div F] [Neg F] [OfScientific F]
  [IntCast F] [PFloat F] [HasInf F] {T : Pat} {S : Shape} {dense0 : Nat → Int} {imax : Int}

/-- the workspace AMD asks for -/
noncomputable def needK (F : Type) [Zero F] [One F] [Add F] [Sub F] [Mul F] [Div F] [Neg F] [OfScientific F] [IntCast F] [PFloat F]
    (T : Pat) (S : Shape) : Int := amdNeed (partsOf T S (fun _ => (0 : F)) fun _ => 0)

/-- it is at most this -/
theorem C54_size (hP : PatGood T S) : needK F T S ≤ 2 * nnzK T S + 2 * nnzK T S / 5 + 7 * dimK T S := by
  have h := amdNeed_le (F := F) (a := fun _ => 0) (g := fun _ => 0) hP
  have hN : (partsOf (F := F) T S (fun _ => 0) fun _ => 0).N = dimK T S := by
    show T.n + T.p + S.x.m = _
    rw [Shape.x_m, hP.m]
    unfold dimK
    omega
  have ho : (partsOf (F := F) T S (fun _ => 0) fun _ => 0).off (partsOf (F := F) T S (fun _ => 0) fun _ => 0).N = nnzK T S := by
    rw [Parts.off_N hP.parts]
    show T.n + T.p + csStart T.irA T.nA T.p + csStart T.irG T.nG S.m + S.l + _ + _ = _
    rw [hP.top_A, hP.m, hP.top_G]
    rfl
  rw [ho, hN] at h
  exact h

/-- **C54** `ECOS_setup`, AMD included, runs without undefined behaviour for every consistent problem and all values. It returns a workspace
exactly if no column of `A` and `G` holds a row twice and AMD's workspace is not too large for its integer type. -/
theorem C54_setup (hP : PatGood T S) (himax : 0 < imax) {G3 A3 : Mat3 F} {qb : Buf Nat} {cb hb bb : Buf F} {a0 g0 c0 h0 b0 : Nat → F}
    (hin : Given T S G3 A3 qb cb hb bb a0 g0 c0 h0 b0) :
    Ok (ecosSetupAmd dense0 imax T.n T.m T.p S.l S.ns qb S.ne G3 A3 cb hb bb) fun r =>
      match r with
      | .dims => False
      | .amd _ _ _ _ => ¬ (PatNoDup T ∧ needK F T S < imax)
      | .ok w => (PatNoDup T ∧ needK F T S < imax) ∧ Reach (amdOrder dense0 imax) T S w := by
  obtain ⟨e, hnull⟩ := ecosSetupAmd_core (dense0 := dense0) (imax := imax) hP hin (fun _ => 0) (fun _ => 0) himax
  have hs := (ecosSetup_ok (amd := amdOrder dense0 imax) amdOrder_perm hP hin eqTrue).self
  rw [← e] at hs
  refine hs.mono ?_
  rintro r ⟨⟨a, g, x, y, z, -, -, -, -, -, -, h⟩, er⟩
  cases r with
  | dims => exact h
  | amd A G b' h' => exact hnull.1 ⟨A, G, b', h', er⟩
  | ok w =>
    refine ⟨?_, .setup hin (by rw [← e]; exact er)⟩
    by_contra hc
    obtain ⟨A, G, b, h, e'⟩ := hnull.2 hc
    rw [er] at e'
    cases e'

/-- **C54, it succeeds** without duplicates, and unless the problem is so large that indices come near the end of the integer type, set-up
returns a workspace -/
theorem C54_succeeds (hP : PatGood T S) (hd : PatNoDup T) (hs : 2 * (nnzK T S : Int) + 2 * nnzK T S / 5 + 7 * dimK T S < imax)
    {G3 A3 : Mat3 F} {qb : Buf Nat} {cb hb bb : Buf F} {a0 g0 c0 h0 b0 : Nat → F} (hin : Given T S G3 A3 qb cb hb bb a0 g0 c0 h0 b0) :
    ∃ w, ecosSetupAmd dense0 imax T.n T.m T.p S.l S.ns qb S.ne G3 A3 cb hb bb = .ok (.ok w) ∧ Reach (amdOrder dense0 imax) T S w := by
  obtain ⟨r, er, h⟩ := (Ok.def _ _).1 (C54_setup (F := F) (dense0 := dense0) (imax := imax) hP (by omega) hin)
  cases r with
  | dims => exact h.elim
  | amd A G b' h' => exact (h ⟨hd, lt_of_le_of_lt (C54_size hP) hs⟩).elim
  | ok w => exact ⟨w, er, h.2⟩

/-- **C54, duplicates** if a column of `A` or `G` holds a row twice, set-up returns a null pointer, and leaves the caller's matrices and
right-hand sides as the equilibration has made them: `h` divided by row factors `z`, `b` by row factors `y`. There is no workspace by which
they could be restored. -/
theorem C54_duplicates (hP : PatGood T S) (hd : ¬ PatNoDup T) (himax : 0 < imax) {G3 A3 : Mat3 F} {qb : Buf Nat} {cb hb bb : Buf F}
    {a0 g0 c0 h0 b0 : Nat → F} (hin : Given T S G3 A3 qb cb hb bb a0 g0 c0 h0 b0) :
    ∃ A G b h, ecosSetupAmd dense0 imax T.n T.m T.p S.l S.ns qb S.ne G3 A3 cb hb bb = .ok (.amd A G b h) ∧
      ∃ (a g y z : Nat → F), RepA A T a ∧ Rep G T.m T.n T.jcG T.irG g ∧ Holds b T.p (fun i => b0 i / y i) ∧ Holds h T.m (fun i => h0 i / z i) := by
  obtain ⟨e, hnull⟩ := ecosSetupAmd_core (dense0 := dense0) (imax := imax) hP hin (fun _ => 0) (fun _ => 0) himax
  obtain ⟨A, G, b, h, er⟩ := hnull.2 fun q => hd q.1
  have hs := ecosSetup_ok (amd := amdOrder dense0 imax) amdOrder_perm hP hin eqTrue
  rw [← e] at hs
  obtain ⟨a, g, x, y, z, -, -, -, -, -, -, h1, h2, h3, h4⟩ := hs.out er
  exact ⟨A, G, b, h, er, a, g, y, z, h1, h2, h3, h4⟩

/-- what set-up returns is a workspace the theorems C46 – C49 are about -/
theorem setup_reach (hP : PatGood T S) (himax : 0 < imax) {G3 A3 : Mat3 F} {qb : Buf Nat} {cb hb bb : Buf F} {a0 g0 c0 h0 b0 : Nat → F}
    (hin : Given T S G3 A3 qb cb hb bb a0 g0 c0 h0 b0) {w : Work F}
    (h : ecosSetupAmd dense0 imax T.n T.m T.p S.l S.ns qb S.ne G3 A3 cb hb bb = .ok (.ok w)) : Reach (amdOrder dense0 imax) T S w := by
  have h' := (ecosSetupAmd_core (dense0 := dense0) (imax := imax) hP hin (fun _ => 0) (fun _ => 0) himax).1
  exact .setup hin (by rw [← h']; exact h)

/-- **C54, safe use** (C46 with AMD) set up, then call what you like as often as you like: no undefined behaviour other than the reading of
unwritten memory that `C46_call` describes -/
theorem C54_history (hP : PatGood T S) (himax : 0 < imax) {G3 A3 : Mat3 F} {qb : Buf Nat} {cb hb bb : Buf F}
    {a0 g0 c0 h0 b0 : Nat → F} (hin : Given T S G3 A3 qb cb hb bb a0 g0 c0 h0 b0) (os : List (Call F)) (ho : ∀ o ∈ os, o.Valid T) :
    Runs (· = .uninit) (do
      let r ← ecosSetupAmd dense0 imax T.n T.m T.p S.l S.ns qb S.ne G3 A3 cb hb bb
      match r with
      | .ok w => do
        let w ← calls w os
        pure (some w)
      | _ => pure none) fun r => ∀ w, r = some w → Reach (amdOrder dense0 imax) T S w := by
  refine Runs.bind (C54_setup hP himax hin).runs ?_
  intro r hr
  cases r with
  | dims => exact hr.elim
  | amd A G b h =>
    dsimp only
    rw [Runs_pure]
    intro w e
    cases e
  | ok w =>
    dsimp only
    refine Runs.bind (C46_history amdOrder_perm hP os hr.2 ho) fun w' hw' => ?_
    rw [Runs_pure]
    intro w'' e
    cases e
    exact hw'

end generic

variable {T : Pat} {S : Shape} {dense0 : Nat → Int} {imax : Int}

/-- **C54, optimal** (C49 with AMD) -/
theorem C54_optimal (hP : PatGood T S) {w w' : Work XR} {P : Dat} (hs : Session (amdOrder dense0 imax) T S w P) {arrives : Nat → Bool}
    {sig sig' : Sig} {code : Int} (h : ecosSolve arrives w sig = .ok (w', sig', code)) (hcode : code = 0 ∨ (code = 10 ∧ 0 < w'.info.iter))
    {ft at' rt rt0 : ℝ} (htol : TolsAre w.stgs code ft at' rt) (hrt : w.stgs.reltol = fin rt0) {x y z s : Nat → ℝ} {t : ℝ}
    (hr : Returned w' T x y z s t) :
    ∃ E, E.Ok S T ∧ FacIs w' T E ∧ Accurate T P E x y z s t ft at' rt ∧ w'.info.pcost = some (fin (ip T.n P.c x)) ∧
      w'.info.dcost = some (fin (-ip T.p P.b y - ip T.m P.h z)) :=
  C49_optimal amdOrder_perm hP hs h hcode htol hrt hr

/-- **C54, infeasible** (C49 with AMD) -/
theorem C54_infeasible (hP : PatGood T S) {w w' : Work XR} {P : Dat} (hs : Session (amdOrder dense0 imax) T S w P) {arrives : Nat → Bool}
    {sig sig' : Sig} {code : Int} (h : ecosSolve arrives w sig = .ok (w', sig', code))
    (hcode : code = 1 ∨ code = 2 ∨ ((code = 11 ∨ code = 12) ∧ 0 < w'.info.iter)) {rt ft fi : ℝ} (hrt : w.stgs.reltol = fin rt)
    (hft : w.stgs.feastol = fin ft) (hfi : w.stgs.feastolInacc = fin fi) {x y z s : Nat → ℝ} {t : ℝ} (hr : Returned w' T x y z s t) :
    ∃ E, E.Ok S T ∧ FacIs w' T E ∧ (code = 1 ∨ code = 11 → UserPrimalCert T P E y z t rt (tolFor code ft fi)) ∧
      (code = 2 ∨ code = 12 → UserDualCert T P E x s t rt (tolFor code ft fi)) :=
  C49_infeasible amdOrder_perm hP hs h hcode hrt hft hfi hr

/-! ### Examples -/

theorem exPat5_noDup : PatNoDup exPat5 := by
  refine ⟨fun _ => ?_, ?_⟩ <;> intro c hc k l h1 h2 h3 <;> have hc' : c < 2 := hc <;>
    obtain rfl | rfl : c = 0 ∨ c = 1 := by omega
  · simp [exPat5] at h1 h2 h3; omega
  · simp [exPat5] at h1 h2 h3; omega
  · have h3' : l < 3 := h3
    have : (k = 0 ∧ l = 1) ∨ (k = 0 ∧ l = 2) ∨ (k = 1 ∧ l = 2) := by omega
    rcases this with ⟨rfl, rfl⟩ | ⟨rfl, rfl⟩ | ⟨rfl, rfl⟩ <;> decide
  · have h3' : l < 5 := h3
    have h1' : 3 ≤ k := h1
    have : k = 3 ∧ l = 4 := by omega
    obtain ⟨rfl, rfl⟩ := this
    decide

/-- the problem of the examples of C46, with all three kinds of cones -/
example : ∃ w : Work Fx, ecosSetupAmd (fun _ => 40) 2147483647 2 7 1 1 1 (ofList [3]) 1
    ⟨some (ofList [-1.0, 2.0, 1.0, 3.0, -4.0]), some (ofList [0, 3, 5]), some (ofList [0, 1, 4, 2, 6])⟩
    ⟨some (ofList [1.0, 1.0]), some (ofList [0, 1, 2]), some (ofList [0, 0])⟩ (ofList [1.0, 1.0])
    (ofList [0.0, 1.0, 0.0, 0.0, 0.0, 1.0, 2.0]) (ofList [1.0]) = .ok (.ok w) ∧
    Reach (amdOrder (fun _ => 40) 2147483647) exPat5 exShape5 w :=
  C54_succeeds (imax := 2147483647) exPat5_good exPat5_noDup (by simp [nnzK, dimK, exPat5, exShape5, Pat.nA, Pat.nG]) (exGiven6 _ _ _ _ _ rfl rfl rfl rfl rfl)

/-- an LP with one row, given twice in the same column: the answer is a null pointer, and the caller's `G` has been changed -/
theorem C54_dup_example : (match ecosSetupAmd (F := Fx) (fun _ => 40) 2147483647 1 1 0 1 0 #[] 0
      ⟨some (ofList [4.0, 4.0]), some (ofList [0, 2]), some (ofList [0, 0])⟩ ⟨none, none, none⟩ (ofList [1.0]) (ofList [1.0]) #[] with
    | .ok (.amd _ G _ _) => G.pr != ofList [4.0, 4.0]
    | _ => false) = true := by
  decide +kernel

end Ecos.Asm
