import Verif.Model.BB
import Verif.Core.Runs

/-!
# Vocabulary for the mixed-integer search

* `Par`: the data that stays fixed during a search.
* `EWF`: the continuous workspace holds this data.
* `HRows`: the right-hand side imposes given node bounds.
* `Contract`: what is assumed of the continuous solver (nothing about optimality).
* `Incumbent`: what the stored solution is.
* `Rep`: memory layout of the search tree.
-/
namespace Ecos
namespace BB

section generic
variable {F : Type} [Zero F] [One F] [Add F] [Sub F] [Mul F] [Div F] [Neg F] [OfScientific F]
  [IntCast F] [PFloat F] [HasInf F] {W I : Type}

/-- exit codes of the continuous solver after which its point is used: optimal, inaccurate optimal, iteration limit,
numerical problems -/
def Usable (code : Int) : Prop := code = 0 ∨ code = 10 ∨ code = -1 ∨ code = -2

instance (code : Int) : Decidable (Usable code) := by unfold Usable; infer_instance

theorem accepted_iff {code : Int} : accepted code = true ↔ Usable code := by
  simp only [accepted, Usable, Bool.or_eq_true, decide_eq_true_eq, or_assoc]

/-- the value computed by `eddot`, with its order of additions -/
def dotF (n : Nat) (f g : Nat → F) : F :=
  match n with
  | 0 => 0
  | k + 1 => dotF k f g + f k * g k

/-- Data that stays fixed during a search: sizes, declared variables, the user's part of the right-hand side (as
stored, i.e. equilibrated), row scalings, settings; the costs that may be found in the workspace (one vector, if the solver restores the
costs exactly), and what is known of the rest of the workspace. -/
structure Par (F W : Type) where
  nb : Nat
  ni : Nat
  n : Nat
  p : Nat
  m : Nat
  bv : Nat → Nat
  iv : Nat → Nat
  cs : (Nat → F) → Prop
  hu : Nat → F
  geq : Nat → F
  stgs : Stgs F
  ok : W → Prop

/-- a bound that is written for a boolean variable, or at set-up -/
def BoolBnd (v : F) : Prop := v = 0 ∨ v = 1 ∨ v = -1 ∨ v = ((MAX_FLOAT_INT : Int) : F)

/-- The continuous workspace holds the data of `P` and right-hand side `hf`. -/
structure EWF (P : Par F W) (e : EW F W I) (hf : Nat → F) : Prop where
  hn : e.n = P.n
  hp : e.p = P.p
  hm : e.m = P.m
  hc : ∃ cf, P.cs cf ∧ Holds e.c P.n cf
  hh : Holds e.h P.m hf
  hg : Holds e.gequil P.m P.geq
  sx : e.x.size = P.n
  sy : e.y.size = P.p
  sz : e.z.size = P.m
  ss : e.s.size = P.m
  huser : ∀ r, 2 * (P.nb + P.ni) ≤ r → r < P.m → hf r = P.hu r
  hbnd : ∀ r, r < 2 * P.nb → ∃ v, BoolBnd v ∧ hf r = v / P.geq r
  hok : P.ok e.hid

/-- Rows `2i`, `2i+1` of the right-hand side say `-x ≤ a`, `x ≤ b`. -/
def rowsAre (P : Par F W) (hf : Nat → F) (i : Nat) (a b : F) : Prop :=
  hf (2 * i) = a / P.geq (2 * i) ∧ hf (2 * i + 1) = b / P.geq (2 * i + 1)

/-- The right-hand side imposes the bounds of a node: booleans `bid i` (1, 0, or -1 for free), integer
bounds `-iid (2i) ≤ x ≤ iid (2i+1)`. -/
structure HRows (P : Par F W) (hf : Nat → F) (bid : Nat → Int) (iid : Nat → F) : Prop where
  one : ∀ i, i < P.nb → bid i = 1 → rowsAre P hf i (-1) 1
  zero : ∀ i, i < P.nb → bid i = 0 → rowsAre P hf i 0 0
  star : ∀ i, i < P.nb → bid i = -1 → rowsAre P hf i 0 1
  int : ∀ i, i < P.ni → rowsAre P hf (i + P.nb) (iid (2 * i)) (iid (2 * i + 1))

/-- `xf` is the point returned with `code` by some call of the continuous solver with right-hand side
`hf`. -/
def Solved (P : Par F W) (env : Env F W I) (hf : Nat → F) (code : Int) (xf : Nat → F) : Prop :=
  ∃ e e', EWF P e hf ∧ env.solve e = .ok (e', code) ∧ Holds e'.x P.n xf

/-- Same, for a right-hand side that imposes the node bounds `bid`, `iid`. -/
def Trial (P : Par F W) (env : Env F W I) (bid : Nat → Int) (iid : Nat → F) (code : Int)
    (xf : Nat → F) : Prop :=
  ∃ hf, HRows P hf bid iid ∧ Solved P env hf code xf

/-- an integer or the negative of one -/
def IntVal (v : F) : Prop := ∃ k : Int, v = (k : F) ∨ v = -(k : F)

/-- the bounds imposed on the integer variables are integers -/
def IntBnd (P : Par F W) (hf : Nat → F) : Prop :=
  ∀ r, 2 * P.nb ≤ r → r < 2 * (P.nb + P.ni) → ∃ v, IntVal v ∧ hf r = v / P.geq r

/-- What the search needs of `ECOS_solve` and `rand`: it returns (or fails as `bad` permits), keeps the problem data, fills `x`, and
the values at declared variables lie in the range given by `G`; at boolean variables also in `Gb` when
the solve was accepted and the bounds of a node were imposed. -/
structure Contract (P : Par F W) (env : Env F W I) (G Gb : F → Prop) (bad : UB → Prop) : Prop where
  solve : ∀ e hf, EWF P e hf → IntBnd P hf → Runs bad (env.solve e) fun r => EWF P r.1 hf ∧ ∃ xf,
    Holds r.1.x P.n xf ∧ (∀ i, i < P.nb → G (xf (P.bv i))) ∧ (∀ i, i < P.ni → G (xf (P.iv i)))
  solveB : ∀ bid iid code xf, (∀ i, i < P.nb → bid i = -1 ∨ bid i = 0 ∨ bid i = 1) →
    Trial P env bid iid code xf → accepted code = true → ∀ i, i < P.nb → Gb (xf (P.bv i))
  rand : ∀ k, env.rand k ≤ RAND_MAX

/-- Every declared variable is within the tolerance of an integer. -/
def IntegralX (P : Par F W) (xf : Nat → F) : Prop :=
  (∀ i, i < P.nb → ∃ k : Int, floatEqls (xf (P.bv i)) (k : F) P.stgs.intTol = true) ∧
  (∀ i, i < P.ni → ∃ k : Int, floatEqls (xf (P.iv i)) (k : F) P.stgs.intTol = true)

/-- The right-hand side fixes every declared variable to an integer; `Rb` is what is known about the
rounded booleans. -/
def Fixes (P : Par F W) (Rb : Int → Prop) (hf : Nat → F) : Prop :=
  ∃ bid iid, HRows P hf bid iid ∧ (∀ i, i < P.nb → Rb (bid i)) ∧
    (∀ i, i < P.ni → ∃ k : Int, iid (2 * i) = -(k : F) ∧ iid (2 * i + 1) = (k : F))

/-- The stored solution: all its parts come from one call of the continuous solver on a problem with
node bounds, the stored upper bound is its objective, and either the point is integral and the call, with integer
bounds, was accepted, or the call was optimal with all declared variables fixed to integers. -/
def Incumbent (P : Par F W) (env : Env F W I) (Rb : Int → Prop) (bb : St F W I) (U : F) : Prop :=
  ∃ e e' hf code xf, EWF P e hf ∧ env.solve e = .ok (e', code) ∧ Holds e'.x P.n xf ∧
    bb.x = e'.x ∧ bb.y = e'.y ∧ bb.z = e'.z ∧ bb.s = e'.s ∧ bb.kap = e'.kap ∧ bb.tau = e'.tau ∧
    bb.info = e'.info ∧ (∃ cf, P.cs cf ∧ U = dotF P.n xf cf) ∧
    ((accepted code = true ∧ IntegralX P xf ∧ ∃ bid iid, HRows P hf bid iid ∧
        (∀ i, i < P.nb → bid i = -1 ∨ bid i = 0 ∨ bid i = 1) ∧ ∀ i, i < 2 * P.ni → IntVal (iid i)) ∨
      (code = 0 ∧ Fixes P Rb hf))

/-- contents of the tree arrays -/
structure Gh (F : Type) where
  node : Nat → Node F
  bid : Nat → Int
  iid : Nat → F

/-- boolean row of node `k` -/
def Gh.brow (P : Par F W) (g : Gh F) (k : Nat) : Nat → Int := fun i => g.bid (P.nb * k + i)
/-- integer row of node `k` -/
def Gh.irow (P : Par F W) (g : Gh F) (k : Nat) : Nat → F := fun i => g.iid (P.ni * k * 2 + i)

/-- Layout of the search state. -/
structure Rep (P : Par F W) (bb : St F W I) (g : Gh F) : Prop where
  nb_eq : bb.nb = P.nb
  ni_eq : bb.ni = P.ni
  stgs_eq : bb.stgs = P.stgs
  iter_lt : bb.iter < P.stgs.maxit
  hnodes : Holds bb.nodes P.stgs.maxit g.node
  hbool : HoldsOn bb.boolIds (P.stgs.maxit * P.nb) (fun k => k < P.nb * (bb.iter + 1)) g.bid
  hint : HoldsOn bb.intIds (2 * P.stgs.maxit * P.ni) (fun k => k < P.ni * (bb.iter + 1) * 2) g.iid
  bids : ∀ k, k < P.nb * (bb.iter + 1) → g.bid k = -1 ∨ g.bid k = 0 ∨ g.bid k = 1
  iids : ∀ k, k < P.ni * (bb.iter + 1) * 2 → IntVal (g.iid k)
  hbv : Holds bb.boolVars P.nb P.bv
  hiv : Holds bb.intVars P.ni P.iv
  bv_lt : ∀ i, i < P.nb → P.bv i < P.n
  iv_lt : ∀ i, i < P.ni → P.iv i < P.n
  m_ge : 2 * (P.nb + P.ni) ≤ P.m
  hew : ∃ hf, EWF P bb.ecos hf
  sx : bb.x.size = P.n
  sy : bb.y.size = P.p
  sz : bb.z.size = P.m
  ss : bb.s.size = P.m
  tmpB : bb.tmpBool.size = P.nb
  tmpI : bb.tmpInt.size = 2 * P.ni
  tbB : bb.tbBool.size = P.nb
  tbI : bb.tbInt.size = 2 * P.ni
  pcBS : ∃ f, Holds bb.pcBinSum (2 * P.nb) f
  pcIS : ∃ f, Holds bb.pcIntSum (2 * P.ni) f
  pcBC : ∃ f, Holds bb.pcBinCnt (2 * P.nb) f
  pcIC : ∃ f, Holds bb.pcIntCnt (2 * P.ni) f

/-- The split data of a node is usable: the candidate index is in range, the values can be rounded. -/
structure SplitOk (P : Par F W) (G : F → Prop) (nd : Node F) : Prop where
  lo : 0 ≤ nd.splitIdx
  hi : nd.splitIdx < P.nb + P.ni
  prev : nd.prevSplitIdx < P.nb + P.ni
  val : G nd.splitVal
  pval : G nd.prevSplitVal

/-- State before a search: arrays allocated with the sizes of ecos_bb_preproc.c:236-268, node records
with usable split data (all zero after `calloc`, or left by an earlier search). -/
structure Start (P : Par F W) (G : F → Prop) (bb : St F W I) : Prop where
  nb_eq : bb.nb = P.nb
  ni_eq : bb.ni = P.ni
  stgs_eq : bb.stgs = P.stgs
  maxit_pos : 0 < P.stgs.maxit
  nodes : ∃ nf, Holds bb.nodes P.stgs.maxit nf ∧ ∀ i, i < P.stgs.maxit → SplitOk P G (nf i)
  sbool : bb.boolIds.size = P.stgs.maxit * P.nb
  sint : bb.intIds.size = 2 * P.stgs.maxit * P.ni
  hbv : Holds bb.boolVars P.nb P.bv
  hiv : Holds bb.intVars P.ni P.iv
  bv_lt : ∀ i, i < P.nb → P.bv i < P.n
  iv_lt : ∀ i, i < P.ni → P.iv i < P.n
  m_ge : 2 * (P.nb + P.ni) ≤ P.m
  hew : ∃ hf, EWF P bb.ecos hf
  sx : bb.x.size = P.n
  sy : bb.y.size = P.p
  sz : bb.z.size = P.m
  ss : bb.s.size = P.m
  tmpB : bb.tmpBool.size = P.nb
  tmpI : bb.tmpInt.size = 2 * P.ni
  tbB : bb.tbBool.size = P.nb
  tbI : bb.tbInt.size = 2 * P.ni
  pcBS : ∃ f, Holds bb.pcBinSum (2 * P.nb) f
  pcIS : ∃ f, Holds bb.pcIntSum (2 * P.ni) f
  pcBC : ∃ f, Holds bb.pcBinCnt (2 * P.nb) f
  pcIC : ∃ f, Holds bb.pcIntCnt (2 * P.ni) f

/-- State before a search as far as the root needs it: arrays allocated with the sizes of ecos_bb_preproc.c:236-268 -/
structure Alloc (P : Par F W) (bb : St F W I) : Prop where
  nb_eq : bb.nb = P.nb
  ni_eq : bb.ni = P.ni
  stgs_eq : bb.stgs = P.stgs
  maxit_pos : 0 < P.stgs.maxit
  nodes : ∃ nf, Holds bb.nodes P.stgs.maxit nf
  sbool : bb.boolIds.size = P.stgs.maxit * P.nb
  sint : bb.intIds.size = 2 * P.stgs.maxit * P.ni
  hbv : Holds bb.boolVars P.nb P.bv
  hiv : Holds bb.intVars P.ni P.iv
  bv_lt : ∀ i, i < P.nb → P.bv i < P.n
  iv_lt : ∀ i, i < P.ni → P.iv i < P.n
  m_ge : 2 * (P.nb + P.ni) ≤ P.m
  hew : ∃ hf, EWF P bb.ecos hf
  sx : bb.x.size = P.n
  sy : bb.y.size = P.p
  sz : bb.z.size = P.m
  ss : bb.s.size = P.m
  tmpB : bb.tmpBool.size = P.nb
  tmpI : bb.tmpInt.size = 2 * P.ni
  tbB : bb.tbBool.size = P.nb
  tbI : bb.tbInt.size = 2 * P.ni
  pcBS : ∃ f, Holds bb.pcBinSum (2 * P.nb) f
  pcIS : ∃ f, Holds bb.pcIntSum (2 * P.ni) f
  pcBC : ∃ f, Holds bb.pcBinCnt (2 * P.nb) f
  pcIC : ∃ f, Holds bb.pcIntCnt (2 * P.ni) f

theorem Start.alloc {P : Par F W} {G : F → Prop} {bb : St F W I} (h : Start P G bb) : Alloc P bb :=
  { h with nodes := ⟨h.nodes.choose, h.nodes.choose_spec.1⟩ }

end generic
end BB
end Ecos
