import Verif.Lemmas.BB1

/-! # Branch and bound: strong branching and the choice of a split -/
set_option linter.unusedSectionVars false
set_option linter.unusedSimpArgs false
set_option linter.unusedVariables false

namespace Ecos
namespace BB

variable {F : Type} [Zero F] [One F] [Add F] [Sub F] [Mul F] [Div F] [Neg F] [OfScientific F]
  [IntCast F] [PFloat F] [HasInf F] {W I : Type}

/-- Assumptions of a run: the solver contract, casts are defined on the values that occur (up to the
failures permitted by `bad`). -/
structure Hyp (P : Par F W) (env : Env F W I) (G Gb : F → Prop) (bad : UB → Prop)
    (Rb : Int → Prop) : Prop where
  con : Contract P env G Gb bad
  floor : ∀ y, G y → Runs bad (pfFloor y P.stgs.intTol) (fun _ => True)
  ceil : ∀ y, G y → Runs bad (pfCeil y P.stgs.intTol) (fun _ => True)
  round : ∀ y, G y → Runs bad (pfRound y) (fun _ => True)
  roundb : ∀ y, Gb y → Runs bad (pfRound y) (fun r => Runs bad (castChar r) Rb)
  fuel : P.stgs.strategy = 4 → bad .fuel
  pos : 0 < P.nb + P.ni

/-- facts about `<` used by the search; they hold for IEEE comparison -/
structure LtLaws (F : Type) [PFloat F] [HasInf F] : Prop where
  irrefl : ∀ a : F, lt a a = false
  trans : ∀ a b c : F, lt a b = true → lt b c = true → lt a c = true
  inf_top : ∀ a : F, lt INF a = false

/-- the declared variable with candidate number `i` -/
def vr (P : Par F W) (i : Nat) : Nat := if i < P.nb then P.bv i else P.iv (i - P.nb)

/-- some declared variable is not within the tolerance of its rounding -/
def NonInt (P : Par F W) (xf : Nat → F) : Prop :=
  (∃ i, i < P.nb ∧ ∃ r k, pfRound (xf (P.bv i)) = .ok r ∧ castChar r = .ok k ∧
    floatEqls (xf (P.bv i)) ((k : Int) : F) P.stgs.intTol = false) ∨
  (∃ i, i < P.ni ∧ ∃ r, pfRound (xf (P.iv i)) = .ok r ∧
    floatEqls (xf (P.iv i)) r P.stgs.intTol = false)

/-- The two children of a node: `g'` agrees with the parent row of `g` except for the new bound. -/
def Children (P : Par F W) (cur new : Nat) (g g' : Gh F) : Prop :=
  (∃ j, j < P.nb ∧ (g.node cur).splitIdx = (j : Int) ∧
    (∀ i, i < P.nb → g'.brow P cur i = upd (g.brow P cur) j 0 i) ∧
    (∀ i, i < 2 * P.ni → g'.irow P cur i = g.irow P cur i) ∧
    (∀ i, i < P.nb → g'.brow P new i = upd (g.brow P cur) j 1 i) ∧
    (∀ i, i < 2 * P.ni → g'.irow P new i = g.irow P cur i)) ∨
  (∃ j fl ce, j < P.ni ∧ (g.node cur).splitIdx = ((P.nb + j : Nat) : Int) ∧
    pfFloor (g.node cur).splitVal P.stgs.intTol = .ok fl ∧
    pfCeil (g.node cur).splitVal P.stgs.intTol = .ok ce ∧
    (∀ i, i < P.nb → g'.brow P cur i = g.brow P cur i) ∧
    (∀ i, i < 2 * P.ni → g'.irow P cur i = upd (g.irow P cur) (2 * j + 1) fl i) ∧
    (∀ i, i < P.nb → g'.brow P new i = g.brow P cur i) ∧
    (∀ i, i < 2 * P.ni → g'.irow P new i = upd (g.irow P cur) (2 * j) (-ce) i))

/-- strategies that choose by the point of the node alone: most infeasible, pseudocost, random -/
def Plain (P : Par F W) : Prop := P.stgs.strategy = 0 ∨ P.stgs.strategy = 2 ∨ P.stgs.strategy = 4

/-- how far candidate `i` with value `y` is from being undecided -/
def ambF (P : Par F W) (i : Nat) (y : F) : M F :=
  if i < P.nb then pure (abs2 (y - 0.5))
  else do
    let fl ← pfFloor y P.stgs.intTol
    pure (abs2 (y - fl - 0.5))

/-- the choice `si`, `sv` made at a node with the point `xf`; the second cases are those where nothing was chosen -/
def SplitBy (P : Par F W) (xf : Nat → F) (si : Int) (sv : F) : Prop :=
  (P.stgs.strategy = 0 ∧
    ((∃ i a, i < P.nb + P.ni ∧ si = (i : Int) ∧ sv = xf (vr P i) ∧ ambF P i (xf (vr P i)) = .ok a ∧
        ∀ j, j < P.nb + P.ni → ∃ a', ambF P j (xf (vr P j)) = .ok a' ∧ lt a' a = false) ∨
      ∀ j, j < P.nb + P.ni → ∃ a', ambF P j (xf (vr P j)) = .ok a' ∧ lt a' 1 = false)) ∨
  (P.stgs.strategy = 2 ∧
    ((∃ i, i < P.nb + P.ni ∧ si = (i : Int) ∧ sv = xf (vr P i) ∧ isIntegral P.stgs.intTol (xf (vr P i)) = .ok false) ∨
      ∀ j, j < P.nb + P.ni → isIntegral P.stgs.intTol (xf (vr P j)) = .ok true ∨
        ∃ a b : F, lt (-(INF : F)) (getScore a b) = false)) ∨
  (P.stgs.strategy = 4 ∧
    ∃ i, i < P.nb + P.ni ∧ si = (i : Int) ∧ sv = xf (vr P i) ∧ isIntegral P.stgs.intTol (xf (vr P i)) = .ok false)

/-- the choice at `node`: no bounds changed, and the split belongs to the point -/
def Sel (P : Par F W) (xf : Nat → F) (node : Nat) (g g' : Gh F) : Prop :=
  g'.bid = g.bid ∧ g'.iid = g.iid ∧ SplitBy P xf (g'.node node).splitIdx (g'.node node).splitVal

/-- one bound of integer variable `j` was moved to the next integer beside `v` -/
def IntFix (P : Par F W) (v : F) (f f' : Nat → F) (j : Nat) : Prop :=
  (∃ ce, pfCeil v P.stgs.intTol = .ok ce ∧ f' (2 * j) = -ce ∧ f' (2 * j + 1) = f (2 * j + 1)) ∨
  (∃ fl, pfFloor v P.stgs.intTol = .ok fl ∧ f' (2 * j + 1) = fl ∧ f' (2 * j) = f (2 * j))

/-- what trying candidate `i` with the value `v` may do to the bounds and to the split of `node` -/
structure Pinned (P : Par F W) (node i : Nat) (v : F) (g g' : Gh F) : Prop where
  bool : ∀ j, j < P.nb → g'.brow P node j = g.brow P node j ∨
    (j = i ∧ (g'.brow P node j = 0 ∨ g'.brow P node j = 1))
  int : ∀ j, j < P.ni → (g'.irow P node (2 * j) = g.irow P node (2 * j) ∧ g'.irow P node (2 * j + 1) = g.irow P node (2 * j + 1)) ∨
    (P.nb + j = i ∧ IntFix P v (g.irow P node) (g'.irow P node) j)
  split : ((g'.node node).splitIdx = (g.node node).splitIdx ∧ (g'.node node).splitVal = (g.node node).splitVal) ∨
    ((g'.node node).splitIdx = (i : Int) ∧ (g'.node node).splitVal = v)

/-- the choice of strong branching at `node`: the split is on a candidate that is not integral at the point, and of the bounds only those
of such candidates have been tightened -/
structure StrongBy (P : Par F W) (xf : Nat → F) (node : Nat) (g g' : Gh F) : Prop where
  bool : ∀ j, j < P.nb → g'.brow P node j = g.brow P node j ∨
    (isIntegral P.stgs.intTol (xf (P.bv j)) = .ok false ∧ (g'.brow P node j = 0 ∨ g'.brow P node j = 1))
  int : ∀ j, j < P.ni → (g'.irow P node (2 * j) = g.irow P node (2 * j) ∧ g'.irow P node (2 * j + 1) = g.irow P node (2 * j + 1)) ∨
    (isIntegral P.stgs.intTol (xf (P.iv j)) = .ok false ∧ IntFix P (xf (P.iv j)) (g.irow P node) (g'.irow P node) j)
  split : ∃ i, i < P.nb + P.ni ∧ (g'.node node).splitIdx = (i : Int) ∧ (g'.node node).splitVal = xf (vr P i) ∧
    isIntegral P.stgs.intTol (xf (vr P i)) = .ok false

/-- the strategies whose choice is followed: all but reliability branching -/
def Treated (P : Par F W) : Prop := Plain P ∨ P.stgs.strategy = 1

/-- the choice made at `node` with the point `xf` -/
def Chosen (P : Par F W) (xf : Nat → F) (node : Nat) (g g' : Gh F) : Prop :=
  (Plain P ∧ Sel P xf node g g') ∨ (P.stgs.strategy = 1 ∧ StrongBy P xf node g g')

/-- node `k` was solved with the bounds it had in `g`, the point was accepted and not integral, and the split and the bounds in `g'` are
the choice made with this point -/
def Settled (P : Par F W) (env : Env F W I) (k : Nat) (g g' : Gh F) : Prop :=
  ∃ code xf, Trial P env (g.brow P k) (g.irow P k) code xf ∧ accepted code = true ∧ NonInt P xf ∧ Chosen P xf k g g'

/-- A point followed through the search: `box` says that it lies in the box of a node, `low L` that
`L` is not above its cost, `cut U` that `U` is at least as good as its cost. `tree` is a statement about
the boxes of the nodes up to `k`, of which those in `D` have their split chosen; kept by the choice at a node and by its split (if `live`). -/
structure Pt (P : Par F W) (env : Env F W I) (G : F → Prop) where
  box : (Nat → Int) → (Nat → F) → Prop
  low : F → Prop
  cut : F → Prop
  num : F → Prop
  trial : ∀ {b i code xf cf}, box b i → Trial P env b i code xf → P.cs cf →
    accepted code = true ∧ low (dotF P.n xf cf)
  trialNum : ∀ {b i code xf cf}, Trial P env b i code xf → P.cs cf → num (dotF P.n xf cf)
  splitB : ∀ {b i j}, box b i → j < P.nb → box (upd b j 0) i ∨ box (upd b j 1) i
  splitI : ∀ {b i j y fl ce}, box b i → j < P.ni → G y → pfFloor y P.stgs.intTol = .ok fl →
    pfCeil y P.stgs.intTol = .ok ce → box b (upd i (2 * j + 1) fl) ∨ box b (upd i (2 * j) (-ce))
  congr : ∀ {b i b' i'}, box b i → (∀ j, j < P.nb → b' j = b j) → (∀ j, j < 2 * P.ni → i' j = i j) →
    box b' i'
  cut_mono : ∀ {U U'}, lt U' U = true → cut U → cut U'
  low_cut : ∀ {L U}, low L → lt U L = true → cut U
  low_cut' : ∀ {L U}, low L → num U → lt L U = false → cut U
  low_self : ∀ {L}, low L → cut L
  low_inf : ∀ {L}, low L → lt L INF = true
  cut_inf : ¬ cut INF
  low_min : ∀ {a b}, num a → num b → low a ∨ low b → low (if lt a b then a else b)
  num_min : ∀ {a b}, num a → num b → num (if lt a b then a else b)
  num_inf : num INF
  live : Prop
  treated : live → Treated P
  gap : ∀ {y}, live → num y → lt P.stgs.absTol (y - y) = false
  tree : Nat → Gh F → (Nat → Prop) → Prop
  tree_root : ∀ {g}, live → (∀ i, i < P.nb → g.brow P 0 i = MI_STAR) →
    (∀ i, i < 2 * P.ni → g.irow P 0 i = ((MAX_FLOAT_INT : Int) : F)) → tree 0 g (fun _ => False)
  tree_congr : ∀ {k g g'} {D : Nat → Prop}, live → tree k g D → (∀ c j, c ≤ k → j < P.nb → g'.brow P c j = g.brow P c j) →
    (∀ c j, c ≤ k → j < 2 * P.ni → g'.irow P c j = g.irow P c j) →
    (∀ c, c ≤ k → D c → g'.node c = g.node c) → tree k g' D
  tree_split : ∀ {k c g g'} {D : Nat → Prop}, live → tree k g D → c ≤ k → D c → Children P c (k + 1) g g' →
    (∀ d j, d ≤ k → d ≠ c → j < P.nb → g'.brow P d j = g.brow P d j) →
    (∀ d j, d ≤ k → d ≠ c → j < 2 * P.ni → g'.irow P d j = g.irow P d j) →
    (∀ d, d ≤ k → d ≠ c → g'.node d = g.node d) → tree (k + 1) g' (fun d => D d ∧ d ≠ c ∧ d ≠ k + 1)
  tree_bound : ∀ {k c g g'} {D : Nat → Prop}, live → tree k g D → c ≤ k →
    (∀ j, j < P.nb → g.brow P c j = -1 ∨ g.brow P c j = 0 ∨ g.brow P c j = 1) → Settled P env c g g' →
    (∀ d j, d ≤ k → d ≠ c → j < P.nb → g'.brow P d j = g.brow P d j) →
    (∀ d j, d ≤ k → d ≠ c → j < 2 * P.ni → g'.irow P d j = g.irow P d j) →
    (∀ d, d ≤ k → d ≠ c → g'.node d = g.node d) → tree k g' (fun d => D d ∨ d = c)

theorem accepted_not_infeasible {k : Int} (h : accepted k = true) : isInfeasible k = false := by
  simp only [accepted, Bool.or_eq_true, decide_eq_true_eq] at h
  simp only [isInfeasible, Bool.or_eq_false_iff, decide_eq_false_iff_not]
  omega

/-- split data of a node, allowing "none chosen" -/
def WOk (P : Par F W) (G : F → Prop) (nd : Node F) : Prop :=
  -1 ≤ nd.splitIdx ∧ nd.splitIdx < P.nb + P.ni ∧ G nd.splitVal

variable {P : Par F W} {env : Env F W I} {G Gb : F → Prop} {bad : UB → Prop} {Rb : Int → Prop}

/-- What the choice of a split may do to the state. -/
structure Step (T : Pt P env G) (node : Nat) (bb : St F W I) (g : Gh F) (bb' : St F W I)
    (g' : Gh F) : Prop where
  rep : Rep P bb' g'
  same : Same bb bb'
  tmpB : bb'.tmpBool = bb.tmpBool
  tmpI : bb'.tmpInt = bb.tmpInt
  others : ∀ k, k ≠ node → g'.node k = g.node k
  brows : ∀ k i, k ≠ node → i < P.nb → g'.brow P k i = g.brow P k i
  irows : ∀ k i, k ≠ node → i < 2 * P.ni → g'.irow P k i = g.irow P k i
  fields : ∃ si sv, g'.node node = { g.node node with splitIdx := si, splitVal := sv }
  keep : T.box (g.brow P node) (g.irow P node) →
    T.box (g'.brow P node) (g'.irow P node) ∨ T.cut bb.globalU
  wok : WOk P G (g.node node) → WOk P G (g'.node node)

variable {T : Pt P env G} {node : Nat} {bb bb1 bb2 bb' : St F W I} {g g1 g2 g' : Gh F}

theorem Step.refl (h : Rep P bb g) : Step T node bb g bb g where
  rep := h
  same := Same.refl _
  tmpB := rfl
  tmpI := rfl
  others := fun _ _ => rfl
  brows := fun _ _ _ _ => rfl
  irows := fun _ _ _ _ => rfl
  fields := ⟨_, _, rfl⟩
  keep := Or.inl
  wok := id

theorem Step.trans (h : Step T node bb g bb1 g1) (h' : Step T node bb1 g1 bb2 g2) :
    Step T node bb g bb2 g2 where
  rep := h'.rep
  same := h.same.trans h'.same
  tmpB := h'.tmpB.trans h.tmpB
  tmpI := h'.tmpI.trans h.tmpI
  others := fun k hk => (h'.others k hk).trans (h.others k hk)
  brows := fun k i hk hi => (h'.brows k i hk hi).trans (h.brows k i hk hi)
  irows := fun k i hk hi => (h'.irows k i hk hi).trans (h.irows k i hk hi)
  fields := by
    obtain ⟨a, b, e⟩ := h.fields
    obtain ⟨a', b', e'⟩ := h'.fields
    exact ⟨a', b', by rw [e', e]⟩
  keep := by
    intro hb
    rcases h.keep hb with hb | hc
    · rcases h'.keep hb with hb | hc
      · exact Or.inl hb
      · exact Or.inr (h.same.gU ▸ hc)
    · exact Or.inr hc
  wok := h'.wok ∘ h.wok

/-- a change that touches neither tree nor frame -/
theorem Step.inert (h' : Rep P bb' g) (hs : Same bb bb')
    (h1 : bb'.tmpBool = bb.tmpBool) (h2 : bb'.tmpInt = bb.tmpInt) : Step T node bb g bb' g where
  rep := h'
  same := hs
  tmpB := h1
  tmpI := h2
  others := fun _ _ => rfl
  brows := fun _ _ _ _ => rfl
  irows := fun _ _ _ _ => rfl
  fields := ⟨_, _, rfl⟩
  keep := Or.inl
  wok := id

/-- the point in the continuous workspace can be rounded -/
def XOk (P : Par F W) (G : F → Prop) (e : EW F W I) : Prop :=
  ∃ xf, Holds e.x P.n xf ∧ (∀ i, i < P.nb → G (xf (P.bv i))) ∧ (∀ i, i < P.ni → G (xf (P.iv i)))

/-- the temporary arrays hold the row of the node -/
structure TB (P : Par F W) (node : Nat) (bb : St F W I) (g : Gh F) : Prop where
  b : Holds bb.tbBool P.nb (g.brow P node)
  i : Holds bb.tbInt (2 * P.ni) (g.irow P node)

theorem calcTmp_ok (C : Contract P env G Gb bad) (h : Rep P bb g) {bf : Nat → Int} {jf : Nat → F}
    (hb : Holds bb.tbBool P.nb bf) (hi : Holds bb.tbInt (2 * P.ni) jf) (hiv : ∀ i, i < 2 * P.ni → IntVal (jf i)) :
    (∃ u, calcTmp env bb = .error u ∧ bad u) ∨
    ∃ e' code xf hf cf, calcTmp env bb = .ok ({ bb with ecos := e' }, dotF P.n xf cf, code) ∧ P.cs cf ∧
      Trial P env bf jf code xf ∧ HRows P hf bf jf ∧ EWF P e' hf ∧
      (∃ e, EWF P e hf ∧ env.solve e = .ok (e', code)) ∧
      Holds e'.x P.n xf ∧ (∀ i, i < P.nb → G (xf (P.bv i))) ∧ (∀ i, i < P.ni → G (xf (P.iv i))) := by
  obtain ⟨bb1, e1, hc⟩ :=
    probSolve_ok C h (bids := bb.tbBool) (boff := 0) (iids := bb.tbInt) (ioff := 0) (bf := bf) (jf := jf)
      (fun i hi => by rw [Nat.zero_add]; exact hb.rd hi)
      (fun j hj => by rw [Nat.zero_add]; exact hi.rd hj) hiv
  unfold calcTmp
  rw [e1, ok_bind_eq]
  rcases hc with ⟨u, e2, hu⟩ | ⟨e', code, xf, hf, e2, ⟨e, he, e3⟩, w, hr, hx, g1, g2⟩
  · rw [e2]
    exact Or.inl ⟨u, rfl, hu⟩
  obtain ⟨cf, hcf, hcost⟩ := cost_ok (bb := { bb with ecos := e' }) w hx rfl
  refine Or.inr ⟨e', code, xf, hf, cf, ?_, hcf, ⟨hf, hr, e, e', he, e3, hx⟩, hr, w, ⟨e, he, e3⟩, hx, g1, g2⟩
  rw [e2, ok_bind_eq]
  simp only
  rw [hcost]
  rfl

theorem memcpy_ok {α : Type} {dst src : Buf α} {off len N : Nat} {f : Nat → α} (hd : dst.size = len)
    (hs : ∀ i, i < len → rd src (off + i) = .ok (f i)) :
    ∃ b, memcpyRow dst src off len = .ok b ∧ Holds b len f := by
  have : Ok (memcpyRow dst src off len) (fun b => Holds b len f) := by
    unfold memcpyRow
    refine loop_ok (fun t b => HoldsOn b len (fun k => k < t) f) (Nat.zero_le _)
      ⟨hd, fun i _ h => absurd h (by omega)⟩ ?_ (fun s hs => hs.full (fun i hi => hi))
    intro t b _ ht hb
    rw [hs t ht, ok_bind_eq]
    refine (hb.wr ht _).mono fun b' hb' => hb'.congr fun j hj hjt => ?_
    by_cases hjt' : j = t
    · subst hjt'; exact ⟨Or.inr rfl, upd_self _ _ _⟩
    · exact ⟨Or.inl (by omega), upd_ne _ _ hjt'⟩
  exact (Ok.def _ _).mp this

theorem initStrong_ok (h : Rep P bb g) (hn : node ≤ bb.iter) :
    ∃ b i, initStrong bb node = .ok { bb with tbBool := b, tbInt := i } ∧
      Rep P { bb with tbBool := b, tbInt := i } g ∧
      TB P node { bb with tbBool := b, tbInt := i } g := by
  unfold initStrong
  obtain ⟨b, e1, hb⟩ := memcpy_ok (N := 0) (dst := bb.tbBool) (src := bb.boolIds) (off := P.nb * node)
    (f := g.brow P node) h.tbB (fun i hi => h.rd_bid hn hi)
  obtain ⟨i, e2, hi⟩ := memcpy_ok (N := 0) (dst := bb.tbInt) (src := bb.intIds) (off := P.ni * node * 2)
    (f := g.irow P node) h.tbI (fun i hi => h.rd_iid hn hi)
  rw [← h.nb_eq] at e1
  rw [← h.ni_eq] at e2
  rw [e1, ok_bind_eq, e2, ok_bind_eq]
  exact ⟨b, i, rfl, { h with tbB := hb.1, tbI := hi.1 }, ⟨hb, hi⟩⟩

/-- node record update that only touches the split fields -/
theorem Step.setNode (h : Rep P bb g) (hn : node < P.stgs.maxit) (f : Node F → Node F)
    (hf : ∀ nd, ∃ si sv, f nd = { nd with splitIdx := si, splitVal := sv })
    (hw : WOk P G (g.node node) → WOk P G (f (g.node node))) :
    ∃ ns, setNode bb (node : Int) f = .ok { bb with nodes := ns } ∧
      Step T node bb g { bb with nodes := ns } { g with node := upd g.node node (f (g.node node)) } := by
  obtain ⟨ns, e, hr⟩ := setNode_ok h hn f
  refine ⟨ns, e, ?_⟩
  exact
    { rep := hr
      same := by constructor <;> rfl
      tmpB := rfl
      tmpI := rfl
      others := fun k hk => upd_ne _ _ hk
      brows := fun _ _ _ _ => rfl
      irows := fun _ _ _ _ => rfl
      fields := by
        obtain ⟨a, b, e⟩ := hf (g.node node)
        exact ⟨a, b, by rw [← e]; exact upd_self _ _ _⟩
      keep := Or.inl
      wok := fun h => by
        show WOk P G (upd g.node node _ node)
        rw [upd_self]; exact hw h }

theorem setSplitIfNone_ok (h : Rep P bb g) (hn : node < P.stgs.maxit) {i : Nat} (hi : i < P.nb + P.ni)
    {v : F} (hv : G v) :
    ∃ ns nd', setSplitIfNone bb node i v = .ok { bb with nodes := ns } ∧
      Step T node bb g { bb with nodes := ns } { g with node := upd g.node node nd' } ∧
      (-1 ≤ (g.node node).splitIdx → 0 ≤ nd'.splitIdx) ∧
      ((nd'.splitIdx = (g.node node).splitIdx ∧ nd'.splitVal = (g.node node).splitVal) ∨ (nd'.splitIdx = (i : Int) ∧ nd'.splitVal = v)) := by
  unfold setSplitIfNone
  obtain ⟨ns, e, hs⟩ := Step.setNode (T := T) h hn
    (fun nd => if nd.splitIdx = -1 then { nd with splitIdx := i, splitVal := v } else nd)
    (fun nd => by
      split
      · exact ⟨_, _, rfl⟩
      · exact ⟨_, _, rfl⟩)
    (fun hw => by
      split
      · exact ⟨by simp only; omega, by simp only; omega, hv⟩
      · exact hw)
  refine ⟨ns, _, e, hs, fun hm => ?_, ?_⟩
  · split
    · simp only; omega
    · omega
  · split
    · exact Or.inr ⟨rfl, rfl⟩
    · exact Or.inl ⟨rfl, rfl⟩

/-- fixing a boolean after one side was ruled out -/
theorem fixBool_ok (h : Rep P bb g) (hn : node ≤ bb.iter) {i : Nat} (hi : i < P.nb) {o : Int}
    (ho : o = 0 ∨ o = 1) {bf : Nat → Int} (hb : Holds bb.tbBool P.nb bf)
    (hbf : ∀ j, j ≠ i → bf j = g.brow P node j) (ht : Holds bb.tbInt (2 * P.ni) (g.irow P node))
    {v : F} (hv : G v) (hpos : 0 < P.nb + P.ni)
    (hcut : T.box (upd (g.brow P node) i (1 - o)) (g.irow P node) → T.cut bb.globalU)
    (hW : WOk P G (g.node node)) :
    Runs bad (fixBool bb node i o v) (fun bb' => ∃ g', Step T node bb g bb' g' ∧ TB P node bb' g' ∧
      0 ≤ (g'.node node).splitIdx ∧ bb'.ecos = bb.ecos ∧ Pinned P node i v g g') := by
  unfold fixBool
  obtain ⟨b, e1, h1⟩ := h.wr_bid (k := node) hn hi (v := o) (by omega)
  rw [← h.nb_eq] at e1
  rw [e1, ok_bind_eq]
  rw [h.nb_eq] at e1
  obtain ⟨t, e2, h2⟩ := (Ok.def _ _).mp (hb.wr hi o)
  rw [e2, ok_bind_eq]
  have h3 : Rep P { bb with boolIds := b, tbBool := t }
      { g with bid := upd g.bid (P.nb * node + i) o } := { h1 with tbB := h2.1 }
  have hS : Step T node bb g { bb with boolIds := b, tbBool := t }
      { g with bid := upd g.bid (P.nb * node + i) o } :=
    { rep := h3
      same := by constructor <;> rfl
      tmpB := rfl
      tmpI := rfl
      others := fun _ _ => rfl
      brows := fun k j hk hj => by rw [brow_upd hi hj]; simp [hk]
      irows := fun _ _ _ _ => rfl
      fields := ⟨_, _, rfl⟩
      keep := fun hbox => by
        have key : T.box (upd (g.brow P node) i o) (g.irow P node) →
            T.box (({ g with bid := upd g.bid (P.nb * node + i) o } : Gh F).brow P node)
              (({ g with bid := upd g.bid (P.nb * node + i) o } : Gh F).irow P node) := fun hb =>
          T.congr hb (fun j hj => by
            rw [brow_upd hi hj]; unfold upd; by_cases hji : j = i <;> simp [hji]) (fun _ _ => rfl)
        rcases T.splitB hbox hi with h0 | h0
        · rcases ho with rfl | rfl
          · exact Or.inl (key h0)
          · exact Or.inr (hcut (by simpa using h0))
        · rcases ho with rfl | rfl
          · exact Or.inr (hcut (by simpa using h0))
          · exact Or.inl (key h0)
      wok := id }
  obtain ⟨ns, nd', e3, hs, hsi, hsp⟩ := setSplitIfNone_ok (T := T) h3 (node := node)
    (by have := h.iter_lt; omega) (i := i) (by omega) hv
  rw [e3, Runs_ok]
  refine ⟨_, hS.trans hs, ⟨?_, ?_⟩, ?_, rfl, ⟨fun j hj => ?_, fun j hj => Or.inl ⟨rfl, rfl⟩, ?_⟩⟩
  · exact h2.congr (fun j hj => by
      show _ = ({ g with bid := upd g.bid (P.nb * node + i) o } : Gh F).brow P node j
      rw [brow_upd hi hj]
      unfold upd
      by_cases hji : j = i
      · simp [hji]
      · simp [hji, hbf j hji])
  · exact ht
  · show 0 ≤ (upd g.node node nd' node).splitIdx
    rw [upd_self]; exact hsi hW.1
  · change ({ g with bid := upd g.bid (P.nb * node + i) o } : Gh F).brow P node j = _ ∨ _ ∧
      (({ g with bid := upd g.bid (P.nb * node + i) o } : Gh F).brow P node j = _ ∨
       ({ g with bid := upd g.bid (P.nb * node + i) o } : Gh F).brow P node j = _)
    rw [brow_upd hi hj]
    by_cases hji : j = i
    · subst hji; simpa using Or.inr ho
    · simp [hji]
  · simp only [upd_self]; exact hsp

theorem fixInt_ok (h : Rep P bb g) (hn : node ≤ bb.iter) {ii slot : Nat} (hi : ii < P.ni)
    (hslot : slot < 2) {fv : F} (hfv : IntVal fv) (ht : TB P node bb g)
    {v : F} (hv : G v)
    (hfx : (slot = 0 ∧ ∃ ce, pfCeil v P.stgs.intTol = .ok ce ∧ fv = -ce) ∨ (slot = 1 ∧ pfFloor v P.stgs.intTol = .ok fv))
    (hkeep : T.box (g.brow P node) (g.irow P node) →
      T.box (g.brow P node) (upd (g.irow P node) (2 * ii + slot) fv) ∨ T.cut bb.globalU)
    (hW : WOk P G (g.node node)) :
    Runs bad (fixInt bb node ii slot fv v) (fun bb' => ∃ g', Step T node bb g bb' g' ∧
      TB P node bb' g' ∧ 0 ≤ (g'.node node).splitIdx ∧ bb'.ecos = bb.ecos ∧ Pinned P node (P.nb + ii) v g g') := by
  unfold fixInt
  have hp : 2 * ii + slot < 2 * P.ni := by omega
  obtain ⟨b, e1, h1⟩ := h.wr_iid (k := node) hn hp hfv
  rw [← h.ni_eq] at e1
  rw [e1, ok_bind_eq]
  obtain ⟨t, e2, h2⟩ := (Ok.def _ _).mp (ht.i.wr hp fv)
  rw [e2, ok_bind_eq]
  have h3 : Rep P { bb with intIds := b, tbInt := t }
      { g with iid := upd g.iid (P.ni * node * 2 + (2 * ii + slot)) fv } := { h1 with tbI := h2.1 }
  have hS : Step T node bb g { bb with intIds := b, tbInt := t }
      { g with iid := upd g.iid (P.ni * node * 2 + (2 * ii + slot)) fv } :=
    { rep := h3
      same := by constructor <;> rfl
      tmpB := rfl
      tmpI := rfl
      others := fun _ _ => rfl
      brows := fun _ _ _ _ => rfl
      irows := fun k j hk hj => by rw [irow_upd hp hj]; simp [hk]
      fields := ⟨_, _, rfl⟩
      keep := fun hbox => by
        rcases hkeep hbox with h0 | h0
        · exact Or.inl (T.congr h0 (fun _ _ => rfl) (fun j hj => by
            rw [irow_upd hp hj]; unfold upd; by_cases hji : j = 2 * ii + slot <;> simp [hji]))
        · exact Or.inr h0
      wok := id }
  obtain ⟨ns, nd', e3, hs, hsi, hsp⟩ := setSplitIfNone_ok (T := T) h3 (node := node)
    (by have := h.iter_lt; omega) (i := ii + bb.nb) (by rw [h.nb_eq]; omega) hv
  rw [e3, Runs_ok]
  refine ⟨_, hS.trans hs, ⟨ht.b, ?_⟩, ?_, rfl, ⟨fun j hj => Or.inl rfl, fun j hj => ?_, ?_⟩⟩
  · exact h2.congr (fun j hj => by
      show _ = ({ g with iid := upd g.iid (P.ni * node * 2 + (2 * ii + slot)) fv } : Gh F).irow P node j
      rw [irow_upd hp hj]
      unfold upd
      by_cases hji : j = 2 * ii + slot
      · simp [hji]
      · simp [hji])
  · show 0 ≤ (upd g.node node nd' node).splitIdx
    rw [upd_self]; exact hsi hW.1
  · have e0 : ∀ q, q < 2 * P.ni → (({ g with iid := upd g.iid (P.ni * node * 2 + (2 * ii + slot)) fv, node := upd g.node node nd' } : Gh F).irow P node q) =
        upd (g.irow P node) (2 * ii + slot) fv q := fun q hq => by
      change ({ g with iid := upd g.iid (P.ni * node * 2 + (2 * ii + slot)) fv } : Gh F).irow P node q = _
      rw [irow_upd hp hq]; unfold upd; by_cases hq' : q = 2 * ii + slot <;> simp [hq']
    by_cases hji : j = ii
    · subst hji
      refine Or.inr ⟨rfl, ?_⟩
      unfold IntFix
      rw [e0 _ (by omega), e0 _ (by omega)]
      rcases hfx with ⟨rfl, ce, h9, rfl⟩ | ⟨rfl, h9⟩
      · exact Or.inl ⟨ce, h9, upd_self _ _ _, upd_ne _ _ (by omega)⟩
      · exact Or.inr ⟨fv, h9, upd_self _ _ _, upd_ne _ _ (by omega)⟩
    · refine Or.inl ?_
      rw [e0 _ (by omega), e0 _ (by omega)]
      exact ⟨upd_ne _ _ (by omega), upd_ne _ _ (by omega)⟩
  · simp only [upd_self]
    rw [h.nb_eq, Nat.add_comm ii] at hsp
    exact hsp

/-- what the strong-branching trial of one candidate does -/
def StrongPost (T : Pt P env G) (node i : Nat) (v : F) (bb : St F W I) (g : Gh F)
    (r : St F W I × Option (F × F)) : Prop :=
  ∃ g', Step T node bb g r.1 g' ∧ TB P node r.1 g' ∧
    (0 ≤ (g.node node).splitIdx → 0 ≤ (g'.node node).splitIdx) ∧
    (r.2 = none → 0 ≤ (g'.node node).splitIdx) ∧ XOk P G r.1.ecos ∧ Pinned P node i v g g'

theorem Pinned.refl {i : Nat} {v : F} : Pinned P node i v g g :=
  ⟨fun _ _ => Or.inl rfl, fun _ _ => Or.inl ⟨rfl, rfl⟩, Or.inl ⟨rfl, rfl⟩⟩

variable (H : Hyp P env G Gb bad Rb)
include H

theorem strongBool_ok (h : Rep P bb g) (hn : node ≤ bb.iter) {i : Nat} (hi : i < P.nb) {v : F}
    (hv : G v) (ht : TB P node bb g) (hW : WOk P G (g.node node)) :
    Runs bad (strongBool env bb node i v) (StrongPost T node i v bb g) := by
  unfold strongBool
  rw [ht.b.rd hi, ok_bind_eq]
  obtain ⟨t, e1, h1⟩ := (Ok.def _ _).mp (ht.b.wr hi MI_ZERO)
  rw [e1, ok_bind_eq]
  have r1 : Rep P { bb with tbBool := t } g := { h with tbB := h1.1 }
  rcases calcTmp_ok H.con r1 h1 ht.i (fun _ => h.rowInt hn) with ⟨u, e0, hu⟩ | ⟨e', code, xf, hf, cf, e2, hcf, htr, hr, w, hs, hx, g1, g2⟩
  · rw [e0]; exact hu
  rw [e2, ok_bind_eq]
  have r2 : Rep P { bb with tbBool := t, ecos := e' } g := r1.ecos w
  simp only [Runs_ite]
  refine ⟨fun hc => ?_, fun hc => ?_⟩
  · rw [Runs_bind]
    refine (fixBool_ok (T := T) r2 hn hi (o := 1) (Or.inr rfl) h1 (fun j hj => upd_ne _ _ hj) ht.i hv
      H.pos ?_ hW).mono ?_
    · intro hbox
      obtain ⟨ha, hl⟩ := T.trial (by simpa [MI_ZERO] using hbox) htr hcf
      rw [accepted_not_infeasible ha, Bool.false_or] at hc
      exact T.low_cut hl hc
    · rintro bb' ⟨g', hst, htb, hsi, hec, hfx⟩
      refine ⟨g', (Step.inert (bb := bb) r2 (by constructor <;> rfl) rfl rfl).trans hst, htb, fun _ => hsi, fun _ => hsi, by rw [hec]; exact ⟨xf, hx, g1, g2⟩, hfx⟩
  · obtain ⟨t', e3, h3⟩ := (Ok.def _ _).mp (h1.wr hi MI_ONE)
    rw [e3, ok_bind_eq]
    have r3 : Rep P { bb with tbBool := t', ecos := e' } g := { r2 with tbB := h3.1 }
    rcases calcTmp_ok H.con r3 h3 ht.i (fun _ => h.rowInt hn) with ⟨u, e0, hu⟩ | ⟨e'', code', xf', hf', cf', e4, hcf', htr', hr', w', hs', hx', g1', g2'⟩
    · rw [e0]; exact hu
    rw [e4, ok_bind_eq]
    have r4 : Rep P { bb with tbBool := t', ecos := e'' } g := r3.ecos w'
    simp only [Runs_ite]
    refine ⟨fun hc => ?_, fun hc => ?_⟩
    · rw [Runs_bind]
      refine (fixBool_ok (T := T) r4 hn hi (o := 0) (Or.inl rfl) h3 (fun j hj => ?_) ht.i hv
        H.pos ?_ hW).mono ?_
      · rw [upd_ne _ _ hj, upd_ne _ _ hj]
      · intro hbox
        obtain ⟨ha, hl⟩ := T.trial (T.congr hbox (fun j hj => by
          unfold upd; by_cases hji : j = i <;> simp [hji, MI_ONE]) (fun _ _ => rfl)) htr' hcf'
        rw [accepted_not_infeasible ha, Bool.false_or] at hc
        exact T.low_cut hl hc
      · rintro bb' ⟨g', hst, htb, hsi, hec, hfx⟩
        refine ⟨g', (Step.inert (bb := bb) r4 (by constructor <;> rfl) rfl rfl).trans hst, htb, fun _ => hsi, fun _ => hsi, by rw [hec]; exact ⟨xf', hx', g1', g2'⟩, hfx⟩
    · obtain ⟨t'', e5, h5⟩ := (Ok.def _ _).mp (h3.wr hi (g.brow P node i))
      rw [e5, ok_bind_eq, Runs_pure]
      have r5 : Rep P { bb with tbBool := t'', ecos := e'' } g := { r4 with tbB := h5.1 }
      refine ⟨g, Step.inert r5 (by constructor <;> rfl) rfl rfl, ⟨?_, ht.i⟩, id, fun h => by simp at h, ⟨xf', hx', g1', g2'⟩, Pinned.refl⟩
      exact h5.congr (fun j hj => by
        unfold upd; by_cases hji : j = i <;> simp [hji])

theorem tryInt_ok (h : Rep P bb g) (hn : node ≤ bb.iter) {pos : Nat} (hp : pos < 2 * P.ni) {bound : F} (hbi : IntVal bound) (ht : TB P node bb g) :
    (∃ u, tryInt env bb pos bound = .error u ∧ bad u) ∨
    ∃ t e' code xf cf, tryInt env bb pos bound =
        .ok ({ bb with tbInt := t, ecos := e' }, dotF P.n xf cf, code) ∧ P.cs cf ∧
      Trial P env (g.brow P node) (upd (g.irow P node) pos bound) code xf ∧
      Rep P { bb with tbInt := t, ecos := e' } g ∧
      TB P node { bb with tbInt := t, ecos := e' } g ∧ XOk P G e' := by
  unfold tryInt
  rw [ht.i.rd hp, ok_bind_eq]
  obtain ⟨t, e1, h1⟩ := (Ok.def _ _).mp (ht.i.wr hp bound)
  rw [e1, ok_bind_eq]
  have r1 : Rep P { bb with tbInt := t } g := { h with tbI := h1.1 }
  rcases calcTmp_ok H.con r1 ht.b h1 (fun i hi => by
      unfold upd
      split
      · exact hbi
      · exact h.rowInt hn hi) with ⟨u, e0, hu⟩ | ⟨e', code, xf, hf, cf, e2, hcf, htr, hr, w, hs, hx, g1, g2⟩
  · rw [e0]; exact Or.inl ⟨u, rfl, hu⟩
  rw [e2, ok_bind_eq]
  obtain ⟨t', e3, h3⟩ := (Ok.def _ _).mp (h1.wr hp (g.irow P node pos))
  simp only
  rw [e3, ok_bind_eq]
  have r3 : Rep P { bb with tbInt := t', ecos := e' } g := { r1.ecos w with tbI := h3.1 }
  refine Or.inr ⟨t', e', code, xf, cf, rfl, hcf, htr, r3, ⟨ht.b, ?_⟩, ⟨xf, hx, g1, g2⟩⟩
  exact h3.congr (fun j hj => by unfold upd; by_cases hji : j = pos <;> simp [hji])

theorem pf_ok {α : Type} {m : M α} (h : Runs bad m (fun _ => True)) {β : Type} {f : α → M β} {Q : β → Prop}
    (hQ : ∀ a, m = .ok a → Runs bad (f a) Q) : Runs bad (m >>= f) Q := by
  cases hm : m with
  | error e => rw [hm] at h; exact h
  | ok a => exact hQ a hm

theorem strongInt_ok (h : Rep P bb g) (hn : node ≤ bb.iter) {i : Nat} (hi : i < P.ni) {v : F}
    (hv : G v) (ht : TB P node bb g) (hW : WOk P G (g.node node)) :
    Runs bad (strongInt env bb node i v) (StrongPost T node (P.nb + i) v bb g) := by
  unfold strongInt
  have hF := H.floor v hv
  have hC := H.ceil v hv
  rw [← h.stgs_eq] at hF hC
  have hsp : ∀ {b i' j fl ce}, T.box b i' → j < P.ni → pfFloor v bb.stgs.intTol = .ok fl →
      pfCeil v bb.stgs.intTol = .ok ce →
      T.box b (upd i' (2 * j + 1) fl) ∨ T.box b (upd i' (2 * j) (-ce)) := by
    rw [h.stgs_eq]; intro b i' j fl ce a1 a2 a3 a4; exact T.splitI a1 a2 hv a3 a4
  refine pf_ok H hF fun fl hfl => ?_
  rcases tryInt_ok H h hn (pos := 2 * i + 1) (by omega) (pfFloor_int hfl) ht with ⟨u, e0, hu⟩ | ⟨t, e', code, xf, cf, e1, hcf, htr, r1, tb1, hxo⟩
  · rw [e0]; exact hu
  rw [e1, ok_bind_eq]
  simp only [Runs_ite]
  refine ⟨fun hc => ?_, fun hc => ?_⟩
  · refine pf_ok H hC fun ce hce => ?_
    rw [Runs_bind]
    refine (fixInt_ok (T := T) r1 hn hi (slot := 0) (by omega) (pfCeil_int hce) tb1 hv (Or.inl ⟨rfl, ce, by rw [← h.stgs_eq]; exact hce, rfl⟩) ?_ hW).mono ?_
    · intro hbox
      rcases hsp hbox hi hfl hce with h0 | h0
      · obtain ⟨ha, hl⟩ := T.trial h0 htr hcf
        rw [accepted_not_infeasible ha, Bool.false_or] at hc
        exact Or.inr (T.low_cut hl hc)
      · exact Or.inl h0
    · rintro bb' ⟨g', hst, htb, hsi, hec, hfx⟩
      exact ⟨g', (Step.inert (bb := bb) r1 (by constructor <;> rfl) rfl rfl).trans hst, htb, fun _ => hsi, fun _ => hsi, by rw [hec]; exact hxo, hfx⟩
  · refine pf_ok H hC fun ce hce => ?_
    rcases tryInt_ok H r1 hn (pos := 2 * i) (by omega) (pfCeil_int hce) tb1 with ⟨u, e0, hu⟩ | ⟨t', e'', code', xf', cf', e2, hcf', htr', r2, tb2, hxo'⟩
    · rw [e0]; exact hu
    rw [e2, ok_bind_eq]
    simp only [Runs_ite]
    refine ⟨fun hc => ?_, fun hc => ?_⟩
    · refine pf_ok H hF fun fl' hfl' => ?_
      rw [Runs_bind]
      have : fl' = fl := by rw [hfl] at hfl'; simpa using hfl'.symm
      subst this
      refine (fixInt_ok (T := T) r2 hn hi (slot := 1) (by omega) (pfFloor_int hfl) tb2 hv (Or.inr ⟨rfl, by rw [← h.stgs_eq]; exact hfl⟩) ?_ hW).mono ?_
      · intro hbox
        rcases hsp hbox hi hfl hce with h0 | h0
        · exact Or.inl h0
        · obtain ⟨ha, hl⟩ := T.trial h0 htr' hcf'
          rw [accepted_not_infeasible ha, Bool.false_or] at hc
          exact Or.inr (T.low_cut hl hc)
      · rintro bb' ⟨g', hst, htb, hsi, hec, hfx⟩
        exact ⟨g', (Step.inert (bb := bb) r2 (by constructor <;> rfl) rfl rfl).trans hst, htb, fun _ => hsi, fun _ => hsi, by rw [hec]; exact hxo', hfx⟩
    · rw [Runs_pure]
      exact ⟨g, Step.inert r2 (by constructor <;> rfl) rfl rfl, tb2, id, fun h => by simp at h, hxo', Pinned.refl⟩

theorem strongVar_ok (h : Rep P bb g) (hn : node ≤ bb.iter) {i : Nat} (hi : i < P.nb + P.ni) {v : F}
    (hv : G v) (ht : TB P node bb g) (hW : WOk P G (g.node node)) :
    Runs bad (strongVar env bb node i v) (StrongPost T node i v bb g) := by
  unfold strongVar
  rw [h.nb_eq]
  split
  · next hb => exact strongBool_ok H h hn hb hv ht hW
  · next hb =>
    have := strongInt_ok (T := T) H h hn (i := i - P.nb) (by omega) hv ht hW
    rwa [show P.nb + (i - P.nb) = i by omega] at this

end BB
end Ecos
