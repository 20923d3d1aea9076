import Verif.Lemmas.BB6
import Verif.Lemmas.Mono0

/-!
# Two mixed-integer searches on the same problem

Workspaces `l` and `r` hold the same problem and settings, but what earlier calls left behind may differ: node records, bounds of nodes that are
not in use, stored solution, pseudocosts, position of `rand`, the right-hand side of the last continuous problem.  With most infeasible
branching the two searches run in step.
-/
set_option linter.unusedSectionVars false
set_option linter.unusedSimpArgs false
set_option linter.unusedVariables false

namespace Ecos
namespace BB

open Mono (LeR)

variable {F : Type} [Zero F] [One F] [Add F] [Sub F] [Mul F] [Div F] [Neg F] [OfScientific F]
  [IntCast F] [PFloat F] [HasInf F] {W I : Type}
variable {P : Par F W} {env env' : Env F W I} {G Gb Gb' : F → Prop} {bad bad' : UB → Prop} {Rb : Int → Prop} {K : W → W → Prop}
variable {node : Nat} {l r l' r' : St F W I} {gl gr gl' gr' : Gh F}

/-- the results of two continuous solves are the same -/
structure OutEq (K : W → W → Prop) (a b : EW F W I) : Prop where
  c : b.c = a.c
  hid : K a.hid b.hid
  x : b.x = a.x
  y : b.y = a.y
  z : b.z = a.z
  s : b.s = a.s
  kap : b.kap = a.kap
  tau : b.tau = a.tau

/-- the right-hand side imposes the bounds of a node, and they are integers -/
def NodeRhs (P : Par F W) (hf : Nat → F) : Prop :=
  ∃ bid iid, HRows P hf bid iid ∧ (∀ i, i < P.nb → bid i = -1 ∨ bid i = 0 ∨ bid i = 1) ∧ ∀ i, i < 2 * P.ni → IntVal (iid i)

/-- two continuous solvers agree: workspaces with the same data (costs, right-hand side of a node, and whatever `K` says about the rest)
give the same answer and again have the same data -/
def Alike (P : Par F W) (env env' : Env F W I) (K : W → W → Prop) : Prop :=
  ∀ (e e' : EW F W I) hf a code, EWF P e hf → EWF P e' hf → NodeRhs P hf → e'.c = e.c → K e.hid e'.hid → env.solve e = .ok (a, code) →
    ∃ a', env'.solve e' = .ok (a', code) ∧ OutEq K a a'

/-- the stored solutions are the same -/
structure SolEq (l r : St F W I) : Prop where
  x : r.x = l.x
  y : r.y = l.y
  z : r.z = l.z
  s : r.s = l.s
  kap : r.kap = l.kap
  tau : r.tau = l.tau

/-- the splits of two node records are the same, and usable -/
def SpEq (P : Par F W) (a b : Node F) : Prop :=
  b.splitIdx = a.splitIdx ∧ b.splitVal = a.splitVal ∧ 0 ≤ a.splitIdx ∧ a.splitIdx < P.nb + P.ni

/-- two node records agree in what the search will read -/
structure NEq (P : Par F W) (a b : Node F) : Prop where
  status : b.status = a.status
  L : b.L = a.L
  U : b.U = a.U
  prev : b.prevSplitIdx = a.prevSplitIdx
  pv : 0 ≤ a.prevSplitIdx → b.prevSplitVal = a.prevSplitVal ∧ b.up = a.up
  split : a.status = 2 → SpEq P a b

/-- two states of the search in step -/
structure Sim (P : Par F W) (K : W → W → Prop) (l r : St F W I) (gl gr : Gh F) : Prop where
  rl : Rep P l gl
  rr : Rep P r gr
  iter : r.iter = l.iter
  dive : r.dive = l.dive
  dive_le : l.dive ≤ l.iter
  gU : r.globalU = l.globalU
  gL : r.globalL = l.globalL
  nodes : ∀ k, k ≤ l.iter → NEq P (gl.node k) (gr.node k)
  brow : ∀ k i, k ≤ l.iter → i < P.nb → gr.brow P k i = gl.brow P k i
  irow : ∀ k i, k ≤ l.iter → i < 2 * P.ni → gr.irow P k i = gl.irow P k i
  c : r.ecos.c = l.ecos.c
  hid : K l.ecos.hid r.ecos.hid
  sol : lt l.globalU INF = true → SolEq l r

/-! ### Loops and cells -/

theorem loopI {σ τ : Type} {R : Nat → σ → τ → Prop} {body : Nat → σ → M σ} {body' : Nat → τ → M τ} {hi : Nat} :
    ∀ {lo : Nat} {s : σ} {s' : τ}, lo ≤ hi → R lo s s' →
    (∀ i s s', lo ≤ i → i < hi → R i s s' → LeR (R (i + 1)) (body i s) (body' i s')) →
    LeR (R hi) (loop lo hi s body) (loop lo hi s' body') := by
  intro lo
  induction h : hi - lo generalizing lo with
  | zero =>
    intro s s' hle hs _
    obtain rfl : lo = hi := by omega
    unfold loop
    rw [if_neg (by omega), if_neg (by omega)]
    exact LeR.pure hs
  | succ n ih =>
    intro s s' hle hs hb
    unfold loop
    rw [if_pos (by omega), if_pos (by omega)]
    exact LeR.bind (hb lo s s' (Nat.le_refl _) (by omega) hs) fun a b hab =>
      ih (by omega) (by omega) hab fun i s s' h1 h2 h3 => hb i s s' (by omega) h2 h3

theorem LeR.rfl' {α : Type} {m : M α} : LeR Eq m m := fun a e => ⟨a, e, rfl⟩

theorem Holds.ext' {α : Type} {b b' : Buf α} {n : Nat} {f f' : Nat → α} (h : Holds b n f) (h' : Holds b' n f')
    (hf : ∀ i, i < n → f' i = f i) : b' = b := by
  apply Array.ext_getElem?
  intro i
  by_cases hi : i < n
  · rw [h.2 i hi, h'.2 i hi, hf i hi]
  · rw [Array.getElem?_eq_none (by rw [h'.1]; omega), Array.getElem?_eq_none (by rw [h.1]; omega)]

theorem Holds.uniq {α : Type} {b : Buf α} {n : Nat} {f f' : Nat → α} (h : Holds b n f) (h' : Holds b n f') {i : Nat} (hi : i < n) :
    f' i = f i := by
  have h1 := h.2 i hi
  rw [h'.2 i hi] at h1
  simpa using h1

/-! ### One node record -/

theorem setNode_sim (S : Sim P K l r gl gr) (hk : node ≤ l.iter) (f f' : Node F → Node F)
    (hf : NEq P (f (gl.node node)) (f' (gr.node node))) :
    LeR (fun l' r' => ∃ gl' gr' ns ns', l' = { l with nodes := ns } ∧ r' = { r with nodes := ns' } ∧ Sim P K l' r' gl' gr' ∧
      gl'.node node = f (gl.node node) ∧ gr'.node node = f' (gr.node node)) (setNode l (node : Int) f) (setNode r (node : Int) f') := by
  have hm : node < P.stgs.maxit := by have := S.rl.iter_lt; omega
  obtain ⟨ns, e, hl⟩ := setNode_ok S.rl hm f
  obtain ⟨ns', e', hr⟩ := setNode_ok S.rr hm f'
  rw [e, e']
  refine LeR.pure ⟨_, _, ns, ns', rfl, rfl, { rl := hl, rr := hr, iter := S.iter, dive := S.dive, dive_le := S.dive_le, gU := S.gU, gL := S.gL
                                              nodes := fun k hk' => ?_, brow := S.brow, irow := S.irow, c := S.c, hid := S.hid
                                              sol := fun h => ⟨(S.sol h).x, (S.sol h).y, (S.sol h).z, (S.sol h).s, (S.sol h).kap, (S.sol h).tau⟩ },
    upd_self _ _ _, upd_self _ _ _⟩
  by_cases h : k = node
  · subst h; simp only [upd_self]; exact hf
  · simp only [upd_ne _ _ h]; exact S.nodes k hk'

/-! ### The continuous problem of a node -/

theorem setProb_keep {bids : Buf Int} {boff : Nat} {iids : Buf F} {ioff : Nat} (e : setProb l bids boff iids ioff = .ok l') :
    l'.ecos.c = l.ecos.c ∧ l'.ecos.hid = l.ecos.hid := by
  have hp : ∀ (x : EW F W I) j a b, x.c = l.ecos.c ∧ x.hid = l.ecos.hid →
      Runs (fun _ => True) (updPair x j a b) (fun x => x.c = l.ecos.c ∧ x.hid = l.ecos.hid) := by
    intro x j a b hx
    unfold updPair updH
    simp only [Runs_bind, Runs_pure]
    refine Runs.mono (P := fun _ => True) (by cases (rd x.gequil (2 * j)) <;> trivial) fun _ _ => ?_
    refine Runs.mono (P := fun _ => True) (by cases (wr x.h (2 * j) _) <;> trivial) fun _ _ => ?_
    refine Runs.mono (P := fun _ => True) (by cases (rd x.gequil (2 * j + 1)) <;> trivial) fun _ _ => ?_
    exact Runs.mono (P := fun _ => True) (by cases (wr _ (2 * j + 1) _) <;> trivial) fun _ _ => hx
  have : Runs (fun _ => True) (setProb l bids boff iids ioff) (fun l' => l'.ecos.c = l.ecos.c ∧ l'.ecos.hid = l.ecos.hid) := by
    unfold setProb
    rw [Runs_bind]
    refine loop_runs (fun _ x => x.c = l.ecos.c ∧ x.hid = l.ecos.hid) (Nat.zero_le _) ⟨rfl, rfl⟩ ?_ ?_
    · intro i x _ _ hx
      unfold setBoolStep
      rw [Runs_bind]
      refine Runs.mono (P := fun _ => True) (by cases (rd bids (boff + i)) <;> trivial) fun b _ => ?_
      simp only [Runs_ite]
      exact ⟨fun _ => hp _ _ _ _ hx, fun _ => ⟨fun _ => hp _ _ _ _ hx, fun _ => ⟨fun _ => hp _ _ _ _ hx, fun _ => hx⟩⟩⟩
    · intro x hx
      rw [Runs_bind]
      refine loop_runs (fun _ x => x.c = l.ecos.c ∧ x.hid = l.ecos.hid) (Nat.zero_le _) hx ?_ (fun x hx => hx)
      intro i x _ _ hx
      unfold setIntStep
      rw [Runs_bind]
      refine Runs.mono (P := fun _ => True) (by cases (rd iids (ioff + 2 * i)) <;> trivial) fun a _ => ?_
      rw [Runs_bind]
      exact Runs.mono (P := fun _ => True) (by cases (rd iids (ioff + (2 * i + 1))) <;> trivial) fun b _ => hp _ _ _ _ hx
  exact this.out e

/-- the bounds of a node and the user's rows determine the right-hand side -/
theorem rhs_eq {e e' : EW F W I} {hf hf' : Nat → F} {bf : Nat → Int} {jf : Nat → F} (he : EWF P e hf) (he' : EWF P e' hf')
    (hr : HRows P hf bf jf) (hr' : HRows P hf' bf jf) (tri : ∀ i, i < P.nb → bf i = -1 ∨ bf i = 0 ∨ bf i = 1) :
    ∀ k, k < P.m → hf' k = hf k := by
  have key : ∀ i, i < P.nb + P.ni → hf' (2 * i) = hf (2 * i) ∧ hf' (2 * i + 1) = hf (2 * i + 1) := by
    intro i hi
    have : ∃ a b, rowsAre P hf i a b ∧ rowsAre P hf' i a b := by
      rcases Nat.lt_or_ge i P.nb with h | h
      · rcases tri i h with h1 | h1 | h1
        · exact ⟨_, _, hr.star i h h1, hr'.star i h h1⟩
        · exact ⟨_, _, hr.zero i h h1, hr'.zero i h h1⟩
        · exact ⟨_, _, hr.one i h h1, hr'.one i h h1⟩
      · obtain ⟨j, rfl⟩ := Nat.exists_eq_add_of_le h
        have h1 := hr.int j (by omega)
        have h2 := hr'.int j (by omega)
        rw [Nat.add_comm j] at h1 h2
        exact ⟨_, _, h1, h2⟩
    obtain ⟨a, b, h1, h2⟩ := this
    exact ⟨h2.1.trans h1.1.symm, h2.2.trans h1.2.symm⟩
  intro k hk
  rcases Nat.lt_or_ge k (2 * (P.nb + P.ni)) with h | h
  · rcases Nat.even_or_odd' k with ⟨i, rfl | rfl⟩
    · exact (key i (by omega)).1
    · exact (key i (by omega)).2
  · rw [he.huser k h hk, he'.huser k h hk]

/-- what is known after the two problems of a node have been solved -/
structure Solve2 (P : Par F W) (env : Env F W I) (K : W → W → Prop) (G : F → Prop) (bf : Nat → Int) (jf : Nat → F) (l r : St F W I)
    (gl gr : Gh F) (code : Int) (xf : Nat → F) : Prop where
  sim : Sim P K l r gl gr
  out : OutEq K l.ecos r.ecos
  trial : Trial P env bf jf code xf
  hx : Holds l.ecos.x P.n xf
  g1 : ∀ i, i < P.nb → G (xf (P.bv i))
  g2 : ∀ i, i < P.ni → G (xf (P.iv i))

theorem probSolve_sim (C : Contract P env G Gb bad) (C' : Contract P env' G Gb' bad') (A : Alike P env env' K) (S : Sim P K l r gl gr)
    {bids bids' : Buf Int} {boff : Nat} {bf : Nat → Int} {iids iids' : Buf F} {ioff : Nat} {jf : Nat → F}
    (hb : ∀ i, i < P.nb → rd bids (boff + i) = .ok (bf i)) (hi : ∀ i, i < 2 * P.ni → rd iids (ioff + i) = .ok (jf i))
    (hb' : ∀ i, i < P.nb → rd bids' (boff + i) = .ok (bf i)) (hi' : ∀ i, i < 2 * P.ni → rd iids' (ioff + i) = .ok (jf i))
    (tri : ∀ i, i < P.nb → bf i = -1 ∨ bf i = 0 ∨ bf i = 1) (hiv : ∀ i, i < 2 * P.ni → IntVal (jf i)) :
    LeR (fun p q => q.2 = p.2 ∧ ∃ a a' xf, p.1 = { l with ecos := a } ∧ q.1 = { r with ecos := a' } ∧
      Solve2 P env K G bf jf p.1 q.1 gl gr p.2 xf)
      (setProb l bids boff iids ioff >>= callSolve env) (setProb r bids' boff iids' ioff >>= callSolve env') := by
  obtain ⟨e, hf, e1, he, hr⟩ := setProb_ok S.rl hb hi
  obtain ⟨e', hf', e1', he', hr'⟩ := setProb_ok S.rr hb' hi'
  obtain ⟨k1, k2⟩ := setProb_keep e1
  obtain ⟨k1', k2'⟩ := setProb_keep e1'
  simp only at k1 k2 k1' k2'
  have hh := rhs_eq he he' hr hr' tri
  have he2 : EWF P e' hf := { he' with
    hh := ⟨he'.hh.1, fun i hi => by rw [he'.hh.2 i hi, hh i hi]⟩
    huser := he.huser, hbnd := he.hbnd }
  rw [e1, e1', ok_bind_eq, ok_bind_eq]
  unfold callSolve
  intro p ep
  cases hs : env.solve e with
  | error u => simp only [hs] at ep; cases ep
  | ok q =>
    obtain ⟨a, code⟩ := q
    simp only [hs, ok_bind_eq] at ep
    cases ep
    obtain ⟨a', hs', O⟩ := A e e' hf a code he he2 ⟨bf, jf, hr, tri, hiv⟩ (by rw [k1, k1', S.c]) (by rw [k2, k2']; exact S.hid) hs
    obtain ⟨w, xf, hx, g1, g2⟩ := (C.solve e hf he (hr.intBnd hiv)).out hs
    obtain ⟨w', -⟩ := (C'.solve e' hf he2 (hr.intBnd hiv)).out hs'
    refine ⟨({ r with ecos := a' }, code), by simp only [hs', ok_bind_eq]; rfl, rfl, a, a', xf, rfl, rfl, ?_, O, ⟨hf, hr, e, a, he, hs, hx⟩, hx, g1, g2⟩
    exact { rl := S.rl.ecos w, rr := S.rr.ecos w', iter := S.iter, dive := S.dive, dive_le := S.dive_le, gU := S.gU, gL := S.gL, nodes := S.nodes
            brow := S.brow, irow := S.irow, c := O.c, hid := O.hid
            sol := fun h => ⟨(S.sol h).x, (S.sol h).y, (S.sol h).z, (S.sol h).s, (S.sol h).kap, (S.sol h).tau⟩ }

theorem cost_sim {a b : EW F W I} (O : OutEq K a b) (hn : b.n = a.n) (ha : l.ecos = a) (hb : r.ecos = b) : cost r = cost l := by
  unfold cost
  rw [ha, hb, hn, O.x, O.c]

/-- changes outside of what the relation speaks about -/
theorem Sim.of (S : Sim P K l r gl gr) (hl : Rep P l' gl) (hr : Rep P r' gr) (sl : Same l l') (sr : Same r r') (el : l'.ecos = l.ecos)
    (er : r'.ecos = r.ecos) : Sim P K l' r' gl gr where
  rl := hl
  rr := hr
  iter := by rw [sl.iter, sr.iter, S.iter]
  dive := by rw [sl.dive, sr.dive, S.dive]
  dive_le := by rw [sl.dive, sl.iter]; exact S.dive_le
  gU := by rw [sl.gU, sr.gU, S.gU]
  gL := by rw [sl.gL, sr.gL, S.gL]
  nodes := fun k hk => S.nodes k (by rw [← sl.iter]; exact hk)
  brow := fun k i hk => S.brow k i (by rw [← sl.iter]; exact hk)
  irow := fun k i hk => S.irow k i (by rw [← sl.iter]; exact hk)
  c := by rw [el, er, S.c]
  hid := by rw [el, er]; exact S.hid
  sol := fun h => by
    rw [sl.gU] at h
    have := S.sol h
    exact ⟨by rw [sl.x, sr.x, this.x], by rw [sl.y, sr.y, this.y], by rw [sl.z, sr.z, this.z], by rw [sl.s, sr.s, this.s],
      by rw [sl.kap, sr.kap, this.kap], by rw [sl.tau, sr.tau, this.tau]⟩

/-! ### Bounds of a node -/

theorem rd_lt {α : Type} {b : Buf α} {i : Nat} {v : α} (h : rd b i = .ok v) : i < b.size := by
  unfold rd at h
  by_contra hc
  rw [Array.getElem?_eq_none (by omega)] at h
  cases h

section bounds
variable (H : Hyp P env G Gb bad Rb)
include H

theorem pseudoUpdate_sim (S : Sim P K l r gl gr) (hn : node ≤ l.iter) :
    LeR (fun l' r' => Sim P K l' r' gl gr ∧ PcOnly l l' ∧ PcOnly r r') (pseudoUpdate l node) (pseudoUpdate r node) := by
  have hm : node < P.stgs.maxit := by have := S.rl.iter_lt; omega
  have hN := S.nodes node hn
  unfold pseudoUpdate
  rw [S.rl.hnodes.rd hm, S.rr.hnodes.rd hm, ok_bind_eq, ok_bind_eq, hN.prev, S.rl.stgs_eq, S.rr.stgs_eq]
  split
  · next hp =>
    obtain ⟨h1, h2⟩ := hN.pv hp
    rw [h1, h2]
    have key : ∀ (off : Nat) (d d' : F), off < 2 → LeR (fun l' r' => Sim P K l' r' gl gr ∧ PcOnly l l' ∧ PcOnly r r')
        (bumpVar l (gl.node node).prevSplitIdx.toNat off d) (bumpVar r (gl.node node).prevSplitIdx.toNat off d') := by
      intro off d d' ho
      by_cases hi : (gl.node node).prevSplitIdx.toNat < P.nb + P.ni
      · obtain ⟨a, e1, r1, p1⟩ := bumpVar_ok H S.rl hi ho d
        obtain ⟨b, e2, r2, p2⟩ := bumpVar_ok H S.rr hi ho d'
        rw [e1, e2]
        exact LeR.pure ⟨S.of r1 r2 p1.same p2.same p1.ecos p2.ecos, p1, p2⟩
      · intro a e
        exfalso
        unfold bumpVar at e
        rw [S.rl.nb_eq, if_neg (by omega)] at e
        unfold bump at e
        obtain ⟨f, hf⟩ := S.rl.pcIS
        cases hr : rd l.pcIntSum (2 * ((gl.node node).prevSplitIdx.toNat - P.nb) + off) with
        | ok v => have := rd_lt hr; rw [hf.1] at this; omega
        | error u => rw [hr] at e; cases e
    split
    · rw [bind_assoc, bind_assoc]
      refine LeR.bind LeR.rfl' ?_
      rintro ce _ rfl
      rw [pure_bind, pure_bind]
      exact key _ _ _ (by omega)
    · rw [bind_assoc, bind_assoc]
      refine LeR.bind LeR.rfl' ?_
      rintro ce _ rfl
      rw [pure_bind, pure_bind]
      exact key _ _ _ (by omega)
  · exact LeR.pure ⟨S, ⟨Same.refl _, rfl, rfl, rfl, rfl, rfl, rfl⟩, ⟨Same.refl _, rfl, rfl, rfl, rfl, rfl, rfl⟩⟩

theorem roundAll_sim (S : Sim P K l r gl gr) {xf : Nat → F} (hx : Holds l.ecos.x P.n xf) (hx' : r.ecos.x = l.ecos.x) :
    LeR (fun p q => q.2 = p.2 ∧ ∃ tb ti tb' ti' tf jf, p.1 = { l with tmpBool := tb, tmpInt := ti } ∧
      q.1 = { r with tmpBool := tb', tmpInt := ti' } ∧ Holds tb P.nb tf ∧ Holds tb' P.nb tf ∧ Holds ti (2 * P.ni) jf ∧
      Holds ti' (2 * P.ni) jf) (roundAll l) (roundAll r) := by
  unfold roundAll
  rw [S.rl.nb_eq, S.rl.ni_eq, S.rr.nb_eq, S.rr.ni_eq]
  refine LeR.bind (loopI (R := fun t s s' => s'.2 = s.2 ∧ ∃ tf, HoldsOn s.1 P.nb (fun k => k < t) tf ∧ HoldsOn s'.1 P.nb (fun k => k < t) tf)
    (Nat.zero_le _) ⟨rfl, fun _ => 0, ⟨S.rl.tmpB, fun i _ h => absurd h (by omega)⟩, ⟨S.rr.tmpB, fun i _ h => absurd h (by omega)⟩⟩ ?_) ?_
  · rintro t s s' _ ht ⟨hs, tf, h1, h2⟩
    unfold roundBoolStep
    rw [S.rl.hbv.rd ht, S.rr.hbv.rd ht, ok_bind_eq, ok_bind_eq, hx', hx.rd (S.rl.bv_lt t ht), ok_bind_eq, ok_bind_eq, S.rl.stgs_eq, S.rr.stgs_eq]
    refine LeR.bind LeR.rfl' ?_
    rintro v _ rfl
    refine LeR.bind LeR.rfl' ?_
    rintro k _ rfl
    obtain ⟨b, e, hb⟩ := (Ok.def _ _).mp (h1.wr ht k)
    obtain ⟨b', e', hb'⟩ := (Ok.def _ _).mp (h2.wr ht k)
    rw [e, e', ok_bind_eq, ok_bind_eq, hs]
    exact LeR.pure ⟨rfl, _, hb.congr (fun j hj hjt => ⟨by omega, rfl⟩), hb'.congr (fun j hj hjt => ⟨by omega, rfl⟩)⟩
  rintro s s' ⟨hs, tf, h1, h2⟩
  refine LeR.bind (loopI (R := fun t u u' => u'.2 = u.2 ∧ ∃ jf, HoldsOn u.1 (2 * P.ni) (fun k => k < 2 * t) jf ∧
      HoldsOn u'.1 (2 * P.ni) (fun k => k < 2 * t) jf)
    (Nat.zero_le _) ⟨hs, fun _ => 0, ⟨S.rl.tmpI, fun i _ h => absurd h (by omega)⟩, ⟨S.rr.tmpI, fun i _ h => absurd h (by omega)⟩⟩ ?_) ?_
  · rintro t u u' _ ht ⟨hu, jf, h1, h2⟩
    unfold roundIntStep
    rw [S.rl.hiv.rd ht, S.rr.hiv.rd ht, ok_bind_eq, ok_bind_eq, hx', hx.rd (S.rl.iv_lt t ht), ok_bind_eq, ok_bind_eq, S.rl.stgs_eq, S.rr.stgs_eq]
    refine LeR.bind LeR.rfl' ?_
    rintro v _ rfl
    obtain ⟨b, e, hb⟩ := (Ok.def _ _).mp (h1.wr (show 2 * t + 1 < 2 * P.ni by omega) v)
    obtain ⟨b', e', hb'⟩ := (Ok.def _ _).mp (h2.wr (show 2 * t + 1 < 2 * P.ni by omega) v)
    rw [e, e', ok_bind_eq, ok_bind_eq]
    obtain ⟨c, f, hc⟩ := (Ok.def _ _).mp (hb.wr (show 2 * t < 2 * P.ni by omega) (-v))
    obtain ⟨c', f', hc'⟩ := (Ok.def _ _).mp (hb'.wr (show 2 * t < 2 * P.ni by omega) (-v))
    rw [f, f', ok_bind_eq, ok_bind_eq, hu]
    exact LeR.pure ⟨rfl, _, hc.congr (fun j hj hjt => ⟨by omega, rfl⟩), hc'.congr (fun j hj hjt => ⟨by omega, rfl⟩)⟩
  rintro u u' ⟨hu, jf, h3, h4⟩
  exact LeR.pure ⟨hu, s.1, u.1, s'.1, u'.1, tf, jf, rfl, rfl, h1.full (fun i hi => hi), h2.full (fun i hi => hi), h3.full (fun i hi => by omega),
    h4.full (fun i hi => by omega)⟩

theorem mostInfeasible_sim (S : Sim P K l r gl gr) (hn : node ≤ l.iter) {xf : Nat → F} (hx : Holds l.ecos.x P.n xf)
    (hx' : r.ecos.x = l.ecos.x) (hamb : ∃ i, i < P.nb + P.ni ∧ ∀ a, ambF P i (xf (vr P i)) = .ok a → lt a 1 = true) :
    LeR (fun l' r' => ∃ gl' gr' ns ns', l' = { l with nodes := ns } ∧ r' = { r with nodes := ns' } ∧ Sim P K l' r' gl' gr' ∧
      SpEq P (gl'.node node) (gr'.node node) ∧ (gl'.node node).U = (gl.node node).U ∧ (gl'.node node).L = (gl.node node).L) (mostInfeasible l node) (mostInfeasible r node) := by
  unfold mostInfeasible
  rw [show l.nb + l.ni = P.nb + P.ni by rw [S.rl.nb_eq, S.rl.ni_eq], show r.nb + r.ni = P.nb + P.ni by rw [S.rr.nb_eq, S.rr.ni_eq]]
  refine LeR.bind (loopI (R := fun t s s' => s'.2 = s.2 ∧ ∃ gl' gr' ns ns', s.1 = { l with nodes := ns } ∧ s'.1 = { r with nodes := ns' } ∧
      Sim P K s.1 s'.1 gl' gr' ∧ ((gl'.node node).U = (gl.node node).U ∧ (gl'.node node).L = (gl.node node).L) ∧ (SpEq P (gl'.node node) (gr'.node node) ∨
        (s.2 = 1 ∧ ∀ j, j < t → ∃ a, ambF P j (xf (vr P j)) = .ok a ∧ lt a 1 = false)))
    (Nat.zero_le _) ⟨rfl, gl, gr, l.nodes, r.nodes, rfl, rfl, S, ⟨rfl, rfl⟩, .inr ⟨rfl, fun j hj => absurd hj (by omega)⟩⟩ ?_) ?_
  · rintro t ⟨s, best⟩ ⟨s', best'⟩ _ ht ⟨hs, gl', gr', ns, ns', e1, e2, S1, hU, hsel⟩
    simp only at hs e1 e2 S1 hsel
    subst hs
    unfold mostInfStep
    obtain ⟨v1, hlt⟩ := varIdx_ok S1.rl ht
    obtain ⟨v2, -⟩ := varIdx_ok S1.rr ht
    have x1 : s.ecos.x = l.ecos.x := by rw [e1]
    have x2 : s'.ecos.x = l.ecos.x := by rw [e2]; exact hx'
    simp only
    rw [v1, v2, ok_bind_eq, ok_bind_eq, x1, x2, hx.rd hlt, ok_bind_eq, ok_bind_eq]
    have a1 : ambig s t (xf (vr P t)) = ambF P t (xf (vr P t)) := by
      unfold ambF ambig; rw [S1.rl.stgs_eq, S1.rl.nb_eq]
    have a2 : ambig s' t (xf (vr P t)) = ambF P t (xf (vr P t)) := by
      unfold ambF ambig; rw [S1.rr.stgs_eq, S1.rr.nb_eq]
    rw [a1, a2]
    intro p ep
    cases ha : ambF P t (xf (vr P t)) with
    | error u => rw [ha] at ep; cases ep
    | ok a =>
      rw [ha, ok_bind_eq] at ep
      rw [ok_bind_eq]
      revert p
      show LeR _ _ _
      split
      · have hn1 : node ≤ s.iter := by rw [e1]; exact hn
        have hN := S1.nodes node hn1
        refine LeR.bind (setNode_sim S1 hn1 _ _
          (by exact { status := hN.status, L := hN.L, U := hN.U, prev := hN.prev, pv := hN.pv
                      split := fun _ => ⟨rfl, rfl, by simp only; omega, by simp only; omega⟩ })) ?_
        rintro a' b' ⟨gl2, gr2, m, m', q1, q2, S2, n1, n2⟩
        refine LeR.pure ⟨rfl, gl2, gr2, m, m', ?_, ?_, S2, ?_, .inl ?_⟩
        · rw [q1, e1]
        · rw [q2, e2]
        · rw [n1]; exact hU
        · rw [n1, n2]; exact ⟨rfl, rfl, by simp only; omega, by simp only; omega⟩
      · next hc =>
        refine LeR.pure ⟨rfl, gl', gr', ns, ns', e1, e2, S1, hU, ?_⟩
        rcases hsel with h | ⟨h1, h2⟩
        · exact .inl h
        · refine .inr ⟨h1, fun j hj => ?_⟩
          rcases Nat.lt_or_ge j t with h | h
          · exact h2 j h
          · obtain rfl : j = t := by omega
            refine ⟨a, ha, ?_⟩
            rw [h1] at hc
            simpa using hc
  · rintro s s' ⟨-, gl', gr', ns, ns', e1, e2, S1, hU, hsel⟩
    refine LeR.pure ⟨gl', gr', ns, ns', e1, e2, S1, ?_, hU⟩
    rcases hsel with h | ⟨-, h⟩
    · exact h
    · obtain ⟨i, hi, h2⟩ := hamb
      obtain ⟨a, h1, h3⟩ := h i hi
      rw [h2 a h1] at h3
      cases h3

/-- after the solved cases -/
structure Mid (P : Par F W) (K : W → W → Prop) (node : Nat) (Lf : F) (l0 l r : St F W I) (gl gr : Gh F) : Prop where
  sim : Sim P K l r gl gr
  out : OutEq K l.ecos r.ecos
  gU : l.globalU = l0.globalU
  iter : l.iter = l0.iter
  L : (gl.node node).L = Lf
  sel : SpEq P (gl.node node) (gr.node node) ∨ ((gl.node node).U = Lf ∧ (gl.node node).status = 3)

theorem takeIntegral_sim (S : Sim P K l r gl gr) (hn : node ≤ l.iter) (O : OutEq K l.ecos r.ecos) (hL : cost l = .ok (gl.node node).L) :
    LeR (fun p q => q.2 = p.2 ∧ p.2 = false ∧ ∃ gl' gr', Mid P K node (gl.node node).L l p.1 q.1 gl' gr')
      (takeIntegral l node) (takeIntegral r node) := by
  have hN := S.nodes node hn
  unfold takeIntegral
  have hne : r.ecos.n = l.ecos.n := by
    obtain ⟨_, h1⟩ := S.rl.hew
    obtain ⟨_, h2⟩ := S.rr.hew
    rw [h1.hn, h2.hn]
  rw [cost_sim O hne rfl rfl, hL, ok_bind_eq, ok_bind_eq]
  refine LeR.bind (setNode_sim S hn _ _
    (by exact { status := rfl, L := hN.L, U := rfl, prev := hN.prev, pv := hN.pv
                split := fun h => by simp only [MI_SOLVED_NON_BRANCHABLE] at h; omega })) ?_
  rintro a b ⟨gl', gr', ns, ns', e1, e2, S', n1, n2⟩
  refine LeR.pure ⟨rfl, rfl, gl', gr', ⟨S', by rw [e1, e2]; exact O, by rw [e1], by rw [e1], by rw [n1], .inr (by rw [n1]; exact ⟨rfl, rfl⟩)⟩⟩

theorem tryRounded_sim (C' : Contract P env' G Gb' bad') (A : Alike P env env' K) (h0 : P.stgs.strategy = 0) (fuel fuel' : Nat)
    (S : Sim P K l r gl gr) (hn : node ≤ l.iter) {xf : Nat → F} (hx : Holds l.ecos.x P.n xf) (hx' : r.ecos.x = l.ecos.x)
    (hamb : ∃ i, i < P.nb + P.ni ∧ ∀ a, ambF P i (xf (vr P i)) = .ok a → lt a 1 = true) {tf : Nat → Int} {jf : Nat → F}
    (t1 : Holds l.tmpBool P.nb tf) (t2 : Holds r.tmpBool P.nb tf) (t3 : Holds l.tmpInt (2 * P.ni) jf) (t4 : Holds r.tmpInt (2 * P.ni) jf)
    (tri : ∀ i, i < P.nb → tf i = -1 ∨ tf i = 0 ∨ tf i = 1) (hiv : ∀ i, i < 2 * P.ni → IntVal (jf i)) :
    LeR (fun p q => q.2 = p.2 ∧ ∃ gl' gr', Mid P K node (gl.node node).L l p.1 q.1 gl' gr' ∧ SpEq P (gl'.node node) (gr'.node node) ∧
      (p.2 = false → (gl'.node node).U = (gl.node node).U))
      (tryRounded env fuel l node) (tryRounded env' fuel' r node) := by
  unfold tryRounded chooseVar
  rw [if_pos (by rw [S.rl.stgs_eq]; exact h0), if_pos (by rw [S.rr.stgs_eq]; exact h0)]
  refine LeR.bind (mostInfeasible_sim H S hn hx hx' hamb) ?_
  rintro l1 r1 ⟨gl1, gr1, ns, ns', e1, e2, S1, sp, hU⟩
  have hn1 : node ≤ l1.iter := by rw [e1]; exact hn
  have hN := S1.nodes node hn1
  refine LeR.bind (setNode_sim S1 hn1 (fun nd => { nd with status := MI_SOLVED_BRANCHABLE }) (fun nd => { nd with status := MI_SOLVED_BRANCHABLE })
    ⟨rfl, hN.L, hN.U, hN.prev, hN.pv, fun _ => sp⟩) ?_
  rintro l2 r2 ⟨gl2, gr2, ms, ms', f1, f2, S2, n1, n2⟩
  have i2 : l2.iter = l.iter := by rw [f1, e1]
  have tB : l2.tmpBool = l.tmpBool := by rw [f1, e1]
  have tI : l2.tmpInt = l.tmpInt := by rw [f1, e1]
  have tB' : r2.tmpBool = r.tmpBool := by rw [f2, e2]
  have tI' : r2.tmpInt = r.tmpInt := by rw [f2, e2]
  have gU2 : l2.globalU = l.globalU := by rw [f1, e1]
  rw [← bind_assoc, ← bind_assoc]
  refine LeR.bind (probSolve_sim H.con C' A S2 (bf := tf) (jf := jf) (by rw [tB]; exact fun i hi => by rw [Nat.zero_add]; exact t1.rd hi)
    (by rw [tI]; exact fun i hi => by rw [Nat.zero_add]; exact t3.rd hi) (by rw [tB']; exact fun i hi => by rw [Nat.zero_add]; exact t2.rd hi)
    (by rw [tI']; exact fun i hi => by rw [Nat.zero_add]; exact t4.rd hi) tri hiv) ?_
  rintro ⟨l3, code⟩ ⟨r3, _⟩ ⟨rfl, a, a', xf', q1, q2, D⟩
  simp only at q1 q2 D ⊢
  have i3 : l3.iter = l.iter := by rw [q1]; exact i2
  have gU3 : l3.globalU = l.globalU := by rw [q1]; exact gU2
  have sp2 : SpEq P (gl2.node node) (gr2.node node) := by rw [n1, n2]; exact sp
  have L2 : (gl2.node node).L = (gl.node node).L := by rw [n1]; exact hU.2
  split
  · have hne : r3.ecos.n = l3.ecos.n := by
      obtain ⟨_, h1⟩ := D.sim.rl.hew
      obtain ⟨_, h2⟩ := D.sim.rr.hew
      rw [h1.hn, h2.hn]
    rw [cost_sim D.out hne rfl rfl]
    refine LeR.bind LeR.rfl' ?_
    rintro u _ rfl
    have hn3 : node ≤ l3.iter := by omega
    have hN3 := D.sim.nodes node hn3
    refine LeR.bind (setNode_sim D.sim hn3 (fun nd => { nd with U := u }) (fun nd => { nd with U := u })
      ⟨hN3.status, hN3.L, rfl, hN3.prev, hN3.pv, hN3.split⟩) ?_
    rintro l4 r4 ⟨gl4, gr4, ks, ks', p1, p2, S4, m1, m2⟩
    refine LeR.pure ⟨rfl, gl4, gr4, ⟨S4, by rw [p1, p2]; exact D.out, by rw [p1]; exact gU3, by rw [p1]; exact i3, by rw [m1]; exact L2, .inl ?_⟩, ?_,
      fun h => by cases h⟩
    all_goals rw [m1, m2]; exact sp2
  · exact LeR.pure ⟨rfl, gl2, gr2, ⟨D.sim, D.out, gU3, i3, L2, .inl sp2⟩, sp2, fun _ => by rw [n1]; exact hU.1⟩

/-- after `get_bounds` -/
structure Bnd (P : Par F W) (K : W → W → Prop) (node : Nat) (l0 : St F W I) (g0 : Gh F) (l r : St F W I) (gl gr : Gh F) : Prop where
  sim : Sim P K l r gl gr
  iter : l.iter = l0.iter
  sel : SpEq P (gl.node node) (gr.node node) ∨ (gl.node node).U = (gl.node node).L ∨ lt l0.globalU (gl.node node).L = true
  solU : lt (gl.node node).U INF = true → lt (g0.node node).U INF = true ∨ lt (gl.node node).U l0.globalU = false ∨ SolEq l r

theorem finish_sim {l0 : St F W I} {g0 : Gh F} {Lf : F} (hinf : lt (INF : F) INF = false) (M : Mid P K node Lf l0 l r gl gr) (hn : node ≤ l0.iter) (viable : Bool)
    (hv : viable = true → SpEq P (gl.node node) (gr.node node)) :
    LeR (fun l' r' => ∃ gl' gr', Bnd P K node l0 g0 l' r' gl' gr')
      (updIncumbent l node >>= fun b => closeNode b node viable) (updIncumbent r node >>= fun b => closeNode b node viable) := by
  have S := M.sim
  have hnl : node ≤ l.iter := by rw [M.iter]; exact hn
  have hm : node < P.stgs.maxit := by have := S.rl.iter_lt; omega
  have hN := S.nodes node hnl
  obtain ⟨hf, he⟩ := S.rl.hew
  obtain ⟨hf', he'⟩ := S.rr.hew
  -- the incumbent
  have key : LeR (fun l' r' => Sim P K l' r' gl gr ∧ l'.iter = l.iter ∧ (lt (gl.node node).U l.globalU = true → SolEq l' r'))
      (updIncumbent l node) (updIncumbent r node) := by
    unfold updIncumbent
    rw [S.rl.hnodes.rd hm, S.rr.hnodes.rd hm, ok_bind_eq, ok_bind_eq, hN.U, S.gU]
    split
    · next hlt =>
      obtain ⟨e1, r1⟩ := storeSolution_ok S.rl he
      obtain ⟨e2, r2⟩ := storeSolution_ok S.rr he'
      rw [e1, e2, ok_bind_eq, ok_bind_eq]
      have hs : SolEq { stored l with globalU := (gl.node node).U } { stored r with globalU := (gl.node node).U } :=
        ⟨M.out.x, M.out.y, M.out.z, M.out.s, M.out.kap, M.out.tau⟩
      exact LeR.pure ⟨{ rl := { r1 with }, rr := { r2 with }, iter := S.iter, dive := S.dive, dive_le := S.dive_le, gU := rfl, gL := S.gL
                        nodes := S.nodes, brow := S.brow, irow := S.irow, c := S.c, hid := S.hid, sol := fun _ => hs }, rfl, fun _ => hs⟩
    · next hlt => exact LeR.pure ⟨S, rfl, fun h => absurd h hlt⟩
  refine LeR.bind key ?_
  rintro l1 r1 ⟨S1, i1, hs1⟩
  unfold closeNode
  have hn1 : node ≤ l1.iter := by omega
  -- reset of `U`
  have key2 : LeR (fun l' r' => ∃ gl' gr', Sim P K l' r' gl' gr' ∧ l'.iter = l1.iter ∧ l'.globalU = l1.globalU ∧ (SolEq l1 r1 → SolEq l' r') ∧
        (gl'.node node).L = Lf ∧ ((gl'.node node).U = INF ∨ (gl'.node node).U = (gl.node node).U) ∧
        (SpEq P (gl'.node node) (gr'.node node) ∨ (viable = false ∧ (gl'.node node).U = Lf)))
      (if viable = true then setNode l1 (node : Int) (fun nd => { nd with U := INF }) else pure l1)
      (if viable = true then setNode r1 (node : Int) (fun nd => { nd with U := INF }) else pure r1) := by
    have hN1 := S1.nodes node hn1
    split
    · next hvt =>
      refine (setNode_sim S1 hn1 _ _ ⟨hN1.status, hN1.L, rfl, hN1.prev, hN1.pv, hN1.split⟩).mono ?_
      rintro a b ⟨gl2, gr2, ks, ks', p1, p2, S2, m1, m2⟩
      refine ⟨gl2, gr2, S2, by rw [p1], by rw [p1], fun h => ?_, by rw [m1]; exact M.L, .inl (by rw [m1]), .inl ?_⟩
      · rw [p1, p2]; exact ⟨h.x, h.y, h.z, h.s, h.kap, h.tau⟩
      · rw [m1, m2]; exact hv hvt
    · next hvf =>
      refine LeR.pure ⟨gl, gr, S1, rfl, rfl, id, M.L, .inr rfl, ?_⟩
      rcases M.sel with h | h
      · exact .inl h
      · exact .inr ⟨by simpa using hvf, h.1⟩
  refine LeR.bind key2 ?_
  rintro l2 r2 ⟨gl2, gr2, S2, i2, g2, hs2, L2, U2, sel2⟩
  have hn2 : node ≤ l2.iter := by omega
  have hN2 := S2.nodes node hn2
  have hU : ∀ {x y : St F W I}, (SolEq l2 r2 → SolEq x y) → lt (gl2.node node).U INF = true →
      lt (g0.node node).U INF = true ∨ lt (gl2.node node).U l0.globalU = false ∨ SolEq x y := by
    intro x y hxy hlt
    rcases U2 with h | h
    · rw [h, hinf] at hlt; cases hlt
    · rw [h]
      rcases hc : lt (gl.node node).U l0.globalU with _ | _
      · exact .inr (.inl rfl)
      · exact .inr (.inr (hxy (hs2 (hs1 (by rw [M.gU]; exact hc)))))
  have hsel : SpEq P (gl2.node node) (gr2.node node) ∨ (gl2.node node).U = (gl2.node node).L ∨ lt l0.globalU (gl2.node node).L = true := by
    rcases sel2 with h | h
    · exact .inl h
    · exact .inr (.inl (by rw [h.2, L2]))
  rw [S2.rl.hnodes.rd hm, S2.rr.hnodes.rd hm, ok_bind_eq, ok_bind_eq, hN2.L, S2.gU]
  split
  · refine (setNode_sim S2 hn2 (fun nd => { nd with status := MI_SOLVED_NON_BRANCHABLE }) (fun nd => { nd with status := MI_SOLVED_NON_BRANCHABLE })
      ⟨rfl, hN2.L, hN2.U, hN2.prev, hN2.pv, fun h => by simp only [MI_SOLVED_NON_BRANCHABLE] at h; omega⟩).mono ?_
    rintro a b ⟨gl3, gr3, ks, ks', p1, p2, S3, m1, m2⟩
    refine ⟨gl3, gr3, ⟨S3, by rw [p1]; have := M.iter; simp only; omega, by rw [m1, m2]; exact hsel, ?_⟩⟩
    rw [m1]
    exact hU fun h => by rw [p1, p2]; exact ⟨h.x, h.y, h.z, h.s, h.kap, h.tau⟩
  · exact LeR.pure ⟨gl2, gr2, ⟨S2, by have := M.iter; omega, hsel, hU id⟩⟩

/-- candidates that can be chosen: the distance of one of them from being undecided is below 1 -/
def AmbOk (P : Par F W) (env : Env F W I) : Prop :=
  ∀ bid iid code xf, (∀ i, i < P.nb → bid i = -1 ∨ bid i = 0 ∨ bid i = 1) → (∀ i, i < 2 * P.ni → IntVal (iid i)) →
    Trial P env bid iid code xf → accepted code = true → NonInt P xf → ∃ i, i < P.nb + P.ni ∧ ∀ a, ambF P i (xf (vr P i)) = .ok a → lt a 1 = true

/-- accepted solves of a node give booleans that are rounded to 0 or 1 (or -1) -/
def RoundOk (P : Par F W) (env : Env F W I) : Prop :=
  ∀ bid iid code xf, (∀ i, i < P.nb → bid i = -1 ∨ bid i = 0 ∨ bid i = 1) → (∀ i, i < 2 * P.ni → IntVal (iid i)) →
    Trial P env bid iid code xf → accepted code = true → ∀ i, i < P.nb → ∀ r k, pfRound (xf (P.bv i)) = .ok r → castChar r = .ok k →
      k = -1 ∨ k = 0 ∨ k = 1

/-- no continuous solver -/
def noSolver : Env F W I := ⟨fun _ => .error .fuel, fun _ => 0⟩

omit H in
theorem hyp_noSolver (hp : 0 < P.nb + P.ni) : Hyp P (noSolver : Env F W I) (fun _ => True)
    (fun y => ∀ r k, pfRound y = .ok r → castChar r = .ok k → k = -1 ∨ k = 0 ∨ k = 1) (fun _ => True) (fun k => k = -1 ∨ k = 0 ∨ k = 1) where
  con := ⟨fun _ _ _ _ => trivial, fun _ _ _ _ _ ⟨_, _, _, _, _, h, _⟩ => (by cases h), fun _ => Nat.zero_le _⟩
  floor := fun y _ => by cases pfFloor y P.stgs.intTol <;> trivial
  ceil := fun y _ => by cases pfCeil y P.stgs.intTol <;> trivial
  round := fun y _ => by cases pfRound y <;> trivial
  roundb := fun y hy => by
    cases hr : pfRound y with
    | error e => trivial
    | ok r =>
      rw [Runs_ok]
      cases hk : castChar r with
      | error e => trivial
      | ok k => exact hy r k hr hk
  fuel := fun _ => trivial
  pos := hp

theorem getBounds_sim (C' : Contract P env' G Gb' bad') (A : Alike P env env' K) (h0 : P.stgs.strategy = 0) (hR : RoundOk P env)
    (hA : AmbOk P env) (hinf : lt (INF : F) INF = false) (fuel fuel' : Nat) (S : Sim P K l r gl gr) (hn : node ≤ l.iter) :
    LeR (fun l' r' => ∃ gl' gr', Bnd P K node l gl l' r' gl' gr') (getBounds env fuel node l) (getBounds env' fuel' node r) := by
  have htri : ∀ i, i < P.nb → gl.brow P node i = -1 ∨ gl.brow P node i = 0 ∨ gl.brow P node i = 1 :=
    fun j hj => S.rl.bids _ (S.rl.bpos hn hj).2
  have hn' : node ≤ r.iter := by rw [S.iter]; exact hn
  unfold getBounds
  rw [← bind_assoc, ← bind_assoc, S.rl.nb_eq, S.rl.ni_eq, S.rr.nb_eq, S.rr.ni_eq]
  refine LeR.bind (probSolve_sim H.con C' A S (bf := gl.brow P node) (jf := gl.irow P node) (fun i hi => S.rl.rd_bid hn hi)
    (fun i hi => S.rl.rd_iid hn hi) (fun i hi => by rw [S.rr.rd_bid hn' hi, S.brow node i hn hi])
    (fun i hi => by rw [S.rr.rd_iid hn' hi, S.irow node i hn hi]) htri fun j hj => S.rl.iids _ (S.rl.ipos hn hj).2) ?_
  rintro ⟨l1, code⟩ ⟨r1, _⟩ ⟨rfl, a, a', xf, q1, q2, D⟩
  simp only at q1 q2 D ⊢
  have i1 : l1.iter = l.iter := by rw [q1]
  have u1 : l1.globalU = l.globalU := by rw [q1]
  have hn1 : node ≤ l1.iter := by omega
  have hN1 := D.sim.nodes node hn1
  have hne : r1.ecos.n = l1.ecos.n := by
    obtain ⟨_, h1⟩ := D.sim.rl.hew
    obtain ⟨_, h2⟩ := D.sim.rr.hew
    rw [h1.hn, h2.hn]
  split
  · next hacc =>
    rw [cost_sim D.out hne rfl rfl]
    intro p ep
    cases hL : cost l1 with
    | error u => rw [hL] at ep; cases ep
    | ok L =>
    rw [hL, ok_bind_eq] at ep
    rw [ok_bind_eq]
    revert p
    show LeR _ _ _
    refine LeR.bind (setNode_sim D.sim hn1 (fun nd => { nd with L := L }) (fun nd => { nd with L := L })
      ⟨hN1.status, rfl, hN1.U, hN1.prev, hN1.pv, hN1.split⟩) ?_
    rintro l2 r2 ⟨gl2, gr2, ns, ns', e1, e2, S2, n1, n2⟩
    have i2 : l2.iter = l.iter := by rw [e1]; exact i1
    have u2 : l2.globalU = l.globalU := by rw [e1]; exact u1
    have hn2 : node ≤ l2.iter := by omega
    have hN2 := S2.nodes node hn2
    rw [S2.gU]
    split
    · next hc =>
      refine (setNode_sim S2 hn2 (fun nd => { nd with status := MI_SOLVED_NON_BRANCHABLE }) (fun nd => { nd with status := MI_SOLVED_NON_BRANCHABLE })
        ⟨rfl, hN2.L, hN2.U, hN2.prev, hN2.pv, fun h => by simp only [MI_SOLVED_NON_BRANCHABLE] at h; omega⟩).mono ?_
      rintro a b ⟨gl3, gr3, ks, ks', p1, p2, S3, m1, m2⟩
      refine ⟨gl3, gr3, ⟨S3, by rw [p1]; simp only; omega, .inr (.inr ?_), fun h => .inl ?_⟩⟩
      · rw [m1, n1]; rw [u2] at hc; exact hc
      · rw [m1, n1] at h; exact h
    · -- solved
      unfold boundsSolved
      refine LeR.bind (setNode_sim S2 hn2 (fun nd => { nd with relaxation := L }) (fun nd => { nd with relaxation := L })
        ⟨hN2.status, hN2.L, hN2.U, hN2.prev, hN2.pv, hN2.split⟩) ?_
      rintro l3 r3 ⟨gl3, gr3, ks, ks', f1, f2, S3, m1, m2⟩
      have i3 : l3.iter = l.iter := by rw [f1]; exact i2
      refine LeR.bind (pseudoUpdate_sim H S3 (by omega)) ?_
      rintro l4 r4 ⟨S4, pc, pc'⟩
      have ec4 : l4.ecos = l1.ecos := by rw [pc.ecos, f1, e1]
      have ec4' : r4.ecos = r1.ecos := by rw [pc'.ecos, f2, e2]
      have i4 : l4.iter = l.iter := by rw [pc.same.iter]; exact i3
      have u4 : l4.globalU = l.globalU := by rw [pc.same.gU, f1]; exact u2
      have hx4 : Holds l4.ecos.x P.n xf := by rw [ec4]; exact D.hx
      have hx4' : r4.ecos.x = l4.ecos.x := by rw [ec4, ec4', D.out.x]
      have hivs : ∀ i, i < 2 * P.ni → IntVal (gl.irow P node i) := fun j hj => S.rl.iids _ (S.rl.ipos hn hj).2
      have hR4 := roundAll_ok (hyp_noSolver H.pos : Hyp P (noSolver : Env F W I) _ _ _ _) S4.rl hx4 (hR _ _ _ _ htri hivs D.trial hacc)
        fun _ _ => trivial
      intro p ep
      cases hq : roundAll l4 with
      | error u => rw [hq] at ep; cases ep
      | ok q =>
      obtain ⟨tb0, ti0, tf0, jf0, b1, b2, b3, b4, b5, b6, b7⟩ := hR4.out hq
      obtain ⟨q', hq', hflag, tb, ti, tb', ti', tf, jf, c1, c2, c3, c4, c5, c6⟩ := roundAll_sim H S4 hx4 hx4' q hq
      rw [hq, ok_bind_eq] at ep
      rw [hq', ok_bind_eq]
      revert p
      show LeR _ _ _
      obtain ⟨l5, flag⟩ := q
      obtain ⟨r5, flag'⟩ := q'
      simp only at b1 b6 b7 hflag c1 c2 ⊢
      subst hflag
      have htb : tb = tb0 := by rw [c1] at b1; exact congrArg St.tmpBool b1
      have tri5 : ∀ i, i < P.nb → tf i = -1 ∨ tf i = 0 ∨ tf i = 1 := fun i hi => by
        rw [htb] at c3
        rw [Holds.uniq b2 c3 hi]
        exact b4 i hi
      have hti : ti = ti0 := by rw [c1] at b1; exact congrArg St.tmpInt b1
      have hiv5 : ∀ i, i < 2 * P.ni → IntVal (jf i) := fun i hi => by
        rw [hti] at c5
        rw [Holds.uniq b3 c5 hi]
        obtain ⟨k, k1, k2⟩ := b5 (i / 2) (by omega)
        rcases (by omega : i = 2 * (i / 2) ∨ i = 2 * (i / 2) + 1) with h | h
        · exact ⟨k, .inr (by rw [h]; exact k1)⟩
        · exact ⟨k, .inl (by rw [h]; exact k2)⟩
      have S5 : Sim P K l5 r5 gl3 gr3 := by
        rw [c1, c2]
        exact S4.of { S4.rl with tmpB := c3.1, tmpI := c5.1 } { S4.rr with tmpB := c4.1, tmpI := c6.1 } ⟨rfl, rfl, rfl, rfl, rfl, rfl, rfl, rfl, rfl, rfl, rfl⟩
          ⟨rfl, rfl, rfl, rfl, rfl, rfl, rfl, rfl, rfl, rfl, rfl⟩ rfl rfl
      have i5 : l5.iter = l.iter := by rw [c1]; exact i4
      have u5 : l5.globalU = l.globalU := by rw [c1]; exact u4
      have ec5 : l5.ecos = l1.ecos := by rw [c1]; exact ec4
      have ec5' : r5.ecos = r1.ecos := by rw [c2]; exact ec4'
      have L3 : (gl3.node node).L = L := by rw [m1, n1]
      have U3 : (gl3.node node).U = (gl.node node).U := by rw [m1, n1]
      have fin : ∀ (lr rr : St F W I × Bool), rr.2 = lr.2 →
          (∃ gl' gr', Mid P K node L l lr.1 rr.1 gl' gr' ∧ (lr.2 = true → SpEq P (gl'.node node) (gr'.node node))) →
          LeR (fun l' r' => ∃ gl' gr', Bnd P K node l gl l' r' gl' gr') (updIncumbent lr.1 node >>= fun b => closeNode b node lr.2)
            (updIncumbent rr.1 node >>= fun b => closeNode b node rr.2) := by
        rintro lr rr e ⟨gl', gr', M, hv⟩
        rw [e]
        exact finish_sim H hinf M hn lr.2 hv
      cases flag' with
      | true =>
        simp only [if_true]
        refine LeR.bind (takeIntegral_sim H S5 (by omega) (by rw [ec5, ec5']; exact D.out)
          (by rw [L3, cost_congr (bb' := l1) ec5]; exact hL)) ?_
        rintro lr rr ⟨e, hfalse, gl', gr', M⟩
        refine fin lr rr e ⟨gl', gr', ⟨M.sim, M.out, M.gU.trans u5, M.iter.trans i5, M.L.trans L3, ?_⟩, fun h => by rw [hfalse] at h; cases h⟩
        rcases M.sel with h | h
        · exact .inl h
        · exact .inr ⟨h.1.trans L3, h.2⟩
      | false =>
        simp only [Bool.false_eq_true, if_false]
        refine LeR.bind (tryRounded_sim H C' A h0 fuel fuel' S5 (by omega) (xf := xf) (by rw [ec5]; exact D.hx) (by rw [ec5, ec5', D.out.x])
          (hA _ _ _ _ htri hivs D.trial hacc (b7 rfl)) (tf := tf) (jf := jf) (by rw [c1]; exact c3) (by rw [c2]; exact c4) (by rw [c1]; exact c5)
          (by rw [c2]; exact c6) tri5 hiv5) ?_
        rintro lr rr ⟨e, gl', gr', M, sp, hU⟩
        exact fin lr rr e ⟨gl', gr', ⟨M.sim, M.out, M.gU.trans u5, M.iter.trans i5, M.L.trans L3, .inl sp⟩, fun _ => sp⟩
  · refine (setNode_sim D.sim hn1 (fun nd => { nd with L := INF, U := INF, status := MI_SOLVED_NON_BRANCHABLE })
      (fun nd => { nd with L := INF, U := INF, status := MI_SOLVED_NON_BRANCHABLE })
      ⟨rfl, rfl, rfl, hN1.prev, hN1.pv, fun h => by simp only [MI_SOLVED_NON_BRANCHABLE] at h; omega⟩).mono ?_
    rintro a b ⟨gl3, gr3, ks, ks', p1, p2, S3, m1, m2⟩
    refine ⟨gl3, gr3, ⟨S3, by rw [p1]; simp only; omega, .inr (.inl (by rw [m1])), fun h => ?_⟩⟩
    rw [m1] at h
    simp only at h
    rw [hinf] at h
    cases h

end bounds

/-! ### The search -/

theorem branch_sim {cur : Nat} (S : Sim P K l r gl gr) (hcur : cur ≤ l.iter) (hit : l.iter + 1 < P.stgs.maxit)
    (sp : SpEq P (gl.node cur) (gr.node cur)) :
    LeR (fun l' r' => l'.iter = l.iter + 1 ∧ ∃ gl' gr', Sim P K l' r' gl' gr')
      (branch cur { l with iter := l.iter + 1 }) (branch cur { r with iter := r.iter + 1 }) := by
  intro l' e
  obtain ⟨s1, s2, s3, s4⟩ := sp
  have tr : ∀ {α : Type} (m : M α), Runs (fun _ => True) m (fun _ => True) := fun m => by cases m <;> trivial
  obtain ⟨g1, B⟩ := (branch_ok (bad := fun _ => True) (fun _ => tr _) (fun _ => tr _) S.rl hcur hit s3 s4).out e
  have hr := branch_ok (bad := fun _ => False) (bb := r) (g := gr) (cur := cur)
    (fun h => by
      rcases B.rows with ⟨j, hj, h1, -⟩ | ⟨j, fl, ce, -, -, h1, -⟩
      · rw [s1, h1] at h; omega
      · rw [s2, h1]; trivial)
    (fun h => by
      rcases B.rows with ⟨j, hj, h1, -⟩ | ⟨j, fl, ce, -, -, -, h1, -⟩
      · rw [s1, h1] at h; omega
      · rw [s2, h1]; trivial) S.rr (by rw [S.iter]; exact hcur) (by rw [S.iter]; exact hit) (by rw [s1]; exact s3) (by rw [s1]; exact s4)
  obtain ⟨r', e', g2, B'⟩ := (Ok.def _ _).mp (hr.ok_of_not_bad (fun _ h => h))
  have hit' : r.iter + 1 = l.iter + 1 := by rw [S.iter]
  have hN := S.nodes cur hcur
  have rows : (∀ i, i < P.nb → g2.brow P cur i = g1.brow P cur i) ∧ (∀ i, i < 2 * P.ni → g2.irow P cur i = g1.irow P cur i) ∧
      (∀ i, i < P.nb → g2.brow P (l.iter + 1) i = g1.brow P (l.iter + 1) i) ∧
      (∀ i, i < 2 * P.ni → g2.irow P (l.iter + 1) i = g1.irow P (l.iter + 1) i) := by
    have hB' := B'.rows
    rw [hit'] at hB'
    rcases B.rows with ⟨j, hj, h1, a1, a2, a3, a4⟩ | ⟨j, fl, ce, hj, h1, q1, q2, a1, a2, a3, a4⟩ <;>
      rcases hB' with ⟨j', hj', h1', b1, b2, b3, b4⟩ | ⟨j', fl', ce', hj', h1', q1', q2', b1, b2, b3, b4⟩ <;>
      rw [s1, h1] at h1'
    · obtain rfl : j = j' := by omega
      refine ⟨fun i hi => ?_, fun i hi => ?_, fun i hi => ?_, fun i hi => ?_⟩
      · rw [a1 i hi, b1 i hi]; unfold upd; split <;> [rfl; exact S.brow _ _ hcur hi]
      · rw [a2 i hi, b2 i hi]; exact S.irow _ _ hcur hi
      · rw [a3 i hi, b3 i hi]; unfold upd; split <;> [rfl; exact S.brow _ _ hcur hi]
      · rw [a4 i hi, b4 i hi]; exact S.irow _ _ hcur hi
    · omega
    · omega
    · obtain rfl : j = j' := by omega
      rw [s2, q1] at q1'
      rw [s2, q2] at q2'
      cases q1'
      cases q2'
      refine ⟨fun i hi => ?_, fun i hi => ?_, fun i hi => ?_, fun i hi => ?_⟩
      · rw [a1 i hi, b1 i hi]; exact S.brow _ _ hcur hi
      · rw [a2 i hi, b2 i hi]; unfold upd; split <;> [rfl; exact S.irow _ _ hcur hi]
      · rw [a3 i hi, b3 i hi]; exact S.brow _ _ hcur hi
      · rw [a4 i hi, b4 i hi]; unfold upd; split <;> [rfl; exact S.irow _ _ hcur hi]
  refine ⟨r', e', B.iter, g1, g2, ?_⟩
  exact {
    rl := B.rep
    rr := B'.rep
    iter := by rw [B.iter, B'.iter, S.iter]
    dive := by rw [B.dive, B'.dive, S.dive]
    dive_le := by have := S.dive_le; rw [B.dive, B.iter]; omega
    gU := by rw [B.gU, B'.gU, S.gU]
    gL := by rw [B.gL, B'.gL, S.gL]
    nodes := fun k hk => by
      rw [B.iter] at hk
      by_cases h1 : k = cur
      · subst h1
        rw [B.left, B'.left]
        exact ⟨rfl, hN.L, hN.U, s1, fun _ => ⟨s2, rfl⟩, fun h => by simp only [leftOf, MI_NOT_SOLVED] at h; omega⟩
      · by_cases h2 : k = l.iter + 1
        · subst h2
          have := B'.right
          rw [hit'] at this
          rw [B.right, this]
          exact ⟨rfl, hN.L, hN.U, s1, fun _ => ⟨s2, rfl⟩, fun h => by simp only [rightOf, MI_NOT_SOLVED] at h; omega⟩
        · rw [B.others k h1 h2, B'.others k h1 (by rw [S.iter]; exact h2)]
          exact S.nodes k (by omega)
    brow := fun k i hk hi => by
      rw [B.iter] at hk
      by_cases h1 : k = cur
      · subst h1; exact rows.1 i hi
      · by_cases h2 : k = l.iter + 1
        · subst h2; exact rows.2.2.1 i hi
        · rw [B.brows k i (by omega) h1 hi, B'.brows k i (by rw [S.iter]; omega) h1 hi]
          exact S.brow k i (by omega) hi
    irow := fun k i hk hi => by
      rw [B.iter] at hk
      by_cases h1 : k = cur
      · subst h1; exact rows.2.1 i hi
      · by_cases h2 : k = l.iter + 1
        · subst h2; exact rows.2.2.2 i hi
        · rw [B.irows k i (by omega) h1 hi, B'.irows k i (by rw [S.iter]; omega) h1 hi]
          exact S.irow k i (by omega) hi
    c := by rw [B.ecos, B'.ecos, S.c]
    hid := by rw [B.ecos, B'.ecos]; exact S.hid
    sol := fun h => by
      rw [B.gU] at h
      have := S.sol h
      exact ⟨by rw [B.x, B'.x, this.x], by rw [B.y, B'.y, this.y], by rw [B.z, B'.z, this.z], by rw [B.s, B'.s, this.s],
        by rw [B.kap, B'.kap, this.kap], by rw [B.tau, B'.tau, this.tau]⟩ }

theorem getGlobalL_sim (S : Sim P K l r gl gr) : LeR (fun a b => b = a) (getGlobalL l) (getGlobalL r) := by
  unfold getGlobalL
  rw [S.iter]
  refine loopI (R := fun _ a b => b = a) (Nat.zero_le _) rfl ?_
  rintro i a _ _ hi rfl
  have hm : i < P.stgs.maxit := by have := S.rl.iter_lt; omega
  unfold minStep
  rw [S.rl.hnodes.rd hm, S.rr.hnodes.rd hm, ok_bind_eq, ok_bind_eq, (S.nodes i (by omega)).L]
  exact LeR.pure rfl

/-- what the choice of the next node does to the two states -/
def Next (P : Par F W) (l r : St F W I) (gl : Gh F) (p q : St F W I × Int) : Prop :=
  q.2 = p.2 ∧ (∃ d, p.1 = { l with dive := d } ∧ q.1 = { r with dive := d } ∧ d ≤ l.iter) ∧
    (0 ≤ p.2 → ∃ k : Nat, p.2 = (k : Int) ∧ k ≤ l.iter ∧ (gl.node k).status = 2)

theorem nextScan_sim (S : Sim P K l r gl gr) : LeR (Next P l r gl) (nextScan l) (nextScan r) := by
  unfold nextScan
  rw [S.iter]
  refine LeR.bind (loopI (R := fun _ (a b : Int × F) => b = a ∧ a.1 ≤ (l.iter : Int) ∧ (0 ≤ a.1 → ∃ k : Nat, a.1 = (k : Int) ∧ k ≤ l.iter ∧ (gl.node k).status = 2))
    (Nat.zero_le _) ⟨rfl, by simp only; omega, fun h => by simp only at h; omega⟩ ?_) ?_
  · rintro i a _ _ hi ⟨rfl, h1, h2⟩
    have hm : i < P.stgs.maxit := by have := S.rl.iter_lt; omega
    have hN := S.nodes i (by omega)
    unfold nextStep
    rw [S.rl.hnodes.rd hm, S.rr.hnodes.rd hm, ok_bind_eq, ok_bind_eq, hN.L, hN.status, S.gU]
    split
    · next hc => exact LeR.pure ⟨rfl, by simp only; omega, fun _ => ⟨i, rfl, by omega, hc.1⟩⟩
    · exact LeR.pure ⟨rfl, h1, h2⟩
  · rintro a _ ⟨rfl, h1, h2⟩
    exact LeR.pure ⟨rfl, ⟨_, rfl, by rw [S.iter], h1⟩, h2⟩

theorem getNextNode_sim (S : Sim P K l r gl gr) : LeR (Next P l r gl) (getNextNode l) (getNextNode r) := by
  unfold getNextNode
  rw [show r.stgs = l.stgs by rw [S.rl.stgs_eq, S.rr.stgs_eq], S.dive]
  split
  · by_cases hd : l.dive < 0
    · intro a e
      exfalso
      unfold rdI at e
      rw [if_pos hd] at e
      cases e
    · obtain ⟨k, hk⟩ := Int.eq_ofNat_of_zero_le (show 0 ≤ l.dive by omega)
      have hki : k ≤ l.iter := by have := S.dive_le; omega
      have hm : k < P.stgs.maxit := by have := S.rl.iter_lt; omega
      rw [hk, rdI_nat, rdI_nat, S.rl.hnodes.rd hm, S.rr.hnodes.rd hm, ok_bind_eq, ok_bind_eq, (S.nodes k hki).status]
      split
      · next hc =>
        refine LeR.pure ⟨rfl, ⟨l.dive, rfl, ?_, S.dive_le⟩, fun _ => ⟨k, rfl, hki, hc⟩⟩
        rw [← S.dive]
      · exact nextScan_sim S
  · split
    · rw [S.iter]
      have hm : l.iter < P.stgs.maxit := S.rl.iter_lt
      rw [S.rl.hnodes.rd hm, S.rr.hnodes.rd hm, ok_bind_eq, ok_bind_eq, (S.nodes _ (Nat.le_refl _)).status]
      split
      · next hc =>
        refine LeR.pure ⟨rfl, ⟨l.dive, rfl, ?_, S.dive_le⟩, fun _ => ⟨l.iter, rfl, Nat.le_refl _, hc⟩⟩
        rw [← S.dive]
      · exact nextScan_sim S
    · exact nextScan_sim S

theorem shouldContinue_sim (S : Sim P K l r gl gr) (cur : Int) : shouldContinue r cur = shouldContinue l cur := by
  unfold shouldContinue
  rw [S.gU, S.gL, S.iter, show r.stgs = l.stgs by rw [S.rl.stgs_eq, S.rr.stgs_eq]]

section search
variable (H : Hyp P env G Gb bad Rb)
include H

theorem searchStep_sim (C' : Contract P env' G Gb' bad') (A : Alike P env env' K) (h0 : P.stgs.strategy = 0) (hR : RoundOk P env)
    (hA : AmbOk P env) (hinf : lt (INF : F) INF = false) (fuel fuel' : Nat) {c : Nat} (S : Sim P K l r gl gr) (hc : c ≤ l.iter)
    (hit : l.iter + 1 < P.stgs.maxit) (sp : SpEq P (gl.node c) (gr.node c)) :
    LeR (fun (p q : St F W I × Int) => q.2 = p.2 ∧ ∃ gl' gr', Sim P K p.1 q.1 gl' gr' ∧
      (0 ≤ p.2 → ∃ k : Nat, p.2 = (k : Int) ∧ k ≤ p.1.iter ∧ SpEq P (gl'.node k) (gr'.node k)))
      (searchStep env fuel (c : Int) l) (searchStep env' fuel' (c : Int) r) := by
  unfold searchStep
  simp only [Int.toNat_natCast]
  refine LeR.bind (branch_sim S hc hit sp) ?_
  rintro l1 r1 ⟨i1, gl1, gr1, S1⟩
  refine LeR.bind (getBounds_sim H C' A h0 hR hA hinf fuel fuel' S1 (by omega)) ?_
  rintro l2 r2 ⟨gl2, gr2, B2⟩
  rw [B2.sim.iter]
  refine LeR.bind (getBounds_sim H C' A h0 hR hA hinf fuel fuel' B2.sim (Nat.le_refl _)) ?_
  rintro l3 r3 ⟨gl3, gr3, B3⟩
  refine LeR.bind (getGlobalL_sim B3.sim) ?_
  rintro _ a rfl
  have S3 := B3.sim
  have S4 : Sim P K { l3 with globalL := a } { r3 with globalL := a } gl3 gr3 :=
    { rl := { S3.rl with }, rr := { S3.rr with }, iter := S3.iter, dive := S3.dive, dive_le := S3.dive_le, gU := S3.gU, gL := rfl, nodes := S3.nodes
      brow := S3.brow, irow := S3.irow, c := S3.c, hid := S3.hid
      sol := fun h => ⟨(S3.sol h).x, (S3.sol h).y, (S3.sol h).z, (S3.sol h).s, (S3.sol h).kap, (S3.sol h).tau⟩ }
  refine (getNextNode_sim S4).mono ?_
  rintro p q ⟨h1, ⟨d, h2, h3, h4⟩, h5⟩
  refine ⟨h1, gl3, gr3, ?_, fun h => ?_⟩
  · rw [h2, h3]
    exact { rl := { S4.rl with }, rr := { S4.rr with }, iter := S4.iter, dive := rfl, dive_le := h4, gU := S4.gU, gL := rfl, nodes := S4.nodes
            brow := S4.brow, irow := S4.irow, c := S4.c, hid := S4.hid
            sol := fun h => ⟨(S4.sol h).x, (S4.sol h).y, (S4.sol h).z, (S4.sol h).s, (S4.sol h).kap, (S4.sol h).tau⟩ }
  · obtain ⟨k, k1, k2, k3⟩ := h5 h
    refine ⟨k, k1, by rw [h2]; exact k2, (S4.nodes k k2).split k3⟩

theorem search_sim (C' : Contract P env' G Gb' bad') (A : Alike P env env' K) (h0 : P.stgs.strategy = 0) (hR : RoundOk P env)
    (hA : AmbOk P env) (hinf : lt (INF : F) INF = false) (fuel fuel' k : Nat) : ∀ {cur : Int} {l r : St F W I} {gl gr : Gh F}, Sim P K l r gl gr →
    (shouldContinue l cur = true → ∃ c : Nat, cur = (c : Int) ∧ c ≤ l.iter ∧ SpEq P (gl.node c) (gr.node c)) →
    LeR (fun l' r' => ∃ gl' gr', Sim P K l' r' gl' gr') (search env fuel k cur l) (search env' fuel' k cur r) := by
  induction k with
  | zero =>
    intro cur l r gl gr S hcur
    unfold search
    rw [shouldContinue_sim S]
    split
    · exact LeR.error
    · exact LeR.pure ⟨gl, gr, S⟩
  | succ k ih =>
    intro cur l r gl gr S hcur
    unfold search
    rw [shouldContinue_sim S]
    split
    · next hc =>
      obtain ⟨c, rfl, h1, h2⟩ := hcur hc
      have hit : l.iter + 1 < P.stgs.maxit := by
        unfold shouldContinue at hc
        simp only [Bool.and_eq_true, decide_eq_true_eq] at hc
        have := hc.2
        rw [S.rl.stgs_eq] at this
        omega
      refine LeR.bind (searchStep_sim H C' A h0 hR hA hinf fuel fuel' S h1 hit h2) ?_
      rintro ⟨l1, c1⟩ ⟨r1, _⟩ ⟨rfl, gl1, gr1, S1, h3⟩
      refine ih S1 fun hc' => h3 ?_
      unfold shouldContinue at hc'
      simp only [Bool.and_eq_true, decide_eq_true_eq] at hc'
      exact hc'.1.2
    · exact LeR.pure ⟨gl, gr, S⟩

/-- **two searches on the same problem give the same answer** -/
theorem bbSolve_sim (C' : Contract P env' G Gb' bad') (A : Alike P env env' K) (h0 : P.stgs.strategy = 0) (hR : RoundOk P env)
    (hA : AmbOk P env) (hinf : ∀ a : F, lt (INF : F) a = false) (hgap : ∀ u : F, lt P.stgs.absTol (u - u) = false) (fuel fuel' : Nat)
    (sl : Start P G l) (sr : Start P G r) (hc : r.ecos.c = l.ecos.c) (hK : K l.ecos.hid r.ecos.hid) :
    LeR (fun p q => q.2 = p.2 ∧ ∃ l' r' gl gr, Sim P K l' r' gl gr ∧ p = (loaded l', getRetCode l') ∧ q = (loaded r', getRetCode r'))
      (bbSolve env fuel l) (bbSolve env' fuel' r) := by
  unfold bbSolve
  obtain ⟨l0, g0, e0, r0, i0, d0, u0, nu0, -, b0, j0, ec0, gl0, st0, L0, pv0⟩ := initRoot_ok H sl
  obtain ⟨l0', g0', e0', r0', i0', d0', u0', nu0', -, b0', j0', ec0', gl0', st0', L0', pv0'⟩ := initRoot_ok H sr
  rw [e0, e0', ok_bind_eq, ok_bind_eq]
  have S0 : Sim P K l0 l0' g0 g0' := {
    rl := r0
    rr := r0'
    iter := by rw [i0, i0']
    dive := by rw [d0, d0']
    dive_le := by rw [d0]; omega
    gU := by rw [u0, u0']
    gL := by rw [gl0, gl0']
    nodes := fun k hk => by
      obtain rfl : k = 0 := by omega
      exact ⟨by rw [st0, st0'], by rw [L0, L0'], by rw [nu0, nu0'], by rw [pv0, pv0'], fun h => by rw [pv0] at h; omega,
        fun h => by rw [st0] at h; simp only [MI_NOT_SOLVED] at h; omega⟩
    brow := fun k i hk hi => by
      obtain rfl : k = 0 := by omega
      rw [b0 i hi, b0' i hi]
    irow := fun k i hk hi => by
      obtain rfl : k = 0 := by omega
      rw [j0 i hi, j0' i hi]
    c := by rw [ec0, ec0', hc]
    hid := by rw [ec0, ec0']; exact hK
    sol := fun h => by rw [u0, hinf] at h; cases h }
  refine LeR.bind (getBounds_sim H C' A h0 hR hA (hinf _) fuel fuel' S0 (Nat.zero_le _)) ?_
  rintro l1 r1 ⟨gl1, gr1, B⟩
  have S1 := B.sim
  have hN := S1.nodes 0 (Nat.zero_le _)
  have hm := sl.maxit_pos
  rw [S1.rl.hnodes.rd hm, S1.rr.hnodes.rd hm, ok_bind_eq, ok_bind_eq, hN.L, hN.U]
  have hstg : r1.stgs.maxit = l1.stgs.maxit := by rw [S1.rl.stgs_eq, S1.rr.stgs_eq]
  have S2 : Sim P K { l1 with globalL := (gl1.node 0).L, globalU := (gl1.node 0).U } { r1 with globalL := (gl1.node 0).L, globalU := (gl1.node 0).U }
      gl1 gr1 := {
    rl := { S1.rl with }
    rr := { S1.rr with }
    iter := S1.iter
    dive := S1.dive
    dive_le := S1.dive_le
    gU := rfl
    gL := rfl
    nodes := S1.nodes
    brow := S1.brow
    irow := S1.irow
    c := S1.c
    hid := S1.hid
    sol := fun h => by
      simp only at h
      rcases B.solU h with h1 | h1 | h1
      · rw [nu0, hinf] at h1; cases h1
      · rw [u0, h] at h1; cases h1
      · exact ⟨h1.x, h1.y, h1.z, h1.s, h1.kap, h1.tau⟩ }
  simp only
  rw [hstg]
  refine LeR.bind (search_sim H C' A h0 hR hA (hinf _) fuel fuel' _ S2 (cur := 0) fun hcont => ⟨0, rfl, Nat.zero_le _, ?_⟩) ?_
  · rcases B.sel with h | h | h
    · exact h
    · exfalso
      unfold shouldContinue at hcont
      simp only [Bool.and_eq_true] at hcont
      have h1 := hcont.1.1.1
      rw [h, S1.rl.stgs_eq, hgap] at h1
      cases h1
    · rw [u0, hinf] at h; cases h
  · rintro l2 r2 ⟨gl2, gr2, S⟩
    obtain ⟨hf, he⟩ := S.rl.hew
    obtain ⟨hf', he'⟩ := S.rr.hew
    rw [loadSolution_ok S.rl he, loadSolution_ok S.rr he', ok_bind_eq, ok_bind_eq]
    refine LeR.pure ⟨?_, l2, r2, gl2, gr2, S, rfl, rfl⟩
    show getRetCode r2 = getRetCode l2
    unfold getRetCode
    rw [S.iter, S.gU, show r2.stgs = l2.stgs by rw [S.rl.stgs_eq, S.rr.stgs_eq]]

end search

end BB
end Ecos
