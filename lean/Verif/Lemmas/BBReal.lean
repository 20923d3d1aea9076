import Verif.Model.BBReal
import Verif.Lemmas.BBGen
import Verif.Lemmas.Dir6
import Verif.Props.Equil

/-! # The contract of the mixed-integer search, for the real continuous solver -/
set_option linter.unusedSectionVars false

namespace Ecos
namespace BB

open Ecos.Asm

variable {F : Type} [Zero F] [One F] [Add F] [Sub F] [Mul F] [Div F] [Neg F] [OfScientific F]
  [IntCast F] [PFloat F] [HasInf F] {T : Pat} {S : Shape} {amd : Nat → Buf Nat → Buf Nat → Option (Buf Nat)}

/-- what neither the search nor the continuous solver changes -/
structure Fixed (w0 w : Work F) : Prop where
  A : w.A = w0.A
  G : w.G = w0.G
  b : w.b = w0.b
  xe : w.xequil = w0.xequil
  ye : w.Aequil = w0.Aequil
  ze : w.Gequil = w0.Gequil
  stgs : w.stgs = w0.stgs

theorem holds_unique {α : Type} {a b : Buf α} {n : Nat} {f : Nat → α} (ha : Holds a n f) (hb : Holds b n f) : a = b := by
  refine Array.ext (by rw [ha.1, hb.1]) fun i h1 h2 => ?_
  have e1 := ha.2 i (by rw [← ha.1]; exact h1)
  have e2 := hb.2 i (by rw [← hb.1]; exact h2)
  rw [Array.getElem?_eq_getElem h1] at e1
  rw [Array.getElem?_eq_getElem h2] at e2
  exact (Option.some.inj e1).trans (Option.some.inj e2).symm

/-- the rows of the integer variables have integer bounds -/
def IntRows (nb ni : Nat) (w : Work F) : Prop :=
  ∀ r, 2 * nb ≤ r → r < 2 * (nb + ni) → ∃ g k, rd w.Gequil r = .ok g ∧ rd w.h r = .ok (k / g) ∧ IntVal k

/-- the rows of the boolean variables have a bound -1, 0 or 1, or the one of the set-up -/
def UnitRows (nb : Nat) (w : Work F) : Prop :=
  ∀ r, r < 2 * nb → ∃ g k, rd w.Gequil r = .ok g ∧ rd w.h r = .ok (k / g) ∧ BoolBnd k

/-- the costs that may be found: a solve divides by the scaling and multiplies again, or does not if it stops outside of the cone -/
inductive Costs (n : Nat) (xe c0 : Nat → F) : (Nat → F) → Prop
  | start {c : Nat → F} (h : ∀ i, i < n → c i = c0 i) : Costs n xe c0 c
  | div {c c' : Nat → F} (hc : Costs n xe c0 c) (h : ∀ i, i < n → c' i = c i / xe i) : Costs n xe c0 c'
  | mul {c c' : Nat → F} (hc : Costs n xe c0 c) (h : ∀ i, i < n → c' i = c i / xe i * xe i) : Costs n xe c0 c'

/-- `w` is the continuous workspace `w0` with other bounds of the declared variables, and perhaps with costs scaled by earlier solves -/
structure NodeData (amd : Nat → Buf Nat → Buf Nat → Option (Buf Nat)) (T : Pat) (S : Shape) (nb ni : Nat) (w0 w : Work F) : Prop where
  live : LiveW amd T S w
  fixed : Fixed w0 w
  user : ∀ r, 2 * (nb + ni) ≤ r → w.h[r]? = w0.h[r]?
  bools : UnitRows nb w
  ints : IntRows nb ni w
  cost : ∃ xe c0 c, Holds w0.xequil T.n xe ∧ Holds w0.c T.n c0 ∧ Costs T.n xe c0 c ∧ Holds w.c T.n c

/-- the data of a search on the workspace `w0`; `z` are its row scalings, `cs` the costs that may be found -/
def realPar (amd : Nat → Buf Nat → Buf Nat → Option (Buf Nat)) (T : Pat) (S : Shape) (w0 : Work F) (cs : (Nat → F) → Prop)
    (nb ni : Nat) (bv iv : Nat → Nat) (hu z : Nat → F) (stgs : Stgs F) : Par F (Hid F) :=
  { nb := nb, ni := ni, n := T.n, p := T.p, m := T.m, bv := bv, iv := iv, cs := cs, hu := hu, geq := z, stgs := stgs,
    ok := fun k => LiveW amd T S k.w ∧ Fixed w0 k.w }

variable {w0 : Work F} {cs : (Nat → F) → Prop} {nb ni : Nat} {bv iv : Nat → Nat} {hu z : Nat → F} {stgs : Stgs F}

local notation "RP" => realPar amd T S w0 cs nb ni bv iv hu z stgs

theorem toWork_ofWork (w : Work F) (sig : Sig) (k : Nat) : toWork (ofWork w sig k) = w := rfl

theorem toWork_fixed (hz : Holds w0.Gequil T.m z) {e : EW F (Hid F) (Stats F)} {hf : Nat → F} (h : EWF RP e hf) : Fixed w0 (toWork e) := by
  obtain ⟨-, hx⟩ := h.hok
  exact ⟨hx.A, hx.G, hx.b, hx.xe, hx.ye, holds_unique h.hg hz, hx.stgs⟩

/-- the workspace in front of a call of the continuous solver is in order -/
theorem toWork_live (hz : Holds w0.Gequil T.m z) {e : EW F (Hid F) (Stats F)} {hf : Nat → F} (h : EWF RP e hf) :
    LiveW amd T S (toWork e) := by
  obtain ⟨⟨a, g, c, b, h', xe, ye, ze, π, ai, q, ax, sg, hl⟩, hx⟩ := h.hok
  obtain ⟨cf, -, hc⟩ := h.hc
  have hs := hl.sz
  have hd := hl.data
  have hge : e.gequil = e.hid.w.Gequil := (holds_unique h.hg hz).trans hx.ze.symm
  have hn : e.n = T.n := h.hn
  have hm : e.m = T.m := h.hm
  have hp : e.p = T.p := h.hp
  refine ⟨a, g, cf, b, hf, xe, ye, ze, π, ai, q, ax, sg,
    ⟨hn, hm, hp, hs.D, h.sx, h.sy, h.sz, h.ss, hs.bx, hs.b_y, hs.bz, hs.bs, hs.rx, hs.ry, hs.rz⟩,
    ⟨hd.A, hd.G, hc, hd.b, h.hh, hd.xe, hd.ye, ?_, hd.ua, hd.mA, hd.mG⟩, hl.cone, hl.made, hl.ord, hl.val⟩
  show Holds e.gequil T.m ze
  rw [hge]
  exact hd.ze

/-- the costs that may be found in the workspace: what division by the equilibration and back again makes of them -/
structure CostOk (T : Pat) (w0 : Work F) (cs : (Nat → F) → Prop) : Prop where
  div : ∀ c xe, cs c → Holds w0.xequil T.n xe → cs fun i => c i / xe i
  mul : ∀ c xe, cs c → Holds w0.xequil T.n xe → cs fun i => c i / xe i * xe i

theorem costOk_true : CostOk T w0 fun _ => True := ⟨fun _ _ _ _ => trivial, fun _ _ _ _ => trivial⟩

theorem costOk_costs {xe c0 : Nat → F} (hx : Holds w0.xequil T.n xe) : CostOk T w0 (Costs T.n xe c0) :=
  ⟨fun _ _ h h' => .div h fun i hi => by rw [h'.unique hx hi], fun _ _ h h' => .mul h fun i hi => by rw [h'.unique hx hi]⟩

/-- the workspace in front of a continuous solve of a node -/
theorem nodeData_of {e0 e : EW F (Hid F) (Stats F)} {xe c0 hf : Nat → F} (hz : Holds (toWork e0).Gequil T.m z) (hm : 2 * (nb + ni) ≤ T.m)
    (hxe : Holds (toWork e0).xequil T.n xe) (hc0 : Holds e0.c T.n c0) {hf0 : Nat → F}
    (he0 : EWF (realPar amd T S (toWork e0) (Costs T.n xe c0) nb ni bv iv hu z stgs) e0 hf0)
    (he : EWF (realPar amd T S (toWork e0) (Costs T.n xe c0) nb ni bv iv hu z stgs) e hf)
    (hN : IntBnd (realPar amd T S (toWork e0) (Costs T.n xe c0) nb ni bv iv hu z stgs) hf) : NodeData amd T S nb ni (toWork e0) (toWork e) := by
  have hgq : Holds (toWork e).Gequil T.m z := he.hg
  have hh : Holds (toWork e).h T.m hf := he.hh
  refine ⟨toWork_live hz he, toWork_fixed hz he, fun r hr => ?_, fun r hr => ?_, fun r hr1 hr2 => ?_, ?_⟩
  · show e.h[r]? = e0.h[r]?
    by_cases hr2 : r < T.m
    · have a : e.h[r]? = some (some (hf r)) := hh.2 r hr2
      have a0 : e0.h[r]? = some (some (hf0 r)) := he0.hh.2 r hr2
      rw [a, a0, he.huser r hr hr2, he0.huser r hr hr2]
    · have b : e.h.size = T.m := hh.1
      have b0 : e0.h.size = T.m := he0.hh.1
      rw [Array.getElem?_eq_none (by omega), Array.getElem?_eq_none (by omega)]
  · have k1 : r < T.m := by omega
    obtain ⟨v, q1, q2⟩ := he.hbnd r hr
    exact ⟨z r, v, hgq.rd k1, by rw [hh.rd k1, q2]; rfl, q1⟩
  · have k1 : r < T.m := by omega
    obtain ⟨v, q1, q2⟩ := hN r hr1 hr2
    exact ⟨z r, v, hgq.rd k1, by rw [hh.rd k1, q2]; rfl, q1⟩
  · obtain ⟨cf, h1, h2⟩ := he.hc
    exact ⟨xe, c0, cf, hxe, hc0, h1, h2⟩

/-- how a search may fail in the continuous solver: it reads the best iterate before there is one -/
def RealBad (amd : Nat → Buf Nat → Buf Nat → Option (Buf Nat)) (T : Pat) (S : Shape) (w0 : Work F) (cs : (Nat → F) → Prop)
    (nb ni : Nat) (bv iv : Nat → Nat) (hu z : Nat → F) (stgs : Stgs F) (arr : Nat → Nat → Bool) (e : UB) : Prop :=
  e = .uninit ∧ (w0.stgs.maxit = 0 ∨ (∃ k, arr k 0 = true) ∨
    ∃ e hf, EWF (realPar amd T S w0 cs nb ni bv iv hu z stgs) e hf ∧
      IntBnd (realPar amd T S w0 cs nb ni bv iv hu z stgs) hf ∧ FirstNaN (toWork e))

theorem solve_same {w w' : Work F} {arrives : Nat → Bool} {sig sig' : Sig} {code : Int}
    (hl : LiveW amd T S w) (h : ecosSolve arrives w sig = .ok (w', sig', code)) :
    Fixed w w' ∧ w'.n = w.n ∧ w'.m = w.m ∧ w'.p = w.p ∧ w'.h = w.h ∧
    ∃ c xe, Holds w.c T.n c ∧ Holds w.xequil T.n xe ∧
      if code = OUTCONE then Holds w'.c T.n (fun i => c i / xe i) else Holds w'.c T.n fun i => c i / xe i * xe i := by
  obtain ⟨a, g, c, b, h', xe, ye, ze, π, ai, q, ax, sg, hl⟩ := hl
  have hd := hl.data
  have hn := hl.sz.n
  obtain ⟨c1, h1, h2⟩ := Equil.C13_solve_data h
  rw [hn] at h1
  have k1 := (divBy_ok hd.c hd.xe).elim h1
  by_cases hc : code = OUTCONE
  · rw [if_pos hc] at h2
    refine ⟨⟨h2.A, h2.G, h2.b, h2.xequil, h2.Aequil, h2.Gequil, h2.stgs⟩, h2.n, h2.m, h2.p, h2.h, c, xe, hd.c, hd.xe, ?_⟩
    rw [if_pos hc, h2.c]
    exact k1
  · rw [if_neg hc] at h2
    obtain ⟨c', h3, h2⟩ := h2
    rw [hn] at h3
    have k3 := (mulBy_ok k1 hd.xe).elim h3
    refine ⟨⟨h2.A, h2.G, h2.b, h2.xequil, h2.Aequil, h2.Gequil, h2.stgs⟩, h2.n, h2.m, h2.p, h2.h, c, xe, hd.c, hd.xe, ?_⟩
    rw [if_neg hc, h2.c]
    exact k3

/-- the contract of the search holds for the real solver -/
theorem real_contract (hP : PatGood T S) (hz : Holds w0.Gequil T.m z) (hcs : CostOk T w0 cs) {arr : Nat → Nat → Bool} {rand : Nat → Nat}
    (hr : ∀ k, rand k ≤ RAND_MAX) :
    Contract RP (realEnv arr rand) (fun _ => True) (fun _ => True) (RealBad amd T S w0 cs nb ni bv iv hu z stgs arr) where
  solve := by
    intro e hf he hi
    have hl := toWork_live hz he
    have hx := toWork_fixed hz he
    show Runs _ (ecosSolve (arr e.hid.calls) (toWork e) e.hid.sig >>= fun r => pure (ofWork r.1 r.2.1 (e.hid.calls + 1), r.2.2)) _
    cases hs : ecosSolve (arr e.hid.calls) (toWork e) e.hid.sig with
    | error u =>
      obtain ⟨h1, -, h3⟩ := (Dir.ecosSolve_runs hP hl (arr e.hid.calls) e.hid.sig).err hs
      show RealBad amd T S w0 cs nb ni bv iv hu z stgs arr u
      refine ⟨h1, ?_⟩
      rw [hx.stgs] at h3
      rcases h3 with h3 | h3 | h3
      · exact .inl h3
      · exact .inr (.inl ⟨_, h3⟩)
      · exact .inr (.inr ⟨e, hf, he, hi, h3⟩)
    | ok r =>
      show EWF RP (ofWork r.1 r.2.1 (e.hid.calls + 1)) hf ∧ ∃ xf, Holds r.1.x T.n xf ∧ _
      have hlr := ((Dir.ecosSolve_runs hP hl (arr e.hid.calls) e.hid.sig).out hs).1
      obtain ⟨⟨xf, fx⟩, ⟨yf, fy⟩, ⟨zf, fz⟩, ⟨sf, fs⟩⟩ := Dir.ecosSolve_full hP hl hs
      obtain ⟨k, kn, km, kp, kh, c, xe, kc, kxe, kc'⟩ := solve_same hl (w' := r.1) (sig' := r.2.1) (code := r.2.2) hs
      refine ⟨⟨kn.trans he.hn, kp.trans he.hp, km.trans he.hm, ?_, ?_, ?_, fx.size, fy.size, fz.size, fs.size, he.huser, he.hbnd, hlr,
        ⟨k.A.trans hx.A, k.G.trans hx.G, k.b.trans hx.b, k.xe.trans hx.xe, k.ye.trans hx.ye, k.ze.trans hx.ze, k.stgs.trans hx.stgs⟩⟩,
        xf, fx, fun _ _ => trivial, fun _ _ => trivial⟩
      · obtain ⟨cf, q1, q2⟩ := he.hc
        have kxe0 : Holds w0.xequil T.n xe := by rw [← hx.xe]; exact kxe
        have hcc : ∀ i, i < T.n → c i = cf i := fun i hi => by
          have := (kc.2 i hi).symm.trans (q2.2 i hi)
          exact Option.some.inj (Option.some.inj this)
        split at kc'
        · exact ⟨_, hcs.div cf xe q1 kxe0, kc'.congr fun i hi => by rw [hcc i hi]⟩
        · exact ⟨_, hcs.mul cf xe q1 kxe0, kc'.congr fun i hi => by rw [hcc i hi]⟩
      · show Holds r.1.h T.m hf
        rw [kh]
        exact he.hh
      · show Holds r.1.Gequil T.m z
        rw [k.ze]
        exact he.hg
  solveB := fun _ _ _ _ _ _ _ _ _ => trivial
  rand := hr

end BB
end Ecos
