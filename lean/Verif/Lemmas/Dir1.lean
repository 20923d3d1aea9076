import Verif.Lemmas.Upd3
import Verif.Lemmas.Kkt4

/-!
# Right-hand sides, directions and step lengths of one pass: values and memory
-/
namespace Ecos.Dir

open Ecos Finset Ecos.Fact Ecos.Asm

set_option linter.unusedSectionVars false

section generic
variable {F : Type} [Zero F] [One F] [Add F] [Sub F] [Mul F] [Div F] [Neg F] [OfScientific F]
  [IntCast F] [PFloat F]

/-! ### Writing through the permutation -/

/-- cell `π x` holds `f x`, as far as that is given -/
structure KQ {α : Type} (b : Buf α) (N : Nat) (π : Nat → Nat) (f : Nat → Option α) : Prop where
  size : b.size = N
  at_ : ∀ x v, x < N → f x = some v → b[π x]? = some (some v)

variable {α : Type} {N : Nat} {π : Nat → Nat} {idx : Buf Nat} {f : Nat → Option α}

theorem KQ.congr {b : Buf α} {f' : Nat → Option α} (h : KQ b N π f) (e : ∀ x, x < N → f' x = f x) : KQ b N π f' :=
  ⟨h.size, fun x v hx hv => h.at_ x v hx (by rw [← e x hx]; exact hv)⟩

theorem KQ.start {b : Buf α} (h : b.size = N) : KQ b N π fun _ => none := ⟨h, fun _ _ _ h => by cases h⟩

theorem KQ.ofHolds {b : Buf α} {g : Nat → α} (h : Holds b N g) (hπ : IsPerm N π) : KQ b N π fun x => some (g (π x)) :=
  ⟨h.size, fun x v hx hv => by cases hv; exact h.2 _ (hπ.lt x hx)⟩

theorem KQ.wr {b : Buf α} (h : KQ b N π f) (hπ : IsPerm N π) {i : Nat} (hi : i < N) (v : α) :
    Ok (wr b (π i) v) fun b' => KQ b' N π fun x => if x = i then some v else f x := by
  refine (wr_seg (by rw [h.size]; exact hπ.lt i hi)).mono fun b' hb => ⟨by rw [hb.size, h.size], fun x u hx hu => ?_⟩
  by_cases e : x = i
  · subst e
    rw [if_pos rfl] at hu
    cases hu
    exact hb.inside 0 (by omega)
  · have : π x ≠ π i := fun h' => e (hπ.inj x i hx hi h')
    rw [if_neg e] at hu
    rw [hb.outside _ (by omega)]
    exact h.at_ x u hx hu

theorem KQ.scatter {b : Buf α} (h : KQ b N π f) (hidx : Holds idx N π) (hπ : IsPerm N π) {off n : Nat} (hle : off + n ≤ N)
    {val : Nat → M α} {g : Nat → α} (hv : ∀ i, i < n → val i = .ok (g i)) :
    Ok (scatter b idx off n val) fun r => KQ r N π fun x => if off ≤ x ∧ x < off + n then some (g (x - off)) else f x := by
  unfold Ecos.scatter
  refine loop_ok (fun t b' => KQ b' N π fun x => if off ≤ x ∧ x < off + t then some (g (x - off)) else f x) (Nat.zero_le _)
    (h.congr fun x _ => if_neg (by omega)) ?_ fun _ h => h
  intro i b' _ hi hb
  rw [hv i hi, ok_bind_eq, hidx.rd (by omega), ok_bind_eq]
  refine (hb.wr hπ (by omega) (g i)).mono fun b'' hb' => hb'.congr fun x _ => ?_
  by_cases e : x = off + i
  · subst e
    rw [if_pos rfl, if_pos (by omega), Nat.add_sub_cancel_left]
  · rw [if_neg e]
    by_cases h1 : off ≤ x ∧ x < off + i
    · rw [if_pos h1, if_pos (by omega)]
    · rw [if_neg h1, if_neg (by omega)]

/-- everything written: the array holds a vector -/
theorem KQ.holds {b : Buf α} (h : KQ b N π f) (hπ : IsPerm N π) {g : Nat → α} (hf : ∀ x, x < N → f x = some (g x)) :
    ∃ r, Holds b N r ∧ ∀ i, i < N → r (π i) = g i := by
  obtain ⟨R, hR1, hR2⟩ := exists_inv (N := N) (Q := π) (fun q hq => hπ.surj hq) hπ.inj
  refine ⟨fun i => g (R i), ⟨h.size, fun i hi => ?_⟩, fun i hi => by beta_reduce; rw [hR2 i hi (hπ.lt i hi)]⟩
  obtain ⟨x, hx, rfl⟩ := hπ.surj hi
  beta_reduce
  rw [hR2 x hx (hπ.lt x hx)]
  exact h.at_ x _ hx (hf x hx)

/-- rows of the expanded system from rows of the cone: zeros in the two extra rows of each second-order cone -/
noncomputable def stretchF (S : Shape) (g : Nat → F) : Nat → F :=
  glue S.x g (fun k j => if j < S.q k then g (S.start k + j) else 0) fun l j => g (S.fexv + 3 * l + j)

theorem stretchRows_ok {C : Cone F} {S : Shape} (hC : ConeIs C S) {b : Buf F} {f : Nat → Option F} {off : Nat} (hN : N = off + S.x.m)
    (hidx : Holds idx N π) (hπ : IsPerm N π) (h : KQ b N π f) {val : Nat → M F} {g : Nat → F} (hv : ∀ i, i < S.m → val i = .ok (g i)) :
    Ok (stretchRows C idx off b val) fun r => KQ r N π fun x => if off ≤ x then some (stretchF S g (x - off)) else f x := by
  have hxm : S.x.m = S.x.fexv + 3 * S.ne := rfl
  have hm : S.m = S.fexv + 3 * S.ne := rfl
  have hle : S.l ≤ S.x.fexv := S.x.l_le S.ns
  have hle' : S.l ≤ S.fexv := S.l_le S.ns
  have hst : ∀ k, S.x.start k = S.start k + 2 * k := fun k => by
    have := S.x_start k
    omega
  have hfe : S.x.fexv = S.fexv + 2 * S.ns := hst S.ns
  unfold stretchRows
  refine Ok.bind (h.scatter hidx hπ (by rw [hC.l]; omega) fun i hi => hv i (by rw [hC.l] at hi; omega)) fun b1 h1 => ?_
  rw [hC.l] at h1
  have h1' : KQ b1 N π fun x => if off ≤ x ∧ x < off + S.x.start 0 then some (stretchF S g (x - off)) else f x := by
    refine h1.congr fun x _ => ?_
    rw [S.x.start_zero]
    by_cases c : off ≤ x ∧ x < off + S.l
    · rw [if_pos c, if_pos (show off ≤ x ∧ x < off + S.x.l from c)]
      unfold stretchF
      rw [glue_lp S.x _ _ _ (show x - off < S.x.l by show x - off < S.l; omega)]
    · rw [if_neg c, if_neg (show ¬ (off ≤ x ∧ x < off + S.x.l) from c)]
  refine Ok.bind (forSoc_ok0 hC (fun k b' => KQ b' N π fun x => if off ≤ x ∧ x < off + S.x.start k then some (stretchF S g (x - off)) else f x)
    h1' ?_) ?_
  · intro k soc b2 hk _ hq h2
    have hb := S.x.start_le hk
    have hb' := S.start_le hk
    have hfx : S.x.start k + S.x.q k ≤ S.x.fexv := hb
    have hxq : S.x.q k = S.q k + 2 := rfl
    have e0 := hst k
    rw [hq]
    refine Ok.bind (h2.scatter hidx hπ (off := off + S.start k + 2 * k) (by omega) fun i hi => hv _ (by omega)) fun b3 h3 => ?_
    rw [hidx.rd (by omega), ok_bind_eq]
    refine Ok.bind (h3.wr hπ (by omega) 0) fun b4 h4 => ?_
    rw [hidx.rd (by omega), ok_bind_eq]
    refine (h4.wr hπ (by omega) 0).mono fun b5 h5 => h5.congr fun x _ => ?_
    have hs : S.x.start (k + 1) = S.x.start k + (S.q k + 2) := S.x.start_succ k
    by_cases c1 : x = off + S.start k + 2 * k + S.q k + 1
    · rw [if_pos c1, if_pos (by omega)]
      have := glue_soc_at (S := S.x) (f := g) (g := fun k j => if j < S.q k then g (S.start k + j) else 0)
        (h := fun l j => g (S.fexv + 3 * l + j)) hk (j := S.q k + 1) (by omega)
      unfold stretchF
      rw [show x - off = S.x.start k + (S.q k + 1) by omega, this, if_neg (by omega)]
    · rw [if_neg c1]
      by_cases c2 : x = off + S.start k + 2 * k + S.q k
      · rw [if_pos c2, if_pos (by omega)]
        have := glue_soc_at (S := S.x) (f := g) (g := fun k j => if j < S.q k then g (S.start k + j) else 0)
          (h := fun l j => g (S.fexv + 3 * l + j)) hk (j := S.q k) (by omega)
        unfold stretchF
        rw [show x - off = S.x.start k + S.q k by omega, this, if_neg (by omega)]
      · rw [if_neg c2]
        by_cases c3 : off + S.start k + 2 * k ≤ x ∧ x < off + S.start k + 2 * k + S.q k
        · rw [if_pos c3, if_pos (by omega)]
          have := glue_soc_at (S := S.x) (f := g) (g := fun k j => if j < S.q k then g (S.start k + j) else 0)
            (h := fun l j => g (S.fexv + 3 * l + j)) hk (j := x - (off + S.start k + 2 * k)) (by omega)
          unfold stretchF
          rw [show x - off = S.x.start k + (x - (off + S.start k + 2 * k)) by omega, this, if_pos (by omega)]
        · rw [if_neg c3]
          by_cases c4 : off ≤ x ∧ x < off + S.x.start k
          · rw [if_pos c4, if_pos (by omega)]
          · rw [if_neg c4, if_neg (by omega)]
  · rintro ⟨b2, o⟩ ⟨h2, h3⟩
    simp only at h2 h3 ⊢
    subst h3
    rw [hC.nsoc, hC.nexc]
    refine (h2.scatter hidx hπ (off := off + S.fexv + 2 * S.ns) (by omega) fun i hi => hv _ (by omega)).mono fun b3 h3 => h3.congr fun x hx => ?_
    have hfe' : S.x.start S.ns = S.x.fexv := rfl
    by_cases c1 : off + S.fexv + 2 * S.ns ≤ x ∧ x < off + S.fexv + 2 * S.ns + 3 * S.ne
    · rw [if_pos c1, if_pos (by omega)]
      have := glue_exp_at (S := S.x) (f := g) (g := fun k j => if j < S.q k then g (S.start k + j) else 0)
        (h := fun l j => g (S.fexv + 3 * l + j)) (l := (x - (off + S.fexv + 2 * S.ns)) / 3) (j := (x - (off + S.fexv + 2 * S.ns)) % 3) (by omega)
      unfold stretchF
      rw [show x - off = S.x.fexv + 3 * ((x - (off + S.fexv + 2 * S.ns)) / 3) + (x - (off + S.fexv + 2 * S.ns)) % 3 by omega, this]
      congr 2
      omega
    · rw [if_neg c1]
      by_cases c2 : off ≤ x
      · rw [if_pos c2, if_pos (by omega)]
      · rw [if_neg c2, if_neg (by omega)]

/-! ### Vector operations -/

theorem axpy_ok {b src : Buf F} {n : Nat} {f g : Nat → F} (h : Holds b n f) (hg : Holds src n g) (a : F) :
    Ok (axpy b n a src) fun r => Holds r n fun i => f i + a * g i := by
  unfold axpy
  refine (modify_ok (g := fun i => f i + a * g i) h.has0 (by rw [h.size]; omega) fun i hi => ?_).mono fun r hr => hr.holds h.size
  rw [hg.rd hi]
  rfl

theorem cells_ok {f : F → F → F} {a b dst : Buf F} {m : Nat} (ha : m ≤ a.size) (hb : m ≤ b.size) (hd : dst.size = m) :
    Ok (cells f a b dst m) fun r => r.size = m ∧
      ∀ i u v, i < m → a[i]? = some (some u) → b[i]? = some (some v) → r[i]? = some (some (f u v)) := by
  unfold cells
  refine loop_ok (fun t r => r.size = m ∧ ∀ i u v, i < t → a[i]? = some (some u) → b[i]? = some (some v) → r[i]? = some (some (f u v)))
    (Nat.zero_le _) ⟨hd, fun i _ _ hi => by omega⟩ ?_ fun _ h => h
  rintro i r _ hi ⟨h1, h2⟩
  unfold cell2
  have hai : a[i]? = some a[i] := Array.getElem?_eq_getElem (by omega)
  have hbi : b[i]? = some b[i] := Array.getElem?_eq_getElem (by omega)
  simp only [hai, hbi]
  rw [if_pos (by omega), Ok_ok]
  refine ⟨by simp [h1], fun j u v hj hu hv => ?_⟩
  by_cases e : j = i
  · subst e
    rw [hai] at hu
    rw [hbi] at hv
    rw [Array.getElem?_setIfInBounds_self_of_lt (by omega)]
    injection hu with hu
    injection hv with hv
    rw [hu, hv]
  · rw [Array.getElem?_setIfInBounds_ne (by omega)]
    exact h2 j u v (by omega) hu hv

/-- `ds1 + ds2 - sigma*mu*e` on the symmetric rows -/
noncomputable def centerF (S : Shape) (u v : Nat → F) (t : F) : Nat → F :=
  glue S (fun i => u i + (v i - t)) (fun k j => if j = 0 then u (S.start k) + (v (S.start k) - t) else u (S.start k + j) + v (S.start k + j))
    fun _ _ => 0

theorem addCentering_ok {C : Cone F} {S : Shape} (hC : ConeIs C S) {b1 b2 : Buf F} {u v : Nat → F} (h1 : Has b1 0 S.fexv u)
    (hs : S.fexv ≤ b1.size) (h2 : Has b2 0 S.fexv v) (t : F) :
    Ok (addCentering C b1 b2 t) fun r => r.size = b1.size ∧ Has r 0 S.fexv (centerF S u v t) := by
  have hle : S.l ≤ S.fexv := S.l_le S.ns
  unfold addCentering
  rw [hC.l]
  refine Ok.bind (modify_ok (g := fun i => u i + (v i - t)) (o := u) (fun j hj => h1 j (by omega)) (by omega) fun i hi => ?_) fun b3 h3 => ?_
  · have := h2.rd (j := i) (by omega)
    rw [Nat.zero_add] at this
    rw [this]
    rfl
  rw [← hC.l]
  refine Ok.bind (forSoc_blocks hC (g := fun k j => if j = 0 then u (S.start k) + (v (S.start k) - t) else u (S.start k + j) + v (S.start k + j)) ?_) ?_
  · intro k soc b4 hk _ hq hsz hout
    have hb := S.start_le hk
    have hl := S.l_le k
    have hp := hC.pos k hk
    have hu : Has b4 (S.start k) (S.q k) fun j => u (S.start k + j) := fun j hj => by
      rw [hout _ (by omega), h3.outside _ (by omega)]
      have := h1 (S.start k + j) (by omega)
      rwa [Nat.zero_add] at this
    have hv : Has b2 (S.start k) (S.q k) fun j => v (S.start k + j) := fun j hj => by
      have := h2 (S.start k + j) (by omega)
      rwa [Nat.zero_add] at this
    rw [hu.rd0 hp, ok_bind_eq, hv.rd0 hp, ok_bind_eq, hq]
    refine Ok.bind (wr_seg (by rw [hsz, h3.size]; omega)) fun b5 h5 => ?_
    refine (modify_ok (g := fun j => u (S.start k + (1 + j)) + v (S.start k + (1 + j))) (o := fun j => u (S.start k + (1 + j)))
      (h5.has (fun j hj => (hu.sub (o' := 1) (k' := S.q k - 1) (by omega)) j hj) (by omega)) (by rw [h5.size, hsz, h3.size]; omega)
      fun j hj => ?_).mono fun b6 h6 => ?_
    · rw [(hv.sub (o' := 1) (k' := S.q k - 1) (by omega)).rd hj]
      rfl
    · have := h5.append h6
      rw [show 1 + (S.q k - 1) = S.q k by omega] at this
      refine this.congr fun j hj => ?_
      by_cases e : j = 0
      · subst e
        rw [if_pos (by omega), if_pos rfl]
        rfl
      · rw [if_neg (by omega), if_neg e, show 1 + (j - 1) = j by omega]
  · rintro ⟨b4, o⟩ ⟨h4, -⟩
    rw [Ok_pure]
    simp only at h4 ⊢
    refine ⟨h4.size.trans h3.size, glue_has (fun j hj => ?_) h4.inside⟩
    rw [h4.outside _ (by omega)]
    exact h3.inside j hj

/-! ### Step lengths (memory only) -/

theorem loop_any {σ : Type} {lo hi : Nat} {s : σ} {body : Nat → σ → M σ} (hle : lo ≤ hi)
    (h : ∀ i s, lo ≤ i → i < hi → Ok (body i s) fun _ => True) : Ok (loop lo hi s body) fun _ => True :=
  loop_ok (fun _ _ => True) hle trivial (fun i s h1 h2 _ => h i s h1 h2) fun _ h => h

theorem lineSearch_ok {C : Cone F} {S : Shape} (hC : ConeIs C S) {lam ds dz : Buf F} {l s z : Nat → F} (hl : Has lam 0 S.fexv l)
    (hs : Has ds 0 S.fexv s) (hz : Has dz 0 S.fexv z) (tau dtau kap dkap : F) :
    Ok (lineSearch C lam ds dz tau dtau kap dkap) fun _ => True := by
  have hle : S.l ≤ S.fexv := S.l_le S.ns
  have r : ∀ {b : Buf F} {f : Nat → F}, Has b 0 S.fexv f → ∀ i, i < S.fexv → rd b i = .ok (f i) := fun h i hi => by
    have := h.rd hi
    rwa [Nat.zero_add] at this
  unfold lineSearch
  refine Ok.bind (P := fun _ => True) ?_ fun a _ => ?_
  · unfold lsLp
    rw [hC.l]
    by_cases h0 : S.l > 0
    · rw [if_pos h0, r hl 0 (by omega), ok_bind_eq, r hs 0 (by omega), ok_bind_eq, r hz 0 (by omega), ok_bind_eq]
      refine Ok.bind (loop_any (by omega) fun i t _ hi => ?_) fun t _ => ?_
      · rw [r hl i (by omega), ok_bind_eq, r hs i (by omega), ok_bind_eq, r hz i (by omega), ok_bind_eq, Ok_pure]
        trivial
      · split
        all_goals
          rw [Ok_pure]
          trivial
    · rw [if_neg h0, Ok_pure]
      trivial
  · rw [hC.nsoc]
    refine Ok.bind (P := fun _ => True) (loop_ok (fun k t => t.2 ≤ S.start k) (Nat.zero_le _) (by rw [hC.l, S.start_zero]) ?_ fun _ _ => trivial)
      fun t _ => by rw [Ok_pure]; trivial
    rintro k ⟨al, o⟩ _ hk ho
    simp only at ho
    obtain ⟨soc, hsoc, hq⟩ := hC.soc k hk
    have hp := hC.pos k hk
    have hb := S.start_le hk
    have hsu := S.start_succ k
    rw [getIdx_some hsoc, ok_bind_eq]
    unfold lsSoc lsLknorm2
    simp only
    rw [r hl o (by omega), ok_bind_eq, hq, eddotOff_eq (n := S.q k - 1) (f := fun j => l (o + 1 + j)) (g := fun j => l (o + 1 + j))
      (fun j hj => by have := hl (o + 1 + j) (by omega); rwa [Nat.zero_add] at this)
      (fun j hj => by have := hl (o + 1 + j) (by omega); rwa [Nat.zero_add] at this), ok_bind_eq]
    simp only [pure_bind]
    split
    · rw [Ok_pure]
      omega
    · refine Ok.bind (fill_ok (b := malloc (S.q k)) (g := fun j => l (o + j) / PFloat.sqrt (l o * l o - dotN (S.q k - 1) (fun j => l (o + 1 + j)) fun j => l (o + 1 + j)))
        (by simp) fun j hj => ?_) fun lb hlb => ?_
      · rw [r hl _ (by omega)]
        rfl
      have hl0 := hlb.inside
      generalize (fun j => l (o + j) / PFloat.sqrt (l o * l o - dotN (S.q k - 1) (fun j => l (o + 1 + j)) fun j => l (o + 1 + j))) = lf at hl0
      have r' : ∀ i, i < S.q k → rd lb i = .ok (lf i) := fun i hi => by
        have := hl0.rd hi
        rwa [Nat.zero_add] at this
      have key : ∀ (b : Buf F) (f : Nat → F) (c : F), Has b 0 S.fexv f → Ok (lsNorm lb b o (S.q k) c) fun _ => True := by
        intro b f c hb'
        unfold lsNorm lsProd
        rw [r' 0 hp, ok_bind_eq, r hb' o (by omega), ok_bind_eq]
        refine Ok.bind (loop_any (by omega) fun i t _ hi => ?_) fun t _ => ?_
        · rw [r' i hi, ok_bind_eq, r hb' _ (by omega), ok_bind_eq, Ok_pure]
          trivial
        · simp only [ok_bind_eq]
          refine Ok.bind (loop_any (by omega) fun i t _ hi => ?_) fun t _ => ?_
          · rw [r hb' _ (by omega), ok_bind_eq, r' i hi, ok_bind_eq, Ok_pure]
            trivial
          · rw [Ok_pure]
            trivial
      refine Ok.bind (key ds s _ hs) fun _ _ => ?_
      refine Ok.bind (key dz z _ hz) fun _ _ => ?_
      rw [Ok_pure]
      simp only
      omega

end generic
end Ecos.Dir
