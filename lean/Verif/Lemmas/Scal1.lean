import Verif.Lemmas.Cone2

/-!
# Values computed by `updateScalings`, `scale`, `unscale`, `scale2add`
-/
namespace Ecos

open Finset

set_option linter.unusedSectionVars false

theorem setIdx_ok {α : Type} {a : Array α} {i : Nat} {v : α} (h : i < a.size) :
    Ok (setIdx a i v) fun a' => a'.size = a.size ∧ a'[i]? = some v ∧ ∀ k, k ≠ i → a'[k]? = a[k]? := by
  simp only [setIdx, h, if_true, Ok_ok]
  refine ⟨by simp, by simp [h], fun k hk => ?_⟩
  rw [Array.getElem?_setIfInBounds_ne (by omega)]

section generic
variable {F : Type} [Zero F] [One F] [Add F] [Sub F] [Mul F] [Div F] [Neg F] [OfScientific F]
  [IntCast F] [PFloat F]

/-- index arrays stored in the cones: positions in the KKT matrix -/
structure ConeIx where
  k : Nat → Nat
  d : Nat → Nat → Nat
  e : Nat → Nat → Nat

/-- memory layout of a second-order cone of size `p` -/
structure SocWF (c : SoCone F) (p : Nat) (d : Nat → Nat) : Prop where
  sz : c.p = p
  sk : c.skbar.size = p
  zk : c.zkbar.size = p
  q : c.q.size = p - 1
  di : Holds c.Didx p d

/-- memory layout of an exponential cone -/
structure ExpWF (c : ExpCone F) (d : Nat → Nat) : Prop where
  cs : Holds c.colstart 3 d
  v : c.v.size = 6
  g : c.g.size = 3

/-- memory layout of the cones -/
structure ConeWF (C : Cone F) (S : Shape) (X : ConeIx) : Prop where
  is : ConeIs C S
  lw : C.lpc.w.size = S.l
  lv : C.lpc.v.size = S.l
  lk : Holds C.lpc.kktIdx S.l X.k
  swf : ∀ k c, k < S.ns → C.soc[k]? = some c → SocWF c (S.q k) (X.d k)
  ewf : ∀ k c, k < S.ne → C.expc[k]? = some c → ExpWF c (X.e k)

/-- the numbers that make up the scaling of a second-order cone -/
structure SocV (F : Type) where
  a : F
  w : F
  eta : F
  etaSq : F
  d1 : F
  u0 : F
  u1 : F
  v1 : F
  q : Nat → F

/-- the cone `c` holds the scaling `V` -/
structure SocHolds (c : SoCone F) (p : Nat) (V : SocV F) : Prop where
  sz : c.p = p
  a : c.a = some V.a
  w : c.w = some V.w
  eta : c.eta = some V.eta
  etaSq : c.etaSq = some V.etaSq
  d1 : c.d1 = some V.d1
  u0 : c.u0 = some V.u0
  u1 : c.u1 = some V.u1
  v1 : c.v1 = some V.v1
  q : Holds c.q (p - 1) V.q

/-- all scalings: linear part `lw`, `lv`, second-order cones `V`, Hessians `ev` and gradients `eg` of
exponential cones -/
structure ConeV (F : Type) where
  lw : Nat → F
  lv : Nat → F
  V : Nat → SocV F
  ev : Nat → Nat → F
  eg : Nat → Nat → F

/-- the cones hold the scalings `V` -/
structure ScalHolds (C : Cone F) (S : Shape) (V : ConeV F) : Prop where
  lw : Holds C.lpc.w S.l V.lw
  lv : Holds C.lpc.v S.l V.lv
  soc : ∀ k c, k < S.ns → C.soc[k]? = some c → SocHolds c (S.q k) (V.V k)
  ev : ∀ k c, k < S.ne → C.expc[k]? = some c → Holds c.v 6 (V.ev k)
  eg : ∀ k c, k < S.ne → C.expc[k]? = some c → Holds c.g 3 (V.eg k)

/-! ### Nesterov-Todd scaling of one cone -/

def ntGF (p : Nat) (sb zb : Nat → F) : F :=
  safedivPos 0.5 (PFloat.sqrt (0.5 * itr p 1 fun i g => g + sb i * zb i))

/-- value of `socScaling`: `none` is `OUTSIDE_CONE` -/
def ntF (p : Nat) (s z : Nat → F) : Option (SocV F) :=
  if le (socresF p s) 0 || le (socresF p z) 0 then none
  else
    let sn := PFloat.sqrt (socresF p s)
    let zn := PFloat.sqrt (socresF p z)
    let sb := fun i => safedivPos (s i) sn
    let zb := fun i => safedivPos (z i) zn
    let es := safedivPos sn zn
    let h := ntGF p sb zb
    let a := h * (sb 0 + zb 0)
    let q := fun i => h * (sb (i + 1) - zb (i + 1))
    let w := itr (p - 1) 0 fun i t => t + q i * q i
    match socDerived a w with
    | none => none
    | some t => some { a := a, w := w, eta := PFloat.sqrt es, etaSq := es, d1 := t.1, u0 := t.2.1,
                       u1 := t.2.2.1, v1 := t.2.2.2, q := q }

theorem ntOneOver2Gamma_eq {sb zb : Buf F} {p : Nat} {s z : Nat → F} (hs : Holds sb p s) (hz : Holds zb p z) :
    ntOneOver2Gamma sb zb p = .ok (ntGF p s z) := by
  unfold ntOneOver2Gamma
  rw [loop_itr (n := p) (f := fun i g => g + s i * z i) (by omega), ok_bind_eq]
  · rfl
  · intro i g hi
    rw [Nat.zero_add, hs.rd hi, ok_bind_eq, hz.rd hi]
    rfl

theorem ntQ_ok {sb zb q : Buf F} {p : Nat} {s z : Nat → F} (hs : Holds sb p s) (hz : Holds zb p z)
    (hq : q.size = p - 1) (hp : 0 < p) (h : F) :
    Ok (ntQ sb zb q p h) fun t => Holds t.1 (p - 1) (fun i => h * (s (i + 1) - z (i + 1))) ∧
      t.2 = itr (p - 1) 0 fun i t => t + h * (s (i + 1) - z (i + 1)) * (h * (s (i + 1) - z (i + 1))) := by
  unfold ntQ
  refine loop_ok (fun i t => Seg q t.1 0 (i - 1) (fun i => h * (s (i + 1) - z (i + 1))) ∧
    t.2 = itr (i - 1) 0 fun i t => t + h * (s (i + 1) - z (i + 1)) * (h * (s (i + 1) - z (i + 1))))
    (by omega) ⟨Seg.refl0 _ _ _, rfl⟩ ?_ ?_
  · rintro i ⟨b, w⟩ h1 h2 ⟨h3, h4⟩
    simp only at h3 h4
    obtain ⟨i, rfl⟩ : ∃ n, i = n + 1 := ⟨i - 1, by omega⟩
    simp only [Nat.add_sub_cancel] at h3 h4 ⊢
    rw [hs.rd h2, ok_bind_eq, hz.rd h2, ok_bind_eq]
    refine Ok.bind (wr_seg (by rw [h3.size]; omega)) fun b2 h5 => ?_
    have := h5.inside.rd0 (by omega)
    rw [this, ok_bind_eq, Ok_pure]
    refine ⟨?_, by rw [itr_succ, ← h4]⟩
    have h5' : Seg b b2 (0 + i) 1 fun _ => h * (s (i + 1) - z (i + 1)) := by rw [Nat.zero_add]; exact h5
    refine (h3.append h5').congr fun j hj => ?_
    split
    · rfl
    · rw [show j = i by omega]
  · rintro ⟨b, w⟩ ⟨h3, h4⟩
    exact ⟨h3.holds hq, h4⟩

theorem socScaling_ok {c : SoCone F} {p : Nat} {d : Nat → Nat} (hc : SocWF c p d) (hp : 0 < p) {sb zb : Buf F}
    {k : Nat} {s z : Nat → F} (hs : Has sb k p s) (hz : Has zb k p z) :
    Ok (socScaling c sb zb k) fun r =>
      (∃ c', r = .inl c' ∧ SocWF c' p d ∧ ntF p s z = none) ∨
      ∃ c' V, r = .inr c' ∧ SocWF c' p d ∧ ntF p s z = some V ∧ SocHolds c' p V := by
  unfold socScaling
  rw [hc.sz, socres_eq hs hp, ok_bind_eq, socres_eq hz hp, ok_bind_eq]
  by_cases hb : (le (socresF p s) 0 || le (socresF p z) 0) = true
  · rw [if_pos hb, Ok_pure]
    exact Or.inl ⟨c, rfl, hc, by unfold ntF; rw [if_pos hb]⟩
  rw [if_neg hb]
  refine Ok.bind (fill_ok (g := fun i => safedivPos (s i) (PFloat.sqrt (socresF p s))) (by rw [hc.sk]; omega) ?_)
    fun skb h1 => ?_
  · intro i hi
    rw [hs.rd hi]
    rfl
  refine Ok.bind (fill_ok (g := fun i => safedivPos (z i) (PFloat.sqrt (socresF p z))) (by rw [hc.zk]; omega) ?_)
    fun zkb h2 => ?_
  · intro i hi
    rw [hz.rd hi]
    rfl
  have h1' := h1.holds hc.sk
  have h2' := h2.holds hc.zk
  simp only [ntOneOver2Gamma_eq h1' h2', ok_bind_eq, h1'.rd hp, h2'.rd hp]
  refine Ok.bind (ntQ_ok h1' h2' hc.q hp _) ?_
  rintro ⟨q, w⟩ ⟨h3, rfl⟩
  simp only
  split
  · rename_i hd
    simp only [Ok_pure]
    refine Or.inl ⟨_, rfl, ⟨rfl, h1'.size, h2'.size, h3.size, hc.di⟩, ?_⟩
    unfold ntF
    rw [if_neg hb]
    simp only [hd]
  · rename_i t hd
    simp only [Ok_pure]
    refine Or.inr ⟨_, ?V, rfl, ⟨rfl, h1'.size, h2'.size, h3.size, hc.di⟩, ?h, ?_⟩
    case h =>
      unfold ntF
      rw [if_neg hb]
      simp only [hd]
      rfl
    · exact ⟨rfl, rfl, rfl, rfl, rfl, rfl, rfl, rfl, rfl, h3⟩

/-! ### `scale`, `unscale` -/

def zetaF (p : Nat) (q z : Nat → F) : F := itr (p - 1) 0 fun i t => t + q i * z (i + 1)

/-- value of `scale` on a second-order cone -/
def scaleF (p : Nat) (V : SocV F) (z : Nat → F) : Nat → F := fun j =>
  if j = 0 then V.eta * (V.a * z 0 + zetaF p V.q z)
  else V.eta * (z j + (z 0 + safedivPos (zetaF p V.q z) (1 + V.a)) * V.q (j - 1))

theorem zeta_eq {c : SoCone F} {p : Nat} {V : SocV F} (hc : SocHolds c p V) {zb : Buf F} {k : Nat}
    {z : Nat → F} (hz : Has zb k p z) (hp : 0 < p) :
    (loop 1 p (0 : F) fun i zeta => do
      let q ← rd c.q (i - 1)
      let v ← rd zb (k + i)
      pure (zeta + q * v)) = .ok (zetaF p V.q z) := by
  refine loop_itr (n := p - 1) (by omega) fun i s hi => ?_
  rw [show 1 + i - 1 = i by omega, hc.q.rd hi, ok_bind_eq, show k + (1 + i) = k + (i + 1) by omega,
    hz.rd (by omega)]
  rfl

theorem get_some {α : Type} {o : Option α} {a : α} (h : o = some a) : get o = .ok a := by subst h; rfl

theorem scaleSoc_ok {c : SoCone F} {p : Nat} {V : SocV F} (hc : SocHolds c p V) {zb lam : Buf F} {k : Nat}
    {z : Nat → F} (hz : Has zb k p z) (hp : 0 < p) (hs : k + p ≤ lam.size) :
    Ok (scaleSoc c zb k lam) fun l => Seg lam l k p (scaleF p V z) := by
  unfold scaleSoc
  simp only [hc.sz, zeta_eq hc hz hp, ok_bind_eq, hz.rd0 hp, get_some hc.a, get_some hc.eta]
  refine Ok.bind (wr_seg (by omega)) fun b1 h1 => ?_
  refine (fill_ok (g := fun i => V.eta * (z (i + 1) + (z 0 + safedivPos (zetaF p V.q z) (1 + V.a)) * V.q i))
    (by rw [h1.size]; omega) ?_).mono fun b2 h2 => ?_
  · intro j hj
    rw [show k + 1 + j = k + (j + 1) by omega, hz.rd (by omega), ok_bind_eq, hc.q.rd hj]
    rfl
  · exact seg_cons hp h1 h2 rfl fun j hj => rfl

theorem scale_ok {C : Cone F} {S : Shape} {V : ConeV F} (hC : ConeIs C S) (hw : Holds C.lpc.w S.l V.lw)
    (hv : ∀ k c, k < S.ns → C.soc[k]? = some c → SocHolds c (S.q k) (V.V k))
    {zb lam : Buf F} {z : Nat → F} (hz : Has zb 0 S.fexv z) (hs : S.fexv ≤ lam.size) :
    Ok (scale zb C lam) fun l => l.size = lam.size ∧ (∀ j, S.fexv ≤ j → l[j]? = lam[j]?) ∧
      Has l 0 S.l (fun i => V.lw i * z i) ∧
      ∀ k, k < S.ns → Has l (S.start k) (S.q k) (scaleF (S.q k) (V.V k) (S.block z k)) := by
  have hl : S.l ≤ S.fexv := S.l_le _
  unfold scale
  refine Ok.bind (fill_ok (g := fun i => V.lw i * z i) (by rw [hC.l]; omega) ?_) fun b1 h1 => ?_
  · intro i hi
    rw [hC.l] at hi
    have e1 := hz.rd (j := i) (by omega)
    rw [Nat.zero_add] at e1
    rw [hw.rd hi, ok_bind_eq, e1]
    rfl
  rw [hC.l] at h1
  refine Ok.bind (forSoc_blocks hC (g := fun k => scaleF (S.q k) (V.V k) (S.block z k)) ?_) ?_
  · intro k soc b2 hk hsoc hq hb _
    have hle := S.start_le hk
    exact scaleSoc_ok (hv k soc hk hsoc) (hz.block hk) (hC.pos k hk) (by rw [hb, h1.size]; omega)
  · rintro ⟨t, n⟩ ⟨h2, -⟩
    rw [Ok_pure]
    refine ⟨h2.size.trans h1.size, fun j hj => ?_, fun j hj => ?_, h2.inside⟩
    · simp only; rw [h2.outside j (Or.inr hj), h1.outside j (by omega)]
    · simp only; rw [h2.outside (0 + j) (by omega)]; exact h1.inside j hj

/-- value of `unscale` on a second-order cone -/
def unscaleF (p : Nat) (V : SocV F) (l : Nat → F) : Nat → F := fun j =>
  if j = 0 then safedivPos (V.a * l 0 - zetaF p V.q l) V.eta
  else safedivPos (l j + ((-(l 0)) + safedivPos (zetaF p V.q l) (1 + V.a)) * V.q (j - 1)) V.eta

theorem unscaleSoc_ok {c : SoCone F} {p : Nat} {V : SocV F} (hc : SocHolds c p V) {zb lam : Buf F} {k : Nat}
    {l : Nat → F} (hl : Has lam k p l) (hp : 0 < p) (hs : k + p ≤ zb.size) :
    Ok (unscaleSoc c lam k zb) fun z => Seg zb z k p (unscaleF p V l) := by
  unfold unscaleSoc
  simp only [hc.sz, zeta_eq hc hl hp, ok_bind_eq, hl.rd0 hp, get_some hc.a, get_some hc.eta]
  refine Ok.bind (wr_seg (by omega)) fun b1 h1 => ?_
  refine (fill_ok (g := fun i =>
    safedivPos (l (i + 1) + ((-(l 0)) + safedivPos (zetaF p V.q l) (1 + V.a)) * V.q i) V.eta)
    (by rw [h1.size]; omega) ?_).mono fun b2 h2 => ?_
  · intro j hj
    rw [show k + 1 + j = k + (j + 1) by omega, hl.rd (by omega), ok_bind_eq, hc.q.rd hj]
    rfl
  · exact seg_cons hp h1 h2 rfl fun j hj => rfl

theorem unscale_ok {C : Cone F} {S : Shape} {V : ConeV F} (hC : ConeIs C S) (hw : Holds C.lpc.w S.l V.lw)
    (hv : ∀ k c, k < S.ns → C.soc[k]? = some c → SocHolds c (S.q k) (V.V k))
    {zb lam : Buf F} {l : Nat → F} (hl : Has lam 0 S.fexv l) (hs : S.fexv ≤ zb.size) :
    Ok (unscale lam C zb) fun z => z.size = zb.size ∧ (∀ j, S.fexv ≤ j → z[j]? = zb[j]?) ∧
      Has z 0 S.l (fun i => safedivPos (l i) (V.lw i)) ∧
      ∀ k, k < S.ns → Has z (S.start k) (S.q k) (unscaleF (S.q k) (V.V k) (S.block l k)) := by
  have hle : S.l ≤ S.fexv := S.l_le _
  unfold unscale
  refine Ok.bind (fill_ok (g := fun i => safedivPos (l i) (V.lw i)) (by rw [hC.l]; omega) ?_) fun b1 h1 => ?_
  · intro i hi
    rw [hC.l] at hi
    have e1 := hl.rd (j := i) (by omega)
    rw [Nat.zero_add] at e1
    rw [e1, ok_bind_eq, hw.rd hi]
    rfl
  rw [hC.l] at h1
  refine Ok.bind (forSoc_blocks hC (g := fun k => unscaleF (S.q k) (V.V k) (S.block l k)) ?_) ?_
  · intro k soc b2 hk hsoc hq hb _
    have hle := S.start_le hk
    exact unscaleSoc_ok (hv k soc hk hsoc) (hl.block hk) (hC.pos k hk) (by rw [hb, h1.size]; omega)
  · rintro ⟨t, n⟩ ⟨h2, -⟩
    rw [Ok_pure]
    refine ⟨h2.size.trans h1.size, fun j hj => ?_, fun j hj => ?_, h2.inside⟩
    · simp only; rw [h2.outside j (Or.inr hj), h1.outside j (by omega)]
    · simp only; rw [h2.outside (0 + j) (by omega)]; exact h1.inside j hj

/-! ### `updateScalings` -/

/-- total invariant rule for loops with an early exit -/
theorem loopE_ok {σ ρ : Type} {lo hi : Nat} {s : σ} {body : Nat → σ → M (ρ ⊕ σ)} {Q : ρ ⊕ σ → Prop}
    (I : Nat → σ → Prop) (E : ρ → Prop) (hle : lo ≤ hi) (h0 : I lo s)
    (hstep : ∀ i s, lo ≤ i → i < hi → I i s → Ok (body i s) fun r =>
      (∃ e, r = .inl e ∧ E e) ∨ ∃ s', r = .inr s' ∧ I (i + 1) s')
    (hinl : ∀ e, E e → Q (.inl e)) (hinr : ∀ s, I hi s → Q (.inr s)) : Ok (loopE lo hi s body) Q := by
  have h : Runs (fun _ => False) (loopE lo hi s body) fun r =>
      match r with
      | .inl e => E e
      | .inr s => I (max lo hi) s := by
    refine loopE_runs I E h0 fun i s h1 h2 h3 => ?_
    refine ((hstep i s h1 h2 h3).runs).mono ?_
    rintro r (⟨e, rfl, he⟩ | ⟨s', rfl, hs⟩)
    · exact he
    · exact hs
  refine (h.ok_of_not_bad fun _ h => h).mono ?_
  rintro (e | s) hr
  · exact hinl e hr
  · exact hinr s (by rw [show max lo hi = hi by omega] at hr; exact hr)

theorem lpScalings_ok {L : LpCone F} {l : Nat} {sb zb : Buf F} {s z : Nat → F} (hl : L.p = l)
    (hw : L.w.size = l) (hv : L.v.size = l) (hs : Has sb 0 l s) (hz : Has zb 0 l z) :
    Ok (lpScalings L sb zb) fun L' => L'.p = l ∧ L'.kktIdx = L.kktIdx ∧
      Holds L'.v l (fun i => safedivPos (s i) (z i)) ∧
      Holds L'.w l (fun i => PFloat.sqrt (safedivPos (s i) (z i))) := by
  unfold lpScalings
  refine loop_ok (fun n L' => L'.p = l ∧ L'.kktIdx = L.kktIdx ∧
    Seg L.v L'.v 0 n (fun i => safedivPos (s i) (z i)) ∧
    Seg L.w L'.w 0 n (fun i => PFloat.sqrt (safedivPos (s i) (z i)))) (by omega)
    ⟨hl, rfl, Seg.refl0 _ _ _, Seg.refl0 _ _ _⟩ ?_ ?_
  · rintro i L' _ hi ⟨h1, h2, h3, h4⟩
    rw [hl] at hi
    have e1 := hs.rd hi
    have e2 := hz.rd hi
    rw [Nat.zero_add] at e1 e2
    rw [e1, ok_bind_eq, e2, ok_bind_eq]
    refine Ok.bind (wr_seg (by rw [h3.size]; omega)) fun v h5 => ?_
    rw [h5.inside.rd0 (by omega), ok_bind_eq]
    refine Ok.bind (wr_seg (by rw [h4.size]; omega)) fun w h6 => ?_
    rw [Ok_pure]
    rw [show i = 0 + i by omega] at h5 h6
    refine ⟨h1, h2, (h3.append h5).congr fun j hj => ?_, (h4.append h6).congr fun j hj => ?_⟩
    all_goals
      split
      · rfl
      · rw [show 0 + i = j by omega]
  · rintro L' ⟨h1, h2, h3, h4⟩
    rw [hl] at h3 h4
    exact ⟨h1, h2, h3.holds hv, h4.holds hw⟩

theorem socScalings_ok {C : Cone F} {S : Shape} {X : ConeIx} (hC : ConeWF C S X) {sb zb : Buf F}
    {s z : Nat → F} (hs : Has sb 0 S.fexv s) (hz : Has zb 0 S.fexv z) :
    Ok (socScalings C sb zb) fun r =>
      (∃ C', r = .inl C' ∧ ConeWF C' S X ∧ ∃ k, k < S.ns ∧ ntF (S.q k) (S.block s k) (S.block z k) = none) ∨
      ∃ t, r = .inr t ∧ ConeWF t.1 S X ∧ t.1.lpc = C.lpc ∧ t.1.expc = C.expc ∧ ∃ V : Nat → SocV F, ∀ k, k < S.ns →
        ntF (S.q k) (S.block s k) (S.block z k) = some (V k) ∧
        ∀ c, t.1.soc[k]? = some c → SocHolds c (S.q k) (V k) := by
  unfold socScalings
  rw [hC.is.nsoc]
  refine loopE_ok (fun n t => ConeWF t.1 S X ∧ t.1.lpc = C.lpc ∧ t.1.expc = C.expc ∧ t.2 = S.start n ∧
      ∃ V : Nat → SocV F, ∀ k, k < n →
        ntF (S.q k) (S.block s k) (S.block z k) = some (V k) ∧
        ∀ c, t.1.soc[k]? = some c → SocHolds c (S.q k) (V k))
    (fun C' => ConeWF C' S X ∧ ∃ k, k < S.ns ∧ ntF (S.q k) (S.block s k) (S.block z k) = none) (by omega)
    ⟨hC, rfl, rfl, by rw [S.start_zero]; exact hC.is.l, fun _ => ⟨0, 0, 0, 0, 0, 0, 0, 0, fun _ => 0⟩, fun k hk => by omega⟩
    ?_ (fun C' h => Or.inl ⟨C', rfl, h⟩) ?_
  · rintro k ⟨C1, st⟩ _ hk ⟨h1, h2, h2e, h3, V, h4⟩
    simp only at h1 h2 h2e h3 h4
    obtain ⟨c, hc, hq⟩ := h1.is.soc k hk
    rw [getIdx_some hc, ok_bind_eq, h3]
    have hks : k < C1.soc.size := by rw [h1.is.nsize]; exact hk
    have hwf : ∀ c' a, SocWF c' (S.q k) (X.d k) → (a.size = C1.soc.size ∧ a[k]? = some c' ∧
        ∀ k', k' ≠ k → a[k']? = C1.soc[k']?) → ConeWF { C1 with soc := a } S X := by
      rintro c' a hc' ⟨ha1, ha2, ha3⟩
      refine ⟨⟨h1.is.l, h1.is.nsoc, fun k' hk' => ?_, h1.is.pos, h1.is.nexc, h1.is.fexv,
        ha1.trans h1.is.nsize, h1.is.esize⟩, h1.lw, h1.lv, h1.lk, fun k' c'' hk' e => ?_, h1.ewf⟩
      · by_cases hkk : k' = k
        · subst hkk; exact ⟨c', ha2, hc'.sz⟩
        · simp only; rw [ha3 k' hkk]; exact h1.is.soc k' hk'
      · by_cases hkk : k' = k
        · subst hkk
          simp only at e
          rw [ha2] at e
          obtain rfl := Option.some.inj e
          exact hc'
        · simp only at e
          rw [ha3 k' hkk] at e
          exact h1.swf k' c'' hk' e
    refine Ok.bind (socScaling_ok (h1.swf k c hk hc) (h1.is.pos k hk) (hs.block hk) (hz.block hk)) ?_
    rintro r (⟨c', rfl, hc', hn⟩ | ⟨c', V', rfl, hc', hV, hh⟩)
    · simp only
      refine Ok.bind (setIdx_ok hks) fun a ha => ?_
      rw [Ok_pure]
      exact Or.inl ⟨_, rfl, hwf c' a hc' ha, k, hk, hn⟩
    · simp only
      refine Ok.bind (setIdx_ok hks) fun a ha => ?_
      rw [Ok_pure]
      refine Or.inr ⟨_, rfl, hwf c' a hc' ha, h2, h2e, by simp only; rw [hc'.sz, S.start_succ],
        fun i => if i = k then V' else V i, fun i hi => ?_⟩
      by_cases hik : i = k
      · subst hik
        simp only [if_true]
        refine ⟨hV, fun c'' e => ?_⟩
        rw [ha.2.1] at e
        obtain rfl := Option.some.inj e
        exact hh
      · simp only [hik, if_false]
        refine ⟨(h4 i (by omega)).1, fun c'' e => ?_⟩
        rw [ha.2.2 i hik] at e
        exact (h4 i (by omega)).2 c'' e
  · rintro t ⟨h1, h2, h2e, -, h4⟩
    exact Or.inr ⟨t, rfl, h1, h2, h2e, h4⟩

/-- the cells written by `evalExpHessian` -/
def hessF (x y z mu : F) : Nat → F := fun i =>
  let h := expHess x y z mu
  if i = 0 then h.1 else if i = 1 then h.2.1 else if i = 2 then h.2.2.1 else if i = 3 then h.2.2.2.1
  else if i = 4 then h.2.2.2.2.1 else h.2.2.2.2.2

/-- the cells written by `evalExpGradient` -/
def gradF (x y z : F) : Nat → F := fun i =>
  let h := expGrad x y z
  if i = 0 then h.1 else if i = 1 then h.2.1 else h.2.2

theorem seg_snoc {α : Type} {b b1 b2 : Buf α} {n : Nat} {g : Nat → α} {v : α}
    (h1 : Seg b b1 0 n g) (h2 : Seg b1 b2 n 1 fun _ => v) (hv : v = g n) : Seg b b2 0 (n + 1) g := by
  rw [show n = 0 + n by omega] at h2
  refine (h1.append h2).congr fun j hj => ?_
  split
  · rfl
  · rw [hv, show n = j by omega]

theorem evalExpHessian_ok {zb v : Buf F} {off : Nat} {z : Nat → F} (hz : Has zb off 3 z) (hv : v.size = 6)
    (mu : F) : Ok (evalExpHessian zb off v mu) fun v' => Holds v' 6 (hessF (z 0) (z 1) (z 2) mu) := by
  unfold evalExpHessian
  rw [hz.rd0 (by omega), ok_bind_eq, hz.rd (j := 1) (by omega), ok_bind_eq, hz.rd (j := 2) (by omega), ok_bind_eq]
  refine Ok.bind (wr_seg (by omega)) fun b1 h1 => ?_
  have s1 : Seg v b1 0 1 (hessF (z 0) (z 1) (z 2) mu) := h1.congr fun j hj => by
    rw [show j = 0 by omega]; rfl
  refine Ok.bind (wr_seg (by rw [s1.size]; omega)) fun b2 h2 => ?_
  have s2 := seg_snoc s1 h2 rfl
  refine Ok.bind (wr_seg (by rw [s2.size]; omega)) fun b3 h3 => ?_
  have s3 := seg_snoc s2 h3 rfl
  refine Ok.bind (wr_seg (by rw [s3.size]; omega)) fun b4 h4 => ?_
  have s4 := seg_snoc s3 h4 rfl
  refine Ok.bind (wr_seg (by rw [s4.size]; omega)) fun b5 h5 => ?_
  have s5 := seg_snoc s4 h5 rfl
  refine (wr_seg (by rw [s5.size]; omega)).mono fun b6 h6 => ?_
  exact (seg_snoc s5 h6 rfl).holds hv

theorem evalExpGradient_ok {zb g : Buf F} {off : Nat} {z : Nat → F} (hz : Has zb off 3 z) (hg : g.size = 3) :
    Ok (evalExpGradient zb off g) fun g' => Holds g' 3 (gradF (z 0) (z 1) (z 2)) := by
  unfold evalExpGradient
  rw [hz.rd0 (by omega), ok_bind_eq, hz.rd (j := 1) (by omega), ok_bind_eq, hz.rd (j := 2) (by omega), ok_bind_eq]
  refine Ok.bind (wr_seg (by omega)) fun b1 h1 => ?_
  have s1 : Seg g b1 0 1 (gradF (z 0) (z 1) (z 2)) := h1.congr fun j hj => by
    rw [show j = 0 by omega]; rfl
  refine Ok.bind (wr_seg (by rw [s1.size]; omega)) fun b2 h2 => ?_
  have s2 := seg_snoc s1 h2 rfl
  refine (wr_seg (by rw [s2.size]; omega)).mono fun b3 h3 => ?_
  exact (seg_snoc s2 h3 rfl).holds hg

/-- the three rows of the `l`-th exponential cone -/
def Shape.eblock {α : Type} (S : Shape) (v : Nat → α) (l : Nat) : Nat → α := fun j => v (S.fexv + 3 * l + j)

theorem Has.eblock {α : Type} {S : Shape} {b : Buf α} {f : Nat → α} (h : Has b 0 S.m f) {l : Nat}
    (hl : l < S.ne) : Has b (S.fexv + 3 * l) 3 (S.eblock f l) := by
  have := h.sub (o' := S.fexv + 3 * l) (k' := 3) (by unfold Shape.m; omega)
  rwa [Nat.zero_add] at this

theorem Has.sym {α : Type} {S : Shape} {b : Buf α} {f : Nat → α} (h : Has b 0 S.m f) :
    Has b 0 S.fexv f := fun j hj => h j (by unfold Shape.m; omega)

theorem expScalings_ok {C : Cone F} {S : Shape} {X : ConeIx} (hC : ConeWF C S X) {zb : Buf F}
    {z : Nat → F} (hz : Has zb 0 S.m z) (mu : F) :
    Ok (expScalings C zb mu) fun C' => ConeWF C' S X ∧ C'.lpc = C.lpc ∧ C'.soc = C.soc ∧
      ∀ l c, l < S.ne → C'.expc[l]? = some c →
        Holds c.v 6 (hessF (S.eblock z l 0) (S.eblock z l 1) (S.eblock z l 2) mu) ∧
        Holds c.g 3 (gradF (S.eblock z l 0) (S.eblock z l 1) (S.eblock z l 2)) := by
  unfold expScalings
  rw [hC.is.nexc]
  refine loop_ok (fun n C' => ConeWF C' S X ∧ C'.lpc = C.lpc ∧ C'.soc = C.soc ∧
      ∀ l c, l < n → C'.expc[l]? = some c →
        Holds c.v 6 (hessF (S.eblock z l 0) (S.eblock z l 1) (S.eblock z l 2) mu) ∧
        Holds c.g 3 (gradF (S.eblock z l 0) (S.eblock z l 1) (S.eblock z l 2))) (by omega)
    ⟨hC, rfl, rfl, fun l c h => by omega⟩ ?_ (fun _ h => h)
  rintro l C1 _ hl ⟨h1, h2, h3, h4⟩
  have hls : l < C1.expc.size := by rw [h1.is.esize]; exact hl
  obtain ⟨e, he⟩ : ∃ e, C1.expc[l]? = some e := ⟨_, Array.getElem?_eq_getElem hls⟩
  have hwf := h1.ewf l e hl he
  rw [getIdx_some he, ok_bind_eq, h1.is.fexv]
  refine Ok.bind (evalExpHessian_ok (hz.eblock hl) hwf.v mu) fun v hv => ?_
  refine Ok.bind (evalExpGradient_ok (hz.eblock hl) hwf.g) fun g hg => ?_
  refine Ok.bind (setIdx_ok hls) fun a ha => ?_
  rw [Ok_pure]
  refine ⟨⟨⟨h1.is.l, h1.is.nsoc, h1.is.soc, h1.is.pos, h1.is.nexc, rfl, h1.is.nsize,
    ha.1.trans h1.is.esize⟩, h1.lw, h1.lv, h1.lk, h1.swf, fun k c hk hc => ?_⟩, h2, h3, fun k c hk hc => ?_⟩
  · by_cases hkl : k = l
    · subst hkl
      simp only at hc
      rw [ha.2.1] at hc
      obtain rfl := Option.some.inj hc
      exact ⟨hwf.cs, hv.size, hg.size⟩
    · simp only at hc
      rw [ha.2.2 k hkl] at hc
      exact h1.ewf k c hk hc
  · by_cases hkl : k = l
    · subst hkl
      simp only at hc
      rw [ha.2.1] at hc
      obtain rfl := Option.some.inj hc
      exact ⟨hv, hg⟩
    · simp only at hc
      rw [ha.2.2 k hkl] at hc
      exact h4 k c (by omega) hc

/-- `V` is the scaling computed from `s`, `z` -/
structure IsScaling (S : Shape) (s z : Nat → F) (mu : F) (V : ConeV F) : Prop where
  lv : ∀ i, i < S.l → V.lv i = safedivPos (s i) (z i)
  lw : ∀ i, i < S.l → V.lw i = PFloat.sqrt (safedivPos (s i) (z i))
  soc : ∀ k, k < S.ns → ntF (S.q k) (S.block s k) (S.block z k) = some (V.V k)
  ev : ∀ l, l < S.ne → V.ev l = hessF (S.eblock z l 0) (S.eblock z l 1) (S.eblock z l 2) mu
  eg : ∀ l, l < S.ne → V.eg l = gradF (S.eblock z l 0) (S.eblock z l 1) (S.eblock z l 2)

/-- `updateScalings` never fails; it either reports `OUTSIDE_CONE` because of one of the second-order
cones, or leaves the scaling of `s`, `z` in the cones and `W z` in `lambda` -/
theorem updateScalings_ok {C : Cone F} {S : Shape} {X : ConeIx} (hC : ConeWF C S X) {sb zb lam : Buf F}
    {s z : Nat → F} (hs : Has sb 0 S.m s) (hz : Has zb 0 S.m z) (hl : S.fexv ≤ lam.size) (mu : F) :
    Ok (updateScalings C sb zb lam mu) fun r => ConeWF r.1 S X ∧
      ((r.2 = none ∧ ∃ k, k < S.ns ∧ ntF (S.q k) (S.block s k) (S.block z k) = none) ∨
       ∃ l V, r.2 = some l ∧ ScalHolds r.1 S V ∧ IsScaling S s z mu V ∧
        l.size = lam.size ∧ (∀ j, S.fexv ≤ j → l[j]? = lam[j]?) ∧
        Has l 0 S.l (fun i => V.lw i * z i) ∧
        ∀ k, k < S.ns → Has l (S.start k) (S.q k) (scaleF (S.q k) (V.V k) (S.block z k))) := by
  have hlm : S.l ≤ S.fexv := S.l_le _
  unfold updateScalings
  have hls : Has sb 0 S.l s := fun j hj => hs.sym j (by omega)
  have hlz : Has zb 0 S.l z := fun j hj => hz.sym j (by omega)
  refine Ok.bind (lpScalings_ok hC.is.l hC.lw hC.lv hls hlz) fun L h1 => ?_
  have hC1 : ConeWF { C with lpc := L } S X :=
    ⟨⟨h1.1, hC.is.nsoc, hC.is.soc, hC.is.pos, hC.is.nexc, hC.is.fexv, hC.is.nsize, hC.is.esize⟩,
      h1.2.2.2.size, h1.2.2.1.size, by simp only; rw [h1.2.1]; exact hC.lk, hC.swf, hC.ewf⟩
  refine Ok.bind (socScalings_ok hC1 hs.sym hz.sym) ?_
  rintro r (⟨C', rfl, h2, h3⟩ | ⟨t, rfl, h2, h3, h3e, V, h4⟩)
  · simp only
    rw [Ok_pure]
    exact ⟨h2, Or.inl ⟨rfl, h3⟩⟩
  · simp only
    refine Ok.bind (expScalings_ok h2 hz mu) ?_
    rintro C2 ⟨h5, h6, h7, h8⟩
    have hlw : Holds C2.lpc.w S.l (fun i => PFloat.sqrt (safedivPos (s i) (z i))) := by
      rw [h6, h3]; exact h1.2.2.2
    have hlv : Holds C2.lpc.v S.l (fun i => safedivPos (s i) (z i)) := by
      rw [h6, h3]; exact h1.2.2.1
    let W : ConeV F := ⟨fun i => PFloat.sqrt (safedivPos (s i) (z i)), fun i => safedivPos (s i) (z i), V,
      fun l => hessF (S.eblock z l 0) (S.eblock z l 1) (S.eblock z l 2) mu,
      fun l => gradF (S.eblock z l 0) (S.eblock z l 1) (S.eblock z l 2)⟩
    have hsoc : ∀ k c, k < S.ns → C2.soc[k]? = some c → SocHolds c (S.q k) (W.V k) := by
      intro k c hk hc
      rw [h7] at hc
      exact (h4 k hk).2 c hc
    refine Ok.bind (scale_ok (V := W) h5.is hlw hsoc hz.sym hl) fun l h9 => ?_
    rw [Ok_pure]
    refine ⟨h5, Or.inr ⟨l, W, rfl, ⟨hlw, hlv, hsoc, fun l c hl hc => (h8 l c hl hc).1,
      fun l c hl hc => (h8 l c hl hc).2⟩, ⟨fun _ _ => rfl, fun _ _ => rfl, fun k hk => (h4 k hk).1,
      fun _ _ => rfl, fun _ _ => rfl⟩, h9⟩⟩

end generic
end Ecos
