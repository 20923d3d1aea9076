import Mathlib.Logic.Function.Basic
import Mathlib.Algebra.BigOperators.Group.Finset.Basic
import Mathlib.Algebra.Order.BigOperators.Group.Finset
import Mathlib.Order.Interval.Finset.Defs
import Mathlib.Data.Int.Interval
import Mathlib.Tactic.Linarith
import Verif.Spec.Amd

/-!
# AMD: buffers indexed by integers, loops, and the abstract state
-/
namespace Ecos.Amd

open Function (update)

variable {σ ρ : Type}

/-- the first `m` of the `n` cells of `b` hold the values of `f` -/
def HZ (b : Buf Int) (n m : Int) (f : Int → Int) : Prop :=
  b.size = n.toNat ∧ ∀ i : Int, 0 ≤ i → i < m → i < n → b[i.toNat]? = some (some (f i))

theorem HZ.rd {b : Buf Int} {n m : Int} {f : Int → Int} (h : HZ b n m f) {i : Int}
    (h0 : 0 ≤ i) (h1 : i < m) (h2 : i < n) : rdI b i = .ok (f i) := by
  simp [rdI, not_lt.2 h0, Ecos.rd, h.2 i h0 h1 h2]

theorem HZ.wr {b : Buf Int} {n m : Int} {f : Int → Int} (h : HZ b n m f) {i : Int} (v : Int)
    (h0 : 0 ≤ i) (h1 : i < n) (hm : i ≤ m) :
    Ok (wrI b i v) (fun b' => HZ b' n (max m (i + 1)) (update f i v)) := by
  have hs : i.toNat < b.size := by rw [h.1]; omega
  simp only [wrI, not_lt.2 h0, if_false]
  rw [wr_eq hs, Ok_ok]
  refine ⟨by simp [h.1], fun j j0 jm jn => ?_⟩
  by_cases hij : j = i
  · subst hij; simp [hs]
  · rw [Function.update_of_ne hij, Array.getElem?_setIfInBounds_ne (by omega)]
    exact h.2 j j0 (by omega) jn

theorem HZ.wr' {b : Buf Int} {n m : Int} {f : Int → Int} (h : HZ b n m f) {i : Int} (v : Int)
    (h0 : 0 ≤ i) (h1 : i < n) (hm : i < m) :
    Ok (wrI b i v) (fun b' => HZ b' n m (update f i v)) := by
  have := h.wr v h0 h1 (le_of_lt hm)
  rwa [max_eq_left (by omega)] at this

theorem HZ.mono {b : Buf Int} {n m m' : Int} {f : Int → Int} (h : HZ b n m f) (hm : m' ≤ m) :
    HZ b n m' f := ⟨h.1, fun i a b c => h.2 i a (by omega) c⟩

theorem HZ.congr {b : Buf Int} {n m : Int} {f g : Int → Int} (h : HZ b n m f)
    (hfg : ∀ i, 0 ≤ i → i < m → i < n → f i = g i) : HZ b n m g :=
  ⟨h.1, fun i a b c => by rw [h.2 i a b c, hfg i a b c]⟩

theorem HZ.of_size {b : Buf Int} {n : Int} (h : b.size = n.toNat) (f : Int → Int) : HZ b n 0 f :=
  ⟨h, fun i a b _ => by omega⟩

/-- invariant rule for `forI` -/
theorem forI_ok {lo hi : Int} {s : σ} {body : Int → σ → M σ} {Q : σ → Prop}
    (I : Int → σ → Prop) (hle : lo ≤ hi) (h0 : I lo s)
    (hstep : ∀ i s, lo ≤ i → i < hi → I i s → Ok (body i s) (I (i + 1)))
    (hfin : ∀ s, I hi s → Q s) : Ok (forI lo hi s body) Q := by
  unfold forI
  refine loop_ok (fun k s => I (lo + k) s) (Nat.zero_le _) (by simpa using h0) ?_ ?_
  · intro k s _ hk hI
    have := hstep (lo + k) s (by omega) (by omega) hI
    refine this.mono fun s' hs' => ?_
    push_cast
    rw [← add_assoc]; exact hs'
  · intro s hs
    refine hfin s ?_
    have e : lo + ((hi - lo).toNat : Int) = hi := by omega
    rwa [e] at hs

theorem forI_empty {lo hi : Int} {s : σ} {body : Int → σ → M σ} (h : hi ≤ lo) :
    forI lo hi s body = .ok s := by
  unfold forI
  have : (hi - lo).toNat = 0 := by omega
  rw [this, loop_empty _ _ le_rfl]

/-- rule for `while` loops: an invariant and a measure that the fuel covers -/
theorem iter_ok {fuel : Nat} {s : σ} {body : σ → M (ρ ⊕ σ)} {Q : ρ → Prop}
    (I : σ → Prop) (μ : σ → Nat) (hf : μ s < fuel) (h0 : I s)
    (hstep : ∀ s, I s → Ok (body s) (fun r =>
      match r with
      | .inl r => Q r
      | .inr s' => I s' ∧ μ s' < μ s)) : Ok (iter fuel s body) Q := by
  induction fuel generalizing s with
  | zero => omega
  | succ k ih =>
    unfold iter
    rw [Ok_bind]
    refine (hstep s h0).mono fun r hr => ?_
    cases r with
    | inl r => exact hr
    | inr s' => exact ih (by have := hr.2; omega) hr.1

/-- rule for `loopE` -/
theorem loopE_ok {lo hi : Nat} {s : σ} {body : Nat → σ → M (ρ ⊕ σ)} {Q : ρ ⊕ σ → Prop}
    (I : Nat → σ → Prop) (hle : lo ≤ hi) (h0 : I lo s)
    (hstep : ∀ i s, lo ≤ i → i < hi → I i s → Ok (body i s) (fun r =>
      match r with
      | .inl r => Q (.inl r)
      | .inr s' => I (i + 1) s'))
    (hfin : ∀ s, I hi s → Q (.inr s)) : Ok (loopE lo hi s body) Q := by
  induction hn : hi - lo generalizing lo s with
  | zero =>
    have : lo = hi := by omega
    subst this
    unfold loopE
    simp only [Nat.lt_irrefl, if_false, Ok_ok]
    exact hfin _ h0
  | succ k ih =>
    have hlt : lo < hi := by omega
    unfold loopE
    rw [if_pos hlt, Ok_bind]
    refine (hstep lo s (Nat.le_refl _) hlt h0).mono ?_
    intro r hr
    cases r with
    | inl r => exact hr
    | inr s' =>
      exact ih (by omega) hr (fun i s hi1 hi2 => hstep i s (by omega) hi2) (by omega)

/-- the arrays of `AMD_2` as functions; `top` cells of `Iw` are written -/
structure Ab where
  pe : Int → Int
  iw : Int → Int
  len : Int → Int
  nv : Int → Int
  next : Int → Int
  last : Int → Int
  head : Int → Int
  elen : Int → Int
  degree : Int → Int
  w : Int → Int
  top : Int

/-- the arrays of `s` have `n` (`Iw`: `L`) cells and hold the values of `a` -/
structure Rep (n L : Int) (s : St) (a : Ab) : Prop where
  pe : HZ s.pe n n a.pe
  iw : HZ s.iw L a.top a.iw
  len : HZ s.len n n a.len
  nv : HZ s.nv n n a.nv
  next : HZ s.next n n a.next
  last : HZ s.last n n a.last
  head : HZ s.head n n a.head
  elen : HZ s.elen n n a.elen
  degree : HZ s.degree n n a.degree
  w : HZ s.w n n a.w

namespace Rep
variable {n L : Int} {s : St} {a : Ab}

theorem rPe (h : Rep n L s a) {i : Int} (hi : Idx n i) : s.rPe i = .ok (a.pe i) :=
  h.pe.rd hi.1 hi.2 hi.2
theorem rIw (h : Rep n L s a) {i : Int} (h0 : 0 ≤ i) (h1 : i < a.top) (h2 : i < L) :
    s.rIw i = .ok (a.iw i) := h.iw.rd h0 h1 h2
theorem rLen (h : Rep n L s a) {i : Int} (hi : Idx n i) : s.rLen i = .ok (a.len i) :=
  h.len.rd hi.1 hi.2 hi.2
theorem rNv (h : Rep n L s a) {i : Int} (hi : Idx n i) : s.rNv i = .ok (a.nv i) :=
  h.nv.rd hi.1 hi.2 hi.2
theorem rNext (h : Rep n L s a) {i : Int} (hi : Idx n i) : s.rNext i = .ok (a.next i) :=
  h.next.rd hi.1 hi.2 hi.2
theorem rLast (h : Rep n L s a) {i : Int} (hi : Idx n i) : s.rLast i = .ok (a.last i) :=
  h.last.rd hi.1 hi.2 hi.2
theorem rHead (h : Rep n L s a) {i : Int} (hi : Idx n i) : s.rHead i = .ok (a.head i) :=
  h.head.rd hi.1 hi.2 hi.2
theorem rElen (h : Rep n L s a) {i : Int} (hi : Idx n i) : s.rElen i = .ok (a.elen i) :=
  h.elen.rd hi.1 hi.2 hi.2
theorem rDegree (h : Rep n L s a) {i : Int} (hi : Idx n i) : s.rDegree i = .ok (a.degree i) :=
  h.degree.rd hi.1 hi.2 hi.2
theorem rW (h : Rep n L s a) {i : Int} (hi : Idx n i) : s.rW i = .ok (a.w i) :=
  h.w.rd hi.1 hi.2 hi.2

theorem wPe (h : Rep n L s a) {i : Int} (v : Int) (hi : Idx n i) :
    Ok (s.wPe i v) (fun s' => Rep n L s' { a with pe := update a.pe i v }) := by
  unfold St.wPe
  exact (h.pe.wr' v hi.1 hi.2 hi.2).bind fun b hb => { h with pe := hb }
theorem wIw (h : Rep n L s a) {i : Int} (v : Int) (h0 : 0 ≤ i) (h1 : i < a.top) (h2 : i < L) :
    Ok (s.wIw i v) (fun s' => Rep n L s' { a with iw := update a.iw i v }) := by
  unfold St.wIw
  exact (h.iw.wr' v h0 h2 h1).bind fun b hb => { h with iw := hb }
theorem wIwTop (h : Rep n L s a) {i : Int} (v : Int) (h0 : 0 ≤ i) (h1 : i ≤ a.top) (h2 : i < L) :
    Ok (s.wIw i v) (fun s' => Rep n L s' { a with iw := update a.iw i v, top := max a.top (i + 1) }) := by
  unfold St.wIw
  exact (h.iw.wr v h0 h2 h1).bind fun b hb => { h with iw := hb }
theorem wLen (h : Rep n L s a) {i : Int} (v : Int) (hi : Idx n i) :
    Ok (s.wLen i v) (fun s' => Rep n L s' { a with len := update a.len i v }) := by
  unfold St.wLen
  exact (h.len.wr' v hi.1 hi.2 hi.2).bind fun b hb => { h with len := hb }
theorem wNv (h : Rep n L s a) {i : Int} (v : Int) (hi : Idx n i) :
    Ok (s.wNv i v) (fun s' => Rep n L s' { a with nv := update a.nv i v }) := by
  unfold St.wNv
  exact (h.nv.wr' v hi.1 hi.2 hi.2).bind fun b hb => { h with nv := hb }
theorem wNext (h : Rep n L s a) {i : Int} (v : Int) (hi : Idx n i) :
    Ok (s.wNext i v) (fun s' => Rep n L s' { a with next := update a.next i v }) := by
  unfold St.wNext
  exact (h.next.wr' v hi.1 hi.2 hi.2).bind fun b hb => { h with next := hb }
theorem wLast (h : Rep n L s a) {i : Int} (v : Int) (hi : Idx n i) :
    Ok (s.wLast i v) (fun s' => Rep n L s' { a with last := update a.last i v }) := by
  unfold St.wLast
  exact (h.last.wr' v hi.1 hi.2 hi.2).bind fun b hb => { h with last := hb }
theorem wHead (h : Rep n L s a) {i : Int} (v : Int) (hi : Idx n i) :
    Ok (s.wHead i v) (fun s' => Rep n L s' { a with head := update a.head i v }) := by
  unfold St.wHead
  exact (h.head.wr' v hi.1 hi.2 hi.2).bind fun b hb => { h with head := hb }
theorem wElen (h : Rep n L s a) {i : Int} (v : Int) (hi : Idx n i) :
    Ok (s.wElen i v) (fun s' => Rep n L s' { a with elen := update a.elen i v }) := by
  unfold St.wElen
  exact (h.elen.wr' v hi.1 hi.2 hi.2).bind fun b hb => { h with elen := hb }
theorem wDegree (h : Rep n L s a) {i : Int} (v : Int) (hi : Idx n i) :
    Ok (s.wDegree i v) (fun s' => Rep n L s' { a with degree := update a.degree i v }) := by
  unfold St.wDegree
  exact (h.degree.wr' v hi.1 hi.2 hi.2).bind fun b hb => { h with degree := hb }
theorem wW (h : Rep n L s a) {i : Int} (v : Int) (hi : Idx n i) :
    Ok (s.wW i v) (fun s' => Rep n L s' { a with w := update a.w i v }) := by
  unfold St.wW
  exact (h.w.wr' v hi.1 hi.2 hi.2).bind fun b hb => { h with w := hb }
end Rep

/-- a read that succeeds -/
theorem Ok_rd {α β : Type} {m : M α} {v : α} {f : α → M β} {Q : β → Prop} (h : m = .ok v)
    (hf : Ok (f v) Q) : Ok (m >>= f) Q := by
  rw [h]; exact hf

/-- the interval of indices -/
noncomputable abbrev ix (n : Int) : Finset Int := Finset.Ico 0 n

end Ecos.Amd
