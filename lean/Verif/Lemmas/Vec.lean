import Mathlib.Algebra.BigOperators.Intervals
import Verif.Model.Cone
import Verif.Lemmas.Driver1

/-!
# Array segments

`Has b off k g`: the `k` cells from `off` on hold `g`.  `Seg b b' off k g`: `b'` is `b` with those
cells overwritten by `g`.  `itr` is the value of a loop whose body cannot fail.
-/
namespace Ecos

open Finset

set_option linter.unusedSectionVars false

variable {α β σ : Type}

/-! ### Pure loops -/

/-- `for (i = 0; i < n; i++) s = f(i, s)` -/
def itr : Nat → σ → (Nat → σ → σ) → σ
  | 0, s, _ => s
  | n + 1, s, f => f n (itr n s f)

@[simp] theorem itr_zero (s : σ) (f : Nat → σ → σ) : itr 0 s f = s := rfl
theorem itr_succ (n : Nat) (s : σ) (f : Nat → σ → σ) : itr (n + 1) s f = f n (itr n s f) := rfl

theorem itr_congr {n : Nat} {s : σ} {f g : Nat → σ → σ} (h : ∀ i s, i < n → f i s = g i s) :
    itr n s f = itr n s g := by
  induction n with
  | zero => rfl
  | succ n ih => rw [itr_succ, itr_succ, ih fun i s hi => h i s (by omega), h _ _ (by omega)]

/-- a loop whose body succeeds with `f` -/
theorem loop_itr {n lo hi : Nat} {s : σ} {body : Nat → σ → M σ} {f : Nat → σ → σ} (hn : hi = lo + n)
    (h : ∀ i s, i < n → body (lo + i) s = .ok (f i s)) : loop lo hi s body = .ok (itr n s f) := by
  subst hn
  have : Ok (loop lo (lo + n) s body) fun t => t = itr n s f := by
    refine loop_ok (fun i t => t = itr (i - lo) s f) (by omega) (by simp) ?_ ?_
    · rintro i t h1 h2 rfl
      have := h (i - lo) (itr (i - lo) s f) (by omega)
      rw [show lo + (i - lo) = i by omega] at this
      rw [this, Ok_ok, show i + 1 - lo = (i - lo) + 1 by omega, itr_succ]
    · rintro t rfl
      rw [show lo + n - lo = n by omega]
  obtain ⟨t, ht, rfl⟩ := (Ok.def _ _).1 this
  exact ht

theorem itr_sum (n : Nat) (a : ℝ) (g : Nat → ℝ) : itr n a (fun i s => s + g i) = a + ∑ i ∈ range n, g i := by
  induction n with
  | zero => simp
  | succ n ih => rw [itr_succ, ih, sum_range_succ]; ring

theorem itr_sub (n : Nat) (a : ℝ) (g : Nat → ℝ) : itr n a (fun i s => s - g i) = a - ∑ i ∈ range n, g i := by
  induction n with
  | zero => simp
  | succ n ih => rw [itr_succ, ih, sum_range_succ]; ring

/-- invariant rule for `itr` -/
theorem itr_inv {n : Nat} {s : σ} {f : Nat → σ → σ} (I : Nat → σ → Prop) (h0 : I 0 s)
    (hstep : ∀ i s, i < n → I i s → I (i + 1) (f i s)) : I n (itr n s f) := by
  induction n with
  | zero => exact h0
  | succ n ih => exact hstep _ _ (by omega) (ih fun i s hi => hstep i s (by omega))

/-! ### Segments -/

/-- the `k` cells of `b` from `off` on hold `g` -/
def Has (b : Buf α) (off k : Nat) (g : Nat → α) : Prop :=
  ∀ j, j < k → b[off + j]? = some (some (g j))

/-- `b'` is `b` with the `k` cells from `off` on overwritten by `g` -/
structure Seg (b b' : Buf α) (off k : Nat) (g : Nat → α) : Prop where
  size : b'.size = b.size
  inside : Has b' off k g
  outside : ∀ j, j < off ∨ off + k ≤ j → b'[j]? = b[j]?

theorem Has.rd {b : Buf α} {off k : Nat} {g : Nat → α} (h : Has b off k g) {j : Nat} (hj : j < k) :
    rd b (off + j) = .ok (g j) := by
  simp [Ecos.rd, h j hj]

theorem Has.rd' {b : Buf α} {off k : Nat} {g : Nat → α} (h : Has b off k g) {i : Nat} (h1 : off ≤ i)
    (h2 : i < off + k) : Ecos.rd b i = .ok (g (i - off)) := by
  have := h.rd (j := i - off) (by omega)
  rwa [show off + (i - off) = i by omega] at this

theorem Has.rd0 {b : Buf α} {off k : Nat} {g : Nat → α} (h : Has b off k g) (hk : 0 < k) :
    Ecos.rd b off = .ok (g 0) := h.rd hk

theorem Has.congr {b : Buf α} {off k : Nat} {g g' : Nat → α} (h : Has b off k g)
    (hg : ∀ j, j < k → g j = g' j) : Has b off k g' := fun j hj => by rw [h j hj, hg j hj]

theorem Has.sub {b : Buf α} {off k : Nat} {g : Nat → α} (h : Has b off k g) {o' k' : Nat}
    (h1 : o' + k' ≤ k) : Has b (off + o') k' fun j => g (o' + j) := fun j hj => by
  have := h (o' + j) (by omega)
  rwa [show off + (o' + j) = off + o' + j by omega] at this

theorem Has.size {b : Buf α} {off k : Nat} {g : Nat → α} (h : Has b off k g) (hk : 0 < k) :
    off + k ≤ b.size := by
  have h1 := h (k - 1) (by omega)
  rw [Array.getElem?_eq_some_iff] at h1
  obtain ⟨h2, -⟩ := h1
  omega

theorem Has.unique {b : Buf α} {off k : Nat} {g g' : Nat → α} (h : Has b off k g) (h' : Has b off k g')
    {j : Nat} (hj : j < k) : g j = g' j := by
  have := h j hj
  rw [h' j hj] at this
  simpa using this.symm

theorem Holds.has {b : Buf α} {n : Nat} {f : Nat → α} (h : Holds b n f) {off k : Nat} (hk : off + k ≤ n) :
    Has b off k fun j => f (off + j) := fun j hj => h.2 _ (by omega)

theorem Holds.has0 {b : Buf α} {n : Nat} {f : Nat → α} (h : Holds b n f) : Has b 0 n f := fun j hj => by
  rw [Nat.zero_add]; exact h.2 _ hj

theorem Has.holds {b : Buf α} {n : Nat} {f : Nat → α} (h : Has b 0 n f) (hs : b.size = n) : Holds b n f :=
  ⟨hs, fun j hj => by have := h j hj; rwa [Nat.zero_add] at this⟩

theorem Seg.has {b b' : Buf α} {off k : Nat} {g : Nat → α} (h : Seg b b' off k g) {o' k' : Nat}
    {g' : Nat → α} (h' : Has b o' k' g') (hd : o' + k' ≤ off ∨ off + k ≤ o' ) : Has b' o' k' g' := fun j hj => by
  rw [h.outside _ (by omega)]; exact h' j hj

theorem Seg.holds {b b' : Buf α} {n : Nat} {g : Nat → α} (h : Seg b b' 0 n g) (hs : b.size = n) :
    Holds b' n g := h.inside.holds (by rw [h.size, hs])

theorem Seg.refl0 (b : Buf α) (off : Nat) (g : Nat → α) : Seg b b off 0 g :=
  ⟨rfl, fun j hj => by omega, fun _ _ => rfl⟩

theorem Seg.congr {b b' : Buf α} {off k : Nat} {g g' : Nat → α} (h : Seg b b' off k g)
    (hg : ∀ j, j < k → g j = g' j) : Seg b b' off k g' := ⟨h.size, h.inside.congr hg, h.outside⟩

/-- one write in front of (or right behind) a segment -/
theorem Seg.append {b b1 b2 : Buf α} {off k k' : Nat} {g g' : Nat → α} (h1 : Seg b b1 off k g)
    (h2 : Seg b1 b2 (off + k) k' g') :
    Seg b b2 off (k + k') fun j => if j < k then g j else g' (j - k) := by
  refine ⟨h2.size.trans h1.size, fun j hj => ?_, fun j hj => ?_⟩
  · by_cases hjk : j < k
    · simp only [hjk, if_true]
      rw [h2.outside _ (by omega)]
      exact h1.inside j hjk
    · simp only [hjk, if_false]
      have := h2.inside (j - k) (by omega)
      rwa [show off + k + (j - k) = off + j by omega] at this
  · rw [h2.outside _ (by omega), h1.outside _ (by omega)]

theorem wr_seg {b : Buf α} {i : Nat} {v : α} (h : i < b.size) :
    Ok (wr b i v) fun b' => Seg b b' i 1 fun _ => v := by
  rw [wr_eq h, Ok_ok]
  refine ⟨by simp, fun j hj => ?_, fun j hj => ?_⟩
  · have : j = 0 := by omega
    subst this
    simp [h]
  · rw [Array.getElem?_setIfInBounds_ne (by omega)]

theorem fill_ok {b : Buf α} {off k : Nat} {val : Nat → M α} {g : Nat → α} (hb : off + k ≤ b.size)
    (hv : ∀ i, i < k → val i = .ok (g i)) : Ok (fill b off k val) fun b' => Seg b b' off k g := by
  unfold fill
  refine loop_ok (fun i b' => Seg b b' off i g) (by omega) (Seg.refl0 _ _ _) ?_ (fun _ h => h)
  intro i b1 _ hi h1
  rw [hv i hi, ok_bind_eq]
  refine (wr_seg (by rw [h1.size]; omega)).mono fun b2 h2 => ?_
  refine (h1.append h2).congr fun j hj => ?_
  split
  · rfl
  · rw [show j = i by omega]

theorem modify_ok {b : Buf α} {off k : Nat} {f : Nat → α → M α} {o : Nat → α} {g : Nat → α}
    (hb : Has b off k o) (hs : off + k ≤ b.size)
    (hv : ∀ i, i < k → f i (o i) = .ok (g i)) : Ok (modify b off k f) fun b' => Seg b b' off k g := by
  unfold modify
  refine loop_ok (fun i b' => Seg b b' off i g) (by omega) (Seg.refl0 _ _ _) ?_ (fun _ h => h)
  intro i b1 _ hi h1
  have : Ecos.rd b1 (off + i) = .ok (o i) := by
    have := h1.outside (off + i) (by omega)
    simp [Ecos.rd, this, hb i hi]
  rw [this, ok_bind_eq, hv i hi, ok_bind_eq]
  refine (wr_seg (by rw [h1.size]; omega)).mono fun b2 h2 => ?_
  refine (h1.append h2).congr fun j hj => ?_
  split
  · rfl
  · rw [show j = i by omega]

/-! ### Cones -/

/-- sizes of the cones of a problem: `l` linear rows, `ns` second-order cones of sizes `q k`, `ne`
exponential cones -/
structure Shape where
  l : Nat
  ns : Nat
  q : Nat → Nat
  ne : Nat

/-- first row of the `k`-th second-order cone -/
def Shape.start (S : Shape) (k : Nat) : Nat := S.l + ∑ i ∈ range k, S.q i

/-- number of rows of the symmetric cones, i.e. first row of the exponential cones -/
def Shape.fexv (S : Shape) : Nat := S.start S.ns

/-- number of rows -/
def Shape.m (S : Shape) : Nat := S.fexv + 3 * S.ne

theorem Shape.start_succ (S : Shape) (k : Nat) : S.start (k + 1) = S.start k + S.q k := by
  unfold Shape.start; rw [sum_range_succ]; omega

@[simp] theorem Shape.start_zero (S : Shape) : S.start 0 = S.l := by simp [Shape.start]

theorem Shape.start_mono (S : Shape) {i j : Nat} (h : i ≤ j) : S.start i ≤ S.start j := by
  induction j with
  | zero => rw [show i = 0 by omega]
  | succ j ih =>
    by_cases hij : i = j + 1
    · rw [hij]
    · rw [S.start_succ]; have := ih (by omega); omega

theorem Shape.start_le (S : Shape) {k : Nat} (h : k < S.ns) : S.start k + S.q k ≤ S.fexv := by
  rw [← S.start_succ]; exact S.start_mono h

theorem Shape.l_le (S : Shape) (k : Nat) : S.l ≤ S.start k := by
  have := S.start_mono (Nat.zero_le k); simpa using this

theorem Shape.disj (S : Shape) {i j : Nat} (h : i < j) : S.start i + S.q i ≤ S.start j := by
  rw [← S.start_succ]; exact S.start_mono h

section generic
variable {F : Type} [Zero F] [One F] [Add F] [Sub F] [Mul F] [Div F] [Neg F] [OfScientific F]
  [IntCast F] [PFloat F]

/-- the cone structure has the sizes `S` -/
structure ConeIs (C : Cone F) (S : Shape) : Prop where
  l : C.lpc.p = S.l
  nsoc : C.nsoc = S.ns
  soc : ∀ k, k < S.ns → ∃ c, C.soc[k]? = some c ∧ c.p = S.q k
  pos : ∀ k, k < S.ns → 0 < S.q k
  nexc : C.nexc = S.ne
  fexv : C.fexv = S.fexv
  nsize : C.soc.size = S.ns
  esize : C.expc.size = S.ne

theorem getIdx_some {a : Array α} {i : Nat} {x : α} (h : a[i]? = some x) : getIdx a i = .ok x := by
  simp [getIdx, h]

theorem forSoc_ok {C : Cone F} {S : Shape} (hC : ConeIs C S) {start extra : Nat} {s : σ}
    {body : Nat → SoCone F → Nat → σ → M σ} (I : Nat → σ → Prop) (h0 : I 0 s)
    (hstep : ∀ k soc s, k < S.ns → C.soc[k]? = some soc → soc.p = S.q k → I k s →
      Ok (body k soc (start + ∑ i ∈ range k, (S.q i + extra)) s) (I (k + 1))) :
    Ok (forSoc C start extra s body)
      fun t => I S.ns t.1 ∧ t.2 = start + ∑ i ∈ range S.ns, (S.q i + extra) := by
  unfold forSoc
  rw [hC.nsoc]
  refine loop_ok (fun k t => I k t.1 ∧ t.2 = start + ∑ i ∈ range k, (S.q i + extra)) (by omega)
    ⟨h0, by simp⟩ ?_ (fun _ h => h)
  rintro k ⟨s, p⟩ _ hk ⟨h1, h2⟩
  obtain ⟨soc, hs, hq⟩ := hC.soc k hk
  simp only at h1 h2
  rw [getIdx_some hs, ok_bind_eq, h2]
  refine Ok.bind (hstep k soc s hk hs hq h1) fun s' hs' => ?_
  rw [Ok_pure]
  exact ⟨hs', by simp only [hq, sum_range_succ]; omega⟩

theorem Shape.start_add (S : Shape) (k : Nat) :
    S.l + ∑ i ∈ range k, (S.q i + 0) = S.start k := by simp [Shape.start]

/-- the same when the cones are traversed without extra rows -/
theorem forSoc_ok0 {C : Cone F} {S : Shape} (hC : ConeIs C S) {s : σ}
    {body : Nat → SoCone F → Nat → σ → M σ} (I : Nat → σ → Prop) (h0 : I 0 s)
    (hstep : ∀ k soc s, k < S.ns → C.soc[k]? = some soc → soc.p = S.q k → I k s →
      Ok (body k soc (S.start k) s) (I (k + 1))) :
    Ok (forSoc C C.lpc.p 0 s body) fun t => I S.ns t.1 ∧ t.2 = S.fexv := by
  rw [hC.l]
  refine (forSoc_ok hC I h0 ?_).mono ?_
  · intro k soc s hk hs hq h
    rw [S.start_add]
    exact hstep k soc s hk hs hq h
  · rintro t ⟨h1, h2⟩
    exact ⟨h1, by rw [h2, S.start_add]; rfl⟩

/-- `b'` is `b` with the rows of the second-order cones overwritten, block `k` by `g k` -/
structure Blocks (S : Shape) (b b' : Buf α) (g : Nat → Nat → α) : Prop where
  size : b'.size = b.size
  inside : ∀ k, k < S.ns → Has b' (S.start k) (S.q k) (g k)
  outside : ∀ j, j < S.l ∨ S.fexv ≤ j → b'[j]? = b[j]?

theorem forSoc_blocks {C : Cone F} {S : Shape} (hC : ConeIs C S) {b : Buf α}
    {body : Nat → SoCone F → Nat → Buf α → M (Buf α)} {g : Nat → Nat → α}
    (hbody : ∀ k soc b1, k < S.ns → C.soc[k]? = some soc → soc.p = S.q k → b1.size = b.size →
      (∀ j, S.start k ≤ j → b1[j]? = b[j]?) →
      Ok (body k soc (S.start k) b1) fun b2 => Seg b1 b2 (S.start k) (S.q k) (g k)) :
    Ok (forSoc C C.lpc.p 0 b body) fun t => Blocks S b t.1 g ∧ t.2 = S.fexv := by
  refine (forSoc_ok0 hC (fun k b' => b'.size = b.size ∧
    (∀ i, i < k → Has b' (S.start i) (S.q i) (g i)) ∧
    ∀ j, j < S.l ∨ S.start k ≤ j → b'[j]? = b[j]?) ⟨rfl, fun i hi => by omega, fun _ _ => rfl⟩ ?_).mono ?_
  · rintro k soc b1 hk hs hq ⟨h1, h2, h3⟩
    refine (hbody k soc b1 hk hs hq h1 (fun j hj => h3 j (Or.inr hj))).mono fun b2 h => ?_
    refine ⟨h.size.trans h1, fun i hi => ?_, fun j hj => ?_⟩
    · by_cases hik : i = k
      · subst hik; exact h.inside
      · exact h.has (h2 i (by omega)) (Or.inl (S.disj (by omega)))
    · have := S.l_le k
      rw [h.outside j (by rw [← S.start_succ]; omega)]
      refine h3 j ?_
      rcases hj with hj | hj
      · exact Or.inl hj
      · exact Or.inr (by rw [S.start_succ] at hj; omega)
  · rintro t ⟨⟨h1, h2, h3⟩, h4⟩
    exact ⟨⟨h1, h2, h3⟩, h4⟩

end generic
end Ecos
