import Verif.Model.Amd

/-!
# Vocabulary for statements about AMD
-/
namespace Ecos.Amd

/-- `i` is an index of an array of `n` cells -/
abbrev Idx (n i : Int) : Prop := 0 ≤ i ∧ i < n

/-- `b` has `n` cells, which hold the values of `f` -/
def Cells (b : Buf Int) (n : Int) (f : Int → Int) : Prop :=
  b.size = n.toNat ∧ ∀ i : Int, Idx n i → b[i.toNat]? = some (some (f i))

/-- position `p` is in column `c` of the pattern with column pointers `jc` -/
def InC (jc : Int → Int) (c p : Int) : Prop := jc c ≤ p ∧ p < jc (c + 1)

/-- column `c` is in order: the pointers do not decrease and the rows are indices -/
def ColOk (n : Int) (jc ir : Int → Int) (c : Int) : Prop :=
  jc c ≤ jc (c + 1) ∧ ∀ p, InC jc c p → Idx n (ir p)

/-- column `c` is sorted and has no duplicates -/
def ColInc (jc ir : Int → Int) (c : Int) : Prop :=
  ∀ p, InC jc c p → InC jc c (p + 1) → ir p < ir (p + 1)

/-- the pattern is valid -/
def PatOk (n : Int) (jc ir : Int → Int) : Prop :=
  jc 0 = 0 ∧ ∀ c, Idx n c → ColOk n jc ir c

/-- all columns are sorted and have no duplicates -/
def PatInc (n : Int) (jc ir : Int → Int) : Prop := ∀ c, Idx n c → ColInc jc ir c

/-- row `x` is in column `c` -/
def Ent (n : Int) (jc ir : Int → Int) (x c : Int) : Prop := Idx n c ∧ ∃ q, InC jc c q ∧ ir q = x

/-- `x` and `y` are neighbours in the graph of `A + A'` -/
def Adj (n : Int) (jc ir : Int → Int) (x y : Int) : Prop :=
  x ≠ y ∧ ∃ c p, Idx n c ∧ InC jc c p ∧ (x = c ∧ y = ir p ∨ y = c ∧ x = ir p)

/-- `p` is a permutation of the indices -/
def PermI (n : Int) (p : Int → Int) : Prop :=
  (∀ i, Idx n i → Idx n (p i)) ∧ ∀ i j, Idx n i → Idx n j → p i = p j → i = j

/-- the answer that is right for a pattern: invalid, sorted, or neither -/
def Verdict (n : Int) (jc ir : Int → Int) (st : Status) : Prop :=
  st = .invalid ∧ ¬ PatOk n jc ir ∨ PatOk n jc ir ∧
    (st = .ok ∧ PatInc n jc ir ∨ st = .jumbled ∧ ¬ PatInc n jc ir)

end Ecos.Amd

namespace Ecos

/-- no column holds the same row twice -/
def NoDup (n : Nat) (jc ir : Nat → Nat) : Prop :=
  ∀ c, c < n → ∀ k l, jc c ≤ k → k < l → l < jc (c + 1) → ir k ≠ ir l

end Ecos
