import Mathlib.Tactic.Attr.Register
import Mathlib.Lean.Expr.ExtraRecognizers
import Lean.LabelAttribute

/-!
# The label of the rules used by the tactic `mono`
-/

/-- rules of the form "related arguments give related results" -/
register_label_attr mle
