import Mathlib.Tactic.Attr.Register

/-! Equations for the values of rule patterns. -/

register_simp_attr rule_eqs
