import Lean.Meta.Tactic.Simp.RegisterCommand
/-- Simp set that evaluates the multi_type_vector model on a decomposed state. -/
register_simp_attr mev
