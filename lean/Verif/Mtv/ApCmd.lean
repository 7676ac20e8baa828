import Verif.Mtv.Attr
import Verif.Mtv.Model
import Lean.Elab.Command
import Lean.Elab.Tactic.Simp
import Lean.Elab.Tactic.Basic
/-!
A command that states the evaluation lemma of a member function on an explicit state.
-/
namespace Mdds.Mtv
open Lean Meta Elab Command

/-- `mk_ap f`: for a member function `f : … → M α β` adds the `mev` lemma
`f_ap : f args ⟨bs, c, fr, ev, nx⟩ = body ⟨bs, c, fr, ev, nx⟩` (proved by `rfl`). -/
elab "mk_ap" ids:ident* : command => do
  for id in ids do
    let n ← liftCoreM <| realizeGlobalConstNoOverloadWithInfo id
    liftTermElabM do
      let info ← getConstInfoDefn n
      let lvls := info.levelParams.map mkLevelParam
      forallTelescope info.type fun args ty => do
        -- args may already include the state if `M` was unfolded; stop at `M`
        let_expr M a _ := ty | throwError "not a member function: {n} {ty}"
        withLocalDeclD `bs (mkApp (mkConst ``List [0]) (mkApp (mkConst ``Blk) a)) fun bs =>
        withLocalDeclD `c (mkConst ``Nat) fun c =>
        withLocalDeclD `fr (mkApp (mkConst ``List [0]) (mkApp2 (mkConst ``Prod [0, 0]) (mkConst ``Ty) a)) fun fr =>
        withLocalDeclD `ev (mkApp (mkConst ``List [0]) (mkConst ``Ev)) fun ev =>
        withLocalDeclD `nx (mkConst ``Nat) fun nx => do
          let st := mkAppN (mkConst ``St.mk) #[a, bs, c, fr, ev, nx]
          let lhs := mkApp (mkAppN (mkConst n lvls) args) st
          let rhs := mkApp (info.value.beta args) st
          let stmt ← mkForallFVars (args ++ #[bs, c, fr, ev, nx]) (← mkEq lhs rhs)
          let prf ← mkLambdaFVars (args ++ #[bs, c, fr, ev, nx]) (← mkEqRefl lhs)
          let nm := n.appendAfter "_ap"
          addDecl <| .thmDecl { name := nm, levelParams := info.levelParams, type := stmt, value := prf }
    let nm := mkIdent (n.appendAfter "_ap")
    elabCommand (← `(attribute [mev] $nm))

/-- Drop the arithmetic hypotheses. -/
elab "clear_arith" : tactic => Tactic.withMainContext do
  let mut g ← Tactic.getMainGoal
  for d in (← getLCtx) do
    if d.isImplementationDetail then continue
    let ty ← instantiateMVars d.type
    let arith : Bool :=
      match ty.getAppFnArgs with
      | (``Eq, #[t, _, _]) => t.isConstOf ``Nat
      | (``LT.lt, _) => true
      | (``LE.le, _) => true
      | (``Not, #[p]) => match p.getAppFnArgs with
        | (``Eq, #[t, _, _]) => t.isConstOf ``Nat
        | (``And, _) => true
        | _ => false
      | _ => false
    if arith then
      g ← (try g.clear d.fvarId catch _ => pure g)
  Tactic.replaceMainGoal [g]

end Mdds.Mtv
