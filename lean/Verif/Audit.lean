import Lean.Elab.Command
import Lean.Util.CollectAxioms
import Verif.Props.Balance
import Verif.Props.Borrow
import Verif.Props.Convert
import Verif.Props.Derive
import Verif.Props.ByteFns
import Verif.Props.DeriveCompile
import Verif.Props.DeriveOptions
import Verif.Props.DeriveTerm
import Verif.Props.ElemFixed
import Verif.Props.History
import Verif.Props.HistoryDyn
import Verif.Props.HistoryDynPanic
import Verif.Props.Ledger
import Verif.Props.MacroInput
import Verif.Props.SigAccept
import Verif.Props.SigValid
import Verif.Props.ViewProgs
import Verif.Props.DynViewProgs
import Verif.Props.Pointers
import Verif.Props.Compare
import Verif.Props.Tables
import Verif.Props.Whole
import Verif.Props.Threads
import Verif.Props.Traces
import Verif.Props.Numeric
import Verif.Props.Safety
import Verif.Props.Exact
import Verif.Props.Ownership
import Verif.Props.Machine
import Verif.Props.CopyWhole
import Verif.Props.DynMachine
import Verif.Props.SendSync
import Verif.Props.Sig
import Verif.Props.Slices
import Verif.Props.Upcast
import Verif.Props.Value
import Verif.Props.VecCopy
import Verif.Props.Interactive
import Verif.Props.Iterators
import Verif.Props.HeldViews
import Verif.Props.HeldDyn
import Verif.Props.Parallel
import Verif.Props.DynParallel
import Verif.Props.Unchecked
import Verif.Props.Loss
import Verif.Props.LossDyn
import Verif.Props.Amortised
import Verif.Props.AmortisedDyn
import Verif.Props.InPlace
import Verif.Props.InPlaceDyn
import Verif.Props.AmortisedBound
import Verif.Props.Nested
import Verif.Props.NestedMemory
import Verif.Props.NestedCompare
import Verif.Props.Errors
import Verif.Props.Complete
import Verif.Props.AnyGrowth2
import Verif.Props.TablePanic
import Verif.Props.PublicTraits
import Verif.Props.GrowthExact
import Verif.Props.Aliasing
import Verif.Props.VecCopy2
import Verif.Props.VecDyn
import Verif.Props.Views
/-!
# Axioms of the property theorems

The build fails if a theorem of this project (any theorem in the namespace `Dync`) depends on an axiom
other than the three standard ones. The count is printed while building.
-/
open Lean Elab Command in
run_cmd do
  let env ← getEnv
  let allowed := [``propext, ``Classical.choice, ``Quot.sound]
  let mut n : Nat := 0
  let mut props : Nat := 0
  for (name, info) in env.constants.map₁.toList do
    if (`Dync).isPrefixOf name && !name.isInternal then
      if let .thmInfo _ := info then
        n := n + 1
        if let .str `Dync s := name then
          if "C".isPrefixOf s && (s.toList.getD 1 'x').isDigit then props := props + 1
        for a in ← collectAxioms name do
          unless allowed.contains a do
            throwError "{name} depends on the axiom {a}"
  logInfo m!"{n} theorems checked, {props} of them property theorems"
