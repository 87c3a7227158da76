import Verif.Aliasing
import Verif.AliasingLemmas
import Verif.AliasingLemmas2
import Verif.AliasingLemmas3
import Verif.AliasingLemmas4
import Verif.AliasingLemmas5
import Verif.AliasingLemmas6
import Verif.AliasingSpec
import Verif.AnyGrowth
import Verif.Audit
import Verif.Balance
import Verif.Balance2
import Verif.Balance3
import Verif.Balance4
import Verif.Balance5
import Verif.Balance6
import Verif.Borrow
import Verif.Compare
import Verif.CompareLemmas
import Verif.CompareSpec
import Verif.Convert
import Verif.ConvertLemmas
import Verif.CopyValue
import Verif.CopyWholeLemmas
import Verif.CopyWholeLemmas2
import Verif.CopyWholeSpec
import Verif.Derive
import Verif.DeriveItems
import Verif.DeriveLemmas
import Verif.DeriveLemmas2
import Verif.DynFrame
import Verif.DynLemmas
import Verif.DynMachine
import Verif.DynMachineLemmas
import Verif.DynMachineLemmas10
import Verif.DynMachineLemmas11
import Verif.DynMachineLemmas2
import Verif.DynMachineLemmas3
import Verif.DynMachineLemmas4
import Verif.DynMachineLemmas5
import Verif.DynMachineLemmas6
import Verif.DynMachineLemmas7
import Verif.DynMachineLemmas8
import Verif.DynMachineLemmas9
import Verif.DynMachineUb
import Verif.DynParallel
import Verif.DynParallelLemmas
import Verif.DynParallelLemmas2
import Verif.DynParallelSpec
import Verif.Elem
import Verif.ElemFixed
import Verif.ErrorText
import Verif.Forgotten
import Verif.HeldDyn
import Verif.HeldDynLemmas
import Verif.HeldDynLemmas2
import Verif.HeldDynLemmas3
import Verif.HeldDynSpec
import Verif.HeldViews
import Verif.HeldViewsLemmas
import Verif.HeldViewsLemmas2
import Verif.HeldViewsLemmas3
import Verif.HeldViewsSpec
import Verif.History
import Verif.HistoryDyn
import Verif.HistoryDynLemmas
import Verif.HistoryDynPanic
import Verif.HistoryDynStep
import Verif.HistoryLemmas
import Verif.HistoryPanic
import Verif.HistoryStep
import Verif.InPlace
import Verif.InPlace2
import Verif.Interactive
import Verif.InteractiveSpec
import Verif.Iterators
import Verif.IteratorsLemmas
import Verif.IteratorsSpec
import Verif.Ledger
import Verif.LedgerSim
import Verif.LedgerStep
import Verif.Lemmas
import Verif.LossDyn
import Verif.LossLemmas
import Verif.LossQuiet
import Verif.LossSpec
import Verif.Machine
import Verif.MachineLemmas
import Verif.MachineLemmas2
import Verif.MachineLemmas3
import Verif.MachineLemmas4
import Verif.MachineLemmas5
import Verif.MachineLemmas6
import Verif.MachineLemmas7
import Verif.MacroRules
import Verif.Nested
import Verif.NestedCompare
import Verif.NestedCompareLemmas
import Verif.NestedCompareLemmas2
import Verif.NestedLemmas
import Verif.NestedLemmas2
import Verif.NestedLemmas3
import Verif.NestedMemory
import Verif.NestedMemory2
import Verif.NoUb
import Verif.Numeric
import Verif.OwnItems
import Verif.OwnRun
import Verif.OwnStep
import Verif.OwnStep2
import Verif.OwnStep3
import Verif.OwnVec
import Verif.OwnVec2
import Verif.OwnVec3
import Verif.OwnVec4
import Verif.Ownership
import Verif.Parallel
import Verif.ParallelLemmas
import Verif.ParallelLemmas2
import Verif.ParallelLemmas3
import Verif.ParallelSpec
import Verif.Pointers
import Verif.PointersLemmas
import Verif.PointersLemmas2
import Verif.PointersLemmas3
import Verif.PointersLemmas4
import Verif.PointersLemmas5
import Verif.PointersLemmas6
import Verif.PointersLemmas7
import Verif.Props.Aliasing
import Verif.Props.Amortised
import Verif.Props.AmortisedBound
import Verif.Props.AmortisedDyn
import Verif.Props.AnyGrowth
import Verif.Props.AnyGrowth2
import Verif.Props.Balance
import Verif.Props.Borrow
import Verif.Props.ByteFns
import Verif.Props.Compare
import Verif.Props.Complete
import Verif.Props.Convert
import Verif.Props.CopyWhole
import Verif.Props.Derive
import Verif.Props.DeriveCompile
import Verif.Props.DeriveOptions
import Verif.Props.DeriveTerm
import Verif.Props.DynMachine
import Verif.Props.DynParallel
import Verif.Props.DynViewProgs
import Verif.Props.ElemFixed
import Verif.Props.Errors
import Verif.Props.Exact
import Verif.Props.Example
import Verif.Props.ExampleDyn
import Verif.Props.GrowthExact
import Verif.Props.HeldDyn
import Verif.Props.HeldViews
import Verif.Props.History
import Verif.Props.HistoryDyn
import Verif.Props.HistoryDynPanic
import Verif.Props.InPlace
import Verif.Props.InPlaceDyn
import Verif.Props.Interactive
import Verif.Props.Iterators
import Verif.Props.Ledger
import Verif.Props.Loss
import Verif.Props.LossDyn
import Verif.Props.Machine
import Verif.Props.MacroInput
import Verif.Props.Nested
import Verif.Props.NestedCompare
import Verif.Props.NestedMemory
import Verif.Props.Numeric
import Verif.Props.Ownership
import Verif.Props.Parallel
import Verif.Props.Pointers
import Verif.Props.PublicTraits
import Verif.Props.Safety
import Verif.Props.SendSync
import Verif.Props.Sig
import Verif.Props.SigAccept
import Verif.Props.SigValid
import Verif.Props.Slices
import Verif.Props.TablePanic
import Verif.Props.Tables
import Verif.Props.Threads
import Verif.Props.Traces
import Verif.Props.Unchecked
import Verif.Props.Upcast
import Verif.Props.Value
import Verif.Props.VecCopy
import Verif.Props.VecCopy2
import Verif.Props.VecDyn
import Verif.Props.ViewProgs
import Verif.Props.Views
import Verif.Props.Whole
import Verif.RepoTests
import Verif.Runs
import Verif.Rust
import Verif.Safety
import Verif.SafetyLemmas
import Verif.SafetyLemmas2
import Verif.SafetyLemmas3
import Verif.SafetyLemmas4
import Verif.SafetyLemmas5
import Verif.SafetyLemmas6
import Verif.SafetyLemmas7
import Verif.SafetySlice
import Verif.SafetySlice2
import Verif.SafetySlice3
import Verif.SendSync
import Verif.Sig
import Verif.SliceCopy
import Verif.SliceLemmas
import Verif.SliceLemmas2
import Verif.Spec
import Verif.SpecDyn
import Verif.StdModel
import Verif.TablePanic
import Verif.Tables
import Verif.TablesLemmas
import Verif.TablesSpec
import Verif.Threads
import Verif.ThreadsLemmas
import Verif.ThreadsSpec
import Verif.TracesLemmas
import Verif.TracesSpec
import Verif.Traits
import Verif.Unchecked
import Verif.UncheckedLemmas
import Verif.UncheckedSpec
import Verif.Value
import Verif.VecCopy
import Verif.VecCopyLemmas
import Verif.VecCopyLemmas2
import Verif.VecCopyLemmas3
import Verif.VecDyn
import Verif.VecDynLemmas
import Verif.VecDynLemmas2
import Verif.VecDynLemmas3
import Verif.VecVoid
import Verif.VecVoidExact
import Verif.VecVoidLemmas
import Verif.VecVoidLemmas2
import Verif.VecVoidLemmas3
import Verif.VecVoidLemmas4
import Verif.ViewDyn
import Verif.ViewDynLemmas
import Verif.ViewDynLemmas2
import Verif.ViewDynLemmas3
import Verif.ViewDynLemmas4
import Verif.ViewDynSpec
import Verif.ViewLemmas
import Verif.ViewSpec
import Verif.Whole
import Verif.WholeLemmas
import Verif.WholeSpec
import Verif.WholeUb
import Verif.WrapLemmas
