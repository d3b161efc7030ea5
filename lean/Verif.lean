import Verif.Props.Exact
import Verif.Props.Contract
import Verif.Props.Safety
import Verif.Props.NumberTheory
import Verif.Props.Laws
import Verif.Props.AnyArith
import Verif.Props.Root
import Verif.Props.Rounding
import Verif.Props.Harness
import Verif.Props.Stability
import Verif.Props.Ieee
import Verif.Props.IeeeTest
import Verif.Props.Machine
import Verif.Props.MachineRoot
import Verif.Props.MachineSafety
import Verif.Props.MachineShort
import Verif.Props.UnitTests
import Verif.Props.Aliasing
import Verif.Props.Stateful
import Verif.Props.Calls
import Verif.Props.Bench
import Verif.Props.Poison
import Verif.Props.Conv
import Verif.Props.Sign
import Verif.Props.Radix4Repaired
import Verif.Props.Unwind
import Verif.Props.RoundTrip
import Verif.Props.Circuit
import Verif.Props.Lengths
import Verif.Props.Scaling
import Verif.Props.Patched
import Verif.Props.FirstCoefficient
import Verif.Props.SmallLengths
import Verif.Props.InputKept
import Verif.Props.DocExamples
import Verif.Props.UserStability
import Verif.Props.NonFinite
import Verif.Spec.Impulse
import Verif.Spec.Integers
import Verif.Proofs.Impulse
import Verif.Proofs.ImpulseIeee
import Verif.Proofs.Integers
import Verif.Props.Impulse
import Verif.Props.Integers
import Verif.Model.Stack
import Verif.Props.Stack
import Verif.Spec.Memory
import Verif.Proofs.Memory
import Verif.Props.Memory
import Verif.Spec.Override
import Verif.Proofs.Override
import Verif.Props.Override
import Verif.Proofs.Radix4Defect
import Verif.Props.Radix4Defect
import Verif.Spec.OnlyIf
import Verif.Proofs.OnlyIf
import Verif.Proofs.Reordered
import Verif.Props.OnlyIf
import Verif.Spec.RootFree
import Verif.Proofs.RootFree
import Verif.Proofs.RootScale
import Verif.Proofs.RootAffected
import Verif.Props.RootFree
import Verif.Proofs.Cyclotomic
import Verif.Proofs.RadersMatrix
import Verif.Proofs.RadersInner
import Verif.Proofs.TableEntries
import Verif.Proofs.OnlyIfStages
import Verif.Proofs.OnlyIfAll
import Verif.Proofs.RootReal
import Verif.Props.FarOff
import Verif.Proofs.RootStage
import Verif.Proofs.RootPlan
import Verif.Proofs.RootLoss
import Verif.Proofs.RootSplit
import Verif.Proofs.RootLossFloat
import Verif.Props.RootLoss
import Verif.Spec.Sample
import Verif.Proofs.CheckDetects
import Verif.Proofs.Pairs
import Verif.Proofs.CheckRadix4
import Verif.Props.Detected
import Verif.Props.Caught
import Verif.Props.Formats
import Verif.Spec.RadersOnce
import Verif.Proofs.RadersLoss
import Verif.Proofs.RadersLossAll
import Verif.Props.RadersLoss
import Verif.Props.ArrayUtils
import Verif.Props.Tables
import Verif.Props.MathUtilsAll
import Verif.Props.Twiddles
import Verif.Props.CircuitNested
import Verif.Props.Depth
import Verif.Proofs.ParamWeak
import Verif.Proofs.Determinant
import Verif.Proofs.Modest
import Verif.Props.Optimal
import Verif.Spec.Differ
import Verif.Props.Differ
import Verif.Spec.Periodic
import Verif.Props.Periodic
import Verif.Spec.Spectrum
import Verif.Props.Spectrum
import Verif.Axioms
