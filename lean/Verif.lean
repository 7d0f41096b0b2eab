import Verif.Accuracy.Lemmas
import Verif.Accuracy.Model
import Verif.Accuracy.Props
import Verif.Accuracy.Spec
import Verif.Anderson.Cases
import Verif.Anderson.Model
import Verif.Anderson.Props
import Verif.Angular.Cases
import Verif.Angular.Lemmas
import Verif.Angular.Model
import Verif.Angular.Polar
import Verif.Angular.Props
import Verif.Angular.PropsPolar
import Verif.Angular.Spec
import Verif.Boost.Cases
import Verif.Boost.Model
import Verif.Boost.Props
import Verif.Boost.PropsCheckpoints
import Verif.Boost.PropsRun
import Verif.Boost.Spec
import Verif.Bse.Model
import Verif.Bse.Props
import Verif.Bse.PropsConverge
import Verif.Bse.PropsStep
import Verif.Buffer.Cases
import Verif.Buffer.Lemmas
import Verif.Buffer.LemmasGrid
import Verif.Buffer.Model
import Verif.Buffer.Props
import Verif.Buffer.PropsComplex
import Verif.Buffer.PropsRough
import Verif.Buffer.PropsSeTails
import Verif.Buffer.PropsShrink
import Verif.Buffer.PropsSteps
import Verif.Buffer.PropsTails
import Verif.Buffer.SeTails
import Verif.Buffer.Spec
import Verif.Causal.Analytic
import Verif.Causal.Lemmas
import Verif.Causal.Model
import Verif.Causal.Props
import Verif.Causal.Spec
import Verif.Causal.Tri
import Verif.Chains.Bubble
import Verif.Chains.Code
import Verif.Chains.Core
import Verif.Chains.Kernel
import Verif.Chains.Link
import Verif.Chains.Parts
import Verif.Chains.Props
import Verif.Chains.PropsPass
import Verif.Chains.PropsSymmetric
import Verif.Chains.Smooth
import Verif.Chains.Spec
import Verif.Chains.Sum
import Verif.Chains.Weight
import Verif.Check.Cases
import Verif.Check.Lemmas
import Verif.Check.Model
import Verif.Check.Props
import Verif.Check.PropsBlind
import Verif.Check.Spec
import Verif.Collapse.Cases
import Verif.Collapse.Lemmas
import Verif.Collapse.Lemmas2
import Verif.Collapse.Model
import Verif.Collapse.Props
import Verif.Collapse.PropsDomain
import Verif.Collapse.Spec
import Verif.Continue.Cases
import Verif.Continue.Lemmas
import Verif.Continue.Model
import Verif.Continue.Props
import Verif.Continue.Spec
import Verif.Converge.Bubble
import Verif.Converge.Fixed
import Verif.Converge.Kernel
import Verif.Converge.Lines
import Verif.Converge.Loop
import Verif.Converge.Props
import Verif.Converge.PropsState
import Verif.Converge.Spec
import Verif.Converge.Step
import Verif.Dense.Model
import Verif.Dense.Props
import Verif.DiagTails.Cases
import Verif.DiagTails.Lemmas
import Verif.DiagTails.Model
import Verif.DiagTails.Props
import Verif.DiagTails.PropsBubble
import Verif.DiagTails.PropsLoop
import Verif.DiagTails.PropsTemp
import Verif.Driver.Cases
import Verif.Driver.Lemmas
import Verif.Driver.Model
import Verif.Driver.Props
import Verif.Driver.PropsMain
import Verif.Driver.PropsScan
import Verif.Driver.Spec
import Verif.Expand.Cases
import Verif.Expand.Lemmas
import Verif.Expand.Model
import Verif.Expand.Props
import Verif.Expand.PropsKinds
import Verif.Expand.Spec
import Verif.Export.Integrand
import Verif.Export.Model
import Verif.Export.Props
import Verif.Export.PropsIntegrand
import Verif.Family.Ideal
import Verif.Family.Lemmas
import Verif.Family.Props
import Verif.Family.Spec
import Verif.Fdt.Cases
import Verif.Fdt.Checks
import Verif.Fdt.Lemmas
import Verif.Fdt.Model
import Verif.Fdt.Project
import Verif.Fdt.Props
import Verif.Fdt.PropsChecks
import Verif.Fdt.PropsProject
import Verif.Fdt.PropsSlices
import Verif.Fdt.Spec
import Verif.FileName.Cases
import Verif.FileName.Lemmas
import Verif.FileName.Model
import Verif.FileName.Props
import Verif.FileName.PropsRead
import Verif.FileName.Spec
import Verif.Filling.Convolve
import Verif.Filling.Lemmas
import Verif.Filling.Lorentz
import Verif.Filling.Model
import Verif.Filling.Props
import Verif.Filling.PropsMatsubara
import Verif.Filling.Spec
import Verif.Filling.Sum
import Verif.Filling.Tanh
import Verif.FinDiff.Cases
import Verif.FinDiff.Lemmas
import Verif.FinDiff.LemmasArr
import Verif.FinDiff.LemmasMulti
import Verif.FinDiff.Model
import Verif.FinDiff.Props
import Verif.FinDiff.PropsDomain
import Verif.FinDiff.PropsMulti
import Verif.FinDiff.Spec
import Verif.Flow.Bridge
import Verif.Flow.Cases
import Verif.Flow.Model
import Verif.Flow.Props
import Verif.Flow.PropsResume
import Verif.Flow.Spec
import Verif.FlowGrid.Cases
import Verif.FlowGrid.Model
import Verif.FlowGrid.Props
import Verif.FreqGrid.Cases
import Verif.FreqGrid.Model
import Verif.FreqGrid.Props
import Verif.Freqs.Cases
import Verif.Freqs.Model
import Verif.Freqs.Props
import Verif.Freqs.Spec
import Verif.GridMap.Cases
import Verif.GridMap.Lemmas
import Verif.GridMap.Model
import Verif.GridMap.Props
import Verif.GridMap.Spec
import Verif.GridSave.Model
import Verif.GridSave.Props
import Verif.GridSave.PropsScale
import Verif.Hartree.Cases
import Verif.Hartree.Model
import Verif.Hartree.Props
import Verif.Hdf5.Cases
import Verif.Hdf5.Lemmas
import Verif.Hdf5.Model
import Verif.Hdf5.Props
import Verif.Hdf5.PropsCrash
import Verif.Hdf5.Rep
import Verif.Hdf5.Spec
import Verif.Hdf5.Success
import Verif.Heredity.Analytic
import Verif.Heredity.Cases
import Verif.Heredity.Lemmas
import Verif.Heredity.Model
import Verif.Heredity.Props
import Verif.Heredity.PropsCausal
import Verif.Heredity.PropsCode
import Verif.Heredity.PropsLines
import Verif.Heredity.Spec
import Verif.Hybrid.Cases
import Verif.Hybrid.Lemmas
import Verif.Hybrid.Model
import Verif.Hybrid.Props
import Verif.Hybrid.Spec
import Verif.Imag.Lemmas
import Verif.Imag.Model
import Verif.Imag.Props
import Verif.Imag.PropsCode
import Verif.Imag.PropsTotal
import Verif.Imag.Spec
import Verif.ImagFlow.Cases
import Verif.ImagFlow.Lemmas
import Verif.ImagFlow.Model
import Verif.ImagFlow.Props
import Verif.ImagFlow.PropsReal
import Verif.ImagFlow.Spec
import Verif.Index.Cases
import Verif.Index.Lemmas
import Verif.Index.Lemmas2
import Verif.Index.Model
import Verif.Index.Props
import Verif.Index.PropsMore
import Verif.Index.Spec
import Verif.Interp.Lemmas
import Verif.Interp.Model
import Verif.Interp.Props
import Verif.Interp.PropsCubic
import Verif.Interp.Spec
import Verif.Invariant.Cases
import Verif.Invariant.Lemmas
import Verif.Invariant.Model
import Verif.Invariant.Props
import Verif.Invariant.Spec
import Verif.Keldysh.Cases
import Verif.Keldysh.Model
import Verif.Keldysh.Props
import Verif.Layout.Lemmas
import Verif.Layout.Model
import Verif.Layout.Props
import Verif.Layout.PropsMatsubara
import Verif.Loop.Model
import Verif.Loop.Props
import Verif.Loop.PropsCall
import Verif.Loop.Spec
import Verif.MatSum.Model
import Verif.MatSum.Props
import Verif.MfRG.Cases
import Verif.MfRG.Model
import Verif.MfRG.Props
import Verif.MfRG.PropsMore
import Verif.MfRG.Spec
import Verif.Minimizer.Cases
import Verif.Minimizer.Model
import Verif.Minimizer.Props
import Verif.Minimizer.PropsMore
import Verif.Minimizer.PropsRefine
import Verif.Minimizer.Refine
import Verif.Mpi.Cases
import Verif.Mpi.Lemmas
import Verif.Mpi.Lemmas2
import Verif.Mpi.Model
import Verif.Mpi.Props
import Verif.Mpi.Spec
import Verif.MultiArray.Binary
import Verif.MultiArray.Cases
import Verif.MultiArray.Lemmas
import Verif.MultiArray.Model
import Verif.MultiArray.Props
import Verif.MultiArray.PropsBinary
import Verif.MultiArray.PropsSafety
import Verif.MultiArray.Spec
import Verif.Multiloop.Model
import Verif.Multiloop.Props
import Verif.Multiloop.PropsCase
import Verif.Multiloop.PropsError
import Verif.Multiloop.PropsPreserve
import Verif.Multiloop.PropsPreserveCase
import Verif.Multiloop.PropsSelf
import Verif.Multiloop.Spec
import Verif.Nan.Lemmas
import Verif.Nan.Model
import Verif.Nan.Props
import Verif.Nan.Spec
import Verif.ODE.Model
import Verif.ODE.Props
import Verif.ODE.Spec
import Verif.Order.Jet
import Verif.Order.Lemmas
import Verif.Order.Props
import Verif.Order.PropsGrid
import Verif.Order.Spec
import Verif.Order.Stages
import Verif.Order.Taylor
import Verif.Outcome
import Verif.Parquet.Cases
import Verif.Parquet.Model
import Verif.Parquet.Props
import Verif.Parquet.PropsWindow
import Verif.Perturb.Cases
import Verif.Perturb.Lemmas
import Verif.Perturb.Model
import Verif.Perturb.Props
import Verif.Perturb.Spec
import Verif.Pipeline.Model
import Verif.Pipeline.Props
import Verif.Pipeline.PropsGrid
import Verif.Pipeline.Spec
import Verif.Postproc.Cases
import Verif.Postproc.Lemmas
import Verif.Postproc.Model
import Verif.Postproc.Props
import Verif.Postproc.PropsSusc
import Verif.Postproc.Spec
import Verif.Propagator.Cases
import Verif.Propagator.Lemmas
import Verif.Propagator.Model
import Verif.Propagator.Props
import Verif.Propagator.PropsDeriv
import Verif.Propagator.PropsDistr
import Verif.Propagator.PropsMatsubara
import Verif.Pt2.Diagram
import Verif.Pt2.Lines
import Verif.Pt2.Model
import Verif.Pt2.ModelImag
import Verif.Pt2.PropsImag
import Verif.Pt2.PropsSelf
import Verif.Pt2.PropsVertex
import Verif.Quad.Lemmas
import Verif.Quad.Model
import Verif.Quad.ModelT0
import Verif.Quad.Props
import Verif.Quad.PropsSplit
import Verif.Quad.PropsT0
import Verif.Quad.PropsTol
import Verif.Quad.SpecTol
import Verif.Record.Lemmas
import Verif.Record.Model
import Verif.Record.Props
import Verif.Record.PropsDrivers
import Verif.Record.Spec
import Verif.Reduce.Discrete
import Verif.Reduce.Lemmas
import Verif.Reduce.LemmasDiscrete
import Verif.Reduce.Model
import Verif.Reduce.Props
import Verif.Reduce.PropsDiscrete
import Verif.Reduce.PropsParts
import Verif.Reduce.Spec
import Verif.Robust.Lemmas
import Verif.Robust.Props
import Verif.Robust.Spec
import Verif.Sbe.Lemmas
import Verif.Sbe.Model
import Verif.Sbe.ModelConstruct
import Verif.Sbe.Props
import Verif.Sbe.PropsConstruct
import Verif.Sbe.Spec
import Verif.Sde.Cases
import Verif.Sde.CasesImag
import Verif.Sde.Lemmas
import Verif.Sde.Limit
import Verif.Sde.Model
import Verif.Sde.ModelImag
import Verif.Sde.ModelThird
import Verif.Sde.Props
import Verif.Sde.PropsImag
import Verif.Sde.PropsLimit
import Verif.Sde.PropsThird
import Verif.Sde.PropsVersions
import Verif.Sde.SpecLimit
import Verif.Sde.SpecVersions
import Verif.Sde.Versions
import Verif.Sde.Whole
import Verif.SeDev.Model
import Verif.SeDev.Props
import Verif.SeDev.Spec
import Verif.SelfEnergy.Model
import Verif.SelfEnergy.Props
import Verif.Simpson.Model
import Verif.Simpson.Props
import Verif.Simpson.PropsPoints
import Verif.Skip.Lemmas
import Verif.Skip.Model
import Verif.Skip.Props
import Verif.Skip.Spec
import Verif.Spectrum.Lemmas
import Verif.Spectrum.Model
import Verif.Spectrum.Props
import Verif.SpinSum.Model
import Verif.SpinSum.Props
import Verif.SpinSum.Spec
import Verif.Spline.Arrays
import Verif.Spline.Lemmas
import Verif.Spline.Model
import Verif.Spline.Props
import Verif.Spline.PropsSpace
import Verif.Spline.Spec
import Verif.State.Cases
import Verif.State.Model
import Verif.State.Props
import Verif.State.PropsNorm
import Verif.State.PropsState
import Verif.State.Spec
import Verif.Stats.Model
import Verif.Stats.Props
import Verif.StepControl.Cases
import Verif.StepControl.Model
import Verif.StepControl.Props
import Verif.Symmetries.Enforce
import Verif.Symmetries.Lemmas
import Verif.Symmetries.Model
import Verif.Symmetries.ModelSbe
import Verif.Symmetries.Props
import Verif.Symmetries.PropsEnforce
import Verif.Symmetries.PropsMatsubara
import Verif.Symmetries.PropsSbeTables
import Verif.Symmetries.PropsSectors
import Verif.Symmetries.PropsTables
import Verif.Symmetries.Reads
import Verif.Symmetries.Spec
import Verif.Tails.Cases
import Verif.Tails.Lemmas
import Verif.Tails.Model
import Verif.Tails.Props
import Verif.Tails.PropsSum
import Verif.Tails.Spec
import Verif.Thermal.Bubble
import Verif.Thermal.Checks
import Verif.Thermal.Lemmas
import Verif.Thermal.Lines
import Verif.Thermal.Model
import Verif.Thermal.Props
import Verif.Thermal.Spec
import Verif.Truncated.Extend
import Verif.Truncated.Ode
import Verif.Truncated.Poly
import Verif.Truncated.Props
import Verif.Truncated.PropsExtend
import Verif.Util.Lists
import Verif.Util.Loops
import Verif.Vec.Model
import Verif.Vec.Props
import Verif.Vertex.Model
import Verif.Vertex.Props
import Verif.Vertex.PropsMore
import Verif.Vertex.Spec
import Verif.Weak.Lemmas
import Verif.Weak.Props
import Verif.Weak.Spec
