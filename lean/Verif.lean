import Verif.Base.Res
import Verif.Base.Sched
import Verif.Base.Mem
import Verif.Base.Kernel
import Verif.Model.AMap
import Verif.Model.Dictionary
import Verif.Model.Database
import Verif.Spec.Maps
import Verif.Props.C01_Dictionary
import Verif.Props.C02_TokenList
import Verif.Props.C03_DocumentIds
import Verif.Props.C04_Database
import Verif.Props.C05_RegisterField
import Verif.Props.C06_OldTime
import Verif.Base.LMem
import Verif.Model.Field
import Verif.Model.Reduce
import Verif.Props.C07_FieldArithmetic
import Verif.Props.C08_FieldRanges
import Verif.Props.C09_FieldCopies
import Verif.Props.C10_Segments
import Verif.Props.C11_Reduce
import Verif.Model.Mesh
import Verif.Spec.Mesh
import Verif.Proofs.ParElem
import Verif.Props.C12_Patches
import Verif.Props.C13_UniformMesh
import Verif.Props.C13_BoundaryGeometry
import Verif.Base.NR
import Verif.Base.Ticket
import Verif.Model.Sparsity
import Verif.Spec.Sparsity
import Verif.Spec.Witness
import Verif.Proofs.Sparsity
import Verif.Props.C14_Sparsity
import Verif.Model.LinearSystem
import Verif.Spec.Matrix
import Verif.Proofs.Elem
import Verif.Props.C15_Entry
import Verif.Props.C16_Residual
import Verif.Props.C17_Stencil
import Verif.Model.Coeff
import Verif.Props.C30_Coeff
import Verif.Base.Launch
import Verif.Model.Interp
import Verif.Model.Gauss
import Verif.Model.Operators
import Verif.Model.Assembly
import Verif.Spec.Fields
import Verif.Proofs.Gauss
import Verif.Proofs.Laplace
import Verif.Props.C18_Divergence
import Verif.Props.C25_Gradient
import Verif.Props.C26_Interpolation
import Verif.Props.C37_Tags
import Verif.Props.C38_Buffers
import Verif.Props.C40_Views
import Verif.Props.C41_Cache
import Verif.Props.C44_Accumulate
import Verif.Spec.Assembly
import Verif.Proofs.Assembly
import Verif.Proofs.Implicit
import Verif.Props.C19_ImplicitDiv
import Verif.Props.C20_ImplicitLaplacian
import Verif.Props.C21_LaplacianMatrix
import Verif.Props.C22_AssemblySchedules
import Verif.Props.C22_Lost
import Verif.Props.C22_Bitwise
import Verif.Props.C23_Ddt
import Verif.Props.C24_Source
import Verif.Props.C31_Expression
import Verif.Props.C28_Boundary
import Verif.Props.C27_Geometry
import Verif.Props.C29_Courant
import Verif.Props.C32_Steady
import Verif.Props.C33_BackwardEuler
import Verif.Props.C34_ForwardEuler
import Verif.Props.C35_SetReference
import Verif.Props.C45_SolverSettings
import Verif.Props.C46_Assemble
import Verif.Props.C36_RuntimeSelection
import Verif.Props.C43_Transport
import Verif.Props.C42_Bounded
import Verif.Props.C39_Halo
import Verif.Props.C39_Independent
import Verif.Model.Schemes
import Verif.Props.C48_Schemes
import Verif.Props.C49_ImplicitScheme
import Verif.Props.C50_Weights
import Verif.Model.Lifecycle
import Verif.Props.C51_Lifecycle
import Verif.Model.Copies
import Verif.Props.C52_Copies
import Verif.Props.C53_Convert
import Verif.Props.C54_Equal
import Verif.Model.Ginkgo
import Verif.Props.C55_Ginkgo
import Verif.Props.C56_RungeKutta
import Verif.Model.Petsc
import Verif.Props.C57_Petsc
import Verif.Props.C58_Queries
import Verif.Model.Vector
import Verif.Props.C59_Vector
import Verif.Spec.ConvDiff
import Verif.Proofs.ConvDiff
import Verif.Props.C60_ImplicitTransport
import Verif.Props.C61_ImplicitConservation
import Verif.Spec.SteadyDiff
import Verif.Proofs.SteadyDiff
import Verif.Proofs.Line
import Verif.Props.C63_SteadyTransport
import Verif.Props.C64_Line
import Verif.Props.C48_Direct
import Verif.Model.GinkgoSolve
import Verif.Spec.Solvers
import Verif.Props.C65_Ginkgo
import Verif.Model.Handles
import Verif.Props.C66_Settings
import Verif.Props.C67_IntegratorCopies
import Verif.Model.Segments
import Verif.Props.C68_SegmentedField
import Verif.Props.C05_FromExisting
import Verif.Props.C06_ReadOnly
import Verif.Props.C28_Lists
import Verif.Props.C69_Definite
import Verif.Props.C70_Reference
import Verif.Props.C71_Changes
import Verif.Props.C71_Backward
import Verif.Spec.Renumber
import Verif.Props.C72_Numbering
import Verif.Props.C72_Steps
import Verif.Props.C73_Superposition
import Verif.Spec.ExplicitDiff
import Verif.Props.C74_ExplicitDiffusion
import Verif.Props.C75_ExplicitBudget
import Verif.Model.Calls
import Verif.Spec.Calls
import Verif.Props.C76_Written
import Verif.Model.MpiReduce
import Verif.Spec.MpiReduce
import Verif.Props.C77_MpiReduce
import Verif.Base.Rel
import Verif.Model.AssemblyV
import Verif.Spec.Components
import Verif.Props.C78_Components
import Verif.Props.C19_Vectors
import Verif.Proofs.Sim
import Verif.Spec.Motion
import Verif.Props.C79_Motion
import Verif.Base.RelAt
import Verif.Spec.Units
import Verif.Proofs.Units
import Verif.Props.C80_Units
import Verif.Spec.Float
import Verif.Spec.BinFloat
import Verif.Proofs.Float
import Verif.Props.C81_Rounding
import Verif.Spec.Repeat
import Verif.Proofs.Repeat
import Verif.Proofs.BinFloat
import Verif.Props.C82_Repeat
import Verif.Spec.FloatTransport
import Verif.Props.C83_FloatTransport
import Verif.Proofs.AssemblyRel
import Verif.Spec.FloatSystem
import Verif.Proofs.FloatAssembly
import Verif.Props.C84_FloatAssembly
import Verif.Spec.Shuffle
import Verif.Proofs.Shuffle
import Verif.Props.C32_Every
import Verif.Props.C60_Every
import Verif.Proofs.Realize
import Verif.Props.C14_Exact
import Verif.Props.C33_Exact
import Verif.Props.C61_Exchanged
import Verif.Props.C86_EveryExecutor
import Verif.Proofs.March
import Verif.Props.C87_March
import Verif.Spec.FloatGeometry
import Verif.Proofs.BinFloatRoot
import Verif.Proofs.FloatGeometry
import Verif.Props.C89_FloatGeometry
import Verif.Spec.FloatImplicit
import Verif.Proofs.FloatImplicit
import Verif.Props.C91_FloatImplicit
import Verif.Proofs.Taylor
import Verif.Proofs.Poisson
import Verif.Props.C92_MeshConvergence
import Verif.Proofs.Heat
import Verif.Props.C93_HeatConvergence
import Verif.Props.C94_UpwindConvergence
import Verif.Props.C95_ExplicitConvergence
import Verif.Props.C96_SteadyConvergence
import Verif.Props.C97_SunVector
import Verif.Props.C98_ExplicitMarch
import Verif.Props.C99_FloatSteady
import Verif.Props.C100_Time
import Verif.Props.C101_FloatDiffusion
import Verif.Props.C102_MpiInit
import Verif.Props.C65_GkoExecutor
