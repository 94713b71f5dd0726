import Verif.Props.C01_Lit
import Verif.Props.C02_Cnf
import Verif.Props.C03_RoundTrip
import Verif.Props.C04_Chunks
import Verif.Props.C05_Incremental
import Verif.Spec.Utf8
import Verif.Proof.Utf8
import Verif.Props.C08_DimacsLanguage
import Verif.Props.C09_Vli
import Verif.Props.C11_ProofFormat
import Verif.Props.C18_ClauseIdentity
import Verif.Props.C13_CheckerSound
import Verif.Props.C20_CheckerSteps
import Verif.Props.C19_Multiset
import Verif.Props.C46_Rejected
import Verif.Props.C12_Marker
import Verif.Props.C24_Lrat
import Verif.Props.C34_Header
import Verif.Props.C35_Vsids
import Verif.Props.C36_Luby
import Verif.Model.Solver.Cdcl
import Verif.Proof.Solver.Minimize
import Verif.Proof.Solver.Backtrack
import Verif.Proof.Solver.Db
import Verif.Proof.Solver.Reduce
import Verif.Proof.Solver.Gc
import Verif.Proof.Solver.Sem
import Verif.Proof.Solver.SemAdd
import Verif.Proof.Solver.Inv
import Verif.Proof.Solver.Search
import Verif.Proof.Solver.Simplify
import Verif.Proof.Solver.VarOps
import Verif.Proof.Solver.Units
import Verif.Proof.Solver.Find
import Verif.Proof.Solver.Learn
import Verif.Spec.Api
import Verif.Model.Solver.Exec
import Verif.Proof.Solver.Solve
import Verif.Proof.Solver.NewVar
import Verif.Proof.Solver.Ops
import Verif.Proof.Solver.Load
import Verif.Proof.Solver.Store
import Verif.Proof.Solver.Calls
import Verif.Proof.Solver.Modes
import Verif.Proof.Solver.Exec
import Verif.Proof.Solver.Plain
import Verif.Proof.Solver.Sample
import Verif.Props.C26_SatAnswers
import Verif.Props.C27_UnsatAnswers
import Verif.Props.C37_VarMaps
import Verif.Props.C45_Incremental
import Verif.Spec.Stored
import Verif.Proof.Solver.Stored
import Verif.Props.C39_LoadClause
import Verif.Model.Solver.Search
import Verif.Spec.Search
import Verif.Proof.Solver.Reach
import Verif.Proof.Solver.Entail
import Verif.Proof.Solver.SampleSearch
import Verif.Props.C29_LearnedClauses
import Verif.Props.C30_Minimisation
import Verif.Props.C31_Propagation
import Verif.Props.C32_Backtracking
import Verif.Props.C38_Simplification
import Verif.Props.C40_Reduction
import Verif.Model.Alloc
import Verif.Spec.ClauseStore
import Verif.Proof.Alloc
import Verif.Proof.AllocUses
import Verif.Props.C33_ClauseStorage
import Verif.Model.ProofOut
import Verif.Spec.ProofFile
import Verif.Proof.ProofOut
import Verif.Props.C44_SolverErrors
import Verif.Props.C47_HashBits
import Verif.Model.Config
import Verif.Spec.Config
import Verif.Proof.Config
import Verif.Props.C43_Config
import Verif.Model.Cli
import Verif.Spec.Cli
import Verif.Proof.Cli
import Verif.Proof.CliCheck
import Verif.Props.C48_Cli
import Verif.Props.C50_CliCheck
import Verif.Spec.Glue
import Verif.Proof.Solver.Grow
import Verif.Proof.Solver.Glue
import Verif.Proof.Solver.Fail
import Verif.Proof.Solver.FailedCore
import Verif.Props.C28_FailedCore
import Verif.Props.C42_Glue
import Verif.Proof.Solver.Hints
import Verif.Props.C41_Hints
import Verif.Proof.CheckerKeep
import Verif.Proof.CheckerView
import Verif.Proof.CheckerAccept
import Verif.Proof.CheckerAccept2
import Verif.Proof.CheckerAccept3
import Verif.Proof.Solver.SimDefs
import Verif.Proof.Solver.SimClause
import Verif.Proof.Solver.SimVars
import Verif.Proof.Solver.Sizes
import Verif.Proof.Solver.Short
import Verif.Proof.Solver.SimOps
import Verif.Proof.Solver.SimLoad
import Verif.Proof.Solver.SimCalls
import Verif.Proof.Solver.SimUnits
import Verif.Proof.Solver.SimSimp
import Verif.Proof.Solver.SimSearch
import Verif.Proof.Solver.SimFail
import Verif.Proof.Solver.SimExec
import Verif.Proof.CheckerReorder
import Verif.Proof.Solver.Says
import Verif.Model.Joint
import Verif.Proof.Joint
import Verif.Proof.Solver.JointRun
import Verif.Proof.Solver.NoAsm
import Verif.Proof.Solver.OneShot
import Verif.Proof.Solver.Tells
import Verif.Proof.ReadFile
import Verif.Proof.CheckerRefuted
import Verif.Proof.Solver.SampleJoint
import Verif.Props.C51_SelfCheck
import Verif.Proof.Solver.Seen
import Verif.Proof.Solver.WrittenFile
import Verif.Proof.Solver.Fits
import Verif.Props.C52_ProofFile
import Verif.Spec.Marks
import Verif.Proof.Solver.Mark
import Verif.Props.C53_NoPanic
import Verif.Props.C54_Termination
import Verif.Spec.Answers
import Verif.Proof.Solver.ModelOk
import Verif.Props.C55_Answers
import Verif.Props.C56_CliDecides
import Verif.Proof.CheckerTold
import Verif.Proof.CheckerSaid
import Verif.Proof.Solver.SolveLog
import Verif.Proof.CliProof
import Verif.Props.C57_ProofRoundTrip
import Verif.Spec.ProofShape
import Verif.Props.C58_ProofShape
import Verif.Spec.Drat
import Verif.Proof.Drat
import Verif.Proof.Solver.CloseTotal
import Verif.Props.C59_Drat
import Verif.Spec.Transcript
import Verif.Proof.CheckerNaming
import Verif.Proof.CheckerTruth
import Verif.Props.C60_Transcript
import Verif.Spec.TranscriptText
import Verif.Proof.TranscriptText
import Verif.Props.C61_TranscriptLines
import Verif.Spec.LratCheck
import Verif.Proof.LratFile
import Verif.Proof.Solver.SolveUser
import Verif.Proof.Solver.WrittenInner
import Verif.Props.C62_LratFile
import Verif.Props.C62_LratSolved
import Verif.Proof.LiveLrat
import Verif.Proof.Solver.LiveRun
import Verif.Props.C63_LiveLrat
import Verif.Proof.DimacsRange
import Verif.Model.CliFile
import Verif.Proof.CliFile
import Verif.Props.C64_CliFiles
import Verif.Proof.CliFault
import Verif.Proof.Lenient
import Verif.Proof.LenientOut
import Verif.Props.C65_FailingWrites
import Verif.Props.C66_FreshVars
import Verif.Spec.ProofSize
import Verif.Props.C67_ProofSizes
import Verif.Model.Solver.PropRaw
import Verif.Proof.Solver.PropRaw
import Verif.Spec.PropMemory
import Verif.Proof.Solver.PropImage
import Verif.Props.C68_RawPropagation
import Verif.Model.LratBuffer
import Verif.Proof.LratBuffer
import Verif.Proof.CheckerHeard
import Verif.Proof.HeardOut
import Verif.Props.C69_LratWriter
import Verif.Spec.Float32
import Verif.Model.Activity
import Verif.Proof.Float32
import Verif.Proof.Activity
import Verif.Props.C70_Activities
import Verif.Props.C71_ProofBuffer
import Verif.Model.CliDisk
import Verif.Proof.CliDisk
import Verif.Proof.CliNative
import Verif.Props.C72_CliDisk
import Verif.Model.Interleave
import Verif.Proof.Interleave
import Verif.Props.C73_AfterErrors
import Verif.Props.C74_SameAnswers
import Verif.Props.C75_Enumeration
import Verif.Props.C76_Switches
import Verif.Props.C77_MinimalCore
