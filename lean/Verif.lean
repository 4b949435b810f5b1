import Verif.Signal
import Verif.Aig.Basic
import Verif.Aig.Spec
import Verif.Aig.Inv
import Verif.Aig.Gates
import Verif.Props.C01
import Verif.Props.AigBuild
import Verif.Props.AigInv
import Verif.Strash.Basic
import Verif.Strash.Proof
import Verif.Props.C10
import Verif.Aig.Subst
import Verif.Aig.SubstProof
import Verif.Props.C11
import Verif.TT
import Verif.Aig.Sim
import Verif.Props.C45
import Verif.RefDeref.Basic
import Verif.RefDeref.Proof
import Verif.RefDeref.Cone
import Verif.Props.C13
import Verif.Topo.Basic
import Verif.Topo.Proof
import Verif.Props.C15
import Verif.Topo.Depth
import Verif.Props.C16
import Verif.Aig.Cleanup
import Verif.Aig.CleanupProof
import Verif.Props.C14
import Verif.Aig.Miter
import Verif.Props.C42
import Verif.Cnf.Basic
import Verif.Props.C43
import Verif.Props.C44
import Verif.Cut.Basic
import Verif.Cut.Set
import Verif.Cut.SetProof
import Verif.Props.C18
import Verif.Props.C20
import Verif.TTOps
import Verif.TTCache
import Verif.Props.C22
import Verif.Cut.Enum
import Verif.Cut.EnumProof
import Verif.Props.C21
import Verif.Aiger.Basic
import Verif.Aiger.Proof
import Verif.Props.C27
import Verif.Props.C28
import Verif.Props.C29
import Verif.Isop
import Verif.Klut.Basic
import Verif.Klut.Spec
import Verif.Klut.Inv
import Verif.Klut.Mapping
import Verif.Props.C30
import Verif.Props.C31
import Verif.Props.C32
import Verif.Props.C33
import Verif.Klut.ToAig
import Verif.Klut.ToAigProof
import Verif.Klut.Cover
import Verif.Klut.Collapse
import Verif.Props.C35
import Verif.Props.C34
import Verif.Cli.History
import Verif.Props.C47
import Verif.Props.C46
import Verif.Choice.Mux
import Verif.Choice.Basic
import Verif.Choice.Spec
import Verif.Props.C40
import Verif.Props.C39
import Verif.Mapping.Params
import Verif.Mapping.Area
import Verif.Props.C37
import Verif.Props.C38
import Verif.Sop.Basic
import Verif.Sop.Divide
import Verif.Sop.Kernel
import Verif.Props.C23
import Verif.Sop.Factor
import Verif.Sop.Cubes
import Verif.Props.C24
import Verif.Balance.Basic
import Verif.Balance.Proof
import Verif.Props.C17
import Verif.Balance.Depth
import Verif.Props.C52
import Verif.Klut.LutSize
import Verif.Mapping.Map
import Verif.Mapping.MapProof
import Verif.Mapping.ChoiceProof
import Verif.Mapping.CoverProof
import Verif.Mapping.Command
import Verif.Props.C36
import Verif.Props.C59
import Verif.Props.C53
import Verif.Choice.Miter
import Verif.Choice.MiterProof
import Verif.Props.C41
import Verif.Sim.Pack
import Verif.Sim.PackProof
import Verif.Props.C50
import Verif.Io.Ident
import Verif.Io.Ports
import Verif.Props.C54
import Verif.Io.Verilog
import Verif.Io.VerilogProof
import Verif.Props.C48
import Verif.Io.Hex
import Verif.Io.LutNetlist
import Verif.Io.LutProof
import Verif.Props.C49
import Verif.Topo.Partial
import Verif.Rewrite.Npn
import Verif.Rewrite.NpnProof
import Verif.Rewrite.Db
import Verif.Rewrite.DbProof
import Verif.Rewrite.Basic
import Verif.Rewrite.Proof
import Verif.Props.C25
import Verif.Props.C55
import Verif.Props.C56
import Verif.Refactor.Basic
import Verif.Refactor.Loose
import Verif.Refactor.Proof
import Verif.Props.C26
import Verif.Props.C57
import Verif.Cut.KindProof
import Verif.Balance.Sop
import Verif.Balance.SopProof
import Verif.Props.C58
import Verif.Choice.Derive
import Verif.Choice.DupProof
import Verif.Choice.DeriveProof
import Verif.Props.C60
import Verif.Choice.Classes
import Verif.Choice.Prover
import Verif.Choice.Sweep
import Verif.Choice.ClassesProof
import Verif.Choice.ProverProof
import Verif.Props.C61
import Verif.Props.C62
import Verif.Aig.Phased
import Verif.Choice.ResimProof
import Verif.Choice.SweepProof
import Verif.Choice.Dpll
import Verif.Props.C63
import Verif.Props.C64
import Verif.Choice.MiterWeak
import Verif.Flow.Basic
import Verif.Flow.Proof
import Verif.Props.C65
import Verif.Props.C66
import Verif.Validator.Basic
import Verif.Validator.Proof
import Verif.Props.C67
import Verif.Props.C68
import Verif.Mapping.Timed
import Verif.Mapping.TimedProof
import Verif.Mapping.TimedDelay
import Verif.Mapping.TimedReport
import Verif.Props.C69
import Verif.Mapping.TimedPath
import Verif.Mapping.TimedReq
import Verif.Mapping.TimedFacts
import Verif.Props.C70
import Verif.Cli.Options
import Verif.Cli.OptionsSpec
import Verif.Cli.OptionsFacts
import Verif.Props.C71
import Verif.Cli.MapChoice
import Verif.Props.C72
import Verif.Cnf.Klut
import Verif.Props.C73
import Verif.Cnf.Checker
import Verif.Cnf.CheckerSpec
import Verif.Cnf.CheckerProof
import Verif.Props.C74
import Verif.Klut.CleanupLuts
import Verif.Klut.CleanupLutsProof
import Verif.Props.C75
import Verif.Klut.Subst
import Verif.Klut.SubstProof
import Verif.Props.C76
import Verif.Sim.Partial
import Verif.Sim.PartialProof
import Verif.Props.C77
import Verif.Cli.Events
import Verif.Props.C78
import Verif.Cli.Stats
import Verif.Props.C79
import Verif.Io.Dot
import Verif.Io.DotRead
import Verif.Io.DotProof
import Verif.Props.C80
import Verif.Cnf.CheckerPar
import Verif.Cnf.CheckerParSpec
import Verif.Cnf.CheckerParProof
import Verif.Props.C81
import Verif.Topo.Grow
import Verif.Topo.GrowSpec
import Verif.Topo.GrowProof
import Verif.Props.C82
import Verif.Flow.Config
import Verif.Props.C83
import Verif.Flow.Report
import Verif.Props.C84
import Verif.Props.C85
import Verif.Flow.Files
import Verif.Props.C86
import Verif.Flow.Write
import Verif.Props.C87
import Verif.Klut.NoConstants
import Verif.Cli.Fpga
import Verif.Props.C88
