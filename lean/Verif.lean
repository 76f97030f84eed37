import Verif.Model.Basic
import Verif.Model.Types
import Verif.Model.Engine
import Verif.Model.Formatter
import Verif.Spec
import Verif.Examples
import Verif.Proofs.Wp
import Verif.Proofs.Steps
import Verif.Proofs.Good
import Verif.Proofs.Trans
import Verif.Proofs.Trans2
import Verif.Proofs.Trans3
import Verif.Proofs.Trans4
import Verif.Proofs.Tick
import Verif.Proofs.Invariants
import Verif.Proofs.Fuel
import Verif.Proofs.Fmt
import Verif.Proofs.Clock
import Verif.Proofs.Witness
import Verif.Props.C01
import Verif.Props.C02
import Verif.Props.C03
import Verif.Props.C04
import Verif.Props.C07
import Verif.Props.C12
import Verif.Props.C20
import Verif.Props.C14
import Verif.Proofs.Links
import Verif.Props.C09
import Verif.Props.C10
import Verif.Props.C15
import Verif.Proofs.Closed
import Verif.Proofs.ClosedTick
import Verif.Proofs.Api
import Verif.Props.C11
import Verif.Props.C17
import Verif.Props.C16
import Verif.Props.C18
import Verif.Props.C19
import Verif.Props.C06
import Verif.Props.C13
import Verif.Props.C21
import Verif.Props.C21b
import Verif.Proofs.Halts
import Verif.Proofs.Ends
import Verif.Model.Text
import Verif.Props.C29
import Verif.Proofs.Numbers
import Verif.Props.C32
import Verif.Props.C33
import Verif.Proofs.IEEE
import Verif.Model.Registry
import Verif.Props.C23
import Verif.Props.C50
import Verif.Props.C25
import Verif.Model.Options
import Verif.Props.C26
import Verif.Model.Player
import Verif.Props.C35
import Verif.Props.C35b
import Verif.Props.C36
import Verif.Props.C37
import Verif.Model.Animator
import Verif.Model.Players
import Verif.Props.C38
import Verif.Props.C39
import Verif.Model.Syntax
import Verif.Model.Parser
import Verif.Proofs.PM
import Verif.Proofs.PFrame
import Verif.Props.C43
import Verif.Props.C45
import Verif.Props.C46
import Verif.Props.C48
import Verif.Proofs.Content
import Verif.Proofs.Notes
import Verif.Proofs.Preds
import Verif.Proofs.Laid
import Verif.Props.C42
import Verif.Proofs.Root
import Verif.Proofs.Final
import Verif.Props.C41
import Verif.Proofs.Pause
import Verif.Proofs.World
import Verif.Proofs.Tree
import Verif.Props.C05
import Verif.Props.C22
import Verif.Props.C40
import Verif.Proofs.Nest
import Verif.Proofs.Tables
import Verif.Props.C51
import Verif.Model.Load
import Verif.Props.C52
import Verif.Proofs.Kids
import Verif.Proofs.RuleTruth
import Verif.Proofs.StmtTruth
import Verif.Proofs.Names
import Verif.Proofs.Refer
import Verif.Proofs.Component
import Verif.Proofs.EndDoc
import Verif.Proofs.SwitchEnd
import Verif.Props.C44
import Verif.Proofs.Conn
import Verif.Proofs.LinkK
import Verif.Proofs.Segment
import Verif.Proofs.StmtK
import Verif.Proofs.CondPred
import Verif.Proofs.Events
import Verif.Proofs.LinkEnd
import Verif.Proofs.LinkAll
import Verif.Props.C53
import Verif.Proofs.PropK
import Verif.Proofs.Share
import Verif.Proofs.Shared
import Verif.Proofs.RulesEnd
import Verif.Proofs.PropEnd
import Verif.Props.C47
import Verif.Model.Ltab
import Verif.SpecLtab
import Verif.Proofs.LtabRead
import Verif.Proofs.LtabLink
import Verif.Proofs.LtabMedia
import Verif.Proofs.LtabTree
import Verif.Proofs.LtabNode
import Verif.Proofs.LtabDoc
import Verif.Props.C54
import Verif.Props.C58
import Verif.Proofs.EventK
import Verif.Props.C59
import Verif.Proofs.LtabOk
import Verif.Proofs.LtabOk2
import Verif.Proofs.LtabOk3
import Verif.Proofs.Fin
import Verif.Proofs.Settles
import Verif.Proofs.CloneEnds
import Verif.Proofs.PopEnds
import Verif.Proofs.ReferM
import Verif.Proofs.ParseEnds
import Verif.Proofs.Desc
import Verif.Proofs.DescAttr
import Verif.Proofs.ReachNote
import Verif.Proofs.ReachSpec
import Verif.Props.C60
import Verif.Props.C61
import Verif.Props.C62
import Verif.Props.C62b
import Verif.Model.Shell
import Verif.Props.C63
import Verif.Props.C64
import Verif.Props.C67
import Verif.Props.C68
import Verif.Props.C68b
import Verif.Model.Draw
import Verif.Props.C69
import Verif.Model.Show
import Verif.Props.C70
import Verif.Props.C71
import Verif.Props.Tables
import Verif.Proofs.PortFound
import Verif.Proofs.PortK
import Verif.Props.C72
import Verif.Props.C73
import Verif.Model.Video
import Verif.Props.C74
import Verif.Model.Lua
import Verif.Model.SigGen
import Verif.Model.RemotePlayer
import Verif.Props.C75
import Verif.Props.C76
import Verif.Props.C77
import Verif.Props.C78
import Verif.Proofs.ConnFull
import Verif.Proofs.NotK
import Verif.Proofs.Words
import Verif.Props.C79
import Verif.Props.C79b
import Verif.Props.C30b
import Verif.Props.C09b
