import Verif.Model.Basic
import Verif.Model.ThCons
import Verif.Model.Syl
import Verif.Model.SylString
import Verif.Model.PronDag
import Verif.Model.Output
import Verif.Model.Dict
import Verif.Model.GenDict
import Verif.Model.Parser
import Verif.Model.Cli
import Verif.Model.Streams
import Verif.Model.GenMain
import Verif.Model.Resource
import Verif.Model.ShippedData
import Verif.Props.Tone
import Verif.Props.Twice
import Verif.Props.Syl
import Verif.Props.Lattice
import Verif.Props.Dag
import Verif.Props.Frac
import Verif.Props.Output
import Verif.Props.Notation
import Verif.Props.Dict
import Verif.Props.Parser
import Verif.Props.Shipped
import Verif.Props.Readings
import Verif.Props.States
import Verif.Props.Abbr
import Verif.Props.Cli
import Verif.Props.Desc
import Verif.Props.Program
import Verif.Props.Spelling
import Verif.Props.Words
import Verif.Props.Respell
import Verif.Props.Letters
import Verif.Props.Work
import Verif.Props.Streams
import Verif.Props.GenMain
import Verif.Props.Unusable
import Verif.Props.Failing
import Verif.Props.Resource
import Verif.Props.Order
import Verif.Props.Concat
import Verif.Props.Listed
import Verif.Props.Int
import Verif.Props.Json
import Verif.Props.Breaks
import Verif.Props.Again
import Verif.Props.Ordinary
import Verif.Props.Count
import Verif.Props.Entry
import Verif.Props.Split
import Verif.Props.Alike
import Verif.Props.Source
import Verif.Props.AnyDict
import Verif.Props.Size
import Verif.Props.GenText
import Verif.Props.EndPos
import Verif.Props.GroupList
import Verif.Props.ChainEnds
import Verif.RepoTests
import Verif.Axioms
import Verif.Props.Retone
import Verif.Props.Mute
import Verif.Props.Assert
import Verif.Props.Iter
import Verif.Props.Adjacent
import Verif.Props.Heard
import Verif.Props.Unheard
import Verif.Props.Voiced
import Verif.Props.SameSound
import Verif.Props.Printed
import Verif.Props.AiVowel
import Verif.Props.Ring
import Verif.Props.Overflow
import Verif.Props.PoolShape
import Verif.Props.Chains
import Verif.Props.RuLong
import Verif.Props.Compact
import Verif.Props.Help
import Verif.Props.Lines
import Verif.Props.Opaque
import Verif.Props.Used
import Verif.Props.Wide
import Verif.Props.SoftEach
import Verif.Props.Near
import Verif.Props.ListedEach
