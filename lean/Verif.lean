import Verif.Props.Text
import Verif.Props.Criterion
import Verif.Props.Rule
import Verif.Props.Integer
import Verif.Props.Enum
import Verif.Props.FixedPoint
import Verif.Props.Bits
import Verif.Props.StringArray
import Verif.Props.Tree
import Verif.Props.DomainApply
import Verif.Props.DomainHistory
import Verif.Props.DomainSettings
import Verif.Props.Manager
import Verif.Props.Handle
import Verif.Props.Mapping
import Verif.Props.Message
import Verif.Props.Command
import Verif.Props.Answer
import Verif.Props.Backup
import Verif.Props.Restart
import Verif.Props.Client
import Verif.Props.Description
import Verif.Props.XmlSettings
import Verif.Props.Concurrency
import Verif.Props.Structure
import Verif.Props.StructureWF
import Verif.Props.StructureAccept
import Verif.Props.StructureExport
import Verif.Props.Access
import Verif.Props.XmlDomains
import Verif.Props.CriteriaHistory
import Verif.Props.Start
import Verif.Props.Resync
import Verif.Props.FloatingPoint
import Verif.Props.Listing
import Verif.Props.CApi
import Verif.Props.Adaptation
import Verif.Props.Plugins
import Verif.Props.Framework
import Verif.Props.Schema
import Verif.Props.Generator
import Verif.Props.Platform
import Verif.Props.PluginObject
import Verif.Props.Edd
import Verif.Props.EddText
import Verif.Props.EddBuilt
import Verif.Props.CriteriaFile
import Verif.Props.HostConfig
import Verif.Props.AdaptedHandle
import Verif.Props.DomainTool
import Verif.Props.RuleText
import Verif.Props.Properties
import Verif.Props.AdaptationShown
import Verif.Props.AdaptationDeclared
import Verif.Props.PropertiesRanges
import Verif.Props.ShowMapping
