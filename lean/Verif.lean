import Verif.Str.PropsEq
import Verif.Str.PropsRindex
import Verif.Str.PropsWs
import Verif.Tree.PropsEvents
import Verif.Tree.WholeText
import Verif.Tree.Content
import Verif.Names.Props
import Verif.Hash.Props
import Verif.Events.PropsReg
import Verif.Trav.Props
import Verif.Trav.Walker
import Verif.Attr.PropsEvents
import Verif.Attr.PropsNs
import Verif.Tokens.Props
import Verif.User.Props
import Verif.Html.PropsReflect
import Verif.Html.Numbers
import Verif.Html.PropsSelect
import Verif.Html.PropsTable
import Verif.Tree.PropsImport
import Verif.Query.ById
import Verif.Cache.Props
import Verif.Parse.Cases
import Verif.Parse.Attributes
import Verif.Parse.Session
import Verif.Parse.SessionCases
import Verif.Parse.SessionNames
import Verif.Intern.Props
import Verif.Html.PropsRow
import Verif.Html.PropsSections
import Verif.Html.PropsCreate
import Verif.Html.PropsDocument
import Verif.Html.PropsCollect
import Verif.Events.PropsLive
import Verif.Events.LiveCases
import Verif.Html.Control
import Verif.Html.PropsControl
import Verif.Html.PropsArea
import Verif.Html.Forms
import Verif.Html.PropsForms
import Verif.Events.Modifiers
import Verif.Events.PropsModifiers
import Verif.Events.Objects
import Verif.Events.PropsObjects
import Verif.Parse.Xml
import Verif.Parse.XmlRun
import Verif.Parse.XmlNames
import Verif.Parse.XmlEffects
import Verif.Parse.PropsXml
import Verif.Parse.Libxml
import Verif.Parse.LibxmlNames
import Verif.Parse.LibxmlRun
import Verif.Parse.LibxmlEffects
import Verif.Parse.LibxmlSafe
import Verif.Parse.LibxmlTree
import Verif.Parse.PropsLibxml
import Verif.Impl.Model
import Verif.Impl.Props
import Verif.Events.Ring
import Verif.Events.RingInv
import Verif.Events.RingRun
import Verif.Events.PropsRing
import Verif.Tree.ReplaceText
import Verif.Tree.SetText
import Verif.Tree.SetAttr
import Verif.Tree.PropsEdit
import Verif.Html.Refs
import Verif.Html.RefsRun
import Verif.Html.RefsInsert
import Verif.Html.RefsRemove
import Verif.Html.RefsTable
import Verif.Html.RefsShape
import Verif.Html.RefsSelect
import Verif.Html.PropsRefs
import Verif.Html.Places
import Verif.Html.PropsPlaces
import Verif.Oom.Mem
import Verif.Oom.Make
import Verif.Oom.PropsMake
import Verif.Oom.Parser
import Verif.Oom.PropsParser
import Verif.Oom.PropsNames
import Verif.Oom.Tokens
import Verif.Oom.PropsTokens
import Verif.Oom.PropsChars
import Verif.Oom.Deep
import Verif.Oom.PropsDeep
import Verif.Html.DocLife
import Verif.Html.PropsDocLife
import Verif.Oom.Attr
import Verif.Oom.PropsAttr
import Verif.Oom.PropsCopy
import Verif.Tree.Refuse
import Verif.Tree.PropsRefuse
import Verif.Html.Parts
import Verif.Html.PropsParts
import Verif.Parse.Charset
import Verif.Parse.PropsCharset
import Verif.Tree.Identity
import Verif.Tree.Maps
import Verif.Tree.PropsMaps
import Verif.Tree.Weak
import Verif.Oom.Doctype
import Verif.Oom.PropsDoctype
import Verif.Oom.Nodes
import Verif.Oom.PropsNodes
import Verif.Html.Activate
import Verif.Html.PropsActivate
import Verif.Oom.Events
import Verif.Oom.PropsEvents
import Verif.Oom.NodesNames
import Verif.Oom.Lists
import Verif.Oom.PropsLists
import Verif.Oom.Cols
import Verif.Oom.PropsCols
import Verif.Oom.Keys
import Verif.Oom.PropsKeys
import Verif.Oom.Listen
import Verif.Oom.PropsListen
