import Verif.Props.Utf
import Verif.Props.Str
import Verif.Props.LinearAlloc
import Verif.Props.StrCompare
import Verif.Props.MatchWild
import Verif.Props.Path
import Verif.Props.PathJoin
import Verif.Props.Doskey
import Verif.Props.LineQueue
import Verif.Props.Tokens
import Verif.Props.Ecma48
import Verif.Props.Wakeup
import Verif.Props.HistExpand
import Verif.Props.ScrollCar
import Verif.Props.HistFile
import Verif.Props.HistRewrite
import Verif.Props.HistAdd
import Verif.Props.HistTrace
import Verif.Props.HistPending
import Verif.Props.Recog
import Verif.Props.Bind
import Verif.Props.Matches
import Verif.Props.Select
import Verif.Props.Lookaside
import Verif.Props.Color
import Verif.Props.Enum
import Verif.Props.Settings
import Verif.Props.Sandbox
import Verif.Props.Autorun
import Verif.Props.Columns
import Verif.Props.Ellipsify
import Verif.Props.EnvExpand
import Verif.Props.WordClass
import Verif.Props.Words
import Verif.Props.Display
import Verif.Props.Redraw
import Verif.Props.Stream
import Verif.Props.Intercept
import Verif.Props.Attributes
import Verif.Props.Suggest
import Verif.Props.Menu
import Verif.Props.Tasks
import Verif.Props.Abbrev
import Verif.Props.TermIn
import Verif.Props.MatchColors
import Verif.Props.TermReq
import Verif.Props.ErrFile
import Verif.Props.Wrap
import Verif.Props.WcWidth
import Verif.Props.Pager
import Verif.Props.FindLine
import Verif.Props.Sticky
import Verif.Props.Scroll
import Verif.Props.Scripts
import Verif.Props.KeyList
import Verif.Props.HistCmd
import Verif.Props.Log
import Verif.Props.KeyNames
import Verif.Props.TextList
import Verif.Props.Glob
import Verif.Props.SuggList
import Verif.Props.Drag
