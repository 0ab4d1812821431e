import Verif.Props.Reader
import Verif.Props.File
import Verif.Props.Message
import Verif.Props.Config
import Verif.Props.Vsw
import Verif.Props.Pattern
import Verif.Props.Var
import Verif.Props.Varfun
import Verif.Props.App
import Verif.Props.Loader
import Verif.Props.Dialplan
import Verif.Props.Listing
import Verif.Props.Lookup
import Verif.Props.Located
import Verif.Props.Trouble
import Verif.Props.Stumbles
import Verif.Props.Fatal
import Verif.Props.Odbc
import Verif.Props.OdbcLog
import Verif.Props.Version
import Verif.Props.Wrap
import Verif.Props.Mutator
import Verif.Props.Web
import Verif.Props.Canon
import Verif.Props.Jumps
import Verif.Props.Ident
import Verif.Props.Modules
import Verif.Props.Layout
import Verif.Props.VswFiles
import Verif.Props.Main
import Verif.Props.Cond
import Verif.Props.Clean
import Verif.Props.Text
import Verif.Props.CleanText
import Verif.Props.Registry
import Verif.Props.Upgrade
import Verif.Props.Reported
import Verif.Props.Vg
import Verif.Props.Command
import Verif.Props.Shown
import Verif.Props.LocatedOdbc
import Verif.Props.DialplanTells
import Verif.Props.ModulesOdbc
import Verif.Props.IdentShow
import Verif.Props.Testing
import Verif.Props.Convert
import Verif.Props.Calls
import Verif.Props.AppSays
import Verif.Props.DialplanLog
import Verif.Props.Annotate
import Verif.Props.LineLog
import Verif.Model.CanonProgram
import Verif.Spec.CanonProgram
import Verif.Proofs.Expansion
import Verif.Proofs.CanonHints
import Verif.Proofs.CanonProgram
import Verif.Proofs.CanonDisk
import Verif.Props.CanonProgram
import Verif.Spec.CanonAgain
import Verif.Proofs.CanonState
import Verif.Proofs.CanonAgain
import Verif.Props.CanonAgain
import Verif.Props.Ask
import Verif.Props.Issued
import Verif.Props.Handles
import Verif.Props.WebForever
import Verif.Props.Args
import Verif.Props.WebFront
import Verif.Props.Page
import Verif.Props.Entry
import Verif.Props.ArgUsage
import Verif.Props.OneLine
import Verif.Props.SameReport
import Verif.Props.Quoted
import Verif.Props.Locality
import Verif.Props.Passed
import Verif.Props.Whole
import Verif.Props.OdbcSound
import Verif.Props.Append
import Verif.Props.Wording
import Verif.Props.Splice
import Verif.Props.Relocate
import Verif.Props.Spelled
import Verif.Props.Sections
import Verif.Props.Extens
import Verif.Props.Pieces
import Verif.Props.Anywhere
import Verif.Props.Disregarded
import Verif.Props.Refused
import Verif.Props.Status
import Verif.Props.OdbcParts
import Verif.Props.OdbcSplice
import Verif.Props.OdbcIdle
import Verif.Props.OdbcOrder
import Verif.Props.OdbcWithout
