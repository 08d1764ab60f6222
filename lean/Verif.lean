import Verif.Props.Print
import Verif.Props.Parse
import Verif.Props.Ops
import Verif.Props.Path
import Verif.Props.Convert
import Verif.Props.Float
import Verif.Props.Shortest
import Verif.Props.Errors
import Verif.Props.Exact
import Verif.Props.Reject
import Verif.Props.Derive
import Verif.Props.DeriveCases
import Verif.Props.Unique
import Verif.Props.Quote
import Verif.Props.DerivedCode
import Verif.Props.Scope
import Verif.Props.Accept
import Verif.Props.Repair
import Verif.Props.Items
import Verif.Props.ItemCases
import Verif.Props.Refuse
import Verif.Props.Run
import Verif.Props.History
import Verif.Props.Laws
import Verif.Props.TextHistory
import Verif.Props.Macros
import Verif.Props.Misplaced
import Verif.Props.Options
import Verif.Props.OptionCases
import Verif.Props.Width
import Verif.Model.Nested
import Verif.Spec.Nested
import Verif.Proof.Nested
import Verif.Proof.NestedDec
import Verif.Props.Nested
import Verif.Spec.Digits
import Verif.Proof.Digits
import Verif.Props.Digits
import Verif.Props.Order
import Verif.Props.Normal
import Verif.Props.Evolve
import Verif.Props.HashOrder
import Verif.Props.Framing
import Verif.Props.PrintRun
import Verif.Props.Reread
import Verif.Spec.Compat
import Verif.Proof.Compat
import Verif.Props.Compat
import Verif.Proof.ParseRun
import Verif.Props.ParseRun
import Verif.Spec.Upgrade
import Verif.Proof.Upgrade
import Verif.Props.Upgrade
import Verif.Spec.Growth
import Verif.Proof.Growth
import Verif.Props.Growth
import Verif.Spec.Numeral
import Verif.Proof.Numeral
import Verif.Props.Numeral
import Verif.Props.Words
import Verif.Props.Modify
import Verif.Props.Store
import Verif.Props.Embed
import Verif.Props.Log
import Verif.Props.Assign
import Verif.Props.PathRun
import Verif.Props.Flatten
import Verif.Props.Splice
import Verif.Props.Layers
import Verif.Props.Alike
import Verif.Props.Share
import Verif.Props.Compose
import Verif.Props.Place
import Verif.Props.Utf8
