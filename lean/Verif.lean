import Verif.Common.Order
import Verif.Search.Model
import Verif.Search.Props
import Verif.Select.Model
import Verif.Select.Props
import Verif.Permute.Model
import Verif.Permute.Props
import Verif.CircularQueue.Props
import Verif.Selection.Props
import Verif.Unicode.Props
import Verif.ClosedHash.Props
import Verif.Forest.Props
import Verif.Md5.Props
import Verif.Sha.Props
import Verif.Cow.Props
import Verif.Fnv.Props
import Verif.Name.Props
import Verif.Json.Props
import Verif.Dlx.Props
import Verif.Expr.Props
import Verif.Lex.Props
import Verif.Adam.Props
import Verif.Eve.Examples
import Verif.Eve.ResizeExamples
import Verif.Eve.TightExamples
import Verif.Task.Examples
import Verif.Cancel.Examples
import Verif.Decl.Examples
import Verif.Algo.Examples
import Verif.Table.Examples
import Verif.Entity.Examples
import Verif.ConcQueue.Examples
import Verif.XmlAttr.Examples
import Verif.Xml.Props
import Verif.Xml.Examples
import Verif.Cel.Props
import Verif.Cel.Examples
import Verif.Zuid.Props
import Verif.Zuid.Examples
import Verif.Xml.Unique
import Verif.XmlOut.Props
import Verif.XmlOut.Examples
import Verif.Pool.Props
import Verif.Pool.Examples
import Verif.Any.Props
import Verif.Any.Examples
import Verif.Any.Promote
import Verif.Layout.Props
import Verif.Layout.Examples
import Verif.ErrFmt.Props
import Verif.ErrFmt.Examples
import Verif.ExtModel.Props
import Verif.ExtModel.Examples
import Verif.Expr.Tree
import Verif.Adam.Link
import Verif.Adam.LinkExamples
import Verif.Adam.Bits
import Verif.Adam.Halves
import Verif.Adam.Contrib
import Verif.Adam.Mid
import Verif.Adam.ContribLemmas
import Verif.Adam.ContribProps
import Verif.Adam.Restore
import Verif.Adam.ContribExample
import Verif.Adam.ContribExamples
import Verif.Poly.Props
import Verif.Poly.Examples
import Verif.XString.Model
import Verif.XString.Spec
import Verif.XString.Lemmas
import Verif.XString.Replace
import Verif.XString.Glossary
import Verif.XString.Store
import Verif.XString.Lookup
import Verif.XString.Props
import Verif.XString.Violated
import Verif.XString.Examples
import Verif.Script.Model
import Verif.Script.Spec
import Verif.Script.Lits
import Verif.Script.Layout
import Verif.Script.Unamb
import Verif.Script.Props
import Verif.Script.Examples
import Verif.ToStr.Props
import Verif.ToStr.Concrete
import Verif.ToStr.Json
import Verif.ToStr.Examples
import Verif.Iter.Examples
import Verif.Bind.Model
import Verif.Bind.Spec
import Verif.Bind.Lemmas
import Verif.Bind.Start
import Verif.Bind.Total
import Verif.Bind.Props
import Verif.Bind.Examples
import Verif.Bind.Layout
import Verif.Bind.LayoutExamples
