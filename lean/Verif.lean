import Verif.Py
import Verif.Ope.Props
import Verif.Aes.Props
import Verif.Fuzzy.Props
import Verif.Codec.Store
import Verif.Paillier.Props
import Verif.Delta.ExecProps
import Verif.Table.Props
import Verif.Clause.WhereProps
import Verif.Clause.SetProps
import Verif.Clause.OrderProps
import Verif.Clause.SelectProps
import Verif.Clause.NameProps
import Verif.Clause.WholeProps
import Verif.Clause.PipeProps
import Verif.Pool.Props
import Verif.Steady.Props
import Verif.Web.ConnectProps
import Verif.Web.InjectProps
import Verif.Web.IdsProps
import Verif.Web.EndpointsProps
import Verif.Web.FormsProps
import Verif.Web.AggregateProps
import Verif.Batch.Props
import Verif.Format.ExprProps
import Verif.Format.DotsProps
import Verif.Format.LiteralProps
import Verif.Lex.Props
import Verif.Lex.TypeProps
import Verif.Oxt.PlainProps
import Verif.Rotation.Props
import Verif.Parse.TreeProps
import Verif.Parse.ActionProps
import Verif.Statement.QueryProps
import Verif.Statement.InsertProps
import Verif.Alter.Props
import Verif.Table.DefaultProps
import Verif.Bytes.Props
import Verif.Offline.Props
import Verif.Sql.Scan
import Verif.Sql.Parser
import Verif.Sql.Comment
import Verif.Sql.Gap
import Verif.Sql.Spell
import Verif.Sql.Read
import Verif.Sql.ReadExpr
import Verif.Sql.ReadRun
import Verif.Sql.Stmt
import Verif.Sql.StmtProps
import Verif.Sql.StmtFails
import Verif.Sql.Ops
import Verif.Sql.NumberProps
import Verif.Whole.Mysql
import Verif.Whole.Lex
import Verif.Whole.Text
import Verif.Whole.Parse
import Verif.Whole.Send
import Verif.Whole.Cond
import Verif.Whole.Read
import Verif.Whole.Rewrite
import Verif.Whole.Assign
import Verif.Whole.Insert
import Verif.Whole.Session
import Verif.Whole.SessionProps
import Verif.Whole.Serve
import Verif.Whole.Examples
import Verif.Whole.CondProps
import Verif.Group.Model
import Verif.Group.Keeps
import Verif.Group.Refs
import Verif.Group.Every
import Verif.Group.PassProps
import Verif.Group.PassKinds
import Verif.Group.Shape
import Verif.Group.Props
import Verif.Group.Nest
import Verif.Group.Flatten
import Verif.Rules.Re
import Verif.Rules.Model
import Verif.Rules.Quote
import Verif.Rules.Plain
import Verif.Rules.Lexed
import Verif.Rules.First
import Verif.Rules.Tokens
import Verif.Rules.Props
import Verif.Sql.RunTree
import Verif.Whole.Tokens
import Verif.Whole.Back
import Verif.Whole.BackStmt
import Verif.Whole.Direct
import Verif.Whole.DirectProps
import Verif.Window.Model
import Verif.Window.Mysql
import Verif.Window.Read
import Verif.Window.Props
import Verif.General.Model
import Verif.General.Props
import Verif.Join.Model
import Verif.Join.Rewrite
import Verif.Join.Props
import Verif.Join.Fails
import Verif.Answer.Model
import Verif.Answer.Rewrite
import Verif.Answer.Props
import Verif.Answer.Fails
import Verif.Strip.Model
import Verif.Strip.Props
import Verif.Strip.Text
import Verif.Strip.Fails
import Verif.Dots.Model
import Verif.Dots.Props
import Verif.Dots.Fails
import Verif.Create.Model
import Verif.Create.Spell
import Verif.Create.Columns
import Verif.Create.Decl
import Verif.Create.Fits
import Verif.Create.Session
import Verif.Create.Fails
import Verif.Create.Examples
import Verif.Values.Model
import Verif.Values.Run
import Verif.Values.Rows
import Verif.Values.Kin
import Verif.Values.Props
import Verif.Values.Limit
import Verif.Values.Dict
import Verif.Values.Examples
import Verif.Sql.Query
import Verif.Sql.QuerySpell
import Verif.Sql.QueryRead
import Verif.Sql.QueryProps
import Verif.Sql.QueryExtends
import Verif.Sql.QueryFails
import Verif.Answer.Spelled
import Verif.Whole.AlterRead
import Verif.Nulls.Model
import Verif.Nulls.Cond
import Verif.Nulls.Rows
import Verif.Nulls.Props
import Verif.Like.Model
import Verif.Like.Send
import Verif.Like.Stmts
import Verif.Like.Props
import Verif.Like.Fails
import Verif.Choice.Model
import Verif.Choice.Items
import Verif.Choice.Lookup
import Verif.Choice.Props
import Verif.Choice.Grammar
import Verif.Choice.Fails
import Verif.NullLit.Model
import Verif.NullLit.Send
import Verif.NullLit.Rows
import Verif.NullLit.Props
import Verif.NullLit.Fails
import Verif.Nested.Model
import Verif.Nested.Rewrite
import Verif.Nested.Layer
import Verif.Nested.Props
import Verif.Nested.Fails
import Verif.Regex.Model
import Verif.Regex.Read
import Verif.Regex.Range
import Verif.Regex.Compose
import Verif.Regex.Meaning
import Verif.Regex.Plain
import Verif.Regex.Props
import Verif.Regex.Fails
import Verif.Expect.Model
import Verif.Expect.Keys
import Verif.Expect.Cover
import Verif.Expect.Class
import Verif.Expect.Fails
import Verif.SetOps.Model
import Verif.SetOps.Props
import Verif.SetOps.Write
import Verif.SetOps.Fails
import Verif.Results.Model
import Verif.Results.Props
import Verif.Results.Fails
import Verif.Repeat.Model
import Verif.Repeat.Props
import Verif.Repeat.Fails
import Verif.Comment.Model
import Verif.Comment.Props
import Verif.Comment.Pattern
import Verif.Clause.FrameProps
import Verif.Layout.Model
import Verif.Layout.Props
import Verif.Layout.Fails
import Verif.OneOf.Model
import Verif.OneOf.Props
import Verif.Presto.Model
import Verif.Presto.Props
import Verif.Presto.Fails
import Verif.Results.FlatProps
import Verif.Presto.Unique
import Verif.Presto.Query
import Verif.Presto.QueryProps
import Verif.Skip.Model
import Verif.Skip.Props
import Verif.Skip.Ignore
import Verif.Behind.Model
import Verif.Behind.Props
import Verif.Scan.Model
import Verif.Scan.Props
