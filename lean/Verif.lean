import Verif.Basic
import Verif.Base64.Model
import Verif.Base64.Props
import Verif.Crc.Props
import Verif.Hex.Props
import Verif.Uri.Props
import Verif.Stack.Props
import Verif.DString.Props
import Verif.LList.Props
import Verif.Utf8.Model
import Verif.Utf8.Props
import Verif.Crypto.Sha256Props
import Verif.Crypto.Sha1Props
import Verif.Crypto.Md5Props
import Verif.Crypto.Sha3Props
import Verif.Crypto.EncryptProps
import Verif.Crypto.Hashcash
import Verif.Vm.Syntax
import Verif.Vm.Compile
import Verif.Vm.Machine
import Verif.Vm.Sem
import Verif.Vm.Steps
import Verif.Vm.ExprProof
import Verif.Vm.ExprOk
import Verif.Vm.Wf
import Verif.Vm.StmtProof
import Verif.Vm.StmtOk
import Verif.Vm.TryOk
import Verif.Vm.SwitchOk
import Verif.Vm.Ecma
import Verif.Vm.Regs
import Verif.Vm.Demo
import Verif.Vm.Props
import Verif.Hash.Model
import Verif.Hash.Spec
import Verif.Hash.Lemmas
import Verif.Hash.Props
import Verif.Hash.StrKey
import Verif.Tree.Model
import Verif.Tree.Spec
import Verif.Tree.Lemmas
import Verif.Tree.Props
import Verif.Tree.Orders
import Verif.Tree.Search
import Verif.Path.Model
import Verif.Path.Spec
import Verif.Path.Ops
import Verif.Path.Lemmas
import Verif.Path.Norm
import Verif.Path.Access
import Verif.Path.Props
import Verif.Value.Model
import Verif.Value.Props
import Verif.Dict.Model
import Verif.Dict.Spec
import Verif.Dict.Props
import Verif.Dict.Tree
import Verif.Json.Model
import Verif.Json.Spec
import Verif.Json.Tokens
import Verif.Json.Gen
import Verif.Json.Top
import Verif.Json.Out
import Verif.Json.Safe
import Verif.Json.Props
import Verif.Json.Brackets
import Verif.Array.Model
import Verif.Array.Spec
import Verif.Array.Lemmas
import Verif.Array.Ops
import Verif.Array.Ops2
import Verif.Array.Ops3
import Verif.Array.World
import Verif.Array.Refine
import Verif.Array.Safe
import Verif.Array.Props
import Verif.Array.Iter
import Verif.Array.IterProps
import Verif.Array.Capi
import Verif.Str.Model
import Verif.Str.Split
import Verif.Str.Props
import Verif.Str.Search
import Verif.Str.Parts
import Verif.Glob.Model
import Verif.Glob.Props
import Verif.Glob.Safe
import Verif.Opt.Index
import Verif.Timer.Model
import Verif.Timer.Spec
import Verif.Timer.Props
import Verif.Ref.Model
import Verif.Ref.Spec
import Verif.Ref.Count
import Verif.Ref.Ops
import Verif.Ref.Exec
import Verif.Ref.Copy
import Verif.Ref.Props
import Verif.Ref.Effect
import Verif.Lex.Model
import Verif.Lex.Safe
import Verif.Lex.Safe2
import Verif.Lex.Safe3
import Verif.Lex.Fuel
import Verif.Lex.View
import Verif.Lex.Spec
import Verif.Lex.Scan
import Verif.Lex.ScanSign
import Verif.Lex.ScanNum
import Verif.Lex.Token
import Verif.Lex.Run
import Verif.Lex.Text
import Verif.Lex.Ascii
import Verif.Lex.Props
import Verif.Lex.Props2
import Verif.Interp.Model
import Verif.Interp.Spec
import Verif.Interp.Facts
import Verif.Interp.Inv
import Verif.Interp.Props
import Verif.Interp.Conf
import Verif.Interp.Demo
import Verif.Obj.Model
import Verif.Obj.Spec
import Verif.Obj.Demo
import Verif.Obj.Fine
import Verif.Obj.Facts
import Verif.Obj.Inv
import Verif.Obj.Sim
import Verif.Obj.Steps
import Verif.Obj.Hist
import Verif.Obj.Atoms
import Verif.Obj.Proto
import Verif.Obj.Sep
import Verif.Obj.Frozen
import Verif.Obj.Local
import Verif.Obj.Props
import Verif.Obj.KeysModel
import Verif.Obj.Keys
import Verif.Obj.KeysVar
import Verif.Obj.KeysDemo
import Verif.Fmt.Props
import Verif.Fmt.Safe
import Verif.Fmt.Any
import Verif.Fmt.Demo
import Verif.Queue.Props
import Verif.Queue.Demo
import Verif.Web.SsiDemo
import Verif.Web.Files
import Verif.Web.Head
import Verif.Sql.Trans
import Verif.Sql.CacheDemo
import Verif.Sql.OutHtml
import Verif.Sql.Bind
import Verif.File.Names
import Verif.File.RemoveDemo
import Verif.File.MkdirAll
import Verif.File.Copy
import Verif.Pkg.Version
import Verif.Pkg.LoadDemo
import Verif.Call.Names
import Verif.Call.This
import Verif.Opt.Find
import Verif.Regex.Safe
import Verif.Scope.Props
import Verif.Limit.Interrupt
import Verif.Chan.Write
import Verif.Sort.More
import Verif.Sort.Mixed
import Verif.Number.Refute
import Verif.Number.Fixed
import Verif.Arith.Props
import Verif.Date.Texts
import Verif.Opt.PathName
import Verif.Opt.PathSet
import Verif.UObj.Props
import Verif.Sql.OutJsonProps
import Verif.Sql.OutLine
import Verif.Sql.OutList
import Verif.Sql.Import
import Verif.Sql.ImportProps
import Verif.Sql.ImportMore
import Verif.FGlob.Model
import Verif.FGlob.Walk
import Verif.FGlob.Props
import Verif.FGlob.Props2
import Verif.FGlob.Props3
import Verif.FGlob.Props4
import Verif.FGlob.Demo
import Verif.Call.Alias
import Verif.Call.AliasTab
import Verif.Json.Clean
import Verif.Json.Bare
import Verif.Lookup.Model
import Verif.Lookup.Props
import Verif.Match.Model
import Verif.Match.Props
import Verif.Pkg.Convert
import Verif.Signal.Model
import Verif.Signal.Props
import Verif.Signal.Deliver
import Verif.Repl.Model
import Verif.Repl.Props
import Verif.Sql.ObjBind
import Verif.Sql.ObjBindProps
import Verif.Obj.Access
import Verif.Obj.IsProto
import Verif.Edit.Model
import Verif.Edit.Props
import Verif.Edit.History
import Verif.Edit.HistoryProps
import Verif.Complete.Model
import Verif.Complete.Props
import Verif.Debug.Model
import Verif.Debug.Props
import Verif.Vfs.Model
import Verif.Vfs.Props
import Verif.Vfs.Dirs
import Verif.Vfs.Scan
