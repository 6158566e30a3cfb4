import Verif.Arith.Model
import Verif.Arith.PropsBits
import Verif.Arith.PropsChecks
import Verif.Arith.PropsDivMod
import Verif.Arrays.Copy
import Verif.Arrays.Enter
import Verif.Arrays.Lens
import Verif.Arrays.Model
import Verif.Arrays.Props
import Verif.Arrays.Spec
import Verif.Assign.Lemmas
import Verif.Assign.Model
import Verif.Assign.Props
import Verif.Assign.Spec
import Verif.BTree.Arrays
import Verif.BTree.Enum
import Verif.BTree.Flat
import Verif.BTree.Lists
import Verif.BTree.Model
import Verif.BTree.Props
import Verif.BTree.Spec
import Verif.BTree.Under
import Verif.BTree.Update
import Verif.BinDir.Model
import Verif.BinDir.Props
import Verif.BinDir.Spec
import Verif.BitSets.Model
import Verif.BitSets.Props
import Verif.BitSets.Spec
import Verif.CDecl.Lemmas
import Verif.CDecl.Model
import Verif.CDecl.Props
import Verif.CDecl.Read
import Verif.CDecl.Spec
import Verif.CDefs.Lemmas
import Verif.CDefs.Model
import Verif.CDefs.Props
import Verif.CDefs.Run
import Verif.CDefs.Spec
import Verif.CNames.Distinct
import Verif.CNames.Lemmas
import Verif.CNames.Model
import Verif.CNames.Props
import Verif.CNames.Spec
import Verif.CStr.Model
import Verif.CStr.Props
import Verif.Chars
import Verif.Cmdline.Model
import Verif.Cmdline.Props
import Verif.Cmdline.Spec
import Verif.Common
import Verif.Console.Lemmas
import Verif.Console.LemmasRun
import Verif.Console.Model
import Verif.Console.Props
import Verif.Console.Spec
import Verif.Const.Model
import Verif.Const.PropsFold
import Verif.Const.PropsRewrite
import Verif.Control.Lemmas
import Verif.Control.LemmasEmit
import Verif.Control.LemmasParse
import Verif.Control.LemmasStatic
import Verif.Control.Model
import Verif.Control.Props
import Verif.Control.Spec
import Verif.Dates.Model
import Verif.Dates.Props
import Verif.Dates.Spec
import Verif.Decls.Block
import Verif.Decls.Chain
import Verif.Decls.Frame
import Verif.Decls.Lemmas
import Verif.Decls.Lengths
import Verif.Decls.Model
import Verif.Decls.Props
import Verif.Decls.Sound
import Verif.Decls.Spec
import Verif.Dispatch.LemmasNum
import Verif.Dispatch.LemmasRun
import Verif.Dispatch.LemmasSpec
import Verif.Dispatch.Model
import Verif.Dispatch.Props
import Verif.Dispatch.Spec
import Verif.Emit.Model
import Verif.Emit.PropsIdent
import Verif.Emit.PropsInt
import Verif.Emit.PropsStr
import Verif.Emit.Spec
import Verif.Ending.Ends
import Verif.Ending.Lemmas
import Verif.Ending.Model
import Verif.Ending.Once
import Verif.Ending.Props
import Verif.Ending.Spec
import Verif.ErrPos.Model
import Verif.ErrPos.Props
import Verif.ErrPos.Spec
import Verif.Eval.Base
import Verif.Eval.CArith
import Verif.Eval.Des
import Verif.Eval.Ints
import Verif.Eval.Ints2
import Verif.Eval.Ints3
import Verif.Eval.Ints4
import Verif.Eval.Main
import Verif.Eval.Model
import Verif.Eval.Props
import Verif.Eval.Sets
import Verif.Eval.Sets2
import Verif.Eval.Shifts
import Verif.Eval.Spec
import Verif.Expr.Lemmas
import Verif.Expr.Model
import Verif.Expr.Props
import Verif.Expr.Spec
import Verif.FPrint.Model
import Verif.FPrint.Props
import Verif.FileNum.Model
import Verif.FileNum.PropsFixed
import Verif.FileNum.PropsNum
import Verif.Files.Lemmas
import Verif.Files.Model
import Verif.Files.Ops
import Verif.Files.Props
import Verif.Files.Spec
import Verif.Fin.Lemmas
import Verif.Fin.Model
import Verif.Fin.Props
import Verif.Heap.Inv
import Verif.Heap.LemmasAlloc
import Verif.Heap.LemmasArr
import Verif.Heap.LemmasCand
import Verif.Heap.LemmasExtend
import Verif.Heap.LemmasGC
import Verif.Heap.LemmasMark
import Verif.Heap.LemmasNew
import Verif.Heap.LemmasRun
import Verif.Heap.LemmasScan
import Verif.Heap.LemmasSort
import Verif.Heap.LemmasTake
import Verif.Heap.Model
import Verif.Heap.ModelArr
import Verif.Heap.PropsAlloc
import Verif.Heap.PropsArr
import Verif.Heap.PropsMark
import Verif.Heap.PropsScan
import Verif.Heap.PropsStack
import Verif.Heap.Spec
import Verif.Horner.Model
import Verif.Horner.Props
import Verif.Horner.Spec
import Verif.Imports.Lemmas
import Verif.Imports.Model
import Verif.Imports.Props
import Verif.Imports.Spec
import Verif.Inflate.Lemmas
import Verif.Inflate.Model
import Verif.Inflate.Props
import Verif.Inflate.Spec
import Verif.Inflate.Steps
import Verif.IntStr.Lemmas
import Verif.IntStr.Model
import Verif.IntStr.Props
import Verif.IntStr.Spec
import Verif.Layout.Lemmas
import Verif.Layout.LemmasStruct
import Verif.Layout.Model
import Verif.Layout.PropsLayout
import Verif.Layout.PropsStruct
import Verif.Layout.Spec
import Verif.Linkage.Lemmas
import Verif.Linkage.Model
import Verif.Linkage.Props
import Verif.Linkage.Spec
import Verif.Linking.Lemmas
import Verif.Linking.Model
import Verif.Linking.Props
import Verif.Linking.Spec
import Verif.Listen.Model
import Verif.Listen.Props
import Verif.LongInts.Model
import Verif.LongInts.Props
import Verif.LongInts.Spec
import Verif.MD5.Lemmas
import Verif.MD5.Model
import Verif.MD5.Props
import Verif.MD5.Spec
import Verif.Names.Lemmas
import Verif.Names.Model
import Verif.Names.Props
import Verif.Names.Spec
import Verif.Nest.Model
import Verif.Nest.Props
import Verif.Nest.Sim
import Verif.Nest.Spec
import Verif.Ocat.Model
import Verif.Ocat.Props
import Verif.OocStr.Lemmas
import Verif.OocStr.Model
import Verif.OocStr.Props
import Verif.OocStr.Search
import Verif.OocStr.Spec
import Verif.Opers.Model
import Verif.Opers.Props
import Verif.Opers.Spec
import Verif.Outputs.Model
import Verif.Outputs.Props
import Verif.Outputs.Spec
import Verif.Parse.CompB
import Verif.Parse.CompE
import Verif.Parse.CompS
import Verif.Parse.CompT
import Verif.Parse.Go
import Verif.Parse.Model
import Verif.Parse.Props
import Verif.Parse.Run
import Verif.Parse.Sound
import Verif.Parse.SoundB
import Verif.Parse.SoundS
import Verif.Parse.SoundT
import Verif.Parse.Spec
import Verif.Parse.Syntax
import Verif.Parse.Total
import Verif.Parse.TotalB
import Verif.PathSearch.Lemmas
import Verif.PathSearch.Model
import Verif.PathSearch.Props
import Verif.PathSearch.Spec
import Verif.Predecl.Model
import Verif.Predecl.Props
import Verif.Predecl.Spec
import Verif.Procs.Lemmas
import Verif.Procs.Method
import Verif.Procs.Model
import Verif.Procs.Plain
import Verif.Procs.Props
import Verif.Procs.Run
import Verif.Procs.Spec
import Verif.Procs.Step
import Verif.Ptrs.Lemmas
import Verif.Ptrs.Model
import Verif.Ptrs.Props
import Verif.Ptrs.Spec
import Verif.Random.Model
import Verif.Random.Props
import Verif.Random.Spec
import Verif.RealBits.Lemmas
import Verif.RealBits.Model
import Verif.RealBits.Order
import Verif.RealBits.Props
import Verif.RealBits.Spec
import Verif.Reals.Model
import Verif.Reals.Props
import Verif.Reals.Spec
import Verif.Registry.Init
import Verif.Registry.Lemmas
import Verif.Registry.Model
import Verif.Registry.Props
import Verif.Registry.Spec
import Verif.Safe.Lemmas
import Verif.Safe.Model
import Verif.Safe.Props
import Verif.Safe.Sound
import Verif.Safe.Spec
import Verif.Scan.Model
import Verif.Scan.Props
import Verif.Scan.Spec
import Verif.Scanner.Model
import Verif.Scanner.PropsComment
import Verif.Scanner.PropsNumber
import Verif.Scanner.PropsTokens
import Verif.Scanner.Spec
import Verif.Scope.Model
import Verif.Scope.Props
import Verif.Share.Lemmas
import Verif.Share.Model
import Verif.Share.Props
import Verif.Share.Spec
import Verif.ShowDef.Ident
import Verif.ShowDef.Lemmas
import Verif.ShowDef.Model
import Verif.ShowDef.Module
import Verif.ShowDef.Props
import Verif.ShowDef.PropsIdent
import Verif.ShowDef.PropsModule
import Verif.ShowDef.Round
import Verif.ShowDef.Spec
import Verif.Str.Lemmas
import Verif.Str.MatchLemmas
import Verif.Str.Model
import Verif.Str.Props
import Verif.Str.Spec
import Verif.Sums.Crc
import Verif.Sums.Lemmas
import Verif.Sums.Model
import Verif.Sums.Props
import Verif.Sums.Spec
import Verif.SymFile.Model
import Verif.SymFile.PropsExport
import Verif.SymFile.PropsRoundtrip
import Verif.SymFile.Spec
import Verif.SymUpdate.Main
import Verif.SymUpdate.Model
import Verif.SymUpdate.Props
import Verif.SymUpdate.Read
import Verif.SymUpdate.Spec
import Verif.SymUpdate.Write
import Verif.TDInit.Block
import Verif.TDInit.Lemmas
import Verif.TDInit.Model
import Verif.TDInit.Props
import Verif.TDInit.Spec
import Verif.TextFiles.Model
import Verif.TextFiles.Props
import Verif.TextFiles.Spec
import Verif.Texts.Bufs
import Verif.Texts.Model
import Verif.Texts.Ops
import Verif.Texts.Parts
import Verif.Texts.Props
import Verif.Texts.Readers
import Verif.Texts.Ring
import Verif.Texts.Runs
import Verif.Texts.Sim
import Verif.Texts.Spec
import Verif.Time.Model
import Verif.Time.Props
import Verif.Types.Model
import Verif.Types.Props
import Verif.Types.Spec
import Verif.Utf.Model
import Verif.Utf.Props
import Verif.Utf.Spec
import Verif.VT100.Model
import Verif.VT100.Props
import Verif.VT100.Spec
import Verif.Vmake.Model
import Verif.Vmake.Props
import Verif.Vmake.Spec
