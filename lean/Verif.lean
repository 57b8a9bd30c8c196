import Verif.Span
import Verif.SpanProps
import Verif.Source
import Verif.SourceSpec
import Verif.SourceLemmas
import Verif.SourceProps
import Verif.Bytecode
import Verif.Assembler
import Verif.AssemblerProps
import Verif.Scope
import Verif.ScopeProps
import Verif.UpvalueProps
import Verif.Ast
import Verif.Compiler
import Verif.Vm
import Verif.VmInv
import Verif.VmLemmas
import Verif.ArithProps
import Verif.VmMono
import Verif.GlobalProps
import Verif.ClassProps
import Verif.ObjectProps
import Verif.CaptureProps
import Verif.Symbol
import Verif.SymbolProps
import Verif.TypeProps
import Verif.Findings
import Verif.Struct
import Verif.StructProps
import Verif.Gen
import Verif.Emit
import Verif.Run
import Verif.RunScope
import Verif.RunPieces
import Verif.RunFlow
import Verif.GenProps
import Verif.CompileProps
import Verif.GenShape
import Verif.ProgramRun
import Verif.Balance
import Verif.GenEnv
import Verif.BalanceStep
import Verif.BalanceExec
import Verif.BalanceGen
import Verif.BalanceProps
import Verif.CallProps
import Verif.Mono
import Verif.BigStep
import Verif.Steps
import Verif.OperatorProps
import Verif.ChainProps
import Verif.OrderProps
import Verif.LimitsProps
import Verif.LoopProps
import Verif.RangeProps
import Verif.ErrorProps
import Verif.Static
import Verif.StaticView
import Verif.StaticProps
import Verif.Blame
import Verif.Wp
import Verif.Grows
import Verif.Errors
import Verif.ErrorsVisit
import Verif.RejectProps
import Verif.Lexer
import Verif.LexProps
import Verif.Parser
import Verif.ParseProps
import Verif.Grammar
import Verif.ParseSound
import Verif.ParseComplete
import Verif.LexPrint
import Verif.PrintProps
import Verif.ConsumeProps
import Verif.KernelRfl
import Verif.SyntaxFindings
import Verif.Eval
import Verif.SimStatic
import Verif.SimVal
import Verif.SimInv
import Verif.SimRel
import Verif.SimState
import Verif.SimScope
import Verif.SimInstr
import Verif.SimOps
import Verif.SimNode
import Verif.SimExpr
import Verif.SimFlow
import Verif.SimLoop
import Verif.SimClass
import Verif.SimGen
import Verif.SimCall
import Verif.SimProps
import Verif.SimNative
import Verif.DeclaredTypes
import Verif.DeclProps
import Verif.SlotGen
import Verif.SlotProps
import Verif.NameProps
import Verif.ModuleProps
import Verif.ErrorFmtProps
import Verif.Natives
import Verif.NativeProps
import Verif.NativeHeap
import Verif.NativeArray
import Verif.Prelude
import Verif.Reflect
import Verif.Results
import Verif.IterProps
import Verif.IterLoop
import Verif.Within
import Verif.Verifier
import Verif.VerifiedRun
import Verif.SimImport
import Verif.SimModule
import Verif.SimSession
import Verif.SimPrelude
import Verif.StoredRange
import Verif.ResultObjects
import Verif.Surplus
import Verif.Respace
import Verif.LargeJump
import Verif.Floats
import Verif.FloatProps
import Verif.NoErrorTokens
import Verif.Repl
import Verif.ReplProps
import Verif.FileLoader
import Verif.FileLoaderProps
import Verif.Examples
import Verif.Derived
import Verif.DerivedProps
import Verif.Keeps
import Verif.Pinned
import Verif.PinnedProps
import Verif.Receiver
import Verif.Mutable
import Verif.Apart
import Verif.ObjectLit
import Verif.Ctor
import Verif.Exports
import Verif.Bounds
