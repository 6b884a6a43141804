import Verif.Basic
import Verif.Num
import Verif.NumLemmas
import Verif.NumProps
import Verif.Heap
import Verif.Eq
import Verif.ListM
import Verif.HeapSpec
import Verif.HeapLemmas
import Verif.ListLemmas
import Verif.ListProps
import Verif.ListProps2
import Verif.EqSpec
import Verif.EqLemmas
import Verif.EqProps
import Verif.Alist
import Verif.AlistLemmas
import Verif.AlistLemmas2
import Verif.AlistProps
import Verif.Vector
import Verif.VectorProps
import Verif.Hash
import Verif.HashSpec
import Verif.HashLemmas
import Verif.HashLemmas2
import Verif.HashLemmas3
import Verif.HashProps
import Verif.Str
import Verif.StrSpec
import Verif.StrLemmas
import Verif.StrLemmas2
import Verif.StrProps
import Verif.StrProps2
import Verif.Ev
import Verif.EvMod
import Verif.EvStep
import Verif.EvMono
import Verif.EvLim
import Verif.EvInv
import Verif.EvExt
import Verif.EvSpec
import Verif.EvLemmas
import Verif.EvDemo
import Verif.EvEnvProps
import Verif.EvRules
import Verif.EvApply
import Verif.EvFormProps
import Verif.EvHide
import Verif.EvHide2
import Verif.EvHide3
import Verif.EvCall
import Verif.EvCallProps
import Verif.EvNamedLet
import Verif.EvDoProps
import Verif.EvHigherProps
import Verif.EvQuasiProps
import Verif.EvMacroProps
import Verif.EvCtl
import Verif.EvControlProps
import Verif.EvWindProps
import Verif.Reader
import Verif.ReaderLemmas
import Verif.ReaderSpec
import Verif.ReaderRound
import Verif.ReaderRound2
import Verif.ReaderProps
import Verif.EvApi
import Verif.EvApiLemmas
import Verif.EvApiProps
import Verif.EvModProps
import Verif.Gc
import Verif.GcSpec
import Verif.GcMark
import Verif.GcSweep
import Verif.GcAlloc
import Verif.GcProps
import Verif.Port
import Verif.PortProps
import Verif.PortRead
import Verif.PortReadProps
import Verif.Misc
import Verif.MiscProps
import Verif.NumProps2
import Verif.ListProps3
import Verif.DataProps2
import Verif.MiscProps2
import Verif.ReaderProps2
import Verif.GcProps2
import Verif.EvScope
import Verif.EvScopeProps
import Verif.EvLoad
import Verif.EvLoadProps
import Verif.EvLoadProps2
import Verif.EvExpandProps
import Verif.EvContProps
import Verif.EvApi2
import Verif.EvApi2Props
import Verif.Pred
import Verif.PredProps
import Verif.Ports
import Verif.PortsLemmas
import Verif.PortsFiles
import Verif.PortsEvolve
import Verif.PortsSpec
import Verif.PortsRun
import Verif.PortsProps
import Verif.PortsProps2
import Verif.PortsSoft
import Verif.PortsProps3
import Verif.PortsSafe
import Verif.PortsCall
import Verif.PortsCallLemmas
import Verif.PortsProps4
import Verif.Debug
import Verif.DebugProps
import Verif.Repl
import Verif.ReplScan
import Verif.ReplPrint
import Verif.ReplProps
import Verif.Cli
import Verif.CliProps
import Verif.Throw
import Verif.ThrowProps
import Verif.EvFoldProps
import Verif.SrcLoc
import Verif.SrcLocLemmas
import Verif.SrcLocProps
import Verif.EvDepth
import Verif.EvDepthProps
import Verif.CodeMem
import Verif.CodeMemProps
import Verif.SmobCall
import Verif.SmobCallProps
import Verif.ModSearch
import Verif.ModSearchLemmas
import Verif.ModSearchProps
import Verif.RdPos
import Verif.RdPosErase
import Verif.RdPosLemmas
import Verif.RdPosNamed
import Verif.RdPosProps
import Verif.RdReport
import Verif.RdReportProps
import Verif.RdStack
import Verif.RdStackProps
import Verif.ContMem
import Verif.ContMemProps
import Verif.ReEnter
import Verif.ReEnterLemmas
import Verif.ReEnterProps
import Verif.LocStr
import Verif.LocStrProps
import Verif.HashIter
import Verif.HashIterSpec
import Verif.HashIterLemmas
import Verif.HashIterProps
import Verif.LastErr
import Verif.LastErrSpec
import Verif.LastErrLemmas
import Verif.LastErrProps
import Verif.ModApi
import Verif.ModApiProps
import Verif.Registry
import Verif.RegistryProps
import Verif.SmobScm
import Verif.SmobScmProps
import Verif.GcRoots
import Verif.GcRootsProps
import Verif.RefSem
import Verif.RefRel
import Verif.RefSim
import Verif.RefSim2
import Verif.RefSim3
import Verif.RefSim4
import Verif.RefTop
import Verif.RefStd
import Verif.RefPrims
import Verif.RefImpl
import Verif.RefImpl2
import Verif.RefProps
import Verif.RefImpl3
import Verif.RefMono
import Verif.OptMacro
import Verif.OptMacro2
import Verif.OptMacro3
import Verif.OptMacroProps
import Verif.Script
import Verif.ScriptSpec
import Verif.ScriptText
import Verif.ScriptRun
import Verif.ScriptProps
import Verif.RefKeys
import Verif.RefMap
import Verif.RefDo
import Verif.RefQuasi
import Verif.CStr
import Verif.CStrProps
import Verif.RefOut
import Verif.Console
import Verif.ConsoleSpec
import Verif.ConsoleRun
import Verif.ConsoleProps
import Verif.ReplEval
import Verif.ReplEvalSpec
import Verif.ReplEvalProps
import Verif.ErrPort
import Verif.ErrPortSpec
import Verif.ErrPortLemmas
import Verif.ErrPortProps
import Verif.RefImplText
import Verif.RefTextProps
import Verif.RefImplData
import Verif.EvEvalProps
import Verif.ProcName
import Verif.ProcNameProps
import Verif.RefCatchSpec
import Verif.RefCatch
import Verif.RefCatchProps
import Verif.MemDataSpec
import Verif.MemCall
import Verif.MemData
import Verif.MemData2
import Verif.MemData3
import Verif.MemDataProps
import Verif.MemText
import Verif.MemTextLemmas
import Verif.MemTextProps
import Verif.MemTextProps2
import Verif.MemNum
import Verif.MemNumLemmas
import Verif.MemNumProps
import Verif.MemProg
import Verif.MemProgProps
import Verif.MemSetSpec
import Verif.MemSetProps
import Verif.MemAlistSpec
import Verif.MemAlistProps
import Verif.MemStrSpec
import Verif.MemStrProps
