import Verif.Model.Arena
import Verif.Model.ArenaScope
import Verif.Model.Args
import Verif.Model.Array
import Verif.Model.Asm
import Verif.Model.Atomic
import Verif.Model.AtomicFloat
import Verif.Model.AtomicObj
import Verif.Model.Base64
import Verif.Model.Blocks
import Verif.Model.CasWin
import Verif.Model.CatchIf
import Verif.Model.Cleanup
import Verif.Model.Cpus
import Verif.Model.Deque
import Verif.Model.Digits
import Verif.Model.Dirent
import Verif.Model.End
import Verif.Model.Endian
import Verif.Model.Except
import Verif.Model.First
import Verif.Model.Flush
import Verif.Model.Future
import Verif.Model.Getopt
import Verif.Model.GetoptLong
import Verif.Model.Guard
import Verif.Model.GuardThreads
import Verif.Model.Hooks
import Verif.Model.Kin
import Verif.Model.Leave
import Verif.Model.Locals
import Verif.Model.Macros
import Verif.Model.Mem
import Verif.Model.MemSearch
import Verif.Model.Mman
import Verif.Model.MmanErr
import Verif.Model.Paste
import Verif.Model.Pool
import Verif.Model.Queue
import Verif.Model.RbTree
import Verif.Model.Refuse
import Verif.Model.Report
import Verif.Model.Scope
import Verif.Model.ScopeRace
import Verif.Model.Seh
import Verif.Model.Shim
import Verif.Model.SigAsync
import Verif.Model.Signal
import Verif.Model.Signed
import Verif.Model.Slot
import Verif.Model.SpawnScope
import Verif.Model.Spin
import Verif.Model.Splay
import Verif.Model.Strings
import Verif.Model.Swar
import Verif.Model.SwarWin
import Verif.Model.ThreadStrings
import Verif.Model.ThrowMem
import Verif.Model.ThrowThreads
import Verif.Model.Tls
import Verif.Model.TlsMore
import Verif.Model.TlsPair
import Verif.Model.Trace
import Verif.Model.Tso
import Verif.Model.Types
import Verif.Model.Views
import Verif.Model.Wait
import Verif.Model.WeakDeque
import Verif.Model.WeakMem
import Verif.Model.Word
import Verif.Model.WorkSteal
import Verif.Model.XorQueue
import Verif.Proof.Arena
import Verif.Proof.ArenaScope
import Verif.Proof.Args
import Verif.Proof.Array
import Verif.Proof.Asm
import Verif.Proof.Atomic
import Verif.Proof.AtomicObj
import Verif.Proof.Base64
import Verif.Proof.CatchIf
import Verif.Proof.Cpus
import Verif.Proof.Deque
import Verif.Proof.Dirent
import Verif.Proof.End
import Verif.Proof.Except
import Verif.Proof.ExceptTls
import Verif.Proof.Fair
import Verif.Proof.First
import Verif.Proof.Format
import Verif.Proof.Future
import Verif.Proof.FutureEnd
import Verif.Proof.FutureStatus
import Verif.Proof.Getopt
import Verif.Proof.GetoptLong
import Verif.Proof.GetoptRun
import Verif.Proof.Guard
import Verif.Proof.GuardThreads
import Verif.Proof.Hooks
import Verif.Proof.Kin
import Verif.Proof.KinEnd
import Verif.Proof.Lanes
import Verif.Proof.Locals
import Verif.Proof.MemSearch
import Verif.Proof.Parse
import Verif.Proof.Paste
import Verif.Proof.Queue
import Verif.Proof.RbFind
import Verif.Proof.RbHeap
import Verif.Proof.RbInsert
import Verif.Proof.RbMain
import Verif.Proof.RbOps
import Verif.Proof.RbRemove
import Verif.Proof.Refuse
import Verif.Proof.Scope
import Verif.Proof.ScopeCancel
import Verif.Proof.ScopeIndex
import Verif.Proof.ScopeProg
import Verif.Proof.ScopeRace
import Verif.Proof.ScopeRun
import Verif.Proof.ScopeSafe
import Verif.Proof.ScopeTwice
import Verif.Proof.Seh
import Verif.Proof.SigAsync
import Verif.Proof.Signal
import Verif.Proof.Signed
import Verif.Proof.Slot
import Verif.Proof.SpawnScope
import Verif.Proof.SpawnScope2
import Verif.Proof.SpawnScope3
import Verif.Proof.SpawnScope4
import Verif.Proof.SpawnScope5
import Verif.Proof.SpawnScope6
import Verif.Proof.Spin
import Verif.Proof.SplayBalance
import Verif.Proof.SplayCost
import Verif.Proof.SplayDeep
import Verif.Proof.SplayHeap
import Verif.Proof.SplayMain
import Verif.Proof.SplayRounds
import Verif.Proof.StrScan
import Verif.Proof.Strings
import Verif.Proof.Swar
import Verif.Proof.SwarWin
import Verif.Proof.ThreadStrings
import Verif.Proof.ThreadStringsRun
import Verif.Proof.ThrowApart
import Verif.Proof.ThrowMem
import Verif.Proof.ThrowPatch
import Verif.Proof.ThrowShared
import Verif.Proof.ThrowTame
import Verif.Proof.Tls
import Verif.Proof.TlsEmu
import Verif.Proof.TlsMore
import Verif.Proof.TlsPair
import Verif.Proof.Tso
import Verif.Proof.Views
import Verif.Proof.WeakDeque
import Verif.Proof.WeakDequeOwner
import Verif.Proof.WeakDequePush
import Verif.Proof.WeakDequeRun
import Verif.Proof.WeakDequeThief
import Verif.Proof.WeakDequeUse
import Verif.Proof.WeakLive
import Verif.Proof.WeakLock
import Verif.Proof.WeakMem
import Verif.Proof.WeakRun
import Verif.Proof.Word
import Verif.Proof.WorkSteal
import Verif.Proof.XorQueue
import Verif.Props.Arena
import Verif.Props.ArenaScope
import Verif.Props.Args
import Verif.Props.Array
import Verif.Props.Asm
import Verif.Props.Atomic
import Verif.Props.AtomicFloat
import Verif.Props.AtomicObj
import Verif.Props.Base64
import Verif.Props.Blocks
import Verif.Props.CasWin
import Verif.Props.CatchIf
import Verif.Props.Cleanup
import Verif.Props.Cpus
import Verif.Props.Deque
import Verif.Props.Dirent
import Verif.Props.End
import Verif.Props.Endian
import Verif.Props.Except
import Verif.Props.ExceptTls
import Verif.Props.Fair
import Verif.Props.First
import Verif.Props.Flush
import Verif.Props.Future
import Verif.Props.FutureStatus
import Verif.Props.Getopt
import Verif.Props.GetoptLong
import Verif.Props.Guard
import Verif.Props.GuardThreads
import Verif.Props.Hooks
import Verif.Props.Kin
import Verif.Props.Leave
import Verif.Props.Locals
import Verif.Props.Macros
import Verif.Props.Mman
import Verif.Props.MmanErr
import Verif.Props.Numbers
import Verif.Props.Paste
import Verif.Props.Pool
import Verif.Props.Queue
import Verif.Props.Refuse
import Verif.Props.Report
import Verif.Props.Scope
import Verif.Props.ScopeRace
import Verif.Props.Search
import Verif.Props.Seh
import Verif.Props.Shim
import Verif.Props.SigAsync
import Verif.Props.Signal
import Verif.Props.Signed
import Verif.Props.Slot
import Verif.Props.SpawnScope
import Verif.Props.Spin
import Verif.Props.Splay
import Verif.Props.SplayCost
import Verif.Props.Strings
import Verif.Props.SwarWin
import Verif.Props.ThreadStrings
import Verif.Props.ThrowMem
import Verif.Props.ThrowThreads
import Verif.Props.Tls
import Verif.Props.TlsMore
import Verif.Props.Trace
import Verif.Props.Tree
import Verif.Props.Tso
import Verif.Props.Types
import Verif.Props.Views
import Verif.Props.Wait
import Verif.Props.WeakDeque
import Verif.Props.WeakMem
import Verif.Props.Word
import Verif.Props.WorkSteal
import Verif.Props.XorQueue
import Verif.Spec.Arena
import Verif.Spec.ArenaScope
import Verif.Spec.Args
import Verif.Spec.Array
import Verif.Spec.Asm
import Verif.Spec.Atomic
import Verif.Spec.AtomicFloat
import Verif.Spec.AtomicObj
import Verif.Spec.Base64
import Verif.Spec.Blocks
import Verif.Spec.CasWin
import Verif.Spec.CatchIf
import Verif.Spec.Cleanup
import Verif.Spec.Cpus
import Verif.Spec.Deque
import Verif.Spec.Dirent
import Verif.Spec.End
import Verif.Spec.Endian
import Verif.Spec.Except
import Verif.Spec.ExceptTls
import Verif.Spec.Fair
import Verif.Spec.First
import Verif.Spec.Future
import Verif.Spec.Getopt
import Verif.Spec.GetoptLong
import Verif.Spec.Guard
import Verif.Spec.GuardThreads
import Verif.Spec.Hooks
import Verif.Spec.Kin
import Verif.Spec.Leave
import Verif.Spec.Locals
import Verif.Spec.Mman
import Verif.Spec.MmanErr
import Verif.Spec.Numbers
import Verif.Spec.Paste
import Verif.Spec.Queue
import Verif.Spec.Refuse
import Verif.Spec.Report
import Verif.Spec.Scope
import Verif.Spec.ScopeRace
import Verif.Spec.Seh
import Verif.Spec.Shim
import Verif.Spec.SigAsync
import Verif.Spec.Signal
import Verif.Spec.Signed
import Verif.Spec.Slot
import Verif.Spec.SpawnScope
import Verif.Spec.Splay
import Verif.Spec.SplayCost
import Verif.Spec.StringOps
import Verif.Spec.Strings
import Verif.Spec.ThreadStrings
import Verif.Spec.ThrowMem
import Verif.Spec.ThrowThreads
import Verif.Spec.Tls
import Verif.Spec.TlsMore
import Verif.Spec.TlsPair
import Verif.Spec.Trace
import Verif.Spec.Tree
import Verif.Spec.Tso
import Verif.Spec.Types
import Verif.Spec.Views
import Verif.Spec.Wait
import Verif.Spec.WeakDeque
import Verif.Spec.WeakMem
import Verif.Spec.Word
import Verif.Spec.WorkSteal
import Verif.Spec.XorQueue
