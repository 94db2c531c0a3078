import Verif.Conformance.Doc
import Verif.Conformance.Tests
import Verif.Model.Basic
import Verif.Model.Builder
import Verif.Model.Cascade
import Verif.Model.Data
import Verif.Model.Debug
import Verif.Model.Edit
import Verif.Model.Lock
import Verif.Model.Macro
import Verif.Model.Member
import Verif.Model.NodeApi
import Verif.Model.Panicking
import Verif.Model.Pretty
import Verif.Model.Prog
import Verif.Model.Query
import Verif.Model.Reentry
import Verif.Model.Serial
import Verif.Model.Sink
import Verif.Model.Traverse
import Verif.Model.WTraverse
import Verif.Model.World
import Verif.Proofs.Anc
import Verif.Proofs.Bfs
import Verif.Proofs.Build
import Verif.Proofs.BuildAll
import Verif.Proofs.BuildClose
import Verif.Proofs.BuildEnd
import Verif.Proofs.BuildEscape
import Verif.Proofs.BuildersAt
import Verif.Proofs.Cascade
import Verif.Proofs.CascadeDetach
import Verif.Proofs.CascadeFacts
import Verif.Proofs.CascadeFuel
import Verif.Proofs.CascadeKept
import Verif.Proofs.CascadeLate
import Verif.Proofs.CascadeLoop
import Verif.Proofs.CascadeRun
import Verif.Proofs.CascadeSim
import Verif.Proofs.CascadeStep
import Verif.Proofs.CascadeWorld
import Verif.Proofs.Clone
import Verif.Proofs.CloneEndless
import Verif.Proofs.CloneFirst
import Verif.Proofs.CloneInsert
import Verif.Proofs.CloneInside
import Verif.Proofs.CloneLoop
import Verif.Proofs.CloneTree
import Verif.Proofs.CloseFail
import Verif.Proofs.Collect
import Verif.Proofs.Create
import Verif.Proofs.Cursor
import Verif.Proofs.Data
import Verif.Proofs.DataFrame
import Verif.Proofs.Demo
import Verif.Proofs.DemoWide
import Verif.Proofs.DemoWorld
import Verif.Proofs.Detach
import Verif.Proofs.Drop
import Verif.Proofs.DropKeep
import Verif.Proofs.DropLink
import Verif.Proofs.Frames
import Verif.Proofs.Getters
import Verif.Proofs.Graft
import Verif.Proofs.Grow
import Verif.Proofs.Init
import Verif.Proofs.Interrupt
import Verif.Proofs.Isolated
import Verif.Proofs.Iter
import Verif.Proofs.IterLast
import Verif.Proofs.IterMore
import Verif.Proofs.KeptAll
import Verif.Proofs.KeptTree
import Verif.Proofs.LinkOps
import Verif.Proofs.Linked
import Verif.Proofs.Loop
import Verif.Proofs.Loops
import Verif.Proofs.Loose
import Verif.Proofs.Machine
import Verif.Proofs.MachineEdit
import Verif.Proofs.MachineRun
import Verif.Proofs.MachineStep
import Verif.Proofs.Macro
import Verif.Proofs.Memb
import Verif.Proofs.MoveMore
import Verif.Proofs.Nav
import Verif.Proofs.Own
import Verif.Proofs.Pretty
import Verif.Proofs.Prog
import Verif.Proofs.ReadAll
import Verif.Proofs.ReadAny
import Verif.Proofs.ReadWide
import Verif.Proofs.Reads
import Verif.Proofs.Reentry
import Verif.Proofs.ReentryDrop
import Verif.Proofs.Rehome
import Verif.Proofs.Replace
import Verif.Proofs.ReplaceSpec
import Verif.Proofs.RootLeaf
import Verif.Proofs.RootMove
import Verif.Proofs.RootMoveSpec
import Verif.Proofs.Rose
import Verif.Proofs.Safe
import Verif.Proofs.SafeAll
import Verif.Proofs.SafeExec
import Verif.Proofs.SafeFacts
import Verif.Proofs.SafeLink
import Verif.Proofs.SafeStep
import Verif.Proofs.SafeWorld
import Verif.Proofs.Scan
import Verif.Proofs.Seg
import Verif.Proofs.Serial
import Verif.Proofs.Settle
import Verif.Proofs.Sim
import Verif.Proofs.SimEdit
import Verif.Proofs.SimWorld
import Verif.Proofs.Sink
import Verif.Proofs.Splice
import Verif.Proofs.StaleAll
import Verif.Proofs.Steady
import Verif.Proofs.Strict
import Verif.Proofs.StrictMore
import Verif.Proofs.StrictSpec
import Verif.Proofs.StrictWF
import Verif.Proofs.TryEq
import Verif.Proofs.WTraverse
import Verif.Proofs.WTraverseEval
import Verif.Proofs.WideFacts
import Verif.Proofs.WideLink
import Verif.Proofs.WorldDrop
import Verif.Proofs.WorldEdit
import Verif.Proofs.WorldFacts
import Verif.Proofs.WorldInv
import Verif.Proofs.WorldOps
import Verif.Proofs.WorldStep
import Verif.Proofs.WorldStepEdit
import Verif.Proofs.WorldTok
import Verif.Proofs.WorldWide
import Verif.Props.Agree
import Verif.Props.Build
import Verif.Props.Builders
import Verif.Props.BuildersAt
import Verif.Props.Cascade
import Verif.Props.Clone
import Verif.Props.CloneInsert
import Verif.Props.CloseAny
import Verif.Props.Collect
import Verif.Props.Cost
import Verif.Props.Create
import Verif.Props.Data
import Verif.Props.Debug
import Verif.Props.Detach
import Verif.Props.Forward
import Verif.Props.Handles
import Verif.Props.Interrupt
import Verif.Props.Local
import Verif.Props.Locks
import Verif.Props.Loop
import Verif.Props.Loops
import Verif.Props.Machine
import Verif.Props.Macro
import Verif.Props.Move
import Verif.Props.MoveTotal
import Verif.Props.Nav
import Verif.Props.Own
import Verif.Props.Owners
import Verif.Props.Panicking
import Verif.Props.Pretty
import Verif.Props.Reach
import Verif.Props.Reads
import Verif.Props.Reentry
import Verif.Props.Replace
import Verif.Props.RootMove
import Verif.Props.Serial
import Verif.Props.Sink
import Verif.Props.Stale
import Verif.Props.Steady
import Verif.Props.Traverse
import Verif.Props.TraverseExact
import Verif.Props.Undo
import Verif.Props.WideBuild
import Verif.Props.WideDebug
import Verif.Props.WideGraft
import Verif.Props.WideHandles
import Verif.Props.WideLoops
import Verif.Props.WideMacro
import Verif.Props.WidePanicking
import Verif.Props.WideReads
import Verif.Props.WideTree
import Verif.Spec.Build
import Verif.Spec.Cascade
import Verif.Spec.Cursor
import Verif.Spec.Data
import Verif.Spec.Debug
import Verif.Spec.Handles
import Verif.Spec.Iter
import Verif.Spec.Loops
import Verif.Spec.Machine
import Verif.Spec.Macro
import Verif.Spec.Move
import Verif.Spec.Nav
import Verif.Spec.Owners
import Verif.Spec.Pretty
import Verif.Spec.RTree
import Verif.Spec.Reads
import Verif.Spec.Reentry
import Verif.Spec.Serial
import Verif.Spec.Shape
import Verif.Spec.Sink
import Verif.Spec.Steady
import Verif.Spec.Wide
import Verif.Spec.World
