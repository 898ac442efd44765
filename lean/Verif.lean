import Verif.Model.Basic
import Verif.Model.Circular
import Verif.Proof.Basic
import Verif.Proof.Circular
import Verif.Model.SizeTable
import Verif.Proof.SizeTable
import Verif.Model.Node
import Verif.Model.Abs
import Verif.Proof.Node
import Verif.Proof.Node2
import Verif.Model.Vector
import Verif.Proof.Spine
import Verif.Proof.PushPop
import Verif.Proof.Lookup
import Verif.Proof.Append
import Verif.Proof.SplitOff
import Verif.Proof.Compound
import Verif.Model.Focus
import Verif.Spec
import Verif.Proof.Built
import Verif.Proof.CircularIter
import Verif.Proof.Focus
import Verif.Model.FocusMut
import Verif.Proof.FocusMut
import Verif.Proof.Cells
import Verif.Proof.Places
import Verif.Proof.FocusMutExact
import Verif.Proof.Pieces
import Verif.Props.Pieces
import Verif.Model.Search
import Verif.Proof.Search
import Verif.Model.Sort
import Verif.Proof.SortList
import Verif.Proof.Sort
import Verif.Proof.SortVec
import Verif.Proof.SortAny
import Verif.Proof.Full
import Verif.History
import Verif.Proof.Safe
import Verif.Proof.Dense
import Verif.Proof.DenseSplit
import Verif.Proof.Tall
import Verif.Model.Annotated
import Verif.Model.AnnotatedJoin
import Verif.Proof.Annotated
import Verif.Proof.AnnotatedJoin
import Verif.Proof.AnnotatedSum
import Verif.Model.AnnotatedFocus
import Verif.Model.AnnotatedSort
import Verif.AnnotatedHistory
import Verif.Proof.AnnotatedFocus
import Verif.Proof.AnnotatedSort
import Verif.Proof.AnnotatedHistory
import Verif.Proof.AnnotatedAddr
import Verif.Proof.AnnotatedRests
import Verif.Proof.AnnotatedFlat
import Verif.Proof.AnnotatedFlatFocus
import Verif.Proof.AnnotatedFlatSort
import Verif.Proof.AnnotatedFlatShare
import Verif.Props.Vector
import Verif.Props.Buffer
import Verif.Props.Focus
import Verif.Props.FocusMut
import Verif.Props.Search
import Verif.Props.Sort
import Verif.Props.History
import Verif.Props.Safety
import Verif.Props.Height
import Verif.Props.Annotated
import Verif.Axioms
import Verif.Model.Heap
import Verif.Proof.Heap
import Verif.Proof.HeapNat
import Verif.Proof.HeapKeep
import Verif.Model.Threads
import Verif.Proof.HeapRuns
import Verif.Proof.HeapSim
import Verif.Proof.HeapNode
import Verif.Model.HeapVec
import Verif.Proof.HeapVec
import Verif.Proof.HeapJoin
import Verif.Proof.HeapFocus
import Verif.Proof.HeapPath
import Verif.Proof.HeapFocusMut
import Verif.Model.HeapSort
import Verif.Proof.HeapWindow
import Verif.Proof.HeapSort
import Verif.HeapHistory
import Verif.Proof.HeapEdit
import Verif.Proof.HeapHistory
import Verif.Model.HeapFocusMut
import Verif.Model.HeapFocus
import Verif.HeapSpec
import Verif.Proof.HeapGarbage
import Verif.Props.Clone
import Verif.Proof.HeapAlong
import Verif.Proof.HeapSolo
import Verif.Props.Cost
import Verif.Proof.HeapItems
import Verif.Props.Memory
import Verif.Props.Allowance
import Verif.Model.Steps
import Verif.Proof.Steps
import Verif.Proof.StepsVec
import Verif.Proof.StepsLow
import Verif.Proof.StepsWork
import Verif.Proof.StepsCalls
import Verif.Props.Steps
import Verif.Model.SortUnwind
import Verif.Proof.SortUnwind
import Verif.Props.Unwind
import Verif.Model.SearchAsk
import Verif.Proof.SearchAsk
import Verif.Props.Asking
import Verif.Proof.SortCalls
import Verif.Props.SortCalls
import Verif.Model.CloneUnwind
import Verif.Proof.CloneUnwind
import Verif.Props.CloneUnwind
import Verif.Model.CloneUnwindCut
import Verif.Proof.CloneUnwindCut
import Verif.Props.CloneUnwindCut
import Verif.Model.Interrupted
import Verif.Proof.Sound
import Verif.Proof.SoundCalls
import Verif.Proof.Interrupted
import Verif.Props.Interrupted
import Verif.Proof.Space
import Verif.Proof.DenseCalls
import Verif.Props.Space
import Verif.Props.StepsDense
import Verif.ThreadSpec
import Verif.Proof.HeapLend
import Verif.Proof.LendCall
import Verif.Proof.Threads
import Verif.Props.Threads
import Verif.MessageSpec
import Verif.Proof.Messages
import Verif.Props.Messages
import Verif.Model.DropUnwind
import Verif.Proof.DropUnwind
import Verif.Props.DropUnwind
import Verif.Model.RcThreads
import Verif.Proof.RcThreads
import Verif.Props.RcThreads
import Verif.Proof.Reads
import Verif.Props.Reads
