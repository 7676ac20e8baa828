import Verif.Common
import Verif.FST.Props
import Verif.FST.HeapProps
import Verif.FST.TreeHeapProps
import Verif.FST.WidthProps
import Verif.FST.Tests
import Verif.SegTree.Props
import Verif.SegTree.Tests
import Verif.SegTree.HeapProps
import Verif.SSMap.Props
import Verif.Trie.Props
import Verif.Trie.Kept
import Verif.Trie.KeptSpec
import Verif.Trie.KeptLemmas
import Verif.Trie.KeptCanon
import Verif.Trie.KeptProps
import Verif.Trie.Objects
import Verif.Trie.ObjectsSpec
import Verif.Trie.ObjectsProps
import Verif.Trie.Tests
import Verif.Packed.Props
import Verif.Packed.CopyProps
import Verif.Packed.CutProps
import Verif.Packed.Results
import Verif.Packed.Objects
import Verif.Packed.ObjectsSpec
import Verif.Packed.ObjectsProps
import Verif.Packed.StateProps
import Verif.Packed.Tests
import Verif.Mtv.Kernels
import Verif.Ddv.Props
import Verif.Mtv.SetImpl
import Verif.Mtv.Locate
import Verif.Mtv.RangeSingle
import Verif.Mtv.RangeMulti
import Verif.Mtv.EmptyLemmas
import Verif.Mtv.EraseMulti
import Verif.Mtv.InsertLemmas
import Verif.Mtv.AppendLemmas
import Verif.Mtv.Props
import Verif.Mtv.PairProps
import Verif.Mtv.SwapProps
import Verif.Mtv.CowProps
import Verif.Mtv.IterProps
import Verif.Quad.Props
import Verif.Quad.Tests
import Verif.Quad.Heap
import Verif.Quad.HeapLemmas
import Verif.Quad.HeapLemmas2
import Verif.Quad.HeapLemmas3
import Verif.Quad.HeapProps
import Verif.Quad.HeapRC
import Verif.Quad.HeapShape
import Verif.Quad.HeapCut
import Verif.Quad.HeapCut2
import Verif.Quad.HeapAttach
import Verif.Quad.HeapFind
import Verif.Quad.HeapInner
import Verif.Quad.HeapInner2
import Verif.Quad.HeapInner3
import Verif.Quad.HeapInner4
import Verif.Quad.HeapRemove
import Verif.Quad.HeapRemove2
import Verif.Quad.HeapStep
import Verif.Quad.HeapStep2
import Verif.Quad.NoUB
import Verif.Quad.HeapWorld
import Verif.Quad.HeapProps2
import Verif.Quad.Results
import Verif.Quad.ResultsLemmas
import Verif.Quad.ResultsProps
import Verif.RTree.Props
import Verif.RTree.Write
import Verif.RTree.WriteProps
import Verif.RTree.Entries
import Verif.RTree.EntriesProps
import Verif.RTree.Check
import Verif.RTree.Tests
import Verif.Mtm.Props
import Verif.Mtm.Equal
import Verif.Mtm.Tests
import Verif.Mtm.Objects
import Verif.Mtm.ObjectsSpec
import Verif.Mtm.ObjectsProps
import Verif.Coll.Props
import Verif.Coll.Change
import Verif.Aos.Same
import Verif.Aos.Props
import Verif.Aos.ManyProps
import Verif.Elem.Props
import Verif.Aos.Iter
import Verif.Aos.IterProps
