import Verif.Bounds
import Verif.Ops
import Verif.Cuts
import Verif.Kinds.Static
import Verif.Kinds.Dynamic
import Verif.Model.Seg
import Verif.Model.Set
import Verif.Theory.Seg
import Verif.Theory.SetAdd
import Verif.Theory.Canon
import Verif.Theory.SetOps
import Verif.Model.SetFun
import Verif.Theory.Lookup
import Verif.Theory.SetFun
import Verif.Theory.SetFlip
import Verif.Kinds.Classes
import Verif.Theory.Observe
import Verif.Spec
import Verif.Theory.SpecBridge
import Verif.Model.SetHistory
import Verif.Theory.SetHistory
import Verif.Props.Examples
import Verif.Props.Bounds
import Verif.Props.Intervals
import Verif.Props.Sets
import Verif.Model.SetExpr
import Verif.Theory.SetLaws
import Verif.Props.SetLaws
import Verif.Model.Compare
import Verif.Theory.Compare
import Verif.Model.MapQuery
import Verif.Theory.MapQuery
import Verif.Props.Compare
import Verif.Model.Map
import Verif.Theory.MapAdd
import Verif.Theory.MapSub
import Verif.Theory.MapErase
import Verif.Theory.MapInsert
import Verif.Model.MapFun
import Verif.Theory.MapFun
import Verif.Theory.MapOps
import Verif.Theory.MapFlip
import Verif.MapSpec
import Verif.Model.Functors
import Verif.Model.MapHistory
import Verif.Theory.MapHistory
import Verif.Theory.MapBridge
import Verif.Theory.MapPlain
import Verif.Props.Maps
import Verif.Props.MapOps
import Verif.Props.HintedAdd
import Verif.Model.MapExpr
import Verif.Theory.MapSeg
import Verif.Theory.MapLaws
import Verif.Theory.MapAlg
import Verif.Props.MapLaws
import Verif.Theory.MapColl
import Verif.Props.Collectors
import Verif.Model.Observers
import Verif.IterSpec
import Verif.Theory.Elements
import Verif.Theory.Extent
import Verif.Props.Observers
import Verif.Model.ElementMap
import Verif.ElementSpec
import Verif.Theory.ElementMap
import Verif.Theory.ElementOps
import Verif.Model.ElementHistory
import Verif.Theory.ElementHistory
import Verif.Props.ElementMap
import Verif.SimSpec
import Verif.Props.Simulation
import Verif.Model.Checked
import Verif.Theory.Checked
import Verif.Model.Machine
import Verif.Theory.Machine
import Verif.Props.Machine
import Verif.Props.MachineSize
import Verif.Model.Throw
import Verif.Theory.Throw
import Verif.Theory.ThrowSet
import Verif.Theory.ThrowMap
import Verif.Theory.ThrowMapIns
import Verif.Theory.ThrowMapRun
import Verif.ThrowSpec
import Verif.Props.Exceptions
import Verif.Model.Alias
import Verif.Theory.Alias
import Verif.Props.Alias
import Verif.Model.Tree
import Verif.Model.TreeSet
import Verif.Model.TreeMap
import Verif.Model.TreeFun
import Verif.Theory.Tree
import Verif.Theory.TreeSet
import Verif.Theory.TreeMap
import Verif.Theory.TreeFun
import Verif.IteratorSpec
import Verif.Props.Iterators
import Verif.BorderSpec
import Verif.Theory.Borders
import Verif.Theory.BordersSet
import Verif.Theory.BordersMap
import Verif.Props.Borders
import Verif.Model.Cost
import Verif.Model.CostFun
import Verif.CostSpec
import Verif.Theory.Cost
import Verif.Theory.CostAt
import Verif.Theory.CostFun
import Verif.Theory.CostUnion
import Verif.Props.Complexity
import Verif.Model.Extremes
import Verif.Theory.Extremes
import Verif.Props.Extremes
import Verif.Model.Morphism
import Verif.Theory.Morphism
import Verif.Props.Morphism
import Verif.Model.Program
import Verif.ProgSpec
import Verif.Theory.Program
import Verif.Theory.ProgramRun
import Verif.Props.Program
import Verif.OverlapSpec
import Verif.Model.Overlap
import Verif.Theory.Overlap
import Verif.Props.Overlap
import Verif.BitsetSpec
import Verif.Model.LargeBitset
import Verif.Theory.LargeBitset
import Verif.Props.LargeBitset
import Verif.RefSpec
import Verif.Model.ElementRef
import Verif.Theory.ElementRef
import Verif.Props.ElementRef
import Verif.OverloadSpec
import Verif.Model.Overload
import Verif.Theory.Overload
import Verif.Props.Overload
import Verif.StreamSpec
import Verif.Model.Stream
import Verif.Theory.Stream
import Verif.Props.Stream
import Verif.QuerySpec
import Verif.Model.CostQuery
import Verif.Theory.CostQuery
import Verif.Props.Queries
import Verif.InfixSpec
import Verif.Theory.Infix
import Verif.Props.Infix
import Verif.Model.CostInter
import Verif.Model.CostFlip
import Verif.Theory.CostInter
import Verif.Theory.CostFlip
import Verif.InterSpec
import Verif.Props.Intersections
import Verif.Props.Flips
import Verif.Theory.ElementLaws
import Verif.Props.ElementLaws
import Verif.Props.SubsetOrder
import Verif.Model.Aggregate
import Verif.Props.Aggregate
import Verif.Model.Search
import Verif.Theory.Search
import Verif.Props.Search
import Verif.NestSpec
import Verif.Theory.MapSets
import Verif.Props.SetMaps
import Verif.Model.Nest
import Verif.Props.Nested
import Verif.Kinds.Custom
import Verif.CustomSpec
import Verif.Props.Custom
import Verif.TwinSpec
import Verif.Theory.Twin
import Verif.Theory.TwinMap
import Verif.Theory.TwinSeg
import Verif.Props.Independence
import Verif.Kinds.Weak
import Verif.WeakSpec
import Verif.Props.Weak
import Verif.DenseSpec
import Verif.Props.Dense
import Verif.OverflowSpec
import Verif.Props.Overflow
import Verif.Model.OverflowInter
import Verif.Theory.OverflowInter
import Verif.Theory.OverflowFlip
import Verif.Props.OverflowInter
import Verif.Props.OverflowPrograms
import Verif.PointSpec
import Verif.Props.Point
import Verif.LawSpec
import Verif.Props.Laws
import Verif.Kinds.Raw
import Verif.StepSpec
import Verif.Model.Traits
import Verif.Theory.Raw
import Verif.Props.Steps
import Verif.Model.SizeType
import Verif.SizeSpec
import Verif.Props.SizeType
import Verif.Model.ElementExpr
import Verif.ElementLawSpec
import Verif.Props.ElementEquations
import Verif.Model.IntervalFn
import Verif.IntervalFnSpec
import Verif.Props.IntervalFns
import Verif.KeepSpec
import Verif.Props.KeptEquations
