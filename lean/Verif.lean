import Verif.Model.HexAxial
import Verif.Model.HexOffset
import Verif.Model.DoubleCoord
import Verif.Model.Iter
import Verif.Spec
import Verif.Props.Build
import Verif.Props.Nodes
import Verif.Props.Edges
import Verif.Props.History
import Verif.Props.Hints
import Verif.Props.Memory
import Verif.Props.Geometry
import Verif.Props.AxialLoop
import Verif.Props.FlatTop
import Verif.Props.Stored
import Verif.Props.DoubleMoves
import Verif.Props.Double
import Verif.Props.DoubleBase
import Verif.Props.Axes
import Verif.Props.Hex2d
import Verif.Props.Walks
import Verif.Props.Distance
import Verif.Props.EdgeCount
import Verif.Props.Uninit
import Verif.Props.Unchecked
import Verif.Props.Directed
import Verif.Model.Search
import Verif.Props.Search
import Verif.Props.Dijkstra
import Verif.Props.LegacyDirs
import Verif.Props.LegacyBuild
import Verif.Props.LegacyEdges
import Verif.Props.LegacyDist
import Verif.Props.LegacyHistory
import Verif.Props.LoopSearch
import Verif.Props.Unwind
import Verif.Props.StoredNodes
import Verif.Props.DoubleSearch
import Verif.Model.LegacySearch
import Verif.Props.LegacySearch
import Verif.Model.LegacyUnwind
import Verif.Props.LegacyUnwind
import Verif.Props.Custom
import Verif.Props.AnyShape
import Verif.Model.Defaults
import Verif.Props.Defaults
import Verif.Props.Replace
import Verif.Props.Contract
import Verif.Props.ZeroSized
import Verif.Model.Astar
import Verif.Lemmas.Astar
import Verif.Props.Astar
import Verif.Props.LegacyAstar
import Verif.Props.LegacyAstarLoop
import Verif.Model.Whole
import Verif.Lemmas.Whole
import Verif.Lemmas.Components
import Verif.Props.Floyd
import Verif.Props.Components
import Verif.Lemmas.Indexed
import Verif.Model.LegacyWhole
import Verif.Props.LegacyWhole
import Verif.CrateTests
import Verif.Props.Equality
import Verif.Model.Bipartite
import Verif.Lemmas.Bipartite
import Verif.Props.Bipartite
import Verif.Props.LegacyBipartite
import Verif.Props.LegacyLoop
import Verif.Props.Forward
import Verif.Props.AnyVisit
import Verif.Model.Spanning
import Verif.Lemmas.Spanning
import Verif.Props.Spanning
import Verif.Props.LegacySpanning
import Verif.Props.LegacyRaw
import Verif.Model.Raw
import Verif.Props.RawGraph
import Verif.Props.VisEq
import Verif.Props.RefEq
import Verif.Props.LegacyRefEq
import Verif.Model.Scc
import Verif.Lemmas.Scc
import Verif.Lemmas.Topo
import Verif.Props.Scc
import Verif.Props.LegacyScc
import Verif.Model.Format
import Verif.Props.Format
import Verif.Props.Symmetry
import Verif.Model.Caught
import Verif.Props.Caught
import Verif.Model.LegacyCaught
import Verif.Props.LegacyCaught
import Verif.Props.LegacyRing
import Verif.Props.LegacyAstarUnit
import Verif.Model.Alloc
import Verif.Props.Alloc
import Verif.Model.LegacyAlloc
import Verif.Props.LegacyAlloc
import Verif.Props.Orders
import Verif.Props.LegacyOrders
import Verif.Props.LegacySymmetry
import Verif.Model.Filtered
import Verif.Lemmas.Filtered
import Verif.Props.Filtered
import Verif.Props.LegacyFiltered
import Verif.Model.General
import Verif.Lemmas.General
import Verif.Props.General
import Verif.Props.LegacyGeneral
import Verif.Model.Bellman
import Verif.Lemmas.Bellman
import Verif.Props.Bellman
import Verif.Props.LegacyBellman
import Verif.Props.Ascending
import Verif.Props.LegacyAscending
import Verif.Props.AxisFaults
import Verif.Model.Reversed
import Verif.Props.Reversed
import Verif.Props.Diameter
import Verif.Model.Cliques
import Verif.Lemmas.Cliques
import Verif.Props.Cliques
import Verif.Model.Paths
import Verif.Lemmas.Paths
import Verif.Props.Paths
import Verif.Props.LegacyPaths
import Verif.Lemmas.Cut
import Verif.Props.Cut
import Verif.Props.LegacyCut
import Verif.Model.Events
import Verif.Lemmas.Events
import Verif.Props.Events
import Verif.Props.LegacyEvents
import Verif.Model.Tarjan
import Verif.Lemmas.Tarjan
import Verif.Props.Tarjan
import Verif.Props.LegacyTarjan
import Verif.Model.TopoWalk
import Verif.Props.TopoWalk
import Verif.Props.LegacyTopoWalk
import Verif.Model.Spfa
import Verif.Lemmas.Spfa
import Verif.Props.Spfa
import Verif.Props.LegacySpfa
import Verif.Model.KShortest
import Verif.Lemmas.KShortest
import Verif.Props.KShortest
import Verif.Props.LegacyKShortest
import Verif.Model.Prim
import Verif.Lemmas.Prim
import Verif.Props.Prim
import Verif.Props.LegacyPrim
import Verif.Model.Articulation
import Verif.Lemmas.Articulation
import Verif.Props.Articulation
import Verif.Props.LegacyArticulation
import Verif.Props.Dsatur
import Verif.Props.LegacyDsatur
import Verif.Props.Matching
import Verif.Props.MatchingSquare
import Verif.Props.LegacyMatchingWalk
import Verif.Props.Dominators
import Verif.Props.LegacyDominators
import Verif.Props.DominatorsRow
import Verif.Props.LegacyDominatorsRow
import Verif.Props.LegacyDegree
import Verif.Props.LegacyMatching
