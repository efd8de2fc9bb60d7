p("C57","storage is exact even on the shapes with wrong moves",
  "On every built-in shape, including the flat-top offset, looped axial and double-coordinate shapes whose moves violate C31-C34, new_with calls the closures once per node and once per edge announced by move_coord, and node_weight, edge_weight, node_references and edge_references then agree with those values (and with later writes), reading only initialised memory. (On the double-coordinate shape for coordinates of the right parity; the others are in C34.)",
  "all shapes, sizes, closures, reachable states","uninitialised reads need not show in a test run",
  [LA+"mod.rs: new_with, node_weight, edge_weight", LA+"edges.rs: EdgeReferences", LA+"nodes.rs: NodeReferences"])
p("C58","edges(n) reads only initialised weights on every shape",
  "On every built-in shape, iterating edges(n) of a node n yields one reference per neighbour without reading uninitialised memory.",
  "all shapes, sizes, nodes, reachable states","uninitialised reads need not show in a test run",
  [LA+"edges.rs: Edges::next", "src/hex/offset_based/shapes.rs: move_coord_q, move_coord_q_lew"])
p("C59","hop distance equals the lattice metric",
  "The least number of neighbors steps between two nodes is the Manhattan distance on square shapes, the Chebyshev distance with diagonals, the hexagonal distance on point-top offset and on axial shapes (for every parity, also in the sheared rectangles of axial maps and for width or height 1), and the hexagonal distance with the shorter way round on LoopEW offset shapes; directed variants have the same distances.",
  "all sound shapes, sizes, pairs of nodes","all pairs of all sizes; borders and parity decide whether a geodesic leaves the map",
  [LA+"neighbors.rs: Neighbors::next", LA+"square.rs: move_coord", "src/hex/offset_based/shapes.rs: move_coord_r, move_coord_r_lew", "src/hex/axial_based/shapes.rs: move_coord"])
p("C60","the number of edges is the closed form of the lattice",
  "edge_references yields, and new_with called the edge closure, exactly h(w-1)+(h-1)w times on a w x h square graph, 2(h-1)(w-1) more with diagonals, h(w-1)+(h-1)(2w-1) times on point-top hexagons in offset or axial coordinates (w and h exchanged for flat-top axial maps), hw+2(h-1)w on LoopEW offset shapes, and twice that on directed shapes; zero for empty graphs.",
  "all sound shapes and sizes, all reachable states","an off-by-one at a border or row parity only shows at particular sizes",
  [LA+"mod.rs: new_with", LA+"edges.rs: EdgeReferences"])
p("C61","the public moves of DoubleCoordShapeBase are exact in the doubled rectangle",
  "For OddR and OddQ, DoubleCoordShapeBase::move_coord(c, dir, h_max, v_max) with c inside the bounds succeeds iff the coordinate displaced by the direction's doubled vector ((+-2,0), (+-1,+-1) point-top; (0,+-2), (+-1,+-1) flat-top) is inside the bounds, and returns it; the opposite direction leads back; h+v keeps its parity. Passing 2h as h_max would make DoubleCoordShape satisfy C34.",
  "all bounds (below usize::MAX), coordinates, directions","borders of every size",
  ["src/hex/double_coord/shapes.rs: move_coord_r, move_coord_q"])
p("C62","the unchecked accessors agree with the checked ones",
  "Wherever to_offset, move_coord, node_weight, edge_weight, node_weight_mut or edge_weight_mut succeed, the corresponding unsafe unchecked variants (and the raw ones taking a storage position) return the same value, respectively leave the same graph, on every shape and in every reachable state.",
  "all shapes, sizes, coordinates, directions, reachable states","each shape overrides the unchecked variants separately; a divergence shows only at the coordinates tried",
  [LA+"shapes.rs: to_offset_unchecked, move_coord_unchecked", LA+"mod.rs: node_weight_unchecked, edge_weight_unchecked_raw, edge_weight_mut_unchecked", "src/hex/axial_based/shapes.rs: to_offset_unchecked, move_coord_unchecked"])
p("C63","is_directed tells whether the two directions share a weight",
  "is_directed() is false exactly for the graphs where, in every reachable state, the edge from a to b seen by edges(a) and the edge from b to a seen by edges(b) have the same weight; where it is true, the two weights can be set independently through edge_weight_mut.",
  "all sound shapes with an edge, reachable states, edge types with two values","petgraph algorithms trust this flag; a wrong flag shows only in particular states",
  [LA+"mod.rs: EdgeTypeWrap::is_directed, GraphProp", LA+"shapes.rs: Axis::DIRECTED", LA+"edges.rs: Edges::next"])
p("C64","breadth-first and depth-first search return every node exactly once",
  "petgraph's Bfs and Dfs, run from any node on neighbors and the visit map, never fault, terminate, return every node exactly once with the start first, and Bfs returns the nodes in the order of their distance (least number of neighbors steps) from the start.",
  "all sound shapes, sizes, start nodes, reachable states","the result depends on neighbors and the visit map together on every node of every size",
  [LA+"neighbors.rs: Neighbors::next", LA+"mod.rs: VisMap::visit, is_visited, visit_map"])
p("C65","Dijkstra's algorithm over edges returns least costs",
  "petgraph's dijkstra without a goal, run from any node with any natural-number edge cost, never faults, terminates within 9 times the number of nodes plus one turns whatever entry of least score the heap returns, and ends with exactly the nodes scored, each with the least total cost of a walk along edges().",
  "all sound shapes, sizes, reachable states, costs, start nodes, heap orders","the result depends on edges and the visit map together on every node of every size",
  [LA+"edges.rs: Edges::next", LA+"mod.rs: VisMap::visit, is_visited, visit_map"])
p("C66","Legacy directions and unchecked edge names",
  "SquareDirection and (Axis, bool) convert into each other without loss, up/down/left/right and is_horizontal/is_vertical mean what they say, NodeIndex::up etc. make that displacement, and get_edge_id_unchecked (also reached from safe code through From<(NodeIndex, SquareDirection)>) names the edge to the neighbour in that direction.",
  "all sizes, loops, index types, nodes and directions","the unchecked name goes wrong only at the border cells of a particular size and build",
  ["src/square/index.rs: SquareDirection, NodeIndex::get_edge_id_unchecked, NodeIndex::up, down, left, right, From<(NodeIndex, SquareDirection)> for EdgeIndex"])
p("C67","Legacy edge totals",
  "edge_references() of a legacy h x v graph yields exactly (h or h-1)*v + h*(v or v-1) edges (the full side if looped), the numbers of items of edges(n) over all nodes sum to twice that, and new_edge_graph calls its closure exactly once for each of them and stores the results.",
  "all sizes, loops, index types, weights","a total over an unbounded grid cannot be tested for every size",
  ["src/square/edges.rs: EdgeReferences::next, Edges::next", "src/square/mod.rs: new_edge_graph, new_with"])
p("C68","searches on the shapes whose moves may leave the graph",
  "Also on OddQ/EvenQ offset shapes (plain, directed, LoopEW) and LoopEW axial shapes, whose neighbors may name coordinates outside the graph or miss some, petgraph's Bfs and Dfs never fault, terminate, return every node exactly once and nothing else, the start first; Bfs in the order of the least number of neighbors steps inside the graph. (On the double-coordinate shape: every node within reach, see C72.)",
  "all modelled shapes, all sizes, start nodes, reachable states","whether an off-graph coordinate is ever returned or stops the search depends on every border cell of every size",
  [LA+"neighbors.rs: Neighbors::next", LA+"mod.rs: VisMap::visit, is_visited", "src/hex/offset_based/shapes.rs: move_coord", "src/hex/axial_based/shapes.rs: move_coord"])
p("C69","Dijkstra on the shapes whose moves may leave the graph",
  "petgraph's dijkstra, run from any node with any costs on those same shapes, is always completed and returns the least costs.",
  "all modelled shapes, all sizes, start nodes, reachable states, costs, heap orders","a fault needs a walk to a particular border cell",
  [LA+"edges.rs: Edges::next, edges", LA+"mod.rs: VisMap::visit, is_visited", "src/hex/offset_based/shapes.rs: move_coord", "src/hex/axial_based/shapes.rs: move_coord"])
p("C70","new_with with a closure that panics",
  "If a closure given to new_with panics at some call, new_with has made the calls of C01 in order up to that one and makes no other, the values already returned are each in the slot of their call, every other slot is unwritten, and unwinding is free of undefined behaviour because the arrays hold MaybeUninit (as arrays of the weights it would run a destructor on an unwritten slot). If no call panics it returns what C01 says.",
  "all modelled shapes, all sizes, closures with any state, any panicking call","which slots are written when a call panics depends on the call and the shape",
  [LA+"mod.rs: LatticeGraph::new_with, new_uninit, Drop"])
p("C71","node numbering, node iteration and adjacency on the shapes whose moves may leave the graph",
  "Also on OddQ/EvenQ offset shapes, LoopEW axial shapes and (but for adjacency, see C34) double-coordinate shapes, node_count is the product of the sides, to_index/from_index are inverse bijections and to_index panics off the graph, node_identifiers yields every node once in index order, new_with makes each call once, is_adjacent(a,b) says whether neighbors(a) yields b, and get_direction(a,b) is a direction that leads from a to b whenever there is one.",
  "all modelled shapes, all sizes, coordinates, reachable states","the moves of these shapes are wrong on some borders, so what still holds has to be shown for every cell",
  [LA+"mod.rs: NodeIndexable, NodeCount, IntoNodeIdentifiers, GetAdjacencyMatrix", LA+"nodes.rs: NodeIndices::next", LA+"shapes.rs: get_direction, is_neighbor"])
p("C72","which nodes a search finds on a double-coordinate map",
  "On DoubleCoordShape<OddR>(h, v), petgraph's Bfs and Dfs from a node a never fault, terminate and return exactly once each the nodes c with c.h < h (none by this rule if h = 1) or |c.v - a.v| <= a.h - c.h; so on every map of more than one node some node is missed from every western start. petgraph's dijkstra can be completed exactly from the nodes with a.h < h.",
  "all sizes, start nodes, reachable states, costs","which nodes are out of reach depends on the size and the start; the faulting reads need not crash",
  ["src/hex/double_coord/shapes.rs: move_coord_r", LA+"neighbors.rs: Neighbors::next", LA+"edges.rs: Edges::next", LA+"mod.rs: VisMap"])
p("C73","Legacy graph: breadth-first, depth-first search and Dijkstra",
  "petgraph's Bfs, Dfs and dijkstra, run from any node of a SquareGraph whose sides fit its index type, never fault and terminate; Bfs and Dfs return every node exactly once, the start first, Bfs in order of distance; dijkstra ends, whatever entry of least score the heap returns, within 5 times the number of nodes plus one turns with exactly the nodes scored, each with the least total cost of a walk along edges().",
  "all sizes, loops, index types, start nodes, costs, heap orders","the result depends on neighbors, edges and the visit map together on every node of every size",
  ["src/square/neighbors.rs: Neighbors::next", "src/square/edges.rs: Edges::next", "src/square/mod.rs: VisMap, Visitable"])
p("C74","Legacy new_with with a closure that panics",
  "If a closure given to SquareGraph::new_with panics, or new_with itself panics for the sides it was given, every value the closures had returned is dropped exactly once and nothing else is; the calls made are those of the undisturbed run up to the first panic. If nothing panics, the values are in the graph in the order of the calls. With closures that do not panic the result is that of C43.",
  "all sizes (accepted or not), loops, index types, builds, closures with any state, any panicking call","leaks and double drops need a destructor with effects and a panic at a particular call",
  ["src/square/mod.rs: SquareGraph::new_with, new_raw"])
p("C75","a lattice written by a user of the crate",
  "For every implementation of the traits whose methods agree with some lattice (positions, moves that can be undone, axis and direction numbers), not only the built-in ones, new_with followed by any sequence of weight changes refines a map from nodes and edges to weights, neighbors and node_identifiers list what the lattice says, and petgraph's Bfs, Dfs and dijkstra are complete and correct. A torus, written with the crate's Direction<T>, is such an implementation for every size; its graph is connected and has exactly 2*h*v edges.",
  "all implementations obeying the laws, all sizes, closures with any state, programs, start nodes, costs","user implementations do not exist yet",
  [LA+"shapes.rs: trait Shape, trait Axis, Direction<T>", LA+"mod.rs: LatticeGraph", LA+"edges.rs: Edges::next", LA+"neighbors.rs: Neighbors::next"])
p("C76","a lattice written wrongly by a user of the crate",
  "Shape, Axis and AxisDirection are safe traits, so no implementation of them in safe code, however wrong, may lead to undefined behaviour in new_with, node_weight, node_weight_mut, edge_weight, edge_weight_mut or edges.",
  "all implementations in safe code, all sizes, closures, coordinates, reachable states","the set of implementations is not enumerable, and undefined behaviour need not be visible",
  [LA+"shapes.rs: trait Shape, trait Axis", LA+"mod.rs: LatticeGraph::new_with, node_weight, node_weight_mut, edge_weight, edge_weight_mut", LA+"edges.rs: Edges::next"])
p("C78","new, Default and the const-size constructors",
  "new puts the default node weight on every node and the default edge weight on every edge and nothing else, and panics exactly on the sizes ndarray rejects; new_s, default, new_with_s and new_uninit_s do what new, new_with and new_uninit do for the default value of the shape; that value has sides H and V for the const-size shapes and sides 0 for SquareShape, whose default graph is empty and answers every question about any coordinate accordingly.",
  "all modelled shapes, all sizes, H and V, markers, weights, closures with any state","every size and every node of it would have to be built; the const-size constructors are separate monomorphisations",
  [LA+"mod.rs: new, new_s, new_with_s, new_uninit_s, Default", LA+"square.rs: SquareShape (derive Default)", "src/hex/offset_based/shapes.rs: Default for ConstHexOffsetShape", "src/hex/axial_based/shapes.rs: Default for ConstHexAxialShape", "src/hex/double_coord/shapes.rs: Default for ConstDoubleCoordShape"])
p("C79","orders and pair conversions of coordinates",
  "The derived order of Offset, SquareOffset, HexOffset and of the legacy NodeIndex is the order of the node indices of any graph (so a sorted list of coordinates is in to_index order), and so is the order of axial coordinates under a flat-top marker; under the point-top markers and for double coordinates it is not, on any map with three rows or more. Conversions between coordinates and pairs lose nothing, except that a legacy NodeIndex made from a pair equals the pair exactly if both parts fit the index type. The derived orders are total orders in which only equal coordinates compare equal, and those of the eight axis types and their directions are the orders of to_index and dir_to_index.",
  "all modelled shapes, all sizes, pairs of nodes, index types","an order is a statement about all pairs of nodes of all sizes",
  [LA+"shapes.rs: Offset (derive Ord), From<(T, T)>", LA+"square.rs: PartialEq and From between SquareOffset and pairs", "src/hex/axial_based/shapes.rs: HexAxial (derive Ord)", "src/hex/double_coord/shapes.rs: DoubleCoord (derive Ord)", "src/square/index.rs: NodeIndex (derive Ord), From, PartialEq"])
p("C77","LatticeGraph<SquareShape> replaces the deprecated SquareGraph",
  "A legacy SquareGraph without loops and a LatticeGraph<SquareShape> built from the same functions on the same sizes agree on every node and edge weight; any program of reads, writes and iterations returns the same on both (edges(n) and neighbors(n) up to order), and leaves them agreeing; node count, node order and node indices coincide. They differ in this: the closures are called in another order as soon as there are two nodes, and a side of length 0 makes the old constructor panic and the new one return an empty graph.",
  "all sizes, weights, index types that hold the sides, programs of any length, nodes","equivalence of two implementations over all programs and sizes; a test compares single values",
  ["src/square/mod.rs: SquareGraph::new_with, node_weight, edge_weight, node_weight_mut, edge_weight_mut", "src/square/edges.rs", "src/square/nodes.rs", LA+"square.rs: SquareShape", LA+"mod.rs: LatticeGraph", LA+"edges.rs", LA+"nodes.rs"])
p("C80","a memory-safety contract for implementations of Shape and Axis",
  "The traits Shape and Axis are safe, so anyone may implement them, yet an implementation can make safe calls undefined behaviour (C76). The following is enough: the methods written in safe code do not misbehave themselves; positions returned by to_offset are in the storage and belong to the coordinate, and offset_to_coordinate and to_offset_unchecked agree with it; axis numbers are below COUNT and lead back to the axis; a forward direction numbered i is the forward direction of axis i, a backward one numbered i belongs to axis i - COUNT and every move in it ends on a cell with a forward move along that axis; with directed axes the same for the slot edges_directed(Incoming) reads. Then construction, weights, node_references, neighbors, edges, edges_directed and edge_references are never undefined behaviour on recognised coordinates. Moves need not form a lattice. For an arbitrary shape an edge iterator reads uninitialised or foreign memory exactly if the slot it computes is not one new_with filled.",
  "all shapes whatsoever, sizes, weights, closures, histories of safe writes, iterator states, both build modes","quantifies over all implementations of the traits, which do not exist yet",
  [LA+"shapes.rs: Shape, Axis, AxisDirection", LA+"mod.rs: new_with, node_weight, edge_weight, edge_weight_unchecked_raw", LA+"edges.rs: Edges, EdgeReferences, DtMarker", LA+"nodes.rs: NodeReferences", LA+"neighbors.rs: Neighbors"])
p("C81","graphs with zero-sized edge weights",
  "With an edge type of size zero, such as (), the slots of the edge arrays that belong to no edge are not uninitialised. Construction, reads and writes do what they do for other types. Clone, PartialEq and Hash, which are undefined behaviour for other types (C23), are right: a graph clones to itself, two graphs of one shape are equal exactly if all node weights agree, and the hash is fed the node weights and a fixed number of unit values. If the zero-sized type has a destructor, dropping a graph runs it twice per edge and once per slot without an edge.",
  "all modelled shapes, all sizes, node weights, closures, histories of writes","needs all sizes and histories; the derived code is instantiated per type",
  [LA+"mod.rs: new_with, assume_init, Drop, derive(Clone, PartialEq, Hash)", LA+"edges.rs: Edges, EdgeReferences"])
p("C82","A* over edges returns cheapest paths",
  "petgraph's astar, run on a LatticeGraph from any node with any natural-number edge cost, estimate and goal, never faults and terminates, whatever entry of least estimate the heap returns. It returns None exactly if no goal can be walked to; otherwise a path from the start to a goal along edges(). If the estimate never exceeds the cost of a walk to a goal, which the number of steps to the goal (C59) times the least edge cost does not, the cost returned is the least cost of a walk to a goal and is the cost of the returned path.",
  "all lawful shapes, sizes, reachable states, costs, estimates, goals, start nodes, heap orders","the tests run four searches on two small graphs; optimality quantifies over all walks",
  [LA+"edges.rs: Edges::next, edges, EdgeReference::target", LA+"square.rs: tests::astar", "benches/square_comparison.rs", "benches/bench_ndarray.rs"])
p("C83","legacy graph: A* with NodeIndex::distance as the estimate",
  "petgraph's astar on a SquareGraph never faults and terminates, returns None exactly if no node is a goal and otherwise a path to a goal. With distance() to the goal times a lower bound of the edge costs as the estimate, as in the crate's own test, the returned path is a cheapest one on every SquareGraph.",
  "all sizes, loops, index types, costs, start and goal nodes, heap orders","the test has no loop; optimality quantifies over all walks",
  ["src/square/index.rs: NodeIndex::distance", "src/square/edges.rs: Edges::next, edges, EdgeReference::target", "src/square/tests.rs: astar"])
p("C84","floyd_warshall returns all least costs",
  "petgraph's floyd_warshall, run on a LatticeGraph with any natural-number cost of the edge weights, never faults. It reads edge_references(), to_index, node_identifiers() and is_directed(), not edges(), yet the entry for a pair of nodes is the least total cost of a walk along edges() from the one to the other, and the maximum exactly if there is none, which does not happen on the shapes of the crate. With every edge at cost one the entries are the least numbers of steps (C59).",
  "all lawful shapes, directed and undirected, sizes, reachable states, costs, pairs of nodes","relates two enumerations of the edges over all walks; no test runs it",
  [LA+"edges.rs: EdgeReferences::next, edge_references", LA+"nodes.rs: NodeIndexable, NodeCompactIndexable, node_identifiers", LA+"mod.rs: EdgeTypeWrap::is_directed, GraphProp"])
p("C85","connected components and cycles",
  "petgraph's connected_components and is_cyclic_undirected never fault on a LatticeGraph. The first returns the number of classes of nodes joined by edges(): one for every nonempty shape of the crate. The second returns true exactly if some edge of edge_references() joins what the others join without it, that is unless edges and components together are as many as the nodes; so exactly if there are at least two rows and two columns for undirected square and hexagonal graphs, always for cylinders, and for directed graphs as soon as there is an edge.",
  "all lawful shapes, sizes, reachable states","counting components and edges of all sizes at once",
  [LA+"edges.rs: EdgeReferences::next, edge_references", LA+"nodes.rs: NodeIndexable"])
p("C86","legacy graph: floyd_warshall, connected components and cycles",
  "On every SquareGraph petgraph's floyd_warshall, connected_components and is_cyclic_undirected never fault. The entry for two nodes is the least total cost of a walk along edges() between them; there is one component; there is a cycle exactly if the graph is looped in a direction or has at least two rows and two columns, where a loop of length one or two counts as one.",
  "all sizes, loops, index types, costs, pairs of nodes, histories of writes","relates two enumerations of the edges over all walks and sizes; no test runs them",
  ["src/square/edges.rs: EdgeReferences::next, edge_references", "src/square/nodes.rs: node_identifiers, NodeIndexable", "src/square/mod.rs: GraphProp"])
p("C87","bipartiteness",
  "petgraph's is_bipartite_undirected, run on a LatticeGraph from any node, terminates without a panic (its own assertions on the visit maps included) and answers true exactly if every closed walk along neighbors() has even length, equivalently if the nodes around the start can be given two colours that neighbors() always changes. So it answers true on every square graph; on square graphs with diagonals and on offset and axial hexagonal maps exactly if there is one row or one column; on the east-west loop exactly if there is one row of even length; on a user's torus exactly if both sides are even.",
  "all lawful shapes, sizes, reachable states, start nodes","all sizes and closed walks of all lengths; no test runs it",
  [LA+"neighbors.rs: NeighborsIter, neighbors", LA+"mod.rs: VisitMap, Visitable"])
p("C88","legacy graph: bipartiteness",
  "On every SquareGraph petgraph's is_bipartite_undirected terminates without a panic and answers true exactly if every closed walk along neighbors() has even length, that is exactly if each looped side is even.",
  "all sizes, loops, index types, start nodes, histories of writes","all sizes and closed walks of all lengths; no test runs it",
  ["src/square/neighbors.rs: Neighbors::next, neighbors", "src/square/mod.rs: VisMap, Visitable"])
p("C89","is_forward and is_backward of a direction",
  "The deprecated AxisDirection::is_forward says of a direction whether it is the forward direction of its axis, agreeing with Axis::is_forward_direction, and is_backward says the opposite, for every axis and direction of the crate and for Direction<T> over any axis.",
  "all axes of the crate, all directions, any user axis for Direction<T>","no test calls them; the blanket impl is chosen by the Direction type, not by the axis",
  [LA+"shapes.rs: AxisDirection::is_forward, is_backward, is_forward_direction, Direction<T>"])
p("C90","visit map, neighbours and indices of any shape",
  "For any implementation of Shape, lawful or not, a visit map is a set of storage positions: over any program of visit, is_visited, unvisit and reset_map calls (a caught panic included) each answer is that of the set; if to_offset returns, visit and unvisit panic exactly if the position lies outside the map and is_visited exactly if its column does, and then leave the set as it was; two coordinates with one position are one to the map. If the implementation is in safe code, no such program, and no call of to_index, from_index, node_count or node_identifiers, is undefined behaviour, nor are neighbors and get_direction if every number below UNDIRECTED_COUNT is that of a direction; running through neighbors is undefined behaviour exactly if it comes, all moves before having returned, to a number that is not, which a wrong COUNT in safe code brings about.",
  "all shapes without any law, all programs of calls","a test runs the shapes of the crate only; the claim covers every implementation and every history",
  [LA+"mod.rs: VisMap, VisitMap, Visitable", LA+"neighbors.rs: NeighborsIter::next", LA+"nodes.rs: NodeIndices::next", LA+"shapes.rs: Shape::to_index, index_to_coordinate, get_direction"])
p("C91","minimum spanning trees",
  "petgraph's min_spanning_tree, run on a LatticeGraph, never faults. It returns every node weight once, at the index to_index gives the node, and then edges of edge_references(), each at most once and by the indices of its ends: they join exactly the nodes edges() joins, contain no cycle, and no other choice of edges joining the same nodes costs less in total. There are as many of them as nodes less connected components, so nodes less one on every connected map; the total does not depend on the order in which the heap yields edges of equal weight.",
  "all lawful shapes, sizes, edge weights, reachable states, orders of equal weights","all weights and all competing sets of edges; no test runs it",
  [LA+"edges.rs: edge_references, EdgeReferences::next", LA+"nodes.rs: node_references, NodeIndexable"])
p("C92","legacy graph: minimum spanning trees",
  "On every SquareGraph petgraph's min_spanning_tree never faults. It returns every node weight once, at the index of its node, and then one edge fewer than there are nodes: edges of edge_references(), joining all nodes and without a cycle, of least total cost among all choices of edges that join all nodes.",
  "all sizes, loops, index types, edge weights, histories of writes, orders of equal weights","all weights and all competing sets of edges; no test runs it",
  ["src/square/edges.rs: EdgeReferences::next, edge_references", "src/square/nodes.rs: node_references, NodeIndexable"])
p("C93","legacy graph: new_raw and the whole arrays",
  "SquareGraph::new_raw keeps the three arrays it is given; in debug it returns exactly if their sides belong together (one edge fewer along an axis without a loop) and panics otherwise, in release it checks nothing. Arrays that belong together, with at least one node, are exactly the graphs new_with and weight writes can make, with the weights at [horizontal][vertical] (so all other properties hold of them), and replacing a whole array through nodes_mut, horizontal_mut or vertical_mut by one of the same sides changes those weights only. With arrays that do not belong together, edges(n) of a node gives each link with what edge_weight answers for it if edge_weight has an answer for all of them, and otherwise panics in debug and reads out of bounds in release.",
  "all arrays of any sides, all markers, index types, both build modes","the only use of new_raw in the repository is by new_with, with arrays that fit",
  ["src/square/mod.rs: new_raw, check_gen, nodes, horizontal, vertical, nodes_mut, horizontal_mut, vertical_mut", "src/square/edges.rs: Edges::next"])
p("C94","new_raw",
  "A graph LatticeGraph::new_raw makes of arrays with one slot per node (one array per axis for the edges), initialised at least where the shape has a node or an edge, holds the weights of the arrays column by column and answers every read, write and iteration as the graph new_with makes with these weights, wherever that is not undefined behaviour. If no slot is uninitialised, as in arrays made in safe code, cloning, comparing and hashing take all slots into account and never read uninitialised memory (which graphs of new_with do, C23), and dropping runs each node destructor once, that of an edge weight twice (the fault of C22) and that of a weight in a slot of no edge once.",
  "all storable shapes, lawful or not, all arrays of these sides, all histories of writes","nothing in the repository calls new_raw",
  [LA+"mod.rs: new_raw, shape, DataMap, DataMapMut, Drop, derive(Clone, PartialEq, Hash)", LA+"edges.rs: Edges::next, EdgeReferences::next", LA+"nodes.rs: NodeReferences::next", "src/square/edges.rs: Edges::next", "src/square/neighbors.rs: Neighbors::next"])
p("C95","equality of visit maps",
  "Two visit maps of one LatticeGraph, each after any sequence of visit, unvisit, is_visited and reset_map calls with any coordinates, are equal (derived ==) exactly if the same nodes are in the two sets; so a map equals a fresh one exactly if no node is visited. Two visit maps of legacy graphs are equal exactly if they have as many columns, columns (if any) as long, and the same nodes.",
  "all storable shapes, all pairs of histories; legacy: all pairs of sizes","no test compares visit maps",
  [LA+"mod.rs: VisMap derive(PartialEq)", "src/square/mod.rs: VisMap derive(PartialEq)"])
p("C96","equality and order of edge references",
  "References that edges(a) and edges(b) yield, in one graph or two of the same shape, are equal (derived ==) exactly if a = b, the direction is the same and the weights are equal. So no two references of one edges(a) are equal, even two that lead to the same node, and the references by which the two ends of an undirected edge see it are never equal though id and weight name one edge; each reference of edge_references() is found among edges of its source. The same holds for the legacy graph, whose edge_references() are moreover strictly increasing in the derived order. The derived orders of the legacy axes, directions, node and edge indices and references are total orders in which only equal values compare equal (for references: if the orders of the weights and sizes are).",
  "all lawful shapes, nodes, weights and weight equalities, histories; legacy: all sizes, loops, index types","no test compares references",
  [LA+"edges.rs: EdgeReference derive(PartialEq)", "src/square/edges.rs: EdgeReference derive(PartialEq, Ord)", "src/square/index.rs: EdgeIndex derive(Ord)"])
p("C97","strongly connected components",
  "petgraph's kosaraju_scc, run on a LatticeGraph, ends without a fault and its groups are the strongly connected components: every node is in exactly one group, and two nodes are in one group exactly if neighbors() leads from each to the other. On the legacy SquareGraph there is one group, holding every node once.",
  "all storable shapes, sizes, reachable states; legacy: all sizes, loops, index types","all sizes; kosaraju_scc relies on neighbors_directed(_, Incoming), which no test calls on a shape whose moves cannot be undone",
  [LA+"neighbors.rs: neighbors_directed, neighbors", LA+"mod.rs: VisMap, Visitable, reset_map", LA+"nodes.rs: node_identifiers", "src/square/neighbors.rs: neighbors_directed"])
p("C98","topological order",
  "petgraph's toposort, run on a LatticeGraph or SquareGraph, ends without a fault; if neighbors() has a closed walk it returns Err(Cycle), and otherwise an order of all nodes, each once, in which every neighbour comes later.",
  "all storable shapes, sizes, reachable states; legacy: all sizes, loops, index types","all sizes and closed walks of all lengths; no test runs it",
  [LA+"neighbors.rs: neighbors_directed, neighbors", LA+"mod.rs: VisMap, Visitable, reset_map", LA+"nodes.rs: node_identifiers", "src/square/neighbors.rs: neighbors_directed"])
p("C99","has_path_connecting",
  "petgraph's has_path_connecting(g, a, b), from a node a and to any coordinate b, ends without a fault and answers true exactly if neighbors() leads from a to b inside the graph: on every map of C68 and every SquareGraph exactly if b is a node; on DoubleCoordShape<OddR>(h, v) exactly if b is a node with b.h < h (and h > 1) or |b.v - a.v| <= a.h - b.h.",
  "all storable shapes, sizes, nodes a, coordinates b, reachable states; legacy: all sizes, loops, index types","all pairs of nodes in all sizes",
  [LA+"neighbors.rs: neighbors", LA+"mod.rs: VisMap, Visitable", "src/square/neighbors.rs: Neighbors::next", "src/square/mod.rs: VisMap"])
p("C100","formatting shows only what exists",
  "{:?} and {:#?} of a LatticeGraph (derived Debug; also of its iterators Neighbors, Edges and EdgeReferences, which hold the graph) read only weights of nodes and edges that exist and write them in the order of to_index, the nodes first and then each axis.",
  "all storable shapes, sizes, reachable states, both formats","debug-printing with an integer edge type shows garbage instead of failing; no test prints a graph",
  [LA+"mod.rs: LatticeGraph derive(Debug)", LA+"neighbors.rs: Neighbors derive(Debug)", LA+"edges.rs: Edges, EdgeReferences derive(Debug)"])
p("C101","reflections and rotations of a map are symmetries of its graph",
  "Mirroring a square or diagonal map east-west or north-south, or exchanging its rows and columns, maps nodes one-to-one onto nodes and commutes with every move (the direction mirrored alike). An OddR hex map (offset or axial) mirrored east-west is the EvenR map of the same size; mirrored north-south it is itself if it has an odd number of rows and the EvenR map otherwise. A LoopEW offset map may be turned by any number of columns. Hence adjacency, neighbour lists up to order, and the lengths of walks are preserved.",
  "all sizes, nodes, directions; square, diagonal, offset and axial hex shapes, directed or not","needs all sizes and both parities of the number of rows; off-by-one slips at one edge of the map break only one side",
  [LA+"square.rs: move_coord", "src/hex/offset_based/shapes.rs: move_coord_r, move_coord_r_lew", "src/hex/axial_based/shapes.rs: move_coord, to_offset"])
p("C102","iterators after a caught panic",
  "A caller that catches panics around next() and goes on: where C05, C06, C07, C10 and C13 say nothing panics, it sees their items and then None for ever. On edges_directed(a, Incoming) of a directed graph in a debug build (where C12 fails) it sees one panic for every neighbour of a and then None for ever, no item, no undefined behaviour, and a size_hint that covers what is left. On any shape at all, once neighbors() or node_identifiers() has panicked every later call panics in the same way; edges() and edges_directed() either do that too or have moved on to the directions not tried yet, never past the last one; node_references() and edge_references() skip a node whose weight or whose own edges cannot be looked up, and go on as if started at the next node. On a SquareGraph a panic of neighbors() or edges() repeats at every later call.",
  "all graphs, shapes, iterator states, numbers of calls","needs catch_unwind and continued use, and a directed graph in a debug build",
  [LA+"edges.rs: Edges::next, EdgeReferences::next", LA+"neighbors.rs: Neighbors::next", LA+"nodes.rs: NodeIndices::next, NodeReferences::next", "src/square/edges.rs: Edges::next", "src/square/neighbors.rs: Neighbors::next"])
p("C103","distances in a SquareGraph that wraps around",
  "The least number of neighbors() steps between two nodes of a SquareGraph is |Δhorizontal| + |Δvertical|, each difference taken the shorter way round if that side is looped. NodeIndex::distance is this number exactly for pairs at most half of every looped side apart; the largest such number in the graph is the sum over the sides of n/2 (looped) or n-1 (not looped). astar with this number times a lower bound of the edge costs as the estimate returns a cheapest path on every SquareGraph, where distance may fail to (C83).",
  "all sizes, nodes, loop settings, costs","the crate's tests only compare distance on small graphs without checking it against the neighbours; the failing pairs lie across the border",
  ["src/square/mod.rs: NodeIndex::distance", "src/square/neighbors.rs: Neighbors::next", "src/square/edges.rs: Edges::next"])
p("C104","weights too large for memory",
  "For all sizes of N and E: new_with returns the graph C01 describes exactly if the dimensions are in range and each array takes at most isize::MAX bytes, and panics otherwise; LatticeGraph does so before calling either closure. If N is at least as large as a FixedBitSet and there is a row, visit_map() then succeeds too; a graph without rows is always built, but its visit_map() panics if one FixedBitSet per column would exceed isize::MAX bytes.",
  "all shapes, dimensions, element sizes","needs arrays of more than 2^63 bytes, or 2^58 columns without rows",
  [LA+"mod.rs: new_uninit, new_with, VisMap::new", "src/square/mod.rs: new_with, VisMap::new"])
p("C105","symmetries of a SquareGraph",
  "Putting the columns or the rows of a SquareGraph in reverse order, turning it along a looped side by any number of cells, or exchanging rows and columns (loops and sides with them) maps nodes one-to-one onto nodes, and neighbors() of the image of a node is, up to order, the image of its neighbors(); so the lengths of walks between nodes are preserved. A combination of these takes any node to any other exactly when each side is looped or has at most two cells.",
  "all sizes, nodes, loop settings","needs every size and loop setting; a slip at one border breaks one side only",
  ["src/square/neighbors.rs: Neighbors::next", "src/square/mod.rs: neighbors"])
p("C106","maps with obstacles",
  "petgraph's NodeFiltered and EdgeFiltered around a LatticeGraph or a SquareGraph: the filtered node_identifiers(), neighbors() and neighbors_directed() yield exactly the nodes and neighbours that are not blocked, in order, and nothing around a blocked node. has_path_connecting on the filtered graph ends without a fault and tells whether open cells lead from a to b; kosaraju_scc returns the regions of the map. astar over the filtered edges() ends without a fault, returns None exactly if no goal can be walked to along permitted edges, and otherwise a path along permitted edges, a cheapest one if the estimate is admissible; an estimate that is admissible without obstacles is so with them.",
  "all lawful shapes (lists and has_path_connecting: all storable shapes), sizes, reachable states, sets of blocked cells or edges, costs, estimates, goals; legacy: all sizes, loops, index types","all sets of obstacles in all sizes",
  [LA+"neighbors.rs: Neighbors::next, neighbors_directed", LA+"edges.rs: edges, EdgesIter::next, EdgeReference::target", LA+"nodes.rs: node_identifiers", LA+"mod.rs: VisMap, Visitable", "src/square/neighbors.rs: Neighbors::next", "src/square/edges.rs: Edges::next, EdgeReference::target"])
p("C107","a lattice is the petgraph::Graph it stands for",
  "Copying a LatticeGraph or a SquareGraph into petgraph's general-purpose Graph, add_node for each of node_references() and add_edge for each of edge_references() with the ends by to_index, succeeds. The copy is directed if the lattice is, has as many nodes and edges, and the same weight at the node to_index(c). edges(c) and edges_directed(c, dir) (where that does not panic, C12) list the same edges with the same ends and weights as those of the copy: for directed lattices always, edges(c) in exactly the opposite order; for undirected ones exactly if the node has no edge to itself, which the crate lists twice and Graph once. The walks from node to node are the same in both and cost the same, so cheapest costs and reachability agree.",
  "all lawful shapes, sizes, reachable states, nodes, directions, costs; legacy: all sizes, loops, index types","compares two data structures on all sizes; a missing or doubled edge at one border would show on that border only",
  ["README.md: smaller and faster than petgraph::Graph", LA+"edges.rs: edges, edges_directed, EdgeReferences::next", LA+"nodes.rs: node_references, to_index", LA+"mod.rs: is_directed", "src/square/edges.rs: Edges::next, EdgeReferences::next", "src/square/nodes.rs: node_references, to_index"])
p("C108","least costs with negative weights (bellman_ford)",
  "petgraph's bellman_ford on a LatticeGraph or a SquareGraph completes without a fault from every node, with one result. It reports a negative cycle exactly if along edges() some node within reach can be left and entered again at a negative total; on an undirected graph exactly if some edge within reach has a negative weight. Otherwise it returns for every node the least total of a walk, infinite exactly if there is none, and following the predecessors back from a node within reach gives a walk of that cost. Without negative weights the costs are those of dijkstra (C65); on a connected LatticeGraph it succeeds exactly if the nodes can be given heights such that no edge costs less than the height it gains. (Weights as integers, added exactly.)",
  "all lawful shapes, sizes, reachable states, nodes, integer weights; legacy: all sizes, loops, index types","all weights on all sizes; termination and optimality are not observable from single runs",
  [LA+"edges.rs: edges, Edges::next, EdgeReference::target", LA+"nodes.rs: node_identifiers, to_index, node_bound, node_count", "src/square/edges.rs: Edges::next, EdgeReference::target", "src/square/nodes.rs: node_identifiers, to_index, node_bound, node_count"])
p("C109","iteration follows the derived order exactly where that order is the numbering",
  "node_identifiers() lists the nodes in strictly ascending derived order exactly if nodes compare like their indices, and then the ids of edge_references() ascend strictly in the order of (coordinate, axis) pairs as well. This is so on every map with offset coordinates; on an axial map exactly if it has no column or no row is shifted (at most two rows, one for the even layout); on a double-coordinate map exactly if it has no column or at most two rows. The legacy node_identifiers() and the ids of edge_references() always ascend. Direction<T> values compare like dir_to_index. The orders of edge ids and of Direction<T> are total orders in which only equal values compare equal.",
  "all modelled shapes, all sizes, all nodes and edges; legacy: all sizes, loops, index types that hold the sides","sortedness of an iterator is a statement about all its elements on all sizes; tests compare a few elements on small maps, where the axial and double orders happen to agree",
  [LA+"shapes.rs: Direction (derive Ord), Offset (derive Ord)", LA+"mod.rs: GraphBase (EdgeId)", LA+"nodes.rs: NodeIndices", LA+"edges.rs: EdgeReferences", "src/hex/axial_based/shapes.rs: HexAxial (derive Ord)", "src/hex/double_coord/shapes.rs: DoubleCoord (derive Ord)", "src/square/nodes.rs", "src/square/edges.rs"])
p("C110","the reversed view (petgraph's Reversed) has the edges the other way round",
  "Reversed(&g) is made of neighbors_directed and edges_directed. Its neighbors(a) yields every node as often as there are directions in which one can step from it to a, and neighbors_directed with Incoming every node as often as one can step to it from a. Its edges(a) ends and yields references from a, one per step, leading to b with weight w exactly if g.edges(b) leads to a with weight w; edges_directed(a, Incoming) lists g.edges(a) with the ends exchanged. astar over the view from a is finite, can always be completed, and finds with an admissible estimate the cheapest way from a goal to a: the list returned, read backwards, is a path of the graph of that cost; None only if no goal can walk to a. On undirected graphs walks cost the same both ways.",
  "all lawful shapes, sizes, reachable states, nodes, costs, estimates and goals","the reversed view is not exercised by any test of the crate; on undirected graphs a mix-up of the ends or of the weight read is invisible",
  [LA+"neighbors.rs: neighbors_directed", LA+"edges.rs: edges_directed, EdgesDirected::next, EdgeReference"])
p("C111","number of neighbors of a cell and greatest distance on a map, in closed form",
  "neighbors(a) and edges(a) of the cell in column x and row y of a w x h map yield as many items as the closed form says: on squares one per side that is not the border; with diagonals the cells of the surrounding 3 x 3 block; on hexagonal maps one per side in the own row and in each adjacent row one, plus one towards the side the row is shifted to; on a cylinder two in the own and in each adjacent row. On a map that is not empty any two nodes are at most w + h - 2 steps apart on squares, max w h - 1 with diagonals, max (h - 1) (w - 1 + h / 2) on hexagonal maps (transposed if columns are sheared), max (h - 1) ((w + h - 1) / 2) on the cylinder, and some two nodes are that far apart. On the legacy SquareGraph a cell has two neighbors per looped side (the same node twice if the side has at most two nodes) and one per end not reached on the other sides; the greatest distance is the sum of n / 2 per looped side of n nodes and n - 1 per side that is not looped.",
  "all square, diagonal, offset, looped offset and axial shapes, directed and undirected, both parities, all sizes, all cells; legacy: all sizes, loops, index types, cells","the numbers depend on the border, on the parity of the row and on both sizes; the greatest distance is a statement about all pairs of nodes",
  [LA+"neighbors.rs: Neighbors::next", LA+"edges.rs: Edges::next", LA+"square.rs: move_coord (with and without diagonals)", "src/hex/offset_based/shapes.rs: move_coord", "src/hex/axial_based/shapes.rs: move_coord", "src/square/neighbors.rs: Neighbors::next", "src/square/edges.rs: Edges::next"])
p("C112","petgraph's maximal_cliques lists the maximal cliques, each once; on every map they are known",
  "maximal_cliques(&g) runs to its end without a panic whichever orders its hash sets have; its result is the list of all maximal sets of pairwise adjacent nodes, each of them once. On a square map of at least two nodes these are exactly the edges, (w-1)h + w(h-1) of them; with diagonals (w, h >= 2) the 2 x 2 blocks, (w-1)(h-1) of them; on a hexagonal map in offset or axial coordinates (w, h >= 2) the triangles, 2(w-1)(h-1) of them (w and h swapped if columns are sheared).",
  "all lawful shapes and all graphs built on them; closed forms for square, diagonal, offset and axial shapes, directed and undirected, all sizes from 2 on; all iteration orders of the hash sets and all admissible pivots","needs neighbors and is_adjacent to agree and to be symmetric for all pairs of nodes, and a statement about all subsets of the nodes",
  [LA+"neighbors.rs: GetAdjacencyMatrix::is_adjacent, IntoNeighbors::neighbors", LA+"nodes.rs: node_identifiers", LA+"shapes.rs: is_neighbor"])
p("C113","petgraph's all_simple_paths lists every simple path",
  "all_simple_paths(&g, a, b, min, max) on a LatticeGraph or a SquareGraph runs to its end and always returns the same paths: those from a to b that repeat no node on the way and have min to max nodes between the ends (max None: two fewer than the graph has nodes), each once for every choice of directions along it, and nothing else. Without limits these are all sequences of distinct nodes from a to another node b in which each is among the neighbors of the one before; for a = b no circle through all nodes is returned. On square, diagonal, offset and axial maps, and on cylinders exactly from circumference 3 on, at most one direction leads from a node to another, so no path is returned twice; so on the SquareGraph unless a side of one or two nodes is looped. On a square map the paths with no more nodes than needed between nodes x columns and y rows apart number (x+y)!/(x! y!), each of x + y steps. A limit of usize::MAX panics with overflow checks; without, as max, only paths with no node in between are returned.",
  "all lawful shapes, sizes, reachable states, start nodes, targets and limits; legacy: all sizes, loops, index types","the number of paths grows exponentially with the size; that none is missed or doubled is a statement about all sequences of nodes",
  [LA+"neighbors.rs: neighbors_directed, Neighbors::next", LA+"nodes.rs: node_count", LA+"square.rs: move_coord", "src/square/neighbors.rs: neighbors_directed, Neighbors::next", "src/square/nodes.rs: node_count"])
p("C114","cells and links without which a map falls apart",
  "On a map of at least two columns and two rows no single blocked cell separates two other cells, and no single missing link separates any two: has_path_connecting on NodeFiltered without the cell returns true between any two other nodes, and A* on EdgeFiltered without the link finds a way. On a map of one row or one column every link separates some two nodes and a cell does exactly if it is not at an end. On a cylinder a single row is a circle: no cell of it separates, and a link only if the row has two cells; a single column still falls apart. On the SquareGraph the same with the loops of its two axes.",
  "all square, diagonal, offset, looped offset and axial shapes, directed and undirected, both parities, all sizes, all cells and links; legacy: all sizes, loops, index types","separation is a statement about all ways between all pairs of nodes, for each blocked cell, at every size",
  [LA+"neighbors.rs: Neighbors::next", LA+"edges.rs: Edges::next", LA+"square.rs: move_coord (with and without diagonals)", "src/hex/offset_based/shapes.rs: move_coord", "src/hex/axial_based/shapes.rs: move_coord", "src/square/neighbors.rs: Neighbors::next"])
p("C115","petgraph's depth_first_search and is_cyclic_directed",
  "depth_first_search(&g, starts, visitor) from any nodes runs to its end without a panic (with its own debug assertion), and the events it reports are determined: a node is discovered once, as a start when nothing is open or right after a tree edge to it, and exactly the nodes that can be walked to from the starts are; every one of them is finished once, after its neighbours are discovered, the last opened first; tree edges lead to nodes not yet discovered, back edges to open ones, cross or forward edges to finished ones; the times are 0, 1, 2, ...; and the edges reported from a node are what neighbors yields there, once each and in this order. Where every step can be taken back, a cross or forward edge leads to a node discovered later (nothing leads across), further starts on a connected map add nothing and there is one tree edge for every node but the first. is_cyclic_directed(&g) answers whether some walk along neighbors inside the graph returns to where it began, hence on lawful shapes and the SquareGraph whether there is any edge; it agrees with toposort exactly if the outcome of toposort is right, which it is not on a column of double coordinates.",
  "all storable shapes, sizes, reachable states and lists of starts; order and tree: all lawful shapes; legacy: all sizes, loops, index types","the events depend on every neighbour list and on the visit map at every step; that none is missing or out of order is a statement about whole runs on graphs of every size",
  [LA+"neighbors.rs: Neighbors::next, neighbors", LA+"nodes.rs: node_identifiers", LA+"mod.rs: Visitable, VisMap::visit, VisMap::is_visited", "src/square/neighbors.rs: Neighbors::next", "src/square/nodes.rs: node_identifiers", "src/square/mod.rs: VisMap"])
p("C116","petgraph's tarjan_scc finds the strongly connected components",
  "tarjan_scc(&g) runs to its end, with its own debug assertions, exactly if neighbors of every node yields nodes of the graph only, and then it has one result: every node in exactly one group, no group empty, two nodes in the same group exactly if they lead to each other along neighbors, and no group leading to a later one. So on every lawful shape, on double coordinates (where kosaraju_scc is wrong, C97) and on looped flat-top offset maps it always ends; on flat-top offset maps exactly if there is one column or the last row does not lean upwards; on looped axial maps exactly if no row is sheared. On the connected maps the result is a single group with all nodes; so on the SquareGraph.",
  "all storable shapes, sizes and reachable states; legacy: all sizes, loops, index types","the low-link numbers depend on the order of all visits so far; that the groups are the components is a statement about all pairs of nodes of graphs of every size",
  [LA+"neighbors.rs: Neighbors::next, neighbors", LA+"nodes.rs: node_identifiers", LA+"mod.rs: NodeIndexable::to_index, node_bound", "src/hex/offset_based/shapes.rs: move_coord", "src/hex/axial_based/shapes.rs: move_coord", "src/square/neighbors.rs: Neighbors::next", "src/square/mod.rs: to_index"])
p("C117","petgraph's walker Topo returns the nodes no cycle leads to",
  "Topo::new(&g) and calling next until it returns None ends without a panic and returns the nodes that cannot be walked to from a cycle, each once, every edge among them leading to a node returned later. (False on double coordinates: neighbors_directed ignores the direction, so what is returned are exactly the nodes for which neighbors yields nothing, the last first; the result is right exactly if these are the nodes no cycle leads to. It is right on every lawful shape, on every connected map of at least two nodes, where nothing is returned, and on the SquareGraph; it is wrong on every map of double coordinates in which some node has a neighbour.)",
  "all storable shapes, sizes and reachable states; legacy: all sizes, loops, index types","the walker asks for incoming neighbours of every node; that it misses nodes only where moves cannot be undone is a statement about shapes of every size",
  [LA+"neighbors.rs: Neighbors::next, neighbors_directed", LA+"nodes.rs: node_identifiers", LA+"mod.rs: Visitable, VisMap::visit, VisMap::is_visited", "src/square/neighbors.rs: neighbors_directed", "src/square/nodes.rs: node_identifiers"])
p("C118","least costs by petgraph's spfa",
  "petgraph's spfa on a LatticeGraph or a SquareGraph ends without a panic from every node, with one result. It reports a negative cycle exactly if along edges() some node within reach can be left and entered again at a negative total; so it never mistakes a node taken up often for a cycle and never runs on. Otherwise it returns the distances of bellman_ford (C108): for every node the least total of a walk, infinite exactly if there is none, and following the predecessors back from a node within reach gives a walk of that cost. On connected undirected graphs it fails exactly if some edge has a negative weight, and in general it succeeds exactly if the nodes can be given heights such that no edge costs less than the height it gains. (Costs as integers, added exactly.)",
  "all lawful shapes, sizes, reachable states, nodes, integer costs; legacy: all sizes, loops, index types","the bound on how often a node is taken up only bites on particular weights at each size; that it is never reached without a negative cycle is a statement about all weights",
  [LA+"edges.rs: edges, Edges::next, EdgeReference::target", LA+"nodes.rs: to_index, node_bound", "src/square/edges.rs: Edges::next, EdgeReference::target", "src/square/nodes.rs: to_index, node_bound"])
p("C119","the k-th cheapest walks by petgraph's k_shortest_path",
  "petgraph's k_shortest_path on a LatticeGraph or a SquareGraph ends without a panic from every node, for every k and with or without a goal, however ties in its heap are broken. Every score it returns for a node is the cost of the k-th cheapest walk to the node along edges(), walks being told apart by the edges taken, so that parallel edges count. Without a goal the nodes it returns are exactly those to which there are k walks or more; with one this holds of the goal. With k = 1 the scores are the least costs of dijkstra (C65), and they do not decrease with k. On a connected map of two nodes or more every node has a score for every k, at most the cost of any walk there and k - 1 round trips to any other node. (Costs as natural numbers, added exactly; edges of cost zero are allowed.)",
  "all lawful shapes, sizes, reachable states, nodes, goals, k, natural costs, orders of popping; legacy: all sizes, loops, index types","nodes are no longer expanded once popped k times; that no walk among the k cheapest is lost by that is a statement about all walks, of any length, on all sizes",
  [LA+"edges.rs: edges, Edges::next, EdgeReference::target", LA+"nodes.rs: to_index, node_count", "src/square/edges.rs: Edges::next, EdgeReference::target", "src/square/nodes.rs: to_index, node_count"])
p("C120","a minimum spanning tree by petgraph's min_spanning_tree_prim",
  "petgraph's min_spanning_tree_prim on a LatticeGraph or a SquareGraph can be run to its end without a panic and never runs on, however ties in its heap are broken. It first returns the node weights in the order of min_spanning_tree (C91). Each edge it returns leads from the first node, or from where an earlier edge leads, to a node not reached so far, and no edge leading so costs less; the nodes reached in the end are those that can be walked to from the first node along edges(). On the shapes of the crate, if each edge can be gone back at the same cost, as on every undirected graph, the edges are a minimum spanning tree of edge_references(), each read in one direction or the other: one edge less than nodes, and the total cost of min_spanning_tree. On directed graphs where the way back is cheaper the total can exceed that of min_spanning_tree by any amount. (Costs as natural numbers.)",
  "all lawful shapes, sizes, reachable states, natural costs, orders of popping; legacy: all sizes, loops, index types","minimality is a statement about all parts of the edges that join the nodes, of which there are exponentially many, on all sizes",
  [LA+"nodes.rs: node_references, to_index, from_index", LA+"edges.rs: edges, Edges::next, EdgeReference::source, EdgeReference::target, edge_references", "src/square/nodes.rs: node_references, to_index, from_index", "src/square/edges.rs: Edges::next, EdgeReference::source, EdgeReference::target, edge_references"])
p("C121","cut nodes by petgraph's articulation_points",
  "petgraph's articulation_points returns exactly the nodes that cut the graph: those without which two other nodes, between which there is a way along edges(), have none. It never panics.",
  "all lawful shapes, sizes, reachable states; legacy: all sizes, loops, index types","the result depends on the whole depth-first tree, whose low points are only right if every edge can be gone back; that holds or fails for all sizes at once",
  [LA+"nodes.rs: NodeReferences (Iterator without size_hint), node_references, to_index, from_index", LA+"edges.rs: edges, Edges::next, EdgeReference::target", "src/square/nodes.rs: NodeReferences::size_hint, to_index, from_index", "src/square/edges.rs: Edges::next, EdgeReference::target"])
p("C122","colouring by petgraph's dsatur_coloring",
  "petgraph's dsatur_coloring always ends, whatever order its queue gives equal scores; it gives each node exactly one colour, adjacent nodes different ones, each node the least colour its neighbors allow, always next a node with neighbors of most colours and among these with most neighbors, and the number returned is that of the colours (one for no nodes). It is one exactly if no two nodes are adjacent, at most two exactly if two are enough (so a square graph gets two, a looped SquareGraph two exactly if its looped sides are even), and at most one more than some node has neighbors.",
  "all lawful shapes, sizes, reachable states, all orders of equal entries of the queue; legacy: all sizes, loops, index types","the order of the queue is not determined, and that two colours suffice on every bipartite lattice depends on the order of saturation being kept through every step",
  [LA+"nodes.rs: node_identifiers, node_bound, to_index, from_index", LA+"edges.rs: edges, Edges::next, EdgeReference::target", "src/square/nodes.rs: NodeIndices::next, node_bound, to_index, from_index", "src/square/edges.rs: Edges::next, EdgeReference::target"])
p("C123","matching by petgraph's greedy_matching",
  "petgraph's greedy_matching returns on every graph, with one result: it pairs adjacent nodes, each with at most one other and both ways; no two adjacent nodes are left without a mate, so no way to pair adjacent nodes has more than twice as many pairs; edges() lists each pair once and len() is their number; is_perfect() says whether every node has a mate. On a square graph (undirected or directed) and on every legacy SquareGraph, looped or not, one walk visits every node, so h*v/2 pairs are found, as many as there can be.",
  "all lawful shapes, sizes, reachable states; legacy: all sizes, loops, index types","where a walk gets stuck depends on all walks before it; that the nodes left over are never adjacent holds for all sizes at once because neighbors is mutual",
  [LA+"nodes.rs: node_identifiers, node_bound, node_count, to_index, from_index", LA+"neighbors.rs: neighbors, Neighbors::next", LA+"mod.rs: VisMap", "src/square/nodes.rs: NodeIndices::next, node_count, to_index, from_index", "src/square/neighbors.rs: Neighbors::next", "src/square/mod.rs: VisitMap"])
p("C124","dominators by petgraph's simple_fast",
  "petgraph's dominators::simple_fast returns from every root, in whatever order its hash sets are iterated; immediate_dominator(c) is the last node before c that is on every way from the root to c (none for the root), and dominators(c) lists all nodes on every way, each once: the root and the nodes without which c cannot be reached from it. On maps of at least two rows and columns, and on every legacy SquareGraph but a single row or column that is not looped, the root is the immediate dominator of all other nodes. On a single row or column that is not closed to a circle the immediate dominator is the next node on the side of the root and the dominators are the nodes from the root on.",
  "all lawful shapes, sizes, reachable states, roots; legacy: all sizes, loops, index types, roots","the loop runs until nothing changes; that it stops, and then at the dominators, is a statement about all ways through the graph",
  [LA+"neighbors.rs: neighbors, Neighbors::next", LA+"mod.rs: VisMap", "src/square/neighbors.rs: Neighbors::next", "src/square/mod.rs: VisitMap"])
