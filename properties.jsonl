{"id": "C01", "title": "Hop cache returns the last value written", "statement": "After any sequence of 'exact cost' and 'lower bound' writes, looking a pair of edges up returns exactly the value and kind of the last write that concerned this pair, and (0, not exact) if there was none; a bulk lower-bound write over a set of edges behaves like one write per edge of the set.", "quantifier": "every history of single and bulk writes over any edges and any 32 bit costs, and every queried pair", "why_tests_cant": "The encoding packs cost and kind into one signed number; a test samples a few costs and histories, the claim is about all of them including 0 and 2^32-1.", "anchors": ["src/pfaedle/router/HopCache.h HopCache", "src/pfaedle/router/HopCache.cpp setMin setEx get"]}
{"id": "C02", "title": "An id added to the OSM id set is always found", "statement": "Once an id has been added, every later membership query for it answers true, whatever other ids were added or marked as 'not in', in whatever order, and whatever the two hash functions return.", "quantifier": "every sequence of add and nadd calls of any length, every hash function, every buffer size, every sequence of queries", "why_tests_cant": "The set spills to disk in blocks, is sorted externally and is filtered by two bloom filters; a lost id depends on block boundaries and hash collisions no test enumerates.", "anchors": ["src/pfaedle/osm/OsmIdSet.cpp add nadd has diskHas getBlock close sort"]}
{"id": "C03", "title": "The OSM id set never invents ids", "statement": "A query answers true only for added ids, provided nothing was ever marked 'not in' or the queried id itself was marked; an id that is neither added nor marked while others are marked may be reported as contained.", "quantifier": "every sequence of add and nadd calls, every hash function, every queried id", "why_tests_cant": "False positives need specific hash collisions; the claim quantifies over all hash functions.", "anchors": ["src/pfaedle/osm/OsmIdSet.cpp has diskHas nadd"]}
{"id": "C04", "title": "External sort yields the sorted multiset of the ids", "statement": "When ids were added out of order, the file produced on first query contains exactly the added ids, with multiplicity, in ascending order, and the block index holds the last id of every full block.", "quantifier": "every list of ids of any length, every sort buffer and block size, any number of parts", "why_tests_cant": "The merge refills per-part buffers at modular positions; an off-by-one shows only at particular combinations of size and part count.", "anchors": ["src/pfaedle/osm/OsmIdSet.cpp sort"]}
{"id": "C05", "title": "Queries do not disturb the id set and freeze it", "statement": "The answer to a query does not depend on which queries were made before; after the first query every add and nadd is rejected and changes nothing.", "quantifier": "every interleaving of add, nadd and has calls", "why_tests_cant": "has() mutates caches (current block, closed flag); only a claim over all histories excludes stale answers.", "anchors": ["src/pfaedle/osm/OsmIdSet.cpp has close add nadd"]}
{"id": "C06", "title": "Stored shapes read back exactly", "statement": "Shapes added to the shape container are read back in insertion order, each with exactly its points in order and sequence numbers 1..n, if ids are non-empty and free of whitespace and shapes have at least one point; shapes removed meanwhile (and not added again) are left out entirely.", "quantifier": "every list of shapes with any ids and points, any set of later removals", "why_tests_cant": "The container serialises to a byte stream; framing errors depend on the bytes of ids and coordinates, which tests only sample.", "anchors": ["src/pfaedle/gtfs/ShapeContainer.tpp add remove open nextStoragePt has"]}
{"id": "C07", "title": "shapes.txt contains each live shape once and nothing else", "statement": "The written shapes.txt consists of the points of the input shapes that are still referenced, in input order and unchanged, followed by the newly computed shapes; points of dropped shapes do not appear, and no shape id carries points of two different shapes.", "quantifier": "every input shapes file, every set of dropped and new shapes", "why_tests_cant": "The writer skips by remembering the last seen id; the outcome depends on every ordering of ids in the input.", "anchors": ["src/pfaedle/gtfs/Writer.cpp writeShapes", "src/pfaedle/gtfs/ShapeContainer.tpp nextStoragePt"]}
{"id": "C08", "title": "Fresh shape ids are unique under concurrency", "statement": "All shape ids handed out by the shape builder are pairwise different and different from every id registered in the feed at the time, for any number of worker threads and any interleaving.", "quantifier": "every initial set of ids, every number of threads and every schedule of their critical sections", "why_tests_cant": "Uniqueness across schedules cannot be sampled.", "anchors": ["src/pfaedle/router/ShapeBuilder.cpp getFreeShapeId shapeWorker setShape"]}
{"id": "C09", "title": "A trip's node in the trie spells its stop sequence", "statement": "For every trip accepted by a trip trie, the path from the root to the node the trip is filed under visits, in order, departure and arrival nodes matching the trip's stops by name, platform and position (and relative times if requested), and has exactly 2(n-1) nodes below the root for n stops.", "quantifier": "every sequence of trips added to a trie, every position-matching relation, with and without time expansion", "why_tests_cant": "Sharing of prefixes depends on the whole insertion history.", "anchors": ["src/pfaedle/router/TripTrie.tpp add getMatchChild insert", "src/pfaedle/router/TripTrie.h TripTrieNd"]}
{"id": "C10", "title": "Trie node statistics equal what passed through them", "statement": "In non-degenerate mode the trip counter of each trie node equals the number of accepted trips whose path contains the node, and its accumulated time is the sum of their relative times.", "quantifier": "every sequence of trips added to a trie", "why_tests_cant": "The averages that drive routing are quotients of these counters; a missed update appears only for certain insertion orders.", "anchors": ["src/pfaedle/router/TripTrie.tpp add insert"]}
{"id": "C11", "title": "A rejected trip leaves the trie untouched and an accepted one is filed once", "statement": "addTrip either returns false and leaves the trie exactly as it was, or returns true and files the trip under exactly one node; every trip filed earlier remains filed under the same node.", "quantifier": "every reachable trie and every trip, in normal and degenerate mode", "why_tests_cant": "Partial insertion would corrupt shared prefixes only for particular shapes of tries.", "anchors": ["src/pfaedle/router/TripTrie.tpp addTrip add get"]}
{"id": "C12", "title": "Every eligible trip is clustered into exactly one trie", "statement": "Clustering assigns each trip that needs a shape (no shape or shapes dropped, at least two stops, suitable mode) to exactly one node of exactly one trie of the forest of its routing attributes, and no other trip to any, for any number of worker threads.", "quantifier": "every list of trips, every thread count at least one, every interleaving of workers", "why_tests_cant": "Work is split round robin over threads; omissions depend on counts and schedules.", "anchors": ["src/pfaedle/router/ShapeBuilder.cpp clusterTrips clusterWorker"]}
{"id": "C13", "title": "Every trip gets exactly one hop per pair of consecutive stops", "statement": "Routing a trip trie returns for every filed trip of n stops a list of exactly n-1 hops, whatever the costs, maximum costs and connectivity of the network; the shape code relies on it.", "quantifier": "every trie, every candidate sets whose first candidate is the empty fallback, every cost matrix, including fully disconnected networks", "why_tests_cant": "The back-tracking loop stops at the first missing predecessor; a test cannot cover all cost patterns in which one might be missing.", "anchors": ["src/pfaedle/router/Router.tpp route", "src/pfaedle/router/ShapeBuilder.cpp getGtfsShape"]}
{"id": "C14", "title": "Routing is optimal over candidate sequences", "statement": "The cost of the candidate sequence chosen for a trip equals the sum of its penalties and transition weights and is minimal among all candidate sequences along the trip's stops with respect to the transition weights the router obtained.", "quantifier": "every trie, candidate sets and transition weights", "why_tests_cant": "Optimality is a statement about exponentially many sequences.", "anchors": ["src/pfaedle/router/Router.tpp route"]}
{"id": "C15", "title": "Edge cost memoisation is invisible", "statement": "The cost function and the distance heuristic return the same value for a given query whatever queries they answered before.", "quantifier": "every history of calls, every underlying cost, penalties and restrictions", "why_tests_cant": "The memo of the last edge is keyed by pointer only; a stale hit needs a particular history.", "anchors": ["src/pfaedle/router/Weights.cpp ExpoTransWeight::CostFunc::operator()", "src/pfaedle/router/Weights.cpp DistHeur", "src/pfaedle/router/Weights.h"]}
{"id": "C16", "title": "Penalties never make a hop cheaper and never wrap around", "statement": "Transition cost between two edges is at least the plain cost of the first edge when all punish factors are at least one, saturates at the maximum instead of wrapping, and is the maximum whenever it would exceed it.", "quantifier": "all 32 bit base costs, all penalty factors, all combinations of line matches, full turns and turn restrictions", "why_tests_cant": "Wrap-around happens at the edge of the 32 bit range for specific sums.", "anchors": ["src/pfaedle/router/Weights.cpp ExpoTransWeight::CostFunc::operator()", "src/pfaedle/router/Router.tpp addNonOverflow"]}
{"id": "C17", "title": "Saturating cost addition", "statement": "Adding two costs gives the exact sum if it fits into 32 bits and the maximum cost otherwise; the operation is commutative, associative and monotone.", "quantifier": "all pairs and triples of 32 bit numbers", "why_tests_cant": "2^64 pairs.", "anchors": ["src/pfaedle/router/Router.tpp addNonOverflow"]}
{"id": "C18", "title": "Turn restrictions do not depend on the order in which they and the ways are read", "statement": "Whether a turn is allowed depends only on the set of restrictions read and the edges of the ways they name, not on whether a restriction was read before or after the edge of its target way, nor on how different target ways interleave.", "quantifier": "every interleaving of restriction and edge announcements in which each (node, way) is announced at most once", "why_tests_cant": "The number of interleavings is unbounded; dangling rules are patched by index.", "anchors": ["src/pfaedle/osm/Restrictor.cpp add relax may"]}
{"id": "C19", "title": "Turn restrictions mean what they say", "statement": "A turn from edge a to edge b at node v is refused if a prohibition (a,b) exists at v and no mandatory rule for a at v decides otherwise, or if a mandatory rule for a demands another edge first; it is allowed in all other cases; unresolved rules have no effect.", "quantifier": "every rule set, every queried turn", "why_tests_cant": "Interaction of mandatory and prohibitory rules over all rule lists.", "anchors": ["src/pfaedle/osm/Restrictor.cpp may"]}
{"id": "C20", "title": "Splitting or duplicating an edge keeps its turn restrictions", "statement": "After an edge has been replaced by two edges or given a reverse twin, a turn at its end points is allowed for the new edges exactly if it was allowed for the old edge in the same direction.", "quantifier": "every rule set, every edge and every queried turn at the end points", "why_tests_cant": "Depends on the position of the edge in every rule.", "anchors": ["src/pfaedle/osm/Restrictor.cpp replaceEdge duplicateEdge"]}
{"id": "C21", "title": "Bounding box index covers every added box", "statement": "A point inside an added (padded) box is reported as contained; a reported point always lies in a box covering added boxes; the full box covers every added box.", "quantifier": "every sequence of added boxes and every point", "why_tests_cant": "Containment depends on the tree built by the whole insertion history.", "anchors": ["src/pfaedle/osm/BBoxIdx.cpp add addToTree contains treeHas getLeafs getFullBox"]}
{"id": "C22", "title": "Normalised names are a function of the input", "statement": "Normalising a string gives the result of applying all replacement rules in order to it, independent of the strings normalised earlier; two normalisers built from the same rules agree on every string.", "quantifier": "every rule list, every replacement semantics, every history of calls", "why_tests_cant": "The result cache is shared across calls.", "anchors": ["src/pfaedle/trgraph/Normalizer.cpp norm operator() operator==", "src/pfaedle/trgraph/Normalizer.h"]}
{"id": "C23", "title": "Station, blocker and turn-cycle markers of a node are consistent", "statement": "After any sequence of marker operations on nodes, a node is exactly one of plain, station, blocker or turn cycle, it is what the last operation on it made it, and its station info is the last one set on it, unaffected by operations on other nodes.", "quantifier": "every sequence of set/unset operations on any nodes (fewer than 2^32-2 station infos in total)", "why_tests_cant": "All nodes share one global table and two reserved indices.", "anchors": ["src/pfaedle/trgraph/NodePL.cpp setSI setBlocker setTurnCycle setNoStat getSI isBlocker isTurnCycle", "src/pfaedle/trgraph/NodePL.h"]}
{"id": "C24", "title": "Lines and geometries of edges are freed exactly once and never used after", "statement": "Over any history of creating, copying, reversing, extending and destroying edge payloads, every live payload can read its lines and its geometry, these are the ones it was copied with plus what was added since (flat copies share the geometry), and a line or geometry is freed exactly when its last owner is destroyed.", "quantifier": "every sequence of payload operations", "why_tests_cant": "Reference counts go wrong only in particular histories.", "anchors": ["src/pfaedle/trgraph/EdgePL.cpp EdgePL ~EdgePL addLine revCopy", "src/pfaedle/trgraph/EdgePL.h"]}
{"id": "C25", "title": "Line name similarity is reflexive and symmetric", "statement": "Two line or station names are similar independent of the order in which they are compared, every name is similar to itself, and equality up to a leading or trailing word is recognised.", "quantifier": "all pairs of strings, every edit distance function that is symmetric and zero on equal strings", "why_tests_cant": "All pairs of strings.", "anchors": ["src/pfaedle/router/Comp.h lineSimi statSimi"]}
{"id": "C26", "title": "Two stations match if some pair of their names matches", "statement": "Station similarity is 1 iff some name of one (main or alternative) is similar to some name of the other and 0 otherwise, and is symmetric.", "quantifier": "all station infos with any number of alternative names", "why_tests_cant": "Unbounded lists of names.", "anchors": ["src/pfaedle/trgraph/StatInfo.cpp simi addAltName", "src/pfaedle/trgraph/StatInfo.h"]}
{"id": "C27", "title": "Routing attributes merge to the set of destinations", "statement": "Merging the attributes of trips yields the sorted, duplicate-free set of their destination names whatever the order; grouping by attributes is by line and origin; and line similarity after a merge takes the merged destinations into account.", "quantifier": "every sequence of merges and similarity queries", "why_tests_cant": "The per-object similarity cache makes results history dependent.", "anchors": ["src/pfaedle/router/RoutingAttrs.h merge simi operator< operator=="]}
{"id": "C28", "title": "Keep and drop decisions do not depend on attribute order", "statement": "Whether an OSM object is kept, dropped, a one-way, a station, a blocker or restricted depends only on the set of its attributes and rules; two-way rules beat one-way rules, no-restriction rules beat restrictions, and the lowest matching level is returned.", "quantifier": "all attribute maps and rule maps, all iteration orders of the hash maps", "why_tests_cant": "Hash map iteration order is unspecified.", "anchors": ["src/pfaedle/osm/OsmFilter.cpp contained keep drop oneway onewayrev level negRestr posRestr valMatches"]}
{"id": "C29", "title": "Attributes needed by a rule survive attribute filtering", "statement": "Every attribute key on which some filter rule of the configuration can decide is among the keys retained when reading OSM objects, so that filtering attributes never changes a decision.", "quantifier": "all configurations and all attribute maps", "why_tests_cant": "One missing key list silently disables a rule for all inputs.", "anchors": ["src/pfaedle/osm/OsmFilter.cpp getAttrKeys", "src/pfaedle/osm/OsmBuilder.cpp getKeptAttrKeys"]}
{"id": "C30", "title": "Merging filters for OSM extraction loses nothing", "statement": "An OSM object kept by the filter of any of the configurations is kept by the merged filter used to write a reduced OSM file.", "quantifier": "all lists of configurations and all attribute maps", "why_tests_cant": "All attribute maps; flags of equal keys collide on merge.", "anchors": ["src/pfaedle/osm/OsmFilter.cpp merge", "src/pfaedle/osm/OsmBuilder.cpp filterWrite"]}
{"id": "C31", "title": "A filtered OSM file is closed under references", "statement": "In the reduced OSM file every node referenced by a written way that exists in the input is written, every way referenced by a written relation that passes is present, and the elements appear unchanged and in input order.", "quantifier": "every OSM input file and every filter and bounding box", "why_tests_cant": "Requires agreement of three passes over the file.", "anchors": ["src/pfaedle/osm/OsmBuilder.cpp filterWrite readWriteRels readWriteWays readWriteNds keepWay keepNode"]}
{"id": "C32", "title": "Streaming OSM readers return every kept element exactly once", "statement": "Iterating ways, nodes or relations of the XML stream yields exactly the elements that satisfy the filter, once each and in order, each with exactly its own attributes and members.", "quantifier": "every XML event sequence with non-zero ids", "why_tests_cant": "The readers share a cursor and stop on the following tag; an element lost at a boundary needs a particular sequence.", "anchors": ["src/pfaedle/osm/OsmBuilder.cpp nextWay nextNode nextRel nextWayWithId"]}
{"id": "C33", "title": "Every graph node built from a way gets its own position", "statement": "After edges and nodes have been read, every graph node created for an OSM node that occurs in the node section carries the position given there.", "quantifier": "every OSM input, bounding box and filter", "why_tests_cant": "Depends on the interplay of bounding box, no-hup and multi-node sets over all inputs.", "anchors": ["src/pfaedle/osm/OsmBuilder.cpp readBBoxNds readEdges readNodes keepNode"]}
{"id": "C34", "title": "Component labels coincide with connectivity", "statement": "After component labelling two nodes carry the same label iff they are connected ignoring direction, all nodes are labelled, and the maximum speed stored for a component bounds the speed of all its edges; the labels of nodes in different components differ.", "quantifier": "every graph", "why_tests_cant": "All graphs.", "anchors": ["src/pfaedle/osm/OsmBuilder.cpp writeComps"]}
{"id": "C35", "title": "Collapsing degree-two nodes preserves geometry and travel direction", "statement": "Replacing two edges meeting in a pass-through node by one edge yields an edge between the two outer nodes whose geometry is the concatenation of both in travel order, and whose permitted directions are those of the two-edge path.", "quantifier": "all edge pairs with all orientations, one-way markers and geometries", "why_tests_cant": "Eight orientation cases times arbitrary geometry.", "anchors": ["src/pfaedle/osm/OsmBuilder.cpp edgesSim mergeEdgePL collapseEdges"]}
{"id": "C36", "title": "Every edge has a reverse twin with mirrored attributes", "statement": "After reverse edges have been written, for every edge there is an edge in the opposite direction whose one-way marker and hop ends are mirrored and which shares lines and geometry; reversing twice gives the original attributes.", "quantifier": "every graph, every edge payload", "why_tests_cant": "All graphs and payloads.", "anchors": ["src/pfaedle/osm/OsmBuilder.cpp writeODirEdgs", "src/pfaedle/trgraph/EdgePL.cpp revCopy setOneWay frontHop backHop"]}
{"id": "C37", "title": "Colours are parsed or recognised as absent", "statement": "A hex colour of three or six digits with leading # is parsed to its value, known colour names to theirs, and anything else is reported as 'no colour'.", "quantifier": "all strings", "why_tests_cant": "All strings.", "anchors": ["src/pfaedle/osm/OsmBuilder.cpp parseHexColor getLines"]}
{"id": "C38", "title": "Text colour contrasts with the route colour", "statement": "The text colour chosen for a route is white for dark and black for light route colours, with the boundary at root mean square component value 140, and depends only on the lower 24 bits.", "quantifier": "all 32 bit colours", "why_tests_cant": "2^32 colours; the code compares a floating point square root.", "anchors": ["src/pfaedle/router/ShapeBuilder.cpp getTextColor"]}
{"id": "C39", "title": "Rule flags and key-value rules parse unambiguously", "statement": "Rule flags are the union of the individual flags independent of order; a rule 'key=value' is split at the first '=' so that re-joining gives the input; values may contain '='.", "quantifier": "all strings and flag lists", "why_tests_cant": "All strings.", "anchors": ["src/pfaedle/config/MotConfigReader.cpp getKv getFlags getFRule"]}
{"id": "C40", "title": "Configurations are merged only if they behave identically", "statement": "Two mode sections of a configuration are combined into one routing run only if all options that influence the result are equal, and every configured mode is served by exactly one combined section with its own options.", "quantifier": "all lists of configuration sections", "why_tests_cant": "Depends on every option field; equality by tolerance is not transitive.", "anchors": ["src/pfaedle/config/MotConfigReader.cpp parse", "src/pfaedle/osm/OsmReadOpts.h operator==", "src/pfaedle/router/Misc.h operator==", "src/pfaedle/config/MotConfig.h operator=="]}
{"id": "C41", "title": "Output files are replaced atomically", "statement": "If the program is interrupted at any point while writing, every output file in the target directory is either its complete old or its complete new version, and a zip target is either completely old or completely new.", "quantifier": "every crash point, every initial content of the target", "why_tests_cant": "Crash points cannot be enumerated by unit tests.", "anchors": ["src/pfaedle/gtfs/Writer.cpp write moveIntoZip"]}
{"id": "C42", "title": "In-place output never loses its source", "statement": "When the feed is written over its own input, each optional file that is copied through is read completely before it is replaced, so that the final directory contains the same content as writing to a fresh directory.", "quantifier": "every set of files present in the input directory", "why_tests_cant": "Interaction of read and rename order for all subsets of files.", "anchors": ["src/pfaedle/gtfs/Writer.cpp write writeShapes writeStopTimes writeTrips"]}
{"id": "C43", "title": "stop_times.txt rows keep their order and get the distance of their own stop", "statement": "Every input row of stop_times.txt appears once and in order in the output, unchanged except for its distance, which is the distance computed for the stop time of the same trip and sequence number.", "quantifier": "every stop_times file with any interleaving of trips", "why_tests_cant": "The writer caches the current trip; staleness depends on row order.", "anchors": ["src/pfaedle/gtfs/Writer.cpp writeStopTimes"]}
{"id": "C44", "title": "Evaluation counts add up", "statement": "In the shape evaluation, the number of processed trips equals the number without original shape plus the number of recorded results, the accuracy counters are monotone in their threshold and never exceed the number of results.", "quantifier": "every sequence of compared trips and every distance function", "why_tests_cant": "All histories.", "anchors": ["src/shapevl/Collector.cpp add", "src/shapevl/Collector.h Collector"]}
{"id": "C45", "title": "Work distribution runs each job exactly once", "statement": "Each trip forest is shaped exactly once and each feed is evaluated exactly once whatever the number of workers and their interleaving, and the workers terminate.", "quantifier": "all job counts, worker counts and schedules of atomic counter operations", "why_tests_cant": "Schedules.", "anchors": ["src/pfaedle/router/ShapeBuilder.cpp shapeWorker", "src/shapevl/ShapevlMain.cpp eval"]}
{"id": "C46", "title": "Distances along a shape are monotone and end at its length", "statement": "The travel distances written for a shape start with 0 and never decrease, the distance of a stop never exceeds that of the next, the first stop has distance 0, the last one the distance of the last shape point; points are numbered consecutively.", "quantifier": "all hop geometries with any number of hops and points, any non-negative distance function", "why_tests_cant": "All geometries.", "anchors": ["src/pfaedle/router/ShapeBuilder.cpp getGtfsShape getMeasure setShape"]}
{"id": "C47", "title": "A shape still in use is never dropped", "statement": "While computing shapes, an original shape is removed only once every trip using it has been taken up for a new one (when all workers are done: has got a new one), it is then removed for good, and shapes used by an untouched trip stay.", "quantifier": "every assignment of shapes to trips, every order in which trips are processed and every interleaving of workers whose counter updates are atomic", "why_tests_cant": "Schedules.", "anchors": ["src/pfaedle/router/ShapeBuilder.cpp shapeify shapeWorker"]}
{"id": "C48", "title": "Route colours: splitting keeps every trip and its colour", "statement": "When trips of a route matched different colours, the route is split so that each trip is afterwards assigned to a route of its colour, every trip keeps a route that differs from its old one only in id and colour, new route ids are fresh, and fare rules are copied to the new routes.", "quantifier": "all routes, colours and existing ids", "why_tests_cant": "All id collisions.", "anchors": ["src/pfaedle/router/ShapeBuilder.cpp updateRouteColors"]}
{"id": "C49", "title": "Candidates of departure nodes point to their arrival candidates", "statement": "In the candidate table built for a trip trie, every node has the fallback candidate first, and each candidate of a departure node below an arrival node refers to existing candidates of that arrival node, in particular to its own copy.", "quantifier": "all tries and candidate lists", "why_tests_cant": "Index arithmetic over unbounded lists.", "anchors": ["src/pfaedle/router/ShapeBuilder.cpp getECM timeExpand timePen"]}
{"id": "C50", "title": "Candidate selection keeps only reachable, penalised edges", "statement": "The candidates of a stop start with the fallback; pruning reachable degree-two duplicates only removes edges that were selected and terminates; a candidate whose track equals the stop's platform is not penalised for its platform.", "quantifier": "all stops, all graphs, all distances", "why_tests_cant": "All graphs.", "anchors": ["src/pfaedle/router/ShapeBuilder.cpp getEdgCands deg2reachable"]}
{"id": "C51", "title": "The hop cache never hides an affordable target", "statement": "A target is skipped by the fast router because of cached information only if for every start edge the recorded cost or lower bound exceeds the current maximum cost.", "quantifier": "every cache content, every set of start edges and every maximum cost", "why_tests_cant": "All cache contents.", "anchors": ["src/pfaedle/router/Router.tpp cacheDrop hops hopsFast", "src/pfaedle/router/HopCache.cpp"]}
{"id": "C52", "title": "Equal transit lines share one object", "statement": "Reading relations, two lines with equal short name, origin and destination are represented by the same object and different ones by different objects, for any order of relations, ways and lookups.", "quantifier": "every sequence of relation lookups", "why_tests_cant": "Interning over all histories.", "anchors": ["src/pfaedle/osm/OsmBuilder.cpp getLines", "src/pfaedle/trgraph/EdgePL.h TransitEdgeLine operator< operator=="]}
{"id": "C53", "title": "Hop geometry follows the edges", "statement": "The line written for a hop starts at the start position, follows the geometry of the routed edges in travel order, each in its direction of travel, and ends at the end position; hops without a route are a straight line between their end points.", "quantifier": "all hops with any number of edges and geometries", "why_tests_cant": "All geometries and hop lengths.", "anchors": ["src/pfaedle/router/ShapeBuilder.cpp getLine getGeom"]}
{"id": "C54", "title": "Exit codes reflect the failure", "statement": "The program's return code is determined by the first failing step in a fixed order and is zero iff no step failed.", "quantifier": "all combinations of options and failures", "why_tests_cant": "All combinations.", "anchors": ["src/pfaedle/PfaedleMain.cpp main", "src/pfaedle/config/ConfigReader.cpp read"]}
{"id": "C55", "title": "Costs are converted to integers without undercutting", "statement": "Converting a cost to the integer cost used in routing rounds up, is monotone, and saturates; the integer is never below ten times the cost.", "quantifier": "all non-negative costs", "why_tests_cant": "All reals.", "anchors": ["src/pfaedle/osm/OsmBuilder.cpp costToInt"]}
{"id": "C56", "title": "Only trips that need a shape influence the OSM area and statistics", "statement": "The area used for reading OSM data covers every stop of every trip that is going to be shaped, except stops that the vehicle cannot reach and leave in time.", "quantifier": "all feeds, modes and options", "why_tests_cant": "All feeds.", "anchors": ["src/pfaedle/router/ShapeBuilder.cpp getGtfsBox", "src/pfaedle/router/Misc.h writeMotStops motISect"]}
{"id": "C57", "title": "Consecutive hops of a trip meet", "statement": "Each hop returned for a trip starts on the edge and at the position on it (or at the plain position) where the hop before it ended: there are no jumps at stops.", "quantifier": "every trie, candidate sets, costs and connectivity", "why_tests_cant": "The arrival and the departure at a stop are routed as different nodes with their own candidates; that their choices agree is a property of all combinations.", "anchors": ["src/pfaedle/router/Router.tpp route", "src/pfaedle/router/ShapeBuilder.cpp getECM"]}
{"id": "C58", "title": "The search heuristic never overestimates", "statement": "For every path from an edge to one of the targets of a search the heuristic value of the edge is at most the sum of the transition costs of the path, it decreases by at most the transition costs along every transition, and it is 0 at the targets, for all configured punish factors, also those below one.", "quantifier": "every graph with the costs written by the graph builder, every set of targets, every path, all positive punish factors and speeds", "why_tests_cant": "A shortest path search with an overestimating heuristic returns paths that are only sometimes wrong; the argument needs the rounding of all cost stages and the speed correction for all inputs at once.", "anchors": ["src/pfaedle/router/Weights.cpp DistHeur CostFunc", "src/pfaedle/osm/OsmBuilder.cpp costToInt writeGeoms writeOneWayPens writeNoLinePens", "src/pfaedle/config/MotConfigReader.cpp parse"]}
{"id": "C59", "title": "Graph edges follow the ways", "statement": "Every edge read from OSM data joins two nodes that are neighbours in a way that is kept, every two neighbours that lie in the reading area are joined by an edge of their way, in the direction of the way, and distinct OSM nodes never share a graph node.", "quantifier": "all OSM files, filters, reading areas and sets of no-turn nodes", "why_tests_cant": "Ways are cut at the border of the area and share nodes in all possible patterns.", "anchors": ["src/pfaedle/osm/OsmBuilder.cpp readEdges readBBoxNds"]}
{"id": "C60", "title": "A colour is taken from OSM only if it covers the trip", "statement": "A colour is chosen for a trip only if more than 90 percent of the length of its shape lie on edges that carry a matching line of that colour; among such colours the one with the largest share is chosen; if there is none, no colour is chosen.", "quantifier": "all networks, lines, colours and routed trips", "why_tests_cant": "The share is accumulated edge by edge with special cases for the first and the last edge, so errors show only for particular positions of the stops.", "anchors": ["src/pfaedle/router/ShapeBuilder.cpp getLine getGtfsShape getColorMatch"]}
{"id": "C61", "title": "Configured turn penalties are stored as given", "statement": "The cost of a full turn is the configured penalty, and the cost of a forbidden turn is the configured cost of entering a one-way edge, in the unit of all edge costs; values that are too large are limited to the greatest cost.", "quantifier": "all non-negative configured values", "why_tests_cant": "A wrong unit only changes which paths are preferred, and an overflow needs extreme values.", "anchors": ["src/pfaedle/config/MotConfigReader.cpp parse"]}
{"id": "C62", "title": "The candidate cache is complete and transparent", "statement": "After the parallel stage the cache holds exactly the stops of the trips to be shaped, each with its own candidates, and asking for the candidates of a stop gives the same with and without the cache.", "quantifier": "all stops, numbers of threads and schedules", "why_tests_cant": "Stops are dealt to threads and the partial caches are merged; a lost or mixed-up stop depends on the number of threads and on timing.", "anchors": ["src/pfaedle/router/ShapeBuilder.cpp buildCandCache edgCandWorker getEdgCands"]}
{"id": "C63", "title": "The evaluation cuts shapes at the stops", "statement": "For a trip with a non-empty shape and at least two stops, the evaluation tool cuts the shape into one piece per hop; piece i lies between the points of the shape at the travelled distances of stops i and i+1, which are interpolated in proportion between the two anchor points around them and clamped to the ends of the shape; a stop at the distance of an anchor point is cut exactly there.", "quantifier": "all shapes, travelled distances and stop times", "why_tests_cant": "A wrong bound of the binary search shows only for distances equal to anchor points or outside the range.", "anchors": ["src/shapevl/Collector.cpp segmentize"]}
{"id": "C64", "title": "The evaluation of a trip does not depend on other trips", "statement": "The line of the report for a trip is the same whichever other trips are evaluated before it, and equals what the plain distance functions give without caches.", "quantifier": "all feeds, orders and contents of the caches", "why_tests_cant": "Cached distances are shared between trips whose shapes are considered equal, so an effect needs particular pairs of trips in a particular order.", "anchors": ["src/shapevl/Collector.cpp add getDa", "src/shapevl/Collector.h lineCmp"]}
{"id": "C65", "title": "Reference trips with --unique represent all trips", "statement": "With --unique the evaluation tool compares one trip for each class of trips of the ground truth, namely the first one, together with the size of the class. Every trip with stops is in exactly one class; trips of one route with the same sequence of stops are in the same class, and trips of a class have the same route and the same sequence of stop names and platforms.", "quantifier": "all ground truth feeds, in any order of trips", "why_tests_cant": "Trips are distributed over several tries per route depending on their order; a trip filed twice or in a second class only appears for particular orders.", "anchors": ["src/shapevl/ShapevlMain.cpp eval", "src/pfaedle/router/TripTrie.tpp addTrip"]}
{"id": "C66", "title": "The evaluation tool prints every feed under its own name", "statement": "For every command line made of the documented options and feeds in any order, the last value of a repeated option counts, every feed is evaluated once, and the statistics printed for a feed (or written to its report) are those of this feed; with --avg each printed value is the mean over the feeds; feeds that cannot be read end the program with code 1.", "quantifier": "all command lines, feeds and statistics", "why_tests_cant": "Pairing of feeds, collectors and reports is by position in several containers; the combinations of options, duplicates and orders are unlimited.", "anchors": ["src/shapevl/ShapevlMain.cpp main printHelp"]}
{"id": "C67", "title": "Costs between the candidates of two stops are those of cheapest ways", "statement": "The costs computed between the candidates of two consecutive stops contain a pair exactly if the second candidate can be reached from the first for less than the maximum cost; the cost is that of a cheapest way between their edges, less the part of the first edge before the first candidate, plus the part of the last edge before the second. Costs remembered from earlier computations change nothing. In the fast mode, every pair listed has this cost, and each target is listed with the start that is best in total.", "quantifier": "all graphs, candidates, positions on edges, maximum costs and contents of the cache", "why_tests_cant": "Costs are offset, truncated, cut off and cached in several places; a lost pair only makes the result worse, which no test of an example notices.", "anchors": ["src/pfaedle/router/Router.tpp hops hopsFast connected cacheDrop"]}
{"id": "C68", "title": "The route of a trip is cheapest among all ways through the network, whatever the cache contains", "statement": "For every trip, the chosen candidates and ways have the least total cost among all choices of a candidate per stop and a ride, a stay or (only where no ride is affordable within the final limit) a jump between consecutive candidates, each ride costing what a cheapest way through the network costs. The limit of each pair of stops is determined by the candidates alone. Every ride that was counted is found again as a sequence of connected edges of exactly that cost. The route is the same with every content of the hop cache, and without cache.", "quantifier": "all graphs, candidates, cost functions, tries of trips, caches with true content", "why_tests_cant": "Layers, limits, cache and final search interact; a wrong optimum still is a plausible route, and no test enumerates all ways.", "anchors": ["src/pfaedle/router/Router.tpp route hops hopsFast", "src/pfaedle/router/HopCache.cpp"]}
{"id": "C69", "title": "A ride that keeps the schedule is never rejected as too expensive", "statement": "The first maximum cost of a hop is three times its time, raised by the factors for unmatched lines. The time is the scheduled one, but at least a minute and at least the time of a direct line at the greatest speed of the network around the previous stop. So every path without punished turns whose nominal time is less than three times the scheduled time is affordable, whatever lines are noted on its edges, and the result does not depend on the machine. Weights and their inverse fit.", "quantifier": "all schedules, candidates, speeds, distances, factors, paths", "why_tests_cant": "The number is a product of many parameters converted between floating point and 32 bit integers; a wrong limit only shows as a worse route.", "anchors": ["src/pfaedle/router/Router.tpp route", "src/pfaedle/router/Weights.cpp maxCost weight invWeight", "src/pfaedle/router/TripTrie.tpp add"]}
{"id": "C70", "title": "Turn restrictions of the map are honoured", "statement": "After reading an OSM file, a turn between two edges of the graph costs the penalty for restricted turns exactly if a turn restriction kept from the file is responsible: a forbidden turn from the way of the first edge to the way of the second over the node where they meet, or a demanded turn for the first edge that leads elsewhere. A demanded turn takes precedence over a forbidden one.", "quantifier": "all files, all relations and their members in any order, all ways, all nodes, any order of ways and rules", "why_tests_cant": "Rules refer to ways by id and are resolved to edges while ways are read, in any order; tests see a few crossings.", "anchors": ["src/pfaedle/osm/OsmBuilder.cpp readRestr readEdges processRestr", "src/pfaedle/osm/Restrictor.cpp add relax may", "src/pfaedle/router/Weights.cpp"]}
{"id": "C71", "title": "Closing gaps keeps what is connected and joins only near dead ends", "statement": "When an OSM map is read, dead ends that lie within a metre of each other are joined. No station is lost by this, what was connected stays connected, what is newly connected is so only over nodes that are within a metre, every gap between two dead ends is closed, and the directions of one-way streets and the turn rules are kept.", "quantifier": "all graphs, all positions of nodes, all orders of nodes and of what the grid yields, any stations", "why_tests_cant": "The pass changes the graph while it iterates over it; which of several dead ends meets which depends on the order of nodes in memory; tests have no maps with gaps.", "anchors": ["src/pfaedle/osm/OsmBuilder.cpp fixGaps buildNodeIdx"]}
{"id": "C72", "title": "Equivalent stations and blockers on the tracks are found", "statement": "Before a station is placed on a track, the tracks around are searched for an equivalent station and for blockers. The search ends; what it finds is such a node, and it is within the given distance along the tracks without a turn that is too sharp; and if there is such a node, one is found.", "quantifier": "all graphs, lengths, angles, distances, limits, all orders of equal elements in the queue", "why_tests_cant": "Depends on the geometry of crossings and on the order of the queue; tests have no crossings with several ways to them.", "anchors": ["src/pfaedle/osm/OsmBuilder.cpp depthSearch eqStatReach isBlocked", "src/pfaedle/osm/OsmBuilder.h NodeCand operator<"]}
{"id": "C73", "title": "Stations beside the tracks are placed on the tracks without changing the map", "statement": "A station of the map that is not on a track is placed on the tracks within the given distances. This changes neither where one can travel nor which turns are permitted, and no station of the map is lost or changed except for a missing track. New stations stand on a track of a permitted level, within the distance from their original; and unless an equivalent station or a blocker is found, each such track gets one.", "quantifier": "all graphs with their turn rules and stations, all geometries, distances, search results, orders of the queue", "why_tests_cant": "Splitting edges changes the graph, the turn rules and the shared station infos while the candidates are processed; tests have no turn rules on split edges.", "anchors": ["src/pfaedle/osm/OsmBuilder.cpp getEdgCands snapStation snapStats", "src/pfaedle/trgraph/NodePL.cpp setSI getSI", "src/pfaedle/osm/Restrictor.cpp replaceEdge"]}
{"id": "C74", "title": "The graph that is routed on offers the travel and the turns of the map", "statement": "After a map has been read and prepared for routing, one can travel between two of its stations, or any other nodes that are still there, exactly if one could in the map, driving along directed edges and never against a one-way street. Turns at such a node are permitted exactly if they were in the map. Stations stay and are where they were; each edge has one in the other direction, has the level and lines of an edge of the map, and its line leads from its start to its end past the nodes that were dropped. At a station one never has to turn back.", "quantifier": "all maps with one-way marks, turn rules, stations and stations beside tracks; all node orders, geometries and costs", "why_tests_cant": "Six passes rewrite the graph and the turn rules one after the other; whether rules and one-way marks survive all of them depends on the whole map.", "anchors": ["src/pfaedle/osm/OsmBuilder.cpp read writeGeoms deleteOrphNds collapseEdges simplifyGeoms writeODirEdgs writeSelfEdgs", "src/pfaedle/osm/Restrictor.cpp duplicateEdge replaceEdge"]}
{"id": "C75", "title": "The command line is understood as documented, in every spelling", "statement": "An option has the effect the help text describes, whether it is given in its short or long form, abbreviated, joined with other short options or with its value, before or after the feeds. Of options with one value the last one counts, feeds and configuration files keep their order, options not given have their default, and anything else is refused before work starts. Short and long form of an option do the same.", "quantifier": "all command lines: all lists of words, with options in every spelling and order", "why_tests_cant": "Command lines are unbounded lists of words, and the meaning of a word depends on the ones before it.", "anchors": ["src/pfaedle/config/ConfigReader.cpp read help", "src/pfaedle/config/PfaedleConfig.h Config", "src/pfaedle/PfaedleMain.cpp getCfgPaths main"]}
{"id": "C76", "title": "The routing graph shows the map of the file", "statement": "The routing graph made from an OSM file shows the wanted ways of the file: a node is where the file says; a vehicle can get from one place to another exactly if it can along the ways, with regard to one-way streets and to nodes where no turn is possible; edges carry the level and the lines of their way and their line runs between their ends; a place does not get lost but is a node or a point of a line; and exactly the turns are refused that the turn restrictions of the file refuse.", "quantifier": "all OSM files with the usual order of nodes, ways and relations, of any size, all options, all orders of hash maps and sets, all distance functions", "why_tests_cant": "The graph is the result of ten passes (reading, turn rules, closing gaps, placing stations, splitting, collapsing, reverse edges), each of which is correct only together with the others; files are unbounded.", "anchors": ["src/pfaedle/osm/OsmBuilder.cpp read readEdges readNodes processRestr fixGaps snapStats collapseEdges writeODirEdgs writeSelfEdgs", "src/pfaedle/trgraph/EdgePL.cpp", "src/pfaedle/osm/Restrictor.cpp"]}
{"id": "C77", "title": "Stations, blockers and turn cycles of the file are those of the graph", "statement": "Every node of a wanted way is what the tags of the file make of it: a station with a name, a blocker, a turn cycle or nothing, in this order of precedence. A wanted station beside the ways has a node of its own where the file says. A station on ways has its own track or, if it has none, the track of one of the ways. The routing graph has exactly these stations, with the same positions, and stations beside the ways also on edges in range; tracks are only ever filled in, never replaced.", "quantifier": "all OSM files with the usual order of nodes, ways and relations, of any size, all options, all orders of hash maps and sets, all distance functions", "why_tests_cant": "Markers are numbers in one field that also serve as indexes into a table shared by all nodes, written in several passes over unbounded files.", "anchors": ["src/pfaedle/osm/OsmBuilder.cpp readNodes writeEdgeTracks getStatInfo snapStats", "src/pfaedle/trgraph/NodePL.cpp"]}
{"id": "C78", "title": "Names, tracks and lines in the routing graph are those the rules find in the file", "statement": "A station of the routing graph has exactly the names that the configured rules find for its node in the OSM file, in the order of the rules, after decoding and normalising: a rule without a relation condition finds the tag of the node, one with a condition finds the tag of the first wanted relation that contains the node, meets the condition and has the tag. The platform is the first one found. A station without a name is none. An edge has exactly the lines (short name, origin, destination) of the wanted relations, with any name at all, of the ways between the same places, and equal lines are one object. Relations are never looked up outside the table.", "quantifier": "all OSM files with the usual order, all rules, filters and normalisers that keep the keys pfaedle keeps, all orders of hash maps and sets", "why_tests_cant": "Relations are compressed into index lists while streaming the file, and tags are dropped that no rule needs; which ones, and in what order relations speak, matters only for unbounded combinations of rules and relations.", "anchors": ["src/pfaedle/osm/OsmBuilder.cpp getAttr getAttrByFirstMatch getAttrMatchRanked getStatInfo getLines getKeptAttrKeys readEdges", "src/pfaedle/trgraph/StatInfo.h"]}
{"id": "C79", "title": "Options of a configuration section mean what their names say", "statement": "A section of a configuration file is either rejected because a value cannot be read or is negative, or it gives a configuration in which every number is the one given under its name, else the documented translation of the one given under its deprecated name, else the default, in the right unit. Replacing deprecated options as the program says, writing down defaults and adding unknown options change nothing. The greatest speed bounds the speed of every level with any of the factors, and is reached. For each attribute of a line the last rule counts. Every mode of a section is routed with the options of its section.", "quantifier": "all sections, all values, all files with any number of sections", "why_tests_cant": "There are some seventy options with old names, defaults that depend on other options and unit conversions; all their combinations cannot be tried.", "anchors": ["src/pfaedle/config/MotConfigReader.cpp parse", "src/pfaedle/osm/OsmReadOpts.h OsmReadOpts", "src/pfaedle/router/Misc.h RoutingOpts"]}
{"id": "C80", "title": "Routes are the cheapest drives through the map", "statement": "The route of a trip on the graph made from a map file consists, between any two stops that are not connected by a jump, of edges that each lie on ways of the file that the rules keep, drawn through the positions of their nodes, and follow each other at nodes; the drive costs what its edges, turns, refused turns and unmatched lines cost under the configured penalties, no drive between the two edges is cheaper, and the choice of candidates along the whole trip is the cheapest under all choices. Ways are driven against their direction and refused turns are taken only at the configured penalty.", "quantifier": "all map files, all rules, all configurations of penalties, all tries of trips, all candidates and fares", "why_tests_cant": "The claim joins reading the map, building the graph, writing components and routing; tests compare routes with expected ones for a few files and cannot show that no cheaper drive exists.", "anchors": ["src/pfaedle/osm/OsmBuilder.cpp read", "src/pfaedle/router/Router.tpp route", "src/pfaedle/router/Weights.cpp operator()"]}
{"id": "C81", "title": "Routing on a filtered map is routing on the map", "statement": "If a map file is filtered with the option that writes only what is needed for the configurations (`-X`), and the filtered file is then read with one of these configurations, the graph is the same as the one made from the whole file: the same nodes, edges, drawings, lines, station names, turn restrictions and tracks.", "quantifier": "all map files, all lists of configurations, all boxes, all orders in which attributes are stored", "why_tests_cant": "The filter decides with the merged rules of all configurations and writes relations before it knows which members are lost; a test compares a few files, and the loss shows only as another route somewhere.", "anchors": ["src/pfaedle/osm/OsmBuilder.cpp filterWrite", "src/pfaedle/osm/OsmBuilder.cpp readWriteNds", "src/pfaedle/osm/OsmBuilder.cpp readWriteWays", "src/pfaedle/osm/OsmBuilder.cpp readWriteRels", "src/pfaedle/osm/OsmFilter.cpp merge"]}
{"id": "C82", "title": "Queries for map data ask for all that is needed", "statement": "If the part of a map is loaded that the written Overpass query or the written osmfilter rules select (`--overpass`, `--osmfilter`), the graph made from it is the graph made from the whole map.", "quantifier": "all maps, all lists of configurations, all boxes of trips, all servers that deliver at least what is asked for", "why_tests_cant": "What is missing in a download does not show as an error, only as a route elsewhere; a test with one download cannot compare it with the whole map.", "anchors": ["src/pfaedle/osm/OsmBuilder.cpp overpassQryWrite", "src/pfaedle/osm/OsmBuilder.cpp osmfilterRuleWrite", "src/pfaedle/osm/OsmFilter.cpp merge", "src/pfaedle/osm/BBoxIdx.cpp getLeafs", "src/pfaedle/PfaedleMain.cpp main"]}
{"id": "C83", "title": "The transit network graph shows what is used and by whom", "statement": "With `--write-trgraph` every piece of the network that is used by a trip appears once in the written graph, with its line between its ends, the short names of exactly the routes and trips that use it and the number of these trips. The graph does not depend on the number of threads or on how the work was distributed among them.", "quantifier": "all routing graphs, all routes of trips, all numbers of worker threads and all schedules, all orders of hash maps", "why_tests_cant": "Which worker does what differs from run to run, and an edge that is missing from a graph of a city is not seen.", "anchors": ["src/pfaedle/router/ShapeBuilder.cpp writeTransitGraph", "src/pfaedle/router/ShapeBuilder.cpp buildNetGraph", "src/pfaedle/router/ShapeBuilder.cpp shapeWorker", "src/pfaedle/router/ShapeBuilder.cpp shapeify", "src/pfaedle/netgraph/EdgePL.h EdgePL getAttrs", "src/pfaedle/netgraph/Graph.h"]}
{"id": "C84", "title": "The written feed says the same as the read feed, except for shapes and colours", "statement": "Whatever feed is read and whatever is matched: the written feed has the same trips, each on a route that differs from its old one in id and colour at most (and in colour only if colours are to be written and the route had none); no route is lost; all references lead somewhere; the same fare rules hold for the same trips; and all other files have the rows that they had.", "quantifier": "all feeds without errors, all results of the matching, all orders of hash maps, all places of input and output, all runs of the writer that reach their end", "why_tests_cant": "A fare rule or an attribution that is lost in one of thousands of routes is not looked for by a test of the shapes.", "anchors": ["src/pfaedle/gtfs/Writer.cpp Writer::write", "src/pfaedle/gtfs/Writer.cpp writeFareRules", "src/pfaedle/gtfs/Writer.cpp writeRoutes", "src/pfaedle/gtfs/Writer.cpp writeTrips", "src/pfaedle/gtfs/Writer.cpp writeAttribution", "src/pfaedle/gtfs/Writer.cpp writeFrequencies", "src/pfaedle/router/ShapeBuilder.cpp updateRouteColors", "src/pfaedle/PfaedleMain.cpp main"]}
{"id": "C85", "title": "Every trip's shape in the output is the line that was found for it", "statement": "Whatever lines are found for whatever trips, for any number of mode configurations, and however the workers are scheduled: in the written feed, the shape of each trip for which a line was found consists of exactly the points of this line, in order; each other trip has the shape that it had, unchanged; trips for which lines were found separately do not share a shape; and no other shapes are written, except for those of the input that no trip had.", "quantifier": "all feeds without errors, all lines, all numbers of mode configurations and workers, all schedules, all runs of the writer that reach their end", "why_tests_cant": "A shape that is lost, mixed with another one or assigned to another trip under a rare schedule, or only when several modes are configured, is not seen by tests that run one thread on one mode.", "anchors": ["src/pfaedle/router/ShapeBuilder.cpp ShapeBuilder::shapeify", "src/pfaedle/router/ShapeBuilder.cpp ShapeBuilder::shapeWorker", "src/pfaedle/router/ShapeBuilder.cpp ShapeBuilder::setShape", "src/pfaedle/router/ShapeBuilder.cpp ShapeBuilder::getFreeShapeId", "src/pfaedle/router/ShapeBuilder.cpp ShapeBuilder::clusterTrips", "src/pfaedle/gtfs/ShapeContainer.tpp ShapeContainer", "src/pfaedle/gtfs/Writer.cpp writeShapes", "src/pfaedle/gtfs/Writer.cpp writeTrips", "src/pfaedle/PfaedleMain.cpp main"]}
{"id": "C86", "title": "The distances in stop_times.txt are those that were found, stop by stop", "statement": "Whatever lines and distances are found for whatever trips, for any number of mode configurations, and however the workers are scheduled: in the written feed, stop_times.txt has the rows of the input, in the same order, and only distances differ. Each stop of a matched trip has the distance that was found for it, in the order of the sequence numbers, and the stops of other trips keep theirs. In the output, the stops of a matched trip go along its shape: distances never decrease, the first stop is at the first point, the last stop at the last point, and each stop is where its hop ends.", "quantifier": "all feeds without errors, all lines and distances, all numbers of mode configurations and workers, all schedules, all runs of the writer that reach their end, rows in any order", "why_tests_cant": "The distances pass through a set ordered by a truncated number, a vector that is indexed by position, and a second reading of the file; feeds with rows out of order, several modes or great sequence numbers are not in the tests.", "anchors": ["src/pfaedle/gtfs/StopTime.h StopTime::getSeq", "src/pfaedle/gtfs/StopTime.h StopTimeCompare", "src/pfaedle/router/ShapeBuilder.cpp ShapeBuilder::setShape", "src/pfaedle/router/ShapeBuilder.cpp ShapeBuilder::shapeWorker", "src/pfaedle/gtfs/Writer.cpp Writer::writeStopTimes", "src/pfaedle/PfaedleMain.cpp main"]}
{"id": "C87", "title": "From the feed and the map to the output: every trip that needs a shape gets one along a cheapest way through its stops", "statement": "For any feed, any map, any mode configurations and any schedules: matching never has undefined behaviour, and when the workers and the writer have ended, each trip that needs a shape (no shape or --drop-shapes, at least two stops, a type of the configuration) has a shape in the output that follows a cheapest way through the candidates of its stops, with one hop for each two consecutive stops, each starting where the one before ends; its stops have distances of points of this shape, in order, each where its hop ends. All other trips have the shape and the stop times of the input.", "quantifier": "all feeds without errors, all maps, candidates, costs and hop costs, all numbers of mode configurations, threads and forests, all schedules of clustering and matching, all runs of the writer that reach their end", "why_tests_cant": "Clustering, candidates, routing, geometry, shared containers and the writer are tested one by one at best; that what one of them returns is what the next one needs, for each trip and each schedule, is a statement about all of them together.", "anchors": ["src/pfaedle/router/ShapeBuilder.cpp ShapeBuilder::shapeify", "src/pfaedle/router/ShapeBuilder.cpp ShapeBuilder::shapeWorker", "src/pfaedle/router/ShapeBuilder.cpp ShapeBuilder::clusterTrips", "src/pfaedle/router/ShapeBuilder.cpp ShapeBuilder::getECM", "src/pfaedle/router/ShapeBuilder.cpp ShapeBuilder::getGtfsShape", "src/pfaedle/router/Router.tpp RouterImpl::route", "src/pfaedle/PfaedleMain.cpp main"]}
{"id": "C88", "title": "From the feed and the OSM file to the output: every trip that needs a shape gets a cheapest journey on the map of the file", "statement": "For any feed, any OSM files, any mode configurations and any schedules: when the workers and the writer have ended, the shape of each trip that needs one follows a cheapest journey through its stops in the routing graph read from the OSM file, with the costs for its own routing attributes. Each hop is either a jump, because no ride was found for that stop, or a cheapest drive along edges of the graph, which are pieces of ways of the file; where it does not pay for driving against a one-way street, the file permits to go there. The hop cache shared by the tries of a forest never changes this: its records are true for the attributes of every trip of the forest.", "quantifier": "all feeds without errors, all OSM files, candidates, costs and attributes, all numbers of mode configurations, threads and forests, all schedules, all runs of the writer that reach their end", "why_tests_cant": "Reading the file, grouping by attributes, the cache shared between tries, the router and the output each work on what another one made; that the result for each trip is cheapest on the map, whatever was routed before, needs an invariant over all of them.", "anchors": ["src/pfaedle/PfaedleMain.cpp main", "src/pfaedle/osm/OsmBuilder.cpp OsmBuilder::read", "src/pfaedle/router/ShapeBuilder.cpp ShapeBuilder::shapeWorker", "src/pfaedle/router/ShapeBuilder.cpp ShapeBuilder::clusterTrips", "src/pfaedle/router/Router.tpp RouterImpl::route", "src/pfaedle/router/Router.tpp RouterImpl::hops", "src/pfaedle/router/HopCache.cpp HopCache::get"]}
{"id": "C89", "title": "A trip that is matched alone gets a cheapest journey on the map, whatever other trips there are", "statement": "With -T, for any feed, any OSM file and any trip with at least two stops, the lines written for the trip are those of a cheapest journey through its stops on the map of the file, with the costs for its own routing attributes: one line for each two consecutive stops, in the order of travel, each beginning where the one before ends. They do not depend on any other trip of the feed. For a trip with fewer than two stops the outcome should be defined.", "quantifier": "all feeds, OSM files, candidates, costs and attributes, all trips", "why_tests_cant": "A cheapest journey is one against all other journeys on all maps; tests compare with a few. Independence of other trips ranges over all feeds.", "anchors": ["src/pfaedle/PfaedleMain.cpp main", "src/pfaedle/router/ShapeBuilder.cpp ShapeBuilder::shapeL", "src/pfaedle/router/ShapeBuilder.cpp ShapeBuilder::shapeify", "src/pfaedle/router/ShapeBuilder.cpp ShapeBuilder::getGeom", "src/pfaedle/router/Router.tpp RouterImpl::route"]}
{"id": "C90", "title": "Shapes pass close to the stops of their trips", "statement": "For any feed and any OSM file, each trip that gets a shape passes close to its stops: for each stop the written shape has a point with the distance that is written for the stop, and this point is the position of the stop itself or not further away from it than is permitted by the configuration. Vehicles are put only on streets and tracks of permitted levels and not against the direction of one-way streets, at the projection of the stop or at a station in reach. Looking for such places never fails, whatever the file contains.", "quantifier": "all feeds, OSM files, stops, trips, options, costs and schedules of the threads", "why_tests_cant": "The distance is claimed for each stop of each trip on each map, after clustering, routing, cutting and simplifying lines, and writing two files; tests look at a few stops.", "anchors": ["src/pfaedle/router/ShapeBuilder.cpp ShapeBuilder::getEdgCands", "src/pfaedle/router/ShapeBuilder.cpp ShapeBuilder::buildIndex", "src/pfaedle/router/ShapeBuilder.cpp ShapeBuilder::getECM", "src/pfaedle/router/ShapeBuilder.cpp ShapeBuilder::shapeify", "src/pfaedle/router/ShapeBuilder.cpp ShapeBuilder::getGTFSShape", "src/pfaedle/PfaedleMain.cpp main"]}
{"id": "C91", "title": "Trips are matched by the stops, types and names in the files of the feed", "statement": "For any feed with valid tables, a trip gets a shape if and only if it has none (or shapes are dropped), has at least two rows in stop_times.txt, and its route in routes.txt has a type that is asked for and that a mode configuration is for. Its stops are those of its rows in stop_times.txt in the order of their numbers, with names, platforms and positions from stops.txt, whatever the order of the rows in the files. In the output each row of such a trip in stop_times.txt has the distance of a point of its shape that is close to the stop of the row; all other trips keep their shapes and rows. Trips are put into the same group if and only if the normalised names of their lines and of their first stops are equal.", "quantifier": "all feeds, OSM files, mode configurations, options and schedules of the threads", "why_tests_cant": "The claim joins rows of six files of the input and the output; tests use feeds with few rows, mostly in order.", "anchors": ["src/pfaedle/router/ShapeBuilder.cpp ShapeBuilder::clusterTrips", "src/pfaedle/router/ShapeBuilder.cpp ShapeBuilder::getRAttrs", "src/pfaedle/router/RoutingAttrs.h RoutingAttrs", "src/pfaedle/gtfs/StopTime.h StopTimeCompare", "src/pfaedle/PfaedleMain.cpp main"]}
{"id": "C92", "title": "Debug files and statistics tell what was computed", "statement": "With `--write-graph`, `--write-trgraph` and `--stats` the program writes the documented files: the graph that was used, the graph of the transit lines of each mode, and the statistics: the number of nodes and edges of the graph of each mode, the numbers of stations and trips, of tries, of their leafs and of search iterations, and the average distance between stops, summed over all mode configurations that were used. Files of different modes have different names. With `-T` the matched trip and the graph are written.", "quantifier": "all feeds, mode configurations, options and contents of the debug directory", "why_tests_cant": "Names and contents depend on which configurations are used for which modes; tests that run with one configuration see neither overwritten files nor sums.", "anchors": ["src/pfaedle/PfaedleMain.cpp main", "src/pfaedle/PfaedleMain.cpp getFileNameMotStr", "src/pfaedle/router/Stats.h Stats", "src/pfaedle/router/Misc.h motISect"]}
{"id": "C93", "title": "A filtered map serves all feeds and modes that lie in its area", "statement": "A map that was filtered (`-X`) for several feeds and modes, or without any feed for the area of its `bounds` tag, can be used for each of the feeds and modes: the graph for it is the one made from the whole map. Without a feed the area is that of the `bounds` tag, with padding; without feed and a complete `bounds` tag there is an error and nothing is written. The written file has the box around its area as `bounds`, so that it can be filtered again.", "quantifier": "all maps, feeds, boxes of trips, mode configurations and paddings", "why_tests_cant": "Whether all that is needed is in the filtered file depends on the boxes of all trips and on the way they are joined; tests would have to compare graphs for all of them.", "anchors": ["src/pfaedle/osm/OsmBuilder.cpp OsmBuilder::filterWrite", "src/pfaedle/osm/BBoxIdx.cpp BBoxIdx::addToTree", "src/pfaedle/router/ShapeBuilder.cpp ShapeBuilder::getGtfsBox", "src/pfaedle/PfaedleMain.cpp main"]}
{"id": "C94", "title": "The sets of node ids do not change the graph", "statement": "While a map is read or filtered, the ids of the nodes in the area and of the nodes without turns are kept in files behind a filter that may give wrong answers. The graph and the filtered map do not depend on that: they are those of a program that knows exactly which nodes are in the area and which nodes have no turns. Asking a set does not change later answers.", "quantifier": "all maps with 64 bit ids, mode configurations, areas, sizes of buffers, hash functions and orders of questions", "why_tests_cant": "Wrong answers depend on collisions of hashes among millions of ids; a test map has too few of them.", "anchors": ["src/pfaedle/osm/OsmIdSet.cpp OsmIdSet::has", "src/pfaedle/osm/OsmBuilder.cpp OsmBuilder::readBBoxNds", "src/pfaedle/osm/OsmBuilder.cpp OsmBuilder::readEdges", "src/pfaedle/osm/OsmBuilder.cpp OsmBuilder::filterWrite"]}
{"id": "C95", "title": "Running the program again changes nothing", "statement": "If the program is run without `--drop-shapes` on its own output, for no other vehicle types than in the first run (which may have been with or without `--drop-shapes`), the feed stays as it is: no trip is matched, and routes, trips, shapes, stop times and copied files are the same. The same holds for every feed in which nothing is left to be done.", "quantifier": "all feeds, mode configurations, schedules of the threads and runs of the writer", "why_tests_cant": "Tests would have to run the program twice for all feeds and compare all rows; what the second run sees depends on ids, colours and distances that the first run has chosen.", "anchors": ["src/pfaedle/router/ShapeBuilder.cpp ShapeBuilder::shapeify", "src/pfaedle/router/ShapeBuilder.cpp ShapeBuilder::updateRouteColors", "src/pfaedle/gtfs/Writer.cpp Writer::write", "src/pfaedle/PfaedleMain.cpp main"]}
{"id": "C96", "title": "The printed results of an evaluation are those of the report", "statement": "What the evaluation tool prints for a feed agrees with its report: the numbers of trips, of compared trips and of the others, the trips with the highest and the lowest average distance, the average, and the percentages of trips with at most the given share of unmatched segments, in the summary, the long form and the statistics for JSON. With several feeds, results are printed in order under the name of the feed, and averages are those of the values of the feeds.", "quantifier": "all feeds, ground truths, geometries and ways of printing numbers", "why_tests_cant": "The printed numbers depend on all compared trips and on the order of a set; tests compare a few outputs.", "anchors": ["src/shapevl/Collector.cpp Collector::printShortStats", "src/shapevl/Collector.cpp Collector::printStats", "src/shapevl/Collector.cpp Collector::getStats", "src/shapevl/ShapevlMain.cpp main"]}
{"id": "C97", "title": "Trips that ask for the same line share one shape", "statement": "Trips of one mode configuration that ask for the same line, that is, trips with equivalent routing attributes and the same stops in the same order (and the same times relative to their start, if times are compared), have the same shape in the output. Conversely, trips with new shapes share a shape only if they were matched together, with equivalent routing attributes and stops of the same names and platforms in the same order.", "quantifier": "all feeds, maps, mode configurations, numbers of threads and schedules", "why_tests_cant": "Which trips end up in the same leaf depends on all other trips and on the order of the tries; which id they get depends on the schedule of the threads.", "anchors": ["src/pfaedle/router/ShapeBuilder.cpp ShapeBuilder::clusterTrips", "src/pfaedle/router/ShapeBuilder.cpp ShapeBuilder::shapeWorker", "src/pfaedle/router/TripTrie.tpp TripTrie::add", "src/pfaedle/router/RoutingAttrs.h operator<"]}
{"id": "C98", "title": "The reported numbers are those of the output", "statement": "The number of matched trips that is reported is the number of trips that needed a shape, each counted once. The number of leafs in the statistics is the number of different shapes that these trips have in the output feed, over all mode configurations. The number of tries in the statistics is not greater than that.", "quantifier": "all feeds, maps, mode configurations, numbers of threads and schedules", "why_tests_cant": "The numbers are taken from the tries before matching; that they describe the output depends on how trips are clustered, on all schedules of the threads, and on the ids of the shapes.", "anchors": ["src/pfaedle/router/ShapeBuilder.cpp ShapeBuilder::shapeify", "src/pfaedle/router/Stats.h Stats", "src/pfaedle/PfaedleMain.cpp main"]}
{"id": "C99", "title": "The result does not depend on the number of threads and their timing", "statement": "Two runs of the program with the same feed, the same map and the same configuration give the same result, whatever the number of threads, their timing and the distribution of the work: each trip has the same points with the same distances, trips that got a new shape share it in both outputs or in none, trips that did not need a shape have the same shape, stop_times.txt is the same, routes.txt has the same routes and colours, and each trip is on the same route. Only the ids of new shapes may differ.", "quantifier": "all feeds, maps, mode configurations; all pairs of numbers of threads, schedules and distributions of the work", "why_tests_cant": "A test runs under one timing; races show under few of the schedules, and the number of schedules is not bounded.", "anchors": ["src/pfaedle/router/ShapeBuilder.cpp ShapeBuilder::shapeify", "src/pfaedle/router/ShapeBuilder.cpp ShapeBuilder::clusterTrips", "src/pfaedle/router/ShapeBuilder.cpp ShapeBuilder::clusterWorker", "src/pfaedle/router/ShapeBuilder.cpp ShapeBuilder::shapeWorker"]}
{"id": "C100", "title": "Further trips do not change the shapes of unrelated trips", "statement": "If trips are added at the end of a feed, and their routing attributes (the name of the line and the stop where it begins) differ from those of all trips before, then, with the same map and configuration, each trip of the smaller feed that needs a shape gets the same points in the same order with the same distances as without them, and two such trips share their shape with the added trips in the feed if and only if they share it without them; if its rows in stop_times.txt are the same in both feeds, its stops get the same distances. Trips that need no shape keep theirs in both cases. This holds whatever the number of threads and their timing.", "quantifier": "all feeds, all lists of further trips with other routing attributes, maps, mode configurations, numbers of threads, schedules and distributions of the work", "why_tests_cant": "A test compares two feeds; the claim is about every feed and every extension of it, and about every timing of the threads.", "anchors": ["src/pfaedle/router/ShapeBuilder.cpp ShapeBuilder::shapeify", "src/pfaedle/router/ShapeBuilder.cpp ShapeBuilder::clusterTrips", "src/pfaedle/router/ShapeBuilder.cpp ShapeBuilder::shapeWorker"]}
