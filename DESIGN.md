# Formal model of pfaedle: design

The C++ sources in /repo are read as text; nothing is built or run. The model
is written in Lean 4 (core library, single Mathlib modules where needed) as
total, computable functions over lists, finite maps and structures. One area of
the code is one directory under `lean/Verif/`:

* `Model.lean`  – the code, function by function, with file:line citations
* `Lemmas.lean` – helper lemmas
* `Props.lean`  – a small specification, the property theorems and non-vacuity
  examples. Property theorems are named `Cnn_...`.

`MANIFEST.json` maps each property of `properties.jsonl` to its theorems.

## General modelling decisions

* Pointers are abstract identities (`Nat` or a type with decidable equality).
* `std::map`, `std::set`, `std::unordered_map` are association lists or
  functions. Where iteration order of a hash map is unspecified the order is a
  parameter and the theorem quantifies over it.
* Sizes (`BUFFER_S`, `SORT_BUFFER_S`, thread counts, levels) are parameters
  whenever the code does not depend on the particular number.
* 32 bit wrap-around is modelled explicitly (numbers modulo 2^32).
* `double`/`float` is modelled by an abstract ordered type with the monotonicity
  facts actually used (true of IEEE round-to-nearest without NaN), or by exact
  rationals; each definition says which.
* Undefined behaviour (null dereference, out of bounds, dangling pointer) is a
  distinct outcome (`none`/`Except`), never a default value.
* Threads are interleavings of atomic steps (mutex critical sections and atomic
  counter operations). Data races on non-atomic data are reported as findings.
* The submodules util, xml, configparser and cppgtfs are not present in /repo:
  their functions (EDijkstra, SparseMatrix, Geo, XML parser, GTFS containers)
  are parameters with stated contracts.

## Plan per property

| id | modelled | proof |
|----|----------|-------|
| C01 | HopCache over an integer sparse matrix | last-write refinement, induction over histories |
| C02 C03 C04 C05 | OsmIdSet: add/nadd/has/close, blocks, byte-offset binary search, external merge sort, two bloom filters, parametric hashes and sizes | invariants over histories, loop invariants, sorted permutation |
| C06 | ShapeContainer byte stream and reader state machine | induction over stored shapes, failure witnesses for excluded inputs |
| C07 | writeShapes loop with its two memo ids | induction over the source points |
| C08 | getFreeShapeId critical sections, arbitrary schedules | invariant over schedule |
| C09 C10 C11 | TripTrie add/get/addTrip | invariant over add histories; stability of first matches (Canon) |
| C12 | clusterTrips, clusterWorker, round robin, schedules | partition lemmas; forest invariant (CanonForest) |
| C13 C14 | Router::route DP over the trie, abstract cost order | induction along trie paths |
| C15 C16 C17 | CostFunc, DistHeur, addNonOverflow | state invariant, case analysis, arithmetic |
| C18 C19 C20 | Restrictor add/relax/may/replace/duplicate | refinement to rule multiset |
| C21 | BBoxIdx tree | invariant: every child of the root is a chain of equal boxes (first-child descent is therefore complete) |
| C22 | Normalizer with cache | invariant over histories |
| C23 | NodePL with global table | refinement to an enumeration |
| C24 | EdgePL reference counts | heap invariant over histories |
| C25 C26 | Comp.h, StatInfo::simi | case analysis |
| C27 | RoutingAttrs merge, simi and its cache | sorted set refinement; stale cache witness |
| C28 C29 C30 | OsmFilter | order independence; negation witness for missing keys |
| C31 C32 C33 C59 | OSM event stream readers (`Osm/Stream`, `Osm/GraphRead`), documents as specification (`Osm/Doc`) | induction over event lists, characterisation of whole passes |
| C34 | writeComps DFS | reachability invariant |
| C35 C36 | edgesSim, mergeEdgePL, writeODirEdgs, revCopy | case analysis over orientations; witness for one-way merge |
| C37 C38 | parseHexColor, getTextColor | string case analysis; exact arithmetic |
| C39 C40 C61 | getKv, getFlags, config dedup, turn costs | list induction; negation witness |
| C41 C42 C43 | Writer steps as file system transitions | invariant over every prefix (crash point) |
| C44 C63 C64 | shapevl Collector: segmentize, add, getDa, lineCmp caches, statistics | invariant over histories; rational arithmetic; cache invariant under separation |
| C45 | work counters of pfaedle and shapevl, schedules | invariant over schedules |
| C65 | shapevl `--unique` on top of the model of TripTrie | canonical node of a stop sequence is stable; every trie of a forest rejects what later ones have |
| C66 | shapevl main: options, report streams, printing | induction over the command line |
| C67 | RouterImpl::hops, hopsFast, connected, with the edge search as a parameter | invariant of the cost matrix and of the cache over the start edges; exact rationals for positions |
| C68 | `Verif.Full`: `route` with `hops`/`hopsFast` and the final search put in (Router.tpp 24-280) | layers and limits of C14/C15 and exact hops of C67; plans of rides, stays and jumps as specification; simulation of two searches with different caches |
| C69 | maxSpeed, hopTime, `maxCost`, `weight`, `invWeight` (Router.tpp 55-96, Weights.cpp 176-259), doubles as rationals with infinity and NaN, undefined conversions as `none` | exact formula; bound of punished path costs by induction over the path |
| C70 | `readRestr`, the turn rules part of `readEdges`, `processRestr`, `isRestricted` (OsmBuilder.cpp 739-765, 984-1022), on the document and graph of C59 and the restrictor of C18/C19 | invariant: the calls made belong to the edges read; weak resolution of rules without the one edge proviso |
| C71 | `fixGaps` (OsmBuilder.cpp 1123-1165) on the graph of C35; the grid and the distance are parameters | a relation between earlier and later states (replacement of removed nodes) that composes; dead ends stay dead ends until they are joined |
| C72 | `depthSearch`, `NodeCand` (OsmBuilder.cpp 1196-1271, OsmBuilder.h 48-76); distances in any linear order with monotone addition, the queue a parameter | invariants of a best-first search; a measure for its end |
| C73 | `getEdgCands`, `snapStation`, `snapStats` (OsmBuilder.cpp 1274-1356, 1853-1868) on the graph, payload and restrictor models; geometry and the searches of C72 are parameters | a relation between earlier and later graphs, composed over candidates, stations and distances; the splitting theorem C20 for turn rules |
| C74 | second half of `OsmBuilder::read` (OsmBuilder.cpp 137-171): snapping, collapsing, `writeGeoms`, `deleteOrphNds`, `simplifyGeoms`, `writeODirEdgs` with the restrictor, penalties, `writeSelfEdgs`; costs and simplification are parameters | composition of the relations of C73, C35 and C36, with an explicit map of edges of the map to edges for arriving and leaving; invariants for one-way marks and rules through all passes |
| C75 | `ConfigReader::read` (ConfigReader.cpp 125-276) with `getopt_long` after glibc, `Config()`, `getCfgPaths`, the output path; `atof`, `util::split`, `util::trim`, `getTypesFromString` are parameters | a grammar of command lines (`Line`) and the meaning of its items (`Means`) as specification; the scanner accepts exactly the grammar (both directions), the switch by induction over the items |
| C76 | `OsmBuilder::read` (OsmBuilder.cpp 59-175) as a whole: the models of C33, C70, C71, C73, C74 with the attributes `readEdges` gives to edges | a specification on the level of the file: places, pieces of ways, travel along them (`Strict`), turn restrictions (`Obeys`); an invariant relates graph nodes to places, the rest by composition |
| C77 | `readNodes` (OsmBuilder.cpp 841-890), `writeEdgeTracks` (1728-1739) within the model of C76 | each graph node has an abstract marker (`Kind`, C23); an invariant over the nodes of the file says which; tracks by induction over the hash map in any order; then C73 and C74 |
| C78 | `getAttr` and its callers (OsmBuilder.cpp 1025-1100), their use in `readEdges` and `readNodes`, `getLines` (C52) over all ways, `getKeptAttrKeys` | the index lists of relations (C70) are sorted, so the first index is the first relation of the file; values are unique; then C52, C76 and C77 with the parameters of these models given by the file |
| C79 | `MotConfigReader::parse` (MotConfigReader.cpp 30-644) over sections as maps of values; `configparser` is a parameter; doubles are rationals, division by zero ends the model | each number is a case distinction on the new and the old name; the product of the factors below 1 is the least product of a sublist; two sections with the same numbers are read in the same way; joining by C40 |
| C80 | the cost function over the graph of `Whole.build`, components written on the graph at OsmBuilder.cpp:152, `Full.Net` with edges numbered by position | C34, C58: all nodes of an edge have one component; C16: the cost of a turn is the exact cost if it fits into 32 bits; a cheapest way of C68 is a cheapest list of edges with tolls, each of which is drawn and permitted by C76/C77 |
| C81 | `filterWrite` as a function from the tags of a file to the tags of the written file, with a pen for what writing does to positions, keys and values | reading is characterised by C29, C31, C33 and C76 for both files; nodes, ways and relations of the written file are those of the file that one of the configurations may keep; the two readings are related element by element, then the graph is the same by simulation of all steps |
| C82 | `overpassQryWrite` and `osmfilterRuleWrite` as lists of queries and rules; what a server delivers as an inductive closure | a part of a map with all that may be used gives the same lists of ways and nodes and the same relations of these, turn restrictions between other ways have no effect; then the graph is the same by the simulation of C81; the queries deliver such a part by C21 and C30 |
| C83 | `writeTransitGraph`, the maps of the worker threads under a schedule, their merge, `buildNetGraph` and the attributes of its edges | invariant: what is filed in the maps and what is still to be filed is, up to order, the list of all rides; then induction over the entries of the merged map |
| C84 | reading of routes, trips and fare rules by id (assumption on cppgtfs), the split of routes by colour (model of C48), the rows of trips, and all files of the writer (model of C41/C42) on one feed | composition of `C48_split`, `C42_copied` and `C42_memory`, induction over the rows of trips |
| C85 | the workers of all mode configurations one after the other on one shape container (models of C06/C45/C47), the colours of the routes, and the writer (models of C41/C42/C84) on one feed | invariant: for which leaf an id was handed out; invariant between two mode configurations; composition with `C07_shapes_file` and `C42_memory` |
| C86 | stop times in memory (a set ordered by the 16 bit `getSeq`), the distances set by the workers of all mode configurations, and the writer (models of C43/C85) on one feed | the set is a sorted permutation of the rows of a trip, so the index of a stop is the number of smaller sequence numbers; composition with `C43_stream`, `C42_shapes_stop_times`, `C85_lines` and `C46_shape_partial` |
| C87 | the whole matching: clustering (C12), candidate table (C49), router (C13, C14, C57), line and distances (C46), hop cache passed from trie to trie, workers and writer (C85, C86), for all mode configurations | every trie of a forest is the result of a history of `addTrip` (induction over the schedule), so the theorems about tries and routes hold for each leaf; hops satisfy the conditions of C46 as they join candidates of the table; permutation of filed trips gives the conditions of C85/C86 |
| C88 | the whole matching on the graph of an OSM file: `Verif.Build` with the network of `Verif.Journey`, hop cache per forest | all tries of a forest have the attributes of one trip (invariant of clustering), hence every record in the cache is a distance for these attributes (invariant over the tries routed before); with that C68 gives cheapest plans, C80 gives edges of the map, and C87 the output |
| C89 | `-T`: `Verif.Single`, a trie with one trip, the router of C68 without hop cache, the lines of C53 | the trie of one trip has one leaf and only the attributes of this trip (invariant of C09/C10 for a history with one call); then C68, C80 and C53; fewer than two stops by computation |
| C90 | `Verif.Visit`: `buildIndex` and `getEdgCands` (C50) on the graph that is read from an OSM file (C76), as candidates of the nodes of the tries in C88 | no node of the graph is a dead end (C74), so C50 applies; candidates of departures come from the arrival before them (invariant of C14); hops of a plan join candidates of the nodes on the path of the trip; the ends of hops are points of the shape with the distances of the stops (C46, C86, C87) |
| C91 | `Verif.Intake`: what `clusterTrips` and `getRAttrs` read of a trip, from the rows of routes.txt, trips.txt, stops.txt and stop_times.txt | the set of stop times is sorted and a permutation of the rows, so the place of a row is the number of rows with smaller numbers; a trip without shape keeps none until a configuration matches it (invariant of C45); then C90 |
| C92 | `Verif.Report`: the loop over mode configurations of `main` with the files in the debug directory and the statistics (PfaedleMain.cpp 251-474) | file names are injective in the modes of a configuration; invariant of the loop: each file is that of the last used configuration with its name, the numbers are sums over the used configurations |
| C93 | `Verif.Region`: the choice of the area in `filterWrite` (boxes or `bounds` tag) around the model of C81 | the simulation of C81 for an area that includes the one that is read; boxes that are reported only grow (C21); filtering looks only at tags from the first node on |
| C94 | `Verif.Ids`: the id sets of `Verif.OsmIdSet` as the sets of `Verif.Whole` and `Verif.Osm` | answers by C02, C03 and C05; graph and filtered file look at sets only for nodes of the file and for nodes that ways refer to |
| C95 | `Verif.Again`: the model of C87 applied to its own output | a run without trips to be matched leaves shapes, trips and distances alone; text colours written by the first run are those the second run computes; the output of the first run is valid and complete |
| C96 | `Verif.Eval.Print`: the printing functions of the collector and of `main` | the texts are compared with texts made from the rows of the report; invariants of C44 |
| C97 | `Verif.Share`: the clusters of C12, the leafs of C87 and the ids of C85 together; `Verif.Result.Together`: trips of one leaf get one id | invariant over all schedules of the workers; C12_alike_share and C12_each_trip_once for the tries |
| C98 | `Verif.Counts`: the counters of `Stats`, over the tries of all mode configurations | the leafs of the tries are the leafs of the workers, one by one; ids by C85 (`apart` and `together`); invariant that no trie is empty |
| C99 | `Verif.Threads`: two mode configurations that differ in threads and schedules only | the forests are the same by C12_schedule_independent; so leafs, lines and distances are the same; the rest by C87 for both runs; for routes, the map of colours has the same keys and members whatever the order of insertion (C48_threads) |
| C100 | `Verif.More`: two feeds, the second with further trips at its end | a group of trips with equal attributes stays as it is when trips with other attributes are added, so each forest of the smaller feed is one of the larger feed (C12_schedule_independent); each leaf is a leaf of the larger feed, with the same distances; the rest by C87 for both runs |
| C46 | getMeasure, getGtfsShape, setShape | list induction |
| C47 | shape use counters | invariant over schedules |
| C48 | updateRouteColors, once and for all mode configurations | list induction; invariant between two configurations |
| C49 C50 | getECM, getEdgCands pruning, deg2reachable | list induction |
| C51 | cacheDrop and affordability | decision logic, witness |
| C52 | line interning | refinement to a set |
| C53 C60 | getLine, getGeom, colours in getGtfsShape | list equations; sums over edges |
| C54 | main decision sequence | decision logic |
| C55 | costToInt | rational arithmetic |
| C56 | getGtfsBox, writeMotStops | list induction |
| C62 | buildCandCache, edgCandWorker | invariant over schedules |
| C57 | Router::route with getECM | induction along trie paths |
| C58 | DistHeur, CostFunc, cost passes of OsmBuilder, speed correction | stage-wise lower bounds over exact rationals, induction along paths |

## Trusted base

Lean's kernel; at most the axioms `propext`, `Classical.choice`, `Quot.sound`.
The faithfulness of the model to the C++ text (see the citations) and the
contracts of the absent submodules.

## Reading the seeded fault log

Each line of `seeded/LOG.jsonl` is one edit of the model in a scratch copy.
`failed` lists the declarations with an error in that build. A property theorem
that imports a failing module is not built then, so it is missing from the list
although it is not accepted either; a failing lemma is therefore evidence that
the proof no longer goes through, not a refutation of the theorem itself.
Edits that leave the program equivalent are logged as such. An edit that still
builds has `"result": "still builds"`.

The first run over `Verif.Names` (22 rows, noted `INVALID RUN`) was made while
the unedited module did not build: `wordIn_iff` had an error of its own. These
rows are no evidence for anything and are kept only because every attempt is
logged. The batch was rerun after the repair; the rows after them count. The
script now refuses to run when the unedited copy does not build.

## Changes of property texts after modelling

* C06: "(and not added again)" was added. Re-adding a removed id brings the old
  points back (`C06_limit_readded`), so the unrestricted text is false.
* C47: the second half now says that a shape is dropped when every trip that
  used it has been taken up by a worker and got a new one, when all workers are
  done. The original text left open at which time this holds.
* C24: the first text spoke of line sets shared by a "copy family". The code
  shares only the geometry, and only between flat copies; lines are counted one
  by one. The text now says so.

## Findings (machine-checked)

* `C51_negation`: the hop cache check (Router.tpp:461) runs before the start
  offset is added (514), so an affordable target can be skipped.
* `C07_negation`: an input shape id of the form `shp_<type>_<n>` that was
  dropped can be handed out again; old and new points then share one id.
* `C47_new_shape_lost`: such a reused id can be removed by a delayed worker
  although the new shape is in use.
* `C47_lost_update`: the use counter is not synchronised; a lost decrement
  keeps an unused shape.
* `C06_limit_no_points`, `C06_limit_whitespace`, `C06_limit_readded`: inputs for
  which the shape container does not give back what was put in.
* `C03_false_positive_exists`: with marked "not in" ids a query can answer yes
  for an id that was never added.
* `C12_limit_no_threads`: clustering uses the reported hardware concurrency as
  number of work lists; if it is 0 (which the standard allows) the first access
  is out of bounds.
* `C27_negation`: merging attributes keeps the similarity memo, so a query before
  a merge fixes the answer.
* `C27_program_loses_destinations` (from `C27_cluster_first_attrs`): clustering
  inserts every trip of a group with the attributes of the group's first trip, so
  the destinations of the other trips reach no trie node.
* `C25_ed_empty_not_reflexive`: the edit distance classifier divides 0 by 0 on two
  empty names and answers no.
* `C23_copies_share`: copies of a node payload share the station info, so a track
  written through one node of a snapped station shows up at all of them.
* `C23_limit_count`: station number 2^32-2 is taken for a turn cycle.
* `C24_assignment_breaks`: edge payloads have no assignment operator; assigning
  one (the program does not) frees its geometry twice.
* `C36_reversed_twice_negation`: reversing a payload marks instead of toggling, so
  a payload reversed twice still has its hops swapped.
* `C18_negation`: of two mandatory turn rules of one edge with different targets
  the one read first wins. `C18_limit_two_edges`: if the target way runs through
  the node, two edges are announced and the reading order decides which is meant.
* `C19_u_turns_ignored`: a restriction from a way to the same way (no U-turn) is
  stored but never resolved (`else if` in OsmBuilder.cpp:742-764), so it has no
  effect.
* `C20_limit_loop`: splitting a loop edge gives all its rules to one of the parts.
* `C14_limit_fallback_wraps`: the fallback costs `maxCost * 100` (Router.tpp:160)
  are computed in 32 bits and wrap; above about 42.9 million the fallback can be
  cheaper than every real path.
* `C49_limit_negative_times`: the average time of a trie node divides an `int` by
  a `size_t`; a negative sum (stop times before the first departure) becomes a
  huge number whose conversion to `int` is undefined.
* `C16_limit_name_factor_one`: if the factor for unmatched line names is 1, the
  factors for unmatched origins and destinations are ignored, too (Weights.h:40).
* `C58_correction_needed`: the correction of the maximum speed by the factors below
  1 is what makes the heuristic admissible; a positive finding.
* `C35_negation_loop`: `mergeEdgePL` looks for the common node by comparing start
  nodes first; for edges there and back (x to n, n to x) it takes x for the node in
  the middle and the merged line starts and ends at the removed node.
* `C35_negation_direction`: `edgesSim` compares only whether both edges are one-way,
  so an edge that is one-way along its direction is merged with one that is one-way
  against it, and the result can be travelled.
* `C36_limit_existing`: an opposite edge that exists before the pass keeps its own
  one-way mark.
* `C28_limit_flags`: `OsmFilter::contained` returns the flags of the first hit in
  the iteration order of an unordered map; whether a relation is "flat" (does not
  hand its decision down to its members) can depend on it.
* `C28_limit_list_parts`: with `mult_val_match` a rule on `b` hits the value `ab;c`.
* `C29_negation_level`: `getKeptAttrKeys` visits levels 0 to 6 only; a way that only
  a level 7 rule on an otherwise unused key describes gets level 0.
* `C29_negation_type`: `readRestr` needs the attribute `type`, which is kept only if
  some other rule mentions it.
* `C30_negation`: merging keep rules keeps the flags of the first configuration, so a
  rule with `no_match_ways` in one configuration hides the same rule without it.
* `C31_negation`: `filterWrite` calls `skipUntil("relation")` after writing the ways;
  `skipUntil` leaves the current tag first. If the last way of the file is written (or
  there is no way), the current tag is the first relation, which is lost. A relation
  may also keep a node member that the file does not have, if a written way refers to it.
* `C33_negation`: a no-turn node outside the reading area gets graph nodes (`readEdges`
  does not ask for the area), but `keepNode` does, so that they keep the position (0, 0).
* `C59_negation`: `readEdges` skips nodes outside the area without forgetting the last
  node inside: a way that leaves the area and comes back gets a straight shortcut edge.
* `C53_limit_backward`: if the router finds no hop, it still connects candidates by
  "dummy edges" (Router.tpp 166-179); two stops on one edge in the wrong order then get the
  path of this single edge and `getSegment(a, b)` with `a > b` (ShapeBuilder.cpp 1061).
* `C60_negation`: a hop within one edge adds the whole length of the edge to its colours
  (ShapeBuilder.cpp 1064-1066), not the part that is travelled.
* `C37_negation`, `C37_negation_hash`, `C37_negation_attr`: `parseHexColor` ends with
  `stoul("0x" + six blanks)`, because its buffer is never empty; every string that is no
  colour is black. So `FF0000` (no `#`) and `crimson` are black, and no value of a colour
  attribute is ever recognised as no colour: the second try with a `#` in front only
  happens for `#` with three or six wrong characters, and then gives black, too.
* `C48_limit_text_color`: `updateRouteColors` is called whether or not colours are to be
  written, and overwrites the text colour of every route whose trips have one colour.
* `C48_split` also shows that the dangling pointers stored in `shapeify`
  (ShapeBuilder.cpp 405-415, the address of a loop variable) are never used.
* `C52_limit_color`: the colour of a shared line object is that of the relation looked up first, so it
  depends on the order of the ways in the OSM file.
* `C54_limit_ambiguous`: unknown similarity and routing methods end the program with code 1, the code of a missing feed.
* `C54_limit_single_trip`: if a single trip is asked for (`-T`) and no configuration has its mode, nothing is matched, the whole feed is
  written to the output path, and the return code is 0.
* `C54_limit_osmfilter`: `--osmfilter` needs no feed, but two feeds are an error.
* `C41_limit_write_error`: `Writer::write` never looks at the state of the stream after writing. If a write fails (disk full), the truncated
  temporary file replaces the old file, and the program returns 0. The result of `zip_close` is not looked at either.
* `C41_limit_mixed`: in a directory, files are replaced one by one; an interrupted run in place leaves files of both versions.
* `C42_negation`: files that are not written (frequencies.txt without frequencies in memory, feed_info.txt without a publisher) are
  never removed, so writing in place gives more files than writing to a new directory.
* `C43_limit_unknown_trip`, `C43_limit_empty_id`: `writeStopTimes` dereferences a null pointer for a row of a trip that is not in the
  feed, and for a first row with an empty trip id.
* `C39_limit_first_rule`: the flags of two rules with the same key and value are not united: the first rule counts (`std::map::insert`).
* `C40_negation`, `C40_negation_platforms`: two sections are joined although their last level filter (`OsmFilter::level` reads eight,
  `operator==` compares seven), their rules for platforms of edges, or their rule and normalisation of station ids differ.
* `C40_negation_drift`: options are compared with tolerances of 0.1 and 0.01 (the default transition penalty is 0.0083), which is not
  transitive: the result depends on the order of the sections.
* `C40_negation_twice`: the same mode in two sections with different options is run twice.
* `C61_negation`, `C61_negation_undefined`: `turnRestrCost` is multiplied by ten twice (MotConfigReader.cpp 337 and 398), the second time
  after it has been limited to 32 bits, so that a large entry cost leads to an undefined conversion.
* `C50_negation`: the penalty for an unmatched platform is given to the stations whose track equals the platform of the stop
  (ShapeBuilder.cpp 211-214 tests for equality).
* `C50_limit_order`: `deg2reachable` looks up the current instead of the next edge when going backwards (306), so the edges that are
  chosen depend on the order in which they are looked at.
* `C50_limit_dead_end`: going backwards from an edge at a node without incoming edges takes the front of an empty list.
* `C62_limit_no_threads`: `hardware_concurrency()` may be 0; the stops are then dealt into an empty vector.
* `C44_limit_twice`, `C44_limit_one_stop`, `C44_limit_stops`: a trip compared twice is counted once among the results; a trip with a shape
  and fewer than two stops takes the front of an empty line (Collector.cpp 109); different numbers of stops fail an assertion or, without
  assertions, read behind the end.
* `C44_limit_exchanged`: the variables `newLenDists` and `oldLenDists` are exchanged (87-91), so median and average hop describe the
  evaluated feed and not the ground truth.
* `C63_limit_empty`: an empty shape is undefined.
* `C64_negation`, `C64_limit_order`: cached distances are shared by shapes that differ by less than 0.00001 degrees, so a result depends on
  the trips before it; the order used by the caches is not transitive.
* `C45_limit_no_threads` (shapevl): with a reported hardware concurrency of 0 no feed is evaluated, and empty statistics are printed.
* `C65_limit_one_stop`, `C65_limit_no_stops`: with `--unique`, all trips of a route with a single stop count as the same sequence, and trips
  without stops are not compared at all. The size of a class never enters the statistics.
* `C66_negation_reports`: `-f` with two or more feeds: the collectors keep `&reportStreams.back()` (ShapevlMain.cpp 211) while the vector of
  streams still grows, so all but the last ones write to streams that are gone.
* `C66_negation_segment_length`: the help says metres, but the value of `--segment-length` is used in degrees (148, 174).
* `C66_limit_no_feeds`: `--json --avg` without feeds reads the first element of an empty vector (266).
* `C67_negation_fast`: `hopsFast` keeps one best start edge per target edge. If this start lies on the target's own edge, but behind the target, the pair
  is skipped as a "trivial case" (Router.tpp:555-558) and no other start is tried, so a reachable target is lost. `hops` lists it.
* `C67_negation_fast_cache`: `cacheDrop` is asked with the maximum before the start offset is added (461, 514), so a record made by a call with a smaller
  maximum makes a later call drop an affordable target.
* `Router.tpp:332` compares the flag of a cache entry with the maximum cost (`cached.second >= costF.inf()`), so lower bounds in the cache never
  save a search in `hops`; `C67_hops_exact` holds because the maximum is at least 2.
* `C68_limit_backwards`: a jump (no ride within the final limit) between two positions on one edge in the wrong order still gets the edge as its way,
  because the final search (Router.tpp:250) ignores the positions. ShapeBuilder.cpp:1059-1061 then asks for the segment of the edge with start behind end.
* `C68_cache_irrelevant`: with the standard variant the whole route is the same with every true cache, in particular with and without one.
* `C69_limit_no_network`, `C69_negation_platform`: if a stop has no candidate on the network, `maxSpeed` is 0 and `hopDist / maxSpeed` (Router.tpp:91) is
  infinite; `TW::maxCost` converts it to `uint32_t` (Weights.cpp:192), which is undefined. A machine that yields 0 leaves the network at the next stop
  for free, one that yields the greatest number does not.
* `C69_negation_small_factor`: factors below 1 for unmatched lines (allowed by the comment in pfaedle.cfg:416) shrink the maximum cost (Weights.cpp:192-194),
  but matched edges do not get cheaper, so a ride that fits line and schedule can be rejected.
* `C69_limit_untimed`: a stop time without times gets the time of day of the start as relative time (TripTrie.tpp:55, 78); the next hop has a negative time,
  and with the method "timenorm" (Weights.cpp:213) no ride from there is ever used.
* `C70_negation_u_turn`: a relation that forbids to turn around (from and to are the same way) is read, but `processRestr` (OsmBuilder.cpp:744-749) only
  announces the way as a target if it is not the from way, so the rule never becomes effective.
* `C70_negation_through`: if the to way runs through the via node, each of its two edges there is announced and the last one replaces the first
  (Restrictor.cpp:11-31): only one of the two turns is penalised.
* `C71_negation_one_way`: `fixGaps` (OsmBuilder.cpp:1145-1148) adds the edge from the other node to `n` even if the edge of the removed dead end leads away
  from it; the payload with its one-way mark is copied, so the street is open in the wrong direction only.
* `C71_negation_rules`: the restrictor is not told that an edge was replaced (unlike in `snapStation`): rules that begin with the moved edge and prohibitions
  that end with it are lost, and whoever had to turn into it may not do so any more.
* `C71_negation_chain`, `C71_negation_loop`: of three dead ends in a row only two are joined if the first one is visited first; an isolated track shorter than
  a metre becomes a loop.
* `C72_negation_complete`: `depthSearch` (OsmBuilder.cpp:1212-1256) closes nodes, although whether a walk may go on depends on the edge by which a node is
  reached: an equivalent station or a blocker within all limits is missed if a shorter walk to a crossing has a sharp turn there.
* `C72_negation_order`: `operator<` of `NodeCand` (OsmBuilder.h:72-74) is no strict weak order, as a priority queue demands; harmless with the limit 0, the only
  one in use, since then all elements have no turns (`C72_order`).
* `C73_negation_distance`: `snapStation` moves the payload to the point where it was placed (`s->setGeom(geom)`, OsmBuilder.cpp:1327) and projects it on the next
  candidates from there: a station can be placed farther from its original than the distance with which candidates were selected.
* `C73_negation_track`: nodes added by `addNd(*s)` (OsmBuilder.cpp:1328) share the station info of the original (NodePL.cpp:107-126); filling in the track of one
  (OsmBuilder.cpp:1350-1352) fills it in for all of them and for the original, however far.
* `C73_negation_turn_cycle`: `getSI()` is null for turning loops and blockers, so that `setSI` (OsmBuilder.cpp:1320-1325) overwrites their mark.
* `C74_negation_travel`, `C74_negation_opposite`: if two edges between the same nodes are drawn in opposite directions, `writeODirEdgs` (OsmBuilder.cpp:1746)
  takes each for the reverse of the other. The two-way edge loses its second direction if the other is marked as one-way against its direction
  (`setOneWay(2)`), and turn rules of one edge apply to the other.
* `C74_negation_meet`: two one-way streets drawn in different senses are merged into one that can be driven through (`C35_negation_direction` seen in the routing graph).
* `C75_negation_drop`, `C75_negation_drop_last`: `--drop-shapes` is declared with `required_argument` (ConfigReader.cpp:133) although the help text and `-D` have no argument:
  `pfaedle -x map.osm --drop-shapes feed.zip` swallows the feed and ends with "No input feed specified", and at the end of the command line it is refused.
* `C75_negation_keep`: the help text shows an argument for `-F [ --keep-additional-gtfs-fields ]` (ConfigReader.cpp:53); it is read as a second feed, and the run ends with "Multiple feeds only allowed in filter mode".
* `C75_negation_message`: for an unknown option inside a word of short options `argv[optind - 1]` (ConfigReader.cpp:254) is the word before.
* `C76_negation_overlap`: two ways over the same nodes share one edge (`addEdg` hands out the existing one), and `setOneWay` of the one-way way is never taken back (OsmBuilder.cpp:729-730): the two-way way cannot be travelled back any more. The level is that of the last way.
* `C77_negation_track`: `writeEdgeTracks` runs over an `unordered_map` keyed by edge pointers (OsmReadOpts.h:39) and fills in a track only once, so a station where ways with different tracks meet gets one of them depending on addresses.
* `C78_negation_hidden`: `getAttr` (OsmBuilder.cpp 1055-1073) returns the value of the first relation that has the tag, even if nothing of it remains after normalising; the names other relations give to the station are not tried, and the station is dropped if no other rule finds a name.
* `C79_negation_small`: sections are joined if their penalties differ by less than 0.01 (router/Misc.h:70-90), but the usual transition penalty is 0.0083 and the shipped factor for moved stations 0.0039. A section that sets one of them to 0, or from 0 to the usual value, is joined with one that does not, and its setting is lost.
* `C79_negation_message`: the debug message for `routing_line_unmatched_punish_fac` (MotConfigReader.cpp:439) tells to use the same deprecated option with the translated value, which means something else.
* A speed of 0 for level 0 makes the default of the factor for moved stations 0 times infinity (MotConfigReader.cpp:506-508), that is not a number; the model ends there (`inf`).
- **A filtered map loses digits** (`C81_negation_digits`). `readWriteNds` writes positions by `std::to_string`, with six digits behind the point; map files have seven. All nodes of the written file may lie up to five centimetres off.
- **A filtered map may lose its first relation** (`C81_negation_first`). If the last way of the file is written, the reader has moved on to the first relation, which is skipped (C31): its line and its station names are missing in the written file.
- **Filtering may forbid turns** (`C81_negation_from`). A turn restriction with two `from` ways has no effect; `readWriteRels` leaves out members that are not written, and the restriction with one `from` way has an effect when the written file is read.
- **Configurations may take ways from each other** (`C81_negation_flat`). If a relation is wanted without its members by one configuration and with them by another, the merged rules decide by the first rule that matches, and the ways that only the other configuration needs are not written.
* `C82_negation_lists`: rules with `mult_val_match` are written as rules for one value (OsmBuilder.cpp:278-281, 214): ways with a list of values are read from
  a map but neither asked for from a server nor kept by osmfilter.
* `C82_negation_digits`: the boxes of the Overpass query are written with six digits (OsmBuilder.cpp:283-287) and may shrink: what lies at their side is not
  delivered.
* `C82_negation_flags`: the queries are made from the merged rules (C30): if another configuration has the same rule, but not for ways, there is no query
  for ways.
* `C82_negation_boxes`: the query is written for the boxes of all trips (PfaedleMain.cpp:218-224), the map is read for each group of means of transport with
  the boxes of its trips. Boxes are joined greedily (C21), and more boxes may keep two boxes apart: the area that is read is not within the area of the query.
* `C83_negation_count`: `num_trips` is the length of the list of rides (EdgePL.h:39). A trip that stops in the middle of an edge uses it in two hops and is
  counted twice.
* `C83_negation_twin`: the network graph is undirected (netgraph/Graph.h:26), and `addEdg` drops the new edge if there is one between the same nodes
  (ShapeBuilder.cpp:965): of two tracks between the same nodes that are drawn in opposite directions one is lost with its trips, which one depends on the
  order of a hash map. (`UndirGraph` is part of the missing submodule `util`.)
* `C83_limit_no_threads`: `hardware_concurrency()` may be 0 (ShapeBuilder.cpp:435): no trip is matched, and the network graph is empty.
* `C84_negation_fares`, `C84_fares_lost`: with colours to be written, a route with trips of several colours is split (ShapeBuilder.cpp:489-545), and its fare rules are
  copied for the new routes, in memory. But `writeFareRules` (Writer.cpp:590-602) copies fare_rules.txt from the input: in the output there is no rule for the
  new routes, and their trips have lost all rules for their route. `C84_fares_memory`: the rules in memory, which are not written, are right.
* `C84_negation_attributions`: `writeAttribution` (Writer.cpp:383-394) does not read the attributions of the input; they are overwritten by the one
  row for OpenStreetMap.
* `C85_negation_again`: the number in `shp_<type>_<n>` starts at 1 again for each mode configuration (ShapeBuilder.cpp:70). With `--drop-shapes` and three
  sections for one mode, the id of the first shape of a trip is dropped and handed out again; the shape in the output then has the points of both
  lines. Without `--drop-shapes` this cannot happen (`C85_lines_no_drop`).
* The safety part of C47, C07 and C85 holds without atomic counters: a lost update can only make a counter too great. The condition on ids is needed only for trips
  that are matched, so never without `--drop-shapes`.
* `C48_limit_runs`: with several sections for one mode, the first one gives the colour it found to a route; the colour that the second one finds for
  another trip of this route is not written. `C48_runs` and `C85_service` are for the other case.
* `C48_limit_empty`: a route all of whose trips are matched with several new colours stays in routes.txt, without trips.
* `C86_negation_seq`, `C86_negation_collision`: `StopTime::getSeq` (StopTime.h:53) returns `uint16_t`, but `_sequence` has 32 bits. GTFS allows any
  non-negative `stop_sequence`. A stop with the number 65536 is taken for number 0, so the stops of the trip are in the wrong order (for the matching too,
  C70 to C80 take the stops in the order of this set), and `writeStopTimes` (Writer.cpp:682) compares the truncated number with the full one and does not write
  its distance. If two numbers are equal modulo 65536, the feed is refused. C43 is about the numbers that `getSeq` returns.
* C87 has no new limits: each remaining condition is one of C49, C53, C85 or C86, where it has a negation theorem or a finding.
* C88 has no new limits. It needs that the hop cache is per forest: with one cache for all forests records of one line would be used for another (mutation in LOG.jsonl).
* C89: `pfaedle -T` with a trip that has no stop times or only one is undefined behaviour. Without stop times the trie has no leaf, and `routes.begin()->second` (ShapeBuilder.cpp:377) reads the end of an empty map. With one stop the trip is filed at the root of the trie, for which the router has no candidates: `predeDAG[0][0]` (Router.tpp:207) reads the first element of an empty vector. When all trips are matched, trips with fewer than two stops are left out beforehand (ShapeBuilder.cpp:868); with `-T` they are not.
* C90: candidates are computed for the stop that a node of a trip trie was made for. Trips whose stops have the same name and platform and are near to each other share the node, so the permitted distance is kept to the first of these stops, not to each of them.
* C91: without `--drop-shapes` a trip is matched by the first configuration that is for it; later configurations for the same type see its new shape and leave it alone.
* C92: `--write-trgraph` never writes the documented `trgraph.json`: the file is `trgraph-.json` with one configuration and `trgraph-<modes>.json` with several (PfaedleMain.cpp:374-377, C92_trans_single).
* C92: `graph.json` is overwritten by each mode configuration; only the last one is kept (C92_negation_graph).
* C92: if two configurations are used for the same modes, the graph of lines and the number of nodes are overwritten, but the numbers of edges are added up (C92_negation_trans, C92_negation_nodes).
* C92: `--stats` writes nothing if the debug directory does not exist, without a message and with exit code 0: no `mkdir` before stats.json (C92_negation_stats). With `-T` there are no statistics at all (C92_single).
* C92: the average distance between stops is 0/0 for a feed without hops.
* C93: filtering a map for more trips can remove streets from it: each box of a trip is joined to the one reported box with the largest common area, so that with a third trip two boxes may no longer be joined and the area between them is lost (BBoxIdx.cpp:76-105, C93_negation_more). The same holds for Overpass queries (C82 has it as a hypothesis).
* C93: filtering a filtered map again without a feed pads its area again (C93_negation_again).
* C94: a way of an extract that refers to a node that is not in the file (common at the border of an extract) may get a node that does not exist, at the default position (0, 0), because the set of nodes in the area never learns about such ids and trusts its filter: one bit that an id shares with a node in the area and with no node outside is enough (OsmIdSet.cpp:166-174, OsmBuilder.cpp:710-713, C94_negation_missing). Such a way is also written to a filtered map although none of its nodes is in the area (C94_negation_filter).
* C95: a run without `--drop-shapes` in which nothing is matched still replaces `route_text_color` of every route that has a colour and a trip with a shape (ShapeBuilder.cpp:405-416, 489-497; `updateRouteColors` is called whether or not colours are to be written), so that text colours chosen by the agency are lost (C95_negation_text).
* C96: with `--json --avg` (average of several feeds), one feed without any compared trip makes all averaged shares and distances NaN (0/0 in `getStats`, Collector.cpp:487-508, ShapevlMain.cpp:264-278; C96_negation_average). The labels of the same numbers differ between text (`acc-30` and so on) and JSON (`an-30`).
* C97: an empty time in stop_times.txt counts as the absolute time of the first departure, not as a relative time (TripTrie.tpp:57-61 and 79-83). With times compared, two trips that run the same way at other times of the day then do not share a node, and each gets a shape of its own (C97_negation_empty_time).
* C98: with `--drop-shapes`, a trip whose mode is in several mode configurations is counted once for each of them, in the number of matched trips and in `num_trie_leafs` (C98_negation_again).
* C99: the ids of new shapes depend on the timing of the threads: two runs with the same input can give a trip `shp_3_1` and `shp_3_2` (C99_negation_ids). Outputs of two runs cannot be compared line by line.
