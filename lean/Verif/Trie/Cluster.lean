import Verif.Trie.Model

/-!
# Clustering of trips (model)

Model of `ShapeBuilder::clusterTrips` and `clusterWorker`
(`src/pfaedle/router/ShapeBuilder.cpp:854-929`).

`trips` and `forest` are two `std::map`s over the same keys; the model keeps them as
lists ordered like the maps and uses the position of a key in the map in place of
`at(key)` (ShapeBuilder.cpp:909, 911). Warming the normaliser caches
(ShapeBuilder.cpp:860-863) has no effect on the result and is left out.

Each step of a worker thread is the insertion of one trip into the forest of its
group. Workers only share read access to the maps; a schedule is a list of thread
numbers.
-/

namespace Verif.Trie
variable {T P A : Type}

/-- Configuration and feed, as far as they are read here. -/
structure CEnv (T P A : Type) extends Env T P A where
  /-- RoutingAttrs.h:100-103, `operator<` -/
  lt : A → A → Bool
  /-- result of `getRAttrs` (ShapeBuilder.cpp:618-653) -/
  rAttrs : T → A
  shapeEmpty : T → Bool
  mot : T → Nat
  dropShapes : Bool
  mots : List Nat
  cfgMots : List Nat
  /-- `transPenMethod == "timenorm"` -/
  timeEx : Bool
  noTrie : Bool

/-- `std::map::operator[]` followed by `push_back` (ShapeBuilder.cpp:877). An existing
key is kept. -/
def mapAdd (lt : A → A → Bool) (a : A) (t : T) : List (A × List T) → List (A × List T)
  | [] => [(a, [t])]
  | (k, ts) :: m =>
    if lt a k then (a, [t]) :: (k, ts) :: m
    else if lt k a then (k, ts) :: mapAdd lt a t m
    else (k, ts ++ [t]) :: m

/-- ShapeBuilder.cpp:866-879: the loop over all trips of the feed. -/
def groupTrips (c : CEnv T P A) (feed : List T) : List (A × List T) :=
  feed.foldl (fun m t =>
    if !c.dropShapes && !c.shapeEmpty t then m
    else if (c.stops t).length < 2 then m
    else if !c.mots.contains (c.mot t) || !c.cfgMots.contains (c.mot t) then m
    else mapAdd c.lt (c.rAttrs t) t m) []

/-- `attrs[i].push_back(g)`; `none` if `i` is out of bounds. -/
def pushAt (attrs : List (List Nat)) (i g : Nat) : Option (List (List Nat)) :=
  match attrs[i]? with
  | none => none
  | some l => some (attrs.set i (l ++ [g]))

/-- ShapeBuilder.cpp:885-889: distribution of the groups `gs` among `n` threads. -/
def distribute (n : Nat) : List Nat → Nat → List (List Nat) → Option (List (List Nat))
  | [], _, attrs => some attrs
  | g :: gs, i, attrs =>
    match pushAt attrs i g with
    | none => none
    | some attrs => distribute n gs (if i + 1 = n then 0 else i + 1) attrs

/-- ShapeBuilder.cpp:912-920: offer the trip to the tries in turn; the flag is `ins`. -/
def offer [DecidableEq T] (c : CEnv T P A) (key : A) (t : T) :
    List (Trie T P A) → Option (Bool × List (Trie T P A))
  | [] => some (false, [])
  | tr :: rest =>
    match tr.addTrip c.toEnv t key c.timeEx c.noTrie with
    | none => none
    | some (true, tr') => some (true, tr' :: rest)
    | some (false, tr') =>
      match offer c key t rest with
      | none => none
      | some (ins, rest') => some (ins, tr' :: rest')

/-- ShapeBuilder.cpp:910-927: one trip. The result of the last `addTrip` is ignored. -/
def clusterTrip [DecidableEq T] (c : CEnv T P A) (key : A) (forest : List (Trie T P A)) (t : T) :
    Option (List (Trie T P A)) :=
  match offer c key t forest with
  | none => none
  | some (true, forest') => some forest'
  | some (false, forest') =>
    match (Trie.empty c.toEnv).addTrip c.toEnv t key c.timeEx false with
    | none => none
    | some (_, tr) => some (forest' ++ [tr])

/-- Forests of all groups, and for each thread the trips it still has to insert, with
the number of their group. -/
structure CSys (T P A : Type) where
  forests : List (List (Trie T P A))
  pend : List (List (Nat × T))

/-- One step of thread `i`; finished threads do nothing. -/
def cstep [DecidableEq T] (c : CEnv T P A) (groups : List (A × List T)) (s : CSys T P A) (i : Nat) :
    Option (CSys T P A) :=
  match s.pend[i]? with
  | none => some s
  | some [] => some s
  | some ((g, t) :: rest) =>
    match groups[g]?, s.forests[g]? with
    | some (key, _), some f =>
      match clusterTrip c key f t with
      | none => none
      | some f' => some ⟨s.forests.set g f', s.pend.set i rest⟩
    | _, _ => none

def crun [DecidableEq T] (c : CEnv T P A) (groups : List (A × List T)) :
    List Nat → CSys T P A → Option (CSys T P A)
  | [], s => some s
  | i :: sched, s =>
    match cstep c groups s i with
    | none => none
    | some s' => crun c groups sched s'

/-- ShapeBuilder.cpp:909: the trips of one group. -/
def groupItems (groups : List (A × List T)) (g : Nat) : List (Nat × T) :=
  match groups[g]? with
  | none => []
  | some (_, ts) => ts.map fun t => (g, t)

/-- ShapeBuilder.cpp:908-909: the work of one thread. -/
def todo (groups : List (A × List T)) (gs : List Nat) : List (Nat × T) :=
  gs.flatMap (groupItems groups)

/-- ShapeBuilder.cpp:854-898: start of the workers. -/
def cinit (c : CEnv T P A) (n : Nat) (feed : List T) : Option (CSys T P A) :=
  let groups := groupTrips c feed
  match distribute n (List.range groups.length) 0 (List.replicate n []) with
  | none => none
  | some attrs => some ⟨groups.map fun _ => [], attrs.map (todo groups)⟩

end Verif.Trie
