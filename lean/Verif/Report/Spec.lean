import Verif.Report.Model

/-!
# Debug files and statistics (specification)
-/

namespace Verif.Report

open Verif (FMap)

/-- The trips of a mode are matched with a configuration: it is for the mode, and the mode was asked for. -/
def For (x : In) (c : Cfg) (m : Nat) : Prop := m ∈ c.mots ∧ m ∈ x.mots

/-- The configuration is used. -/
def Used (x : In) (c : Cfg) : Prop := (∃ m, For x c m) ∧ ∀ t, x.trip = some t → For x c t

instance (x : In) (c : Cfg) (m : Nat) : Decidable (For x c m) := by unfold For; infer_instance

instance (x : In) (c : Cfg) : Decidable (Used x c) :=
  decidable_of_iff ((∃ m ∈ c.mots, m ∈ x.mots) ∧ ∀ t ∈ x.trip, For x c t)
    (by simp [Used, For, Option.mem_def])

/-- Nothing keeps the program from matching with the configuration. -/
structure Fine (c : Cfg) : Prop where
  osm : c.noStops = true ∨ c.osmOk = true
  simi : c.simiKnown = true
  method : c.methodKnown = true

instance (c : Cfg) : Decidable (Fine c) :=
  decidable_of_iff ((c.noStops = true ∨ c.osmOk = true) ∧ c.simiKnown = true ∧ c.methodKnown = true)
    ⟨fun h => ⟨h.1, h.2.1, h.2.2⟩, fun h => ⟨h.osm, h.simi, h.method⟩⟩

/-- The configurations that are used. -/
def usedCfgs (x : In) : List Cfg := x.cfgs.filter (fun c => decide (Used x c))

/-- Sum of a number over the configurations that are used. -/
def total (x : In) (f : Cfg → Nat) : Nat := ((usedCfgs x).map f).sum

/-- Number of nodes of the graph of a configuration. -/
def Cfg.numNodes (c : Cfg) : Nat := if c.noStops then 0 else c.adj.length

/-- Number of edges of the graph of a configuration. -/
def Cfg.numEdges (c : Cfg) : Nat := if c.noStops then 0 else c.adj.sum

/-- All hops of the trips that are matched. -/
def allHops (x : In) : List Rat := ((usedCfgs x).map (·.hops)).flatten

/-- Ascending, without repetitions (`std::set`). -/
def Asc (l : List Nat) : Prop := l.Pairwise (· < ·)

/-- Conditions on the names of modes: names of single modes are not empty, have no hyphen, are different, and are the name of a group
only if the mode is the only one in the group. -/
structure NamesOk (env : Env) : Prop where
  asc : ∀ n, Asc (env.types n)
  nonempty : ∀ m, env.typeStr m ≠ []
  hyphen : ∀ m, '-' ∉ env.typeStr m
  inj : ∀ m m', env.typeStr m = env.typeStr m' → m = m'
  group : ∀ m, env.typeStr m ∈ names → env.types (env.typeStr m) = [m]

/-- Different configurations that are used are for different modes. -/
def Different (x : In) : Prop :=
  ∀ (i j : Nat) (c d : Cfg), x.cfgs[i]? = some c → x.cfgs[j]? = some d → Used x c → Used x d →
    (∀ m, For x c m ↔ For x d m) → i = j

/-- The debug directory is there when configuration files are written. -/
def Writable (x : In) : Prop := x.dir = true ∨ x.mkdir = true

/-- The debug directory is there when statistics are written: it was there, or it was made for another file. -/
def StatsDir (x : In) : Prop :=
  x.dir = true ∨ (x.mkdir = true ∧ (x.writeGraph = true ∨ x.buildTransitGraph = true) ∧ usedCfgs x ≠ [])

/-- The files that were there before are not of this run. -/
def FilesOld (x : In) : Prop := ∀ f c, x.files.get f = some c → c = .old

/-- `i` is the number of the last configuration that is used. -/
def LastUsed (x : In) (i : Nat) : Prop :=
  (∃ c, x.cfgs[i]? = some c ∧ Used x c) ∧ ∀ j c, x.cfgs[j]? = some c → Used x c → j ≤ i

/-- `i` is the number of the first configuration that is used. -/
def FirstUsed (x : In) (i : Nat) (c : Cfg) : Prop :=
  x.cfgs[i]? = some c ∧ Used x c ∧ ∀ j d, x.cfgs[j]? = some d → Used x d → i ≤ j

/-- The sums in `stats.json`. -/
structure Sums (x : In) (s : Stats) : Prop where
  stations : s.stations = x.stations
  trips : s.trips = x.trips
  edges : s.edges = total x Cfg.numEdges
  tries : s.tries = total x (·.tries)
  leafs : s.leafs = total x (·.leafs)
  iters : s.iters = total x (·.iters)
  none : s.avg = none ↔ allHops x = []
  avg : ∀ a, s.avg = some a → a * ((allHops x).length : Rat) = (allHops x).sum

end Verif.Report
