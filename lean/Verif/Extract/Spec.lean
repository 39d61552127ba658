import Verif.Extract.Model
import Verif.Whole.Raw
import Verif.Attrs.Spec

/-!
# Routing on a filtered OSM file (specification)
-/

namespace Verif.Extract
open Verif.Names (Str)
open Verif.Osm Verif.Whole
open Verif.Attrs (Has Met Wanted)
open Verif.Turns (sRestriction)

variable {P S T D : Type}

/-- What is inside an element survives writing and reading. -/
def Clean (w : Pen P) (kids : List (Ev P)) : Prop :=
  ∀ e ∈ kids, (∀ k v, e.tag = .tag k v → w.key k = k ∧ w.val v = v) ∧ (∀ t i r, e.tag = .member t i r → w.role r = r)

/-- The file survives writing: positions, keys, values and roles are read back as they were. A node has no key twice. -/
structure Lossless (w : Pen P) (d : Doc P) : Prop where
  order : ∀ a, (w.ord a).Perm a
  pos : ∀ x ∈ d.nodes, w.pos x.pos = x.pos
  nodes : ∀ x ∈ d.nodes, Clean w x.kids
  ways : ∀ x ∈ d.ways, Clean w x.kids
  rels : ∀ x ∈ d.rels, Clean w x.kids
  once : ∀ x ∈ d.nodes, ∀ k, (kidVals k x.kids).length ≤ 1

/-- The file is filtered for the configurations `os`, then read with one of them. Configurations with the same rule have the same flags for it (C30). -/
structure Configs (os : List Opts) (ord : Attrs → Attrs) (p : Par P S T D) : Prop where
  mem : p.o ∈ os
  wf : ∀ o ∈ os, WFR o.keep
  flagged : ∀ o ∈ os, Flagged o.keep
  agree : ∀ o ∈ os, ∀ o' ∈ os, ∀ k v f f', look o.keep k v = some f → look o'.keep k v = some f' → f = f'
  own : FlaggedOpts p.o
  keep : p.f.keep = p.o.keep
  drop : p.f.drop = p.o.drop
  keysN : p.keysN = keptNode p.o
  keysW : p.keysW = keptWay p.o
  keysR : p.keysR = keptRel p.o
  order : ∀ a x, x ∈ p.f.ord a ↔ x ∈ a
  order' : ∀ a x, x ∈ ord a ↔ x ∈ a

/-- The id sets are exact (C03 tells when). -/
structure Exact (p : Par P S T D) : Prop where
  box : ∀ ops i, p.box ops i = true ↔ .add i ∈ ops
  hup : ∀ ops i, p.hup ops i = true ↔ .nohup i ∈ ops

/-- `f` are the flags of a rule, of one of the configurations, that the relation meets. -/
def Reason (os : List Opts) (x : DElem P) (f : Nat) : Prop :=
  ∃ o ∈ os, ∃ k v t, look o.keep k v = some f ∧ f &&& REL = 0 ∧ Has x.kids k t ∧ ValFits t v (decide (f &&& 32 ≠ 0))

/-- The rules that a relation meets agree whether its members are to be kept. -/
def Clear (os : List Opts) (d : Doc P) : Prop :=
  ∀ x ∈ d.rels, ∀ f f', Reason os x f → Reason os x f' → (f &&& REL_NO_DOWN = 0 ↔ f' &&& REL_NO_DOWN = 0)

/-- At least one way is written. The last way is not, or the first relation is not wanted: otherwise the first relation is not written (C31). -/
structure Complete (os : List Opts) (d : Doc P) (o : Out P) : Prop where
  any : o.ways ≠ []
  first : (∃ x, d.ways.getLast? = some x ∧ ∀ y ∈ o.ways, y.id ≠ x.id) ∨ ∀ x, d.rels.head? = some x → ∀ f, ¬ Reason os x f

/-- A turn restriction of the configuration. -/
structure Restricts (p : Par P S T D) (x : DElem P) : Prop where
  wanted : Wanted p.f x
  type : Has x.kids sType sRestriction
  kind : Met p.o.posRestr 0 x.kids ∨ Met p.o.negRestr 0 x.kids
  noEx : ¬ Met p.o.noRestr 0 x.kids

/-- The node is on the map of the written file. -/
def OnMap (p : Par P S T D) (d : Doc P) (o : Out P) (i : Nat) : Prop :=
  (∃ y ∈ o.ways, i ∈ y.nodes) ∧ (inArea p d i = true ∨ noTurn p d i = true)

/-- Turn restrictions at nodes of the map are written as a whole. -/
def Intact (p : Par P S T D) (d : Doc P) (o : Out P) : Prop :=
  ∀ x ∈ d.rels, Restricts p x → (∃ m ∈ kidMembers .node x.kids, m.2 = sVia ∧ OnMap p d o m.1) →
    (∀ m ∈ kidMembers .way x.kids, m.2 = sFrom ∨ m.2 = sTo → ∃ y ∈ o.ways, y.id = m.1) ∧
    ∀ m ∈ kidMembers .node x.kids, m.2 = sVia → (∃ y ∈ o.ways, m.1 ∈ y.nodes) ∨ ∃ y ∈ o.nodes, y.id = m.1

end Verif.Extract
