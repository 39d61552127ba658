import Verif.Journey.Model
import Verif.Full.Props
import Verif.Weights.Props
import Verif.Whole.Props

/-!
# Journeys through the map of the file (specification)

What driving costs is read from the graph `g` and the settings `r`, with exact numbers.
-/

namespace Verif.Journey
open Verif.Collapse Verif.Whole
open Verif.Finish (Fin)
open Verif.Names (LineSim)
open Verif.Weights (matched)

variable {P S T D : Type}

/-- The flags that count for an edge: those of the first of its lines with the most matches; no matches without lines, all if the trip has no
attributes to match. -/
def Best (r : Fare P) (e : Edg Nat P) (s : LineSim) : Prop :=
  if r.noAttrs then s = ⟨true, true, true⟩
  else (∀ l ∈ e.lines, matched (r.simi l) ≤ matched s) ∧
    (s = ⟨false, false, false⟩ ∨ ∃ pre l post, e.lines = pre ++ l :: post ∧ s = r.simi l ∧ ∀ l' ∈ pre, matched (r.simi l') < matched s)

/-- The cost `c` of an edge after the factors for what does not match; all of them are off if the first one is 1. -/
def lineToll (r : Fare P) (s : LineSim) (c : Nat) : Nat :=
  if r.name.cls = .eq then c
  else
    let c := if s.name then c else r.name.apply c
    let c := if s.fr then c else r.fr.apply c
    if s.to then c else r.to.apply c

/-- The turn leads back, or is sharp at a crossing. -/
def Back (g : Fin P S Nat) (r : Fare P) (e f : Edg Nat P) : Prop :=
  (e.src = f.dst ∧ e.dst = f.src) ∨ (r.deg g.es e.dst > 2 ∧ r.sharp (g.pos e.dst) e f = true)

/-- The turn is refused by the turn rules of the graph. -/
def Refused (g : Fin P S Nat) (e f : Edg Nat P) : Prop := e.a.restr = true ∧ g.res.may (e.src, e.dst) (f.src, f.dst) e.dst = false

open Classical in
/-- What the turn costs; nothing in a turning loop. -/
noncomputable def turnToll (g : Fin P S Nat) (r : Fare P) (e f : Edg Nat P) : Nat :=
  if g.pl.isTurnCycle e.dst = true then 0
  else (if Back g r e f then r.fullTurn.toNat else 0) + (if Refused g e f then r.turnRestr.toNat else 0)

/-- The cost of an edge fits into 32 bits, after each of the factors for lines that do not match, too; the highest number means that the edge
cannot be left. -/
def Fits (r : Fare P) (s : LineSim) (c : Nat) : Prop :=
  c < 4294967295 ∧ (r.name.cls = .eq ∨
    ((if s.name then c else r.name.apply c) ≤ 4294967295 ∧
      (if s.fr then (if s.name then c else r.name.apply c) else r.fr.apply (if s.name then c else r.name.apply c)) ≤ 4294967295))

/-- `x` is the cost of going on from the edge `e` to the edge `f`, which begins where `e` ends: that of `e`, with regard to the lines of the
trip, and that of the turn. Costs have 32 bits. -/
def Pays (g : Fin P S Nat) (r : Fare P) (e f : Edg Nat P) (x : Nat) : Prop :=
  e.dst = f.src ∧ ∃ s, Best r e s ∧ Fits r s (e.a.cost % 4294967296) ∧
    x = lineToll r s (e.a.cost % 4294967296) + turnToll g r e f ∧ x < 4294967295

/-- The factors: one above 1 does not decrease, one below 1 does not increase. -/
def FareOk (r : Fare P) : Prop := r.name.OK ∧ r.fr.OK ∧ r.to.OK

/-- Driving the edges one after the other is possible, and costs `x` up to the start of the last one. -/
inductive Toll (g : Fin P S Nat) (r : Fare P) : List (Edg Nat P) → Nat → Prop
  | one (e) : Toll g r [e] 0
  | more {e f l x y} : Pays g r e f x → Toll g r (f :: l) y → Toll g r (e :: f :: l) (x + y)

/-- A cheapest drive in the graph, among all with the same first and last edge. -/
def Cheapest (g : Fin P S Nat) (r : Fare P) (l : List (Edg Nat P)) (x : Nat) : Prop :=
  (∀ e ∈ l, e ∈ g.es) ∧ Toll g r l x ∧
    ∀ l' y, (∀ e ∈ l', e ∈ g.es) → Toll g r l' y → l'.head? = l.head? → l'.getLast? = l.getLast? → x ≤ y

/-- Driving the edges `l` is a journey through the map with the pieces `ss`: the nodes stand for the places `at_`. -/
structure OnMap (p : Par P S T D) (ss : List Seg) (at_ : Nat → Option Place) (g : Fin P S Nat) (l : List (Edg Nat P)) : Prop where
  /-- Every edge is the line of a way: it has its level and lines and runs between the positions of its ends. -/
  drawn : ∀ e ∈ l, e.src ≠ e.dst → (∃ x, Carries p ss x e) ∧ ∃ q, e.geom = some q ∧
    (if e.a.rev = true then q.reverse else q).head? = some (g.pos e.src) ∧ (if e.a.rev = true then q.reverse else q).getLast? = some (g.pos e.dst)
  /-- Where no edge is driven in the wrong direction, the ways permit to go from place to place. -/
  permitted : ∀ pre mid post, l = pre ++ mid ++ post → (∀ e ∈ mid, e.a.oneWay ≠ 2) → ∀ e f, mid.head? = some e → mid.getLast? = some f →
    ∀ a b, at_ e.src = some a → at_ f.dst = some b → Strict p.o ss a b
  /-- An edge from a station to itself is only used at the end. -/
  ends : ∀ pre e post, l = pre ++ e :: post → post ≠ [] → e.a.cost ≠ 4294967295

/-- Going on from one edge to the next costs the penalty for refused turns exactly if these are, by `arr` and `lea`, the edges of pieces with
a turn the file refuses (`refuse`). -/
def Paid (g : Fin P S Nat) (ss : List Seg) (at_ : Nat → Option Place)
    (refuse : Place × Place → Place × Place → Place → Bool) (arr lea : Place × Place → Place → Edg Nat P) (l : List (Edg Nat P)) : Prop :=
  ∀ pre e f post, l = pre ++ e :: f :: post → e.src ≠ e.dst → f.src ≠ f.dst → ∀ q, at_ e.dst = some q →
    ∃ a b x y, Piece ss a q x ∧ Piece ss b q y ∧ arr x q = e ∧ lea y q = f ∧ (Refused g e f ↔ refuse x y q = true)

/-- The hop drives the edges `l`, from its first end to its second one. -/
structure Drives {X : Type} (es : List (Edg Nat P)) (h : Router.Hop Nat X) (l : List (Edg Nat P)) : Prop where
  edges : h.edges.reverse.map (fun i => es[i]?) = l.map some
  first : ∃ i x, h.fr = .onEdge i x ∧ l.head? = es[i]?
  last : ∃ i x, h.to = .onEdge i x ∧ l.getLast? = es[i]?

end Verif.Journey
