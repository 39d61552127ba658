import Verif.Threads.Spec

/-!
# Further trips do not change the shapes of the others (specification)
-/

namespace Verif.More
open Verif.Trie (needsShape)
open Verif.Build (Mode)
open Verif.Content (TripRow)
open Verif.Result (rowsOf)
open Verif.Out (StRow)

variable {E C Pt D S P A X S' : Type}

/-- The trips at places `n`, ... have other routing attributes than those before: their lines have other names or begin at other stops (`RoutingAttrs::operator<` compares these two only, src/pfaedle/router/RoutingAttrs.h:100-103). -/
def Others (n n' : Nat) (ms : List (Mode E C Pt D S P A)) : Prop :=
  ∀ m ∈ ms, ∀ k k', k < n → n ≤ k' → k' < n' → needsShape m.c k → needsShape m.c k' →
    m.c.lt (m.c.rAttrs k) (m.c.rAttrs k') = true ∨ m.c.lt (m.c.rAttrs k') (m.c.rAttrs k) = true

/-- The trips of the first feed get the same shapes in the second one. `trips`, `src`, `rows`: trips.txt, shapes.txt and stop_times.txt of the first feed;
`src'`, `rows'`: shapes.txt and stop_times.txt of the second feed; `trips1`, `out1`, `rows1`, `trips2`, `out2`, `rows2`: trips.txt, shapes.txt and stop_times.txt of the outputs for the first
feed and for the second one. -/
structure Keeps (ms : List (Mode E C Pt D S P A)) (trips trips1 trips2 : List (TripRow X)) (src src' out1 out2 : List Shapes.Row)
    (rows rows' rows1 rows2 : List (StRow (List Nat) S')) : Prop where
  /-- each trip has the same points in the same order, with the same distances -/
  line : ∀ (k : Nat) t, trips[k]? = some t → (∃ m ∈ ms, needsShape m.c k) → ∀ u1 ∈ trips1, ∀ u2 ∈ trips2, u1.id = t.id → u2.id = t.id →
    (rowsOf out1 u1.shape).map (fun r => (r.pt, r.seq)) = (rowsOf out2 u2.shape).map fun r => (r.pt, r.seq)
  /-- a trip that does not need a shape has the same shape in both outputs, and its points are the same if they are so in the feeds -/
  old : ∀ (k : Nat) t, trips[k]? = some t → (∀ m ∈ ms, ¬ needsShape m.c k) → ∀ u1 ∈ trips1, ∀ u2 ∈ trips2, u1.id = t.id → u2.id = t.id →
    u1.shape = u2.shape ∧ (rowsOf src t.shape = rowsOf src' t.shape → rowsOf out1 u1.shape = rowsOf out2 u2.shape)
  /-- two trips share their shape in both outputs, or in none -/
  share : ∀ (k k' : Nat) t t', trips[k]? = some t → trips[k']? = some t' → (∃ m ∈ ms, needsShape m.c k) → (∃ m ∈ ms, needsShape m.c k') →
    ∀ u1 ∈ trips1, ∀ v1 ∈ trips1, ∀ u2 ∈ trips2, ∀ v2 ∈ trips2, u1.id = t.id → v1.id = t'.id → u2.id = t.id → v2.id = t'.id →
    (u1.shape = v1.shape ↔ u2.shape = v2.shape)
  /-- if the stops of a trip are the same in both feeds, they get the same distances -/
  dist : ∀ (k : Nat) t, trips[k]? = some t → (∃ m ∈ ms, needsShape m.c k) →
    (rows.filter fun r => r.trip = t.id) = rows'.filter (fun r => r.trip = t.id) →
    ∀ r1 ∈ rows1, ∀ r2 ∈ rows2, r1.trip = t.id → r2.trip = t.id → r1.seq = r2.seq → r1.dist = r2.dist

end Verif.More
