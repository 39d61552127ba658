import Verif.Attrs.Model
import Verif.OsmIdSet.Props

/-!
# The id sets of the first pass (model)

`OsmBuilder::read` and `OsmBuilder::filterWrite` fill two objects of the class `OsmIdSet` in `readBBoxNds`
(`src/pfaedle/osm/OsmBuilder.cpp:531-568`) and ask them afterwards. In `Verif.Whole` and `Verif.Osm` what they answer is a parameter; here the
parameter is the model of the class itself (`Verif.OsmIdSet`).
-/

namespace Verif.Ids
open Verif.Osm
open Verif.OsmIdSet (Params observe)

variable {P S T D : Type}

/-- OsmBuilder.cpp:559-563: the calls of `bboxNodes`. -/
def boxCalls (ops : List BoxOp) : List OsmIdSet.Op := ops.filterMap fun
  | .add i => some (.add i)
  | .nadd i => some (.nadd i)
  | .nohup _ => none

/-- OsmBuilder.cpp:543-545: the calls of `noHupNodes`. -/
def hupCalls (ops : List BoxOp) : List OsmIdSet.Op := ops.filterMap fun
  | .nohup i => some (.add i)
  | _ => none

/-- `bBoxNodes.has(i)` (OsmBuilder.cpp:711 and in `keepWay`, `keepNode`) after the first pass and after the questions `asked`. -/
def boxSet (H : Params) (asked : List Nat) (ops : List BoxOp) (i : Nat) : Bool :=
  observe H (boxCalls ops ++ asked.map .has) (.has i) == .ans true

/-- `noHupNodes.has(i)` (OsmBuilder.cpp:707). -/
def hupSet (H : Params) (asked : List Nat) (ops : List BoxOp) (i : Nat) : Bool :=
  observe H (hupCalls ops ++ asked.map .has) (.has i) == .ans true

/-- The program with its id sets. That a question does not change later answers is C94_asked. -/
def withSets (H : Params) (p : Whole.Par P S T D) : Whole.Par P S T D :=
  { p with
    box := boxSet H []
    hup := hupSet H [] }

end Verif.Ids
