import Verif.HopCache.Props
import Verif.OsmIdSet.Props
import Verif.Shapes.Props
import Verif.Shapes.WorkersProps
import Verif.Trie.Props
import Verif.Trie.ClusterProps
import Verif.Names.Props
import Verif.Payload.NodeProps
import Verif.Payload.EdgeProps
import Verif.Restrictor.Props
import Verif.BBoxIdx.Props
import Verif.Normalizer.Props
import Verif.Router.Props
import Verif.Weights.Props
import Verif.Weights.HeurProps
import Verif.Graph.CompsProps
import Verif.Weights.Comp
import Verif.Graph.CollapseProps
import Verif.Osm.FilterProps
import Verif.Osm.GraphReadProps
import Verif.Line.ColProps
import Verif.Color.Props
import Verif.Color.SplitProps
import Verif.Color.SplitRuns
import Verif.Intern.Props
import Verif.Main.Props
import Verif.Out.StopTimes
import Verif.Out.Props
import Verif.Config.Props
import Verif.Config.JoinProps
import Verif.Config.Costs
import Verif.Cand.Props
import Verif.Cand.Cache
import Verif.Area.Props
import Verif.Eval.Props
import Verif.Eval.Indep
import Verif.Eval.Limits
import Verif.Eval.Hops
import Verif.Eval.Cut
import Verif.Eval.Feeds
import Verif.Trie.Canon
import Verif.Trie.CanonForest
import Verif.Eval.Unique
import Verif.Eval.Main
import Verif.Hops.Model
import Verif.Hops.Spec
import Verif.Hops.Lemmas
import Verif.Hops.Props
import Verif.Hops.Fast
import Verif.Full.Model
import Verif.Full.Spec
import Verif.Full.Lemmas
import Verif.Full.Props
import Verif.Full.Cache
import Verif.Limit.Model
import Verif.Limit.Props
import Verif.Restrictor.Weak
import Verif.Turns.Model
import Verif.Turns.Lemmas
import Verif.Turns.Props
import Verif.Gaps.Model
import Verif.Gaps.Props
import Verif.Search.Model
import Verif.Search.Props
import Verif.Snap.Model
import Verif.Snap.Lemmas
import Verif.Snap.Props
import Verif.Finish.Model
import Verif.Finish.Lemmas
import Verif.Finish.Props
import Verif.Options.Model
import Verif.Options.Spec
import Verif.Options.Lemmas
import Verif.Options.Props
import Verif.Whole.Model
import Verif.Whole.Spec
import Verif.Whole.Places
import Verif.Whole.Lemmas
import Verif.Whole.Raw
import Verif.Whole.Props
import Verif.Whole.Marks
import Verif.Whole.StationProps
import Verif.Attrs.Model
import Verif.Attrs.Spec
import Verif.Attrs.Lemmas
import Verif.Attrs.Props
import Verif.Sections.Model
import Verif.Sections.Spec
import Verif.Sections.Props
import Verif.Sections.Files
import Verif.Journey.Model
import Verif.Journey.Spec
import Verif.Journey.Lemmas
import Verif.Journey.Props
import Verif.Extract.Model
import Verif.Extract.Spec
import Verif.Extract.Reread
import Verif.Extract.Rels
import Verif.Extract.Lines
import Verif.Extract.Sim
import Verif.Extract.Parts
import Verif.Extract.Main
import Verif.Extract.Props
import Verif.Fetch.Model
import Verif.Fetch.Spec
import Verif.Fetch.Part
import Verif.Fetch.Lemmas
import Verif.Fetch.Props
import Verif.Net.Model
import Verif.Net.Spec
import Verif.Net.Lemmas
import Verif.Net.Build
import Verif.Net.Props
import Verif.Content.Model
import Verif.Content.Spec
import Verif.Content.Lemmas
import Verif.Content.Props
import Verif.Result.Own
import Verif.Result.Model
import Verif.Result.Spec
import Verif.Result.Lemmas
import Verif.Result.Props
import Verif.Result.Service
import Verif.Dists.Model
import Verif.Dists.Spec
import Verif.Dists.Lemmas
import Verif.Dists.Props
import Verif.Build.Model
import Verif.Build.Spec
import Verif.Build.Lemmas
import Verif.Build.Props
import Verif.Build.Example
import Verif.Tour.Model
import Verif.Tour.Spec
import Verif.Tour.Lemmas
import Verif.Tour.Props
import Verif.Tour.Example
import Verif.Single.Model
import Verif.Single.Spec
import Verif.Single.Props
import Verif.Single.Example
import Verif.Visit.Model
import Verif.Visit.Spec
import Verif.Visit.Lemmas
import Verif.Visit.Props
import Verif.Visit.Example
import Verif.Intake.Model
import Verif.Intake.Spec
import Verif.Intake.Lemmas
import Verif.Intake.Props
import Verif.Intake.Example
import Verif.Report.Model
import Verif.Report.Spec
import Verif.Report.Lemmas
import Verif.Report.Loop
import Verif.Report.Props
import Verif.Region.Model
import Verif.Region.Spec
import Verif.Region.Lemmas
import Verif.Region.Props
import Verif.Region.Trips
import Verif.Ids.Model
import Verif.Ids.Spec
import Verif.Ids.Lemmas
import Verif.Ids.Props
import Verif.Again.Colors
import Verif.Again.Spec
import Verif.Again.Lemmas
import Verif.Again.First
import Verif.Again.Props
import Verif.Again.Example
import Verif.Eval.Print
import Verif.Result.Together
import Verif.Share.Spec
import Verif.Share.Lemmas
import Verif.Share.Props
import Verif.Share.Example
import Verif.Counts.Model
import Verif.Counts.Spec
import Verif.Counts.Lemmas
import Verif.Counts.Props
import Verif.Threads.Spec
import Verif.Threads.Lemmas
import Verif.Threads.Props
import Verif.Threads.Example
import Verif.Color.SplitSame
import Verif.Threads.Routes
import Verif.More.Spec
import Verif.More.Lemmas
import Verif.More.Props
import Verif.More.Example
