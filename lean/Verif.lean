import Verif.Model.AStar
import Verif.Model.AdjList
import Verif.Model.BufferBox
import Verif.Model.ByValue
import Verif.Model.CandidateEdge
import Verif.Model.CandidateFile
import Verif.Model.CandidateRoute
import Verif.Model.Candidates
import Verif.Model.Common
import Verif.Model.Compare
import Verif.Model.CompareRun
import Verif.Model.Convert
import Verif.Model.Coordinator
import Verif.Model.CountAlloc
import Verif.Model.Csr
import Verif.Model.Decide
import Verif.Model.Delimiter
import Verif.Model.Detect
import Verif.Model.EagerLine
import Verif.Model.EagerRoute
import Verif.Model.EdgeSwitch
import Verif.Model.EdgesList
import Verif.Model.Env
import Verif.Model.Exchange
import Verif.Model.ExportEdges
import Verif.Model.ExtractRoute
import Verif.Model.Forwarder
import Verif.Model.GraphCopy
import Verif.Model.GraphHelper
import Verif.Model.IndexBuild
import Verif.Model.Keys
import Verif.Model.Learn
import Verif.Model.Lifetime
import Verif.Model.MatchRoute
import Verif.Model.Matcher
import Verif.Model.Measures
import Verif.Model.MedianMerge
import Verif.Model.Memo
import Verif.Model.Methods
import Verif.Model.MultiLine
import Verif.Model.NetDisk
import Verif.Model.NetFiles
import Verif.Model.NetImport
import Verif.Model.NextSearch
import Verif.Model.Options
import Verif.Model.Ordering
import Verif.Model.Osm
import Verif.Model.OsmExport
import Verif.Model.OsmTags
import Verif.Model.Outcome
import Verif.Model.Pipeline
import Verif.Model.Prepare
import Verif.Model.Profile
import Verif.Model.Program
import Verif.Model.QEnv
import Verif.Model.QLearn
import Verif.Model.QMatch
import Verif.Model.Recorded
import Verif.Model.Report
import Verif.Model.Reproject
import Verif.Model.ReturnLine
import Verif.Model.RichLine
import Verif.Model.Route
import Verif.Model.RouteLife
import Verif.Model.Router
import Verif.Model.Rows
import Verif.Model.Rules
import Verif.Model.SameSystem
import Verif.Model.Seek
import Verif.Model.SegmentRef
import Verif.Model.Session
import Verif.Model.Settings
import Verif.Model.ShortestPath
import Verif.Model.SimplifyLine
import Verif.Model.SimplifyRetry
import Verif.Model.Srs
import Verif.Model.Storage
import Verif.Model.Substring
import Verif.Model.TagFlow
import Verif.Model.Tags
import Verif.Model.TimeLimit
import Verif.Model.Tour
import Verif.Model.TrackCsv
import Verif.Model.TrackFiles
import Verif.Model.Traversal
import Verif.Model.TrimMerge
import Verif.Model.TwoRuns
import Verif.Model.View
import Verif.Model.Viterbi
import Verif.Model.Weights
import Verif.Proofs.AStar
import Verif.Proofs.AdjList
import Verif.Proofs.Csr
import Verif.Proofs.Decide
import Verif.Proofs.Env
import Verif.Proofs.Learn
import Verif.Proofs.LearnProc
import Verif.Proofs.NetImport
import Verif.Proofs.Pipeline
import Verif.Proofs.PipelineLeg
import Verif.Proofs.Prepare
import Verif.Proofs.Route
import Verif.Proofs.SegmentRef
import Verif.Proofs.Settings
import Verif.Proofs.ShortestPath
import Verif.Proofs.TagFlow
import Verif.Proofs.Traversal
import Verif.Props.AStar
import Verif.Props.Adapt
import Verif.Props.AdjList
import Verif.Props.BufferBox
import Verif.Props.ByValue
import Verif.Props.CandidateEdge
import Verif.Props.CandidateFile
import Verif.Props.CandidateRoute
import Verif.Props.Candidates
import Verif.Props.Common
import Verif.Props.Compare
import Verif.Props.CompareRun
import Verif.Props.Convert
import Verif.Props.Coordinator
import Verif.Props.CountAlloc
import Verif.Props.Csr
import Verif.Props.Decide
import Verif.Props.Delimiter
import Verif.Props.Detect
import Verif.Props.EagerLine
import Verif.Props.EagerRoute
import Verif.Props.EdgeSwitch
import Verif.Props.EdgesList
import Verif.Props.Env
import Verif.Props.Exchange
import Verif.Props.ExportEdges
import Verif.Props.ExtractRoute
import Verif.Props.Forwarder
import Verif.Props.Found
import Verif.Props.GraphCopy
import Verif.Props.GraphHelper
import Verif.Props.IndexBuild
import Verif.Props.Keys
import Verif.Props.LazyLine
import Verif.Props.Learn
import Verif.Props.LearnNear
import Verif.Props.Lifetime
import Verif.Props.LineAlgebra
import Verif.Props.MatchRoute
import Verif.Props.Matcher
import Verif.Props.Measures
import Verif.Props.MedianMerge
import Verif.Props.Memo
import Verif.Props.Methods
import Verif.Props.MultiLine
import Verif.Props.NetDisk
import Verif.Props.NetFiles
import Verif.Props.NetImport
import Verif.Props.NextSearch
import Verif.Props.Options
import Verif.Props.Ordering
import Verif.Props.Osm
import Verif.Props.OsmExport
import Verif.Props.OsmTags
import Verif.Props.Pipeline
import Verif.Props.Prepare
import Verif.Props.Profile
import Verif.Props.Program
import Verif.Props.QEnv
import Verif.Props.QLearn
import Verif.Props.QMatch
import Verif.Props.Recorded
import Verif.Props.Report
import Verif.Props.Reproject
import Verif.Props.ReturnLine
import Verif.Props.Route
import Verif.Props.RouteLife
import Verif.Props.RouteValues
import Verif.Props.Router
import Verif.Props.Rows
import Verif.Props.Rules
import Verif.Props.SameSystem
import Verif.Props.Seek
import Verif.Props.SegmentRef
import Verif.Props.Session
import Verif.Props.Settings
import Verif.Props.ShortestPath
import Verif.Props.SimplifyLine
import Verif.Props.SimplifyRetry
import Verif.Props.Srs
import Verif.Props.Storage
import Verif.Props.Substring
import Verif.Props.TagFlow
import Verif.Props.Tags
import Verif.Props.Thorough
import Verif.Props.Tidy
import Verif.Props.TimeLimit
import Verif.Props.Tour
import Verif.Props.TourBounded
import Verif.Props.TrackCsv
import Verif.Props.TrackFiles
import Verif.Props.Traversal
import Verif.Props.TrimMerge
import Verif.Props.TwoRuns
import Verif.Props.Unskipped
import Verif.Props.View
import Verif.Props.Viterbi
import Verif.Props.Weights
import Verif.Spec.Graph
import Verif.Spec.Walk
import Verif.Audit
