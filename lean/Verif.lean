import Verif.Compound.Model
import Verif.Compound.Lemmas
import Verif.Compound.Props
import Verif.Ids.Model
import Verif.Ids.Props
import Verif.Search.Model
import Verif.Search.Spec
import Verif.Search.Lemmas
import Verif.Search.Lemmas2
import Verif.Search.Lemmas3
import Verif.Search.Props
import Verif.Search.Paths
import Verif.Graph.Model
import Verif.Graph.Props
import Verif.Graph.Props2
import Verif.Graph.Queries
import Verif.LMap.Model
import Verif.LMap.Lemmas
import Verif.LMap.Main
import Verif.LMap.Props
import Verif.LMap.Create
import Verif.LMap.Nearest
import Verif.LMap.NearestBox
import Verif.LMap.HasId
import Verif.LMap.Stale
import Verif.LMap.StaleSub
import Verif.HMap.Model
import Verif.HMap.Lemmas
import Verif.HMap.Props
import Verif.Attr.Model
import Verif.Attr.Props
import Verif.Attr.Threads
import Verif.LineStr.Model
import Verif.LineStr.Props
import Verif.Lanelet.Model
import Verif.Lanelet.Props
import Verif.Lanelet.Cache
import Verif.Center.Model
import Verif.Center.Props
import Verif.Rules.Model
import Verif.Rules.Props
import Verif.Build.Model
import Verif.Build.Collector
import Verif.Build.Lemmas
import Verif.Build.Main
import Verif.Build.Whole
import Verif.Build.Props
import Verif.Build.Valid
import Verif.Cost.Model
import Verif.Cost.Props
import Verif.Seq.Model
import Verif.Seq.Props
import Verif.Match.Model
import Verif.Match.Props
import Verif.BBox.Model
import Verif.BBox.Props
import Verif.Osm.Ring
import Verif.Osm.RingProps
import Verif.Osm.File
import Verif.Osm.Lemmas
import Verif.Osm.Read
import Verif.Osm.ReadProps
import Verif.Osm.Map
import Verif.Osm.Write
import Verif.Osm.WriteLemmas
import Verif.Osm.WriteProps
import Verif.Osm.Load
import Verif.Osm.LoadLemmas
import Verif.Osm.LoadProps
import Verif.Osm.RingTrip
import Verif.Osm.RoundTrip
import Verif.Osm.RegisterIds
import Verif.Osm.Josm
import Verif.Osm.Doc
import Verif.Geo.Space
import Verif.Geo.Project
import Verif.Geo.Nearest
import Verif.Geo.Plane
import Verif.Geo.Arc
import Verif.Geo.ArcCoords
import Verif.Geo.Corner
import Verif.RegElem.Model
import Verif.RegElem.Props
import Verif.RegElem.Access
import Verif.Valid.Model
import Verif.Geo.Curvature
import Verif.Offset.Model
import Verif.Offset.Convex
import Verif.Offset.Extract
import Verif.Offset.Join
import Verif.Offset.Props
import Verif.Offset.Examples
import Verif.Valid.Curvature
import Verif.Valid.Props
import Verif.Graph.Validity
import Verif.Path.Model
import Verif.Path.Props
import Verif.Route.Model
import Verif.Route.Search
import Verif.Route.Build
import Verif.Route.Facts
import Verif.Route.Props
import Verif.Route.Query
import Verif.Route.Term
import Verif.Route.Eval
import Verif.Route.Attach
import Verif.Route.Straight
import Verif.Route.Via
import Verif.Route.Visit
import Verif.Tri.Grid
import Verif.Tri.Model
import Verif.Tri.Lemmas
import Verif.Tri.Traverse
import Verif.Tri.Props
import Verif.Bin.Model
import Verif.Bin.Spec
import Verif.Bin.Lemmas
import Verif.Bin.Objects
import Verif.Bin.Rec
import Verif.Bin.Main
import Verif.Bin.Regs
import Verif.Bin.Eval
import Verif.Bin.Props
import Verif.Lanelet.Border
import Verif.Lanelet.Overlap
import Verif.Lanelet.Handle
import Verif.Lanelet.Own
import Verif.Geo.Intersect
import Verif.Proj.Model
import Verif.Proj.Props
import Verif.Proj.Elliptic
import Verif.Proj.Inverse
import Verif.Proj.Local
import Verif.Py.Index
import Verif.Py.Script
import Verif.Py.Repr
import Verif.Py.Call
import Verif.Py.Kinds
import Verif.Py.Dict
import Verif.Py.Layers
import Verif.Py.Convert
import Verif.Py.Geometry
import Verif.Py.Hand
import Verif.Py.Costs
import Verif.Py.Element
import Verif.Io.Model
import Verif.Io.Props
import Verif.Plan.Props
import Verif.Plan.Vehicle
import Verif.Plan.Reload
import Verif.Plan.Rounded
import Verif.Plan.Double
import Verif.Plan.Queries
import Verif.Plan.Route
import Verif.Debug.Model
import Verif.Debug.Props
import Verif.Debug.Route
import Verif.Route.Container
import Verif.Geo.Align
import Verif.Geo.Shift
import Verif.Geo.Height
import Verif.Osm.Equal
import Verif.Util.Text
import Verif.Util.Iter
import Verif.Util.Concat
