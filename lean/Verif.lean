import Verif.Props.Wkb
import Verif.Props.Json
import Verif.Props.Geobin
import Verif.Props.Hex
import Verif.Props.Series
import Verif.Props.Plane
import Verif.Props.Orient
import Verif.Props.Nearest
import Verif.Props.Heap
import Verif.Props.Threads
import Verif.Props.Hilbert
import Verif.Props.Built
import Verif.Props.Access
import Verif.Props.Multi
import Verif.Props.Extent
import Verif.Props.Buffer
import Verif.Props.Line
import Verif.Props.Relate
import Verif.Props.Text
import Verif.Props.Wkt
import Verif.Props.Detect
import Verif.Props.Predicates
import Verif.Props.Intersects
import Verif.Props.GeojsonAgain
import Verif.Props.GeojsonFeature
import Verif.Props.GeojsonParse
import Verif.Props.GeojsonRound
import Verif.Props.GeojsonStore
import Verif.Props.Parsed
import Verif.Props.PointRel
import Verif.Props.General
import Verif.Props.LineTouch
import Verif.Props.GeojsonLoose
import Verif.Props.Ryu
import Verif.Props.Ieee
import Verif.Props.IeeeGeo
import Verif.Props.Float32
import Verif.Props.Distance
import Verif.Props.Circle
import Verif.Props.Shared
import Verif.Props.IeeeMissed
import Verif.Props.IeeeOrder
import Verif.Props.Query
import Verif.Props.Measure
import Verif.Props.Layout
import Verif.Props.CirclePolygon
import Verif.Props.Move
import Verif.Props.Touch
import Verif.Props.RectRel
import Verif.Props.EndToEnd
import Verif.Model.IndexGet
import Verif.Props.IndexGet
import Verif.Spec.Margin
import Verif.Spec.MarginShape
import Verif.Lemmas.Margin
import Verif.Lemmas.MarginSeg
import Verif.Lemmas.MarginRing
import Verif.Lemmas.MarginGeo
import Verif.Props.Margin
import Verif.Spec.Decimal
import Verif.Lemmas.Decimal
import Verif.Props.Decimal
import Verif.Model.GeomGet
import Verif.Spec.Accessors
import Verif.Lemmas.Accessors
import Verif.Lemmas.Straight
import Verif.Props.Accessors
import Verif.Spec.MarginMeet
import Verif.Lemmas.MarginMeet
import Verif.Lemmas.MarginTurn
import Verif.Lemmas.MarginAll
import Verif.Props.MarginMeet
import Verif.Spec.MarginCovers
import Verif.Lemmas.MarginCovers
import Verif.Props.MarginCovers
import Verif.Lemmas.MarginTouch
import Verif.Props.MarginTouch
import Verif.Lemmas.MarginAny
import Verif.Props.MarginAny
import Verif.Model.LayoutGeom
import Verif.Spec.LayoutGeom
import Verif.Props.LayoutGeom
import Verif.Lemmas.MarginMulti
import Verif.Props.MarginMulti
import Verif.Model.JsonEscape
import Verif.Props.JsonEscape
import Verif.Model.JsonCopy
import Verif.Props.JsonCopy
import Verif.Model.JsonCompare
import Verif.Props.JsonCompare
import Verif.Model.JsonInt
import Verif.Props.JsonInt
import Verif.Model.JsonBool
import Verif.Props.JsonBool
