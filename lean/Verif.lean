import Verif.Props.IntToString
import Verif.Props.Time
import Verif.Props.Random
import Verif.Props.Const
import Verif.Props.Vector
import Verif.Props.VectorNorm
import Verif.Props.Polar
import Verif.Props.Gauss
import Verif.Props.RotMatrix
import Verif.Props.RotNormalize
import Verif.Props.Quaternion
import Verif.Props.QuatMatrix
import Verif.Props.Rotate3D
import Verif.Props.Point
import Verif.Props.AxisBox
import Verif.Props.BoxTests
import Verif.Props.Ball
import Verif.Props.BoundingSphere
import Verif.Props.Segment
import Verif.Props.SegmentPairs
import Verif.Lemmas.RotBox
import Verif.Props.RotBox
import Verif.Model.Polygon
import Verif.Spec.Polygon
import Verif.Lemmas.Polygon
import Verif.Props.Corners
import Verif.Props.ShapeMoves
import Verif.Props.ShapeRotate
import Verif.Props.ShapeCoords
import Verif.Lemmas.PolyExpand
import Verif.Props.PolyAdd
import Verif.Lemmas.PolyReduce
import Verif.Props.PolyEdit
import Verif.Model.Stream
import Verif.Spec.Stream
import Verif.Lemmas.Stream
import Verif.Props.Stream
import Verif.Props.StreamPoly
import Verif.Model.Atlas
import Verif.Props.Atlas
import Verif.Props.AtlasNums
import Verif.Model.PolyIntersect
import Verif.Model.PolyCross
import Verif.Spec.PolyShapes
import Verif.Props.PolyContains
import Verif.Lemmas.EvenOdd
import Verif.Props.PolyPoint
import Verif.Props.VectorAngles
import Verif.Model.Probability
import Verif.Lemmas.Stirling
import Verif.Lemmas.Probability
import Verif.Props.Probability
import Verif.Props.GammaFunction
import Verif.Props.Conditional
import Verif.Props.Continued
import Verif.Props.Hazard
import Verif.Props.RotEqual
import Verif.Lemmas.Separating
import Verif.Props.Separating
import Verif.Model.Miniball
import Verif.Spec.Miniball
import Verif.Lemmas.Miniball
import Verif.Props.Miniball
import Verif.Props.PolyBall
import Verif.Lemmas.PolyBox
import Verif.Props.PolyBox
import Verif.Props.PolyMoved
import Verif.Props.PolyPairs
import Verif.Props.PolySpace
import Verif.Props.PolyCross
import Verif.Props.PolyLine
import Verif.Props.PolyInSegment
import Verif.Props.QuatDrift
import Verif.Model.PolySphere
import Verif.Props.Turning
import Verif.Props.PolySphere
import Verif.Props.ShapeEqual
import Verif.Props.RoundRandom
import Verif.Props.RoundMove
import Verif.Props.RoundBound
import Verif.Props.RoundQuat
import Verif.Props.RoundMatrix
import Verif.Props.RoundBary
import Verif.Props.SeedStreams
import Verif.Props.Period
import Verif.Model.PointPolar
import Verif.Props.PolarPoint
import Verif.Props.QuatShapes
import Verif.Props.PolyInSegmentFalse
import Verif.Props.RoundMore
import Verif.Props.SatShared
import Verif.Props.PolySingle
import Verif.Props.RoundSphere
import Verif.Props.RoundBuild
import Verif.Props.RoundConvert
import Verif.Props.RoundValid
import Verif.Props.RoundSeg
import Verif.Props.RoundSegBall
import Verif.Props.RoundSegPoint
import Verif.Props.RoundSegIn
import Verif.Props.RotParity
import Verif.Props.RoundRBoxTwo
import Verif.Props.RoundSatTwo
import Verif.Props.RoundPolyFalse
import Verif.Props.RoundNorm
import Verif.Props.RoundDrift
import Verif.Props.RoundValidMore
import Verif.Props.RoundSetVals
import Verif.Props.RoundSetValsPlane
import Verif.Props.RoundSetValsFalse
import Verif.Props.RoundDir
import Verif.Props.RoundDirPlane
import Verif.Props.RoundDirFalse
import Verif.Props.RoundDirQuat
import Verif.Props.RoundDirMat
import Verif.Props.RoundDirOpp
import Verif.Model.RoundedPoly3
import Verif.Props.RoundPoly3
import Verif.Model.RoundedMove
import Verif.Props.RoundShapeMove
import Verif.Props.RoundShapeCoords
import Verif.Cases.Shapes
import Verif.Cases.Numbers
import Verif.Cases.Points
import Verif.Cases.Polygons
import Verif.Cases.Rotations
import Verif.Cases.Quaternions
import Verif.Cases.Segments
import Verif.Cases.Rounding
import Verif.Cases.Single
import Verif.Cases.Rest
import Verif.Cases.RotatedRounding
import Verif.Cases.RotatedSpace
import Verif.Cases.ShapeMoves
import Verif.Spec.Ieee
import Verif.Model.Ieee
import Verif.Lemmas.Ieee
import Verif.Props.Ieee
import Verif.Props.IeeeNan
import Verif.Lemmas.IeeeSub
import Verif.Props.IeeeSub
import Verif.Spec.PolyPlane
import Verif.Model.RoundedPoly3Move
import Verif.Lemmas.RoundPoly3Move
import Verif.Props.RoundPoly3Move
import Verif.Props.RoundPoly3Frame
import Verif.Cases.Poly3Moves
import Verif.Spec.IeeeRange
import Verif.Model.IeeeMove
import Verif.Lemmas.IeeeMove
import Verif.Props.IeeeMove
import Verif.Props.IeeeFrame
import Verif.Lemmas.IeeeQuat
import Verif.Props.IeeeQuat
import Verif.Cases.IeeeMove
import Verif.Props.RoundConvertOld
import Verif.Cases.OldMirror
import Verif.Model.IeeeQuat
import Verif.Lemmas.IeeeNorm
import Verif.Props.IeeeUnit
import Verif.Cases.IeeeUnit
import Verif.Lemmas.IeeeAny
import Verif.Props.IeeeAny
import Verif.Cases.IeeeAny
import Verif.Model.RoundedRBoxMove
import Verif.Props.RoundRBoxFrame
import Verif.Cases.RBoxFrames
import Verif.Spec.IeeeExt
import Verif.Model.IeeeBox
import Verif.Props.IeeeBox
import Verif.Cases.IeeeBoxes
import Verif.Model.RoundedPoly3Inter
import Verif.Lemmas.RoundPoly3Inter
import Verif.Props.RoundPoly3Inter
import Verif.Cases.PolyPointSpace
import Verif.Model.RoundedMiniball
import Verif.Lemmas.RoundMiniball
import Verif.Props.RoundMiniball
import Verif.Cases.SpherePairs
import Verif.Lemmas.RoundBallPoly3
import Verif.Props.RoundBallPoly3
import Verif.Cases.BallPolySpace
import Verif.Lemmas.RoundBallInter3
import Verif.Props.RoundBallInter3
import Verif.Model.RoundedPolyBox
import Verif.Props.RoundPolyBox
import Verif.Model.RoundedPolySeg
import Verif.Lemmas.RoundPolySeg
import Verif.Props.RoundPolySeg
import Verif.Model.RoundedPolyIn
import Verif.Props.RoundPolyIn
import Verif.Cases.BallMeetsPoly
import Verif.Cases.BoxPolySpace
import Verif.Cases.PolySegSpace
import Verif.Cases.PolyInSeg
import Verif.Model.RoundedPolyRBox
import Verif.Lemmas.PolyStable
import Verif.Props.RoundPolyRBox
import Verif.Cases.PolyRBox
import Verif.Props.RoundPolyMoved
import Verif.Cases.PolyMovedRounding
import Verif.Model.RoundedHistory
import Verif.Props.RoundHistory
import Verif.Cases.History
import Verif.Model.RoundedSteps
import Verif.Props.RoundSteps
import Verif.Cases.Steps
import Verif.Model.RoundedSegSteps
import Verif.Props.RoundSegSteps
import Verif.Cases.SegSteps
import Verif.Model.RoundedBallHistory
import Verif.Props.RoundBallHistory
import Verif.Cases.BallHistory
import Verif.Props.RoundBarySteps
import Verif.Cases.BarySteps
import Verif.Props.RoundSphereSteps
import Verif.Cases.SphereSteps
import Verif.Model.RoundedUndo
import Verif.Props.RoundUndo
import Verif.Cases.Undo
import Verif.Model.RoundedUndoPoly
import Verif.Props.RoundUndoPoly
import Verif.Cases.UndoPoly
import Verif.Model.RoundedRBoxSteps
import Verif.Props.RoundRBoxSteps
import Verif.Cases.RBoxSteps
