import Verif.Time.PropsArith
import Verif.Time.PropsScale
import Verif.Time.PropsTimer
import Verif.Time.PropsEvent
import Verif.Time.PropsCal
import Verif.Rand.Props
import Verif.Viz.Props
import Verif.Mat.PropsAlg
import Verif.Mat.PropsSolve
import Verif.Mat.PropsStore
import Verif.Mat.PropsVec
import Verif.Att.PropsQuat
import Verif.Att.PropsEuler
import Verif.Frames.PropsFrames
import Verif.Frames.PropsForce
import Verif.Frames.PropsGeo
import Verif.Interp.Props
import Verif.Opt.PropsGD
import Verif.Opt.PropsSGD
import Verif.Stats.PropsCov
import Verif.Stats.PropsDist
import Verif.Stats.PropsMvn
import Verif.ML.PropsReg
import Verif.ML.PropsMargin
import Verif.ML.PropsBayes
import Verif.Shapes.PropsMass
import Verif.Shapes.PropsSolid
import Verif.Units.Props
import Verif.Ode.PropsNewton
import Verif.Ode.PropsStep
import Verif.Shapes.PropsAssembly
import Verif.Atmo.PropsIsa
import Verif.Atmo.PropsUssa
import Verif.Graphics.PropsView
import Verif.Graphics.PropsCamera
import Verif.Wmm.PropsTable
import Verif.Wmm.PropsField
import Verif.Stars.PropsColor
import Verif.Stars.PropsMotion
import Verif.Stars.PropsGate
import Verif.Wmm.PropsGen
import Verif.Simd.Model
import Verif.Simd.Spec
import Verif.Simd.Lemmas
import Verif.Simd.Kernels
import Verif.Simd.Props
import Verif.Wmm.GenText
import Verif.Frames.Ferrari
import Verif.Frames.PropsFerrari
import Verif.Frames.Gravity
import Verif.Frames.PropsGravity
import Verif.Viz.Viewer
import Verif.Viz.ViewerRun
import Verif.Viz.ViewerLemmas
import Verif.Viz.PropsSources
import Verif.Viz.PropsViewer
import Verif.Mat.Owned
import Verif.Mat.PropsOwned
import Verif.Real.Model
import Verif.Real.Props
import Verif.Tools.Search
import Verif.Tools.PropsSearch
import Verif.Tools.Asserts
import Verif.Tools.PropsAsserts
import Verif.Tools.Grid
import Verif.Tools.PropsGrid
import Verif.Round.Spec
import Verif.Round.Lemmas
import Verif.Round.Lu
import Verif.Round.Solve
import Verif.Round.PropsLu
import Verif.Round.Chol
import Verif.Round.PropsChol
import Verif.Round.Det
import Verif.Round.PropsDet
import Verif.Round.CholTotal
import Verif.Round.PropsCholAccept
import Verif.Float.Spec
import Verif.Float.Lemmas
import Verif.Float.Model
import Verif.Float.Agree
import Verif.Float.Eval
import Verif.Float.PropsAngle
import Verif.Float.PropsEulerDcm
import Verif.Float.PropsQuatDcm
import Verif.Float.Lerp
import Verif.Float.LerpAgree
import Verif.Float.PropsLerp
import Verif.Float.PropsInvLerp
import Verif.Att.PropsTaylor
import Verif.Att.PropsTaylorOrder
import Verif.Interp.PropsEnergy
import Verif.Geom.Spec
import Verif.Geom.Model
import Verif.Geom.Agree
import Verif.Geom.Calculus
import Verif.Geom.Lemmas
import Verif.Geom.PropsUnit
import Verif.Geom.PropsRotate
import Verif.Geom.PropsDcm
import Verif.Geom.PropsHistory
import Verif.Float.Interp
import Verif.Float.InterpAgree
import Verif.Float.PropsSpline
import Verif.Float.PropsPoly
import Verif.Float.PropsAccept
import Verif.Ode.Round
import Verif.Ode.PropsRound
import Verif.Ode.Order
import Verif.Ode.OrderGlobal
import Verif.Ode.PropsOrder
import Verif.Ode.PropsIncr
import Verif.Frames.Orbit
import Verif.Frames.PropsOrbit
import Verif.Att.Typed
import Verif.Att.PropsTyped
import Verif.Text.Model
import Verif.Text.Props
import Verif.Viz.Render
import Verif.Viz.PropsRender
import Verif.Viz.Plot
import Verif.Viz.PropsPlot
import Verif.Build.Model
import Verif.Build.Props
import Verif.Bench.Model
import Verif.Bench.Props
import Verif.Frames.PropsTurn
import Verif.Opt.Config
import Verif.Opt.PropsConfig
import Verif.Ieee.Spec
import Verif.Ieee.Lemmas
import Verif.Ieee.PropsDot
import Verif.Ieee.PropsNorm
import Verif.Stats.PropsNormal
import Verif.Rand.PropsUniform
import Verif.Opt.PropsBox
import Verif.ML.PropsConv
import Verif.Ieee.Angle
import Verif.Ieee.PropsAngle
import Verif.ML.PropsSvm
import Verif.Opt.PropsMomentum
import Verif.Opt.PropsSgdConv
import Verif.Stats.PropsCovFloat
import Verif.Ieee.Order
import Verif.Opt.PropsIeee
import Verif.Ieee.Special
import Verif.Ieee.PropsChol
import Verif.Ieee.PropsLu
import Verif.Ode.PropsIeee
import Verif.Ieee.Cast
import Verif.Ieee.PropsCast
import Verif.Viz.Poll
import Verif.Viz.PropsPoll
import Verif.ML.BayesIeee
import Verif.ML.PropsBayesIeee
import Verif.ML.MarginIeee
import Verif.ML.PropsPercIeee
import Verif.ML.PropsLogisticIeee
import Verif.Mat.PropsCoding
import Verif.Frames.PropsFerrariError
import Verif.Frames.PropsFerrariBound
import Verif.Shapes.PropsMassFloat
import Verif.Time.PropsRelease
import Verif.Time.PropsLeap
import Verif.Stats.PropsGaussIeee
import Verif.Stats.PropsMeanIeee
import Verif.Tools.PropsGridIeee
import Verif.Interp.PropsError
import Verif.Ode.PropsNewtonLocal
import Verif.Float.PropsQuatNear
import Verif.Mat.InPlace
import Verif.Mat.PropsInPlace
import Verif.ML.Defaults
import Verif.ML.PropsDescent
import Verif.Opt.Threads
import Verif.Opt.PropsThreads
import Verif.Bench.Errors
import Verif.Bench.PropsErrors
import Verif.ML.LinearFloat
import Verif.ML.PropsTrainFloat
import Verif.ML.PropsLinearIeee
import Verif.Float.Coord
import Verif.Float.PropsCoord
import Verif.Float.Geo
import Verif.Float.Rel
import Verif.Float.PropsGeo
import Verif.Wmm.FpModel
import Verif.Wmm.FpErr
import Verif.Wmm.FpSum
import Verif.Wmm.FpGeo
import Verif.Wmm.PropsFp
import Verif.Wmm.PropsFpElem
import Verif.Float.PropsTurn
import Verif.Atmo.PropsFp
import Verif.Float.PropsView
import Verif.Float.PropsCamera
import Verif.Float.PropsDrag
import Verif.Float.PropsStars
import Verif.Shapes.PropsDiffFloat
import Verif.Round.PropsInverse
import Verif.Mat.PropsInverses
import Verif.ML.PropsInvariance
import Verif.Mat.PropsOrder
import Verif.Interp.PropsUnits
import Verif.Ode.PropsUnits
import Verif.Float.Scale
import Verif.Float.PropsScale
import Verif.ML.PropsTrainOrder
import Verif.ML.PropsTrainRotate
import Verif.Opt.PropsRotate
import Verif.Stats.PropsUnits
import Verif.Frames.PropsAxes
import Verif.Shapes.PropsAxes
import Verif.Stats.PropsSpan
import Verif.Graphics.PropsSeen
import Verif.Float.Forces
import Verif.Float.PropsForces
import Verif.Float.Project
import Verif.Float.PropsProject
import Verif.Time.PropsLoop
import Verif.Shapes.PropsSolidFloat
import Verif.Shapes.Tank
import Verif.Shapes.PropsTank
import Verif.ML.DiscrIeee
import Verif.ML.PropsDiscrIeee
import Verif.ML.SvmIeee
import Verif.ML.PropsSvmIeee
import Verif.Stats.DiscreteIeee
import Verif.Stats.PropsDiscreteIeee
import Verif.Stats.DrawIeee
import Verif.Stats.PropsDrawIeee
import Verif.Units.UnitsIeee
import Verif.Units.PropsUnitsIeee
import Verif.Stats.PropsCovIeee
import Verif.Stats.PropsFitDraw
import Verif.Stats.PropsCrossIeee
import Verif.Stats.PropsCovOfIeee
import Verif.Mat.PropsTransIeee
import Verif.Mat.PropsCrossProdIeee
import Verif.Float.PropsLerpIeee
import Verif.Float.PropsPolyIeee
import Verif.Float.PropsSplineIeee
import Verif.Float.PropsKnotsIeee
