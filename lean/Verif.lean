import Verif.Lemmas.BPChain
import Verif.Lemmas.BPDense
import Verif.Lemmas.BPFrame
import Verif.Lemmas.BPLayer
import Verif.Lemmas.BPOps
import Verif.Lemmas.BranchBuild
import Verif.Lemmas.BranchFF
import Verif.Lemmas.BranchMake
import Verif.Lemmas.BranchNet
import Verif.Lemmas.BranchVal
import Verif.Lemmas.Build
import Verif.Lemmas.BuildOne
import Verif.Lemmas.Bytes
import Verif.Lemmas.CalDif
import Verif.Lemmas.Calls
import Verif.Lemmas.Chain
import Verif.Lemmas.Compile
import Verif.Lemmas.Dense
import Verif.Lemmas.Descent
import Verif.Lemmas.Descent2
import Verif.Lemmas.Descent3
import Verif.Lemmas.Descent4
import Verif.Lemmas.Eff
import Verif.Lemmas.Emit
import Verif.Lemmas.Exec
import Verif.Lemmas.F16
import Verif.Lemmas.FFConv
import Verif.Lemmas.FFConv2D
import Verif.Lemmas.FFDeconv
import Verif.Lemmas.FFDense
import Verif.Lemmas.FFPool
import Verif.Lemmas.FFView
import Verif.Lemmas.Fail
import Verif.Lemmas.Fin
import Verif.Lemmas.Fin2
import Verif.Lemmas.Fin3
import Verif.Lemmas.FitFrame
import Verif.Lemmas.Float64
import Verif.Lemmas.GAll
import Verif.Lemmas.GBP
import Verif.Lemmas.GBack
import Verif.Lemmas.GBias
import Verif.Lemmas.GBuild
import Verif.Lemmas.GChain
import Verif.Lemmas.GConv
import Verif.Lemmas.GConv2
import Verif.Lemmas.GDense
import Verif.Lemmas.GDer
import Verif.Lemmas.GExec
import Verif.Lemmas.GFF
import Verif.Lemmas.GFit
import Verif.Lemmas.GFront
import Verif.Lemmas.GLearn
import Verif.Lemmas.GLive
import Verif.Lemmas.GLoop
import Verif.Lemmas.GNet
import Verif.Lemmas.GOne
import Verif.Lemmas.GPool
import Verif.Lemmas.GRun
import Verif.Lemmas.GViews
import Verif.Lemmas.Graph
import Verif.Lemmas.HalfArith
import Verif.Lemmas.Heap
import Verif.Lemmas.Img
import Verif.Lemmas.Index
import Verif.Lemmas.Index64
import Verif.Lemmas.JBuild
import Verif.Lemmas.JCompile
import Verif.Lemmas.JFF
import Verif.Lemmas.JFinal
import Verif.Lemmas.JFirst
import Verif.Lemmas.JMake
import Verif.Lemmas.JParams
import Verif.Lemmas.JStep
import Verif.Lemmas.JStep2
import Verif.Lemmas.LBuild
import Verif.Lemmas.LCompile
import Verif.Lemmas.LFF
import Verif.Lemmas.LStack
import Verif.Lemmas.Lin
import Verif.Lemmas.LossBuild
import Verif.Lemmas.Mat
import Verif.Lemmas.ModelText
import Verif.Lemmas.Nested
import Verif.Lemmas.OwnBP
import Verif.Lemmas.OwnFF
import Verif.Lemmas.OwnFin
import Verif.Lemmas.OwnInv
import Verif.Lemmas.OwnLayer
import Verif.Lemmas.OwnNet
import Verif.Lemmas.OwnNow
import Verif.Lemmas.OwnPrim
import Verif.Lemmas.OwnProg
import Verif.Lemmas.OwnUser
import Verif.Lemmas.Pend
import Verif.Lemmas.Predict
import Verif.Lemmas.ResetFit
import Verif.Lemmas.Rounding
import Verif.Lemmas.Run
import Verif.Lemmas.Sat
import Verif.Lemmas.SaveFrame
import Verif.Lemmas.SaveNet
import Verif.Lemmas.Sees
import Verif.Lemmas.Shape
import Verif.Lemmas.SideBP
import Verif.Lemmas.SideFF
import Verif.Lemmas.SideFin
import Verif.Lemmas.SideInv
import Verif.Lemmas.SideLayer
import Verif.Lemmas.SideLocal
import Verif.Lemmas.SideNet
import Verif.Lemmas.SidePrim
import Verif.Lemmas.SideProg
import Verif.Lemmas.SideTurns
import Verif.Lemmas.Sound
import Verif.Lemmas.Stage
import Verif.Lemmas.Struct
import Verif.Lemmas.Text
import Verif.Lemmas.Total
import Verif.Lemmas.TrainBuild
import Verif.Lemmas.TrainExec
import Verif.Lemmas.TrainFF
import Verif.Lemmas.TrainLive
import Verif.Lemmas.TrainNet
import Verif.Lemmas.TrainOne
import Verif.Lemmas.TrainRun
import Verif.Lemmas.TrainSpec
import Verif.Lemmas.Value
import Verif.Lemmas.View
import Verif.Lemmas.Write
import Verif.Model.Activation
import Verif.Model.Bar
import Verif.Model.Bytes
import Verif.Model.Context
import Verif.Model.Ctors
import Verif.Model.Distant
import Verif.Model.F16
import Verif.Model.Float64
import Verif.Model.Go
import Verif.Model.GraphOps
import Verif.Model.Heap
import Verif.Model.Img
import Verif.Model.Layer
import Verif.Model.Lazy
import Verif.Model.Mat
import Verif.Model.ModelText
import Verif.Model.Nested
import Verif.Model.Net
import Verif.Model.Op
import Verif.Model.Picture
import Verif.Model.Random
import Verif.Model.Scalar
import Verif.Model.Text
import Verif.Model.Tools
import Verif.Model.Tools64
import Verif.Props.Activation
import Verif.Props.BackPropKeeps
import Verif.Props.Bar
import Verif.Props.Branch
import Verif.Props.Branched
import Verif.Props.Bytes
import Verif.Props.Calls
import Verif.Props.Context
import Verif.Props.Descent
import Verif.Props.Distant
import Verif.Props.Frozen
import Verif.Props.Gradient
import Verif.Props.Graph
import Verif.Props.GraphEager
import Verif.Props.GraphOps
import Verif.Props.GraphWrite
import Verif.Props.Half
import Verif.Props.Img
import Verif.Props.Index
import Verif.Props.Initial
import Verif.Props.Joined
import Verif.Props.JoinedPredict
import Verif.Props.Layers
import Verif.Props.Learn
import Verif.Props.MatBasic
import Verif.Props.MatDot
import Verif.Props.MatOps
import Verif.Props.MatReduce
import Verif.Props.MatStruct
import Verif.Props.ModelText
import Verif.Props.Nested
import Verif.Props.NotGradient
import Verif.Props.Picture
import Verif.Props.Predict
import Verif.Props.Program
import Verif.Props.ProgramSave
import Verif.Props.Random
import Verif.Props.RateZero
import Verif.Props.SaveLoad
import Verif.Props.SaveSeq
import Verif.Props.Scalar
import Verif.Props.Separate
import Verif.Props.Shapes
import Verif.Props.SoftMaxField
import Verif.Props.Structure
import Verif.Props.Text
import Verif.Props.Train
import Verif.Props.TrainKinds
import Verif.Props.WriteCalls
import Verif.Spec.Branched
import Verif.Spec.Calls
import Verif.Spec.Descent
import Verif.Spec.Expr
import Verif.Spec.Field
import Verif.Spec.Graph
import Verif.Spec.Half
import Verif.Spec.Index
import Verif.Spec.Joined
import Verif.Spec.Learn
import Verif.Spec.ModelText
import Verif.Spec.Nested
import Verif.Spec.Net
import Verif.Spec.Program
import Verif.Spec.Random
import Verif.Spec.Rounding
import Verif.Spec.Save
import Verif.Spec.Separate
import Verif.Spec.Tensor
import Verif.Spec.Train
import Verif.Spec.Writes
