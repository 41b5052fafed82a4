import Verif.Model.Vec
import Verif.Model.Zm
import Verif.Model.Motor
import Verif.Model.Joint
import Verif.Model.Body
import Verif.Model.Link
import Verif.Model.Chain
import Verif.Model.ChainTree
import Verif.Model.Jacobi
import Verif.Model.ABI
import Verif.Model.Clone
import Verif.Model.IK
import Verif.Model.CD
import Verif.Model.IKSeq
import Verif.Model.Contact
import Verif.Model.Torsion
import Verif.Model.Cad2ztk
import Verif.Model.RkMP
import Verif.Model.Urdf
import Verif.Model.BREP
import Verif.Model.LinkHeap
import Verif.Model.ChainFile
import Verif.Model.IKImp
import Verif.Model.IKConf
import Verif.Model.Apps
import Verif.Model.PoseFile
import Verif.Model.UrdfFile
import Verif.Model.CDVol
import Verif.Model.Mem
import Verif.Model.CDMem
import Verif.Model.ChainMem
import Verif.Model.Manip
import Verif.Model.Tools
import Verif.Model.UrdfShape
import Verif.Model.Geom
import Verif.Model.IKMethod
import Verif.Model.Convert
import Verif.Model.Cmd
import Verif.Model.PoseKeys
import Verif.Model.CadFile
import Verif.Model.Print
import Verif.Model.InPlace
import Verif.Model.Rounded
import Verif.Model.Arith
import Verif.Model.Ellips
import Verif.Model.RoundedJacobi
import Verif.Model.JointMotor
import Verif.Spec.Tree
import Verif.Spec.Kinematics
import Verif.Spec.Mechanics
import Verif.Spec.Samples
import Verif.Spec.Motion
import Verif.Spec.ABI
import Verif.Spec.Clone
import Verif.Spec.IK
import Verif.Spec.IKEq
import Verif.Spec.CD
import Verif.Spec.BREP
import Verif.Spec.LinkHeap
import Verif.Spec.ChainFile
import Verif.Spec.IKConf
import Verif.Spec.UrdfFile
import Verif.Spec.VirtualWork
import Verif.Spec.CDVol
import Verif.Spec.Mem
import Verif.Spec.ABIPos
import Verif.Spec.UrdfPlace
import Verif.Spec.CDMem
import Verif.Spec.ChainMem
import Verif.Spec.MassLinear
import Verif.Spec.Placed
import Verif.Spec.UrdfShape
import Verif.Spec.Geom
import Verif.Spec.Renumber
import Verif.Spec.Convert
import Verif.Spec.Cmd
import Verif.Spec.History
import Verif.Spec.Carried
import Verif.Spec.PoseKeys
import Verif.Spec.Print
import Verif.Spec.Scene
import Verif.Spec.Textbook
import Verif.Spec.Recip
import Verif.Spec.Lagrange
import Verif.Spec.Reach
import Verif.Spec.Threads
import Verif.Spec.Rounding
import Verif.Spec.Machine
import Verif.Spec.Lock
import Verif.Spec.RoundingVel
import Verif.Spec.BREPCount
import Verif.Spec.RoundingDrift
import Verif.Spec.RoundingDyn
import Verif.Spec.MachineABI
import Verif.Spec.Ellips
import Verif.Spec.Gauss
import Verif.Spec.RoundingJacobi
import Verif.Spec.Units
import Verif.Spec.Mirror
import Verif.Spec.Galilei
import Verif.Spec.Reverse
import Verif.Spec.Coriolis
import Verif.Spec.Christoffel
import Verif.Lemmas.Vec
import Verif.Lemmas.Sum
import Verif.Lemmas.ZmReal
import Verif.Lemmas.Index
import Verif.Lemmas.Tree
import Verif.Lemmas.FK
import Verif.Lemmas.ID
import Verif.Lemmas.Path
import Verif.Lemmas.Deriv
import Verif.Lemmas.Jacobi
import Verif.Lemmas.ABIAddEx
import Verif.Lemmas.ABIHist
import Verif.Lemmas.ABIKeep
import Verif.Lemmas.ABITree
import Verif.Lemmas.ABITwo
import Verif.Lemmas.ABIDyn
import Verif.Lemmas.ABIInv
import Verif.Lemmas.ZmRat
import Verif.Lemmas.Clone
import Verif.Lemmas.Sim
import Verif.Lemmas.IKHist
import Verif.Lemmas.IKJoint
import Verif.Lemmas.IKRat
import Verif.Lemmas.IKReg
import Verif.Lemmas.IKStep
import Verif.Lemmas.IKBufs
import Verif.Lemmas.IKEq
import Verif.Lemmas.JacobiSize
import Verif.Lemmas.CD
import Verif.Lemmas.CDInv
import Verif.Lemmas.CDQuery
import Verif.Lemmas.CDRat
import Verif.Lemmas.CDVert
import Verif.Lemmas.Conf
import Verif.Lemmas.Torsion
import Verif.Lemmas.BREP
import Verif.Lemmas.BREPConv
import Verif.Lemmas.LinkHeap
import Verif.Lemmas.ChainFile
import Verif.Lemmas.ChainFile2
import Verif.Lemmas.ChainFile3
import Verif.Lemmas.ChainFile4
import Verif.Lemmas.ChainFile5
import Verif.Lemmas.ChainFile6
import Verif.Lemmas.IKConf
import Verif.Lemmas.FKCNT
import Verif.Lemmas.UrdfFile
import Verif.Lemmas.UrdfFile2
import Verif.Lemmas.UrdfFile3
import Verif.Lemmas.UrdfFile4
import Verif.Lemmas.UrdfFile5
import Verif.Lemmas.UrdfFile6
import Verif.Lemmas.UrdfFile7
import Verif.Lemmas.VirtualWork
import Verif.Lemmas.VirtualWork2
import Verif.Lemmas.VirtualWork3
import Verif.Lemmas.VirtualWork4
import Verif.Lemmas.VirtualWork5
import Verif.Lemmas.CDVol
import Verif.Lemmas.Mem
import Verif.Lemmas.ABIPos
import Verif.Lemmas.Definite
import Verif.Lemmas.UrdfMass
import Verif.Lemmas.UrdfPlace
import Verif.Lemmas.UrdfPlace2
import Verif.Lemmas.UrdfPlace3
import Verif.Lemmas.UrdfPlace4
import Verif.Lemmas.UrdfPlace5
import Verif.Lemmas.UrdfPlace6
import Verif.Lemmas.UrdfPlace7
import Verif.Lemmas.CDMem
import Verif.Lemmas.CDMem2
import Verif.Lemmas.ChainMem
import Verif.Lemmas.ChainMem2
import Verif.Lemmas.MassLinear
import Verif.Lemmas.MassLinear2
import Verif.Lemmas.IKDescent
import Verif.Lemmas.UrdfShape
import Verif.Lemmas.Renumber
import Verif.Lemmas.History
import Verif.Lemmas.History2
import Verif.Lemmas.Carried
import Verif.Lemmas.PoseKeys
import Verif.Lemmas.PoseKeys2
import Verif.Lemmas.CadFile
import Verif.Lemmas.Print
import Verif.Lemmas.Scene
import Verif.Lemmas.SceneRat
import Verif.Lemmas.Textbook
import Verif.Lemmas.Recip
import Verif.Lemmas.Recip2
import Verif.Lemmas.Lagrange
import Verif.Lemmas.Lagrange2
import Verif.Lemmas.Lagrange3
import Verif.Lemmas.Rounding
import Verif.Lemmas.Machine
import Verif.Lemmas.Machine2
import Verif.Lemmas.RoundingVel
import Verif.Lemmas.RoundingDyn
import Verif.Lemmas.MachineABI
import Verif.Lemmas.Gauss
import Verif.Lemmas.RoundingJacobi
import Verif.Lemmas.Units
import Verif.Lemmas.UnitsJacobi
import Verif.Lemmas.Mirror
import Verif.Lemmas.MirrorJacobi
import Verif.Lemmas.MirrorABI
import Verif.Lemmas.MirrorAct
import Verif.Lemmas.UnitsABI
import Verif.Lemmas.UnitsAct
import Verif.Lemmas.Galilei
import Verif.Lemmas.Coriolis
import Verif.Props.JointVector
import Verif.Props.JointLimits
import Verif.Props.FK
import Verif.Props.Mass
import Verif.Props.InvDyn
import Verif.Props.Motion
import Verif.Props.Jacobi
import Verif.Props.ABI
import Verif.Props.ABIDyn
import Verif.Props.ABIFails
import Verif.Props.ABIInertia
import Verif.Props.Breakable
import Verif.Props.Clone
import Verif.Props.JointObj
import Verif.Props.IK
import Verif.Props.IKBest
import Verif.Props.IKBind
import Verif.Props.IKEq
import Verif.Props.IKSeq
import Verif.Props.CDPairs
import Verif.Props.CDQuery
import Verif.Props.CDVert
import Verif.Props.Conf
import Verif.Props.Contact
import Verif.Props.Torsion
import Verif.Props.Cad2ztk
import Verif.Props.RkMP
import Verif.Props.DisArith
import Verif.Props.Point
import Verif.Props.Urdf
import Verif.Props.NewJoint
import Verif.Props.BREP
import Verif.Props.LinkHeap
import Verif.Props.ABIRepeat
import Verif.Props.ChainFile
import Verif.Props.ChainParents
import Verif.Props.JointAttrs
import Verif.Props.UpdateAcc
import Verif.Props.Laws
import Verif.Props.IKError
import Verif.Props.IKImp
import Verif.Props.IKConf
import Verif.Props.Apps
import Verif.Props.AppsIK
import Verif.Props.AppsMerge
import Verif.Props.PoseFile
import Verif.Props.UrdfFile
import Verif.Props.VirtualWork
import Verif.Props.CDVol
import Verif.Props.ForwardDyn
import Verif.Props.Mem
import Verif.Props.ABIPos
import Verif.Props.Definite
import Verif.Props.UrdfPlace
import Verif.Props.CDMem
import Verif.Props.ChainMem
import Verif.Props.MassLinear
import Verif.Props.Placed
import Verif.Props.IKDescent
import Verif.Props.Manip
import Verif.Props.Tools
import Verif.Props.UrdfShape
import Verif.Props.Geom
import Verif.Props.IKMethod
import Verif.Props.Renumber
import Verif.Props.Convert
import Verif.Props.Cmd
import Verif.Props.History
import Verif.Props.Carried
import Verif.Props.PoseKeys
import Verif.Props.CadFile
import Verif.Props.Print
import Verif.Props.Scene
import Verif.Props.Textbook
import Verif.Props.Recip
import Verif.Props.Lagrange
import Verif.Props.Gradient
import Verif.Props.IKLine
import Verif.Props.Reach
import Verif.Props.InPlace
import Verif.Props.Threads
import Verif.Props.Rounding
import Verif.Props.Machine
import Verif.Props.Lock
import Verif.Props.RoundingVel
import Verif.Props.BREPCount
import Verif.Props.RoundingDrift
import Verif.Props.RoundingDyn
import Verif.Props.RoundingRobot
import Verif.Props.Simulate
import Verif.Props.MachineABI
import Verif.Props.ChainMemKinds
import Verif.Props.Ellips
import Verif.Props.Gauss
import Verif.Props.RoundingJacobi
import Verif.Props.Units
import Verif.Props.Mirror
import Verif.Props.UnitsForward
import Verif.Props.Galilei
import Verif.Props.Reverse
import Verif.Props.Coriolis
import Verif.Props.JointMotor
import Verif.Props.Christoffel
import Verif.Props.ComputedTorque
