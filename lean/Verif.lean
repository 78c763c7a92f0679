import Verif.Search.PropsLocate
import Verif.Search.PropsInsert
import Verif.Search.PropsFind
import Verif.RT.Props
import Verif.Layer.PropsIface
import Verif.Layer.PropsBound
import Verif.Layer.Depth
import Verif.Layer.Split
import Verif.Layer.Source
import Verif.Static.Props
import Verif.Kernel.Props
import Verif.Kernel.Phys
import Verif.Kernel.Fail
import Verif.Kernel.Blank
import Verif.Model1D.Props
import Verif.Model1D.State
import Verif.Syn.RadProps
import Verif.Syn.CoordProps
import Verif.Syn.Synth
import Verif.StaticSyn.Dedupe
import Verif.StaticSyn.Pick
import Verif.StaticSyn.Fault
import Verif.StaticSyn.Grid
import Verif.StaticSyn.Frame
import Verif.StaticSyn.Parallel
import Verif.StaticSyn.Moment
import Verif.Travt.File
import Verif.Travt.Head
import Verif.Signals.Conv
import Verif.Signals.Ops
import Verif.Signals.Wave
import Verif.Num.Round
import Verif.Files.Range
import Verif.Files.OutDir
import Verif.Files.Select
import Verif.Integ.Pk
import Verif.Integ.Dcm
import Verif.Integ.Dwm
import Verif.Integ.Kmax
import Verif.Integ.Fim
import Verif.Integ.Safim
import Verif.Integ.Ptam
import Verif.Integ.Log
import Verif.Freq.Band
import Verif.Freq.Loop
import Verif.Freq.Fft
import Verif.Freq.Sac
import Verif.Freq.Outputs
import Verif.Trace.File
import Verif.StaticSyn.Points
import Verif.StaticSyn.PointFile
import Verif.Modal.Golden
import Verif.Modal.Roots
import Verif.Modal.Search
import Verif.Modal.Simpson
import Verif.Modal.Drive
import Verif.Modal.Filter
import Verif.Modal.Group
import Verif.Modal.Love
import Verif.Modal.LoveMode
import Verif.Modal.Energy
import Verif.Modal.Branch
import Verif.Modal.Variation
import Verif.Modal.Residue
import Verif.Modal.ModGrn
import Verif.Modal.ModSum
import Verif.Modal.Rayl
import Verif.Modal.RaylSec
import Verif.Modal.RaylMode
import Verif.Modal.RaylEx
import Verif.Modal.RaylEnergy
import Verif.Modal.RaylVar
import Verif.Modal.RaylVarEx
import Verif.Modal.RaylRes
import Verif.Modal.RaylGrn
import Verif.Modal.RaylGrnEx
import Verif.Okada.Point
import Verif.Okada.Spec
import Verif.Okada.PointD
import Verif.Okada.PointF
import Verif.Okada.PointNav1
import Verif.Okada.PointNav2
import Verif.Okada.PointNav3
import Verif.Okada.PointNav4
import Verif.Okada.PointTr
import Verif.Okada.PointKel
import Verif.Okada.PointDec
import Verif.Okada.PointFld
import Verif.Okada.PointSol
import Verif.Okada.PointProp
import Verif.Okada.Finite
import Verif.Okada.FiniteD
import Verif.Okada.FiniteT
import Verif.Okada.FiniteA
import Verif.Okada.FiniteB
import Verif.Okada.FiniteW
import Verif.Okada.FiniteZ
import Verif.Okada.FiniteC
import Verif.Okada.FiniteS
import Verif.Okada.FiniteP
import Verif.Okada.PointSm
import Verif.Okada.FiniteK
import Verif.Okada.FiniteInt
import Verif.Okada.FiniteF
import Verif.Okada.FiniteG
import Verif.Okada.FiniteProp
import Verif.Okada.Turn
import Verif.Okada.Main
import Verif.Okada.World
import Verif.Okada.MainProp
import Verif.Lamb.Util
import Verif.Lamb.Roots
import Verif.Lamb.Lamb1
import Verif.Lamb.RootsProp
import Verif.Lamb.Tables
import Verif.Lamb.Groups
import Verif.Lamb.Int
import Verif.Lamb.Int2
import Verif.Lamb.Int3
import Verif.Lamb.Facts
import Verif.Lamb.Dead
import Verif.Lamb.Classes
import Verif.Lamb.PhaseP
import Verif.Lamb.PhaseP2
import Verif.Lamb.PhaseP3
import Verif.Lamb.PhaseS
import Verif.Lamb.PhaseS2
import Verif.Lamb.PhaseS3
import Verif.Lamb.Spec
import Verif.Lamb.Assemble
import Verif.Lamb.LambProp
import Verif.Lamb.Cli
import Verif.Lamb.CliProp
import Verif.Lamb.After1
import Verif.Lamb.After2
import Verif.Lamb.After3
import Verif.Lamb.After4
import Verif.Lamb.After5
import Verif.Integ.Local
import Verif.Freq.Distance
import Verif.StaticGrn.Model
import Verif.StaticGrn.Prop
import Verif.StaticGrn.Ends
import Verif.Lamb.Ellip
import Verif.Lamb.EllT
import Verif.Lamb.EllRF
import Verif.Lamb.EllDup
import Verif.Lamb.EllG
import Verif.Lamb.EllTail
import Verif.Lamb.EllEnd
import Verif.Lamb.EllLoop
import Verif.Lamb.EllLink
import Verif.Lamb.EllProp
import Verif.KernelProg.Model
import Verif.KernelProg.Props
import Verif.KernelProg.Band
import Verif.KernelProg.Lists
import Verif.Travt.Table
import Verif.Travt.TableProp
import Verif.Travt.TableRows
import Verif.Trace.Ascii
import Verif.Files.Dispatch
import Verif.Modal.HalfSpace
import Verif.Modal.HalfSpaceProp
import Verif.Modal.Scholte
import Verif.Modal.Range
import Verif.Modal.RangeProp
import Verif.Python.Format
import Verif.Python.FormatProp
import Verif.Python.Numbers
import Verif.Python.Getopt
import Verif.Python.Syn
import Verif.Python.SynProp
import Verif.Python.Grn
import Verif.Python.GrnProp
import Verif.Python.StaticGrn
import Verif.Python.StaticGrnProp
import Verif.Python.StaticSyn
import Verif.Python.StaticSynProp
import Verif.Python.Okada
import Verif.Python.OkadaProp
import Verif.Python.Stats
import Verif.Python.Stream
import Verif.Modal.Options
import Verif.Python.Axis
import Verif.StaticSyn.SubSize
import Verif.Python.AxisSyn
import Verif.Python.Kernels
import Verif.Modal.Table
import Verif.Python.Triangle
import Verif.Files.SynDir
import Verif.Files.GrnDir
import Verif.Files.PostDir
