import Verif.Basic
import Verif.Model.AnaBC
import Verif.Model.AnaSolid
import Verif.Model.Analytic
import Verif.Model.Bar
import Verif.Model.Beam
import Verif.Model.BeamElem
import Verif.Model.BeamInput
import Verif.Model.BeamModel
import Verif.Model.BouForce
import Verif.Model.Boundary
import Verif.Model.Buckling
import Verif.Model.Buffers
import Verif.Model.Cable
import Verif.Model.CableDynamic
import Verif.Model.CableStatic
import Verif.Model.Contact
import Verif.Model.ContactGlobal
import Verif.Model.ContactInput
import Verif.Model.Continuum
import Verif.Model.Drivers
import Verif.Model.Dual
import Verif.Model.FDDynamic
import Verif.Model.FDEnergy
import Verif.Model.FDInput
import Verif.Model.FDStatic
import Verif.Model.FDStress
import Verif.Model.FDTangent
import Verif.Model.Fbar
import Verif.Model.FbarElem
import Verif.Model.FileNames
import Verif.Model.FiniteDef
import Verif.Model.Frame
import Verif.Model.FrameModes
import Verif.Model.FtnStiff
import Verif.Model.KLProps
import Verif.Model.Knots
import Verif.Model.LinDriver
import Verif.Model.LinIsotropic
import Verif.Model.LineLoad
import Verif.Model.LocalSystems
import Verif.Model.MainLinEl
import Verif.Model.MaxPrint
import Verif.Model.Mixed
import Verif.Model.MixedElem
import Verif.Model.Modal
import Verif.Model.Modes
import Verif.Model.NLDriver
import Verif.Model.NLShellDynamic
import Verif.Model.NLShellStatic
import Verif.Model.NLargs
import Verif.Model.NeoHooke
import Verif.Model.Newmark
import Verif.Model.NormMixed
import Verif.Model.NormPrint
import Verif.Model.NormUL
import Verif.Model.Norms
import Verif.Model.Options
import Verif.Model.Plastic
import Verif.Model.PlasticResults
import Verif.Model.Plate
import Verif.Model.PlateStatic
import Verif.Model.PointLoads
import Verif.Model.Programs
import Verif.Model.ReturnMap
import Verif.Model.Rigid
import Verif.Model.Shell
import Verif.Model.ShellLoads
import Verif.Model.ShellStatic
import Verif.Model.SolidFields
import Verif.Model.SolidInput
import Verif.Model.SolidLoads
import Verif.Model.Structure
import Verif.Model.Supel
import Verif.Model.Texture
import Verif.Model.Thermal
import Verif.Model.ThinInput
import Verif.Model.TripleElem
import Verif.Model.TrussDynamic
import Verif.Model.TrussStatic
import Verif.Model.Vibration
import Verif.Proofs.Assign
import Verif.Proofs.Basic
import Verif.Proofs.Beam
import Verif.Proofs.BouForce
import Verif.Proofs.Clamped
import Verif.Proofs.Continuum
import Verif.Proofs.FiniteDef
import Verif.Proofs.LinIsotropic
import Verif.Proofs.MixedElem
import Verif.Proofs.Modes
import Verif.Proofs.Norms
import Verif.Proofs.ReturnMap
import Verif.Proofs.ReturnMapAxes
import Verif.Proofs.ReturnMapTangent
import Verif.Proofs.Spectral
import Verif.Proofs.TripleElem
import Verif.Props.AnaBC
import Verif.Props.AnaSolid
import Verif.Props.Analytic
import Verif.Props.AnalyticBeams
import Verif.Props.AnalyticLshape
import Verif.Props.AnalyticPipe
import Verif.Props.AnalyticPlates
import Verif.Props.Bar
import Verif.Props.BeamElem
import Verif.Props.BeamInput
import Verif.Props.BeamMass
import Verif.Props.BeamModel
import Verif.Props.BeamProp
import Verif.Props.BeamStiff
import Verif.Props.BouForce
import Verif.Props.Boundary
import Verif.Props.Buckling
import Verif.Props.Buffers
import Verif.Props.Cable
import Verif.Props.CableDynamic
import Verif.Props.CableEnd
import Verif.Props.CableStatic
import Verif.Props.ContactActive
import Verif.Props.ContactAug
import Verif.Props.ContactBody
import Verif.Props.ContactGlobal
import Verif.Props.ContactInput
import Verif.Props.ContactMult
import Verif.Props.ContactPenalty
import Verif.Props.Continuum
import Verif.Props.Drivers
import Verif.Props.Dual
import Verif.Props.FDDynamic
import Verif.Props.FDEnergy
import Verif.Props.FDInput
import Verif.Props.FDStatic
import Verif.Props.FDStress
import Verif.Props.FDTangent
import Verif.Props.Fbar
import Verif.Props.FbarElem
import Verif.Props.FbarTangent
import Verif.Props.FileNames
import Verif.Props.FiniteDef
import Verif.Props.FollowerLoad
import Verif.Props.Formulations
import Verif.Props.Frame
import Verif.Props.FrameModes
import Verif.Props.FtnStiff
import Verif.Props.KLProps
import Verif.Props.Knots
import Verif.Props.LinDriver
import Verif.Props.LinIsotropic
import Verif.Props.LineLoad
import Verif.Props.LocalSystems
import Verif.Props.MainLinEl
import Verif.Props.MaxPrint
import Verif.Props.MixedElem
import Verif.Props.MixedLayout
import Verif.Props.MixedObjectivity
import Verif.Props.MixedTangent
import Verif.Props.MixedVolume
import Verif.Props.Modal
import Verif.Props.Modes
import Verif.Props.ModesElm
import Verif.Props.NLDriver
import Verif.Props.NLShell
import Verif.Props.NLShellDynamic
import Verif.Props.NLShellStatic
import Verif.Props.NLargs
import Verif.Props.NeoHooke
import Verif.Props.Newmark
import Verif.Props.NodalPadding
import Verif.Props.NormMixed
import Verif.Props.NormPrint
import Verif.Props.NormUL
import Verif.Props.Norms
import Verif.Props.Objectivity
import Verif.Props.Options
import Verif.Props.Plastic
import Verif.Props.PlasticResults
import Verif.Props.PlasticTangent
import Verif.Props.Plate
import Verif.Props.PlateNorms
import Verif.Props.PlateStatic
import Verif.Props.PointLoads
import Verif.Props.Programs
import Verif.Props.PushForward
import Verif.Props.ReturnMap
import Verif.Props.ReturnMapAxes
import Verif.Props.Rigid
import Verif.Props.Shell
import Verif.Props.ShellLoads
import Verif.Props.ShellStatic
import Verif.Props.ShellStress
import Verif.Props.SolidFields
import Verif.Props.SolidInput
import Verif.Props.SolidLoads
import Verif.Props.Structure
import Verif.Props.Supel
import Verif.Props.Texture
import Verif.Props.Thermal
import Verif.Props.ThinForces
import Verif.Props.ThinInput
import Verif.Props.TripleElem
import Verif.Props.TrussDynamic
import Verif.Props.TrussStatic
import Verif.Props.Uniform
import Verif.Props.Vibration
import Verif.Props.Yield
import Verif.Spec.Beam
import Verif.Spec.Continuum
import Verif.Spec.FiniteDef
import Verif.Spec.Hooke
import Verif.Spec.Norms
import Verif.Spec.Plasticity
import Verif.Spec.TangentModulus
