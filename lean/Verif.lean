import Verif.Lemmas.Circular
import Verif.Lemmas.CoordSet
import Verif.Lemmas.DateSearch
import Verif.Lemmas.DeformedTorus
import Verif.Lemmas.DirectionalDisk
import Verif.Lemmas.Doughnut
import Verif.Lemmas.DynDisk
import Verif.Lemmas.FreeFall
import Verif.Lemmas.GridRead
import Verif.Lemmas.HitQuantities
import Verif.Lemmas.Hooks
import Verif.Lemmas.HotSpot
import Verif.Lemmas.Interp
import Verif.Lemmas.Jet
import Verif.Lemmas.KRZ
import Verif.Lemmas.Kappa
import Verif.Lemmas.Kepler
import Verif.Lemmas.Kerr31
import Verif.Lemmas.KerrKS
import Verif.Lemmas.KerrRk4
import Verif.Lemmas.MassFn
import Verif.Lemmas.Matrix4
import Verif.Lemmas.MetricAlg
import Verif.Lemmas.Moving
import Verif.Lemmas.Mpi
import Verif.Lemmas.Order2
import Verif.Lemmas.OscilTorus
import Verif.Lemmas.PLSynch
import Verif.Lemmas.PageThorne
import Verif.Lemmas.PatternDisk
import Verif.Lemmas.PhiTheta
import Verif.Lemmas.Plunge
import Verif.Lemmas.PolarSpot
import Verif.Lemmas.Quantities
import Verif.Lemmas.Rk4
import Verif.Lemmas.Rk4Limit
import Verif.Lemmas.Shift
import Verif.Lemmas.SmartPtr
import Verif.Lemmas.Spectrum
import Verif.Lemmas.SphAcc
import Verif.Lemmas.Static
import Verif.Lemmas.Stochastic
import Verif.Lemmas.StokesStep
import Verif.Lemmas.Synch
import Verif.Lemmas.ThickDisk
import Verif.Lemmas.Threads
import Verif.Lemmas.Three1Geodesic
import Verif.Lemmas.Transfer
import Verif.Lemmas.Trapezoid
import Verif.Lemmas.Worldline
import Verif.Model.Adaptive
import Verif.Model.Atmosphere
import Verif.Model.BField
import Verif.Model.BalasinGrumiller
import Verif.Model.Bisect
import Verif.Model.Camera
import Verif.Model.ChannelInt
import Verif.Model.ChernSimons
import Verif.Model.Converters
import Verif.Model.CoordSet
import Verif.Model.DateSearch
import Verif.Model.DeformedTorus
import Verif.Model.DirectionalDisk
import Verif.Model.Disk3D
import Verif.Model.DiskLaws
import Verif.Model.Doughnut
import Verif.Model.DynDisk
import Verif.Model.DynDisk3D
import Verif.Model.Emission
import Verif.Model.Evpa
import Verif.Model.Extent
import Verif.Model.Factory
import Verif.Model.Flared
import Verif.Model.Functors
import Verif.Model.GenericMotion
import Verif.Model.GridRead
import Verif.Model.Hayward
import Verif.Model.HitQuantities
import Verif.Model.Hooks
import Verif.Model.HotSpot
import Verif.Model.Impact
import Verif.Model.IntText
import Verif.Model.Integrator
import Verif.Model.Interp
import Verif.Model.IpoleField
import Verif.Model.Jet
import Verif.Model.KRZ
import Verif.Model.Kappa
import Verif.Model.Kerr2PN
import Verif.Model.Kerr31
import Verif.Model.KerrAdaptive
import Verif.Model.KerrBL
import Verif.Model.KerrKS
import Verif.Model.KerrMotion
import Verif.Model.KerrRk4
import Verif.Model.KerrTetrad
import Verif.Model.Lorene
import Verif.Model.LoreneMotion
import Verif.Model.LoreneOrbits
import Verif.Model.LoreneSettings
import Verif.Model.Mask
import Verif.Model.Matrix4
import Verif.Model.MetricAlg
import Verif.Model.MetricDispatch
import Verif.Model.MinkowskiKepler
import Verif.Model.Moving
import Verif.Model.Mpi
import Verif.Model.ObjectTree
import Verif.Model.Orbits
import Verif.Model.OscilTorus
import Verif.Model.PageThorne
import Verif.Model.PatternDisk
import Verif.Model.PhiTheta
import Verif.Model.Plunge
import Verif.Model.PolarBasis
import Verif.Model.PolarSpot
import Verif.Model.ProfileDisk
import Verif.Model.Property
import Verif.Model.Quantities
import Verif.Model.Refined
import Verif.Model.Register
import Verif.Model.RotStar
import Verif.Model.Shift
import Verif.Model.SimBridge
import Verif.Model.SmartPtr
import Verif.Model.Spectrometer
import Verif.Model.Spectrum
import Verif.Model.SpectrumKinds
import Verif.Model.SphAcc
import Verif.Model.StarTrace
import Verif.Model.Static
import Verif.Model.Step
import Verif.Model.Stochastic
import Verif.Model.StokesStep
import Verif.Model.Synch
import Verif.Model.Text
import Verif.Model.ThickDisk
import Verif.Model.ThinDisk
import Verif.Model.Threads
import Verif.Model.Three1
import Verif.Model.Transfer
import Verif.Model.UniformSphere
import Verif.Model.Worldline
import Verif.Model.Xillver
import Verif.Model.XillverRefl
import Verif.Props.Adaptive
import Verif.Props.Atmosphere
import Verif.Props.AtmosphereLight
import Verif.Props.BField
import Verif.Props.BalasinGrumiller
import Verif.Props.Bisect
import Verif.Props.Blob
import Verif.Props.Brems
import Verif.Props.Camera
import Verif.Props.ChannelInt
import Verif.Props.ChernSimons
import Verif.Props.ChernSimonsMotion
import Verif.Props.Converters
import Verif.Props.CoordSet
import Verif.Props.DateSearch
import Verif.Props.DeformedTorus
import Verif.Props.DirectionalAngle
import Verif.Props.DirectionalDisk
import Verif.Props.Disk3D
import Verif.Props.DiskLaws
import Verif.Props.Doughnut
import Verif.Props.DoughnutChannels
import Verif.Props.DoughnutGas
import Verif.Props.DoughnutKerr
import Verif.Props.DoughnutLight
import Verif.Props.DoughnutShape
import Verif.Props.DynDisk
import Verif.Props.DynDisk3D
import Verif.Props.Emission
import Verif.Props.Evpa
import Verif.Props.Extent
import Verif.Props.Factory
import Verif.Props.Flared
import Verif.Props.FlaredLight
import Verif.Props.FreeStar
import Verif.Props.Functors
import Verif.Props.GenericMotion
import Verif.Props.GridContents
import Verif.Props.Hayward
import Verif.Props.HaywardOrbits
import Verif.Props.HitQuantities
import Verif.Props.Hooks
import Verif.Props.HotSpot
import Verif.Props.Impact
import Verif.Props.Inflate
import Verif.Props.IntText
import Verif.Props.Integrator
import Verif.Props.Interp
import Verif.Props.InterpGrid
import Verif.Props.IpoleField
import Verif.Props.Jet
import Verif.Props.KRZ
import Verif.Props.Kappa
import Verif.Props.Kerr2PN
import Verif.Props.Kerr31
import Verif.Props.KerrAdaptive
import Verif.Props.KerrBL
import Verif.Props.KerrConst
import Verif.Props.KerrKS
import Verif.Props.KerrKSCircular
import Verif.Props.KerrMotion
import Verif.Props.KerrRk4
import Verif.Props.KerrSame
import Verif.Props.KerrTetrad
import Verif.Props.Lorene
import Verif.Props.LoreneDates
import Verif.Props.LoreneGeodesic
import Verif.Props.LoreneMotion
import Verif.Props.LoreneOrbits
import Verif.Props.LoreneSettings
import Verif.Props.Mask
import Verif.Props.Matrix4
import Verif.Props.MetricAlg
import Verif.Props.MetricDispatch
import Verif.Props.MinkowskiKepler
import Verif.Props.Mpi
import Verif.Props.ObjectTree
import Verif.Props.OrbitRadii
import Verif.Props.Orbits
import Verif.Props.OscilFlow
import Verif.Props.OscilTorus
import Verif.Props.PLSynch
import Verif.Props.PageThorne
import Verif.Props.PatternDisk
import Verif.Props.PatternInterp
import Verif.Props.PhiTheta
import Verif.Props.Plasmoid
import Verif.Props.Plunge
import Verif.Props.PolarBasis
import Verif.Props.PolarSpot
import Verif.Props.ProfileDisk
import Verif.Props.Property
import Verif.Props.Quantities
import Verif.Props.Refined
import Verif.Props.Register
import Verif.Props.Rk4
import Verif.Props.RotStar
import Verif.Props.Shift
import Verif.Props.SimBridge
import Verif.Props.Slab
import Verif.Props.SmartPtr
import Verif.Props.Spectrometer
import Verif.Props.Spectrum
import Verif.Props.SpectrumKinds
import Verif.Props.SphAcc
import Verif.Props.StarTrace
import Verif.Props.Static
import Verif.Props.Step
import Verif.Props.Stochastic
import Verif.Props.StokesStep
import Verif.Props.Text
import Verif.Props.ThermalSynch
import Verif.Props.ThickDisk
import Verif.Props.ThickLight
import Verif.Props.ThinDisk
import Verif.Props.Threads
import Verif.Props.Three1
import Verif.Props.Transfer
import Verif.Props.UniformSphere
import Verif.Props.Worldline
import Verif.Props.Xillver
import Verif.Props.XillverRefl
import Verif.Spec.Christoffel
import Verif.Spec.DeformedTorus
import Verif.Spec.DynDisk
import Verif.Spec.EulerLagrange
import Verif.Spec.Geodesic
import Verif.Spec.GridInterp
import Verif.Spec.Hamilton
import Verif.Spec.HitQuantities
import Verif.Spec.HotSpot
import Verif.Spec.Jet
import Verif.Spec.KRZ
import Verif.Spec.Kepler
import Verif.Spec.Lorene
import Verif.Spec.LoreneMotion
import Verif.Spec.Moving
import Verif.Spec.Orbits
import Verif.Spec.OscilTorus
import Verif.Spec.PageThorne
import Verif.Spec.Plunge
import Verif.Spec.PolarSpot
import Verif.Spec.Slab
import Verif.Spec.Stochastic
import Verif.Spec.StokesStep
import Verif.Spec.Synch
import Verif.Spec.ThickDisk
import Verif.Spec.Trapezoid
