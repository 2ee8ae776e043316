import Verif.Props.Cube
import Verif.Props.Base
import Verif.Props.Strings
import Verif.Props.Moments
import Verif.Props.LMoments
import Verif.Props.Ybar
import Verif.Props.Mixture
import Verif.Props.MixMoments
import Verif.Props.Parametric
import Verif.Props.Sfh
import Verif.Props.Enrich
import Verif.Props.Disk
import Verif.Props.Protocol
import Verif.Props.VelMoments
import Verif.Props.Particle
import Verif.Props.Noise
import Verif.Props.Ssp
import Verif.Props.Miles
import Verif.Props.History
import Verif.Props.Shared
import Verif.Props.Plot
import Verif.Props.Save
import Verif.Props.ParamYbar
import Verif.Props.ParamHistory
import Verif.Props.PopMix
import Verif.Props.PopMoments
import Verif.Props.MixHistory
import Verif.Props.ParamDerived
import Verif.Props.PopDerived
import Verif.Props.Library
import Verif.Props.ModelGrid
import Verif.Props.LShape
import Verif.Props.Tabulate
import Verif.Props.MixAlgebra
import Verif.Props.Padding
import Verif.Subclass
import Verif.Props.Subclass
import Verif.Props.Excess
import Verif.Props.ParticleMoments
import Verif.Props.Join
import Verif.Props.NoiseLaw
import Verif.Props.Coarse
import Verif.Props.Truncation
import Verif.Props.Turn
import Verif.Props.PointSymmetry
import Verif.Props.Units
import Verif.Props.Order
import Verif.Props.Metal
import Verif.Props.Older
import Verif.Props.Growth
import Verif.Props.Kinematics
import Verif.Props.AgeMetal
import Verif.Props.TotalVar
import Verif.Props.Bright
import Verif.Props.Doppler
import Verif.Props.AnyCentre
import Verif.Props.StreamEnds
import Verif.Props.NestedMix
import Verif.Props.FluxUnit
import Verif.Props.GivenOnly
import Verif.Props.EquallyBright
import Verif.Props.Indep
import Verif.Props.Templates
import Verif.Props.MirrorImage
import Verif.Props.EqualAngles
import Verif.Props.Image
import Verif.Props.Fluxes
import Verif.Props.VelocityBins
import Verif.Props.FieldOfView
import Verif.Props.Rejected
import Verif.Props.Similar
import Verif.Props.FewParticles
import Verif.Props.NearlyBright
import Verif.Props.NoGradient
import Verif.Props.Speeds
import Verif.Props.MixBetween
import Verif.Props.AllUnits
import Verif.Props.LBounds
import Verif.Props.FarStars
import Verif.Props.MixUnits
import Verif.Props.FarPixels
import Verif.Props.StraightLine
