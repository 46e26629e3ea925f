import Verif.Model.Dq
import Verif.Thm.Slicing
import Verif.Thm.Saturation
import Verif.Thm.Dark
import Verif.Thm.Linearity
import Verif.Thm.Jump
import Verif.Thm.JumpIter
import Verif.Thm.Snowball
import Verif.Thm.RampDq
import Verif.Thm.Ols
import Verif.Thm.OlsPixel
import Verif.Thm.OlsVar
import Verif.Thm.Cas22
import Verif.Thm.Likely
import Verif.Thm.LikelyMask
import Verif.Thm.Sky
import Verif.Thm.Median
import Verif.Thm.Outlier
import Verif.Thm.Resample
import Verif.Thm.ResampleVar
import Verif.Thm.ResampleUtils
import Verif.Thm.Aberration
import Verif.Thm.Align
import Verif.Thm.SRegion
import Verif.Thm.Catalog
import Verif.Thm.Tweakreg
import Verif.Thm.Unseen
import Verif.Thm.Simplify
import Verif.Thm.Chargeloss
import Verif.Thm.OptRes
import Verif.Thm.Cas22Var
import Verif.Thm.RampAgain
import Verif.Thm.RampFit
import Verif.Thm.JumpDriver
import Verif.Thm.JumpRepeat
import Verif.Thm.LikelyDriver
import Verif.Thm.Cas22Driver
import Verif.Thm.Shower
import Verif.Thm.JumpStep
import Verif.Thm.ResampleScale
import Verif.Thm.Angles
import Verif.Thm.Combine
import Verif.Thm.RefCat
import Verif.Thm.OlsHeap
import Verif.Thm.LikelyImage
import Verif.Thm.JumpUnits
import Verif.Thm.Pixmap
import Verif.Thm.SkyPoly
import Verif.Thm.SkyPixels
import Verif.Thm.OutputWcs
import Verif.Thm.Blot
import Verif.Thm.OlsFlux
import Verif.Thm.CosmicRays
import Verif.Thm.LikelyAgain
import Verif.Thm.LikelyPair
import Verif.Thm.SkyAgain
import Verif.Thm.LikelyJump
import Verif.Thm.Pipeline
import Verif.Thm.RefWhole
import Verif.Thm.Saturation4
import Verif.Thm.OutlierWhole
import Verif.Thm.Reuse
import Verif.Thm.LinearityRead
import Verif.Thm.CasJump
import Verif.Thm.MedianComputer
import Verif.Thm.WeightThreshold
import Verif.Thm.SaturationRepeat
import Verif.Thm.IntegOrder
import Verif.Thm.OlsUnits
import Verif.Thm.LikelyUnits
import Verif.Thm.JumpTimes
import Verif.Thm.JumpOrder
import Verif.Thm.JumpGrow
import Verif.Thm.WcsInfo
import Verif.Thm.ZeroLevel
import Verif.Thm.OutlierUnits
import Verif.Thm.SkyUnits
import Verif.Thm.Orientation
import Verif.Thm.Thresholds
import Verif.Thm.ImageOrder
import Verif.Thm.OlsLess
import Verif.Thm.Region
import Verif.Thm.TimeUnits
import Verif.Thm.CutGroups
import Verif.Thm.CutStart
import Verif.Thm.MiriGroups
import Verif.Thm.Drizzle
import Verif.Thm.DrizzleVar
import Verif.Thm.ResampleUnits
import Verif.Thm.Mosaic
import Verif.Thm.DarkSteady
import Verif.Thm.Exact
import Verif.Thm.SameInteg
import Verif.Thm.Background
import Verif.Thm.Pedestal
import Verif.Thm.RepeatImages
import Verif.Thm.JumpCopies
import Verif.Thm.PedestalMosaic
import Verif.Thm.LikelyLess
import Verif.Thm.NoiseBound
import Verif.Thm.StrongHit
import Verif.Thm.Minority
import Verif.Thm.FurtherImage
import Verif.Thm.SkyOutlier
import Verif.Thm.MinorityIter
import Verif.Thm.RateBounds
import Verif.Thm.LikelyRange
import Verif.Thm.PhotonLimit
import Verif.Thm.ReadLimit
import Verif.Thm.Backwards
import Verif.Thm.BackwardsOls
import Verif.Thm.LikelySum
import Verif.Thm.ResampleSum
import Verif.Thm.DarkSum
import Verif.Thm.LinearUnits
import Verif.Thm.SatUnits
