import Verif.Props.ToText
import Verif.Props.Crc
import Verif.Props.Fnv
import Verif.Props.Base64
import Verif.Props.Random
import Verif.Props.Sort
import Verif.Props.Heap
import Verif.Props.Bitset
import Verif.Props.Bulk
import Verif.Props.Pool
import Verif.Props.Delaunay
import Verif.Props.Dictionary
import Verif.Props.Lziii
import Verif.Props.Names
import Verif.Props.Clock
import Verif.Props.Vec
import Verif.Props.Polygon
import Verif.Props.Mesh
import Verif.Props.Isqrt
import Verif.Props.Cordic
import Verif.Props.CordicVec
import Verif.Props.Zorder
import Verif.Props.FetchAdd
import Verif.Props.SpinLock
import Verif.Props.Mutex
import Verif.Props.Nameof
import Verif.Props.Io
import Verif.Props.Log
import Verif.Props.Utf16
import Verif.Props.TypeList
import Verif.Props.Cdt
import Verif.Props.Fence
import Verif.Props.View
import Verif.Props.Os
import Verif.Props.Atomic
import Verif.Props.SpinLive
import Verif.Props.Path
import Verif.Props.Traits
import Verif.Props.AsStringVec
import Verif.Props.Cdt64
import Verif.Props.CrcErrors
import Verif.Props.Equidistribution
import Verif.Props.Cost
import Verif.Props.ZorderCorners
import Verif.Props.CdtRefine
import Verif.Props.Helpers
import Verif.Props.Preproc
import Verif.Props.FloatText
import Verif.Props.Stderr
import Verif.Props.Normal
import Verif.Props.Seed
import Verif.Props.Unique
import Verif.Props.CdtLinear
import Verif.Props.Sight
import Verif.Props.EdgeEnd
import Verif.Props.Conform
import Verif.Props.CordicTrip
import Verif.Props.Flood
import Verif.Props.Outline
import Verif.Props.PointSet
import Verif.Props.Separate
import Verif.Props.Trig
import Verif.Props.CrcResidue
import Verif.Props.Near
import Verif.Props.Interpolate
import Verif.Props.Draw
import Verif.Props.Best
import Verif.Props.Base64Bits
import Verif.Props.BestEdge
import Verif.Props.LziiiDecoder
import Verif.Props.Rough
import Verif.Props.Regular
import Verif.Props.VecAlias
import Verif.Props.SpinSlots
import Verif.Props.SpinNest
import Verif.Props.Wide
import Verif.Props.SpinSlotsLive
import Verif.Props.Bits
import Verif.Props.AnyOrder
import Verif.Props.SortSearch
import Verif.Props.IsqrtMono
import Verif.Props.InPlace
import Verif.Props.PolyParts
import Verif.Props.Ranges
import Verif.Props.LziiiMem
import Verif.Props.FacePoly
import Verif.Props.NearWalk
import Verif.Props.FnvShort
import Verif.Props.SeedShort
import Verif.Props.CrcZeros
import Verif.Props.ZorderCost
import Verif.Props.LziiiLimits
import Verif.Props.CrcFive
import Verif.Props.SeedTwins
import Verif.Props.RefCount
import Verif.Props.Layout
import Verif.Props.Once
import Verif.Props.TextTells
import Verif.Props.MutexOrder
import Verif.Props.Shuffle
import Verif.Props.Events
import Verif.Props.Base64Pieces
import Verif.Props.CrcNames
