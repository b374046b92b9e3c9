import Verif.Registry.Model
import Verif.Registry.Lemmas
import Verif.Registry.Props
import Verif.SceneGraph.Model
import Verif.SceneGraph.Lemmas
import Verif.SceneGraph.Props
import Verif.Assets.Model
import Verif.Assets.Props
import Verif.Stars.Catalog
import Verif.Stars.CatalogLemmas
import Verif.Stars.Props
import Verif.Stars.Tycho
import Verif.Stars.TychoProps
import Verif.Image.Model
import Verif.Image.Props
import Verif.FrameBuffer.Model
import Verif.FrameBuffer.Props
import Verif.ImageIO.Base
import Verif.ImageIO.Bmp
import Verif.ImageIO.BmpProps
import Verif.Num.Rounding
import Verif.ImageIO.Tga
import Verif.ImageIO.TgaProps
import Verif.ImageIO.Hdr
import Verif.ImageIO.HdrProps
import Verif.ImageIO.Convert
import Verif.ImageIO.ConvertProps
import Verif.ImageIO.Fits
import Verif.ImageIO.FitsProps
import Verif.ImageIO.ColorSpace
import Verif.ImageIO.ColorSpaceProps
import Verif.Logger.Model
import Verif.Logger.Props
import Verif.Volumes.Model
import Verif.Volumes.Props
import Verif.Num.XFloat
import Verif.Sensor.Model
import Verif.Sensor.Props
import Verif.Num.Vec3
import Verif.Camera.GeometryProps
import Verif.Camera.Distortion
import Verif.Camera.State
import Verif.Camera.StateProps
import Verif.Camera.Aperture
import Verif.Frustum.Poly
import Verif.Frustum.Fan
import Verif.Frustum.Model
import Verif.Frustum.Props
import Verif.Arc.Model
import Verif.Arc.Props
import Verif.Arc.RootProps
import Verif.Arc.CrossProps
import Verif.Frustum.ArcModel
import Verif.Frustum.ArcProps
import Verif.Render.TileModel
import Verif.Render.TileProps
import Verif.Render.Post
import Verif.Render.Lut
import Verif.Render.StatsModel
import Verif.Render.StatsProps
import Verif.Render.PointsModel
import Verif.Render.PointsProps
import Verif.Render.PointsTime
import Verif.Render.PathModel
import Verif.Render.PathProps
import Verif.Render.LightModel
import Verif.Render.LightProps
import Verif.Core.RotationModel
import Verif.Core.RotationProps
import Verif.Core.RotationConv
import Verif.Core.TransformModel
import Verif.Core.TransformProps
import Verif.Core.NodeModel
import Verif.Core.NodeProps
import Verif.Core.NodeMotion
import Verif.Core.NodeApparent
import Verif.Units.DimModel
import Verif.Units.DimProps
import Verif.Units.QuantityModel
import Verif.Units.QuantityProps
import Verif.Units.TimeModel
import Verif.Units.TimeProps
import Verif.Spectral.Model
import Verif.Spectral.Props
import Verif.Spectral.DataProps
import Verif.Materials.SamplingModel
import Verif.Materials.FrameProps
import Verif.Materials.DensityProps
import Verif.Materials.BsdfModel
import Verif.Materials.BsdfProps
import Verif.Materials.MaterialModel
import Verif.Materials.MaterialProps
import Verif.Materials.MaterialEval
import Verif.Materials.Unbiased
import Verif.Geometry.EllipsoidModel
import Verif.Geometry.EllipsoidProps
import Verif.Geometry.MeshModel
import Verif.Geometry.MeshProps
import Verif.Offset.Model
import Verif.Offset.Props
import Verif.View.HitModel
import Verif.View.HitProps
import Verif.Photometry.Model
import Verif.Photometry.PhysicsProps
import Verif.Photometry.UnresolvedProps
import Verif.Photometry.StarProps
import Verif.View.CollectModel
import Verif.View.CollectProps
import Verif.Materials.Energy
import Verif.Materials.Limits
import Verif.Materials.Sphere
import Verif.Materials.Vndf
import Verif.Materials.CookUnbiased
import Verif.Core.OrbitModel
import Verif.Core.OrbitProps
import Verif.Image.ColorMap
import Verif.ImageIO.Png
import Verif.ImageIO.PngProps
import Verif.ImageIO.PngWrite
import Verif.ImageIO.Jpeg
import Verif.ImageIO.JpegProps
import Verif.ImageIO.Alloc
import Verif.ImageIO.Tiff
import Verif.ImageIO.TiffProps
import Verif.ImageIO.TiffRead
import Verif.ImageIO.TiffWrite
import Verif.ImageIO.TiffEx
import Verif.ImageIO.TiffMem
import Verif.Loader.Model
import Verif.Loader.Place
import Verif.Loader.Tree
import Verif.Loader.Meshes
import Verif.Loader.MaterialModel
import Verif.Loader.Materials
import Verif.Loader.Looks
import Verif.Loader.Described
import Verif.Loader.Load
import Verif.Cli.Model
import Verif.Cli.Lemmas
import Verif.Cli.FetchProps
import Verif.Cli.ProcessProps
import Verif.Cli.Dispatch
import Verif.Transport.Model
import Verif.Transport.Spec
import Verif.Transport.Lemmas
import Verif.Transport.Props
import Verif.PyBind.NumpyModel
import Verif.PyBind.NumpyProps
import Verif.PyBind.ViewsModel
import Verif.PyBind.ViewsProps
import Verif.PyBind.Units
import Verif.Core.SpiceModel
import Verif.Core.SpiceProps
import Verif.Core.SpiceSession
import Verif.Core.SpiceSessionProps
import Verif.Core.SpiceThreads
import Verif.Stars.Session
import Verif.Stars.SessionProps
import Verif.Volumes.Shadow
import Verif.Assets.Graph
import Verif.Assets.GraphProps
import Verif.Camera.Gnomonic
import Verif.Camera.SolidAngle
import Verif.Camera.SolidAngleProps
import Verif.ImageIO.FitsHeader
import Verif.ImageIO.FitsHeaderProps
import Verif.ImageIO.FitsHeaderMore
import Verif.Camera.PolyBound
import Verif.Camera.Series
import Verif.Camera.Bessel
import Verif.Camera.Airy
import Verif.Camera.AiryCore
import Verif.Camera.AiryTail
import Verif.Camera.AiryEight
import Verif.Camera.AiryEnergy
import Verif.Camera.AiryProps
import Verif.Materials.NormalMap
import Verif.SceneGraph.Parent
import Verif.SceneGraph.Print
import Verif.Image.Fft
import Verif.Render.AovModel
import Verif.Render.AovProps
import Verif.Render.AovChannels
import Verif.Volumes.Cutout
import Verif.Photometry.BlackBody
import Verif.Render.TileLoops
import Verif.Render.FrameModel
import Verif.Render.FrameProps
import Verif.Render.FrameLight
import Verif.Render.Place
import Verif.PyBind.DateTime
import Verif.Image.Values
import Verif.View.Observer
import Verif.View.ObserverProps
import Verif.SceneGraph.Ids
import Verif.View.Report
import Verif.Sensor.Noise
import Verif.Registry.Scenes
import Verif.Assets.Mixed
import Verif.Assets.Suns
import Verif.Logger.Crash
import Verif.Units.Formula
import Verif.Core.RotationRounding
import Verif.Core.RotationFloat
import Verif.Camera.Blur
import Verif.Core.DeepTree
import Verif.Image.PixelAccess
import Verif.View.Lifetime
import Verif.View.Threads
import Verif.View.Snapshot
import Verif.Core.Resolution
import Verif.SceneGraph.Listing
import Verif.PyBind.Callable
import Verif.PyBind.ImageRepr
import Verif.Sensor.Construct
import Verif.ImageIO.BundleColor
import Verif.Cli.Help
