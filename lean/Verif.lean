import Verif.ThreadPool.Props
import Verif.RWLock.Props
import Verif.Serialization.Props
import Verif.Channels.Props
import Verif.StlHelpers.Props
import Verif.OccupancyGrid.Props
import Verif.HashId.Props
import Verif.Time.Props
import Verif.NPipeline.Props
import Verif.NPipeline.ShutdownProps
import Verif.VisualFrame.Props
import Verif.VisualFrame.CopyProps
import Verif.VisualFrame.NFrameProps
import Verif.VisualFrame.NRigProps
import Verif.TrackManager.Props
import Verif.GyroMatcher.Props
import Verif.GyroTracker.Props
import Verif.Accumulator.Props
import Verif.Statistics.Props
import Verif.Timer.Props
import Verif.Hamming.Props
import Verif.Descriptor.Props
import Verif.DescriptorRef.Props
import Verif.NCamera.Props
import Verif.Distortion.Props
import Verif.Camera.Props
import Verif.Camera.Lidar
import Verif.Camera.RandomProps
import Verif.Triangulation.Props
import Verif.Target.Props
import Verif.Target.PoseProps
import Verif.Calibration.Props
import Verif.GeometricVision.MatchesProps
import Verif.GeometricVision.PoseProps
import Verif.VisualFrame.InsertProps
import Verif.VisualFrame.RawProps
import Verif.Undistort.Props
import Verif.VisualPipeline.Props
import Verif.FeatureTrack.Props
import Verif.StlHelpers.Stddev
import Verif.Yaml.RigProps
import Verif.CameraMask.Props
import Verif.Kaze.FedProps
import Verif.Kaze.DiffusionProps
import Verif.Kaze.AosProps
import Verif.Kaze.ContrastProps
import Verif.Kaze.ExtremaProps
import Verif.Kaze.SubpixelProps
import Verif.Kaze.DescriptorProps
import Verif.Kaze.ResponseProps
import Verif.Kaze.OrientationProps
import Verif.Kaze.ScaleSpaceProps
import Verif.Kaze.EvaluationProps
import Verif.Lsd.LinesProps
import Verif.Lsd.AngleProps
import Verif.Lsd.GrowProps
import Verif.Lsd.RectProps
import Verif.Lsd.RefineProps
import Verif.Lsd.LlAngleProps
import Verif.Lsd.NfaProps
import Verif.Lsd.ImproveProps
import Verif.Lsd.FlsdProps
import Verif.Lsd.DrawProps
import Verif.NumDiff.Props
import Verif.ImageEqual.Props
import Verif.TestRig.Props
import Verif.Calibration.VanishingProps
import Verif.Visualization.Props
import Verif.CameraLife.Props
import Verif.VisualFrame.AccessProps
import Verif.Yaml.FileProps
import Verif.Memory.HashProps
import Verif.Memory.UniqueProps
import Verif.HashId.UniqueProps
import Verif.Yaml.SensorLifeProps
import Verif.Kaze.ComputeProps
import Verif.Undistort.MakeProps
import Verif.FeatureTrack.LifeProps
import Verif.Statistics.ReportProps
import Verif.VisualPipeline.OwnersProps
import Verif.Camera.JetsProps
import Verif.RWLock.ScopedProps
import Verif.Printing.Props
import Verif.Descriptor.Long
import Verif.Undistort.Between
import Verif.Kaze.AffineProps
import Verif.Target.FileProps
import Verif.NPipeline.MakeProps
import Verif.TestRig.RandomProps
import Verif.VisualFrame.TestProps
import Verif.Distortion.ConvergeProps
import Verif.Distortion.EquidistantProps
import Verif.Camera.ConvergeProps
import Verif.OccupancyGrid.Rounding
import Verif.OccupancyGrid.RoundingProps
import Verif.Statistics.Queries
import Verif.Statistics.QueriesProps
import Verif.Lsd.Gamma
import Verif.Lsd.GammaProps
import Verif.Lsd.NfaGammaProps
import Verif.Channels.Concurrent
import Verif.Channels.ConcurrentProps
import Verif.GyroMatcher.SearchProps
import Verif.Serialization.DetailProps
import Verif.NPipeline.BlockingProps
import Verif.VisualFrame.DefinedProps
import Verif.Base.LimitsProps
import Verif.VisualFrame.Compare
import Verif.VisualFrame.CompareProps
import Verif.NPipeline.SyncProps
import Verif.NPipeline.Int64Props
import Verif.Target.DetailProps
import Verif.Triangulation.LoopProps
import Verif.TrackManager.ChainProps
import Verif.OccupancyGrid.MaskProps
import Verif.DescriptorRef.EqualProps
import Verif.HashId.DetailProps
import Verif.Triangulation.SeenProps
import Verif.GyroMatcher.TruthProps
import Verif.TrackManager.FollowProps
import Verif.NCamera.NFrameProps
import Verif.GeometricVision.MotionProps
import Verif.Descriptor.PairwiseProps
import Verif.Camera.RandomReachProps
import Verif.Camera.BorderProps
import Verif.Kaze.SaveProps
import Verif.GyroTracker.LoopProps
