import Verif.Model.Basic
import Verif.Model.Skeleton
import Verif.Model.LocalToModel
import Verif.Model.GV4
import Verif.Model.Sampling
import Verif.Spec.Tree
import Verif.Spec.LocalToModel
import Verif.Spec.GV4
import Verif.Spec.Sampling
import Verif.Proofs.Tree
import Verif.Proofs.LocalToModel
import Verif.Proofs.GV4
import Verif.Proofs.SamplingCache
import Verif.Proofs.SamplingRun
import Verif.Spec.SamplingHistory
import Verif.Proofs.SamplingHistory
import Verif.Proofs.SamplingExample
import Verif.Props.Sampling
import Verif.Props.Skeleton
import Verif.Props.LocalToModel
import Verif.Props.GV4
import Verif.Model.Track
import Verif.Model.Triggering
import Verif.Spec.Triggering
import Verif.Proofs.Triggering
import Verif.Props.Triggering
import Verif.Model.TrackSampling
import Verif.Spec.TrackSampling
import Verif.Proofs.TrackSampling
import Verif.Props.TrackSampling
import Verif.Props.Archive
import Verif.Props.Layout
import Verif.Props.Keys
import Verif.Props.Math
import Verif.Props.Blending
import Verif.Props.MotionBlending
import Verif.Props.Skinning
import Verif.Props.Interpolate
import Verif.Props.IKAim
import Verif.Props.IKTwoBone
import Verif.Props.IKPole
import Verif.Props.Float
import Verif.Proofs.FloatLerp
import Verif.Props.FloatSampling
import Verif.Props.FloatRotation
import Verif.Props.Pipeline
import Verif.Props.Trig
import Verif.Props.Serde
import Verif.Props.Shared
import Verif.Props.Rkyv
import Verif.Props.FloatTrack
import Verif.Props.FloatModel
import Verif.Props.FloatSkin
import Verif.Props.FloatBlend
import Verif.Props.Additive
import Verif.Props.Frame
import Verif.Props.FloatInvert
import Verif.Props.FloatAim
import Verif.Props.FloatTwoBone
import Verif.Props.FloatReach
import Verif.Props.FloatMotion
import Verif.Props.FloatTrackLerp
import Verif.Props.BlendedFrame
import Verif.Props.Corrections
import Verif.Props.SkinnedFrame
import Verif.Props.SkinnedNormals
import Verif.Props.AddedFrame
import Verif.Props.AddedMesh
import Verif.Props.Lanes
import Verif.Props.ContextEq
import Verif.Props.JointBlending
import Verif.Props.VertexSkinning
import Verif.Props.FrameLocality
import Verif.Props.TrackSampled
import Verif.Props.ArchiveTypes
import Verif.Props.FrameTracks
import Verif.Props.MeshTracks
