import Verif.Model.Interpolate
import Verif.Model.Keys

/-! The number functions of the sampling job as the crate has them: keys of /repo/src/animation.rs:22-158,
`interpolates` of /repo/src/sampling_job.rs:1367-1388, both in single precision. -/

namespace Ozz.Sampling

open Keys

/-- `Float3Key::simd_decompress`, animation.rs:33-38, as `SoaVec3`. -/
def codeDec3 (a b c d : Float3Key) : SoaVec3 F32 :=
  let v := Float3Key.simdDecompress (f4 a b c d)
  ⟨v 0, v 1, v 2⟩

/-- `QuaternionKey::simd_decompress`, animation.rs:96-157, as `SoaQuat`. -/
def codeDecQ (a b c d : QuatKey) : SoaQuat F32 :=
  let v := QuatKey.simdDecompress (f4 a b c d)
  ⟨v 0, v 1, v 2, v 3⟩

/-- The sampling job's number functions. -/
def codeNumerics : Numerics F32 Float3Key QuatKey (SoaVec3 F32) (SoaQuat F32) (SoaTransform F32) where
  dec3 := codeDec3
  decQ := codeDecQ
  interp := interpElement

end Ozz.Sampling
