import Verif.Model.LocalToModel
import Verif.Model.Math

/-! The conversion used by `LocalToModelJob::run`, /repo/src/local_to_model_job.rs:242-244. -/

namespace Ozz.LocalToModel

variable {α : Type} [Add α] [Sub α] [Mul α] [Div α] [Neg α] [NumOps α]

/-- `SoaMat4::from_affine(&transform.translation, &transform.rotation, &transform.scale).to_aos()`, lines 243-244. -/
def localMatrices (t : SoaTransform α) : Fin 4 → Mat4 α := (SoaMat4.fromAffine t.translation t.rotation t.scale).toAos

end Ozz.LocalToModel
