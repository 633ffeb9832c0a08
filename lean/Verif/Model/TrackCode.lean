import Verif.Model.Interpolate
import Verif.Model.TrackSampling
import Verif.Model.Triggering

/-!
The track jobs on `f32`: the operations `Model/TrackSampling` and `Model/Triggering` leave open, in single
precision. Comparisons are those of the sampling job (`Model/Interpolate`); `f32::floor` is `core`'s.
-/

namespace Ozz.F32

/-- `0.0`, `1.0` -/
instance : Zero F32 := ⟨zero⟩
instance : One F32 := ⟨one⟩

/-- `f32::floor`: NaNs, infinities and integers (-0.0 among them) as they are, other numbers down to the next
integer. -/
def floor (x : F32) : F32 :=
  if x.isNaN || x.isInf || x.mag % 2 ^ 149 = 0 then x
  else if x.negative then neg (ofNat (x.mag / 2 ^ 149 + 1))
  else ofNat (x.mag / 2 ^ 149)

instance : FloorOp F32 := ⟨floor⟩

end Ozz.F32
