import Verif.Model.Loaders
import Verif.Model.Layout
import Verif.Model.Math
import Verif.Model.Float
import Verif.Model.Sampling

/-! What a value has to satisfy to survive a text format: its floats are finite. -/

namespace Ozz.Spec

/-- Neither infinite nor NaN: the exponent field is not all ones. -/
def FiniteBits (x : UInt32) : Prop := x.toNat / 2 ^ 23 % 2 ^ 8 ≠ 255

instance (x : UInt32) : Decidable (FiniteBits x) := inferInstanceAs (Decidable (_ ≠ _))

/-- Every float of the animation is finite (keys are 16-bit integers). -/
def AnimationFinite (a : AnimationData) : Prop :=
  FiniteBits a.duration ∧ FiniteBits a.t.iframeInterval ∧ FiniteBits a.r.iframeInterval ∧
    FiniteBits a.s.iframeInterval ∧ ∀ x ∈ a.timepoints, FiniteBits x

/-- A raw skeleton whose arrays have elements of the right size and `i16` parents. -/
structure SkeletonShape (s : SkeletonRaw) : Prop where
  poses : ∀ p ∈ s.jointRestPoses, p.length = 40
  parents : ∀ p ∈ s.jointParents, -32768 ≤ p ∧ p ≤ 32767
  indices : ∀ p ∈ s.jointNames, -32768 ≤ p.2 ∧ p.2 ≤ 32767

/-- Names and indices correspond one to one, as in every `BiHashMap`. -/
def OneToOne (m : JointNames) : Prop := (m.map (·.1)).Nodup ∧ (m.map (·.2)).Nodup

/-- A track as Rust's types make it: `u32` key count, values of the kind's arity. -/
structure TrackShape (k : TrackKind) (t : Track UInt32 (List UInt32)) : Prop where
  keyCount : t.keyCount < 2 ^ 32
  values : ∀ v ∈ t.values, v.length = k.arity

def TrackFinite (t : Track UInt32 (List UInt32)) : Prop :=
  (∀ x ∈ t.ratios, FiniteBits x) ∧ ∀ v ∈ t.values, ∀ x ∈ v, FiniteBits x

/-- Four finite floats. -/
def RowFinite (v : F4 F32) : Prop := ∀ l, (v l).isFinite = true

def Vec3Finite (v : SoaVec3 F32) : Prop := RowFinite v.x ∧ RowFinite v.y ∧ RowFinite v.z
def QuatFinite (q : SoaQuat F32) : Prop :=
  RowFinite q.x ∧ RowFinite q.y ∧ RowFinite q.z ∧ RowFinite q.w

/-- A channel of a context with values the types of the code can hold and finite floats. -/
structure CacheStorable {V : Type} (F : V → Prop) (c : Sampling.Cache F32 V) : Prop where
  next : c.next < 2 ^ 64
  entries : ∀ e ∈ c.entries, e < 2 ^ 32
  values : ∀ x ∈ c.values, RowFinite x.ratio0 ∧ RowFinite x.ratio1 ∧ F x.value0 ∧ F x.value1

structure ContextStorable (c : Sampling.Context F32 (SoaVec3 F32) (SoaQuat F32)) : Prop where
  tracks : c.maxSoa * 4 < 2 ^ 64
  animationId : c.animationId < 2 ^ 64
  ratio : c.ratio.isFinite = true
  translations : CacheStorable Vec3Finite c.translations
  rotations : CacheStorable QuatFinite c.rotations
  scales : CacheStorable Vec3Finite c.scales

end Ozz.Spec
