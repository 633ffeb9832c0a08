import Verif.Spec.Sampling

/-! Histories of uses of a sampling context, and what one sample must produce. -/

namespace Ozz.Spec

open Sampling

variable {α K3 KQ V3 VQ O : Type} [RatioOps α]

/-- What a program can do with a sampling context between two samples. Freshly allocated memory has
arbitrary contents. -/
inductive Op (α V3 VQ O : Type) where
  /-- run a sampling job on the animation at an address with a ratio and an output buffer -/
  | sample (addr : Nat) (ratio : α) (out : List O)
  | clear
  | clone (mt : Mem α V3) (mr : Mem α VQ) (ms : Mem α V3)
  | cloneWithoutAnimationId (mt : Mem α V3) (mr : Mem α VQ) (ms : Mem α V3)
  /-- serialise, then deserialise -/
  | saveLoad (size : Nat) (mt : Mem α V3) (mr : Mem α VQ) (ms : Mem α V3)

/-- `Exec N anims ops ctx ctx'`: performing `ops` on `ctx`, with the animations `anims` alive at
their addresses, ends (without a panic) in `ctx'`. A job that returns an error is followed by the
next operation. -/
inductive Exec (N : Numerics α K3 KQ V3 VQ O) (anims : Nat → Option (Animation α K3 KQ)) :
    List (Op α V3 VQ O) → Context α V3 VQ → Context α V3 VQ → Prop where
  | nil (c) : Exec N anims [] c c
  | sample {addr a r out ops c c1 c2 out'} : anims addr = some a →
      (run N a addr r c out = .ok (c1, out') ∨ ∃ e, run N a addr r c out = .err e (c1, out')) →
      Exec N anims ops c1 c2 → Exec N anims (.sample addr r out :: ops) c c2
  | clear {ops c c2} : Exec N anims ops c.clear c2 → Exec N anims (.clear :: ops) c c2
  | clone {mt mr ms ops c c1 c2} : c.clone mt mr ms = .ok c1 → Exec N anims ops c1 c2 →
      Exec N anims (.clone mt mr ms :: ops) c c2
  | cloneWithoutAnimationId {mt mr ms ops c c1 c2} :
      c.cloneWithoutAnimationId mt mr ms = .ok c1 → Exec N anims ops c1 c2 →
      Exec N anims (.cloneWithoutAnimationId mt mr ms :: ops) c c2
  | saveLoad {size mt mr ms ops c c1 c2} :
      Context.deserialize (c.serialize size) mt mr ms = some (.ok c1) → Exec N anims ops c1 c2 →
      Exec N anims (.saveLoad size mt mr ms :: ops) c c2

/-- The operations of a history respect the interface: animations are alive where they are used, and
ratios are in range. -/
def OpsOk (lo hi : α) (anims : Nat → Option (Animation α K3 KQ)) (ops : List (Op α V3 VQ O)) : Prop :=
  ∀ op ∈ ops, match op with
    | .sample addr r _ => (∃ a, anims addr = some a) ∧ lo ≤ r ∧ r ≤ hi
    | _ => True

/-- The live animations: no object is at address 0, animations of the context's capacity are
well-formed. Animations with no track at all, or with too many tracks for the context, are allowed,
animations with fewer SoA tracks than the context are not (see C20). -/
def StoreOk (lo hi : α) (soa : Nat) (anims : Nat → Option (Animation α K3 KQ)) : Prop :=
  anims 0 = none ∧ ∀ addr a, anims addr = some a →
    (a.numTracks + 3) / 4 = 0 ∨ soa < (a.numTracks + 3) / 4 ∨
    ((a.numTracks + 3) / 4 = soa ∧ WellFormed lo hi a)

/-- The interpolation data of SoA element `i` of one channel at ratio `r`. -/
def ChanSample {K V : Type} (lo hi : α) (real T : Nat) (tps : List α) (ch : Chan α K)
    (dec : K → K → K → K → V) (i : Nat) (r : α) (v : Interp α V) : Prop :=
  ∃ time pred track, ChanOk lo hi real T tps ch time pred track ∧
    SoaBracket T ch time track dec i r v

/-- `o` is the pose of SoA element `i` of animation `a` at ratio `r`: the interpolation between the
bracketing keys of its four tracks in each of the three channels. -/
def Sampled (N : Numerics α K3 KQ V3 VQ O) (lo hi : α) (a : Animation α K3 KQ) (r : α) (i : Nat)
    (o : O) : Prop :=
  ∃ vt vr vs,
    ChanSample lo hi a.numTracks (4 * ((a.numTracks + 3) / 4)) a.timepoints a.translations N.dec3 i r vt ∧
    ChanSample lo hi a.numTracks (4 * ((a.numTracks + 3) / 4)) a.timepoints a.rotations N.decQ i r vr ∧
    ChanSample lo hi a.numTracks (4 * ((a.numTracks + 3) / 4)) a.timepoints a.scales N.dec3 i r vs ∧
    o = N.interp vt vr vs r

end Ozz.Spec
