import Verif.Proofs.FloatSampling
import Verif.Proofs.SamplingExample
import Verif.Proofs.FloatKeys
import Verif.Model.SamplingCode

/-! A small animation in single precision with the crate's keys, used in examples. -/

namespace Ozz.Sampling.FloatExample

open Spec Ieee Keys Example

/-- Two of the rotations of the crate's own test (animation.rs:1134-1163). -/
def turn1 : QuatKey := ⟨39974#16, 18396#16, 53990#16⟩
def turn2 : QuatKey := ⟨38605#16, 19300#16, 55990#16⟩
def turn3 : QuatKey := ⟨63843#16, 2329#16, 31255#16⟩

def quatKeys : List QuatKey := [turn1, turn3, turn3, turn3, turn2, turn3, turn3, turn3, turn3]

/-- A key with all components equal. -/
def same (n : BitVec 16) : Float3Key := fun _ => n

/-- Half floats 1, 2, 0, 0, 3, -1, 0, 0, 1024. -/
def floatKeys : List Float3Key :=
  [same 0x3C00, same 0x4000, same 0, same 0, same 0x4200, same 0xBC00, same 0, same 0, same 0x6400]

def half : F32 := NumOps.half

/-- Track 0 has three keys, at 0, 1/2 and 1. -/
def chan32 {K : Type} (keys : List K) : Chan F32 K where
  keys := keys
  ratios := [0, 0, 0, 0, 1, 2, 2, 2, 2]
  previouses := [0, 0, 0, 0, 4, 4, 4, 4, 4]
  iframeEntries := []
  iframeDesc := []
  iframeInterval := F32.one
  after := fun _ => 0

def anim32 : Animation F32 Float3Key QuatKey where
  numTracks := 2
  timepoints := [F32.zero, half, F32.one]
  translations := chan32 floatKeys
  rotations := chan32 quatKeys
  scales := chan32 floatKeys

def time32 (k : Nat) : F32 := [F32.zero, F32.zero, F32.zero, F32.zero, half, F32.one, F32.one, F32.one, F32.one].getD k F32.zero

theorem order32 : KeyOrder F32.zero F32.one 2 4 9 time32 pred' track' where
  realLe := order'.realLe
  two := order'.two
  first := order'.first
  second := order'.second
  later := order'.later
  predLt := order'.predLt
  predTrack := order'.predTrack
  predLast := order'.predLast
  start := by decide +kernel
  increasing := fun k h1 h2 => (by decide +kernel : ∀ k, k < 9 → 4 ≤ k → time32 (pred' k) < time32 k) k h2 h1
  sorted := fun k k' h1 h2 h3 =>
    (by decide +kernel : ∀ k', k' < 9 → ∀ k, k < k' + 1 → 4 ≤ k → time32 (pred' k) ≤ time32 (pred' k'))
      k' h3 k (by omega) h1
  finish := fun k h1 h2 h3 =>
    (by decide +kernel : ∀ k, k < 9 → 4 ≤ k → (∀ m, m < 9 → k < m → track' m ≠ track' k) → F32.one ≤ time32 k)
      k h2 h1 (fun m a b => h3 m b a)

theorem chan32_ok {K : Type} (keys : List K) (h : keys.length = 9) :
    ChanOk F32.zero F32.one 2 4 [F32.zero, half, F32.one] (chan32 keys) time32 pred' track' where
  order := order32
  small := by show 9 < 2 ^ 32; norm_num
  ratiosLen := rfl
  keysLen := h
  times := fun k hk =>
    ⟨chan'.ratios.getD k 0, (by decide +kernel : ∀ k, k < 9 → chan'.ratios[k]? = some (chan'.ratios.getD k 0)) k hk,
      (by decide +kernel : ∀ k, k < 9 → [F32.zero, half, F32.one][chan'.ratios.getD k 0]? = some (time32 k)) k hk⟩
  prevs := chanOk'.prevs
  iframes := ⟨fun h => absurd rfl h, fun f hf => by simp [chan32] at hf⟩

theorem well32 : WellFormed F32.zero F32.one anim32 :=
  ⟨⟨_, _, _, chan32_ok _ rfl⟩, ⟨_, _, _, chan32_ok _ rfl⟩, ⟨_, _, _, chan32_ok _ rfl⟩⟩

def store32 (addr : Nat) : Option (Animation F32 Float3Key QuatKey) := if addr = 100 then some anim32 else none

theorem store32_ok : StoreOk F32.zero F32.one ((2 + 3) / 4) store32 := by
  refine ⟨by simp [store32], fun addr a h => Or.inr (Or.inr ?_)⟩
  simp only [store32] at h
  split at h
  · cases h; exact ⟨rfl, well32⟩
  · cases h

theorem points32 : ∀ r ∈ anim32.timepoints, Unit01 r := by
  intro r hr
  rw [← unit01_iff]
  revert r
  decide +kernel

/-- A quarter. -/
def quarter : F32 := F32.pack false (125 * 2 ^ 23)

theorem quarter_unit : Unit01 quarter := (unit01_iff _).mp (by decide +kernel)

/-- The stored components leave room for a fourth. -/
theorem room32 : ∀ k ∈ quatKeys, storedNorm k.unpack ≤ 1 := by
  have h1 : turn1.unpack.v0.toNat = 4996 ∧ turn1.unpack.v1.toNat = 4599 ∧ turn1.unpack.v2.toNat = 26995 := by decide +kernel
  have h2 : turn2.unpack.v0.toNat = 4825 ∧ turn2.unpack.v1.toNat = 4825 ∧ turn2.unpack.v2.toNat = 27995 := by decide +kernel
  have h3 : turn3.unpack.v0.toNat = 16172 ∧ turn3.unpack.v1.toNat = 16966 ∧ turn3.unpack.v2.toNat = 15627 := by decide +kernel
  have hs : √2 ^ 2 = (2 : ℝ) := Real.sq_sqrt (by norm_num)
  have : ∀ k ∈ [turn1, turn2, turn3], storedNorm k.unpack ≤ 1 := by
    intro k hk
    simp only [List.mem_cons, List.not_mem_nil, or_false] at hk
    unfold storedNorm dequantised
    rcases hk with rfl | rfl | rfl
    · rw [h1.1, h1.2.1, h1.2.2]; simp only [mul_pow, hs]; norm_num
    · rw [h2.1, h2.2.1, h2.2.2]; simp only [mul_pow, hs]; norm_num
    · rw [h3.1, h3.2.1, h3.2.2]; simp only [mul_pow, hs]; norm_num
  intro k hk
  apply this
  simp only [quatKeys, List.mem_cons, List.not_mem_nil, or_false] at hk ⊢
  tauto

/-- The rotations are at most 120 degrees apart. -/
theorem near32 : ∀ k ∈ quatKeys, ∀ l ∈ quatKeys, -(1 / 2) ≤ value32 (k.decompress 0 : F32).bits * value32 (l.decompress 0 : F32).bits +
    value32 (k.decompress 1 : F32).bits * value32 (l.decompress 1 : F32).bits +
    value32 (k.decompress 2 : F32).bits * value32 (l.decompress 2 : F32).bits +
    value32 (k.decompress 3 : F32).bits * value32 (l.decompress 3 : F32).bits := by
  decide +kernel

end Ozz.Sampling.FloatExample
