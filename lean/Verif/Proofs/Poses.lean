import Verif.Props.Sampling

/-! The pose sampled through any context as a function of the ratio. -/

namespace Ozz.Props

open Sampling Spec

variable {α K3 KQ V3 VQ O : Type} [RatioOps α] {N : Numerics α K3 KQ V3 VQ O} {lo hi : α}

/-- Sampling animation `a` through any context, at any ratio in range, gives `F ratio` as SoA element `i`. -/
def Poses (N : Numerics α K3 KQ V3 VQ O) (lo hi : α) (anims : Nat → Option (Animation α K3 KQ)) (n addr : Nat)
    (a : Animation α K3 KQ) (i : Nat) (F : α → O) : Prop :=
  ∀ r, lo ≤ r → r ≤ hi → ∀ c, Reached N lo hi anims n c → ∀ out, (n + 3) / 4 ≤ out.length →
    ∃ c' out', run N a addr r c out = .ok (c', out') ∧ out'[i]? = some (F r)

theorem poses_exist (Ord : RatioOrder α) {anims : Nat → Option (Animation α K3 KQ)}
    {n : Nat} (hst : StoreOk lo hi ((n + 3) / 4) anims) {addr : Nat} {a : Animation α K3 KQ} (ha : anims addr = some a)
    (hwf : WellFormed lo hi a) (hn : (a.numTracks + 3) / 4 = (n + 3) / 4) {i : Nat} (hi' : i < (n + 3) / 4)
    (d3 : V3) (dq : VQ) (d : O) :
    ∃ F, Poses N lo hi anims n addr a i F ∧ ∀ r, lo ≤ r → r ≤ hi → Sampled N lo hi a r i (F r) := by
  classical
  have hex : ∀ r, lo ≤ r → r ≤ hi → ∃ o, Sampled N lo hi a r i o := by
    intro r h1 h2
    let m3 : Mem α V3 := ⟨fun _ => 0, fun _ => 0, fun _ => ⟨fun _ => lo, fun _ => lo, d3, d3⟩⟩
    let mq : Mem α VQ := ⟨fun _ => 0, fun _ => 0, fun _ => ⟨fun _ => lo, fun _ => lo, dq, dq⟩⟩
    obtain ⟨_, _, -, h4⟩ := C16_sampling_brackets (N := N) Ord hst
      (c := Context.new n m3 mq m3) ⟨m3, mq, m3, [], by simp [OpsOk], .nil _⟩ ha hwf hn h1 h2
      (out := List.replicate ((n + 3) / 4) d) (by simp)
    obtain ⟨o, -, ho⟩ := h4 i hi'
    exact ⟨o, ho⟩
  refine ⟨fun r => if h : ∃ o, Sampled N lo hi a r i o then h.choose else d, ?_, ?_⟩
  · intro r h1 h2 c hc out hout
    obtain ⟨c', out', h3, h4⟩ := C16_sampling_brackets (N := N) Ord hst hc ha hwf hn h1 h2 hout
    obtain ⟨o, h5, h6⟩ := h4 i hi'
    refine ⟨c', out', h3, ?_⟩
    have h7 := hex r h1 h2
    rw [h5]
    simp only [dif_pos h7]
    exact congrArg some (sampled_unique Ord h6 h7.choose_spec)
  · intro r h1 h2
    have h7 := hex r h1 h2
    simp only [dif_pos h7]
    exact h7.choose_spec

end Ozz.Props
