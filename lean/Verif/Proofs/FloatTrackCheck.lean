import Verif.Proofs.FloatTrack

/-! Checking the hypotheses of the single-precision track theorems on concrete tracks. -/

namespace Ozz.Spec

open Ieee

/-- The conditions of `Track32Ok`, on rationals. -/
abbrev CheckTrack (t : Track F32 F32) : Prop :=
  t.ratios.length = t.keyCount ∧ t.values.length = t.keyCount ∧ (t.keyCount + 7) / 8 ≤ t.steps.length ∧
  t.ratios.Pairwise (fun a b => value32 a.bits < value32 b.bits) ∧
  (∀ r ∈ t.ratios, Finite32 r.bits ∧ 0 ≤ value32 r.bits ∧ value32 r.bits ≤ 1) ∧
  (∀ v ∈ t.values, Finite32 v.bits ∧ |value32 v.bits| ≤ 2 ^ 126)

theorem val_lt_of {a b : F32} (h : value32 a.bits < value32 b.bits) : val a < val b := by
  unfold val real; exact_mod_cast h

theorem val_le_of {a b : F32} (h : value32 a.bits ≤ value32 b.bits) : val a ≤ val b := by
  unfold val real; exact_mod_cast h

theorem small_of {v : F32} (h : Finite32 v.bits ∧ |value32 v.bits| ≤ 2 ^ 126) : Small v :=
  ⟨h.1, by unfold val real; exact_mod_cast h.2⟩

theorem time_of {v : F32} (h : Finite32 v.bits ∧ |value32 v.bits| < 2 ^ 24) : Time v :=
  ⟨h.1, by unfold val real; exact_mod_cast h.2⟩

theorem track32Ok_of {t : Track F32 F32} (h : CheckTrack t) : Track32Ok t where
  ratiosLen := h.1
  valuesLen := h.2.1
  stepsLen := h.2.2.1
  increasing := h.2.2.2.1.imp fun h => val_lt_of h
  unit r hr := by
    obtain ⟨h1, h2, h3⟩ := h.2.2.2.2.1 r hr
    exact ⟨h1, by unfold val real; exact_mod_cast h2, by unfold val real; exact_mod_cast h3⟩
  small v hv := small_of (h.2.2.2.2.2 v hv)

end Ozz.Spec
