import Verif.Proofs.SerdeNeg
import Mathlib.Data.List.FinRange

/-! A context whose entries have been sorted by name. -/

namespace Ozz.Serde

open Spec
open Sampling (Context Cache Usable)

section
variable {α K3 KQ V3 VQ O : Type} [Sampling.RatioOps α] {N : Sampling.Numerics α K3 KQ V3 VQ O} {lo hi : α}
  {soa : Nat} {anims : Nat → Option (Sampling.Animation α K3 KQ)}

theorem setFields_sorted {c : Context α V3 VQ} (h : Usable N lo hi soa anims c)
    (size : Nat) (mt : Sampling.Mem α V3) (mr : Sampling.Mem α VQ) (ms : Sampling.Mem α V3) :
    (Context.new (c.maxSoa * 4) mt mr ms).setFields
      [.ratio c.ratio, .rotationEntries c.rotations.entries, .rotationNext c.rotations.next,
       .rotationOutdated c.rotations.outdated, .rotations c.rotations.values,
       .scaleEntries c.scales.entries, .scaleNext c.scales.next, .scaleOutdated c.scales.outdated,
       .scales c.scales.values, .size size, .translationEntries c.translations.entries,
       .translationNext c.translations.next, .translationOutdated c.translations.outdated,
       .translations c.translations.values] = .ok { c with animationId := 0 } := by
  have e := Sampling.new_soa c.maxSoa
  obtain rfl : c.maxSoa = soa := h.maxSoa
  have l1 : c.translations.entries.length = c.maxSoa * 4 := by rw [h.translations.entries, Nat.mul_comm]
  have l4 : c.rotations.entries.length = c.maxSoa * 4 := by rw [h.rotations.entries, Nat.mul_comm]
  have l7 : c.scales.entries.length = c.maxSoa * 4 := by rw [h.scales.entries, Nat.mul_comm]
  have l2 := h.translations.outdated; have l3 := h.translations.values
  have l5 := h.rotations.outdated; have l6 := h.rotations.values
  have l8 := h.scales.outdated; have l9 := h.scales.values
  simp only [Context.setFields,
    Context.setField, Context.new, Cache.new, e, bind, Except.bind, pure, Except.pure,
    Sampling.copyFromSlice,
    List.length_map, List.length_range, l1, l2, l3, l4, l5, l6, l7, l8, l9, ↓reduceIte]

end

/-- The written entries, by their place in the output. -/
def entryAt (c : Ctx) (size : Nat) (i : Fin 18) : String × Json :=
  ([("size", (Out.uint 8 size).json), ("max_tracks", (Out.uint 8 (c.maxSoa * 4)).json)] ++
    contextTail c).get (i.cast rfl)

/-- The places in alphabetic order of the keys. -/
def sortedPlaces : List (Fin 18) := [4, 3, 2, 1, 5, 12, 14, 13, 7, 15, 17, 16, 8, 0, 9, 11, 10, 6]

theorem sorted_perm (c : Ctx) (size : Nat) :
    ((List.finRange 18).map (entryAt c size)).Perm (sortedPlaces.map (entryAt c size)) :=
  List.Perm.map _ (by decide)

theorem entries_eq (c : Ctx) (size : Nat) :
    (outContext c size).json = .obj ((List.finRange 18).map (entryAt c size)) := rfl

theorem entry_size (j : Json) : entryField "size" j = some (.size 0) := by
  simp [entryField]

theorem seek_skip {key : String} {j : Json} {rest : List (String × Json)} (h : key ≠ "max_tracks") :
    seekTracks ((key, j) :: rest) = seekTracks rest := by
  simp [seekTracks, h]

theorem read_sorted {c : Ctx} (h : ContextStorable c) (size : Nat)
    (mt : Sampling.Mem F32 (SoaVec3 F32)) (mr : Sampling.Mem F32 (SoaQuat F32))
    (ms : Sampling.Mem F32 (SoaVec3 F32)) :
    readContext true (.obj (sortedPlaces.map (entryAt c size))) mt mr ms =
      some ((Context.new (c.maxSoa * 4) mt mr ms).setFields
      [.ratio c.ratio, .rotationEntries c.rotations.entries, .rotationNext c.rotations.next,
       .rotationOutdated c.rotations.outdated, .rotations c.rotations.values,
       .scaleEntries c.scales.entries, .scaleNext c.scales.next, .scaleOutdated c.scales.outdated,
       .scales c.scales.values, .size 0, .translationEntries c.translations.entries,
       .translationNext c.translations.next, .translationOutdated c.translations.outdated,
       .translations c.translations.values]) := by
  have seek : ∀ (a b d e : Json) (rest : List (String × Json)) (n : Nat), (De.uint 8).json e = some n →
      readContext true (.obj (("animation_id", a) :: ("max_outdated", b) :: ("max_soa_tracks", d) ::
        ("max_tracks", e) :: rest)) mt mr ms = setEntries (Context.new n mt mr ms) rest := by
    intro a b d e rest n hn
    simp [readContext, seekTracks, hn]
  have hn : (De.uint 8).json (Out.uint 8 (c.maxSoa * 4)).json = some (c.maxSoa * 4) :=
    rtj_uint (w := 8) h.tracks
  refine (seek _ _ _ _ _ _ hn).trans ?_
  refine setEntries_eq _ _ _ ?_
  refine .cons ⟨_, entry_ratio (rtj_f32 (finite_bitsOf h.ratio)), fun _ => rfl⟩ ?_
  refine .cons ⟨_, entry_rotation_entries (en _ h.rotations.entries), fun _ => rfl⟩ ?_
  refine .cons ⟨_, entry_rotation_next (u64 _ h.rotations.next), fun _ => rfl⟩ ?_
  refine .cons ⟨_, entry_rotation_outdated (rtj_outdated _), fun _ => rfl⟩ ?_
  refine .cons ⟨_, entry_rotations (iq _ h.rotations.values), fun _ => rfl⟩ ?_
  refine .cons ⟨_, entry_scale_entries (en _ h.scales.entries), fun _ => rfl⟩ ?_
  refine .cons ⟨_, entry_scale_next (u64 _ h.scales.next), fun _ => rfl⟩ ?_
  refine .cons ⟨_, entry_scale_outdated (rtj_outdated _), fun _ => rfl⟩ ?_
  refine .cons ⟨_, entry_scales (i3 _ h.scales.values), fun _ => rfl⟩ ?_
  refine .cons ⟨_, entry_size _, fun _ => rfl⟩ ?_
  refine .cons ⟨_, entry_translation_entries (en _ h.translations.entries), fun _ => rfl⟩ ?_
  refine .cons ⟨_, entry_translation_next (u64 _ h.translations.next), fun _ => rfl⟩ ?_
  refine .cons ⟨_, entry_translation_outdated (rtj_outdated _), fun _ => rfl⟩ ?_
  refine .cons ⟨_, entry_translations (i3 _ h.translations.values), fun _ => rfl⟩ ?_
  exact .nil

/-- The keys, whatever the values. -/
theorem sorted_keys (c : Ctx) (size : Nat) :
    (sortedPlaces.map (entryAt c size)).Pairwise (fun a b => a.1 < b.1) := by
  have h : (sortedPlaces.map (entryAt c size)).map (·.1) =
      ["animation_id", "max_outdated", "max_soa_tracks", "max_tracks", "ratio", "rotation_entries",
       "rotation_next", "rotation_outdated", "rotations", "scale_entries", "scale_next",
       "scale_outdated", "scales", "size", "translation_entries", "translation_next",
       "translation_outdated", "translations"] := rfl
  have : ((sortedPlaces.map (entryAt c size)).map (·.1)).Pairwise (· < ·) := by
    rw [h]
    simp
  rwa [List.pairwise_map] at this

/-! ### One entry at a time -/

theorem readContext_first {b : Json} {rest : List (String × Json)} {n : Nat}
    (hn : (De.uint 8).json b = some n) (mt : Sampling.Mem F32 (SoaVec3 F32))
    (mr : Sampling.Mem F32 (SoaQuat F32)) (ms : Sampling.Mem F32 (SoaVec3 F32)) :
    readContext true (.obj (("max_tracks", b) :: rest)) mt mr ms =
      setEntries (Context.new n mt mr ms) rest := by
  simp [readContext, seekTracks, hn]

theorem setEntries_step {c c' : Ctx} {key : String} {j : Json} {rest : List (String × Json)}
    {f : Sampling.Field F32 (SoaVec3 F32) (SoaQuat F32)} (h : entryField key j = some f)
    (hf : c.setField f = .ok c') : setEntries c ((key, j) :: rest) = setEntries c' rest := by
  simp [setEntries, h, hf]

theorem setEntries_none {c : Ctx} {key : String} {j : Json} {rest : List (String × Json)}
    (h : entryField key j = none) : setEntries c ((key, j) :: rest) = none := by
  simp [setEntries, h]

theorem setEntries_panic {c : Ctx} {key : String} {j : Json} {rest : List (String × Json)}
    {f : Sampling.Field F32 (SoaVec3 F32) (SoaQuat F32)} (h : entryField key j = some f)
    (hf : c.setField f = .error .panic) :
    setEntries c ((key, j) :: rest) = some (.error .panic) := by
  simp [setEntries, h, hf]

theorem entry_ratio_none {j : Json} (h : De.f32.json j = none) : entryField "ratio" j = none := by
  simp [entryField, h]

theorem entry_translations_none {j : Json} (h : deInterp3.vec.json j = none) :
    entryField "translations" j = none := by
  simp [entryField, h]

theorem not_finite_bitsOf {x : F32} (h : x.isFinite = false) : ¬ FiniteBits (bitsOf x) := by
  rw [← finiteBits_iff]
  intro h2
  have : x.isFinite = true := h2
  rw [h] at this
  cases this

theorem interp_nonfinite {x : Sampling.Interp F32 (SoaVec3 F32)} {l : Fin 4}
    (h : (x.ratio0 l).isFinite = false) : deInterp3.json (outInterp3 x).json = none := by
  refine field_none_here (j := (Out.seq (some 2) [Out.array Out.f32 (rowOf x.ratio0),
    Out.array Out.f32 (rowOf x.ratio1)]).json) (by field_at) ?_
  have : (De.f32.array 4).json (Out.array Out.f32 (rowOf x.ratio0)).json = none := by
    refine array_json_none ⟨bitsOf (x.ratio0 l), ?_, json_f32_none (not_finite_bitsOf h)⟩
    fin_cases l <;> simp [rowOf]
  simp [De.array.eq_1 (n := 2), Out.seq, allJson, this]

end Ozz.Serde
