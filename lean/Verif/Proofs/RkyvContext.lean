import Verif.Proofs.RkyvValues
import Verif.Proofs.SerdeSorted

/-! Archived sampling contexts. -/

namespace Ozz.Rkyv

open Spec
open Sampling (Context Cache Usable Sized)

/-! ### Interpolation slots -/

theorem interp_floats {V : Type} {n : Nat} {f : V → List UInt32} {g : List UInt32 → V} (hl : ∀ v, (f v).length = n)
    (hg : ∀ v, g (f v) = v) (x : Sampling.Interp F32 V) : interpOf n g (interpFloats f x) = x := by
  have h0 : Serde.ofRow (interpFloats f x) 0 = x.ratio0 := by funext l; fin_cases l <;> rfl
  have h1 : Serde.ofRow (interpFloats f x) 1 = x.ratio1 := by funext l; fin_cases l <;> rfl
  have h8 : (interpFloats f x).drop 8 = f x.value0 ++ f x.value1 := by
    rw [interpFloats, List.append_assoc]; rfl
  have h2 : ((interpFloats f x).drop 8).take n = f x.value0 := by
    rw [h8, List.take_left' (hl _)]
  have h3 : (interpFloats f x).drop (8 + n) = f x.value1 := by
    rw [← List.drop_drop, h8, List.drop_left' (hl _)]
  simp only [interpOf, h0, h1, h2, h3, hg]

theorem interpFloats_length {V : Type} {n : Nat} {f : V → List UInt32} (hl : ∀ v, (f v).length = n)
    (x : Sampling.Interp F32 V) : (interpFloats f x).length = 8 + 2 * n := by
  simp only [interpFloats, List.length_append, hl, Serde.rowOf, List.length_cons, List.length_nil]; omega

theorem podOk_interp3 (e : Endian) (xs : List (Sampling.Interp F32 (SoaVec3 F32))) : PodOk (interp3 e) xs := by
  refine ⟨fun x _ => ?_, by show 0 < 128; decide, by show 0 < 16; decide, by show 16 ∣ 128; decide, by show 16 ∣ 16; decide⟩
  have h := faithful_array (reprU32 e) 32 (interpFloats Serde.vec3Floats x)
    (interpFloats_length (n := 12) (fun _ => rfl) x) fun y _ => faithful_u32 e y
  refine ⟨h.1, ?_⟩
  show interpOf 12 Serde.vec3Of (((reprU32 e).array 32).dec (((reprU32 e).array 32).enc (interpFloats Serde.vec3Floats x))) = x
  rw [h.2]
  exact interp_floats (f := Serde.vec3Floats) (fun _ => rfl) Serde.vec3Of_floats x

theorem podOk_interpQ (e : Endian) (xs : List (Sampling.Interp F32 (SoaQuat F32))) : PodOk (interpQ e) xs := by
  refine ⟨fun x _ => ?_, by show 0 < 160; decide, by show 0 < 16; decide, by show 16 ∣ 160; decide, by show 16 ∣ 16; decide⟩
  have h := faithful_array (reprU32 e) 40 (interpFloats Serde.quatFloats x)
    (interpFloats_length (n := 16) (fun _ => rfl) x) fun y _ => faithful_u32 e y
  refine ⟨h.1, ?_⟩
  show interpOf 16 Serde.quatOf (((reprU32 e).array 40).dec (((reprU32 e).array 40).enc (interpFloats Serde.quatFloats x))) = x
  rw [h.2]
  exact interp_floats (f := Serde.quatFloats) (fun _ => rfl) Serde.quatOf_floats x

theorem podOk_uint4 (e : Endian) (xs : List Nat) (h : ∀ x ∈ xs, x < 2 ^ 32) : PodOk (uint e 4) xs :=
  ⟨fun x hx => faithful_uint e 4 x (h x hx), by show 0 < 4; decide, by show 0 < 4; decide, by show 4 ∣ 4; decide, by show 4 ∣ 16; decide⟩

theorem podOk_mask (e : Endian) (xs : List (BitVec 8)) : PodOk (mask e) xs := by
  refine ⟨fun x _ => ⟨nativeBytes_length .., ?_⟩, by show 0 < 1; decide, by show 0 < 1; decide, by show 1 ∣ 1; decide, by show 1 ∣ 16; decide⟩
  show BitVec.ofNat 8 (nativeValue e (nativeBytes e 1 x.toNat)) = x
  rw [nativeValue_nativeBytes e 1 x.toNat (by have := x.isLt; omega)]
  simp

/-! ### Contexts -/

/-- What is known of a context that was written. -/
structure ContextWritten (T : Target) (c : Serde.Ctx) (q : ContextResolver) (F : Buf) (p : Nat) : Prop where
  t : SliceOk (interp3 T.endian) c.translations.values q.translations F p
  r : SliceOk (interpQ T.endian) c.rotations.values q.rotations F p
  s : SliceOk (interp3 T.endian) c.scales.values q.scales F p
  te : SliceOk (uint T.endian 4) c.translations.entries q.translationEntries F p
  re : SliceOk (uint T.endian 4) c.rotations.entries q.rotationEntries F p
  se : SliceOk (uint T.endian 4) c.scales.entries q.scaleEntries F p
  tm : SliceOk (mask T.endian) c.translations.outdated q.translationOutdated F p
  rm : SliceOk (mask T.endian) c.rotations.outdated q.rotationOutdated F p
  sm : SliceOk (mask T.endian) c.scales.outdated q.scaleOutdated F p

theorem writes_pad16 : Writes (modify (padTo 16) : StateM Buf PUnit) 16 fun _ _ _ => True := by
  intro b
  obtain ⟨h1, h2, h3⟩ := padTo_length 16 b (by decide)
  exact ⟨padTo_prefix 16 b, Nat.le_of_lt h3, fun _ _ _ _ => trivial⟩

theorem writes_context (T : Target) (c : Serde.Ctx) (h : ContextFits c) :
    Writes (serializeContext T c) (contextBytes c + 151) (ContextWritten T c) := by
  refine Writes.mono (Writes.bind writes_pad16 fun _ =>
    Writes.bind (writes_slice (podOk_interp3 T.endian c.translations.values)) fun t =>
    Writes.bind (writes_slice (podOk_interpQ T.endian c.rotations.values)) fun r =>
    Writes.bind (writes_slice (podOk_interp3 T.endian c.scales.values)) fun s =>
    Writes.bind (writes_slice (podOk_uint4 T.endian c.translations.entries h.translations.entries)) fun te =>
    Writes.bind (writes_slice (podOk_uint4 T.endian c.rotations.entries h.rotations.entries)) fun re =>
    Writes.bind (writes_slice (podOk_uint4 T.endian c.scales.entries h.scales.entries)) fun se =>
    Writes.bind (writes_slice (podOk_mask T.endian c.translations.outdated)) fun tm =>
    Writes.bind (writes_slice (podOk_mask T.endian c.rotations.outdated)) fun rm =>
    Writes.bind (writes_slice (podOk_mask T.endian c.scales.outdated)) fun sm => Writes.pure _) ?_ ?_
  · show 16 + (c.translations.values.length * 128 + 15 + (c.rotations.values.length * 160 + 15 +
      (c.scales.values.length * 128 + 15 + (c.translations.entries.length * 4 + 15 +
      (c.rotations.entries.length * 4 + 15 + (c.scales.entries.length * 4 + 15 + (c.translations.outdated.length * 1 + 15 +
      (c.rotations.outdated.length * 1 + 15 + (c.scales.outdated.length * 1 + 15 + 0))))))))) ≤ contextBytes c + 151
    simp only [contextBytes]; omega
  · rintro q F p ⟨_, _, t, ht, r, hr, s, hs, te, hte, re, hre, se, hse, tm, htm, rm, hrm, sm, hsm, rfl⟩
    exact ⟨ht, hr, hs, hte, hre, hse, htm, hrm, hsm⟩

theorem context_align {T : Target} (hT : TargetOk T) : T.context.align = 8 := by
  have := hT.context.divides ⟨"animation_id", 8, 8⟩ (by simp)
  obtain ⟨f, hf, h⟩ := hT.context.strictest
  simp only [List.mem_cons, List.not_mem_nil, or_false] at hf
  rcases hf with rfl | rfl | rfl | rfl | rfl | rfl | rfl | rfl | rfl | rfl | rfl | rfl | rfl | rfl | rfl
  case inr.inl => exact h
  all_goals (rw [h] at this; exact absurd this (by show ¬ 8 ∣ 4; decide))

theorem resolveContext_matches {T : Target} (hT : TargetOk T) {c : Serde.Ctx} (pos : Nat)
    (r : ContextResolver) (fs : List (String × Buf)) (h : resolveContext T c pos r = some fs) :
    Matches fs [⟨"max_tracks", 4, 4⟩, ⟨"animation_id", 8, 8⟩, ⟨"ratio", 4, 4⟩,
     ⟨"translations", T.vec.size, 4⟩, ⟨"translation_entries", T.vec.size, 4⟩,
     ⟨"translation_outdated", T.vec.size, 4⟩, ⟨"translation_next", 4, 4⟩,
     ⟨"rotations", T.vec.size, 4⟩, ⟨"rotation_entries", T.vec.size, 4⟩,
     ⟨"rotation_outdated", T.vec.size, 4⟩, ⟨"rotation_next", 4, 4⟩,
     ⟨"scales", T.vec.size, 4⟩, ⟨"scale_entries", T.vec.size, 4⟩,
     ⟨"scale_outdated", T.vec.size, 4⟩, ⟨"scale_next", 4, 4⟩] := by
  simp only [resolveContext, bind, Option.bind_eq_some_iff, pure, Option.some.injEq] at h
  obtain ⟨t, ht, r, hr, s, hs, te, hte, re, hre, se, hse, tm, htm, rm, hrm, sm, hsm, rfl⟩ := h
  have v := fun {pos len target : Nat} {bs : Buf} (h : vecAt T pos len target = some bs) => (vecAt_length hT.vec h).1
  refine ⟨by simp only [List.map_cons, List.map_nil]; decide +kernel, ?_⟩
  simp only [List.mem_cons, List.not_mem_nil, or_false, forall_eq_or_imp, forall_eq]
  exact ⟨⟨⟨"max_tracks", 4, 4⟩, by simp, rfl, nativeBytes_length ..⟩,
    ⟨⟨"animation_id", 8, 8⟩, by simp, rfl, nativeBytes_length ..⟩, ⟨⟨"ratio", 4, 4⟩, by simp, rfl, nativeBytes_length ..⟩,
    ⟨⟨"translations", T.vec.size, 4⟩, by simp, rfl, v ht⟩, ⟨⟨"rotations", T.vec.size, 4⟩, by simp, rfl, v hr⟩,
    ⟨⟨"scales", T.vec.size, 4⟩, by simp, rfl, v hs⟩,
    ⟨⟨"translation_entries", T.vec.size, 4⟩, by simp, rfl, v hte⟩, ⟨⟨"rotation_entries", T.vec.size, 4⟩, by simp, rfl, v hre⟩,
    ⟨⟨"scale_entries", T.vec.size, 4⟩, by simp, rfl, v hse⟩,
    ⟨⟨"translation_outdated", T.vec.size, 4⟩, by simp, rfl, v htm⟩, ⟨⟨"rotation_outdated", T.vec.size, 4⟩, by simp, rfl, v hrm⟩,
    ⟨⟨"scale_outdated", T.vec.size, 4⟩, by simp, rfl, v hsm⟩,
    ⟨⟨"translation_next", 4, 4⟩, by simp, rfl, nativeBytes_length ..⟩,
    ⟨⟨"rotation_next", 4, 4⟩, by simp, rfl, nativeBytes_length ..⟩, ⟨⟨"scale_next", 4, 4⟩, by simp, rfl, nativeBytes_length ..⟩⟩

theorem setFields_rkyv {c : Serde.Ctx} (ht : Sized c.maxSoa c.translations) (hr : Sized c.maxSoa c.rotations)
    (hs : Sized c.maxSoa c.scales) (mt : Sampling.Mem F32 (SoaVec3 F32)) (mr : Sampling.Mem F32 (SoaQuat F32))
    (ms : Sampling.Mem F32 (SoaVec3 F32)) :
    (Context.new (c.maxSoa * 4) mt mr ms).setFields
      [.animationId c.animationId, .ratio c.ratio, .translations c.translations.values, .rotations c.rotations.values,
       .scales c.scales.values, .translationEntries c.translations.entries, .rotationEntries c.rotations.entries,
       .scaleEntries c.scales.entries, .translationOutdated c.translations.outdated,
       .rotationOutdated c.rotations.outdated, .scaleOutdated c.scales.outdated,
       .translationNext c.translations.next, .rotationNext c.rotations.next, .scaleNext c.scales.next] = .ok c := by
  have e := Sampling.new_soa c.maxSoa
  have l1 : c.translations.entries.length = c.maxSoa * 4 := by rw [ht.entries, Nat.mul_comm]
  have l4 : c.rotations.entries.length = c.maxSoa * 4 := by rw [hr.entries, Nat.mul_comm]
  have l7 : c.scales.entries.length = c.maxSoa * 4 := by rw [hs.entries, Nat.mul_comm]
  have l2 := ht.outdated; have l3 := ht.values
  have l5 := hr.outdated; have l6 := hr.values
  have l8 := hs.outdated; have l9 := hs.values
  simp only [Context.setFields,
    Context.setField, Context.new, Cache.new, e, bind, Except.bind, pure, Except.pure,
    Sampling.copyFromSlice,
    List.length_map, List.length_range, l1, l2, l3, l4, l5, l6, l7, l8, l9, ↓reduceIte]

theorem deserializeContext_ok {T : Target} (hT : TargetOk T) {c : Serde.Ctx} (hc : ContextFits c)
    (ht : Sized c.maxSoa c.translations) (hr' : Sized c.maxSoa c.rotations) (hs : Sized c.maxSoa c.scales) {b b' : Buf}
    {pos : Nat} (h : archiveContext T c b = some (pos, b')) {base : Nat} (hb : 16 ∣ base) :
    rootAt T.context base b' = some pos ∧ b <+: b' ∧ ∀ rest mt mr ms,
      deserializeContext T base (b' ++ rest) pos mt mr ms = some (.ok c) := by
  have hal := context_align hT
  obtain ⟨q, fs, hr, h4, hp, _, hlen, hF⟩ := serializeValue_ok hT.context (by rw [hal]; decide)
    (writes_context T c hc) (resolveContext_matches hT) h
  refine ⟨rootAt_ok hlen (Nat.dvd_add (Nat.dvd_trans (by rw [hal]; decide) hb) h4), hp, fun rest mt mr ms => ?_⟩
  obtain ⟨hw, hat⟩ := hF (b' ++ rest) (List.prefix_append _ _)
  generalize b' ++ rest = F at hw hat
  simp only [resolveContext, bind, Option.bind_eq_some_iff, pure, Option.some.injEq] at hr
  obtain ⟨t, e1, r, e2, s, e3, te, e4, re, e5, se, e6, tm, e7, rm, e8, sm, e9, rfl⟩ := hr
  have small : c.maxSoa * 4 < 2 ^ 32 := by
    obtain ⟨_, q, hq, _⟩ := vecAt_length hT.vec e1
    obtain ⟨_, _, _, hlo⟩ := relPtr_some hq
    have h1 := hw.t.before
    rw [show (interp3 T.endian).size = 128 from rfl, ht.values] at h1
    omega
  have vec := fun {name : String} (hn : FieldSpec.mk name T.vec.size 4 ∈ (_ : List FieldSpec)) {τ : Type} {p : Pod τ}
    {xs : List τ} {start : Nat} {bs : Buf} (hp : PodOk p xs) (hs : SliceOk p xs start F pos)
    (hv : vecAt T (pos + T.context.off name) xs.length start = some bs)
    hm => readVec_field (base := base) hT hT.context hat hn hp hs hv hm hb h4
  have num := fun {name : String} (hn : FieldSpec.mk name 4 4 ∈ (_ : List FieldSpec)) (x : Nat) (hx : x < 2 ^ 32) hm =>
    readAt_field (base := base) (p := uint T.endian 4) hT.context hat hn (faithful_uint T.endian 4 x hx)
      (by show 0 < 4; decide) (by show 4 ∣ 16; decide) hm hb h4
  have n1 := num (name := "max_tracks") (by simp) (c.maxSoa * 4) small (by simp)
  have n2 := num (name := "translation_next") (by simp) c.translations.next hc.translations.next (by simp)
  have n3 := num (name := "rotation_next") (by simp) c.rotations.next hc.rotations.next (by simp)
  have n4 := num (name := "scale_next") (by simp) c.scales.next hc.scales.next (by simp)
  have n5 := readAt_field (base := base) (p := uint T.endian 8) (name := "animation_id") hT.context hat (by simp [uint])
    (faithful_uint T.endian 8 c.animationId hc.animationId) (by show 0 < 8; decide) (by show 8 ∣ 16; decide) (by simp) hb h4
  have n6 := readAt_field (base := base) (p := u32 T.endian) (name := "ratio") hT.context hat (by simp [u32, reprU32])
    (faithful_u32 T.endian (Serde.bitsOf c.ratio)) (by show 0 < 4; decide) (by show 4 ∣ 16; decide) (by simp) hb h4
  have v1 := vec (name := "translations") (by simp) (podOk_interp3 T.endian _) hw.t e1 (by simp)
  have v2 := vec (name := "rotations") (by simp) (podOk_interpQ T.endian _) hw.r e2 (by simp)
  have v3 := vec (name := "scales") (by simp) (podOk_interp3 T.endian _) hw.s e3 (by simp)
  have v4 := vec (name := "translation_entries") (by simp) (podOk_uint4 T.endian _ hc.translations.entries) hw.te e4 (by simp)
  have v5 := vec (name := "rotation_entries") (by simp) (podOk_uint4 T.endian _ hc.rotations.entries) hw.re e5 (by simp)
  have v6 := vec (name := "scale_entries") (by simp) (podOk_uint4 T.endian _ hc.scales.entries) hw.se e6 (by simp)
  have v7 := vec (name := "translation_outdated") (by simp) (podOk_mask T.endian _) hw.tm e7 (by simp)
  have v8 := vec (name := "rotation_outdated") (by simp) (podOk_mask T.endian _) hw.rm e8 (by simp)
  have v9 := vec (name := "scale_outdated") (by simp) (podOk_mask T.endian _) hw.sm e9 (by simp)
  have key := setFields_rkyv ht hr' hs mt mr ms
  simp only [deserializeContext, bind, Option.bind, n1, n2, n3, n4, n5, n6, v1, v2, v3, v4, v5, v6, v7, v8, v9, pure,
    Serde.ofBits_bitsOf, key]

theorem archiveContext_some {T : Target} (hT : TargetOk T) {c : Serde.Ctx} (hc : ContextFits c) {b : Buf}
    (hs : b.length + contextBytes c + 159 + T.context.size + T.vec.size < 2 ^ 31) :
    ∃ out, archiveContext T c b = some out := by
  have hal := context_align hT
  refine serializeValue_ne_none (k := 2 ^ 31 - 1 - T.context.size - T.vec.size) (by rw [hal]; decide)
    (writes_context T c hc) ?_ (by rw [hal]; omega)
  intro pos q F hw hpos
  have h1 := hT.vec.inside ⟨"ptr", 4, 4⟩ (by simp)
  have hin := hT.context.inside
  simp only [List.mem_cons, List.not_mem_nil, or_false, forall_eq_or_imp, forall_eq] at hin h1
  have vec := fun {name : String} (hn : T.context.off name ≤ T.context.size) {τ : Type} {p : Pod τ} {xs : List τ}
    {start : Nat} (h : SliceOk p xs start F pos) =>
    Option.ne_none_iff_exists'.1 (vecAt_ne_none (T := T) (pos := pos + T.context.off name) (len := xs.length) (target := start)
      (by omega) (by have := h.before; omega))
  obtain ⟨_, e1⟩ := vec (name := "translations") (by omega) hw.t
  obtain ⟨_, e2⟩ := vec (name := "rotations") (by omega) hw.r
  obtain ⟨_, e3⟩ := vec (name := "scales") (by omega) hw.s
  obtain ⟨_, e4⟩ := vec (name := "translation_entries") (by omega) hw.te
  obtain ⟨_, e5⟩ := vec (name := "rotation_entries") (by omega) hw.re
  obtain ⟨_, e6⟩ := vec (name := "scale_entries") (by omega) hw.se
  obtain ⟨_, e7⟩ := vec (name := "translation_outdated") (by omega) hw.tm
  obtain ⟨_, e8⟩ := vec (name := "rotation_outdated") (by omega) hw.rm
  obtain ⟨_, e9⟩ := vec (name := "scale_outdated") (by omega) hw.sm
  simp only [resolveContext, bind, Option.bind, e1, e2, e3, e4, e5, e6, e7, e8, e9, pure]
  simp

/-! ### The check -/

theorem serSlice_length {τ : Type} {p : Pod τ} {xs : List τ} (h : PodOk p xs) {b : Buf} (hb : p.align ∣ b.length) :
    (serSlice p xs b).2.length = b.length + xs.length * p.size := by
  have : (p.align - b.length % p.align) % p.align = 0 := by
    rw [Nat.mod_eq_zero_of_dvd hb, Nat.sub_zero, Nat.mod_self]
  simp only [serSlice, padTo, this, List.replicate_zero, List.append_nil, List.length_append,
    flatMap_length _ xs h.faithful]

/-- Where the archived context lies. -/
theorem context_pos {T : Target} (hT : TargetOk T) {c : Serde.Ctx} (hc : ContextFits c)
    (ht : Sized c.maxSoa c.translations) (hr : Sized c.maxSoa c.rotations) (hs : Sized c.maxSoa c.scales) {b b' : Buf}
    {pos : Nat} (h : archiveContext T c b = some (pos, b')) (hb : 16 ∣ b.length) :
    pos = b.length + 464 * c.maxSoa + (3 * ((c.maxSoa + 7) / 8) + 7) / 8 * 8 := by
  have hal := context_align hT
  have hpos : pos = (padTo 8 (serializeContext T c b).2).length := by
    rw [archiveContext, show serializeValue T.context (serializeContext T c) (resolveContext T c) b =
      (resolveContext T c (padTo T.context.align (serializeContext T c b).2).length (serializeContext T c b).1).map
      fun fs => ((padTo T.context.align (serializeContext T c b).2).length,
        padTo T.context.align (serializeContext T c b).2 ++ resolveStruct T.context fs) from rfl, hal] at h
    obtain ⟨fs, _, he⟩ := Option.map_eq_some_iff.1 h
    simp only [Prod.mk.injEq] at he
    exact he.1.symm
  have hlen : (serializeContext T c b).2.length = b.length + 464 * c.maxSoa + 3 * ((c.maxSoa + 7) / 8) := by
    have l0 : (padTo 16 b).length = b.length := by
      have : (16 - b.length % 16) % 16 = 0 := by rw [Nat.mod_eq_zero_of_dvd hb]
      simp only [padTo, this, List.replicate_zero, List.append_nil]
    generalize hb0 : padTo 16 b = b0 at l0
    have l1 := serSlice_length (podOk_interp3 T.endian c.translations.values) (b := b0) (by
      show 16 ∣ _; omega)
    generalize hb1 : (serSlice (interp3 T.endian) c.translations.values b0).2 = b1 at l1
    rw [show (interp3 T.endian).size = 128 from rfl, ht.values] at l1
    have l2 := serSlice_length (podOk_interpQ T.endian c.rotations.values) (b := b1) (by
      show 16 ∣ _; omega)
    generalize hb2 : (serSlice (interpQ T.endian) c.rotations.values b1).2 = b2 at l2
    rw [show (interpQ T.endian).size = 160 from rfl, hr.values] at l2
    have l3 := serSlice_length (podOk_interp3 T.endian c.scales.values) (b := b2) (by
      show 16 ∣ _; omega)
    generalize hb3 : (serSlice (interp3 T.endian) c.scales.values b2).2 = b3 at l3
    rw [show (interp3 T.endian).size = 128 from rfl, hs.values] at l3
    have l4 := serSlice_length (podOk_uint4 T.endian c.translations.entries hc.translations.entries) (b := b3) (by
      show 4 ∣ _; omega)
    generalize hb4 : (serSlice (uint T.endian 4) c.translations.entries b3).2 = b4 at l4
    rw [show (uint T.endian 4).size = 4 from rfl, ht.entries] at l4
    have l5 := serSlice_length (podOk_uint4 T.endian c.rotations.entries hc.rotations.entries) (b := b4) (by
      show 4 ∣ _; omega)
    generalize hb5 : (serSlice (uint T.endian 4) c.rotations.entries b4).2 = b5 at l5
    rw [show (uint T.endian 4).size = 4 from rfl, hr.entries] at l5
    have l6 := serSlice_length (podOk_uint4 T.endian c.scales.entries hc.scales.entries) (b := b5) (by
      show 4 ∣ _; omega)
    generalize hb6 : (serSlice (uint T.endian 4) c.scales.entries b5).2 = b6 at l6
    rw [show (uint T.endian 4).size = 4 from rfl, hs.entries] at l6
    have l7 := serSlice_length (podOk_mask T.endian c.translations.outdated) (b := b6) (Nat.one_dvd _)
    generalize hb7 : (serSlice (mask T.endian) c.translations.outdated b6).2 = b7 at l7
    rw [show (mask T.endian).size = 1 from rfl, ht.outdated] at l7
    have l8 := serSlice_length (podOk_mask T.endian c.rotations.outdated) (b := b7) (Nat.one_dvd _)
    generalize hb8 : (serSlice (mask T.endian) c.rotations.outdated b7).2 = b8 at l8
    rw [show (mask T.endian).size = 1 from rfl, hr.outdated] at l8
    have l9 := serSlice_length (podOk_mask T.endian c.scales.outdated) (b := b8) (Nat.one_dvd _)
    rw [show (mask T.endian).size = 1 from rfl, hs.outdated] at l9
    have : (serializeContext T c b).2 = (serSlice (mask T.endian) c.scales.outdated b8).2 := by
      subst hb8 hb7 hb6 hb5 hb4 hb3 hb2 hb1 hb0
      rfl
    rw [this]
    omega
  obtain ⟨p1, p2, p3⟩ := padTo_length 8 (serializeContext T c b).2 (by decide)
  rw [← hpos] at p1 p2 p3
  omega

/-- A buffer of 0xFF. -/
theorem ones_read {e : Endian} {base pos n : Nat} (hp : pos + 4 ≤ n) (ha : 4 ∣ base + pos) :
    readAt (u32 e) base (List.replicate n 255) pos = some 0xFFFFFFFF := by
  rw [readAt, if_pos ⟨Nat.mod_eq_zero_of_dvd ha, by rw [List.length_replicate]; exact hp⟩]
  rw [List.drop_replicate, List.take_replicate, show min (u32 e).size (n - pos) = 4 by
    show min 4 (n - pos) = 4; omega]
  cases e <;> decide

theorem garbage_vec {T : Target} (hT : TargetOk T) {τ : Type} {p : Pod τ} (hp : 2 ∣ p.align) {base pos n : Nat}
    (hn : pos + T.vec.size ≤ n) (hb : 16 ∣ base) (h4 : 4 ∣ pos) :
    readVec T p base (List.replicate n 255) pos = none := by
  have i1 := hT.vec.inside ⟨"ptr", 4, 4⟩ (by simp)
  have i2 := hT.vec.inside ⟨"len", 4, 4⟩ (by simp)
  have a1 := hT.vec.aligned ⟨"ptr", 4, 4⟩ (by simp)
  have a2 := hT.vec.aligned ⟨"len", 4, 4⟩ (by simp)
  simp only at i1 i2 a1 a2
  have r1 := ones_read (e := T.endian) (base := base) (pos := pos + T.vec.off "ptr") (n := n) (by omega) (by omega)
  have r2 := ones_read (e := T.endian) (base := base) (pos := pos + T.vec.off "len") (n := n) (by omega) (by omega)
  simp only [readVec, readPtr, bind, Option.bind, r1, r2]
  rw [show (0xFFFFFFFF : UInt32).toBitVec.toInt = -1 by decide]
  by_cases h0 : ((pos + T.vec.off "ptr" : Nat) : Int) + -1 < 0
  · rw [if_pos h0]
  · rw [if_neg h0]
    simp only
    rw [if_neg]
    intro hm
    have := Nat.dvd_trans hp (Nat.dvd_of_mod_eq_zero hm)
    omega

end Ozz.Rkyv
