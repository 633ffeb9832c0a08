import Verif.Proofs.Rkyv

/-! Archived animations. -/

namespace Ozz.Rkyv

open Spec

theorem podOk_u8 (e : Endian) (xs : List UInt8) : PodOk (u8 e) xs :=
  ⟨fun x _ => faithful_u8 e x, by show 0 < 1; decide, by show 0 < 1; decide, by show 1 ∣ 1; decide, by show 1 ∣ 16; decide⟩
theorem podOk_u16 (e : Endian) (xs : List UInt16) : PodOk (u16 e) xs :=
  ⟨fun x _ => faithful_u16 e x, by show 0 < 2; decide, by show 0 < 2; decide, by show 2 ∣ 2; decide, by show 2 ∣ 16; decide⟩
theorem podOk_u32 (e : Endian) (xs : List UInt32) : PodOk (u32 e) xs :=
  ⟨fun x _ => faithful_u32 e x, by show 0 < 4; decide, by show 0 < 4; decide, by show 4 ∣ 4; decide, by show 4 ∣ 16; decide⟩
theorem podOk_key (e : Endian) (xs : List (List UInt16)) (h : ∀ x ∈ xs, x.length = 3) : PodOk (key e) xs :=
  ⟨fun x hx => faithful_array _ _ _ (h x hx) fun y _ => faithful_u16 e y,
    by show 0 < 3 * 2; decide, by show 0 < 2; decide, by show 2 ∣ 3 * 2; decide, by show 2 ∣ 16; decide⟩

/-- What is known of a channel that was written. -/
structure ChannelWritten (T : Target) (c : ChannelData) (r : ChannelResolver) (F : Buf) (p : Nat) : Prop where
  keys : SliceOk (key T.endian) c.keys r.keys F p
  ratios : SliceOk (u16 T.endian) c.ratios r.ratios F p
  previouses : SliceOk (u16 T.endian) c.previouses r.previouses F p
  entries : SliceOk (u8 T.endian) c.iframeEntries r.entries F p
  desc : SliceOk (u32 T.endian) c.iframeDesc r.desc F p

theorem writes_channel (T : Target) (c : ChannelData) (h : ∀ x ∈ c.keys, x.length = 3) :
    Writes (serializeChannel T c) (channelBytes c + 75) (ChannelWritten T c) := by
  refine Writes.mono (Writes.bind (writes_slice (podOk_key T.endian c.keys h)) fun keys =>
    Writes.bind (writes_slice (podOk_u16 T.endian c.ratios)) fun ratios =>
    Writes.bind (writes_slice (podOk_u16 T.endian c.previouses)) fun previouses =>
    Writes.bind (writes_slice (podOk_u8 T.endian c.iframeEntries)) fun entries =>
    Writes.bind (writes_slice (podOk_u32 T.endian c.iframeDesc)) fun desc => Writes.pure _) ?_ ?_
  · show c.keys.length * (3 * 2) + 15 + (c.ratios.length * 2 + 15 + (c.previouses.length * 2 + 15 +
      (c.iframeEntries.length * 1 + 15 + (c.iframeDesc.length * 4 + 15 + 0)))) ≤ channelBytes c + 75
    simp only [channelBytes]; omega
  · rintro r F p ⟨k, hk, a, ha, b, hb, e, he, d, hd, rfl⟩
    exact ⟨hk, ha, hb, he, hd⟩

/-- What is known of an animation that was written. -/
structure AnimationWritten (T : Target) (a : AnimationData) (q : AnimationResolver) (F : Buf) (p : Nat) : Prop where
  name : StrWritten T.str a.name q.name F p
  timepoints : SliceOk (u32 T.endian) a.timepoints q.timepoints F p
  trans : ChannelWritten T a.t q.t F p
  rot : ChannelWritten T a.r q.r F p
  scale : ChannelWritten T a.s q.s F p

/-- Every key has three components, as `[u16; 3]` has. -/
structure KeysOk (a : AnimationData) : Prop where
  t : ∀ x ∈ a.t.keys, x.length = 3
  r : ∀ x ∈ a.r.keys, x.length = 3
  s : ∀ x ∈ a.s.keys, x.length = 3

theorem writes_animation (T : Target) (hT : TargetOk T) (a : AnimationData) (hk : KeysOk a) :
    Writes (serializeAnimation T a) (animationBytes a + 240) (AnimationWritten T a) := by
  refine Writes.mono (Writes.bind (writes_str hT.str a.name) fun name =>
    Writes.bind (writes_slice (podOk_u32 T.endian a.timepoints)) fun timepoints =>
    Writes.bind (writes_channel T a.t hk.t) fun t => Writes.bind (writes_channel T a.r hk.r) fun r =>
    Writes.bind (writes_channel T a.s hk.s) fun s => Writes.pure _) ?_ ?_
  · show a.name.length + (a.timepoints.length * 4 + 15 + (channelBytes a.t + 75 + (channelBytes a.r + 75 +
      (channelBytes a.s + 75 + 0)))) ≤ animationBytes a + 240
    simp only [animationBytes]; omega
  · rintro r F p ⟨n, hn, tp, htp, t, ht, r', hr', s, hs, rfl⟩
    exact ⟨hn, htp, ht, hr', hs⟩

theorem animation_align {T : Target} (hT : TargetOk T) : T.animation.align = 4 := by
  obtain ⟨f, hf, h⟩ := hT.animation.strictest
  rw [h]
  simp only [List.mem_cons, List.not_mem_nil, or_false] at hf
  rcases hf with rfl | rfl | rfl | rfl | rfl | rfl | rfl | rfl | rfl | rfl | rfl | rfl | rfl | rfl | rfl | rfl | rfl |
    rfl | rfl | rfl | rfl | rfl <;> rfl

theorem resolveAnimation_matches {T : Target} (hT : TargetOk T) {a : AnimationData} (pos : Nat) (r : AnimationResolver)
    (fs : List (String × Buf)) (h : resolveAnimation T a pos r = some fs) :
    Matches fs
    [⟨"duration", 4, 4⟩, ⟨"num_tracks", 4, 4⟩, ⟨"name", T.str.size, 4⟩, ⟨"timepoints", T.vec.size, 4⟩,
     ⟨"translations", T.vec.size, 4⟩, ⟨"t_ratios", T.vec.size, 4⟩, ⟨"t_previouses", T.vec.size, 4⟩,
     ⟨"t_iframe_interval", 4, 4⟩, ⟨"t_iframe_entries", T.vec.size, 4⟩, ⟨"t_iframe_desc", T.vec.size, 4⟩,
     ⟨"rotations", T.vec.size, 4⟩, ⟨"r_ratios", T.vec.size, 4⟩, ⟨"r_previouses", T.vec.size, 4⟩,
     ⟨"r_iframe_interval", 4, 4⟩, ⟨"r_iframe_entries", T.vec.size, 4⟩, ⟨"r_iframe_desc", T.vec.size, 4⟩,
     ⟨"scales", T.vec.size, 4⟩, ⟨"s_ratios", T.vec.size, 4⟩, ⟨"s_previouses", T.vec.size, 4⟩,
     ⟨"s_iframe_interval", 4, 4⟩, ⟨"s_iframe_entries", T.vec.size, 4⟩, ⟨"s_iframe_desc", T.vec.size, 4⟩] := by
  simp only [resolveAnimation, bind, Option.bind_eq_some_iff, pure, Option.some.injEq] at h
  obtain ⟨n, hn, tp, htp, t1, ht1, t2, ht2, t3, ht3, t4, ht4, t5, ht5, r1, hr1, r2, hr2, r3, hr3, r4, hr4, r5, hr5,
    s1, hs1, s2, hs2, s3, hs3, s4, hs4, s5, hs5, rfl⟩ := h
  have v := fun {pos len target : Nat} {bs : Buf} (h : vecAt T pos len target = some bs) => (vecAt_length hT.vec h).1
  refine ⟨by simp only [List.map_cons, List.map_nil]; decide +kernel, ?_⟩
  simp only [List.mem_cons, List.not_mem_nil, or_false, forall_eq_or_imp, forall_eq]
  refine ⟨⟨⟨"duration", 4, 4⟩, by simp, rfl, nativeBytes_length ..⟩, ⟨⟨"num_tracks", 4, 4⟩, by simp, rfl, nativeBytes_length ..⟩,
    ⟨⟨"name", T.str.size, 4⟩, by simp, rfl, hT.str.length _ _ _ _ hn⟩, ⟨⟨"timepoints", T.vec.size, 4⟩, by simp, rfl, v htp⟩,
    ⟨⟨"translations", T.vec.size, 4⟩, by simp, rfl, v ht1⟩, ⟨⟨"t_ratios", T.vec.size, 4⟩, by simp, rfl, v ht2⟩,
    ⟨⟨"t_previouses", T.vec.size, 4⟩, by simp, rfl, v ht3⟩, ⟨⟨"t_iframe_interval", 4, 4⟩, by simp, rfl, nativeBytes_length ..⟩,
    ⟨⟨"t_iframe_entries", T.vec.size, 4⟩, by simp, rfl, v ht4⟩, ⟨⟨"t_iframe_desc", T.vec.size, 4⟩, by simp, rfl, v ht5⟩,
    ⟨⟨"rotations", T.vec.size, 4⟩, by simp, rfl, v hr1⟩, ⟨⟨"r_ratios", T.vec.size, 4⟩, by simp, rfl, v hr2⟩,
    ⟨⟨"r_previouses", T.vec.size, 4⟩, by simp, rfl, v hr3⟩, ⟨⟨"r_iframe_interval", 4, 4⟩, by simp, rfl, nativeBytes_length ..⟩,
    ⟨⟨"r_iframe_entries", T.vec.size, 4⟩, by simp, rfl, v hr4⟩, ⟨⟨"r_iframe_desc", T.vec.size, 4⟩, by simp, rfl, v hr5⟩,
    ⟨⟨"scales", T.vec.size, 4⟩, by simp, rfl, v hs1⟩, ⟨⟨"s_ratios", T.vec.size, 4⟩, by simp, rfl, v hs2⟩,
    ⟨⟨"s_previouses", T.vec.size, 4⟩, by simp, rfl, v hs3⟩, ⟨⟨"s_iframe_interval", 4, 4⟩, by simp, rfl, nativeBytes_length ..⟩,
    ⟨⟨"s_iframe_entries", T.vec.size, 4⟩, by simp, rfl, v hs4⟩, ⟨⟨"s_iframe_desc", T.vec.size, 4⟩, by simp, rfl, v hs5⟩⟩

/-- What an archived animation reads as. -/
theorem readAnimation_ok {T : Target} (hT : TargetOk T) {a : AnimationData} (hk : KeysOk a) {b b' : Buf} {pos : Nat}
    (h : archiveAnimation T a b = some (pos, b')) {base : Nat} (hb : 16 ∣ base) :
    rootAt T.animation base b' = some pos ∧ b <+: b' ∧ ∀ rest, readAnimation T base (b' ++ rest) pos = some a := by
  have hal := animation_align hT
  obtain ⟨q, fs, hr, h4, hp, _, hlen, hF⟩ := serializeValue_ok hT.animation (by rw [hal]; decide)
    (writes_animation T hT a hk) (resolveAnimation_matches hT) h
  refine ⟨rootAt_ok hlen (Nat.dvd_add (Nat.dvd_trans (by rw [hal]; decide) hb) h4), hp, fun rest => ?_⟩
  obtain ⟨hw, hat⟩ := hF (b' ++ rest) (List.prefix_append _ _)
  generalize b' ++ rest = F at hw hat
  simp only [resolveAnimation, bind, Option.bind_eq_some_iff, pure, Option.some.injEq] at hr
  obtain ⟨n, hn, tp, htp, t1, ht1, t2, ht2, t3, ht3, t4, ht4, t5, ht5, r1, hr1, r2, hr2, r3, hr3, r4, hr4, r5, hr5,
    s1, hs1, s2, hs2, s3, hs3, s4, hs4, s5, hs5, rfl⟩ := hr
  have vec := fun {name : String} (hn : FieldSpec.mk name T.vec.size 4 ∈ (_ : List FieldSpec)) {τ : Type} {p : Pod τ} {xs : List τ} {start : Nat} {bs : Buf}
    (hp : PodOk p xs) (hs : SliceOk p xs start F pos) (hv : vecAt T (pos + T.animation.off name) xs.length start = some bs)
    hm => readVec_field (base := base) hT hT.animation hat hn hp hs hv hm hb h4
  have num := fun {name : String} (hn : FieldSpec.mk name 4 4 ∈ (_ : List FieldSpec)) (x : UInt32) hm =>
    readAt_field (base := base) (p := u32 T.endian) hT.animation hat hn (faithful_u32 T.endian x) (by show 0 < 4; decide)
      (by show 4 ∣ 16; decide) hm hb h4
  have vt1 := vec (name := "translations") (by simp) (podOk_key T.endian _ hk.t) hw.trans.keys ht1 (by simp)
  have vt2 := vec (name := "t_ratios") (by simp) (podOk_u16 T.endian _) hw.trans.ratios ht2 (by simp)
  have vt3 := vec (name := "t_previouses") (by simp) (podOk_u16 T.endian _) hw.trans.previouses ht3 (by simp)
  have vt4 := vec (name := "t_iframe_entries") (by simp) (podOk_u8 T.endian _) hw.trans.entries ht4 (by simp)
  have vt5 := vec (name := "t_iframe_desc") (by simp) (podOk_u32 T.endian _) hw.trans.desc ht5 (by simp)
  have vr1 := vec (name := "rotations") (by simp) (podOk_key T.endian _ hk.r) hw.rot.keys hr1 (by simp)
  have vr2 := vec (name := "r_ratios") (by simp) (podOk_u16 T.endian _) hw.rot.ratios hr2 (by simp)
  have vr3 := vec (name := "r_previouses") (by simp) (podOk_u16 T.endian _) hw.rot.previouses hr3 (by simp)
  have vr4 := vec (name := "r_iframe_entries") (by simp) (podOk_u8 T.endian _) hw.rot.entries hr4 (by simp)
  have vr5 := vec (name := "r_iframe_desc") (by simp) (podOk_u32 T.endian _) hw.rot.desc hr5 (by simp)
  have vs1 := vec (name := "scales") (by simp) (podOk_key T.endian _ hk.s) hw.scale.keys hs1 (by simp)
  have vs2 := vec (name := "s_ratios") (by simp) (podOk_u16 T.endian _) hw.scale.ratios hs2 (by simp)
  have vs3 := vec (name := "s_previouses") (by simp) (podOk_u16 T.endian _) hw.scale.previouses hs3 (by simp)
  have vs4 := vec (name := "s_iframe_entries") (by simp) (podOk_u8 T.endian _) hw.scale.entries hs4 (by simp)
  have vs5 := vec (name := "s_iframe_desc") (by simp) (podOk_u32 T.endian _) hw.scale.desc hs5 (by simp)
  have vtp := vec (name := "timepoints") (by simp) (podOk_u32 T.endian _) hw.timepoints htp (by simp)
  have n1 := num (name := "duration") (by simp) a.duration (by simp)
  have n2 := num (name := "num_tracks") (by simp) a.numTracks (by simp)
  have n3 := num (name := "t_iframe_interval") (by simp) a.t.iframeInterval (by simp)
  have n4 := num (name := "r_iframe_interval") (by simp) a.r.iframeInterval (by simp)
  have n5 := num (name := "s_iframe_interval") (by simp) a.s.iframeInterval (by simp)
  have sn := readStr_field (base := base) hT hT.animation hat (name := "name") (by simp) hw.name hn (by simp) hb h4
  simp only [readAnimation, bind, Option.bind, vt1, vt2, vt3, vt4, vt5, vr1, vr2, vr3, vr4, vr5, vs1, vs2, vs3, vs4, vs5,
    vtp, n1, n2, n3, n4, n5, sn, pure]

/-- Archiving does not panic as long as everything lies within 2 GiB. -/
theorem archiveAnimation_some {T : Target} (hT : TargetOk T) {a : AnimationData} (hk : KeysOk a) {b : Buf}
    (hs : b.length + animationBytes a + 244 + T.animation.size + T.vec.size < 2 ^ 31) :
    ∃ out, archiveAnimation T a b = some out := by
  have hal := animation_align hT
  refine serializeValue_ne_none (k := 2 ^ 31 - 1 - T.animation.size - T.vec.size) (by rw [hal]; decide)
    (writes_animation T hT a hk) ?_ (by rw [hal]; omega)
  intro pos q F hw hpos
  have h1 := hT.vec.inside ⟨"ptr", 4, 4⟩ (by simp)
  have hin := hT.animation.inside
  simp only [List.mem_cons, List.not_mem_nil, or_false, forall_eq_or_imp, forall_eq] at hin h1
  have bd := fun {τ : Type} {p : Pod τ} {xs : List τ} {start : Nat} (h : SliceOk p xs start F pos) =>
    (show start ≤ pos from Nat.le_trans (Nat.le_add_right _ _) h.before)
  have vec := fun {name : String} (hn : T.animation.off name ≤ T.animation.size) {τ : Type} {p : Pod τ} {xs : List τ}
    {start : Nat} (h : SliceOk p xs start F pos) =>
    Option.ne_none_iff_exists'.1 (vecAt_ne_none (T := T) (pos := pos + T.animation.off name) (len := xs.length) (target := start)
      (by omega) (by have := bd h; omega))
  have str := Option.ne_none_iff_exists'.1 ((hw.name (pos + T.animation.off "name") (by omega)).1 (by omega))
  obtain ⟨n, hn⟩ := str
  obtain ⟨tp, htp⟩ := vec (name := "timepoints") (by omega) hw.timepoints
  obtain ⟨t1, ht1⟩ := vec (name := "translations") (by omega) hw.trans.keys
  obtain ⟨t2, ht2⟩ := vec (name := "t_ratios") (by omega) hw.trans.ratios
  obtain ⟨t3, ht3⟩ := vec (name := "t_previouses") (by omega) hw.trans.previouses
  obtain ⟨t4, ht4⟩ := vec (name := "t_iframe_entries") (by omega) hw.trans.entries
  obtain ⟨t5, ht5⟩ := vec (name := "t_iframe_desc") (by omega) hw.trans.desc
  obtain ⟨r1, hr1⟩ := vec (name := "rotations") (by omega) hw.rot.keys
  obtain ⟨r2, hr2⟩ := vec (name := "r_ratios") (by omega) hw.rot.ratios
  obtain ⟨r3, hr3⟩ := vec (name := "r_previouses") (by omega) hw.rot.previouses
  obtain ⟨r4, hr4⟩ := vec (name := "r_iframe_entries") (by omega) hw.rot.entries
  obtain ⟨r5, hr5⟩ := vec (name := "r_iframe_desc") (by omega) hw.rot.desc
  obtain ⟨s1, hs1⟩ := vec (name := "scales") (by omega) hw.scale.keys
  obtain ⟨s2, hs2⟩ := vec (name := "s_ratios") (by omega) hw.scale.ratios
  obtain ⟨s3, hs3⟩ := vec (name := "s_previouses") (by omega) hw.scale.previouses
  obtain ⟨s4, hs4⟩ := vec (name := "s_iframe_entries") (by omega) hw.scale.entries
  obtain ⟨s5, hs5⟩ := vec (name := "s_iframe_desc") (by omega) hw.scale.desc
  simp only [resolveAnimation, bind, Option.bind, hn, htp, ht1, ht2, ht3, ht4, ht5, hr1, hr2, hr3, hr4, hr5, hs1, hs2,
    hs3, hs4, hs5, pure]
  simp

end Ozz.Rkyv
