import Verif.Proofs.Serde
import Mathlib.Tactic.FinCases
import Mathlib.Data.Fintype.Basic
import Mathlib.Data.List.Forall2
import Mathlib.Data.List.Nodup
import Verif.Proofs.Raw
import Verif.Proofs.SamplingHistory

/-! Round trips of animations, skeletons, tracks and sampling contexts through the serde formats. -/

namespace Ozz.Serde

open Spec Ozz.Layout

/-- The value of a field in a written struct. -/
macro "field_at" : tactic => `(tactic| first
  | (simp [getField, List.filter]; done)
  | (simp [getField, List.filter]; rfl))

/-! ### Animations -/

theorem rtj_key {k : List UInt16} (h : k.length = 3) : RTj (outKey k) deKey k :=
  rtj_array h fun x _ => rtj_u16 x

theorem rtb_key {k : List UInt16} (h : k.length = 3) : RTb (outKey k) deKey k :=
  rtb_array h fun x _ => rtb_u16 x

theorem rtj_u16s (xs : List UInt16) : RTj (.vec (fun x => .uint 2 x.toNat) xs) (.vec .u16) xs :=
  rtj_vec fun x _ => rtj_u16 x

theorem rtj_u8s (xs : List UInt8) : RTj (.vec (fun x => .uint 1 x.toNat) xs) (.vec .u8) xs :=
  rtj_vec fun x _ => rtj_u8 x

theorem rtj_u32s (xs : List UInt32) : RTj (.vec (fun x => .uint 4 x.toNat) xs) (.vec .u32) xs :=
  rtj_vec fun x _ => rtj_u32 x

theorem rtj_animation {a : AnimationData} (hw : RawWF a) (hf : AnimationFinite a) :
    RTj (outAnimation a) deAnimation a := by
  obtain ⟨f1, f2, f3, f4, f5⟩ := hf
  show (Fields.field "duration" De.f32 _).json _ = some a
  refine rtj_field (by field_at) (rtj_f32 f1) ?_
  refine rtj_field (by field_at) (rtj_u32 _) ?_
  refine rtj_field (by field_at) (rtj_str _) ?_
  refine rtj_field (by field_at) (rtj_vec fun x hx => rtj_f32 (f5 x hx)) ?_
  refine rtj_field (by field_at) (rtj_vec fun x hx => rtj_key (hw.t.keys x hx)) ?_
  refine rtj_field (by field_at) (rtj_u16s _) ?_
  refine rtj_field (by field_at) (rtj_u16s _) ?_
  refine rtj_field (by field_at) (rtj_f32 f2) ?_
  refine rtj_field (by field_at) (rtj_u8s _) ?_
  refine rtj_field (by field_at) (rtj_u32s _) ?_
  refine rtj_field (by field_at) (rtj_vec fun x hx => rtj_key (hw.r.keys x hx)) ?_
  refine rtj_field (by field_at) (rtj_u16s _) ?_
  refine rtj_field (by field_at) (rtj_u16s _) ?_
  refine rtj_field (by field_at) (rtj_f32 f3) ?_
  refine rtj_field (by field_at) (rtj_u8s _) ?_
  refine rtj_field (by field_at) (rtj_u32s _) ?_
  refine rtj_field (by field_at) (rtj_vec fun x hx => rtj_key (hw.s.keys x hx)) ?_
  refine rtj_field (by field_at) (rtj_u16s _) ?_
  refine rtj_field (by field_at) (rtj_u16s _) ?_
  refine rtj_field (by field_at) (rtj_f32 f4) ?_
  refine rtj_field (by field_at) (rtj_u8s _) ?_
  refine rtj_field (by field_at) (rtj_u32s _) ?_
  rfl

theorem rtb_animation {a : AnimationData} (hw : RawWF a) (hn : a.name.length < 2 ^ 64) :
    RTb (outAnimation a) deAnimation a := by
  have lt : ∀ n : Nat, n < 2 ^ 32 → n < 2 ^ 64 := fun n h => by omega
  have u16s : ∀ xs : List UInt16, xs.length < 2 ^ 32 →
      RTb (.vec (fun x => .uint 2 x.toNat) xs) (.vec .u16) xs :=
    fun xs h => rtb_vec (lt _ h) fun x _ => rtb_u16 x
  have u8s : ∀ xs : List UInt8, xs.length < 2 ^ 32 →
      RTb (.vec (fun x => .uint 1 x.toNat) xs) (.vec .u8) xs :=
    fun xs h => rtb_vec (lt _ h) fun x _ => rtb_u8 x
  have u32s : ∀ xs : List UInt32, xs.length < 2 ^ 32 →
      RTb (.vec (fun x => .uint 4 x.toNat) xs) (.vec .u32) xs :=
    fun xs h => rtb_vec (lt _ h) fun x _ => rtb_u32 x
  have keys : ∀ xs : List (List UInt16), xs.length < 2 ^ 32 → (∀ k ∈ xs, k.length = 3) →
      RTb (.vec outKey xs) (.vec deKey) xs :=
    fun xs h h3 => rtb_vec (lt _ h) fun x hx => rtb_key (h3 x hx)
  have ht := hw.t; have hr := hw.r; have hs := hw.s
  refine rtb_struct ?_
  refine rtf_field (rtb_f32 _) ?_
  refine rtf_field (rtb_u32 _) ?_
  refine rtf_field (rtb_str hn) ?_
  refine rtf_field (rtb_vec (lt _ hw.timepoints) fun x _ => rtb_f32 x) ?_
  refine rtf_field (keys _ ht.keyCount ht.keys) ?_
  refine rtf_field (u16s _ (ht.ratios ▸ ht.keyCount)) ?_
  refine rtf_field (u16s _ (ht.previouses ▸ ht.keyCount)) ?_
  refine rtf_field (rtb_f32 _) ?_
  refine rtf_field (u8s _ ht.entryCount) ?_
  refine rtf_field (u32s _ ht.descCount) ?_
  refine rtf_field (keys _ hr.keyCount hr.keys) ?_
  refine rtf_field (u16s _ (hr.ratios ▸ hr.keyCount)) ?_
  refine rtf_field (u16s _ (hr.previouses ▸ hr.keyCount)) ?_
  refine rtf_field (rtb_f32 _) ?_
  refine rtf_field (u8s _ hr.entryCount) ?_
  refine rtf_field (u32s _ hr.descCount) ?_
  refine rtf_field (keys _ hs.keyCount hs.keys) ?_
  refine rtf_field (u16s _ (hs.ratios ▸ hs.keyCount)) ?_
  refine rtf_field (u16s _ (hs.previouses ▸ hs.keyCount)) ?_
  refine rtf_field (rtb_f32 _) ?_
  refine rtf_field (u8s _ hs.entryCount) ?_
  refine rtf_field (u32s _ hs.descCount) ?_
  exact rtf_done _

/-! ### Skeletons -/

theorem allEntries_map {f : Int → Json} {g : Json → Option Int} :
    ∀ es : List (List UInt8 × Int), (∀ e ∈ es, g (f e.2) = some e.2) →
      allEntries g (es.map fun e => (e.1, f e.2)) = some es
  | [], _ => rfl
  | e :: es, h => by
    simp [allEntries, h e (by simp), allEntries_map es fun y hy => h y (by simp [hy])]

/-- Inserting pairs that share nothing keeps them all. -/
theorem foldl_insert : ∀ (es acc : JointNames), OneToOne (es ++ acc) →
    es.foldl (fun m e => m.insert e.1 e.2) acc = es.reverse ++ acc
  | [], _, _ => rfl
  | e :: es, acc, h => by
    have hins : JointNames.insert acc e.1 e.2 = e :: acc := by
      simp only [JointNames.insert]
      congr 1
      rw [List.filter_eq_self]
      intro p hp
      have h1 := (List.nodup_cons.1 h.1).1
      have h2 := (List.nodup_cons.1 h.2).1
      have hm : p ∈ es ++ acc := List.mem_append_right _ hp
      have a1 : p.1 ≠ e.1 := fun hh => h1 (List.mem_map.2 ⟨p, hm, hh⟩)
      have a2 : p.2 ≠ e.2 := fun hh => h2 (List.mem_map.2 ⟨p, hm, hh⟩)
      simp [a1, a2]
    have h' : OneToOne (es ++ e :: acc) := by
      have p1 : (es ++ e :: acc).Perm (e :: es ++ acc) := by
        simp
      exact ⟨(p1.map _).nodup_iff.2 h.1, (p1.map _).nodup_iff.2 h.2⟩
    simp only [List.foldl_cons, hins]
    rw [foldl_insert es (e :: acc) h']
    simp

theorem oneToOne_perm {m m' : JointNames} (h : OneToOne m) (p : m.Perm m') : OneToOne m' :=
  ⟨(p.map _).nodup_iff.1 h.1, (p.map _).nodup_iff.1 h.2⟩

theorem find?_perm {m m' : JointNames} (p : m.Perm m') (q : List UInt8 × Int → Bool)
    (hu : ∀ a ∈ m, ∀ b ∈ m, q a = true → q b = true → a = b) : m.find? q = m'.find? q := by
  cases h : m.find? q with
  | none =>
    rw [List.find?_eq_none] at h
    symm; rw [List.find?_eq_none]
    exact fun x hx => h x (p.mem_iff.2 hx)
  | some a =>
    have ha := List.find?_some h
    have hm := List.mem_of_find?_eq_some h
    cases h' : m'.find? q with
    | none =>
      rw [List.find?_eq_none] at h'
      exact absurd ha (h' a (p.mem_iff.1 hm))
    | some b =>
      rw [hu a hm b (p.mem_iff.2 (List.mem_of_find?_eq_some h')) ha (List.find?_some h')]

/-- Pairs in another order answer every question the same way. -/
theorem lookup_perm {m m' : JointNames} (h : OneToOne m) (p : m.Perm m') :
    (∀ n, jointByName m n = jointByName m' n) ∧ ∀ i, nameByJoint m i = nameByJoint m' i := by
  have inj : ∀ {β : Type} (f : List UInt8 × Int → β), (m.map f).Nodup →
      ∀ a ∈ m, ∀ b ∈ m, f a = f b → a = b := by
    intro β f hn a ha b hb hab
    exact List.inj_on_of_nodup_map hn ha hb hab
  constructor
  · intro n
    simp only [jointByName]
    rw [find?_perm p]
    intro a ha b hb h1 h2
    exact inj (·.1) h.1 a ha b hb (by simp at h1 h2; simp [h1, h2])
  · intro i
    simp only [nameByJoint]
    rw [find?_perm p]
    intro a ha b hb h1 h2
    exact inj (·.2) h.2 a ha b hb (by simp at h1 h2; simp [h1, h2])

theorem rtj_names {order : JointNames} (h : OneToOne order)
    (hi : ∀ p ∈ order, -32768 ≤ p.2 ∧ p.2 ≤ 32767) :
    RTj (.dict (some order.length) (order.map fun p => (p.1, .i16 p.2))) deNames order.reverse := by
  have h1 := allEntries_map (f := fun i => (Out.i16 i).json) (g := De.i16.json) order
    fun e he => rtj_i16 (hi e he)
  have h2 := foldl_insert order [] (by simpa using h)
  simp only [RTj, deNames, De.map, De.entries, Out.dict, List.map_map, Function.comp_def, h1,
    Option.map_some, h2, List.append_nil]

theorem rtb_names {order : JointNames} (h : OneToOne order) (hl : order.length < 2 ^ 64)
    (hn : ∀ p ∈ order, p.1.length < 2 ^ 64) (hi : ∀ p ∈ order, -32768 ≤ p.2 ∧ p.2 ≤ 32767) :
    RTb (.dict (some order.length) (order.map fun p => (p.1, .i16 p.2))) deNames order.reverse := by
  obtain ⟨bs, h1, h2⟩ := manyBin_map
    (f := fun p : List UInt8 × Int => catBins [some (leBytes 8 p.1.length ++ p.1), (Out.i16 p.2).bin])
    (g := fun bs => do
      let (k, bs) ← De.str.bin bs
      let (v, bs) ← De.i16.bin bs
      return ((k, v), bs)) (e := id) order (by
    intro p hp
    obtain ⟨b, e1, e2⟩ := rtb_str (hn p hp)
    obtain ⟨c, e3, e4⟩ := rtb_i16 (hi p hp)
    cases e1
    refine ⟨_, by simp only [catBins, e3, bind, Option.bind, pure]; rfl, fun rest => ?_⟩
    have e5 := e2 (c ++ rest)
    simp only [List.append_assoc, List.append_nil] at e5 ⊢
    simp [e5, e4])
  have h3 := foldl_insert order [] (by simpa using h)
  refine ⟨leBytes 8 order.length ++ bs, ?_, fun rest => ?_⟩
  · simp only [Out.dict, List.map_map, Function.comp_def, h1, Option.map_some]
  · simp only [deNames, De.map, De.entries, List.append_assoc, takeBytes_le, leValue_leBytes,
      Nat.mod_eq_of_lt (show order.length < 256 ^ 8 by omega), bind, Option.bind]
    have h2 := h2 rest
    simp only [bind, Option.bind, List.map_id] at h2
    rw [h2]
    simp only [Option.map_some, h3, List.append_nil]

theorem rtj_skeleton {s : SkeletonRaw} {order : JointNames} (hs : SkeletonShape s)
    (hf : ∀ p ∈ s.jointRestPoses, ∀ x ∈ p, FiniteBits x) (h : OneToOne s.jointNames)
    (hp : s.jointNames.Perm order) :
    RTj (outSkeleton s order) deSkeleton { s with jointNames := order.reverse } := by
  show (Fields.field "joint_rest_poses" _ _).json _ = some _
  refine rtj_field (by field_at)
    (rtj_vec fun x hx => rtj_transform (hs.poses x hx) (hf x hx)) ?_
  refine rtj_field (by field_at) (rtj_vec fun x hx => rtj_i16 (hs.parents x hx)) ?_
  refine rtj_field (by field_at)
    (rtj_names (oneToOne_perm h hp) fun p hm => hs.indices p (hp.mem_iff.2 hm)) ?_
  rfl

/-! ### Tracks -/

theorem rtj_value {k : TrackKind} {v : List UInt32} (h : v.length = k.arity)
    (hf : ∀ x ∈ v, FiniteBits x) : RTj (outValue k v) (deValue k) v := by
  cases k with
  | float =>
    match v, h with
    | [x], _ => exact rtj_map (fun x => [x]) (rtj_f32 (hf x (by simp)))
  | float2 => exact rtj_array h fun x hx => rtj_f32 (hf x hx)
  | float3 => exact rtj_array h fun x hx => rtj_f32 (hf x hx)
  | float4 => exact rtj_array h fun x hx => rtj_f32 (hf x hx)
  | quat => exact rtj_array h fun x hx => rtj_f32 (hf x hx)

theorem rtb_value {k : TrackKind} {v : List UInt32} (h : v.length = k.arity) :
    RTb (outValue k v) (deValue k) v := by
  cases k with
  | float =>
    match v, h with
    | [x], _ => exact rtb_map (fun x => [x]) (rtb_f32 x)
  | float2 => exact rtb_array h fun x _ => rtb_f32 x
  | float3 => exact rtb_array h fun x _ => rtb_f32 x
  | float4 => exact rtb_array h fun x _ => rtb_f32 x
  | quat => exact rtb_array h fun x _ => rtb_f32 x

theorem rtj_track {k : TrackKind} {t : Track UInt32 (List UInt32)} (hs : TrackShape k t)
    (hf : TrackFinite t) : RTj (outTrack k t) (deTrack k) t := by
  show (Fields.field "key_count" _ _).json _ = some _
  refine rtj_field (by field_at) (rtj_uint (w := 4) hs.keyCount) ?_
  refine rtj_field (by field_at) (rtj_vec fun x hx => rtj_f32 (hf.1 x hx)) ?_
  refine rtj_field (by field_at)
    (rtj_vec fun x hx => rtj_value (hs.values x hx) (hf.2 x hx)) ?_
  refine rtj_field (by field_at) (rtj_u8s _) ?_
  refine rtj_field (by field_at) (rtj_str _) ?_
  rfl

theorem rtb_track {k : TrackKind} {t : Track UInt32 (List UInt32)} (hs : TrackShape k t)
    (h1 : t.ratios.length < 2 ^ 64) (h2 : t.values.length < 2 ^ 64) (h3 : t.steps.length < 2 ^ 64)
    (h4 : t.name.length < 2 ^ 64) : RTb (outTrack k t) (deTrack k) t := by
  refine rtb_struct ?_
  refine rtf_field (rtb_uint (w := 4) hs.keyCount) ?_
  refine rtf_field (rtb_vec h1 fun x _ => rtb_f32 x) ?_
  refine rtf_field (rtb_vec h2 fun x hx => rtb_value (hs.values x hx)) ?_
  refine rtf_field (rtb_vec h3 fun x _ => rtb_u8 x) ?_
  refine rtf_field (rtb_str h4) ?_
  exact rtf_done _

/-! ### Contexts -/

open Sampling (Interp Context)

theorem finite_bitsOf {x : F32} (h : x.isFinite = true) : FiniteBits (bitsOf x) := by
  rw [← finiteBits_iff]
  simp only [F32.isFinite, F32.low] at h
  exact h

theorem ofBits_bitsOf (x : F32) : ofBits (bitsOf x) = x := rfl

theorem rowOf_finite {v : F4 F32} (h : RowFinite v) : ∀ x ∈ rowOf v, FiniteBits x := by
  intro x hx
  simp only [rowOf, List.mem_cons, List.not_mem_nil, or_false] at hx
  rcases hx with rfl | rfl | rfl | rfl <;> exact finite_bitsOf (h _)

theorem rtj_rowOf {v : F4 F32} (h : RowFinite v) :
    RTj (.array .f32 (rowOf v)) (De.f32.array 4) (rowOf v) :=
  rtj_array rfl fun x hx => rtj_f32 (rowOf_finite h x hx)

theorem ofRow_rowOf (v : F4 F32) : ofRow (rowOf v) 0 = v := by
  funext l
  fin_cases l <;> rfl

theorem vec3Of_floats (v : SoaVec3 F32) : vec3Of (vec3Floats v) = v := by
  have hx : ofRow (vec3Floats v) 0 = v.x := by funext l; fin_cases l <;> rfl
  have hy : ofRow (vec3Floats v) 1 = v.y := by funext l; fin_cases l <;> rfl
  have hz : ofRow (vec3Floats v) 2 = v.z := by funext l; fin_cases l <;> rfl
  simp only [vec3Of, hx, hy, hz]

theorem quatOf_floats (v : SoaQuat F32) : quatOf (quatFloats v) = v := by
  have hx : ofRow (quatFloats v) 0 = v.x := by funext l; fin_cases l <;> rfl
  have hy : ofRow (quatFloats v) 1 = v.y := by funext l; fin_cases l <;> rfl
  have hz : ofRow (quatFloats v) 2 = v.z := by funext l; fin_cases l <;> rfl
  have hw : ofRow (quatFloats v) 3 = v.w := by funext l; fin_cases l <;> rfl
  simp only [quatOf, hx, hy, hz, hw]

theorem rtj_soaVec3 {v : SoaVec3 F32} (h : Vec3Finite v) :
    RTj (outVec3 (vec3Floats v)) (deVec3.map vec3Of) v := by
  have := rtj_map vec3Of (rtj_vec3 (p := vec3Floats v) rfl (by
    intro x hx
    simp only [vec3Floats, List.mem_append] at hx
    rcases hx with (hx | hx) | hx
    · exact rowOf_finite h.1 x hx
    · exact rowOf_finite h.2.1 x hx
    · exact rowOf_finite h.2.2 x hx))
  rwa [vec3Of_floats] at this

theorem rtj_soaQuat {v : SoaQuat F32} (h : QuatFinite v) :
    RTj (outQuat (quatFloats v)) (deQuat.map quatOf) v := by
  have := rtj_map quatOf (rtj_quat (p := quatFloats v) rfl (by
    intro x hx
    simp only [quatFloats, List.mem_append] at hx
    rcases hx with ((hx | hx) | hx) | hx
    · exact rowOf_finite h.1 x hx
    · exact rowOf_finite h.2.1 x hx
    · exact rowOf_finite h.2.2.1 x hx
    · exact rowOf_finite h.2.2.2 x hx))
  rwa [quatOf_floats] at this

theorem rtj_interp {V : Type} [Inhabited V] {f : V → Out} {d : De V} {x : Interp F32 V}
    (h0 : RowFinite x.ratio0) (h1 : RowFinite x.ratio1) (v0 : RTj (f x.value0) d x.value0)
    (v1 : RTj (f x.value1) d x.value1) : RTj (outInterp f x) (deInterp d) x := by
  have r0 := rtj_rowOf h0
  have r1 := rtj_rowOf h1
  show (Fields.field "ratio" _ _).json _ = some _
  refine rtj_field (x := [rowOf x.ratio0, rowOf x.ratio1]) (by field_at) ?_ ?_
  · simp only [RTj] at r0 r1
    simp [RTj, De.array.eq_1 (n := 2), Out.seq, allJson, r0, r1]
  refine rtj_field (x := [x.value0, x.value1]) (by field_at) ?_ ?_
  · simp only [RTj] at v0 v1
    simp [RTj, De.array, Out.tuple, allJson, v0, v1]
  simp [Fields.done, ofRow_rowOf]

theorem setEntries_eq : ∀ (es : List (String × Json))
    (fs : List (Sampling.Field F32 (SoaVec3 F32) (SoaQuat F32))) (c : Ctx),
    List.Forall₂ (fun e f => ∃ f', entryField e.1 e.2 = some f' ∧
      ∀ c : Ctx, c.setField f' = c.setField f) es fs →
    setEntries c es = some (c.setFields fs)
  | _, _, _, .nil => rfl
  | (key, j) :: es, f :: fs, c, .cons ⟨f', h1, h2⟩ ht => by
    simp only [setEntries, h1, Context.setFields, h2 c]
    cases hc : c.setField f with
    | error e => rfl
    | ok c' => exact setEntries_eq es fs c' ht

theorem rtj_outdated (xs : List (BitVec 8)) :
    RTj (.vec (fun x : BitVec 8 => .uint 1 x.toNat) xs) deOutdated xs :=
  rtj_vec fun x _ => by
    have := rtj_map (BitVec.ofNat 8) (rtj_uint (w := 1) (n := x.toNat) x.isLt)
    rwa [BitVec.ofNat_toNat, BitVec.setWidth_eq] at this

theorem json_of {τ : Type} {o : Out} {d : De τ} {x : τ} (h : RTj o d x) : d.json o.json = some x := h

theorem entry_animation_id {j : Json} {x} (h : (De.uint 8).json j = some x) :
    entryField "animation_id" j = some (.animationId x) := by
  simp [entryField, h]

theorem entry_translations {j : Json} {x} (h : deInterp3.vec.json j = some x) :
    entryField "translations" j = some (.translations x) := by
  simp [entryField, h]

theorem entry_rotations {j : Json} {x} (h : deInterpQ.vec.json j = some x) :
    entryField "rotations" j = some (.rotations x) := by
  simp [entryField, h]

theorem entry_scales {j : Json} {x} (h : deInterp3.vec.json j = some x) :
    entryField "scales" j = some (.scales x) := by
  simp [entryField, h]

theorem entry_translation_entries {j : Json} {x} (h : (De.uint 4).vec.json j = some x) :
    entryField "translation_entries" j = some (.translationEntries x) := by
  simp [entryField, h]

theorem entry_translation_outdated {j : Json} {x} (h : deOutdated.json j = some x) :
    entryField "translation_outdated" j = some (.translationOutdated x) := by
  simp [entryField, h]

theorem entry_translation_next {j : Json} {x} (h : (De.uint 8).json j = some x) :
    entryField "translation_next" j = some (.translationNext x) := by
  simp [entryField, h]

theorem entry_rotation_entries {j : Json} {x} (h : (De.uint 4).vec.json j = some x) :
    entryField "rotation_entries" j = some (.rotationEntries x) := by
  simp [entryField, h]

theorem entry_rotation_outdated {j : Json} {x} (h : deOutdated.json j = some x) :
    entryField "rotation_outdated" j = some (.rotationOutdated x) := by
  simp [entryField, h]

theorem entry_rotation_next {j : Json} {x} (h : (De.uint 8).json j = some x) :
    entryField "rotation_next" j = some (.rotationNext x) := by
  simp [entryField, h]

theorem entry_scale_entries {j : Json} {x} (h : (De.uint 4).vec.json j = some x) :
    entryField "scale_entries" j = some (.scaleEntries x) := by
  simp [entryField, h]

theorem entry_scale_outdated {j : Json} {x} (h : deOutdated.json j = some x) :
    entryField "scale_outdated" j = some (.scaleOutdated x) := by
  simp [entryField, h]

theorem entry_scale_next {j : Json} {x} (h : (De.uint 8).json j = some x) :
    entryField "scale_next" j = some (.scaleNext x) := by
  simp [entryField, h]

theorem entry_ratio {j : Json} {x} (h : De.f32.json j = some x) :
    entryField "ratio" j = some (.ratio (ofBits x)) := by
  simp [entryField, h]

theorem entry_max_soa_tracks (j : Json) : entryField "max_soa_tracks" j = some (.size 0) := by
  simp [entryField]

theorem entry_max_outdated (j : Json) : entryField "max_outdated" j = some (.size 0) := by
  simp [entryField]

/-- The entries after `max_tracks`. -/
def contextTail (c : Ctx) : List (String × Json) :=
  [("max_soa_tracks", (Out.uint 8 c.maxSoa).json),
   ("max_outdated", (Out.uint 8 ((c.maxSoa + 7) / 8)).json),
   ("animation_id", (Out.uint 8 c.animationId).json),
   ("ratio", (Out.f32 (bitsOf c.ratio)).json),
   ("translations", (Out.vec outInterp3 c.translations.values).json),
   ("rotations", (Out.vec outInterpQ c.rotations.values).json),
   ("scales", (Out.vec outInterp3 c.scales.values).json),
   ("translation_entries", (Out.vec (Out.uint 4) c.translations.entries).json),
   ("translation_outdated", (Out.vec (fun x : BitVec 8 => Out.uint 1 x.toNat) c.translations.outdated).json),
   ("translation_next", (Out.uint 8 c.translations.next).json),
   ("rotation_entries", (Out.vec (Out.uint 4) c.rotations.entries).json),
   ("rotation_outdated", (Out.vec (fun x : BitVec 8 => Out.uint 1 x.toNat) c.rotations.outdated).json),
   ("rotation_next", (Out.uint 8 c.rotations.next).json),
   ("scale_entries", (Out.vec (Out.uint 4) c.scales.entries).json),
   ("scale_outdated", (Out.vec (fun x : BitVec 8 => Out.uint 1 x.toNat) c.scales.outdated).json),
   ("scale_next", (Out.uint 8 c.scales.next).json)]

theorem outContext_json (c : Ctx) (size : Nat) :
    (outContext c size).json = .obj (("size", (Out.uint 8 size).json) ::
      ("max_tracks", (Out.uint 8 (c.maxSoa * 4)).json) :: contextTail c) := rfl

theorem readContext_obj {a b : Json} {rest : List (String × Json)} {n : Nat}
    (hn : (De.uint 8).json b = some n) (mt : Sampling.Mem F32 (SoaVec3 F32))
    (mr : Sampling.Mem F32 (SoaQuat F32)) (ms : Sampling.Mem F32 (SoaVec3 F32)) :
    readContext true (.obj (("size", a) :: ("max_tracks", b) :: rest)) mt mr ms =
      setEntries (Context.new n mt mr ms) rest := by
  simp [readContext, seekTracks, hn]

theorem i3 (xs : List (Interp F32 (SoaVec3 F32)))
    (hx : ∀ x ∈ xs, RowFinite x.ratio0 ∧ RowFinite x.ratio1 ∧ Vec3Finite x.value0 ∧ Vec3Finite x.value1) :
    RTj (.vec outInterp3 xs) deInterp3.vec xs :=
  rtj_vec fun x hm => rtj_interp (hx x hm).1 (hx x hm).2.1 (rtj_soaVec3 (hx x hm).2.2.1)
    (rtj_soaVec3 (hx x hm).2.2.2)

theorem iq (xs : List (Interp F32 (SoaQuat F32)))
    (hx : ∀ x ∈ xs, RowFinite x.ratio0 ∧ RowFinite x.ratio1 ∧ QuatFinite x.value0 ∧ QuatFinite x.value1) :
    RTj (.vec outInterpQ xs) deInterpQ.vec xs :=
  rtj_vec fun x hm => rtj_interp (hx x hm).1 (hx x hm).2.1 (rtj_soaQuat (hx x hm).2.2.1)
    (rtj_soaQuat (hx x hm).2.2.2)

theorem en (xs : List Nat) (hx : ∀ x ∈ xs, x < 2 ^ 32) : RTj (.vec (.uint 4) xs) (De.uint 4).vec xs :=
  rtj_vec fun x hm => rtj_uint (w := 4) (hx x hm)

theorem u64 (n : Nat) (hn : n < 2 ^ 64) : RTj (.uint 8 n) (.uint 8) n := rtj_uint (w := 8) hn

/-- Reading a written context is the field-by-field `deserialize ∘ serialize` of C55. -/
theorem readContext_eq {c : Ctx} (h : ContextStorable c) (size : Nat)
    (mt : Sampling.Mem F32 (SoaVec3 F32)) (mr : Sampling.Mem F32 (SoaQuat F32))
    (ms : Sampling.Mem F32 (SoaVec3 F32)) :
    readContext true (outContext c size).json mt mr ms =
      Context.deserialize (c.serialize size) mt mr ms := by
  rw [outContext_json, readContext_obj (u64 _ h.tracks)]
  show _ = some (Context.setFields _ [_, _, _, _, _, _, _, _, _, _, _, _, _, _, _, _])
  refine setEntries_eq _ _ _ ?_
  refine .cons ⟨_, entry_max_soa_tracks _, fun _ => rfl⟩ ?_
  refine .cons ⟨_, entry_max_outdated _, fun _ => rfl⟩ ?_
  refine .cons ⟨_, entry_animation_id (u64 _ h.animationId), fun _ => rfl⟩ ?_
  refine .cons ⟨_, entry_ratio (rtj_f32 (finite_bitsOf h.ratio)), fun _ => rfl⟩ ?_
  refine .cons ⟨_, entry_translations (i3 _ h.translations.values), fun _ => rfl⟩ ?_
  refine .cons ⟨_, entry_rotations (iq _ h.rotations.values), fun _ => rfl⟩ ?_
  refine .cons ⟨_, entry_scales (i3 _ h.scales.values), fun _ => rfl⟩ ?_
  refine .cons ⟨_, entry_translation_entries (en _ h.translations.entries), fun _ => rfl⟩ ?_
  refine .cons ⟨_, entry_translation_outdated (rtj_outdated _), fun _ => rfl⟩ ?_
  refine .cons ⟨_, entry_translation_next (u64 _ h.translations.next), fun _ => rfl⟩ ?_
  refine .cons ⟨_, entry_rotation_entries (en _ h.rotations.entries), fun _ => rfl⟩ ?_
  refine .cons ⟨_, entry_rotation_outdated (rtj_outdated _), fun _ => rfl⟩ ?_
  refine .cons ⟨_, entry_rotation_next (u64 _ h.rotations.next), fun _ => rfl⟩ ?_
  refine .cons ⟨_, entry_scale_entries (en _ h.scales.entries), fun _ => rfl⟩ ?_
  refine .cons ⟨_, entry_scale_outdated (rtj_outdated _), fun _ => rfl⟩ ?_
  refine .cons ⟨_, entry_scale_next (u64 _ h.scales.next), fun _ => rfl⟩ ?_
  exact .nil

end Ozz.Serde
