import Verif.Proofs.SerdeData

/-! What the serde formats lose. -/

namespace Ozz.Serde

open Spec

/-! ### Floats that are not finite -/

theorem field_none_here {σ τ : Type} {name : String} {d : De σ} {k : σ → Fields τ}
    {o : List (String × Json)} {j : Json} (hg : getField o name = some j) (hx : d.json j = none) :
    (Fields.field name d k).json o = none := by
  simp [Fields.field, hg, hx]

theorem field_none_later {σ τ : Type} {name : String} {d : De σ} {k : σ → Fields τ}
    {o : List (String × Json)} (h : ∀ x, (k x).json o = none) :
    (Fields.field name d k).json o = none := by
  simp only [Fields.field, bind, Option.bind]
  cases getField o name with
  | none => rfl
  | some j =>
    simp only
    cases d.json j with
    | none => rfl
    | some x => exact h x

theorem vec_json_none {τ : Type} {f : τ → Out} {d : De τ} {xs : List τ}
    (h : ∃ x ∈ xs, d.json (f x).json = none) : d.vec.json (Out.vec f xs).json = none := by
  have := allJson_none (f := fun x => (f x).json) (g := d.json) xs h
  simpa [Out.vec, Out.seq, De.vec, Function.comp_def] using this

theorem array_json_none {τ : Type} {f : τ → Out} {d : De τ} {n : Nat} {xs : List τ}
    (h : ∃ x ∈ xs, d.json (f x).json = none) : (d.array n).json (Out.array f xs).json = none := by
  have := allJson_none (f := fun x => (f x).json) (g := d.json) xs h
  simp only [Out.array, Out.tuple, De.array, List.map_map, Function.comp_def, this]
  simp

theorem animation_nonfinite {a : AnimationData} (h : ¬ AnimationFinite a) :
    deAnimation.json (outAnimation a).json = none := by
  by_cases h1 : FiniteBits a.duration
  case neg =>
    exact field_none_here (by field_at) (json_f32_none h1)
  by_cases h5 : ∀ x ∈ a.timepoints, FiniteBits x
  case neg =>
    refine field_none_later fun _ => field_none_later fun _ => field_none_later fun _ => ?_
    refine field_none_here (by field_at) (vec_json_none ?_)
    by_contra hc
    exact h5 fun x hx => by_contra fun hn => hc ⟨x, hx, json_f32_none hn⟩
  have skip : ∀ {τ : Type} {n1 n2 n3 n4 n5 n6 : String} {d1 d2 d3 d4 d5 d6 : Type} {e1 : De d1}
      {e2 : De d2} {e3 : De d3} {e4 : De d4} {e5 : De d5} {e6 : De d6}
      {k : d1 → d2 → d3 → d4 → d5 → d6 → Fields τ} {o : List (String × Json)},
      (∀ x1 x2 x3 x4 x5 x6, (k x1 x2 x3 x4 x5 x6).json o = none) →
      (Fields.field n1 e1 fun x1 => .field n2 e2 fun x2 => .field n3 e3 fun x3 => .field n4 e4 fun x4 =>
        .field n5 e5 fun x5 => .field n6 e6 fun x6 => k x1 x2 x3 x4 x5 x6).json o = none :=
    fun hk => field_none_later fun _ => field_none_later fun _ => field_none_later fun _ =>
      field_none_later fun _ => field_none_later fun _ => field_none_later fun _ => hk ..
  by_cases h2 : FiniteBits a.t.iframeInterval
  case neg =>
    refine field_none_later fun _ => field_none_later fun _ => field_none_later fun _ =>
      field_none_later fun _ => field_none_later fun _ => field_none_later fun _ =>
      field_none_later fun _ => ?_
    exact field_none_here (by field_at) (json_f32_none h2)
  by_cases h3 : FiniteBits a.r.iframeInterval
  case neg =>
    refine field_none_later fun _ => field_none_later fun _ => field_none_later fun _ =>
      field_none_later fun _ => skip fun _ _ _ _ _ _ => field_none_later fun _ =>
      field_none_later fun _ => field_none_later fun _ => ?_
    exact field_none_here (by field_at) (json_f32_none h3)
  by_cases h4 : FiniteBits a.s.iframeInterval
  case neg =>
    refine field_none_later fun _ => field_none_later fun _ => field_none_later fun _ =>
      field_none_later fun _ => skip fun _ _ _ _ _ _ => skip fun _ _ _ _ _ _ =>
      field_none_later fun _ => field_none_later fun _ => field_none_later fun _ => ?_
    exact field_none_here (by field_at) (json_f32_none h4)
  exact absurd ⟨h1, h2, h3, h4, h5⟩ h

theorem track_nonfinite {k : TrackKind} {t : Track UInt32 (List UInt32)} (hs : TrackShape k t)
    (h : ¬ TrackFinite t) : (deTrack k).json (outTrack k t).json = none := by
  by_cases h1 : ∀ x ∈ t.ratios, FiniteBits x
  case neg =>
    refine field_none_later fun _ => ?_
    refine field_none_here (by field_at) (vec_json_none ?_)
    by_contra hc
    exact h1 fun x hx => by_contra fun hn => hc ⟨x, hx, json_f32_none hn⟩
  by_cases h2 : ∀ v ∈ t.values, ∀ x ∈ v, FiniteBits x
  case neg =>
    refine field_none_later fun _ => field_none_later fun _ => ?_
    refine field_none_here (by field_at) (vec_json_none ?_)
    by_contra hc
    refine h2 fun v hv x hx => by_contra fun hn => hc ⟨v, hv, ?_⟩
    have arr : (De.f32.array k.arity).json (Out.array Out.f32 v).json = none :=
      array_json_none ⟨x, hx, json_f32_none hn⟩
    have hl := hs.values v hv
    cases k with
    | float =>
      match v, hl with
      | [y], _ =>
        simp only [List.mem_singleton] at hx
        subst hx
        simp [deValue, De.map, outValue, json_f32_none hn]
    | float2 => exact arr
    | float3 => exact arr
    | float4 => exact arr
    | quat => exact arr
  exact absurd ⟨h1, h2⟩ h

/-! ### SoA values as bytes -/

/-- The bytes of floats in a row. -/
def floatBytes (xs : List UInt32) : Bytes := xs.flatMap fun x => leBytes 4 x.toNat

theorem catBins_floats (xs : List UInt32) :
    catBins ((xs.map Out.f32).map (·.bin)) = some (floatBytes xs) := by
  induction xs with
  | nil => rfl
  | cons x xs ih =>
    simp only [List.map_cons, catBins, ih, floatBytes, List.flatMap_cons]
    simp [Out.f32]

theorem array_f32_bin (xs : List UInt32) : (Out.array Out.f32 xs).bin = some (floatBytes xs) :=
  catBins_floats xs

theorem read_floats (xs : List UInt32) (rest : Bytes) :
    manyBin De.f32.bin xs.length (floatBytes xs ++ rest) = some (xs, rest) := by
  obtain ⟨bs, h1, h2⟩ := manyBin_map (f := fun x => (Out.f32 x).bin) (g := De.f32.bin) (e := id) xs
    fun x _ => rtb_f32 x
  have h3 := catBins_floats xs
  rw [List.map_map] at h3
  have : bs = floatBytes xs := by
    have := h1.symm.trans h3
    exact Option.some.inj this
  rw [← this]
  simpa using h2 rest

theorem read_row {xs : List UInt32} (h : xs.length = 4) (rest : Bytes) :
    (De.f32.array 4).bin (floatBytes xs ++ rest) = some (xs, rest) := by
  have := read_floats xs rest
  rwa [h] at this

theorem floatBytes_append (xs ys : List UInt32) :
    floatBytes (xs ++ ys) = floatBytes xs ++ floatBytes ys := by
  simp [floatBytes]

theorem read_vec3 {w : List UInt32} (h : w.length = 12) (rest : Bytes) :
    deVec3.bin (floatBytes w ++ rest) = some (w, rest) := by
  have e := flatten_rows3 h
  have h0 := read_row (row_length (p := w) (i := 0) (by omega))
  have h1 := read_row (row_length (p := w) (i := 1) (by omega))
  have h2 := read_row (row_length (p := w) (i := 2) (by omega))
  have hb : floatBytes w = floatBytes (row w 0) ++ (floatBytes (row w 1) ++ floatBytes (row w 2)) := by
    rw [← floatBytes_append, ← floatBytes_append]
    simpa using (congrArg floatBytes e).symm
  simp only [deVec3, De.map, De.array.eq_1 (n := 3), manyBin, hb, List.append_assoc, h0, h1, h2,
    bind, Option.bind, pure, Option.map_some, e]

theorem read_quat {w : List UInt32} (h : w.length = 16) (rest : Bytes) :
    deQuat.bin (floatBytes w ++ rest) = some (w, rest) := by
  have e := flatten_rows4 h
  have h0 := read_row (row_length (p := w) (i := 0) (by omega))
  have h1 := read_row (row_length (p := w) (i := 1) (by omega))
  have h2 := read_row (row_length (p := w) (i := 2) (by omega))
  have h3 := read_row (row_length (p := w) (i := 3) (by omega))
  have hb : floatBytes w = floatBytes (row w 0) ++ (floatBytes (row w 1) ++
      (floatBytes (row w 2) ++ floatBytes (row w 3))) := by
    rw [← floatBytes_append, ← floatBytes_append, ← floatBytes_append]
    simpa using (congrArg floatBytes e).symm
  simp only [deQuat, De.map, De.array.eq_1 (d := De.array 4 De.f32), manyBin, hb, List.append_assoc,
    h0, h1, h2, h3, bind, Option.bind, pure, Option.map_some, e]

/-- The length in front of the three components looks like two floats. -/
theorem prefix_bytes : leBytes 8 3 = floatBytes [3, 0] := by decide

theorem vec3_bin {v : List UInt32} (h : v.length = 12) :
    (outVec3 v).bin = some (floatBytes ([3, 0] ++ v)) := by
  have hb : floatBytes v = floatBytes (row v 0) ++ (floatBytes (row v 1) ++ floatBytes (row v 2)) := by
    rw [← floatBytes_append, ← floatBytes_append]
    simpa using (congrArg floatBytes (flatten_rows3 h)).symm
  simp only [outVec3, Out.seq, List.map_cons, List.map_nil, catBins, outRow, array_f32_bin, bind,
    Option.bind, pure, Option.map_some, prefix_bytes]
  rw [floatBytes_append [3, 0], hb, List.append_nil]

theorem quat_bin {v : List UInt32} (h : v.length = 16) :
    (outQuat v).bin = some (floatBytes ([3, 0] ++ v)) := by
  have hb : floatBytes v = floatBytes (row v 0) ++ (floatBytes (row v 1) ++
      (floatBytes (row v 2) ++ floatBytes (row v 3))) := by
    rw [← floatBytes_append, ← floatBytes_append, ← floatBytes_append]
    simpa using (congrArg floatBytes (flatten_rows4 h)).symm
  simp only [outQuat, Out.seq, List.map_cons, List.map_nil, catBins, outRow, array_f32_bin, bind,
    Option.bind, pure, Option.map_some, prefix_bytes]
  rw [floatBytes_append [3, 0], hb, List.append_nil]

theorem vec3_misread {v : List UInt32} (h : v.length = 12) (rest : Bytes) :
    ∃ bs, (outVec3 v).bin = some bs ∧
      deVec3.bin (bs ++ rest) = some (3 :: 0 :: v.take 10, floatBytes (v.drop 10) ++ rest) := by
  refine ⟨_, vec3_bin h, ?_⟩
  have e : [3, 0] ++ v = (3 :: 0 :: v.take 10) ++ v.drop 10 := by simp
  rw [e, floatBytes_append, List.append_assoc]
  exact read_vec3 (by simp [h]) _

theorem quat_misread {v : List UInt32} (h : v.length = 16) (rest : Bytes) :
    ∃ bs, (outQuat v).bin = some bs ∧
      deQuat.bin (bs ++ rest) = some (3 :: 0 :: v.take 14, floatBytes (v.drop 14) ++ rest) := by
  refine ⟨_, quat_bin h, ?_⟩
  have e : [3, 0] ++ v = (3 :: 0 :: v.take 14) ++ v.drop 14 := by simp
  rw [e, floatBytes_append, List.append_assoc]
  exact read_quat (by simp [h]) _

/-- What follows a field's bytes. -/
theorem catBins_cons {b : Option Bytes} {bs : List (Option Bytes)} {r : Bytes}
    (h : catBins (b :: bs) = some r) : ∃ x y, b = some x ∧ catBins bs = some y ∧ r = x ++ y := by
  simp only [catBins, bind, Option.bind] at h
  cases b with
  | none => cases h
  | some x =>
    simp only at h
    cases hb : catBins bs with
    | none => rw [hb] at h; cases h
    | some y => rw [hb] at h; cases h; exact ⟨x, y, rfl, rfl, rfl⟩

theorem field_bin {σ τ : Type} {name : String} {d : De σ} {k : σ → Fields τ} {bs r : Bytes} {z : τ}
    (h : (Fields.field name d k).bin bs = some (z, r)) :
    ∃ x bs', d.bin bs = some (x, bs') ∧ (k x).bin bs' = some (z, r) := by
  simp only [Fields.field, bind, Option.bind] at h
  cases hd : d.bin bs with
  | none => rw [hd] at h; cases h
  | some p => rw [hd] at h; exact ⟨p.1, p.2, rfl, h⟩

/-- The first float read of a transform is the length in front of its translation. -/
theorem transform_misread {p p' : List UInt32} (hp : p.length = 40) {bs rest r : Bytes}
    (hb : (outTransform p).bin = some bs) (h : deTransform.bin (bs ++ rest) = some (p', r)) :
    p'.head? = some 3 := by
  obtain ⟨x, y, hx, _, rfl⟩ := catBins_cons hb
  obtain ⟨b, hb1, hb2⟩ := vec3_misread (v := p.take 12) (by simp [hp]) (y ++ rest)
  obtain rfl : b = x := Option.some.inj (hb1.symm.trans hx)
  simp only [deTransform, De.struct] at h
  obtain ⟨t, b1, h1, h2⟩ := field_bin h
  rw [List.append_assoc, hb2] at h1
  cases h1
  obtain ⟨q, b2, _, h3⟩ := field_bin h2
  obtain ⟨s, b3, _, h4⟩ := field_bin h3
  cases h4
  rfl

theorem skeleton_misread {s s' : SkeletonRaw} {order : JointNames} {p : List UInt32}
    {ps : List (List UInt32)} (hs : s.jointRestPoses = p :: ps) (hp : p.length = 40)
    (hl : s.jointRestPoses.length < 2 ^ 64) {bs rest r : Bytes}
    (hb : (outSkeleton s order).bin = some bs) (h : deSkeleton.bin (bs ++ rest) = some (s', r)) :
    ∃ q qs, s'.jointRestPoses = q :: qs ∧ q.head? = some 3 := by
  obtain ⟨x, y, hx, _, rfl⟩ := catBins_cons hb
  simp only [deSkeleton, De.struct] at h
  obtain ⟨poses, b1, h1, h2⟩ := field_bin h
  obtain ⟨_, b2, _, h3⟩ := field_bin h2
  obtain ⟨_, b3, _, h4⟩ := field_bin h3
  cases h4
  have hx' : (catBins ((s.jointRestPoses.map outTransform).map (·.bin))).map
      (leBytes 8 s.jointRestPoses.length ++ ·) = some x := hx
  rw [hs] at hx'
  obtain ⟨z, hz, rfl⟩ := Option.map_eq_some_iff.1 hx'
  obtain ⟨u, v, hu, _, rfl⟩ := catBins_cons hz
  rw [hs, List.length_cons] at hl
  simp only [De.vec, List.append_assoc, takeBytes_le, leValue_leBytes, List.length_cons,
    Nat.mod_eq_of_lt (show ps.length + 1 < 256 ^ 8 by omega), bind, Option.bind, manyBin] at h1
  cases ht : deTransform.bin (u ++ (v ++ (y ++ rest))) with
  | none => rw [ht] at h1; cases h1
  | some qr =>
    rw [ht] at h1
    simp only at h1
    cases hm : manyBin deTransform.bin ps.length qr.2 with
    | none => rw [hm] at h1; cases h1
    | some w =>
      rw [hm] at h1
      cases h1
      exact ⟨qr.1, w.1, rfl, transform_misread hp hu ht⟩

end Ozz.Serde
