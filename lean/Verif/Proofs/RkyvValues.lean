import Verif.Proofs.RkyvAnimation
import Verif.Proofs.SerdeData

/-! Archived tracks, edges, SoA values and skeletons. -/

namespace Ozz.Rkyv

open Spec

/-! ### Tracks -/

theorem podOk_value (e : Endian) (k : TrackKind) (xs : List (List UInt32)) (h : ∀ x ∈ xs, x.length = k.arity) :
    PodOk (value e k) xs := by
  refine ⟨fun x hx => faithful_array _ _ _ (h x hx) fun y _ => faithful_u32 e y, ?_, ?_, ?_, ?_⟩ <;> cases k <;> cases e <;> decide

/-- What is known of a track that was written. -/
structure TrackWritten (T : Target) (k : TrackKind) (t : Track UInt32 (List UInt32)) (q : TrackResolver) (F : Buf)
    (p : Nat) : Prop where
  ratios : SliceOk (u32 T.endian) t.ratios q.ratios F p
  values : SliceOk (value T.endian k) t.values q.values F p
  steps : SliceOk (u8 T.endian) t.steps q.steps F p
  name : StrWritten T.str t.name q.name F p

theorem value_size (e : Endian) (k : TrackKind) : (value e k).size = k.arity * 4 := rfl

theorem writes_track (T : Target) (hT : TargetOk T) {k : TrackKind} {t : Track UInt32 (List UInt32)} (hs : TrackShape k t) :
    Writes (serializeTrack T k t) (trackBytes k t + 45) (TrackWritten T k t) := by
  refine Writes.mono (Writes.bind (writes_slice (podOk_u32 T.endian t.ratios)) fun ratios =>
    Writes.bind (writes_slice (podOk_value T.endian k t.values hs.values)) fun values =>
    Writes.bind (writes_slice (podOk_u8 T.endian t.steps)) fun steps =>
    Writes.bind (writes_str hT.str t.name) fun name => Writes.pure _) ?_ ?_
  · show t.ratios.length * 4 + 15 + (t.values.length * (k.arity * 4) + 15 + (t.steps.length * 1 + 15 +
      (t.name.length + 0))) ≤ trackBytes k t + 45
    have : t.values.length * (k.arity * 4) = 4 * k.arity * t.values.length := by
      rw [Nat.mul_comm, Nat.mul_comm k.arity 4]
    simp only [trackBytes]; omega
  · rintro r F p ⟨a, ha, b, hb, c, hc, d, hd, rfl⟩
    exact ⟨ha, hb, hc, hd⟩

theorem track_align {T : Target} (hT : TargetOk T) : T.track.align = 4 := by
  obtain ⟨f, hf, h⟩ := hT.track.strictest
  rw [h]
  simp only [List.mem_cons, List.not_mem_nil, or_false] at hf
  rcases hf with rfl | rfl | rfl | rfl | rfl <;> rfl

theorem resolveTrack_matches {T : Target} (hT : TargetOk T) {t : Track UInt32 (List UInt32)} (pos : Nat)
    (r : TrackResolver) (fs : List (String × Buf)) (h : resolveTrack T t pos r = some fs) :
    Matches fs [⟨"key_count", 4, 4⟩, ⟨"ratios", T.vec.size, 4⟩, ⟨"values", T.vec.size, 4⟩, ⟨"steps", T.vec.size, 4⟩,
     ⟨"name", T.str.size, 4⟩] := by
  simp only [resolveTrack, bind, Option.bind_eq_some_iff, pure, Option.some.injEq] at h
  obtain ⟨a, ha, b, hb, c, hc, n, hn, rfl⟩ := h
  refine ⟨by simp only [List.map_cons, List.map_nil]; decide +kernel, ?_⟩
  simp only [List.mem_cons, List.not_mem_nil, or_false, forall_eq_or_imp, forall_eq]
  exact ⟨⟨⟨"key_count", 4, 4⟩, by simp, rfl, nativeBytes_length ..⟩,
    ⟨⟨"ratios", T.vec.size, 4⟩, by simp, rfl, (vecAt_length hT.vec ha).1⟩,
    ⟨⟨"values", T.vec.size, 4⟩, by simp, rfl, (vecAt_length hT.vec hb).1⟩,
    ⟨⟨"steps", T.vec.size, 4⟩, by simp, rfl, (vecAt_length hT.vec hc).1⟩,
    ⟨⟨"name", T.str.size, 4⟩, by simp, rfl, hT.str.length _ _ _ _ hn⟩⟩

theorem deserializeTrack_ok {T : Target} (hT : TargetOk T) {k : TrackKind} {t : Track UInt32 (List UInt32)}
    (hk : TrackShape k t) {b b' : Buf} {pos : Nat} (h : archiveTrack T k t b = some (pos, b')) {base : Nat}
    (hb : 16 ∣ base) :
    rootAt T.track base b' = some pos ∧ b <+: b' ∧ ∀ rest, deserializeTrack T k base (b' ++ rest) pos = some t := by
  have hal := track_align hT
  obtain ⟨q, fs, hr, h4, hp, _, hlen, hF⟩ := serializeValue_ok hT.track (by rw [hal]; decide)
    (writes_track T hT hk) (resolveTrack_matches hT) h
  refine ⟨rootAt_ok hlen (Nat.dvd_add (Nat.dvd_trans (by rw [hal]; decide) hb) h4), hp, fun rest => ?_⟩
  obtain ⟨hw, hat⟩ := hF (b' ++ rest) (List.prefix_append _ _)
  generalize b' ++ rest = F at hw hat
  simp only [resolveTrack, bind, Option.bind_eq_some_iff, pure, Option.some.injEq] at hr
  obtain ⟨a, ha, v, hv, s, hs, n, hn, rfl⟩ := hr
  have v1 := readVec_field (base := base) hT hT.track hat (name := "ratios") (by simp) (podOk_u32 T.endian _) hw.ratios ha
    (by simp) hb h4
  have v2 := readVec_field (base := base) hT hT.track hat (name := "values") (by simp)
    (podOk_value T.endian k _ hk.values) hw.values hv (by simp) hb h4
  have v3 := readVec_field (base := base) hT hT.track hat (name := "steps") (by simp) (podOk_u8 T.endian _) hw.steps hs
    (by simp) hb h4
  have n1 := readAt_field (base := base) (p := uint T.endian 4) (name := "key_count") (x := t.keyCount) hT.track hat
    (by simp [uint]) (faithful_uint T.endian 4 _ hk.keyCount) (by show 0 < 4; decide) (by show 4 ∣ 16; decide)
    (by simp) hb h4
  have sn := readStr_field (base := base) hT hT.track hat (name := "name") (by simp) hw.name hn (by simp) hb h4
  simp only [deserializeTrack, bind, Option.bind, v1, v2, v3, n1, sn, pure]

theorem archiveTrack_some {T : Target} (hT : TargetOk T) {k : TrackKind} {t : Track UInt32 (List UInt32)}
    (hk : TrackShape k t) {b : Buf}
    (hs : b.length + trackBytes k t + 49 + T.track.size + T.vec.size < 2 ^ 31) :
    ∃ out, archiveTrack T k t b = some out := by
  have hal := track_align hT
  refine serializeValue_ne_none (k := 2 ^ 31 - 1 - T.track.size - T.vec.size) (by rw [hal]; decide)
    (writes_track T hT hk) ?_ (by rw [hal]; omega)
  intro pos q F hw hpos
  have h1 := hT.vec.inside ⟨"ptr", 4, 4⟩ (by simp)
  have hin := hT.track.inside
  simp only [List.mem_cons, List.not_mem_nil, or_false, forall_eq_or_imp, forall_eq] at hin h1
  have vec := fun {name : String} (hn : T.track.off name ≤ T.track.size) {τ : Type} {p : Pod τ} {xs : List τ}
    {start : Nat} (h : SliceOk p xs start F pos) =>
    Option.ne_none_iff_exists'.1 (vecAt_ne_none (T := T) (pos := pos + T.track.off name) (len := xs.length) (target := start)
      (by omega) (by have := h.before; omega))
  obtain ⟨n, hn⟩ := Option.ne_none_iff_exists'.1 ((hw.name (pos + T.track.off "name") (by omega)).1 (by omega))
  obtain ⟨x, hx⟩ := vec (name := "ratios") (by omega) hw.ratios
  obtain ⟨y, hy⟩ := vec (name := "values") (by omega) hw.values
  obtain ⟨z, hz⟩ := vec (name := "steps") (by omega) hw.steps
  simp only [resolveTrack, bind, Option.bind, hn, hx, hy, hz, pure]
  simp

/-! ### Edges -/

theorem edge_align {T : Target} (hT : TargetOk T) : T.edge.align ∣ 16 := by
  obtain ⟨f, hf, h⟩ := hT.edge.strictest
  rw [h]
  simp only [List.mem_cons, List.not_mem_nil, or_false] at hf
  rcases hf with rfl | rfl <;> decide

theorem faithful_bool (x : Bool) : Faithful bool.toMemRepr x := by cases x <;> exact ⟨rfl, rfl⟩

theorem edge_ok {T : Target} (hT : TargetOk T) (ratio : UInt32) (rising : Bool) (b : Buf) {base : Nat} (hb : 16 ∣ base) :
    ∃ pos b', archiveEdge T ratio rising b = some (pos, b') ∧ rootAt T.edge base b' = some pos ∧ b <+: b' ∧
      ∀ rest, deserializeEdge T base (b' ++ rest) pos = some (ratio, rising) := by
  have hal := edge_align hT
  have h0 : 0 < T.edge.align := Nat.pos_of_dvd_of_pos hal (by decide)
  have hw : Writes (fun b => ((), b) : StateM Buf Unit) 0 fun _ _ _ => True :=
    fun b => ⟨List.prefix_refl b, Nat.le_refl _, fun _ _ _ _ => trivial⟩
  obtain ⟨⟨pos, b'⟩, h⟩ := serializeValue_ne_none (L := T.edge) (k := b.length + T.edge.align) (b := b)
    (res := fun _ _ => some [("ratio", (u32 T.endian).enc ratio), ("rising", bool.enc rising)]) h0 hw
    (by simp) (by omega)
  obtain ⟨q, fs, hr, h4, hp, _, hlen, hF⟩ := serializeValue_ok hT.edge h0 hw (fun pos r fs h => by
    cases h
    refine ⟨by simp only [List.map_cons, List.map_nil]; decide +kernel, ?_⟩
    simp only [List.mem_cons, List.not_mem_nil, or_false, forall_eq_or_imp, forall_eq]
    exact ⟨⟨⟨"ratio", 4, 4⟩, by simp, rfl, nativeBytes_length ..⟩, ⟨"rising", 1, 1⟩, by simp, rfl, rfl⟩) h
  cases hr
  refine ⟨pos, b', h, rootAt_ok hlen (Nat.dvd_add (Nat.dvd_trans hal hb) h4), hp, fun rest => ?_⟩
  obtain ⟨_, hat⟩ := hF (b' ++ rest) (List.prefix_append _ _)
  generalize b' ++ rest = F at hat
  have n1 := readAt_field (base := base) (p := u32 T.endian) (name := "ratio") (x := ratio) hT.edge hat
    (by simp [u32, reprU32]) (faithful_u32 T.endian _) (by show 0 < 4; decide) (by show 4 ∣ 16; decide)
    (by simp) hb h4
  have n2 := readAt_field (base := base) (p := bool) (name := "rising") (x := rising) hT.edge hat
    (by simp [bool]) (faithful_bool _) (by show 0 < 1; decide) (by show 1 ∣ 16; decide)
    (by simp) hb h4
  simp only [deserializeEdge, bind, Option.bind, n1, n2, pure]

/-! ### SoA values -/

theorem podOk_soa (e : Endian) (n : Nat) (h0 : 0 < n) (h4 : 4 ∣ n) (xs : List (List UInt32)) (h : ∀ x ∈ xs, x.length = n) :
    PodOk (soa e n) xs := by
  refine ⟨fun x hx => faithful_array _ _ _ (h x hx) fun y _ => faithful_u32 e y, ?_, ?_, ?_, ?_⟩
  · show 0 < n * 4; omega
  · show 0 < 16; decide
  · show 16 ∣ n * 4; omega
  · show 16 ∣ 16; decide

theorem soa_ok (T : Target) {n : Nat} (h0 : 0 < n) (h4 : 4 ∣ n) {v : List UInt32} (hv : v.length = n) (b : Buf)
    {base : Nat} (hb : 16 ∣ base) :
    let (pos, b') := archiveSoa T n v b
    rootAt ⟨n * 4, 16, fun _ => 0⟩ base b' = some pos ∧ b <+: b' ∧ checkSoa base pos = true ∧
      ∀ rest, readAt (soa T.endian n) base (b' ++ rest) pos = some v := by
  have hp : PodOk (soa T.endian n) [v] := podOk_soa _ _ h0 h4 _ (by simpa using hv)
  obtain ⟨h1, h2, h3⟩ := writes_slice hp b
  have hl : ([v].flatMap (soa T.endian n).enc).length = n * 4 := by
    rw [flatMap_length _ [v] hp.faithful]; simp [soa, MemRepr.array, reprU32]
  obtain ⟨s1, s2, s3⟩ := h3 _ _ (List.prefix_refl _) (Nat.le_refl _)
  have ha : 16 ∣ base + (archiveSoa T n v b).1 := Nat.dvd_add hb s2
  refine ⟨rootAt_ok ?_ ha, h1, beq_iff_eq.2 (Nat.mod_eq_zero_of_dvd ha), fun rest => ?_⟩
  · show (padTo 16 b ++ [v].flatMap (soa T.endian n).enc).length = (padTo 16 b).length + n * 4
    rw [List.length_append, hl]
  · refine readAt_ok (hp.faithful v (by simp)) hp.size ha ?_
    have := s3.prefix (List.prefix_append _ rest)
    rw [List.flatMap_cons, List.flatMap_nil, List.append_nil] at this
    exact this

/-! ### Skeletons -/

theorem podOk_i16 (e : Endian) (xs : List Int) (h : ∀ x ∈ xs, -32768 ≤ x ∧ x ≤ 32767) : PodOk (i16 e) xs :=
  ⟨fun x hx => faithful_i16 e x (h x hx), by show 0 < 2; decide, by show 0 < 2; decide, by show 2 ∣ 2; decide, by show 2 ∣ 16; decide⟩

theorem writes_keys {T : Target} (hT : TargetOk T) (order : JointNames) :
    Writes (serKeys T order) (namesBytes order) fun rs F p =>
      List.Forall₂ (fun n r => StrWritten T.str n.1 r F p) order rs := by
  induction order with
  | nil => exact Writes.mono (Writes.pure _) (Nat.le_refl _) (by rintro r F p rfl; exact .nil)
  | cons n ns ih =>
    refine Writes.mono (Writes.bind (writes_str hT.str n.1) fun r => Writes.bind ih fun rs => Writes.pure _)
      (by simp only [namesBytes, List.map_cons, List.sum_cons]; omega) ?_
    rintro rs F p ⟨r, hr, rs', hrs, rfl⟩
    exact .cons hr hrs

theorem entry_align {T : Target} (hT : TargetOk T) : T.entry.align = 4 := by
  have := hT.entry.divides ⟨"key", T.str.size, 4⟩ (by simp)
  obtain ⟨f, hf, h⟩ := hT.entry.strictest
  simp only [List.mem_cons, List.not_mem_nil, or_false] at hf
  rcases hf with rfl | rfl
  · exact h
  · rw [h] at this; exact absurd this (by show ¬ 4 ∣ 2; decide)

theorem resEntries_ok {T : Target} (hT : TargetOk T) {F : Buf} {p base : Nat} (hb : 16 ∣ base) :
    ∀ (order : JointNames) (rs : List Nat) (b b' : Buf),
      (∀ x ∈ order, -32768 ≤ x.2 ∧ x.2 ≤ 32767) →
      List.Forall₂ (fun n r => StrWritten T.str n.1 r F p) order rs → 4 ∣ b.length → p ≤ b.length →
      resEntries T (order.zip rs) b = some b' → b' <+: F →
      b <+: b' ∧ b'.length = b.length + order.length * T.entry.size ∧
        readEntries T base F order.length b.length = some order := by
  intro order rs b b' hi hf
  induction hf generalizing b with
  | nil =>
    intro _ _ h _
    cases h
    exact ⟨List.prefix_refl _, by simp, rfl⟩
  | @cons n r ns rs hn hns ih =>
    intro h4 hp h hF
    simp only [List.zip_cons_cons, resEntries, bind, Option.bind_eq_some_iff] at h
    obtain ⟨k, hk, h⟩ := h
    have hm : Matches [("key", k), ("value", (i16 T.endian).enc n.2)] [⟨"key", T.str.size, 4⟩, ⟨"value", 2, 2⟩] := by
      refine ⟨by simp only [List.map_cons, List.map_nil]; decide +kernel, ?_⟩
      simp only [List.mem_cons, List.not_mem_nil, or_false, forall_eq_or_imp, forall_eq]
      exact ⟨⟨⟨"key", T.str.size, 4⟩, by simp, rfl, hT.str.length _ _ _ _ hk⟩, ⟨"value", 2, 2⟩, by simp, rfl,
        (faithful_i16 T.endian n.2 (hi n (by simp))).1⟩
    obtain ⟨e1, e2⟩ := resolveStruct_ok hT.entry hm
    have hal := entry_align hT
    have hst := hT.entry.stride
    rw [hal] at hst
    obtain ⟨i1, i2, i3⟩ := ih _ (fun x hx => hi x (by simp [hx]))
      (by rw [List.length_append, e1]; exact Nat.dvd_add h4 hst) (by rw [List.length_append]; omega) h hF
    rw [List.length_append, e1] at i2 i3
    have hAt : At F b.length (resolveStruct T.entry [("key", k), ("value", (i16 T.endian).enc n.2)]) := by
      have := At.self b (resolveStruct T.entry [("key", k), ("value", (i16 T.endian).enc n.2)]) []
      rw [List.append_nil] at this
      exact this.prefix (i1.trans hF)
    refine ⟨(List.prefix_append _ _).trans i1, ?_, ?_⟩
    · rw [i2, List.length_cons, Nat.add_mul]; omega
    · have hat : ∀ f ∈ [("key", k), ("value", (i16 T.endian).enc n.2)], At F (b.length + T.entry.off f.1) f.2 :=
        fun f hf => hAt.trans (e2 f hf)
      have n2 := readAt_field (base := base) (p := i16 T.endian) (name := "value") (x := n.2) hT.entry hat
        (by simp [i16, reprI16]) (faithful_i16 T.endian _ (hi n (by simp))) (by show 0 < 2; decide)
        (by show 2 ∣ 16; decide) (by simp) hb (by rw [hal]; exact h4)
      have sn := readStr_field (base := base) hT hT.entry hat (name := "key") (by simp)
        (fun q hq => hn q (Nat.le_trans hp hq)) hk (by simp) hb (by rw [hal]; exact h4)
      simp only [List.length_cons, readEntries, bind, Option.bind, sn, n2, i3, pure]

theorem resEntries_some {T : Target} (hT : TargetOk T) {F : Buf} {p : Nat} :
    ∀ (order : JointNames) (rs : List Nat) (b : Buf),
      (∀ x ∈ order, -32768 ≤ x.2 ∧ x.2 ≤ 32767) →
      List.Forall₂ (fun n r => StrWritten T.str n.1 r F p) order rs → p ≤ b.length →
      b.length + order.length * T.entry.size < 2 ^ 31 → ∃ b', resEntries T (order.zip rs) b = some b' := by
  intro order rs b hi hf
  induction hf generalizing b with
  | nil => intro _ _; exact ⟨_, rfl⟩
  | @cons n r ns rs hn hns ih =>
    intro hp hl
    have hin := hT.entry.inside ⟨"key", T.str.size, 4⟩ (by simp)
    simp only at hin
    rw [List.length_cons, Nat.add_mul, Nat.one_mul] at hl
    have hv := hT.entry.inside ⟨"value", 2, 2⟩ (by simp)
    simp only at hv
    obtain ⟨k, hk⟩ := Option.ne_none_iff_exists'.1 ((hn (b.length + T.entry.off "key") (by omega)).1 (by
      have := hT.entry.apart
      simp only [List.pairwise_cons, List.mem_cons, List.not_mem_nil, or_false, forall_eq] at this
      omega))
    have hm : Matches [("key", k), ("value", (i16 T.endian).enc n.2)] [⟨"key", T.str.size, 4⟩, ⟨"value", 2, 2⟩] := by
      refine ⟨by simp only [List.map_cons, List.map_nil]; decide +kernel, ?_⟩
      simp only [List.mem_cons, List.not_mem_nil, or_false, forall_eq_or_imp, forall_eq]
      exact ⟨⟨⟨"key", T.str.size, 4⟩, by simp, rfl, hT.str.length _ _ _ _ hk⟩, ⟨"value", 2, 2⟩, by simp, rfl,
        (faithful_i16 T.endian n.2 (hi n (by simp))).1⟩
    obtain ⟨e1, _⟩ := resolveStruct_ok hT.entry hm
    obtain ⟨b', hb'⟩ := ih (b ++ resolveStruct T.entry [("key", k), ("value", (i16 T.endian).enc n.2)])
      (fun x hx => hi x (by simp [hx])) (by rw [List.length_append]; omega) (by rw [List.length_append, e1]; omega)
    exact ⟨b', by simp only [List.zip_cons_cons, resEntries, bind, Option.bind, hk]; exact hb'⟩

/-- The entries of the map, written and read. -/
theorem serEntries_ok {T : Target} (hT : TargetOk T) {order : JointNames} (hi : ∀ x ∈ order, -32768 ≤ x.2 ∧ x.2 ≤ 32767)
    {b b' : Buf} {start : Nat} (h : serEntries T order b = some (start, b')) :
    b <+: b' ∧ 4 ∣ start ∧ b'.length = start + order.length * T.entry.size ∧
      ∀ base F, 16 ∣ base → b' <+: F → readEntries T base F order.length start = some order := by
  have hal := entry_align hT
  obtain ⟨w1, w2, w3⟩ := writes_keys hT order b
  rw [show serEntries T order b = (resEntries T (order.zip (serKeys T order b).1) (padTo T.entry.align (serKeys T order b).2)).bind
    (fun b' => some ((padTo T.entry.align (serKeys T order b).2).length, b')) from rfl, Option.bind_eq_some_iff] at h
  obtain ⟨b'', hr, he⟩ := h
  simp only [Option.some.injEq, Prod.mk.injEq] at he
  obtain ⟨rfl, rfl⟩ := he
  rw [hal] at hr ⊢
  obtain ⟨p1, p2, _⟩ := padTo_length 4 (serKeys T order b).2 (by decide)
  have key := fun (base : Nat) (F : Buf) (hb : 16 ∣ base) (hw : (serKeys T order b).2 <+: F) (hF : b'' <+: F) =>
    resEntries_ok hT (F := F) (base := base) (p := (serKeys T order b).2.length) hb order _ _ _ hi
      (w3 F _ hw (Nat.le_refl _)) p1 p2 hr hF
  have pre : padTo 4 (serKeys T order b).2 <+: b'' := by
    clear key w3
    revert hr
    generalize padTo 4 (serKeys T order b).2 = c
    generalize order.zip _ = l
    intro hr
    clear hi w1 w2 p1 p2 hal
    induction l generalizing c with
    | nil => cases hr; exact List.prefix_refl _
    | cons x xs ih =>
      simp only [resEntries, bind, Option.bind_eq_some_iff] at hr
      obtain ⟨k, _, hr⟩ := hr
      exact (List.prefix_append _ _).trans (ih _ hr)
  obtain ⟨_, k2, _⟩ := key 0 b'' (by decide) ((padTo_prefix _ _).trans pre) (List.prefix_refl _)
  exact ⟨w1.trans ((padTo_prefix _ _).trans pre), p1, k2,
    fun base F hb hF => (key base F hb (((padTo_prefix _ _).trans pre).trans hF) hF).2.2⟩

theorem serEntries_some {T : Target} (hT : TargetOk T) {order : JointNames} (hi : ∀ x ∈ order, -32768 ≤ x.2 ∧ x.2 ≤ 32767)
    {b : Buf} (hs : b.length + namesBytes order + 4 + order.length * T.entry.size < 2 ^ 31) :
    ∃ start b', serEntries T order b = some (start, b') ∧ start ≤ b.length + namesBytes order + 4 := by
  have hal := entry_align hT
  obtain ⟨w1, w2, w3⟩ := writes_keys hT order b
  obtain ⟨p1, p2, p3⟩ := padTo_length 4 (serKeys T order b).2 (by decide)
  obtain ⟨b', hb'⟩ := resEntries_some hT order _ (padTo 4 (serKeys T order b).2) hi
    (w3 _ _ (List.prefix_refl _) (Nat.le_refl _)) p2 (by omega)
  refine ⟨(padTo 4 (serKeys T order b).2).length, b', ?_, ?_⟩
  · rw [show serEntries T order b = (resEntries T (order.zip (serKeys T order b).1) (padTo T.entry.align (serKeys T order b).2)).bind
      (fun b' => some ((padTo T.entry.align (serKeys T order b).2).length, b')) from rfl, hal, hb']
    rfl
  · omega

theorem skeleton_align {T : Target} (hT : TargetOk T) : T.skeleton.align = 4 := by
  obtain ⟨f, hf, h⟩ := hT.skeleton.strictest
  rw [h]
  simp only [List.mem_cons, List.not_mem_nil, or_false] at hf
  rcases hf with rfl | rfl | rfl | rfl <;> rfl

theorem resolveSkeleton_matches {T : Target} (hT : TargetOk T) {s : SkeletonRaw} (pos : Nat)
    (r : SkeletonResolver) (fs : List (String × Buf)) (h : resolveSkeleton T s pos r = some fs) :
    Matches fs [⟨"num_joints", 4, 4⟩, ⟨"joint_rest_poses", T.vec.size, 4⟩, ⟨"joint_names", T.vec.size, 4⟩,
     ⟨"joint_parents", T.vec.size, 4⟩] := by
  simp only [resolveSkeleton, bind, Option.bind_eq_some_iff, pure, Option.some.injEq] at h
  obtain ⟨a, ha, b, hb, c, hc, rfl⟩ := h
  refine ⟨by simp only [List.map_cons, List.map_nil]; decide +kernel, ?_⟩
  simp only [List.mem_cons, List.not_mem_nil, or_false, forall_eq_or_imp, forall_eq]
  exact ⟨⟨⟨"num_joints", 4, 4⟩, by simp, rfl, nativeBytes_length ..⟩,
    ⟨⟨"joint_rest_poses", T.vec.size, 4⟩, by simp, rfl, (vecAt_length hT.vec ha).1⟩,
    ⟨⟨"joint_names", T.vec.size, 4⟩, by simp, rfl, (vecAt_length hT.vec hb).1⟩,
    ⟨⟨"joint_parents", T.vec.size, 4⟩, by simp, rfl, (vecAt_length hT.vec hc).1⟩⟩

theorem serializeSkeleton_eq (T : Target) (s : SkeletonRaw) (order : JointNames) (b : Buf) :
    serializeSkeleton T s order b =
      (serEntries T order (serSlice (soa T.endian 40) s.jointRestPoses (padTo 16 b)).2).bind fun e =>
        some (⟨(serSlice (soa T.endian 40) s.jointRestPoses (padTo 16 b)).1, e.1, (serSlice (i16 T.endian) s.jointParents e.2).1⟩,
          (serSlice (i16 T.endian) s.jointParents e.2).2) := rfl

/-- What an archived skeleton reads as: the skeleton made from its raw form. -/
theorem deserializeSkeleton_ok {T : Target} (hT : TargetOk T) {s : SkeletonRaw} {order : JointNames}
    (hk : SkeletonShape s) (hp : s.jointNames.Perm order) {b b' : Buf} {pos : Nat}
    (h : archiveSkeleton T s order b = some (pos, b')) {base : Nat} :
    s.jointParents.length < 2 ^ 32 ∧ b <+: b' ∧
    (16 ∣ base → rootAt T.skeleton base b' = some pos ∧ ∀ rest block m,
      deserializeSkeleton T base (b' ++ rest) pos block m =
        some (skeletonFromRaw T.endian block m
          ⟨s.jointRestPoses, s.jointParents, order.foldl (fun (m : JointNames) e => m.insert e.1 e.2) []⟩)) ∧
    (4 ∣ base → ¬ 16 ∣ base → ∀ rest block m, deserializeSkeleton T base (b' ++ rest) pos block m = none) := by
  have hal := skeleton_align hT
  have hi : ∀ x ∈ order, -32768 ≤ x.2 ∧ x.2 ≤ 32767 := fun x hx => hk.indices x (hp.mem_iff.2 hx)
  have hpo : PodOk (soa T.endian 40) s.jointRestPoses := podOk_soa _ _ (by decide) (by decide) _ hk.poses
  have hpa : PodOk (i16 T.endian) s.jointParents := podOk_i16 _ _ hk.parents
  simp only [archiveSkeleton, bind, Option.bind_eq_some_iff, Prod.exists] at h
  obtain ⟨q, c, hser, h⟩ := h
  rw [serializeSkeleton_eq] at hser
  simp only [Option.bind_eq_some_iff, Prod.exists, Option.some.injEq, Prod.mk.injEq] at hser
  obtain ⟨names, d, hent, hq, hc⟩ := hser
  obtain ⟨o1, o2, o3⟩ := writes_slice hpo (padTo 16 b)
  obtain ⟨e1, e2, e3, e4⟩ := serEntries_ok hT hi hent
  obtain ⟨a1, a2, a3⟩ := writes_slice hpa d
  have hw : Writes (fun b => (q, b) : StateM Buf SkeletonResolver) 0 fun r _ _ => r = q :=
    fun b => ⟨List.prefix_refl b, Nat.le_refl _, fun _ _ _ _ => rfl⟩
  obtain ⟨q', fs, hr, h4, hpre, hposle, hlen, hF⟩ := serializeValue_ok hT.skeleton (by rw [hal]; decide) hw
    (resolveSkeleton_matches hT) h
  have hq' : q' = q := (hF b' (List.prefix_refl _)).1
  subst hq'
  subst hc
  subst hq
  have hoc : (serSlice (soa T.endian 40) s.jointRestPoses (padTo 16 b)).2 <+: (serSlice (i16 T.endian) s.jointParents d).2 :=
    e1.trans a1
  simp only [resolveSkeleton, bind, Option.bind_eq_some_iff, pure, Option.some.injEq] at hr
  obtain ⟨v1, hv1, v2, hv2, v3, hv3, rfl⟩ := hr
  have hsz : 0 < T.entry.size := by
    have := hT.entry.inside ⟨"value", 2, 2⟩ (by simp)
    simp only at this; omega
  have lenP : s.jointParents.length < 2 ^ 32 := by
    obtain ⟨_, q, hq, _⟩ := vecAt_length hT.vec hv3
    obtain ⟨_, _, _, hlo⟩ := relPtr_some hq
    have h1 := (a3 _ pos (List.prefix_refl _) hposle).before
    rw [show (i16 T.endian).size = 2 from rfl] at h1
    omega
  have lenN : s.jointNames.length < 2 ^ 32 := by
    obtain ⟨_, q, hq, _⟩ := vecAt_length hT.vec hv2
    obtain ⟨_, _, _, hlo⟩ := relPtr_some hq
    have h1 := a1.length_le
    rw [e3, ← hp.length_eq] at h1
    have h2 : s.jointNames.length ≤ s.jointNames.length * T.entry.size := Nat.le_mul_of_pos_right _ hsz
    omega
  refine ⟨lenP, ((padTo_prefix _ _).trans o1).trans (hoc.trans hpre), fun hb => ⟨rootAt_ok hlen (Nat.dvd_add (Nat.dvd_trans
    (by rw [hal]; decide) hb) h4), fun rest block m => ?_⟩, fun hb hb16 rest block m => ?_⟩
  · obtain ⟨_, hat⟩ := hF (b' ++ rest) (List.prefix_append _ _)
    have hF0 : (serSlice (i16 T.endian) s.jointParents d).2 <+: b' ++ rest := hpre.trans (List.prefix_append _ _)
    generalize b' ++ rest = F at hat hF0
    have s1 := o3 F pos (hoc.trans hF0) (Nat.le_trans hoc.length_le hposle)
    have s3 := a3 F pos hF0 hposle
    have r1 := readVec_field (base := base) hT hT.skeleton hat (name := "joint_rest_poses") (by simp) hpo s1 hv1
      (by simp) hb h4
    have r3 := readVec_field (base := base) hT hT.skeleton hat (name := "joint_parents") (by simp) hpa s3 hv3
      (by simp) hb h4
    have n1 := readAt_field (base := base) (p := uint T.endian 4) (name := "num_joints") (x := s.jointParents.length)
      hT.skeleton hat (by simp [uint]) (faithful_uint T.endian 4 _ lenP) (by show 0 < 4; decide)
      (by show 4 ∣ 16; decide) (by simp) hb h4
    have r2 := readPtr_ok hT.vec (base := base) hv2 (hat ("joint_names", v2) (by simp))
      (Nat.dvd_add (Nat.dvd_trans (by decide) hb) (Nat.dvd_add (by rw [hal] at h4; exact h4)
        (hT.skeleton.aligned ⟨"joint_names", T.vec.size, 4⟩ (by simp)))) lenN
    have hent := e4 base F hb (a1.trans hF0)
    rw [← hp.length_eq] at hent
    have h0 : (base + names) % T.entry.align = 0 := by
      rw [entry_align hT]; exact Nat.mod_eq_zero_of_dvd (Nat.dvd_add (Nat.dvd_trans (by decide) hb) e2)
    simp only [deserializeSkeleton, bind, Option.bind, n1, r1, r2, r3, h0, hent, ↓reduceIte, pure]
    have : lenU32 s.jointParents = s.jointParents.length := Nat.mod_eq_of_lt lenP
    simp only [skeletonFromRaw, this]
    rfl
  · obtain ⟨_, hat⟩ := hF (b' ++ rest) (List.prefix_append _ _)
    have hF0 : (serSlice (i16 T.endian) s.jointParents d).2 <+: b' ++ rest := hpre.trans (List.prefix_append _ _)
    generalize b' ++ rest = F at hat hF0
    have s1 := o3 F pos (hoc.trans hF0) (Nat.le_trans hoc.length_le hposle)
    have lenR : s.jointRestPoses.length < 2 ^ 32 := by
      obtain ⟨_, q, hq, _⟩ := vecAt_length hT.vec hv1
      obtain ⟨_, _, _, hlo⟩ := relPtr_some hq
      have h1 := s1.before
      rw [show (soa T.endian 40).size = 160 from rfl] at h1
      omega
    have r1 := readPtr_ok hT.vec (base := base) hv1 (hat ("joint_rest_poses", v1) (by simp))
      (Nat.dvd_add hb (Nat.dvd_add (by rw [hal] at h4; exact h4)
        (hT.skeleton.aligned ⟨"joint_rest_poses", T.vec.size, 4⟩ (by simp)))) lenR
    have hne : ¬ (base + (serSlice (soa T.endian 40) s.jointRestPoses (padTo 16 b)).1) % (soa T.endian 40).align = 0 := by
      intro h0
      have h1 : 16 ∣ (serSlice (soa T.endian 40) s.jointRestPoses (padTo 16 b)).1 := s1.aligned
      have h2 : 16 ∣ base + (serSlice (soa T.endian 40) s.jointRestPoses (padTo 16 b)).1 := Nat.dvd_of_mod_eq_zero h0
      exact hb16 ((Nat.dvd_add_left h1).1 h2)
    have r1' : readVec T (soa T.endian 40) base F (pos + T.skeleton.off "joint_rest_poses") = none := by
      simp only [readVec, bind, Option.bind, r1, if_neg hne]
    simp only [deserializeSkeleton, bind, Option.bind, r1']
    split <;> rfl

theorem archiveSkeleton_some {T : Target} (hT : TargetOk T) {s : SkeletonRaw} {order : JointNames}
    (hk : SkeletonShape s) (hp : s.jointNames.Perm order) {b : Buf}
    (hs : b.length + skeletonBytes T s + 64 + T.skeleton.size + T.vec.size < 2 ^ 31) :
    ∃ out, archiveSkeleton T s order b = some out := by
  have hal := skeleton_align hT
  have hi : ∀ x ∈ order, -32768 ≤ x.2 ∧ x.2 ≤ 32767 := fun x hx => hk.indices x (hp.mem_iff.2 hx)
  have hpo : PodOk (soa T.endian 40) s.jointRestPoses := podOk_soa _ _ (by decide) (by decide) _ hk.poses
  have hpa : PodOk (i16 T.endian) s.jointParents := podOk_i16 _ _ hk.parents
  have hnb : namesBytes order = namesBytes s.jointNames := ((hp.map _).sum_nat).symm
  simp only [skeletonBytes] at hs
  obtain ⟨p1, p2, p3⟩ := padTo_length 16 b (by decide)
  obtain ⟨o1, o2, o3⟩ := writes_slice hpo (padTo 16 b)
  rw [show (soa T.endian 40).size = 160 from rfl] at o2
  obtain ⟨names, d, hent, hst⟩ := serEntries_some hT hi (b := (serSlice (soa T.endian 40) s.jointRestPoses (padTo 16 b)).2) (by
    rw [hnb, ← hp.length_eq]; omega)
  obtain ⟨e1, e2, e3, e4⟩ := serEntries_ok hT hi hent
  rw [← hp.length_eq] at e3
  obtain ⟨a1, a2, a3⟩ := writes_slice hpa d
  rw [show (i16 T.endian).size = 2 from rfl] at a2
  have s1 := (o3 _ _ (List.prefix_refl _) (Nat.le_refl _)).before
  have s3 := (a3 _ _ (List.prefix_refl _) (Nat.le_refl _)).before
  let q : SkeletonResolver := ⟨(serSlice (soa T.endian 40) s.jointRestPoses (padTo 16 b)).1, names, (serSlice (i16 T.endian) s.jointParents d).1⟩
  have hser : serializeSkeleton T s order b = some (q, (serSlice (i16 T.endian) s.jointParents d).2) := by
    rw [serializeSkeleton_eq, hent]
    rfl
  have hw : Writes (fun b => (q, b) : StateM Buf SkeletonResolver) 0 fun r _ _ => r = q :=
    fun b => ⟨List.prefix_refl b, Nat.le_refl _, fun _ _ _ _ => rfl⟩
  have hex := serializeValue_ne_none (L := T.skeleton) (res := resolveSkeleton T s)
    (b := (serSlice (i16 T.endian) s.jointParents d).2) (k := 2 ^ 31 - 1 - T.skeleton.size - T.vec.size)
    (by rw [hal]; decide) hw (by
      rintro pos r F rfl hpos
      have h1 := hT.vec.inside ⟨"ptr", 4, 4⟩ (by simp)
      have hin := hT.skeleton.inside
      simp only [List.mem_cons, List.not_mem_nil, or_false, forall_eq_or_imp, forall_eq] at hin h1
      obtain ⟨x, hx⟩ := Option.ne_none_iff_exists'.1 (vecAt_ne_none (T := T) (pos := pos + T.skeleton.off "joint_rest_poses")
        (len := s.jointRestPoses.length) (target := q.poses) (by omega) (by simp only [q]; omega))
      obtain ⟨y, hy⟩ := Option.ne_none_iff_exists'.1 (vecAt_ne_none (T := T) (pos := pos + T.skeleton.off "joint_names")
        (len := s.jointNames.length) (target := q.names) (by omega) (by simp only [q]; omega))
      obtain ⟨z, hz⟩ := Option.ne_none_iff_exists'.1 (vecAt_ne_none (T := T) (pos := pos + T.skeleton.off "joint_parents")
        (len := s.jointParents.length) (target := q.parents) (by omega) (by simp only [q]; omega))
      simp only [resolveSkeleton, bind, Option.bind, hx, hy, hz, pure]
      simp) (by rw [hal]; omega)
  obtain ⟨out, hout⟩ := hex
  exact ⟨out, by simp only [archiveSkeleton, bind, Option.bind, hser]; exact hout⟩

end Ozz.Rkyv
