import Verif.Proofs.Names

set_option linter.unusedVariables false

/-!
Properties C01–C07 and C27: archives and joint names.

`loadWith native loader s` is `Archive::new` followed by the loader, on a host of byte order
`native`, with `s` the content of the file. The format (`Format.*`) is specified separately in
`Verif/Spec/Archive.lean`.
-/

namespace Ozz.Props

open Format

/-! ### C01: byte order -/

/-- Reads numbers of the given sizes in sequence. -/
def readSizes (a : Archive) : List Nat → Rd (List Nat)
  | [] => return []
  | n :: ns => do
    let x ← readPrim a n
    let xs ← readSizes a ns
    return x :: xs

/-- **C01.** A sequence of numbers of any sizes written in either byte order behind a tag byte that
announces it is read back as those numbers on either kind of host. -/
theorem C01_byte_order_transparent (native o : Endian) (tag : UInt8) (h : Announces o tag)
    (xs : List (Nat × Nat)) (hx : ∀ x ∈ xs, x.2 < 256 ^ x.1) (rest : List UInt8) :
    loadWith native (fun a => readSizes a (xs.map (·.1)))
      (tag :: (xs.flatMap fun x => num o x.1 x.2) ++ rest) = .ok (xs.map (·.2), rest) := by
  refine (parses_load native o tag h _ _ _ fun a ha => ?_).1 rest
  subst ha
  induction xs with
  | nil => exact Parses.pure _
  | cons x xs ih =>
    rw [List.flatMap_cons]
    exact Parses.bind (parses_readPrim a _ _ (hx x (by simp)))
      (Parses.bind_pure (ih fun y hy => hx y (List.mem_cons_of_mem _ hy)) rfl)

/-- The typed readers return the number: unsigned, float (as bits), and signed in two's
complement. -/
theorem C01_typed_readers (native o : Endian) (tag : UInt8) (h : Announces o tag)
    (rest : List UInt8) :
    (∀ x : UInt8, loadWith native readU8 (tag :: num o 1 x.toNat ++ rest) = .ok (x, rest)) ∧
    (∀ x : UInt16, loadWith native readU16 (tag :: num o 2 x.toNat ++ rest) = .ok (x, rest)) ∧
    (∀ x : UInt32, loadWith native readU32 (tag :: num o 4 x.toNat ++ rest) = .ok (x, rest)) ∧
    (∀ x : UInt32, loadWith native readF32 (tag :: num o 4 x.toNat ++ rest) = .ok (x, rest)) ∧
    (∀ x : Int, -32768 ≤ x → x ≤ 32767 →
      loadWith native readI16 (tag :: num o 2 (x % 65536).toNat ++ rest) = .ok (x, rest)) := by
  refine ⟨fun x => ?_, fun x => ?_, fun x => ?_, fun x => ?_, fun x h1 h2 => ?_⟩ <;>
    refine (parses_load native o tag h _ _ _ fun a ha => ?_).1 rest <;> subst ha
  · rw [num_one]; exact parses_readU8 a x
  · exact parses_readU16 a x
  · exact parses_readU32 a x
  · exact parses_readU32 a x
  · exact parses_readI16 a x ⟨h1, h2⟩

/-- Whatever the file contains, loading gives the same result (value, error and bytes consumed) on
either kind of host. -/
theorem C01_host_independent (native native' : Endian) (s : List UInt8) :
    (∀ k, loadWith native (Track.fromArchive k) s = loadWith native' (Track.fromArchive k) s) ∧
    loadWith native Skeleton.fromArchive s = loadWith native' Skeleton.fromArchive s ∧
    loadWith native Animation.fromArchive s = loadWith native' Animation.fromArchive s :=
  ⟨fun k => load_host _ (fun _ _ h => order_ext_track h k) _ _ s,
    load_host _ (fun _ _ h => order_ext_skeleton h) _ _ s,
    load_host _ (fun _ _ h => order_ext_animation h) _ _ s⟩

example : loadWith .little (fun a => readSizes a [2, 4]) [0, 1, 2, 0, 0, 3, 4, 9] =
    .ok ([0x0102, 0x0304], [9]) := by decide +kernel
example : loadWith .big (fun a => readSizes a [2, 4]) [7, 2, 1, 4, 3, 0, 0, 9] =
    .ok ([0x0102, 0x0304], [9]) := by decide +kernel

/-! ### C02: strings -/

/-- **C02.** Every stream without terminator is an I/O error; otherwise the bytes before the first
terminator are the result if they are UTF-8, and a UTF-8 error with the length of the longest valid
start (as a `u32`) if not. -/
theorem C02_strings (a : Archive) :
    (∀ s : List UInt8, 0 ∉ s → readString a s = .error (.err .io)) ∧
    (∀ bs rest : List UInt8, 0 ∉ bs → IsUtf8 bs →
      readString a (bs ++ 0 :: rest) = .ok (bs, rest)) ∧
    (∀ bs rest : List UInt8, 0 ∉ bs → ¬ IsUtf8 bs → ∃ n, ValidUpTo bs n ∧
      readString a (bs ++ 0 :: rest) = .error (.err (.utf8 (n % 2 ^ 32)))) := by
  refine ⟨readString_end a, readString_ok a, fun bs rest h0 hu => ?_⟩
  obtain ⟨n, hn, e⟩ := fromUtf8_err bs rest hu
  refine ⟨n, hn, ?_⟩
  show (readUntilNul a (bs ++ 0 :: rest) >>= fun p => fromUtf8 p.1 p.2) = _
  rw [readUntilNul_found a bs rest h0]
  exact e

/-- The three cases of `C02_strings` cover every stream. -/
theorem C02_cases (s : List UInt8) :
    0 ∉ s ∨ ∃ bs rest, s = bs ++ 0 :: rest ∧ 0 ∉ bs := split_nul s

/-- UTF-8 validation accepts exactly the encodings of text. -/
theorem C02_utf8 (bs : List UInt8) : utf8Scan 0 bs = none ↔ IsUtf8 bs := utf8Scan_none_iff bs 0

-- "é€" then a terminator
example : IsUtf8 [0xC3, 0xA9, 0xE2, 0x82, 0xAC] :=
  ⟨[0xE9, 0x20AC], by simp [IsScalar], by decide +kernel⟩
example : readString ⟨.little, true⟩ [0xC3, 0xA9, 0xE2, 0x82, 0xAC, 0, 5] =
    .ok ([0xC3, 0xA9, 0xE2, 0x82, 0xAC], [5]) := by decide +kernel
-- a surrogate after one good character
example : readString ⟨.little, true⟩ [0x41, 0xED, 0xA0, 0x80, 0, 5] = .error (.err (.utf8 1)) := by
  decide +kernel

/-! ### C03: tracks -/

/-- **C03.** Loading the file of a track gives that track and leaves what follows. -/
theorem C03_track_round_trip (native o : Endian) (tag : UInt8) (h : Announces o tag)
    (k : TrackKind) (t : Track UInt32 (List UInt32)) (ht : TrackWF k t) (rest : List UInt8) :
    loadWith native (Track.fromArchive k) (tag :: track o k t ++ rest) = .ok (t, rest) :=
  (parses_load native o tag h _ _ _ fun a ha => ha ▸ parses_track a k t ht).1 rest

/-- A track of two 2-component keys named "é". -/
def track2 : Track UInt32 (List UInt32) :=
  { keyCount := 2, ratios := [0, 0x3f800000], values := [[1, 2], [3, 0xffffffff]], steps := [2],
    name := [0xC3, 0xA9] }

theorem track2_wf : TrackWF .float2 track2 := by
  refine ⟨rfl, rfl, by decide, rfl, ⟨[0xE9], by simp [IsScalar], by decide +kernel⟩, ?_, ?_⟩ <;>
    decide

example : loadWith .little (Track.fromArchive .float2) (0 :: track .big .float2 track2 ++ [1, 2]) =
    .ok (track2, [1, 2]) :=
  C03_track_round_trip .little .big 0 (by simp [Announces]) .float2 track2 track2_wf [1, 2]
example : (track .big .float2 track2).length = 17 + 12 + 8 + 16 + 1 + 2 := by decide +kernel

/-- Key counts close to 2³² make the computation of the number of step bytes overflow, after the
ratios and values have been read. -/
theorem C03_huge_key_count_panics (x : UInt32) (s : List UInt8) (h : 2 ^ 32 - 7 ≤ x.toNat) :
    addU32 x 7 s = .error .panic := by
  simp only [addU32]
  rw [if_neg]
  have : (7 : UInt32).toNat = 7 := rfl
  omega

/-! ### C04: skeletons -/

/-- **C04.** Loading the file of a skeleton gives its joint count, parents and rest poses in order,
and consumes exactly the file. -/
theorem C04_skeleton_arrays_round_trip (native o : Endian) (tag : UInt8) (h : Announces o tag)
    (cc : UInt32) (k : SkeletonContent) (hk : SkeletonWF k) (rest : List UInt8) :
    ∃ sk : SkeletonData,
      loadWith native Skeleton.fromArchive (tag :: skeleton o cc k ++ rest) = .ok (sk, rest) ∧
      sk.numJoints.toNat = k.names.length ∧ sk.jointParents = k.parents ∧
      sk.jointRestPoses = k.restPoses := by
  refine ⟨_, (parses_load native o tag h _ _ _ fun a ha => ha ▸ parses_skeleton a cc k hk).1 rest,
    ?_, rfl, rfl⟩
  rw [UInt32.toNat_ofNat', Nat.mod_eq_of_lt hk.count]

/-- **C04, partial.** The names come back too if they are pairwise distinct and there are at most
32768 of them. Missing: repeated names, which the loader loses (`C04_repeated_name_lost`). -/
theorem C04_skeleton_names_round_trip_partial (native o : Endian) (tag : UInt8)
    (h : Announces o tag) (cc : UInt32) (k : SkeletonContent) (hk : SkeletonWF k)
    (hd : k.names.Nodup) (hl : k.names.length ≤ 32768) (rest : List UInt8) :
    ∃ sk : SkeletonData,
      loadWith native Skeleton.fromArchive (tag :: skeleton o cc k ++ rest) = .ok (sk, rest) ∧
      (List.range k.names.length).map (fun i : Nat => nameByJoint sk.jointNames (i : Int)) =
        k.names.map some := by
  refine ⟨_, (parses_load native o tag h _ _ _ fun a ha => ha ▸ parses_skeleton a cc k hk).1 rest,
    ?_⟩
  apply List.ext_getElem
  · simp
  · intro i h1 h2
    have hi : i < k.names.length := by simpa using h1
    simp only [List.getElem_map, List.getElem_range]
    rw [nameByJoint_iff, mem_bimap_distinct _ hd hl]
    exact ⟨i, rfl, List.getElem?_eq_getElem hi⟩

/-- In general a joint keeps its name exactly if no later joint has the same name or the same index
as a 16-bit number. -/
theorem C04_names_kept (native o : Endian) (tag : UInt8)
    (h : Announces o tag) (cc : UInt32) (k : SkeletonContent) (hk : SkeletonWF k)
    (rest : List UInt8) :
    ∃ sk : SkeletonData,
      loadWith native Skeleton.fromArchive (tag :: skeleton o cc k ++ rest) = .ok (sk, rest) ∧
      ∀ (x : List UInt8) (j : Int), nameByJoint sk.jointNames j = some x ↔
        ∃ i, k.names[i]? = some x ∧ j = asI16 i ∧
          ∀ i', i < i' → i' < k.names.length → k.names[i']? ≠ some x ∧ asI16 i' ≠ j := by
  refine ⟨_, (parses_load native o tag h _ _ _ fun a ha => ha ▸ parses_skeleton a cc k hk).1 rest,
    fun x j => ?_⟩
  rw [nameByJoint_iff, mem_bimap]

/-- A repeated name is lost: a skeleton whose two joints are both named "a" comes back with a
nameless first joint. -/
theorem C04_repeated_name_lost :
    ∃ (k : SkeletonContent) (sk : SkeletonData), SkeletonWF k ∧
      loadWith .little Skeleton.fromArchive (1 :: skeleton .little 2 k) = .ok (sk, []) ∧
      k.names[0]? = some [97] ∧ nameByJoint sk.jointNames 0 = none := by
  let k : SkeletonContent :=
    ⟨[[97], [97]], [-1, 0], [List.replicate 40 0]⟩
  have hk : SkeletonWF k := by
    refine ⟨by decide, ?_, rfl, by decide, by decide, by decide⟩
    intro n hn
    have : n = [97] := by simpa [k] using hn
    subst this
    exact ⟨isUtf8_ascii _ (by decide), by decide⟩
  have := (parses_load .little .little 1 (by simp [Announces]) _ _ _ fun a ha =>
    ha ▸ parses_skeleton a 2 k hk).1 []
  rw [List.append_nil] at this
  exact ⟨k, _, hk, this, rfl, by decide⟩

/-- The file of an empty skeleton as the C++ library writes it (nothing after the joint count) is
rejected with an I/O error, although `read_meta` accepts it. -/
theorem C04_empty_skeleton_rejected (native o : Endian) (tag : UInt8) (h : Announces o tag) :
    loadWith native Skeleton.fromArchive
      (tag :: (cstr (str "ozz-skeleton") ++ num o 4 2 ++ num o 4 0)) = .error (.err .io) ∧
    loadWith native (fun a => Skeleton.readMeta a true)
      (tag :: (cstr (str "ozz-skeleton") ++ num o 4 2 ++ num o 4 0)) =
        .ok (⟨2, 0, [], []⟩, []) := by
  constructor
  · have hk : SkeletonWF ⟨[], [], []⟩ :=
      ⟨by simp, by simp, rfl, by simp, rfl, by simp⟩
    have := (parses_load native o tag h _ _ _ fun a ha => ha ▸ parses_skeleton a 0 _ hk).2
      (tag :: (cstr (str "ozz-skeleton") ++ num o 4 2 ++ num o 4 0)) ?_ ?_
    · exact this
    · refine ⟨num o 4 0, ?_⟩
      simp [skeleton, i16s]
    · intro e
      have := congrArg List.length e
      simp [skeleton, i16s, num_length, cstr] at this
  · have hp : ∀ a : Archive, a.order = o → Parses (Skeleton.readMeta a true)
        (cstr (str "ozz-skeleton") ++ num o 4 2 ++ num o 4 0) ⟨2, 0, [], []⟩ := by
      rintro a rfl
      unfold Skeleton.readMeta
      refine Parses.bind (parses_checkTagVersion a skeletonTag 2 zero_not_mem_skeletonTag
        isUtf8_skeletonTag) ?_
      have := Parses.bind (parses_readU32 a 0) (bs' := []) (w := (⟨2, 0, [], []⟩ : SkeletonMeta))
        (f := fun numJoints => if numJoints == 0 || !true then
          pure { version := 2, numJoints, jointNames := [], jointParents := [] }
        else do
          let _charCount ← readU32 a
          let jointNames ← readNames a numJoints.toNat 0 []
          let jointParents ← readMany (readI16 a) numJoints.toNat
          return { version := 2, numJoints, jointNames, jointParents })
        (by simp; exact Parses.pure _)
      rwa [List.append_nil] at this
    have := (parses_load native o tag h _ _ _ hp).1 []
    rwa [List.append_nil] at this

/-- `read_meta` with joints reads the same count, names and parents as `from_archive`. -/
theorem C04_meta_agrees (native o : Endian) (tag : UInt8) (h : Announces o tag)
    (cc : UInt32) (k : SkeletonContent) (hk : SkeletonWF k) (hne : k.names ≠ [])
    (rest : List UInt8) :
    ∃ (sk : SkeletonData) (m : SkeletonMeta) (rest' : List UInt8),
      loadWith native Skeleton.fromArchive (tag :: skeleton o cc k ++ rest) = .ok (sk, rest) ∧
      loadWith native (fun a => Skeleton.readMeta a true) (tag :: skeleton o cc k ++ rest) =
        .ok (m, rest') ∧
      m.numJoints = sk.numJoints ∧ m.jointNames = sk.jointNames ∧
      m.jointParents = sk.jointParents ∧ m.version = 2 := by
  have h1 := (parses_load native o tag h _ _ _ fun a ha => ha ▸ parses_skeleton a cc k hk).1 rest
  have h2 := (parses_load native o tag h (fun a => Skeleton.readMeta a true) _ _
    fun a ha => ha ▸ parses_skeleton_meta a cc k hk hne).1 (k.restPoses.flatMap (u32s o) ++ rest)
  rw [← List.append_assoc] at h2
  exact ⟨_, _, _, h1, h2, rfl, rfl, rfl, rfl⟩

/-- A skeleton of two joints, "a" and its child "bc". -/
def skeleton2 : SkeletonContent :=
  ⟨[[97], [98, 99]], [-1, 0], [(List.range 40).map UInt32.ofNat]⟩

theorem skeleton2_wf : SkeletonWF skeleton2 := by
  refine ⟨by decide, ?_, rfl, by decide, rfl, by decide⟩
  intro n hn
  have : n = [97] ∨ n = [98, 99] := by simpa [skeleton2] using hn
  rcases this with rfl | rfl <;> exact ⟨isUtf8_ascii _ (by decide), by decide⟩

example : ∃ sk : SkeletonData,
    loadWith .big Skeleton.fromArchive (1 :: skeleton .little 5 skeleton2) = .ok (sk, []) ∧
    jointByName sk.jointNames [98, 99] = some 1 ∧ nameByJoint sk.jointNames 0 = some [97] := by
  have := (parses_load .big .little 1 (by simp [Announces]) _ _ _ fun a ha =>
    ha ▸ parses_skeleton a 5 skeleton2 skeleton2_wf).1 []
  rw [List.append_nil] at this
  exact ⟨_, this, by decide, by decide⟩

/-! ### C05: animations -/

/-- **C05.** Loading the file of an animation gives that animation and leaves what follows. The
file stores ratio indices on one byte exactly up to 255 timepoints (`Format.ratios`). -/
theorem C05_animation_round_trip (native o : Endian) (tag : UInt8) (h : Announces o tag)
    (x : AnimationData) (hx : AnimationWF x) (rest : List UInt8) :
    loadWith native Animation.fromArchive (tag :: animation o x ++ rest) = .ok (x, rest) :=
  (parses_load native o tag h _ _ _ fun a ha => ha ▸ parses_animation a x hx).1 rest

/-- Which width is used shows in the length of the file: with equal contents otherwise, each key
costs one byte more beyond 255 timepoints. -/
theorem C05_ratio_width (o : Endian) (n : Nat) (rs : List UInt16) :
    (ratios o n rs).length = if n ≤ 255 then rs.length else 2 * rs.length := by
  unfold ratios
  split
  · simp
  · simp only [u16s, List.length_flatMap, num_length]
    induction rs with
    | nil => rfl
    | cons r rs ih => simp_all; omega

/-- An animation of one track with two timepoints. -/
def animation1 : AnimationData :=
  { duration := 0x3f800000, numTracks := 1, name := [120], timepoints := [0, 0x3f800000],
    t := ⟨[0, 0, 0, 0, 1, 1, 1, 1], [0, 0, 0, 0, 4, 4, 4, 4], [7], [1, 2], 3,
      List.replicate 8 [1, 2, 0xffff]⟩
    r := ⟨[0], [0], [], [], 0, [[5, 6, 7]]⟩
    s := ⟨[], [], [], [], 0, []⟩ }

theorem animation1_wf : AnimationWF animation1 := by
  have hl : animation1.timepoints.length = 2 := rfl
  refine ⟨by decide, isUtf8_ascii _ (by decide), by decide, ?_, ?_, ?_⟩ <;>
    refine ⟨rfl, rfl, by decide, fun _ => by decide, by decide, by decide, by decide⟩

example : loadWith .little Animation.fromArchive (0 :: animation .big animation1 ++ [3]) =
    .ok (animation1, [3]) :=
  C05_animation_round_trip .little .big 0 (by simp [Announces]) animation1 animation1_wf [3]

/-! ### C06: truncation -/

/-- **C06.** Every strict prefix of a valid file is rejected with an I/O error. -/
theorem C06_truncated_rejected (native o : Endian) (tag : UInt8) (h : Announces o tag)
    (p : List UInt8) :
    (∀ k t, TrackWF k t → p <+: tag :: track o k t → p ≠ tag :: track o k t →
      loadWith native (Track.fromArchive k) p = .error (.err .io)) ∧
    (∀ cc k, SkeletonWF k → p <+: tag :: skeleton o cc k → p ≠ tag :: skeleton o cc k →
      loadWith native Skeleton.fromArchive p = .error (.err .io)) ∧
    (∀ x, AnimationWF x → p <+: tag :: animation o x → p ≠ tag :: animation o x →
      loadWith native Animation.fromArchive p = .error (.err .io)) :=
  ⟨fun k t ht => (parses_load native o tag h _ _ _ fun a ha => ha ▸ parses_track a k t ht).2 p,
   fun cc k hk =>
    (parses_load native o tag h _ _ _ fun a ha => ha ▸ parses_skeleton a cc k hk).2 p,
   fun x hx => (parses_load native o tag h _ _ _ fun a ha => ha ▸ parses_animation a x hx).2 p⟩

example : loadWith .little Animation.fromArchive ((1 :: animation .little animation1).take 60) =
    .error (.err .io) :=
  (C06_truncated_rejected .little .little 1 (by simp [Announces]) _).2.2 animation1 animation1_wf
    (List.take_prefix _ _) (by decide +kernel)

/-! ### C07: foreign files -/

/-- **C07.** A file with another tag is rejected whatever follows. -/
theorem C07_other_tag_rejected (native : Endian) (b : UInt8) (other rest : List UInt8)
    (hu : IsUtf8 other) (h0 : 0 ∉ other) :
    (∀ k, other ≠ str (trackKind k).1 →
      loadWith native (Track.fromArchive k) (b :: (cstr other ++ rest)) =
        .error (.err .invalidTag)) ∧
    (other ≠ str "ozz-skeleton" →
      loadWith native Skeleton.fromArchive (b :: (cstr other ++ rest)) =
        .error (.err .invalidTag)) ∧
    (other ≠ str "ozz-animation" →
      loadWith native Animation.fromArchive (b :: (cstr other ++ rest)) =
        .error (.err .invalidTag)) :=
  ⟨fun k => (checks_track k).other_tag native b other rest hu h0,
   checks_skeleton.other_tag native b other rest hu h0,
   checks_animation.other_tag native b other rest hu h0⟩

/-- A file with the right tag and another version is rejected whatever follows. -/
theorem C07_other_version_rejected (native o : Endian) (b : UInt8) (h : Announces o b)
    (version : UInt32) (rest : List UInt8) :
    (∀ k, version ≠ 1 → loadWith native (Track.fromArchive k)
      (b :: (cstr (str (trackKind k).1) ++ num o 4 version.toNat ++ rest)) =
        .error (.err .invalidVersion)) ∧
    (version ≠ 2 → loadWith native Skeleton.fromArchive
      (b :: (cstr (str "ozz-skeleton") ++ num o 4 version.toNat ++ rest)) =
        .error (.err .invalidVersion)) ∧
    (version ≠ 7 → loadWith native Animation.fromArchive
      (b :: (cstr (str "ozz-animation") ++ num o 4 version.toNat ++ rest)) =
        .error (.err .invalidVersion)) :=
  ⟨fun k => (checks_track k).other_version native o b h rest version
      (isUtf8_ascii _ (by cases k <;> decide)) (by cases k <;> decide),
   checks_skeleton.other_version native o b h rest version
      (isUtf8_ascii _ (by decide)) (by decide),
   checks_animation.other_version native o b h rest version
      (isUtf8_ascii _ (by decide)) (by decide)⟩

/-- Success implies the right tag and version. -/
theorem C07_success_implies_tag_version (native : Endian) (s : List UInt8) :
    (∀ k r, loadWith native (Track.fromArchive k) s = .ok r → ∃ b o rest, Announces o b ∧
      s = b :: (cstr (str (trackKind k).1) ++ num o 4 1 ++ rest)) ∧
    (∀ r, loadWith native Skeleton.fromArchive s = .ok r → ∃ b o rest, Announces o b ∧
      s = b :: (cstr (str "ozz-skeleton") ++ num o 4 2 ++ rest)) ∧
    (∀ r, loadWith native Animation.fromArchive s = .ok r → ∃ b o rest, Announces o b ∧
      s = b :: (cstr (str "ozz-animation") ++ num o 4 7 ++ rest)) :=
  ⟨fun k => (checks_track k).of_ok native s, checks_skeleton.of_ok native s,
   checks_animation.of_ok native s⟩

/-- The seven tags are pairwise distinct, so no file loads as two kinds of object. -/
theorem C07_tags_distinct :
    ([.float, .float2, .float3, .float4, .quat].map (fun k => str (trackKind k).1) ++
      [str "ozz-skeleton", str "ozz-animation"]).Nodup := by decide

example : loadWith .little Skeleton.fromArchive (0 :: animation .big animation1) =
    .error (.err .invalidTag) := by
  have := (C07_other_tag_rejected .little 0 (str "ozz-animation")
    ((animation .big animation1).drop 14) (isUtf8_ascii _ (by decide)) (by decide)).2.1 (by decide)
  rw [show 0 :: animation .big animation1 =
    0 :: (cstr (str "ozz-animation") ++ (animation .big animation1).drop 14) by decide +kernel]
  exact this

/-! ### C27: joint names -/

/-- **C27.** With pairwise distinct names (at most 32768), looking up a name finds exactly the joint
with that name, looking up a joint finds exactly its name, and nothing else is found. -/
theorem C27_names_inverse (native o : Endian) (tag : UInt8) (h : Announces o tag) (cc : UInt32)
    (k : SkeletonContent) (hk : SkeletonWF k) (hd : k.names.Nodup) (hl : k.names.length ≤ 32768)
    (rest : List UInt8) :
    ∃ sk : SkeletonData,
      loadWith native Skeleton.fromArchive (tag :: skeleton o cc k ++ rest) = .ok (sk, rest) ∧
      (∀ x j, jointByName sk.jointNames x = some j ↔ ∃ i : Nat, j = i ∧ k.names[i]? = some x) ∧
      (∀ x j, nameByJoint sk.jointNames j = some x ↔ ∃ i : Nat, j = i ∧ k.names[i]? = some x) := by
  refine ⟨_, (parses_load native o tag h _ _ _ fun a ha => ha ▸ parses_skeleton a cc k hk).1 rest,
    fun x j => ?_, fun x j => ?_⟩
  · rw [jointByName_iff, mem_bimap_distinct _ hd hl]
  · rw [nameByJoint_iff, mem_bimap_distinct _ hd hl]

/-- Whatever the names, the two lookups are inverse to each other. -/
theorem C27_lookups_inverse (names : List (List UInt8)) (x : List UInt8) (j : Int) :
    jointByName (bimap names) x = some j ↔ nameByJoint (bimap names) j = some x := by
  rw [jointByName_iff, nameByJoint_iff]

/-- Beyond 32768 joints the stored indices are negative: joint 32768 is found under -32768. -/
theorem C27_index_wraps (names : List (List UInt8)) (hd : names.Nodup) (hl : names.length = 32769)
    (x : List UInt8) (hx : names[32768]? = some x) :
    jointByName (bimap names) x = some (-32768) := by
  rw [jointByName_iff, mem_bimap]
  exact ⟨32768, hx, by decide, fun j h1 h2 => by omega⟩

example : ∃ names : List (List UInt8), names.Nodup ∧ names.length = 32769 := by
  refine ⟨(List.range 32769).map (leBytes 2), ?_, by simp⟩
  rw [List.nodup_iff_pairwise_ne, List.pairwise_map]
  refine List.Pairwise.imp_of_mem (R := (· ≠ ·)) ?_ List.nodup_range
  intro a b ha hb hab e
  have := congrArg leValue e
  rw [leValue_leBytes, leValue_leBytes] at this
  simp at ha hb this
  omega

example : skeleton2.names.Nodup ∧ skeleton2.names.length ≤ 32768 := by decide

end Ozz.Props
