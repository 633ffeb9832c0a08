import Verif.Proofs.Archive
import Verif.Proofs.Utf8

set_option linter.unusedVariables false

/-! The readers parse the format. -/

namespace Ozz

open Format

theorem parses_readExact (bs : List UInt8) : Parses (readExact bs.length) bs bs := by
  constructor
  · intro rest
    simp [readExact]
  · intro p hp hne
    have := hp.length_le
    have : p.length ≠ bs.length := fun e => hne (hp.eq_of_length e)
    simp only [readExact]
    rw [if_neg (by omega)]

theorem parses_readPrim (a : Archive) (n v : Nat) (hv : v < 256 ^ n) :
    Parses (readPrim a n) (num a.order n v) v := by
  unfold readPrim
  have h1 := parses_readExact (num a.order n v)
  rw [num_length] at h1
  have h2 := Parses.bind h1 (f := fun bs => pure
    (if a.endianSwap then swapBytes n (nativeValue a.native bs) else nativeValue a.native bs))
    (Parses.pure _)
  rw [decode_num a n v hv, List.append_nil] at h2
  exact h2

theorem Parses.bind_pure {α β : Type} {r : Rd α} {f : α → β} {bs : List UInt8} {v : α} {w : β}
    (h : Parses r bs v) (e : f v = w) : Parses (r >>= fun x => Pure.pure (f x)) bs w := by
  have := Parses.bind h (f := fun x => Pure.pure (f x)) (Parses.pure _)
  rwa [List.append_nil, e] at this

theorem parses_readU32 (a : Archive) (v : UInt32) : Parses (readU32 a) (num a.order 4 v.toNat) v :=
  Parses.bind_pure (parses_readPrim a 4 _ v.toNat_lt) (by simp)

theorem parses_readU32' (a : Archive) (n : Nat) (h : n < 2 ^ 32) :
    Parses (readU32 a) (num a.order 4 n) (UInt32.ofNat n) := by
  have := parses_readU32 a (UInt32.ofNat n)
  rwa [UInt32.toNat_ofNat', Nat.mod_eq_of_lt h] at this

theorem parses_readU16 (a : Archive) (v : UInt16) : Parses (readU16 a) (num a.order 2 v.toNat) v :=
  Parses.bind_pure (parses_readPrim a 2 _ v.toNat_lt) (by simp)

theorem num_one (o : Endian) (v : UInt8) : num o 1 v.toNat = [v] := by
  cases o <;> simp [num, List.range_succ]

theorem parses_readU8 (a : Archive) (v : UInt8) : Parses (readU8 a) [v] v := by
  have := parses_readPrim a 1 v.toNat v.toNat_lt
  rw [num_one] at this
  exact Parses.bind_pure this (by simp)

theorem parses_readI16 (a : Archive) (v : Int) (h : -32768 ≤ v ∧ v ≤ 32767) :
    Parses (readI16 a) (num a.order 2 (v % 65536).toNat) v := by
  refine Parses.bind_pure (parses_readPrim a 2 _ (by simp; omega)) ?_
  rw [BitVec.toInt_ofNat']
  rw [Int.bmod_def]
  simp
  omega

theorem parses_readMany {α : Type} {r : Rd α} {e : α → List UInt8} (xs : List α)
    (h : ∀ x ∈ xs, Parses r (e x) x) : Parses (readMany r xs.length) (xs.flatMap e) xs := by
  induction xs with
  | nil => exact Parses.pure _
  | cons x xs ih =>
    rw [List.flatMap_cons]
    exact Parses.bind (h x (by simp))
      (Parses.bind_pure (ih fun y hy => h y (List.mem_cons_of_mem _ hy)) rfl)

theorem parses_readMany' {α : Type} {r : Rd α} {e : α → List UInt8} (xs : List α) (n : Nat)
    (hn : xs.length = n)
    (h : ∀ x ∈ xs, Parses r (e x) x) : Parses (readMany r n) (xs.flatMap e) xs :=
  hn ▸ parses_readMany xs h

theorem parses_u8s (a : Archive) (xs : List UInt8) (n : Nat) (hn : xs.length = n) :
    Parses (readMany (readU8 a) n) xs xs := by
  have := parses_readMany' (e := fun x => [x]) xs n hn fun x _ => parses_readU8 a x
  rwa [List.flatMap_singleton'] at this

theorem parses_u16s (a : Archive) (xs : List UInt16) (n : Nat) (hn : xs.length = n) :
    Parses (readMany (readU16 a) n) (u16s a.order xs) xs :=
  parses_readMany' xs n hn fun x _ => parses_readU16 a x

theorem parses_u32s (a : Archive) (xs : List UInt32) (n : Nat) (hn : xs.length = n) :
    Parses (readMany (readU32 a) n) (u32s a.order xs) xs :=
  parses_readMany' xs n hn fun x _ => parses_readU32 a x

theorem parses_i16s (a : Archive) (xs : List Int) (n : Nat) (hn : xs.length = n)
    (h : ∀ p ∈ xs, -32768 ≤ p ∧ p ≤ 32767) :
    Parses (readMany (readI16 a) n) (i16s a.order xs) xs :=
  parses_readMany' xs n hn fun x hx => parses_readI16 a x (h x hx)

/-! ### Strings -/

theorem decode_byte (a : Archive) (b : UInt8) :
    UInt8.ofNat (if a.endianSwap then swapBytes 1 (nativeValue a.native [b])
      else nativeValue a.native [b]) = b := by
  have := decode_num a 1 b.toNat b.toNat_lt
  rw [num_one] at this
  rw [this]; simp

theorem readUntilNul_cons (a : Archive) (b : UInt8) (rest : List UInt8) :
    readUntilNul a (b :: rest) = if b != 0 then
      match readUntilNul a rest with
      | .ok (bs, rest') => .ok (b :: bs, rest')
      | .error e => .error e
    else .ok ([], rest) := by
  conv => lhs; unfold readUntilNul
  simp only [decode_byte]
  rfl

theorem readUntilNul_found (a : Archive) (bs rest : List UInt8) (h : 0 ∉ bs) :
    readUntilNul a (bs ++ 0 :: rest) = .ok (bs, rest) := by
  induction bs with
  | nil => simp [readUntilNul_cons]
  | cons b bs ih =>
    simp only [List.mem_cons, not_or] at h
    rw [List.cons_append, readUntilNul_cons, ih h.2, if_pos (by simpa using Ne.symm h.1)]

theorem readUntilNul_end (a : Archive) (bs : List UInt8) (h : 0 ∉ bs) :
    readUntilNul a bs = .error (.err .io) := by
  induction bs with
  | nil => rfl
  | cons b bs ih =>
    simp only [List.mem_cons, not_or] at h
    rw [readUntilNul_cons, ih h.2, if_pos (by simpa using Ne.symm h.1)]

theorem fromUtf8_ok (bs s : List UInt8) (h : IsUtf8 bs) : fromUtf8 bs s = .ok (bs, s) := by
  simp [fromUtf8, (utf8Scan_none_iff bs 0).mpr h]

theorem fromUtf8_err (bs s : List UInt8) (h : ¬ IsUtf8 bs) :
    ∃ n, ValidUpTo bs n ∧ fromUtf8 bs s = .error (.err (.utf8 (n % 2 ^ 32))) := by
  cases e : utf8Scan 0 bs with
  | none => exact absurd ((utf8Scan_none_iff bs 0).mp e) h
  | some n =>
    obtain ⟨k, hk, hv⟩ := utf8Scan_some bs 0 n e
    refine ⟨k, hv, ?_⟩
    simp only [fromUtf8, e]
    rw [hk, Nat.zero_add]

theorem readString_ok (a : Archive) (bs rest : List UInt8) (h0 : 0 ∉ bs) (h : IsUtf8 bs) :
    readString a (bs ++ 0 :: rest) = .ok (bs, rest) := by
  show (readUntilNul a (bs ++ 0 :: rest) >>= fun p => fromUtf8 p.1 p.2) = _
  rw [readUntilNul_found a bs rest h0]
  exact fromUtf8_ok bs rest h

theorem readString_end (a : Archive) (bs : List UInt8) (h0 : 0 ∉ bs) :
    readString a bs = .error (.err .io) := by
  show (readUntilNul a bs >>= fun p => fromUtf8 p.1 p.2) = _
  rw [readUntilNul_end a bs h0]; rfl

theorem parses_readString (a : Archive) (bs : List UInt8) (h0 : 0 ∉ bs) (h : IsUtf8 bs) :
    Parses (readString a) (cstr bs) bs := by
  constructor
  · intro rest
    rw [cstr, List.append_assoc]
    exact readString_ok a bs rest h0 h
  · intro p hp hne
    rcases prefix_append_cases hp with ⟨hp', _⟩ | ⟨q, rfl, hq⟩
    · exact readString_end a p fun h' => h0 (hp'.subset h')
    · rcases List.prefix_cons_iff.mp hq with rfl | ⟨t, rfl, ht⟩
      · rw [List.append_nil]
        exact readString_end a bs h0
      · rw [List.prefix_nil.mp ht] at hne
        exact absurd rfl hne

theorem isUtf8_ascii (bs : List UInt8) (h : ∀ b ∈ bs, b.toNat < 128) : IsUtf8 bs := by
  induction bs with
  | nil => exact isUtf8_nil
  | cons b bs ih =>
    obtain ⟨c, hc, e⟩ := isChar1 b (by
      have := h b (by simp)
      rw [UInt8.lt_iff_toNat_lt]; exact this)
    have := IsUtf8.cons hc (ih fun x hx => h x (List.mem_cons_of_mem _ hx))
    rwa [← e] at this

theorem parses_checkTagVersion (a : Archive) (tag : List UInt8) (v : UInt32) (h0 : 0 ∉ tag)
    (h : IsUtf8 tag) :
    Parses (checkTagVersion a tag v) (cstr tag ++ num a.order 4 v.toNat) () := by
  unfold checkTagVersion
  refine Parses.bind (parses_readString a tag h0 h) ?_
  simp only [bne_self_eq_false, Bool.false_eq_true, if_false]
  have := Parses.bind (parses_readU32 a v) (f := fun w => if w != v then failRd .invalidVersion
    else pure ()) (bs' := []) (w := ()) (by simp; exact Parses.pure _)
  rwa [List.append_nil] at this

theorem parses_readName (a : Archive) (name : List UInt8) (h : IsUtf8 name)
    (hl : name.length < 2 ^ 32) :
    Parses (readName a (UInt32.ofNat name.length)) name name := by
  have hn : (UInt32.ofNat name.length).toNat = name.length := by
    rw [UInt32.toNat_ofNat', Nat.mod_eq_of_lt hl]
  unfold readName
  split
  · rename_i hne
    have := Parses.bind (parses_u8s a name _ hn.symm) (f := fromUtf8) (bs' := []) (w := name)
      ⟨fun rest => fromUtf8_ok name rest h, fun p hp hne => absurd (List.prefix_nil.mp hp) hne⟩
    rwa [List.append_nil] at this
  · rename_i he
    have : UInt32.ofNat name.length = 0 := by simpa using he
    rw [this] at hn
    have : name = [] := List.length_eq_zero_iff.mp (by simpa using hn.symm)
    rw [this]
    exact Parses.pure _

/-! ### Objects -/

theorem parses_track (a : Archive) (k : TrackKind) (t : Track UInt32 (List UInt32))
    (h : TrackWF k t) : Parses (Track.fromArchive k a) (track a.order k t) t := by
  have htag : k.tag = str (trackKind k).1 := by cases k <;> rfl
  have har : k.arity = (trackKind k).2 := by cases k <;> rfl
  have hz : 0 ∉ k.tag := by cases k <;> decide
  have hu : IsUtf8 k.tag := isUtf8_ascii _ (by cases k <;> decide)
  have hk : t.keyCount < 2 ^ 32 := by have := h.keyCount; omega
  have hkn : (UInt32.ofNat t.keyCount).toNat = t.keyCount := by
    rw [UInt32.toNat_ofNat', Nat.mod_eq_of_lt hk]
  unfold Track.fromArchive track
  rw [← htag]
  simp only [List.append_assoc]
  rw [← List.append_assoc]
  refine Parses.bind (parses_checkTagVersion a k.tag 1 hz hu) ?_
  refine Parses.bind (parses_readU32' a _ hk) ?_
  refine Parses.bind (parses_readU32' a _ h.nameLen) ?_
  refine Parses.bind (parses_u32s a _ _ (by rw [hkn, h.ratios])) ?_
  refine Parses.bind (parses_readMany' _ _ (by rw [hkn, h.values])
    (fun v hv => parses_u32s a v _ (by rw [h.arity v hv, har]))) ?_
  have hadd : Parses (addU32 (UInt32.ofNat t.keyCount) 7) [] (UInt32.ofNat t.keyCount + 7) := by
    constructor
    · intro rest
      have := h.keyCount
      simp only [addU32, hkn]
      rw [if_pos (by simpa using this)]
      rfl
    · intro p hp hne
      exact absurd (List.prefix_nil.mp hp) hne
  rw [← List.nil_append (u8s t.steps ++ t.name)]
  refine Parses.bind hadd ?_
  refine Parses.bind (parses_u8s a t.steps _ ?_) ?_
  · rw [UInt32.toNat_add, hkn, h.steps]
    have := h.keyCount
    simp; omega
  refine Parses.bind_pure (parses_readName a t.name h.name h.nameLen) ?_
  simp only [hkn]

theorem parses_readNames (a : Archive) (names : List (List UInt8))
    (h : ∀ n ∈ names, IsUtf8 n ∧ 0 ∉ n) (idx : Nat) (m : JointNames) :
    Parses (readNames a names.length idx m) (names.flatMap cstr)
      ((names.zipIdx idx).foldl (fun m p => m.insert p.1 (asI16 p.2)) m) := by
  induction names generalizing idx m with
  | nil => exact Parses.pure _
  | cons n names ih =>
    rw [List.flatMap_cons]
    have hn := h n (by simp)
    exact Parses.bind (parses_readString a n hn.2 hn.1)
      (ih (fun x hx => h x (List.mem_cons_of_mem _ hx)) _ _)

/-- The bimap after inserting all names. -/
def bimap (names : List (List UInt8)) : JointNames :=
  names.zipIdx.foldl (fun m p => m.insert p.1 (asI16 p.2)) []

theorem zero_not_mem_skeletonTag : 0 ∉ skeletonTag := by decide
theorem isUtf8_skeletonTag : IsUtf8 skeletonTag := isUtf8_ascii _ (by decide)
theorem zero_not_mem_animationTag : 0 ∉ animationTag := by decide
theorem isUtf8_animationTag : IsUtf8 animationTag := isUtf8_ascii _ (by decide)

theorem parses_skeleton (a : Archive) (cc : UInt32) (k : SkeletonContent) (h : SkeletonWF k) :
    Parses (Skeleton.fromArchive a) (skeleton a.order cc k)
      { numJoints := UInt32.ofNat k.names.length, jointRestPoses := k.restPoses,
        jointNames := bimap k.names, jointParents := k.parents } := by
  have hkn : (UInt32.ofNat k.names.length).toNat = k.names.length := by
    rw [UInt32.toNat_ofNat', Nat.mod_eq_of_lt h.count]
  unfold Skeleton.fromArchive skeleton
  simp only [List.append_assoc]
  rw [← List.append_assoc (cstr _), ← List.append_assoc (cstr _ ++ _)]
  refine Parses.bind (v := (⟨2, UInt32.ofNat k.names.length, [], []⟩ : SkeletonMeta)) ?_ ?_
  · unfold Skeleton.readMeta
    refine Parses.bind (parses_checkTagVersion a skeletonTag 2 zero_not_mem_skeletonTag
      isUtf8_skeletonTag) ?_
    simp only [Bool.not_false, Bool.or_true, if_true]
    exact Parses.bind_pure (parses_readU32' a _ h.count) rfl
  refine Parses.bind (parses_readU32 a cc) ?_
  simp only [hkn]
  refine Parses.bind (parses_readNames a k.names h.name 0 []) ?_
  refine Parses.bind (parses_i16s a _ _ h.parents h.parent) ?_
  refine Parses.bind_pure (parses_readMany' _ _ (by rw [h.restPoses]; rfl)
    (fun v hv => parses_u32s a v _ (h.restPose v hv))) rfl

/-- The full metadata (`with_joints = true`) of a skeleton with joints is read from the file up to
the parents. -/
theorem parses_skeleton_meta (a : Archive) (cc : UInt32) (k : SkeletonContent) (h : SkeletonWF k)
    (hne : k.names ≠ []) :
    Parses (Skeleton.readMeta a true)
      (cstr (str "ozz-skeleton") ++ num a.order 4 2 ++ num a.order 4 k.names.length ++
        num a.order 4 cc.toNat ++ k.names.flatMap cstr ++ i16s a.order k.parents)
      { version := 2, numJoints := UInt32.ofNat k.names.length, jointNames := bimap k.names,
        jointParents := k.parents } := by
  have hkn : (UInt32.ofNat k.names.length).toNat = k.names.length := by
    rw [UInt32.toNat_ofNat', Nat.mod_eq_of_lt h.count]
  have hz : (UInt32.ofNat k.names.length == 0) = false := by
    rw [beq_eq_false_iff_ne]
    intro e
    rw [e] at hkn
    exact hne (List.length_eq_zero_iff.mp (by simpa using hkn.symm))
  unfold Skeleton.readMeta
  simp only [List.append_assoc]
  rw [← List.append_assoc (cstr _)]
  refine Parses.bind (parses_checkTagVersion a skeletonTag 2 zero_not_mem_skeletonTag
      isUtf8_skeletonTag) ?_
  refine Parses.bind (parses_readU32' a _ h.count) ?_
  simp only [hz, Bool.not_true, Bool.or_false, Bool.false_eq_true, if_false]
  refine Parses.bind (parses_readU32 a cc) ?_
  simp only [hkn]
  refine Parses.bind (parses_readNames a k.names h.name 0 []) ?_
  exact Parses.bind_pure (parses_i16s a _ _ h.parents h.parent) rfl

theorem parses_ratios (a : Archive) (tp : Nat) (rs : List UInt16) (n : Nat) (hn : rs.length = n)
    (hs : tp ≤ 255 → ∀ r ∈ rs, r.toNat < 256) :
    Parses (readRatios a (decide (tp ≤ 255)) n) (ratios a.order tp rs) rs := by
  unfold readRatios ratios
  split
  · rename_i htp
    have htp : tp ≤ 255 := by simpa using htp
    rw [if_pos htp, show rs.map (fun r => UInt8.ofNat r.toNat) =
      rs.flatMap (fun r => [UInt8.ofNat r.toNat]) from List.map_eq_flatMap ..]
    refine parses_readMany' rs n hn fun r hr => ?_
    refine Parses.bind_pure (parses_readU8 a _) ?_
    have := hs htp r hr
    apply UInt16.toNat_inj.mp
    simp
    omega
  · rename_i htp
    rw [if_neg (by simpa using htp)]
    exact parses_u16s a rs n hn

theorem parses_channel (a : Archive) (tp : Nat) (c : ChannelData) (h : ChannelWF tp c) :
    Parses (readChannel a (decide (tp ≤ 255)) (UInt32.ofNat c.keys.length)
      (UInt32.ofNat c.iframeEntries.length) (UInt32.ofNat c.iframeDesc.length))
      (channel a.order tp c) c := by
  have h1 : (UInt32.ofNat c.keys.length).toNat = c.keys.length := by
    rw [UInt32.toNat_ofNat', Nat.mod_eq_of_lt h.keyCount]
  have h2 : (UInt32.ofNat c.iframeEntries.length).toNat = c.iframeEntries.length := by
    rw [UInt32.toNat_ofNat', Nat.mod_eq_of_lt h.entryCount]
  have h3 : (UInt32.ofNat c.iframeDesc.length).toNat = c.iframeDesc.length := by
    rw [UInt32.toNat_ofNat', Nat.mod_eq_of_lt h.descCount]
  unfold readChannel channel
  simp only [List.append_assoc, h1, h2, h3]
  refine Parses.bind (parses_ratios a tp _ _ h.ratios h.small) ?_
  refine Parses.bind (parses_u16s a _ _ h.previouses) ?_
  refine Parses.bind (parses_u8s a _ _ rfl) ?_
  refine Parses.bind (parses_u32s a _ _ rfl) ?_
  refine Parses.bind (parses_readU32 a _) ?_
  exact Parses.bind_pure (parses_readMany' _ _ rfl fun k hk => parses_u16s a k _ (h.keys k hk)) rfl

theorem parses_animation (a : Archive) (x : AnimationData) (h : AnimationWF x) :
    Parses (Animation.fromArchive a) (animation a.order x) x := by
  have htp : (UInt32.ofNat x.timepoints.length).toNat = x.timepoints.length := by
    rw [UInt32.toNat_ofNat', Nat.mod_eq_of_lt h.timepoints]
  unfold Animation.fromArchive
  have split : animation a.order x = (cstr (str "ozz-animation") ++ num a.order 4 7 ++
    (num a.order 4 x.duration.toNat ++ (num a.order 4 x.numTracks.toNat ++
    (num a.order 4 x.name.length ++ (num a.order 4 x.timepoints.length ++
    (num a.order 4 x.t.keys.length ++ (num a.order 4 x.r.keys.length ++
    (num a.order 4 x.s.keys.length ++
    (num a.order 4 x.t.iframeEntries.length ++ (num a.order 4 x.t.iframeDesc.length ++
    (num a.order 4 x.r.iframeEntries.length ++ (num a.order 4 x.r.iframeDesc.length ++
    (num a.order 4 x.s.iframeEntries.length ++ (num a.order 4 x.s.iframeDesc.length ++
    x.name)))))))))))))) ++ (u32s a.order x.timepoints ++
    (channel a.order x.timepoints.length x.t ++ (channel a.order x.timepoints.length x.r ++
    channel a.order x.timepoints.length x.s))) := by
    unfold animation; simp only [List.append_assoc]
  rw [split]
  refine Parses.bind (v := (⟨7, x.duration, x.numTracks, x.name,
    UInt32.ofNat x.timepoints.length,
    UInt32.ofNat x.t.keys.length, UInt32.ofNat x.t.iframeEntries.length,
    UInt32.ofNat x.t.iframeDesc.length,
    UInt32.ofNat x.r.keys.length, UInt32.ofNat x.r.iframeEntries.length,
    UInt32.ofNat x.r.iframeDesc.length,
    UInt32.ofNat x.s.keys.length, UInt32.ofNat x.s.iframeEntries.length,
    UInt32.ofNat x.s.iframeDesc.length⟩ : AnimationMeta)) ?_ ?_
  · unfold Animation.readMeta
    refine Parses.bind (parses_checkTagVersion a animationTag 7 zero_not_mem_animationTag
      isUtf8_animationTag) ?_
    refine Parses.bind (parses_readU32 a _) ?_
    refine Parses.bind (parses_readU32 a _) ?_
    refine Parses.bind (parses_readU32' a _ h.nameLen) ?_
    refine Parses.bind (parses_readU32' a _ h.timepoints) ?_
    refine Parses.bind (parses_readU32' a _ h.t.keyCount) ?_
    refine Parses.bind (parses_readU32' a _ h.r.keyCount) ?_
    refine Parses.bind (parses_readU32' a _ h.s.keyCount) ?_
    refine Parses.bind (parses_readU32' a _ h.t.entryCount) ?_
    refine Parses.bind (parses_readU32' a _ h.t.descCount) ?_
    refine Parses.bind (parses_readU32' a _ h.r.entryCount) ?_
    refine Parses.bind (parses_readU32' a _ h.r.descCount) ?_
    refine Parses.bind (parses_readU32' a _ h.s.entryCount) ?_
    refine Parses.bind (parses_readU32' a _ h.s.descCount) ?_
    exact Parses.bind_pure (parses_readName a x.name h.name h.nameLen) rfl
  refine Parses.bind (parses_u32s a _ _ htp.symm) ?_
  refine Parses.bind (parses_channel a _ _ h.t) ?_
  refine Parses.bind (parses_channel a _ _ h.r) ?_
  exact Parses.bind_pure (parses_channel a _ _ h.s) rfl

/-! ### Whole files -/

theorem new_order (native : Endian) (o : Endian) (tag : UInt8) (h : Announces o tag)
    (rest : List UInt8) :
    ∃ a, Archive.new native (tag :: rest) = .ok (a, rest) ∧ a.order = o := by
  refine ⟨⟨native, Endian.fromTag tag != native⟩, ?_, ?_⟩
  · simp [Archive.new, readExact, bind, StateT.bind, Except.bind, pure, StateT.pure, Except.pure]
  · unfold Announces at h
    unfold Endian.fromTag Archive.order
    by_cases ht : tag = 0
    · have := h.mpr ht; subst this
      cases native <;> simp [ht] <;> rfl
    · have : o = .little := by cases o <;> simp_all
      subst this
      cases native <;> simp [ht] <;> rfl

theorem parses_load {α : Type} (native o : Endian) (tag : UInt8) (h : Announces o tag)
    (loader : Archive → Rd α) (bs : List UInt8) (v : α)
    (hl : ∀ a : Archive, a.order = o → Parses (loader a) bs v) :
    Parses (loadWith native loader) (tag :: bs) v := by
  obtain ⟨a, _, ha⟩ := new_order native o tag h []
  constructor
  · intro rest
    obtain ⟨a, hn, ha⟩ := new_order native o tag h (bs ++ rest)
    show (Archive.new native (tag :: bs ++ rest) >>= fun p => loader p.1 p.2) = _
    rw [List.cons_append, hn]
    exact (hl a ha).1 rest
  · intro p hp hne
    rcases List.prefix_cons_iff.mp hp with rfl | ⟨q, rfl, hq⟩
    · rfl
    · obtain ⟨a, hn, ha⟩ := new_order native o tag h q
      show (Archive.new native (tag :: q) >>= fun p => loader p.1 p.2) = _
      rw [hn]
      exact (hl a ha).2 q hq fun e => hne (by rw [e])

end Ozz
