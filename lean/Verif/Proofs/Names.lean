import Verif.Proofs.Loaders
import Mathlib.Data.List.Induction

set_option linter.unusedVariables false

/-! The joint name map, host independence and header checks. -/

namespace Ozz

open Format

/-! ### Name map -/

theorem mem_insert (m : JointNames) (name : List UInt8) (idx : Int) (p : List UInt8 × Int) :
    p ∈ m.insert name idx ↔ p = (name, idx) ∨ (p ∈ m ∧ p.1 ≠ name ∧ p.2 ≠ idx) := by
  simp [JointNames.insert]

theorem bimap_snoc (names : List (List UInt8)) (x : List UInt8) :
    bimap (names ++ [x]) = (bimap names).insert x (asI16 names.length) := by
  simp [bimap, List.zipIdx_append]

theorem mem_bimap (names : List (List UInt8)) (x : List UInt8) (k : Int) :
    (x, k) ∈ bimap names ↔ ∃ i, names[i]? = some x ∧ k = asI16 i ∧
      ∀ j, i < j → j < names.length → names[j]? ≠ some x ∧ asI16 j ≠ k := by
  induction names using List.reverseRecOn with
  | nil => simp [bimap]
  | append_singleton names y ih =>
    rw [bimap_snoc, mem_insert, ih]
    constructor
    · rintro (h | ⟨⟨i, hi, hk, hj⟩, hne, hne'⟩)
      · obtain ⟨rfl, rfl⟩ := Prod.mk.inj h
        refine ⟨names.length, by simp, rfl, ?_⟩
        intro j h1 h2; simp at h2; omega
      · have hlt : i < names.length := (List.getElem?_eq_some_iff.mp hi).1
        refine ⟨i, by rw [List.getElem?_append_left hlt]; exact hi, hk, ?_⟩
        intro j h1 h2
        simp at h2
        by_cases hjl : j < names.length
        · rw [List.getElem?_append_left hjl]; exact hj j h1 hjl
        · have : j = names.length := by omega
          subst this
          simp only [ne_eq] at hne hne'
          exact ⟨by simpa using Ne.symm hne, Ne.symm hne'⟩
    · rintro ⟨i, hi, hk, hj⟩
      have hlt : i < names.length + 1 := by
        have := (List.getElem?_eq_some_iff.mp hi).1; simpa using this
      by_cases hil : i < names.length
      · right
        rw [List.getElem?_append_left hil] at hi
        refine ⟨⟨i, hi, hk, ?_⟩, ?_, ?_⟩
        · intro j h1 h2
          have := hj j h1 (by simp; omega)
          rwa [List.getElem?_append_left h2] at this
        · have := (hj names.length hil (by simp)).1
          simpa using Ne.symm (by simpa using this : ¬ y = x)
        · exact fun e => (hj names.length hil (by simp)).2 e.symm
      · left
        have : i = names.length := by omega
        subst this
        simp at hi
        rw [hk, hi]

theorem bimap_left_unique {names : List (List UInt8)} {x : List UInt8} {k k' : Int}
    (h : (x, k) ∈ bimap names) (h' : (x, k') ∈ bimap names) : k = k' := by
  obtain ⟨i, hi, hk, hj⟩ := (mem_bimap ..).mp h
  obtain ⟨i', hi', hk', hj'⟩ := (mem_bimap ..).mp h'
  have l := (List.getElem?_eq_some_iff.mp hi).1
  have l' := (List.getElem?_eq_some_iff.mp hi').1
  rcases Nat.lt_trichotomy i i' with h | h | h
  · exact absurd hi' (hj i' h l').1
  · rw [hk, hk', h]
  · exact absurd hi (hj' i h l).1

theorem bimap_right_unique {names : List (List UInt8)} {x x' : List UInt8} {k : Int}
    (h : (x, k) ∈ bimap names) (h' : (x', k) ∈ bimap names) : x = x' := by
  obtain ⟨i, hi, hk, hj⟩ := (mem_bimap ..).mp h
  obtain ⟨i', hi', hk', hj'⟩ := (mem_bimap ..).mp h'
  have l := (List.getElem?_eq_some_iff.mp hi).1
  have l' := (List.getElem?_eq_some_iff.mp hi').1
  rcases Nat.lt_trichotomy i i' with h | h | h
  · exact absurd hk'.symm (hj i' h l').2
  · rw [h, hi'] at hi; exact (Option.some.inj hi).symm
  · exact absurd hk.symm (hj' i h l).2

theorem jointByName_iff (names : List (List UInt8)) (x : List UInt8) (k : Int) :
    jointByName (bimap names) x = some k ↔ (x, k) ∈ bimap names := by
  unfold jointByName
  constructor
  · intro h
    rw [Option.map_eq_some_iff] at h
    obtain ⟨p, hp, rfl⟩ := h
    have h1 := List.find?_some hp
    have h2 := List.mem_of_find?_eq_some hp
    simp only [beq_iff_eq] at h1
    rw [← h1]; exact h2
  · intro h
    cases e : (bimap names).find? (fun p => p.1 == x) with
    | none =>
      have := List.find?_eq_none.mp e _ h
      simp at this
    | some p =>
      have h1 := List.find?_some e
      have h2 := List.mem_of_find?_eq_some e
      simp only [beq_iff_eq] at h1
      obtain ⟨y, k'⟩ := p
      simp only at h1
      subst h1
      simp [bimap_left_unique h2 h]

theorem nameByJoint_iff (names : List (List UInt8)) (x : List UInt8) (k : Int) :
    nameByJoint (bimap names) k = some x ↔ (x, k) ∈ bimap names := by
  unfold nameByJoint
  constructor
  · intro h
    rw [Option.map_eq_some_iff] at h
    obtain ⟨p, hp, rfl⟩ := h
    have h1 := List.find?_some hp
    have h2 := List.mem_of_find?_eq_some hp
    simp only [beq_iff_eq] at h1
    rw [← h1]; exact h2
  · intro h
    cases e : (bimap names).find? (fun p => p.2 == k) with
    | none =>
      have := List.find?_eq_none.mp e _ h
      simp at this
    | some p =>
      have h1 := List.find?_some e
      have h2 := List.mem_of_find?_eq_some e
      simp only [beq_iff_eq] at h1
      obtain ⟨y, k'⟩ := p
      simp only at h1
      subst h1
      simp [bimap_right_unique h2 h]

theorem asI16_small (i : Nat) (h : i < 32768) : asI16 i = i := by
  unfold asI16
  rw [BitVec.toInt_ofNat', Int.bmod_def]
  simp
  omega

theorem mem_bimap_distinct (names : List (List UInt8)) (hn : names.Nodup)
    (hl : names.length ≤ 32768) (x : List UInt8) (k : Int) :
    (x, k) ∈ bimap names ↔ ∃ i : Nat, k = i ∧ names[i]? = some x := by
  rw [mem_bimap]
  constructor
  · rintro ⟨i, hi, hk, _⟩
    have := (List.getElem?_eq_some_iff.mp hi).1
    exact ⟨i, by rw [hk, asI16_small i (by omega)], hi⟩
  · rintro ⟨i, hk, hi⟩
    have l := (List.getElem?_eq_some_iff.mp hi).1
    refine ⟨i, hi, by rw [hk, asI16_small i (by omega)], fun j h1 h2 => ⟨?_, ?_⟩⟩
    · intro e
      have := (List.getElem?_inj l hn).mp (hi.trans e.symm)
      omega
    · rw [asI16_small j (by omega), hk]
      omega

/-! ### The host does not matter -/

theorem order_ext_readPrim {a a' : Archive} (h : a.order = a'.order) (n : Nat) :
    readPrim a n = readPrim a' n := by
  funext s
  by_cases hl : n ≤ s.length
  · -- the first `n` bytes are the bytes of some number
    have hlen : (s.take n).length = n := by simp [hl]
    obtain ⟨v, hv, e⟩ : ∃ v, v < 256 ^ n ∧ num a.order n v = s.take n := by
      have h1 := leBytes_leValue (s.take n)
      have h2 := leBytes_leValue (s.take n).reverse
      have h3 := leValue_lt (s.take n)
      have h4 := leValue_lt (s.take n).reverse
      rw [List.length_reverse] at h2 h4
      rw [hlen] at h1 h2 h3 h4
      cases a.order
      · exact ⟨_, h4, by rw [num_big, h2, List.reverse_reverse]⟩
      · exact ⟨_, h3, by rw [num_little, h1]⟩
    have p1 := (parses_readPrim a n v hv).1 (s.drop n)
    have p2 := (parses_readPrim a' n v hv).1 (s.drop n)
    rw [← h, e, List.take_append_drop] at p2
    rw [e, List.take_append_drop] at p1
    rw [p1, p2]
  · have : ∀ b : Archive, readPrim b n s = .error (.err .io) := by
      intro b
      simp [readPrim, readExact, hl, bind, StateT.bind, Except.bind]
    rw [this, this]

theorem order_ext_readString {a a' : Archive} (h : a.order = a'.order) :
    readString a = readString a' := by
  funext s
  have : readUntilNul a s = readUntilNul a' s := by
    induction s with
    | nil => rfl
    | cons b s ih => rw [readUntilNul_cons, readUntilNul_cons, ih]
  unfold readString
  simp only [bind, StateT.bind, this]

theorem order_ext_readNames {a a' : Archive} (h : a.order = a'.order) (n i : Nat)
    (m : JointNames) : readNames a n i m = readNames a' n i m := by
  induction n generalizing i m with
  | zero => rfl
  | succ n ih =>
    simp only [readNames, order_ext_readString h]
    congr 1; funext s; exact ih _ _

theorem order_ext_track {a a' : Archive} (h : a.order = a'.order) (k : TrackKind) :
    Track.fromArchive k a = Track.fromArchive k a' := by
  simp only [Track.fromArchive, checkTagVersion, readName, readFloats, readF32, readU8, readU32,
    order_ext_readString h, order_ext_readPrim h]

theorem order_ext_skeleton {a a' : Archive} (h : a.order = a'.order) :
    Skeleton.fromArchive a = Skeleton.fromArchive a' := by
  simp only [Skeleton.fromArchive, Skeleton.readMeta, checkTagVersion, readFloats, readF32, readI16,
    readU32, order_ext_readString h, order_ext_readPrim h, order_ext_readNames h]

theorem order_ext_animation {a a' : Archive} (h : a.order = a'.order) :
    Animation.fromArchive a = Animation.fromArchive a' := by
  simp only [Animation.fromArchive, Animation.readMeta, checkTagVersion, readName, readChannel,
    readRatios, readF32, readU8, readU16, readU32, order_ext_readString h, order_ext_readPrim h]

theorem load_host {α : Type} (loader : Archive → Rd α)
    (hl : ∀ a a' : Archive, a.order = a'.order → loader a = loader a') (n n' : Endian)
    (s : List UInt8) : loadWith n loader s = loadWith n' loader s := by
  cases s with
  | nil => rfl
  | cons tag rest =>
    obtain ⟨o, ho⟩ : ∃ o, Announces o tag := by
      by_cases h : tag = 0
      · exact ⟨.big, by simp [Announces, h]⟩
      · exact ⟨.little, by simp [Announces, h]⟩
    obtain ⟨a, hn, ha⟩ := new_order n o tag ho rest
    obtain ⟨a', hn', ha'⟩ := new_order n' o tag ho rest
    show (Archive.new n (tag :: rest) >>= fun p => loader p.1 p.2) =
      (Archive.new n' (tag :: rest) >>= fun p => loader p.1 p.2)
    rw [hn, hn']
    show loader a rest = loader a' rest
    rw [hl a a' (ha.trans ha'.symm)]

/-! ### Header checks -/

/-- Loaders that begin with the tag and version check. -/
def Checks {α : Type} (loader : Archive → Rd α) (tag : List UInt8) (v : UInt32) : Prop :=
  ∃ k : Archive → Rd α, ∀ a, loader a = (checkTagVersion a tag v >>= fun _ => k a)

theorem checks_track (k : TrackKind) :
    Checks (Track.fromArchive k) (str (trackKind k).1) 1 := by
  have htag : k.tag = str (trackKind k).1 := by cases k <;> rfl
  exact ⟨_, fun a => by unfold Track.fromArchive; rw [htag]⟩

theorem checks_meta (b : Bool) :
    Checks (fun a => Skeleton.readMeta a b) (str "ozz-skeleton") 2 :=
  ⟨_, fun a => rfl⟩

theorem Checks.bind {α β : Type} {l : Archive → Rd α} {tag : List UInt8} {v : UInt32}
    (h : Checks l tag v) (f : Archive → α → Rd β) : Checks (fun a => l a >>= f a) tag v := by
  obtain ⟨k, hk⟩ := h
  refine ⟨fun a => k a >>= f a, fun a => ?_⟩
  simp only [hk]
  rw [bind_assoc]

theorem checks_skeleton : Checks Skeleton.fromArchive (str "ozz-skeleton") 2 :=
  (checks_meta false).bind _

theorem checks_animation : Checks Animation.fromArchive (str "ozz-animation") 7 :=
  Checks.bind ⟨_, fun a => rfl⟩ _

theorem load_eq {α : Type} (native o : Endian) (b : UInt8) (h : Announces o b)
    (loader : Archive → Rd α) (rest : List UInt8) :
    ∃ a : Archive, a.order = o ∧ loadWith native loader (b :: rest) = loader a rest := by
  obtain ⟨a, hn, ha⟩ := new_order native o b h rest
  refine ⟨a, ha, ?_⟩
  show (Archive.new native (b :: rest) >>= fun p => loader p.1 p.2) = _
  rw [hn]; rfl

theorem Checks.other_tag {α : Type} {l : Archive → Rd α} {tag : List UInt8} {v : UInt32}
    (h : Checks l tag v) (native : Endian) (b : UInt8) (other rest : List UInt8)
    (hu : IsUtf8 other) (h0 : 0 ∉ other) (hne : other ≠ tag) :
    loadWith native l (b :: (cstr other ++ rest)) = .error (.err .invalidTag) := by
  obtain ⟨o, ho⟩ : ∃ o, Announces o b := by
    by_cases h : b = 0
    · exact ⟨.big, by simp [Announces, h]⟩
    · exact ⟨.little, by simp [Announces, h]⟩
  obtain ⟨a, _, e⟩ := load_eq native o b ho l (cstr other ++ rest)
  obtain ⟨k, hk⟩ := h
  rw [e, hk]
  have hs := (parses_readString a other h0 hu).1 rest
  simp only [checkTagVersion, Bind.bind, StateT.bind, Except.bind, pure, hs]
  rw [if_pos (by simpa using hne)]
  rfl

theorem Checks.other_version {α : Type} {l : Archive → Rd α} {tag : List UInt8} {v : UInt32}
    (h : Checks l tag v) (native o : Endian) (b : UInt8) (ho : Announces o b) (rest : List UInt8)
    (w : UInt32) (hu : IsUtf8 tag) (h0 : 0 ∉ tag) (hne : w ≠ v) :
    loadWith native l (b :: (cstr tag ++ num o 4 w.toNat ++ rest)) =
      .error (.err .invalidVersion) := by
  obtain ⟨a, ha, e⟩ := load_eq native o b ho l (cstr tag ++ num o 4 w.toNat ++ rest)
  obtain ⟨k, hk⟩ := h
  rw [e, hk, List.append_assoc]
  have hs := (parses_readString a tag h0 hu).1 (num o 4 w.toNat ++ rest)
  have hv := (parses_readU32 a w).1 rest
  rw [ha] at hv
  simp only [checkTagVersion, Bind.bind, StateT.bind, Except.bind, pure, hs, bne_self_eq_false,
    Bool.false_eq_true, if_false, hv]
  rw [if_pos (by simpa using hne)]
  rfl

/-- A stream either has a terminator or not. -/
theorem split_nul (s : List UInt8) :
    0 ∉ s ∨ ∃ bs rest, s = bs ++ 0 :: rest ∧ 0 ∉ bs := by
  by_cases h : (0 : UInt8) ∈ s
  · right
    obtain ⟨bs, rest, h1, h2⟩ := List.append_of_mem h |> fun ⟨s', t', e⟩ =>
      (List.eq_append_cons_of_mem h)
    exact ⟨bs, rest, h1, h2⟩
  · exact .inl h

theorem Checks.of_ok {α : Type} {l : Archive → Rd α} {tag : List UInt8} {v : UInt32}
    (h : Checks l tag v) (native : Endian) (s : List UInt8) (r : α × List UInt8)
    (hok : loadWith native l s = .ok r) :
    ∃ b o rest, Announces o b ∧ s = b :: (cstr tag ++ num o 4 v.toNat ++ rest) := by
  cases s with
  | nil => simp [loadWith, Archive.new, readExact, Bind.bind, StateT.bind, Except.bind] at hok
  | cons b s =>
  obtain ⟨o, ho⟩ : ∃ o, Announces o b := by
    by_cases h : b = 0
    · exact ⟨.big, by simp [Announces, h]⟩
    · exact ⟨.little, by simp [Announces, h]⟩
  obtain ⟨a, ha, e⟩ := load_eq native o b ho l s
  obtain ⟨k, hk⟩ := h
  rw [e, hk] at hok
  refine ⟨b, o, ?_⟩
  simp only [checkTagVersion, Bind.bind, StateT.bind, Except.bind] at hok
  rcases split_nul s with h0 | ⟨bs, rest, rfl, h0⟩
  · rw [readString_end a s h0] at hok; simp at hok
  by_cases hu : IsUtf8 bs
  · rw [readString_ok a bs rest h0 hu] at hok
    simp only at hok
    by_cases ht : bs = tag
    · subst ht
      simp only [bne_self_eq_false, Bool.false_eq_true, if_false] at hok
      by_cases hl : 4 ≤ rest.length
      · -- four bytes are some version
        have hlen : (rest.take 4).length = 4 := by simp [hl]
        obtain ⟨w, e⟩ : ∃ w : UInt32, num o 4 w.toNat = rest.take 4 := by
          have h1 := leBytes_leValue (rest.take 4)
          have h2 := leBytes_leValue (rest.take 4).reverse
          have h3 := leValue_lt (rest.take 4)
          have h4 := leValue_lt (rest.take 4).reverse
          rw [List.length_reverse] at h2 h4
          rw [hlen] at h1 h2 h3 h4
          have tn : ∀ v, v < 256 ^ 4 → (UInt32.ofNat v).toNat = v := fun v hv => by
            rw [UInt32.toNat_ofNat']; omega
          cases o
          · exact ⟨UInt32.ofNat (leValue (rest.take 4).reverse), by
              rw [tn _ h4, num_big, h2, List.reverse_reverse]⟩
          · exact ⟨UInt32.ofNat (leValue (rest.take 4)), by rw [tn _ h3, num_little, h1]⟩
        have hv := (parses_readU32 a w).1 (rest.drop 4)
        rw [ha, e, List.take_append_drop] at hv
        simp only [StateT.bind, Bind.bind, Except.bind, hv] at hok
        by_cases hw : w = v
        · subst hw
          refine ⟨rest.drop 4, ho, ?_⟩
          rw [e, cstr]
          simp
        · rw [if_pos (by simpa using hw)] at hok
          simp [failRd] at hok
      · have : readU32 a rest = .error (.err .io) := by
          simp [readU32, readPrim, readExact, hl, Bind.bind, StateT.bind, Except.bind]
        simp [StateT.bind, Bind.bind, Except.bind, this] at hok
    · rw [if_pos (by simpa using ht)] at hok
      simp [failRd] at hok
  · have : ∃ f, readString a (bs ++ 0 :: rest) = .error f := by
      obtain ⟨n, _, e⟩ := fromUtf8_err bs rest hu
      refine ⟨.err (.utf8 (n % 2 ^ 32)), ?_⟩
      show (readUntilNul a (bs ++ 0 :: rest) >>= fun p => fromUtf8 p.1 p.2) = _
      rw [readUntilNul_found a bs rest h0]
      exact e
    obtain ⟨f, hf⟩ := this
    rw [hf] at hok; simp at hok

end Ozz
