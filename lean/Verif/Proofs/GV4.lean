import Verif.Model.GV4
import Verif.Spec.GV4

namespace Ozz

open Spec

theorem or_shift_eq (a b k : Nat) (h : a < 2 ^ k) : a ||| (b <<< k) = a + b * 2 ^ k := by
  rw [Nat.or_comm, ← Nat.shiftLeft_add_eq_or_of_lt h, Nat.shiftLeft_eq, Nat.add_comm]

theorem rawByte_lt (oob : Oob) (buf : List UInt8) (i : Nat) : rawByte oob buf i < 256 :=
  UInt8.toNat_lt _

theorem gv4Load_eq (oob : Oob) (buf : List UInt8) :
    gv4Load oob buf = rawByte oob buf 0 + rawByte oob buf 1 * 2^8 + rawByte oob buf 2 * 2^16
      + rawByte oob buf 3 * 2^24 := by
  have h0 := rawByte_lt oob buf 0
  have h1 := rawByte_lt oob buf 1
  have h2 := rawByte_lt oob buf 2
  have h3 := rawByte_lt oob buf 3
  unfold gv4Load
  rw [or_shift_eq _ _ 8 (by omega), or_shift_eq _ _ 16 (by omega), or_shift_eq _ _ 24 (by omega)]

/-- The value of the first `n` bytes. -/
def takeLE : Nat → List UInt8 → Nat
  | 0, _ => 0
  | _, [] => 0
  | n + 1, b :: bs => b.toNat + 256 * takeLE n bs

theorem gv4Load_mask (oob : Oob) (buf : List UInt8) (k : Nat) (hk : k ≤ 3) (hb : k + 1 ≤ buf.length) :
    gv4Load oob buf &&& gv4Mask k = takeLE (k + 1) buf := by
  have e0 : (0xff : Nat) = 2^8 - 1 := by decide
  have e1 : (0xffff : Nat) = 2^16 - 1 := by decide
  have e2 : (0xffffff : Nat) = 2^24 - 1 := by decide
  have e3 : (0xffffffff : Nat) = 2^32 - 1 := by decide
  have h0 := rawByte_lt oob buf 0
  have h1 := rawByte_lt oob buf 1
  have h2 := rawByte_lt oob buf 2
  have h3 := rawByte_lt oob buf 3
  have hraw : ∀ i (h : i < buf.length), rawByte oob buf i = (buf[i]).toNat := by
    intro i h; simp [rawByte, h]
  rw [gv4Load_eq]
  have : k = 0 ∨ k = 1 ∨ k = 2 ∨ k = 3 := by omega
  rcases this with rfl | rfl | rfl | rfl
  · obtain ⟨b0, bs, rfl⟩ : ∃ b0 bs, buf = b0 :: bs := by
      match buf, hb with
      | b0 :: bs, _ => exact ⟨b0, bs, rfl⟩
    rw [show gv4Mask 0 = 2^8 - 1 from e0, Nat.and_two_pow_sub_one_eq_mod]
    have r0 := hraw 0 (by simp)
    simp only [List.getElem_cons_zero] at r0
    simp only [takeLE]
    omega
  · obtain ⟨b0, b1, bs, rfl⟩ : ∃ b0 b1 bs, buf = b0 :: b1 :: bs := by
      match buf, hb with
      | b0 :: b1 :: bs, _ => exact ⟨b0, b1, bs, rfl⟩
    rw [show gv4Mask 1 = 2^16 - 1 from e1, Nat.and_two_pow_sub_one_eq_mod]
    have r0 := hraw 0 (by simp)
    have r1 := hraw 1 (by simp)
    simp only [List.getElem_cons_zero, List.getElem_cons_succ] at r0 r1
    simp only [takeLE]
    omega
  · obtain ⟨b0, b1, b2, bs, rfl⟩ : ∃ b0 b1 b2 bs, buf = b0 :: b1 :: b2 :: bs := by
      match buf, hb with
      | b0 :: b1 :: b2 :: bs, _ => exact ⟨b0, b1, b2, bs, rfl⟩
    rw [show gv4Mask 2 = 2^24 - 1 from e2, Nat.and_two_pow_sub_one_eq_mod]
    have r0 := hraw 0 (by simp)
    have r1 := hraw 1 (by simp)
    have r2 := hraw 2 (by simp)
    simp only [List.getElem_cons_zero, List.getElem_cons_succ] at r0 r1 r2
    simp only [takeLE]
    omega
  · obtain ⟨b0, b1, b2, b3, bs, rfl⟩ : ∃ b0 b1 b2 b3 bs, buf = b0 :: b1 :: b2 :: b3 :: bs := by
      match buf, hb with
      | b0 :: b1 :: b2 :: b3 :: bs, _ => exact ⟨b0, b1, b2, b3, bs, rfl⟩
    rw [show gv4Mask 3 = 2^32 - 1 from e3, Nat.and_two_pow_sub_one_eq_mod]
    have r0 := hraw 0 (by simp)
    have r1 := hraw 1 (by simp)
    have r2 := hraw 2 (by simp)
    have r3 := hraw 3 (by simp)
    simp only [List.getElem_cons_zero, List.getElem_cons_succ] at r0 r1 r2 r3
    simp only [takeLE]
    omega

/-! ### Reading one value off the front -/

/-- Masked load followed by the checked advance, as done four times by `decode_gv4`. -/
def readOne (oob : Oob) (buf : List UInt8) (k : Nat) : Res (Nat × List UInt8) := do
  let o := gv4Load oob buf &&& gv4Mask k
  let rest ← sliceFrom buf (k + 1)
  return (o, rest)

theorem readOne_eq (oob : Oob) (buf : List UInt8) (k : Nat) (hk : k ≤ 3) :
    readOne oob buf k = if k + 1 ≤ buf.length then .ok (takeLE (k + 1) buf, buf.drop (k + 1))
      else .error .panic := by
  unfold readOne sliceFrom
  by_cases h : k + 1 ≤ buf.length
  · simp only [h, ↓reduceIte, gv4Load_mask oob buf k hk h]; rfl
  · simp only [h, ↓reduceIte]; rfl

/-- `decode_gv4` as four reads. -/
theorem decodeGv4_eq (oob : Oob) (buffer : List UInt8) (n : Nat) :
    decodeGv4 oob buffer n = (do
      assertB (decide (buffer.length ≥ 5))
      assertB (decide (n = 4))
      let p ← (buffer[0]?).elim (.error .panic) (fun b => .ok b.toNat)
      let b ← sliceFrom buffer 1
      let (o0, b) ← readOne oob b (p &&& 0x3)
      let (o1, b) ← readOne oob b ((p >>> 2) &&& 0x3)
      let (o2, b) ← readOne oob b ((p >>> 4) &&& 0x3)
      let (o3, b) ← readOne oob b (p >>> 6)
      return ([o0, o1, o2, o3], b)) := by
  simp only [decodeGv4, readOne, bind_assoc, pure_bind]

theorem and3 (p : Nat) : p &&& 0x3 = p % 4 := by
  rw [show (0x3 : Nat) = 2^2 - 1 from rfl, Nat.and_two_pow_sub_one_eq_mod]

theorem length_leBytes_gv4 (n v : Nat) : (leBytes n v).length = n := by
  induction n generalizing v with
  | zero => rfl
  | succ n ih => simp [leBytes, ih]

theorem takeLE_leBytes (n v : Nat) (rest : List UInt8) (h : v < 256 ^ n) :
    takeLE n (leBytes n v ++ rest) = v := by
  induction n generalizing v with
  | zero => simp at h; simp [takeLE, h]
  | succ n ih =>
    simp only [leBytes, List.cons_append, takeLE]
    rw [ih (v / 256) (by rw [Nat.pow_succ] at h; omega)]
    simp
    omega

theorem byteCount_bound (v : Nat) (h : v < 2^32) : v < 256 ^ byteCount v := by
  unfold byteCount
  split
  · omega
  · split
    · omega
    · split <;> omega

theorem byteCount_range (v : Nat) : 1 ≤ byteCount v ∧ byteCount v ≤ 4 := by
  unfold byteCount
  split
  · omega
  · split
    · omega
    · split <;> omega

theorem readOne_encoded (oob : Oob) (v : Nat) (h : v < 2^32) (rest : List UInt8) (k : Nat)
    (hk : k + 1 = byteCount v) :
    readOne oob (leBytes (byteCount v) v ++ rest) k = .ok (v, rest) := by
  have := byteCount_range v
  rw [readOne_eq _ _ _ (by omega), hk]
  have hl := length_leBytes_gv4 (byteCount v) v
  rw [if_pos (by simp [hl])]
  rw [takeLE_leBytes _ _ _ (byteCount_bound v h), List.drop_left' hl]

theorem decodeGv4_group (oob : Oob) (a b c d : Nat) (ha : a < 2^32) (hb : b < 2^32) (hc : c < 2^32)
    (hd : d < 2^32) (rest : List UInt8) :
    decodeGv4 oob (gv4Group a b c d ++ rest) 4 = .ok ([a, b, c, d], rest) := by
  have ra := byteCount_range a
  have rb := byteCount_range b
  have rc := byteCount_range c
  have rd := byteCount_range d
  rw [decodeGv4_eq]
  simp only [gv4Group, List.cons_append, List.append_assoc, List.length_cons, List.length_append,
    length_leBytes_gv4]
  simp only [assertB, decide_true, ↓reduceIte, List.getElem?_cons_zero, Option.elim_some, sliceFrom,
    List.drop_one, List.tail_cons, List.length_cons]
  rw [if_pos (by simp; omega)]
  simp only [bind, Except.bind]
  rw [if_pos (by omega)]
  simp only
  generalize hp : (UInt8.ofNat ((byteCount a - 1) + 4 * (byteCount b - 1) + 16 * (byteCount c - 1)
      + 64 * (byteCount d - 1))).toNat = p
  have hp' : p = (byteCount a - 1) + 4 * (byteCount b - 1) + 16 * (byteCount c - 1)
      + 64 * (byteCount d - 1) := by
    rw [← hp]; simp; omega
  simp only [and3, Nat.shiftRight_eq_div_pow]
  rw [readOne_encoded oob a ha _ _ (by omega)]
  simp only
  rw [readOne_encoded oob b hb _ _ (by omega)]
  simp only
  rw [readOne_encoded oob c hc _ _ (by omega)]
  simp only
  rw [readOne_encoded oob d hd _ _ (by omega)]
  rfl

theorem gv4Loop_encoded (oob : Oob) (rest : List UInt8) : ∀ (xs : List Nat),
    xs.length % 4 = 0 → (∀ x ∈ xs, x < 2^32) →
    gv4Loop oob (gv4Encode xs ++ rest) xs.length = .ok (xs, rest) := by
  intro xs
  fun_induction gv4Encode xs with
  | case1 a b c d xs ih =>
    intro hl hlt
    rw [gv4Loop]
    simp only [List.length_cons, Nat.add_eq_zero_iff, Nat.succ_ne_self, and_false, ↓reduceIte] at *
    rw [show min 4 (xs.length + 1 + 1 + 1 + 1) = 4 by omega, List.append_assoc,
      decodeGv4_group oob a b c d (hlt a (by simp)) (hlt b (by simp)) (hlt c (by simp))
        (hlt d (by simp))]
    simp only [bind, Except.bind]
    rw [show xs.length + 1 + 1 + 1 + 1 - 4 = xs.length by omega,
      ih (by omega) (fun x hx => hlt x (by simp [hx]))]
    simp [pure, Except.pure]
  | case2 xs hne =>
    intro hl _
    match xs, hne, hl with
    | [], _, _ => rw [gv4Loop]; simp [pure, Except.pure]
    | [_], _, hl => simp at hl
    | [_, _], _, hl => simp at hl
    | [_, _, _], _, hl => simp at hl
    | a :: b :: c :: d :: e, hne, _ => exact absurd rfl (hne a b c d e)

theorem gv4Encode_length (xs : List Nat) (h : xs.length % 4 = 0) :
    xs.length + xs.length / 4 ≤ (gv4Encode xs).length := by
  fun_induction gv4Encode xs with
  | case1 a b c d xs ih =>
    have ra := byteCount_range a
    have rb := byteCount_range b
    have rc := byteCount_range c
    have rd := byteCount_range d
    simp only [gv4Group, List.length_cons, List.length_append, length_leBytes_gv4] at *
    have := ih (by omega)
    omega
  | case2 xs hne =>
    match xs, hne, h with
    | [], _, _ => simp
    | [_], _, hl => simp at hl
    | [_, _], _, hl => simp at hl
    | [_, _, _], _, hl => simp at hl
    | a :: b :: c :: d :: e, hne, _ => exact absurd rfl (hne a b c d e)

/-! ### Independence of out-of-slice memory -/

theorem decodeGv4_oob (oob oob' : Oob) (buffer : List UInt8) (n : Nat) :
    decodeGv4 oob buffer n = decodeGv4 oob' buffer n := by
  have hread : ∀ (b : List UInt8) k, k ≤ 3 → readOne oob b k = readOne oob' b k := by
    intro b k hk; rw [readOne_eq _ _ _ hk, readOne_eq _ _ _ hk]
  rw [decodeGv4_eq, decodeGv4_eq]
  cases hb : buffer[0]? with
  | none =>
    have : buffer = [] := by simpa using hb
    subst this; rfl
  | some p =>
    have := p.toNat_lt
    simp only [Option.elim_some]
    simp only [hread _ (p.toNat &&& 0x3) (by rw [and3]; omega),
      hread _ (p.toNat >>> 2 &&& 0x3) (by rw [and3]; omega),
      hread _ (p.toNat >>> 4 &&& 0x3) (by rw [and3]; omega),
      hread _ (p.toNat >>> 6) (by rw [Nat.shiftRight_eq_div_pow]; omega), bind, Except.bind]

theorem gv4Loop_oob (oob oob' : Oob) (n : Nat) (buffer : List UInt8) :
    gv4Loop oob buffer n = gv4Loop oob' buffer n := by
  induction n using Nat.strongRecOn generalizing buffer with
  | _ n ih =>
    rw [gv4Loop, gv4Loop]
    split
    · rfl
    · rw [decodeGv4_oob oob oob']
      congr 1
      funext ⟨vals, rest⟩
      simp only
      rw [ih (n - 4) (by omega)]

theorem decodeGv4_length {oob : Oob} {buffer : List UInt8} {n : Nat} {xs : List Nat}
    {rest : List UInt8} (h : decodeGv4 oob buffer n = .ok (xs, rest)) : n = 4 ∧ xs.length = 4 := by
  by_cases hn : n = 4
  · refine ⟨hn, ?_⟩
    simp only [decodeGv4, bind, Except.bind] at h
    repeat' (split at h)
    all_goals first
      | (simp only [pure, Except.pure, Except.ok.injEq, Prod.mk.injEq] at h
         rw [← h.1]; rfl)
      | simp at h
  · simp only [decodeGv4, assertB, hn, decide_false, bind, Except.bind] at h
    split at h <;> simp at h

theorem gv4Loop_length {oob : Oob} (n : Nat) {buffer : List UInt8} {xs : List Nat}
    {rest : List UInt8} (h : gv4Loop oob buffer n = .ok (xs, rest)) : xs.length = n := by
  induction n using Nat.strongRecOn generalizing buffer xs rest with
  | _ n ih =>
    rw [gv4Loop] at h
    split at h
    · simp only [pure, Except.pure, Except.ok.injEq, Prod.mk.injEq] at h
      rename_i hn
      rw [← h.1, hn]; rfl
    · simp only [bind, Except.bind] at h
      split at h
      · simp at h
      · rename_i v hv
        split at h
        · simp at h
        · rename_i w hw
          simp only [pure, Except.pure, Except.ok.injEq, Prod.mk.injEq] at h
          have h1 := decodeGv4_length hv
          have h2 := ih (n - 4) (by omega) hw
          rw [← h.1, List.length_append, h1.2, h2]
          omega

end Ozz
