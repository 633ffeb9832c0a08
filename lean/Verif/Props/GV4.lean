import Verif.Proofs.GV4

/-! Property theorems C14: interval-frame streams. -/

namespace Ozz.Props

open Spec

/-- **C14.** Decoding the encoding of any list of 32-bit entries (length a multiple of four, any
bytes following) gives back the list and leaves exactly the following bytes. -/
theorem C14_gv4_round_trip (oob : Oob) (xs : List Nat) (rest : List UInt8)
    (hlen : xs.length % 4 = 0) (hxs : ∀ x ∈ xs, x < 2^32) :
    decodeGv4Stream oob (gv4Encode xs ++ rest) xs.length = .ok (xs, rest) := by
  unfold decodeGv4Stream
  have := gv4Encode_length xs hlen
  simp only [assertB, hlen, decide_true, ↓reduceIte, bind, Except.bind]
  rw [if_pos (by simp; omega)]
  exact gv4Loop_encoded oob rest xs hlen hxs

/-- **C14.** Whatever the input (even malformed), the result does not depend on memory outside the
slice: the bytes read past the end are always masked away, or the decoder panics. -/
theorem C14_gv4_no_outside_dependence (oob oob' : Oob) (buffer : List UInt8) (n : Nat) :
    decodeGv4Stream oob buffer n = decodeGv4Stream oob' buffer n := by
  unfold decodeGv4Stream
  rw [gv4Loop_oob oob oob']

/-- **C14.** A decoded stream has the requested length. -/
theorem C14_gv4_decoded_length (oob : Oob) (buffer : List UInt8) (n : Nat) (xs : List Nat)
    (rest : List UInt8) (h : decodeGv4Stream oob buffer n = .ok (xs, rest)) : xs.length = n := by
  unfold decodeGv4Stream at h
  simp only [assertB, bind, Except.bind] at h
  split at h
  · simp at h
  · split at h
    · simp at h
    · exact gv4Loop_length n h

/-- Mixed widths, with the decoder reading past the end for the last value. -/
example : gv4Encode [1, 300, 70000, 5] = [0x24, 1, 0x2c, 1, 0x70, 0x11, 1, 5] ∧
    decodeGv4Stream (fun _ => 0xAA) (gv4Encode [1, 300, 70000, 5]) 4
      = .ok ([1, 300, 70000, 5], []) := by decide +kernel

end Ozz.Props
