import Verif.Model.ArchiveTypes
import Verif.Props.Archive

/-! C01 for the types that no loader of the crate reads but users can ask for. -/

namespace Ozz.Props

open Format

/-- Integers of any size in two's complement. -/
theorem parses_readSigned (a : Archive) (n : Nat) (x : Int) (h1 : -2 ^ (8 * n) ≤ 2 * x) (h2 : 2 * x < 2 ^ (8 * n)) :
    Parses (readSigned a n) (num a.order n (x % 2 ^ (8 * n)).toNat) x := by
  have hpos : (0 : Int) < 2 ^ (8 * n) := Int.pow_pos (by decide)
  have hm := Int.emod_nonneg x (Int.ne_of_gt hpos)
  have hlt := Int.emod_lt_of_pos x hpos
  have e : (256 : Nat) ^ n = 2 ^ (8 * n) := by rw [Nat.pow_mul]
  refine Parses.bind_pure (parses_readPrim a n _ ?_) ?_
  · rw [e]
    refine Int.ofNat_lt.mp ?_
    rw [Int.toNat_of_nonneg hm]
    push_cast
    exact hlt
  · rw [BitVec.toInt_ofNat', Int.toNat_of_nonneg hm]
    have c : (2 : Int) ^ (8 * n) = ((2 ^ (8 * n) : Nat) : Int) := by push_cast; rfl
    rw [c, Int.emod_bmod]
    exact Int.bmod_eq_of_le_mul_two (by push_cast; omega) (by push_cast; omega)

/-- **C01.** Signed integers of `n` bytes (`i8`, `i16`, `i32`, `i64`), `u64` and the bits of an `f64` are read back in either byte
order on either kind of host. -/
theorem C01_other_readers (native o : Endian) (tag : UInt8) (h : Announces o tag) (rest : List UInt8) :
    (∀ (n : Nat) (x : Int), -2 ^ (8 * n) ≤ 2 * x → 2 * x < 2 ^ (8 * n) →
      loadWith native (fun a => readSigned a n) (tag :: num o n (x % 2 ^ (8 * n)).toNat ++ rest) = .ok (x, rest)) ∧
    (∀ x : UInt64, loadWith native readU64 (tag :: num o 8 x.toNat ++ rest) = .ok (x, rest)) := by
  refine ⟨fun n x h1 h2 => ?_, fun x => ?_⟩ <;>
    refine (parses_load native o tag h _ _ _ fun a ha => ?_).1 rest <;> subst ha
  · exact parses_readSigned a n x h1 h2
  · exact Parses.bind_pure (parses_readPrim a 8 _ x.toNat_lt) (by simp)

/-- **C01.** A `bool` is read back from its byte, and every other byte makes a `bool` that is neither true nor false: for safe
code reading a file this is undefined behaviour. -/
theorem C01_bool (native : Endian) (tag b : UInt8) (rest : List UInt8) :
    ∃ r, loadWith native readBool (tag :: b :: rest) = .ok (r, rest) ∧
      (r = some false ↔ b = 0) ∧ (r = some true ↔ b = 1) ∧ (r = none ↔ 2 ≤ b.toNat) := by
  refine ⟨if b = 0 then some false else if b = 1 then some true else none, ?_, ?_⟩
  · simp [loadWith, Archive.new, readBool, readExact, bind, StateT.bind, Except.bind, pure, StateT.pure, Except.pure]
  · have : ∀ b : UInt8, let r := if b = 0 then some false else if b = 1 then some true else (none : Option Bool)
        (r = some false ↔ b = 0) ∧ (r = some true ↔ b = 1) ∧ (r = none ↔ 2 ≤ b.toNat) := by
      intro b
      by_cases h0 : b = 0
      · subst h0; decide
      · by_cases h1 : b = 1
        · subst h1; decide
        · have e0 : b.toNat ≠ 0 := fun h => h0 (UInt8.toNat_inj.mp h)
          have e1 : b.toNat ≠ 1 := fun h => h1 (UInt8.toNat_inj.mp h)
          simp [h0, h1]
          omega
    exact this b

/-- The smallest `i32`, big-endian; -2 as an `i64`, little-endian; a byte that is no `bool`. -/
example : loadWith .little (fun a => readSigned a 4) [0, 128, 0, 0, 0, 9] = .ok (-2147483648, [9]) ∧
    loadWith .big (fun a => readSigned a 8) [1, 254, 255, 255, 255, 255, 255, 255, 255] = .ok (-2, []) ∧
    loadWith .little readBool [0, 2, 5] = .ok (none, [5]) := by decide +kernel

end Ozz.Props
