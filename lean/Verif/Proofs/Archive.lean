import Verif.Spec.Archive

set_option linter.unusedVariables false

/-! Helper lemmas on archive reading. -/

namespace Ozz

/-! ### Numbers -/

theorem leBytes_length (n v : Nat) : (leBytes n v).length = n := by
  induction n generalizing v with
  | zero => rfl
  | succ n ih => simp [leBytes, ih]

theorem leValue_leBytes (n v : Nat) : leValue (leBytes n v) = v % 256 ^ n := by
  induction n generalizing v with
  | zero => simp [leBytes, leValue, Nat.mod_one]
  | succ n ih =>
    simp only [leBytes, leValue, ih, UInt8.toNat_ofNat']
    rw [show 256 ^ (n + 1) = 256 * 256 ^ n from Nat.pow_succ', Nat.mod_mul]

theorem leValue_lt (bs : List UInt8) : leValue bs < 256 ^ bs.length := by
  induction bs with
  | nil => simp [leValue]
  | cons b bs ih =>
    simp only [leValue, List.length_cons, Nat.pow_succ]
    have := b.toNat_lt
    omega

theorem leBytes_leValue (bs : List UInt8) : leBytes bs.length (leValue bs) = bs := by
  induction bs with
  | nil => rfl
  | cons b bs ih =>
    have hb := b.toNat_lt
    simp only [List.length_cons, leBytes, leValue]
    have h1 : (b.toNat + 256 * leValue bs) / 256 = leValue bs := by omega
    rw [h1, ih]
    congr 1
    apply UInt8.toNat_inj.mp
    rw [UInt8.toNat_ofNat']
    omega

theorem num_little (n v : Nat) : Format.num .little n v = leBytes n v := by
  induction n generalizing v with
  | zero => rfl
  | succ n ih =>
    simp only [Format.num] at ih ⊢
    rw [List.range_succ_eq_map, List.map_cons, List.map_map, leBytes, ← ih]
    simp [Function.comp_def, Nat.pow_succ', Nat.div_div_eq_div_mul]

theorem num_big (n v : Nat) : Format.num .big n v = (leBytes n v).reverse := by
  rw [← num_little]
  apply List.ext_getElem
  · simp [Format.num]
  · intro i h1 h2
    simp only [Format.num, List.length_map, List.length_range] at h1
    simp [Format.num]

theorem num_length (o : Endian) (n v : Nat) : (Format.num o n v).length = n := by
  cases o <;> simp [Format.num]

/-- The byte order an archive is read in. -/
def Archive.order (a : Archive) : Endian :=
  match a.native, a.endianSwap with
  | .little, false => .little
  | .little, true => .big
  | .big, false => .big
  | .big, true => .little

theorem decode_num (a : Archive) (n v : Nat) (hv : v < 256 ^ n) :
    (if a.endianSwap then swapBytes n (nativeValue a.native (Format.num a.order n v))
      else nativeValue a.native (Format.num a.order n v)) = v := by
  obtain ⟨nat, sw⟩ := a
  have key : leBytes n (leValue (leBytes n v).reverse) = (leBytes n v).reverse := by
    have := leBytes_leValue (leBytes n v).reverse
    rwa [List.length_reverse, leBytes_length] at this
  have hval : leValue (leBytes n v) = v := by rw [leValue_leBytes, Nat.mod_eq_of_lt hv]
  cases nat <;> cases sw <;>
    simp [Archive.order, nativeValue, num_little, num_big, swapBytes, hval, key]

/-! ### Parsing -/

/-- `r` reads exactly `bs`, returning `v`, whatever follows; and it runs out of input on every
strict prefix. -/
def Parses {α : Type} (r : Rd α) (bs : List UInt8) (v : α) : Prop :=
  (∀ rest, r (bs ++ rest) = .ok (v, rest)) ∧
  (∀ p, p <+: bs → p ≠ bs → r p = .error (.err .io))

theorem prefix_append_cases {p bs bs' : List UInt8} (h : p <+: bs ++ bs') :
    (p <+: bs ∧ p ≠ bs) ∨ ∃ q, p = bs ++ q ∧ q <+: bs' := by
  obtain ⟨t, ht⟩ := h
  rcases List.append_eq_append_iff.mp ht with ⟨u, h1, h2⟩ | ⟨u, h1, h2⟩
  · by_cases hu : u = []
    · exact .inr ⟨[], by simp [h1, hu], List.nil_prefix⟩
    · refine .inl ⟨⟨u, h1.symm⟩, fun e => hu ?_⟩
      rw [e] at h1
      simpa using h1
  · exact .inr ⟨u, h1, ⟨t, h2.symm⟩⟩

theorem Parses.pure {α : Type} (v : α) : Parses (pure v) [] v := by
  refine ⟨fun _ => rfl, fun p hp hne => ?_⟩
  exact absurd (List.prefix_nil.mp hp) hne

theorem Parses.bind {α β : Type} {r : Rd α} {f : α → Rd β} {bs bs' : List UInt8} {v : α} {w : β}
    (h : Parses r bs v) (h' : Parses (f v) bs' w) : Parses (r >>= f) (bs ++ bs') w := by
  constructor
  · intro rest
    show (r ((bs ++ bs') ++ rest) >>= fun p => f p.1 p.2) = _
    rw [List.append_assoc, h.1]
    exact h'.1 rest
  · intro p hp hne
    show (r p >>= fun p => f p.1 p.2) = _
    rcases prefix_append_cases hp with hpb | ⟨q, rfl, hq⟩
    · rw [h.2 p hpb.1 hpb.2]; rfl
    · rw [h.1 q]
      exact h'.2 q hq (fun e => hne (by rw [e]))

end Ozz
