import Verif.Spec.Archive

set_option linter.unusedVariables false

/-! UTF-8 validation decides the specification. -/

namespace Ozz

open Format

theorem isUtf8_nil : IsUtf8 [] := ⟨[], by simp, rfl⟩

theorem IsUtf8.cons {c : Nat} {bs : List UInt8} (hc : IsScalar c) (h : IsUtf8 bs) :
    IsUtf8 (utf8Char c ++ bs) := by
  obtain ⟨cs, h1, rfl⟩ := h
  exact ⟨c :: cs, by simpa using ⟨hc, h1⟩, rfl⟩

theorem inRange_iff (b lo hi : UInt8) :
    inRange b lo hi = true ↔ lo.toNat ≤ b.toNat ∧ b.toNat ≤ hi.toNat := by
  simp [inRange, UInt8.le_iff_toNat_le]

/-- One valid character at the start. -/
def IsChar (bs : List UInt8) : Prop := ∃ c, IsScalar c ∧ bs = utf8Char c

theorem u8_eq (b : UInt8) (n : Nat) (h : b.toNat = n % 256) : b = UInt8.ofNat n := by
  apply UInt8.toNat_inj.mp
  rw [UInt8.toNat_ofNat', h]

theorem isChar1 (b0 : UInt8) (h : b0 < 0x80) : IsChar [b0] := by
  have h0 : b0.toNat < 128 := by simpa [UInt8.lt_iff_toNat_lt] using h
  refine ⟨b0.toNat, .inl (by omega), ?_⟩
  simp [utf8Char, h0]

theorem isChar2 (b0 b1 : UInt8) (h : inRange b0 0xC2 0xDF) (h1 : inRange b1 0x80 0xBF) :
    IsChar [b0, b1] := by
  simp [inRange_iff] at h h1
  refine ⟨(b0.toNat - 0xC0) * 64 + (b1.toNat - 0x80), .inl (by omega), ?_⟩
  unfold utf8Char
  rw [if_neg (by omega), if_pos (by omega)]
  exact List.cons_eq_cons.mpr ⟨u8_eq _ _ (by omega), List.cons_eq_cons.mpr ⟨u8_eq _ _ (by omega), rfl⟩⟩

theorem isChar3 (b0 b1 b2 : UInt8) (h : inRange b0 0xE0 0xEF)
    (h1 : ((if b0 = 0xE0 then inRange b1 0xA0 0xBF
      else if b0 = 0xED then inRange b1 0x80 0x9F else inRange b1 0x80 0xBF) &&
        inRange b2 0x80 0xBF) = true) : IsChar [b0, b1, b2] := by
  have e0 : b0 = 0xE0 ↔ b0.toNat = 0xE0 := by rw [← UInt8.toNat_inj]; rfl
  have eD : b0 = 0xED ↔ b0.toNat = 0xED := by rw [← UInt8.toNat_inj]; rfl
  rw [Bool.and_eq_true] at h1
  obtain ⟨h1, h2⟩ := h1
  simp [inRange_iff] at h h2
  have hb1 : 0x80 ≤ b1.toNat ∧ b1.toNat ≤ 0xBF ∧ (b0.toNat = 0xE0 → 0xA0 ≤ b1.toNat) ∧
      (b0.toNat = 0xED → b1.toNat ≤ 0x9F) := by
    split at h1
    · simp [inRange_iff] at h1; rw [e0] at *; omega
    · split at h1
      · simp [inRange_iff] at h1; rw [e0, eD] at *; omega
      · simp [inRange_iff] at h1; rw [e0] at *; rw [eD] at *; omega
  refine ⟨(b0.toNat - 0xE0) * 4096 + (b1.toNat - 0x80) * 64 + (b2.toNat - 0x80), ?_, ?_⟩
  · unfold IsScalar; omega
  unfold utf8Char
  rw [if_neg (by omega), if_neg (by omega), if_pos (by omega)]
  exact List.cons_eq_cons.mpr ⟨u8_eq _ _ (by omega), List.cons_eq_cons.mpr ⟨u8_eq _ _ (by omega), List.cons_eq_cons.mpr ⟨u8_eq _ _ (by omega), rfl⟩⟩⟩

theorem isChar4 (b0 b1 b2 b3 : UInt8) (h : inRange b0 0xF0 0xF4)
    (h1 : ((if b0 = 0xF0 then inRange b1 0x90 0xBF
      else if b0 = 0xF4 then inRange b1 0x80 0x8F else inRange b1 0x80 0xBF) &&
        inRange b2 0x80 0xBF && inRange b3 0x80 0xBF) = true) : IsChar [b0, b1, b2, b3] := by
  have e0 : b0 = 0xF0 ↔ b0.toNat = 0xF0 := by rw [← UInt8.toNat_inj]; rfl
  have eD : b0 = 0xF4 ↔ b0.toNat = 0xF4 := by rw [← UInt8.toNat_inj]; rfl
  rw [Bool.and_eq_true, Bool.and_eq_true] at h1
  obtain ⟨⟨h1, h2⟩, h3⟩ := h1
  simp [inRange_iff] at h h2 h3
  have hb1 : 0x80 ≤ b1.toNat ∧ b1.toNat ≤ 0xBF ∧ (b0.toNat = 0xF0 → 0x90 ≤ b1.toNat) ∧
      (b0.toNat = 0xF4 → b1.toNat ≤ 0x8F) := by
    split at h1
    · simp [inRange_iff] at h1; rw [e0] at *; omega
    · split at h1
      · simp [inRange_iff] at h1; rw [e0, eD] at *; omega
      · simp [inRange_iff] at h1; rw [e0] at *; rw [eD] at *; omega
  refine ⟨(b0.toNat - 0xF0) * 262144 + (b1.toNat - 0x80) * 4096 + (b2.toNat - 0x80) * 64 +
    (b3.toNat - 0x80), ?_, ?_⟩
  · unfold IsScalar; omega
  unfold utf8Char
  rw [if_neg (by omega), if_neg (by omega), if_neg (by omega)]
  exact List.cons_eq_cons.mpr ⟨u8_eq _ _ (by omega), List.cons_eq_cons.mpr ⟨u8_eq _ _ (by omega), List.cons_eq_cons.mpr ⟨u8_eq _ _ (by omega), List.cons_eq_cons.mpr ⟨u8_eq _ _ (by omega), rfl⟩⟩⟩⟩

/-- A valid character is skipped. -/
theorem utf8Scan_char (c : Nat) (hc : IsScalar c) (pos : Nat) (bs : List UInt8) :
    utf8Scan pos (utf8Char c ++ bs) = utf8Scan (pos + (utf8Char c).length) bs := by
  unfold IsScalar at hc
  unfold utf8Char
  have tn : ∀ n, n < 256 → (UInt8.ofNat n).toNat = n := fun n h => by
    rw [UInt8.toNat_ofNat']; omega
  split
  · rename_i h
    have hlt : UInt8.ofNat c < 0x80 := by
      rw [UInt8.lt_iff_toNat_lt, tn c (by omega)]; exact h
    conv => lhs; unfold utf8Scan
    simp only [List.cons_append, List.nil_append, if_pos hlt]
    rfl
  split
  · rename_i h h'
    have hn : ¬ UInt8.ofNat (0xC0 + c / 64) < 0x80 := by
      rw [UInt8.lt_iff_toNat_lt, tn _ (by omega)]; simp; omega
    have r0 : inRange (UInt8.ofNat (0xC0 + c / 64)) 0xC2 0xDF = true := by
      rw [inRange_iff, tn _ (by omega)]; simp; omega
    have r1 : inRange (UInt8.ofNat (0x80 + c % 64)) 0x80 0xBF = true := by
      rw [inRange_iff, tn _ (by omega)]; simp; omega
    conv => lhs; unfold utf8Scan
    simp only [List.cons_append, List.nil_append, if_neg hn, r0, r1, if_true]
    rfl
  split
  · rename_i h h' h''
    have hn : ¬ UInt8.ofNat (0xE0 + c / 4096) < 0x80 := by
      rw [UInt8.lt_iff_toNat_lt, tn _ (by omega)]; simp; omega
    have r0 : inRange (UInt8.ofNat (0xE0 + c / 4096)) 0xC2 0xDF = false := by
      rw [← Bool.not_eq_true, inRange_iff, tn _ (by omega)]; simp; omega
    have r0' : inRange (UInt8.ofNat (0xE0 + c / 4096)) 0xE0 0xEF = true := by
      rw [inRange_iff, tn _ (by omega)]; simp; omega
    have r1 : (if UInt8.ofNat (0xE0 + c / 4096) = 0xE0 then
        inRange (UInt8.ofNat (0x80 + c / 64 % 64)) 0xA0 0xBF
      else if UInt8.ofNat (0xE0 + c / 4096) = 0xED then
        inRange (UInt8.ofNat (0x80 + c / 64 % 64)) 0x80 0x9F
      else inRange (UInt8.ofNat (0x80 + c / 64 % 64)) 0x80 0xBF) = true := by
      split
      · rename_i e
        rw [inRange_iff, tn _ (by omega)]; replace e := congrArg UInt8.toNat e; rw [tn _ (by omega)] at e; simp at e ⊢; omega
      · split
        · rename_i e e'
          rw [inRange_iff, tn _ (by omega)]; replace e' := congrArg UInt8.toNat e'; rw [tn _ (by omega)] at e'; simp at e' ⊢; omega
        · rw [inRange_iff, tn _ (by omega)]; simp; omega
    have r2 : inRange (UInt8.ofNat (0x80 + c % 64)) 0x80 0xBF = true := by
      rw [inRange_iff, tn _ (by omega)]; simp; omega
    conv => lhs; unfold utf8Scan
    simp only [List.cons_append, List.nil_append, if_neg hn, r0, r0', r1, r2, if_true,
      Bool.false_eq_true, if_false, Bool.and_self]
    rfl
  · rename_i h h' h''
    have hn : ¬ UInt8.ofNat (0xF0 + c / 262144) < 0x80 := by
      rw [UInt8.lt_iff_toNat_lt, tn _ (by omega)]; simp; omega
    have r0 : inRange (UInt8.ofNat (0xF0 + c / 262144)) 0xC2 0xDF = false := by
      rw [← Bool.not_eq_true, inRange_iff, tn _ (by omega)]; simp; omega
    have r0' : inRange (UInt8.ofNat (0xF0 + c / 262144)) 0xE0 0xEF = false := by
      rw [← Bool.not_eq_true, inRange_iff, tn _ (by omega)]; simp; omega
    have r0'' : inRange (UInt8.ofNat (0xF0 + c / 262144)) 0xF0 0xF4 = true := by
      rw [inRange_iff, tn _ (by omega)]; simp; omega
    have r1 : (if UInt8.ofNat (0xF0 + c / 262144) = 0xF0 then
        inRange (UInt8.ofNat (0x80 + c / 4096 % 64)) 0x90 0xBF
      else if UInt8.ofNat (0xF0 + c / 262144) = 0xF4 then
        inRange (UInt8.ofNat (0x80 + c / 4096 % 64)) 0x80 0x8F
      else inRange (UInt8.ofNat (0x80 + c / 4096 % 64)) 0x80 0xBF) = true := by
      split
      · rename_i e
        rw [inRange_iff, tn _ (by omega)]; replace e := congrArg UInt8.toNat e; rw [tn _ (by omega)] at e; simp at e ⊢; omega
      · split
        · rename_i e e'
          rw [inRange_iff, tn _ (by omega)]; replace e' := congrArg UInt8.toNat e'; rw [tn _ (by omega)] at e'; simp at e' ⊢; omega
        · rw [inRange_iff, tn _ (by omega)]; simp; omega
    have r2 : inRange (UInt8.ofNat (0x80 + c / 64 % 64)) 0x80 0xBF = true := by
      rw [inRange_iff, tn _ (by omega)]; simp; omega
    have r3 : inRange (UInt8.ofNat (0x80 + c % 64)) 0x80 0xBF = true := by
      rw [inRange_iff, tn _ (by omega)]; simp; omega
    conv => lhs; unfold utf8Scan
    simp only [List.cons_append, List.nil_append, if_neg hn, r0, r0', r0'', r1, r2, r3, if_true,
      Bool.false_eq_true, if_false, Bool.and_self]
    rfl

/-- What the scan does at the start of a non-empty byte string: skip a character or stop. -/
theorem utf8Scan_step (pos : Nat) (bs : List UInt8) (hne : bs ≠ []) :
    (∃ c rest, IsScalar c ∧ bs = utf8Char c ++ rest) ∨
    (∀ p, p <+: bs → p ≠ [] → ∀ q, utf8Scan q p = some q) := by
  have cut : ∀ (b : UInt8) (p t : List UInt8), p <+: b :: t → p ≠ [] → ∃ p', p = b :: p' ∧ p' <+: t := by
    intro b p t h hp
    rcases List.prefix_cons_iff.mp h with rfl | ⟨u, hu, hu'⟩
    · exact absurd rfl hp
    · exact ⟨u, hu, hu'⟩
  have found : ∀ xs rest, IsChar xs → ∃ c rest', IsScalar c ∧ xs ++ rest = utf8Char c ++ rest' := by
    rintro xs rest ⟨c, hc, rfl⟩
    exact ⟨c, rest, hc, rfl⟩
  match bs, hne with
  | b0 :: r0, _ =>
  by_cases h0 : b0 < 0x80
  · exact .inl (found [b0] r0 (isChar1 b0 h0))
  have one : ∀ q, utf8Scan q [b0] = some q := fun q => by
    unfold utf8Scan; rw [if_neg h0]
  match r0 with
  | [] =>
    right
    intro p hp hpne q
    obtain ⟨p', rfl, hp'⟩ := cut _ _ _ hp hpne
    rw [List.prefix_nil.mp hp']; exact one q
  | b1 :: r1 =>
  by_cases h2 : inRange b0 0xC2 0xDF = true
  · by_cases h1 : inRange b1 0x80 0xBF = true
    · exact .inl (found [b0, b1] r1 (isChar2 b0 b1 h2 h1))
    · right
      intro p hp hpne q
      obtain ⟨p', rfl, hp'⟩ := cut _ _ _ hp hpne
      by_cases e : p' = []
      · rw [e]; exact one q
      obtain ⟨p'', rfl, hp''⟩ := cut _ _ _ hp' e
      unfold utf8Scan
      rw [if_neg h0]
      simp only [h2, h1, if_true, Bool.false_eq_true, if_false]
  have two : ∀ q, utf8Scan q [b0, b1] = some q := fun q => by
    unfold utf8Scan; rw [if_neg h0]; simp only [h2, Bool.false_eq_true, if_false]
  match r1 with
  | [] =>
    right
    intro p hp hpne q
    obtain ⟨p', rfl, hp'⟩ := cut _ _ _ hp hpne
    by_cases e : p' = []
    · rw [e]; exact one q
    obtain ⟨p'', rfl, hp''⟩ := cut _ _ _ hp' e
    rw [List.prefix_nil.mp hp'']; exact two q
  | b2 :: r2 =>
  by_cases h3 : inRange b0 0xE0 0xEF = true
  · by_cases h1 : ((if b0 = 0xE0 then inRange b1 0xA0 0xBF
      else if b0 = 0xED then inRange b1 0x80 0x9F else inRange b1 0x80 0xBF) &&
        inRange b2 0x80 0xBF) = true
    · exact .inl (found [b0, b1, b2] r2 (isChar3 b0 b1 b2 h3 h1))
    · right
      intro p hp hpne q
      obtain ⟨p', rfl, hp'⟩ := cut _ _ _ hp hpne
      by_cases e : p' = []
      · rw [e]; exact one q
      obtain ⟨p'', rfl, hp''⟩ := cut _ _ _ hp' e
      by_cases e' : p'' = []
      · rw [e']; exact two q
      obtain ⟨p3, rfl, hp3⟩ := cut _ _ _ hp'' e'
      unfold utf8Scan
      rw [if_neg h0]
      simp only [h2, h3, if_true, Bool.false_eq_true, if_false]
      rw [if_neg h1]
  have three : ∀ q, utf8Scan q [b0, b1, b2] = some q := fun q => by
    unfold utf8Scan; rw [if_neg h0]; simp only [h2, h3, Bool.false_eq_true, if_false]
  match r2 with
  | [] =>
    right
    intro p hp hpne q
    obtain ⟨p', rfl, hp'⟩ := cut _ _ _ hp hpne
    by_cases e : p' = []
    · rw [e]; exact one q
    obtain ⟨p'', rfl, hp''⟩ := cut _ _ _ hp' e
    by_cases e' : p'' = []
    · rw [e']; exact two q
    obtain ⟨p3, rfl, hp3⟩ := cut _ _ _ hp'' e'
    rw [List.prefix_nil.mp hp3]; exact three q
  | b3 :: r3 =>
  by_cases hc : inRange b0 0xF0 0xF4 = true ∧ ((if b0 = 0xF0 then inRange b1 0x90 0xBF
      else if b0 = 0xF4 then inRange b1 0x80 0x8F else inRange b1 0x80 0xBF) &&
        inRange b2 0x80 0xBF && inRange b3 0x80 0xBF) = true
  · exact .inl (found [b0, b1, b2, b3] r3 (isChar4 b0 b1 b2 b3 hc.1 hc.2))
  · right
    intro p hp hpne q
    obtain ⟨p', rfl, hp'⟩ := cut _ _ _ hp hpne
    by_cases e : p' = []
    · rw [e]; exact one q
    obtain ⟨p'', rfl, hp''⟩ := cut _ _ _ hp' e
    by_cases e' : p'' = []
    · rw [e']; exact two q
    obtain ⟨p3, rfl, hp3⟩ := cut _ _ _ hp'' e'
    by_cases e'' : p3 = []
    · rw [e'']; exact three q
    obtain ⟨p4, rfl, hp4⟩ := cut _ _ _ hp3 e''
    unfold utf8Scan
    rw [if_neg h0]
    simp only [h2, h3, Bool.false_eq_true, if_false]
    by_cases h4 : inRange b0 0xF0 0xF4 = true
    · rw [if_pos h4, if_neg (fun h => hc ⟨h4, h⟩)]
    · rw [if_neg h4]

theorem utf8Char_length_pos (c : Nat) : 0 < (utf8Char c).length := by
  unfold utf8Char; split <;> (try split) <;> (try split) <;> simp

theorem utf8Scan_of_isUtf8 {bs : List UInt8} (h : IsUtf8 bs) (pos : Nat) :
    utf8Scan pos bs = none := by
  obtain ⟨cs, hcs, rfl⟩ := h
  induction cs generalizing pos with
  | nil => rfl
  | cons c cs ih =>
    rw [List.flatMap_cons, utf8Scan_char c (hcs c (by simp))]
    exact ih _ (fun c' h' => hcs c' (List.mem_cons_of_mem _ h'))

theorem isUtf8_of_utf8Scan (bs : List UInt8) (pos : Nat) (h : utf8Scan pos bs = none) :
    IsUtf8 bs := by
  by_cases hne : bs = []
  · rw [hne]; exact isUtf8_nil
  rcases utf8Scan_step pos bs hne with ⟨c, rest, hc, rfl⟩ | hstop
  · rw [utf8Scan_char c hc] at h
    have := utf8Char_length_pos c
    exact IsUtf8.cons hc (isUtf8_of_utf8Scan rest _ h)
  · rw [hstop bs List.prefix_rfl hne pos] at h
    simp at h
termination_by bs.length
decreasing_by simp_all <;> omega

theorem utf8Scan_none_iff (bs : List UInt8) (pos : Nat) : utf8Scan pos bs = none ↔ IsUtf8 bs :=
  ⟨isUtf8_of_utf8Scan bs pos, fun h => utf8Scan_of_isUtf8 h pos⟩

theorem utf8Scan_some (bs : List UInt8) (pos n : Nat) (h : utf8Scan pos bs = some n) :
    ∃ k, n = pos + k ∧ ValidUpTo bs k := by
  by_cases hne : bs = []
  · rw [hne] at h; simp [utf8Scan] at h
  rcases utf8Scan_step pos bs hne with ⟨c, rest, hc, rfl⟩ | hstop
  · rw [utf8Scan_char c hc] at h
    have hlen := utf8Char_length_pos c
    obtain ⟨k, hk, h1, h2, h3⟩ := utf8Scan_some rest _ n h
    refine ⟨(utf8Char c).length + k, by omega, by simp; omega, ?_, ?_⟩
    · rw [List.take_length_add_append]
      exact IsUtf8.cons hc h2
    · intro m hm hm'
      obtain ⟨m', rfl⟩ : ∃ m', m = (utf8Char c).length + m' := ⟨m - (utf8Char c).length, by omega⟩
      rw [List.take_length_add_append]
      intro hu
      have := utf8Scan_of_isUtf8 hu 0
      rw [utf8Scan_char c hc] at this
      exact h3 m' (by omega) (by simp at hm'; omega) (isUtf8_of_utf8Scan _ _ this)
  · rw [hstop bs List.prefix_rfl hne pos] at h
    refine ⟨0, by simpa using h.symm, List.length_pos_iff.mpr hne, by simpa using isUtf8_nil, ?_⟩
    intro m hm hm' hu
    have := utf8Scan_of_isUtf8 hu pos
    rw [hstop (bs.take m) (List.take_prefix _ _) ?_ pos] at this
    · simp at this
    · intro e
      have : (bs.take m).length = 0 := by rw [e]; rfl
      simp at this
      rcases this with h' | h'
      · omega
      · exact hne h'
termination_by bs.length
decreasing_by simp_all <;> omega

end Ozz
