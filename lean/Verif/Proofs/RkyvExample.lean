import Verif.Proofs.Rkyv

/-! A target: strings of up to seven bytes lie in the archived string itself, longer ones before it (as
`rkyv`'s do on a little-endian host); fields one after another. -/

namespace Ozz.Rkyv.Example

open Spec

/-- The archived string: seven bytes and the length, or the length and the (negative) distance to the bytes. -/
def strBytes (s : List UInt8) (p r : Nat) : Option Buf :=
  if s.length ≤ 7 then some (s ++ List.replicate (7 - s.length) 0 ++ [UInt8.ofNat s.length])
  else (relPtr .little p r).map fun d => (uint .little 4).enc s.length ++ d

/-- Reads an archived string: the top bit of the last byte tells the two cases apart. -/
def strGet (F : Buf) (p : Nat) : Option (List UInt8) :=
  let bs := (F.drop p).take 8
  if bs.length ≠ 8 then none
  else if (bs.getD 7 0).toNat < 128 then some (bs.take (bs.getD 7 0).toNat)
  else
    let start : Int := (p : Int) + ((u32 .little).dec (bs.drop 4)).toBitVec.toInt
    let len := (uint .little 4).dec (bs.take 4)
    if start < 0 ∨ start.toNat + len > F.length then none else some ((F.drop start.toNat).take len)

def str : StrCodec where
  size := 8
  align := 4
  ser := fun s b => if s.length ≤ 7 then (0, b) else (b.length, b ++ s)
  res := strBytes
  get := strGet

theorem len_u32 (e : Endian) (x : UInt32) : ((u32 e).enc x).length = 4 := nativeBytes_length ..
theorem len_uint (e : Endian) (w x : Nat) : ((uint e w).enc x).length = w := nativeBytes_length ..

theorem at_take8 {F bs : Buf} {p : Nat} (h : At F p bs) (h8 : bs.length = 8) : (F.drop p).take 8 = bs := by
  have := h.take
  rwa [h8] at this

theorem last_byte (e : UInt32) (h : e.toBitVec.toInt < 0) : 128 ≤ (((u32 .little).enc e).getD 3 0).toNat := by
  have h2 : 2 ^ 31 ≤ e.toNat := by
    have := e.toBitVec.toInt_eq_toNat_cond
    have h3 : e.toBitVec.toNat = e.toNat := rfl
    rw [h3] at this
    split at this <;> omega
  have h3 : ((u32 .little).enc e).getD 3 0 = UInt8.ofNat (e.toNat / 256 / 256 / 256) := rfl
  have h4 := e.toNat_lt
  rw [h3, UInt8.toNat_ofNat']
  omega

theorem str_ok : StrOk str where
  align := rfl
  appends := by
    intro s b
    by_cases h : s.length ≤ 7
    · exact ⟨[], by simp [str, h], by simp⟩
    · exact ⟨s, by simp [str, h], Nat.le_refl _⟩
  length := by
    intro s p r bs h
    simp only [str, strBytes] at h ⊢
    split at h
    · cases h
      simp only [List.length_append, List.length_replicate, List.length_cons, List.length_nil]; omega
    · obtain ⟨d, hd, rfl⟩ := Option.map_eq_some_iff.1 h
      obtain ⟨d', rfl, _⟩ := relPtr_some hd
      rw [List.length_append, len_uint, len_u32]
  reaches := by
    intro s b p hp hlt
    simp only [str, strBytes] at hp ⊢
    split
    · simp
    · rename_i hs
      rw [if_neg hs] at hp
      obtain ⟨d, hd⟩ := Option.ne_none_iff_exists'.1 (relPtr_ne_none (e := .little) hlt
        (show b.length < 2 ^ 31 by rw [List.length_append] at hp; omega))
      simp only [hd]; simp
  reads := by
    intro s b p bs F hp hF hres hat
    simp only [str, strBytes] at hp hF hres ⊢
    by_cases hs : s.length ≤ 7
    · rw [if_pos hs] at hres
      cases hres
      have h8 : (s ++ List.replicate (7 - s.length) 0 ++ [UInt8.ofNat s.length]).length = 8 := by
        simp only [List.length_append, List.length_replicate, List.length_cons, List.length_nil]; omega
      have h7 : (s ++ List.replicate (7 - s.length) 0 ++ [UInt8.ofNat s.length]).getD 7 0 = UInt8.ofNat s.length := by
        rw [List.getD_eq_getElem?_getD, List.getElem?_append_right (by
          simp only [List.length_append, List.length_replicate]; omega)]
        simp only [List.length_append, List.length_replicate]
        rw [show 7 - (s.length + (7 - s.length)) = 0 by omega]; rfl
      have hn : (UInt8.ofNat s.length).toNat = s.length := by rw [UInt8.toNat_ofNat']; omega
      simp only [strGet, at_take8 hat h8, h8, h7, hn]
      rw [if_neg (by decide), if_pos (by omega), List.append_assoc, List.take_left]
    · rw [if_neg hs] at hres hp hF
      rw [if_neg hs] at hres
      obtain ⟨d, hd, rfl⟩ := Option.map_eq_some_iff.1 hres
      obtain ⟨d', rfl, hi, hlo⟩ := relPtr_some hd
      simp only [List.length_append] at hp
      have l4 : ((uint .little 4).enc s.length).length = 4 := len_uint ..
      have l4' : ((u32 .little).enc d').length = 4 := len_u32 ..
      have h8 : ((uint .little 4).enc s.length ++ (u32 .little).enc d').length = 8 := by
        rw [List.length_append, l4, l4']
      have h7 : ((uint .little 4).enc s.length ++ (u32 .little).enc d').getD 7 0 = ((u32 .little).enc d').getD 3 0 := by
        rw [List.getD_eq_getElem?_getD, List.getElem?_append_right (by rw [l4]; decide), l4,
          ← List.getD_eq_getElem?_getD]
      have hlast := last_byte d' (by omega)
      simp only [strGet, at_take8 hat h8, h8, h7]
      rw [if_neg (by decide), if_neg (by omega), List.drop_left' l4, List.take_left' l4]
      have e1 : (u32 .little).dec ((u32 .little).enc d') = d' := (faithful_u32 .little d').2
      have e2 : (uint .little 4).dec ((uint .little 4).enc s.length) = s.length :=
        (faithful_uint .little 4 _ (by omega)).2
      have e3 : (p : Int) + d'.toBitVec.toInt = b.length := by rw [hi]; omega
      have hlen := hF.length_le
      rw [List.length_append] at hlen
      rw [e1, e2, e3, if_neg (by omega)]
      have : At F b.length s := by
        have := At.self b s []
        rw [List.append_nil] at this
        exact this.prefix hF
      have := this.take
      simpa using this

/-- Fields one after another. -/
def offsets : Nat → List (String × Nat) → String → Nat
  | _, [], _ => 0
  | o, (f, n) :: fs, g => if f = g then o else offsets (o + n) fs g

def target : Target where
  endian := .little
  vec := ⟨8, 4, offsets 0 [("ptr", 4), ("len", 4)]⟩
  str := str
  animation := ⟨156, 4, offsets 0 [("duration", 4), ("num_tracks", 4), ("name", 8), ("timepoints", 8), ("translations", 8),
    ("t_ratios", 8), ("t_previouses", 8), ("t_iframe_interval", 4), ("t_iframe_entries", 8), ("t_iframe_desc", 8),
    ("rotations", 8), ("r_ratios", 8), ("r_previouses", 8), ("r_iframe_interval", 4), ("r_iframe_entries", 8),
    ("r_iframe_desc", 8), ("scales", 8), ("s_ratios", 8), ("s_previouses", 8), ("s_iframe_interval", 4),
    ("s_iframe_entries", 8), ("s_iframe_desc", 8)]⟩
  skeleton := ⟨28, 4, offsets 0 [("num_joints", 4), ("joint_rest_poses", 8), ("joint_names", 8), ("joint_parents", 8)]⟩
  entry := ⟨12, 4, offsets 0 [("key", 8), ("value", 2)]⟩
  context := ⟨104, 8, offsets 0 [("animation_id", 8), ("max_tracks", 4), ("ratio", 4), ("translations", 8),
    ("translation_entries", 8), ("translation_outdated", 8), ("rotations", 8), ("rotation_entries", 8),
    ("rotation_outdated", 8), ("scales", 8), ("scale_entries", 8), ("scale_outdated", 8), ("translation_next", 4),
    ("rotation_next", 4), ("scale_next", 4)]⟩
  track := ⟨36, 4, offsets 0 [("key_count", 4), ("ratios", 8), ("values", 8), ("steps", 8), ("name", 8)]⟩
  edge := ⟨8, 4, offsets 0 [("ratio", 4), ("rising", 1)]⟩

theorem target_ok : TargetOk target where
  str := str_ok
  vec := by constructor <;> decide +kernel
  animation := by constructor <;> decide +kernel
  skeleton := by constructor <;> decide +kernel
  entry := by constructor <;> decide +kernel
  context := by constructor <;> decide +kernel
  track := by constructor <;> decide +kernel
  edge := by constructor <;> decide +kernel

end Ozz.Rkyv.Example
