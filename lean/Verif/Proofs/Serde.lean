import Verif.Model.Serde
import Verif.Spec.Serde
import Verif.Proofs.Archive

/-! Lemmas about the serde formats. -/

namespace Ozz.Serde

open Spec

/-- The JSON form is read back. -/
def RTj {τ : Type} (o : Out) (d : De τ) (x : τ) : Prop := d.json o.json = some x

/-- The bytes are read back, whatever follows them. -/
def RTb {τ : Type} (o : Out) (d : De τ) (x : τ) : Prop :=
  ∃ bs, o.bin = some bs ∧ ∀ rest, d.bin (bs ++ rest) = some (x, rest)

/-! ### Numbers and strings -/

theorem takeBytes_append (bs rest : Bytes) : takeBytes bs.length (bs ++ rest) = some (bs, rest) := by
  simp [takeBytes]

theorem takeBytes_le (n v : Nat) (rest : Bytes) :
    takeBytes n (leBytes n v ++ rest) = some (leBytes n v, rest) := by
  have := takeBytes_append (leBytes n v) rest
  rwa [leBytes_length] at this

theorem rtj_uint {w n : Nat} (h : n < 256 ^ w) : RTj (.uint w n) (.uint w) n := by
  have : (n : Int) < 256 ^ w := by
    have h2 := Int.ofNat_lt.2 h
    rwa [Int.natCast_pow] at h2
  simp only [RTj, De.uint, Out.uint]
  rw [if_pos ⟨Int.natCast_nonneg n, this⟩, Int.toNat_natCast]

theorem rtb_uint {w n : Nat} (h : n < 256 ^ w) : RTb (.uint w n) (.uint w) n :=
  ⟨_, rfl, fun rest => by
    simp [De.uint, takeBytes_le, leValue_leBytes, Nat.mod_eq_of_lt h]⟩

theorem rtj_map {σ τ : Type} {o : Out} {d : De σ} {x : σ} (f : σ → τ) (h : RTj o d x) :
    RTj o (d.map f) (f x) := by
  simp only [RTj] at h
  simp [RTj, De.map, h]

theorem rtb_map {σ τ : Type} {o : Out} {d : De σ} {x : σ} (f : σ → τ) (h : RTb o d x) :
    RTb o (d.map f) (f x) := by
  obtain ⟨bs, h1, h2⟩ := h
  exact ⟨bs, h1, fun rest => by simp [De.map, h2]⟩

theorem rtj_u8 (x : UInt8) : RTj (.uint 1 x.toNat) .u8 x := by
  have := rtj_map UInt8.ofNat (rtj_uint (w := 1) (n := x.toNat) x.toNat_lt)
  rwa [UInt8.ofNat_toNat] at this

theorem rtb_u8 (x : UInt8) : RTb (.uint 1 x.toNat) .u8 x := by
  have := rtb_map UInt8.ofNat (rtb_uint (w := 1) (n := x.toNat) x.toNat_lt)
  rwa [UInt8.ofNat_toNat] at this

theorem rtj_u16 (x : UInt16) : RTj (.uint 2 x.toNat) .u16 x := by
  have := rtj_map UInt16.ofNat (rtj_uint (w := 2) (n := x.toNat) x.toNat_lt)
  rwa [UInt16.ofNat_toNat] at this

theorem rtb_u16 (x : UInt16) : RTb (.uint 2 x.toNat) .u16 x := by
  have := rtb_map UInt16.ofNat (rtb_uint (w := 2) (n := x.toNat) x.toNat_lt)
  rwa [UInt16.ofNat_toNat] at this

theorem rtj_u32 (x : UInt32) : RTj (.uint 4 x.toNat) .u32 x := by
  have := rtj_map UInt32.ofNat (rtj_uint (w := 4) (n := x.toNat) x.toNat_lt)
  rwa [UInt32.ofNat_toNat] at this

theorem rtb_u32 (x : UInt32) : RTb (.uint 4 x.toNat) .u32 x := by
  have := rtb_map UInt32.ofNat (rtb_uint (w := 4) (n := x.toNat) x.toNat_lt)
  rwa [UInt32.ofNat_toNat] at this

theorem rtj_i16 {i : Int} (h : -32768 ≤ i ∧ i ≤ 32767) : RTj (.i16 i) .i16 i := by
  simp [RTj, De.i16, Out.i16, h]

theorem rtb_i16 {i : Int} (h : -32768 ≤ i ∧ i ≤ 32767) : RTb (.i16 i) .i16 i := by
  refine ⟨_, rfl, fun rest => ?_⟩
  have h1 : (BitVec.ofInt 16 i).toNat < 256 ^ 2 := (BitVec.ofInt 16 i).isLt
  simp only [De.i16, takeBytes_le, leValue_leBytes, Nat.mod_eq_of_lt h1, Option.map_some,
    BitVec.ofNat_toNat, BitVec.setWidth_eq]
  rw [BitVec.toInt_ofInt, Int.bmod_def]
  congr 2
  split <;> omega

theorem finiteBits_iff (x : UInt32) : finiteBits x = true ↔ FiniteBits x := by
  have := x.toNat_lt
  simp only [finiteBits, FiniteBits, decide_eq_true_eq]
  omega

theorem rtj_f32 {x : UInt32} (h : FiniteBits x) : RTj (.f32 x) .f32 x := by
  simp [RTj, De.f32, Out.f32, (finiteBits_iff x).2 h]

/-- A float that is not finite is lost. -/
theorem json_f32_none {x : UInt32} (h : ¬ FiniteBits x) : De.f32.json (Out.f32 x).json = none := by
  have : finiteBits x = false := by
    rw [← Bool.not_eq_true, finiteBits_iff]; exact h
  simp [De.f32, Out.f32, this]

theorem rtb_f32 (x : UInt32) : RTb (.f32 x) .f32 x :=
  ⟨_, rfl, fun rest => by
    simp [De.f32, takeBytes_le, leValue_leBytes, Nat.mod_eq_of_lt (show x.toNat < 256 ^ 4 from x.toNat_lt)]⟩

theorem rtj_bool (b : Bool) : RTj (.bool b) .bool b := rfl

theorem rtb_bool (b : Bool) : RTb (.bool b) .bool b := ⟨_, rfl, fun rest => by cases b <;> rfl⟩

theorem rtj_str (s : List UInt8) : RTj (.str s) .str s := rfl

theorem rtb_str {s : List UInt8} (h : s.length < 2 ^ 64) : RTb (.str s) .str s :=
  ⟨_, rfl, fun rest => by
    simp only [De.str, List.append_assoc, takeBytes_le, leValue_leBytes,
      Nat.mod_eq_of_lt (show s.length < 256 ^ 8 by omega), bind, Option.bind]
    exact takeBytes_append s rest⟩

/-! ### Sequences -/

theorem allJson_map {σ τ : Type} {f : σ → Json} {g : Json → Option τ} {e : σ → τ} :
    ∀ xs : List σ, (∀ x ∈ xs, g (f x) = some (e x)) → allJson g (xs.map f) = some (xs.map e)
  | [], _ => rfl
  | x :: xs, h => by
    simp [allJson, h x (by simp), allJson_map xs fun y hy => h y (by simp [hy])]

theorem allJson_none {σ τ : Type} {f : σ → Json} {g : Json → Option τ} :
    ∀ xs : List σ, (∃ x ∈ xs, g (f x) = none) → allJson g (xs.map f) = none
  | [], h => by simp at h
  | x :: xs, h => by
    simp only [List.map_cons, allJson, bind, Option.bind]
    cases hx : g (f x) with
    | none => rfl
    | some y =>
      have : ∃ x ∈ xs, g (f x) = none := by
        obtain ⟨z, hz, hn⟩ := h
        rcases List.mem_cons.1 hz with rfl | hz
        · rw [hx] at hn; cases hn
        · exact ⟨z, hz, hn⟩
      simp [allJson_none xs this]

theorem manyBin_map {σ τ : Type} {f : σ → Option Bytes} {g : Bytes → Option (τ × Bytes)} {e : σ → τ} :
    ∀ xs : List σ, (∀ x ∈ xs, ∃ bs, f x = some bs ∧ ∀ rest, g (bs ++ rest) = some (e x, rest)) →
      ∃ bs, catBins (xs.map f) = some bs ∧
        ∀ rest, manyBin g xs.length (bs ++ rest) = some (xs.map e, rest)
  | [], _ => ⟨[], rfl, fun rest => rfl⟩
  | x :: xs, h => by
    obtain ⟨b, hb1, hb2⟩ := h x (by simp)
    obtain ⟨c, hc1, hc2⟩ := manyBin_map xs fun y hy => h y (by simp [hy])
    refine ⟨b ++ c, by simp [catBins, hb1, hc1], fun rest => ?_⟩
    simp [manyBin, hb2, hc2, List.append_assoc]

theorem rtj_vec {τ : Type} {f : τ → Out} {d : De τ} {xs : List τ} (h : ∀ x ∈ xs, RTj (f x) d x) :
    RTj (.vec f xs) d.vec xs := by
  have := allJson_map (f := fun x => (f x).json) (g := d.json) (e := id) xs h
  simpa [RTj, Out.vec, Out.seq, De.vec, Function.comp_def] using this

theorem rtb_vec {τ : Type} {f : τ → Out} {d : De τ} {xs : List τ} (hl : xs.length < 2 ^ 64)
    (h : ∀ x ∈ xs, RTb (f x) d x) : RTb (.vec f xs) d.vec xs := by
  obtain ⟨bs, h1, h2⟩ := manyBin_map (f := fun x => (f x).bin) (g := d.bin) (e := id) xs h
  refine ⟨leBytes 8 xs.length ++ bs, ?_, fun rest => ?_⟩
  · simp [Out.vec, Out.seq, Function.comp_def, h1]
  · simp only [De.vec, List.append_assoc, takeBytes_le, leValue_leBytes,
      Nat.mod_eq_of_lt (show xs.length < 256 ^ 8 by omega), bind, Option.bind]
    simpa using h2 rest

theorem rtj_array {τ : Type} {f : τ → Out} {d : De τ} {n : Nat} {xs : List τ} (hn : xs.length = n)
    (h : ∀ x ∈ xs, RTj (f x) d x) : RTj (.array f xs) (d.array n) xs := by
  have := allJson_map (f := fun x => (f x).json) (g := d.json) (e := id) xs h
  simpa [RTj, Out.array, Out.tuple, De.array, Function.comp_def, hn] using this

theorem rtb_array {τ : Type} {f : τ → Out} {d : De τ} {n : Nat} {xs : List τ} (hn : xs.length = n)
    (h : ∀ x ∈ xs, RTb (f x) d x) : RTb (.array f xs) (d.array n) xs := by
  obtain ⟨bs, h1, h2⟩ := manyBin_map (f := fun x => (f x).bin) (g := d.bin) (e := id) xs h
  refine ⟨bs, by simpa [Out.array, Out.tuple, Function.comp_def] using h1, fun rest => ?_⟩
  simpa [De.array, hn] using h2 rest

/-! ### Structs -/

theorem rtj_field {σ τ : Type} {name : String} {d : De σ} {k : σ → Fields τ} {o : List (String × Json)}
    {ou : Out} {x : σ} {z : τ} (hg : getField o name = some ou.json) (hx : RTj ou d x)
    (hk : (k x).json o = some z) : (Fields.field name d k).json o = some z := by
  simp only [RTj] at hx
  simp [Fields.field, hg, hx, hk]

/-- The rest of a struct's bytes. -/
def RTf {τ : Type} (os : List (Option Bytes)) (f : Fields τ) (z : τ) : Prop :=
  ∃ bs, catBins os = some bs ∧ ∀ rest, f.bin (bs ++ rest) = some (z, rest)

theorem rtf_done {τ : Type} (z : τ) : RTf [] (.done z) z := ⟨[], rfl, fun _ => rfl⟩

theorem rtf_field {σ τ : Type} {name : String} {d : De σ} {k : σ → Fields τ} {ou : Out}
    {os : List (Option Bytes)} {x : σ} {z : τ} (hx : RTb ou d x) (hk : RTf os (k x) z) :
    RTf (ou.bin :: os) (.field name d k) z := by
  obtain ⟨b, hb1, hb2⟩ := hx
  obtain ⟨c, hc1, hc2⟩ := hk
  refine ⟨b ++ c, by simp [catBins, hb1, hc1], fun rest => ?_⟩
  simp [Fields.field, hb2, hc2, List.append_assoc]

theorem rtb_struct {τ : Type} {fs : List (String × Out)} {f : Fields τ} {z : τ}
    (h : RTf (fs.map (·.2.bin)) f z) : RTb (.struct fs) (.struct f) z := h

/-- A field is found in any order of the entries. -/
theorem getField_perm {o o' : List (String × Json)} (h : o.Perm o') (name : String) :
    getField o name = getField o' name := by
  have hp := h.filter fun f => f.1 == name
  simp only [getField]
  generalize o.filter (fun f => f.1 == name) = a at hp ⊢
  generalize o'.filter (fun f => f.1 == name) = b at hp ⊢
  have hl := hp.length_eq
  match a, b with
  | [], [] => rfl
  | [x], [y] => rw [List.singleton_perm_singleton.1 hp]
  | _ :: _ :: _, _ :: _ :: _ => rfl
  | [], _ :: _ => simp at hl
  | _ :: _, [] => simp at hl
  | [_], _ :: _ :: _ => simp at hl
  | _ :: _ :: _, [_] => simp at hl

/-- Entries with other names do not matter. -/
theorem getField_append {o extra : List (String × Json)} {name : String}
    (h : ∀ f ∈ extra, f.1 ≠ name) : getField (o ++ extra) name = getField o name := by
  have : extra.filter (fun f => f.1 == name) = [] := by
    rw [List.filter_eq_nil_iff]
    intro f hf
    simpa using h f hf
  simp [getField, List.filter_append, this]

/-! ### SoA values -/

theorem row_length {p : List UInt32} {i : Nat} (h : 4 * i + 4 ≤ p.length) : (row p i).length = 4 := by
  simp [row]; omega

theorem mem_row {p : List UInt32} {i : Nat} {x : UInt32} (h : x ∈ row p i) : x ∈ p :=
  List.mem_of_mem_drop (List.mem_of_mem_take h)

theorem rtj_row {p : List UInt32} {i : Nat} (h : 4 * i + 4 ≤ p.length) (hf : ∀ x ∈ p, FiniteBits x) :
    RTj (outRow p i) (De.f32.array 4) (row p i) :=
  rtj_array (row_length h) fun x hx => rtj_f32 (hf x (mem_row hx))

theorem flatten_rows3 {p : List UInt32} (h : p.length = 12) :
    [row p 0, row p 1, row p 2].flatten = p := by
  match p, h with
  | [_, _, _, _, _, _, _, _, _, _, _, _], _ => rfl

theorem flatten_rows4 {p : List UInt32} (h : p.length = 16) :
    [row p 0, row p 1, row p 2, row p 3].flatten = p := by
  match p, h with
  | [_, _, _, _, _, _, _, _, _, _, _, _, _, _, _, _], _ => rfl

theorem rtj_vec3 {p : List UInt32} (h : p.length = 12) (hf : ∀ x ∈ p, FiniteBits x) :
    RTj (outVec3 p) deVec3 p := by
  have h0 := rtj_row (p := p) (i := 0) (by omega) hf
  have h1 := rtj_row (p := p) (i := 1) (by omega) hf
  have h2 := rtj_row (p := p) (i := 2) (by omega) hf
  simp only [RTj] at h0 h1 h2
  have := flatten_rows3 h
  simp only [RTj, deVec3, De.map, De.array.eq_1 (n := 3), outVec3, Out.seq, List.map_cons, List.map_nil,
    List.length_cons, List.length_nil, allJson, h0, h1, h2]
  simpa using this

theorem rtj_quat {p : List UInt32} (h : p.length = 16) (hf : ∀ x ∈ p, FiniteBits x) :
    RTj (outQuat p) deQuat p := by
  have h0 := rtj_row (p := p) (i := 0) (by omega) hf
  have h1 := rtj_row (p := p) (i := 1) (by omega) hf
  have h2 := rtj_row (p := p) (i := 2) (by omega) hf
  have h3 := rtj_row (p := p) (i := 3) (by omega) hf
  simp only [RTj] at h0 h1 h2 h3
  have := flatten_rows4 h
  simp only [RTj, deQuat, De.map, De.array.eq_1 (d := De.array 4 De.f32), outQuat, Out.seq,
    List.map_cons, List.map_nil,
    List.length_cons, List.length_nil, allJson, h0, h1, h2, h3]
  simpa using this

theorem rtj_transform {p : List UInt32} (h : p.length = 40) (hf : ∀ x ∈ p, FiniteBits x) :
    RTj (outTransform p) deTransform p := by
  have h1 := rtj_vec3 (p := p.take 12) (by simp [h]) fun x hx => hf x (List.mem_of_mem_take hx)
  have h2 := rtj_quat (p := (p.drop 12).take 16) (by simp [h]) fun x hx =>
    hf x (List.mem_of_mem_drop (List.mem_of_mem_take hx))
  have h3 := rtj_vec3 (p := p.drop 28) (by simp [h]) fun x hx => hf x (List.mem_of_mem_drop hx)
  have e : p.take 12 ++ (p.drop 12).take 16 ++ p.drop 28 = p := by
    have a1 := List.take_append_drop 12 p
    have a2 := List.take_append_drop 16 (p.drop 12)
    rw [List.drop_drop] at a2
    rw [List.append_assoc, a2, a1]
  show (Fields.field "translation" deVec3 _).json _ = some p
  refine rtj_field (ou := outVec3 (p.take 12)) (by simp [getField, List.filter]) h1 ?_
  refine rtj_field (ou := outQuat ((p.drop 12).take 16)) (by simp [getField, List.filter]) h2 ?_
  refine rtj_field (ou := outVec3 (p.drop 28)) (by simp [getField, List.filter]) h3 ?_
  simp only [Fields.done, e]

end Ozz.Serde
