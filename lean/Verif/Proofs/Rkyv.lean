import Verif.Spec.Rkyv
import Verif.Proofs.Raw
import Mathlib.Data.List.Pairwise

/-! Bytes at positions, struct layouts, vectors and strings in archives. -/

namespace Ozz.Spec

open Rkyv

/-! ### `At` -/

theorem At.nil (F : Buf) (p : Nat) : At F p [] := by intro i x h; simp at h

theorem At.append {F : Buf} {p : Nat} {a b : Buf} :
    At F p (a ++ b) ↔ At F p a ∧ At F (p + a.length) b := by
  constructor
  · intro h
    refine ⟨fun i x hi => h i x ?_, fun i x hi => ?_⟩
    · have : i < a.length := by
        by_contra hc
        rw [List.getElem?_eq_none (by omega)] at hi
        cases hi
      rw [List.getElem?_append_left this]; exact hi
    · have := h (a.length + i) x (by rw [List.getElem?_append_right (by omega)]; simpa using hi)
      rwa [← Nat.add_assoc] at this
  · rintro ⟨h1, h2⟩ i x hi
    by_cases hc : i < a.length
    · rw [List.getElem?_append_left hc] at hi; exact h1 i x hi
    · rw [List.getElem?_append_right (by omega)] at hi
      have := h2 (i - a.length) x hi
      rwa [show p + a.length + (i - a.length) = p + i by omega] at this

theorem At.prefix {F G : Buf} {p : Nat} {bs : Buf} (h : At F p bs) (hp : F <+: G) : At G p bs := by
  obtain ⟨t, rfl⟩ := hp
  intro i x hi
  have := h i x hi
  rw [List.getElem?_append_left]
  · exact this
  · by_contra hc
    rw [List.getElem?_eq_none (by omega)] at this
    cases this

theorem At.self (a bs c : Buf) : At (a ++ bs ++ c) a.length bs := by
  apply At.prefix (F := a ++ bs) _ (List.prefix_append _ _)
  intro i x hi
  rw [List.getElem?_append_right (by omega)]
  simpa using hi

/-- What lies at a place of something that lies at a place. -/
theorem At.trans {F G bs : Buf} {p q : Nat} (h : At F p G) (h' : At G q bs) : At F (p + q) bs := by
  intro i x hi
  have := h (q + i) x (h' i x hi)
  rwa [← Nat.add_assoc] at this

theorem At.bound {F bs : Buf} {p : Nat} (h : At F p bs) (h0 : 0 < bs.length) : p + bs.length ≤ F.length := by
  have hl : bs.length - 1 < bs.length := by omega
  have := h (bs.length - 1) bs[bs.length - 1] (List.getElem?_eq_getElem hl)
  by_contra hc
  rw [List.getElem?_eq_none (by omega)] at this
  cases this

theorem At.take {F bs : Buf} {p : Nat} (h : At F p bs) : (F.drop p).take bs.length = bs := by
  apply List.ext_getElem?
  intro i
  rw [List.getElem?_take]
  split
  · rename_i hi
    rw [List.getElem?_drop, h i bs[i] (List.getElem?_eq_getElem hi), List.getElem?_eq_getElem hi]
  · rename_i hi
    rw [List.getElem?_eq_none (by omega)]

end Ozz.Spec

namespace Ozz.Rkyv

open Spec

/-! ### Fields -/

theorem putAt_length {buf bs : Buf} {o : Nat} (h : o + bs.length ≤ buf.length) :
    (putAt buf o bs).length = buf.length := by
  simp only [putAt, List.length_append, List.length_take, List.length_drop]; omega

theorem putAt_same {buf bs : Buf} {o : Nat} (h : o + bs.length ≤ buf.length) : At (putAt buf o bs) o bs := by
  have := At.self (buf.take o) bs (buf.drop (o + bs.length))
  rwa [List.length_take, Nat.min_eq_left (by omega)] at this

theorem putAt_other {buf bs cs : Buf} {o q : Nat} (h : o + bs.length ≤ buf.length)
    (hd : o + bs.length ≤ q ∨ q + cs.length ≤ o) (ha : At buf q cs) : At (putAt buf o bs) q cs := by
  intro i x hi
  have hlt : i < cs.length := by
    by_contra hc
    rw [List.getElem?_eq_none (by omega)] at hi
    cases hi
  have := ha i x hi
  simp only [putAt, List.append_assoc]
  rcases hd with hd | hd
  · rw [List.getElem?_append_right (by rw [List.length_take]; omega), List.length_take,
      List.getElem?_append_right (by omega), List.getElem?_drop]
    rw [show o + bs.length + (q + i - min o buf.length - bs.length) = q + i by omega]
    exact this
  · rw [List.getElem?_append_left (by rw [List.length_take]; omega), List.getElem?_take_of_lt (by omega)]
    exact this

/-- A struct written field by field has every field in its place. -/
theorem resolve_fields {L : StructLayout} {fs : List (String × Buf)} (buf : Buf)
    (hin : ∀ f ∈ fs, L.off f.1 + f.2.length ≤ buf.length)
    (hd : fs.Pairwise fun f g => L.off f.1 + f.2.length ≤ L.off g.1 ∨ L.off g.1 + g.2.length ≤ L.off f.1) :
    (fs.foldl (fun buf f => putAt buf (L.off f.1) f.2) buf).length = buf.length ∧
    (∀ f ∈ fs, At (fs.foldl (fun buf f => putAt buf (L.off f.1) f.2) buf) (L.off f.1) f.2) ∧
    ∀ q cs, At buf q cs → (∀ f ∈ fs, L.off f.1 + f.2.length ≤ q ∨ q + cs.length ≤ L.off f.1) →
      At (fs.foldl (fun buf f => putAt buf (L.off f.1) f.2) buf) q cs := by
  induction fs generalizing buf with
  | nil => exact ⟨rfl, by simp, fun q cs h _ => h⟩
  | cons f fs ih =>
    rw [List.pairwise_cons] at hd
    have hl := putAt_length (hin f (by simp))
    obtain ⟨h1, h2, h3⟩ := ih (putAt buf (L.off f.1) f.2)
      (fun g hg => by rw [hl]; exact hin g (by simp [hg])) hd.2
    refine ⟨h1.trans hl, ?_, ?_⟩
    · intro g hg
      rcases List.mem_cons.1 hg with rfl | hg
      · refine h3 _ _ (putAt_same (hin g (by simp))) fun k hk => ?_
        exact (hd.1 k hk).symm
      · exact h2 g hg
    · intro q cs h hq
      exact h3 q cs (putAt_other (hin f (by simp)) (hq f (by simp)) h) fun g hg => hq g (by simp [hg])

/-- Fields with distinct names, all of them specified, of the specified sizes. -/
def Matches (fs : List (String × Buf)) (sp : List FieldSpec) : Prop :=
  (fs.map (·.1)).Nodup ∧ ∀ f ∈ fs, ∃ g ∈ sp, f.1 = g.name ∧ f.2.length = g.size

theorem resolveStruct_ok {L : StructLayout} {fs : List (String × Buf)} {sp : List FieldSpec}
    (h : Fits L sp) (hm : Matches fs sp) :
    (resolveStruct L fs).length = L.size ∧ ∀ f ∈ fs, At (resolveStruct L fs) (L.off f.1) f.2 := by
  obtain ⟨hn, hf⟩ := hm
  have hin : ∀ f ∈ fs, L.off f.1 + f.2.length ≤ L.size := by
    intro f hfs
    obtain ⟨g, hg, h1, h2⟩ := hf f hfs
    rw [h1, h2]; exact h.inside g hg
  have hsym : ∀ f ∈ sp, ∀ g ∈ sp, f ≠ g →
      L.off f.name + f.size ≤ L.off g.name ∨ L.off g.name + g.size ≤ L.off f.name :=
    fun f hf g hg hne =>
      haveI : Std.Symm fun f g : FieldSpec =>
        L.off f.name + f.size ≤ L.off g.name ∨ L.off g.name + g.size ≤ L.off f.name := ⟨fun _ _ h => h.symm⟩
      h.apart.forall hf hg hne
  have hd : fs.Pairwise fun f g => L.off f.1 + f.2.length ≤ L.off g.1 ∨ L.off g.1 + g.2.length ≤ L.off f.1 := by
    rw [List.Nodup, List.pairwise_map] at hn
    refine hn.imp_of_mem ?_
    intro f g hff hgg hne
    obtain ⟨f', hf', h1, h2⟩ := hf f hff
    obtain ⟨g', hg', h3, h4⟩ := hf g hgg
    rw [h1, h2, h3, h4]
    refine hsym f' hf' g' hg' fun he => hne ?_
    rw [h1, h3, he]
  obtain ⟨h1, h2, _⟩ := resolve_fields (L := L) (List.replicate L.size 0) (by simpa using hin) hd
  exact ⟨h1.trans (by simp), h2⟩

/-! ### Reading what stands there -/

theorem readAt_ok {τ : Type} {p : Pod τ} {base pos : Nat} {F : Buf} {x : τ} (hx : Faithful p.toMemRepr x)
    (h0 : 0 < p.size) (ha : p.align ∣ base + pos) (h : At F pos (p.enc x)) : readAt p base F pos = some x := by
  have hb := h.bound (by rw [hx.1]; exact h0)
  have ht := h.take
  rw [hx.1] at hb ht
  rw [readAt, if_pos ⟨Nat.mod_eq_zero_of_dvd ha, hb⟩, ht, hx.2]

theorem readMany_ok {τ : Type} {p : Pod τ} {base : Nat} {F : Buf} (h0 : 0 < p.size) (hs : p.align ∣ p.size)
    (xs : List τ) (pos : Nat) (hx : ∀ x ∈ xs, Faithful p.toMemRepr x) (ha : p.align ∣ base + pos)
    (h : At F pos (xs.flatMap p.enc)) : readMany p base F xs.length pos = some xs := by
  induction xs generalizing pos with
  | nil => rfl
  | cons x xs ih =>
    rw [List.flatMap_cons, At.append] at h
    have hx0 := hx x (by simp)
    rw [hx0.1] at h
    rw [List.length_cons, readMany, readAt_ok hx0 h0 ha h.1]
    have := ih (pos + p.size) (fun y hy => hx y (by simp [hy])) (by
      rw [← Nat.add_assoc]; exact Nat.dvd_add ha hs) h.2
    simp only [bind, Option.bind, this]
    rfl

theorem padTo_length (a : Nat) (b : Buf) (h : 0 < a) : a ∣ (padTo a b).length ∧ b.length ≤ (padTo a b).length ∧
    (padTo a b).length < b.length + a := by
  simp only [padTo, List.length_append, List.length_replicate]
  have h1 := Nat.mod_lt b.length h
  have h2 := Nat.mod_add_div b.length a
  refine ⟨?_, by omega, ?_⟩
  · by_cases hz : b.length % a = 0
    · rw [hz, Nat.sub_zero, Nat.mod_self, Nat.add_zero]
      exact Nat.dvd_of_mod_eq_zero hz
    · rw [Nat.mod_eq_of_lt (by omega)]
      refine ⟨b.length / a + 1, ?_⟩
      rw [Nat.mul_add, Nat.mul_one]
      omega
  · have := Nat.mod_lt (a - b.length % a) h
    omega

theorem padTo_prefix (a : Nat) (b : Buf) : b <+: padTo a b := List.prefix_append _ _

/-! ### Writers -/

/-- A writer that only appends, at most `n` bytes, and whatever comes later, as long as the root lies at `p`
behind it, the archive `F` satisfies `Q`. -/
def Writes {R : Type} (m : StateM Buf R) (n : Nat) (Q : R → Buf → Nat → Prop) : Prop :=
  ∀ b, b <+: (m b).2 ∧ (m b).2.length ≤ b.length + n ∧
    ∀ F p, (m b).2 <+: F → (m b).2.length ≤ p → Q (m b).1 F p

theorem Writes.pure {R : Type} (r : R) : Writes (Pure.pure r : StateM Buf R) 0 (fun r' _ _ => r' = r) :=
  fun b => ⟨List.prefix_refl b, Nat.le_refl _, fun _ _ _ _ => rfl⟩

theorem Writes.bind {R S : Type} {m : StateM Buf R} {k : R → StateM Buf S} {n n' : Nat}
    {Q : R → Buf → Nat → Prop} {Q' : R → S → Buf → Nat → Prop} (h : Writes m n Q)
    (h' : ∀ r, Writes (k r) n' (Q' r)) :
    Writes (m >>= k) (n + n') (fun s F p => ∃ r, Q r F p ∧ Q' r s F p) := by
  intro b
  obtain ⟨h1, h2, h3⟩ := h b
  obtain ⟨g1, g2, g3⟩ := h' (m b).1 (m b).2
  refine ⟨h1.trans g1, ?_, fun F p hF hp => ⟨(m b).1, h3 F p (g1.trans hF) (Nat.le_trans g1.length_le hp), g3 F p hF hp⟩⟩
  show ((k (m b).1) (m b).2).2.length ≤ _
  omega

theorem Writes.mono {R : Type} {m : StateM Buf R} {n n' : Nat} {Q Q' : R → Buf → Nat → Prop}
    (h : Writes m n Q) (hn : n ≤ n') (hQ : ∀ r F p, Q r F p → Q' r F p) : Writes m n' Q' := by
  intro b
  obtain ⟨h1, h2, h3⟩ := h b
  exact ⟨h1, by omega, fun F p hF hp => hQ _ _ _ (h3 F p hF hp)⟩

/-- A written slice. -/
structure SliceOk {τ : Type} (p : Pod τ) (xs : List τ) (start : Nat) (F : Buf) (root : Nat) : Prop where
  before : start + xs.length * p.size ≤ root
  aligned : p.align ∣ start
  bytes : At F start (xs.flatMap p.enc)

/-- A type whose values are represented well. -/
structure PodOk {τ : Type} (p : Pod τ) (xs : List τ) : Prop where
  faithful : ∀ x ∈ xs, Faithful p.toMemRepr x
  size : 0 < p.size
  align : 0 < p.align
  stride : p.align ∣ p.size
  small : p.align ∣ 16

theorem writes_slice {τ : Type} {p : Pod τ} {xs : List τ} (h : PodOk p xs) :
    Writes (serSlice p xs) (xs.length * p.size + 15) (SliceOk p xs) := by
  intro b
  obtain ⟨h1, h2, h3⟩ := padTo_length p.align b h.align
  have h16 : p.align ≤ 16 := Nat.le_of_dvd (by omega) h.small
  refine ⟨(padTo_prefix _ b).trans (List.prefix_append _ _), ?_, fun F q hF hq => ⟨?_, h1, ?_⟩⟩
  · simp only [serSlice, List.length_append, flatMap_length _ xs h.faithful]
    omega
  · refine Nat.le_trans ?_ hq
    simp only [serSlice, List.length_append, flatMap_length _ xs h.faithful]; omega
  · refine At.prefix ?_ hF
    have := At.self (padTo p.align b) (xs.flatMap p.enc) []
    rwa [List.append_nil] at this

/-- A written string. -/
def StrWritten (S : StrCodec) (s : List UInt8) (r : Nat) (F : Buf) (root : Nat) : Prop :=
  ∀ p, root ≤ p → (p < 2 ^ 31 → S.res s p r ≠ none) ∧ ∀ bs, S.res s p r = some bs → At F p bs → S.get F p = some s

theorem writes_str {S : StrCodec} (h : StrOk S) (s : List UInt8) :
    Writes (S.ser s) s.length (StrWritten S s) := by
  intro b
  obtain ⟨t, h1, h2⟩ := h.appends s b
  refine ⟨?_, ?_, fun F q hF hq p hp => ⟨fun hlt => h.reaches s b p (by omega) hlt,
    fun bs hb ha => h.reads s b p bs F (by omega) hF hb ha⟩⟩
  · show b <+: (S.ser s b).2
    rw [h1]; exact List.prefix_append _ _
  · show (S.ser s b).2.length ≤ _
    rw [h1, List.length_append]; omega

/-! ### Archived vectors -/

theorem relPtr_some {e : Endian} {a b : Nat} {bs : Buf} (h : relPtr e a b = some bs) :
    ∃ d : UInt32, bs = (u32 e).enc d ∧ d.toBitVec.toInt = (b : Int) - a ∧ -2147483648 ≤ (b : Int) - a := by
  simp only [relPtr] at h
  split at h
  · rename_i hd
    cases h
    refine ⟨UInt32.ofBitVec (BitVec.ofInt 32 ((b : Int) - a)), rfl, ?_, hd.1⟩
    show (BitVec.ofInt 32 ((b : Int) - a)).toInt = _
    rw [BitVec.toInt_ofInt, Int.bmod_def]
    simp
    omega
  · cases h

theorem relPtr_ne_none {e : Endian} {a b : Nat} (ha : a < 2 ^ 31) (hb : b < 2 ^ 31) : relPtr e a b ≠ none := by
  simp only [relPtr]
  rw [if_pos (by omega)]
  simp

theorem faithful_uint (e : Endian) (w x : Nat) (h : x < 256 ^ w) : Faithful (uint e w).toMemRepr x :=
  ⟨nativeBytes_length .., nativeValue_nativeBytes e w x h⟩

theorem vecAt_length {T : Target} (h : Fits T.vec [⟨"ptr", 4, 4⟩, ⟨"len", 4, 4⟩]) {pos len target : Nat} {bs : Buf}
    (hb : vecAt T pos len target = some bs) :
    bs.length = T.vec.size ∧ ∃ p, relPtr T.endian (pos + T.vec.off "ptr") target = some p ∧
      At bs (T.vec.off "ptr") p ∧ At bs (T.vec.off "len") ((uint T.endian 4).enc len) := by
  simp only [vecAt, bind, Option.bind] at hb
  cases hp : relPtr T.endian (pos + T.vec.off "ptr") target with
  | none => rw [hp] at hb; cases hb
  | some p =>
    rw [hp] at hb
    simp only [pure, Option.some.injEq] at hb
    subst hb
    obtain ⟨d, hd, _⟩ := relPtr_some hp
    have := resolveStruct_ok (fs := [("ptr", p), ("len", (uint T.endian 4).enc len)]) h
      ⟨by simp, by
        simp only [List.mem_cons, List.not_mem_nil, or_false, forall_eq_or_imp, forall_eq]
        exact ⟨⟨⟨"ptr", 4, 4⟩, by simp, rfl, by rw [hd]; exact nativeBytes_length ..⟩,
          ⟨"len", 4, 4⟩, by simp, rfl, nativeBytes_length ..⟩⟩
    exact ⟨this.1, p, rfl, this.2 ("ptr", p) (by simp), this.2 ("len", (uint T.endian 4).enc len) (by simp)⟩

theorem vecAt_ne_none {T : Target} {pos len target : Nat} (h : pos + T.vec.off "ptr" < 2 ^ 31) (ht : target < 2 ^ 31) :
    vecAt T pos len target ≠ none := by
  simp only [vecAt, bind, Option.bind]
  cases hp : relPtr T.endian (pos + T.vec.off "ptr") target with
  | none => exact absurd hp (relPtr_ne_none h ht)
  | some p => simp [pure]

theorem readPtr_ok {T : Target} (h : Fits T.vec [⟨"ptr", 4, 4⟩, ⟨"len", 4, 4⟩]) {base pos len target : Nat}
    {F bs : Buf} (hb : vecAt T pos len target = some bs) (ha : At F pos bs) (h4 : 4 ∣ base + pos) (hl : len < 2 ^ 32) :
    readPtr T base F pos = some (target, len) := by
  obtain ⟨_, p, hp, h1, h2⟩ := vecAt_length h hb
  obtain ⟨d, rfl, hd, _⟩ := relPtr_some hp
  have a1 : (u32 T.endian).align ∣ base + (pos + T.vec.off "ptr") := by
    rw [← Nat.add_assoc]; exact Nat.dvd_add h4 (h.aligned ⟨"ptr", 4, 4⟩ (by simp))
  have a2 : (u32 T.endian).align ∣ base + (pos + T.vec.off "len") := by
    rw [← Nat.add_assoc]; exact Nat.dvd_add h4 (h.aligned ⟨"len", 4, 4⟩ (by simp))
  have r1 := readAt_ok (p := u32 T.endian) (faithful_u32 T.endian d) (by show 0 < 4; decide) a1 (ha.trans h1)
  have h2' : At bs (T.vec.off "len") ((u32 T.endian).enc (UInt32.ofNat len)) := by
    have : (u32 T.endian).enc (UInt32.ofNat len) = (uint T.endian 4).enc len := by
      show nativeBytes _ 4 (UInt32.ofNat len).toNat = nativeBytes _ 4 len
      rw [UInt32.toNat_ofNat_of_lt' hl]
    rw [this]; exact h2
  have r2 := readAt_ok (p := u32 T.endian) (faithful_u32 T.endian _) (by show 0 < 4; decide) a2 (ha.trans h2')
  simp only [readPtr, r1, r2, bind, Option.bind, hd]
  have : ((pos + T.vec.off "ptr" : Nat) : Int) + ((target : Int) - (pos + T.vec.off "ptr" : Nat)) = target := by omega
  rw [this, if_neg (by omega), UInt32.toNat_ofNat_of_lt' hl]
  rfl

theorem readVec_ok {T : Target} (h : Fits T.vec [⟨"ptr", 4, 4⟩, ⟨"len", 4, 4⟩]) {τ : Type} {p : Pod τ} {xs : List τ}
    {base pos root start : Nat} {F bs : Buf} (hp : PodOk p xs) (hs : SliceOk p xs start F root)
    (hb : vecAt T pos xs.length start = some bs) (ha : At F pos bs) (h16 : 16 ∣ base) (h4 : 4 ∣ pos)
    (hroot : root ≤ pos) : readVec T p base F pos = some xs := by
  have h4' : 4 ∣ base + pos := Nat.dvd_add (Nat.dvd_trans (by decide : 4 ∣ 16) h16) h4
  have h0 : p.align ∣ base + start := Nat.dvd_add (Nat.dvd_trans hp.small h16) hs.aligned
  have hl : xs.length < 2 ^ 32 := by
    obtain ⟨_, q, hq, _⟩ := vecAt_length h hb
    obtain ⟨_, _, _, hlo⟩ := relPtr_some hq
    have h1 := hs.before
    have h2 : xs.length ≤ xs.length * p.size := Nat.le_mul_of_pos_right _ hp.size
    omega
  simp only [readVec, readPtr_ok h hb ha h4' hl, bind, Option.bind]
  rw [if_pos (Nat.mod_eq_zero_of_dvd h0)]
  exact readMany_ok hp.size hp.stride xs start hp.faithful h0 hs.bytes

/-- A vector field of an archived struct. -/
theorem readVec_field {T : Target} (hT : TargetOk T) {L : StructLayout} {sp : List FieldSpec} (hL : Fits L sp)
    {fs : List (String × Buf)} {F : Buf} {pos : Nat} (hat : ∀ f ∈ fs, At F (pos + L.off f.1) f.2)
    {name : String} (hn : ⟨name, T.vec.size, 4⟩ ∈ sp) {τ : Type} {p : Pod τ} {xs : List τ} {base start : Nat} {bs : Buf}
    (hp : PodOk p xs) (hs : SliceOk p xs start F pos) (hb : vecAt T (pos + L.off name) xs.length start = some bs)
    (hm : (name, bs) ∈ fs) (h16 : 16 ∣ base) (h4 : L.align ∣ pos) :
    readVec T p base F (pos + L.off name) = some xs :=
  readVec_ok hT.vec hp hs hb (hat _ hm) h16
    (Nat.dvd_add (Nat.dvd_trans (hL.divides _ hn) h4) (hL.aligned _ hn)) (Nat.le_add_right _ _)

/-- A plain field of an archived struct. -/
theorem readAt_field {L : StructLayout} {sp : List FieldSpec} (hL : Fits L sp)
    {fs : List (String × Buf)} {F : Buf} {pos : Nat} (hat : ∀ f ∈ fs, At F (pos + L.off f.1) f.2)
    {name : String} {τ : Type} {p : Pod τ} (hn : ⟨name, p.size, p.align⟩ ∈ sp) {x : τ} {base : Nat}
    (hx : Faithful p.toMemRepr x) (h0 : 0 < p.size) (h16 : p.align ∣ 16)
    (hm : (name, p.enc x) ∈ fs) (hb : 16 ∣ base) (h4 : L.align ∣ pos) :
    readAt p base F (pos + L.off name) = some x :=
  readAt_ok hx h0 (Nat.dvd_add (Nat.dvd_trans h16 hb)
    (Nat.dvd_add (Nat.dvd_trans (hL.divides _ hn) h4) (hL.aligned _ hn))) (hat _ hm)

/-- A string field of an archived struct. -/
theorem readStr_field {T : Target} (hT : TargetOk T) {L : StructLayout} {sp : List FieldSpec} (hL : Fits L sp)
    {fs : List (String × Buf)} {F : Buf} {pos : Nat} (hat : ∀ f ∈ fs, At F (pos + L.off f.1) f.2)
    {name : String} (hn : ⟨name, T.str.size, 4⟩ ∈ sp) {s : List UInt8} {base r : Nat} {bs : Buf}
    (hs : StrWritten T.str s r F pos) (hb : T.str.res s (pos + L.off name) r = some bs)
    (hm : (name, bs) ∈ fs) (h16 : 16 ∣ base) (h4 : L.align ∣ pos) :
    readStr T base F (pos + L.off name) = some s := by
  have h : 4 ∣ base + (pos + L.off name) := Nat.dvd_add (Nat.dvd_trans (by decide) h16)
    (Nat.dvd_add (Nat.dvd_trans (hL.divides _ hn) h4) (hL.aligned _ hn))
  rw [readStr, hT.str.align, if_pos (Nat.mod_eq_zero_of_dvd h)]
  exact (hs _ (Nat.le_add_right _ _)).2 bs hb (hat _ hm)

/-! ### Roots -/

theorem serializeValue_ok {R : Type} {L : StructLayout} {sp : List FieldSpec} (hf : Fits L sp) (h0 : 0 < L.align)
    {ser : StateM Buf R} {n : Nat} {Q : R → Buf → Nat → Prop} (hw : Writes ser n Q)
    {res : Nat → R → Option (List (String × Buf))} (hm : ∀ pos r fs, res pos r = some fs → Matches fs sp)
    {b b' : Buf} {pos : Nat} (h : serializeValue L ser res b = some (pos, b')) :
    ∃ r fs, res pos r = some fs ∧ L.align ∣ pos ∧ b <+: b' ∧ b.length ≤ pos ∧ b'.length = pos + L.size ∧
      ∀ F, b' <+: F → Q r F pos ∧ ∀ f ∈ fs, At F (pos + L.off f.1) f.2 := by
  obtain ⟨h1, h2, h3⟩ := hw b
  rw [show serializeValue L ser res b = (res (padTo L.align (ser b).2).length (ser b).1).map
    fun fs => ((padTo L.align (ser b).2).length, padTo L.align (ser b).2 ++ resolveStruct L fs) from rfl] at h
  obtain ⟨p1, p2, p3⟩ := padTo_length L.align (ser b).2 h0
  cases hr : res (padTo L.align (ser b).2).length (ser b).1 with
  | none => rw [hr] at h; cases h
  | some fs =>
    rw [hr] at h
    simp only [Option.map_some, Option.some.injEq, Prod.mk.injEq] at h
    obtain ⟨rfl, rfl⟩ := h
    obtain ⟨r1, r2⟩ := resolveStruct_ok hf (hm _ _ _ hr)
    refine ⟨(ser b).1, fs, hr, p1, ?_, ?_, ?_, fun F hF => ⟨?_, fun f hfs => ?_⟩⟩
    · exact h1.trans ((padTo_prefix _ _).trans (List.prefix_append _ _))
    · exact Nat.le_trans h1.length_le p2
    · rw [List.length_append, r1]
    · exact h3 F _ ((padTo_prefix _ _).trans ((List.prefix_append _ _).trans hF)) p2
    · refine At.trans (G := resolveStruct L fs) (At.prefix ?_ hF) (r2 f hfs)
      have := At.self (padTo L.align (ser b).2) (resolveStruct L fs) []
      rwa [List.append_nil] at this

theorem serializeValue_ne_none {R : Type} {L : StructLayout} (h0 : 0 < L.align)
    {ser : StateM Buf R} {n : Nat} {Q : R → Buf → Nat → Prop} (hw : Writes ser n Q)
    {res : Nat → R → Option (List (String × Buf))} {b : Buf} {k : Nat}
    (hr : ∀ pos r F, Q r F pos → pos ≤ k → res pos r ≠ none) (hk : b.length + n + L.align ≤ k) :
    ∃ out, serializeValue L ser res b = some out := by
  obtain ⟨h1, h2, h3⟩ := hw b
  obtain ⟨p1, p2, p3⟩ := padTo_length L.align (ser b).2 h0
  have := hr _ _ (padTo L.align (ser b).2) (h3 _ _ (padTo_prefix _ _) p2) (by omega)
  rw [show serializeValue L ser res b = (res (padTo L.align (ser b).2).length (ser b).1).map
    fun fs => ((padTo L.align (ser b).2).length, padTo L.align (ser b).2 ++ resolveStruct L fs) from rfl]
  cases hr : res (padTo L.align (ser b).2).length (ser b).1 with
  | none => exact absurd hr this
  | some fs => exact ⟨_, rfl⟩

theorem rootAt_ok {L : StructLayout} {base pos : Nat} {b : Buf} (h : b.length = pos + L.size)
    (ha : L.align ∣ base + pos) : rootAt L base b = some pos := by
  have : b.length - L.size = pos := by omega
  rw [rootAt, this, if_pos ⟨by omega, Nat.mod_eq_zero_of_dvd ha⟩]

end Ozz.Rkyv
