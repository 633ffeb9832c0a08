import Verif.Spec.ContextEq
import Verif.Proofs.SamplingHistory

/-! Helpers for C97: the comparisons one by one. -/

namespace Ozz.ContextEq

open Sampling Spec

theorem eq_same (x y : F32) : F32.eq x y = true ↔ SameNumber x y := by
  have hx := x.bits.isLt
  have hy := y.bits.isLt
  have hb : x.bits = y.bits ↔ x.bits.toNat = y.bits.toNat := ⟨fun h => by rw [h], fun h => BitVec.eq_of_toNat_eq h⟩
  have n1 : ∀ z : F32, (!z.isNaN) = true ↔ z.bits.toNat % 2 ^ 31 ≤ 0x7F800000 := by
    intro z
    by_cases h : 255 * 2 ^ 23 < z.bits.toNat % 2 ^ 31
    · simp [F32.isNaN, F32.low, h]
    · simp [F32.isNaN, F32.low, h]
      omega
  simp only [F32.eq, Bool.and_eq_true, n1, decide_eq_true_eq, SameNumber, hb, F32.rank, F32.negative, F32.low]
  split <;> split <;> omega

theorem eq4_same (a b : F4 F32) : eq4 a b = true ↔ ∀ l, SameNumber (a l) (b l) := by
  simp only [eq4, Bool.and_eq_true, eq_same]
  constructor
  · rintro ⟨⟨⟨h0, h1⟩, h2⟩, h3⟩ l
    match l with
    | 0 => exact h0
    | 1 => exact h1
    | 2 => exact h2
    | 3 => exact h3
  · exact fun h => ⟨⟨⟨h 0, h 1⟩, h 2⟩, h 3⟩

theorem eqInterp3_same (a b : Interp F32 (SoaVec3 F32)) :
    eqInterp eqVec3 a b = true ↔ ∀ l, List.Forall₂ SameNumber (numbers3 a l) (numbers3 b l) := by
  simp only [eqInterp, eqVec3, Bool.and_eq_true, eq4_same, numbers3, List.forall₂_cons, List.forall₂_nil_left_iff, and_true]
  constructor
  · rintro ⟨⟨⟨h0, h1⟩, ⟨h2, h3⟩, h4⟩, ⟨h5, h6⟩, h7⟩ l
    exact ⟨h0 l, h1 l, h2 l, h3 l, h4 l, h5 l, h6 l, h7 l⟩
  · intro h
    exact ⟨⟨⟨fun l => (h l).1, fun l => (h l).2.1⟩, ⟨fun l => (h l).2.2.1, fun l => (h l).2.2.2.1⟩, fun l => (h l).2.2.2.2.1⟩,
      ⟨fun l => (h l).2.2.2.2.2.1, fun l => (h l).2.2.2.2.2.2.1⟩, fun l => (h l).2.2.2.2.2.2.2⟩

theorem eqInterpQ_same (a b : Interp F32 (SoaQuat F32)) :
    eqInterp eqQuat a b = true ↔ ∀ l, List.Forall₂ SameNumber (numbersQ a l) (numbersQ b l) := by
  simp only [eqInterp, eqQuat, Bool.and_eq_true, eq4_same, numbersQ, List.forall₂_cons, List.forall₂_nil_left_iff, and_true]
  constructor
  · rintro ⟨⟨⟨h0, h1⟩, ⟨⟨h2, h3⟩, h4⟩, h5⟩, ⟨⟨h6, h7⟩, h8⟩, h9⟩ l
    exact ⟨h0 l, h1 l, h2 l, h3 l, h4 l, h5 l, h6 l, h7 l, h8 l, h9 l⟩
  · intro h
    exact ⟨⟨⟨fun l => (h l).1, fun l => (h l).2.1⟩, ⟨⟨fun l => (h l).2.2.1, fun l => (h l).2.2.2.1⟩, fun l => (h l).2.2.2.2.1⟩,
      fun l => (h l).2.2.2.2.2.1⟩, ⟨⟨fun l => (h l).2.2.2.2.2.2.1, fun l => (h l).2.2.2.2.2.2.2.1⟩,
      fun l => (h l).2.2.2.2.2.2.2.2.1⟩, fun l => (h l).2.2.2.2.2.2.2.2.2⟩

theorem eqSlice_same {β : Type} (eqB : β → β → Bool) : ∀ xs ys : List β,
    eqSlice eqB xs ys = true ↔ List.Forall₂ (fun x y => eqB x y = true) xs ys
  | [], [] => by simp [eqSlice]
  | [], _ :: _ => by simp [eqSlice]
  | _ :: _, [] => by simp [eqSlice]
  | x :: xs, y :: ys => by simp [eqSlice, eqSlice_same eqB xs ys]

theorem eqSlice_eq {β : Type} [BEq β] [LawfulBEq β] (xs ys : List β) : eqSlice (· == ·) xs ys = true ↔ xs = ys := by
  rw [eqSlice_same]
  simp

theorem eqCache_same {V : Type} {eqV : V → V → Bool} {numbers : Interp F32 V → Fin 4 → List F32}
    (h : ∀ a b, eqInterp eqV a b = true ↔ ∀ l, List.Forall₂ SameNumber (numbers a l) (numbers b l)) (a b : Cache F32 V) :
    eqCache eqV a b = true ↔ SameCache numbers a b := by
  simp only [eqCache, Bool.and_eq_true, eqSlice_eq, beq_iff_eq]
  simp only [eqSlice_same, h]
  exact ⟨fun ⟨⟨⟨h1, h2⟩, h3⟩, h4⟩ => ⟨h2, h3, h4, h1⟩, fun ⟨h2, h3, h4, h1⟩ => ⟨⟨⟨h1, h2⟩, h3⟩, h4⟩⟩

theorem sameNumber_symm {x y : F32} (h : SameNumber x y) : SameNumber y x :=
  ⟨h.2.1, h.1, h.2.2.imp Eq.symm And.symm⟩

theorem sameNumber_trans {x y z : F32} (h : SameNumber x y) (h' : SameNumber y z) : SameNumber x z := by
  obtain ⟨a1, a2, a3⟩ := h
  obtain ⟨b1, b2, b3⟩ := h'
  refine ⟨a1, b2, ?_⟩
  rcases a3 with a3 | a3 <;> rcases b3 with b3 | b3
  · exact .inl (a3.trans b3)
  · exact .inr ⟨by rw [a3]; exact b3.1, b3.2⟩
  · exact .inr ⟨a3.1, by rw [← b3]; exact a3.2⟩
  · exact .inr ⟨a3.1, b3.2⟩

theorem sameNumber_self (x : F32) : SameNumber x x ↔ x.isNaN = false := by
  by_cases h : 255 * 2 ^ 23 < x.bits.toNat % 2 ^ 31
  · simp [SameNumber, F32.isNaN, F32.low, h]
  · simp [SameNumber, F32.isNaN, F32.low, h]
    omega

theorem forall₂_symm' {β : Type} {R : β → β → Prop} (h : ∀ x y, R x y → R y x) : ∀ {xs ys : List β},
    List.Forall₂ R xs ys → List.Forall₂ R ys xs
  | _, _, .nil => .nil
  | _, _, .cons a b => .cons (h _ _ a) (forall₂_symm' h b)

theorem forall₂_trans' {β : Type} {R : β → β → Prop} (h : ∀ x y z, R x y → R y z → R x z) : ∀ {xs ys zs : List β},
    List.Forall₂ R xs ys → List.Forall₂ R ys zs → List.Forall₂ R xs zs
  | _, _, _, .nil, .nil => .nil
  | _, _, _, .cons a b, .cons a' b' => .cons (h _ _ _ a a') (forall₂_trans' h b b')

theorem forall₂_self {β : Type} {R : β → β → Prop} : ∀ {xs : List β}, List.Forall₂ R xs xs ↔ ∀ x ∈ xs, R x x
  | [] => by simp
  | x :: xs => by simp

theorem sameCache_symm {V : Type} {numbers : Interp F32 V → Fin 4 → List F32} {a b : Cache F32 V} (h : SameCache numbers a b) :
    SameCache numbers b a :=
  ⟨h.1.symm, h.2.symm, h.3.symm, forall₂_symm' (fun _ _ g l => forall₂_symm' (fun _ _ => sameNumber_symm) (g l)) h.4⟩

theorem sameCache_trans {V : Type} {numbers : Interp F32 V → Fin 4 → List F32} {a b c : Cache F32 V} (h : SameCache numbers a b)
    (h' : SameCache numbers b c) : SameCache numbers a c :=
  ⟨h.1.trans h'.1, h.2.trans h'.2, h.3.trans h'.3,
    forall₂_trans' (fun _ _ _ g g' l => forall₂_trans' (R := SameNumber) (fun _ _ _ => sameNumber_trans) (g l) (g' l)) h.4 h'.4⟩

theorem sameCache_self {V : Type} {numbers : Interp F32 V → Fin 4 → List F32} {a : Cache F32 V} :
    SameCache numbers a a ↔ ∀ v ∈ a.values, ∀ l, ∀ x ∈ numbers v l, x.isNaN = false := by
  constructor
  · intro h v hv l x hx
    exact (sameNumber_self x).1 (forall₂_self.1 (forall₂_self.1 h.4 v hv l) x hx)
  · intro h
    exact ⟨rfl, rfl, rfl, forall₂_self.2 fun v hv l => forall₂_self.2 fun x hx => (sameNumber_self x).2 (h v hv l x hx)⟩

section
variable {α K3 KQ V3 VQ O : Type} [RatioOps α] {N : Numerics α K3 KQ V3 VQ O} {lo hi : α} {soa : Nat}
  {anims : Nat → Option (Animation α K3 KQ)}

/-- What the context holds after a run. -/
theorem run_values (Ord : RatioOrder α) {a : Animation α K3 KQ} {addr : Nat} (ha : anims addr = some a)
    (h0 : addr ≠ 0) (hn : (a.numTracks + 3) / 4 = soa) (hpos : 0 < soa) (hwf : WellFormed lo hi a)
    {r : α} (hr1 : lo ≤ r) (hr2 : r ≤ hi) {c : Context α V3 VQ} (hu : Usable N lo hi soa anims c)
    {out : List O} (hout : soa ≤ out.length) :
    ∃ c' out', run N a addr r c out = .ok (c', out') ∧ Usable N lo hi soa anims c' ∧ c'.ratio = r ∧
      (∀ i, i < soa → ∃ v, c'.translations.values[i]? = some v ∧
        ChanSample lo hi a.numTracks (4 * soa) a.timepoints a.translations N.dec3 i r v) ∧
      (∀ i, i < soa → ∃ v, c'.rotations.values[i]? = some v ∧
        ChanSample lo hi a.numTracks (4 * soa) a.timepoints a.rotations N.decQ i r v) ∧
      (∀ i, i < soa → ∃ v, c'.scales.values[i]? = some v ∧
        ChanSample lo hi a.numTracks (4 * soa) a.timepoints a.scales N.dec3 i r v) := by
  have hstep : ∃ c1 prev, stepContext c addr r = (c1, prev) ∧ c1.maxSoa = soa ∧ c1.animationId = addr ∧ c1.ratio = r ∧
      Sized soa c1.translations ∧ Sized soa c1.rotations ∧ Sized soa c1.scales ∧
      CoherentWith N lo hi soa a c1 := by
    refine ⟨_, _, rfl, ?_⟩
    by_cases hid : c.animationId ≠ addr
    · simp only [if_pos hid]
      exact ⟨hu.maxSoa, trivial, trivial, ⟨hu.translations.1, hu.translations.2, hu.translations.3⟩,
        ⟨hu.rotations.1, hu.rotations.2, hu.rotations.3⟩, ⟨hu.scales.1, hu.scales.2, hu.scales.3⟩,
        ⟨.inl rfl, .inl rfl, .inl rfl⟩⟩
    · simp only [if_neg hid]
      have hid' : c.animationId = addr := Classical.byContradiction hid
      refine ⟨hu.maxSoa, hid', trivial, hu.translations, hu.rotations, hu.scales, ?_⟩
      rcases hu.memory with h | ⟨h1, h2, h3⟩ | ⟨a', h1, h2⟩
      · omega
      · exact ⟨.inl h1, .inl h2, .inl h3⟩
      · rw [hid', ha] at h1
        obtain rfl : a = a' := by simpa using h1
        exact ⟨h2.1, h2.2, h2.3⟩
  obtain ⟨c1, prev, hs, hm, hid, hrat, z1, z2, z3, hc⟩ := hstep
  have hreal : 0 < a.numTracks := by omega
  have wt := hwf.translations; have wr := hwf.rotations; have ws := hwf.scales
  rw [hn] at wt wr ws
  obtain ⟨t1, t2, ut, dt, zt, ct, vt⟩ := channel_step (dec := N.dec3) Ord wt hpos hreal hr1 hr2 prev z1 hc.1
  obtain ⟨q1, q2, uq, dq, zq, cq, vq⟩ := channel_step (dec := N.decQ) Ord wr hpos hreal hr1 hr2 prev z2 hc.2
  obtain ⟨s1, s2, us, ds, zs, cs, vs⟩ := channel_step (dec := N.dec3) Ord ws hpos hreal hr1 hr2 prev z3 hc.3
  obtain ⟨out', i1, -, -, -⟩ := interpolateLoop_ok N
    { c1 with translations := t2, rotations := q2, scales := s2 } r soa 0 out hout
    (by simp [zt.values]) (by simp [zq.values]) (by simp [zs.values])
  refine ⟨{ c1 with translations := t2, rotations := q2, scales := s2 }, out', ?_,
    ⟨hm, zt, zq, zs, .inr (.inr ⟨a, by rw [hid]; exact ha, ⟨ct, cq, cs⟩⟩)⟩, hrat, vt, vq, vs⟩
  have hv : validate a c out = true := by
    simp [validate, Animation.numSoa, hn, hu.maxSoa, hout]
  have hns : a.numSoa = soa := hn
  simp only [run, hv, not_true_eq_false, ↓reduceIte, hns, show soa ≠ 0 by omega, runBody, hs, ut, dt,
    uq, dq, us, ds, i1, bind, Except.bind, pure, Except.pure]

end

end Ozz.ContextEq
