import Verif.Model.LocalToModel
import Verif.Proofs.Tree
import Verif.Spec.LocalToModel

/-! Loop invariant for `LocalToModelJob::run`. -/

namespace Ozz.LocalToModel

open Spec

variable {S M : Type} (mul : M → M → M) (toAos : S → Fin 4 → M)

/-- Joints `b..e` have been recomputed from their parents' final value, all others are as before. -/
def Updated (j : Job S M) (b e : Nat) (out out' : List M) : Prop :=
  out'.length = out.length ∧
  (∀ i, i < b ∨ e ≤ i → out'[i]? = out[i]?) ∧
  (∀ i, b ≤ i → i < e → ∃ m l, LocalMatrix toAos j.input i l ∧ out'[i]? = some (mul m l) ∧
    ((j.parents[i]? = some (-1) ∧ m = j.root) ∨
      ∃ p : Nat, p < i ∧ j.parents[i]? = some (p : Int) ∧ out'[p]? = some m))

variable {mul toAos}

theorem Updated.refl (j : Job S M) (b : Nat) (out : List M) : Updated mul toAos j b b out out :=
  ⟨rfl, fun _ _ => rfl, fun i h1 h2 => by omega⟩

theorem Updated.trans {j : Job S M} {b c e : Nat} {o1 o2 o3 : List M} (hbc : b ≤ c) (hce : c ≤ e)
    (h1 : Updated mul toAos j b c o1 o2) (h2 : Updated mul toAos j c e o2 o3) :
    Updated mul toAos j b e o1 o3 := by
  refine ⟨by rw [h2.1, h1.1], ?_, ?_⟩
  · intro i hi
    rw [h2.2.1 i (by omega), h1.2.1 i (by omega)]
  · intro i hb he
    rcases Nat.lt_or_ge i c with hc | hc
    · obtain ⟨m, l, hl, ho, hp⟩ := h1.2.2 i hb hc
      refine ⟨m, l, hl, by rw [h2.2.1 i (.inl hc), ho], ?_⟩
      rcases hp with hp | ⟨p, hlt, hp, hm⟩
      · exact .inl hp
      · exact .inr ⟨p, hlt, hp, by rw [h2.2.1 p (by omega), hm]⟩
    · exact h2.2.2 i hc he

theorem stepJoint_ok {j : Job S M} (hp : ParentsFirst j.parents) {idx : Nat}
    (hidx : idx < j.parents.length) {out : List M} (hout : j.parents.length ≤ out.length)
    {s : S} (hs : j.input[idx / 4]? = some s) :
    ∃ out', stepJoint mul j (toAos s) idx out = .ok out' ∧
      Updated mul toAos j idx (idx + 1) out out' := by
  have hb := hp idx hidx
  have hget : getIdx j.parents idx = .ok j.parents[idx] := by simp [getIdx, hidx]
  have hset : ∀ v, setIdx out idx v = .ok (out.set idx v) := by
    intro v; simp [setIdx, show idx < out.length by omega]
  have hupd : ∀ (m : M), ((j.parents[idx]? = some (-1) ∧ m = j.root) ∨
      ∃ p : Nat, p < idx ∧ j.parents[idx]? = some (p : Int) ∧ out[p]? = some m) →
      Updated mul toAos j idx (idx + 1) out
        (out.set idx (mul m (toAos s ⟨idx % 4, Nat.mod_lt _ (by decide)⟩))) := by
    intro m hm
    refine ⟨by simp, ?_, ?_⟩
    · intro i hi
      rw [List.getElem?_set_ne (by omega)]
    · intro i h1 h2
      obtain rfl : i = idx := by omega
      refine ⟨m, _, ⟨s, hs, rfl⟩, ?_, ?_⟩
      · rw [List.getElem?_set_self (by omega)]
      · rcases hm with hm | ⟨p, h1, h2, h3⟩
        · exact .inl hm
        · exact .inr ⟨p, h1, h2, by rw [List.getElem?_set_ne (by omega), h3]⟩
  unfold stepJoint
  rw [hget]
  by_cases hroot : j.parents[idx] = -1
  · refine ⟨_, ?_, hupd j.root (.inl ⟨by simp [hidx, hroot], rfl⟩)⟩
    simp [hroot, hset, bind, Except.bind]
  · obtain ⟨p, hpe⟩ : ∃ p : Nat, j.parents[idx] = (p : Int) := ⟨j.parents[idx].toNat, by omega⟩
    have hplt : p < out.length := by omega
    refine ⟨_, ?_, hupd out[p] (.inr ⟨p, by omega, by simp [hidx, hpe], by simp [hplt]⟩)⟩
    simp only [bind, Except.bind, hpe, show ¬ ((p : Int) < 0) by omega, ↓reduceIte,
      Int.toNat_natCast, getIdx, List.getElem?_eq_getElem hplt, hset]
    simp [show ¬ ((p : Int) = -1) by omega]

/-- `e` is where the traversal started at `b` stops. -/
structure Stop (j : Job S M) (end_ b e : Nat) : Prop where
  lt : b < e
  le : e ≤ end_
  endLe : end_ ≤ j.parents.length
  ge : ∀ i (h : i < j.parents.length), b < i → i < e → j.from_ ≤ j.parents[i]
  stop : e < end_ → ∀ h : e < j.parents.length, j.parents[e] < j.from_

theorem goOn_eq {j : Job S M} {end_ b e : Nat} (h : Stop j end_ b e) {idx : Nat}
    (h1 : b < idx) (h2 : idx ≤ e) : goOn j end_ idx = .ok (decide (idx < e)) := by
  unfold goOn
  have := h.le
  have := h.endLe
  by_cases hi : idx < end_
  · have hl : idx < j.parents.length := by omega
    simp only [hi, ↓reduceIte, getIdx, List.getElem?_eq_getElem hl, bind, Except.bind, pure,
      Except.pure]
    by_cases he : idx < e
    · simp [he, h.ge idx hl h1 he]
    · have : idx = e := by omega
      subst this
      have := h.stop hi hl
      simp; omega
  · simp [hi, show ¬ idx < e by omega]; rfl

theorem inner_ok {j : Job S M} (hp : ParentsFirst j.parents) {end_ b e : Nat}
    (h : Stop j end_ b e) {s : S} (soaEnd : Nat) (blk : Nat) (hblk : soaEnd = 4 * blk + 4)
    (hs : j.input[blk]? = some s) :
    ∀ (n idx : Nat) (out : List M), soaEnd - idx = n → b ≤ idx → idx < e → idx < soaEnd →
      4 * blk ≤ idx → j.parents.length ≤ out.length →
      ∃ out', inner mul j end_ (toAos s) soaEnd idx true out =
          .ok (min e soaEnd, decide (soaEnd < e), out') ∧
        Updated mul toAos j idx (min e soaEnd) out out' := by
  intro n
  induction n with
  | zero => intros; omega
  | succ n ih =>
    intro idx out hn hb he hsoa hblk' hout
    have := h.le
    have := h.endLe
    have hdiv : idx / 4 = blk := by omega
    obtain ⟨o1, ho1, hu1⟩ := stepJoint_ok (mul := mul) (toAos := toAos) hp
      (show idx < j.parents.length by omega) hout (hdiv ▸ hs)
    have hg := goOn_eq h (show b < idx + 1 by omega) (show idx + 1 ≤ e by omega)
    rw [inner]
    simp only [hsoa, and_self, ↓reduceIte, ho1, hg, bind, Except.bind]
    by_cases hcont : idx + 1 < e
    · by_cases hs2 : idx + 1 < soaEnd
      · obtain ⟨o2, ho2, hu2⟩ := ih (idx + 1) o1 (by omega) (by omega) hcont hs2 (by omega)
          (by rw [hu1.1]; exact hout)
        refine ⟨o2, by simpa [hcont] using ho2, hu1.trans (by omega) (by omega) hu2⟩
      · refine ⟨o1, ?_, ?_⟩
        · rw [inner]
          simp only [hs2, false_and, ↓reduceIte, pure, Except.pure]
          rw [show min e soaEnd = idx + 1 by omega, show decide (idx + 1 < e) = decide (soaEnd < e) by
            simp; omega]
        · rw [show min e soaEnd = idx + 1 by omega]; exact hu1
    · refine ⟨o1, ?_, ?_⟩
      · rw [inner]
        simp only [hcont, decide_false, Bool.false_eq_true, and_false, ↓reduceIte, pure, Except.pure]
        rw [show min e soaEnd = idx + 1 by omega, show decide (soaEnd < e) = false by
            simp; omega]
      · rw [show min e soaEnd = idx + 1 by omega]; exact hu1

theorem outer_ok {j : Job S M} (hp : ParentsFirst j.parents) {end_ b e : Nat}
    (h : Stop j end_ b e) (hin : numSoa j.parents.length ≤ j.input.length) :
    ∀ (fuel idx : Nat) (out : List M), b ≤ idx → idx ≤ e → e - idx ≤ fuel →
      j.parents.length ≤ out.length →
      ∃ out', outer mul toAos j end_ fuel idx (decide (idx < e)) out = .ok out' ∧
        Updated mul toAos j idx e out out' := by
  intro fuel
  induction fuel with
  | zero =>
    intro idx out hb he hf hout
    obtain rfl : idx = e := by omega
    exact ⟨out, by simp [outer]; rfl, .refl _ _ _⟩
  | succ fuel ih =>
    intro idx out hb he hf hout
    by_cases hlt : idx < e
    · have := h.le
      have := h.endLe
      have hblk : idx / 4 < j.input.length := by unfold numSoa at hin; omega
      obtain ⟨o1, ho1, hu1⟩ := inner_ok (mul := mul) (toAos := toAos) hp h
        ((idx + 4) - (idx + 4) % 4) (idx / 4) (by omega) (List.getElem?_eq_getElem hblk)
        _ idx out rfl hb hlt (by omega) (by omega) hout
      obtain ⟨o2, ho2, hu2⟩ := ih (min e ((idx + 4) - (idx + 4) % 4)) o1 (by omega) (by omega)
        (by omega) (by rw [hu1.1]; exact hout)
      refine ⟨o2, ?_, hu1.trans (by omega) (by omega) hu2⟩
      simp only [hlt, decide_true, outer, getIdx, List.getElem?_eq_getElem hblk, bind, Except.bind,
        ho1]
      rw [show decide ((idx + 4) - (idx + 4) % 4 < e) =
        decide (min e ((idx + 4) - (idx + 4) % 4) < e) by simp; omega]
      exact ho2
    · obtain rfl : idx = e := by omega
      exact ⟨out, by simp [outer]; rfl, .refl _ _ _⟩

theorem exists_stop (j : Job S M) {end_ b : Nat} (hb : b < end_)
    (he : end_ ≤ j.parents.length) : ∃ e, Stop j end_ b e := by
  have : ∀ n, ∀ k, end_ - k = n → b < k → k ≤ end_ →
      (∀ i (h : i < j.parents.length), b < i → i < k → j.from_ ≤ j.parents[i]) →
      ∃ e, Stop j end_ b e := by
    intro n
    induction n with
    | zero =>
      intro k hn hbk hke hge
      exact ⟨k, hbk, hke, he, hge, fun h => by omega⟩
    | succ n ih =>
      intro k hn hbk hke hge
      have hl : k < j.parents.length := by omega
      by_cases hc : j.from_ ≤ j.parents[k]
      · refine ih (k + 1) (by omega) (by omega) (by omega) ?_
        intro i h1 h2 h3
        rcases Nat.lt_or_ge i k with h | h
        · exact hge i h1 h2 h
        · obtain rfl : i = k := by omega
          exact hc
      · exact ⟨k, hbk, hke, he, hge, fun _ _ => by omega⟩
  exact this _ (b + 1) rfl (by omega) (by omega) (fun i h h1 h2 => by omega)

theorem addI32_ok {a b : Int} (h1 : -(2:Int)^31 ≤ a + b) (h2 : a + b < 2^31) :
    addI32 a b = .ok (a + b) := by
  simp only [addI32]; rw [if_pos ⟨h1, h2⟩]

/-- The run recomputes a contiguous range of joints (possibly empty). -/
theorem run_range (j : Job S M) (out : List M) (hp : ParentsFirst j.parents)
    (hv : validate j out = true)
    (hf1 : -(2:Int)^31 ≤ j.from_) (hf2 : j.from_ < 2^31 - 1)
    (ht1 : -(2:Int)^31 ≤ j.to) (ht2 : j.to < 2^31 - 1) :
    ∃ out' b e, run mul toAos j out = .ok out' ∧ Updated mul toAos j b e out out' ∧
      b = (max 0 (j.from_ + (if j.fromExcluded then 1 else 0))).toNat ∧
      ((e = b ∧ ((max 0 (min (j.to + 1) (j.parents.length : Int))).toNat ≤ b ∨
          (j.fromExcluded = true ∧ ∃ h : b < j.parents.length, j.parents[b] < j.from_))) ∨
       (Stop j (max 0 (min (j.to + 1) (j.parents.length : Int))).toNat b e ∧
        (j.fromExcluded = true → ∀ h : b < j.parents.length, j.from_ ≤ j.parents[b]))) := by
  have hv' := hv
  simp only [validate, Bool.and_eq_true, decide_eq_true_eq] at hv'
  unfold run runWith
  rw [if_neg (by simp [hv])]
  rw [addI32_ok (by split <;> omega) (by split <;> omega), addI32_ok (by omega) (by omega)]
  simp only [bind, Except.bind]
  generalize hb : (max 0 (j.from_ + (if j.fromExcluded then 1 else 0))).toNat = b
  generalize he : (max 0 (min (j.to + 1) (j.parents.length : Int))).toNat = end_
  have hend : end_ ≤ j.parents.length := by omega
  by_cases hlt : b < end_
  · have hbl : b < j.parents.length := by omega
    by_cases hx : j.fromExcluded = true ∧ j.parents[b] < j.from_
    · refine ⟨out, b, b, ?_, .refl _ _ _, rfl, .inl ⟨rfl, .inr ⟨hx.1, hbl, hx.2⟩⟩⟩
      simp only [hlt, hx.1, ↓reduceIte, getIdx, List.getElem?_eq_getElem hbl, pure, Except.pure]
      rw [show decide (j.parents[b] ≥ j.from_) = false by simp; omega]
      cases end_ <;> rfl
    · obtain ⟨e, hs⟩ := exists_stop j hlt hend
      obtain ⟨out', ho, hu⟩ := outer_ok (mul := mul) (toAos := toAos) hp hs hv'.1 end_ b out
        (Nat.le_refl _) (Nat.le_of_lt hs.lt) (by have := hs.le; omega) hv'.2
      refine ⟨out', b, e, ?_, hu, rfl, .inr ⟨hs, fun hex _ => by
        have := not_and.mp hx hex; omega⟩⟩
      rw [← ho]
      by_cases hex : j.fromExcluded = true
      · have := not_and.mp hx hex
        simp only [hlt, hex, ↓reduceIte, getIdx, List.getElem?_eq_getElem hbl, pure, Except.pure]
        rw [show decide (j.parents[b] ≥ j.from_) = true by simp; omega]
        simp [hs.lt]
      · simp [hlt, hex, hs.lt, pure, Except.pure]
  · refine ⟨out, b, b, ?_, .refl _ _ _, rfl, .inl ⟨rfl, .inl (by omega)⟩⟩
    simp only [hlt, ↓reduceIte, pure, Except.pure]
    cases end_ <;> rfl

theorem pathTo_unique {ps : List Int} {i : Nat} {l l' : List Nat} (h : PathTo ps i l)
    (h' : PathTo ps i l') : l = l' := by
  induction h generalizing l' with
  | root hr =>
    cases h' with
    | root => rfl
    | child hc => rw [hr] at hc; simp at hc
  | child hc _ ih =>
    cases h' with
    | root hr => rw [hr] at hc; simp at hc
    | child hc' hp =>
      rw [hc] at hc'
      simp only [Option.some.injEq] at hc'
      have := Int.ofNat_inj.mp hc'
      subst this
      rw [ih hp]

theorem pathTo_exists {ps : List Int} (hp : ParentsFirst ps) (i : Nat) (hi : i < ps.length) :
    ∃ l, PathTo ps i l := by
  induction i using Nat.strongRecOn with
  | _ i ih =>
    have hb := hp i hi
    by_cases hr : ps[i] = -1
    · exact ⟨_, .root (by simp [hi, hr])⟩
    · obtain ⟨p, hpe⟩ : ∃ p : Nat, ps[i] = (p : Int) := ⟨ps[i].toNat, by omega⟩
      obtain ⟨l, hl⟩ := ih p (by omega) (by omega)
      exact ⟨_, .child (by simp [hi, hpe]) hl⟩

theorem isModelMatrix_unique {root : M} {loc : Nat → M} {ps : List Int} {i : Nat} {m m' : M}
    (h : IsModelMatrix mul root loc ps i m) (h' : IsModelMatrix mul root loc ps i m') : m = m' := by
  obtain ⟨l, hl, rfl⟩ := h
  obtain ⟨l', hl', rfl⟩ := h'
  rw [pathTo_unique hl hl']

theorem localMatrix_unique {input : List S} {i : Nat} {l l' : M}
    (h : LocalMatrix toAos input i l) (h' : LocalMatrix toAos input i l') : l = l' := by
  obtain ⟨s, hs, rfl⟩ := h
  obtain ⟨s', hs', rfl⟩ := h'
  rw [hs] at hs'
  simp only [Option.some.injEq] at hs'
  rw [hs']

/-- Joints recomputed from a correct parent are correct. -/
theorem updated_model {j : Job S M} {b e : Nat} {out out' : List M} (loc : Nat → M)
    (hloc : ∀ i, i < j.parents.length → LocalMatrix toAos j.input i (loc i))
    (hu : Updated mul toAos j b e out out')
    (hother : ∀ i, i < j.parents.length → (i < b ∨ e ≤ i) →
      ∃ m, out[i]? = some m ∧ IsModelMatrix mul j.root loc j.parents i m) :
    ∀ i, i < j.parents.length →
      ∃ m, out'[i]? = some m ∧ IsModelMatrix mul j.root loc j.parents i m := by
  intro i
  induction i using Nat.strongRecOn with
  | _ i ih =>
    intro hi
    by_cases hin : b ≤ i ∧ i < e
    · obtain ⟨m, l, hl, ho, hm⟩ := hu.2.2 i hin.1 hin.2
      have := localMatrix_unique hl (hloc i hi)
      subst this
      refine ⟨_, ho, ?_⟩
      rcases hm with ⟨hr, rfl⟩ | ⟨p, hlt, hpar, hop⟩
      · exact ⟨[i], .root hr, rfl⟩
      · obtain ⟨m', hm', path, hpath, rfl⟩ := ih p hlt (by omega)
        rw [hop] at hm'
        simp only [Option.some.injEq] at hm'
        subst hm'
        exact ⟨_, .child hpar hpath, by simp⟩
    · obtain ⟨m, hm, hmm⟩ := hother i hi (by omega)
      exact ⟨m, by rw [hu.2.1 i (by omega), hm], hmm⟩

end Ozz.LocalToModel
