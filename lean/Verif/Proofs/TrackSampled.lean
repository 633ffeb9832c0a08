import Verif.Spec.TrackSampled
import Verif.Proofs.Interpolate
import Verif.Proofs.SamplingHistory

/-! Helper lemmas for C101: the keys that bracket a ratio are found in the track's own list of keys. -/

namespace Ozz.Sampling

open Spec

/-! ### Filtered ranges -/

/-- How many numbers below `n` satisfy `p`. -/
def below (p : Nat → Bool) (n : Nat) : Nat := ((List.range n).filter p).length

theorem below_succ (p : Nat → Bool) (n : Nat) : below p (n + 1) = below p n + if p n then 1 else 0 := by
  unfold below
  rw [List.range_succ, List.filter_append, List.length_append]
  cases h : p n <;> simp [h]

theorem below_gap (p : Nat → Bool) (a : Nat) : ∀ d, (∀ m, a ≤ m → m < a + d → p m = false) → below p (a + d) = below p a := by
  intro d
  induction d with
  | zero => intro _; rfl
  | succ d ih =>
    intro h
    rw [← Nat.add_assoc, below_succ, ih (fun m h1 h2 => h m h1 (by omega)), h (a + d) (by omega) (by omega)]
    simp

theorem filter_range_get (p : Nat → Bool) (l : Nat) (hl : p l = true) : ∀ n, l < n → ((List.range n).filter p)[below p l]? = some l := by
  intro n
  induction n with
  | zero => intro h; omega
  | succ n ih =>
    intro h
    rw [List.range_succ, List.filter_append]
    rcases Nat.lt_or_ge l n with h1 | h1
    · have := ih h1
      rw [List.getElem?_append_left (List.getElem?_eq_some_iff.mp this).1, this]
    · obtain rfl : l = n := by omega
      rw [List.getElem?_append_right (by unfold below; exact Nat.le_refl _)]
      simp [below, hl]

/-! ### Keys of a track -/

section
variable {α K : Type} [RatioOps α]

theorem keys_increasing (O : RatioOrder α) {lo hi : α} {real T N : Nat} {time : Nat → α} {pred track : Nat → Nat}
    (h : KeyOrder lo hi real T N time pred track) : ∀ k m, m < k → k < N → track m = track k → time m < time k := by
  intro k
  induction k using Nat.strongRecOn with
  | _ k ih =>
    intro m hm hk ht
    rcases Nat.lt_or_ge k T with hT | hT
    · rw [h.first k hT, h.first m (by omega)] at ht; omega
    · have hp := h.predLt k hT hk
      have hi := h.increasing k hT hk
      have hmp : m ≤ pred k := by
        by_contra hc
        exact h.predLast k m hT hk (by omega) hm ht
      rcases Nat.lt_or_ge m (pred k) with h1 | h1
      · have h2 := ih (pred k) hp m h1 (by omega) (by rw [ht, h.predTrack k hT hk])
        rw [O.lt_iff] at h2 hi ⊢
        refine ⟨h2.1, hi.2.1, fun hc => ?_⟩
        have h3 : time (pred k) ≤ time k := (O.total _ _ hi.1 hi.2.1).resolve_right hi.2.2
        exact h2.2.2 (O.trans _ _ _ h3 hc)
      · obtain rfl : m = pred k := by omega
        exact hi

theorem trackKeys_increasing (O : RatioOrder α) {lo hi : α} {real T : Nat} {ch : Chan α K} {time : Nat → α} {pred track : Nat → Nat}
    (h : KeyOrder lo hi real T ch.previouses.length time pred track) (t : Nat) :
    (trackKeys ch time track t).Pairwise fun x y => x.1 < y.1 := by
  unfold trackKeys
  rw [List.pairwise_map]
  refine (List.pairwise_lt_range.filter _).imp_of_mem ?_
  intro m k hm hk hlt
  rw [List.mem_filter, List.mem_range, decide_eq_true_eq] at hm hk
  exact keys_increasing O h k m hlt hk.1 (by rw [hm.2, hk.2])

/-- A pair of neighbours in a list of keys that brackets the ratio. -/
def Neighbours (s : List (α × Option K)) (r : α) (x y : α × Option K) (i : Nat) : Prop :=
  s[i]? = some x ∧ s[i + 1]? = some y ∧ x.1 ≤ r ∧ (r < y.1 ∨ s.length = i + 2)

theorem bracket_neighbours {T : Nat} {ch : Chan α K} {time : Nat → α} {track : Nat → Nat} {t l k : Nat} {r : α}
    (b : Bracket T ch.previouses.length time track t r l k) :
    ∃ i, Neighbours (trackKeys ch time track t) r (time l, ch.keys[l]?) (time k, ch.keys[k]?) i := by
  let p : Nat → Bool := fun k => track k = t
  have hl : p l = true := decide_eq_true b.leftTrack
  have hk : p k = true := decide_eq_true b.rightTrack
  have hlk := b.lt
  have hkN := b.rightLt
  have e : below p k = below p l + 1 := by
    have h1 := below_gap p (l + 1) (k - (l + 1)) (fun m h1 h2 => decide_eq_false (b.consecutive m (by omega) (by omega)))
    rw [show l + 1 + (k - (l + 1)) = k by omega, below_succ, hl] at h1
    simpa using h1
  refine ⟨below p l, ?_, ?_, b.leftLe, ?_⟩
  · unfold trackKeys
    rw [List.getElem?_map, filter_range_get p l hl _ (by omega)]
    rfl
  · unfold trackKeys
    rw [List.getElem?_map, ← e, filter_range_get p k hk _ hkN]
    rfl
  · rcases b.rightGt with h | h
    · exact .inl h
    · right
      have h1 := below_gap p (k + 1) (ch.previouses.length - (k + 1)) (fun m h1 h2 => decide_eq_false (h m (by omega) (by omega)))
      rw [show k + 1 + (ch.previouses.length - (k + 1)) = ch.previouses.length by omega, below_succ, hk, e] at h1
      unfold trackKeys
      rw [List.length_map]
      simpa [below] using h1

theorem neighbours_le (O : RatioOrder α) {s : List (α × Option K)} (hs : s.Pairwise fun x y => x.1 < y.1) {r : α}
    {x y x' y' : α × Option K} {i i' : Nat} (h : Neighbours s r x y i) (h' : Neighbours s r x' y' i') : i' ≤ i := by
  by_contra hc
  obtain ⟨-, h2, -, h4⟩ := h
  obtain ⟨g1, g2, g3, -⟩ := h'
  have hlen := (List.getElem?_eq_some_iff.mp g2).1
  have hy : r < y.1 := h4.resolve_right (by omega)
  rw [O.lt_iff] at hy
  obtain ⟨j2, e2⟩ := List.getElem?_eq_some_iff.mp h2
  obtain ⟨j1, e1⟩ := List.getElem?_eq_some_iff.mp g1
  rcases Nat.lt_or_ge (i + 1) i' with hlt | hge
  · have h5 := List.pairwise_iff_getElem.mp hs (i + 1) i' j2 j1 hlt
    rw [e1, e2, O.lt_iff] at h5
    have h6 : y.1 ≤ x'.1 := (O.total _ _ h5.1 h5.2.1).resolve_right h5.2.2
    exact hy.2.2 (O.trans _ _ _ h6 g3)
  · obtain rfl : i' = i + 1 := by omega
    rw [g1] at h2
    cases h2
    exact hy.2.2 g3

theorem bracket_same (O : RatioOrder α) {lo hi : α} {real T T' : Nat} {ch ch' : Chan α K} {time time' : Nat → α}
    {pred track track' : Nat → Nat} {t t' l k l' k' : Nat} {r : α}
    (h : KeyOrder lo hi real T ch.previouses.length time pred track)
    (hs : trackKeys ch time track t = trackKeys ch' time' track' t')
    (b : Bracket T ch.previouses.length time track t r l k) (b' : Bracket T' ch'.previouses.length time' track' t' r l' k') :
    time l = time' l' ∧ time k = time' k' ∧ ch.keys[l]? = ch'.keys[l']? ∧ ch.keys[k]? = ch'.keys[k']? := by
  obtain ⟨i, n⟩ := bracket_neighbours b
  obtain ⟨i', n'⟩ := bracket_neighbours b'
  rw [← hs] at n'
  have inc := trackKeys_increasing O h t
  obtain rfl : i = i' := Nat.le_antisymm (neighbours_le O inc n' n) (neighbours_le O inc n n')
  have e1 := n.1.symm.trans n'.1
  have e2 := n.2.1.symm.trans n'.2.1
  simp only [Option.some.injEq, Prod.mk.injEq] at e1 e2
  exact ⟨e1.1, e2.1, e1.2, e2.2⟩

variable [Mul α] [Neg α] [NumOps α]

theorem lerp_same (O : RatioOrder α) {lo hi : α} {real T : Nat} {tps : List α} {ch : Chan α K} {real' T' : Nat} {tps' : List α}
    {ch' : Chan α K} {val : K → Fin 3 → α} {i i' : Nat} {j j' : Fin 4} {r : α} {v v' : Interp α (SoaVec3 α)}
    (hs : SameTrack lo hi real T tps ch (4 * i + j) real' T' tps' ch' (4 * i' + j'))
    (h : ChanSample lo hi real T tps ch (lanes3 val) i r v) (h' : ChanSample lo hi real' T' tps' ch' (lanes3 val) i' r v') (x : Fin 3) :
    comp3 (SoaVec3.lerp v.value0 v.value1 (keyFraction v r)) j x = comp3 (SoaVec3.lerp v'.value0 v'.value1 (keyFraction v' r)) j' x := by
  obtain ⟨time, pred, track, time', pred', track', c, c', hk⟩ := hs
  obtain ⟨_, _, _, d, s⟩ := h
  obtain ⟨_, _, _, d', s'⟩ := h'
  obtain ⟨l, k, b, e⟩ := lerp_comp (soaBracket_congr d c s) j x
  obtain ⟨l', k', b', e'⟩ := lerp_comp (soaBracket_congr d' c' s') j' x
  obtain ⟨e1, e2, e3, e4⟩ := bracket_same O c.order hk b b'
  rw [e, e']
  unfold keyValue
  rw [e1, e2, e3, e4]

theorem lerpQ_same (O : RatioOrder α) {lo hi : α} {real T : Nat} {tps : List α} {ch : Chan α K} {real' T' : Nat} {tps' : List α}
    {ch' : Chan α K} {val : K → Fin 4 → α} {i i' : Nat} {j j' : Fin 4} {r : α} {v v' : Interp α (SoaQuat α)}
    (hs : SameTrack lo hi real T tps ch (4 * i + j) real' T' tps' ch' (4 * i' + j'))
    (h : ChanSample lo hi real T tps ch (lanesQ val) i r v) (h' : ChanSample lo hi real' T' tps' ch' (lanesQ val) i' r v') (x : Fin 4) :
    compQ (SoaQuat.nlerp v.value0 v.value1 (keyFraction v r)) j x = compQ (SoaQuat.nlerp v'.value0 v'.value1 (keyFraction v' r)) j' x := by
  obtain ⟨time, pred, track, time', pred', track', c, c', hk⟩ := hs
  obtain ⟨_, _, _, d, s⟩ := h
  obtain ⟨_, _, _, d', s'⟩ := h'
  obtain ⟨l, k, b, e⟩ := lerpQ_comp (soaBracket_congr d c s) j
  obtain ⟨l', k', b', e'⟩ := lerpQ_comp (soaBracket_congr d' c' s') j'
  obtain ⟨e1, e2, e3, e4⟩ := bracket_same O c.order hk b b'
  have key : ∀ x, lerpQ v.value0 v.value1 (keyFraction v r) j x = lerpQ v'.value0 v'.value1 (keyFraction v' r) j' x := by
    intro x
    rw [e, e']
    unfold keyValue
    rw [e1, e2, e3, e4]
  rw [nlerp_comp, nlerp_comp, key, key, key, key, key]

theorem sampled_same (O : RatioOrder α) {K3 KQ : Type} {lo hi : α} {a a' : Animation α K3 KQ} {v3 : K3 → Fin 3 → α} {vq : KQ → Fin 4 → α}
    {t t' : Nat} {r : α} (hs : SameTracks lo hi a a' t t') {o o' : SoaTransform α}
    (h : Sampled (jobNumerics v3 vq) lo hi a r (t / 4) o) (h' : Sampled (jobNumerics v3 vq) lo hi a' r (t' / 4) o') :
    SameLane o (laneIn t) o' (laneIn t') := by
  obtain ⟨vt, vr, vs, h1, h2, h3, rfl⟩ := h
  obtain ⟨vt', vr', vs', g1, g2, g3, rfl⟩ := h'
  have e : ∀ t, 4 * (t / 4) + (laneIn t).1 = t := fun t => Nat.div_add_mod t 4
  have a1 := fun x => lerp_same O (j := laneIn t) (j' := laneIn t') (by rw [e, e]; exact hs.translations) h1 g1 x
  have a2 := fun x => lerpQ_same O (j := laneIn t) (j' := laneIn t') (by rw [e, e]; exact hs.rotations) h2 g2 x
  have a3 := fun x => lerp_same O (j := laneIn t) (j' := laneIn t') (by rw [e, e]; exact hs.scales) h3 g3 x
  exact ⟨a1 0, a1 1, a1 2, a2 0, a2 1, a2 2, a2 3, a3 0, a3 1, a3 2⟩

end

end Ozz.Sampling
