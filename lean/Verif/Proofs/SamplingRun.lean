import Verif.Proofs.SamplingCache
import Verif.Props.GV4

/-! The whole sampling step: initialisation, update, decompression, interpolation. -/

set_option linter.unusedSectionVars false
set_option linter.unusedVariables false

namespace Ozz.Sampling

open Spec

variable {α K V : Type} [RatioOps α]

/-! ### `outdate_cache` -/

theorem outdateLoop_ok (flags : Nat) : ∀ (m i : Nat) (o : List (BitVec 8)),
    flags - 1 - i = m → flags ≤ o.length → i ≤ flags - 1 →
    ∃ o', outdateLoop flags o i = .ok (o', flags - 1) ∧ o'.length = o.length ∧
      (∀ k, i ≤ k → k < flags - 1 → o'[k]? = some 0xFF#8) ∧
      (∀ k, k < i → o'[k]? = o[k]?) := by
  intro m
  induction m with
  | zero =>
    intro i o hm hl hi
    rw [outdateLoop, if_neg (by omega)]
    obtain rfl : i = flags - 1 := by omega
    exact ⟨o, rfl, rfl, fun k h1 h2 => by omega, fun _ _ => rfl⟩
  | succ m ih =>
    intro i o hm hl hi
    rw [outdateLoop, if_pos (by omega)]
    have hlt : i < o.length := by omega
    simp only [setIdx_of_lt hlt, bind, Except.bind]
    obtain ⟨o', h1, h2, h3, h4⟩ := ih (i + 1) (o.set i 0xFF#8) (by omega) (by simpa using hl)
      (by omega)
    refine ⟨o', h1, by simpa using h2, ?_, ?_⟩
    · intro k hk1 hk2
      rcases Nat.lt_or_ge i k with h | h
      · exact h3 k (by omega) hk2
      · obtain rfl : k = i := by omega
        rw [h4 k (by omega), List.getElem?_set_self hlt]
    · intro k hk
      rw [h4 k (by omega), List.getElem?_set_ne (by omega)]

theorem getLsbD_ff_shift (s b : Nat) (hb : b < 8) :
    (0xFF#8 >>> s).getLsbD b = decide (s + b < 8) := by
  rw [BitVec.getLsbD_ushiftRight]
  have : (0xFF#8 : BitVec 8) = BitVec.allOnes 8 := by decide
  rw [this, BitVec.getLsbD_allOnes]

theorem outdateCache_ok {o : List (BitVec 8)} {soa : Nat} (hs : 0 < soa)
    (hl : o.length = (soa + 7) / 8) :
    ∃ o', outdateCache o soa = .ok o' ∧ o'.length = o.length ∧
      ∀ i, flagAt o' i = decide (i < soa) := by
  obtain ⟨o1, h1, h2, h3, h4⟩ := outdateLoop_ok ((soa + 7) / 8) _ 0 o rfl (by omega) (by omega)
  have hlt : (soa + 7) / 8 - 1 < o1.length := by omega
  refine ⟨o1.set ((soa + 7) / 8 - 1) (0xFF#8 >>> ((soa + 7) / 8 * 8 - soa)), ?_, by simpa using h2, ?_⟩
  · simp only [outdateCache, subU, show 1 ≤ (soa + 7) / 8 by omega, ↓reduceIte, h1, bind, Except.bind,
      setIdx_of_lt hlt]
  · intro i
    unfold flagAt
    by_cases hi : i / 8 = (soa + 7) / 8 - 1
    · rw [hi, List.getElem?_set_self hlt]
      simp only [Option.map_some, Option.getD_some]
      rw [getLsbD_ff_shift _ _ (by omega)]
      simp; omega
    · rw [List.getElem?_set_ne (by omega)]
      rcases Nat.lt_or_ge (i / 8) ((soa + 7) / 8 - 1) with hlt' | hge
      · rw [h3 (i / 8) (by omega) hlt']
        simp only [Option.map_some, Option.getD_some]
        have : (0xFF#8 : BitVec 8) = BitVec.allOnes 8 := by decide
        rw [this, BitVec.getLsbD_allOnes]
        simp; omega
      · rw [List.getElem?_eq_none (by omega)]
        simp; omega

section
variable {lo hi : α} {real T : Nat} {tps : List α} {ch : Chan α K} {time : Nat → α}
  {pred track : Nat → Nat} {dec : K → K → K → K → V} {soa : Nat} {r : α}

/-! ### `initialize_cache` -/

theorem initializeCache_zero (h : ChanOk lo hi real T tps ch time pred track) :
    ∃ es, initializeCache ch 0 T = .ok (es, 2 * T) ∧ EntriesAt track T (2 * T) es := by
  refine ⟨(List.range T).map (fun i => i + T), ?_, by simp, ?_⟩
  · simp [initializeCache, pure, Except.pure, Nat.mul_comm]
  · intro t ht
    have ht' : t < T := by simpa using ht
    simp only [List.getElem_map, List.getElem_range]
    refine ⟨by omega, by rw [Nat.add_comm]; exact h.order.second t ht', ?_⟩
    intro m h1 h2
    have := h.order.second (m - T) (by omega)
    rw [show T + (m - T) = m by omega] at this
    omega

theorem initializeCache_frame (h : ChanOk lo hi real T tps ch time pred track) (hT4 : T % 4 = 0)
    {f : Nat} (hf : 2 * f + 1 < ch.iframeDesc.length) :
    ∃ es n, initializeCache ch (f + 1) T = .ok (es, n) ∧ 2 * T ≤ n ∧ n ≤ ch.previouses.length ∧
      EntriesAt track T n es := by
  obtain ⟨offset, d, es, rest, h1, h2, h3, h4, h5, h6, h7, h8⟩ := h.iframes.frame f hf
  have hsmall := h.small
  refine ⟨es, d + 1, ?_, h5, by omega, h7, h8⟩
  have hdec := Props.C14_gv4_round_trip ch.after es rest (by omega) (by
    intro x hx
    obtain ⟨t, ht, rfl⟩ := List.getElem_of_mem hx
    have := (h8 t ht).1
    omega)
  rw [h7] at hdec
  simp only [initializeCache, Nat.add_sub_cancel, Nat.zero_lt_succ, ↓reduceIte,
    show f * 2 = 2 * f by omega, getIdx_of_some h1, getIdx_of_some h2, bind, Except.bind, sliceFrom, h3,
    h4, hdec, show d + 1 < 2^32 by omega]
  simp [pure, Except.pure]

/-- The cursor is where it must be for ratio `r`. -/
structure Cursor (ch : Chan α K) (time : Nat → α) (pred : Nat → Nat) (r : α) (n : Nat) : Prop where
  after : n < ch.previouses.length → r < time (pred n)
  before : time (pred (n - 1)) ≤ r

theorem updateCache_ok (O : RatioOrder α) (h : ChanOk lo hi real T tps ch time pred track)
    (hT : T = 4 * soa) (hsoa : 0 < soa) (hreal : 0 < real) (hr1 : lo ≤ r) (hr2 : r ≤ hi) (prev : α)
    (c : Cache α V) (hel : c.entries.length = T) (hfl : c.outdated.length = (soa + 7) / 8)
    (hc : c.next = 0 ∨ Good tps ch dec track T soa c.next c.entries c.outdated c.values) :
    ∃ c', updateCache real soa tps ch r prev c = .ok c' ∧ c'.values = c.values ∧
      Good tps ch dec track T soa c'.next c'.entries c'.outdated c'.values ∧
      Cursor ch time pred r c'.next := by
  have htwo := h.order.two
  have hrl := h.order.realLe
  have hnext : c.next = 0 ∨ (c.next ≥ real * 2 ∧ c.next ≤ ch.previouses.length) := by
    rcases hc with h' | h'
    · exact .inl h'
    · exact .inr ⟨by have := h'.low; omega, h'.high⟩
  -- after the initialisation step
  have hinit : ∃ n es o,
      resetCache real soa ch (chooseIframe ch c.next r prev) c
        = .ok (n, es, o) ∧ Good tps ch dec track T soa n es o c.values := by
    unfold resetCache
    by_cases hi0 : chooseIframe ch c.next r prev ≥ 0
    · rw [if_pos hi0]
      have hframe : ∃ es n, initializeCache ch (chooseIframe ch c.next r prev).toNat T = .ok (es, n) ∧
          2 * T ≤ n ∧ n ≤ ch.previouses.length ∧ EntriesAt track T n es := by
        cases hf : (chooseIframe ch c.next r prev).toNat with
        | zero =>
          obtain ⟨es, he, hee⟩ := initializeCache_zero h
          exact ⟨es, 2 * T, he, by omega, htwo, hee⟩
        | succ f =>
          refine initializeCache_frame h (by omega) (f := f) ?_
          unfold chooseIframe at hf
          simp only at hf
          split at hf
          · split at hf
            · rename_i hne
              have := (h.iframes.inRange hne r hr1 hr2).2
              omega
            · split at hf <;> simp at hf
          · simp at hf
      obtain ⟨es, n, he, hn1, hn2, hee⟩ := hframe
      obtain ⟨o', ho, hol, hof⟩ := outdateCache_ok hsoa hfl
      refine ⟨n, es, o', ?_, hn1, hn2, hee, by rw [hol, hfl], ?_, ?_⟩
      · rw [hel, he]
        simp only [bind, Except.bind, assertB, show (n ≥ real * 2 ∧ n ≤ ch.previouses.length) from
          ⟨by omega, hn2⟩, and_self, decide_true, ↓reduceIte, ho, pure, Except.pure]
      · intro i hi; rw [hof]; simp; omega
      · intro i hi; left; rw [hof]; simp [hi]
    · rw [if_neg hi0]
      refine ⟨c.next, c.entries, c.outdated, rfl, ?_⟩
      rcases hc with h' | h'
      · exfalso
        apply hi0
        unfold chooseIframe
        simp only [h', true_or, ↓reduceIte]
        split
        · rename_i hne
          exact (h.iframes.inRange hne r hr1 hr2).1
        · omega
      · exact h'
  obtain ⟨n, es, o, hstep, hg⟩ := hinit
  obtain ⟨n1, t1, es1, o1, hf1, ht1, hg1, hx1⟩ := forwardLoop_ok (r := r) O h hT hr1 _ n 0 es o rfl hreal hg
  obtain ⟨n2, t2, es2, o2, hf2, hg2, hx2, hb2⟩ := rewindLoop_ok O h hT hsoa hr1 n1 t1 es1 o1 ht1 hg1 hx1
  refine ⟨{ c with entries := es2, outdated := o2, next := n2 }, ?_, rfl, hg2, ⟨hx2, hb2⟩⟩
  have hn2 : n2 ≥ real * 2 ∧ n2 ≤ ch.previouses.length := ⟨by have := hg2.low; omega, hg2.high⟩
  unfold updateCache
  simp only [assertB, show ch.previouses.length ≥ real * 2 by omega, decide_true, ↓reduceIte, hnext,
    bind, Except.bind, hstep, hf1, hf2, hn2, and_self, decide_true, ↓reduceIte, pure, Except.pure]

/-! ### Loading keys -/

/-- The data of SoA element `i` for entries at cursor `n`. -/
theorem loadSoa_ok (h : ChanOk lo hi real T tps ch time pred track) {n : Nat} {entries : List Nat}
    (hn : 2 * T ≤ n) (hN : n ≤ ch.previouses.length) (he : EntriesAt track T n entries)
    (dec : K → K → K → K → V) {i : Nat} (hi : 4 * i + 3 < T) :
    ∃ v, loadSoa tps ch dec entries i = .ok v ∧
      ∃ k : Fin 4 → Nat, ∃ kl kr : Fin 4 → K,
        (∀ j : Fin 4, entries[4 * i + j]? = some (k j)) ∧
        (∀ j, ch.keys[pred (k j)]? = some (kl j)) ∧ (∀ j, ch.keys[k j]? = some (kr j)) ∧
        (∀ j, v.ratio0 j = time (pred (k j))) ∧ (∀ j, v.ratio1 j = time (k j)) ∧
        v.value0 = dec (kl 0) (kl 1) (kl 2) (kl 3) ∧ v.value1 = dec (kr 0) (kr 1) (kr 2) (kr 3) := by
  have hlen := he.1
  have hb : ∀ j : Fin 4, 4 * i + j < entries.length := by intro j; omega
  let k : Fin 4 → Nat := fun j => entries[4 * i + j]'(hb j)
  have hlb : ∀ j : Fin 4, LastBefore track n (4 * i + j) (k j) := fun j => he.2 _ (hb j)
  have hkN : ∀ j, k j < ch.previouses.length := fun j => by have := (hlb j).1; omega
  have hkT : ∀ j : Fin 4, T ≤ k j := fun j => by
    have := lastBefore_ge h.order hn (by omega) (hlb j); omega
  have hpN : ∀ j, pred (k j) < ch.previouses.length := fun j => by
    have := h.order.predLt _ (hkT j) (hkN j); have := hkN j; omega
  have hkl : ∀ j, pred (k j) < ch.keys.length := fun j => by rw [h.keysLen]; exact hpN j
  have hkr : ∀ j, k j < ch.keys.length := fun j => by rw [h.keysLen]; exact hkN j
  have he' : ∀ j : Fin 4, entries[4 * i + j]? = some (k j) := fun j => List.getElem?_eq_getElem (hb j)
  have e0 : entries[i * 4]? = some (k 0) := by rw [Nat.mul_comm]; exact he' 0
  have e1 : entries[i * 4 + 1]? = some (k 1) := by rw [Nat.mul_comm]; exact he' 1
  have e2 : entries[i * 4 + 2]? = some (k 2) := by rw [Nat.mul_comm]; exact he' 2
  have e3 : entries[i * 4 + 3]? = some (k 3) := by rw [Nat.mul_comm]; exact he' 3
  refine ⟨⟨loadSoa.vec4 (time (pred (k 0))) (time (pred (k 1)))
        (time (pred (k 2))) (time (pred (k 3))),
      loadSoa.vec4 (time (k 0)) (time (k 1)) (time (k 2)) (time (k 3)),
      dec (ch.keys[pred (k 0)]'(hkl 0)) (ch.keys[pred (k 1)]'(hkl 1))
        (ch.keys[pred (k 2)]'(hkl 2)) (ch.keys[pred (k 3)]'(hkl 3)),
      dec (ch.keys[k 0]'(hkr 0)) (ch.keys[k 1]'(hkr 1)) (ch.keys[k 2]'(hkr 2)) (ch.keys[k 3]'(hkr 3))⟩, ?_,
    k, fun j => ch.keys[pred (k j)]'(hkl j), fun j => ch.keys[k j]'(hkr j), he',
    fun j => List.getElem?_eq_getElem (hkl j), fun j => List.getElem?_eq_getElem (hkr j), ?_⟩
  · simp only [loadSoa, getIdx_of_some e0, getIdx_of_some e1, getIdx_of_some e2, getIdx_of_some e3,
      bind, Except.bind, prevKey_eq h (hkT 0) (hkN 0), prevKey_eq h (hkT 1) (hkN 1),
      prevKey_eq h (hkT 2) (hkN 2), prevKey_eq h (hkT 3) (hkN 3),
      keyRatio_eq h (hkN 0), keyRatio_eq h (hkN 1), keyRatio_eq h (hkN 2), keyRatio_eq h (hkN 3),
      keyRatio_eq h (hpN 0), keyRatio_eq h (hpN 1), keyRatio_eq h (hpN 2), keyRatio_eq h (hpN 3),
      getIdx_of_some (List.getElem?_eq_getElem (hkl 0)), getIdx_of_some (List.getElem?_eq_getElem (hkl 1)),
      getIdx_of_some (List.getElem?_eq_getElem (hkl 2)), getIdx_of_some (List.getElem?_eq_getElem (hkl 3)),
      getIdx_of_some (List.getElem?_eq_getElem (hkr 0)), getIdx_of_some (List.getElem?_eq_getElem (hkr 1)),
      getIdx_of_some (List.getElem?_eq_getElem (hkr 2)), getIdx_of_some (List.getElem?_eq_getElem (hkr 3)),
      pure, Except.pure]
  · refine ⟨?_, ?_, rfl, rfl⟩
    · intro j; match j with | 0 => rfl | 1 => rfl | 2 => rfl | 3 => rfl
    · intro j; match j with | 0 => rfl | 1 => rfl | 2 => rfl | 3 => rfl

/-- Entries at the right cursor are bracketing keys. -/
theorem bracket_of_cursor (O : RatioOrder α) (h : ChanOk lo hi real T tps ch time pred track)
    {n : Nat} (hn : 2 * T ≤ n) (hN : n ≤ ch.previouses.length) (hc : Cursor ch time pred r n)
    {t k : Nat} (ht : t < T) (hk : LastBefore track n t k) :
    Bracket T ch.previouses.length time track t r (pred k) k := by
  have hkT : T ≤ k := by have := lastBefore_ge h.order hn ht hk; omega
  have hkN : k < ch.previouses.length := by have := hk.1; omega
  have hord := h.order
  refine ⟨by rw [hord.predTrack k hkT hkN]; exact hk.2.1, hk.2.1, hord.predLt k hkT hkN, hkN, ?_, ?_, ?_⟩
  · intro m h1 h2
    rw [← hk.2.1]; exact hord.predLast k m hkT hkN h1 h2
  · have := hk.1
    exact O.trans _ _ _ (hord.sorted k (n - 1) hkT (by omega) (by omega)) hc.before
  · by_cases hlast : ∀ m, k < m → m < ch.previouses.length → track m ≠ t
    · exact .inr hlast
    · left
      -- the next key of the track is at or after the cursor and its predecessor is `k`
      have : ∃ m, k < m ∧ m < ch.previouses.length ∧ track m = t ∧ ∀ m', k < m' → m' < m → track m' ≠ t := by
        have hex : ∃ m, k < m ∧ m < ch.previouses.length ∧ track m = t := by
          refine Classical.byContradiction fun hne => hlast fun m h1 h2 h3 => hne ⟨m, h1, h2, h3⟩
        obtain ⟨m, hm⟩ := hex
        induction m using Nat.strongRecOn with
        | _ m ih =>
          by_cases hmin : ∀ m', k < m' → m' < m → track m' ≠ t
          · exact ⟨m, hm.1, hm.2.1, hm.2.2, hmin⟩
          · have : ∃ m', k < m' ∧ m' < m ∧ track m' = t := by
              refine Classical.byContradiction fun hne => hmin fun m' h1 h2 h3 => hne ⟨m', h1, h2, h3⟩
            obtain ⟨m', h1, h2, h3⟩ := this
            exact ih m' h2 ⟨h1, by omega, h3⟩
      obtain ⟨m, h1, h2, h3, h4⟩ := this
      have hmn : n ≤ m := by
        rcases Nat.lt_or_ge m n with h' | h'
        · exact absurd h3 (hk.2.2 m h1 h')
        · exact h'
      have hpm : pred m = k := by
        have hp1 := hord.predLt m (by omega) h2
        have hp2 := hord.predTrack m (by omega) h2
        rw [h3] at hp2
        rcases Nat.lt_trichotomy (pred m) k with h' | h' | h'
        · exact absurd (by rw [hk.2.1, h3]) (hord.predLast m k (by omega) h2 h' h1)
        · exact h'
        · exact absurd hp2 (h4 _ h' hp1)
      have hlt := hc.after (by omega)
      have hle := hord.sorted n m (by omega) hmn h2
      rw [hpm] at hle
      rw [O.lt_iff] at hlt ⊢
      exact ⟨hlt.1, time_num O hord hkN, fun hcon => hlt.2.2 (O.trans _ _ _ hle hcon)⟩

/-- Bracketing keys are unique. -/
theorem bracket_unique (O : RatioOrder α) (h : KeyOrder lo hi real T ch.previouses.length time pred track)
    {t l k l' k' : Nat} (b : Bracket T ch.previouses.length time track t r l k)
    (b' : Bracket T ch.previouses.length time track t r l' k') : l = l' ∧ k = k' := by
  -- times are non-decreasing along a track
  have hmono : ∀ m m', m ≤ m' → m' < ch.previouses.length → track m = t → track m' = t →
      time m ≤ time m' := by
    intro m m'
    induction m' using Nat.strongRecOn with
    | _ m' ih =>
      intro h1 h2 h3 h4
      by_cases heq : m = m'
      · subst heq
        exact time_num O h h2
      · have hT : T ≤ m' := by
          rcases Nat.lt_or_ge m' T with h' | h'
          · have e1 := h.first m' h'
            have e2 := h.first m (by omega)
            omega
          · exact h'
        have hp1 := h.predLt m' hT h2
        have hp2 := h.predTrack m' hT h2
        rw [h4] at hp2
        have hmp : m ≤ pred m' := by
          rcases Nat.lt_or_ge (pred m') m with h' | h'
          · exact absurd (by rw [h3, h4]) (h.predLast m' m hT h2 h' (by omega))
          · exact h'
        have h5 := ih (pred m') hp1 hmp (by omega) h3 hp2
        have h6 := h.increasing m' hT h2
        rw [O.lt_iff] at h6
        have h7 : time (pred m') ≤ time m' := by
          rcases O.total (time (pred m')) (time m') h6.1 h6.2.1 with h' | h'
          · exact h'
          · exact absurd h' h6.2.2
        exact O.trans _ _ _ h5 h7
  have key : ∀ {l k l' k' : Nat}, Bracket T ch.previouses.length time track t r l k →
      Bracket T ch.previouses.length time track t r l' k' → ¬ k < k' := by
    intro l k l' k' b b' hlt
    have hkl : k ≤ l' := by
      rcases Nat.lt_or_ge l' k with h' | h'
      · exact absurd b.rightTrack (b'.consecutive k h' hlt)
      · exact h'
    have h1 := hmono k l' hkl (by have := b'.lt; have := b'.rightLt; omega) b.rightTrack b'.leftTrack
    have h2 := O.trans _ _ _ h1 b'.leftLe
    rcases b.rightGt with h3 | h3
    · exact ((O.lt_iff _ _).mp h3).2.2 h2
    · exact h3 k' hlt b'.rightLt b'.rightTrack
  have hk : k = k' := by
    rcases Nat.lt_trichotomy k k' with h' | h' | h'
    · exact absurd h' (key b b')
    · exact h'
    · exact absurd h' (key b' b)
  subst hk
  refine ⟨?_, rfl⟩
  rcases Nat.lt_trichotomy l l' with h' | h' | h'
  · exact absurd b'.leftTrack (b.consecutive l' h' b'.lt)
  · exact h'
  · exact absurd b.leftTrack (b'.consecutive l h' b.lt)

/-! ### Decompression -/

theorem decompressByte_ok (h : ChanOk lo hi real T tps ch time pred track) {n : Nat}
    {entries : List Nat} (hn : 2 * T ≤ n) (hN : n ≤ ch.previouses.length)
    (he : EntriesAt track T n entries) (hT : T = 4 * soa) :
    ∀ (m i : Nat) (b : BitVec 8) (values : List (Interp α V)), values.length = soa →
      (∀ k, k < m → soa ≤ i + k → b.getLsbD k = false) →
      ∃ values', decompressByte tps ch dec entries m i b values = .ok values' ∧
        values'.length = soa ∧
        (∀ k, k < m → b.getLsbD k = true →
          ∃ v, values'[i + k]? = some v ∧ loadSoa tps ch dec entries (i + k) = .ok v) ∧
        (∀ x, (∀ k, k < m → b.getLsbD k = true → x ≠ i + k) → values'[x]? = values[x]?) := by
  intro m
  induction m with
  | zero =>
    intro i b values hl hz
    exact ⟨values, rfl, hl, fun k hk => by omega, fun _ _ => rfl⟩
  | succ m ih =>
    intro i b values hl hz
    have hbit : (b &&& 1#8 ≠ 0#8) ↔ b.getLsbD 0 = true := by
      constructor
      · intro hne
        refine Classical.byContradiction fun hf => hne ?_
        apply BitVec.eq_of_getLsbD_eq
        intro k hk
        simp only [BitVec.getLsbD_and, BitVec.getLsbD_zero]
        by_cases hk0 : k = 0
        · subst hk0
          simp only [Bool.not_eq_true] at hf
          rw [hf, Bool.false_and]
        · have : (1#8).getLsbD k = false := by
            simp [BitVec.getLsbD_one, hk0]
          simp [this]
      · intro ht heq
        have := congrArg (fun x : BitVec 8 => x.getLsbD 0) heq
        simp only [BitVec.getLsbD_and, ht, Bool.true_and] at this
        exact absurd this (by decide)
    have hshift : ∀ k, (b >>> 1).getLsbD k = b.getLsbD (k + 1) := by
      intro k; rw [BitVec.getLsbD_ushiftRight, Nat.add_comm]
    have hz' : ∀ k, k < m → soa ≤ i + 1 + k → (b >>> 1).getLsbD k = false := by
      intro k hk hs; rw [hshift]; exact hz (k + 1) (by omega) (by omega)
    rw [decompressByte]
    by_cases hb : b.getLsbD 0 = true
    · have hi : i < soa := by
        rcases Nat.lt_or_ge i soa with h' | h'
        · exact h'
        · have := hz 0 (by omega) (by omega); rw [hb] at this; simp at this
      obtain ⟨v, hv, _⟩ := loadSoa_ok h hn hN he dec (i := i) (by omega)
      rw [if_pos (hbit.mpr hb), hv]
      have hlt : i < values.length := by omega
      simp only [bind, Except.bind, setIdx_of_lt hlt]
      obtain ⟨values', h1, h2, h3, h4⟩ := ih (i + 1) (b >>> 1) (values.set i v) (by simpa using hl) hz'
      refine ⟨values', h1, h2, ?_, ?_⟩
      · intro k hk hbk
        cases k with
        | zero =>
          refine ⟨v, ?_, by simpa using hv⟩
          rw [Nat.add_zero, h4 i (fun k _ _ => by omega), List.getElem?_set_self hlt]
        | succ k =>
          obtain ⟨w, hw1, hw2⟩ := h3 k (by omega) (by rw [hshift]; exact hbk)
          rw [show i + 1 + k = i + (k + 1) by omega] at hw1 hw2
          exact ⟨w, hw1, hw2⟩
      · intro x hx
        rw [h4 x (fun k hk hbk => by
          have := hx (k + 1) (by omega) (by rw [← hshift]; exact hbk); omega)]
        rw [List.getElem?_set_ne]
        intro heq
        exact hx 0 (by omega) hb (by omega)
    · rw [if_neg (fun h' => hb (hbit.mp h'))]
      simp only [bind, Except.bind, pure, Except.pure]
      obtain ⟨values', h1, h2, h3, h4⟩ := ih (i + 1) (b >>> 1) values hl hz'
      refine ⟨values', h1, h2, ?_, ?_⟩
      · intro k hk hbk
        cases k with
        | zero => exact absurd hbk hb
        | succ k =>
          obtain ⟨w, hw1, hw2⟩ := h3 k (by omega) (by rw [hshift]; exact hbk)
          rw [show i + 1 + k = i + (k + 1) by omega] at hw1 hw2
          exact ⟨w, hw1, hw2⟩
      · intro x hx
        exact h4 x (fun k hk hbk => by
          have := hx (k + 1) (by omega) (by rw [← hshift]; exact hbk); omega)

theorem decompressLoop_ok (h : ChanOk lo hi real T tps ch time pred track) {n : Nat}
    {entries : List Nat} (hn : 2 * T ≤ n) (hN : n ≤ ch.previouses.length)
    (he : EntriesAt track T n entries) (hT : T = 4 * soa) :
    ∀ (bs : List (BitVec 8)) (j : Nat) (values : List (Interp α V)), values.length = soa →
      (∀ i, soa ≤ 8 * j + i → flagAt bs i = false) →
      ∃ values', decompressLoop tps ch dec entries j bs values = .ok values' ∧
        values'.length = soa ∧
        (∀ i, flagAt bs i = true →
          ∃ v, values'[8 * j + i]? = some v ∧ loadSoa tps ch dec entries (8 * j + i) = .ok v) ∧
        (∀ x, (x < 8 * j ∨ flagAt bs (x - 8 * j) = false) → values'[x]? = values[x]?) := by
  intro bs
  induction bs with
  | nil =>
    intro j values hl _
    exact ⟨values, rfl, hl, fun i hi => by simp [flagAt] at hi, fun _ _ => rfl⟩
  | cons b bs ih =>
    intro j values hl hz
    have hhead : ∀ k, k < 8 → flagAt (b :: bs) k = b.getLsbD k := by
      intro k hk
      simp [flagAt, show k / 8 = 0 by omega, show k % 8 = k by omega]
    have htail : ∀ i, flagAt (b :: bs) (8 + i) = flagAt bs i := by
      intro i
      simp [flagAt, show (8 + i) / 8 = i / 8 + 1 by omega, show (8 + i) % 8 = i % 8 by omega]
    obtain ⟨v1, h1, h2, h3, h4⟩ := decompressByte_ok (dec := dec) h hn hN he hT 8 (8 * j) b values hl
      (fun k hk hs => by rw [← hhead k hk]; exact hz k hs)
    obtain ⟨v2, g1, g2, g3, g4⟩ := ih (j + 1) v1 h2 (fun i hi => by
      rw [← htail]; exact hz (8 + i) (by omega))
    refine ⟨v2, by simp only [decompressLoop, h1, bind, Except.bind, g1], g2, ?_, ?_⟩
    · intro i hi
      rcases Nat.lt_or_ge i 8 with hlt | hge
      · obtain ⟨v, hv1, hv2⟩ := h3 i hlt (by rw [← hhead i hlt]; exact hi)
        exact ⟨v, by rw [g4 _ (.inl (by omega)), hv1], hv2⟩
      · obtain ⟨v, hv1, hv2⟩ := g3 (i - 8) (by rw [← htail, show 8 + (i - 8) = i by omega]; exact hi)
        rw [show 8 * (j + 1) + (i - 8) = 8 * j + i by omega] at hv1 hv2
        exact ⟨v, hv1, hv2⟩
    · intro x hx
      rw [g4 x ?_, h4 x ?_]
      · intro k hk hbk heq
        subst heq
        rcases hx with hx | hx
        · omega
        · rw [show 8 * j + k - 8 * j = k by omega, hhead k hk, hbk] at hx
          simp at hx
      · rcases Nat.lt_or_ge x (8 * (j + 1)) with h' | h'
        · exact .inl h'
        · right
          rcases hx with hx | hx
          · omega
          · rw [← htail, show 8 + (x - 8 * (j + 1)) = x - 8 * j by omega]; exact hx

theorem decompress_ok (h : ChanOk lo hi real T tps ch time pred track) (hT : T = 4 * soa)
    {c : Cache α V} (hv : c.values.length = soa)
    (hg : Good tps ch dec track T soa c.next c.entries c.outdated c.values) :
    ∃ c', decompress tps ch dec c = .ok c' ∧ c'.entries = c.entries ∧ c'.outdated = c.outdated ∧
      c'.next = c.next ∧ c'.values.length = soa ∧
      Good tps ch dec track T soa c'.next c'.entries c'.outdated c'.values ∧
      ∀ i, i < soa → ∃ v, c'.values[i]? = some v ∧ loadSoa tps ch dec c.entries i = .ok v := by
  obtain ⟨v', h1, h2, h3, h4⟩ := decompressLoop_ok (dec := dec) h hg.low hg.high hg.entriesAt hT
    c.outdated 0 c.values hv (fun i hi => hg.flagsHigh i (by omega))
  have hall : ∀ i, i < soa → ∃ v, v'[i]? = some v ∧ loadSoa tps ch dec c.entries i = .ok v := by
    intro i hi
    by_cases hf : flagAt c.outdated i = true
    · obtain ⟨v, hv1, hv2⟩ := h3 i hf
      simp only [Nat.mul_zero, Nat.zero_add] at hv1 hv2
      exact ⟨v, hv1, hv2⟩
    · rcases hg.current i hi with h' | ⟨v, hv1, hv2⟩
      · exact absurd h' hf
      · exact ⟨v, by rw [h4 i (.inr (by simpa using hf)), hv1], hv2⟩
  refine ⟨{ c with values := v' }, by simp only [decompress, h1, bind, Except.bind, pure, Except.pure],
    rfl, rfl, rfl, h2, ⟨hg.low, hg.high, hg.entriesAt, hg.flagsLen, hg.flagsHigh,
      fun i hi => .inr (hall i hi)⟩, hall⟩

/-- One channel, update then decompress. -/
theorem channel_ok (O : RatioOrder α) (h : ChanOk lo hi real T tps ch time pred track)
    (hT : T = 4 * soa) (hsoa : 0 < soa) (hreal : 0 < real) (hr1 : lo ≤ r) (hr2 : r ≤ hi) (prev : α)
    (c : Cache α V) (hel : c.entries.length = T) (hfl : c.outdated.length = (soa + 7) / 8)
    (hvl : c.values.length = soa)
    (hc : c.next = 0 ∨ Good tps ch dec track T soa c.next c.entries c.outdated c.values) :
    ∃ c1 c2, updateCache real soa tps ch r prev c = .ok c1 ∧ decompress tps ch dec c1 = .ok c2 ∧
      c2.entries.length = T ∧ c2.outdated.length = (soa + 7) / 8 ∧ c2.values.length = soa ∧
      Good tps ch dec track T soa c2.next c2.entries c2.outdated c2.values ∧
      ∀ i, i < soa → ∃ v, c2.values[i]? = some v ∧ SoaBracket T ch time track dec i r v := by
  obtain ⟨c1, hu, huv, hg1, hcur⟩ := updateCache_ok (dec := dec) O h hT hsoa hreal hr1 hr2 prev c hel hfl hc
  obtain ⟨c2, hd, e1, e2, e3, hl2, hg2, hall⟩ := decompress_ok (dec := dec) h hT (by rw [huv]; exact hvl) hg1
  refine ⟨c1, c2, hu, hd, hg2.entriesAt.1, hg2.flagsLen, hl2, hg2, ?_⟩
  intro i hi
  obtain ⟨v, hv1, hv2⟩ := hall i hi
  obtain ⟨v', hv', k, kl, kr, g1, g2, g3, g4, g5, g6, g7⟩ :=
    loadSoa_ok h hg1.low hg1.high hg1.entriesAt dec (i := i) (by omega)
  rw [hv2] at hv'
  simp only [Except.ok.injEq] at hv'
  subst hv'
  refine ⟨v, hv1, fun j => pred (k j), k, kl, kr, ?_, g2, g3, g4, g5, g6, g7⟩
  intro j
  have hl := hg1.entriesAt.1
  have hlt : 4 * i + (j : Nat) < c1.entries.length := by omega
  have hk : c1.entries[4 * i + (j : Nat)] = k j := by
    have := g1 j
    rw [List.getElem?_eq_getElem hlt] at this
    simpa using this
  have hlb := hg1.entriesAt.2 _ hlt
  rw [hk] at hlb
  exact bracket_of_cursor O h hg1.low hg1.high hcur (by omega) hlb

theorem soaBracket_unique (O : RatioOrder α) (h : ChanOk lo hi real T tps ch time pred track)
    {i : Nat} {v v' : Interp α V} (hv : SoaBracket T ch time track dec i r v)
    (hv' : SoaBracket T ch time track dec i r v') : v = v' := by
  obtain ⟨l, k, kl, kr, b, h1, h2, h3, h4, h5, h6⟩ := hv
  obtain ⟨l', k', kl', kr', b', h1', h2', h3', h4', h5', h6'⟩ := hv'
  have hl : l = l' := funext fun j => (bracket_unique O h.order (b j) (b' j)).1
  have hk : k = k' := funext fun j => (bracket_unique O h.order (b j) (b' j)).2
  subst hl hk
  have hkl : kl = kl' := funext fun j => by
    have := h1 j; rw [h1' j] at this; simpa using this.symm
  have hkr : kr = kr' := funext fun j => by
    have := h2 j; rw [h2' j] at this; simpa using this.symm
  subst hkl hkr
  cases v; cases v'
  simp only [Interp.mk.injEq]
  exact ⟨funext fun j => by simpa using (h3 j).trans (h3' j).symm,
    funext fun j => by simpa using (h4 j).trans (h4' j).symm,
    by simpa using h5.trans h5'.symm, by simpa using h6.trans h6'.symm⟩

end

end Ozz.Sampling
