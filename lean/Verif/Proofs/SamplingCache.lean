import Verif.Spec.Sampling
import Verif.Proofs.GV4

/-! Invariants of the sampling cache: cursor and entries. -/

set_option linter.unusedSectionVars false
set_option linter.unusedVariables false

namespace Ozz.Sampling

open Spec

variable {α K V : Type} [RatioOps α]

theorem getIdx_of_some {β : Type} {xs : List β} {i : Nat} {x : β} (h : xs[i]? = some x) :
    getIdx xs i = .ok x := by simp [getIdx, h]

theorem setIdx_of_lt {β : Type} {xs : List β} {i : Nat} {x : β} (h : i < xs.length) :
    setIdx xs i x = .ok (xs.set i x) := by simp [setIdx, h]

section
variable {lo hi : α} {real T : Nat} {tps : List α} {ch : Chan α K} {time : Nat → α}
  {pred track : Nat → Nat}

theorem prevKey_eq (h : ChanOk lo hi real T tps ch time pred track) {k : Nat} (h1 : T ≤ k)
    (h2 : k < ch.previouses.length) : prevKey ch k = .ok (pred k) := by
  have := h.order.predLt k h1 h2
  simp only [prevKey, getIdx_of_some (h.prevs k h1 h2), bind, Except.bind, subU]
  rw [if_pos (by omega)]
  congr 1; omega

theorem keyRatio_eq (h : ChanOk lo hi real T tps ch time pred track) {k : Nat}
    (h2 : k < ch.previouses.length) : keyRatio tps ch k = .ok (time k) := by
  obtain ⟨r, hr, ht⟩ := h.times k h2
  simp only [keyRatio, getIdx_of_some hr, getIdx_of_some ht, bind, Except.bind]

end

/-! ### Track search -/

theorem scanUp_hit (cache : List Nat) (target stop t0 : Nat) (hlen : stop ≤ cache.length)
    (hc : ∀ t (h : t < cache.length), cache[t] = target ↔ t = t0) (hstop : t0 < stop) :
    ∀ n entry, t0 - entry = n → entry ≤ t0 → scanUp cache target stop entry = .ok (some t0) := by
  intro n
  induction n with
  | zero =>
    intro entry h1 h2
    obtain rfl : entry = t0 := by omega
    rw [scanUp, if_pos hstop]
    have : cache[entry]? = some target := by
      rw [List.getElem?_eq_getElem (by omega), (hc entry (by omega)).mpr rfl]
    simp [getIdx_of_some this, bind, Except.bind, pure, Except.pure]
  | succ n ih =>
    intro entry h1 h2
    rw [scanUp, if_pos (by omega)]
    have hl : entry < cache.length := by omega
    have hne : cache[entry] ≠ target := fun h => by have := (hc entry hl).mp h; omega
    simp only [getIdx_of_some (List.getElem?_eq_getElem hl), bind, Except.bind, hne, ↓reduceIte]
    exact ih (entry + 1) (by omega) (by omega)

theorem scanUp_miss (cache : List Nat) (target stop t0 : Nat) (hlen : stop ≤ cache.length)
    (hc : ∀ t (h : t < cache.length), cache[t] = target ↔ t = t0) :
    ∀ n entry, stop - entry = n → t0 < entry → scanUp cache target stop entry = .ok none := by
  intro n
  induction n with
  | zero =>
    intro entry h1 h2
    rw [scanUp, if_neg (by omega)]; rfl
  | succ n ih =>
    intro entry h1 h2
    rw [scanUp, if_pos (by omega)]
    have hl : entry < cache.length := by omega
    have hne : cache[entry] ≠ target := fun h => by have := (hc entry hl).mp h; omega
    simp only [getIdx_of_some (List.getElem?_eq_getElem hl), bind, Except.bind, hne, ↓reduceIte]
    exact ih (entry + 1) (by omega) (by omega)

theorem scanUpAssert_hit (cache : List Nat) (target stop last t0 : Nat)
    (hlen : stop ≤ cache.length)
    (hc : ∀ t (h : t < cache.length), cache[t] = target ↔ t = t0) (hstop : t0 < stop)
    (hlast : t0 < last) :
    ∀ n entry, t0 - entry = n → entry ≤ t0 →
      scanUpAssert cache target stop last entry = .ok (some t0) := by
  intro n
  induction n with
  | zero =>
    intro entry h1 h2
    obtain rfl : entry = t0 := by omega
    rw [scanUpAssert, if_pos hstop]
    have : cache[entry]? = some target := by
      rw [List.getElem?_eq_getElem (by omega), (hc entry (by omega)).mpr rfl]
    simp [getIdx_of_some this, bind, Except.bind, pure, Except.pure]
  | succ n ih =>
    intro entry h1 h2
    rw [scanUpAssert, if_pos (by omega)]
    have hl : entry < cache.length := by omega
    have hne : cache[entry] ≠ target := fun h => by have := (hc entry hl).mp h; omega
    simp only [getIdx_of_some (List.getElem?_eq_getElem hl), bind, Except.bind, hne, ↓reduceIte,
      assertB, show entry < last by omega, decide_true]
    exact ih (entry + 1) (by omega) (by omega)

theorem scanDown_hit (cache : List Nat) (target t0 : Nat)
    (hc : ∀ t (h : t < cache.length), cache[t] = target ↔ t = t0) :
    ∀ n, n ≤ cache.length → t0 < n → scanDown cache target n = .ok (some t0) := by
  intro n
  induction n with
  | zero => intros; omega
  | succ n ih =>
    intro hl h
    have hl' : n < cache.length := by omega
    by_cases hn : n = t0
    · have := (hc n hl').mpr hn
      subst hn
      simp [scanDown, getIdx_of_some (List.getElem?_eq_getElem hl'), this, bind, Except.bind, pure,
        Except.pure]
    · have hne : cache[n] ≠ target := fun h => hn ((hc n hl').mp h)
      simp only [scanDown, getIdx_of_some (List.getElem?_eq_getElem hl'), bind, Except.bind, hne,
        ↓reduceIte]
      exact ih (by omega) (by omega)

theorem scanDown_miss (cache : List Nat) (target t0 : Nat)
    (hc : ∀ t (h : t < cache.length), cache[t] = target ↔ t = t0) :
    ∀ n, n ≤ cache.length → n ≤ t0 → scanDown cache target n = .ok none := by
  intro n
  induction n with
  | zero => intros; rfl
  | succ n ih =>
    intro hl h
    have hl' : n < cache.length := by omega
    have hne : cache[n] ≠ target := fun h => by have := (hc n hl').mp h; omega
    simp only [scanDown, getIdx_of_some (List.getElem?_eq_getElem hl'), bind, Except.bind, hne,
      ↓reduceIte]
    exact ih (by omega) (by omega)

theorem scanDownAssert_hit (cache : List Nat) (target last t0 : Nat)
    (hc : ∀ t (h : t < cache.length), cache[t] = target ↔ t = t0) (hlast : last < t0) :
    ∀ n, n ≤ cache.length → t0 < n → scanDownAssert cache target last n = .ok (some t0) := by
  intro n
  induction n with
  | zero => intros; omega
  | succ n ih =>
    intro hl h
    have hl' : n < cache.length := by omega
    by_cases hn : n = t0
    · have := (hc n hl').mpr hn
      subst hn
      simp [scanDownAssert, getIdx_of_some (List.getElem?_eq_getElem hl'), this, bind, Except.bind,
        pure, Except.pure]
    · have hne : cache[n] ≠ target := fun h => hn ((hc n hl').mp h)
      simp only [scanDownAssert, getIdx_of_some (List.getElem?_eq_getElem hl'), bind, Except.bind,
        hne, ↓reduceIte, assertB, show n > last by omega, decide_true]
      exact ih (by omega) (by omega)

theorem trackForward_eq {ch : Chan α K} {cache : List Nat} {key last num t0 target : Nat}
    (hkey : key < ch.previouses.length) (hlast : last < num) (hlen : num ≤ cache.length)
    (hp : prevKey ch key = .ok target)
    (hc : ∀ t (h : t < cache.length), cache[t] = target ↔ t = t0) (ht0 : t0 < num) :
    trackForward cache ch key last num = .ok t0 := by
  simp only [trackForward, assertB, hkey, hlast, decide_true, ↓reduceIte, bind, Except.bind, hp]
  by_cases h : last ≤ t0
  · rw [scanUp_hit cache target num t0 hlen hc ht0 _ last rfl h]; rfl
  · rw [scanUp_miss cache target num t0 hlen hc _ last rfl (by omega)]
    simp only
    rw [scanUpAssert_hit cache target num last t0 hlen hc ht0 (by omega) _ 0 rfl (by omega)]
    rfl

theorem trackBackward_eq {cache : List Nat} {last num t0 target : Nat}
    (hlast : last < num) (hlen : num ≤ cache.length)
    (hc : ∀ t (h : t < cache.length), cache[t] = target ↔ t = t0) (ht0 : t0 < num) :
    trackBackward cache target last num = .ok t0 := by
  simp only [trackBackward, assertB, hlast, decide_true, ↓reduceIte, bind, Except.bind]
  by_cases h : t0 ≤ last
  · rw [scanDown_hit cache target t0 hc (last + 1) (by omega) (by omega)]; rfl
  · rw [scanDown_miss cache target t0 hc (last + 1) (by omega) (by omega)]
    simp only
    rw [scanDownAssert_hit cache target last t0 hc (by omega) num hlen ht0]
    rfl

/-! ### Entries at a cursor -/

/-- Every track's entry is its last key before the cursor `n`. -/
def EntriesAt (track : Nat → Nat) (T n : Nat) (entries : List Nat) : Prop :=
  entries.length = T ∧ ∀ t (h : t < entries.length), LastBefore track n t entries[t]

theorem lastBefore_unique {track : Nat → Nat} {n t k k' : Nat} (h : LastBefore track n t k)
    (h' : LastBefore track n t k') : k = k' := by
  rcases Nat.lt_trichotomy k k' with hlt | heq | hgt
  · exact absurd h'.2.1 (h.2.2 k' hlt h'.1)
  · exact heq
  · exact absurd h.2.1 (h'.2.2 k hgt h.1)

theorem entriesAt_unique {track : Nat → Nat} {T n : Nat} {es es' : List Nat}
    (h : EntriesAt track T n es) (h' : EntriesAt track T n es') : es = es' := by
  apply List.ext_getElem
  · rw [h.1, h'.1]
  · intro i h1 h2
    exact lastBefore_unique (h.2 i h1) (h'.2 i h2)

section
variable {lo hi : α} {real T N : Nat} {time : Nat → α} {pred track : Nat → Nat}

theorem lastBefore_ge (h : KeyOrder lo hi real T N time pred track) {n t k : Nat} (hn : 2 * T ≤ n)
    (ht : t < T) (hk : LastBefore track n t k) : T + t ≤ k := by
  rcases Nat.lt_or_ge k (T + t) with hlt | hge
  · exact absurd (h.second t ht) (hk.2.2 (T + t) hlt (by omega))
  · exact hge

/-- The predecessor of the key at the cursor is its track's current entry. -/
theorem lastBefore_pred (h : KeyOrder lo hi real T N time pred track) {n : Nat} (hn : T ≤ n)
    (hN : n < N) : LastBefore track n (track n) (pred n) :=
  ⟨h.predLt n hn hN, h.predTrack n hn hN, fun m h1 h2 => h.predLast n m hn hN h1 h2⟩

theorem entriesAt_search (_ : KeyOrder lo hi real T N time pred track) {n : Nat}
    {entries : List Nat} (he : EntriesAt track T n entries) {t0 k : Nat}
    (hk : LastBefore track n t0 k) :
    ∀ t (ht : t < entries.length), entries[t] = k ↔ t = t0 := by
  intro t ht
  constructor
  · intro heq
    have := (he.2 t ht).2.1
    rw [heq, hk.2.1] at this
    exact this.symm
  · rintro rfl
    exact lastBefore_unique (he.2 t ht) hk

theorem entriesAt_forward (h : KeyOrder lo hi real T N time pred track) {n : Nat} (hn : 2 * T ≤ n)
    (hN : n < N) {entries : List Nat} (he : EntriesAt track T n entries) :
    EntriesAt track T (n + 1) (entries.set (track n) n) := by
  refine ⟨by simp [he.1], ?_⟩
  intro t ht
  have ht' : t < entries.length := by simpa using ht
  by_cases heq : track n = t
  · subst heq
    simp only [List.getElem_set_self]
    exact ⟨by omega, rfl, fun m h1 h2 => by omega⟩
  · rw [List.getElem_set_ne heq]
    obtain ⟨h1, h2, h3⟩ := he.2 t ht'
    refine ⟨by omega, h2, ?_⟩
    intro m h4 h5
    rcases Nat.lt_or_ge m n with h6 | h6
    · exact h3 m h4 h6
    · obtain rfl : m = n := by omega
      exact heq

theorem entriesAt_backward (h : KeyOrder lo hi real T N time pred track) {n : Nat} (hn : 2 * T ≤ n)
    (hN : n < N) {entries : List Nat} (he : EntriesAt track T (n + 1) entries) :
    EntriesAt track T n (entries.set (track n) (pred n)) := by
  refine ⟨by simp [he.1], ?_⟩
  intro t ht
  have ht' : t < entries.length := by simpa using ht
  by_cases heq : track n = t
  · subst heq
    simp only [List.getElem_set_self]
    exact lastBefore_pred h (by omega) hN
  · rw [List.getElem_set_ne heq]
    obtain ⟨h1, h2, h3⟩ := he.2 t ht'
    have : entries[t] ≠ n := by
      intro h'; rw [h'] at h2; exact heq h2
    exact ⟨by omega, h2, fun m h4 h5 => h3 m h4 (by omega)⟩

theorem lastBefore_current (_ : KeyOrder lo hi real T N time pred track) {n : Nat} :
    LastBefore track (n + 1) (track n) n :=
  ⟨by omega, rfl, fun m h1 h2 => by omega⟩

end

/-! ### Outdated flags -/

/-- Flag of SoA element `i`. -/
def flagAt (outdated : List (BitVec 8)) (i : Nat) : Bool :=
  (outdated[i / 8]?.map (fun b => b.getLsbD (i % 8))).getD false

theorem markOutdated_ok {outdated : List (BitVec 8)} {t : Nat} (h : t / 32 < outdated.length) :
    ∃ o', markOutdated outdated t = .ok o' ∧ o'.length = outdated.length ∧
      ∀ i, flagAt o' i = (flagAt outdated i || decide (i = t / 4)) := by
  refine ⟨outdated.set (t / 32) (outdated[t / 32] ||| (1#8 <<< (t % 32 / 4))), ?_, by simp, ?_⟩
  · simp only [markOutdated, getIdx_of_some (List.getElem?_eq_getElem h), setIdx_of_lt h, bind,
      Except.bind]
  · intro i
    unfold flagAt
    by_cases hi : i / 8 = t / 32
    · rw [hi, List.getElem?_set_self h, List.getElem?_eq_getElem h]
      simp only [Option.map_some, Option.getD_some, BitVec.getLsbD_or]
      congr 1
      have hlt : i % 8 < 8 := by omega
      simp only [BitVec.getLsbD_shiftLeft, hlt, decide_true, Bool.true_and]
      by_cases heq : i = t / 4
      · subst heq
        have e1 : t % 32 / 4 = t / 4 % 8 := by omega
        simp [e1]
      · simp only [heq, decide_false]
        by_cases hlt2 : i % 8 < t % 32 / 4
        · simp [hlt2]
        · have : i % 8 - t % 32 / 4 ≠ 0 := by omega
          simp [hlt2]; omega
    · rw [List.getElem?_set_ne (by omega)]
      have : i ≠ t / 4 := by rintro rfl; omega
      simp [this]

/-! ### Loading one SoA element -/

theorem loadSoa_set_ne (tps : List α) (ch : Chan α K) (dec : K → K → K → K → V) (entries : List Nat)
    (t x i : Nat) (h : i ≠ t / 4) :
    loadSoa tps ch dec (entries.set t x) i = loadSoa tps ch dec entries i := by
  have hg : ∀ j, j / 4 = i → getIdx (entries.set t x) j = getIdx entries j := by
    intro j hj
    unfold getIdx
    rw [List.getElem?_set_ne (by rintro rfl; omega)]
  simp only [loadSoa, hg (i * 4) (by omega), hg (i * 4 + 1) (by omega), hg (i * 4 + 2) (by omega),
    hg (i * 4 + 3) (by omega)]

/-! ### State invariant -/

section
variable {lo hi : α} {real T : Nat} {tps : List α} {ch : Chan α K} {time : Nat → α}
  {pred track : Nat → Nat}

/-- The cache is consistent at cursor `n`: entries are the tracks' last keys before it, and every
element's value is either flagged as outdated or the one for the current entries. -/
structure Good (tps : List α) (ch : Chan α K) (dec : K → K → K → K → V) (track : Nat → Nat)
    (T soa n : Nat) (entries : List Nat) (outdated : List (BitVec 8))
    (values : List (Interp α V)) : Prop where
  low : 2 * T ≤ n
  high : n ≤ ch.previouses.length
  entriesAt : EntriesAt track T n entries
  flagsLen : outdated.length = (soa + 7) / 8
  flagsHigh : ∀ i, soa ≤ i → flagAt outdated i = false
  current : ∀ i, i < soa → flagAt outdated i = true ∨
    ∃ v, values[i]? = some v ∧ loadSoa tps ch dec entries i = .ok v

variable {dec : K → K → K → K → V} {soa : Nat} {values : List (Interp α V)} {r : α}

theorem good_change {n n' : Nat} {entries : List Nat} {outdated o' : List (BitVec 8)} {t x : Nat}
    (hg : Good tps ch dec track T soa n entries outdated values)
    (ht : t / 4 < soa) (hn : 2 * T ≤ n') (hN : n' ≤ ch.previouses.length)
    (he : EntriesAt track T n' (entries.set t x))
    (hol : o'.length = outdated.length)
    (hof : ∀ i, flagAt o' i = (flagAt outdated i || decide (i = t / 4))) :
    Good tps ch dec track T soa n' (entries.set t x) o' values := by
  refine ⟨hn, hN, he, by rw [hol, hg.flagsLen], ?_, ?_⟩
  · intro i hi
    rw [hof, hg.flagsHigh i hi]
    simp; omega
  · intro i hi
    rw [hof]
    by_cases heq : i = t / 4
    · simp [heq]
    · rw [loadSoa_set_ne tps ch dec entries t x i heq]
      rcases hg.current i hi with h | h
      · simp [h]
      · exact .inr h

/-- Key times compare with themselves. -/
theorem time_num (O : RatioOrder α) {N : Nat} (h : KeyOrder lo hi real T N time pred track) {k : Nat} (hk : k < N) :
    time k ≤ time k := by
  rcases Nat.lt_or_ge k T with h1 | h1
  · exact O.left _ _ (h.start k h1)
  · exact ((O.lt_iff _ _).mp (h.increasing k h1 hk)).2.1

theorem forwardLoop_ok (O : RatioOrder α) (h : ChanOk lo hi real T tps ch time pred track)
    (hT : T = 4 * soa) (hr : lo ≤ r) :
    ∀ (m n tr : Nat) (entries : List Nat) (outdated : List (BitVec 8)),
      ch.previouses.length - n = m → tr < real →
      Good tps ch dec track T soa n entries outdated values →
      ∃ n' tr' entries' outdated', forwardLoop tps ch real r n tr entries outdated =
          .ok (n', tr', entries', outdated') ∧ tr' < real ∧
        Good tps ch dec track T soa n' entries' outdated' values ∧
        (n' < ch.previouses.length → r < time (pred n')) := by
  intro m
  induction m with
  | zero =>
    intro n tr entries outdated hm htr hg
    refine ⟨n, tr, entries, outdated, ?_, htr, hg, fun hlt => by omega⟩
    rw [forwardLoop, if_neg (by omega)]; rfl
  | succ m ih =>
    intro n tr entries outdated hm htr hg
    have hN : n < ch.previouses.length := by omega
    have hlow := hg.low
    have hreal := h.order.realLe
    have hp := prevKey_eq h (show T ≤ n by omega) hN
    have hplt := h.order.predLt n (by omega) hN
    have hkr := keyRatio_eq h (show pred n < ch.previouses.length by omega)
    rw [forwardLoop, if_pos hN]
    simp only [bind, Except.bind, hp, hkr]
    by_cases hc : time (pred n) ≤ r
    · rw [if_pos hc]
      have ht0 := h.order.later n hlow hN
      have hlb := lastBefore_pred h.order (show T ≤ n by omega) hN
      have hlen := hg.entriesAt.1
      have hsearch := entriesAt_search h.order hg.entriesAt hlb
      rw [trackForward_eq hN htr (by omega) hp hsearch ht0]
      have hlt : track n < entries.length := by omega
      have he : entries[track n] = pred n := (hsearch _ hlt).mpr rfl
      obtain ⟨o', ho, hol, hof⟩ := markOutdated_ok (outdated := outdated) (t := track n)
        (by rw [hg.flagsLen]; omega)
      simp only [getIdx_of_some (List.getElem?_eq_getElem hlt), he, assertB, decide_true, ↓reduceIte,
        ho, setIdx_of_lt hlt]
      exact ih (n + 1) (track n) _ o' (by omega) ht0
        (good_change hg (by omega) (by omega) (by omega)
          (entriesAt_forward h.order hlow hN hg.entriesAt) hol hof)
    · rw [if_neg hc]
      exact ⟨n, tr, entries, outdated, rfl, htr, hg, fun _ => (O.lt_iff _ _).mpr
        ⟨O.right _ _ hr, time_num O h.order (by omega), hc⟩⟩

theorem rewindLoop_ok (O : RatioOrder α) (h : ChanOk lo hi real T tps ch time pred track)
    (hT : T = 4 * soa) (hsoa : 0 < soa) (hr : lo ≤ r) :
    ∀ (n tr : Nat) (entries : List Nat) (outdated : List (BitVec 8)),
      tr < real → Good tps ch dec track T soa n entries outdated values →
      (n < ch.previouses.length → r < time (pred n)) →
      ∃ n' tr' entries' outdated', rewindLoop tps ch real r n tr entries outdated =
          .ok (n', tr', entries', outdated') ∧
        Good tps ch dec track T soa n' entries' outdated' values ∧
        (n' < ch.previouses.length → r < time (pred n')) ∧ time (pred (n' - 1)) ≤ r := by
  intro n
  induction n with
  | zero => intro tr entries outdated htr hg; have := hg.low; omega
  | succ n ih =>
    intro tr entries outdated htr hg hexit
    have hlow := hg.low
    have hhigh := hg.high
    have hreal := h.order.realLe
    have hN : n < ch.previouses.length := by omega
    have hp := prevKey_eq h (show T ≤ n by omega) hN
    have hplt := h.order.predLt n (by omega) hN
    have hkr := keyRatio_eq h (show pred n < ch.previouses.length by omega)
    rw [rewindLoop]
    simp only [bind, Except.bind, hp, hkr]
    by_cases hc : r < time (pred n)
    · rw [if_pos hc]
      -- the second keys of all tracks never have to be rewound
      have hn2 : 2 * T ≤ n := by
        rcases Nat.lt_or_ge n (2 * T) with hlt | hge
        · have hpn : pred n < T := by
            have htrk : track n = n - T := by
              have := h.order.second (n - T) (by omega)
              rwa [show T + (n - T) = n by omega] at this
            rcases Nat.lt_or_ge (pred n) T with h1 | h1
            · exact h1
            · have h2 := h.order.predTrack n (by omega) hN
              have h3 := h.order.second (pred n - T) (by omega)
              rw [show T + (pred n - T) = pred n by omega, h2, htrk] at h3
              omega
          have := O.trans _ _ _ (h.order.start _ hpn) hr
          exact absurd this ((O.lt_iff _ _).mp hc).2.2
        · exact hge
      have ht0 := h.order.later n hn2 hN
      have hlb := lastBefore_current h.order (n := n)
      have hlen := hg.entriesAt.1
      have hsearch := entriesAt_search h.order hg.entriesAt hlb
      have hlt : track n < entries.length := by omega
      have he : entries[track n] = n := (hsearch _ hlt).mpr rfl
      obtain ⟨o', ho, hol, hof⟩ := markOutdated_ok (outdated := outdated) (t := track n)
        (by rw [hg.flagsLen]; omega)
      have hpge : T ≤ pred n := by
        have := lastBefore_ge h.order hn2 (by omega) (lastBefore_pred h.order (by omega) hN)
        omega
      simp only [assertB, show n + 1 > real * 2 by omega, decide_true, ↓reduceIte,
        trackBackward_eq htr (by omega) hsearch ht0, ho,
        getIdx_of_some (List.getElem?_eq_getElem hlt), he,
        getIdx_of_some (h.prevs n (by omega) hN), subU, setIdx_of_lt hlt,
        show n ≥ n - pred n + real by omega, show n - pred n ≤ n by omega,
        show n - (n - pred n) = pred n by omega]
      exact ih (track n) _ o' ht0
        (good_change hg (by omega) (by omega) (by omega)
          (entriesAt_backward h.order hn2 hN hg.entriesAt) hol hof) (fun _ => hc)
    · rw [if_neg hc]
      refine ⟨n + 1, tr, entries, outdated, rfl, hg, hexit, ?_⟩
      rw [Nat.add_sub_cancel]
      have := (O.lt_iff r (time (pred n)))
      exact Classical.byContradiction fun hn =>
        hc (this.mpr ⟨O.right _ _ hr, time_num O h.order (by omega), hn⟩)

end

end Ozz.Sampling
