import Verif.Model.Sampling
import Verif.Spec.GV4

/-!
What a well-formed animation is and which keys a sample must use. Only the data types of the model
are used, none of its functions.

Keys of a channel are stored in one array for all tracks: first every track's first key, then every
track's second key, then the remaining keys, sorted by the time of the key they replace (so that
playing forward reads them in order). `T` is the track count rounded up to a multiple of four
(padding tracks have exactly two keys), `N` the number of keys.
-/

namespace Ozz.Spec

/-- What is needed of ratio comparisons: on what compares with itself (in `f32`: on what is not a NaN),
`≤` is a total preorder and `<` its strict part; nothing else compares. Holds for all of `f32`, where
`-0 ≤ 0 ≤ -0` and NaNs compare with nothing (`f32Order`). -/
structure RatioOrder (α : Type) [LE α] [LT α] : Prop where
  trans : ∀ a b c : α, a ≤ b → b ≤ c → a ≤ c
  total : ∀ a b : α, a ≤ a → b ≤ b → a ≤ b ∨ b ≤ a
  lt_iff : ∀ a b : α, a < b ↔ a ≤ a ∧ b ≤ b ∧ ¬ b ≤ a
  left : ∀ a b : α, a ≤ b → a ≤ a
  right : ∀ a b : α, a ≤ b → b ≤ b

/-- Order of the keys of one channel. `track k` is the track of key `k`, `pred k` the previous key
of the same track, `time k` its ratio; ratios range from `lo` to `hi`. -/
structure KeyOrder {α : Type} [LE α] [LT α] (lo hi : α) (real T N : Nat) (time : Nat → α)
    (pred track : Nat → Nat) : Prop where
  realLe : real ≤ T
  two : 2 * T ≤ N
  first : ∀ i, i < T → track i = i
  second : ∀ i, i < T → track (T + i) = i
  later : ∀ k, 2 * T ≤ k → k < N → track k < real
  predLt : ∀ k, T ≤ k → k < N → pred k < k
  predTrack : ∀ k, T ≤ k → k < N → track (pred k) = track k
  predLast : ∀ k m, T ≤ k → k < N → pred k < m → m < k → track m ≠ track k
  start : ∀ i, i < T → time i ≤ lo
  increasing : ∀ k, T ≤ k → k < N → time (pred k) < time k
  sorted : ∀ k k', T ≤ k → k ≤ k' → k' < N → time (pred k) ≤ time (pred k')
  finish : ∀ k, T ≤ k → k < N → (∀ m, k < m → m < N → track m ≠ track k) → hi ≤ time k

/-- `k` is the last key of track `t` stored before position `n`. -/
def LastBefore (track : Nat → Nat) (n t k : Nat) : Prop :=
  k < n ∧ track k = t ∧ ∀ m, k < m → m < n → track m ≠ t

/-- Interval frames: frame `f` (from 1) stores an offset and a key index `d`; the bytes at the
offset encode, for every track, its last key up to and including `d`. The frame number computed for
any ratio is in range. -/
structure IframesOk {α K : Type} [Sampling.RatioOps α] (lo hi : α) (T N : Nat) (track : Nat → Nat)
    (ch : Sampling.Chan α K) : Prop where
  inRange : ch.iframeDesc ≠ [] → ∀ r : α, lo ≤ r → r ≤ hi →
    0 ≤ Sampling.RatioOps.toI32 (Sampling.RatioOps.half + r / ch.iframeInterval) ∧
    2 * Sampling.RatioOps.toI32 (Sampling.RatioOps.half + r / ch.iframeInterval)
      ≤ (ch.iframeDesc.length : Int)
  frame : ∀ f, 2 * f + 1 < ch.iframeDesc.length → ∃ offset d es rest,
    ch.iframeDesc[2 * f]? = some offset ∧ ch.iframeDesc[2 * f + 1]? = some d ∧
    offset ≤ ch.iframeEntries.length ∧
    ch.iframeEntries.drop offset = gv4Encode es ++ rest ∧
    2 * T ≤ d + 1 ∧ d < N ∧ es.length = T ∧
    ∀ t (h : t < es.length), LastBefore track (d + 1) t es[t]

/-- The channel's arrays hold the key order `time`, `pred`, `track`. -/
structure ChanOk {α K : Type} [Sampling.RatioOps α] (lo hi : α) (real T : Nat) (tps : List α)
    (ch : Sampling.Chan α K) (time : Nat → α) (pred track : Nat → Nat) : Prop where
  order : KeyOrder lo hi real T ch.previouses.length time pred track
  small : ch.previouses.length < 2^32
  ratiosLen : ch.ratios.length = ch.previouses.length
  keysLen : ch.keys.length = ch.previouses.length
  times : ∀ k, k < ch.previouses.length → ∃ r, ch.ratios[k]? = some r ∧ tps[r]? = some (time k)
  prevs : ∀ k, T ≤ k → k < ch.previouses.length → ch.previouses[k]? = some (k - pred k)
  iframes : IframesOk lo hi T ch.previouses.length track ch

/-- A well-formed channel. -/
def WellFormedChan {α K : Type} [Sampling.RatioOps α] (lo hi : α) (real T : Nat) (tps : List α)
    (ch : Sampling.Chan α K) : Prop :=
  ∃ time pred track, ChanOk lo hi real T tps ch time pred track

/-- A well-formed animation over the ratio range `lo..hi`. -/
structure WellFormed {α K3 KQ : Type} [Sampling.RatioOps α] (lo hi : α)
    (a : Sampling.Animation α K3 KQ) : Prop where
  translations : WellFormedChan lo hi a.numTracks (4 * ((a.numTracks + 3) / 4)) a.timepoints
    a.translations
  rotations : WellFormedChan lo hi a.numTracks (4 * ((a.numTracks + 3) / 4)) a.timepoints
    a.rotations
  scales : WellFormedChan lo hi a.numTracks (4 * ((a.numTracks + 3) / 4)) a.timepoints
    a.scales

/-- Track `t` at ratio `r` is interpolated between keys `l` and `k` of that track, `l` immediately
before `k` among the track's keys, `l` at or before `r`, and `k` after `r` or the last key of the
track. -/
structure Bracket {α : Type} [LE α] [LT α] (T N : Nat) (time : Nat → α) (track : Nat → Nat)
    (t : Nat) (r : α) (l k : Nat) : Prop where
  leftTrack : track l = t
  rightTrack : track k = t
  lt : l < k
  rightLt : k < N
  consecutive : ∀ m, l < m → m < k → track m ≠ t
  leftLe : time l ≤ r
  rightGt : r < time k ∨ ∀ m, k < m → m < N → track m ≠ t

/-- The cached interpolation data a channel must hold for SoA element `i` at ratio `r`: the
bracketing keys of tracks `4i..4i+3`. -/
def SoaBracket {α K V : Type} [Sampling.RatioOps α] (T : Nat) (ch : Sampling.Chan α K)
    (time : Nat → α) (track : Nat → Nat) (dec : K → K → K → K → V) (i : Nat) (r : α)
    (v : Sampling.Interp α V) : Prop :=
  ∃ l k : Fin 4 → Nat, ∃ kl kr : Fin 4 → K,
    (∀ j : Fin 4, Bracket T ch.previouses.length time track (4 * i + j) r (l j) (k j)) ∧
    (∀ j, ch.keys[l j]? = some (kl j)) ∧ (∀ j, ch.keys[k j]? = some (kr j)) ∧
    (∀ j, v.ratio0 j = time (l j)) ∧ (∀ j, v.ratio1 j = time (k j)) ∧
    v.value0 = dec (kl 0) (kl 1) (kl 2) (kl 3) ∧ v.value1 = dec (kr 0) (kr 1) (kr 2) (kr 3)

end Ozz.Spec
