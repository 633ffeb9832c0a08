import Verif.Proofs.SamplingHistory

/-! A small concrete animation, used to show that the hypotheses of the sampling theorems can be met
and as a witness for claims that fail. -/

namespace Ozz.Sampling.Example

open Spec

instance : RatioOps Rat where
  zero := 0
  half := 1/2
  two := 2
  abs x := if x < 0 then -x else x
  toI32 := Rat.floor
  decLe := inferInstance
  decLt := inferInstance

theorem ratOrder : RatioOrder Rat where
  trans _ _ _ := Rat.le_trans
  total _ _ _ _ := Rat.le_total
  lt_iff a b := ⟨fun h => ⟨Rat.le_refl, Rat.le_refl, Rat.not_le.mpr h⟩, fun h => Rat.not_le.mp h.2.2⟩
  left _ _ _ := Rat.le_refl
  right _ _ _ := Rat.le_refl

/-- Linear interpolation of rational keys in the three channels. -/
def lerp (v : Interp Rat (Fin 4 → Rat)) (r : Rat) (j : Fin 4) : Rat :=
  v.value0 j + (v.value1 j - v.value0 j) * ((r - v.ratio0 j) / (v.ratio1 j - v.ratio0 j))

def numerics : Numerics Rat Rat Rat (Fin 4 → Rat) (Fin 4 → Rat) (List Rat) where
  dec3 a b c d := fun i => match i with | 0 => a | 1 => b | 2 => c | 3 => d
  decQ a b c d := fun i => match i with | 0 => a | 1 => b | 2 => c | 3 => d
  interp t q s r := [lerp t r 0, lerp t r 1, lerp t r 2, lerp t r 3,
    lerp q r 0, lerp q r 1, lerp q r 2, lerp q r 3, lerp s r 0, lerp s r 1, lerp s r 2, lerp s r 3]

/-- Two tracks (rounded up to four) and nine keys: track 1 has keys at 0, 1/2 and 1, the other
tracks at 0 and 1. Two interval frames. -/
def chan : Chan Rat Rat where
  keys := [10, 20, 0, 0, 11, 25, 0, 0, 7]
  ratios := [0, 0, 0, 0, 2, 1, 2, 2, 2]
  previouses := [0, 0, 0, 0, 4, 4, 4, 4, 3]
  iframeEntries := [0, 4, 5, 6, 7, 0, 4, 8, 6, 7]
  iframeDesc := [0, 7, 5, 8]
  iframeInterval := 1/2
  after := fun _ => 0

/-- Here track 0 has three keys; no interval frames. -/
def chan' : Chan Rat Rat where
  keys := [0, 1, 2, 3, 4, 5, 6, 7, 8]
  ratios := [0, 0, 0, 0, 1, 2, 2, 2, 2]
  previouses := [0, 0, 0, 0, 4, 4, 4, 4, 4]
  iframeEntries := []
  iframeDesc := []
  iframeInterval := 1
  after := fun _ => 0

def time (k : Nat) : Rat := [0, 0, 0, 0, 1, 1/2, 1, 1, 1].getD k 0
def pred (k : Nat) : Nat := [0, 0, 0, 0, 0, 1, 2, 3, 5].getD k 0
def track (k : Nat) : Nat := [0, 1, 2, 3, 0, 1, 2, 3, 1].getD k 0

def time' (k : Nat) : Rat := [0, 0, 0, 0, 1/2, 1, 1, 1, 1].getD k 0
def pred' (k : Nat) : Nat := [0, 0, 0, 0, 0, 1, 2, 3, 4].getD k 0
def track' (k : Nat) : Nat := [0, 1, 2, 3, 0, 1, 2, 3, 0].getD k 0

def anim : Animation Rat Rat Rat where
  numTracks := 2
  timepoints := [0, 1/2, 1]
  translations := chan
  rotations := chan'
  scales := chan

def anim' : Animation Rat Rat Rat where
  numTracks := 2
  timepoints := [0, 1/2, 1]
  translations := chan'
  rotations := chan
  scales := chan'

theorem order : KeyOrder (0 : Rat) 1 2 4 9 time pred track where
  realLe := by decide
  two := by decide
  first := by decide
  second := by decide
  later := fun k h1 h2 => (by decide : ∀ k, k < 9 → 8 ≤ k → track k < 2) k h2 h1
  predLt := fun k h1 h2 => (by decide : ∀ k, k < 9 → 4 ≤ k → pred k < k) k h2 h1
  predTrack := fun k h1 h2 => (by decide : ∀ k, k < 9 → 4 ≤ k → track (pred k) = track k) k h2 h1
  predLast := fun k m h1 h2 h3 h4 =>
    (by decide : ∀ k, k < 9 → 4 ≤ k → ∀ m, m < k → pred k < m → track m ≠ track k) k h2 h1 m h4 h3
  start := by decide +kernel
  increasing := fun k h1 h2 => (by decide +kernel : ∀ k, k < 9 → 4 ≤ k → time (pred k) < time k) k h2 h1
  sorted := fun k k' h1 h2 h3 =>
    (by decide +kernel : ∀ k', k' < 9 → ∀ k, k < k' + 1 → 4 ≤ k → time (pred k) ≤ time (pred k'))
      k' h3 k (by omega) h1
  finish := fun k h1 h2 h3 =>
    (by decide +kernel : ∀ k, k < 9 → 4 ≤ k → (∀ m, m < 9 → k < m → track m ≠ track k) → (1 : Rat) ≤ time k)
      k h2 h1 (fun m a b => h3 m b a)

theorem order' : KeyOrder (0 : Rat) 1 2 4 9 time' pred' track' where
  realLe := by decide
  two := by decide
  first := by decide
  second := by decide
  later := fun k h1 h2 => (by decide : ∀ k, k < 9 → 8 ≤ k → track' k < 2) k h2 h1
  predLt := fun k h1 h2 => (by decide : ∀ k, k < 9 → 4 ≤ k → pred' k < k) k h2 h1
  predTrack := fun k h1 h2 => (by decide : ∀ k, k < 9 → 4 ≤ k → track' (pred' k) = track' k) k h2 h1
  predLast := fun k m h1 h2 h3 h4 =>
    (by decide : ∀ k, k < 9 → 4 ≤ k → ∀ m, m < k → pred' k < m → track' m ≠ track' k) k h2 h1 m h4 h3
  start := by decide +kernel
  increasing := fun k h1 h2 => (by decide +kernel : ∀ k, k < 9 → 4 ≤ k → time' (pred' k) < time' k) k h2 h1
  sorted := fun k k' h1 h2 h3 =>
    (by decide +kernel : ∀ k', k' < 9 → ∀ k, k < k' + 1 → 4 ≤ k → time' (pred' k) ≤ time' (pred' k'))
      k' h3 k (by omega) h1
  finish := fun k h1 h2 h3 =>
    (by decide +kernel : ∀ k, k < 9 → 4 ≤ k → (∀ m, m < 9 → k < m → track' m ≠ track' k) → (1 : Rat) ≤ time' k)
      k h2 h1 (fun m a b => h3 m b a)

theorem lastBefore_dec {n t k : Nat} (h : k < n ∧ track k = t ∧ ∀ m, m < n → k < m → track m ≠ t) :
    LastBefore track n t k := ⟨h.1, h.2.1, fun m a b => h.2.2 m b a⟩

theorem lastBefore_all (es : List Nat) (n : Nat)
    (h : ∀ t, t < es.length → es.getD t 0 < n ∧ track (es.getD t 0) = t ∧
      ∀ m, m < n → es.getD t 0 < m → track m ≠ t) :
    ∀ t (h : t < es.length), LastBefore track n t es[t] := by
  intro t ht
  have := h t ht
  rw [List.getD_eq_getElem?_getD, List.getElem?_eq_getElem ht] at this
  exact lastBefore_dec this

theorem chanOk : ChanOk (0 : Rat) 1 2 4 [0, 1/2, 1] chan time pred track where
  order := order
  small := by decide
  ratiosLen := rfl
  keysLen := rfl
  times := fun k hk =>
    ⟨chan.ratios.getD k 0, (by decide +kernel : ∀ k, k < 9 → chan.ratios[k]? = some (chan.ratios.getD k 0)) k hk,
      (by decide +kernel : ∀ k, k < 9 → [(0 : Rat), 1/2, 1][chan.ratios.getD k 0]? = some (time k)) k hk⟩
  prevs := fun k h1 h2 =>
    (by decide : ∀ k, k < 9 → 4 ≤ k → chan.previouses[k]? = some (k - pred k)) k h2 h1
  iframes :=
    { inRange := by
        intro _ r h1 h2
        have e1 : Rat.floor (1/2 + 0 / (1/2)) = 0 := by decide +kernel
        have e2 : Rat.floor (1/2 + 1 / (1/2)) = 2 := by decide +kernel
        have m1 : Rat.floor (1/2 + 0 / (1/2)) ≤ Rat.floor (1/2 + r / (1/2)) :=
          Rat.floor_monotone (by grind)
        have m2 : Rat.floor (1/2 + r / (1/2)) ≤ Rat.floor (1/2 + 1 / (1/2)) :=
          Rat.floor_monotone (by grind)
        show 0 ≤ Rat.floor (1/2 + r / (1/2)) ∧ 2 * Rat.floor (1/2 + r / (1/2)) ≤ 4
        omega
      frame := by
        intro f hf
        have : f = 0 ∨ f = 1 := by simp [chan] at hf; omega
        rcases this with rfl | rfl
        · refine ⟨0, 7, [4, 5, 6, 7], [0, 4, 8, 6, 7], rfl, rfl, by decide, by decide +kernel, by decide,
            by decide, rfl, ?_⟩
          exact lastBefore_all _ _ (by decide)
        · refine ⟨5, 8, [4, 8, 6, 7], [], rfl, rfl, by decide, by decide +kernel, by decide,
            by decide, rfl, ?_⟩
          exact lastBefore_all _ _ (by decide) }

theorem chanOk' : ChanOk (0 : Rat) 1 2 4 [0, 1/2, 1] chan' time' pred' track' where
  order := order'
  small := by decide
  ratiosLen := rfl
  keysLen := rfl
  times := fun k hk =>
    ⟨chan'.ratios.getD k 0, (by decide +kernel : ∀ k, k < 9 → chan'.ratios[k]? = some (chan'.ratios.getD k 0)) k hk,
      (by decide +kernel : ∀ k, k < 9 → [(0 : Rat), 1/2, 1][chan'.ratios.getD k 0]? = some (time' k)) k hk⟩
  prevs := fun k h1 h2 =>
    (by decide : ∀ k, k < 9 → 4 ≤ k → chan'.previouses[k]? = some (k - pred' k)) k h2 h1
  iframes := ⟨fun h => absurd rfl h, fun f hf => by simp [chan'] at hf⟩

theorem wellFormed : WellFormed (0 : Rat) 1 anim :=
  ⟨⟨_, _, _, chanOk⟩, ⟨_, _, _, chanOk'⟩, ⟨_, _, _, chanOk⟩⟩

theorem wellFormed' : WellFormed (0 : Rat) 1 anim' :=
  ⟨⟨_, _, _, chanOk'⟩, ⟨_, _, _, chanOk⟩, ⟨_, _, _, chanOk'⟩⟩

/-- Two live animations. -/
def store (addr : Nat) : Option (Animation Rat Rat Rat) :=
  if addr = 100 then some anim else if addr = 200 then some anim' else none

theorem storeOk (n : Nat) (h : (n + 3) / 4 = 1) : StoreOk (0 : Rat) 1 ((n + 3) / 4) store := by
  rw [h]
  refine ⟨rfl, ?_⟩
  intro addr a ha
  unfold store at ha
  split at ha
  · simp only [Option.some.injEq] at ha; subst ha; exact .inr (.inr ⟨rfl, wellFormed⟩)
  · split at ha
    · simp only [Option.some.injEq] at ha; subst ha; exact .inr (.inr ⟨rfl, wellFormed'⟩)
    · simp at ha

/-- Some memory contents. -/
def mem : Mem Rat (Fin 4 → Rat) where
  entries := fun i => 1000 + i
  outdated := fun _ => 0xA5#8
  values := fun _ => ⟨fun _ => 0, fun _ => 0, fun _ => 0, fun _ => 0⟩

/-- A history: samples forwards and backwards of both animations, a clone, a save and load. -/
def history : List (Op Rat (Fin 4 → Rat) (Fin 4 → Rat) (List Rat)) :=
  [.sample 100 (3/4) [[]], .sample 100 (1/4) [[], []], .clone mem mem mem, .sample 200 1 [[]],
   .sample 200 0 [], .saveLoad 0 mem mem mem, .sample 100 (1/2) [[]]]

theorem historyOk : OpsOk (0 : Rat) 1 store history := by
  intro op hop
  simp only [history, List.mem_cons, List.not_mem_nil, or_false] at hop
  rcases hop with rfl | rfl | rfl | rfl | rfl | rfl | rfl
  · exact ⟨⟨_, rfl⟩, by decide +kernel, by decide +kernel⟩
  · exact ⟨⟨_, rfl⟩, by decide +kernel, by decide +kernel⟩
  · trivial
  · exact ⟨⟨_, rfl⟩, by decide +kernel, by decide +kernel⟩
  · exact ⟨⟨_, rfl⟩, by decide +kernel, by decide +kernel⟩
  · trivial
  · exact ⟨⟨_, rfl⟩, by decide +kernel, by decide +kernel⟩

end Ozz.Sampling.Example
