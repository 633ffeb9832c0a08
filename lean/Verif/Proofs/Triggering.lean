import Verif.Spec.Triggering
import Verif.Proofs.SamplingCache
import Mathlib.Tactic.Linarith
import Mathlib.Tactic.Ring
import Mathlib.Tactic.FieldSimp
import Mathlib.Tactic.Push
import Mathlib.Tactic.LinearCombination

/-! Helper lemmas for track triggering. -/

set_option linter.unusedSectionVars false
set_option linter.unusedVariables false
set_option linter.unusedTactic false

namespace Ozz.Triggering
open Ozz.Spec

theorem getIdx_some' {α} {xs : List α} {i : Nat} {x : α} (h : xs[i]? = some x) :
    getIdx xs i = .ok x := by simp [getIdx, h]

section Det
variable {α : Type} [Add α] [Sub α] [Mul α] [Div α] [LE α] [LT α] [DecidableLE α] [DecidableLT α]
  [Zero α] [One α] [FloorOp α]

theorem Collects.det {j : Job α} {s : Iter α} {l l' : List (Edge α)} (h : Collects j s l)
    (h' : Collects j s l') : l = l' := by
  induction h generalizing l' with
  | stop hs => cases h' <;> simp_all
  | cont hs _ ih =>
    cases h' with
    | stop h2 => simp_all
    | cont h2 h3 => rw [hs] at h2; injection h2 with h2; injection h2 with h2; subst h2; exact ih h3
    | emit h2 h3 => simp_all
  | emit hs _ ih =>
    cases h' with
    | stop h2 => simp_all
    | cont h2 h3 => simp_all
    | emit h2 h3 =>
      rw [hs] at h2; injection h2 with h2; injection h2 with h2 h2'; subst h2; subst h2'
      rw [ih h3]

/-- Executable iteration with a bound on the number of loop turns, for examples. -/
def collect (j : Job α) : ℕ → Iter α → Option (List (Edge α))
  | 0, _ => none
  | n + 1, s => match step j s with
    | .ok .stop => some []
    | .ok (.cont s') => collect j n s'
    | .ok (.emit e s') => (collect j n s').map (e :: ·)
    | .error _ => none

theorem collects_of_collect {j : Job α} : ∀ {n : ℕ} {s : Iter α} {l : List (Edge α)},
    collect j n s = some l → Collects j s l := by
  intro n
  induction n with
  | zero => intro s l h; cases h
  | succ n ih =>
    intro s l h
    simp only [collect] at h
    split at h
    · rename_i hs; injection h with h; subst h; exact .stop hs
    · rename_i hs; exact .cont hs (ih h)
    · rename_i hs
      rw [Option.map_eq_some_iff] at h
      obtain ⟨l', h1, rfl⟩ := h
      exact .emit hs (ih h1)
    · cases h

/-- A forward loop counter that does not advance never stops. -/
theorem not_collects_of_stuck {j : Job α} {s : Iter α} {l : List (Edge α)} (ha : s.active = true)
    (hf : j.from_ < j.to_) (ho : s.outer < j.to_) (hst : s.outer + 1 = s.outer) :
    ¬ Collects j s l := by
  intro h
  induction h with
  | stop hs =>
    rename_i s
    simp only [step, ha, hf, ho, if_true] at hs
    split at hs
    · rename_i hh; cases hh
    · split at hs
      · simp only [stepForward, bind, Except.bind, pure, Except.pure] at hs
        repeat' split at hs
        all_goals cases hs
      · cases hs
  | cont hs _ ih =>
    rename_i s s' l _
    have : s'.active = true ∧ s'.outer = s.outer := by
      simp only [step, ha, hf, ho, if_true] at hs
      split at hs
      · cases hs
      · split at hs
        · simp only [stepForward, bind, Except.bind, pure, Except.pure] at hs
          repeat' split at hs
          all_goals first | (cases hs; done) | (cases hs; exact ⟨rfl, hst⟩) | (cases hs; exact ⟨rfl, rfl⟩) | (cases hs; exact ⟨ha, hst⟩) | (cases hs; exact ⟨ha, rfl⟩)
        · cases hs; exact ⟨rfl, hst⟩
    exact ih this.1 (by rw [this.2]; exact ho) (by rw [this.2]; exact hst)
  | emit hs _ ih =>
    rename_i s e s' l _
    have : s'.active = true ∧ s'.outer = s.outer := by
      simp only [step, ha, hf, ho, if_true] at hs
      split at hs
      · cases hs
      · split at hs
        · simp only [stepForward, bind, Except.bind, pure, Except.pure] at hs
          repeat' split at hs
          all_goals first | (cases hs; done) | (cases hs; exact ⟨ha, rfl⟩)
        · cases hs
    exact ih this.1 (by rw [this.2]; exact ho) (by rw [this.2]; exact hst)

end Det

variable {α : Type} [Field α] [LinearOrder α]

def tv (t : Track α α) (i : Nat) : α := t.values.getD i 0
def tr (t : Track α α) (i : Nat) : α := t.ratios.getD i 0
def ts (t : Track α α) (i : Nat) : Bool := ((t.steps.getD (i / 8) 0).toNat >>> (i % 8)) % 2 == 1

def pos (t : Track α α) (thr : α) (i : Nat) : α :=
  let j := before t.keyCount i
  if ts t j then tr t i else if i = 0 then 0
  else tr t j + (tr t i - tr t j) * ((thr - tv t j) / (tv t i - tv t j))

def crossAt (t : Track α α) (thr : α) (i : Nat) : Option (Edge α) :=
  let j := before t.keyCount i
  if tv t j ≤ thr ∧ thr < tv t i then some ⟨pos t thr i, true⟩
  else if thr < tv t j ∧ tv t i ≤ thr then some ⟨pos t thr i, false⟩
  else none

theorem before_lt {n i : Nat} (h : i < n) : before n i < n := by unfold before; split <;> omega

variable {t : Track α α}

theorem values_get (h : TrackOk t) {i : Nat} (hi : i < t.keyCount) : t.values[i]? = some (tv t i) := by
  have := h.valuesLen
  simp [tv, List.getD, List.getElem?_eq_getElem (show i < t.values.length by omega)]

theorem ratios_get (h : TrackOk t) {i : Nat} (hi : i < t.keyCount) : t.ratios[i]? = some (tr t i) := by
  have := h.ratiosLen
  simp [tr, List.getD, List.getElem?_eq_getElem (show i < t.ratios.length by omega)]

theorem steps_get (h : TrackOk t) {i : Nat} (hi : i < t.keyCount) :
    t.steps[i / 8]? = some (t.steps.getD (i / 8) 0) := by
  have := h.stepsLen
  simp [List.getD, List.getElem?_eq_getElem (show i / 8 < t.steps.length by omega)]

theorem step_eq (h : TrackOk t) {i : Nat} (hi : i < t.keyCount) : t.step i = .ok (ts t i) := by
  simp only [Track.step, getIdx_some' (steps_get h hi), bind, Except.bind, pure, Except.pure, ts]

theorem isStep_iff (h : TrackOk t) {i : Nat} (hi : i < t.keyCount) : IsStep t i ↔ ts t i = true := by
  unfold IsStep ts
  rw [steps_get h hi]
  constructor
  · rintro ⟨b, hb, hb'⟩
    injection hb with hb; subst hb
    rw [Nat.testBit] at hb'
    simp at hb'
    simpa using hb'
  · intro hb
    refine ⟨_, rfl, ?_⟩
    rw [Nat.testBit]
    simp
    simpa using hb

theorem tr_nonneg (h : TrackOk t) {i : Nat} (hi : i < t.keyCount) : 0 ≤ tr t i :=
  h.nonneg _ (List.mem_of_getElem? (ratios_get h hi))

theorem tr_le_one (h : TrackOk t) {i : Nat} (hi : i < t.keyCount) : tr t i ≤ 1 :=
  h.leOne _ (List.mem_of_getElem? (ratios_get h hi))

theorem tr_lt (h : TrackOk t) {i j : Nat} (hij : i < j) (hj : j < t.keyCount) : tr t i < tr t j := by
  have hl := h.ratiosLen
  have := List.pairwise_iff_getElem.1 h.increasing i j (by omega) (by omega) hij
  have e1 := ratios_get h (show i < t.keyCount by omega)
  have e2 := ratios_get h hj
  rw [List.getElem?_eq_getElem (by omega)] at e1 e2
  injection e1 with e1; injection e2 with e2
  rw [← e1, ← e2]; exact this

section Ord
variable [IsStrictOrderedRing α] {thr : α}

theorem line_bounds {r0 r1 v0 v1 : α} (hr : r0 < r1)
    (hv : (v0 ≤ thr ∧ thr < v1) ∨ (thr < v0 ∧ v1 ≤ thr)) :
    r0 ≤ r0 + (r1 - r0) * ((thr - v0) / (v1 - v0)) ∧ r0 + (r1 - r0) * ((thr - v0) / (v1 - v0)) ≤ r1 := by
  have hq : 0 ≤ (thr - v0) / (v1 - v0) ∧ (thr - v0) / (v1 - v0) ≤ 1 := by
    rcases hv with ⟨h1, h2⟩ | ⟨h1, h2⟩
    · have : 0 < v1 - v0 := by linarith
      exact ⟨div_nonneg (by linarith) this.le, (div_le_one this).2 (by linarith)⟩
    · have : v1 - v0 < 0 := by linarith
      exact ⟨div_nonneg_of_nonpos (by linarith) this.le, (div_le_one_of_neg this).2 (by linarith)⟩
  have hd : 0 < r1 - r0 := by linarith
  constructor
  · nlinarith [mul_nonneg hd.le hq.1]
  · nlinarith [mul_le_mul_of_nonneg_left hq.2 hd.le]

theorem line_iff {r0 r1 v0 v1 e : α} (hv : v0 ≠ v1) :
    v0 * (r1 - e) + v1 * (e - r0) = thr * (r1 - r0) ↔
      e = r0 + (r1 - r0) * ((thr - v0) / (v1 - v0)) := by
  have : v1 - v0 ≠ 0 := sub_ne_zero.2 (Ne.symm hv)
  constructor
  · intro h
    field_simp
    linear_combination h
  · intro h
    subst h
    field_simp
    ring

theorem crossAt_dir {i : Nat} {e : Edge α} (h : crossAt t thr i = some e) :
    (tv t (before t.keyCount i) ≤ thr ∧ thr < tv t i ∧ e.rising = true ∨
      thr < tv t (before t.keyCount i) ∧ tv t i ≤ thr ∧ e.rising = false) ∧ e.ratio = pos t thr i := by
  unfold crossAt at h
  simp only at h
  split at h
  · rename_i h1; injection h with h; subst h; exact ⟨.inl ⟨h1.1, h1.2, rfl⟩, rfl⟩
  · split at h
    · rename_i h1; injection h with h; subst h; exact ⟨.inr ⟨h1.1, h1.2, rfl⟩, rfl⟩
    · cases h

theorem crossAt_bounds (h : TrackOk t) {i : Nat} (hi : i < t.keyCount) {e : Edge α}
    (hc : crossAt t thr i = some e) :
    (i ≠ 0 → tr t (i - 1) ≤ e.ratio) ∧ 0 ≤ e.ratio ∧ e.ratio ≤ tr t i := by
  obtain ⟨hd, he⟩ := crossAt_dir hc
  rw [he]
  have h0 := tr_nonneg h hi
  unfold pos
  simp only
  split
  · refine ⟨fun h0 => (tr_lt h (by omega) hi).le, h0, le_refl _⟩
  · split
    · exact ⟨fun hh => absurd ‹_› hh, le_refl _, h0⟩
    · rename_i hi0
      have hb : before t.keyCount i = i - 1 := by simp [before, hi0]
      rw [hb] at hd ⊢
      have := line_bounds (thr := thr) (tr_lt h (show i - 1 < i by omega) hi) (v0 := tv t (i - 1))
        (v1 := tv t i) (by rcases hd with ⟨a, b, _⟩ | ⟨a, b, _⟩ <;> tauto)
      exact ⟨fun _ => this.1, le_trans (tr_nonneg h (by omega)) this.1, this.2⟩

theorem crossing_iff (h : TrackOk t) {i : Nat} {e : α} {b : Bool} :
    Crossing t thr i e b ↔ i < t.keyCount ∧ crossAt t thr i = some ⟨e, b⟩ := by
  constructor
  · rintro ⟨hi, v0, v1, h0, h1, hd, hs, hz, hl⟩
    refine ⟨hi, ?_⟩
    have hj := before_lt hi
    rw [values_get h hj] at h0
    rw [values_get h hi] at h1
    injection h0 with h0; injection h1 with h1; subst h0; subst h1
    rw [isStep_iff h hj] at hs hz hl
    rw [ratios_get h hi] at hs hl
    have hp : e = pos t thr i := by
      unfold pos
      simp only
      split
      · rename_i hst; have := hs hst; injection this with this; exact this.symm
      · split
        · exact hz ‹_› ‹_›
        · obtain ⟨r0, r1, hr0, hr1, _, _, hl⟩ := hl ‹_› ‹_›
          rw [ratios_get h hj] at hr0
          injection hr0 with hr0; injection hr1 with hr1; subst hr0; subst hr1
          refine (line_iff ?_).1 hl
          intro hv
          cases b <;> simp at hd <;> rw [hv] at hd <;> linarith [hd.1, hd.2]
    unfold crossAt
    simp only [← hp]
    cases b
    · simp at hd
      rw [if_neg (by intro hx; linarith [hx.1, hd.1]), if_pos hd]
    · simp at hd
      rw [if_pos hd]
  · rintro ⟨hi, hc⟩
    have hj := before_lt hi
    obtain ⟨hd, he⟩ := crossAt_dir hc
    have hb := crossAt_bounds h hi hc
    simp only at hd he hb
    refine ⟨hi, _, _, values_get h hj, values_get h hi, ?_, ?_, ?_, ?_⟩
    · rcases hd with ⟨a, b, rfl⟩ | ⟨a, b, rfl⟩ <;> simp [*]
    · rw [isStep_iff h hj, ratios_get h hi]
      intro hs
      rw [he, pos]; simp [hs]
    · rw [isStep_iff h hj]
      intro hs hi0
      rw [he, pos]; simp only [hi0] at hs ⊢; simp [hs]
    · rw [isStep_iff h hj]
      intro hs hi0
      refine ⟨_, _, ratios_get h hj, ratios_get h hi, ?_, hb.2.2, ?_⟩
      · simp only [before, if_neg hi0]; exact hb.1 hi0
      · refine (line_iff ?_).2 ?_
        · intro hv; rw [hv] at hd; rcases hd with ⟨a, b, _⟩ | ⟨a, b, _⟩ <;> linarith
        · rw [he, pos]; simp [hs, hi0]

/-- Pure counterpart of one inner loop turn. -/
def ev (t : Track α α) (thr lo hi : α) (k : ℤ) (i : ℕ) : Option ((ℤ × ℕ) × Edge α) :=
  match crossAt t thr i with
  | some e => if (e.ratio < 1 ∧ lo ≤ k + e.ratio ∧ k + e.ratio < hi) ∨
      (e.ratio = 1 ∧ lo < k + 1 ∧ (k + 1 : α) ≤ hi) then some ((k, i), ⟨k + e.ratio, e.rising⟩) else none
  | none => none

theorem ev_eq_some {lo hi : α} {k : ℤ} {i : ℕ} {x : (ℤ × ℕ) × Edge α} :
    ev t thr lo hi k i = some x ↔ ∃ e, crossAt t thr i = some e ∧ Within lo hi k e.ratio ∧
      x = ((k, i), ⟨k + e.ratio, e.rising⟩) := by
  unfold ev Within
  cases hc : crossAt t thr i with
  | none => simp
  | some e =>
    simp only
    split
    · rename_i h
      constructor
      · intro hx; injection hx with hx; exact ⟨e, rfl, h, hx.symm⟩
      · rintro ⟨e', he, hw, rfl⟩; injection he with he; subst he; rfl
    · rename_i h
      constructor
      · intro hx; cases hx
      · rintro ⟨e', he, hw, rfl⟩; injection he with he; subst he; exact absurd hw h

theorem ev_eq_none {lo hi : α} {k : ℤ} {i : ℕ} :
    ev t thr lo hi k i = none ↔ ∀ e, crossAt t thr i = some e → ¬ Within lo hi k e.ratio := by
  constructor
  · intro h e he hw
    rw [ev_eq_some.2 ⟨e, he, hw, rfl⟩] at h; cases h
  · intro h
    cases hx : ev t thr lo hi k i with
    | none => rfl
    | some x => obtain ⟨e, he, hw, _⟩ := ev_eq_some.1 hx; exact absurd hw (h e he)

theorem detectEdge_eq [FloorRing α] {j : Job α} (h : TrackOk j.track) {i : ℕ}
    (hi : i < j.track.keyCount) (fwd : Bool) :
    detectEdge j (before j.track.keyCount i) i fwd = .ok ((crossAt j.track j.threshold i).map
      fun e => ⟨e.ratio, if fwd then e.rising else !e.rising⟩) := by
  have hj := before_lt hi
  have hr : edgeRatio j (before j.track.keyCount i) i (tv j.track (before j.track.keyCount i))
      (tv j.track i) = .ok (pos j.track j.threshold i) := by
    simp only [edgeRatio, step_eq h hj, getIdx_some' (ratios_get h hi), getIdx_some' (ratios_get h hj),
      bind, Except.bind, pure, Except.pure, pos]
    split
    · rfl
    · split <;> rfl
  simp only [detectEdge, getIdx_some' (values_get h hi), getIdx_some' (values_get h hj), hr,
    bind, Except.bind, pure, Except.pure, crossAt]
  split
  · cases fwd <;> rfl
  · split
    · cases fwd <;> rfl
    · rfl

theorem prevKey_eq {n i : ℕ} (hi : i < n) : (prevKey (n : ℤ) (i : ℤ)).toNat = before n i := by
  unfold prevKey before
  split <;> split <;> omega

/-- Events of `n` loops starting with loop `k`. -/
def evs (t : Track α α) (thr lo hi : α) (k : ℤ) (n : ℕ) : List ((ℤ × ℕ) × Edge α) :=
  ((List.range n).map (fun m : ℕ => k + (m : ℤ))).flatMap fun k =>
    (List.range t.keyCount).filterMap (ev t thr lo hi k)

theorem evs_succ_left {lo hi : α} {k : ℤ} {n : ℕ} : evs t thr lo hi k (n + 1) =
    (List.range t.keyCount).filterMap (ev t thr lo hi k) ++ evs t thr lo hi (k + 1) n := by
  unfold evs
  rw [List.range_succ_eq_map, List.map_cons, List.flatMap_cons, List.map_map]
  congr 1
  · simp
  · congr 1
    refine List.map_congr_left ?_
    intro a _
    simp only [Function.comp]
    push_cast; ring

theorem evs_succ_right {lo hi : α} {k : ℤ} {n : ℕ} : evs t thr lo hi k (n + 1) =
    evs t thr lo hi k n ++ (List.range t.keyCount).filterMap (ev t thr lo hi (k + n)) := by
  unfold evs
  rw [List.range_succ, List.map_append, List.flatMap_append]
  simp

section Run
variable [FloorRing α] {j : Job α}

theorem within_iff_fwd {lo hi e : α} {k : ℤ} (he0 : 0 ≤ e) (he1 : e ≤ 1) (hk : ⌊lo⌋ ≤ k) :
    (lo ≤ e + k ∧ (e + k < hi ∨ 1 + (k : α) ≤ hi)) ↔ Within lo hi k e := by
  have hlo : lo < k + 1 := by
    have := Int.lt_floor_add_one lo
    have h2 : ((⌊lo⌋ : ℤ) : α) ≤ k := by exact_mod_cast hk
    linarith
  unfold Within
  constructor
  · rintro ⟨h1, h2⟩
    rcases lt_or_eq_of_le he1 with h | h
    · left; refine ⟨h, by linarith, ?_⟩
      rcases h2 with h2 | h2 <;> linarith
    · right; refine ⟨h, hlo, ?_⟩
      rcases h2 with h2 | h2 <;> linarith
  · rintro (⟨h, h1, h2⟩ | ⟨h, h1, h2⟩)
    · exact ⟨by linarith, .inl (by linarith)⟩
    · exact ⟨by linarith, .inr (by linarith)⟩

theorem within_iff_bwd {lo hi e : α} {k : ℤ} (he0 : 0 ≤ e) (he1 : e ≤ 1) (hk : lo < k + 1) :
    (lo ≤ e + k ∧ (e + k < hi ∨ 1 + (k : α) ≤ hi)) ↔ Within lo hi k e :=
  within_iff_fwd he0 he1 (by
    have : ⌊lo⌋ < k + 1 := Int.floor_lt.2 (by push_cast; exact hk)
    omega)

theorem stepForward_eq (h : TrackOk j.track) {k : ℤ} {i : ℕ} (hi : i < j.track.keyCount)
    (hk : ⌊j.from_⌋ ≤ k) :
    stepForward j ⟨true, (k : α), (i : ℤ)⟩ = .ok (match ev j.track j.threshold j.from_ j.to_ k i with
      | some x => .emit x.2 ⟨true, (k : α), ((i + 1 : ℕ) : ℤ)⟩
      | none => if j.to_ ≤ tr j.track i + k then .cont ⟨true, ((k + 1 : ℤ) : α), 0⟩
        else .cont ⟨true, (k : α), ((i + 1 : ℕ) : ℤ)⟩) := by
  simp only [stepForward, prevKey_eq hi, Int.toNat_natCast, detectEdge_eq h hi, bind, Except.bind,
    pure, Except.pure, getIdx_some' (ratios_get h hi), if_true]
  cases hc : crossAt j.track j.threshold i with
  | none =>
    have : ev j.track j.threshold j.from_ j.to_ k i = none := ev_eq_none.2 (by simp [hc])
    rw [this]
    simp only [Option.map_none]
    split <;> simp
  | some e =>
    have hb := crossAt_bounds h hi hc
    have hw := within_iff_fwd (hi := j.to_) hb.2.1 (hb.2.2.trans (tr_le_one h hi)) hk
    simp only [Option.map_some]
    by_cases hW : Within j.from_ j.to_ k e.ratio
    · rw [ev_eq_some.2 ⟨e, hc, hW, rfl⟩]
      rw [if_pos (hw.2 hW)]
      simp [add_comm]
    · rw [ev_eq_none.2 (by intro e' he'; rw [hc] at he'; injection he' with he'; subst he'; exact hW)]
      rw [if_neg (fun hh => hW (hw.1 hh))]
      simp only
      split <;> simp

theorem stepBackward_eq (h : TrackOk j.track) {k : ℤ} {i : ℕ} (hi : i < j.track.keyCount)
    (hk : j.to_ < k + 1) :
    stepBackward j ⟨true, (k : α), (i : ℤ)⟩ = .ok (match ev j.track j.threshold j.to_ j.from_ k i with
      | some x => .emit ⟨x.2.ratio, !x.2.rising⟩ ⟨true, (k : α), (i : ℤ) - 1⟩
      | none => if tr j.track i + k ≤ j.to_ then
          .cont ⟨true, ((k - 1 : ℤ) : α), (j.track.keyCount : ℤ) - 1⟩
        else .cont ⟨true, (k : α), (i : ℤ) - 1⟩) := by
  simp only [stepBackward, prevKey_eq hi, Int.toNat_natCast, detectEdge_eq h hi, bind, Except.bind,
    pure, Except.pure, getIdx_some' (ratios_get h hi)]
  cases hc : crossAt j.track j.threshold i with
  | none =>
    have : ev j.track j.threshold j.to_ j.from_ k i = none := ev_eq_none.2 (by simp [hc])
    rw [this]
    simp only [Option.map_none]
    split <;> simp
  | some e =>
    have hb := crossAt_bounds h hi hc
    have hw := within_iff_bwd (hi := j.from_) hb.2.1 (hb.2.2.trans (tr_le_one h hi)) hk
    simp only [Option.map_some]
    by_cases hW : Within j.to_ j.from_ k e.ratio
    · rw [ev_eq_some.2 ⟨e, hc, hW, rfl⟩]
      rw [if_pos (hw.2 hW)]
      simp [add_comm]
    · rw [ev_eq_none.2 (by intro e' he'; rw [hc] at he'; injection he' with he'; subst he'; exact hW)]
      rw [if_neg (fun hh => hW (hw.1 hh))]
      simp only
      split <;> simp

/-- Nothing is lost by leaving a forward loop early. -/
theorem ev_none_after (h : TrackOk j.track) {k : ℤ} {i i' : ℕ} (hi' : i' < j.track.keyCount)
    (hii : i < i') (hb : j.to_ ≤ tr j.track i + k) :
    ev j.track j.threshold j.from_ j.to_ k i' = none := by
  refine ev_eq_none.2 ?_
  intro e he hW
  have hbd := crossAt_bounds h hi' he
  have h1 := hbd.1 (by omega)
  have h2 : tr j.track i ≤ tr j.track (i' - 1) := by
    rcases Nat.lt_or_ge i (i' - 1) with hlt | hge
    · exact (tr_lt h hlt (by omega)).le
    · have : i = i' - 1 := by omega
      rw [this]
  have h3 := tr_lt h hii hi'
  have h4 := tr_le_one h hi'
  rcases hW with ⟨_, _, hw⟩ | ⟨_, _, hw⟩ <;> linarith

theorem ev_none_before (h : TrackOk j.track) {k : ℤ} {i i' : ℕ} (hi : i < j.track.keyCount)
    (hii : i' < i) (hb : tr j.track i + k ≤ j.to_) :
    ev j.track j.threshold j.to_ j.from_ k i' = none := by
  refine ev_eq_none.2 ?_
  intro e he hW
  have hbd := crossAt_bounds h (show i' < _ by omega) he
  have h3 := tr_lt h hii hi
  have h4 := tr_le_one h hi
  rcases hW with ⟨_, hw, _⟩ | ⟨hw, _, _⟩ <;> linarith

theorem filterMap_range'_none {β : Type} {f : ℕ → Option β} {i m : ℕ}
    (h : ∀ x, i ≤ x → x < i + m → f x = none) : (List.range' i m).filterMap f = [] := by
  rw [List.filterMap_eq_nil_iff]
  intro a ha
  rw [List.mem_range'_1] at ha
  exact h a ha.1 ha.2

theorem collects_fwd_inner (h : TrackOk j.track) (hf : j.from_ < j.to_) {k : ℤ}
    (hk : ⌊j.from_⌋ ≤ k) (hkt : (k : α) < j.to_) {L : List (Edge α)}
    (hL : Collects j ⟨true, ((k + 1 : ℤ) : α), 0⟩ L) : ∀ (m i : ℕ), i + m = j.track.keyCount →
    Collects j ⟨true, (k : α), (i : ℤ)⟩
      (((List.range' i m).filterMap (ev j.track j.threshold j.from_ j.to_ k)).map (·.2) ++ L) := by
  intro m
  induction m with
  | zero =>
    intro i him
    simp only [List.range'_zero, List.filterMap_nil, List.map_nil, List.nil_append]
    refine .cont ?_ hL
    simp only [step, hf, hkt, if_true, if_false, Bool.true_eq_false, Nat.cast_lt]
    rw [if_neg (by omega)]
    simp
  | succ m ih =>
    intro i him
    have hi : i < j.track.keyCount := by omega
    have hstep : step j ⟨true, (k : α), (i : ℤ)⟩ = stepForward j ⟨true, (k : α), (i : ℤ)⟩ := by
      simp only [step, hf, hkt, if_true, if_false, Bool.true_eq_false, Nat.cast_lt]
      rw [if_pos hi]
    rw [stepForward_eq h hi hk] at hstep
    rw [List.range'_succ, List.filterMap_cons]
    cases he : ev j.track j.threshold j.from_ j.to_ k i with
    | some x =>
      rw [he] at hstep
      simp only [List.map_cons, List.cons_append]
      exact .emit hstep (ih (i + 1) (by omega))
    | none =>
      rw [he] at hstep
      simp only at hstep ⊢
      split at hstep
      · rename_i hb
        rw [filterMap_range'_none (by
          intro x h1 h2
          exact ev_none_after h (by omega) (by omega) hb)]
        exact .cont hstep hL
      · exact .cont hstep (ih (i + 1) (by omega))

theorem collects_fwd (h : TrackOk j.track) (hf : j.from_ < j.to_) : ∀ (n : ℕ) (k : ℤ),
    ⌊j.from_⌋ ≤ k → k + n = ⌈j.to_⌉ →
    Collects j ⟨true, (k : α), 0⟩ ((evs j.track j.threshold j.from_ j.to_ k n).map (·.2)) := by
  intro n
  induction n with
  | zero =>
    intro k hk hn
    refine .stop ?_
    have : ¬ (k : α) < j.to_ := by
      have := Int.le_ceil j.to_
      rw [← hn] at this
      simp at this
      exact not_lt.2 this
    simp [step, hf, this]
  | succ n ih =>
    intro k hk hn
    rw [evs_succ_left, List.map_append, List.range_eq_range']
    refine collects_fwd_inner h hf hk ?_ (ih (k + 1) (by omega) (by push_cast at hn ⊢; omega)) _ 0 (by simp)
    exact Int.lt_ceil.1 (by push_cast at hn; omega)

def flip (e : Edge α) : Edge α := ⟨e.ratio, !e.rising⟩

theorem collects_bwd_inner (h : TrackOk j.track) (hf : ¬ j.from_ < j.to_) {k : ℤ}
    (hk : j.to_ < k + 1) {L : List (Edge α)}
    (hL : Collects j ⟨true, ((k - 1 : ℤ) : α), (j.track.keyCount : ℤ) - 1⟩ L) :
    ∀ (i : ℕ), i ≤ j.track.keyCount → Collects j ⟨true, (k : α), (i : ℤ) - 1⟩
      ((((List.range i).filterMap (ev j.track j.threshold j.to_ j.from_ k)).map
        (fun x => flip x.2)).reverse ++ L) := by
  intro i
  induction i with
  | zero =>
    intro him
    simp only [List.range_zero, List.filterMap_nil, List.map_nil, List.reverse_nil, List.nil_append]
    refine .cont ?_ hL
    simp only [step, hf, hk, if_true, if_false, Bool.true_eq_false]
    rw [if_neg (by simp)]
    simp
  | succ i ih =>
    intro him
    have hi : i < j.track.keyCount := by omega
    have e0 : (((i + 1 : ℕ) : ℤ) - 1) = (i : ℤ) := by push_cast; ring
    rw [e0]
    have hstep : step j ⟨true, (k : α), (i : ℤ)⟩ = stepBackward j ⟨true, (k : α), (i : ℤ)⟩ := by
      simp only [step, hf, hk, if_true, if_false, Bool.true_eq_false]
      rw [if_pos (by omega)]
    rw [stepBackward_eq h hi hk] at hstep
    rw [List.range_succ, List.filterMap_append]
    cases he : ev j.track j.threshold j.to_ j.from_ k i with
    | some x =>
      rw [he] at hstep
      simp only [List.filterMap_cons, he, List.filterMap_nil, List.map_append, List.reverse_append,
        List.map_cons, List.map_nil, List.reverse_cons, List.reverse_nil, List.nil_append,
        List.cons_append]
      exact .emit hstep (ih (by omega))
    | none =>
      rw [he] at hstep
      simp only [List.filterMap_cons, he, List.filterMap_nil, List.append_nil] at hstep ⊢
      split at hstep
      · rename_i hb
        have : (List.range i).filterMap (ev j.track j.threshold j.to_ j.from_ k) = [] := by
          rw [List.filterMap_eq_nil_iff]
          intro a ha
          exact ev_none_before h hi (List.mem_range.1 ha) hb
        rw [this]
        exact .cont hstep hL
      · exact .cont hstep (ih (by omega))

theorem collects_bwd (h : TrackOk j.track) (hf : ¬ j.from_ < j.to_) : ∀ (n : ℕ) (k : ℤ),
    k + 1 = ⌊j.to_⌋ + n →
    Collects j ⟨true, (k : α), (j.track.keyCount : ℤ) - 1⟩
      (((evs j.track j.threshold j.to_ j.from_ ⌊j.to_⌋ n).map (fun x => flip x.2)).reverse) := by
  intro n
  induction n with
  | zero =>
    intro k hn
    refine .stop ?_
    have : ¬ j.to_ < (k : α) + 1 := by
      have := Int.floor_le j.to_
      have e : (⌊j.to_⌋ : ℤ) = k + 1 := by push_cast at hn; omega
      rw [e] at this
      push_cast at this
      exact not_lt.2 this
    simp [step, hf, this]
  | succ n ih =>
    intro k hn
    have e : ⌊j.to_⌋ + (n : ℤ) = k := by push_cast at hn; omega
    rw [evs_succ_right, List.map_append, List.reverse_append, e]
    refine collects_bwd_inner h hf ?_ (ih (k - 1) (by omega)) _ (le_refl _)
    have := Int.lt_floor_add_one j.to_
    have h2 : ((⌊j.to_⌋ : ℤ) : α) ≤ (k : α) := by exact_mod_cast (by omega)
    linarith

end Run

theorem mem_evs {lo hi : α} {k : ℤ} {n : ℕ} {x : (ℤ × ℕ) × Edge α} :
    x ∈ evs t thr lo hi k n ↔ k ≤ x.1.1 ∧ x.1.1 < k + n ∧ x.1.2 < t.keyCount ∧
      ev t thr lo hi x.1.1 x.1.2 = some x := by
  unfold evs
  simp only [List.mem_flatMap, List.mem_map, List.mem_range, List.mem_filterMap]
  constructor
  · rintro ⟨k', ⟨m, hm, rfl⟩, i, hi, he⟩
    obtain ⟨e, _, _, hx⟩ := ev_eq_some.1 he
    subst hx
    exact ⟨by simp, by simp [hm], hi, he⟩
  · rintro ⟨h1, h2, h3, h4⟩
    exact ⟨x.1.1, ⟨(x.1.1 - k).toNat, by omega, by omega⟩, x.1.2, h3, h4⟩

theorem evs_pairwise {lo hi : α} (n : ℕ) (k : ℤ) :
    (evs t thr lo hi k n).Pairwise (fun a b => EventLt a.1 b.1) := by
  induction n with
  | zero => simp [evs]
  | succ n ih =>
    rw [evs_succ_right, List.pairwise_append]
    refine ⟨ih, ?_, ?_⟩
    · rw [List.pairwise_filterMap]
      refine List.Pairwise.imp ?_ (List.pairwise_lt_range (n := t.keyCount))
      intro a b hab x hx y hy
      obtain ⟨e, _, _, rfl⟩ := ev_eq_some.1 hx
      obtain ⟨e', _, _, rfl⟩ := ev_eq_some.1 hy
      exact .inr ⟨rfl, hab⟩
    · intro a ha b hb
      obtain ⟨i, _, hb⟩ := List.mem_filterMap.1 hb
      obtain ⟨e, _, _, rfl⟩ := ev_eq_some.1 hb
      exact .inl (mem_evs.1 ha).2.1

theorem evs_isCrossingList (h : TrackOk t) {lo hi : α} {k : ℤ} {n : ℕ}
    (hcov : ∀ k' e, 0 ≤ e → e ≤ 1 → Within lo hi k' e → k ≤ k' ∧ k' < k + n) :
    IsCrossingList t thr lo hi ((evs t thr lo hi k n).map (·.2)) := by
  refine ⟨(evs t thr lo hi k n).map (·.1), ?_, ?_, ?_⟩
  · exact List.pairwise_map.2 (evs_pairwise n k)
  · intro k' i
    rw [List.mem_map]
    constructor
    · rintro ⟨x, hx, hxe⟩
      obtain ⟨_, _, h3, h4⟩ := mem_evs.1 hx
      obtain ⟨e, he, hw, _⟩ := ev_eq_some.1 h4
      rw [hxe] at h3 he hw
      simp only at h3 he hw
      exact ⟨e.ratio, e.rising, (crossing_iff h).2 ⟨h3, he⟩, hw⟩
    · rintro ⟨e, b, hc, hw⟩
      obtain ⟨hi', hc⟩ := (crossing_iff h).1 hc
      have hb := crossAt_bounds h hi' hc
      have := hcov k' e hb.2.1 (hb.2.2.trans (tr_le_one h hi')) hw
      exact ⟨((k', i), ⟨k' + e, b⟩), mem_evs.2 ⟨this.1, this.2, hi', ev_eq_some.2 ⟨_, hc, hw, rfl⟩⟩, rfl⟩
  · rw [List.forall₂_map_left_iff, List.forall₂_map_right_iff, List.forall₂_same]
    intro x hx
    obtain ⟨_, _, h3, h4⟩ := mem_evs.1 hx
    obtain ⟨e, he, hw, hxe⟩ := ev_eq_some.1 h4
    refine ⟨e.ratio, (crossing_iff h).2 ⟨h3, ?_⟩, ?_⟩
    · rw [he]; have : x.2.rising = e.rising := by rw [hxe]
      rw [this]
    · have := congrArg (fun y => y.2.ratio) hxe; exact this

theorem within_loop [FloorRing α] {lo hi : α} {k : ℤ} {e : α} (h0 : 0 ≤ e) (hw : Within lo hi k e) :
    ⌊lo⌋ ≤ k ∧ (k : α) < hi := by
  rcases hw with ⟨h1, h2, h3⟩ | ⟨h1, h2, h3⟩
  · refine ⟨?_, by linarith⟩
    have : ⌊lo⌋ < k + 1 := Int.floor_lt.2 (by push_cast; linarith)
    omega
  · refine ⟨?_, by linarith⟩
    have : ⌊lo⌋ < k + 1 := Int.floor_lt.2 (by push_cast; linarith)
    omega

section Run
variable [FloorRing α] {j : Job α}

theorem yields_fwd (h : TrackOk j.track) (hf : j.from_ < j.to_) :
    ∃ l, Yields j l ∧ IsCrossingList j.track j.threshold j.from_ j.to_ l := by
  have hle : ⌊j.from_⌋ ≤ ⌈j.to_⌉ := (Int.floor_le_ceil _).trans (Int.ceil_mono hf.le)
  refine ⟨_, ?_, evs_isCrossingList h (k := ⌊j.from_⌋) (n := (⌈j.to_⌉ - ⌊j.from_⌋).toNat) ?_⟩
  · have := collects_fwd h hf (⌈j.to_⌉ - ⌊j.from_⌋).toNat ⌊j.from_⌋ (le_refl _) (by omega)
    have e : Iter.new j = ⟨true, ((⌊j.from_⌋ : ℤ) : α), 0⟩ := by
      simp [Iter.new, hf, feq, not_le.2 hf, FloorOp.floor]
    rw [Yields, e]; exact this
  · intro k' e h0 h1 hw
    have := within_loop h0 hw
    have h3 : k' < ⌈j.to_⌉ := Int.lt_ceil.2 this.2
    exact ⟨this.1, by omega⟩

theorem yields_bwd (h : TrackOk j.track) (hf : j.to_ < j.from_) :
    ∃ l, Yields j l ∧ IsCrossingList j.track j.threshold j.to_ j.from_ (l.map flip).reverse := by
  have hle : ⌊j.to_⌋ ≤ ⌊j.from_⌋ := Int.floor_mono hf.le
  refine ⟨(((evs j.track j.threshold j.to_ j.from_ ⌊j.to_⌋ (⌊j.from_⌋ + 1 - ⌊j.to_⌋).toNat).map
      (fun x => flip x.2)).reverse), ?_, ?_⟩
  · have := collects_bwd h (not_lt.2 hf.le) (⌊j.from_⌋ + 1 - ⌊j.to_⌋).toNat ⌊j.from_⌋ (by omega)
    have e : Iter.new j = ⟨true, ((⌊j.from_⌋ : ℤ) : α), (j.track.keyCount : ℤ) - 1⟩ := by
      simp [Iter.new, feq, not_le.2 hf, not_lt.2 hf.le, FloorOp.floor]
    rw [Yields, e]; exact this
  · rw [List.map_reverse, List.reverse_reverse, List.map_map]
    have : (flip ∘ fun x : (ℤ × ℕ) × Edge α => flip x.2) = (·.2) := by
      funext x; simp [flip]
    rw [this]
    refine evs_isCrossingList h ?_
    intro k' e h0 h1 hw
    have := within_loop h0 hw
    have h3 : k' ≤ ⌊j.from_⌋ := Int.le_floor.2 this.2.le
    exact ⟨this.1, by omega⟩

theorem yields_eq (hf : j.from_ = j.to_) : Yields j [] :=
  .stop (by simp [step, Iter.new, feq, hf])

end Run

theorem eventLt_trans {a b c : ℤ × ℕ} (h : EventLt a b) (h' : EventLt b c) : EventLt a c := by
  unfold EventLt at *; omega

theorem eventLt_asymm {a b : ℤ × ℕ} (h : EventLt a b) (h' : EventLt b a) : False := by
  unfold EventLt at *; omega

theorem events_unique : ∀ {l l' : List (ℤ × ℕ)}, l.Pairwise EventLt → l'.Pairwise EventLt →
    (∀ x, x ∈ l ↔ x ∈ l') → l = l'
  | [], [], _, _, _ => rfl
  | [], b :: _, _, _, h => by have := (h b).2 (by simp); simp at this
  | a :: _, [], _, _, h => by have := (h a).1 (by simp); simp at this
  | a :: l, b :: l', h1, h2, h => by
    rw [List.pairwise_cons] at h1 h2
    have hab : a = b := by
      have ha := (h a).1 (by simp)
      have hb := (h b).2 (by simp)
      rw [List.mem_cons] at ha hb
      rcases ha with ha | ha
      · exact ha
      · rcases hb with hb | hb
        · exact hb.symm
        · exact (eventLt_asymm (h1.1 _ hb) (h2.1 _ ha)).elim
    subst hab
    rw [events_unique h1.2 h2.2 ?_]
    intro x
    have := h x
    rw [List.mem_cons, List.mem_cons] at this
    constructor
    · intro hx
      rcases this.1 (.inr hx) with e | e
      · subst e; exact (eventLt_asymm (h1.1 _ hx) (h1.1 _ hx)).elim
      · exact e
    · intro hx
      rcases this.2 (.inr hx) with e | e
      · subst e; exact (eventLt_asymm (h2.1 _ hx) (h2.1 _ hx)).elim
      · exact e

theorem crossing_unique (h : TrackOk t) {i : ℕ} {e e' : α} {b b' : Bool} (h1 : Crossing t thr i e b)
    (h2 : Crossing t thr i e' b') : e = e' ∧ b = b' := by
  have a := ((crossing_iff h).1 h1).2
  have b := ((crossing_iff h).1 h2).2
  rw [a] at b; injection b with b; injection b with b1 b2
  exact ⟨b1, b2⟩

theorem isCrossingList_unique (h : TrackOk t) {lo hi : α} {l l' : List (Edge α)}
    (h1 : IsCrossingList t thr lo hi l) (h2 : IsCrossingList t thr lo hi l') : l = l' := by
  obtain ⟨E, p1, m1, f1⟩ := h1
  obtain ⟨E', p2, m2, f2⟩ := h2
  have : E = E' := events_unique p1 p2 (by intro ⟨k, i⟩; rw [m1, m2])
  subst this
  clear m1 m2 p1 p2
  induction f1 generalizing l' with
  | nil => cases f2; rfl
  | cons ha _ ih =>
    cases f2 with
    | cons hb hr =>
      rw [ih hr]
      congr 1
      obtain ⟨e, c1, r1⟩ := ha
      obtain ⟨e', c2, r2⟩ := hb
      have := crossing_unique h c1 c2
      rw [this.1] at r1
      rw [← r2] at r1
      cases ‹Edge α›; cases ‹Edge α›
      simp only at r1 this
      rw [r1, this.2]

/-! ### Consequences of the specification -/

theorem crossing_bounds (h : TrackOk t) {i : ℕ} {e : α} {b : Bool} (hc : Crossing t thr i e b) :
    i < t.keyCount ∧ (i ≠ 0 → tr t (i - 1) ≤ e) ∧ 0 ≤ e ∧ e ≤ tr t i ∧ e ≤ 1 := by
  obtain ⟨hi, hc⟩ := (crossing_iff h).1 hc
  have := crossAt_bounds h hi hc
  exact ⟨hi, this.1, this.2.1, this.2.2, this.2.2.trans (tr_le_one h hi)⟩

theorem time_mono (h : TrackOk t) {k k' : ℤ} {i i' : ℕ} {e e' : α} {b b' : Bool}
    (hc : Crossing t thr i e b) (hc' : Crossing t thr i' e' b') (hlt : EventLt (k, i) (k', i')) :
    (k : α) + e ≤ k' + e' := by
  obtain ⟨h1, h2, h3, h4, h5⟩ := crossing_bounds h hc
  obtain ⟨g1, g2, g3, g4, g5⟩ := crossing_bounds h hc'
  rcases hlt with hk | ⟨hk, hi⟩
  · simp only at hk
    have : (k : α) + 1 ≤ k' := by exact_mod_cast hk
    linarith
  · simp only at hk hi
    subst hk
    have := g2 (by omega)
    have : tr t i ≤ tr t (i' - 1) := by
      rcases Nat.lt_or_ge i (i' - 1) with hlt | hge
      · exact (tr_lt h hlt (by omega)).le
      · have : i = i' - 1 := by omega
        rw [this]
    linarith

theorem within_convex (h : TrackOk t) {lo hi : α} {k1 k2 k3 : ℤ} {i1 i2 i3 : ℕ} {e1 e2 e3 : α}
    {b1 b2 b3 : Bool} (c1 : Crossing t thr i1 e1 b1) (c2 : Crossing t thr i2 e2 b2)
    (c3 : Crossing t thr i3 e3 b3) (l12 : EventLt (k1, i1) (k2, i2)) (l23 : EventLt (k2, i2) (k3, i3))
    (w1 : Within lo hi k1 e1) (w3 : Within lo hi k3 e3) : Within lo hi k2 e2 := by
  have t12 := time_mono h c1 c2 l12
  have t23 := time_mono h c2 c3 l23
  obtain ⟨p1, p2, p3, p4, p5⟩ := crossing_bounds h c1
  obtain ⟨q1, q2, q3, q4, q5⟩ := crossing_bounds h c2
  obtain ⟨s1, s2, s3, s4, s5⟩ := crossing_bounds h c3
  have k12 : k1 ≤ k2 := by unfold EventLt at l12; omega
  have k23 : k2 ≤ k3 := by unfold EventLt at l23; omega
  have k12' : (k1 : α) ≤ k2 := by exact_mod_cast k12
  have k23' : (k2 : α) ≤ k3 := by exact_mod_cast k23
  rcases lt_or_eq_of_le q5 with he | he
  · left
    refine ⟨he, ?_, ?_⟩
    · rcases w1 with ⟨_, w, _⟩ | ⟨_, w, _⟩ <;> linarith
    · rcases w3 with ⟨_, _, w⟩ | ⟨_, _, w⟩ <;> linarith
  · right
    refine ⟨he, ?_, ?_⟩
    · rcases w1 with ⟨_, w, _⟩ | ⟨_, w, _⟩ <;> linarith
    · rcases l23 with hk | ⟨hk, hi⟩
      · simp only at hk
        have : (k2 : α) + 1 ≤ k3 := by exact_mod_cast hk
        rcases w3 with ⟨_, _, w⟩ | ⟨_, _, w⟩ <;> linarith
      · simp only at hk hi
        have := tr_lt h hi s1
        have := tr_le_one h s1
        linarith

theorem descent {V : ℤ → Prop} {p : ℤ} (hp : V p) : ∀ (n : ℕ), ¬ V (p + n) →
    ∃ s, p < s ∧ s ≤ p + n ∧ V (s - 1) ∧ ¬ V s := by
  intro n
  induction n with
  | zero => intro h; simp at h; exact absurd hp h
  | succ n ih =>
    intro h
    by_cases hn : V (p + n)
    · exact ⟨p + (n + 1 : ℕ), by push_cast; omega, le_refl _, by
        have : p + ((n + 1 : ℕ) : ℤ) - 1 = p + n := by push_cast; omega
        rw [this]; exact hn, h⟩
    · obtain ⟨s, h1, h2, h3⟩ := ih hn
      exact ⟨s, h1, by push_cast; omega, h3⟩

/-- Value of the looping track at key number `p` counted over all loops. -/
def cyc (t : Track α α) (p : ℤ) : α := tv t (p % t.keyCount).toNat

theorem cyc_pred {p : ℤ} (hn : 0 < t.keyCount) :
    cyc t (p - 1) = tv t (before t.keyCount (p % t.keyCount).toNat) := by
  unfold cyc before
  congr 1
  have hn' : (0 : ℤ) < t.keyCount := by exact_mod_cast hn
  have h0 := Int.emod_nonneg p hn'.ne'
  have h1 := Int.emod_lt_of_pos p hn'
  have h2 := Int.mul_ediv_add_emod p t.keyCount
  split
  · rename_i hz
    have : p - 1 = (t.keyCount - 1 : ℤ) + t.keyCount * (p / t.keyCount - 1) := by
      rw [Int.mul_sub]; omega
    rw [this, Int.add_mul_emod_self_left, Int.emod_eq_of_lt (by omega) (by omega)]
    omega
  · have : p - 1 = (p % t.keyCount - 1 : ℤ) + t.keyCount * (p / t.keyCount) := by omega
    rw [this, Int.add_mul_emod_self_left, Int.emod_eq_of_lt (by omega) (by omega)]
    omega

/-- Between two rising crossings there is a falling one, and conversely. -/
theorem crossing_between (h : TrackOk t) {k k' : ℤ} {i i' : ℕ} {e e' : α} {b : Bool}
    (hc : Crossing t thr i e b) (hc' : Crossing t thr i' e' b) (hlt : EventLt (k, i) (k', i')) :
    ∃ k'' i'' e'' b'', EventLt (k, i) (k'', i'') ∧ EventLt (k'', i'') (k', i') ∧
      Crossing t thr i'' e'' b'' := by
  obtain ⟨hi, hc⟩ := (crossing_iff h).1 hc
  obtain ⟨hi', hc'⟩ := (crossing_iff h).1 hc'
  have hn : 0 < t.keyCount := by omega
  have hn' : (0 : ℤ) < t.keyCount := by exact_mod_cast hn
  obtain ⟨d, _⟩ := crossAt_dir hc
  obtain ⟨d', _⟩ := crossAt_dir hc'
  have hmod : ∀ (k : ℤ) (i : ℕ), i < t.keyCount → (t.keyCount * k + i) % (t.keyCount : ℤ) = i := by
    intro k i hi
    rw [add_comm, Int.add_mul_emod_self_left, Int.emod_eq_of_lt (by omega) (by omega)]
  have hV : ∀ (k : ℤ) (i : ℕ), i < t.keyCount → cyc t (t.keyCount * k + i) = tv t i := by
    intro k i hi; unfold cyc; rw [hmod k i hi]; simp
  have hP : ∀ (k : ℤ) (i : ℕ), i < t.keyCount →
      cyc t (t.keyCount * k + i - 1) = tv t (before t.keyCount i) := by
    intro k i hi; rw [cyc_pred hn, hmod k i hi]; simp
  have hpos : (t.keyCount * k + i : ℤ) < t.keyCount * k' + i' := by
    rcases hlt with hk | ⟨hk, hii⟩
    · simp only at hk
      have : (t.keyCount * (k + 1) : ℤ) ≤ t.keyCount * k' := Int.mul_le_mul_of_nonneg_left (by omega) hn'.le
      rw [Int.mul_add] at this
      omega
    · simp only at hk hii; subst hk; omega
  have key : ∀ V : ℤ → Prop, V (t.keyCount * k + i) → ¬ V (t.keyCount * k' + i' - 1) →
      (∀ s : ℤ, V (s - 1) → ¬ V s → ∃ e'' b'', crossAt t thr (s % t.keyCount).toNat = some ⟨e'', b''⟩) →
      ∃ k'' i'' e'' b'', EventLt (k, i) (k'', i'') ∧ EventLt (k'', i'') (k', i') ∧
      Crossing t thr i'' e'' b'' := by
    intro V v1 v2 v3
    obtain ⟨s, s1, s2, s3, s4⟩ := descent v1 (t.keyCount * k' + i' - 1 - (t.keyCount * k + i) : ℤ).toNat
      (by rw [show (t.keyCount * k + i + ((t.keyCount * k' + i' - 1 - (t.keyCount * k + i) : ℤ).toNat : ℤ))
            = t.keyCount * k' + i' - 1 by omega]; exact v2)
    have s2' : s < t.keyCount * k' + i' := by omega
    obtain ⟨e'', b'', hce⟩ := v3 s s3 s4
    have h0 := Int.emod_nonneg s hn'.ne'
    have h1 := Int.emod_lt_of_pos s hn'
    have h2 := Int.mul_ediv_add_emod s t.keyCount
    have cmp : ∀ (k1 k2 : ℤ) (i1 i2 : ℕ), i1 < t.keyCount → i2 < t.keyCount →
        (t.keyCount * k1 + i1 : ℤ) < t.keyCount * k2 + i2 → EventLt (k1, i1) (k2, i2) := by
      intro k1 k2 i1 i2 a1 a2 a3
      rcases lt_trichotomy k1 k2 with hk | hk | hk
      · exact .inl hk
      · subst hk; exact .inr ⟨rfl, by simp only; omega⟩
      · exfalso
        have : (t.keyCount * (k2 + 1) : ℤ) ≤ t.keyCount * k1 := Int.mul_le_mul_of_nonneg_left (by omega) hn'.le
        rw [Int.mul_add] at this
        omega
    refine ⟨s / t.keyCount, (s % t.keyCount).toNat, e'', b'', ?_, ?_,
      (crossing_iff h).2 ⟨by omega, hce⟩⟩
    · exact cmp _ _ _ _ hi (by omega) (by omega)
    · exact cmp _ _ _ _ (by omega) hi' (by omega)
  cases b
  · -- falling twice
    refine key (fun p => cyc t p ≤ thr) ?_ ?_ ?_
    · rw [hV k i hi]; simp at d; exact d.2
    · rw [hP k' i' hi']; simp at d'; exact not_le.2 d'.1
    · intro s s3 s4
      rw [cyc_pred hn] at s3
      have s4' : thr < tv t (s % t.keyCount).toNat := not_le.1 s4
      exact ⟨_, true, by unfold crossAt; rw [if_pos ⟨s3, s4'⟩]⟩
  · refine key (fun p => thr < cyc t p) ?_ ?_ ?_
    · rw [hV k i hi]; simp at d; exact d.2
    · rw [hP k' i' hi']; simp at d'; exact not_lt.2 d'.1
    · intro s s3 s4
      rw [cyc_pred hn] at s3
      have s4' : tv t (s % t.keyCount).toNat ≤ thr := not_lt.1 s4
      refine ⟨pos t thr (s % t.keyCount).toNat, false, ?_⟩
      unfold crossAt
      rw [if_neg (by intro hx; linarith [hx.1]), if_pos ⟨s3, s4'⟩]

theorem alternates (h : TrackOk t) {lo hi : α} {l : List (Edge α)}
    (hl : IsCrossingList t thr lo hi l) {n : ℕ} {a b : Edge α} (ha : l[n]? = some a)
    (hb : l[n + 1]? = some b) : b.rising = !a.rising := by
  obtain ⟨E, p, m, f⟩ := hl
  have hlen := f.length_eq
  have hn1 : n + 1 < l.length := (List.getElem?_eq_some_iff.1 hb).1
  have ha' : l[n] = a := (List.getElem?_eq_some_iff.1 ha).2
  have hb' : l[n + 1] = b := (List.getElem?_eq_some_iff.1 hb).2
  have fa := f.get (i := n) (by omega) (by omega)
  have fb := f.get (i := n + 1) (by omega) (by omega)
  simp only [List.get_eq_getElem, ha', hb'] at fa fb
  obtain ⟨ea, ca, _⟩ := fa
  obtain ⟨eb, cb, _⟩ := fb
  by_contra hne
  have hbr : b.rising = a.rising := by cases hx : a.rising <;> cases hy : b.rising <;> simp_all
  rw [hbr] at cb
  have pw := List.pairwise_iff_getElem.1 p
  have hab := pw n (n + 1) (by omega) (by omega) (by omega)
  obtain ⟨k'', i'', e'', b'', l1, l2, cc⟩ := crossing_between h ca cb hab
  obtain ⟨ea', ba', ca', wa⟩ := (m E[n].1 E[n].2).1 (by simp)
  obtain ⟨eb', bb', cb', wb⟩ := (m E[n+1].1 E[n+1].2).1 (by simp)
  have hmem := (m k'' i'').2 ⟨e'', b'', cc, within_convex h ca' cc cb' l1 l2 wa wb⟩
  obtain ⟨q, hq, hqe⟩ := List.getElem_of_mem hmem
  rcases Nat.lt_trichotomy q n with hqn | hqn | hqn
  · have := pw q n hq (by omega) hqn
    rw [hqe] at this
    exact eventLt_asymm this l1
  · subst hqn
    have l1' : EventLt E[q] (k'', i'') := l1
    rw [← hqe] at l1'
    exact eventLt_asymm l1' l1'
  · rcases Nat.lt_trichotomy q (n + 1) with hq2 | hq2 | hq2
    · omega
    · subst hq2
      have l2' : EventLt (k'', i'') E[n + 1] := l2
      rw [← hqe] at l2'
      exact eventLt_asymm l2' l2'
    · have := pw (n + 1) q (by omega) hq hq2
      rw [hqe] at this
      exact eventLt_asymm this l2

theorem isCrossingList_nondecreasing (h : TrackOk t) {lo hi : α} {l : List (Edge α)}
    (hl : IsCrossingList t thr lo hi l) : l.Pairwise (fun a b => a.ratio ≤ b.ratio) := by
  obtain ⟨E, p, m, f⟩ := hl
  clear m
  induction f with
  | nil => simp
  | cons ha hr ih =>
    rw [List.pairwise_cons] at p ⊢
    refine ⟨?_, ih p.2⟩
    intro b hb
    obtain ⟨n, hn, rfl⟩ := List.getElem_of_mem hb
    have hlen := hr.length_eq
    have fb := hr.get (i := n) (by omega) hn
    simp only [List.get_eq_getElem] at fb
    obtain ⟨ea, ca, ra⟩ := ha
    obtain ⟨eb, cb, rb⟩ := fb
    rw [ra, rb]
    exact time_mono h ca cb (p.1 _ (List.getElem_mem _))

theorem isCrossingList_append (h : TrackOk t) {x y z : α} (hxy : x ≤ y) (hyz : y ≤ z)
    {l l' : List (Edge α)} (h1 : IsCrossingList t thr x y l) (h2 : IsCrossingList t thr y z l') :
    IsCrossingList t thr x z (l ++ l') := by
  obtain ⟨E, p1, m1, f1⟩ := h1
  obtain ⟨E', p2, m2, f2⟩ := h2
  refine ⟨E ++ E', ?_, ?_, List.rel_append f1 f2⟩
  · rw [List.pairwise_append]
    refine ⟨p1, p2, ?_⟩
    intro a ha b hb
    obtain ⟨ea, _, ca, wa⟩ := (m1 a.1 a.2).1 ha
    obtain ⟨eb, _, cb, wb⟩ := (m2 b.1 b.2).1 hb
    by_contra hlt
    have hba : b = a ∨ EventLt b a := by
      unfold EventLt at *
      rcases lt_trichotomy a.1 b.1 with hh | hh | hh
      · exact absurd (.inl hh) hlt
      · rcases lt_trichotomy a.2 b.2 with gg | gg | gg
        · exact absurd (.inr ⟨hh, gg⟩) hlt
        · left; exact Prod.ext hh.symm gg.symm
        · right; exact .inr ⟨hh.symm, gg⟩
      · exact .inr (.inl hh)
    obtain ⟨_, _, a3, _, a5⟩ := crossing_bounds h ca
    obtain ⟨_, _, b3, _, b5⟩ := crossing_bounds h cb
    rcases hba with hba | hba
    · subst hba
      have he := (crossing_unique h ca cb).1
      subst he
      rcases wa with ⟨_, _, w⟩ | ⟨w0, _, w⟩ <;> rcases wb with ⟨w0', w', _⟩ | ⟨w0', w', _⟩ <;> linarith
    · have tm := time_mono h cb ca hba
      have hk : b.1 ≤ a.1 := by unfold EventLt at hba; omega
      have hk' : (b.1 : α) ≤ a.1 := by exact_mod_cast hk
      rcases wa with ⟨_, _, w⟩ | ⟨w0, _, w⟩ <;> rcases wb with ⟨w0', w', _⟩ | ⟨w0', w', _⟩
      · linarith
      · rcases hba with hb | ⟨hb, hb'⟩
        · have : (b.1 : α) + 1 ≤ a.1 := by exact_mod_cast hb
          linarith
        · have h1 := (crossing_bounds h cb)
          have h2 := (crossing_bounds h ca)
          have := tr_lt h hb' h2.1
          have := tr_le_one h h2.1
          linarith [h1.2.2.2.1]
      · linarith
      · linarith
  · intro k i
    rw [List.mem_append, m1, m2]
    constructor
    · rintro (⟨e, b, c, w⟩ | ⟨e, b, c, w⟩)
      · refine ⟨e, b, c, ?_⟩
        rcases w with ⟨w1, w2, w3⟩ | ⟨w1, w2, w3⟩
        · exact .inl ⟨w1, w2, by linarith⟩
        · exact .inr ⟨w1, w2, by linarith⟩
      · refine ⟨e, b, c, ?_⟩
        rcases w with ⟨w1, w2, w3⟩ | ⟨w1, w2, w3⟩
        · exact .inl ⟨w1, by linarith, w3⟩
        · exact .inr ⟨w1, by linarith, w3⟩
    · rintro ⟨e, b, c, w⟩
      rcases w with ⟨w1, w2, w3⟩ | ⟨w1, w2, w3⟩
      · rcases lt_or_ge ((k : α) + e) y with hh | hh
        · exact .inl ⟨e, b, c, .inl ⟨w1, w2, hh⟩⟩
        · exact .inr ⟨e, b, c, .inl ⟨w1, hh, w3⟩⟩
      · rcases lt_or_ge y ((k : α) + 1) with hh | hh
        · exact .inr ⟨e, b, c, .inr ⟨w1, hh, w3⟩⟩
        · exact .inl ⟨e, b, c, .inr ⟨w1, w2, hh⟩⟩

theorem isCrossingList_shift {lo hi : α} (n : ℤ) {l : List (Edge α)}
    (hl : IsCrossingList t thr lo hi l) :
    IsCrossingList t thr (lo + n) (hi + n) (l.map fun e => ⟨e.ratio + n, e.rising⟩) := by
  obtain ⟨E, p, m, f⟩ := hl
  refine ⟨E.map fun x => (x.1 + n, x.2), ?_, ?_, ?_⟩
  · rw [List.pairwise_map]
    refine p.imp ?_
    intro a b hab
    unfold EventLt at *
    simp only
    omega
  · intro k i
    have hw : ∀ e, Within (lo + n) (hi + n) k e ↔ Within lo hi (k - n) e := by
      intro e
      unfold Within
      push_cast
      constructor
      · rintro (⟨w1, w2, w3⟩ | ⟨w1, w2, w3⟩)
        · exact .inl ⟨w1, by linarith, by linarith⟩
        · exact .inr ⟨w1, by linarith, by linarith⟩
      · rintro (⟨w1, w2, w3⟩ | ⟨w1, w2, w3⟩)
        · exact .inl ⟨w1, by linarith, by linarith⟩
        · exact .inr ⟨w1, by linarith, by linarith⟩
    simp only [hw]
    rw [← m (k - n) i, List.mem_map]
    constructor
    · rintro ⟨x, hx, hxe⟩
      simp only [Prod.mk.injEq] at hxe
      obtain ⟨rfl, rfl⟩ := hxe
      simpa using hx
    · intro hx
      exact ⟨_, hx, by simp⟩
  · rw [List.forall₂_map_left_iff, List.forall₂_map_right_iff]
    refine f.imp ?_
    rintro ⟨k, i⟩ x ⟨e, hc, hr⟩
    refine ⟨e, hc, ?_⟩
    simp only at hr ⊢
    rw [hr]; push_cast; ring

end Ord

end Ozz.Triggering
