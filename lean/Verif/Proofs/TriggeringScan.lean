import Verif.Proofs.Triggering

/-! What the triggering iterator yields in any arithmetic: loop by loop, key by key, with its early exits. -/

set_option linter.unusedSectionVars false

namespace Ozz.Triggering

open Ozz.Spec

/-- The arrays of a track have the lengths they should. -/
structure Shape {α : Type} (t : Track α α) : Prop where
  ratiosLen : t.ratios.length = t.keyCount
  valuesLen : t.values.length = t.keyCount
  stepsLen : (t.keyCount + 7) / 8 ≤ t.steps.length

variable {α : Type} [Add α] [Sub α] [Mul α] [Div α] [LE α] [LT α] [DecidableLE α] [DecidableLT α]
  [Zero α] [One α] [FloorOp α]

def gv (t : Track α α) (i : Nat) : α := t.values.getD i 0
def gr (t : Track α α) (i : Nat) : α := t.ratios.getD i 0
def gs (t : Track α α) (i : Nat) : Bool := ((t.steps.getD (i / 8) 0).toNat >>> (i % 8)) % 2 == 1

/-- The computed position of the edge at key `i`. -/
def gpos (t : Track α α) (thr : α) (i : Nat) : α :=
  let k := before t.keyCount i
  if gs t k then gr t i else if i = 0 then 0
  else gr t k + (gr t i - gr t k) * ((thr - gv t k) / (gv t i - gv t k))

/-- The edge at key `i`, in playing direction. -/
def gcross (t : Track α α) (thr : α) (i : Nat) : Option (Edge α) :=
  let k := before t.keyCount i
  if gv t k ≤ thr ∧ thr < gv t i then some ⟨gpos t thr i, true⟩
  else if thr < gv t k ∧ gv t i ≤ thr then some ⟨gpos t thr i, false⟩
  else none

variable {t : Track α α} {j : Job α}

theorem gvalues_get (h : Shape t) {i : Nat} (hi : i < t.keyCount) : getIdx t.values i = .ok (gv t i) := by
  have := h.valuesLen
  simp [gv, getIdx, List.getD, List.getElem?_eq_getElem (show i < t.values.length by omega)]

theorem gratios_get (h : Shape t) {i : Nat} (hi : i < t.keyCount) : getIdx t.ratios i = .ok (gr t i) := by
  have := h.ratiosLen
  simp [gr, getIdx, List.getD, List.getElem?_eq_getElem (show i < t.ratios.length by omega)]

theorem gstep_eq (h : Shape t) {i : Nat} (hi : i < t.keyCount) : t.step i = .ok (gs t i) := by
  have := h.stepsLen
  simp [Track.step, getIdx, gs, List.getD, List.getElem?_eq_getElem (show i / 8 < t.steps.length by omega), bind,
    Except.bind, pure, Except.pure]

theorem gdetectEdge (h : Shape j.track) {i : ℕ} (hi : i < j.track.keyCount) (fwd : Bool) :
    detectEdge j (before j.track.keyCount i) i fwd = .ok ((gcross j.track j.threshold i).map
      fun e => ⟨e.ratio, if fwd then e.rising else !e.rising⟩) := by
  have hj := before_lt hi
  have hr : edgeRatio j (before j.track.keyCount i) i (gv j.track (before j.track.keyCount i))
      (gv j.track i) = .ok (gpos j.track j.threshold i) := by
    simp only [edgeRatio, gstep_eq h hj, gratios_get h hi, gratios_get h hj, bind, Except.bind, pure, Except.pure, gpos]
    split
    · rfl
    · split <;> rfl
  simp only [detectEdge, gvalues_get h hi, gvalues_get h hj, hr, bind, Except.bind, pure, Except.pure, gcross]
  split
  · cases fwd <;> rfl
  · split
    · cases fwd <;> rfl
    · rfl

/-- The range test of the job. -/
abbrev inRange (lo hi o r : α) : Prop := lo ≤ r ∧ (r < hi ∨ 1 + o ≤ hi)

/-- The edge at key `i` of the loop starting at `o`, if it is in range. -/
def hit (t : Track α α) (thr lo hi o : α) (i : Nat) : Option (Edge α) :=
  (gcross t thr i).bind fun e =>
    if inRange lo hi o (e.ratio + o) then some ⟨e.ratio + o, e.rising⟩ else none

/-- The keys of a list in turn; `brk` ends the loop at a key that is not reported. -/
def scan {β : Type} (f : Nat → Option β) (brk : Nat → Bool) : List Nat → List β
  | [] => []
  | i :: is => match f i with
    | some e => e :: scan f brk is
    | none => if brk i then [] else scan f brk is

/-- The loops' starts: `x`, `x + 1`, `x + 1 + 1`, ... -/
def ups (x : α) : Nat → α
  | 0 => x
  | n + 1 => ups x n + 1

def downs (x : α) : Nat → α
  | 0 => x
  | n + 1 => downs x n - 1

/-- What one forward loop yields. -/
def loopF (j : Job α) (o : α) : List (Edge α) :=
  scan (hit j.track j.threshold j.from_ j.to_ o) (fun i => decide (j.to_ ≤ gr j.track i + o)) (List.range j.track.keyCount)

/-- What one backward loop yields. -/
def loopB (j : Job α) (o : α) : List (Edge α) :=
  (scan (hit j.track j.threshold j.to_ j.from_ o) (fun i => decide (gr j.track i + o ≤ j.to_))
    (List.range j.track.keyCount).reverse).map flipEdge
where flipEdge (e : Edge α) : Edge α := ⟨e.ratio, !e.rising⟩

theorem gstepForward (h : Shape j.track) {o : α} {i : ℕ} (hi : i < j.track.keyCount) :
    stepForward j ⟨true, o, (i : ℤ)⟩ = .ok (match hit j.track j.threshold j.from_ j.to_ o i with
      | some x => .emit x ⟨true, o, ((i + 1 : ℕ) : ℤ)⟩
      | none => if j.to_ ≤ gr j.track i + o then .cont ⟨true, o + 1, 0⟩
        else .cont ⟨true, o, ((i + 1 : ℕ) : ℤ)⟩) := by
  simp only [stepForward, prevKey_eq hi, Int.toNat_natCast, gdetectEdge h hi, bind, Except.bind,
    pure, Except.pure, gratios_get h hi, if_true, hit]
  cases hc : gcross j.track j.threshold i with
  | none =>
    simp only [Option.map_none, Option.bind_none]
    split <;> simp
  | some e =>
    simp only [Option.map_some, Option.bind_some]
    by_cases hW : j.from_ ≤ e.ratio + o ∧ (e.ratio + o < j.to_ ∨ 1 + o ≤ j.to_)
    · simp only [if_pos hW]
      simp
    · simp only [if_neg hW]
      split <;> simp

theorem gstepBackward (h : Shape j.track) {o : α} {i : ℕ} (hi : i < j.track.keyCount) :
    stepBackward j ⟨true, o, (i : ℤ)⟩ = .ok (match hit j.track j.threshold j.to_ j.from_ o i with
      | some x => .emit (loopB.flipEdge x) ⟨true, o, (i : ℤ) - 1⟩
      | none => if gr j.track i + o ≤ j.to_ then .cont ⟨true, o - 1, (j.track.keyCount : ℤ) - 1⟩
        else .cont ⟨true, o, (i : ℤ) - 1⟩) := by
  simp only [stepBackward, prevKey_eq hi, Int.toNat_natCast, gdetectEdge h hi, bind, Except.bind,
    pure, Except.pure, gratios_get h hi, hit]
  cases hc : gcross j.track j.threshold i with
  | none =>
    simp only [Option.map_none, Option.bind_none]
    split <;> simp
  | some e =>
    simp only [Option.map_some, Option.bind_some]
    by_cases hW : j.to_ ≤ e.ratio + o ∧ (e.ratio + o < j.from_ ∨ 1 + o ≤ j.from_)
    · simp only [if_pos hW]
      simp [loopB.flipEdge]
    · simp only [if_neg hW]
      split <;> simp

theorem collects_loopF (h : Shape j.track) (hf : j.from_ < j.to_) {o : α} (ho : o < j.to_) {L : List (Edge α)}
    (hL : Collects j ⟨true, o + 1, 0⟩ L) : ∀ (m i : ℕ), i + m = j.track.keyCount →
    Collects j ⟨true, o, (i : ℤ)⟩
      (scan (hit j.track j.threshold j.from_ j.to_ o) (fun i => decide (j.to_ ≤ gr j.track i + o)) (List.range' i m) ++ L) := by
  intro m
  induction m with
  | zero =>
    intro i him
    simp only [List.range'_zero, scan, List.nil_append]
    refine .cont ?_ hL
    simp only [step, hf, ho, if_true, if_false, Bool.true_eq_false, Nat.cast_lt]
    rw [if_neg (by omega)]
  | succ m ih =>
    intro i him
    have hi : i < j.track.keyCount := by omega
    have hstep : step j ⟨true, o, (i : ℤ)⟩ = stepForward j ⟨true, o, (i : ℤ)⟩ := by
      simp only [step, hf, ho, if_true, if_false, Bool.true_eq_false, Nat.cast_lt]
      rw [if_pos hi]
    rw [gstepForward h hi] at hstep
    rw [List.range'_succ]
    unfold scan
    cases he : hit j.track j.threshold j.from_ j.to_ o i with
    | some x =>
      rw [he] at hstep
      exact .emit hstep (ih (i + 1) (by omega))
    | none =>
      rw [he] at hstep
      simp only [decide_eq_true_eq] at hstep ⊢
      split at hstep
      · rename_i hb
        rw [if_pos hb]
        exact .cont hstep hL
      · rename_i hb
        rw [if_neg hb]
        exact .cont hstep (ih (i + 1) (by omega))

/-- Forward: `n` loops are left. -/
theorem collectsF (h : Shape j.track) (hf : j.from_ < j.to_) : ∀ (n : ℕ) (x : α),
    (∀ k, k < n → ups x k < j.to_) → ¬ ups x n < j.to_ →
    Collects j ⟨true, x, 0⟩ ((List.range n).flatMap fun k => loopF j (ups x k)) := by
  intro n
  induction n with
  | zero =>
    intro x _ hn
    refine .stop ?_
    have : ¬ x < j.to_ := hn
    simp [step, hf, this]
  | succ n ih =>
    intro x hlt hn
    have sh : ∀ k, ups (x + 1) k = ups x (k + 1) := by
      intro k
      induction k with
      | zero => rfl
      | succ k ihk => rw [ups, ihk]; rfl
    rw [List.range_succ_eq_map, List.flatMap_cons, List.flatMap_map]
    have h0 : x < j.to_ := hlt 0 (by omega)
    have hr := ih (x + 1) (fun k hk => by rw [sh]; exact hlt _ (by omega)) (by rw [sh]; exact hn)
    simp only [sh] at hr
    have := collects_loopF h hf h0 hr j.track.keyCount 0 (by simp)
    rw [← List.range_eq_range'] at this
    exact this

theorem yieldsF (h : Shape j.track) (hf : j.from_ < j.to_) (hne : feq j.from_ j.to_ = false) (n : ℕ)
    (hlt : ∀ k, k < n → ups (FloorOp.floor j.from_) k < j.to_) (hn : ¬ ups (FloorOp.floor j.from_) n < j.to_) :
    Yields j ((List.range n).flatMap fun k => loopF j (ups (FloorOp.floor j.from_) k)) := by
  have := collectsF h hf n _ hlt hn
  unfold Yields Iter.new
  rw [hne, if_pos hf]
  exact this

theorem collects_loopB (h : Shape j.track) (hf : ¬ j.from_ < j.to_) {o : α} (ho : j.to_ < o + 1) {L : List (Edge α)}
    (hL : Collects j ⟨true, o - 1, (j.track.keyCount : ℤ) - 1⟩ L) : ∀ (m : ℕ), m ≤ j.track.keyCount →
    Collects j ⟨true, o, (m : ℤ) - 1⟩
      ((scan (hit j.track j.threshold j.to_ j.from_ o) (fun i => decide (gr j.track i + o ≤ j.to_))
        (List.range m).reverse).map loopB.flipEdge ++ L) := by
  intro m
  induction m with
  | zero =>
    intro _
    simp only [List.range_zero, List.reverse_nil, scan, List.map_nil, List.nil_append]
    refine .cont ?_ hL
    simp only [step, hf, ho, if_true, if_false, Bool.true_eq_false]
    rw [if_neg (by simp)]
  | succ m ih =>
    intro hm
    have hi : m < j.track.keyCount := by omega
    have e : ((m + 1 : ℕ) : ℤ) - 1 = (m : ℤ) := by push_cast; ring
    rw [e]
    have hstep : step j ⟨true, o, (m : ℤ)⟩ = stepBackward j ⟨true, o, (m : ℤ)⟩ := by
      simp only [step, hf, ho, if_true, if_false, Bool.true_eq_false]
      rw [if_pos (by omega)]
    rw [gstepBackward h hi] at hstep
    rw [List.range_succ, List.reverse_append, List.reverse_singleton, List.singleton_append]
    unfold scan
    cases he : hit j.track j.threshold j.to_ j.from_ o m with
    | some x =>
      rw [he] at hstep
      exact .emit hstep (ih (by omega))
    | none =>
      rw [he] at hstep
      simp only [decide_eq_true_eq] at hstep ⊢
      split at hstep
      · rename_i hb
        rw [if_pos hb]
        exact .cont hstep hL
      · rename_i hb
        rw [if_neg hb]
        exact .cont hstep (ih (by omega))

theorem collectsB (h : Shape j.track) (hf : ¬ j.from_ < j.to_) : ∀ (n : ℕ) (x : α),
    (∀ k, k < n → j.to_ < downs x k + 1) → ¬ j.to_ < downs x n + 1 →
    Collects j ⟨true, x, (j.track.keyCount : ℤ) - 1⟩ ((List.range n).flatMap fun k => loopB j (downs x k)) := by
  intro n
  induction n with
  | zero =>
    intro x _ hn
    refine .stop ?_
    have : ¬ j.to_ < x + 1 := hn
    simp [step, hf, this]
  | succ n ih =>
    intro x hlt hn
    have sh : ∀ k, downs (x - 1) k = downs x (k + 1) := by
      intro k
      induction k with
      | zero => rfl
      | succ k ihk => rw [downs, ihk]; rfl
    rw [List.range_succ_eq_map, List.flatMap_cons, List.flatMap_map]
    have h0 : j.to_ < x + 1 := hlt 0 (by omega)
    have hr := ih (x - 1) (fun k hk => by rw [sh]; exact hlt _ (by omega)) (by rw [sh]; exact hn)
    simp only [sh] at hr
    exact collects_loopB h hf h0 hr j.track.keyCount le_rfl

theorem yieldsB (h : Shape j.track) (hf : ¬ j.from_ < j.to_) (hne : feq j.from_ j.to_ = false) (n : ℕ)
    (hlt : ∀ k, k < n → j.to_ < downs (FloorOp.floor j.from_) k + 1)
    (hn : ¬ j.to_ < downs (FloorOp.floor j.from_) n + 1) :
    Yields j ((List.range n).flatMap fun k => loopB j (downs (FloorOp.floor j.from_) k)) := by
  have := collectsB h hf n _ hlt hn
  unfold Yields Iter.new
  rw [hne, if_neg hf]
  exact this

/-- Leaving a loop early loses nothing if nothing follows. -/
theorem scan_eq {β : Type} {f : Nat → Option β} {brk : Nat → Bool} : ∀ {l : List Nat},
    l.Pairwise (fun i k => brk i = true → f i = none → f k = none) → scan f brk l = l.filterMap f
  | [], _ => rfl
  | i :: is, h => by
    rw [List.pairwise_cons] at h
    unfold scan
    cases hf : f i with
    | some e => rw [List.filterMap_cons_some hf]; simp only; rw [scan_eq h.2]
    | none =>
      rw [List.filterMap_cons_none hf]
      simp only
      split
      · rename_i hb
        rw [eq_comm, List.filterMap_eq_nil_iff]
        exact fun k hk => h.1 k hk hb hf
      · exact scan_eq h.2

/-- What is yielded anyway is a part of what could be. -/
theorem scan_prefix {β : Type} {f : Nat → Option β} {brk : Nat → Bool} : ∀ {l : List Nat},
    scan f brk l <+: l.filterMap f
  | [] => by simp [scan]
  | i :: is => by
    unfold scan
    cases hf : f i with
    | some e => rw [List.filterMap_cons_some hf]; exact (List.prefix_cons_inj e).2 scan_prefix
    | none =>
      rw [List.filterMap_cons_none hf]
      simp only
      split
      · exact List.nil_prefix
      · exact scan_prefix

end Ozz.Triggering
