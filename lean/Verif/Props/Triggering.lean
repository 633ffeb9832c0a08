import Verif.Proofs.Triggering
import Mathlib.Data.Rat.Floor

/-! Properties of track triggering: C41 to C45. -/

set_option linter.unusedSectionVars false

namespace Ozz.Props
open Ozz.Spec Ozz.Triggering

section
variable {α : Type} [Field α] [LinearOrder α] [IsStrictOrderedRing α] [FloorRing α]

/-- C41, forward. For any track, threshold and `from < to` the iteration terminates without a panic
and reports exactly the crossings from `from` to `to`, each once, in order, with the right
direction. Nothing else can be reported (the second part), and the reported ratios do not decrease. -/
theorem C41_forward_reports_crossings {j : Job α} (h : TrackOk j.track) (hf : j.from_ < j.to_) :
    (∃ l, Yields j l) ∧ ∀ l, Yields j l →
      IsCrossingList j.track j.threshold j.from_ j.to_ l ∧ l.Pairwise (fun a b => a.ratio ≤ b.ratio) := by
  obtain ⟨l, hl, hc⟩ := yields_fwd h hf
  refine ⟨⟨l, hl⟩, ?_⟩
  intro l' hl'
  rw [← hl.det hl']
  exact ⟨hc, isCrossingList_nondecreasing h hc⟩

/-- C41, empty range. -/
theorem C41_empty_range {j : Job α} (hf : j.from_ = j.to_) {l : List (Edge α)} :
    Yields j l ↔ l = [] := by
  constructor
  · intro h; exact h.det (yields_eq hf)
  · rintro rfl; exact yields_eq hf

/-- C41, uniqueness of the specification: the list of crossings of a range is unique, so the
theorem above determines the output. -/
theorem C41_crossing_list_unique {t : Track α α} (h : TrackOk t) {thr lo hi : α}
    {l l' : List (Edge α)} (h1 : IsCrossingList t thr lo hi l) (h2 : IsCrossingList t thr lo hi l') :
    l = l' := isCrossingList_unique h h1 h2

/-- C42. Backward, the crossings between `to` and `from` are reported latest first and with rising
and falling exchanged; in particular the output mirrors that of the forward job. -/
theorem C42_backward_mirrors_forward {j : Job α} (h : TrackOk j.track) (hf : j.to_ < j.from_) :
    (∃ l, Yields j l) ∧ ∀ l l', Yields j l → Yields { j with from_ := j.to_, to_ := j.from_ } l' →
      l = (l'.map fun e => ⟨e.ratio, !e.rising⟩).reverse := by
  obtain ⟨l, hl, hc⟩ := yields_bwd h hf
  refine ⟨⟨l, hl⟩, ?_⟩
  intro l1 l2 h1 h2
  rw [h1.det hl]
  have h3 := ((C41_forward_reports_crossings (j := { j with from_ := j.to_, to_ := j.from_ }) h hf).2 l2 h2).1
  have := isCrossingList_unique h h3 hc
  rw [this]
  rw [List.map_reverse, List.reverse_reverse, List.map_map]
  have : (fun e : Edge α => (⟨e.ratio, !e.rising⟩ : Edge α)) ∘ Triggering.flip = id := by
    funext x; simp [Triggering.flip]
  rw [this, List.map_id]

/-- C43. Splitting a range neither loses nor duplicates an event, whatever the split point. -/
theorem C43_split_range {t : Track α α} (h : TrackOk t) {thr a b c : α} (hab : a ≤ b) (hbc : b ≤ c)
    {l1 l2 l3 : List (Edge α)} (h1 : Yields ⟨t, a, b, thr⟩ l1) (h2 : Yields ⟨t, b, c, thr⟩ l2)
    (h3 : Yields ⟨t, a, c, thr⟩ l3) : l3 = l1 ++ l2 := by
  rcases hab.lt_or_eq with hab' | hab'
  · rcases hbc.lt_or_eq with hbc' | hbc'
    · have c1 := ((C41_forward_reports_crossings (j := ⟨t, a, b, thr⟩) h hab').2 _ h1).1
      have c2 := ((C41_forward_reports_crossings (j := ⟨t, b, c, thr⟩) h hbc').2 _ h2).1
      have c3 := ((C41_forward_reports_crossings (j := ⟨t, a, c, thr⟩) h (hab'.trans hbc')).2 _ h3).1
      exact isCrossingList_unique h c3 (isCrossingList_append h hab hbc c1 c2)
    · subst hbc'
      rw [(C41_empty_range (j := ⟨t, b, b, thr⟩) rfl).1 h2, List.append_nil]
      exact h3.det h1
  · subst hab'
    rw [(C41_empty_range (j := ⟨t, a, a, thr⟩) rfl).1 h1, List.nil_append]
    exact h3.det h2

/-- C43 for backward playback. -/
theorem C43_split_range_backward {t : Track α α} (h : TrackOk t) {thr a b c : α} (hab : a ≤ b)
    (hbc : b ≤ c) {l1 l2 l3 : List (Edge α)} (h1 : Yields ⟨t, c, b, thr⟩ l1)
    (h2 : Yields ⟨t, b, a, thr⟩ l2) (h3 : Yields ⟨t, c, a, thr⟩ l3) : l3 = l1 ++ l2 := by
  have fwd : ∀ {x y : α}, x ≤ y → ∃ l, Yields ⟨t, x, y, thr⟩ l := by
    intro x y hxy
    rcases hxy.lt_or_eq with hlt | heq
    · exact (C41_forward_reports_crossings (j := ⟨t, x, y, thr⟩) h hlt).1
    · exact ⟨[], (C41_empty_range (j := ⟨t, x, y, thr⟩) heq).2 rfl⟩
  have mir : ∀ {x y : α} {l l' : List (Edge α)}, x ≤ y → Yields ⟨t, x, y, thr⟩ l →
      Yields ⟨t, y, x, thr⟩ l' → l' = (l.map fun e => ⟨e.ratio, !e.rising⟩).reverse := by
    intro x y l l' hxy hl hl'
    rcases hxy.lt_or_eq with hlt | heq
    · exact (C42_backward_mirrors_forward (j := ⟨t, y, x, thr⟩) h hlt).2 _ _ hl' hl
    · subst heq
      rw [(C41_empty_range (j := ⟨t, x, x, thr⟩) rfl).1 hl, (C41_empty_range (j := ⟨t, x, x, thr⟩) rfl).1 hl']
      rfl
  obtain ⟨f1, g1⟩ := fwd hbc
  obtain ⟨f2, g2⟩ := fwd hab
  obtain ⟨f3, g3⟩ := fwd (hab.trans hbc)
  rw [mir hbc g1 h1, mir hab g2 h2, mir (hab.trans hbc) g3 h3, C43_split_range h hab hbc g2 g1 g3,
    List.map_append, List.reverse_append]

/-- C44. Shifting the range by an integer number of loops shifts the events and nothing else. -/
theorem C44_periodic {t : Track α α} (h : TrackOk t) {thr a b : α} (n : ℤ) {l l' : List (Edge α)}
    (h1 : Yields ⟨t, a, b, thr⟩ l) (h2 : Yields ⟨t, a + n, b + n, thr⟩ l') :
    l' = l.map fun e => ⟨e.ratio + n, e.rising⟩ := by
  have fwd : ∀ {a b : α} {l l' : List (Edge α)}, a < b → Yields ⟨t, a, b, thr⟩ l →
      Yields ⟨t, a + n, b + n, thr⟩ l' → l' = l.map fun e => ⟨e.ratio + n, e.rising⟩ := by
    intro a b l l' hab h1 h2
    have c1 := ((C41_forward_reports_crossings (j := ⟨t, a, b, thr⟩) h hab).2 _ h1).1
    have c2 := ((C41_forward_reports_crossings (j := ⟨t, a + n, b + n, thr⟩) h
      (add_lt_add_left hab _)).2 _ h2).1
    exact isCrossingList_unique h c2 (isCrossingList_shift n c1)
  rcases lt_trichotomy a b with hab | hab | hab
  · exact fwd hab h1 h2
  · subst hab
    rw [(C41_empty_range (j := ⟨t, a, a, thr⟩) rfl).1 h1,
      (C41_empty_range (j := ⟨t, a + n, a + n, thr⟩) rfl).1 h2]
    rfl
  · obtain ⟨f, hf⟩ := (C41_forward_reports_crossings (j := ⟨t, b, a, thr⟩) h hab).1
    obtain ⟨f', hf'⟩ := (C41_forward_reports_crossings (j := ⟨t, b + n, a + n, thr⟩) h
      (add_lt_add_left hab _)).1
    rw [(C42_backward_mirrors_forward (j := ⟨t, a, b, thr⟩) h hab).2 _ _ h1 hf,
      (C42_backward_mirrors_forward (j := ⟨t, a + n, b + n, thr⟩) h (add_lt_add_left hab _)).2 _ _ h2 hf',
      fwd hab hf hf']
    simp [List.map_reverse, Function.comp_def]

/-- C45. Consecutive edges alternate between rising and falling, forward and backward. -/
theorem C45_edges_alternate {j : Job α} (h : TrackOk j.track) {l : List (Edge α)} (hl : Yields j l)
    {n : ℕ} {a b : Edge α} (ha : l[n]? = some a) (hb : l[n + 1]? = some b) : b.rising = !a.rising := by
  rcases lt_trichotomy j.from_ j.to_ with hf | hf | hf
  · exact alternates h ((C41_forward_reports_crossings h hf).2 l hl).1 ha hb
  · rw [(C41_empty_range hf).1 hl] at ha; simp at ha
  · obtain ⟨f, hf'⟩ := (C41_forward_reports_crossings (j := { j with from_ := j.to_, to_ := j.from_ }) h hf).1
    have hm := (C42_backward_mirrors_forward h hf).2 _ _ hl hf'
    have hc := ((C41_forward_reports_crossings (j := { j with from_ := j.to_, to_ := j.from_ }) h hf).2 f hf').1
    have hn : n + 1 < l.length := (List.getElem?_eq_some_iff.1 hb).1
    have hlen : l.length = f.length := by rw [hm]; simp
    rw [hm, List.getElem?_reverse (by simp; omega)] at ha hb
    simp only [List.length_map, List.getElem?_map, Option.map_eq_some_iff] at ha hb
    obtain ⟨a', ha1, rfl⟩ := ha
    obtain ⟨b', hb1, rfl⟩ := hb
    have e : f.length - 1 - n = f.length - 1 - (n + 1) + 1 := by omega
    rw [e] at ha1
    have := alternates h hc hb1 ha1
    simp [this]

end

/-- Outside exact arithmetic. In any arithmetic (nothing is assumed about the operations) in which
adding one to the loop counter does not change it, as happens for `f32` from 2^24 on, the forward
iteration never terminates. -/
theorem C41_no_progress_never_ends {α : Type} [Add α] [Sub α] [Mul α] [Div α] [LE α] [LT α]
    [DecidableLE α] [DecidableLT α] [Zero α] [One α] [FloorOp α] {j : Job α}
    (hf : j.from_ < j.to_) (hne : feq j.from_ j.to_ = false) (ho : FloorOp.floor j.from_ < j.to_)
    (hst : FloorOp.floor j.from_ + 1 = (FloorOp.floor j.from_ : α)) (l : List (Edge α)) :
    ¬ Yields j l :=
  not_collects_of_stuck (by simp [Iter.new, hne]) hf ho hst

/-! ### Examples -/

namespace TriggeringExample

/-- Four keys; the second one is a step key and the last one lies at the end of the loop. -/
def track : Track ℚ ℚ where
  keyCount := 4
  ratios := [0, 1/4, 1/2, 1]
  values := [0, 2, 0, 2]
  steps := [0b0110]
  name := []

theorem trackOk : TrackOk track where
  ratiosLen := rfl
  valuesLen := rfl
  stepsLen := by decide
  increasing := by decide +kernel
  nonneg := by decide +kernel
  leOne := by decide +kernel

example : Yields ⟨track, 1/16, 3/2, 1⟩
    [⟨1/8, true⟩, ⟨1/2, false⟩, ⟨1, true⟩, ⟨1, false⟩, ⟨9/8, true⟩] := by
  exact collects_of_collect (n := 20) (by decide +kernel)

end TriggeringExample

/-- C41, where the code departs from the half-open range [from, to). A crossing at the very end of a
loop is reported by a range that ends there, although its ratio is not below `to` ... -/
theorem C41_end_of_loop_belongs_to_the_loop :
    ∃ (j : Job ℚ) (e : Edge ℚ), TrackOk j.track ∧ j.from_ < j.to_ ∧ Yields j [e] ∧ ¬ e.ratio < j.to_ := by
  refine ⟨⟨TriggeringExample.track, 3/4, 1, 1⟩, ⟨1, true⟩, TriggeringExample.trackOk,
    by decide +kernel, ?_, by decide +kernel⟩
  exact collects_of_collect (n := 20) (by decide +kernel)

/-- ... and not by the range starting there, which only reports the jump back to the first key. -/
theorem C41_end_of_loop_not_in_next_range :
    Yields ⟨TriggeringExample.track, (1 : ℚ), 17/16, 1⟩ [⟨1, false⟩] := by
  exact collects_of_collect (n := 20) (by decide +kernel)

end Ozz.Props
