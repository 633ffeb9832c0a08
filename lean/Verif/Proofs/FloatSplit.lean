import Verif.Proofs.FloatTrigger

/-! Splitting and mirroring ranges of the triggering job in single precision. -/

namespace Ozz.Triggering

open Ieee Spec F32 Sampling

variable {t : Track F32 F32} {thr : F32}

/-- The float of a whole number. -/
noncomputable def intF (k : ℤ) : F32 := open Classical in
  if h : |k| ≤ 2 ^ 24 then (exists_int32 h).choose else 0

theorem intF_loop {k : ℤ} (h1 : -2 ^ 24 ≤ k) (h2 : k + 1 ≤ 2 ^ 24) : LoopAt (intF k) k := by
  have h : |k| ≤ 2 ^ 24 := by rw [abs_le]; constructor <;> omega
  have hs := (exists_int32 h).choose_spec
  unfold intF
  rw [dif_pos h]
  exact ⟨hs.1, hs.2, h1, h2⟩

/-- What loop `k` reports at key `i`, as numbers. -/
noncomputable def vis (t : Track F32 F32) (thr : F32) (lo hi : ℝ) (k : ℤ) (i : ℕ) : Option (ℝ × Bool) :=
  open Classical in
  (gcross t thr i).bind fun e =>
    if lo ≤ val (e.ratio + intF k) ∧ (val (e.ratio + intF k) < hi ∨ (k + 1 : ℝ) ≤ hi) then
      some (val (e.ratio + intF k), e.rising) else none

theorem vis_iff {lo hi : ℝ} {k : ℤ} {i : ℕ} {x : ℝ × Bool} : vis t thr lo hi k i = some x ↔
    ∃ e, gcross t thr i = some e ∧ x = (val (e.ratio + intF k), e.rising) ∧ lo ≤ x.1 ∧ (x.1 < hi ∨ (k + 1 : ℝ) ≤ hi) := by
  unfold vis
  cases hc : gcross t thr i with
  | none => simp
  | some e =>
    simp only [Option.bind_some]
    constructor
    · intro hx
      split at hx
      · rename_i hr
        injection hx with hx
        subst hx
        exact ⟨e, rfl, rfl, hr⟩
      · cases hx
    · rintro ⟨e', he, rfl, hr⟩
      injection he with he; subst he
      rw [if_pos hr]

theorem hit_vis (h : Track32Ok t) (hthr : Small thr) {lo hi o : F32} {k : ℤ} (hlo : Finite32 lo.bits)
    (hhi : Finite32 hi.bits) (ho : LoopAt o k) {i : Nat} (hi' : i < t.keyCount) :
    (hit t thr lo hi o i).map report = vis t thr (val lo) (val hi) k i := by
  have hI := intF_loop ho.lo ho.hi
  ext x
  rw [Option.map_eq_some_iff, vis_iff]
  constructor
  · rintro ⟨e, he, rfl⟩
    obtain ⟨e', hc, rfl, h1, h2⟩ := (hit_iff h hthr hlo hhi ho hi').1 he
    obtain ⟨E, -, hp⟩ := gcross_some h hthr hi' hc
    exact ⟨e', hc, by rw [report, time_same ho hI hp.unit], h1, h2⟩
  · rintro ⟨e, hc, rfl, h1, h2⟩
    obtain ⟨E, -, hp⟩ := gcross_some h hthr hi' hc
    simp only [← time_same ho hI hp.unit] at h1 h2
    exact ⟨_, (hit_iff h hthr hlo hhi ho hi').2 ⟨e, hc, rfl, h1, h2⟩, by rw [report, time_same ho hI hp.unit]⟩

/-- What the loops from `A` on report. -/
noncomputable def seen (t : Track F32 F32) (thr : F32) (lo hi : ℝ) (A : ℤ) (n : ℕ) : List (ℝ × Bool) :=
  ((List.range n).flatMap fun (m : ℕ) => (List.range t.keyCount).map fun i => (A + (m : ℤ), i)).filterMap
    fun ki => vis t thr lo hi ki.1 ki.2

theorem seen_eq (lo hi : ℝ) (A : ℤ) (n : ℕ) : seen t thr lo hi A n =
    (List.range n).flatMap fun (m : ℕ) => (List.range t.keyCount).filterMap (vis t thr lo hi (A + m)) := by
  unfold seen
  rw [List.filterMap_flatMap]
  simp only [List.filterMap_map]
  rfl

theorem seen_congr {lo hi lo' hi' : ℝ} {A : ℤ} {n : ℕ}
    (h : ∀ m < n, ∀ i < t.keyCount, vis t thr lo hi (A + m) i = vis t thr lo' hi' (A + m) i) :
    seen t thr lo hi A n = seen t thr lo' hi' A n := by
  rw [seen_eq, seen_eq]
  refine List.flatMap_congr fun m hm => ?_
  exact List.filterMap_congr fun i hi => h m (List.mem_range.1 hm) i (List.mem_range.1 hi)

theorem seen_add (lo hi : ℝ) (A : ℤ) (n n' : ℕ) :
    seen t thr lo hi A (n + n') = seen t thr lo hi A n ++ seen t thr lo hi (A + n) n' := by
  rw [seen_eq, seen_eq, seen_eq, List.range_add, List.flatMap_append, List.flatMap_map]
  congr 1
  refine List.flatMap_congr fun m _ => ?_
  congr 2
  push_cast; ring

theorem seen_nil {lo hi : ℝ} {A : ℤ} {n : ℕ} (h : ∀ m < n, ∀ i < t.keyCount, vis t thr lo hi (A + m) i = none) :
    seen t thr lo hi A n = [] := by
  rw [seen_eq, List.flatMap_eq_nil_iff]
  intro m hm
  rw [List.filterMap_eq_nil_iff]
  exact fun i hi => h m (List.mem_range.1 hm) i (List.mem_range.1 hi)

theorem vis_after (h : Track32Ok t) (hthr : Small thr) {lo hi : ℝ} {k : ℤ} (h1 : -2 ^ 24 ≤ k) (h2 : k + 1 ≤ 2 ^ 24)
    (hk : hi ≤ k) {i : ℕ} (hi' : i < t.keyCount) : vis t thr lo hi k i = none := by
  cases hv : vis t thr lo hi k i with
  | none => rfl
  | some x =>
    obtain ⟨e, hc, rfl, h3, h4⟩ := vis_iff.1 hv
    obtain ⟨E, -, hp⟩ := gcross_some h hthr hi' hc
    have := (time_ok (intF_loop h1 h2) hp.unit).2.1
    rcases h4 with h4 | h4
    · simp only at h4; linarith
    · linarith

theorem map_filterMap_report {f : ℕ → Option (Edge F32)} {g : ℕ → Option (ℝ × Bool)} {l : List ℕ}
    (h : ∀ i ∈ l, (f i).map report = g i) : (l.filterMap f).map report = l.filterMap g := by
  rw [List.map_filterMap]
  exact List.filterMap_congr h

variable {j : Job F32}

/-- A forward loop that rounding does not end early reports all there is. -/
theorem loopF_seen (h : Track32Ok j.track) (hthr : Small j.threshold) (hf : Finite32 j.from_.bits)
    (ht : Finite32 j.to_.bits) (hce : ClearEnd j.track (val j.to_)) {o : F32} {k : ℤ} (ho : LoopAt o k) :
    (loopF j o).map report =
      (List.range j.track.keyCount).filterMap (vis j.track j.threshold (val j.from_) (val j.to_) k) := by
  unfold loopF
  rw [scan_eq]
  · exact map_filterMap_report fun i hi => hit_vis h hthr hf ht ho (List.mem_range.1 hi)
  · refine List.Pairwise.imp_of_mem ?_ List.pairwise_lt_range
    intro i m hi hm hlt hb hn
    have hi := List.mem_range.1 hi
    have hm := List.mem_range.1 hm
    have ui := gr_unit h hi
    have ti := time_ok ho ui
    rw [decide_eq_true_iff, le32_val ht ti.1] at hb
    cases hv : hit j.track j.threshold j.from_ j.to_ o m with
    | none => rfl
    | some x =>
      exfalso
      obtain ⟨e, hc, rfl, h1, h2⟩ := (hit_iff h hthr hf ht ho hm).1 hv
      obtain ⟨E, -, hp⟩ := gcross_some h hthr hm hc
      have hmo := timeMono32 ho ui hp.unit (hp.after _ hlt)
      rcases h2 with h2 | h2
      · linarith
      · have := hce o ho.finite (by rw [ho.eq, Int.floor_intCast]) (by rw [ho.eq]; linarith [ti.2.2.1]) _ (gr_mem h hi)
          ((gr_lt h hlt hm).trans_le (gr_unit h hm).le_one)
        linarith

/-- A backward loop that rounding does not end early reports all there is. -/
theorem loopB_seen (h : Track32Ok j.track) (hthr : Small j.threshold) (hf : Finite32 j.from_.bits)
    (ht : Finite32 j.to_.bits) (hcs : ClearStart j.track (val j.to_)) {o : F32} {k : ℤ} (ho : LoopAt o k) :
    (((loopB j o).map loopB.flipEdge).reverse).map report =
      (List.range j.track.keyCount).filterMap (vis j.track j.threshold (val j.to_) (val j.from_) k) := by
  unfold loopB
  rw [flip_flip32, scan_eq]
  · rw [← List.filterMap_reverse, List.reverse_reverse]
    exact map_filterMap_report fun i hi => hit_vis h hthr ht hf ho (List.mem_range.1 hi)
  · refine List.Pairwise.imp_of_mem (R := fun a b => b < a) ?_ (List.pairwise_reverse.2 List.pairwise_lt_range)
    intro i m hi hm hlt hb hn
    have hi := List.mem_range.1 (List.mem_reverse.1 hi)
    have hm := List.mem_range.1 (List.mem_reverse.1 hm)
    have ui := gr_unit h hi
    have ti := time_ok ho ui
    rw [decide_eq_true_iff, le32_val ti.1 ht] at hb
    cases hv : hit j.track j.threshold j.to_ j.from_ o m with
    | none => rfl
    | some x =>
      exfalso
      obtain ⟨e, hc, rfl, h1, h2⟩ := (hit_iff h hthr ht hf ho hm).1 hv
      obtain ⟨E, -, hp⟩ := gcross_some h hthr hm hc
      have hmo := timeMono32 ho hp.unit ui (hp.upto _ hlt hi)
      have heq : val (gr j.track i + o) = val j.to_ := le_antisymm hb (by linarith)
      have gap := hcs o ho.finite (by rw [ho.eq, Int.floor_intCast]) _ (gr_mem h hi) heq _ (gr_mem h hm) (gr_lt h hlt hi)
      rw [ho.eq] at gap
      have c1 := abs_le.mp ti.2.2.2
      have c2 := abs_le.mp (time_ok ho hp.unit).2.2.2
      have c3 := hp.over
      have e1 : (|(k : ℝ)| + 2) / 2 ^ 21 = (|(k : ℝ)| + 1) / 2 ^ 24 * 8 + 1 / 2 ^ 21 := by ring
      have e2 : 0 ≤ |(k : ℝ)| := abs_nonneg _
      have e3 : (1 : ℝ) / 2 ^ 24 ≤ (|(k : ℝ)| + 1) / 2 ^ 24 := by gcongr; linarith
      have e4 : (1 : ℝ) / 2 ^ 150 < 1 / 2 ^ 24 := by norm_num
      linarith [c1.1, c1.2, c2.1, c2.2]

/-- What a forward job reports, if rounding does not end a loop early. -/
theorem seen_fwd (h : Track32Ok j.track) (hthr : Small j.threshold) (hf : Time j.from_) (ht : Time j.to_)
    (hlt : val j.from_ < val j.to_) (hce : ClearEnd j.track (val j.to_)) : ∃ l n, Yields j l ∧
    ⌊val j.from_⌋ + (n : ℕ) = ⌈val j.to_⌉ ∧
    l.map report = seen j.track j.threshold (val j.from_) (val j.to_) ⌊val j.from_⌋ n := by
  obtain ⟨n, o, hn, ho, hy⟩ := loops_fwd h hf ht hlt
  refine ⟨_, n, hy, hn, ?_⟩
  rw [List.map_flatMap, seen_eq]
  exact List.flatMap_congr fun m hm => loopF_seen h hthr hf.finite ht.finite hce (ho m (List.mem_range.1 hm))

theorem seen_bwd (h : Track32Ok j.track) (hthr : Small j.threshold) (hf : Time j.from_) (ht : Time j.to_)
    (hlt : val j.to_ < val j.from_) (hcs : ClearStart j.track (val j.to_)) : ∃ l n, Yields j l ∧
    ⌊val j.to_⌋ + (n : ℕ) = ⌊val j.from_⌋ + 1 ∧
    (l.map loopB.flipEdge).reverse.map report = seen j.track j.threshold (val j.to_) (val j.from_) ⌊val j.to_⌋ n := by
  obtain ⟨n, o, l, hn, ho, hy, hl⟩ := loops_bwd h hf ht hlt
  refine ⟨l, n, hy, hn, ?_⟩
  rw [hl, List.map_flatMap, seen_eq]
  exact List.flatMap_congr fun m hm => loopB_seen h hthr hf.finite ht.finite hcs (ho m (List.mem_range.1 hm))

/-- Sorting what is reported into two kinds. -/
theorem filterMap_perm {α β : Type} {f g g' : α → Option β} : ∀ {l : List α},
    (∀ a ∈ l, (f a = g a ∧ g' a = none) ∨ (f a = g' a ∧ g a = none)) →
    (l.filterMap f).Perm (l.filterMap g ++ l.filterMap g')
  | [], _ => by simp
  | a :: l, h => by
    have ih := filterMap_perm (l := l) fun b hb => h b (List.mem_cons_of_mem _ hb)
    rcases h a List.mem_cons_self with ⟨h1, h2⟩ | ⟨h1, h2⟩
    · rw [List.filterMap_cons_none h2]
      cases hf : g a with
      | none => rw [List.filterMap_cons_none (h1.trans hf), List.filterMap_cons_none hf]; exact ih
      | some b =>
        rw [List.filterMap_cons_some (h1.trans hf), List.filterMap_cons_some hf, List.cons_append]
        exact ih.cons b
    · rw [List.filterMap_cons_none h2]
      cases hf : g' a with
      | none => rw [List.filterMap_cons_none (h1.trans hf), List.filterMap_cons_none hf]; exact ih
      | some b =>
        rw [List.filterMap_cons_some (h1.trans hf), List.filterMap_cons_some hf]
        exact (ih.cons b).trans List.perm_middle.symm

theorem filterMap_split {α β : Type} {f g g' : α → Option β} {R : β → β → Prop} : ∀ {l : List α},
    (∀ a ∈ l, (f a = g a ∧ g' a = none) ∨ (f a = g' a ∧ g a = none)) → (l.filterMap f).Pairwise R →
    (∀ a ∈ l, ∀ b ∈ l, ∀ x y, g' a = some x → g b = some y → ¬ R x y) →
    l.filterMap f = l.filterMap g ++ l.filterMap g'
  | [], _, _, _ => by simp
  | a :: l, h, hR, hn => by
    have ih := filterMap_split (l := l) (R := R) fun b hb => h b (List.mem_cons_of_mem _ hb)
    have hn' : ∀ u ∈ l, ∀ b ∈ l, ∀ x y, g' u = some x → g b = some y → ¬ R x y := fun u hu b hb =>
      hn u (List.mem_cons_of_mem _ hu) b (List.mem_cons_of_mem _ hb)
    rcases h a List.mem_cons_self with ⟨h1, h2⟩ | ⟨h1, h2⟩
    · rw [List.filterMap_cons_none h2]
      cases hf : g a with
      | none =>
        rw [List.filterMap_cons_none (h1.trans hf)] at hR ⊢
        rw [List.filterMap_cons_none hf]; exact ih hR hn'
      | some b =>
        rw [List.filterMap_cons_some (h1.trans hf)] at hR ⊢
        rw [List.filterMap_cons_some hf, List.cons_append, ih (List.pairwise_cons.1 hR).2 hn']
    · rw [List.filterMap_cons_none h2]
      cases hf : g' a with
      | none =>
        rw [List.filterMap_cons_none (h1.trans hf)] at hR ⊢
        rw [List.filterMap_cons_none hf]; exact ih hR hn'
      | some b =>
        rw [List.filterMap_cons_some (h1.trans hf)] at hR ⊢
        rw [List.filterMap_cons_some hf]
        rw [List.pairwise_cons] at hR
        have hg : l.filterMap g = [] := by
          rw [List.filterMap_eq_nil_iff]
          intro u hu
          cases hgu : g u with
          | none => rfl
          | some y =>
            exfalso
            refine hn a List.mem_cons_self u (List.mem_cons_of_mem _ hu) b y hf hgu (hR.1 y ?_)
            rcases h u (List.mem_cons_of_mem _ hu) with ⟨h3, -⟩ | ⟨-, h4⟩
            · exact List.mem_filterMap.2 ⟨u, hu, h3.trans hgu⟩
            · rw [hgu] at h4; cases h4
        rw [ih hR.2 hn', hg, List.nil_append, List.nil_append]

/-- Splitting what the loops report. -/
theorem seen_split (h : Track32Ok t) (hthr : Small thr) {a b c : ℝ} (hab : a ≤ b) (hbc : b ≤ c) {n1 n2 n3 : ℕ}
    (hlo : -2 ^ 24 ≤ ⌊a⌋) (hhi : ⌈c⌉ ≤ 2 ^ 24) (e1 : ⌊a⌋ + n1 = ⌈b⌉) (e2 : ⌊b⌋ + n2 = ⌈c⌉) (e3 : ⌊a⌋ + n3 = ⌈c⌉) :
    (seen t thr a c ⌊a⌋ n3).Perm (seen t thr a b ⌊a⌋ n1 ++ seen t thr b c ⌊b⌋ n2) ∧
    ((seen t thr a c ⌊a⌋ n3).Pairwise (fun x y => x.1 ≤ y.1) →
      seen t thr a c ⌊a⌋ n3 = seen t thr a b ⌊a⌋ n1 ++ seen t thr b c ⌊b⌋ n2) := by
  have hfab : ⌊a⌋ ≤ ⌊b⌋ := Int.floor_le_floor hab
  have hcbc : ⌈b⌉ ≤ ⌈c⌉ := Int.ceil_le_ceil hbc
  obtain ⟨d, hd⟩ : ∃ d : ℕ, ⌊a⌋ + d = ⌊b⌋ := ⟨(⌊b⌋ - ⌊a⌋).toNat, by omega⟩
  have hn3 : n3 = d + n2 := by omega
  obtain ⟨r, hr⟩ : ∃ r : ℕ, n3 = n1 + r := ⟨n3 - n1, by omega⟩
  -- the first range over all loops
  have s1 : seen t thr a b ⌊a⌋ n1 = seen t thr a b ⌊a⌋ n3 := by
    rw [hr, seen_add, seen_nil (A := ⌊a⌋ + n1), List.append_nil]
    intro m hm i hi
    refine vis_after h hthr (by omega) (by omega) ?_ hi
    have h1 := Int.le_ceil b
    have h2 : ((⌈b⌉ : ℤ) : ℝ) ≤ ((⌊a⌋ + n1 + m : ℤ) : ℝ) := by
      have : ⌈b⌉ ≤ ⌊a⌋ + n1 + m := by omega
      exact_mod_cast this
    linarith
  rw [s1, hn3, seen_add, seen_add, hd]
  -- before the split point the ranges agree
  have s2 : seen t thr a c ⌊a⌋ d = seen t thr a b ⌊a⌋ d := by
    refine seen_congr fun m hm i hi => ?_
    have hk : ((⌊a⌋ + m : ℤ) : ℝ) + 1 ≤ b := by
      have h1 : ⌊a⌋ + m + 1 ≤ ⌊b⌋ := by omega
      have h2 : ((⌊a⌋ + m + 1 : ℤ) : ℝ) ≤ ⌊b⌋ := by exact_mod_cast h1
      have h3 := Int.floor_le b
      push_cast at h2 ⊢; linarith
    ext x
    rw [vis_iff, vis_iff]
    constructor
    · rintro ⟨e, h1, h2, h3, -⟩; exact ⟨e, h1, h2, h3, .inr hk⟩
    · rintro ⟨e, h1, h2, h3, -⟩; exact ⟨e, h1, h2, h3, .inr (hk.trans hbc)⟩
  rw [s2, List.append_assoc]
  have mem : ∀ ki ∈ ((List.range n2).flatMap fun (m : ℕ) => (List.range t.keyCount).map fun i => (⌊b⌋ + (m : ℤ), i)),
      ⌊b⌋ ≤ ki.1 := by
    intro ki hki
    obtain ⟨m, -, hm⟩ := List.mem_flatMap.1 hki
    obtain ⟨i, -, rfl⟩ := List.mem_map.1 hm
    show ⌊b⌋ ≤ ⌊b⌋ + (m : ℤ); omega
  have late : ∀ {k : ℤ}, ⌊b⌋ ≤ k → ¬ (k + 1 : ℝ) ≤ b := by
    intro k hk hc
    have h1 : k + 1 ≤ ⌊b⌋ := by rw [Int.le_floor]; push_cast; exact hc
    omega
  have sorted : ∀ ki ∈ ((List.range n2).flatMap fun (m : ℕ) => (List.range t.keyCount).map fun i => (⌊b⌋ + (m : ℤ), i)),
      (vis t thr a c ki.1 ki.2 = vis t thr a b ki.1 ki.2 ∧ vis t thr b c ki.1 ki.2 = none) ∨
      (vis t thr a c ki.1 ki.2 = vis t thr b c ki.1 ki.2 ∧ vis t thr a b ki.1 ki.2 = none) := by
    intro ki hki
    have hl := late (mem ki hki)
    cases hg : gcross t thr ki.2 with
    | none => left; simp [vis, hg]
    | some e =>
      by_cases hx : val (e.ratio + intF ki.1) < b
      · left
        constructor
        · ext x
          rw [vis_iff, vis_iff]
          constructor
          · rintro ⟨e', h1, h2, h3, -⟩
            rw [hg] at h1; injection h1 with h1; subst h1
            exact ⟨e, hg, h2, h3, .inl (by rw [h2]; exact hx)⟩
          · rintro ⟨e', h1, h2, h3, -⟩
            rw [hg] at h1; injection h1 with h1; subst h1
            exact ⟨e, hg, h2, h3, .inl (by rw [h2]; exact hx.trans_le hbc)⟩
        · cases hv : vis t thr b c ki.1 ki.2 with
          | none => rfl
          | some x =>
            obtain ⟨e', h1, rfl, h3, -⟩ := vis_iff.1 hv
            rw [hg] at h1; injection h1 with h1; subst h1
            exact absurd hx (not_lt.2 h3)
      · right
        constructor
        · ext x
          rw [vis_iff, vis_iff]
          constructor
          · rintro ⟨e', h1, h2, h3, h4⟩
            rw [hg] at h1; injection h1 with h1; subst h1
            exact ⟨e, hg, h2, by rw [h2]; exact not_lt.1 hx, h4⟩
          · rintro ⟨e', h1, h2, h3, h4⟩
            exact ⟨e', h1, h2, hab.trans h3, h4⟩
        · cases hv : vis t thr a b ki.1 ki.2 with
          | none => rfl
          | some x =>
            obtain ⟨e', h1, rfl, h3, h4⟩ := vis_iff.1 hv
            rw [hg] at h1; injection h1 with h1; subst h1
            rcases h4 with h4 | h4
            · exact absurd h4 hx
            · exact absurd h4 hl
  refine ⟨List.Perm.append_left _ (filterMap_perm sorted), fun hp => ?_⟩
  congr 1
  refine filterMap_split sorted (List.pairwise_append.1 hp).2.1 ?_
  intro u hu v hv x y hx hy hR
  obtain ⟨_, -, rfl, h3, -⟩ := vis_iff.1 hx
  obtain ⟨_, -, rfl, -, h4⟩ := vis_iff.1 hy
  rcases h4 with h4 | h4
  · exact absurd (h3.trans hR) (not_le.2 h4)
  · exact absurd h4 (late (mem v hv))

/-- A range without extent is empty. -/
theorem yields_none (h : feq j.from_ j.to_ = true) : Yields j [] := by
  refine .stop ?_
  simp [step, Iter.new, h]

end Ozz.Triggering
