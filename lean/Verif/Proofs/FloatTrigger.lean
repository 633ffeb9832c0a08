import Verif.Proofs.FloatTrack

/-! The triggering job in single precision. -/

namespace Ozz.Triggering

open Ieee Spec F32 Sampling

variable {t : Track F32 F32} {thr : F32}

theorem shape32 (h : Track32Ok t) : Shape t := ⟨h.ratiosLen, h.valuesLen, h.stepsLen⟩

theorem realOk (h : Track32Ok t) : TrackOk (realTrack t) where
  ratiosLen := by simp [realTrack, h.ratiosLen]
  valuesLen := by simp [realTrack, h.valuesLen]
  stepsLen := h.stepsLen
  increasing := by
    show (t.ratios.map val).Pairwise _
    rw [List.pairwise_map]; exact h.increasing
  nonneg := by
    intro r hr
    obtain ⟨x, hx, rfl⟩ := List.mem_map.1 hr
    exact (h.unit x hx).nonneg
  leOne := by
    intro r hr
    obtain ⟨x, hx, rfl⟩ := List.mem_map.1 hr
    exact (h.unit x hx).le_one

theorem val_zero32 : val (0 : F32) = 0 := zero_real
theorem val_one32 : val (1 : F32) = 1 := one_real

theorem tr_real (t : Track F32 F32) (i : Nat) : tr (realTrack t) i = val (gr t i) := by
  unfold tr gr realTrack
  rw [List.getD_eq_getElem?_getD, List.getD_eq_getElem?_getD, List.getElem?_map]
  cases t.ratios[i]? with
  | none => exact val_zero32.symm
  | some x => rfl

theorem tv_real (t : Track F32 F32) (i : Nat) : tv (realTrack t) i = val (gv t i) := by
  unfold tv gv realTrack
  rw [List.getD_eq_getElem?_getD, List.getD_eq_getElem?_getD, List.getElem?_map]
  cases t.values[i]? with
  | none => exact val_zero32.symm
  | some x => rfl

theorem gr_mem (h : Track32Ok t) {i : Nat} (hi : i < t.keyCount) : gr t i ∈ t.ratios := by
  have hl := h.ratiosLen
  unfold gr
  rw [List.getD_eq_getElem?_getD, List.getElem?_eq_getElem (by omega), Option.getD_some]
  exact List.getElem_mem _

theorem gv_mem (h : Track32Ok t) {i : Nat} (hi : i < t.keyCount) : gv t i ∈ t.values := by
  have hl := h.valuesLen
  unfold gv
  rw [List.getD_eq_getElem?_getD, List.getElem?_eq_getElem (by omega), Option.getD_some]
  exact List.getElem_mem _

theorem gr_unit (h : Track32Ok t) {i : Nat} (hi : i < t.keyCount) : Unit01 (gr t i) := h.unit _ (gr_mem h hi)
theorem gv_small (h : Track32Ok t) {i : Nat} (hi : i < t.keyCount) : Small (gv t i) := h.small _ (gv_mem h hi)

theorem gr_lt (h : Track32Ok t) {i k : Nat} (hik : i < k) (hk : k < t.keyCount) : val (gr t i) < val (gr t k) := by
  rw [← tr_real, ← tr_real]
  exact tr_lt (realOk h) hik hk

/-- Where the computed position of an edge is. -/
structure Placed (t : Track F32 F32) (i : Nat) (p : F32) (e : ℝ) : Prop where
  unit : Unit01 p
  after : ∀ b, b < i → val (gr t b) ≤ val p
  upto : ∀ b, i < b → b < t.keyCount → val p ≤ val (gr t b)
  close : |val p - e| ≤ 7 / 8 / 2 ^ 20
  over : val p ≤ val (gr t i) + (1 / 2 ^ 21 + 1 / 2 ^ 150)
  e0 : 0 ≤ e
  e1 : e ≤ 1

theorem gpos_placed (h : Track32Ok t) (hthr : Small thr) {i : Nat} (hi : i < t.keyCount)
    (hv : val (gv t (before t.keyCount i)) ≤ val thr ∧ val thr < val (gv t i) ∨
      val thr < val (gv t (before t.keyCount i)) ∧ val (gv t i) ≤ val thr) :
    Placed t i (gpos t thr i) (pos (realTrack t) (val thr) i) := by
  have hr := gr_unit h hi
  have he : (0 : ℝ) ≤ 1 / 2 ^ 21 + 1 / 2 ^ 150 := by norm_num
  have hz : Unit01 (0 : F32) := ⟨zero_finite, val_zero32.ge, by rw [val_zero32]; norm_num⟩
  unfold gpos pos
  have hts : ∀ k, ts (realTrack t) k = gs t k := fun _ => rfl
  have hk : (realTrack t).keyCount = t.keyCount := rfl
  simp only [hts, hk, tr_real, tv_real]
  by_cases hs : gs t (before t.keyCount i) = true
  · rw [if_pos hs, if_pos hs]
    exact ⟨hr, fun b hb => (gr_lt h hb hi).le, fun b hb hb' => (gr_lt h hb hb').le, by rw [sub_self, abs_zero]; norm_num,
      by linarith, hr.nonneg, hr.le_one⟩
  rw [if_neg hs, if_neg hs]
  by_cases h0 : i = 0
  · rw [if_pos h0, if_pos h0]
    exact ⟨hz, fun b hb => by omega, fun b _ hb' => by rw [val_zero32]; exact (gr_unit h hb').nonneg,
      by rw [val_zero32, sub_self, abs_zero]; norm_num, by rw [val_zero32]; have := hr.nonneg; linarith,
      le_rfl, zero_le_one⟩
  rw [if_neg h0, if_neg h0]
  have hb : before t.keyCount i = i - 1 := by simp [before, h0]
  rw [hb] at hv ⊢
  have hlt := gr_lt h (show i - 1 < i by omega) hi
  have hr0 := gr_unit h (show i - 1 < t.keyCount by omega)
  obtain ⟨aF, a0, a1, aE⟩ := fraction32 (gv_small h (show i - 1 < t.keyCount by omega)) (gv_small h hi) hthr (by
    rcases hv with ⟨h1, h2⟩ | ⟨h1, h2⟩
    · exact .inl ⟨h1, h2.le, h1.trans_lt h2⟩
    · exact .inr ⟨h2, h1.le, h2.trans_lt h1⟩)
  have ha : Unit01 ((thr - gv t (i - 1)) / (gv t i - gv t (i - 1))) := ⟨aF, a0, a1⟩
  obtain ⟨eF, eA, eU, eE⟩ := edge32 hr0 hr hlt ha
  have eO := edge32_le_one hr0 hr hlt ha
  have lb := line_bounds (thr := val thr) hlt (v0 := val (gv t (i - 1))) (v1 := val (gv t i)) hv
  generalize (thr - gv t (i - 1)) / (gv t i - gv t (i - 1)) = a at *
  generalize (val thr - val (gv t (i - 1))) / (val (gv t i) - val (gv t (i - 1))) = A at *
  generalize gr t (i - 1) + (gr t i - gr t (i - 1)) * a = p at *
  have d1 : val (gr t i) - val (gr t (i - 1)) ≤ 1 := by have := hr.le_one; have := hr0.nonneg; linarith
  refine ⟨⟨eF, hr0.nonneg.trans eA, eO⟩, fun b hb => ?_, fun b hb hb' => ?_, ?_, ?_, hr0.nonneg.trans lb.1, lb.2.trans hr.le_one⟩
  · rcases Nat.lt_or_ge b (i - 1) with hc | hc
    · exact ((gr_lt h hc (by omega)).le).trans eA
    · have : b = i - 1 := by omega
      rw [this]; exact eA
  · exact eU _ (gr_unit h hb').finite (gr_lt h hb hb')
  · have e1 : val p - (val (gr t (i - 1)) + (val (gr t i) - val (gr t (i - 1))) * A) =
        (val p - ((val (gr t i) - val (gr t (i - 1))) * val a + val (gr t (i - 1)))) +
        (val (gr t i) - val (gr t (i - 1))) * (val a - A) := by ring
    rw [e1]
    refine (abs_add_le _ _).trans ?_
    rw [abs_mul, abs_of_pos (show 0 < val (gr t i) - val (gr t (i - 1)) by linarith)]
    have : (val (gr t i) - val (gr t (i - 1))) * |val a - A| ≤ 1 * (1 / 2 ^ 22) :=
      mul_le_mul d1 aE (abs_nonneg _) zero_le_one
    have e2 : (1 : ℝ) / 2 ^ 21 + 1 / 2 ^ 150 + 1 * (1 / 2 ^ 22) ≤ 7 / 8 / 2 ^ 20 := by norm_num
    linarith
  · have := (abs_le.mp eE).2
    have h2 : (val (gr t i) - val (gr t (i - 1))) * val a ≤ val (gr t i) - val (gr t (i - 1)) :=
      mul_le_of_le_one_right (by linarith) a1
    linarith

theorem gcross_some (h : Track32Ok t) (hthr : Small thr) {i : Nat} (hi : i < t.keyCount) {e : Edge F32}
    (he : gcross t thr i = some e) :
    ∃ E, Crossing (realTrack t) (val thr) i E e.rising ∧ Placed t i e.ratio E := by
  have hb := before_lt hi
  have f1 := (gv_small h hi).finite
  have f0 := (gv_small h hb).finite
  have hk : (realTrack t).keyCount = t.keyCount := rfl
  unfold gcross at he
  simp only [le32_val f0 hthr.finite, lt32_val hthr.finite f1, lt32_val hthr.finite f0, le32_val f1 hthr.finite] at he
  have key : ∀ b, crossAt (realTrack t) (val thr) i = some ⟨pos (realTrack t) (val thr) i, b⟩ →
      Crossing (realTrack t) (val thr) i (pos (realTrack t) (val thr) i) b := fun b hc =>
    (crossing_iff (realOk h)).2 ⟨hi, hc⟩
  refine ⟨pos (realTrack t) (val thr) i, key _ ?_, ?_⟩
  · unfold crossAt
    simp only [hk, tv_real]
    split at he
    · rename_i hc
      injection he with he; subst he
      rw [if_pos hc]
    · rename_i hc
      split at he
      · rename_i hc'
        injection he with he; subst he
        rw [if_neg hc, if_pos hc']
      · cases he
  · split at he
    · rename_i hc
      injection he with he; subst he
      exact gpos_placed h hthr hi (.inl hc)
    · split at he
      · rename_i hc'
        injection he with he; subst he
        exact gpos_placed h hthr hi (.inr hc')
      · cases he

theorem gcross_of (h : Track32Ok t) (hthr : Small thr) {i : Nat} {E : ℝ} {b : Bool}
    (hc : Crossing (realTrack t) (val thr) i E b) :
    i < t.keyCount ∧ ∃ e, gcross t thr i = some e ∧ Placed t i e.ratio E := by
  obtain ⟨hi, hx⟩ := (crossing_iff (realOk h)).1 hc
  refine ⟨hi, ?_⟩
  have hi' : i < t.keyCount := hi
  have hb := before_lt hi'
  have f1 := (gv_small h hi').finite
  have f0 := (gv_small h hb).finite
  obtain ⟨hd, he⟩ := crossAt_dir hx
  have hk : (realTrack t).keyCount = t.keyCount := rfl
  simp only [hk, tv_real] at hd
  have hE : E = pos (realTrack t) (val thr) i := he
  subst hE
  rcases hd with ⟨h1, h2, -⟩ | ⟨h1, h2, -⟩
  · refine ⟨⟨gpos t thr i, true⟩, ?_, gpos_placed h hthr hi (.inl ⟨h1, h2⟩)⟩
    unfold gcross
    simp only [le32_val f0 hthr.finite, lt32_val hthr.finite f1]
    rw [if_pos ⟨h1, h2⟩]
  · refine ⟨⟨gpos t thr i, false⟩, ?_, gpos_placed h hthr hi (.inr ⟨h1, h2⟩)⟩
    unfold gcross
    simp only [le32_val f0 hthr.finite, lt32_val hthr.finite f1, lt32_val hthr.finite f0, le32_val f1 hthr.finite]
    rw [if_neg (by rintro ⟨h3, -⟩; linarith), if_pos ⟨h1, h2⟩]

/-! ### Times -/

/-- `o` is the start of loop `k`, and the end of the loop is exact. -/
structure LoopAt (o : F32) (k : ℤ) : Prop where
  finite : Finite32 o.bits
  eq : val o = k
  lo : -2 ^ 24 ≤ k
  hi : k + 1 ≤ 2 ^ 24

theorem LoopAt.next {o : F32} {k : ℤ} (h : LoopAt o k) : Finite32 (1 + o).bits ∧ val (1 + o) = k + 1 := by
  have := add_int (x := (1 : F32)) (m := 1) one_finite h.finite (by rw [val_one32]; simp) h.eq (by
    rw [abs_le]; have := h.lo; have := h.hi; constructor <;> omega)
  refine ⟨this.1, ?_⟩
  rw [this.2]; push_cast; ring

theorem LoopAt.abs {o : F32} {k : ℤ} (h : LoopAt o k) : |(k : ℝ)| ≤ 2 ^ 24 := by
  have h1 := h.lo
  have h2 := h.hi
  rw [abs_le]
  constructor
  · exact_mod_cast h1
  · have : k ≤ 2 ^ 24 := by omega
    exact_mod_cast this

theorem time_ok {o p : F32} {k : ℤ} (h : LoopAt o k) (hp : Unit01 p) :
    Finite32 (p + o).bits ∧ (k : ℝ) ≤ val (p + o) ∧ val (p + o) ≤ k + 1 ∧
    |val (p + o) - (k + val p)| ≤ (|(k : ℝ)| + 1) / 2 ^ 24 := by
  have hk := h.abs
  have p0 := hp.nonneg
  have p1 := hp.le_one
  have hs : |val p + val o| ≤ |(k : ℝ)| + 1 := by
    rw [h.eq]
    have := abs_add_le (val p) (k : ℝ)
    rw [abs_of_nonneg p0] at this
    linarith
  obtain ⟨hf, hE⟩ := add_ok hp.finite h.finite (hs.trans (by
    have : (2 : ℝ) ^ 24 + 1 ≤ 2 ^ 127 := by norm_num
    linarith))
  refine ⟨hf, ?_, ?_, ?_⟩
  · rw [← h.eq]
    refine rounds_ge (add_roundsTo hp.finite h.finite) hf h.finite ?_
    show val o ≤ val p + val o
    linarith
  · rw [← h.next.2]
    refine rounds_le (add_roundsTo hp.finite h.finite) hf h.next.1 ?_
    show val p + val o ≤ val (1 + o)
    rw [h.next.2, h.eq]; linarith
  · rw [h.eq] at hE hs
    rw [add_comm (k : ℝ)]
    exact hE.trans (by gcongr)

theorem timeMono32 {o p q : F32} {k : ℤ} (h : LoopAt o k) (hp : Unit01 p) (hq : Unit01 q) (hpq : val p ≤ val q) :
    val (p + o) ≤ val (q + o) :=
  add_mono32 hp.finite h.finite hq.finite h.finite (time_ok h hp).1 (time_ok h hq).1 (by linarith)

theorem time_same {o o' p : F32} {k : ℤ} (h : LoopAt o k) (h' : LoopAt o' k) (hp : Unit01 p) :
    val (p + o) = val (p + o') :=
  le_antisymm
    (add_mono32 hp.finite h.finite hp.finite h'.finite (time_ok h hp).1 (time_ok h' hp).1 (by rw [h.eq, h'.eq]))
    (add_mono32 hp.finite h'.finite hp.finite h.finite (time_ok h' hp).1 (time_ok h hp).1 (by rw [h.eq, h'.eq]))

theorem hit_iff (h : Track32Ok t) (hthr : Small thr) {lo hi o : F32} {k : ℤ} (hlo : Finite32 lo.bits)
    (hhi : Finite32 hi.bits) (ho : LoopAt o k) {i : Nat} (hi' : i < t.keyCount) {x : Edge F32} :
    hit t thr lo hi o i = some x ↔ ∃ e, gcross t thr i = some e ∧ x = ⟨e.ratio + o, e.rising⟩ ∧
      val lo ≤ val (e.ratio + o) ∧ (val (e.ratio + o) < val hi ∨ (k + 1 : ℝ) ≤ val hi) := by
  unfold hit
  cases hc : gcross t thr i with
  | none => simp
  | some e =>
    obtain ⟨E, -, hp⟩ := gcross_some h hthr hi' hc
    have tf := (time_ok ho hp.unit).1
    have nx := ho.next
    have hiff : inRange lo hi o (e.ratio + o) ↔
        val lo ≤ val (e.ratio + o) ∧ (val (e.ratio + o) < val hi ∨ (k + 1 : ℝ) ≤ val hi) := by
      unfold inRange
      rw [le32_val hlo tf, lt32_val tf hhi, le32_val nx.1 hhi, nx.2]
    simp only [Option.bind_some]
    constructor
    · intro hx
      split at hx
      · rename_i hr
        injection hx with hx
        exact ⟨e, rfl, hx.symm, hiff.1 hr⟩
      · cases hx
    · rintro ⟨e', he, rfl, hr⟩
      injection he with he; subst he
      rw [if_pos (hiff.2 hr)]

/-- Which keys a loop with an early exit reports. -/
theorem scan_spec {β : Type} {f : Nat → Option β} {brk : Nat → Bool} {R : Nat → Nat → Prop} : ∀ {l : List Nat},
    l.Pairwise R → ∃ idx, idx.Sublist l ∧ List.Forall₂ (fun i x => f i = some x) idx (scan f brk l) ∧
      ∀ i ∈ l, i ∉ idx → f i = none ∨ ∃ b ∈ l, R b i ∧ brk b = true ∧ f b = none
  | [], _ => ⟨[], List.Sublist.refl _, .nil, by simp⟩
  | i :: is, h => by
    rw [List.pairwise_cons] at h
    obtain ⟨idx, h1, h2, h3⟩ := scan_spec (f := f) (brk := brk) h.2
    unfold scan
    cases hf : f i with
    | some e =>
      refine ⟨i :: idx, h1.cons_cons _, .cons hf h2, ?_⟩
      intro m hm hni
      rw [List.mem_cons, not_or] at hni
      rcases List.mem_cons.1 hm with rfl | hm
      · exact absurd rfl hni.1
      · rcases h3 m hm hni.2 with h4 | ⟨b, hb, h4⟩
        · exact .inl h4
        · exact .inr ⟨b, List.mem_cons_of_mem _ hb, h4⟩
    | none =>
      simp only
      split
      · rename_i hb
        refine ⟨[], List.nil_sublist _, .nil, ?_⟩
        intro m hm _
        rcases List.mem_cons.1 hm with rfl | hm
        · exact .inl hf
        · exact .inr ⟨i, List.mem_cons_self, h.1 m hm, hb, hf⟩
      · refine ⟨idx, h1.cons _, h2, ?_⟩
        intro m hm hni
        rcases List.mem_cons.1 hm with rfl | hm
        · exact .inl hf
        · rcases h3 m hm hni with h4 | ⟨b, hb, h4⟩
          · exact .inl h4
          · exact .inr ⟨b, List.mem_cons_of_mem _ hb, h4⟩

/-- The condition of a near-crossing list on one entry. -/
def NearEntry (t : Track F32 F32) (thr lo hi : ℝ) (k : ℤ) (i : ℕ) (x : Edge F32) : Prop :=
  ∃ e, Crossing (realTrack t) thr i e x.rising ∧ lo - slack k ≤ k + e ∧ k + e ≤ hi + slack k ∧
    Finite32 x.ratio.bits ∧ |val x.ratio - (k + e)| ≤ slack k

theorem near_of_loops {thr lo hi : ℝ} {A : ℤ} : ∀ {n : ℕ} {L : ℕ → List (Edge F32)},
    (∀ m, m < n → ∃ idx : List ℕ, idx.Sublist (List.range t.keyCount) ∧
      List.Forall₂ (NearEntry t thr lo hi (A + m)) idx (L m) ∧
      ∀ i e b, Crossing (realTrack t) thr i e b → lo + slack (A + m) ≤ ((A + m : ℤ) : ℝ) + e →
        ((A + m : ℤ) : ℝ) + e < hi - slack (A + m) → i ∈ idx) →
    ∃ events : List (ℤ × ℕ), events.Pairwise EventLt ∧ (∀ ki ∈ events, ki.1 < A + n) ∧
      (∀ m < n, ∀ i e b, Crossing (realTrack t) thr i e b → lo + slack (A + m) ≤ ((A + m : ℤ) : ℝ) + e →
        ((A + m : ℤ) : ℝ) + e < hi - slack (A + m) → (A + m, i) ∈ events) ∧
      List.Forall₂ (fun ki x => NearEntry t thr lo hi ki.1 ki.2 x) events ((List.range n).flatMap L) := by
  intro n
  induction n with
  | zero => intro L _; exact ⟨[], .nil, by simp, by simp, .nil⟩
  | succ n ih =>
    intro L hL
    obtain ⟨ev, h1, h2, h3, h4⟩ := ih (fun m hm => hL m (by omega))
    obtain ⟨idx, g1, g2, g3⟩ := hL n (by omega)
    refine ⟨ev ++ idx.map fun i => (A + n, i), ?_, ?_, ?_, ?_⟩
    · rw [List.pairwise_append]
      refine ⟨h1, ?_, ?_⟩
      · rw [List.pairwise_map]
        exact (List.pairwise_lt_range.sublist g1).imp fun hlt => .inr ⟨rfl, hlt⟩
      · intro a ha b hb
        obtain ⟨i, -, rfl⟩ := List.mem_map.1 hb
        exact .inl (h2 a ha)
    · intro ki hki
      rcases List.mem_append.1 hki with hki | hki
      · have := h2 ki hki; push_cast; omega
      · obtain ⟨i, -, rfl⟩ := List.mem_map.1 hki
        push_cast; show A + (n : ℤ) < _; omega
    · intro m hm i e b hc hl hh
      rcases Nat.lt_or_ge m n with hlt | hge
      · exact List.mem_append_left _ (h3 m hlt i e b hc hl hh)
      · have : m = n := by omega
        subst this
        exact List.mem_append_right _ (List.mem_map.2 ⟨i, g3 i e b hc hl hh, rfl⟩)
    · rw [List.range_succ, List.flatMap_append, List.flatMap_singleton]
      refine List.rel_append h4 ?_
      rw [List.forall₂_map_left_iff]
      exact g2

theorem hit_near (h : Track32Ok t) (hthr : Small thr) {lo hi o : F32} {k : ℤ} (hlo : Finite32 lo.bits)
    (hhi : Finite32 hi.bits) (ho : LoopAt o k) {i : Nat} (hi' : i < t.keyCount) {x : Edge F32}
    (hx : hit t thr lo hi o i = some x) : NearEntry t (val thr) (val lo) (val hi) k i x := by
  obtain ⟨e, hc, rfl, h1, h2⟩ := (hit_iff h hthr hlo hhi ho hi').1 hx
  obtain ⟨E, hE, hp⟩ := gcross_some h hthr hi' hc
  obtain ⟨tf, -, -, tE⟩ := time_ok ho hp.unit
  have near : |val (e.ratio + o) - (k + E)| ≤ slack k := by
    have e1 : val (e.ratio + o) - (k + E) = (val (e.ratio + o) - (k + val e.ratio)) + (val e.ratio - E) := by ring
    rw [e1]
    refine (abs_add_le _ _).trans ?_
    have := hp.close
    unfold slack
    have e2 : (|(k : ℝ)| + 2) / 2 ^ 24 = (|(k : ℝ)| + 1) / 2 ^ 24 + 1 / 2 ^ 24 := by ring
    have e3 : (0 : ℝ) < 1 / 2 ^ 24 := by norm_num
    have e4 : (7 : ℝ) / 8 / 2 ^ 20 ≤ 1 / 2 ^ 20 := by norm_num
    linarith
  have hs : 0 < slack k := by unfold slack; positivity
  have := abs_le.mp near
  refine ⟨E, hE, by linarith, ?_, tf, near⟩
  rcases h2 with h2 | h2
  · linarith
  · have := hp.e1; linarith

theorem hit_of (h : Track32Ok t) (hthr : Small thr) {lo hi o : F32} {k : ℤ} (hlo : Finite32 lo.bits)
    (hhi : Finite32 hi.bits) (ho : LoopAt o k) {i : Nat} {E : ℝ} {b : Bool}
    (hc : Crossing (realTrack t) (val thr) i E b) (h1 : val lo + slack k ≤ k + E) (h2 : k + E < val hi - slack k) :
    i < t.keyCount ∧ ∃ e : Edge F32, Placed t i e.ratio E ∧ hit t thr lo hi o i = some ⟨e.ratio + o, e.rising⟩ ∧
      val lo < val (e.ratio + o) ∧ val (e.ratio + o) < val hi := by
  obtain ⟨hi', e, hg, hp⟩ := gcross_of h hthr hc
  obtain ⟨tf, -, -, tE⟩ := time_ok ho hp.unit
  have near : |val (e.ratio + o) - (k + E)| < slack k := by
    have e1 : val (e.ratio + o) - (k + E) = (val (e.ratio + o) - (k + val e.ratio)) + (val e.ratio - E) := by ring
    rw [e1]
    refine (abs_add_le _ _).trans_lt ?_
    have := hp.close
    unfold slack
    have e2 : (|(k : ℝ)| + 2) / 2 ^ 24 = (|(k : ℝ)| + 1) / 2 ^ 24 + 1 / 2 ^ 24 := by ring
    have e3 : (0 : ℝ) < 1 / 2 ^ 24 := by norm_num
    have e4 : (7 : ℝ) / 8 / 2 ^ 20 ≤ 1 / 2 ^ 20 := by norm_num
    linarith
  have := abs_lt.mp near
  have l1 : val lo < val (e.ratio + o) := by linarith
  have l2 : val (e.ratio + o) < val hi := by linarith
  exact ⟨hi', e, hp, (hit_iff h hthr hlo hhi ho hi').2 ⟨e, hg, rfl, l1.le, .inl l2⟩, l1, l2⟩

/-! ### Loop counters -/

theorem time_floor {x : F32} (hx : Time x) : Finite32 (FloorOp.floor x).bits ∧ val (FloorOp.floor x) = (⌊val x⌋ : ℝ) ∧
    -2 ^ 24 ≤ ⌊val x⌋ ∧ ⌊val x⌋ + 1 ≤ 2 ^ 24 := by
  obtain ⟨f, v⟩ := floor_ok hx.finite
  obtain ⟨h1, h2⟩ := abs_lt.mp hx.near
  refine ⟨f, v, ?_, ?_⟩
  · rw [Int.le_floor]; push_cast; norm_num at h1 ⊢; exact h1.le
  · have : ⌊val x⌋ < 2 ^ 24 := by rw [Int.floor_lt]; push_cast; norm_num at h2 ⊢; exact h2
    omega

theorem ups_int {x : F32} {A : ℤ} (hf : Finite32 x.bits) (hv : val x = A) (hA : -2 ^ 24 ≤ A) : ∀ n : ℕ, A + n ≤ 2 ^ 24 →
    Finite32 (ups x n).bits ∧ val (ups x n) = ((A + n : ℤ) : ℝ) := by
  intro n
  induction n with
  | zero => intro _; exact ⟨hf, hv.trans (by simp)⟩
  | succ n ih =>
    intro hn
    obtain ⟨f, v⟩ := ih (by push_cast at hn ⊢; omega)
    have := add_int (y := (1 : F32)) (n := 1) f one_finite v (by rw [val_one32]; simp) (by
      push_cast at hn; rw [abs_le]; constructor <;> omega)
    refine ⟨this.1, ?_⟩
    show val (ups x n + 1) = _
    rw [this.2]; push_cast; ring

theorem downs_int {x : F32} {A : ℤ} (hf : Finite32 x.bits) (hv : val x = A) (hA : A ≤ 2 ^ 24) : ∀ n : ℕ, -2 ^ 24 ≤ A - n →
    Finite32 (downs x n).bits ∧ val (downs x n) = ((A - n : ℤ) : ℝ) := by
  intro n
  induction n with
  | zero => intro _; exact ⟨hf, hv.trans (by simp)⟩
  | succ n ih =>
    intro hn
    obtain ⟨f, v⟩ := ih (by push_cast at hn ⊢; omega)
    have := sub_int (y := (1 : F32)) (n := 1) f one_finite v (by rw [val_one32]; simp) (by
      push_cast at hn; rw [abs_le]; constructor <;> omega)
    refine ⟨this.1, ?_⟩
    show val (downs x n - 1) = _
    rw [this.2]; push_cast; ring

/-- A time above -2^24 is at least a whole loop above it. -/
theorem time_above {x : F32} (hx : Time x) : (-2 ^ 24 : ℤ) + 1 ≤ ⌊val x⌋ := by
  obtain ⟨h1, -⟩ := abs_lt.mp hx.near
  by_contra hc
  have hfl : ⌊val x⌋ < -2 ^ 24 + 1 := not_le.1 hc
  have hlt : val x < -2 ^ 24 + 1 := by
    have := Int.lt_floor_add_one (val x)
    have h2 : (⌊val x⌋ : ℝ) ≤ -2 ^ 24 := by
      have : ⌊val x⌋ ≤ -2 ^ 24 := by omega
      exact_mod_cast this
    linarith
  have hp : (0 : ℝ) < 2 ^ 149 := by positivity
  have hm := spacing.val_mag' x
  rw [abs_of_neg (by norm_num at hlt; linarith)] at hm
  have hq : 2 ^ 23 ≤ x.mag / 2 ^ 149 := by
    rw [Nat.le_div_iff_mul_le (by positivity)]
    have : (2 ^ 23 * 2 ^ 149 : ℝ) ≤ x.mag := by
      rw [← le_div_iff₀ hp, ← hm]
      norm_num at hlt ⊢; linarith
    exact_mod_cast this
  obtain ⟨q, hq'⟩ := Nat.dvd_of_mod_eq_zero (mag_whole hq)
  have hmq : -val x = q := by
    rw [hm, hq', div_eq_iff hp.ne']; push_cast; ring
  have b1 : (q : ℝ) < 2 ^ 24 := by linarith
  have b2 : (2 ^ 24 : ℝ) - 1 < q := by linarith
  have c1 : q < 2 ^ 24 := by exact_mod_cast b1
  have c2 : 2 ^ 24 < q + 1 := by
    have : (2 ^ 24 : ℝ) < q + 1 := by linarith
    exact_mod_cast this
  omega

theorem feq_of_ne {x y : F32} (hx : Finite32 x.bits) (hy : Finite32 y.bits) (h : val x ≠ val y) : feq x y = false := by
  unfold feq
  rw [Bool.and_eq_false_iff, decide_eq_false_iff_not, decide_eq_false_iff_not, le32_val hx hy, le32_val hy hx]
  by_contra hc
  rw [not_or, not_not, not_not] at hc
  exact h (le_antisymm hc.1 hc.2)

theorem feq_of_eq {x y : F32} (hx : Finite32 x.bits) (hy : Finite32 y.bits) (h : val x = val y) : feq x y = true := by
  unfold feq
  rw [Bool.and_eq_true, decide_eq_true_iff, decide_eq_true_iff, le32_val hx hy, le32_val hy hx]
  exact ⟨h.le, h.ge⟩

variable {j : Job F32}

/-- The loops of a forward job. -/
theorem loops_fwd (h : Track32Ok j.track) (hf : Time j.from_) (ht : Time j.to_) (hlt : val j.from_ < val j.to_) :
    ∃ (n : ℕ) (o : ℕ → F32), ⌊val j.from_⌋ + n = ⌈val j.to_⌉ ∧ (∀ m, m < n → LoopAt (o m) (⌊val j.from_⌋ + m)) ∧
      Yields j ((List.range n).flatMap fun m => loopF j (o m)) := by
  obtain ⟨f, v, lo, hi⟩ := time_floor hf
  have hc : ⌊val j.from_⌋ ≤ ⌈val j.to_⌉ := by
    have h1 := Int.floor_le (val j.from_)
    have h2 := Int.le_ceil (val j.to_)
    have : (⌊val j.from_⌋ : ℝ) ≤ ⌈val j.to_⌉ := by linarith
    exact_mod_cast this
  have hc2 : ⌈val j.to_⌉ ≤ 2 ^ 24 := by
    have h5 := (abs_lt.mp ht.near).2
    rw [Int.ceil_le]; push_cast; norm_num at h5 ⊢; exact h5.le
  refine ⟨(⌈val j.to_⌉ - ⌊val j.from_⌋).toNat, ups (FloorOp.floor j.from_), by omega, fun m hm => ?_, ?_⟩
  · obtain ⟨f', v'⟩ := ups_int f v lo m (by omega)
    exact ⟨f', v', by omega, by omega⟩
  · refine yieldsF (shape32 h) ((lt32_val hf.finite ht.finite).2 hlt) (feq_of_ne hf.finite ht.finite hlt.ne) _
      (fun m hm => ?_) ?_
    · obtain ⟨f', v'⟩ := ups_int f v lo m (by omega)
      rw [lt32_val f' ht.finite, v', ← Int.lt_ceil]
      omega
    · obtain ⟨f', v'⟩ := ups_int f v lo (⌈val j.to_⌉ - ⌊val j.from_⌋).toNat (by omega)
      rw [lt32_val f' ht.finite, v', ← Int.lt_ceil]
      omega

/-- The loops of a backward job, first loop first. -/
theorem loops_bwd (h : Track32Ok j.track) (hf : Time j.from_) (ht : Time j.to_) (hlt : val j.to_ < val j.from_) :
    ∃ (n : ℕ) (o : ℕ → F32) (l : List (Edge F32)), ⌊val j.to_⌋ + n = ⌊val j.from_⌋ + 1 ∧
      (∀ m, m < n → LoopAt (o m) (⌊val j.to_⌋ + m)) ∧ Yields j l ∧
      (l.map loopB.flipEdge).reverse = (List.range n).flatMap fun m => ((loopB j (o m)).map loopB.flipEdge).reverse := by
  obtain ⟨f, v, lo, hi⟩ := time_floor hf
  have hta := time_above ht
  have hc : ⌊val j.to_⌋ ≤ ⌊val j.from_⌋ := Int.floor_le_floor hlt.le
  set n := (⌊val j.from_⌋ + 1 - ⌊val j.to_⌋).toNat with hn
  have hn' : (n : ℤ) = ⌊val j.from_⌋ + 1 - ⌊val j.to_⌋ := by omega
  refine ⟨n, fun m => downs (FloorOp.floor j.from_) (n - 1 - m),
    (List.range n).flatMap fun m => loopB j (downs (FloorOp.floor j.from_) m), by omega, fun m hm => ?_, ?_, ?_⟩
  · obtain ⟨f', v'⟩ := downs_int f v (by omega) (n - 1 - m) (by omega)
    refine ⟨f', ?_, by omega, by omega⟩
    rw [v']
    congr 1
    omega
  · have nx : ∀ m : ℕ, m ≤ n → Finite32 (downs (FloorOp.floor j.from_) m + 1).bits ∧
        val (downs (FloorOp.floor j.from_) m + 1) = ((⌊val j.from_⌋ - m + 1 : ℤ) : ℝ) := by
      intro m hm
      obtain ⟨f', v'⟩ := downs_int f v (by omega) m (by omega)
      exact add_int (y := (1 : F32)) (n := 1) f' one_finite v' (by rw [val_one32]; simp)
        (by rw [abs_le]; constructor <;> omega)
    refine yieldsB (shape32 h) ?_ (feq_of_ne hf.finite ht.finite hlt.ne') _ (fun m hm => ?_) ?_
    · rw [lt32_val hf.finite ht.finite]; exact not_lt.2 hlt.le
    · obtain ⟨f', v'⟩ := nx m (by omega)
      rw [lt32_val ht.finite f', v', ← Int.floor_lt]
      omega
    · obtain ⟨f', v'⟩ := nx n le_rfl
      rw [lt32_val ht.finite f', v', ← Int.floor_lt]
      omega
  · rw [List.map_flatMap, List.reverse_flatMap, List.range_eq_range', List.reverse_range', List.flatMap_map, ← List.range_eq_range']
    simp only [Nat.zero_add, Function.comp]

theorem flip_flip32 (l : List (Edge F32)) : (l.map loopB.flipEdge).map loopB.flipEdge = l := by
  rw [List.map_map]
  have : (loopB.flipEdge ∘ loopB.flipEdge : Edge F32 → Edge F32) = id := by funext e; simp [loopB.flipEdge]
  rw [this, List.map_id]

/-- Forward: the crossings, up to rounding. -/
theorem near_fwd (h : Track32Ok j.track) (hthr : Small j.threshold) (hf : Time j.from_) (ht : Time j.to_)
    (hlt : val j.from_ < val j.to_) : ∃ l, Yields j l ∧
      IsNearCrossingList j.track (val j.threshold) (val j.from_) (val j.to_) l := by
  obtain ⟨n, o, hn, ho, hy⟩ := loops_fwd h hf ht hlt
  refine ⟨_, hy, ?_⟩
  obtain ⟨ev, h1, -, h3, h4⟩ := near_of_loops (t := j.track) (thr := val j.threshold) (lo := val j.from_)
    (hi := val j.to_) (A := ⌊val j.from_⌋) (n := n) (L := fun m => loopF j (o m)) (by
    intro m hm
    obtain ⟨idx, g1, g2, g3⟩ := scan_spec (f := hit j.track j.threshold j.from_ j.to_ (o m))
      (brk := fun i => decide (j.to_ ≤ gr j.track i + o m)) (List.pairwise_lt_range (n := j.track.keyCount))
    refine ⟨idx, g1, ?_, ?_⟩
    · refine forall₂_mem g2 fun i hi x hx => ?_
      exact hit_near h hthr hf.finite ht.finite (ho m hm) (List.mem_range.1 (g1.subset hi)) hx
    · intro i e b hc hl hh
      obtain ⟨hi, e', hp, hx, l1, l2⟩ := hit_of h hthr hf.finite ht.finite (ho m hm) hc hl hh
      by_contra hni
      rcases g3 i (List.mem_range.2 hi) hni with h5 | ⟨b', hb', hlt', hbr, -⟩
      · rw [hx] at h5; cases h5
      · have hb := List.mem_range.1 hb'
        have ub := gr_unit h hb
        rw [decide_eq_true_iff, le32_val ht.finite (time_ok (ho m hm) ub).1] at hbr
        have := timeMono32 (ho m hm) ub hp.unit (hp.after _ hlt')
        linarith)
  refine ⟨ev, h1, ?_, h4⟩
  intro k i e b hc hl hh
  obtain ⟨-, e', -, hp⟩ := gcross_of h hthr hc
  have hs : 0 < slack k := by unfold slack; positivity
  have e0 := hp.e0
  have e1 := hp.e1
  have k1 : ⌊val j.from_⌋ ≤ k := by
    have : ⌊val j.from_⌋ < k + 1 := by rw [Int.floor_lt]; push_cast; linarith
    omega
  have k2 : k < ⌈val j.to_⌉ := by rw [Int.lt_ceil]; linarith
  have := h3 (k - ⌊val j.from_⌋).toNat (by omega) i e b hc
  have hk : ⌊val j.from_⌋ + ((k - ⌊val j.from_⌋).toNat : ℤ) = k := by omega
  rw [hk] at this
  exact this hl hh
where forall₂_mem {α β : Type} {R S : α → β → Prop} : ∀ {l : List α} {m : List β}, List.Forall₂ R l m →
        (∀ a ∈ l, ∀ b, R a b → S a b) → List.Forall₂ S l m
  | _, _, .nil, _ => .nil
  | _, _, .cons h1 h2, h => .cons (h _ List.mem_cons_self _ h1) (forall₂_mem h2 fun a ha => h a (List.mem_cons_of_mem _ ha))

/-- Backward: the crossings, up to rounding. -/
theorem near_bwd (h : Track32Ok j.track) (hthr : Small j.threshold) (hf : Time j.from_) (ht : Time j.to_)
    (hlt : val j.to_ < val j.from_) : ∃ l, Yields j l ∧
      IsNearCrossingList j.track (val j.threshold) (val j.to_) (val j.from_) (l.map loopB.flipEdge).reverse := by
  obtain ⟨n, o, l, hn, ho, hy, hl⟩ := loops_bwd h hf ht hlt
  refine ⟨l, hy, ?_⟩
  rw [hl]
  obtain ⟨ev, h1, -, h3, h4⟩ := near_of_loops (t := j.track) (thr := val j.threshold) (lo := val j.to_)
    (hi := val j.from_) (A := ⌊val j.to_⌋) (n := n) (L := fun m => ((loopB j (o m)).map loopB.flipEdge).reverse) (by
    intro m hm
    obtain ⟨idx, g1, g2, g3⟩ := scan_spec (f := hit j.track j.threshold j.to_ j.from_ (o m))
      (brk := fun i => decide (gr j.track i + o m ≤ j.to_)) (l := (List.range j.track.keyCount).reverse)
      (R := fun a b => b < a) (List.pairwise_reverse.2 List.pairwise_lt_range)
    refine ⟨idx.reverse, by simpa using g1.reverse, ?_, ?_⟩
    · unfold loopB
      rw [flip_flip32]
      refine near_fwd.forall₂_mem (List.rel_reverse g2) fun i hi x hx => ?_
      exact hit_near h hthr ht.finite hf.finite (ho m hm)
        (List.mem_range.1 (List.mem_reverse.1 (g1.subset (List.mem_reverse.1 hi)))) hx
    · intro i e b hc hl hh
      obtain ⟨hi, e', hp, hx, l1, l2⟩ := hit_of h hthr ht.finite hf.finite (ho m hm) hc hl hh
      rw [List.mem_reverse]
      by_contra hni
      rcases g3 i (List.mem_reverse.2 (List.mem_range.2 hi)) hni with h5 | ⟨b', hb', hlt', hbr, -⟩
      · rw [hx] at h5; cases h5
      · have hb := List.mem_range.1 (List.mem_reverse.1 hb')
        have ub := gr_unit h hb
        rw [decide_eq_true_iff, le32_val (time_ok (ho m hm) ub).1 ht.finite] at hbr
        have := timeMono32 (ho m hm) hp.unit ub (hp.upto _ hlt' hb)
        linarith)
  refine ⟨ev, h1, ?_, h4⟩
  intro k i e b hc hl hh
  obtain ⟨-, e', -, hp⟩ := gcross_of h hthr hc
  have hs : 0 < slack k := by unfold slack; positivity
  have e0 := hp.e0
  have e1 := hp.e1
  have k1 : ⌊val j.to_⌋ ≤ k := by
    have : ⌊val j.to_⌋ < k + 1 := by rw [Int.floor_lt]; push_cast; linarith
    omega
  have k2 : k ≤ ⌊val j.from_⌋ := by rw [Int.le_floor]; linarith
  have := h3 (k - ⌊val j.to_⌋).toNat (by omega) i e b hc
  have hk : ⌊val j.to_⌋ + ((k - ⌊val j.to_⌋).toNat : ℤ) = k := by omega
  rw [hk] at this
  exact this hl hh

end Ozz.Triggering
