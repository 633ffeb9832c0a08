import Verif.Spec.Layout
import Verif.Proofs.Loaders

set_option linter.unusedVariables false

/-! Alignment arithmetic, carving, and memory lemmas. -/

namespace Ozz

open Layout

theorem and_mask (x k : Nat) (hk : k ≤ 64) (hx : x < 2 ^ 64) :
    x &&& (2 ^ 64 - 1 - (2 ^ k - 1)) = x / 2 ^ k * 2 ^ k := by
  have hm : 2 ^ 64 - 1 - (2 ^ k - 1) = (2 ^ (64 - k) - 1) <<< k := by
    rw [Nat.shiftLeft_eq, Nat.sub_mul, ← Nat.pow_add, Nat.sub_add_cancel hk]
    have := Nat.one_le_two_pow (n := k)
    omega
  rw [hm, ← Nat.shiftRight_eq_div_pow, ← Nat.shiftLeft_eq]
  apply Nat.eq_of_testBit_eq
  intro i
  simp only [Nat.testBit_and, Nat.testBit_shiftLeft, Nat.testBit_two_pow_sub_one,
    Nat.testBit_shiftRight]
  by_cases h : k ≤ i
  · have e : k + (i - k) = i := by omega
    simp only [h, decide_true, Bool.true_and, e]
    by_cases h64 : i - k < 64 - k
    · simp [h64]
    · have : x.testBit i = false := by
        apply Nat.testBit_lt_two_pow
        calc x < 2 ^ 64 := hx
          _ ≤ 2 ^ i := Nat.pow_le_pow_right (by omega) (by omega)
      simp [this]
  · simp [h]

theorem alignUsize4 (x : Nat) (h : x + 3 < 2 ^ 64) : alignUsize x 4 = .ok ((x + 3) / 4 * 4) := by
  have hp : isPowerOfTwo 4 = true := by decide
  have := and_mask (x + 3) 2 (by omega) h
  simp only [alignUsize, assertB, hp, if_true, bind, Except.bind, pure, Except.pure]
  rw [show x + 4 - 1 = x + 3 by omega]
  simpa using this

theorem alignUsize16 (x : Nat) (h : x + 15 < 2 ^ 64) :
    alignUsize x 16 = .ok ((x + 15) / 16 * 16) := by
  have hp : isPowerOfTwo 16 = true := by decide
  have := and_mask (x + 15) 4 (by omega) h
  simp only [alignUsize, assertB, hp, if_true, bind, Except.bind, pure, Except.pure]
  rw [show x + 16 - 1 = x + 15 by omega]
  simpa using this

theorem alignPtr4 (x : Nat) (h : x + 3 < 2 ^ 64) : alignPtr x 4 = .ok ((x + 3) / 4 * 4) := by
  have hp : isPowerOfTwo 4 = true := by decide
  simp [alignPtr, assertB, hp, bind, Except.bind, alignUsize4 x h]

theorem alignPtr16 (x : Nat) (h : x + 15 < 2 ^ 64) :
    alignPtr x 16 = .ok ((x + 15) / 16 * 16) := by
  have hp : isPowerOfTwo 16 = true := by decide
  simp [alignPtr, assertB, hp, bind, Except.bind, alignUsize16 x h]

/-! ### Regions one after the other -/

/-- Regions in increasing order between two addresses. -/
def InOrder : Nat → List Region → Nat → Prop
  | lo, [], hi => lo ≤ hi
  | lo, r :: rs, hi => lo ≤ r.start ∧ InOrder r.stop rs hi

theorem InOrder.append {lo mid hi : Nat} {a b : List Region} (h : InOrder lo a mid)
    (h' : InOrder mid b hi) : InOrder lo (a ++ b) hi := by
  induction a generalizing lo with
  | nil =>
    cases b with
    | nil => exact Nat.le_trans h h'
    | cons r rs => exact ⟨Nat.le_trans h h'.1, h'.2⟩
  | cons r rs ih => exact ⟨h.1, ih h.2⟩

theorem InOrder.le {lo hi : Nat} {a : List Region} (h : InOrder lo a hi) : lo ≤ hi := by
  induction a generalizing lo with
  | nil => exact h
  | cons r rs ih =>
    have := ih h.2
    have := h.1
    simp only [Region.stop] at *
    omega

theorem InOrder.bounds {lo hi : Nat} {a : List Region} (h : InOrder lo a hi) :
    ∀ r ∈ a, lo ≤ r.start ∧ r.stop ≤ hi := by
  induction a generalizing lo with
  | nil => simp
  | cons r rs ih =>
    intro r' hr'
    rcases List.mem_cons.mp hr' with rfl | hr'
    · exact ⟨h.1, h.2.le⟩
    · have := ih h.2 r' hr'
      have h1 := h.1
      simp only [Region.stop] at *
      omega

theorem InOrder.disjoint {lo hi : Nat} {a : List Region} (h : InOrder lo a hi) :
    a.Pairwise fun r r' => ∀ x, ¬ (r.Has x ∧ r'.Has x) := by
  induction a generalizing lo with
  | nil => exact List.Pairwise.nil
  | cons r rs ih =>
    refine List.Pairwise.cons ?_ (ih h.2)
    intro r' hr' x hx
    have := h.2.bounds r' hr'
    simp only [Region.Has] at hx
    omega

theorem InOrder.safe {base size : Nat} {a : List Region} (h : InOrder base a (base + size))
    (ha : ∀ r ∈ a, r.align ∣ r.start) : Safe base size a :=
  ⟨ha, h.bounds, h.disjoint⟩

/-! ### Animation -/

theorem channelSize_ok (size : Nat) (c : ChannelCounts) (hs : size < 2 ^ 62)
    (h1 : c.keys < 2 ^ 32) (h2 : c.entries < 2 ^ 32) :
    channelSize size c = .ok ((size + (c.keys * 10 + c.entries) + 3) / 4 * 4 + c.desc * 4) := by
  have : size + (c.keys * 6 + c.keys * 2 + c.keys * 2 + c.entries * 1) =
    size + (c.keys * 10 + c.entries) := by omega
  simp only [channelSize, this, bind, Except.bind]
  rw [alignUsize4 _ (by omega)]
  rfl

theorem carveChannel_ok (p : Nat) (c : ChannelCounts) (hp : p < 2 ^ 63 + 2 ^ 62) (h4 : 4 ∣ p)
    (h1 : c.keys < 2 ^ 32) (h2 : c.entries < 2 ^ 32) :
    ∃ q, carveChannel p c = .ok (q, (p + (c.keys * 10 + c.entries) + 3) / 4 * 4 + c.desc * 4) ∧
      InOrder p (channelRegions q c) ((p + (c.keys * 10 + c.entries) + 3) / 4 * 4 + c.desc * 4) ∧
      ∀ r ∈ channelRegions q c, r.align ∣ r.start := by
  have e : p + c.keys * 6 + c.keys * 2 + c.keys * 2 + c.entries =
    p + (c.keys * 10 + c.entries) := by omega
  refine ⟨⟨p, p + c.keys * 6, p + c.keys * 6 + c.keys * 2, p + c.keys * 6 + c.keys * 2 + c.keys * 2,
    (p + (c.keys * 10 + c.entries) + 3) / 4 * 4⟩, ?_, ?_, ?_⟩
  · simp only [carveChannel, bind, Except.bind, e]
    rw [alignPtr4 _ (by omega)]
    rfl
  · simp only [channelRegions, InOrder, Region.stop]
    omega
  · simp only [channelRegions, List.mem_cons, List.not_mem_nil, or_false, forall_eq_or_imp, forall_eq]
    omega

theorem animationNew_ok (base tp : Nat) (t r s : ChannelCounts) (hb : base < 2 ^ 63)
    (h4 : 4 ∣ base) (htp : tp < 2 ^ 32)
    (ht : t.keys < 2 ^ 32 ∧ t.entries < 2 ^ 32 ∧ t.desc < 2 ^ 32)
    (hr : r.keys < 2 ^ 32 ∧ r.entries < 2 ^ 32 ∧ r.desc < 2 ^ 32)
    (hs : s.keys < 2 ^ 32 ∧ s.entries < 2 ^ 32 ∧ s.desc < 2 ^ 32) :
    ∃ x, animationNew base tp t r s = .ok x ∧ x.timepoints = base ∧
      Safe base x.size (animationRegions x tp t r s) ∧
      (x.size = 0 ↔ tp = 0 ∧ (t.keys = 0 ∧ t.entries = 0 ∧ t.desc = 0) ∧
        (r.keys = 0 ∧ r.entries = 0 ∧ r.desc = 0) ∧ (s.keys = 0 ∧ s.entries = 0 ∧ s.desc = 0)) := by
  obtain ⟨n0, hn0⟩ : ∃ n, n = tp * 4 := ⟨_, rfl⟩
  obtain ⟨n1, hn1⟩ : ∃ n, n = (n0 + (t.keys * 10 + t.entries) + 3) / 4 * 4 + t.desc * 4 := ⟨_, rfl⟩
  obtain ⟨n2, hn2⟩ : ∃ n, n = (n1 + (r.keys * 10 + r.entries) + 3) / 4 * 4 + r.desc * 4 := ⟨_, rfl⟩
  obtain ⟨n3, hn3⟩ : ∃ n, n = (n2 + (s.keys * 10 + s.entries) + 3) / 4 * 4 + s.desc * 4 := ⟨_, rfl⟩
  have b1 : n1 < 2 ^ 37 := by omega
  have b2 : n2 < 2 ^ 38 := by omega
  have b3 : n3 < 2 ^ 39 := by omega
  have s1 := channelSize_ok n0 t (by omega) ht.1 ht.2.1
  have s2 := channelSize_ok n1 r (by omega) hr.1 hr.2.1
  have s3 := channelSize_ok n2 s (by omega) hs.1 hs.2.1
  obtain ⟨q1, c1, o1, a1⟩ := carveChannel_ok (base + n0) t (by omega) (by omega) ht.1 ht.2.1
  have e1 : (base + n0 + (t.keys * 10 + t.entries) + 3) / 4 * 4 + t.desc * 4 = base + n1 := by omega
  rw [e1] at c1 o1
  obtain ⟨q2, c2, o2, a2⟩ := carveChannel_ok (base + n1) r (by omega) (by omega) hr.1 hr.2.1
  have e2 : (base + n1 + (r.keys * 10 + r.entries) + 3) / 4 * 4 + r.desc * 4 = base + n2 := by omega
  rw [e2] at c2 o2
  obtain ⟨q3, c3, o3, a3⟩ := carveChannel_ok (base + n2) s (by omega) (by omega) hs.1 hs.2.1
  have e3 : (base + n2 + (s.keys * 10 + s.entries) + 3) / 4 * 4 + s.desc * 4 = base + n3 := by omega
  rw [e3] at c3 o3
  rw [← hn1] at s1
  rw [← hn2] at s2
  rw [← hn3] at s3
  refine ⟨⟨n3, base, q1, q2, q3⟩, ?_, rfl, ?_, ?_⟩
  · simp only [animationNew, ← hn0, bind, Except.bind, s1, s2, s3, c1, c2, c3, assertB,
      beq_self_eq_true, if_true, pure, Except.pure]
  · apply InOrder.safe
    · simp only [animationRegions]
      refine ⟨Nat.le_refl _, ?_⟩
      have : (⟨base, tp, 4, 4⟩ : Region).stop = base + n0 := by simp [Region.stop, hn0]
      rw [this]
      exact (o1.append o2).append o3
    · intro x hx
      simp only [animationRegions, List.mem_cons, List.mem_append] at hx
      rcases hx with rfl | (hx | hx) | hx
      · exact h4
      · exact a1 x hx
      · exact a2 x hx
      · exact a3 x hx
  · simp only
    omega

/-! ### Skeleton -/

theorem skeletonNew_ok (base n : Nat) (h16 : 16 ∣ base) :
    ∃ x, skeletonNew base n = .ok x ∧ x.restPoses = base ∧
      Safe base x.size (skeletonRegions x n (numSoa n)) ∧ (x.size = 0 ↔ n = 0) := by
  refine ⟨⟨160 * numSoa n + 2 * n, base, base + 160 * numSoa n⟩, ?_, rfl, ?_, ?_⟩
  · simp [skeletonNew, assertB, bind, Except.bind, pure, Except.pure, Nat.add_assoc]
  · apply InOrder.safe
    · simp only [skeletonRegions, InOrder, Region.stop]
      omega
    · simp only [skeletonRegions, List.mem_cons, List.not_mem_nil, or_false, forall_eq_or_imp,
        forall_eq]
      omega
  · simp only [numSoa]; omega

/-! ### Sampling context -/

theorem carveCache_ok (p elem n o : Nat) (he : elem = 128 ∨ elem = 160) (h16 : 16 ∣ p)
    (hp : p < 2 ^ 63 + 2 ^ 62) (hn : n < 2 ^ 50) (ho : o < 2 ^ 50) :
    ∃ q, carveCache p elem n (n * 4) o =
        .ok (q, p + (cacheSize elem n (n * 4) o + 15) / 16 * 16) ∧
      InOrder p (cacheRegions q elem n (n * 4) o)
        (p + (cacheSize elem n (n * 4) o + 15) / 16 * 16) ∧
      ∀ r ∈ cacheRegions q elem n (n * 4) o, r.align ∣ r.start := by
  refine ⟨⟨p, p + elem * n, p + elem * n + 4 * (n * 4)⟩, ?_, ?_, ?_⟩
  · simp only [carveCache, bind, Except.bind]
    have hlt : p + elem * n + 4 * (n * 4) + o + 15 < 2 ^ 64 := by
      rcases he with rfl | rfl <;> omega
    rw [alignPtr16 _ hlt]
    simp only [pure, Except.pure, cacheSize]
    congr 2
    rcases he with rfl | rfl <;> omega
  · simp only [cacheRegions, InOrder, Region.stop, cacheSize]
    rcases he with rfl | rfl <;> omega
  · simp only [cacheRegions, List.mem_cons, List.not_mem_nil, or_false, forall_eq_or_imp, forall_eq]
    rcases he with rfl | rfl <;> omega

theorem contextNew_ok (base header n : Nat) (h16 : 16 ∣ base) (hb : base < 2 ^ 63)
    (hn : n < 2 ^ 48) (hh : 0 < header ∧ header < 2 ^ 48) :
    ∃ x, contextNew base header n = .ok x ∧
      Safe base x.size (contextRegions base header x) ∧ 0 < x.size ∧
      x.maxSoaTracks = (n + 3) / 4 ∧ x.maxTracks = 4 * x.maxSoaTracks ∧
      x.maxOutdated = (x.maxSoaTracks + 7) / 8 := by
  obtain ⟨soa, hsoa⟩ : ∃ v, v = (n + 3) / 4 := ⟨_, rfl⟩
  obtain ⟨o, ho⟩ : ∃ v, v = (soa + 7) / 8 := ⟨_, rfl⟩
  have d1 : divCeil n 4 = soa := by unfold divCeil; split <;> omega
  have d2 : divCeil soa 8 = o := by unfold divCeil; split <;> omega
  obtain ⟨H, hH⟩ : ∃ v, v = (header + 15) / 16 * 16 := ⟨_, rfl⟩
  obtain ⟨A, hA⟩ : ∃ v, v = (cacheSize 128 soa (soa * 4) o + 15) / 16 * 16 := ⟨_, rfl⟩
  obtain ⟨B, hB⟩ : ∃ v, v = (cacheSize 160 soa (soa * 4) o + 15) / 16 * 16 := ⟨_, rfl⟩
  have bA : cacheSize 128 soa (soa * 4) o < 2 ^ 57 := by simp only [cacheSize]; omega
  have bB : cacheSize 160 soa (soa * 4) o < 2 ^ 57 := by simp only [cacheSize]; omega
  have u1 := alignUsize16 header (by omega)
  have u2 := alignUsize16 (cacheSize 128 soa (soa * 4) o) (by omega)
  have u3 := alignUsize16 (cacheSize 160 soa (soa * 4) o) (by omega)
  have u4 := alignPtr16 (base + header) (by omega)
  have e4 : (base + header + 15) / 16 * 16 = base + H := by omega
  rw [e4] at u4
  obtain ⟨q1, c1, o1, a1⟩ := carveCache_ok (base + H) 128 soa o (.inl rfl) (by omega) (by omega)
    (by omega) (by omega)
  obtain ⟨q2, c2, o2, a2⟩ := carveCache_ok (base + H + A) 160 soa o (.inr rfl) (by omega) (by omega)
    (by omega) (by omega)
  obtain ⟨q3, c3, o3, a3⟩ := carveCache_ok (base + H + A + B) 128 soa o (.inl rfl) (by omega)
    (by omega) (by omega) (by omega)
  rw [← hA] at c1 o1 c3 o3 u2
  rw [← hB] at c2 o2 u3
  rw [← hH] at u1
  refine ⟨⟨H + A + B + A, soa * 4, soa, o, q1, q2, q3⟩, ?_, ?_, ?_, hsoa, by simp; omega, ho⟩
  · simp only [contextNew, d1, d2, bind, Except.bind, u1, u2, u3, u4, c1, c2, c3, assertB]
    rw [if_pos (by simp; omega)]
    rfl
  · apply InOrder.safe
    · simp only [contextRegions]
      refine ⟨Nat.le_refl _, ?_⟩
      have h0 : InOrder (⟨base, 1, header, 16⟩ : Region).stop [] (base + H) := by
        simp only [InOrder, Region.stop]; omega
      have := h0.append ((o1.append o2).append o3)
      rw [show base + H + A + B + A = base + (H + A + B + A) by omega] at this
      exact this
    · intro x hx
      simp only [contextRegions, List.mem_cons, List.mem_append] at hx
      rcases hx with rfl | (hx | hx) | hx
      · exact h16
      · exact a1 x hx
      · exact a2 x hx
      · exact a3 x hx
  · simp only; omega

end Ozz
