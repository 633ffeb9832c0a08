import Verif.Proofs.Layout

set_option linter.unusedVariables false

/-! Writing arrays to memory and reading them back. -/

namespace Ozz

open Layout

theorem load_length (m : Mem) (p n : Nat) : (m.load p n).length = n := by simp [Mem.load]

theorem load_add (m : Mem) (p a b : Nat) : m.load p (a + b) = m.load p a ++ m.load (p + a) b := by
  simp [Mem.load, List.range_add, Function.comp_def, Nat.add_assoc]

theorem load_store_same (m : Mem) (p : Nat) (bs : List UInt8) :
    (m.store p bs).load p bs.length = bs := by
  apply List.ext_getElem
  · simp [Mem.load]
  · intro i h1 h2
    simp [Mem.load, Mem.store, h2]

theorem store_outside (m : Mem) (p : Nat) (bs : List UInt8) (a : Nat)
    (h : a < p ∨ p + bs.length ≤ a) : m.store p bs a = m a := by
  unfold Mem.store
  split
  · rw [List.getElem?_eq_none (by omega)]; rfl
  · rfl

theorem load_congr {m m' : Mem} {p n : Nat} (h : ∀ a, p ≤ a → a < p + n → m a = m' a) :
    m.load p n = m'.load p n := by
  unfold Mem.load
  apply List.map_congr_left
  intro i hi
  rw [List.mem_range] at hi
  exact h _ (by omega) (by omega)

/-- A sequence of stores. -/
def applyWrites (m : Mem) (ws : List (Region × List UInt8)) : Mem :=
  ws.foldl (fun m w => m.store w.1.start w.2) m

theorem applyWrites_outside (ws : List (Region × List UInt8)) (m : Mem) (a : Nat)
    (hl : ∀ w ∈ ws, w.2.length = w.1.count * w.1.size) (h : ∀ w ∈ ws, ¬ w.1.Has a) :
    applyWrites m ws a = m a := by
  induction ws generalizing m with
  | nil => rfl
  | cons w ws ih =>
    show applyWrites (m.store w.1.start w.2) ws a = _
    rw [ih _ (fun x hx => hl x (List.mem_cons_of_mem _ hx))
      (fun x hx => h x (List.mem_cons_of_mem _ hx))]
    apply store_outside
    have := h w (by simp)
    simp only [Region.Has, Region.stop, ← hl w (by simp)] at this
    omega

theorem applyWrites_load (ws : List (Region × List UInt8)) (m : Mem)
    (hl : ∀ w ∈ ws, w.2.length = w.1.count * w.1.size)
    (hd : (ws.map Prod.fst).Pairwise fun r r' => ∀ x, ¬ (r.Has x ∧ r'.Has x))
    (w : Region × List UInt8) (hw : w ∈ ws) :
    (applyWrites m ws).load w.1.start (w.1.count * w.1.size) = w.2 := by
  induction ws generalizing m with
  | nil => simp at hw
  | cons v ws ih =>
    have hl' := fun x (hx : x ∈ ws) => hl x (List.mem_cons_of_mem _ hx)
    rw [List.map_cons, List.pairwise_cons] at hd
    rcases List.mem_cons.mp hw with rfl | hw
    · show (applyWrites (m.store w.1.start w.2) ws).load _ _ = _
      have : (applyWrites (m.store w.1.start w.2) ws).load w.1.start (w.1.count * w.1.size) =
          (m.store w.1.start w.2).load w.1.start (w.1.count * w.1.size) := by
        apply load_congr
        intro a h1 h2
        apply applyWrites_outside _ _ _ hl'
        intro x hx hxa
        exact hd.1 x.1 (List.mem_map_of_mem hx) a ⟨⟨h1, h2⟩, hxa⟩
      rw [this, ← hl w (by simp), load_store_same]
    · exact ih (m.store v.1.start v.2) hl' hd.2 hw

/-- `r` represents `x` faithfully. -/
def Faithful {α : Type} (r : MemRepr α) (x : α) : Prop :=
  (r.enc x).length = r.size ∧ r.dec (r.enc x) = x

theorem nativeBytes_length (e : Endian) (n v : Nat) : (nativeBytes e n v).length = n := by
  cases e <;> simp [nativeBytes, leBytes_length]

theorem nativeValue_nativeBytes (e : Endian) (n v : Nat) (h : v < 256 ^ n) :
    nativeValue e (nativeBytes e n v) = v := by
  cases e <;> simp [nativeBytes, nativeValue, leValue_leBytes, Nat.mod_eq_of_lt h]

theorem faithful_u8 (e : Endian) (x : UInt8) : Faithful (reprU8 e) x :=
  ⟨nativeBytes_length .., by
    simp only [reprU8]; rw [nativeValue_nativeBytes _ _ _ x.toNat_lt]; simp⟩
theorem faithful_u16 (e : Endian) (x : UInt16) : Faithful (reprU16 e) x :=
  ⟨nativeBytes_length .., by
    simp only [reprU16]; rw [nativeValue_nativeBytes _ _ _ x.toNat_lt]; simp⟩
theorem faithful_u32 (e : Endian) (x : UInt32) : Faithful (reprU32 e) x :=
  ⟨nativeBytes_length .., by
    simp only [reprU32]; rw [nativeValue_nativeBytes _ _ _ x.toNat_lt]; simp⟩
theorem faithful_i16 (e : Endian) (x : Int) (h : -32768 ≤ x ∧ x ≤ 32767) :
    Faithful (reprI16 e) x := by
  refine ⟨nativeBytes_length .., ?_⟩
  simp only [reprI16]
  rw [nativeValue_nativeBytes _ _ _ (BitVec.isLt _)]
  rw [BitVec.ofNat_toNat, BitVec.setWidth_eq, BitVec.toInt_ofInt, Int.bmod_def]
  simp
  omega

theorem flatMap_length {α : Type} (r : MemRepr α) (xs : List α) (h : ∀ x ∈ xs, Faithful r x) :
    (xs.flatMap r.enc).length = xs.length * r.size := by
  induction xs with
  | nil => simp
  | cons x xs ih =>
    rw [List.flatMap_cons, List.length_append, ih fun y hy => h y (List.mem_cons_of_mem _ hy),
      (h x (by simp)).1, List.length_cons, Nat.add_mul]
    omega

theorem array_dec {α : Type} (r : MemRepr α) (xs : List α) (h : ∀ x ∈ xs, Faithful r x) :
    ((List.range xs.length).map fun i =>
      r.dec (((xs.flatMap r.enc).drop (i * r.size)).take r.size)) = xs := by
  induction xs with
  | nil => rfl
  | cons x xs ih =>
    have hx := h x (by simp)
    rw [List.length_cons, List.range_succ_eq_map, List.map_cons, List.map_map, List.flatMap_cons]
    congr 1
    · rw [Nat.zero_mul, List.drop_zero, ← hx.1, List.take_left]
      exact hx.2
    · have ih' := ih fun y hy => h y (List.mem_cons_of_mem _ hy)
      refine Eq.trans (List.map_congr_left fun i hi => ?_) ih'
      simp only [Function.comp_apply]
      rw [show (i + 1) * r.size = (r.enc x).length + i * r.size by rw [hx.1, Nat.add_mul]; omega]
      rw [List.drop_append, Nat.add_sub_cancel_left, List.drop_of_length_le (by omega),
        List.nil_append]

theorem faithful_array {α : Type} (r : MemRepr α) (k : Nat) (xs : List α) (hk : xs.length = k)
    (h : ∀ x ∈ xs, Faithful r x) : Faithful (r.array k) xs := by
  constructor
  · simp only [MemRepr.array]
    rw [flatMap_length r xs h, hk]
  · subst hk
    exact array_dec r xs h

theorem readSliceAt_of_load {α : Type} (r : MemRepr α) (m : Mem) (p : Nat) (xs : List α)
    (h : ∀ x ∈ xs, Faithful r x) (hm : m.load p (xs.length * r.size) = xs.flatMap r.enc) :
    readSliceAt r m p xs.length = xs := by
  induction xs generalizing p with
  | nil => rfl
  | cons x xs ih =>
    have hx := h x (by simp)
    rw [List.length_cons, show (xs.length + 1) * r.size = r.size + xs.length * r.size by
      rw [Nat.add_mul]; omega, load_add, List.flatMap_cons] at hm
    obtain ⟨h1, h2⟩ := List.append_inj hm (by rw [load_length, hx.1])
    unfold readSliceAt at ih ⊢
    rw [List.length_cons, List.range_succ_eq_map, List.map_cons, List.map_map]
    congr 1
    · rw [Nat.zero_mul, Nat.add_zero, h1]; exact hx.2
    · have := ih (p + r.size) (fun y hy => h y (List.mem_cons_of_mem _ hy)) h2
      refine Eq.trans (List.map_congr_left fun i hi => ?_) this
      simp only [Function.comp_apply]
      rw [show p + (i + 1) * r.size = p + r.size + i * r.size by rw [Nat.add_mul]; omega]

theorem copyFromSlice_ok {α : Type} (r : MemRepr α) (m : Mem) (p n : Nat) (xs : List α)
    (h : xs.length = n) : copyFromSlice r m p n xs = .ok (m.store p (xs.flatMap r.enc)) := by
  simp [copyFromSlice, assertB, h, bind, Except.bind, pure, Except.pure]

/-! ### Animation -/

/-- The stores that fill a channel. -/
def channelWrites (e : Endian) (p : ChannelPtrs) (n : ChannelCounts) (c : ChannelData) :
    List (Region × List UInt8) :=
  [(⟨p.keys, n.keys, 6, 2⟩, c.keys.flatMap ((reprU16 e).array 3).enc),
   (⟨p.ratios, n.keys, 2, 2⟩, c.ratios.flatMap (reprU16 e).enc),
   (⟨p.previouses, n.keys, 2, 2⟩, c.previouses.flatMap (reprU16 e).enc),
   (⟨p.entries, n.entries, 1, 1⟩, c.iframeEntries.flatMap (reprU8 e).enc),
   (⟨p.desc, n.desc, 4, 4⟩, c.iframeDesc.flatMap (reprU32 e).enc)]

theorem channelCounts_eq {c : ChannelData} (h : RawChannelWF c) :
    channelCounts c = ⟨c.keys.length, c.iframeEntries.length, c.iframeDesc.length⟩ := by
  simp only [channelCounts, lenU32, Nat.mod_eq_of_lt h.keyCount, Nat.mod_eq_of_lt h.entryCount,
    Nat.mod_eq_of_lt h.descCount]

theorem fillChannel_ok (e : Endian) (m : Mem) (p : ChannelPtrs) (c : ChannelData)
    (h : RawChannelWF c) :
    fillChannel e m p (channelCounts c) c =
      .ok (applyWrites m (channelWrites e p (channelCounts c) c)) := by
  have hc := channelCounts_eq h
  rw [hc]
  simp only [fillChannel, bind, Except.bind]
  rw [copyFromSlice_ok _ _ _ _ _ rfl]; simp only
  rw [copyFromSlice_ok _ _ _ _ _ h.ratios]; simp only
  rw [copyFromSlice_ok _ _ _ _ _ h.previouses]; simp only
  rw [copyFromSlice_ok _ _ _ _ _ rfl]; simp only
  rw [copyFromSlice_ok _ _ _ _ _ rfl]
  rfl

theorem faithful_key (e : Endian) {c : ChannelData} (h : RawChannelWF c) :
    ∀ x ∈ c.keys, Faithful ((reprU16 e).array 3) x :=
  fun x hx => faithful_array _ _ _ (h.keys x hx) fun y _ => faithful_u16 e y

theorem channelWrites_length (e : Endian) (p : ChannelPtrs) (c : ChannelData)
    (h : RawChannelWF c) :
    ∀ w ∈ channelWrites e p (channelCounts c) c, w.2.length = w.1.count * w.1.size := by
  rw [channelCounts_eq h]
  simp only [channelWrites, List.mem_cons, List.not_mem_nil, or_false, forall_eq_or_imp, forall_eq]
  refine ⟨?_, ?_, ?_, ?_, ?_⟩
  · rw [flatMap_length _ _ (faithful_key e h)]; rfl
  · rw [flatMap_length _ _ fun x _ => faithful_u16 e x, h.ratios]; rfl
  · rw [flatMap_length _ _ fun x _ => faithful_u16 e x, h.previouses]; rfl
  · rw [flatMap_length _ _ fun x _ => faithful_u8 e x]; rfl
  · rw [flatMap_length _ _ fun x _ => faithful_u32 e x]; rfl

theorem channelToRaw_eq (e : Endian) (m : Mem) (p : ChannelPtrs) (c : ChannelData)
    (h : RawChannelWF c)
    (hm : ∀ w ∈ channelWrites e p (channelCounts c) c,
      m.load w.1.start (w.1.count * w.1.size) = w.2) :
    channelToRaw e m p (channelCounts c) c.iframeInterval = c := by
  rw [channelCounts_eq h] at hm ⊢
  simp only [channelWrites, List.mem_cons, List.not_mem_nil, or_false, forall_eq_or_imp,
    forall_eq] at hm
  obtain ⟨h1, h2, h3, h4, h5⟩ := hm
  have r1 := readSliceAt_of_load _ m p.keys c.keys (faithful_key e h) h1
  have r2 := readSliceAt_of_load (reprU16 e) m p.ratios c.ratios (fun x _ => faithful_u16 e x)
    (by rw [h.ratios]; exact h2)
  have r3 := readSliceAt_of_load (reprU16 e) m p.previouses c.previouses
    (fun x _ => faithful_u16 e x) (by rw [h.previouses]; exact h3)
  have r4 := readSliceAt_of_load (reprU8 e) m p.entries c.iframeEntries
    (fun x _ => faithful_u8 e x) h4
  have r5 := readSliceAt_of_load (reprU32 e) m p.desc c.iframeDesc
    (fun x _ => faithful_u32 e x) h5
  rw [h.ratios] at r2
  rw [h.previouses] at r3
  simp only [channelToRaw, r1, r2, r3, r4, r5]

theorem counts_lt {c : ChannelData} (h : RawChannelWF c) :
    (channelCounts c).keys < 2 ^ 32 ∧ (channelCounts c).entries < 2 ^ 32 ∧
      (channelCounts c).desc < 2 ^ 32 := by
  rw [channelCounts_eq h]; exact ⟨h.keyCount, h.entryCount, h.descCount⟩

theorem animation_raw_round_trip (e : Endian) (base : Nat) (m : Mem) (raw : AnimationData)
    (h : RawWF raw) (hb : base < 2 ^ 63) (h4 : 4 ∣ base) :
    ∃ x m', animationFromRaw e base m raw = .ok (x, m') ∧ animationToRaw e x m' = raw ∧
      ∀ a, ¬ (base ≤ a ∧ a < base + x.layout.size) → m' a = m a := by
  have hn : lenU32 raw.timepoints = raw.timepoints.length := by
    simp only [lenU32, Nat.mod_eq_of_lt h.timepoints]
  obtain ⟨L, hL, hbase, hsafe, _⟩ := animationNew_ok base raw.timepoints.length
    (channelCounts raw.t) (channelCounts raw.r) (channelCounts raw.s) hb h4 h.timepoints
    (counts_lt h.t) (counts_lt h.r) (counts_lt h.s)
  let w0 : Region × List UInt8 := (⟨L.timepoints, raw.timepoints.length, 4, 4⟩,
    raw.timepoints.flatMap (reprU32 e).enc)
  let ws := w0 :: (channelWrites e L.t (channelCounts raw.t) raw.t ++
    channelWrites e L.r (channelCounts raw.r) raw.r ++
    channelWrites e L.s (channelCounts raw.s) raw.s)
  have hws : ws.map Prod.fst = animationRegions L raw.timepoints.length (channelCounts raw.t)
      (channelCounts raw.r) (channelCounts raw.s) := rfl
  have hlen : ∀ w ∈ ws, w.2.length = w.1.count * w.1.size := by
    intro w hw
    simp only [ws, List.mem_cons, List.mem_append] at hw
    rcases hw with rfl | (hw | hw) | hw
    · simp only [w0]
      rw [flatMap_length _ _ fun x _ => faithful_u32 e x]; rfl
    · exact channelWrites_length e L.t raw.t h.t w hw
    · exact channelWrites_length e L.r raw.r h.r w hw
    · exact channelWrites_length e L.s raw.s h.s w hw
  have hload := applyWrites_load ws m hlen (hws ▸ hsafe.disjoint)
  refine ⟨⟨L, raw.duration, raw.numTracks, raw.name, raw.timepoints.length, channelCounts raw.t,
      channelCounts raw.r, channelCounts raw.s, raw.t.iframeInterval, raw.r.iframeInterval,
      raw.s.iframeInterval⟩, applyWrites m ws, ?_, ?_, ?_⟩
  · simp only [animationFromRaw, hn, bind, Except.bind, hL]
    rw [copyFromSlice_ok _ _ _ _ _ rfl]; simp only
    rw [fillChannel_ok e _ L.t raw.t h.t]; simp only
    rw [fillChannel_ok e _ L.r raw.r h.r]; simp only
    rw [fillChannel_ok e _ L.s raw.s h.s]
    rfl
  · have r0 := readSliceAt_of_load (reprU32 e) (applyWrites m ws) L.timepoints raw.timepoints
      (fun x _ => faithful_u32 e x) (hload w0 (by simp [ws]))
    have r1 := channelToRaw_eq e (applyWrites m ws) L.t raw.t h.t
      fun w hw => hload w (by simp [ws, hw])
    have r2 := channelToRaw_eq e (applyWrites m ws) L.r raw.r h.r
      fun w hw => hload w (by simp [ws, hw])
    have r3 := channelToRaw_eq e (applyWrites m ws) L.s raw.s h.s
      fun w hw => hload w (by simp [ws, hw])
    simp only [animationToRaw, r0, r1, r2, r3]
  · intro a ha
    apply applyWrites_outside ws m a hlen
    intro w hw hwa
    have : w.1 ∈ ws.map Prod.fst := List.mem_map_of_mem hw
    rw [hws] at this
    have := hsafe.inside w.1 this
    simp only [Region.Has] at hwa
    exact ha (by simp only; omega)

/-! ### Skeleton -/

theorem skeleton_raw_round_trip (e : Endian) (base : Nat) (m : Mem) (raw : SkeletonRaw)
    (hl : raw.jointParents.length < 2 ^ 32)
    (hp : raw.jointRestPoses.length = (raw.jointParents.length + 3) / 4)
    (hpose : ∀ p ∈ raw.jointRestPoses, p.length = 40)
    (hpar : ∀ p ∈ raw.jointParents, -32768 ≤ p ∧ p ≤ 32767) (h16 : 16 ∣ base) :
    ∃ x m', skeletonFromRaw e base m raw = .ok (x, m') ∧ skeletonToRaw e x m' = raw ∧
      ∀ a, ¬ (base ≤ a ∧ a < base + x.layout.size) → m' a = m a := by
  have hn : lenU32 raw.jointParents = raw.jointParents.length := by
    simp only [lenU32, Nat.mod_eq_of_lt hl]
  obtain ⟨L, hL, hbase, hsafe, _⟩ := skeletonNew_ok base raw.jointParents.length h16
  let ws : List (Region × List UInt8) :=
    [(⟨L.restPoses, numSoa raw.jointParents.length, 160, 16⟩,
       raw.jointRestPoses.flatMap ((reprU32 e).array 40).enc),
     (⟨L.parents, raw.jointParents.length, 2, 2⟩, raw.jointParents.flatMap (reprI16 e).enc)]
  have hws : ws.map Prod.fst =
    skeletonRegions L raw.jointParents.length (numSoa raw.jointParents.length) := rfl
  have f1 : ∀ x ∈ raw.jointRestPoses, Faithful ((reprU32 e).array 40) x :=
    fun x hx => faithful_array _ _ _ (hpose x hx) fun y _ => faithful_u32 e y
  have f2 : ∀ x ∈ raw.jointParents, Faithful (reprI16 e) x :=
    fun x hx => faithful_i16 e x (hpar x hx)
  have hlen : ∀ w ∈ ws, w.2.length = w.1.count * w.1.size := by
    simp only [ws, List.mem_cons, List.not_mem_nil, or_false, forall_eq_or_imp, forall_eq]
    constructor
    · rw [flatMap_length _ _ f1, hp]; rfl
    · rw [flatMap_length _ _ f2]; rfl
  have hload := applyWrites_load ws m hlen (hws ▸ hsafe.disjoint)
  refine ⟨⟨L, raw.jointParents.length, raw.jointNames⟩, applyWrites m ws, ?_, ?_, ?_⟩
  · simp only [skeletonFromRaw, hn, bind, Except.bind, hL]
    rw [copyFromSlice_ok _ _ _ (numSoa raw.jointParents.length) _ hp]; simp only
    rw [copyFromSlice_ok _ _ _ _ _ rfl]
    rfl
  · have r1 := readSliceAt_of_load _ (applyWrites m ws) L.restPoses raw.jointRestPoses f1
      (by rw [hp]; exact hload _ (List.mem_cons_self ..))
    have r2 := readSliceAt_of_load _ (applyWrites m ws) L.parents raw.jointParents f2
      (hload _ (List.mem_cons_of_mem _ (List.mem_cons_self ..)))
    rw [hp] at r1
    have r1' : readSliceAt ((reprU32 e).array 40) (applyWrites m ws) L.restPoses
      (numSoa raw.jointParents.length) = raw.jointRestPoses := r1
    simp only [skeletonToRaw, r1', r2]
  · intro a ha
    apply applyWrites_outside ws m a hlen
    intro w hw hwa
    have : w.1 ∈ ws.map Prod.fst := List.mem_map_of_mem hw
    rw [hws] at this
    have := hsafe.inside w.1 this
    simp only [Region.Has] at hwa
    exact ha (by simp only; omega)

end Ozz
