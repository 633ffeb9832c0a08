import Verif.Proofs.ContextEq
import Verif.Props.Sampling
import Verif.Props.FloatSampling
import Verif.Proofs.FloatKeys
import Verif.Model.Lanes

/-! C97: comparing sampling contexts, and contexts made for an animation. -/

namespace Ozz.Props

open Ozz Sampling Spec ContextEq F32 Ieee

/-- **C97.** `==` of two contexts is true exactly when they hold the same data. -/
theorem C97_equal (a b : Ctx) : ContextEq.eq a b = true ↔ SameContext a b := by
  simp only [ContextEq.eq, Bool.and_eq_true, beq_iff_eq, eq_same, eqCache_same eqInterp3_same, eqCache_same eqInterpQ_same]
  constructor
  · rintro ⟨⟨⟨⟨⟨⟨⟨-, h1⟩, -⟩, h2⟩, h3⟩, h4⟩, h5⟩, h6⟩
    exact ⟨h1, h2, h3, h4, h5, h6⟩
  · rintro ⟨h1, h2, h3, h4, h5, h6⟩
    exact ⟨⟨⟨⟨⟨⟨⟨by rw [h1], h1⟩, by rw [h1]⟩, h2⟩, h3⟩, h4⟩, h5⟩, h6⟩

/-- **C97.** `==` is symmetric and transitive, as `PartialEq` demands, and a context equals itself exactly if no float in it is a NaN. -/
theorem C97_partial_equivalence (a b c : Ctx) :
    (ContextEq.eq a b = ContextEq.eq b a) ∧
      (ContextEq.eq a b = true → ContextEq.eq b c = true → ContextEq.eq a c = true) ∧ (ContextEq.eq a a = true ↔ NoNaN a) := by
  have symm : ∀ a b : Ctx, SameContext a b → SameContext b a := fun a b h =>
    ⟨h.1.symm, h.2.symm, sameNumber_symm h.3, sameCache_symm h.4, sameCache_symm h.5, sameCache_symm h.6⟩
  refine ⟨?_, ?_, ?_⟩
  · rw [Bool.eq_iff_iff, C97_equal, C97_equal]
    exact ⟨symm a b, symm b a⟩
  · rw [C97_equal, C97_equal, C97_equal]
    exact fun h h' => ⟨h.1.trans h'.1, h.2.trans h'.2, sameNumber_trans h.3 h'.3, sameCache_trans h.4 h'.4, sameCache_trans h.5 h'.5,
      sameCache_trans h.6 h'.6⟩
  · rw [C97_equal]
    constructor
    · exact fun h => ⟨(sameNumber_self _).1 h.3, sameCache_self.1 h.4, sameCache_self.1 h.5, sameCache_self.1 h.6⟩
    · exact fun h => ⟨rfl, rfl, (sameNumber_self _).2 h.1, sameCache_self.2 h.2.1, sameCache_self.2 h.2.2.1, sameCache_self.2 h.2.2.2⟩

/-- **C97.** Clearing a context forgets animation, ratio and the place in the keys, and nothing else: two contexts are equal after clearing
exactly if they have the same capacity and the same cached keys. -/
theorem C97_cleared (a b : Ctx) : ContextEq.eq a.clear b.clear = true ↔
    a.maxSoa = b.maxSoa ∧ SameCached numbers3 a.translations b.translations ∧ SameCached numbersQ a.rotations b.rotations ∧
      SameCached numbers3 a.scales b.scales := by
  rw [C97_equal]
  constructor
  · rintro ⟨h1, -, -, h4, h5, h6⟩
    exact ⟨h1, ⟨h4.1, h4.2, h4.4⟩, ⟨h5.1, h5.2, h5.4⟩, ⟨h6.1, h6.2, h6.4⟩⟩
  · rintro ⟨h1, h4, h5, h6⟩
    exact ⟨h1, rfl, (sameNumber_self _).2 (by decide : F32.zero.isNaN = false), ⟨h4.1, h4.2, rfl, h4.3⟩, ⟨h5.1, h5.2, rfl, h5.3⟩,
      ⟨h6.1, h6.2, rfl, h6.3⟩⟩

/-- **C97.** After any history, cloning succeeds, and clone and original are equal exactly if no float in the context is a NaN. The
same goes for a context that was saved and loaded. -/
theorem C97_clone {K3 KQ O : Type} {N : Numerics F32 K3 KQ (SoaVec3 F32) (SoaQuat F32) O} {lo hi : F32}
    {anims : Nat → Option (Animation F32 K3 KQ)} {n : Nat} (hst : StoreOk lo hi ((n + 3) / 4) anims) {c : Ctx}
    (hc : Reached N lo hi anims n c) (size : Nat) (mt : Mem F32 (SoaVec3 F32)) (mr : Mem F32 (SoaQuat F32)) (ms : Mem F32 (SoaVec3 F32)) :
    (∃ c', c.clone mt mr ms = .ok c' ∧ (ContextEq.eq c' c = true ↔ NoNaN c)) ∧
      ∃ c', Context.deserialize (c.serialize size) mt mr ms = some (.ok c') ∧ (ContextEq.eq c' c = true ↔ NoNaN c) := by
  obtain ⟨h1, h2⟩ := C55_clone_and_save_load f32Order hst hc size mt mr ms
  exact ⟨⟨c, h1, (C97_partial_equivalence c c c).2.2⟩, c, h2, (C97_partial_equivalence c c c).2.2⟩

/-- **C97.** The memory of a new context is not initialised: for every capacity there is a content of the allocation for which the
clone of a new context is not equal to it. -/
theorem C97_fresh_clone_differs (n : Nat) (hn : 0 < n) : ∃ (mt : Mem F32 (SoaVec3 F32)) (mr : Mem F32 (SoaQuat F32)),
    ∃ c', (Context.new n mt mr mt : Ctx).clone mt mr mt = .ok c' ∧ ContextEq.eq c' (Context.new n mt mr mt) = false := by
  let z : F4 F32 := splat F32.nan
  let m : Mem F32 (SoaVec3 F32) := ⟨fun _ => 0, fun _ => 0, fun _ => ⟨z, z, ⟨z, z, z⟩, ⟨z, z, z⟩⟩⟩
  let q : Mem F32 (SoaQuat F32) := ⟨fun _ => 0, fun _ => 0, fun _ => ⟨z, z, ⟨z, z, z, z⟩, ⟨z, z, z, z⟩⟩⟩
  have hu := usable_new (K3 := Unit) (KQ := Unit) (O := Unit) ⟨fun _ _ _ _ => ⟨z, z, z⟩, fun _ _ _ _ => ⟨z, z, z, z⟩, fun _ _ _ _ => ()⟩
    F32.zero F32.one (fun _ => none) n m q m
  refine ⟨m, q, _, clone_eq hu m q m, ?_⟩
  rw [Bool.eq_false_iff]
  intro h
  have h1 := ((C97_partial_equivalence _ (Context.new n m q m) (Context.new n m q m)).2.2.1 h).2.1
  have h2 : (⟨z, z, ⟨z, z, z⟩, ⟨z, z, z⟩⟩ : Interp F32 (SoaVec3 F32)) ∈ (Context.new n m q m : Ctx).translations.values := by
    simp only [Context.new, Cache.new, List.mem_map, List.mem_range]
    exact ⟨0, by omega, rfl⟩
  have h3 := h1 _ h2 0 F32.nan (by simp [numbers3, z, splat])
  exact absurd h3 (by decide)

/-- Key times of a well-formed channel are numbers. -/
private theorem time_number {K : Type} {real T : Nat} {tps : List F32} {ch : Chan F32 K} {time : Nat → F32} {pred track : Nat → Nat}
    {lo hi : F32} (h : ChanOk lo hi real T tps ch time pred track) {k : Nat} (hk : k < ch.previouses.length) : (time k).isNaN = false := by
  rw [nan32_false]
  rcases Nat.lt_or_ge k T with hT | hT
  · exact (le32_iff.1 (h.order.start k hT)).1
  · exact (lt32_iff.1 (h.order.increasing k hT hk)).2.1

private theorem bracket_lt {T N : Nat} {time : Nat → F32} {track : Nat → Nat} {t l k : Nat} {r : F32}
    (b : Bracket T N time track t r l k) : l < N ∧ k < N := by
  exact ⟨lt_trans b.lt b.rightLt, b.rightLt⟩

private theorem plain_number {k : Keys.Float3Key} (h : ∀ x, GoodHalf (k x)) (c : Fin 3) : (Keys.f16ToF32Lane (k c)).isNaN = false := by
  rw [nan32_false]
  exact not_nan_of_finite ((C13_four_wide_partial (k c) (h c).2).1 (h c).1).1

private theorem quat_number (k : Keys.QuatKey) (c : Fin 4) : (k.decompress c : F32).isNaN = false := by
  rw [nan32_false]
  exact not_nan_of_finite ((Keys.decompress32_ok k).1 c)

private theorem f4_at {β γ : Type} (f : β → γ) (a : Fin 4 → β) (l : Fin 4) : f4 (f (a 0)) (f (a 1)) (f (a 2)) (f (a 3)) l = f (a l) := by
  fin_cases l <;> rfl

private theorem chan3_number {lo hi : F32} {real T : Nat} {tps : List F32} {ch : Chan F32 Keys.Float3Key} {i : Nat} {r : F32}
    {v : Interp F32 (SoaVec3 F32)} (hk : ∀ k ∈ ch.keys, ∀ x, GoodHalf (k x))
    (h : ChanSample lo hi real T tps ch codeNumerics.dec3 i r v) (l : Fin 4) : ∀ x ∈ numbers3 v l, x.isNaN = false := by
  obtain ⟨time, pred, track, hok, kl, kr, a, b, hb, ha, hb', h0, h1, v0, v1⟩ := h
  rw [code_eq] at v0 v1
  have pa : ∀ j x, GoodHalf (a j x) := fun j => hk _ (List.mem_of_getElem? (ha j))
  have pb : ∀ j x, GoodHalf (b j x) := fun j => hk _ (List.mem_of_getElem? (hb' j))
  have t0 := time_number hok (bracket_lt (hb l)).1
  have t1 := time_number hok (bracket_lt (hb l)).2
  have na := fun c => plain_number (pa l) c
  have nb := fun c => plain_number (pb l) c
  have ea := fun c => f4_at (fun k : Keys.Float3Key => Keys.f16ToF32Lane (k c)) a l
  have eb := fun c => f4_at (fun k : Keys.Float3Key => Keys.f16ToF32Lane (k c)) b l
  intro x hx
  simp only [numbers3, h0, h1, v0, v1, jobNumerics, lanes3, ea, eb, List.mem_cons, List.not_mem_nil, or_false] at hx
  rcases hx with rfl | rfl | hx
  · exact t0
  · exact t1
  · rcases hx with rfl | rfl | rfl | rfl | rfl | rfl
    exacts [na 0, na 1, na 2, nb 0, nb 1, nb 2]

private theorem chanQ_number {lo hi : F32} {real T : Nat} {tps : List F32} {ch : Chan F32 Keys.QuatKey} {i : Nat} {r : F32}
    {v : Interp F32 (SoaQuat F32)}
    (h : ChanSample lo hi real T tps ch codeNumerics.decQ i r v) (l : Fin 4) : ∀ x ∈ numbersQ v l, x.isNaN = false := by
  obtain ⟨time, pred, track, hok, kl, kr, a, b, hb, ha, hb', h0, h1, v0, v1⟩ := h
  rw [code_eq] at v0 v1
  have t0 := time_number hok (bracket_lt (hb l)).1
  have t1 := time_number hok (bracket_lt (hb l)).2
  have ea := fun c => f4_at (fun k : Keys.QuatKey => (k.decompress c : F32)) a l
  have eb := fun c => f4_at (fun k : Keys.QuatKey => (k.decompress c : F32)) b l
  intro x hx
  simp only [numbersQ, h0, h1, v0, v1, jobNumerics, lanesQ, ea, eb, List.mem_cons, List.not_mem_nil, or_false] at hx
  rcases hx with rfl | rfl | hx
  · exact t0
  · exact t1
  · rcases hx with rfl | rfl | rfl | rfl | rfl | rfl | rfl | rfl <;> exact quat_number _ _

/-- **C97.** Once an animation whose translations and scales are finite half floats below the largest one (C13) was sampled, in single precision, the context equals its clones, and
what comes back from saving and loading: nothing uninitialised is left in it. -/
theorem C97_sampled {anims : Nat → Option (Animation F32 Keys.Float3Key Keys.QuatKey)} {n : Nat}
    (hst : StoreOk F32.zero F32.one ((n + 3) / 4) anims) {c : Ctx} (hc : Reached codeNumerics F32.zero F32.one anims n c)
    {addr : Nat} {a : Animation F32 Keys.Float3Key Keys.QuatKey} (ha : anims addr = some a) (hwf : WellFormed F32.zero F32.one a)
    (hn : (a.numTracks + 3) / 4 = (n + 3) / 4) (hpos : 0 < n) {r : F32} (hr1 : F32.zero ≤ r) (hr2 : r ≤ F32.one)
    {out : List (SoaTransform F32)} (hout : (n + 3) / 4 ≤ out.length) (ht : ∀ k ∈ a.translations.keys, ∀ x, GoodHalf (k x))
    (hs : ∀ k ∈ a.scales.keys, ∀ x, GoodHalf (k x)) (size : Nat) (mt : Mem F32 (SoaVec3 F32)) (mr : Mem F32 (SoaQuat F32))
    (ms : Mem F32 (SoaVec3 F32)) :
    ∃ c' out', run codeNumerics a addr r c out = .ok (c', out') ∧ NoNaN c' ∧
      (∃ d, c'.clone mt mr ms = .ok d ∧ ContextEq.eq d c' = true) ∧
      ∃ d, Context.deserialize (c'.serialize size) mt mr ms = some (.ok d) ∧ ContextEq.eq d c' = true := by
  obtain ⟨c', out', h1, hu, hr, vt, vq, vs⟩ := run_values f32Order ha (store_ne_zero hst ha) hn (by omega) hwf hr1 hr2
    (reached_usable f32Order hst hc) hout
  have mem : ∀ {V : Type} {P : Interp F32 V → Prop} {xs : List (Interp F32 V)}, xs.length = (n + 3) / 4 →
      (∀ i, i < (n + 3) / 4 → ∃ v, xs[i]? = some v ∧ P v) → ∀ v ∈ xs, P v := by
    intro V P xs hl h v hv
    obtain ⟨i, hi, rfl⟩ := List.mem_iff_getElem.1 hv
    obtain ⟨w, hw, hP⟩ := h i (by omega)
    rw [List.getElem?_eq_getElem hi] at hw
    cases hw
    exact hP
  have hno : NoNaN c' := by
    refine ⟨by rw [hr, nan32_false]; exact (le32_iff.1 hr1).2.1, ?_, ?_, ?_⟩
    · exact mem hu.translations.values fun i hi => let ⟨v, e, h⟩ := vt i hi; ⟨v, e, fun l => chan3_number ht h l⟩
    · exact mem hu.rotations.values fun i hi => let ⟨v, e, h⟩ := vq i hi; ⟨v, e, fun l => chanQ_number h l⟩
    · exact mem hu.scales.values fun i hi => let ⟨v, e, h⟩ := vs i hi; ⟨v, e, fun l => chan3_number hs h l⟩
  have he := (C97_partial_equivalence c' c' c').2.2.2 hno
  exact ⟨c', out', h1, hno, ⟨c', clone_eq hu mt mr ms, he⟩, c', deserialize_serialize hu size mt mr ms, he⟩

section
variable {α K3 KQ V3 VQ O : Type} [RatioOps α] {N : Numerics α K3 KQ V3 VQ O} {lo hi : α}

/-- **C97.** Contexts made by `from_animation` are as good as new ones: whatever address they remember and whatever was done with
them since, the pose is the one a context from `new` produces. -/
theorem C97_from_animation (Ord : RatioOrder α) {anims : Nat → Option (Animation α K3 KQ)} {b : Animation α K3 KQ} {addr₀ : Nat}
    (hst : StoreOk lo hi b.numSoa anims) {ops : List (Op α V3 VQ O)} (hops : OpsOk lo hi anims ops) {mt : Mem α V3} {mr : Mem α VQ}
    {ms : Mem α V3} {c : Context α V3 VQ} (hc : Exec N anims ops (Context.fromAnimation b addr₀ mt mr ms) c)
    {addr : Nat} {a : Animation α K3 KQ} (ha : anims addr = some a) (hwf : WellFormed lo hi a) (hn : a.numSoa = b.numSoa)
    (hpos : 0 < a.numSoa) {r : α} (hr1 : lo ≤ r) (hr2 : r ≤ hi) {out : List O} (hout : a.numSoa ≤ out.length) (mt' : Mem α V3)
    (mr' : Mem α VQ) (ms' : Mem α V3) :
    ∃ c1 c2 pose, run N a addr r c out = .ok (c1, pose) ∧ run N a addr r (Context.new a.numTracks mt' mr' ms') out = .ok (c2, pose) := by
  have hu := exec_usable Ord hst hc hops (usable_fromAnimation N lo hi anims b addr₀ mt mr ms)
  rw [← hn] at hu
  have hu' := usable_new N lo hi anims a.numTracks mt' mr' ms'
  obtain ⟨c1, o1, h1, _, _, h4, h5⟩ := run_ok Ord ha (store_ne_zero hst ha) rfl hpos hwf hr1 hr2 hu hout
  obtain ⟨c2, o2, g1, _, _, g4, g5⟩ := run_ok Ord ha (store_ne_zero hst ha) rfl hpos hwf hr1 hr2 hu' hout
  have : o1 = o2 := by
    apply List.ext_getElem? ; intro i
    rcases Nat.lt_or_ge i a.numSoa with h | h
    · obtain ⟨x, hx1, hx2⟩ := h4 i h
      obtain ⟨y, hy1, hy2⟩ := g4 i h
      rw [hx1, hy1, sampled_unique Ord hx2 hy2]
    · rw [h5 i h, g5 i h]
  subst this
  exact ⟨c1, c2, o1, h1, g1⟩

end

section
open Ozz.Sampling.FloatExample Ozz.Sampling.Example

private def mem97 : Mem F32 (SoaVec3 F32) := ⟨fun _ => 0, fun _ => 0, fun _ => ⟨splat nan, splat nan, ⟨splat nan, splat nan, splat nan⟩,
  ⟨splat nan, splat nan, splat nan⟩⟩⟩
private def memQ97 : Mem F32 (SoaQuat F32) := ⟨fun _ => 0, fun _ => 0, fun _ => ⟨splat nan, splat nan,
  ⟨splat nan, splat nan, splat nan, splat nan⟩, ⟨splat nan, splat nan, splat nan, splat nan⟩⟩⟩

/-- A new context full of NaNs is not equal to itself; once the animation of C62 was sampled with it, it is equal to its clone. -/
example : ∃ c' out', ContextEq.eq (Context.new 2 mem97 memQ97 mem97) (Context.new 2 mem97 memQ97 mem97) = false ∧
    run codeNumerics anim32 100 quarter (Context.new 2 mem97 memQ97 mem97) [Lanes.identity] = .ok (c', out') ∧
    ∃ d, c'.clone mem97 memQ97 mem97 = .ok d ∧ ContextEq.eq d c' = true := by
  obtain ⟨c', out', h1, -, h3, -⟩ := C97_sampled store32_ok (c := Context.new 2 mem97 memQ97 mem97)
    ⟨mem97, memQ97, mem97, [], by simp [OpsOk], .nil _⟩ (addr := 100) (by simp [store32]) well32 rfl (by decide) (r := quarter)
    (by decide +kernel) (by decide +kernel) (out := [Lanes.identity]) (by decide) floatKeys_good floatKeys_good 0 mem97 memQ97 mem97
  exact ⟨c', out', by decide +kernel, h1, h3⟩

/-- Two zeros of different sign are the same number, two NaNs are not. -/
example : ContextEq.eq4 (splat F32.zero) (splat (F32.neg F32.zero)) = true ∧ ContextEq.eq4 (splat nan) (splat nan) = false := by
  decide +kernel

end

/-- `from_animation` on the example of C15: the pose is that of a new context. -/
example : ∃ c1 c2 pose, run Sampling.Example.numerics Sampling.Example.anim 100 (1/3)
      (Context.fromAnimation Sampling.Example.anim 100 Sampling.Example.mem Sampling.Example.mem Sampling.Example.mem) [[], []] = .ok (c1, pose) ∧
    run Sampling.Example.numerics Sampling.Example.anim 100 (1/3)
      (Context.new Sampling.Example.anim.numTracks Sampling.Example.mem Sampling.Example.mem Sampling.Example.mem) [[], []] = .ok (c2, pose) :=
  C97_from_animation Sampling.Example.ratOrder (Sampling.Example.storeOk 2 rfl) (ops := []) (by simp [OpsOk]) (.nil _) rfl
    Sampling.Example.wellFormed rfl (by decide) (by decide +kernel) (by decide +kernel) (by decide) _ _ _

/-- A context at another place of another animation is another one, but no longer once both are cleared. -/
example (a : Ctx) (h : NoNaN a) (id : Nat) (hid : id ≠ a.animationId) (next : Nat) :
    let b : Ctx := { a with animationId := id, rotations := { a.rotations with next := next } }
    ContextEq.eq b a = false ∧ ContextEq.eq b.clear a.clear = true := by
  refine ⟨?_, (C97_cleared _ _).2 ?_⟩
  · rw [Bool.eq_false_iff]
    exact fun e => hid ((C97_equal _ _).1 e).2
  · have k := (C97_equal _ _).1 ((C97_partial_equivalence a a a).2.2.2 h)
    exact ⟨rfl, ⟨rfl, rfl, k.4.4⟩, ⟨rfl, rfl, k.5.4⟩, rfl, rfl, k.6.4⟩

end Ozz.Props
