import Verif.Proofs.LocalToModel
import Verif.Props.Skeleton

/-!
Property theorems C28, C29, C30: local-to-model conversion.
All hold for an arbitrary product `mul`, hence for the rounding `f32` one.
-/

namespace Ozz.Props

open Spec LocalToModel

variable {S M : Type} (mul : M → M → M) (toAos : S → Fin 4 → M)

/-- The range recomputed by a run is exactly the requested set. -/
private theorem requested_iff (j : Job S M) (hd : DepthFirst j.parents) {b e : Nat}
    (hf2 : j.from_ < 2^31 - 1)
    (hb : b = (max 0 (j.from_ + (if j.fromExcluded then 1 else 0))).toNat)
    (h : (e = b ∧ ((max 0 (min (j.to + 1) (j.parents.length : Int))).toNat ≤ b ∨
          (j.fromExcluded = true ∧ ∃ h : b < j.parents.length, j.parents[b] < j.from_))) ∨
       (Stop j (max 0 (min (j.to + 1) (j.parents.length : Int))).toNat b e ∧
        (j.fromExcluded = true → ∀ h : b < j.parents.length, j.from_ ≤ j.parents[b]))) (i : Nat) :
    Requested j.parents j.from_ j.to j.fromExcluded i ↔ b ≤ i ∧ i < e := by
  have hp := hd.1
  unfold Requested
  by_cases hneg : j.from_ < 0
  · have hb0 : b = 0 := by split at hb <;> omega
    subst hb0
    rcases h with ⟨he, h | ⟨_, hl, h⟩⟩ | ⟨hs, _⟩
    · constructor
      · rintro ⟨h1, h2, _⟩; omega
      · omega
    · have := (hp 0 hl).1; omega
    · have h1 := hs.le
      have h2 := hs.endLe
      have hee : e = (max 0 (min (j.to + 1) (j.parents.length : Int))).toNat := by
        rcases Nat.lt_or_ge e (max 0 (min (j.to + 1) (j.parents.length : Int))).toNat with hlt | hge
        · have h3 := hs.stop hlt (by omega)
          have h4 := (hp e (by omega)).1
          omega
        · omega
      constructor
      · rintro ⟨h1, h2, _⟩; omega
      · rintro ⟨_, h3⟩; exact ⟨by omega, by omega, .inl hneg⟩
  · obtain ⟨a, ha⟩ : ∃ a : Nat, j.from_ = (a : Int) := ⟨j.from_.toNat, by omega⟩
    rw [ha] at hb h ⊢
    have hrw : ∀ (P : Nat → Prop), (((a : Int) < 0) ∨ ∃ a' : Nat, (a : Int) = a' ∧ P a') ↔ P a := by
      intro P
      constructor
      · rintro (h | ⟨a', h, hP⟩)
        · omega
        · have := Int.ofNat_inj.mp h
          subst this; exact hP
      · exact fun h => .inr ⟨a, rfl, h⟩
    rw [hrw]
    by_cases hex : j.fromExcluded = true
    · have hb' : b = a + 1 := by simp only [hex, ↓reduceIte] at hb; omega
      subst hb'
      rcases h with ⟨he, h | ⟨_, hl, h⟩⟩ | ⟨hs, h⟩
      · constructor
        · rintro ⟨h1, h2, h3, h4⟩
          have := h3.le hp
          have := h4 hex
          omega
        · omega
      · constructor
        · rintro ⟨h1, h2, h3, h4⟩
          have := h3.le hp
          have := h4 hex
          exact absurd h3 (not_desc_of_ge hd (Nat.lt_succ_self a) (fun _ => h) i (by omega))
        · omega
      · have h1 := hs.le
        have h2 := hs.endLe
        have hlt' := hs.lt
        have hge : ∀ i (hl : i < j.parents.length), a < i → i < e → (a : Int) ≤ j.parents[i] := by
          intro k hk h3 h4
          rcases Nat.lt_or_ge (a + 1) k with h5 | h5
          · rw [← ha]; exact hs.ge k hk h5 h4
          · obtain rfl : k = a + 1 := by omega
            exact h hex hk
        constructor
        · rintro ⟨h3, h4, h5, h6⟩
          have := h5.le hp
          have := h6 hex
          refine ⟨by omega, ?_⟩
          rcases Nat.lt_or_ge i e with h7 | h7
          · exact h7
          · exact absurd h5 (not_desc_of_ge hd (by omega)
              (fun hl => ha ▸ hs.stop (by omega) hl) i h7)
        · rintro ⟨h3, h4⟩
          exact ⟨by omega, by omega, desc_of_between hp (by omega) hge i (by omega) h4, by omega⟩
    · have hb' : b = a := by
        simp only [hex, Bool.false_eq_true, ↓reduceIte] at hb; omega
      subst hb'
      rcases h with ⟨he, h | ⟨h', _⟩⟩ | ⟨hs, _⟩
      · constructor
        · rintro ⟨h1, h2, h3, h4⟩
          have := h3.le hp
          omega
        · omega
      · exact absurd h' hex
      · have h1 := hs.le
        have h2 := hs.endLe
        have hlt' := hs.lt
        constructor
        · rintro ⟨h3, h4, h5, _⟩
          refine ⟨h5.le hp, ?_⟩
          rcases Nat.lt_or_ge i e with h7 | h7
          · exact h7
          · exact absurd h5 (not_desc_of_ge hd (by omega)
              (fun hl => ha ▸ hs.stop (by omega) hl) i h7)
        · rintro ⟨h3, h4⟩
          exact ⟨by omega, by omega,
            desc_of_between hp (by omega) (ha ▸ hs.ge) i h3 h4, fun h => absurd h hex⟩

/-- **C28.** A full run (`from < 0`, `to` not below the last joint) succeeds and leaves in every
joint's slot the root matrix times the local matrices along the path from its root to it. -/
theorem C28_full_run (j : Job S M) (out : List M) (hp : ParentsFirst j.parents)
    (hv : validate j out = true) (loc : Nat → M)
    (hloc : ∀ i, i < j.parents.length → LocalMatrix toAos j.input i (loc i))
    (hf1 : -(2:Int)^31 ≤ j.from_) (hf2 : j.from_ < 0)
    (ht1 : (j.parents.length : Int) ≤ j.to + 1) (ht2 : j.to < 2^31 - 1) :
    ∃ out', run mul toAos j out = .ok out' ∧ out'.length = out.length ∧
      (∀ i, j.parents.length ≤ i → out'[i]? = out[i]?) ∧
      ∀ i, i < j.parents.length →
        ∃ m, out'[i]? = some m ∧ IsModelMatrix mul j.root loc j.parents i m := by
  obtain ⟨out', b, e, hrun, hu, hb, h⟩ := run_range (mul := mul) (toAos := toAos) j out hp hv hf1
    (by omega) (by omega) ht2
  have hb0 : b = 0 := by split at hb <;> omega
  subst hb0
  have he : e = j.parents.length := by
    rcases h with ⟨he, h | ⟨_, hl, h⟩⟩ | ⟨hs, _⟩
    · omega
    · have := (hp 0 hl).1; omega
    · have h1 := hs.le
      have h2 := hs.endLe
      rcases Nat.lt_or_ge e j.parents.length with hlt | hge
      · have h3 := hs.stop (by omega) hlt
        have h4 := (hp e hlt).1
        omega
      · omega
  subst he
  exact ⟨out', hrun, hu.1, fun i hi => hu.2.1 i (.inr hi),
    updated_model loc hloc hu (fun i h1 h2 => by omega)⟩

/-- **C28.** The path product is uniquely determined, so the statement above pins the output. -/
theorem C28_model_matrix_unique (ps : List Int) (hp : ParentsFirst ps) (root : M) (loc : Nat → M)
    (i : Nat) (hi : i < ps.length) : ∃ m, IsModelMatrix mul root loc ps i m ∧
      ∀ m', IsModelMatrix mul root loc ps i m' → m' = m := by
  obtain ⟨l, hl⟩ := pathTo_exists hp i hi
  exact ⟨_, ⟨l, hl, rfl⟩, fun m' hm' => isModelMatrix_unique hm' ⟨l, hl, rfl⟩⟩

/-- **C29.** A run with any `from`, `to`, `from_excluded` (not at the top of the `i32` range)
succeeds, keeps the buffer length, leaves every joint outside the requested set unchanged and
recomputes every requested joint from its parent's value in the resulting buffer. -/
theorem C29_partial_update (j : Job S M) (out : List M) (hd : DepthFirst j.parents)
    (hv : validate j out = true)
    (hf1 : -(2:Int)^31 ≤ j.from_) (hf2 : j.from_ < 2^31 - 1)
    (ht1 : -(2:Int)^31 ≤ j.to) (ht2 : j.to < 2^31 - 1) :
    ∃ out', run mul toAos j out = .ok out' ∧ out'.length = out.length ∧
      (∀ i, ¬ Requested j.parents j.from_ j.to j.fromExcluded i → out'[i]? = out[i]?) ∧
      (∀ i, Requested j.parents j.from_ j.to j.fromExcluded i →
        ∃ m l, LocalMatrix toAos j.input i l ∧ out'[i]? = some (mul m l) ∧
          ((j.parents[i]? = some (-1) ∧ m = j.root) ∨
            ∃ p : Nat, j.parents[i]? = some (p : Int) ∧ out'[p]? = some m)) := by
  obtain ⟨out', b, e, hrun, hu, hb, h⟩ := run_range (mul := mul) (toAos := toAos) j out hd.1 hv hf1
    hf2 ht1 ht2
  have hreq := requested_iff j hd hf2 hb h
  refine ⟨out', hrun, hu.1, ?_, ?_⟩
  · intro i hi
    rw [hreq] at hi
    exact hu.2.1 i (by omega)
  · intro i hi
    rw [hreq] at hi
    obtain ⟨m, l, h1, h2, h3⟩ := hu.2.2 i hi.1 hi.2
    refine ⟨m, l, h1, h2, ?_⟩
    rcases h3 with h3 | ⟨p, _, h4, h5⟩
    · exact .inl h3
    · exact .inr ⟨p, h4, h5⟩

/-- **C29 (disagreement).** `to = i32::MAX` does not mean "to the end": `self.to + 1` overflows.
With overflow checks the run panics. -/
theorem C29_to_max_panics (j : Job S M) (out : List M) (hv : validate j out = true)
    (hf1 : -(2:Int)^31 ≤ j.from_) (hf2 : j.from_ < 2^31 - 1) (ht : j.to = 2^31 - 1) :
    run mul toAos j out = .error .panic := by
  unfold run runWith
  rw [if_neg (by simp [hv]), addI32_ok (by split <;> omega) (by split <;> omega)]
  simp only [bind, Except.bind, ht]
  rfl

/-- **C29 (disagreement).** Without overflow checks `to = i32::MAX` updates no joint at all. -/
theorem C29_to_max_release_updates_nothing (j : Job S M) (out : List M)
    (hv : validate j out = true) (ht : j.to = 2^31 - 1) :
    runRelease mul toAos j out = .ok out := by
  unfold runRelease runWith
  rw [if_neg (by simp [hv])]
  have h1 : addI32Wrap j.to 1 = -2^31 := by rw [ht]; decide
  simp only [bind, Except.bind, h1]
  rw [show (max 0 (min (-2^31) (j.parents.length : Int))).toNat = 0 by omega]
  rfl

/-- **C30.** If the output holds the model matrices of an old pose and the pose changed only below
joint `a`, re-running from `a` gives exactly what a full run on the new pose gives. -/
theorem C30_incremental_eq_full (j : Job S M) (hd : DepthFirst j.parents) (a : Nat)
    (ha : a < j.parents.length)
    (hto : (j.parents.length : Int) ≤ j.to + 1) (hto2 : j.to < 2^31 - 1)
    (oldInput : List S) (hold : numSoa j.parents.length ≤ oldInput.length)
    (hnew : numSoa j.parents.length ≤ j.input.length)
    (hsame : ∀ i, i < j.parents.length → ¬ Desc j.parents a i → ∀ l,
      LocalMatrix toAos oldInput i l ↔ LocalMatrix toAos j.input i l)
    (buf : List M) (hbuf : j.parents.length ≤ buf.length) :
    ∃ o1 o2 o3,
      run mul toAos { j with input := oldInput, from_ := -1, fromExcluded := false } buf = .ok o1 ∧
      run mul toAos { j with from_ := a, fromExcluded := false } o1 = .ok o2 ∧
      run mul toAos { j with from_ := -1, fromExcluded := false } buf = .ok o3 ∧ o2 = o3 := by
  have hloc : ∀ (inp : List S), numSoa j.parents.length ≤ inp.length → ∃ loc : Nat → M,
      ∀ i, i < j.parents.length → LocalMatrix toAos inp i (loc i) := by
    intro inp hinp
    have hl : ∀ i, i < j.parents.length → i / 4 < inp.length := by
      intro i hi; unfold numSoa at hinp; omega
    refine ⟨fun i => if h : i < j.parents.length then
      toAos (inp[i / 4]'(hl i h)) ⟨i % 4, Nat.mod_lt _ (by decide)⟩ else j.root, ?_⟩
    intro i hi
    exact ⟨inp[i / 4]'(hl i hi), List.getElem?_eq_getElem _, by simp [hi]⟩
  obtain ⟨locO, hlocO⟩ := hloc oldInput hold
  obtain ⟨locN, hlocN⟩ := hloc j.input hnew
  obtain ⟨o1, hr1, hl1, hx1, hm1⟩ := C28_full_run mul toAos
    { j with input := oldInput, from_ := -1, fromExcluded := false } buf hd.1
    (by simp [validate]; omega) locO hlocO (by simp) (by simp) hto hto2
  obtain ⟨o3, hr3, hl3, hx3, hm3⟩ := C28_full_run mul toAos
    { j with from_ := -1, fromExcluded := false } buf hd.1
    (by simp [validate]; omega) locN hlocN (by simp) (by simp) hto hto2
  simp only at hm1 hm3 hx1 hx3 hl1 hl3
  have hv2 : validate { j with from_ := (a : Int), fromExcluded := false } o1 = true := by
    simp [validate]; omega
  obtain ⟨o2, b, e, hr2, hu, hb, hcase⟩ := run_range (mul := mul) (toAos := toAos)
    { j with from_ := (a : Int), fromExcluded := false } o1 hd.1 hv2
    (by simp only; omega) (by simp only; omega) (by simp only; omega) hto2
  have hreq := requested_iff { j with from_ := (a : Int), fromExcluded := false } hd
    (by simp; omega) hb hcase
  have hele : e ≤ j.parents.length := by
    rcases hcase with ⟨he, _⟩ | ⟨hs, _⟩
    · simp at hb; omega
    · have := hs.le; have := hs.endLe; simp only at *; omega
  have hm2 := updated_model locN hlocN hu (by
    intro i hi hout
    have hi : i < j.parents.length := hi
    obtain ⟨m, hm, path, hpath, rfl⟩ := hm1 i hi
    refine ⟨_, hm, path, hpath, ?_⟩
    have hnd : ¬ Desc j.parents a i := by
      intro hdesc
      have := (hreq i).mp ⟨hi, by simp; omega, .inr ⟨a, rfl, hdesc, by simp⟩⟩
      omega
    -- every joint on the path to `i` is outside the subtree of `a`
    have hpathnd : ∀ (k : Nat) (l : List Nat), PathTo j.parents k l → ¬ Desc j.parents a k →
        l.foldl (fun acc k => mul acc (locO k)) j.root =
          l.foldl (fun acc k => mul acc (locN k)) j.root := by
      intro k l hk
      have hstep : ∀ k, k < j.parents.length → ¬ Desc j.parents a k → locO k = locN k := by
        intro k hk hnd
        exact localMatrix_unique ((hsame k hk hnd _).mp (hlocO k hk)) (hlocN k hk)
      induction hk with
      | root hr =>
        intro hnd
        have := (List.getElem?_eq_some_iff.mp hr).1
        simp [hstep _ this hnd]
      | child hc _ ih =>
        intro hnd
        have hlt := (List.getElem?_eq_some_iff.mp hc).1
        have := ih (fun hdp => hnd (.step hc hdp))
        simp [hstep _ hlt hnd, this]
    exact hpathnd i path hpath hnd)
  refine ⟨o1, o2, o3, hr1, hr2, hr3, ?_⟩
  apply List.ext_getElem?
  intro i
  by_cases hi : i < j.parents.length
  · obtain ⟨m2, h2, hm2'⟩ := hm2 i hi
    obtain ⟨m3, h3, hm3'⟩ := hm3 i hi
    rw [h2, h3, isModelMatrix_unique hm2' hm3']
  · rw [hu.2.1 i (by omega), hx1 i (by omega), hx3 i (by omega)]

/-! ### A concrete instance: lists of numbers as "matrices", so products show their order. -/

/-- Seven joints in two blocks, two trees; joint `i` has local matrix `[i]`, the root is `[100]`. -/
def exampleJob : Job Nat (List Nat) :=
  { parents := [-1, 0, 1, 1, 0, -1, 5], input := [0, 4], root := [100]
    from_ := -1, to := 1024, fromExcluded := false }

/-- Lane `i` of the block starting at `b`. -/
def exampleToAos (b : Nat) (i : Fin 4) : List Nat := [b + i]

example : DepthFirst exampleJob.parents ∧
    validate exampleJob (List.replicate 8 []) = true ∧
    (∀ i, i < exampleJob.parents.length → LocalMatrix exampleToAos exampleJob.input i [i]) := by
  refine ⟨?_, rfl, ?_⟩
  · have := C24_forest_depthFirst [.node [.node [.node [], .node []], .node []], .node [.node []]]
    have h : DepthFirst exampleParents := this
    rw [exampleParents_eq] at h; exact h
  · intro i hi
    have hi' : i < 7 := hi
    have : i = 0 ∨ i = 1 ∨ i = 2 ∨ i = 3 ∨ i = 4 ∨ i = 5 ∨ i = 6 := by omega
    rcases this with rfl | rfl | rfl | rfl | rfl | rfl | rfl <;>
      first
        | exact ⟨0, rfl, rfl⟩
        | exact ⟨4, rfl, rfl⟩

example : run (· ++ ·) exampleToAos exampleJob (List.replicate 8 []) =
    .ok [[100, 0], [100, 0, 1], [100, 0, 1, 2], [100, 0, 1, 3], [100, 0, 4], [100, 5],
      [100, 5, 6], []] := by decide +kernel

/-- Partial: subtree of joint 1 without joint 1 itself, up to joint 2. -/
example : run (· ++ ·) exampleToAos { exampleJob with from_ := 1, to := 2, fromExcluded := true }
    (List.replicate 8 [7]) = .ok [[7], [7], [7, 2], [7], [7], [7], [7], [7]] := by decide +kernel

/-- Incremental: only joint 4's block changes below joint 4. -/
example : (∀ i, i < exampleJob.parents.length → ¬ Desc exampleJob.parents 4 i → ∀ l,
    LocalMatrix (fun (b : Nat × Nat) i => [b.1 + i + if i = 0 then b.2 else 0]) [(0, 0), (4, 0)] i l ↔
    LocalMatrix (fun (b : Nat × Nat) i => [b.1 + i + if i = 0 then b.2 else 0]) [(0, 0), (4, 9)] i l) := by
  intro i hi hnd l
  have hi' : i < 7 := hi
  have : i = 0 ∨ i = 1 ∨ i = 2 ∨ i = 3 ∨ i = 4 ∨ i = 5 ∨ i = 6 := by omega
  rcases this with rfl | rfl | rfl | rfl | rfl | rfl | rfl
  case inr.inr.inr.inr.inl => exact absurd (Desc.refl (by decide)) hnd
  all_goals simp [LocalMatrix]

end Ozz.Props
