import Verif.Model.Blending
import Mathlib.Tactic.Push

/-! Helper lemmas about the blending job: what happens to one SoA joint. No law of arithmetic is used. -/

namespace Ozz

theorem forFrom_ind {σ : Type} (f : Nat → σ → Res σ) (I : Nat → σ → Prop) (k i : Nat) (s : σ) (h0 : I i s)
    (hs : ∀ m s, i ≤ m → m < i + k → I m s → ∃ s', f m s = .ok s' ∧ I (m + 1) s') :
    ∃ s', forFrom f k i s = .ok s' ∧ I (i + k) s' := by
  induction k generalizing i s with
  | zero => exact ⟨s, rfl, h0⟩
  | succ k ih =>
    obtain ⟨s1, h1, h2⟩ := hs i s (Nat.le_refl _) (by omega) h0
    obtain ⟨s2, h3, h4⟩ := ih (i + 1) s1 h2 (fun m s a b c => hs m s (by omega) (by omega) c)
    refine ⟨s2, ?_, by rwa [show i + (k + 1) = i + 1 + k by omega]⟩
    simp only [forFrom, bind, Except.bind, h1]
    exact h3

theorem forRange_ind {σ : Type} {f : Nat → σ → Res σ} (I : Nat → σ → Prop) {n : Nat} {s : σ} (h0 : I 0 s)
    (hs : ∀ m s, m < n → I m s → ∃ s', f m s = .ok s' ∧ I (m + 1) s') :
    ∃ s', forRange n f s = .ok s' ∧ I n s' := by
  obtain ⟨s', h1, h2⟩ := forFrom_ind f I n 0 s h0 (fun m s _ h => hs m s (by omega))
  exact ⟨s', h1, by simpa using h2⟩

/-- A loop changing element `i` of one list in round `i`. -/
theorem forRange_list {A : Type} {n : Nat} {f : Nat → List A → Res (List A)} (g : Nat → A → A) (xs : List A)
    (hn : n ≤ xs.length)
    (hf : ∀ i xs a, i < n → xs[i]? = some a → f i xs = .ok (xs.set i (g i a))) :
    ∃ ys, forRange n f xs = .ok ys ∧ ys.length = xs.length ∧
      (∀ j a, j < n → xs[j]? = some a → ys[j]? = some (g j a)) ∧ (∀ j, n ≤ j → ys[j]? = xs[j]?) := by
  obtain ⟨ys, h1, h2, h3, h4⟩ := forRange_ind (f := f) (n := n) (s := xs)
    (fun m ys => ys.length = xs.length ∧ (∀ j a, j < m → xs[j]? = some a → ys[j]? = some (g j a)) ∧
      (∀ j, m ≤ j → ys[j]? = xs[j]?))
    ⟨rfl, fun j a h => absurd h (by omega), fun j _ => rfl⟩ (by
      rintro m ys hm ⟨k1, k2, k3⟩
      obtain ⟨a, ha⟩ : ∃ a, xs[m]? = some a := ⟨xs[m], by simp⟩
      refine ⟨_, hf m ys a hm (by rw [k3 m (Nat.le_refl _), ha]), by simp [k1], ?_, ?_⟩
      · intro j b hj hb
        rw [List.getElem?_set]
        split
        · next he =>
          subst he
          rw [if_pos (by omega)]
          rw [ha] at hb; cases hb; rfl
        · exact k2 j b (by omega) hb
      · intro j hj
        rw [List.getElem?_set, if_neg (by omega)]
        exact k3 j (by omega))
  exact ⟨ys, h1, h2, h3, h4⟩

/-- A loop changing element `i` of two lists in round `i`. -/
theorem forRange_pair {A B : Type} {n : Nat} {f : Nat → List A × List B → Res (List A × List B)}
    (g : Nat → A → B → A × B) (xs : List A) (ys : List B) (hx : n ≤ xs.length) (hy : n ≤ ys.length)
    (hf : ∀ i xs ys a b, i < n → xs[i]? = some a → ys[i]? = some b →
      f i (xs, ys) = .ok (xs.set i (g i a b).1, ys.set i (g i a b).2)) :
    ∃ xs' ys', forRange n f (xs, ys) = .ok (xs', ys') ∧ xs'.length = xs.length ∧ ys'.length = ys.length ∧
      (∀ j a b, j < n → xs[j]? = some a → ys[j]? = some b →
        xs'[j]? = some (g j a b).1 ∧ ys'[j]? = some (g j a b).2) ∧
      (∀ j, n ≤ j → xs'[j]? = xs[j]? ∧ ys'[j]? = ys[j]?) := by
  obtain ⟨⟨xs', ys'⟩, h1, h2, h3, h4, h5⟩ := forRange_ind (f := f) (n := n) (s := (xs, ys))
    (fun m s => s.1.length = xs.length ∧ s.2.length = ys.length ∧
      (∀ j a b, j < m → xs[j]? = some a → ys[j]? = some b →
        s.1[j]? = some (g j a b).1 ∧ s.2[j]? = some (g j a b).2) ∧
      (∀ j, m ≤ j → s.1[j]? = xs[j]? ∧ s.2[j]? = ys[j]?))
    ⟨rfl, rfl, fun j a b h => absurd h (by omega), fun j _ => ⟨rfl, rfl⟩⟩ (by
      rintro m ⟨us, vs⟩ hm ⟨k1, k2, k3, k4⟩
      obtain ⟨a, ha⟩ : ∃ a, xs[m]? = some a := ⟨xs[m], by simp⟩
      obtain ⟨b, hb⟩ : ∃ b, ys[m]? = some b := ⟨ys[m], by simp⟩
      obtain ⟨e1, e2⟩ := k4 m (Nat.le_refl _)
      simp only at k1 k2 e1 e2
      refine ⟨_, hf m us vs a b hm (e1.trans ha) (e2.trans hb), by simp [k1], by simp [k2], ?_, ?_⟩
      · intro j a' b' hj ha' hb'
        rw [List.getElem?_set, List.getElem?_set]
        split
        · next he =>
          subst he
          rw [if_pos (by omega), if_pos (by omega)]
          rw [ha] at ha'; cases ha'; rw [hb] at hb'; cases hb'; exact ⟨rfl, rfl⟩
        · exact k3 j a' b' (by omega) ha' hb'
      · intro j hj
        rw [List.getElem?_set, List.getElem?_set, if_neg (by omega), if_neg (by omega)]
        exact k4 j (by omega))
  exact ⟨xs', ys', h1, h2, h3, h4, h5⟩

theorem getIdx_some {A : Type} {xs : List A} {i : Nat} {a : A} (h : xs[i]? = some a) : getIdx xs i = .ok a := by
  unfold getIdx; rw [h]

theorem setIdx_some {A : Type} {xs : List A} {i : Nat} {a : A} (h : xs[i]? = some a) (b : A) :
    setIdx xs i b = .ok (xs.set i b) := by
  unfold setIdx; rw [if_pos]
  exact (List.getElem?_eq_some_iff.mp h).1

namespace Blending

variable {α : Type} [Add α] [Sub α] [Mul α] [Div α] [Neg α] [NumOps α]

/-- The layer is used by `blend_layers`. -/
def Layer.active (l : Layer α) : Bool := !NumOps.le l.weight NumOps.zero

/-- The layer has joint weights. -/
def Layer.isPartial (l : Layer α) : Bool := !l.jointWeights.isEmpty

/-- Weight of a layer for SoA joint `idx`. -/
def Layer.weightAt (l : Layer α) (idx : Nat) : F4 α :=
  if l.isPartial then splat l.weight * max4 (l.jointWeights[idx]?.getD zero4) zero4 else splat l.weight

/-- The pose of a layer at SoA joint `idx`. -/
def Layer.poseAt (l : Layer α) (idx : Nat) : SoaTransform α :=
  match l.transform with
  | .ok t => t[idx]?.getD ⟨⟨zero4, zero4, zero4⟩, ⟨zero4, zero4, zero4, zero4⟩, ⟨zero4, zero4, zero4⟩⟩
  | .error _ => ⟨⟨zero4, zero4, zero4⟩, ⟨zero4, zero4, zero4, zero4⟩, ⟨zero4, zero4, zero4⟩⟩

/-- The layer is readable and long enough. -/
def Layer.Ok (n : Nat) (l : Layer α) : Prop := ∃ t, checkLayer n l = .ok t

omit [Add α] [Sub α] [Mul α] [Div α] [Neg α] [NumOps α] in
theorem Layer.ok_iff (n : Nat) (l : Layer α) : l.Ok n ↔ ∃ t, l.transform = .ok t ∧ n ≤ t.length ∧
    (l.jointWeights = [] ∨ n ≤ l.jointWeights.length) := by
  unfold Layer.Ok checkLayer
  cases l.transform with
  | error e => simp
  | ok t =>
    simp only [Except.ok.injEq, exists_eq_left']
    by_cases h1 : t.length < n
    · rw [if_pos h1]
      constructor
      · rintro ⟨t', h⟩; cases h
      · omega
    · rw [if_neg h1]
      cases hj : l.jointWeights with
      | nil => simp; omega
      | cons a as =>
        simp only [List.isEmpty_cons, Bool.not_false, Bool.true_and, decide_eq_true_eq]
        by_cases h2 : (a :: as).length < n
        · rw [if_pos h2]
          constructor
          · rintro ⟨t', h⟩; cases h
          · rintro ⟨_, h | h⟩
            · cases h
            · omega
        · rw [if_neg h2]; exact ⟨fun _ => ⟨by omega, Or.inr (by omega)⟩, fun _ => ⟨t, rfl⟩⟩

omit [Add α] [Sub α] [Mul α] [Div α] [Neg α] [NumOps α] in
theorem Layer.ok_check {n : Nat} {l : Layer α} {t : List (SoaTransform α)} (h : l.Ok n)
    (ht : l.transform = .ok t) : checkLayer n l = .ok t := by
  obtain ⟨t', h'⟩ := h
  unfold checkLayer at h' ⊢
  rw [ht] at h' ⊢
  simp only at h' ⊢
  split at h'
  · cases h'
  · next h1 =>
    rw [if_neg h1]
    split at h'
    · cases h'
    · next h2 => rw [if_neg h2]

/-- One pass on a SoA joint: nothing yet, or the accumulated weights and pose. -/
def jointStep (idx : Nat) (st : Option (F4 α × SoaTransform α)) (l : Layer α) : Option (F4 α × SoaTransform α) :=
  match st with
  | none => some (l.weightAt idx, blend1 (l.poseAt idx) (l.weightAt idx))
  | some (a, o) => some (a + l.weightAt idx, blendN (l.poseAt idx) (l.weightAt idx) o)

/-- All passes on a SoA joint. -/
def jointFold (idx : Nat) (ls : List (Layer α)) (st : Option (F4 α × SoaTransform α)) :
    Option (F4 α × SoaTransform α) := (ls.filter Layer.active).foldl (jointStep idx) st

def numActive (ls : List (Layer α)) : Nat := (ls.filter Layer.active).length
def numPartial (ls : List (Layer α)) : Nat := ((ls.filter Layer.active).filter Layer.isPartial).length
def sumWeights (ls : List (Layer α)) (w : α) : α := (ls.filter Layer.active).foldl (fun a l => a + l.weight) w

theorem layerPass_ok (n : Nat) (l : Layer α) (t : List (SoaTransform α)) (c : Context α)
    (out : List (SoaTransform α)) (ht : l.transform = .ok t) (hok : l.Ok n) (ha : n ≤ c.accumulatedWeights.length)
    (ho : n ≤ out.length) :
    ∃ aw' out', layerPass n l t c out = .ok (⟨c.numPasses + 1,
        c.numPartialPasses + (if l.isPartial then 1 else 0), c.accumulatedWeight + l.weight, aw'⟩, out') ∧
      aw'.length = c.accumulatedWeights.length ∧ out'.length = out.length ∧
      (∀ j a o, j < n → c.accumulatedWeights[j]? = some a → out[j]? = some o → ∀ r,
        jointStep j (if c.numPasses = 0 then none else some (a, o)) l = some r →
        aw'[j]? = some r.1 ∧ out'[j]? = some r.2) ∧
      (∀ j, n ≤ j → aw'[j]? = c.accumulatedWeights[j]? ∧ out'[j]? = out[j]?) := by
  obtain ⟨t', ht', htn, hjw⟩ := (l.ok_iff n).mp hok
  rw [ht] at ht'; cases ht'
  have hpose : ∀ i x, t[i]? = some x → l.poseAt i = x := by
    intro i x hx; unfold Layer.poseAt; rw [ht]; simp only [hx, Option.getD_some]
  have hstep : ∀ j a o r, jointStep j (if c.numPasses = 0 then none else some (a, o)) l = some r →
      r = ((if (c.numPasses == 0) = true then l.weightAt j else a + l.weightAt j),
        (if (c.numPasses == 0) = true then blend1 (l.poseAt j) (l.weightAt j) else blendN (l.poseAt j) (l.weightAt j) o)) := by
    intro j a o r hr
    by_cases h0 : c.numPasses = 0
    · rw [if_pos h0] at hr; simp only [jointStep, Option.some.injEq] at hr
      rw [if_pos (by simp [h0]), if_pos (by simp [h0])]; exact hr.symm
    · rw [if_neg h0] at hr; simp only [jointStep, Option.some.injEq] at hr
      rw [if_neg (by simp [h0]), if_neg (by simp [h0])]; exact hr.symm
  cases hp : l.isPartial with
  | true =>
    have hw : ∀ i jw, l.jointWeights[i]? = some jw → l.weightAt i = splat l.weight * max4 jw zero4 := by
      intro i jw h; unfold Layer.weightAt; rw [if_pos hp, h]; rfl
    have hj : n ≤ l.jointWeights.length := by
      rcases hjw with h | h
      · simp [Layer.isPartial, h] at hp
      · exact h
    obtain ⟨aw', out', h1, h2, h3, h4, h5⟩ := forRange_pair (n := n)
      (f := fun idx (aw, out) => do
        let jw ← getIdx l.jointWeights idx
        let weight := splat l.weight * max4 jw zero4
        let a ← getIdx aw idx
        let aw ← setIdx aw idx (if c.numPasses == 0 then weight else a + weight)
        let t ← getIdx t idx
        let o ← getIdx out idx
        let out ← setIdx out idx (if c.numPasses == 0 then blend1 t weight else blendN t weight o)
        return (aw, out))
      (fun i a o => ((if c.numPasses == 0 then l.weightAt i else a + l.weightAt i),
        (if c.numPasses == 0 then blend1 (l.poseAt i) (l.weightAt i) else blendN (l.poseAt i) (l.weightAt i) o)))
      c.accumulatedWeights out ha ho (by
        intro i xs ys a b hi hx hy
        obtain ⟨jw, hjw⟩ : ∃ jw, l.jointWeights[i]? = some jw := ⟨l.jointWeights[i], by simp⟩
        obtain ⟨x, hx'⟩ : ∃ x, t[i]? = some x := ⟨t[i], by simp⟩
        simp only [getIdx_some hx, getIdx_some hy, getIdx_some hjw, getIdx_some hx', setIdx_some hx,
          setIdx_some hy, bind, Except.bind, pure, Except.pure, hw i jw hjw, hpose i x hx'])
    refine ⟨aw', out', ?_, h2, h3, ?_, h5⟩
    · unfold layerPass partialPass
      rw [if_pos (by simpa [Layer.isPartial] using hp), h1]
      simp only [bind, Except.bind, pure, Except.pure, if_true]
    · intro j a o hj ha ho r hr
      rw [hstep j a o r hr]
      exact h4 j a o hj ha ho
  | false =>
    have hw : ∀ i, l.weightAt i = splat l.weight := by
      intro i; unfold Layer.weightAt; rw [hp]; rfl
    obtain ⟨aw', out', h1, h2, h3, h4, h5⟩ := forRange_pair (n := n)
      (f := fun idx (aw, out) => do
        let weight := splat l.weight
        let a ← getIdx aw idx
        let aw ← setIdx aw idx (if c.numPasses == 0 then weight else a + weight)
        let t ← getIdx t idx
        let o ← getIdx out idx
        let out ← setIdx out idx (if c.numPasses == 0 then blend1 t weight else blendN t weight o)
        return (aw, out))
      (fun i a o => ((if c.numPasses == 0 then l.weightAt i else a + l.weightAt i),
        (if c.numPasses == 0 then blend1 (l.poseAt i) (l.weightAt i) else blendN (l.poseAt i) (l.weightAt i) o)))
      c.accumulatedWeights out ha ho (by
        intro i xs ys a b hi hx hy
        obtain ⟨x, hx'⟩ : ∃ x, t[i]? = some x := ⟨t[i], by simp⟩
        simp only [getIdx_some hx, getIdx_some hy, getIdx_some hx', setIdx_some hx,
          setIdx_some hy, bind, Except.bind, pure, Except.pure, hw, hpose i x hx'])
    refine ⟨aw', out', ?_, h2, h3, ?_, h5⟩
    · unfold layerPass fullPass
      rw [if_neg (by simpa [Layer.isPartial] using hp), h1]
      simp only [bind, Except.bind, pure, Except.pure]
      rfl
    · intro j a o hj ha ho r hr
      rw [hstep j a o r hr]
      exact h4 j a o hj ha ho

theorem jointStep_isSome (idx : Nat) (st : Option (F4 α × SoaTransform α)) (l : Layer α) :
    ∃ r, jointStep idx st l = some r := by
  cases st with
  | none => exact ⟨_, rfl⟩
  | some p => exact ⟨_, rfl⟩

theorem jointFold_some (idx : Nat) (ls : List (Layer α)) (st : F4 α × SoaTransform α) :
    ∃ x, jointFold idx ls (some st) = some x := by
  unfold jointFold
  induction ls.filter Layer.active generalizing st with
  | nil => exact ⟨st, rfl⟩
  | cons m ms ih => exact ih _

theorem jointFold_none (idx : Nat) (ls : List (Layer α)) (h : numActive ls ≠ 0) :
    ∃ x, jointFold idx ls none = some x := by
  unfold jointFold
  unfold numActive at h
  cases hf : ls.filter Layer.active with
  | nil => rw [hf] at h; simp at h
  | cons m ms =>
    simp only [List.foldl_cons, jointStep]
    have : ∀ (ms : List (Layer α)) (st : F4 α × SoaTransform α), ∃ x, ms.foldl (jointStep idx) (some st) = some x := by
      intro ms
      induction ms with
      | nil => exact fun st => ⟨st, rfl⟩
      | cons m ms ih => exact fun st => ih _
    exact this _ _

theorem jointFold_inactive (idx : Nat) (ls : List (Layer α)) (h : numActive ls = 0)
    (st : Option (F4 α × SoaTransform α)) : jointFold idx ls st = st := by
  unfold jointFold
  unfold numActive at h
  rw [List.length_eq_zero_iff.mp h]; rfl

theorem blendLayers_ok (n : Nat) (ls : List (Layer α)) (c : Context α) (out : List (SoaTransform α))
    (hok : ∀ l ∈ ls, l.Ok n) (ha : n ≤ c.accumulatedWeights.length) (ho : n ≤ out.length) :
    ∃ aw' out', blendLayers n ls c out = .ok (⟨c.numPasses + numActive ls, c.numPartialPasses + numPartial ls,
        sumWeights ls c.accumulatedWeight, aw'⟩, out') ∧
      aw'.length = c.accumulatedWeights.length ∧ out'.length = out.length ∧
      (∀ j a o, j < n → c.accumulatedWeights[j]? = some a → out[j]? = some o →
        aw'[j]? = some ((jointFold j ls (if c.numPasses = 0 then none else some (a, o))).getD (a, o)).1 ∧
        out'[j]? = some ((jointFold j ls (if c.numPasses = 0 then none else some (a, o))).getD (a, o)).2) ∧
      (∀ j, n ≤ j → aw'[j]? = c.accumulatedWeights[j]? ∧ out'[j]? = out[j]?) := by
  induction ls generalizing c out with
  | nil =>
    refine ⟨c.accumulatedWeights, out, rfl, rfl, rfl, ?_, fun j _ => ⟨rfl, rfl⟩⟩
    intro j a o hj h1 h2
    have : (jointFold j [] (if c.numPasses = 0 then none else some (a, o))).getD (a, o) = (a, o) := by
      simp only [jointFold, List.filter_nil, List.foldl_nil]; split <;> rfl
    rw [this]; exact ⟨h1, h2⟩
  | cons l ls ih =>
    obtain ⟨t, ht, -, -⟩ := (l.ok_iff n).mp (hok l (by simp))
    have hc := Layer.ok_check (hok l (by simp)) ht
    have hok' : ∀ l ∈ ls, l.Ok n := fun l h => hok l (by simp [h])
    cases hact : l.active with
    | false =>
      have hle : NumOps.le l.weight NumOps.zero = true := by simpa [Layer.active] using hact
      obtain ⟨aw', out', h1, h2⟩ := ih c out hok' ha ho
      refine ⟨aw', out', ?_, ?_⟩
      · simp only [blendLayers, hc, hle, if_true, h1]
        simp only [numActive, numPartial, sumWeights, List.filter_cons, hact, Bool.false_eq_true, if_false]
      · simp only [jointFold, List.filter_cons, hact, Bool.false_eq_true, if_false]
        exact h2
    | true =>
      have hle : NumOps.le l.weight NumOps.zero = false := by simpa [Layer.active] using hact
      obtain ⟨aw1, out1, k1, k2, k3, k4, k5⟩ := layerPass_ok n l t c out ht (hok l (by simp)) ha ho
      obtain ⟨aw', out', h1, h2, h3, h4, h5⟩ := ih ⟨c.numPasses + 1,
        c.numPartialPasses + (if l.isPartial then 1 else 0), c.accumulatedWeight + l.weight, aw1⟩ out1 hok'
        (by simpa [k2] using ha) (by omega)
      refine ⟨aw', out', ?_, by simpa [k2] using h2, by omega, ?_, ?_⟩
      · simp only [blendLayers, hc, hle, k1, h1, Bool.false_eq_true, if_false]
        simp only [numActive, numPartial, sumWeights, List.filter_cons, hact, if_true, List.length_cons, List.foldl_cons]
        congr 3
        · omega
        · cases l.isPartial <;> simp; omega
      · intro j a o hj h6 h7
        obtain ⟨r, hr⟩ := jointStep_isSome j (if c.numPasses = 0 then none else some (a, o)) l
        obtain ⟨e1, e2⟩ := k4 j a o hj h6 h7 r hr
        obtain ⟨f1, f2⟩ := h4 j r.1 r.2 hj e1 e2
        simp only [Nat.add_eq_zero_iff, Nat.one_ne_zero, and_false, if_false] at f1 f2
        have : (jointFold j (l :: ls) (if c.numPasses = 0 then none else some (a, o))) = jointFold j ls (some (r.1, r.2)) := by
          simp only [jointFold, List.filter_cons, hact, if_true, List.foldl_cons, hr]
        rw [this]
        obtain ⟨x, hx⟩ := jointFold_some j ls (r.1, r.2)
        rw [hx] at f1 f2 ⊢
        exact ⟨f1, f2⟩
      · intro j hj
        obtain ⟨e1, e2⟩ := h5 j hj
        obtain ⟨e3, e4⟩ := k5 j hj
        exact ⟨e1.trans e3, e2.trans e4⟩

/-- The weights after the rest pose, for joints without and with partial passes: what is divided by. -/
def finalWeight (threshold : α) (ls : List (Layer α)) (a : F4 α) : F4 α :=
  if numPartial ls = 0 then
    let acc := sumWeights ls NumOps.zero
    if NumOps.lt NumOps.zero (threshold - acc) then
      if numActive ls = 0 then splat NumOps.one else splat threshold
    else splat acc
  else max4 (splat threshold) a

/-- The pose after the rest pose was blended in. -/
def withRest (threshold : α) (ls : List (Layer α)) (r : SoaTransform α) (a : F4 α) (o : SoaTransform α) :
    SoaTransform α :=
  if numPartial ls = 0 then
    let bp := threshold - sumWeights ls NumOps.zero
    if NumOps.lt NumOps.zero bp then
      if numActive ls = 0 then r else blendN r (splat bp) o
    else o
  else blendN r (max4 (splat threshold - a) zero4) o

/-- The division of `normalize`. -/
def invFinalWeight (threshold : α) (ls : List (Layer α)) (a : F4 α) : F4 α :=
  recip4 (finalWeight threshold ls a)

omit [Add α] [Sub α] [Mul α] [Neg α] in
theorem recip4_splat (x : α) : recip4 (splat x) = splat (recip x) := rfl

/-- What one layer does to a SoA joint in `add_layers`. -/
def additiveStep (idx : Nat) (o : SoaTransform α) (l : Layer α) : SoaTransform α :=
  let w := fun x : α => if l.isPartial then splat x * max4 (l.jointWeights[idx]?.getD zero4) zero4 else splat x
  if NumOps.lt NumOps.zero l.weight then blendAdd (l.poseAt idx) (w l.weight) (one4 - w l.weight) o
  else if NumOps.lt l.weight NumOps.zero then blendSub (l.poseAt idx) (w (-l.weight)) (one4 - w (-l.weight)) o
  else o

theorem blendRestPose_ok (rest : List (SoaTransform α)) (threshold : α) (ls : List (Layer α)) (aw : List (F4 α))
    (out : List (SoaTransform α)) (ha : rest.length ≤ aw.length) (ho : rest.length ≤ out.length)
    (hc : numActive ls ≠ 0 ∨ out.length = rest.length ∨
      NumOps.lt NumOps.zero (threshold - sumWeights ls NumOps.zero) = false) :
    ∃ acc' aw' out', blendRestPose rest threshold
        ⟨numActive ls, numPartial ls, sumWeights ls NumOps.zero, aw⟩ out
        = .ok (⟨numActive ls, numPartial ls, acc', aw'⟩, out') ∧
      out'.length = out.length ∧ aw'.length = aw.length ∧
      (∀ (j : Nat) (a : F4 α) (o r : SoaTransform α), rest[j]? = some r → aw[j]? = some a → out[j]? = some o →
        out'[j]? = some (withRest threshold ls r a o) ∧
        (numPartial ls = 0 → splat acc' = finalWeight threshold ls a) ∧
        (numPartial ls ≠ 0 → aw'[j]? = some (finalWeight threshold ls a))) ∧
      (∀ j, rest.length ≤ j → out'[j]? = out[j]?) := by
  unfold blendRestPose
  by_cases hp : numPartial ls = 0
  · have hp' : ((numPartial ls) == 0) = true := by simp [hp]
    simp only [hp', if_true]
    by_cases hb : NumOps.lt NumOps.zero (threshold - sumWeights ls NumOps.zero) = true
    · rw [if_pos hb]
      by_cases hn : numActive ls = 0
      · have hn' : (numActive ls == 0) = true := by simp [hn]
        have hl : out.length = rest.length := by
          rcases hc with h | h | h
          · exact absurd hn h
          · exact h
          · rw [hb] at h; cases h
        rw [if_pos hn']
        refine ⟨NumOps.one, aw, rest, ?_, hl.symm, rfl, ?_, ?_⟩
        · simp [assertB, hl, bind, Except.bind, pure, Except.pure]
        · intro j a o r h1 h2 h3
          unfold withRest finalWeight
          rw [if_pos hp, if_pos hp]
          simp only [hb, hn, if_true]
          exact ⟨h1, fun _ => trivial, fun h => absurd hp h⟩
        · intro j hj
          rw [List.getElem?_eq_none (by omega), List.getElem?_eq_none (by omega)]
      · have hn' : ¬ (numActive ls == 0) = true := by simp [hn]
        rw [if_neg hn']
        obtain ⟨out', h1, h2, h3, h4⟩ := forRange_list (n := rest.length)
          (f := fun idx out => do
            let r ← getIdx rest idx
            let o ← getIdx out idx
            setIdx out idx (blendN r (splat (threshold - sumWeights ls NumOps.zero)) o))
          (fun i o => match rest[i]? with
            | some r => blendN r (splat (threshold - sumWeights ls NumOps.zero)) o
            | none => o) out ho (by
            intro i xs a hi hx
            obtain ⟨r, hr⟩ : ∃ r, rest[i]? = some r := ⟨rest[i], by simp⟩
            simp only [getIdx_some hr, getIdx_some hx, setIdx_some hx, bind, Except.bind, hr])
        refine ⟨threshold, aw, out', ?_, h2, rfl, ?_, h4⟩
        · rw [h1]; rfl
        · intro j a o r k1 k2 k3
          unfold withRest finalWeight
          rw [if_pos hp, if_pos hp]
          simp only [hb, hn, if_true, if_false]
          refine ⟨?_, fun _ => trivial, fun h => absurd hp h⟩
          rw [h3 j o (List.getElem?_eq_some_iff.mp k1).1 k3, k1]
    · rw [if_neg hb]
      refine ⟨_, aw, out, rfl, rfl, rfl, ?_, fun _ _ => rfl⟩
      intro j a o r k1 k2 k3
      unfold withRest finalWeight
      rw [if_pos hp, if_pos hp]
      simp only [hb]
      exact ⟨k3, fun _ => rfl, fun h => absurd hp h⟩
  · have hp' : ¬ ((numPartial ls) == 0) = true := by simp [hp]
    simp only [hp']
    obtain ⟨aw', out', h1, h2, h3, h4, h5⟩ := forRange_pair (n := rest.length)
      (f := fun idx (aw, out) => do
        let a ← getIdx aw idx
        let bp := max4 (splat threshold - a) zero4
        let aw ← setIdx aw idx (max4 (splat threshold) a)
        let r ← getIdx rest idx
        let o ← getIdx out idx
        let out ← setIdx out idx (blendN r bp o)
        return (aw, out))
      (fun i a o => (max4 (splat threshold) a, match rest[i]? with
        | some r => blendN r (max4 (splat threshold - a) zero4) o
        | none => o)) aw out ha ho (by
        intro i xs ys a b hi hx hy
        obtain ⟨r, hr⟩ : ∃ r, rest[i]? = some r := ⟨rest[i], by simp⟩
        simp only [getIdx_some hr, getIdx_some hx, getIdx_some hy, setIdx_some hx, setIdx_some hy, bind,
          Except.bind, pure, Except.pure, hr])
    refine ⟨sumWeights ls NumOps.zero, aw', out', ?_, h3, h2, ?_, fun j hj => (h5 j hj).2⟩
    · simp only [Bool.false_eq_true, if_false]
      rw [h1]; rfl
    · intro j a o r k1 k2 k3
      obtain ⟨e1, e2⟩ := h4 j a o (List.getElem?_eq_some_iff.mp k1).1 k2 k3
      unfold withRest finalWeight
      rw [if_neg hp, if_neg hp]
      refine ⟨?_, fun h => absurd h hp, fun _ => e1⟩
      rw [e2, k1]

theorem normalize_ok (rest : List (SoaTransform α)) (threshold : α) (ls : List (Layer α)) (acc : α)
    (aw : List (F4 α)) (out : List (SoaTransform α)) (ho : rest.length ≤ out.length)
    (ha : rest.length ≤ aw.length) :
    ∃ out', normalize rest ⟨numActive ls, numPartial ls, acc, aw⟩ out = .ok out' ∧ out'.length = out.length ∧
      (∀ j o a, j < rest.length → out[j]? = some o →
        (numPartial ls = 0 → splat acc = finalWeight threshold ls a) →
        (numPartial ls ≠ 0 → aw[j]? = some (finalWeight threshold ls a)) →
        out'[j]? = some (normalizeBy (recip4 (finalWeight threshold ls a)) o)) ∧
      (∀ j, rest.length ≤ j → out'[j]? = out[j]?) := by
  unfold normalize
  rw [Nat.min_eq_right ho]
  by_cases hp : numPartial ls = 0
  · have hp' : ((numPartial ls) == 0) = true := by simp [hp]
    simp only [hp', if_true]
    obtain ⟨out', h1, h2, h3, h4⟩ := forRange_list (n := rest.length)
      (f := fun idx out => do
        let o ← getIdx out idx
        setIdx out idx (normalizeBy (splat (recip acc)) o))
      (fun i o => normalizeBy (splat (recip acc)) o) out ho (by
        intro i xs a hi hx
        simp only [getIdx_some hx, setIdx_some hx, bind, Except.bind])
    refine ⟨out', h1, h2, ?_, h4⟩
    intro j o a hj k1 k2 k3
    rw [h3 j o hj k1, ← k2 hp, recip4_splat]
  · have hp' : ¬ ((numPartial ls) == 0) = true := by simp [hp]
    simp only [hp']
    obtain ⟨out', h1, h2, h3, h4⟩ := forRange_list (n := rest.length)
      (f := fun idx out => do
        let a ← getIdx aw idx
        let o ← getIdx out idx
        setIdx out idx (normalizeBy (recip4 a) o))
      (fun i o => match aw[i]? with
        | some a => normalizeBy (recip4 a) o
        | none => o) out ho (by
        intro i xs a hi hx
        obtain ⟨b, hb⟩ : ∃ b, aw[i]? = some b := ⟨aw[i], by simp⟩
        simp only [getIdx_some hx, setIdx_some hx, getIdx_some hb, bind, Except.bind, hb])
    refine ⟨out', h1, h2, ?_, h4⟩
    intro j o a hj k1 k2 k3
    rw [h3 j o hj k1, k3 hp]

theorem additivePass_ok (n : Nat) (l : Layer α) (t : List (SoaTransform α))
    (pass : SoaTransform α → F4 α → F4 α → SoaTransform α → SoaTransform α) (x : α)
    (out : List (SoaTransform α)) (ht : l.transform = .ok t) (hok : l.Ok n) (ho : n ≤ out.length) :
    ∃ out', additivePass n l t pass (splat x) out = .ok out' ∧ out'.length = out.length ∧
      (∀ j o, j < n → out[j]? = some o → out'[j]? = some
        (let w := if l.isPartial then splat x * max4 (l.jointWeights[j]?.getD zero4) zero4 else splat x
         pass (l.poseAt j) w (one4 - w) o)) ∧
      (∀ j, n ≤ j → out'[j]? = out[j]?) := by
  obtain ⟨t', ht', htn, hjw⟩ := (l.ok_iff n).mp hok
  rw [ht] at ht'; cases ht'
  have hpose : ∀ i x, t[i]? = some x → l.poseAt i = x := by
    intro i x hx; unfold Layer.poseAt; rw [ht]; simp only [hx, Option.getD_some]
  unfold additivePass
  cases hp : l.isPartial with
  | true =>
    have hj : n ≤ l.jointWeights.length := by
      rcases hjw with h | h
      · simp [Layer.isPartial, h] at hp
      · exact h
    rw [if_pos (by simpa [Layer.isPartial] using hp)]
    exact forRange_list (n := n) _ out ho (by
        intro i xs a hi hx
        obtain ⟨jw, hjw⟩ : ∃ jw, l.jointWeights[i]? = some jw := ⟨l.jointWeights[i], by simp⟩
        obtain ⟨y, hy⟩ : ∃ y, t[i]? = some y := ⟨t[i], by simp⟩
        simp only [getIdx_some hx, getIdx_some hjw, getIdx_some hy, setIdx_some hx, bind, Except.bind,
          hpose i y hy, hjw, Option.getD_some, if_true])
  | false =>
    rw [if_neg (by simpa [Layer.isPartial] using hp)]
    exact forRange_list (n := n) _ out ho (by
        intro i xs a hi hx
        obtain ⟨y, hy⟩ : ∃ y, t[i]? = some y := ⟨t[i], by simp⟩
        simp only [getIdx_some hx, getIdx_some hy, setIdx_some hx, bind, Except.bind,
          hpose i y hy, Bool.false_eq_true, if_false])

theorem addLayers_ok (n : Nat) (ls : List (Layer α)) (out : List (SoaTransform α))
    (hok : ∀ l ∈ ls, l.Ok n) (ho : n ≤ out.length) :
    ∃ out', addLayers n ls out = .ok out' ∧ out'.length = out.length ∧
      (∀ j o, j < n → out[j]? = some o → out'[j]? = some (ls.foldl (additiveStep j) o)) ∧
      (∀ j, n ≤ j → out'[j]? = out[j]?) := by
  induction ls generalizing out with
  | nil => exact ⟨out, rfl, rfl, fun j o _ h => h, fun _ _ => rfl⟩
  | cons l ls ih =>
    obtain ⟨t, ht, -, -⟩ := (l.ok_iff n).mp (hok l (by simp))
    have hc := Layer.ok_check (hok l (by simp)) ht
    have hok' : ∀ l ∈ ls, l.Ok n := fun l h => hok l (by simp [h])
    have hstep : ∃ out1, (if NumOps.lt NumOps.zero l.weight then additivePass n l t blendAdd (splat l.weight) out
        else if NumOps.lt l.weight NumOps.zero then additivePass n l t blendSub (splat (-l.weight)) out
        else .ok out) = .ok out1 ∧ out1.length = out.length ∧
        (∀ j o, j < n → out[j]? = some o → out1[j]? = some (additiveStep j o l)) ∧
        (∀ j, n ≤ j → out1[j]? = out[j]?) := by
      unfold additiveStep
      by_cases h1 : NumOps.lt NumOps.zero l.weight = true
      · simp only [h1, if_true]
        exact additivePass_ok n l t blendAdd l.weight out ht (hok l (by simp)) ho
      · simp only [h1]
        by_cases h2 : NumOps.lt l.weight NumOps.zero = true
        · simp only [h2, if_true]
          exact additivePass_ok n l t blendSub (-l.weight) out ht (hok l (by simp)) ho
        · simp only [h2]
          exact ⟨out, rfl, rfl, fun j o _ h => h, fun _ _ => rfl⟩
    obtain ⟨out1, h1, h2, h3, h4⟩ := hstep
    obtain ⟨out', k1, k2, k3, k4⟩ := ih out1 hok' (by omega)
    refine ⟨out', ?_, by omega, ?_, fun j hj => (k4 j hj).trans (h4 j hj)⟩
    · simp only [addLayers, hc, h1, k1]
    · intro j o hj ho'
      rw [List.foldl_cons]
      exact k3 j _ hj (h3 j o hj ho')

/-- One SoA joint before the additive layers: `old` are the weights and pose left in the buffers. -/
def jointBlend (threshold : α) (ls : List (Layer α)) (r : SoaTransform α) (idx : Nat)
    (old : F4 α × SoaTransform α) : SoaTransform α :=
  let p := (jointFold idx ls none).getD old
  normalizeBy (recip4 (finalWeight threshold ls p.1)) (withRest threshold ls r p.1 p.2)

/-- A SoA joint after the whole job. -/
def jointRun (j : Job α) (r : SoaTransform α) (idx : Nat) (old : F4 α × SoaTransform α) : SoaTransform α :=
  j.additiveLayers.foldl (additiveStep idx) (jointBlend j.threshold j.layers r idx old)

theorem runBody_ok (j : Job α) (rest : List (SoaTransform α)) (c : Context α) (out : List (SoaTransform α))
    (hl : ∀ l ∈ j.layers, l.Ok rest.length) (hadd : ∀ l ∈ j.additiveLayers, l.Ok rest.length)
    (ho : rest.length ≤ out.length)
    (hc : numActive j.layers ≠ 0 ∨ out.length = rest.length ∨
      NumOps.lt NumOps.zero (j.threshold - sumWeights j.layers NumOps.zero) = false) :
    ∃ c' out', runBody j rest c out = .ok (c', out') ∧ out'.length = out.length ∧
      (∀ i a o r, rest[i]? = some r → (resetContext rest.length c).accumulatedWeights[i]? = some a →
        out[i]? = some o → out'[i]? = some (jointRun j r i (a, o))) ∧
      (∀ i, rest.length ≤ i → out'[i]? = out[i]?) := by
  have hca : rest.length ≤ (resetContext rest.length c).accumulatedWeights.length := by
    unfold resetContext
    simp only
    split
    · rw [List.length_append, List.length_replicate]; omega
    · omega
  obtain ⟨aw1, out1, h1, h2, h3, h4, h5⟩ := blendLayers_ok rest.length j.layers (resetContext rest.length c) out hl hca ho
  have e0 : (resetContext rest.length c).numPasses = 0 := rfl
  have e1 : (resetContext rest.length c).numPartialPasses = 0 := rfl
  have e2 : (resetContext rest.length c).accumulatedWeight = NumOps.zero := rfl
  rw [e0, e1, e2, Nat.zero_add, Nat.zero_add] at h1
  simp only [e0, if_true] at h4
  obtain ⟨acc2, aw2, out2, k1, k2, k3, k4, k5⟩ := blendRestPose_ok rest j.threshold j.layers aw1 out1 (by omega) (by omega)
    (by rw [h3]; exact hc)
  obtain ⟨out3, m1, m2, m3, m4⟩ := normalize_ok rest j.threshold j.layers acc2 aw2 out2 (by omega) (by omega)
  obtain ⟨out4, n1, n2, n3, n4⟩ := addLayers_ok rest.length j.additiveLayers out3 hadd (by omega)
  refine ⟨⟨numActive j.layers, numPartial j.layers, acc2, aw2⟩, out4, by simp only [runBody, h1, k1, m1, n1],
    by omega, ?_, ?_⟩
  · intro i a o r hr ha ho'
    have hi := (List.getElem?_eq_some_iff.mp hr).1
    obtain ⟨f1, f2⟩ := h4 i a o hi ha ho'
    obtain ⟨g1, g2, g3⟩ := k4 i _ _ r hr f1 f2
    have q := m3 i _ _ hi g1 g2 g3
    exact n3 i _ hi q
  · intro i hi
    rw [n4 i hi, m4 i hi, k5 i hi, (h5 i hi).2]

/-! ### Validation -/

omit [Add α] [Sub α] [Mul α] [Div α] [Neg α] [NumOps α] in
theorem layersOk_iff (n : Nat) (ls : List (Layer α)) : layersOk n ls = some true ↔ ∀ l ∈ ls, l.Ok n := by
  induction ls with
  | nil => simp [layersOk]
  | cons l ls ih =>
    unfold layersOk
    rw [List.forall_mem_cons, ← ih, Layer.ok_iff]
    cases ht : l.transform with
    | error e => simp
    | ok t =>
      cases hr : layersOk n ls with
      | none => simp [bind, Option.bind]
      | some b => cases b <;> simp [bind, Option.bind, pure]

/-- What `validate` accepts. -/
theorem validate_iff (j : Job α) (s : State α) : validate j s = true ↔
    ∃ rest c out, j.skeleton = some rest ∧ s.context = some c ∧ s.output = some (.ok out) ∧
      NumOps.lt NumOps.zero j.threshold = true ∧ rest.length ≤ out.length ∧
      (∀ l ∈ j.layers, l.Ok rest.length) ∧ (∀ l ∈ j.additiveLayers, l.Ok rest.length) := by
  unfold validate
  cases hs : j.skeleton with
  | none => simp [bind, Option.bind]
  | some rest =>
    cases hc : s.context with
    | none => simp [bind, Option.bind]
    | some c =>
      cases ho : s.output with
      | none => simp [bind, Option.bind]
      | some b =>
        cases b with
        | error e => simp [bind, Option.bind, Except.toOption]
        | ok out =>
          have e1 := layersOk_iff rest.length j.layers
          have e2 := layersOk_iff rest.length j.additiveLayers
          simp only [Option.some.injEq, Except.ok.injEq, exists_and_left, exists_eq_left', ← e1, ← e2]
          cases h1 : layersOk rest.length j.layers with
          | none => simp [bind, Option.bind, Except.toOption, h1]
          | some a =>
            cases h2 : layersOk rest.length j.additiveLayers with
            | none => simp [bind, Option.bind, Except.toOption, h1, h2]
            | some b => simp [bind, Option.bind, Except.toOption, h1, h2, pure, and_assoc]

theorem blendLayers_ok_imp (n : Nat) (ls : List (Layer α)) (c : Context α) (out : List (SoaTransform α))
    {r : Context α × List (SoaTransform α)} (h : blendLayers n ls c out = .ok r) : ∀ l ∈ ls, l.Ok n := by
  induction ls generalizing c out with
  | nil => simp
  | cons l ls ih =>
    unfold blendLayers at h
    rw [List.forall_mem_cons]
    cases hc : checkLayer n l with
    | error e => rw [hc] at h; cases h
    | ok t =>
      rw [hc] at h
      simp only at h
      refine ⟨⟨t, hc⟩, ?_⟩
      split at h
      · exact ih c out h
      · split at h
        · cases h
        · exact ih _ _ h

theorem addLayers_ok_imp (n : Nat) (ls : List (Layer α)) (out : List (SoaTransform α))
    {r : List (SoaTransform α)} (h : addLayers n ls out = .ok r) : ∀ l ∈ ls, l.Ok n := by
  induction ls generalizing out with
  | nil => simp
  | cons l ls ih =>
    unfold addLayers at h
    rw [List.forall_mem_cons]
    cases hc : checkLayer n l with
    | error e => rw [hc] at h; cases h
    | ok t =>
      rw [hc] at h
      simp only at h
      refine ⟨⟨t, hc⟩, ?_⟩
      split at h
      · cases h
      · exact ih _ h

/-- A run that succeeds was valid. -/
theorem run_ok_validate (j : Job α) (s s' : State α) (h : run j s = .ok s') : validate j s = true := by
  rw [validate_iff]
  unfold run at h
  split at h
  · next rest c out h1 h2 h3 =>
    split at h
    · next hv =>
      rw [Bool.and_eq_true, decide_eq_true_eq] at hv
      refine ⟨rest, c, out, h1, h2, h3, hv.1, hv.2, ?_⟩
      unfold runBody at h
      cases hb : blendLayers rest.length j.layers (resetContext rest.length c) out with
      | panic => simp only [hb] at h; cases h
      | err e x => obtain ⟨x1, x2⟩ := x; simp only [hb] at h; cases h
      | ok x =>
        obtain ⟨x1, x2⟩ := x
        refine ⟨blendLayers_ok_imp _ _ _ _ hb, ?_⟩
        simp only [hb] at h
        cases hr : blendRestPose rest j.threshold x1 x2 with
        | error e => simp only [hr] at h; cases h
        | ok y =>
          obtain ⟨y1, y2⟩ := y
          simp only [hr] at h
          cases hn : normalize rest y1 y2 with
          | error e => simp only [hn] at h; cases h
          | ok z =>
            simp only [hn] at h
            cases ha : addLayers rest.length j.additiveLayers z with
            | panic => simp only [ha] at h; cases h
            | err e x => simp only [ha] at h; cases h
            | ok w => exact addLayers_ok_imp _ _ _ ha
    · cases h
  · cases h
  · cases h

/-- A run of a valid job that does not hit the copy of the rest pose into a longer buffer. -/
theorem run_ok (j : Job α) (rest : List (SoaTransform α)) (c : Context α) (out : List (SoaTransform α))
    (hv : validate j ⟨some c, some (.ok out)⟩ = true) (hs : j.skeleton = some rest)
    (hc : numActive j.layers ≠ 0 ∨ out.length = rest.length ∨
      NumOps.lt NumOps.zero (j.threshold - sumWeights j.layers NumOps.zero) = false) :
    ∃ c' out', run j ⟨some c, some (.ok out)⟩ = .ok ⟨some c', some (.ok out')⟩ ∧ out'.length = out.length ∧
      (∀ i a o r, rest[i]? = some r → (resetContext rest.length c).accumulatedWeights[i]? = some a →
        out[i]? = some o → out'[i]? = some (jointRun j r i (a, o))) ∧
      (∀ i, rest.length ≤ i → out'[i]? = out[i]?) := by
  obtain ⟨rest', c', out', h1, h2, h3, h4, h5, h6, h7⟩ := (validate_iff _ _).mp hv
  rw [hs] at h1; cases h1
  cases h2; cases h3
  obtain ⟨c', out', k1, k2, k3, k4⟩ := runBody_ok j rest c out h6 h7 h5 hc
  refine ⟨c', out', ?_, k2, k3, k4⟩
  simp only [run, hs, h4, h5, k1, decide_true, Bool.and_self, if_true]

theorem resetContext_get (n : Nat) (c : Context α) (i : Nat) (h : i < n) :
    ∃ a, (resetContext n c).accumulatedWeights[i]? = some a := by
  have : i < (resetContext n c).accumulatedWeights.length := by
    unfold resetContext
    simp only
    split
    · rw [List.length_append, List.length_replicate]; omega
    · omega
  exact ⟨_, List.getElem?_eq_getElem this⟩

end Blending

end Ozz

namespace Ozz.Blending

variable {α : Type} [Add α] [Sub α] [Mul α] [Div α] [Neg α] [NumOps α]

/-- The copy of the rest pose into a longer buffer. -/
theorem run_panic (j : Job α) (rest : List (SoaTransform α)) (c : Context α) (out : List (SoaTransform α))
    (hs : j.skeleton = some rest) (h4 : NumOps.lt NumOps.zero j.threshold = true)
    (h5 : rest.length ≤ out.length) (h6 : ∀ l ∈ j.layers, l.Ok rest.length) (hn : numActive j.layers = 0) (hl : out.length ≠ rest.length)
    (hb : NumOps.lt NumOps.zero (j.threshold - sumWeights j.layers NumOps.zero) = true) :
    run j ⟨some c, some (.ok out)⟩ = .panic := by
  have hca : rest.length ≤ (resetContext rest.length c).accumulatedWeights.length := by
    unfold resetContext
    simp only
    split
    · rw [List.length_append, List.length_replicate]; omega
    · omega
  obtain ⟨aw1, out1, k1, k2, k3, -, -⟩ := blendLayers_ok rest.length j.layers (resetContext rest.length c) out h6 hca h5
  have e0 : (resetContext rest.length c).numPasses = 0 := rfl
  have e1 : (resetContext rest.length c).numPartialPasses = 0 := rfl
  have e2 : (resetContext rest.length c).accumulatedWeight = NumOps.zero := rfl
  have hp : numPartial j.layers = 0 := by
    unfold numPartial; unfold numActive at hn; rw [List.length_eq_zero_iff.mp hn]; rfl
  rw [e0, e1, e2, hn, hp] at k1
  have hr : blendRestPose rest j.threshold ⟨0 + 0, 0 + 0, sumWeights j.layers NumOps.zero, aw1⟩ out1 = .error .panic := by
    unfold blendRestPose
    simp only [Nat.add_zero, beq_self_eq_true, if_true, hb]
    have : (out1.length == rest.length) = false := by
      rw [k3]; simpa using hl
    simp [assertB, this, bind, Except.bind]
  simp only [run, hs, h4, h5, decide_true, Bool.and_self, if_true, runBody, k1, hr]

theorem addLayers_append (n : Nat) (as bs : List (Layer α)) (z : List (SoaTransform α)) :
    addLayers n (as ++ bs) z = match addLayers n as z with
      | .panic => .panic
      | .err e o => .err e o
      | .ok o => addLayers n bs o := by
  induction as generalizing z with
  | nil => rfl
  | cons a as ih =>
    simp only [List.cons_append, addLayers]
    cases checkLayer n a with
    | error e => rfl
    | ok t =>
      simp only
      split
      · rfl
      · rw [ih]

omit [Add α] [Sub α] [Mul α] [Div α] [Neg α] [NumOps α] in
theorem forFrom_inv {σ : Type} (f : Nat → σ → Res σ) (P : σ → Prop) (hf : ∀ i s s', P s → f i s = .ok s' → P s')
    (k i : Nat) (s s' : σ) (h : P s) (hr : forFrom f k i s = .ok s') : P s' := by
  induction k generalizing i s with
  | zero => cases hr; exact h
  | succ k ih =>
    simp only [forFrom, bind, Except.bind] at hr
    cases hfs : f i s with
    | error e => rw [hfs] at hr; cases hr
    | ok s1 => rw [hfs] at hr; exact ih (i + 1) s1 (hf i s s1 h hfs) hr

omit [Add α] [Sub α] [Mul α] [Div α] [Neg α] [NumOps α] in
theorem setIdx_length {A : Type} {xs ys : List A} {i : Nat} {a : A} (h : setIdx xs i a = .ok ys) : ys.length = xs.length := by
  unfold setIdx at h
  split at h
  · cases h; simp
  · cases h

omit [Add α] [Sub α] [Mul α] [Div α] [Neg α] [NumOps α] in
theorem forRange_length {A : Type} {n : Nat} {f : Nat → List A → Res (List A)} {xs ys : List A}
    (hf : ∀ i s s', f i s = .ok s' → s'.length = s.length) (h : forRange n f xs = .ok ys) : ys.length = xs.length :=
  forFrom_inv f (fun s => s.length = xs.length) (fun i s s' h1 h2 => (hf i s s' h2).trans h1) n 0 xs ys rfl h

omit [Add α] [Sub α] [Mul α] [Div α] [Neg α] [NumOps α] in
theorem forRange_length₂ {A B : Type} {n : Nat} {f : Nat → List A × List B → Res (List A × List B)}
    {xs ys : List A × List B} (hf : ∀ i s s', f i s = .ok s' → s'.2.length = s.2.length)
    (h : forRange n f xs = .ok ys) : ys.2.length = xs.2.length :=
  forFrom_inv f (fun s => s.2.length = xs.2.length) (fun i s s' h1 h2 => (hf i s s' h2).trans h1) n 0 xs ys rfl h

omit [Add α] [Sub α] [Mul α] [Div α] [Neg α] [NumOps α] in
theorem bind_ok {A B : Type} {x : Res A} {f : A → Res B} {b : B} (h : x >>= f = .ok b) : ∃ a, x = .ok a ∧ f a = .ok b := by
  cases x with
  | error e => cases h
  | ok a => exact ⟨a, rfl, h⟩

theorem blendLayers_length (n : Nat) (ls : List (Layer α)) (c : Context α) (out : List (SoaTransform α))
    {c' : Context α} {out' : List (SoaTransform α)} (h : blendLayers n ls c out = .ok (c', out'))
    (ha : n ≤ c.accumulatedWeights.length) (ho : n ≤ out.length) : out'.length = out.length := by
  obtain ⟨aw, o, k1, -, k3, -⟩ := blendLayers_ok n ls c out (blendLayers_ok_imp n ls c out h) ha ho
  rw [k1] at h
  cases h
  exact k3

theorem blendRestPose_length (rest : List (SoaTransform α)) (threshold : α) (c : Context α)
    (out : List (SoaTransform α)) {c' : Context α} {out' : List (SoaTransform α)}
    (h : blendRestPose rest threshold c out = .ok (c', out')) : out'.length = out.length := by
  unfold blendRestPose at h
  cases hp : (c.numPartialPasses == 0) with
  | true =>
    cases hb : NumOps.lt NumOps.zero (threshold - c.accumulatedWeight) with
    | true =>
      cases hn : (c.numPasses == 0) with
      | true =>
        simp only [hp, hb, hn, if_true] at h
        obtain ⟨_, h1, h2⟩ := bind_ok h
        cases h2
        unfold assertB at h1
        split at h1
        · next hl => exact (by simpa using hl : out.length = rest.length).symm
        · cases h1
      | false =>
        simp only [hp, hb, hn, if_true, Bool.false_eq_true, if_false] at h
        obtain ⟨o, h1, h2⟩ := bind_ok h
        cases h2
        refine forRange_length (fun i s s' hs => ?_) h1
        obtain ⟨_, -, hs⟩ := bind_ok hs
        obtain ⟨_, -, hs⟩ := bind_ok hs
        exact setIdx_length hs
    | false =>
      simp only [hp, hb, if_true, Bool.false_eq_true, if_false] at h
      cases h; rfl
  | false =>
    simp only [hp, Bool.false_eq_true, if_false] at h
    obtain ⟨o, h1, h2⟩ := bind_ok h
    cases h2
    refine forRange_length₂ (ys := o) (fun i s s' hs => ?_) h1
    obtain ⟨_, -, hs⟩ := bind_ok hs
    obtain ⟨_, -, hs⟩ := bind_ok hs
    obtain ⟨_, -, hs⟩ := bind_ok hs
    obtain ⟨_, -, hs⟩ := bind_ok hs
    obtain ⟨_, h3, hs⟩ := bind_ok hs
    cases hs
    exact setIdx_length h3

theorem normalize_length (rest : List (SoaTransform α)) (c : Context α) (out : List (SoaTransform α))
    {out' : List (SoaTransform α)} (h : normalize rest c out = .ok out') : out'.length = out.length := by
  unfold normalize at h
  split at h
  · refine forRange_length (fun i s s' hs => ?_) h
    obtain ⟨_, -, hs⟩ := bind_ok hs
    exact setIdx_length hs
  · refine forRange_length (fun i s s' hs => ?_) h
    obtain ⟨_, -, hs⟩ := bind_ok hs
    obtain ⟨_, -, hs⟩ := bind_ok hs
    exact setIdx_length hs

theorem addLayers_length (n : Nat) (ls : List (Layer α)) (out : List (SoaTransform α)) {out' : List (SoaTransform α)}
    (h : addLayers n ls out = .ok out') (ho : n ≤ out.length) : out'.length = out.length := by
  obtain ⟨o, k1, k2, -⟩ := addLayers_ok n ls out (addLayers_ok_imp n ls out h) ho
  rw [k1] at h
  cases h
  exact k2

theorem resetContext_length (n : Nat) (c : Context α) : n ≤ (resetContext n c).accumulatedWeights.length := by
  unfold resetContext
  simp only
  split
  · rw [List.length_append, List.length_replicate]; omega
  · omega

end Ozz.Blending
