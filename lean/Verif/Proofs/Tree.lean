import Verif.Model.Skeleton
import Verif.Spec.Tree

/-! Helper lemmas on hierarchies: descendants form a contiguous index range. -/

namespace Ozz.Spec

theorem Desc.lt {ps : List Int} {a b : Nat} (h : Desc ps a b) : b < ps.length := by
  cases h with
  | refl h => exact h
  | step h _ => exact (List.getElem?_eq_some_iff.mp h).1

theorem Desc.le {ps : List Int} (hp : ParentsFirst ps) {a b : Nat} (h : Desc ps a b) : a ≤ b := by
  induction h with
  | refl h => exact Nat.le_refl _
  | step h _ ih =>
    obtain ⟨hl, he⟩ := List.getElem?_eq_some_iff.mp h
    have := (hp _ hl).2
    omega

theorem Desc.trans {ps : List Int} {a b c : Nat} (h1 : Desc ps a b) (h2 : Desc ps b c) :
    Desc ps a c := by
  induction h2 with
  | refl _ => exact h1
  | step h _ ih => exact .step h ih

/-- Below the stop index everything is a descendant. -/
theorem desc_of_between {ps : List Int} (hp : ParentsFirst ps) {a e : Nat} (he : e ≤ ps.length)
    (hge : ∀ i (h : i < ps.length), a < i → i < e → (a : Int) ≤ ps[i]) :
    ∀ i, a ≤ i → i < e → Desc ps a i := by
  intro i
  induction i using Nat.strongRecOn with
  | _ i ih =>
    intro h1 h2
    rcases Nat.lt_or_ge a i with h | h
    · have hl : i < ps.length := by omega
      have hg := hge i hl h h2
      have hlt := (hp i hl).2
      obtain ⟨c, hc⟩ : ∃ c : Nat, ps[i] = (c : Int) := ⟨ps[i].toNat, by omega⟩
      refine .step (c := c) (List.getElem?_eq_some_iff.mpr ⟨hl, hc⟩) (ih c ?_ ?_ ?_) <;> omega
    · obtain rfl : i = a := by omega
      exact .refl (by omega)

/-- From the first joint (after `a`) whose parent is below `a`, nothing is a descendant of `a`. -/
theorem not_desc_of_ge {ps : List Int} (hd : DepthFirst ps) {a e : Nat} (hae : a < e)
    (hstop : ∀ h : e < ps.length, ps[e] < (a : Int)) :
    ∀ i, e ≤ i → ¬ Desc ps a i := by
  intro i hi
  obtain ⟨k, rfl⟩ := Nat.exists_eq_add_of_le hi
  clear hi
  induction k with
  | zero =>
    intro h
    cases h with
    | refl h => omega
    | step h h' =>
      obtain ⟨hl, he⟩ := List.getElem?_eq_some_iff.mp h
      have := hstop hl
      have := h'.le hd.1
      simp only [Nat.add_zero] at he
      omega
  | succ k ih =>
    intro h
    cases h with
    | refl h => omega
    | step h h' => exact ih (h'.trans (hd.2 (e + (k + 1)) _ (by omega) h))

/-! ### Flattened forests -/

theorem Desc.append {ps : List Int} {a b : Nat} (qs : List Int) (h : Desc ps a b) :
    Desc (ps ++ qs) a b := by
  induction h with
  | refl h => exact .refl (by simp; omega)
  | step h _ ih =>
    obtain ⟨hl, he⟩ := List.getElem?_eq_some_iff.mp h
    exact .step (by rw [List.getElem?_append_left hl]; exact h) ih

/-- A parent value that may be appended next. -/
def NextOk (pre : List Int) (q : Int) : Prop :=
  q = -1 ∨ ∃ c : Nat, q = c ∧ Desc pre c (pre.length - 1)

theorem DepthFirst.snoc {pre : List Int} {q : Int} (h : DepthFirst pre) (hq : NextOk pre q) :
    DepthFirst (pre ++ [q]) := by
  constructor
  · intro i hi
    rcases Nat.lt_or_ge i pre.length with hlt | hge
    · rw [List.getElem_append_left hlt]; exact h.1 i hlt
    · have : i = pre.length := by simp at hi; omega
      subst this
      simp only [List.getElem_concat_length]
      rcases hq with rfl | ⟨c, rfl, hc⟩
      · omega
      · have h1 := hc.le h.1
        have h2 := hc.lt
        omega
  · intro i p hi hp
    rcases Nat.lt_or_ge i pre.length with hlt | hge
    · rw [List.getElem?_append_left hlt] at hp
      exact (h.2 i p hi hp).append _
    · have hl := (List.getElem?_eq_some_iff.mp hp).1
      have : i = pre.length := by simp at hl; omega
      subst this
      simp at hp
      rcases hq with rfl | ⟨c, rfl, hc⟩
      · omega
      · have : c = p := by omega
        subst this
        exact hc.append _

theorem Tree.flatten_ne_nil (q : Int) (b : Nat) (t : Tree) : Tree.flatten q b t ≠ [] := by
  cases t; simp [Tree.flatten]

mutual
theorem Tree.flatten_depthFirst (pre : List Int) (q : Int) (h : DepthFirst pre)
    (hq : NextOk pre q) : ∀ t : Tree,
    DepthFirst (pre ++ Tree.flatten q pre.length t) ∧
    Desc (pre ++ Tree.flatten q pre.length t) pre.length
      ((pre ++ Tree.flatten q pre.length t).length - 1)
  | .node cs => by
    have h1 := h.snoc hq
    have hbase : Desc (pre ++ [q]) pre.length ((pre ++ [q]).length - 1) := by
      have : (pre ++ [q]).length - 1 = pre.length := by simp
      rw [this]
      exact .refl (by simp)
    have := Tree.flattenAll_depthFirst (pre ++ [q]) (pre.length : Int) h1
      (.inr ⟨_, rfl, hbase⟩) cs
    simp only [Tree.flatten]
    have hl : (pre ++ [q]).length = pre.length + 1 := by simp
    rw [hl, List.append_assoc, List.singleton_append] at this
    refine ⟨this.1, ?_⟩
    rcases this.2 with h' | ⟨c, hc, h'⟩
    · omega
    · have : c = pre.length := by omega
      subst this; exact h'
theorem Tree.flattenAll_depthFirst (pre : List Int) (q : Int) (h : DepthFirst pre)
    (hq : NextOk pre q) : ∀ ts : List Tree,
    DepthFirst (pre ++ Tree.flattenAll q pre.length ts) ∧
    NextOk (pre ++ Tree.flattenAll q pre.length ts) q
  | [] => by simpa [Tree.flattenAll] using ⟨h, hq⟩
  | t :: ts => by
    have h1 := Tree.flatten_depthFirst pre q h hq t
    have hq' : NextOk (pre ++ Tree.flatten q pre.length t) q := by
      rcases hq with rfl | ⟨c, rfl, hc⟩
      · exact .inl rfl
      · refine .inr ⟨c, rfl, Desc.trans ?_ h1.2⟩
        refine .step (c := c) ?_ ?_
        · cases t; simp [Tree.flatten]
        · have : c < pre.length := by have h1 := hc.le h.1; have h2 := hc.lt; omega
          exact .refl (by simp; omega)
    have h2 := Tree.flattenAll_depthFirst (pre ++ Tree.flatten q pre.length t) q h1.1 hq' ts
    simp only [Tree.flattenAll]
    rw [List.length_append, List.append_assoc] at h2
    exact h2
end

end Ozz.Spec

namespace Ozz

theorem asI16_of_lt {n : Nat} (h : n < 2^15) : asI16 n = (n : Int) := by
  unfold asI16
  rw [BitVec.toInt_eq_toNat_of_lt] <;> simp [BitVec.toNat_ofNat] <;> omega

/-- The visiting loop stops at some `e`, visiting `i, i+1, .., e-1`. -/
theorem iterLoop_spec (ps : List Int) (from_ : Int) (i : Nat) (h : i < ps.length) :
    ∃ e, i < e ∧ e ≤ ps.length ∧
      (∀ k (hk : k < ps.length), i < k → k < e → from_ ≤ ps[k]) ∧
      (∀ he : e < ps.length, ps[e] < from_) ∧
      iterDepthFirstLoop ps from_ i h =
        (List.range' i (e - i)).map (fun k => (asI16 k, ps[k]?.getD 0)) := by
  fun_induction iterDepthFirstLoop ps from_ i h with
  | case1 i h ih =>
    by_cases h' : i + 1 < ps.length
    · by_cases hge : ps[i + 1] ≥ from_
      · obtain ⟨e, h1, h2, h3, h4, h5⟩ := ih h'
        refine ⟨e, by omega, h2, ?_, h4, ?_⟩
        · intro k hk hik hke
          rcases Nat.lt_or_ge (i + 1) k with hlt | hge'
          · exact h3 k hk hlt hke
          · obtain rfl : k = i + 1 := by omega
            exact hge
        · obtain ⟨m, hm⟩ : ∃ m, e - i = m + 1 := ⟨e - i - 1, by omega⟩
          rw [hm, List.range'_succ]
          have : e - (i + 1) = m := by omega
          rw [this] at h5
          simp [h, h', hge, h5]
      · refine ⟨i + 1, by omega, by omega, fun _ _ _ _ => by omega, fun _ => by omega, ?_⟩
        simp [h, h', hge]
    · refine ⟨i + 1, by omega, by omega, fun _ _ _ _ => by omega, fun _ => by omega, ?_⟩
      simp [h, h']

theorem iterReverseLoop_eq (ps : List Int) (i : Nat) (h : i ≤ ps.length) :
    iterReverseLoop ps i h = ((List.range i).map (fun k => (asI16 k, ps[k]?.getD 0))).reverse := by
  induction i with
  | zero => simp [iterReverseLoop]
  | succ i ih =>
    rw [iterReverseLoop, ih, List.range_succ]
    simp [show i < ps.length by omega]

/-- The list of all joints with their parents. -/
theorem map_range_eq_zipWith (ps : List Int) (hn : ps.length ≤ 2^15) :
    (List.range ps.length).map (fun k => (asI16 k, ps[k]?.getD 0)) =
      List.zipWith (fun (i : Nat) (p : Int) => ((i : Int), p)) (List.range ps.length) ps := by
  apply List.ext_getElem
  · simp
  · intro i h1 h2
    simp at h1
    simp [h1, asI16_of_lt (show i < 2^15 by omega)]

end Ozz
