import Verif.Proofs.Tree

/-!
Property theorems C24, C25, C26: hierarchy traversals.
-/

namespace Ozz.Props

open Spec

/-- The hierarchy used in the examples: two trees, `0 → {1 → {2,3}, 4}` and `5 → {6}`. -/
def exampleParents : List Int := forestParents
  [.node [.node [.node [], .node []], .node []], .node [.node []]]

theorem exampleParents_eq : exampleParents = [-1, 0, 1, 1, 0, -1, 5] := by
  simp [exampleParents, forestParents, Tree.flattenAll, Tree.flatten]

/-- **C24 (adequacy).** The pre-order layout of any forest is `DepthFirst`. -/
theorem C24_forest_depthFirst (ts : List Tree) : DepthFirst (forestParents ts) := by
  have h0 : DepthFirst [] := ⟨fun _ h => by simp at h, fun _ _ _ h => by simp at h⟩
  simpa [forestParents] using (Tree.flattenAll_depthFirst [] (-1) h0 (.inl rfl) ts).1

/-- **C24.** From a joint, the traversal calls `f` exactly once for that joint and each of its
descendants, in increasing index order, with the joint's parent. The bound is the range of the
`i16` joint index the callback receives. -/
theorem C24_iter_depth_first_subtree (ps : List Int) (hd : DepthFirst ps)
    (hn : ps.length ≤ 2^15) (a : Nat) (ha : a < ps.length) :
    ((iterDepthFirst ps a).map Prod.fst).Pairwise (· < ·) ∧
    ∀ x y, (x, y) ∈ iterDepthFirst ps a ↔
      ∃ i : Nat, x = (i : Int) ∧ ps[i]? = some y ∧ Desc ps a i := by
  have hunf : iterDepthFirst ps (a : Int) = iterDepthFirstLoop ps a a ha := by
    unfold iterDepthFirst
    simp [ha, show ¬ ((a : Int) < 0) by omega]
  obtain ⟨e, h1, h2, h3, h4, h5⟩ := iterLoop_spec ps (a : Int) a ha
  rw [hunf, h5]
  constructor
  · rw [List.map_map, List.pairwise_map]
    refine (List.pairwise_lt_range' (s := a) (n := e - a)).imp_of_mem ?_
    intro x y hx hy hxy
    simp only [List.mem_range'_1] at hx hy
    simp only [Function.comp]
    rw [asI16_of_lt (by omega), asI16_of_lt (by omega)]
    omega
  · intro x y
    simp only [List.mem_map, List.mem_range'_1, Prod.mk.injEq]
    constructor
    · rintro ⟨k, hk, rfl, rfl⟩
      refine ⟨k, asI16_of_lt (by omega), ?_, desc_of_between hd.1 h2 h3 k (by omega) (by omega)⟩
      rw [List.getElem?_eq_getElem (by omega)]; rfl
    · rintro ⟨i, rfl, hy, hdesc⟩
      refine ⟨i, ⟨hdesc.le hd.1, ?_⟩, asI16_of_lt (by have := hdesc.lt; omega), by simp [hy]⟩
      rcases Nat.lt_or_ge i e with h | h
      · omega
      · exact absurd hdesc (not_desc_of_ge hd h1 h4 i h)

/-- **C24.** From a negative index every joint is visited once, in index order. -/
theorem C24_iter_depth_first_all (ps : List Int) (hp : ParentsFirst ps)
    (hn : ps.length ≤ 2^15) (from_ : Int) (hf : from_ < 0) :
    iterDepthFirst ps from_ = List.zipWith (fun (i : Nat) (p : Int) => ((i : Int), p)) (List.range ps.length) ps := by
  unfold iterDepthFirst
  simp only [hf, ↓reduceIte]
  split
  · rename_i h
    obtain ⟨e, h1, h2, h3, h4, h5⟩ := iterLoop_spec ps from_ 0 h
    have he : e = ps.length := by
      rcases Nat.lt_or_ge e ps.length with hlt | hge
      · have := h4 hlt
        have := (hp e hlt).1
        omega
      · omega
    subst he
    rw [h5, ← map_range_eq_zipWith ps hn, List.range_eq_range']
    rfl
  · rename_i h
    have : ps = [] := List.length_eq_zero_iff.mp (by omega)
    simp [this]

/-- **C24.** From an index past the end nothing is visited. -/
theorem C24_iter_depth_first_out_of_range (ps : List Int) (a : Nat) (ha : ps.length ≤ a) :
    iterDepthFirst ps a = [] := by
  unfold iterDepthFirst
  simp [show ¬ ((a : Int) < 0) by omega, show ¬ a < ps.length by omega]

example : DepthFirst exampleParents ∧ exampleParents.length ≤ 2^15 ∧ 1 < exampleParents.length ∧
    iterDepthFirst exampleParents (1 : Nat) = [(1, 0), (2, 1), (3, 1)] := by
  refine ⟨C24_forest_depthFirst _, ?_⟩
  rw [exampleParents_eq]
  simp [iterDepthFirst, iterDepthFirstLoop, asI16]

/-- **C25.** Reverse iteration lists every joint once, from last to first. -/
theorem C25_reverse_visits_all (ps : List Int) (hn : ps.length ≤ 2^15) :
    (iterDepthFirstReverse ps).reverse =
      List.zipWith (fun (i : Nat) (p : Int) => ((i : Int), p)) (List.range ps.length) ps := by
  rw [iterDepthFirstReverse, iterReverseLoop_eq, List.reverse_reverse, map_range_eq_zipWith ps hn]

/-- **C25.** In the reverse iteration every joint comes before its parent: splitting the
visit list at a joint, its parent is in the part that follows. -/
theorem C25_children_before_parents (ps : List Int) (hp : ParentsFirst ps)
    (hn : ps.length ≤ 2^15) (pre post : List (Int × Int)) (x p : Int)
    (h : iterDepthFirstReverse ps = pre ++ (x, p) :: post) (hroot : p ≠ -1) :
    (∃ q, (p, q) ∈ post) ∧ ∀ q, (p, q) ∉ pre := by
  have hall := C25_reverse_visits_all ps hn
  rw [h] at hall
  simp only [List.reverse_append, List.reverse_cons, List.append_assoc, List.singleton_append]
    at hall
  generalize hpo : post.reverse = A at hall
  generalize hpr : pre.reverse = B at hall
  have hlen : A.length + B.length + 1 = ps.length := by
    have := congrArg List.length hall
    simp at this; omega
  have hget : ∀ (i : Nat) (hi : i < ps.length), (A ++ (x, p) :: B)[i]? = some ((i : Int), ps[i]) := by
    intro i hi
    rw [hall]; simp [hi]
  have hA := hget A.length (by omega)
  simp only [List.getElem?_append_right (Nat.le_refl _), Nat.sub_self, List.getElem?_cons_zero,
    Option.some.injEq, Prod.mk.injEq] at hA
  obtain ⟨rfl, hA⟩ := hA
  have hb := hp A.length (by omega)
  rw [← hA] at hb
  obtain ⟨c, rfl⟩ : ∃ c : Nat, p = (c : Int) := ⟨p.toNat, by omega⟩
  constructor
  · have hc := hget c (by omega)
    rw [List.getElem?_append_left (by omega)] at hc
    exact ⟨ps[c], by rw [← List.mem_reverse, hpo]; exact List.mem_of_getElem? hc⟩
  · intro q hq
    rw [← List.mem_reverse, hpr] at hq
    obtain ⟨i, hi, hqi⟩ := List.getElem_of_mem hq
    have := hget (A.length + 1 + i) (by omega)
    rw [List.getElem?_append_right (by omega)] at this
    rw [show A.length + 1 + i - A.length = i + 1 by omega, List.getElem?_cons_succ,
      List.getElem?_eq_getElem hi, hqi] at this
    simp only [Option.some.injEq, Prod.mk.injEq] at this
    omega

example : iterDepthFirstReverse exampleParents =
    [(6, 5), (5, -1)] ++ ((4 : Int), (0 : Int)) :: [(3, 1), (2, 1), (1, 0), (0, -1)] := by
  rw [exampleParents_eq]
  simp [iterDepthFirstReverse, iterReverseLoop, asI16]

/-- **C26.** `is_leaf` is true exactly when no joint has the joint as parent (and it does not
panic). -/
theorem C26_is_leaf_iff (ps : List Int) (hd : DepthFirst ps) (a : Nat) (ha : a < ps.length) :
    ∃ b, isLeaf ps a = .ok b ∧ (b = true ↔ ∀ i : Nat, ps[i]? ≠ some (a : Int)) := by
  unfold isLeaf
  by_cases hlast : a + 1 = ps.length
  · refine ⟨true, by simp [hlast], ?_⟩
    simp only [true_iff]
    intro i hi
    obtain ⟨hl, he⟩ := List.getElem?_eq_some_iff.mp hi
    have := (hd.1 i hl).2
    omega
  · have hl : a + 1 < ps.length := by omega
    refine ⟨ps[a + 1] != (a : Int), ?_, ?_⟩
    · simp only [hlast, ↓reduceIte, getIdx, List.getElem?_eq_getElem hl]; rfl
    · simp only [bne_iff_ne, ne_eq]
      constructor
      · intro hne i hi
        have hdesc : Desc ps a i := .step hi (.refl ha)
        rcases Int.lt_or_le ps[a + 1] a with hlt | hge
        · have hle := hdesc.le hd.1
          have hia : i ≠ a := by
            rintro rfl
            obtain ⟨hl, he⟩ := List.getElem?_eq_some_iff.mp hi
            have := (hd.1 i hl).2
            omega
          exact not_desc_of_ge hd (Nat.lt_succ_self a) (fun _ => hlt) i (by omega) hdesc
        · have := (hd.1 (a + 1) hl).2
          omega
      · intro h heq
        exact h (a + 1) (List.getElem?_eq_some_iff.mpr ⟨hl, heq⟩)

example : DepthFirst exampleParents ∧ isLeaf exampleParents 1 = .ok false ∧
    isLeaf exampleParents 3 = .ok true ∧ isLeaf exampleParents 6 = .ok true := by
  refine ⟨C24_forest_depthFirst _, ?_⟩
  rw [exampleParents_eq]
  refine ⟨rfl, rfl, rfl⟩

/-- **C26.** The documented range "[0, num joints]" is one too wide: the end itself panics. -/
theorem C26_is_leaf_past_end_panics (ps : List Int) : isLeaf ps ps.length = .error .panic := by
  simp [isLeaf, getIdx]; rfl

end Ozz.Props
